import Verif.Proofs.Counted
import Mathlib.Data.Nat.Log
import Mathlib.Data.Nat.Sqrt
import Mathlib.Algebra.Order.Ring.Nat
/-! Cost bounds for the algorithms. -/
namespace CP
set_option linter.unusedSectionVars false
variable {F : Type} [FOps F]
open FOps

theorem wr_length {α : Type} {a r : List α} {i : Int} {v : α} (h : wr a i v = .ok r) : r.length = a.length := by
  unfold wr at h
  split at h
  · cases h; simp
  · cases h

theorem Cost.err {α : Type} {x : CM α} {m : M α} {c : Nat} {Q : α → Prop} {e : Fault} (hm : m = .error e) (hx : ∀ k, x k = .error e) :
    Cost x m c Q := by
  intro k
  subst hm
  exact ⟨fun a h => (by cases h), fun e' h => (by cases h; exact hx k)⟩

theorem check_length {name : String} {n : Int} {v : List F} {u : Unit} (h : checkBoundaryVector name n v = .ok u) :
    (v.length : Int) = n := by
  unfold checkBoundaryVector at h
  by_contra hc
  rw [if_pos hc] at h
  cases h

/-! ## mns2016 -/

theorem evaluate_cost (p : Poly F) (x : F) :
    Cost (p.evaluateC x) (p.evaluate x) (6 * (p.degree + 1).toNat) fun _ => True := by
  unfold Poly.evaluateC Poly.evaluate
  refine (Cost.forRange (fun _ _ => True) (c := 6) trivial fun j s _ _ _ => ?_).mono (by omega) fun _ _ => trivial
  exact Cost.bnd (c' := 5) Cost.chg (fun _ _ => Cost.bnd (c' := 4) Cost.chg (fun _ _ => Cost.charge' le_rfl fun _ _ => trivial)
    (by omega)) (by omega)

theorem integrate_cost (p : Poly F) :
    Cost p.integrateC p.integrate (5 * (p.degree + 1).toNat + 4) fun q => q.degree = p.degree + 1 := by
  unfold Poly.integrateC Poly.integrate
  refine Cost.bnd (c := 5 * (p.degree + 1).toNat) (c' := 4) (Q := fun _ => True) ?_ (fun r _ => ?_) le_rfl
  · refine (Cost.forRange (fun _ _ => True) (c := 5) trivial fun j s _ _ _ => ?_).mono (by omega) fun _ _ => trivial
    refine Cost.bnd (c' := 4) Cost.chg (fun _ _ => Cost.bnd (c' := 2) Cost.chg (fun _ _ => Cost.bnd (c' := 1) Cost.chg (fun _ _ =>
      Cost.bnd (c' := 0) Cost.chg (fun _ _ => Cost.charge' le_rfl fun _ _ => trivial) ?_) ?_) ?_) ?_ <;> omega
  · obtain ⟨mult, add⟩ := r
    refine Cost.bnd (c' := 3) Cost.chg (fun _ _ => Cost.bnd (c' := 2) Cost.chg (fun _ _ => Cost.bnd (c' := 1) Cost.chg (fun _ _ =>
      Cost.charge' le_rfl fun a h => by cases h; rfl) ?_) ?_) ?_ <;> omega

theorem ldexpAll_cost (p : Poly F) (e : Int) :
    Cost (p.ldexpAllC e) (p.ldexpAll e) (3 * (p.degree + 1).toNat + 1) fun q => q.degree = p.degree := by
  unfold Poly.ldexpAllC Poly.ldexpAll
  refine Cost.bnd (c := 3 * (p.degree + 1).toNat) (c' := 1) (Q := fun _ => True) ?_
    (fun r _ => Cost.charge' le_rfl fun a h => by cases h; rfl) le_rfl
  refine (Cost.forRange (fun _ _ => True) (c := 3) trivial fun j s _ _ _ => ?_).mono (by omega) fun _ _ => trivial
  exact Cost.bnd (c' := 2) Cost.chg (fun _ _ => Cost.charge' le_rfl fun _ _ => trivial) (by omega)

theorem maxMult_cost (env : Env F) (p : Poly F) :
    Cost (p.maxMultC env) (p.maxMult env) (4 * (p.degree + 1).toNat + 4) fun _ => True := by
  unfold Poly.maxMultC Poly.maxMult
  refine Cost.bnd (c' := 4 * (p.degree + 1).toNat + 3) Cost.chg (fun _ _ => Cost.bnd (c' := 4 * (p.degree + 1).toNat) Cost.chg
    (fun _ _ => ?_) (by omega)) (by omega)
  refine (Cost.forRange (fun _ _ => True) (c := 4) trivial fun j s _ _ _ => ?_).mono (by omega) fun _ _ => trivial
  exact Cost.bnd (c' := 1) Cost.chg (fun _ _ => Cost.charge' le_rfl fun _ _ => trivial) (by omega)

theorem setMult_degree {env : Env F} {p q : Poly F} {d : Int} {c : F} (h : p.setMult env d c = .ok q) : q.degree = p.degree := by
  unfold Poly.setMult at h
  cases h1 : assertC env.asserts (decide (0 ≤ d)) "degree >= 0" with
  | error e => rw [h1] at h; cases h
  | ok _ =>
    rw [h1, M_ok_bind] at h
    cases h2 : assertC env.asserts (decide (d ≤ p.degree)) "degree <= this->degree" with
    | error e => rw [h2] at h; cases h
    | ok _ =>
      rw [h2, M_ok_bind] at h
      cases h3 : wr p.mult d c with
      | error e => rw [h3] at h; cases h
      | ok a => rw [h3] at h; cases h; rfl

theorem setAdd_degree {env : Env F} {p q : Poly F} {d : Int} {c : F} (h : p.setAdd env d c = .ok q) : q.degree = p.degree := by
  unfold Poly.setAdd at h
  cases h1 : assertC env.asserts (decide (0 ≤ d)) "degree >= 0" with
  | error e => rw [h1] at h; cases h
  | ok _ =>
    rw [h1, M_ok_bind] at h
    cases h2 : assertC env.asserts (decide (d ≤ p.degree)) "degree <= this->degree" with
    | error e => rw [h2] at h; cases h
    | ok _ =>
      rw [h2, M_ok_bind] at h
      cases h3 : wr p.add d c with
      | error e => rw [h3] at h; cases h
      | ok a => rw [h3] at h; cases h; rfl

theorem mnsStep_cost (env : Env F) (re : Int → F → Int) (b : List F) (i : Int) (s : Poly F × Int) (n : Nat)
    (hi : 0 ≤ i) (hin : i < n) (hs : s.1.degree = i) :
    Cost (mnsStepC env re b i s) (mnsStep env re b i s) (18 * n + 40) fun r => r.1.degree = i + 1 := by
  unfold mnsStepC mnsStep
  refine Cost.bnd (c' := 13 * n + 36) (integrate_cost _) (fun p hp => ?_) (by rw [hs]; omega)
  rw [hs] at hp
  refine Cost.bnd (c' := 13 * n + 35) Cost.chg (fun bi _ => ?_) (by omega)
  refine Cost.bnd (c' := 13 * n + 31) (Q := fun q => q.degree = i + 1) (Cost.charge' le_rfl fun q hq => (setAdd_degree hq).trans hp) (fun p hp => ?_) (by omega)
  refine Cost.bnd (c' := 7 * n + 25) (evaluate_cost _ _) (fun v _ => ?_) (by rw [hp]; omega)
  refine Cost.bnd (c' := 7 * n + 21) (Q := fun q => q.degree = i + 1) (Cost.charge' le_rfl fun q hq => (setMult_degree hq).trans hp) (fun p hp => ?_) (by omega)
  refine Cost.ite (fun _ => ?_) fun _ => Cost.charge' (by omega) fun a h => by cases h; exact hp
  refine Cost.bnd (c' := 3 * n + 10) (maxMult_cost _ _) (fun mx _ => ?_) (by rw [hp]; omega)
  refine Cost.ite (fun _ => ?_) fun _ => Cost.charge' (by omega) fun a h => by cases h; exact hp
  refine Cost.bnd (c' := 6) (ldexpAll_cost _ _) (fun q hq => Cost.charge' le_rfl fun a h => by cases h; exact hq.trans hp) (by rw [hp]; omega)

theorem mns_cost (env : Env F) (re : Int → F → Int) (b : List F) :
    Cost (ecdf1Mns2016bWithC env re b) (ecdf1Mns2016bWith env re b) (60 * (b.length + 1) ^ 2) fun _ => True := by
  unfold ecdf1Mns2016bWithC ecdf1Mns2016bWith
  set n := b.length with hn
  refine Cost.bnd (c := 2 * n + 5) (c' := n * (18 * n + 40) + 8 * n + 21) Cost.chg (fun _ _ => ?_) (by nlinarith)
  refine Cost.bnd (c := 2 * ((n : Int) + 1 + 1).toNat) (c' := n * (18 * n + 40) + 6 * n + 17) (Q := fun p => p.degree = 0)
    (Cost.charge' le_rfl fun p hp => ?_) (fun p hp => ?_) (by omega)
  · unfold Poly.new at hp
    cases h1 : assertC env.asserts (decide (0 ≤ (n : Int) + 1)) "max_degree >= 0" with
    | error e => rw [h1] at hp; cases hp
    | ok _ => rw [h1] at hp; cases hp; rfl
  refine Cost.bnd (c := 3) (c' := n * (18 * n + 40) + 6 * n + 14) (Q := fun q => q.degree = 0) (Cost.charge' le_rfl fun q hq => (setMult_degree hq).trans hp) (fun p hp => ?_) (by omega)
  refine Cost.bnd (c := n * (18 * n + 40)) (c' := 6 * n + 14) (Q := fun r : Poly F × Int => r.1.degree = (n : Int)) ?_ (fun r hr => ?_) (by omega)
  · have := Cost.forRange (lo := 0) (hi := (n : Int)) (s := (p, (0 : Int))) (body := mnsStep env re b) (bodyC := mnsStepC env re b)
      (fun i s => s.1.degree = i) (c := 18 * n + 40) hp fun j s h0 h1 hj => mnsStep_cost env re b j s n h0 h1 hj
    simpa using this
  · obtain ⟨p, delta⟩ := r
    dsimp only at hr
    exact Cost.bnd (c' := 8) (evaluate_cost _ _) (fun _ _ => Cost.charge' le_rfl fun _ _ => trivial) (by rw [hr]; omega)

theorem symmetricSteps_cost (v : List F) :
    Cost (symmetricStepsC v) (symmetricSteps v) (4 * v.length) fun r => r.length = v.length := by
  unfold symmetricStepsC symmetricSteps
  refine (Cost.forRange (fun _ r => r.length = v.length) (c := 4) (by simp) fun j s _ _ hs => ?_).mono (by omega) fun _ h => h
  exact Cost.bnd (c' := 3) Cost.chg (fun _ _ => Cost.charge' le_rfl fun _ h => (wr_length h).trans hs) (by omega)

theorem mnsB_cost (env : Env F) (B : List F) :
    Cost (ecdf1Mns2016BC env B) (ecdf1Mns2016B env B) (70 * (B.length + 1) ^ 2) fun _ => True := by
  unfold ecdf1Mns2016BC ecdf1Mns2016B
  refine Cost.bnd (c := 2 * B.length + 5) (c' := 4 * B.length + 60 * (B.length + 1) ^ 2) Cost.chg (fun _ _ => ?_) (by nlinarith)
  refine Cost.bnd (c' := 60 * (B.length + 1) ^ 2) (symmetricSteps_cost B) (fun r hr => ?_) le_rfl
  have := mns_cost env (fun _ x => frexpExp x) r
  rw [hr] at this
  exact this

/-! ## ecdf2 -/

theorem update_counts {tag : BoundType} {buf : List F} {bc Bc : Int} {r : List F × Int × Int}
    (h : updateDestBufferAndStepCounts tag buf bc Bc = .ok r) :
    r.2.1 = bc + (if tag = .bSTEP then 1 else 0) ∧ Bc ≤ r.2.2 := by
  cases tag with
  | bSTEP =>
    unfold updateDestBufferAndStepCounts at h
    dsimp only at h
    cases h1 : wr buf (bc + 1) zero with
    | error e => rw [h1] at h; cases h
    | ok a => rw [h1] at h; cases h; simp
  | BSTEP =>
    unfold updateDestBufferAndStepCounts at h
    dsimp only at h
    cases h1 : wr buf Bc zero with
    | error e => rw [h1] at h; cases h
    | ok a => rw [h1] at h; cases h; simp
  | END => cases h; simp

/-- How many `b` points are left. -/
def bLeft (l : List (Bound F)) : Nat := (l.filter fun x => decide (x.tag = .bSTEP)).length

/-- Invariant of the main loop of `ecdf2`. -/
def NcInv (n : Nat) (rest : List (Bound F)) (s : NCState F) : Prop :=
  ConvOk s.conv ∧ s.bStep + bLeft rest ≤ n ∧ 0 ≤ s.BStep

theorem ncInv_step {n : Nat} {s : NCState F} {bd : Bound F} {rest : List (Bound F)} (h : NcInv n (bd :: rest) s) {bc Bc : Int} {conv : Convolver F}
    (hc : ConvOk conv) (h1 : bc = s.bStep + (if bd.tag = .bSTEP then 1 else 0)) (h2 : s.BStep ≤ Bc) {s' : NCState F} (e1 : s'.conv = conv)
    (e2 : s'.bStep = bc) (e3 : s'.BStep = Bc) : NcInv n rest s' := by
  obtain ⟨-, h4, h5⟩ := h
  refine ⟨e1 ▸ hc, ?_, by omega⟩
  have : (bLeft (bd :: rest) : Int) = bLeft rest + (if bd.tag = .bSTEP then 1 else 0) := by
    unfold bLeft
    by_cases hb : bd.tag = .bSTEP
    · simp [hb]
    · simp [hb]
  omega

theorem ncStep_cost (pr : Prices) (env : Env F) (intensity : F) (useFft : Bool) (n C : Nat) 
    (hC : ∀ m, m ≤ n + 1 → (if useFft then convCost pr m else m * (4 * m + 1) + 1) ≤ C)
    (s : NCState F) (bd : Bound F) (rest : List (Bound F)) (hs : NcInv n (bd :: rest) s) :
    Cost (ncStepC pr env intensity useFft s bd) (ncStep env intensity useFft s bd) (7 * n + C + 40) (NcInv n rest) := by
  unfold ncStepC ncStep
  have hsize : (s.bStep - s.BStep + 1).toNat ≤ n + 1 := by
    have h1 := hs.2.1; have h2 := hs.2.2
    omega
  refine Cost.ite (fun _ => ?_) fun _ => Cost.ite (fun _ => ?_) fun _ => Cost.charge' (by omega) fun _ h => by cases h
  · refine Cost.bnd (c' := C + 20) (computeArray_cost _ _ _ _) (fun _ _ => ?_) (by omega)
    refine Cost.bnd (c' := C + 19) Cost.chg (fun _ _ => Cost.bnd (c' := C + 18) Cost.chg (fun _ _ => ?_) (by omega)) (by omega)
    refine Cost.bnd (c := C) (c' := 18) (Q := fun r => ConvOk r.1) ?_ (fun r hr => ?_) le_rfl
    · unfold ncConvolveC ncConvolve
      have hCs := hC _ hsize
      cases useFft with
      | true => exact (convolve_cost pr env hs.1 _ _ _ _ _ _ _).le hCs
      | false =>
        exact Cost.bnd (convolveSameSize_cost _ _ _ _ _ _ _) (fun _ _ => Cost.charge' le_rfl fun a h => by cases h; exact hs.1) hCs
    · obtain ⟨conv, dest⟩ := r
      refine Cost.bnd (c' := 8) (Q := fun r => r.2.1 = s.bStep + (if bd.tag = .bSTEP then 1 else 0) ∧ s.BStep ≤ r.2.2)
        (Cost.charge' le_rfl fun r hr => update_counts hr) (fun r hr' => ?_) (by omega)
      obtain ⟨dest, bc, Bc⟩ := r
      exact Cost.charge' le_rfl fun a h => by cases h; exact ncInv_step hs hr hr'.1 hr'.2 rfl rfl rfl
  · refine Cost.bnd (c' := 8) (Q := fun r => r.2.1 = s.bStep + (if bd.tag = .bSTEP then 1 else 0) ∧ s.BStep ≤ r.2.2)
        (Cost.charge' le_rfl fun r hr => update_counts hr) (fun r hr' => ?_) (by omega)
    obtain ⟨dest, bc, Bc⟩ := r
    exact Cost.charge' le_rfl fun a h => by cases h; exact ncInv_step hs hs.1 hr'.1 hr'.2 rfl rfl rfl

theorem bLeft_joined {sort : List (Bound F) → List (Bound F)} (hperm : ∀ l, (sort l).Perm l) (b B : List F) :
    bLeft (joinAllBounds sort b B) = b.length := by
  unfold bLeft joinAllBounds
  rw [List.filter_append, List.length_append, ((hperm _).filter _).length_eq]
  unfold unsortedBounds
  rw [List.filter_append, List.length_append, List.filter_map, List.filter_map]
  have h1 : ∀ l : List F, l.filter (fun _ => true) = l := fun l => List.filter_eq_self.2 fun _ _ => rfl
  have h2 : ∀ l : List F, l.filter (fun _ => false) = [] := fun l => List.filter_eq_nil_iff.2 fun _ _ => by simp
  simp [Function.comp_def, h1, h2]

theorem ecdf2_cost (pr : Prices) (env : Env F) {sort : List (Bound F) → List (Bound F)} (hperm : ∀ l, (sort l).Perm l) (b B : List F)
    (useFft : Bool) (C : Nat) (hC : ∀ m, m ≤ b.length + 1 → (if useFft then convCost pr m else m * (4 * m + 1) + 1) ≤ C) :
    Cost (ecdf2C pr env sort b B useFft) (ecdf2 env sort b B useFft)
      ((2 * b.length + 1) * (7 * b.length + C + 40) + 20 * b.length + 40 + pr.sort (2 * b.length)) fun _ => True := by
  unfold ecdf2C ecdf2
  set n := b.length with hn
  set T := (2 * n + 1) * (7 * n + C + 40) with hT
  refine Cost.bnd (c := 2 * n + 5) (c' := T + 18 * n + 35 + pr.sort (2 * n)) Cost.chg (fun _ _ => ?_) (by omega)
  by_cases hB : B.length = n
  rotate_left
  · cases h1 : checkBoundaryVector "B" (n : Int) B with
    | ok _ => exact absurd (check_length h1) (by omega)
    | error e =>
      refine Cost.err (e := e) rfl fun k => ?_
      show (charge _ (checkBoundaryVector "B" (n : Int) B) k >>= _) = _
      rw [h1]
      rfl
  refine Cost.bnd (c := 2 * n + 5) (c' := T + 16 * n + 30 + pr.sort (2 * n)) (Q := fun _ => True) (Cost.charge' (by rw [hB]) fun _ _ => trivial)
    (fun _ _ => ?_) (by omega)
  · refine Cost.bnd (c := T + 16 * n + 20 + pr.sort (2 * n)) (c' := 10) (Q := fun _ => True) ?_ (fun _ _ => ?_) (by omega)
    · unfold poissonProcessNoncrossingProbabilityC poissonProcessNoncrossingProbability
      refine Cost.bnd (c := 4 * n + 1 + pr.sort (2 * n)) (c' := T + 12 * n + 19)
        (Q := fun l => l = joinAllBounds sort b B)
        (Cost.charge' (by rw [← hn, hB, ← two_mul]; omega) fun a h => by cases h; rfl) (f := fun bounds => _) (m := .ok (joinAllBounds sort b B))
        (g := fun bounds => do
          let buffers : DoubleBuffer F := DoubleBuffer.new ((n : Int) + 1) zero
          let src ← wr buffers.src 0 one
          let pmfgen ← PmfGen.new env ((n : Int) + 1)
          let s0 : NCState F :=
            { buffers := buffers.setSrc src, conv := Convolver.new env ((n : Int) + 1), pmfgen := pmfgen,
              bStep := 0, BStep := 0, prev := zero }
          let s ← bounds.foldlM (ncStep env (ofInt (n : Int)) useFft) s0
          .ok s.buffers.src) (fun bounds hbounds => ?_) (by omega)
      refine Cost.bnd (c := 2 * ((n : Int) + 1).toNat) (c' := T + 10 * n + 17) (m := .ok (DoubleBuffer.new ((n : Int) + 1) (zero : F)))
        (g := fun buffers => do
          let src ← wr buffers.src 0 one
          let pmfgen ← PmfGen.new env ((n : Int) + 1)
          let s0 : NCState F :=
            { buffers := buffers.setSrc src, conv := Convolver.new env ((n : Int) + 1), pmfgen := pmfgen,
              bStep := 0, BStep := 0, prev := zero }
          let s ← bounds.foldlM (ncStep env (ofInt (n : Int)) useFft) s0
          .ok s.buffers.src) Cost.chg (fun buffers _ => ?_) (by omega)
      refine Cost.bnd (c' := T + 10 * n + 16) Cost.chg (fun src _ => ?_) (by omega)
      refine Cost.bnd (c := 4 * ((n : Int) + 1 + 2).toNat) (c' := T + 1) Cost.chg (fun pmfgen _ => ?_) (by omega)
      refine Cost.bnd (c := T) (c' := 1) (Q := fun _ => True) ?_ (fun _ _ => Cost.charge' le_rfl fun _ _ => trivial) le_rfl
      have hlen : bounds.length = 2 * n + 1 := by
        rw [hbounds]
        unfold joinAllBounds
        rw [List.length_append, (hperm _).length_eq]
        unfold unsortedBounds
        rw [List.length_append, List.length_map, List.length_map, hB, ← hn]
        simp
        omega
      refine (Cost.foldlM (NcInv n) bounds _ ?_ fun s bd rest hs => ncStep_cost pr env _ useFft n C hC s bd rest hs).mono
        (by rw [hlen]) fun _ _ => trivial
      refine ⟨convOk_new env _, ?_, le_rfl⟩
      rw [hbounds, bLeft_joined hperm]
      dsimp only
      omega
    · refine Cost.bnd (c' := 9) Cost.chg (fun _ _ => Cost.bnd (c' := 1) Cost.chg (fun _ _ => Cost.charge' le_rfl fun _ _ => trivial) ?_) ?_ <;> omega

end CP
