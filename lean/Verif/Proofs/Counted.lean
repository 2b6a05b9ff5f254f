import Verif.Model.Counted
import Verif.Proofs.Convolve
import Verif.Proofs.Ecdf2Step
import Mathlib.Tactic.Linarith
import Mathlib.Tactic.Ring
/-! Cost bounds for the counted functions, together with the proof that counting changes nothing. -/
namespace CP
variable {F : Type} [FOps F]
open FOps

/-- The counted program `x` behaves like `m`, takes at most `c` steps if it returns, and then its result satisfies `Q`. -/
def Cost {α : Type} (x : CM α) (m : M α) (c : Nat) (Q : α → Prop) : Prop :=
  ∀ k, (∀ a, m = .ok a → Q a ∧ ∃ c', c' ≤ c ∧ x k = .ok (a, k + c')) ∧ ∀ e, m = .error e → x k = .error e

namespace Cost
variable {α β σ γ : Type}

theorem charge' {k c : Nat} {m : M α} {Q : α → Prop} (h : k ≤ c) (hq : ∀ a, m = .ok a → Q a) : Cost (charge k m) m c Q := by
  intro s
  refine ⟨?_, ?_⟩
  · rintro a rfl; exact ⟨hq a rfl, k, h, rfl⟩
  · rintro e rfl; rfl

theorem chg {k : Nat} {m : M α} : Cost (charge k m) m k (fun a => m = .ok a) := charge' le_rfl fun _ h => h

theorem bind {x : CM α} {m : M α} {f : α → CM β} {g : α → M β} {c c' : Nat} {Q : α → Prop} {R : β → Prop}
    (h : Cost x m c Q) (hf : ∀ a, Q a → Cost (f a) (g a) c' R) : Cost (x >>= f) (m >>= g) (c + c') R := by
  intro k
  obtain ⟨hk1, hk2⟩ := h k
  cases m with
  | ok a =>
    obtain ⟨hq, d, hd, hx⟩ := hk1 a rfl
    obtain ⟨h1, h2⟩ := hf a hq (k + d)
    have e : (x >>= f) k = f a (k + d) := by
      show (x k >>= fun p => f p.1 p.2) = _
      rw [hx]; rfl
    rw [e]
    refine ⟨fun b hb => ?_, fun e he => h2 e he⟩
    obtain ⟨hr, d', hd', hb'⟩ := h1 b hb
    exact ⟨hr, d + d', by omega, by rw [hb']; congr 2; omega⟩
  | error e =>
    refine ⟨fun b hb => (by cases hb), fun e' he => ?_⟩
    show (x k >>= fun p => f p.1 p.2) = _
    rw [hk2 e rfl]
    cases he
    rfl

theorem bnd {x : CM α} {m : M α} {f : α → CM β} {g : α → M β} {c c' d : Nat} {Q : α → Prop} {R : β → Prop}
    (h : Cost x m c Q) (hf : ∀ a, Q a → Cost (f a) (g a) c' R) (hd : c + c' ≤ d) : Cost (x >>= f) (m >>= g) d R := by
  intro k
  obtain ⟨h1, h2⟩ := bind h hf k
  exact ⟨fun a ha => ⟨(h1 a ha).1, (h1 a ha).2.imp fun _ q => ⟨q.1.trans hd, q.2⟩⟩, h2⟩

theorem mono {x : CM α} {m : M α} {c c' : Nat} {Q R : α → Prop} (h : Cost x m c Q) (hc : c ≤ c') (hq : ∀ a, Q a → R a) :
    Cost x m c' R := by
  intro k
  obtain ⟨h1, h2⟩ := h k
  exact ⟨fun a ha => ⟨hq a (h1 a ha).1, (h1 a ha).2.imp fun _ q => ⟨q.1.trans hc, q.2⟩⟩, h2⟩

theorem le {x : CM α} {m : M α} {c c' : Nat} {Q : α → Prop} (h : Cost x m c Q) (hc : c ≤ c') : Cost x m c' Q :=
  h.mono hc fun _ h => h

theorem ite {p : Prop} [Decidable p] {x y : CM α} {m m' : M α} {c : Nat} {Q : α → Prop} (h1 : p → Cost x m c Q)
    (h2 : ¬ p → Cost y m' c Q) : Cost (if p then x else y) (if p then m else m') c Q := by
  by_cases h : p
  · rw [if_pos h, if_pos h]; exact h1 h
  · rw [if_neg h, if_neg h]; exact h2 h

theorem forAux {body : Int → σ → M σ} {bodyC : Int → σ → CM σ} (Inv : Int → σ → Prop) {c : Nat} :
    ∀ (k : Nat) (i : Int) (s : σ), Inv i s →
      (∀ j s, i ≤ j → j < i + k → Inv j s → Cost (bodyC j s) (body j s) c (Inv (j + 1))) →
      Cost (forAuxC bodyC k i s) (forAux body k i s) (k * c) (Inv (i + k)) := by
  intro k
  induction k with
  | zero =>
    intro i s h _ k
    exact ⟨fun a ha => by cases ha; exact ⟨by simpa using h, 0, by omega, rfl⟩, fun e he => by cases he⟩
  | succ k ih =>
    intro i s h hb
    unfold forAuxC CP.forAux
    refine bnd (c := c) (c' := k * c) (hb i s (by omega) (by omega) h) (fun s' hs' => ?_) (by rw [Nat.succ_mul]; omega)
    have := ih (i + 1) s' hs' (fun j s h1 h2 h3 => hb j s (by omega) (by push_cast; omega) h3)
    have e : i + 1 + (k : Int) = i + ((k + 1 : Nat) : Int) := by push_cast; omega
    rw [e] at this
    exact this

theorem forRange {lo hi : Int} {s : σ} {body : Int → σ → M σ} {bodyC : Int → σ → CM σ} (Inv : Int → σ → Prop) {c : Nat}
    (h0 : Inv lo s)
    (hb : ∀ j s, lo ≤ j → j < hi → Inv j s → Cost (bodyC j s) (body j s) c (Inv (j + 1))) :
    Cost (forRangeC lo hi s bodyC) (forRange lo hi s body) ((hi - lo).toNat * c) (Inv (lo + ((hi - lo).toNat : Int))) := by
  unfold forRangeC CP.forRange
  exact forAux Inv (hi - lo).toNat lo s h0 (fun j s h1 h2 h3 => hb j s h1 (by omega) h3)

theorem foldlM {f : σ → γ → M σ} {fC : σ → γ → CM σ} {c : Nat} (Inv : List γ → σ → Prop) (l : List γ) :
    ∀ s, Inv l s → (∀ s x rest, Inv (x :: rest) s → Cost (fC s x) (f s x) c (Inv rest)) →
      Cost (l.foldlM fC s) (l.foldlM f s) (l.length * c) (Inv []) := by
  induction l with
  | nil =>
    intro s h _ k
    exact ⟨fun a ha => by cases ha; exact ⟨h, 0, by omega, rfl⟩, fun e he => by cases he⟩
  | cons x l ih =>
    intro s h hb
    rw [List.foldlM_cons, List.foldlM_cons]
    exact bnd (hb s x l h) (fun s' hs' => ih s' hs' hb) (by rw [List.length_cons, Nat.succ_mul]; omega)

/-- The form of the final statements. -/
theorem final {x : CM α} {m : M α} {c : Nat} {Q : α → Prop} (h : Cost x m c Q) :
    ∃ steps, steps ≤ c ∧ x 0 = m.map fun a => (a, steps) := by
  obtain ⟨h1, h2⟩ := h 0
  cases m with
  | ok a =>
    obtain ⟨-, c', hc, hx⟩ := h1 a rfl
    exact ⟨c', hc, by rw [hx]; simp [Except.map]⟩
  | error e => exact ⟨0, Nat.zero_le _, by rw [h2 e rfl]; rfl⟩

end Cost

/-! ## Common functions -/

theorem convolveSameSize_cost (size : Int) (src0 : List F) (o0 : Int) (src1 : List F) (o1 : Int) (dest : List F) (od : Int) :
    Cost (convolveSameSizeC size src0 o0 src1 o1 dest od) (convolveSameSize size src0 o0 src1 o1 dest od)
      (size.toNat * (4 * size.toNat + 1)) fun _ => True := by
  unfold convolveSameSizeC convolveSameSize
  refine (Cost.forRange (fun _ _ => True) (c := 4 * size.toNat + 1) trivial ?_).mono (by simp) fun _ _ => trivial
  intro j s h0 h1 _
  refine Cost.bind (c := 4 * size.toNat) (Q := fun _ => True) ?_ fun acc _ => Cost.charge' le_rfl fun _ _ => trivial
  refine (Cost.forRange (fun _ _ => True) (c := 4) trivial ?_).mono (by omega) fun _ _ => trivial
  intro k acc _ _ _
  exact Cost.bnd (c' := 3) Cost.chg (fun x _ => Cost.bnd (c' := 2) Cost.chg (fun y _ =>
    Cost.charge' le_rfl fun _ _ => trivial) (by omega)) (by omega)

theorem computeArray_cost (env : Env F) (g : PmfGen F) (k : Int) (lambda : F) :
    Cost (g.computeArrayC env k lambda) (g.computeArray env k lambda) (7 * (k + 1).toNat + 6) fun _ => True := by
  unfold PmfGen.computeArrayC PmfGen.computeArray
  refine Cost.bnd (c' := 7 * (k + 1).toNat + 5) Cost.chg (fun _ _ => Cost.bnd (c' := 7 * (k + 1).toNat + 4) Cost.chg (fun _ _ => ?_)
    (by omega)) (by omega)
  refine Cost.ite (fun _ => Cost.charge' (by omega) fun _ h => by cases h) fun _ => Cost.ite (fun _ => ?_) fun _ => ?_
  · refine Cost.bnd (c' := (k + 1).toNat + 2) Cost.chg (fun arr _ => Cost.bnd (c := (k + 1).toNat) (c' := 2) (Q := fun _ => True) ?_
      (fun _ _ => Cost.charge' le_rfl fun _ _ => trivial) le_rfl) (by omega)
    exact (Cost.forRange (fun _ _ => True) (c := 1) trivial fun j s _ _ _ => Cost.charge' le_rfl fun _ _ => trivial).mono
      (by omega) fun _ _ => trivial
  · refine Cost.bnd (c := 7 * (k + 1).toNat) (c' := 3) (Q := fun _ => True) ?_ (fun _ _ => Cost.charge' le_rfl fun _ _ => trivial) (by omega)
    refine (Cost.forRange (fun _ _ => True) (c := 7) trivial fun j s _ _ _ => ?_).mono (by omega) fun _ _ => trivial
    exact Cost.bnd (c' := 6) Cost.chg (fun _ _ => Cost.charge' le_rfl fun _ _ => trivial) le_rfl

/-! ## The convolver -/

/-- Every memoised plan has the size its slot stands for. -/
def PlanOk (plans : List (Option Int)) : Prop := ∀ i sz, Has plans i (some sz) → sz = (i + 1) * ROUNDING

/-- Both plan vectors of a convolver. -/
def ConvOk (cv : Convolver F) : Prop := PlanOk cv.r2cPlans ∧ PlanOk cv.c2rPlans

omit [FOps F] in
theorem convOk_new (env : Env F) (m : Int) : ConvOk (Convolver.new env m) := by
  constructor <;> (intro i sz hh; simp only [Convolver.new, has_replicate] at hh; simp at hh)

theorem memoizedPlan_cost (pr : Prices) (env : Env F) {plans : List (Option Int)} {N : Int} (hN : 0 < N)
    (hdiv : N = N.tdiv ROUNDING * ROUNDING) (hp : PlanOk plans) :
    Cost (Convolver.memoizedPlanC pr env plans N) (Convolver.memoizedPlan env plans N) (4 + pr.plan N.toNat)
      (fun r => r.1 = N ∧ PlanOk r.2) := by
  refine Cost.charge' le_rfl fun r hr => ?_
  by_cases hlen : N.tdiv ROUNDING ≤ plans.length
  · have := memoizedPlan_sat (E := fun _ => False) env hN hdiv hlen hp
    rw [hr] at this
    exact ⟨this.1, this.2.2⟩
  · exfalso
    unfold Convolver.memoizedPlan at hr
    dsimp only at hr
    cases h1 : assertC env.asserts (decide (0 < N)) "rounded_size > 0" with
    | error e => rw [h1] at hr; cases hr
    | ok _ =>
      rw [h1, M_ok_bind] at hr
      cases h2 : assertC env.asserts (decide (N.tmod ROUNDING = 0)) "(rounded_size % ROUNDING) == 0" with
      | error e => rw [h2] at hr; cases hr
      | ok _ =>
        rw [h2, M_ok_bind] at hr
        cases h3 : assertC env.asserts (decide (0 ≤ N.tdiv ROUNDING - 1 ∧ N.tdiv ROUNDING - 1 < (plans.length : Int))) "index < plans.size()" with
        | error e => rw [h3] at hr; cases hr
        | ok _ =>
          rw [h3, M_ok_bind] at hr
          have : rd plans (N.tdiv ROUNDING - 1) = .error (.ub "array read out of bounds") ∨ ∃ e, rd plans (N.tdiv ROUNDING - 1) = .error e := by
            right
            unfold rd
            split
            · rw [List.getElem?_eq_none (by omega)]
              exact ⟨_, rfl⟩
            · exact ⟨_, rfl⟩
          rcases this with h | ⟨e, h⟩ <;> · rw [h] at hr; cases hr

theorem copyZeroPadded_cost (src : List F) (o : Int) (dest : List F) {srcSize destSize : Int} (h0 : 0 ≤ srcSize) (h : srcSize ≤ destSize) :
    Cost (Convolver.copyZeroPaddedC src o dest srcSize destSize) (Convolver.copyZeroPadded src o dest srcSize destSize)
      (2 * destSize.toNat) fun _ => True := by
  unfold Convolver.copyZeroPaddedC Convolver.copyZeroPadded
  refine (Cost.bind (c := srcSize.toNat) (c' := destSize.toNat) (Q := fun xs => xs.length ≤ srcSize.toNat)
    (Cost.charge' le_rfl ?_) fun xs hxs => ?_).le (by omega)
  · intro xs hxs
    unfold rdBlock at hxs
    split at hxs
    · cases hxs; simp [List.length_take]
    · cases hxs
  · refine (Cost.bind (c := srcSize.toNat) (c' := (destSize - srcSize).toNat) (Q := fun _ => True)
      (Cost.charge' hxs fun _ _ => trivial) fun d _ => Cost.charge' (by simp) fun _ _ => trivial).le ?_
    omega

theorem elementwise_cost (size : Int) (s0 s1 dest : List (F × F)) (c : F) :
    Cost (Convolver.elementwiseComplexProductC size s0 s1 dest c) (Convolver.elementwiseComplexProduct size s0 s1 dest c)
      (11 * size.toNat) fun _ => True := by
  unfold Convolver.elementwiseComplexProductC Convolver.elementwiseComplexProduct
  refine (Cost.forRange (fun _ _ => True) (c := 11) trivial fun j s _ _ _ => ?_).mono (by omega) fun _ _ => trivial
  exact Cost.bnd (c' := 10) Cost.chg (fun _ _ => Cost.bnd (c' := 9) Cost.chg (fun _ _ =>
    Cost.charge' le_rfl fun _ _ => trivial) (by omega)) (by omega)

/-- Steps of one convolution of `size` elements. -/
def convCost (pr : Prices) (size : Nat) : Nat :=
  if size < 128 then size * (4 * size + 1) + 3
  else
    let N := (roundUp (2 * (size : Int)) ROUNDING).toNat
    3 * pr.fft N + 3 * pr.plan N + 13 * N + 33

theorem convolve_cost (pr : Prices) (env : Env F) {cv : Convolver F} (hcv : ConvOk cv) (size : Int) (inputA : List F) (oa : Int)
    (inputB : List F) (ob : Int) (output : List F) (oo : Int) :
    Cost (cv.convolveC pr env size inputA oa inputB ob output oo) (cv.convolve env size inputA oa inputB ob output oo)
      (convCost pr size.toNat) (fun r => ConvOk r.1) := by
  unfold Convolver.convolveC Convolver.convolve
  refine Cost.ite (fun _ => Cost.charge' (by unfold convCost; dsimp only; split <;> omega) fun _ h => by cases h) fun _ =>
    Cost.ite (fun _ => Cost.charge' (by unfold convCost; dsimp only; split <;> omega) fun a h => by cases h; exact hcv) fun h0 =>
    Cost.ite (fun h1 => ?_) fun h1 => ?_
  · unfold MINIMUM_SIZE_FOR_FFTW_CONVOLUTION at h1
    unfold convCost
    rw [if_pos (by omega)]
    exact Cost.bind (convolveSameSize_cost _ _ _ _ _ _ _) fun _ _ => Cost.charge' le_rfl fun a h => by cases h; exact hcv
  · unfold MINIMUM_SIZE_FOR_FFTW_CONVOLUTION at h1
    have hs := roundUp_spec (n := 2 * size) (by omega)
    unfold convCost
    rw [if_neg (by omega), Int.toNat_of_nonneg (by omega)]
    show Cost _ _ (3 * pr.fft (roundUp (2 * size) ROUNDING).toNat + 3 * pr.plan (roundUp (2 * size) ROUNDING).toNat +
      13 * (roundUp (2 * size) ROUNDING).toNat + 33) _
    set N := roundUp (2 * size) ROUNDING with hN
    have hhalf : (N.tdiv 2 + 1).toNat ≤ N.toNat / 2 + 1 := by
      rw [Int.tdiv_eq_ediv_of_nonneg (by omega)]; omega
    have hNpos : 0 < N := by omega
    refine (Cost.bind (c := 2 * N.toNat) (c' := 3 * pr.fft N.toNat + 3 * pr.plan N.toNat + 11 * N.toNat + 33) (copyZeroPadded_cost _ _ _ (by omega) (by omega)) fun _ _ => ?_).le (by omega)
    refine (Cost.bind (c' := 3 * pr.fft N.toNat + 2 * pr.plan N.toNat + 11 * N.toNat + 29) (memoizedPlan_cost pr env hNpos hs.2.2.1 hcv.1) fun r hr => ?_).le (by omega)
    obtain ⟨plan, r2cPlans⟩ := r
    obtain ⟨h1, h2⟩ := hr
    dsimp only at h1 h2
    subst h1
    refine (Cost.bind (c := pr.fft N.toNat) (c' := 2 * pr.fft N.toNat + 2 * pr.plan N.toNat + 11 * N.toNat + 29) Cost.chg fun r _ => ?_).le (by omega)
    dsimp only
    refine (Cost.bind (c := 2 * N.toNat) (c' := 2 * pr.fft N.toNat + 2 * pr.plan N.toNat + 9 * N.toNat + 29) (copyZeroPadded_cost _ _ _ (by omega) (by omega)) fun _ _ => ?_).le (by omega)
    refine (Cost.bind (c' := 2 * pr.fft N.toNat + 1 * pr.plan N.toNat + 9 * N.toNat + 25) (memoizedPlan_cost pr env hNpos hs.2.2.1 h2) fun r hr => ?_).le (by omega)
    obtain ⟨plan, r2cPlans'⟩ := r
    obtain ⟨h1, h3⟩ := hr
    dsimp only at h1 h3
    subst h1
    refine (Cost.bind (c := pr.fft N.toNat) (c' := pr.fft N.toNat + pr.plan N.toNat + 9 * N.toNat + 25) Cost.chg fun r _ => ?_).le (by omega)
    dsimp only
    refine (Cost.bind (c := 11 * (N.tdiv 2 + 1).toNat) (c' := pr.fft N.toNat + pr.plan N.toNat + 3 * N.toNat + 14) (elementwise_cost _ _ _ _ _) fun _ _ => ?_).le (by omega)
    refine (Cost.bind (c' := pr.fft N.toNat + 3 * N.toNat + 10) (memoizedPlan_cost pr env hNpos hs.2.2.1 hcv.2) fun r hr => ?_).le (by omega)
    obtain ⟨plan, c2rPlans⟩ := r
    obtain ⟨h1, h4⟩ := hr
    dsimp only at h1 h4
    subst h1
    refine (Cost.bind (c := pr.fft N.toNat) (c' := 3 * N.toNat + 10) Cost.chg fun r _ => ?_).le (by omega)
    dsimp only
    refine (Cost.bind (c := size.toNat) (c' := 2 * N.toNat + 10) (Q := fun xs => xs.length ≤ size.toNat) (Cost.charge' le_rfl ?_) fun xs hxs => ?_).le (by omega)
    · intro xs hxs
      unfold rdBlock at hxs
      split at hxs
      · cases hxs; simp [List.length_take]
      · cases hxs
    · refine (Cost.bind (c := size.toNat) (c' := 10) (Q := fun _ => True) (Cost.charge' hxs fun _ _ => trivial) fun _ _ => Cost.charge' le_rfl fun a h => ?_).le (by omega)
      cases h
      exact ⟨h3, h4⟩

end CP
