import Verif.Proofs.ThreadsRun
import Verif.Proofs.MnsStep
import Verif.Proofs.Ieee
import Verif.Proofs.RoundingFinal
import Verif.IeeePow
/-
Calls of ecdf1_mns2016 in several threads, in floating-point arithmetic: the shared variable can spoil a result.
-/
namespace CP
variable {F : Type} [FOps F]
open FOps Thr

namespace Thr

/-- The end of the call if all its reads of the shared variable give `v`. -/
def readAll {α : Type} (v : Int) : Thr α → M α
  | done r => r
  | store _ k => readAll v k
  | load k => readAll v (k v)
  | enter k => readAll v k
  | leave k => readAll v k

theorem readAll_bind {α β : Type} (v : Int) (f : α → Thr β) (t : Thr α) :
    readAll v (t >>= f) = (readAll v t >>= fun a => readAll v (f a)) := by
  induction t with
  | done r => cases r <;> rfl
  | store w k ih => exact ih
  | load k ih => exact ih v
  | enter k ih => exact ih
  | leave k ih => exact ih

theorem readAll_lift {α : Type} (v : Int) (m : M α) : readAll v (Thr.lift m) = m := rfl

theorem readAll_pure {α : Type} (v : Int) (a : α) : readAll v (pure a : Thr α) = .ok a := rfl

theorem readAll_forAux {σ : Type} (v : Int) (f : Int → σ → Thr σ) (k : Nat) : ∀ (i : Int) (s : σ),
    readAll v (Thr.forAux f k i s) = CP.forAux (fun i s => readAll v (f i s)) k i s := by
  induction k with
  | zero => intro i s; rfl
  | succ k ih =>
    intro i s
    show readAll v (f i s >>= fun s' => Thr.forAux f k (i + 1) s') = (readAll v (f i s) >>= fun s' => CP.forAux _ k (i + 1) s')
    rw [readAll_bind]
    simp only [ih]

end Thr

theorem mnsStepT_readAll (env : Env F) (b : List F) (v : Int) (i : Int) (s : Poly F × Int) :
    readAll v (mnsStepT env b i s) = mnsStep env (fun _ _ => v) b i s := by
  unfold mnsStepT mnsStep
  simp only [readAll_bind, readAll_lift]
  refine M_bind_congr rfl fun p => M_bind_congr rfl fun bi => M_bind_congr rfl fun p => M_bind_congr rfl fun w => M_bind_congr rfl fun p => ?_
  split
  · simp only [readAll_bind, readAll_lift]
    refine M_bind_congr rfl fun mc => ?_
    show (readAll v (if v < 0 then _ else _)) = (if v < 0 then _ else _)
    split
    · simp only [readAll_bind, readAll_lift]
      rfl
    · rfl
  · rfl

theorem ecdf1Mns2016bT_readAll (env : Env F) (b : List F) (v : Int) :
    readAll v (ecdf1Mns2016bT env b) = ecdf1Mns2016bWith env (fun _ _ => v) b := by
  unfold ecdf1Mns2016bT ecdf1Mns2016bWith Thr.forRange CP.forRange
  simp only [readAll_bind, readAll_lift, readAll_forAux, mnsStepT_readAll]
  rfl

omit [FOps F] in
/-- With enough other calls about to assign `v`, every read of call 0 can be made to give `v`. -/
theorem Process.readAll_possible (v : Int) : ∀ (t : Thr F) (J : Nat) (p : Process F), 1 ≤ J → p.thread 0 = t →
    (∀ j, J ≤ j → ∃ k, p.thread j = .store v k) → ∃ s : List Nat, (p.run s).thread 0 = .done (readAll v t) := by
  intro t
  have h0 : ∀ (J : Nat) (p : Process F) (i : Nat), i < J → (∀ j, J ≤ j → ∃ k, p.thread j = .store v k) →
      ∀ j, J ≤ j → ∃ k, (p.step i).thread j = .store v k := by
    intro J p i hi h j hj
    rw [Process.step_other p (by omega)]
    exact h j hj
  induction t with
  | done r => intro J p hJ h _; exact ⟨[], h⟩
  | store w k ih =>
    intro J p hJ h hh
    obtain ⟨s, hs⟩ := ih J (p.step 0) hJ (by unfold Process.step; rw [h]; simp [Process.set]) (h0 J p 0 (by omega) hh)
    exact ⟨0 :: s, hs⟩
  | load k ih =>
    intro J p hJ h hh
    obtain ⟨kJ, hJ'⟩ := hh J le_rfl
    have e1 : (p.step J).thread 0 = load k := by rw [Process.step_other p (by omega)]; exact h
    have e2 : (p.step J).exponent = v := by unfold Process.step; rw [hJ']
    obtain ⟨s, hs⟩ := ih v (J + 1) ((p.step J).step 0) (by omega)
      (by
        have : ((p.step J).step 0).thread 0 = k (p.step J).exponent := by
          generalize p.step J = q at e1 ⊢
          unfold Process.step
          rw [e1]
          simp [Process.set]
        rw [this, e2])
      (h0 (J + 1) _ 0 (by omega) (h0 (J + 1) p J (by omega) fun j hj => hh j (by omega)))
    exact ⟨J :: 0 :: s, hs⟩
  | enter k ih =>
    intro J p hJ h hh
    obtain ⟨s, hs⟩ := ih J (p.step 0) hJ (by unfold Process.step; rw [h]; simp [Process.set]) (h0 J p 0 (by omega) hh)
    exact ⟨0 :: s, hs⟩
  | leave k ih =>
    intro J p hJ h hh
    obtain ⟨s, hs⟩ := ih J (p.step 0) hJ (by unfold Process.step; rw [h]; simp [Process.set]) (h0 J p 0 (by omega) hh)
    exact ⟨0 :: s, hs⟩

/-! ## The computation without rescaling -/

theorem mnsStep_noscale {E : Fault → Prop} {env : Env F} {readExponent : Int → F → Int} (hread : ∀ i x, 0 ≤ readExponent i x) {b : List F} {d : Nat}
    {cap : Nat} {s : Poly F × Int} {mu al : Nat → F} {bd : F} (h : PRep cap d s.1 mu al) (hd : d + 1 < cap) (hb : Has b d bd) :
    Sat E (fun s' => s'.2 = s.2 ∧ PRep cap (d + 1) s'.1 (stepMu d mu al bd) (intAl al (neg bd)))
      (mnsStep env readExponent b d s) := by
  unfold mnsStep
  refine Sat.bind (integrate_sat h hd) fun p1 h1 => ?_
  rw [rd_eq hb, M_ok_bind]
  refine Sat.bind (setAdd1_sat h1 (neg bd)) fun p2 h2 => ?_
  refine Sat.bind (evaluate_sat h2 bd) fun v hv => ?_
  subst hv
  refine Sat.bind (setMult0_sat h2 _) fun p3 h3 => ?_
  split
  · refine Sat.bind (maxMult_sat h3 (by omega)) fun mc _ => ?_
    dsimp only
    rw [if_neg (by have := hread d mc; omega)]
    exact ⟨rfl, h3⟩
  · exact ⟨rfl, h3⟩

theorem mns_noscale {E : Fault → Prop} (env : Env F) {readExponent : Int → F → Int} (hread : ∀ i x, 0 ≤ readExponent i x) {b : List F}
    {bv : Nat → F} (hb : ∀ i : Nat, i < b.length → Has b i (bv i)) (hchk : checkBoundaryVector "b" (b.length : Int) b = .ok ())
    (R : Nat → (Nat → F) → (Nat → F) → Prop) (hR0 : R 0 (setC (fun _ => zero) one) (fun _ => zero))
    (hRs : ∀ d mu al, d < b.length → R d mu al → R (d + 1) (stepMu d mu al (bv d)) (intAl al (neg (bv d)))) :
    Sat E (fun x => ∃ mu al, R b.length mu al ∧ x = exp (lgamma (ofInt ((b.length : Int) + 1)) +ᶠ log (evalF b.length mu al (ofInt 1))
        -ᶠ ofInt 0 *ᶠ log (ofInt 2)))
      (ecdf1Mns2016bWith env readExponent b) := by
  unfold ecdf1Mns2016bWith
  dsimp only
  rw [hchk, M_ok_bind]
  refine Sat.bind (polyNew_sat env b.length) fun p hp => ?_
  refine Sat.bind (setMult0_sat hp one) fun p hp => ?_
  refine Sat.bind (Sat.forRange (fun j (s : Poly F × Int) => s.2 = 0 ∧ ∃ mu al, PRep (b.length + 2) j.toNat s.1 mu al ∧
    R j.toNat mu al) (by omega) (by exact ⟨rfl, _, _, hp, hR0⟩) ?_) ?_
  · rintro j s h0 h1 ⟨hs0, mu, al, hs, hR⟩
    obtain ⟨j, rfl⟩ : ∃ k : Nat, j = (k : Int) := ⟨j.toNat, by omega⟩
    rw [Int.toNat_natCast] at hs hR
    have e : ((j : Int) + 1).toNat = j + 1 := by omega
    rw [e]
    refine (mnsStep_noscale hread hs (by omega) (hb j (by omega))).mono ?_
    rintro s' ⟨hs', h⟩
    exact ⟨by rw [hs', hs0], _, _, h, hRs j mu al (by omega) hR⟩
  · rintro ⟨p, delta⟩ ⟨hs0, mu, al, hs, hR⟩
    rw [Int.toNat_natCast] at hs hR
    dsimp only at hs0 hs ⊢
    subst hs0
    refine Sat.bind (evaluate_sat hs _) fun v hv => ?_
    subst hv
    exact ⟨mu, al, hR, rfl⟩

end CP
