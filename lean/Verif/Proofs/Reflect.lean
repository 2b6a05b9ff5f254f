import Verif.Proofs.NewExact
/-
Reflection `x ↦ 1 - x`: the lower and upper one-sided probabilities, and `symmetric_steps`.
-/
set_option linter.unusedVariables false
open MeasureTheory Set
namespace CP.Spec
noncomputable section
variable {n : ℕ}

/-- `1 - reverse(b)`. -/
def reflect (b : Fin n → ℝ) : Fin n → ℝ := fun i => 1 - b i.rev

theorem reflect_reflect (b : Fin n → ℝ) : reflect (reflect b) = b := by
  funext i; simp [reflect]

theorem reflect_valid {b : Fin n → ℝ} (hb : ValidBound b) : ValidBound (reflect b) := by
  refine ⟨fun i j hij => ?_, fun i => ?_⟩
  · have := hb.mono (Fin.rev_le_rev.mpr hij)
    unfold reflect; linarith
  · have := hb.range i.rev
    unfold reflect
    constructor
    · linarith [this.2]
    · linarith [this.1]

theorem orderStat_flip (x : Fin n → ℝ) (i : Fin n) :
    orderStat (fun j => 1 - x j) i = 1 - orderStat x i.rev := by
  have h := Tuple.unique_monotone (f := fun j => 1 - x j) (σ := Tuple.sort fun j => 1 - x j)
    (τ := Fin.revPerm.trans (Tuple.sort x)) (Tuple.monotone_sort _) (by
      intro i j hij
      have := orderStat_monotone x (Fin.rev_le_rev.mpr hij)
      simp only [Function.comp, Equiv.trans_apply, Fin.revPerm_apply]
      unfold orderStat at this
      simp only [Function.comp] at this
      linarith)
  have := congrFun h i
  simpa [orderStat] using this

/-- The reflection as a measurable bijection. -/
def flipEquiv (n : ℕ) : (Fin n → ℝ) ≃ᵐ (Fin n → ℝ) :=
  MeasurableEquiv.ofInvolutive (fun x j => 1 - x j) (fun x => by funext j; simp)
    (measurable_pi_lambda _ fun j => (measurable_pi_apply j).const_sub 1)

theorem flip_preserving : MeasurePreserving (flipEquiv n) (iidUniform n) (iidUniform n) := by
  have h1 : MeasurePreserving (fun y : ℝ => 1 - y) unif unif := by
    have := (Measure.measurePreserving_sub_left (volume : Measure ℝ) 1).restrict_preimage
      (measurableSet_Icc (a := (0:ℝ)) (b := 1))
    have e : (fun y : ℝ => 1 - y) ⁻¹' Icc 0 1 = Icc 0 1 := by
      ext y; simp only [mem_preimage, mem_Icc]; constructor <;> rintro ⟨h1, h2⟩ <;> constructor <;> linarith
    rw [e] at this
    exact this
  exact measurePreserving_pi (fun _ : Fin n => unif) (fun _ => unif) (fun _ => h1)

theorem flip_real (s : Set (Fin n → ℝ)) : (iidUniform n).real (flipEquiv n ⁻¹' s) = (iidUniform n).real s := by
  unfold Measure.real
  rw [flip_preserving.measure_preimage_equiv]

theorem noncrossProb_reflect (b B : Fin n → ℝ) : noncrossProb b B = noncrossProb (reflect B) (reflect b) := by
  unfold noncrossProb
  rw [← flip_real]
  congr 1
  ext x
  show (∀ i, _ ∧ _) ↔ ∀ i, _ ∧ _
  have e : ∀ i, orderStat ((flipEquiv n) x) i = 1 - orderStat x i.rev := fun i => orderStat_flip x i
  simp only [e, reflect]
  constructor
  · intro h i
    have := h i.rev
    rw [Fin.rev_rev] at this
    constructor <;> linarith [this.1, this.2]
  · intro h i
    have := h i.rev
    rw [Fin.rev_rev] at this
    constructor <;> linarith [this.1, this.2]

theorem lowerProb_reflect (b : Fin n → ℝ) : lowerProb b = upperProb (reflect b) := by
  unfold lowerProb upperProb
  rw [← flip_real]
  congr 1
  ext x
  show (∀ i, _) ↔ ∀ i, _
  have e : ∀ i, orderStat ((flipEquiv n) x) i = 1 - orderStat x i.rev := fun i => orderStat_flip x i
  simp only [e, reflect]
  constructor
  · intro h i
    have := h i.rev
    rw [Fin.rev_rev] at this
    linarith
  · intro h i
    have := h i.rev
    rw [Fin.rev_rev] at this
    linarith

theorem upperProb_reflect (B : Fin n → ℝ) : upperProb B = lowerProb (reflect B) := by
  rw [lowerProb_reflect, reflect_reflect]

/-- One-sided probabilities as two-sided ones with a trivial other side. -/
theorem noncrossProb_ones {b B : Fin n → ℝ} (hB : ∀ i, 1 ≤ B i) : noncrossProb b B = lowerProb b := by
  unfold noncrossProb lowerProb
  apply measureReal_congr
  filter_upwards [ae_mem (n := n)] with x hx
  apply propext
  show (∀ i, _ ∧ _) ↔ ∀ i, _
  refine forall_congr' fun i => ?_
  constructor
  · exact And.left
  · intro h
    exact ⟨h, (hx _).2.trans (hB i)⟩

theorem noncrossProb_zeros {b B : Fin n → ℝ} (hb : ∀ i, b i ≤ 0) : noncrossProb b B = upperProb B := by
  unfold noncrossProb upperProb
  apply measureReal_congr
  filter_upwards [ae_mem (n := n)] with x hx
  apply propext
  show (∀ i, _ ∧ _) ↔ ∀ i, _
  refine forall_congr' fun i => ?_
  constructor
  · exact And.right
  · intro h
    exact ⟨(hb i).trans (hx _).1, h⟩

end
end CP.Spec

namespace CP
variable {F : Type} [FOps F] {E : Fault → Prop}
open FOps

/-- `symmetric_steps` in any arithmetic. -/
theorem symmetricSteps_sat (v : List F) :
    Sat E (fun s => s.length = v.length ∧ ∀ i : Nat, ∀ w, i < v.length → Has v ((v.length : Int) - 1 - i) w →
      Has s i (sub one w)) (symmetricSteps v) := by
  unfold symmetricSteps
  refine (Sat.forRange (fun j (s : List F) => s.length = v.length ∧ ∀ i : Nat, (i : Int) < j → ∀ w,
    Has v ((v.length : Int) - 1 - i) w → Has s i (sub one w)) (by omega) ⟨by simp, fun i hi => by omega⟩ ?_).mono ?_
  · intro j s h0 h1 ⟨hl, hs⟩
    obtain ⟨w, hw⟩ : ∃ w, Has v ((v.length : Int) - 1 - j) w := by
      have : ((v.length : Int) - 1 - j).toNat < v.length := by omega
      refine ⟨v[((v.length : Int) - 1 - j).toNat], by omega, ?_⟩
      simp [this]
    rw [rd_eq hw, M_ok_bind]
    refine (wr_sat _ (by omega) (by omega)).mono ?_
    intro s' ⟨hl', hs'⟩
    refine ⟨by omega, ?_⟩
    intro i hi w' hw'
    rw [hs']
    by_cases e : (i : Int) = j
    · left
      rw [e] at hw'
      exact ⟨e, by rw [hw'.unique hw]⟩
    · exact Or.inr ⟨e, hs i (by omega) w' hw'⟩
  · intro s ⟨hl, hs⟩
    exact ⟨hl, fun i w hi hw => hs i (by omega) w hw⟩

end CP
namespace CP.Spec
noncomputable section

theorem symmetricSteps_eq {n : ℕ} (b : Fin n → ℝ) : symmetricSteps (toList b) = .ok (toList (reflect b)) := by
  obtain ⟨s, hs, hl, hv⟩ := (symmetricSteps_sat (E := NoFault) (toList b)).exists_ok
  rw [hs]
  congr 1
  apply List.ext_getElem?
  intro i
  by_cases hi : i < n
  · have h1 : Has (toList b) (((toList b).length : Int) - 1 - i) (XR.fin (b (Fin.rev ⟨i, hi⟩))) := by
      have := has_toList b (n - 1 - i) (by omega)
      have e : ((n - 1 - i : ℕ) : Int) = ((toList b).length : Int) - 1 - i := by simp; omega
      rw [e] at this
      unfold extB at this
      rw [dif_pos (by omega)] at this
      convert this using 4
      simp [Fin.rev]
      omega
    have h2 := hv i _ (by simpa using hi) h1
    have h3 : s[i]? = some (FOps.sub FOps.one (XR.fin (b (Fin.rev ⟨i, hi⟩)))) := by
      have := h2.2
      simpa using this
    rw [h3]
    simp [toList, hi, reflect]
  · have h1 : s[i]? = none := by rw [List.getElem?_eq_none]; simp at hl; omega
    rw [h1]
    rw [eq_comm, List.getElem?_eq_none]
    simp; omega

/-- `ecdf1_new_b`. -/
theorem ecdf1Newb_sat (env : Env XR) (hf : ExactFFT env.fft) {n : ℕ} (hn : 0 < n) {b : Fin n → ℝ} (hb : ValidBound b)
    (isqrt : ℕ → ℕ) (ha : env.asserts = false ∨ isqrt n + 1 ≤ n) :
    ecdf1Newb env isqrt (toList b) = .ok (XR.fin (lowerProb b)) := by
  unfold ecdf1Newb
  dsimp only
  rw [check_valid hb "b" _ (by simp), M_ok_bind, symmetricSteps_eq, M_ok_bind,
    ecdf1NewB_sat env hf hn (reflect_valid hb) isqrt ha, lowerProb_reflect]

end
end CP.Spec
