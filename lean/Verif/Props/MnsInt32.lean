import Verif.Model.MnsInt32
import Verif.Props.Int32
/-
Property C40 for ecdf1_mns2016: the accumulated exponent does not overflow an `int`.
-/
namespace CP.Props
open CP
variable {F : Type} [FOps F]

theorem forAux_congr_inv {σ : Type} {f g : Int → σ → M σ} (Inv : Int → σ → Prop) : ∀ (k : ℕ) (lo : Int) (s : σ), Inv lo s →
    (∀ j s, lo ≤ j → j < lo + k → Inv j s → f j s = g j s ∧ ∀ s', g j s = .ok s' → Inv (j + 1) s') →
    forAux f k lo s = forAux g k lo s
  | 0, _, _, _, _ => rfl
  | k + 1, lo, s, h0, h => by
    obtain ⟨e, hn⟩ := h lo s le_rfl (by push_cast; omega) h0
    unfold forAux
    rw [e]
    cases hg : g lo s with
    | error err => rfl
    | ok s' =>
      rw [M_ok_bind, M_ok_bind]
      exact forAux_congr_inv Inv k (lo + 1) s' (hn s' hg) fun j s h1 h2 h3 => h j s (by omega) (by push_cast; omega) h3

theorem forRange_congr_inv {σ : Type} {f g : Int → σ → M σ} (Inv : Int → σ → Prop) (lo hi : Int) (s : σ) (h0 : Inv lo s)
    (h : ∀ j s, lo ≤ j → j < hi → Inv j s → f j s = g j s ∧ ∀ s', g j s = .ok s' → Inv (j + 1) s') :
    forRange lo hi s f = forRange lo hi s g := by
  unfold forRange
  exact forAux_congr_inv Inv _ lo s h0 fun j s h1 h2 h3 => h j s h1 (by omega) h3

/-- The totals that are possible before iteration `j` if no exponent is below `-E`. -/
def DeltaInv (E j d : ℤ) : Prop := 0 ≤ d ∧ d ≤ E * ((j + 15) / 16)

theorem mnsStep32_eq (env : Env F) {E : ℤ} (hE : 0 ≤ E) {re : ℤ → F → ℤ} (hlo : ∀ i x, -E ≤ re i x)
    (hhi : ∀ i x, re i x ≤ 2 ^ 31 - 1) {b : List F} (hn : E * ((b.length + 15) / 16) ≤ 2 ^ 31 - 1) (j : ℤ) (s : Poly F × ℤ) (hj0 : 0 ≤ j) (hj1 : j < b.length) (hs : DeltaInv E j s.2) :
    mnsStep32 env re b j s = mnsStep env re b j s ∧ ∀ s', mnsStep env re b j s = .ok s' → DeltaInv E (j + 1) s'.2 := by
  unfold DeltaInv at hs ⊢
  unfold mnsStep32 mnsStep
  have keep : 0 ≤ s.2 ∧ s.2 ≤ E * ((j + 1 + 15) / 16) :=
    ⟨hs.1, hs.2.trans (Int.mul_le_mul_of_nonneg_left (by omega) hE)⟩
  have hmax : E * ((j + 1 + 15) / 16) ≤ 2 ^ 31 - 1 := (Int.mul_le_mul_of_nonneg_left (by omega) hE).trans hn
  have aux : ∀ p : Poly F,
      ((if j.tmod NUM_ITERATIONS_BETWEEN_EXP_FIXES = 0 then do
        let maxCoef ← p.maxMult env
        let highest := wrap32 (re j maxCoef)
        if highest < 0 then do
          let p ← p.ldexpAll (wrap32 (0 - highest))
          .ok (p, wrap32 (s.2 + wrap32 (0 - highest)))
        else .ok (p, s.2)
      else .ok (p, s.2)) : M (Poly F × ℤ)) =
      (if j.tmod NUM_ITERATIONS_BETWEEN_EXP_FIXES = 0 then do
        let maxCoef ← p.maxMult env
        let highest := re j maxCoef
        if highest < 0 then do
          let p ← p.ldexpAll (0 - highest)
          .ok (p, s.2 + (0 - highest))
        else .ok (p, s.2)
      else .ok (p, s.2)) ∧
      ∀ s', (if j.tmod NUM_ITERATIONS_BETWEEN_EXP_FIXES = 0 then do
        let maxCoef ← p.maxMult env
        let highest := re j maxCoef
        if highest < 0 then do
          let p ← p.ldexpAll (0 - highest)
          .ok (p, s.2 + (0 - highest))
        else .ok (p, s.2)
      else (.ok (p, s.2) : M (Poly F × ℤ))) = .ok s' → 0 ≤ s'.2 ∧ s'.2 ≤ E * ((j + 1 + 15) / 16) := by
    intro p
    by_cases hm : j.tmod NUM_ITERATIONS_BETWEEN_EXP_FIXES = 0
    · simp only [hm, if_true]
      unfold NUM_ITERATIONS_BETWEEN_EXP_FIXES at hm
      rw [Int.tmod_eq_emod_of_nonneg hj0] at hm
      have hstep : E * ((j + 1 + 15) / 16) = E * ((j + 15) / 16) + E := by
        have : (j + 1 + 15) / 16 = (j + 15) / 16 + 1 := by omega
        rw [this]; ring
      have hnn : 0 ≤ E * ((j + 15) / 16) := hs.1.trans hs.2
      cases hc : p.maxMult env with
      | error e => exact ⟨rfl, fun s' h => by cases h⟩
      | ok c =>
        have h1 := hlo j c
        have h2 := hhi j c
        have e1 : wrap32 (re j c) = re j c := by rw [bmod_cases]; omega
        simp only [M_ok_bind, e1]
        by_cases hneg : re j c < 0
        · have e2 : wrap32 (0 - re j c) = 0 - re j c := by rw [bmod_cases]; omega
          have e3 : wrap32 (s.2 + (0 - re j c)) = s.2 + (0 - re j c) := by rw [bmod_cases]; omega
          simp only [hneg, if_true, e2, e3, true_and]
          intro s' h
          cases hp : p.ldexpAll (0 - re j c) with
          | error e => rw [hp] at h; cases h
          | ok p' =>
            rw [hp] at h
            cases h
            show 0 ≤ s.2 + (0 - re j c) ∧ s.2 + (0 - re j c) ≤ _
            omega
        · simp only [hneg, if_false, true_and]
          intro s' h
          cases h
          exact keep
    · simp only [hm, if_false, true_and]
      intro s' h
      cases h
      exact keep
  cases h1 : s.1.integrate with
  | error e => exact ⟨rfl, fun s' h => by cases h⟩
  | ok p1 =>
    cases h2 : rd b j with
    | error e => exact ⟨rfl, fun s' h => by cases h⟩
    | ok bi =>
      simp only [M_ok_bind]
      cases h3 : p1.setAdd env 1 (FOps.neg bi) with
      | error e => exact ⟨rfl, fun s' h => by cases h⟩
      | ok p2 =>
        simp only [M_ok_bind]
        cases h4 : p2.evaluate bi with
        | error e => exact ⟨rfl, fun s' h => by cases h⟩
        | ok v =>
          simp only [M_ok_bind]
          cases h5 : p2.setMult env 0 (FOps.neg v) with
          | error e => exact ⟨rfl, fun s' h => by cases h⟩
          | ok p3 =>
            simp only [M_ok_bind]
            exact aux p3

/-- C40: if no exponent that is read is below `-E` and `E` times the number of rescalings fits into an `int`, the `int` variables
of `ecdf1_mns2016_b` do not overflow: the function returns, in any arithmetic, what it would with unbounded integers, which is
what all other theorems are about. -/
theorem C40_mns2016 (env : Env F) {E : ℤ} (hE : 1 ≤ E) {re : ℤ → F → ℤ} (hlo : ∀ i x, -E ≤ re i x)
    (hhi : ∀ i x, re i x ≤ 2 ^ 31 - 1) {b : List F} (hn : E * ((b.length + 15) / 16) ≤ 2 ^ 31 - 1) (hn2 : b.length < 2 ^ 31 - 1) :
    ecdf1Mns2016bWith32 env re b = ecdf1Mns2016bWith env re b := by
  have e1 : wrap32 (b.length : ℤ) = b.length := by rw [bmod_cases]; omega
  have e2 : wrap32 ((b.length : ℤ) + 1) = b.length + 1 := by rw [bmod_cases]; omega
  have key : ∀ p : Poly F, forRange 0 b.length (p, (0 : ℤ)) (mnsStep32 env re b) = forRange 0 b.length (p, (0 : ℤ)) (mnsStep env re b) :=
    fun p => forRange_congr_inv (fun j s => DeltaInv E j s.2) _ _ _ ⟨le_rfl, by simp⟩ fun j s h0 h1 h2 =>
      mnsStep32_eq env (by omega) hlo hhi hn j s h0 h1 h2
  unfold ecdf1Mns2016bWith32 ecdf1Mns2016bWith
  simp only [e1, e2, key]

/-- C40: with the exponents of `long double` (the smallest positive one is 2^-16445): up to 2089360 bounds. -/
theorem C40_mns2016_long_double (env : Env F) {re : ℤ → F → ℤ} (hlo : ∀ i x, -16445 ≤ re i x) (hhi : ∀ i x, re i x ≤ 2 ^ 31 - 1)
    {b : List F} (hn : b.length ≤ 2089360) : ecdf1Mns2016bWith32 env re b = ecdf1Mns2016bWith env re b :=
  C40_mns2016 env (E := 16445) (by norm_num) hlo hhi (by omega) (by omega)

/-- C40: with those of `double` (2^-1074, if `FLOAT` is `double`): up to 31992304 bounds. -/
theorem C40_mns2016_double (env : Env F) {re : ℤ → F → ℤ} (hlo : ∀ i x, -1074 ≤ re i x) (hhi : ∀ i x, re i x ≤ 2 ^ 31 - 1)
    {b : List F} (hn : b.length ≤ 31992304) : ecdf1Mns2016bWith32 env re b = ecdf1Mns2016bWith env re b :=
  C40_mns2016 env (E := 1074) (by norm_num) hlo hhi (by omega) (by omega)

/-- The hypotheses can be met: exponents cut off below, a million bounds. -/
example (env : Env F) (x : F) (h : FOps.frexpExp x = -3) :
    ecdf1Mns2016bWith32 env (fun _ _ => FOps.frexpExp x) (List.replicate 1000000 x)
      = ecdf1Mns2016bWith env (fun _ _ => FOps.frexpExp x) (List.replicate 1000000 x) :=
  C40_mns2016_long_double env (fun _ _ => by rw [h]; omega) (fun _ _ => by rw [h]; omega) (by rw [List.length_replicate]; omega)

end CP.Props
