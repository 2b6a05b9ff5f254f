import Verif.Proofs.LongDouble
import Verif.Proofs.LibmWit
import Verif.Props.IeeeMns
/-
Property C65: `ecdf1_mns2016` as compiled, with `double` boundaries and results and `long double` arithmetic inside.
-/
open MeasureTheory Set
namespace CP.Props
open CP.Spec FOps
noncomputable section

/-- C65: for every list of numbers (valid or not, NaN, infinities), `ecdf1_mns2016_b` with `double` outside and `long double` inside
behaves as if all of it were `long double`: same error or fault, and the same number rounded to `double`.  So what is proved of the
program with one number type holds of the compiled program. -/
theorem C65_transfer {F G : Type} [FOps F] [FOps G] {L : LongDouble F G} (h : Widens L.widen) (env : Env F) (b : List F) :
    ecdf1Mns2016bX L env b = (ecdf1Mns2016b (envG env.asserts) (b.map L.widen)).map L.narrow := mnsX_eq h env b

/-- C65: conversion from `double` to a wider IEEE format satisfies the assumption of `C65_transfer`. -/
theorem C65_ieee_widens {D A : FloatSystem} (hD : D.f.OK) (hA : A.f.OK) (h : D.f.Sub A.f) : Widens (ieeeConv D A).widen :=
  convert_widens hD hA h

/-- C65: with one number type and trivial conversions the two models are the same program. -/
theorem C65_same_type {F : Type} [FOps F] (env : Env F) (b : List F) :
    ecdf1Mns2016bX ⟨id, id⟩ env b = ecdf1Mns2016b (envG env.asserts) b := by
  have h : Widens (LongDouble.widen (⟨id, id⟩ : LongDouble F F)) := ⟨fun _ _ => rfl, rfl, rfl, rfl, fun _ => rfl⟩
  rw [mnsX_eq h]
  show (ecdf1Mns2016b (envG env.asserts) (b.map id)).map id = _
  rw [List.map_id]
  cases ecdf1Mns2016b (envG env.asserts) b <;> rfl

variable {D A : FloatSystem}

/-- The error bound assumed of the `long double` library functions: four units in the last place of the x87 format. -/
def u61 : ℝ := (2 : ℝ) ^ (-61 : ℤ)

theorem u61_val : u61 = 1 / 2305843009213693952 := by unfold u61; norm_num

theorem long_fmt_ok {f : Format} (h : LongDoubleFormat f) : f.OK where
  hp := le_trans (by norm_num [x87Extended]) h.sub.p
  hmin := h.one
  hmax := le_trans (by norm_num [x87Extended]) h.sub.emax

theorem long_ok (h : LongDoubleFormat A.f) : A.OK u61 where
  fmt := long_fmt_ok h
  u_ge := by
    have h1 : 64 ≤ A.f.p := h.sub.p
    exact zpow_le_zpow_right₀ (by norm_num) (by omega)
  u_le := by rw [u61_val]; norm_num

theorem double_sub_long (hD : D.f = binary64) (h : LongDoubleFormat A.f) : D.f.Sub A.f where
  p := by rw [hD]; exact le_trans (by norm_num [x87Extended, binary64]) h.sub.p
  emin := by rw [hD]; exact h.sub.emin.trans (by norm_num [x87Extended, binary64])
  emax := by rw [hD]; exact le_trans (by norm_num [x87Extended, binary64]) h.sub.emax

/-- From the `long double` result to the `double` result. -/
theorem narrow_result (hD : D.f = binary64) (hA : LongDoubleFormat A.f) (env : Env (Num D)) {n : ℕ} {b : Fin n → Num D}
    (hbf : ∀ i, (b i).finite) {E P : ℝ} (hP : |P| ≤ 1) (hE : E ≤ 1)
    (hcore : ∀ b' : Fin n → Num A, (∀ i, (b' i).finite) → (∀ i, (b' i).val = (b i).val) → ∃ x : Num A,
      ecdf1Mns2016b (envG env.asserts) (List.ofFn b') = .ok x ∧ x.finite ∧ |x.val - P| ≤ E) :
    ∃ x : Num D, ecdf1Mns2016bX (ieeeConv D A) env (List.ofFn b) = .ok x ∧ x.finite ∧ |x.val - P| ≤ E + 3 * (2 : ℝ) ^ (-53 : ℤ) := by
  have hDok : D.f.OK := hD ▸ binary64_ok
  have hsub := double_sub_long hD hA
  have hconv : ∀ i, ((convert D A (b i)).finite ∧ (convert D A (b i)).val = (b i).val) := by
    intro i
    obtain ⟨a, ha, e⟩ := hbf i
    rw [e, convert_fin hsub]
    exact ⟨⟨_, _, rfl⟩, rfl⟩
  obtain ⟨y, hy, ⟨c, hc, rfl⟩, hye⟩ := hcore (fun i => convert D A (b i)) (fun i => (hconv i).1) (fun i => (hconv i).2)
  have hye' : |c - P| ≤ E := hye
  have hc2 : |c| ≤ 2 := by
    have := abs_sub_abs_le_abs_sub c P
    linarith
  have hok := double_ok53 hD
  have hO := one_le_Omega (A := D) hDok
  obtain ⟨k1, k2⟩ := roundNum_abs hok (x := c) (hc2.trans hO)
  refine ⟨roundNum D c, ?_, k1, ?_⟩
  · rw [mnsX_eq (C65_ieee_widens hDok (long_fmt_ok hA) hsub), List.map_ofFn]
    have : (List.ofFn ((ieeeConv D A).widen ∘ b)) = List.ofFn fun i => convert D A (b i) := rfl
    rw [this, hy]
    rfl
  · have h1 := abs_sub_le (roundNum D c).val c P
    have h2 : (2 : ℝ) ^ (-53 : ℤ) * |c| ≤ (2 : ℝ) ^ (-53 : ℤ) * 2 := mul_le_mul_of_nonneg_left hc2 (by positivity)
    have h3 : (2 : ℝ) ^ (D.f.emin - 1) ≤ (2 : ℝ) ^ (-53 : ℤ) := by
      rw [hD]; exact zpow_le_zpow_right₀ (by norm_num) (by norm_num [binary64])
    linarith

theorem long_emin (h : LongDoubleFormat A.f) : (2 : ℝ) ^ A.f.emin ≤ 1 / 10 ^ 30 := by
  refine le_trans ?_ two_neg_1000
  exact zpow_le_zpow_right₀ (by norm_num) (h.sub.emin.trans (by norm_num [x87Extended]))

/-- With numbers. -/
theorem long_num (hD : D.f = binary64) (hA : LongDoubleFormat A.f) (env : Env (Num D)) {n M N q e : ℕ} (hnM : n ≤ M)
    (hN : 2 * N = M ^ 2 + (9 + 2 * q) * M + 2 * q + 4) (hL : LibmAccurate A u61 n) (hpow : PowAccurate A u61 q n) (hp : M ^ 2 + 2 ≤ 2 ^ 64)
    (hfac : 64 * 4 ^ M * M.factorial ≤ 2 ^ e) (he : e ≤ 16000)
    {Kc p0 E : ℝ} (hKc : (81 / 50 : ℝ) ^ (M + 2) ≤ Kc) (hp0 : 0 < p0) (h1 : 8 * (N * u61) * (Kc + 1) ≤ p0)
    (h2 : u61 * (3 * (M : ℝ) ^ 2 + 6 + 1 / p0) ≤ 1 / 16)
    (hE : 2 * (N * u61) * (Kc + 1) + 16 * u61 * (3 * (M : ℝ) ^ 2 + 6) + 1 / 10 ^ 30 ≤ E) (hE1 : E ≤ 1)
    {b : Fin n → Num D} (hbf : ∀ i, (b i).finite) (hb : ValidBound fun i => (b i).val) (hP : p0 ≤ lowerProb fun i => (b i).val) :
    ∃ x : Num D, ecdf1Mns2016bX (ieeeConv D A) env (List.ofFn b) = .ok x ∧ x.finite ∧
      |x.val - lowerProb fun i => (b i).val| ≤ E + 3 * (2 : ℝ) ^ (-53 : ℤ) := by
  have hP1 : (lowerProb fun i => (b i).val) ≤ 1 := measureReal_le_one
  refine narrow_result hD hA env hbf (by rw [abs_of_nonneg (hp0.le.trans hP)]; exact hP1) hE1 fun b' hbf' hbv => ?_
  have hv : (fun i => (b' i).val) = fun i => (b i).val := funext hbv
  have h64 : 64 ≤ A.f.p := hA.sub.p
  have hemax : 16384 ≤ A.f.emax := hA.sub.emax
  have hemin : A.f.emin ≤ -16445 := hA.sub.emin
  obtain ⟨x, hx, hxf, hxe⟩ := mns_num (long_ok hA) (by unfold u61; exact zpow_le_zpow_right₀ (by norm_num) (by norm_num)) hA.range
    (envG env.asserts) hnM hN hL hpow (hp.trans (Nat.pow_le_pow_right (by norm_num) h64)) hfac (by omega) (by omega) hKc hp0 h1 h2 hbf'
    (by rw [hv]; exact hb) (by rw [hv]; exact hP)
  refine ⟨x, hx, hxf, ?_⟩
  rw [hv] at hxe
  have := long_emin hA
  linarith

/-- C65: `ecdf1_mns2016_b` as compiled, with IEEE doubles outside and inside a `long double` of at least the x87 extended format, whose
library is accurate to `2^-61` and may compute `pow(x, i)` by `i` multiplications: for every valid lower boundary of up to 20 doubles
whose probability is at least `1e-9`, the result is a finite double within `1e-10` of the probability. -/
theorem C65_long_double_20 (hD : D.f = binary64) (hA : LongDoubleFormat A.f) {n : ℕ} (hn : n ≤ 20) (hL : LibmAccurate A u61 n)
    (hpow : PowAccurate A u61 20 n) (env : Env (Num D)) {b : Fin n → Num D} (hbf : ∀ i, (b i).finite)
    (hb : ValidBound fun i => (b i).val) (hP : 1 / 10 ^ 9 ≤ lowerProb fun i => (b i).val) :
    ∃ x : Num D, ecdf1Mns2016bX (ieeeConv D A) env (List.ofFn b) = .ok x ∧ x.finite ∧
      |x.val - lowerProb fun i => (b i).val| ≤ 1 / 10 ^ 10 := by
  obtain ⟨x, hx, hxf, hxe⟩ := long_num hD hA env (M := 20) (N := 712) (q := 20) (e := 200) hn (by norm_num) hL hpow (by norm_num)
    (by norm_num [Nat.factorial]) (by norm_num) (Kc := 40700) (p0 := 1 / 10 ^ 9) (E := 9 / 10 ^ 11) (by norm_num) (by norm_num)
    (by rw [u61_val]; norm_num) (by rw [u61_val]; norm_num) (by rw [u61_val]; norm_num) (by norm_num) hbf hb hP
  exact ⟨x, hx, hxf, hxe.trans (by norm_num)⟩

/-- C65: up to 30 doubles, probability at least `1e-7`: within `1e-8`. -/
theorem C65_long_double_30 (hD : D.f = binary64) (hA : LongDoubleFormat A.f) {n : ℕ} (hn : n ≤ 30) (hL : LibmAccurate A u61 n)
    (hpow : PowAccurate A u61 30 n) (env : Env (Num D)) {b : Fin n → Num D} (hbf : ∀ i, (b i).finite)
    (hb : ValidBound fun i => (b i).val) (hP : 1 / 10 ^ 7 ≤ lowerProb fun i => (b i).val) :
    ∃ x : Num D, ecdf1Mns2016bX (ieeeConv D A) env (List.ofFn b) = .ok x ∧ x.finite ∧
      |x.val - lowerProb fun i => (b i).val| ≤ 1 / 10 ^ 8 := by
  obtain ⟨x, hx, hxf, hxe⟩ := long_num hD hA env (M := 30) (N := 1517) (q := 30) (e := 200) hn (by norm_num) hL hpow (by norm_num)
    (by norm_num [Nat.factorial]) (by norm_num) (Kc := 5100000) (p0 := 1 / 10 ^ 7) (E := 9 / 10 ^ 9) (by norm_num) (by norm_num)
    (by rw [u61_val]; norm_num) (by rw [u61_val]; norm_num) (by rw [u61_val]; norm_num) (by norm_num) hbf hb hP
  exact ⟨x, hx, hxf, hxe.trans (by norm_num)⟩

/-- C65: up to 40 doubles, probability at least `1e-5`: within `2e-6`. -/
theorem C65_long_double_40 (hD : D.f = binary64) (hA : LongDoubleFormat A.f) {n : ℕ} (hn : n ≤ 40) (hL : LibmAccurate A u61 n)
    (hpow : PowAccurate A u61 40 n) (env : Env (Num D)) {b : Fin n → Num D} (hbf : ∀ i, (b i).finite)
    (hb : ValidBound fun i => (b i).val) (hP : 1 / 10 ^ 5 ≤ lowerProb fun i => (b i).val) :
    ∃ x : Num D, ecdf1Mns2016bX (ieeeConv D A) env (List.ofFn b) = .ok x ∧ x.finite ∧
      |x.val - lowerProb fun i => (b i).val| ≤ 2 / 10 ^ 6 := by
  obtain ⟨x, hx, hxf, hxe⟩ := long_num hD hA env (M := 40) (N := 2622) (q := 40) (e := 250) hn (by norm_num) hL hpow (by norm_num)
    (by norm_num [Nat.factorial]) (by norm_num) (Kc := 640000000) (p0 := 1 / 10 ^ 5) (E := 19 / 10 ^ 7) (by norm_num) (by norm_num)
    (by rw [u61_val]; norm_num) (by rw [u61_val]; norm_num) (by rw [u61_val]; norm_num) (by norm_num) hbf hb hP
  exact ⟨x, hx, hxf, hxe.trans (by norm_num)⟩

/-- `ecdf1_mns2016_B` on a valid boundary is `ecdf1_mns2016_b` on the reflected one. -/
theorem mnsBX_eq (hD : D.f = binary64) (L : LongDouble (Num D) (Num A)) (env : Env (Num D)) {n : ℕ} {B : Fin n → Num D}
    (hBf : ∀ i, (B i).finite) (hB : ValidBound fun i => (B i).val) :
    ecdf1Mns2016BX L env (List.ofFn B) = ecdf1Mns2016bX L env (List.ofFn (flipF B)) := by
  unfold ecdf1Mns2016BX
  dsimp only
  rw [check_valid_float (R := ieeeModel D _ (double_ok53 hD)) hBf hB "B" _ (by simp), M_ok_bind, symmetricSteps_ofFn, M_ok_bind]

/-- C65: the same for upper boundaries: `ecdf1_mns2016_B` reflects the boundary in `double`. -/
theorem C65_long_double_B_20 (hD : D.f = binary64) (hA : LongDoubleFormat A.f) {n : ℕ} (hn : n ≤ 20) (hL : LibmAccurate A u61 n)
    (hpow : PowAccurate A u61 20 n) (env : Env (Num D)) {B : Fin n → Num D} (hBf : ∀ i, (B i).finite)
    (hB : ValidBound fun i => (B i).val) (hP : 2 / 10 ^ 9 ≤ upperProb fun i => (B i).val) :
    ∃ x : Num D, ecdf1Mns2016BX (ieeeConv D A) env (List.ofFn B) = .ok x ∧ x.finite ∧
      |x.val - upperProb fun i => (B i).val| ≤ 2 / 10 ^ 10 := by
  obtain ⟨f1, f2, f3⟩ := double_reflect hD hBf hB
  have h4 := sq_53_le hn (c := 1 / 10 ^ 12) (by norm_num)
  have h5 := abs_le.mp (f3.trans h4)
  obtain ⟨x, hx, hxf, hxe⟩ := C65_long_double_20 hD hA hn hL hpow env f1 f2 (by norm_num at hP h5 ⊢; linarith)
  refine ⟨x, (mnsBX_eq hD _ env hBf hB).trans hx, hxf, ?_⟩
  have := abs_sub_le x.val (lowerProb fun i => (flipF B i).val) (upperProb fun i => (B i).val)
  refine this.trans ((add_le_add hxe (f3.trans h4)).trans ?_)
  norm_num

/-- C65: upper boundaries of up to 30 doubles. -/
theorem C65_long_double_B_30 (hD : D.f = binary64) (hA : LongDoubleFormat A.f) {n : ℕ} (hn : n ≤ 30) (hL : LibmAccurate A u61 n)
    (hpow : PowAccurate A u61 30 n) (env : Env (Num D)) {B : Fin n → Num D} (hBf : ∀ i, (B i).finite)
    (hB : ValidBound fun i => (B i).val) (hP : 2 / 10 ^ 7 ≤ upperProb fun i => (B i).val) :
    ∃ x : Num D, ecdf1Mns2016BX (ieeeConv D A) env (List.ofFn B) = .ok x ∧ x.finite ∧
      |x.val - upperProb fun i => (B i).val| ≤ 2 / 10 ^ 8 := by
  obtain ⟨f1, f2, f3⟩ := double_reflect hD hBf hB
  have h4 := sq_53_le hn (c := 1 / 10 ^ 12) (by norm_num)
  have h5 := abs_le.mp (f3.trans h4)
  obtain ⟨x, hx, hxf, hxe⟩ := C65_long_double_30 hD hA hn hL hpow env f1 f2 (by norm_num at hP h5 ⊢; linarith)
  refine ⟨x, (mnsBX_eq hD _ env hBf hB).trans hx, hxf, ?_⟩
  have := abs_sub_le x.val (lowerProb fun i => (flipF B i).val) (upperProb fun i => (B i).val)
  refine this.trans ((add_le_add hxe (f3.trans h4)).trans ?_)
  norm_num

end
end CP.Props
