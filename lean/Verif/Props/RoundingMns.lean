import Verif.Proofs.MnsFinal
import Verif.Props.RoundingNew
/-
Property C58: rounding error of `ecdf1_mns2016_b` and `ecdf1_mns2016_B`.
-/
open MeasureTheory Set
namespace CP.Props
open CP.Spec FOps

/-- C58: `ecdf1_mns2016_b` in any arithmetic in which every operation has relative error at most `u` (`RelOps`).  `K` is the
condition number `mnsCond`, `P` the true probability.  If the bound `A` on the error of the final integral (as a probability) is
at most half of `P`, the function returns a finite number within `A + (e^w (1+u) - 1)(P + A)` of `P`, where `w` bounds the error
in the exponent of the last formula. -/
theorem C58_mns2016_b_error {F : Type} [FOps F] {R : FloatModel F} {u : ℝ} (ops : RelOps R u) (env : Env F) {n N : ℕ}
    (hN : 2 * N = n ^ 2 + 11 * n + 6) {b : Fin n → F} (hbf : ∀ i, R.finite (b i))
    {rb : Fin n → ℝ} (hrb : ∀ i, R.val (b i) = rb i) (hb : ValidBound rb)
    {P K A w : ℝ} (hPd : P = lowerProb rb) (hP : 0 < P) (hK : K = mnsCond rb)
    (hAd : A = ((1 + u) ^ N - 1) * K) (hA : A ≤ P / 2)
    (hw : w = ((1 + u) ^ 3 - 1) * (3 * Real.log n.factorial + |Real.log P| + 3)) :
    ∃ x, ecdf1Mns2016b env (List.ofFn b) = .ok x ∧ R.finite x ∧
      |R.val x - P| ≤ A + (Real.exp w * (1 + u) - 1) * (P + A) := by
  have e : N = Ex n + n + 3 := by
    have := ex_closed n
    have h2 : 2 * (Ex n + n + 3) = n ^ 2 + 11 * n + 6 := by rw [Nat.mul_add, Nat.mul_add, this]; ring
    omega
  subst hPd hK e
  exact mns_round ops env hbf hrb hb hP hAd hA hw

/-- C58: the condition number lies between the probability and the golden ratio to the power `n + 2`, for every boundary. -/
theorem C58_condition_number {n : ℕ} {b : Fin n → ℝ} (hb : ValidBound b) :
    lowerProb b ≤ mnsCond b ∧ mnsCond b ≤ Real.goldenRatio ^ (n + 2) :=
  ⟨prob_le_cond hb, mnsCond_le hb⟩

/-! ### `p`-bit arithmetic -/

theorem fpRel (p : ℕ) (hp : 1 ≤ p) (Om : ℝ) : RelOps (fpModel p hp Om) ((2 : ℝ) ^ (-(p : ℤ))) where
  u_nonneg := by positivity
  add := by rintro x y ⟨a, rfl⟩ ⟨b, rfl⟩; exact ⟨⟨_, rfl⟩, roundTo_err p _⟩
  sub := by rintro x y ⟨a, rfl⟩ ⟨b, rfl⟩; exact ⟨⟨_, rfl⟩, roundTo_err p _⟩
  mul := by rintro x y ⟨a, rfl⟩ ⟨b, rfl⟩; exact ⟨⟨_, rfl⟩, roundTo_err p _⟩
  div := by
    rintro x y ⟨a, rfl⟩ ⟨b, rfl⟩ h
    have h' : b ≠ 0 := h
    rw [Fp.div_some h']
    exact ⟨⟨_, rfl⟩, roundTo_err p _⟩
  neg := by rintro x ⟨a, rfl⟩; exact ⟨⟨_, rfl⟩, rfl⟩
  ofInt k := ⟨⟨_, rfl⟩, rfl⟩
  powi := by
    rintro x k ⟨a, rfl⟩
    refine ⟨⟨_, rfl⟩, ?_⟩
    show |roundTo p (a ^ (k : ℤ)) - a ^ k| ≤ _ * |a ^ k|
    rw [zpow_natCast]
    exact roundTo_err p _
  ldexp := by rintro x e ⟨a, rfl⟩; exact ⟨⟨_, rfl⟩, rfl⟩
  frexp := by
    rintro x ⟨a, rfl⟩ h
    have h' : a ≠ 0 := h
    have h0 : 0 < |a| := abs_pos.mpr h'
    have e : frexpExp (F := Fp p) (some a : Option ℝ) = Int.log 2 |a| + 1 := if_neg h'
    show (2 : ℝ) ^ (frexpExp (F := Fp p) (some a : Option ℝ) - 1) ≤ |a| ∧ |a| < (2 : ℝ) ^ frexpExp (F := Fp p) (some a : Option ℝ)
    rw [e, add_sub_cancel_right]
    have h1 := Int.zpow_log_le_self (b := 2) (by norm_num) h0
    have h2 := Int.lt_zpow_succ_log_self (b := 2) (by norm_num) |a|
    exact ⟨by simpa using h1, by simpa using h2⟩
  log := by
    rintro x ⟨a, rfl⟩ h
    have h' : 0 < a := h
    rw [Fp.log_some h']
    exact ⟨⟨_, rfl⟩, roundTo_err p _⟩
  lgamma k := by
    refine ⟨⟨_, rfl⟩, ?_⟩
    have e : (⌊(((k : ℤ) + 1 : ℤ) : ℝ)⌋₊ - 1).factorial = k.factorial := by
      have : (((k : ℤ) + 1 : ℤ) : ℝ) = ((k + 1 : ℕ) : ℝ) := by push_cast; ring
      rw [this, Nat.floor_natCast]; simp
    show |roundTo p (Real.log ((⌊(((k : ℤ) + 1 : ℤ) : ℝ)⌋₊ - 1).factorial : ℕ)) - _| ≤ _
    rw [e]
    exact roundTo_err p _
  exp := by rintro x ⟨a, rfl⟩; exact ⟨⟨_, rfl⟩, roundTo_err p _⟩

theorem exp_le_lin {x : ℝ} (h0 : 0 ≤ x) (h1 : x ≤ 1) : Real.exp x ≤ 1 + 2 * x := by
  have := Real.exp_bound_div_one_sub_of_interval (x := x / 2) (by linarith) (by linarith)
  have h2 : Real.exp x = Real.exp (x / 2) ^ 2 := by rw [← Real.exp_nat_mul]; congr 1; push_cast; ring
  have h3 : Real.exp (x / 2) ^ 2 ≤ (1 / (1 - x / 2)) ^ 2 := pow_le_pow_left₀ (Real.exp_pos _).le this 2
  by_cases hx : x ≤ 1 / 2
  · have h4 := Real.abs_exp_sub_one_sub_id_le (x := x) (by rw [abs_of_nonneg h0]; exact h1)
    have := (abs_le.mp h4).2
    nlinarith
  · have h4 := Real.abs_exp_sub_one_sub_id_le (x := x) (by rw [abs_of_nonneg h0]; exact h1)
    have := (abs_le.mp h4).2
    nlinarith

/-- The explicit form of the bound. -/
theorem mns_explicit {u P K A w S : ℝ} {N : ℕ} (hu : 0 ≤ u) (hu8 : u ≤ 1 / 8) (hP : 0 < P) (hPK : P ≤ K)
    (h1 : 4 * (N * u) * K ≤ P) (hS : 4 ≤ S) (h2 : u * S ≤ 1 / 16)
    (hA : A = ((1 + u) ^ N - 1) * K) (hw : w = ((1 + u) ^ 3 - 1) * (S - 1)) :
    A ≤ P / 2 ∧ A + (Real.exp w * (1 + u) - 1) * (P + A) ≤ 2 * (N * u) * K + 16 * u * S * P := by
  have hK : 0 < K := lt_of_lt_of_le hP hPK
  have hNu : 0 ≤ (N : ℝ) * u := mul_nonneg (Nat.cast_nonneg _) hu
  have hNu4 : 4 * ((N : ℝ) * u) ≤ 1 := by
    have : 4 * (N * u) * K ≤ 1 * K := by linarith
    exact le_of_mul_le_mul_right this hK
  have hpow : (1 + u) ^ N - 1 ≤ 2 * (N * u) := by
    have h := Real.add_one_le_exp u
    have h3 : (1 + u) ^ N ≤ Real.exp u ^ N := pow_le_pow_left₀ (by linarith) (by linarith) N
    rw [← Real.exp_nat_mul] at h3
    have := exp_le_lin hNu (by linarith)
    linarith
  have hA2 : A ≤ 2 * (N * u) * K := by rw [hA]; exact mul_le_mul_of_nonneg_right hpow hK.le
  have hAP : A ≤ P / 2 := by linarith
  have hA0 : 0 ≤ A := by
    rw [hA]; exact mul_nonneg (by linarith [one_le_pow₀ (show (1 : ℝ) ≤ 1 + u by linarith) (n := N)]) hK.le
  refine ⟨hAP, ?_⟩
  have hc : (1 + u) ^ 3 - 1 ≤ 4 * u := by nlinarith [mul_nonneg hu hu, mul_nonneg hu (mul_nonneg hu hu)]
  have hc0 : 0 ≤ (1 + u) ^ 3 - 1 := by linarith [one_le_pow₀ (show (1 : ℝ) ≤ 1 + u by linarith) (n := 3)]
  have hw1 : w ≤ 4 * u * (S - 1) := by rw [hw]; exact mul_le_mul_of_nonneg_right hc (by linarith)
  have hw0 : 0 ≤ w := by rw [hw]; exact mul_nonneg hc0 (by linarith)
  have hw4 : w ≤ 1 / 4 := by nlinarith
  have he := exp_le_lin hw0 (by linarith)
  have h5 : Real.exp w * (1 + u) - 1 ≤ 8 * u * S := by
    have h6 : Real.exp w * (1 + u) ≤ (1 + 2 * w) * (1 + u) := mul_le_mul_of_nonneg_right he (by linarith)
    have h7 : 2 * w * u ≤ u := by nlinarith
    have h8 : 2 * w ≤ 8 * u * (S - 1) := by linarith
    have h9 : 8 * u * (S - 1) = 8 * u * S - 8 * u := by ring
    have h10 : (1 + 2 * w) * (1 + u) = 1 + 2 * w + u + 2 * w * u := by ring
    linarith
  have h0 : 0 ≤ 8 * u * S := by positivity
  have h6 : (Real.exp w * (1 + u) - 1) * (P + A) ≤ 8 * u * S * (P + A) := mul_le_mul_of_nonneg_right h5 (by linarith)
  have h7 : 8 * u * S * (P + A) ≤ 8 * u * S * (3 / 2 * P) := mul_le_mul_of_nonneg_left (by linarith) h0
  have h8 : 0 ≤ u * S * P := mul_nonneg (mul_nonneg hu (by linarith)) hP.le
  nlinarith

/-- C58 in `p`-bit binary floating point (`p = 64` for x87 `long double`, 53 for `double`), unit roundoff `u = 2^-p`. -/
theorem C58_binary_floating_point {p : ℕ} (hp : 3 ≤ p) (env : Env (Fp p)) {n N : ℕ} (hN : 2 * N = n ^ 2 + 11 * n + 6)
    {b : Fin n → ℝ} (hb : ValidBound b) {u P K S : ℝ} (hu : u = 2 ^ (-(p : ℤ))) (hPd : P = lowerProb b) (hP : 0 < P)
    (hK : K = mnsCond b) (hS : S = 3 * Real.log n.factorial + |Real.log P| + 4)
    (h1 : 4 * (N * u) * K ≤ P) (h2 : u * S ≤ 1 / 16) :
    ∃ x : ℝ, ecdf1Mns2016b env (List.ofFn (fpVec b)) = .ok (some x : Fp p) ∧
      |x - P| ≤ 2 * (N * u) * K + 16 * u * S * P := by
  have hp1 : 1 ≤ p := by omega
  have hu0 : 0 ≤ u := by rw [hu]; positivity
  have hu8 : u ≤ 1 / 8 := by
    rw [hu]
    have := two_neg_le hp
    norm_num at this
    simpa using this
  have hPK : P ≤ K := by rw [hPd, hK]; exact prob_le_cond hb
  have hS4 : 4 ≤ S := by
    rw [hS]
    have := Real.log_natCast_nonneg n.factorial
    have := abs_nonneg (Real.log P)
    linarith
  obtain ⟨hA, hbd⟩ := mns_explicit hu0 hu8 hP hPK h1 hS4 h2 rfl rfl
  have ops : RelOps (fpModel p hp1 0) u := by rw [hu]; exact fpRel p hp1 0
  obtain ⟨x, hx, ⟨r, rfl⟩, he⟩ := C58_mns2016_b_error (R := fpModel p hp1 0) ops env hN (b := fpVec b)
    (fun i => ⟨b i, rfl⟩) (rb := b) (fun i => rfl) hb hPd hP hK rfl hA
    (w := ((1 + u) ^ 3 - 1) * (S - 1)) (by rw [hS]; ring)
  exact ⟨r, hx, he.trans hbd⟩

/-- C58: `ecdf1_mns2016_B` works on the rounded reflection `1 - B`, whose probability and condition number enter the bound, and
the error has a further term `n^2 u`. -/
theorem C58_binary_floating_point_B {p : ℕ} (hp : 3 ≤ p) (env : Env (Fp p)) {n N : ℕ} (hN : 2 * N = n ^ 2 + 11 * n + 6)
    {B : Fin n → ℝ} (hB : ValidBound B) {rb : Fin n → ℝ} (hrb : ∀ i, rb i = roundTo p (1 - B (Fin.rev i)))
    {u P K S : ℝ} (hu : u = 2 ^ (-(p : ℤ))) (hPd : P = lowerProb rb) (hP : 0 < P)
    (hK : K = mnsCond rb) (hS : S = 3 * Real.log n.factorial + |Real.log P| + 4)
    (h1 : 4 * (N * u) * K ≤ P) (h2 : u * S ≤ 1 / 16) :
    ∃ x : ℝ, ecdf1Mns2016B env (List.ofFn (fpVec B)) = .ok (some x : Fp p) ∧
      |x - upperProb B| ≤ 2 * (N * u) * K + 16 * u * S * P + n ^ 2 * u := by
  have hp1 : 1 ≤ p := by omega
  have hops : SignedOps (fpModel p hp1 1) u 0 := by rw [hu]; exact fpSigned p hp 1 0
  have hflip : (fun i => (fpModel p hp1 1).val (flipF (fpVec (p := p) B) i)) = rb := by
    funext i
    rw [hrb]
    show roundTo p (((1 : ℤ) : ℝ) - B (Fin.rev i)) = _
    rw [Int.cast_one]
  obtain ⟨f1, f2, f3⟩ := flip_ok hops (fp_reflect hp1 1) le_rfl (b := fpVec B) (fun i => ⟨B i, rfl⟩) hB
  rw [hflip] at f2
  obtain ⟨x, hx, hxe⟩ := C58_binary_floating_point hp env hN f2 hu hPd hP hK hS h1 h2
  refine ⟨x, ?_, ?_⟩
  · unfold ecdf1Mns2016B
    dsimp only
    rw [check_valid_float (R := fpModel p hp1 1) (b := fpVec B) (fun i => ⟨B i, rfl⟩) hB "B" _ (by simp), M_ok_bind, symmetricSteps_ofFn,
      M_ok_bind]
    have : flipF (fpVec (p := p) B) = fpVec rb := by
      funext i
      show (some (roundTo p (((1 : ℤ) : ℝ) - B (Fin.rev i))) : Option ℝ) = some (rb i)
      rw [hrb, Int.cast_one]
    rw [this]
    exact hx
  · have hl := lower_lipschitz rb (reflect B)
    have hs : (n : ℝ) * ∑ i, |rb i - reflect B i| ≤ n ^ 2 * u := by
      have h4 : ∑ i, |rb i - reflect B i| ≤ ∑ _i : Fin n, u := Finset.sum_le_sum fun i _ => by
        have := f3 i
        have e := congrFun hflip i
        rw [e] at this
        exact this
      rw [Finset.sum_const, Finset.card_univ, Fintype.card_fin, nsmul_eq_mul] at h4
      calc (n : ℝ) * _ ≤ n * (n * u) := mul_le_mul_of_nonneg_left h4 (Nat.cast_nonneg n)
        _ = _ := by ring
    rw [upperProb_reflect]
    rw [hPd] at hxe
    have := abs_sub_le x (lowerProb rb) (lowerProb (reflect B))
    rw [hPd]
    linarith

theorem log_fact_le (n : ℕ) : Real.log n.factorial ≤ (n : ℝ) ^ 2 := by
  have h0 : (0 : ℝ) < n.factorial := by exact_mod_cast Nat.factorial_pos n
  by_cases hn : n = 0
  · subst hn; simp
  · have hn1 : (0 : ℝ) < n := by exact_mod_cast Nat.pos_of_ne_zero hn
    have h1 : (n.factorial : ℝ) ≤ (n : ℝ) ^ n := by exact_mod_cast Nat.factorial_le_pow n
    calc Real.log n.factorial ≤ Real.log ((n : ℝ) ^ n) := Real.log_le_log h0 h1
      _ = n * Real.log n := by rw [Real.log_pow]
      _ ≤ n * n := mul_le_mul_of_nonneg_left ((Real.log_le_sub_one_of_pos hn1).trans (by linarith)) hn1.le
      _ = _ := by ring

theorem golden_lt : Real.goldenRatio < 81 / 50 := by
  have h : √5 < 56 / 25 := by
    rw [Real.sqrt_lt' (by norm_num)]; norm_num
  unfold Real.goldenRatio
  linarith

/-- C58: with x87 `long double` (64 significant bits) and up to 30 points, every probability of at least `10^-8` is returned
with an absolute error of at most `10^-9`. -/
theorem C58_long_double_30 (env : Env (Fp 64)) {n : ℕ} (hn : n ≤ 30) {b : Fin n → ℝ} (hb : ValidBound b)
    (hP : 1 / 10 ^ 8 ≤ lowerProb b) :
    ∃ x : ℝ, ecdf1Mns2016b env (List.ofFn (fpVec b)) = .ok (some x : Fp 64) ∧ |x - lowerProb b| ≤ 1 / 10 ^ 9 := by
  obtain ⟨N, hN⟩ : ∃ N, 2 * N = n ^ 2 + 11 * n + 6 := by
    refine ⟨(n ^ 2 + 11 * n + 6) / 2, Nat.mul_div_cancel' ?_⟩
    have : n ^ 2 + 11 * n + 6 = n * (n + 1) + 2 * (5 * n + 3) := by ring
    rw [this]
    exact dvd_add (Nat.even_mul_succ_self n).two_dvd (Dvd.intro _ rfl)
  have hNle : N ≤ 618 := by nlinarith
  have hP0 : 0 < lowerProb b := lt_of_lt_of_le (by norm_num) hP
  have hK : mnsCond b ≤ 5100000 := by
    refine (mnsCond_le hb).trans ?_
    calc Real.goldenRatio ^ (n + 2) ≤ Real.goldenRatio ^ 32 := pow_le_pow_right₀ Real.one_lt_goldenRatio.le (by omega)
      _ ≤ (81 / 50 : ℝ) ^ 32 := pow_le_pow_left₀ Real.goldenRatio_pos.le golden_lt.le _
      _ ≤ 5100000 := by norm_num
  have hK0 : 0 ≤ mnsCond b := hP0.le.trans (prob_le_cond hb)
  have hP1 : lowerProb b ≤ 1 := measureReal_le_one
  set P := lowerProb b with hPd
  set K := mnsCond b with hKd
  obtain ⟨u, hu⟩ : ∃ u : ℝ, u = 2 ^ (-((64 : ℕ) : ℤ)) := ⟨_, rfl⟩
  have hu' : u = 1 / 18446744073709551616 := by rw [hu]; norm_num
  have hlogP : |Real.log P| * P ≤ 1 := by
    have h1 : Real.log P ≤ 0 := Real.log_nonpos hP0.le hP1
    rw [abs_of_nonpos h1, ← Real.log_inv]
    have h2 := Real.log_le_sub_one_of_pos (inv_pos.mpr hP0)
    calc Real.log P⁻¹ * P ≤ P⁻¹ * P := mul_le_mul_of_nonneg_right (by linarith) hP0.le
      _ = 1 := inv_mul_cancel₀ hP0.ne'
  have hlogP2 : |Real.log P| ≤ 10 ^ 8 := by
    have h3 : |Real.log P| * (1 / 10 ^ 8) ≤ |Real.log P| * P := mul_le_mul_of_nonneg_left hP (abs_nonneg _)
    have : |Real.log P| * (1 / 10 ^ 8) ≤ 1 := h3.trans hlogP
    linarith
  have hL : Real.log n.factorial ≤ 900 := by
    refine (log_fact_le n).trans ?_
    have : (n : ℝ) ≤ 30 := by exact_mod_cast hn
    have h0 : (0 : ℝ) ≤ n := Nat.cast_nonneg n
    nlinarith
  have hNr : (N : ℝ) ≤ 618 := by exact_mod_cast hNle
  have hNK : (N : ℝ) * K ≤ 618 * 5100000 := mul_le_mul hNr hK hK0 (by norm_num)
  have hu0 : 0 ≤ u := by rw [hu']; norm_num
  have hNuK : (N : ℝ) * u * K ≤ 618 * 5100000 * u := by
    have := mul_le_mul_of_nonneg_right hNK hu0
    linarith
  obtain ⟨x, hx, he⟩ := C58_binary_floating_point (by norm_num) env hN hb hu hPd hP0 hKd rfl
    (by rw [show 4 * (↑N * u) * K = 4 * (↑N * u * K) by ring]
        refine le_trans ?_ hP
        refine le_trans (mul_le_mul_of_nonneg_left hNuK (by norm_num)) ?_
        rw [hu']; norm_num)
    (by have h : 3 * Real.log n.factorial + |Real.log P| + 4 ≤ 10 ^ 8 + 2704 := by linarith
        refine (mul_le_mul_of_nonneg_left h hu0).trans ?_
        rw [hu']; norm_num)
  refine ⟨x, hx, he.trans ?_⟩
  have h5 : (3 * Real.log n.factorial + |Real.log P| + 4) * P ≤ 2705 := by
    have : (3 * Real.log n.factorial + 4) * P ≤ (3 * 900 + 4) * 1 :=
      mul_le_mul (by linarith) hP1 hP0.le (by norm_num)
    linarith
  have h6 := mul_le_mul_of_nonneg_left h5 (show 0 ≤ 16 * u by linarith)
  rw [show 16 * u * ((3 * Real.log n.factorial + |Real.log P| + 4) * P) = 16 * u * (3 * Real.log n.factorial + |Real.log P| + 4) * P by ring] at h6
  rw [show 2 * (↑N * u) * K = 2 * (↑N * u * K) by ring]
  refine (add_le_add (mul_le_mul_of_nonneg_left hNuK (by norm_num)) h6).trans ?_
  rw [hu']; norm_num

end CP.Props
