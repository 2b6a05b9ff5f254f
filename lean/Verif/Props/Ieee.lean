import Verif.Proofs.IeeeAcc
/-
Property C61: accuracy of the algorithms in IEEE-754 double precision, for every valid boundary of doubles.
-/
open MeasureTheory Set
namespace CP.Props
open CP.Spec FOps
noncomputable section

variable {A : FloatSystem}

/-- The error bound assumed of the library functions below: four units in the last place. -/
def u50 : ℝ := (2 : ℝ) ^ (-50 : ℤ)

theorem u50_val : u50 = 1 / 1125899906842624 := by unfold u50; norm_num

/-- Doubles, with a math library accurate to four units in the last place. -/
theorem double_ok (hf : A.f = binary64) : A.OK u50 where
  fmt := hf ▸ binary64_ok
  u_ge := by
    rw [hf]
    exact zpow_le_zpow_right₀ (by norm_num) (by norm_num [binary64])
  u_le := by rw [u50_val]; norm_num

theorem log_fact_le_mul (n : ℕ) : Real.log n.factorial ≤ n * Real.log n := by
  rcases Nat.eq_zero_or_pos n with rfl | h
  · simp
  have h0 : (0 : ℝ) < n.factorial := by exact_mod_cast Nat.factorial_pos n
  have h1 : (n.factorial : ℝ) ≤ (n : ℝ) ^ n := by exact_mod_cast Nat.factorial_le_pow n
  calc Real.log n.factorial ≤ Real.log ((n : ℝ) ^ n) := Real.log_le_log h0 h1
    _ = n * Real.log n := by rw [Real.log_pow]

theorem log_gap : Real.log (1 / (2 : ℝ) ^ (-1074 : ℤ)) ≤ 744.45 := by
  rw [one_div, ← zpow_neg, Real.log_zpow]
  have := Real.log_two_lt_d9
  push_cast
  linarith

theorem log_le_of_exp {n : ℕ} (hn : 1 ≤ n) {m : ℕ} (h : (n : ℝ) ≤ (27 / 10 : ℝ) ^ m) : Real.log n ≤ m := by
  rw [Real.log_le_iff_le_exp (by exact_mod_cast hn)]
  refine h.trans ?_
  have e : Real.exp (m : ℝ) = Real.exp 1 ^ m := by rw [← Real.exp_nat_mul, mul_one]
  rw [e]
  exact pow_le_pow_left₀ (by norm_num) (by have := Real.exp_one_gt_d9; linarith) _

/-- The number of rounding errors in a Poisson probability, for points that are doubles. -/
theorem double_Q {n N m : ℕ} (hn : 1 ≤ n) (hnN : n ≤ N) (hm : (N : ℝ) ≤ (27 / 10 : ℝ) ^ m) :
    5 * (n : ℝ) * (Real.log n + Real.log (1 / (2 : ℝ) ^ (-1074 : ℤ))) + 10 * n + 3 * Real.log n.factorial
      ≤ 5 * N * (m + 744.45) + 10 * N + 3 * (N * m) := by
  have hnr : (1 : ℝ) ≤ n := by exact_mod_cast hn
  have hNr : (n : ℝ) ≤ N := by exact_mod_cast hnN
  have h1 := log_le_of_exp hn (hNr.trans hm)
  have h2 := log_gap
  have h3 := log_fact_le_mul n
  have h4 : (n : ℝ) * Real.log n ≤ N * m := mul_le_mul hNr h1 (Real.log_nonneg hnr) (by linarith)
  have h5 : 5 * (n : ℝ) * (Real.log n + Real.log (1 / (2 : ℝ) ^ (-1074 : ℤ))) ≤ 5 * N * (m + 744.45) :=
    (mul_le_mul_of_nonneg_left (add_le_add h1 h2) (by linarith)).trans
      (mul_le_mul_of_nonneg_right (by linarith) (by positivity))
  linarith

theorem esqrt_le {n s : ℕ} (h : n ≤ s ^ 2) : Real.exp 1 * √(n : ℝ) ≤ 2.7183 * s := by
  have h1 : √(n : ℝ) ≤ s := by
    rw [Real.sqrt_le_left (by positivity)]; exact_mod_cast h
  have := Real.exp_one_lt_d9
  exact mul_le_mul (by linarith) h1 (Real.sqrt_nonneg _) (by norm_num)

theorem rel_abs {P W x t e : ℝ} (hP : 0 ≤ P) (hW : 0 ≤ W) (ht : t ≤ 1 / 2) (hte : 1 ≤ (1 + e) * (1 - t)) (h1 : P * (1 - t) - W ≤ x)
    (h2 : x * (1 - t) ≤ P + W) (h0 : t ≤ e) : |x - P| ≤ e * P + 2 * W := by
  rw [abs_le]
  constructor
  · have : P * t ≤ P * e := mul_le_mul_of_nonneg_left h0 hP
    linarith
  · have h3 : 0 < 1 - t := by linarith
    have h4 : x ≤ (P + W) / (1 - t) := by rw [le_div_iff₀ h3]; exact h2
    have h5 : (P + W) / (1 - t) = P * (1 / (1 - t)) + W * (1 / (1 - t)) := by ring
    have h6 : 1 / (1 - t) ≤ 1 + e := by rw [div_le_iff₀ h3]; exact hte
    have h7 : 1 / (1 - t) ≤ 2 := by rw [div_le_iff₀ h3]; linarith
    have h8 := mul_le_mul_of_nonneg_left h6 hP
    have h9 := mul_le_mul_of_nonneg_left h7 hW
    linarith

/-- `ecdf2` without FFT in double precision, with the size and the error as parameters. -/
theorem double_direct (hf : A.f = binary64) {n N m Q K s : ℕ} {e : ℝ} (hn : 1 ≤ n) (hnN : n ≤ N) (hL : LibmAccurate A u50 n)
    (env : Env (Num A)) {b B : Fin n → Num A} (hbf : ∀ i, (b i).finite) (hBf : ∀ i, (B i).finite)
    (hb : ValidBound fun i => (b i).val) (hB : ValidBound fun i => (B i).val)
    {sort : List (Bound (Num A)) → List (Bound (Num A))} (hperm : ∀ l, (sort l).Perm l)
    (hsorted : ∀ l, (∀ x ∈ l, x.location.finite) → (sort l).Pairwise fun x y => lt y.location x.location = false)
    (ha : env.asserts = false ∨ ¬ StronglyCrossed (fun i => (b i).val) (fun i => (B i).val))
    (hm : (N : ℝ) ≤ (27 / 10 : ℝ) ^ m) (hQ : 5 * (N : ℝ) * (m + 744.45) + 10 * N + 3 * (N * m) ≤ Q)
    (hK : (2 * N + 1) * (Q + N + 3) + Q + 2 ≤ K) (hs : N ≤ s ^ 2) (hN : N ≤ 2 ^ 20) (hs2 : s ≤ 2 ^ 10) (hK2 : K ≤ 2 ^ 40)
    (he : 1 ≤ (1 + e) * (1 - K * u50)) (hKe : K * u50 ≤ e) :
    ∃ x : Num A, ecdf2 env sort (List.ofFn b) (List.ofFn B) false = .ok x ∧ x.finite ∧ 0 ≤ x.val ∧
      |x.val - noncrossProb (fun i => (b i).val) (fun i => (B i).val)|
        ≤ e * noncrossProb (fun i => (b i).val) (fun i => (B i).val) + (2 : ℝ) ^ (-1000 : ℤ) ∧
      (noncrossProb (fun i => (b i).val) (fun i => (B i).val) = 0 → x.val = 0) := by
  have h := double_ok hf
  have hemin : A.f.emin = -1074 := by rw [hf]; rfl
  have hemax : A.f.emax = 1024 := by rw [hf]; rfl
  have hp : A.f.p = 53 := by rw [hf]; rfl
  have hmn : A.f.minNormal = (2 : ℝ) ^ (-1022 : ℤ) := by
    unfold Format.minNormal; rw [hemin, hp]; norm_num
  have hNr : (N : ℝ) ≤ 2 ^ 20 := by exact_mod_cast hN
  have hnr : (n : ℝ) ≤ N := by exact_mod_cast hnN
  have hn1 : (1 : ℝ) ≤ n := by exact_mod_cast hn
  have hsr : (s : ℝ) ≤ 2 ^ 10 := by exact_mod_cast hs2
  have hE := esqrt_le (n := n) (s := s) (hnN.trans hs)
  have hE0 : 0 ≤ Real.exp 1 * √(n : ℝ) := by positivity
  have hE12 : Real.exp 1 * √(n : ℝ) ≤ 2 ^ 12 := by linarith
  obtain ⟨K', hK'⟩ : ∃ K', K' = (2 * n + 1) * (Q + n + 3) + Q + 2 := ⟨_, rfl⟩
  have hKK : K' ≤ K := by
    rw [hK']
    refine le_trans ?_ hK
    have : (2 * n + 1) * (Q + n + 3) ≤ (2 * N + 1) * (Q + N + 3) := Nat.mul_le_mul (by omega) (by omega)
    omega
  have hKr : (K' : ℝ) ≤ K := by exact_mod_cast hKK
  have hK2r : (K : ℝ) ≤ 2 ^ 40 := by exact_mod_cast hK2
  have hu0 := h.u_pos
  have hKu : (K : ℝ) * u50 ≤ 1 / 2 := by
    rw [u50_val]; linarith
  have hKu' : (K' : ℝ) * u50 ≤ K * u50 := mul_le_mul_of_nonneg_right hKr hu0.le
  obtain ⟨W, hW⟩ : ∃ W, W = 5 * (2 * n + 1) * (n + 1) * (Real.exp 1 * √n) * (2 : ℝ) ^ A.f.emin := ⟨_, rfl⟩
  have hWle : W ≤ (2 : ℝ) ^ (-1001 : ℤ) := by
    have h1 : 5 * (2 * (n : ℝ) + 1) * (n + 1) * (Real.exp 1 * √n) ≤ 2 ^ 60 := by
      have x1 : 5 * (2 * (n : ℝ) + 1) ≤ 2 ^ 24 := by linarith
      have x2 : (n : ℝ) + 1 ≤ 2 ^ 21 := by linarith
      calc _ ≤ (2 : ℝ) ^ 24 * 2 ^ 21 * 2 ^ 12 :=
            mul_le_mul (mul_le_mul x1 x2 (by linarith) (by norm_num)) hE12 hE0 (by norm_num)
        _ ≤ _ := by norm_num
    rw [hW, hemin]
    calc _ ≤ (2 : ℝ) ^ (60 : ℕ) * (2 : ℝ) ^ (-1074 : ℤ) := mul_le_mul_of_nonneg_right h1 (by positivity)
      _ = (2 : ℝ) ^ (-1014 : ℤ) := by rw [← zpow_natCast, ← zpow_add₀ (by norm_num)]; norm_num
      _ ≤ _ := zpow_le_zpow_right₀ (by norm_num) (by norm_num)
  have hW0 : 0 ≤ W := by rw [hW]; positivity
  have hW1 : W ≤ 1 / 2 := hWle.trans (by
    calc (2 : ℝ) ^ (-1001 : ℤ) ≤ 2 ^ (-1 : ℤ) := zpow_le_zpow_right₀ (by norm_num) (by norm_num)
      _ = _ := by norm_num)
  have hmin : A.f.minNormal * (2 * (Real.exp 1 * √n)) ≤ 1 := by
    rw [hmn]
    calc (2 : ℝ) ^ (-1022 : ℤ) * (2 * (Real.exp 1 * √n)) ≤ (2 : ℝ) ^ (-20 : ℤ) * (2 * 2 ^ 12) :=
          mul_le_mul (zpow_le_zpow_right₀ (by norm_num) (by norm_num)) (by linarith) (by linarith) (by positivity)
      _ ≤ 1 := by norm_num
  have hKO : (K' : ℝ) ≤ (2 : ℝ) ^ (A.f.emax - 1) := by
    rw [hemax]
    refine (hKr.trans hK2r).trans ?_
    rw [← zpow_natCast]
    exact zpow_le_zpow_right₀ (by norm_num) (by norm_num)
  obtain ⟨x, hx, hxf, hx0, hl, hu, hz0⟩ := ieee_direct h env hn hL (by rw [hp]; omega) (S := univ) (gap := (2 : ℝ) ^ (-1074 : ℤ)) (by positivity)
    (by calc (2 : ℝ) ^ (-1074 : ℤ) ≤ 2 ^ (0 : ℤ) := zpow_le_zpow_right₀ (by norm_num) (by norm_num)
          _ = 1 := zpow_zero _)
    (fun x _ y _ hxf hyf _ hlt _ => by rw [← hemin]; exact fin_gap hxf hyf hlt) (mem_univ _) (mem_univ _) (fun _ => mem_univ _)
    (fun _ => mem_univ _) hbf hBf hb hB (sort := sort) ⟨hperm, hsorted⟩ ha ((double_Q hn hnN hm).trans hQ) hK' (hKu'.trans hKu) hKO hmin
    hW hW1
  refine ⟨x, hx, hxf, hx0, ?_, hz0⟩
  have hP : 0 ≤ noncrossProb (fun i => (b i).val) (fun i => (B i).val) := measureReal_nonneg
  have he2 : 1 ≤ (1 + e) * (1 - K' * u50) := by
    refine he.trans (mul_le_mul_of_nonneg_left (by linarith) ?_)
    have : 0 ≤ (K : ℝ) * u50 := by positivity
    linarith
  have := rel_abs hP hW0 (hKu'.trans hKu) he2 hl hu (hKu'.trans hKe)
  refine this.trans (by
    have e1 : (2 : ℝ) ^ (-1000 : ℤ) = 2 * 2 ^ (-1001 : ℤ) := by
      rw [show (-1000 : ℤ) = 1 + -1001 by norm_num, zpow_add₀ (by norm_num), zpow_one]
    rw [e1]
    linarith)

/-- C61: `ecdf2` without FFT, in IEEE-754 double precision with a math library accurate to four units in the last place, for
every pair of valid boundaries of up to 100 doubles: the result is a finite non-negative double whose relative error is at most
`7e-8` (plus `2^-1000` for underflow). -/
theorem C61_double_100 (hf : A.f = binary64) {n : ℕ} (hn : 1 ≤ n) (hn' : n ≤ 100) (hL : LibmAccurate A u50 n)
    (env : Env (Num A)) {b B : Fin n → Num A} (hbf : ∀ i, (b i).finite) (hBf : ∀ i, (B i).finite)
    (hb : ValidBound fun i => (b i).val) (hB : ValidBound fun i => (B i).val)
    {sort : List (Bound (Num A)) → List (Bound (Num A))} (hperm : ∀ l, (sort l).Perm l)
    (hsorted : ∀ l, (∀ x ∈ l, x.location.finite) → (sort l).Pairwise fun x y => lt y.location x.location = false)
    (ha : env.asserts = false ∨ ¬ StronglyCrossed (fun i => (b i).val) (fun i => (B i).val)) :
    ∃ x : Num A, ecdf2 env sort (List.ofFn b) (List.ofFn B) false = .ok x ∧ x.finite ∧ 0 ≤ x.val ∧
      |x.val - noncrossProb (fun i => (b i).val) (fun i => (B i).val)|
        ≤ 7 / 10 ^ 8 * noncrossProb (fun i => (b i).val) (fun i => (B i).val) + (2 : ℝ) ^ (-1000 : ℤ) ∧
      (noncrossProb (fun i => (b i).val) (fun i => (B i).val) = 0 → x.val = 0) :=
  double_direct hf (N := 100) (m := 5) (Q := 377225) (K := 76230000) (s := 10) hn hn' hL env hbf hBf hb hB hperm hsorted ha
    (by norm_num) (by norm_num) (by norm_num) (by norm_num) (by norm_num) (by norm_num) (by norm_num)
    (by rw [u50_val]; norm_num) (by rw [u50_val]; norm_num)

/-- C61: the same for up to 1000 doubles, with relative error at most `7e-6`. -/
theorem C61_double_1000 (hf : A.f = binary64) {n : ℕ} (hn : 1 ≤ n) (hn' : n ≤ 1000) (hL : LibmAccurate A u50 n)
    (env : Env (Num A)) {b B : Fin n → Num A} (hbf : ∀ i, (b i).finite) (hBf : ∀ i, (B i).finite)
    (hb : ValidBound fun i => (b i).val) (hB : ValidBound fun i => (B i).val)
    {sort : List (Bound (Num A)) → List (Bound (Num A))} (hperm : ∀ l, (sort l).Perm l)
    (hsorted : ∀ l, (∀ x ∈ l, x.location.finite) → (sort l).Pairwise fun x y => lt y.location x.location = false)
    (ha : env.asserts = false ∨ ¬ StronglyCrossed (fun i => (b i).val) (fun i => (B i).val)) :
    ∃ x : Num A, ecdf2 env sort (List.ofFn b) (List.ofFn B) false = .ok x ∧ x.finite ∧ 0 ≤ x.val ∧
      |x.val - noncrossProb (fun i => (b i).val) (fun i => (B i).val)|
        ≤ 7 / 10 ^ 6 * noncrossProb (fun i => (b i).val) (fun i => (B i).val) + (2 : ℝ) ^ (-1000 : ℤ) ∧
      (noncrossProb (fun i => (b i).val) (fun i => (B i).val) = 0 → x.val = 0) :=
  double_direct hf (N := 1000) (m := 7) (Q := 3788250) (K := 7600000000) (s := 32) hn hn' hL env hbf hBf hb hB hperm hsorted ha
    (by norm_num) (by norm_num) (by norm_num) (by norm_num) (by norm_num) (by norm_num) (by norm_num)
    (by rw [u50_val]; norm_num) (by rw [u50_val]; norm_num)

/-- Numbers used in the double-precision theorems with FFT. -/
theorem double_const (hf : A.f = binary64) {n : ℕ} (hn : 1 ≤ n) (hn' : n ≤ 100) {delta etaF : ℝ} (hδ0 : 0 ≤ delta) (hη0 : 0 ≤ etaF)
    (hδ : delta ≤ (2 : ℝ) ^ (-45 : ℤ)) (hη : etaF ≤ (2 : ℝ) ^ (-100 : ℤ)) :
    ((2 * n + 2049 : ℕ) ≤ 2 ^ A.f.p ∧ ((2 * n + 2049 : ℕ) : ℝ) * A.f.minNormal ≤ 1 ∧
      A.f.minNormal * (2 * (Real.exp 1 * √n)) ≤ 1 ∧
      (377225 : ℕ) + 512 + ((2 * n + 2049 : ℕ) : ℝ) + √n ≤ (2 : ℝ) ^ (A.f.emax - 1)) ∧
    21 / 20 * (((377225 : ℕ) + 1) * u50 + √(2 * n + 2049 : ℕ) * (13 * u50 + 4 * delta) + 128 * u50)
      + (24 * √(2 * n + 2049 : ℕ) * etaF + (34 * √(2 * n + 2049 : ℕ) * (2 * n + 2049 : ℕ) + 128 ^ 2 + 3 * (n + 1)) * (2 : ℝ) ^ A.f.emin)
      ≤ 4 / 10 ^ 10 := by
  have hemin : A.f.emin = -1074 := by rw [hf]; rfl
  have hemax : A.f.emax = 1024 := by rw [hf]; rfl
  have hp : A.f.p = 53 := by rw [hf]; rfl
  have hmn : A.f.minNormal = (2 : ℝ) ^ (-1022 : ℤ) := by
    unfold Format.minNormal; rw [hemin, hp]; norm_num
  have hn1 : (1 : ℝ) ≤ n := by exact_mod_cast hn
  have hnr : (n : ℝ) ≤ 100 := by exact_mod_cast hn'
  have hNr : ((2 * n + 2049 : ℕ) : ℝ) ≤ 2249 := by push_cast; linarith
  have hE := esqrt_le (n := n) (s := 10) (by omega)
  have hsn : √(n : ℝ) ≤ 10 := by
    rw [Real.sqrt_le_left (by norm_num)]; linarith
  push_cast at hE
  have hs48 : √((2 * n + 2049 : ℕ) : ℝ) ≤ 48 := by
    rw [Real.sqrt_le_left (by norm_num)]; linarith
  have hs0 := Real.sqrt_nonneg ((2 * n + 2049 : ℕ) : ℝ)
  have hbig : (2 : ℝ) ^ (40 : ℤ) ≤ (2 : ℝ) ^ (A.f.emax - 1) := by
    rw [hemax]; exact zpow_le_zpow_right₀ (by norm_num) (by norm_num)
  have h40 : (2 : ℝ) ^ (40 : ℤ) = 1099511627776 := by norm_num
  rw [h40] at hbig
  have hsm : (2 : ℝ) ^ (-1022 : ℤ) ≤ 2 ^ (-20 : ℤ) := zpow_le_zpow_right₀ (by norm_num) (by norm_num)
  have h20 : (2 : ℝ) ^ (-20 : ℤ) = 1 / 1048576 := by norm_num
  rw [h20] at hsm
  have hsm0 : (0 : ℝ) < (2 : ℝ) ^ (-1022 : ℤ) := by positivity
  refine ⟨⟨by rw [hp]; omega, ?_, ?_, ?_⟩, ?_⟩
  · rw [hmn]
    have := mul_le_mul hNr hsm hsm0.le (by norm_num)
    linarith
  · rw [hmn]
    have hE0 : 0 ≤ Real.exp 1 * √(n : ℝ) := by positivity
    have := mul_le_mul hsm (show 2 * (Real.exp 1 * √n) ≤ 2 * (2.7183 * 10) by linarith) (by linarith) (by norm_num)
    linarith
  · push_cast at hNr ⊢
    linarith
  · rw [hemin]
    have hw : (2 : ℝ) ^ (-1074 : ℤ) ≤ 2 ^ (-100 : ℤ) := zpow_le_zpow_right₀ (by norm_num) (by norm_num)
    have h100 : (2 : ℝ) ^ (-100 : ℤ) ≤ 1 / 10 ^ 30 := by norm_num
    have h45 : (2 : ℝ) ^ (-45 : ℤ) = 1 / 35184372088832 := by norm_num
    rw [h45] at hδ
    have hw0 : (0 : ℝ) < (2 : ℝ) ^ (-1074 : ℤ) := by positivity
    have a1 : √((2 * n + 2049 : ℕ) : ℝ) * (13 * u50 + 4 * delta) ≤ 48 * (13 * u50 + 4 * (1 / 35184372088832)) :=
      mul_le_mul hs48 (by linarith) (by rw [u50_val]; linarith) (by norm_num)
    have a2 : 24 * √((2 * n + 2049 : ℕ) : ℝ) * etaF ≤ 24 * 48 * (1 / 10 ^ 30) :=
      mul_le_mul (by linarith) (hη.trans h100) hη0 (by norm_num)
    have a3 : √((2 * n + 2049 : ℕ) : ℝ) * ((2 * n + 2049 : ℕ) : ℝ) ≤ 48 * 2249 := mul_le_mul hs48 hNr (Nat.cast_nonneg _) (by norm_num)
    have a4 : (34 * √((2 * n + 2049 : ℕ) : ℝ) * ((2 * n + 2049 : ℕ) : ℝ) + 128 ^ 2 + 3 * (n + 1)) * (2 : ℝ) ^ (-1074 : ℤ)
        ≤ (34 * (48 * 2249) + 128 ^ 2 + 3 * 101) * (1 / 10 ^ 30) := by
      refine mul_le_mul (by linarith) (hw.trans h100) hw0.le (by norm_num)
    rw [u50_val] at a1 ⊢
    push_cast at a1 a2 a4 ⊢
    linarith

theorem exp_gap_one : (0 : ℝ) < (2 : ℝ) ^ (-1074 : ℤ) ∧ (2 : ℝ) ^ (-1074 : ℤ) ≤ 1 :=
  ⟨by positivity, by
    calc (2 : ℝ) ^ (-1074 : ℤ) ≤ 2 ^ (0 : ℤ) := zpow_le_zpow_right₀ (by norm_num) (by norm_num)
      _ = 1 := zpow_zero _⟩

theorem double_gap (hf : A.f = binary64) : ∀ x ∈ (univ : Set (Num A)), ∀ y ∈ (univ : Set (Num A)), x.finite → y.finite → 0 ≤ x.val →
    x.val < y.val → y.val ≤ 1 → (2 : ℝ) ^ (-1074 : ℤ) ≤ y.val - x.val := by
  intro x _ y _ hxf hyf _ hlt _
  have hemin : A.f.emin = -1074 := by rw [hf]; rfl
  rw [← hemin]; exact fin_gap hxf hyf hlt

/-- C61: `ecdf2` with FFT in IEEE-754 double precision, for every pair of valid boundaries of up to 100 doubles, with a math
library accurate to four units in the last place and an FFT library of relative accuracy `2^-45`: the result is a finite double
within `3e-6` of the probability. -/
theorem C61_double_fft_100 (hf : A.f = binary64) {n : ℕ} (hn : 1 ≤ n) (hn' : n ≤ 100) (hL : LibmAccurate A u50 n)
    (env : Env (Num A)) {delta etaF : ℝ} (hδ : delta ≤ (2 : ℝ) ^ (-45 : ℤ)) (hη : etaF ≤ (2 : ℝ) ^ (-100 : ℤ))
    (hfft : FFTAccurate (ieeeModel A u50 (double_ok hf)) env.fft (2 * n + 2049) delta etaF 256)
    {b B : Fin n → Num A} (hbf : ∀ i, (b i).finite) (hBf : ∀ i, (B i).finite)
    (hb : ValidBound fun i => (b i).val) (hB : ValidBound fun i => (B i).val)
    {sort : List (Bound (Num A)) → List (Bound (Num A))} (hperm : ∀ l, (sort l).Perm l)
    (hsorted : ∀ l, (∀ x ∈ l, x.location.finite) → (sort l).Pairwise fun x y => lt y.location x.location = false)
    (ha : env.asserts = false ∨ ¬ StronglyCrossed (fun i => (b i).val) (fun i => (B i).val)) :
    ∃ x : Num A, ecdf2 env sort (List.ofFn b) (List.ofFn B) true = .ok x ∧ x.finite ∧
      |x.val - noncrossProb (fun i => (b i).val) (fun i => (B i).val)| ≤ 3 / 10 ^ 6 := by
  obtain ⟨⟨c1, c2, c3, c4⟩, c5⟩ := double_const hf hn hn' hfft.delta_nonneg hfft.etaF_nonneg hδ hη
  have hnr : (n : ℝ) ≤ 100 := by exact_mod_cast hn'
  obtain ⟨T, hT⟩ : ∃ T, T = 21 / 20 * (((377225 : ℕ) + 1) * u50 + √(2 * n + 2049 : ℕ) * (13 * u50 + 4 * delta) + 128 * u50)
      + (24 * √(2 * n + 2049 : ℕ) * etaF + (34 * √(2 * n + 2049 : ℕ) * (2 * n + 2049 : ℕ) + 128 ^ 2 + 3 * (n + 1)) * (2 : ℝ) ^ A.f.emin) :=
    ⟨_, rfl⟩
  rw [← hT] at c5
  have hT0 : 0 ≤ T := by
    rw [hT]
    have := hfft.delta_nonneg
    have := hfft.etaF_nonneg
    have := (double_ok hf).u_pos
    positivity
  have hmT : (2 * (n : ℝ) + 1) * T ≤ 201 * (4 / 10 ^ 10) := mul_le_mul (by linarith) c5 hT0 (by norm_num)
  obtain ⟨x, hx, hxf, hxA⟩ := ieee_fft (double_ok hf) env hn hL le_rfl c1 c2 hfft (S := univ) exp_gap_one.1 exp_gap_one.2 (double_gap hf)
    (mem_univ _) (mem_univ _) (fun _ => mem_univ _) (fun _ => mem_univ _) hbf hBf hb hB (sort := sort) ⟨hperm, hsorted⟩ ha
    (Q := 377225) ((double_Q hn hn' (m := 5) (by norm_num)).trans (by norm_num)) c4 c3 hT (hmT.trans (by norm_num))
  refine ⟨x, hx, hxf, hxA.trans ?_⟩
  have hE := esqrt_le (n := n) (s := 10) (by omega)
  push_cast at hE
  have : 6 / 5 * Real.exp 1 * √(n : ℝ) * ((2 * n + 1) * T) ≤ 6 / 5 * (2.7183 * 10) * (201 * (4 / 10 ^ 10)) := by
    refine mul_le_mul (by linarith) hmT (by positivity) (by norm_num)
  exact this.trans (by norm_num)

/-- C61: `ecdf1_new_B` in IEEE-754 double precision, for every valid boundary of up to 100 doubles: the result is a finite
double within `4e-6` of the probability. -/
theorem C61_double_new_B_100 (hf : A.f = binary64) {n : ℕ} (hn : 1 ≤ n) (hn' : n ≤ 100) (hL : LibmAccurate A u50 n)
    (env : Env (Num A)) {delta etaF : ℝ} (hδ : delta ≤ (2 : ℝ) ^ (-45 : ℤ)) (hη : etaF ≤ (2 : ℝ) ^ (-100 : ℤ))
    (hfft : FFTAccurate (ieeeModel A u50 (double_ok hf)) env.fft (2 * n + 2049) delta etaF 256)
    {B : Fin n → Num A} (hBf : ∀ i, (B i).finite) (hB : ValidBound fun i => (B i).val)
    (isqrt : ℕ → ℕ) (ha : env.asserts = false ∨ isqrt n + 1 ≤ n) :
    ∃ x : Num A, ecdf1NewB env isqrt (List.ofFn B) = .ok x ∧ x.finite ∧
      |x.val - upperProb (fun i => (B i).val)| ≤ 4 / 10 ^ 6 := by
  obtain ⟨⟨c1, c2, c3, c4⟩, c5⟩ := double_const hf hn hn' hfft.delta_nonneg hfft.etaF_nonneg hδ hη
  have hnr : (n : ℝ) ≤ 100 := by exact_mod_cast hn'
  obtain ⟨T, hT⟩ : ∃ T, T = 21 / 20 * (((377225 : ℕ) + 1) * u50 + √(2 * n + 2049 : ℕ) * (13 * u50 + 4 * delta) + 128 * u50)
      + (24 * √(2 * n + 2049 : ℕ) * etaF + (34 * √(2 * n + 2049 : ℕ) * (2 * n + 2049 : ℕ) + 128 ^ 2 + 3 * (n + 1)) * (2 : ℝ) ^ A.f.emin) :=
    ⟨_, rfl⟩
  rw [← hT] at c5
  have hT0 : 0 ≤ T := by
    rw [hT]
    have := hfft.delta_nonneg
    have := hfft.etaF_nonneg
    have := (double_ok hf).u_pos
    positivity
  have hmT : (3 * (n : ℝ) + 1) * T ≤ 301 * (4 / 10 ^ 10) := mul_le_mul (by linarith) c5 hT0 (by norm_num)
  obtain ⟨x, hx, hxf, hxA⟩ := ieee_new_B (double_ok hf) env hn hL le_rfl c1 c2 hfft (S := univ) exp_gap_one.1 exp_gap_one.2 (double_gap hf)
    (mem_univ _) (mem_univ _) (fun _ => mem_univ _) hBf hB isqrt ha
    (Q := 377225) ((double_Q hn hn' (m := 5) (by norm_num)).trans (by norm_num)) c4 c3 hT (hmT.trans (by norm_num))
  refine ⟨x, hx, hxf, hxA.trans ?_⟩
  have hE := esqrt_le (n := n) (s := 10) (by omega)
  push_cast at hE
  have : 6 / 5 * Real.exp 1 * √(n : ℝ) * ((3 * n + 1) * T) ≤ 6 / 5 * (2.7183 * 10) * (301 * (4 / 10 ^ 10)) := by
    refine mul_le_mul (by linarith) hmT (by positivity) (by norm_num)
  exact this.trans (by norm_num)

/-- C61: `ecdf1_new_b` in IEEE-754 double precision, for every valid boundary of up to 100 doubles: the result is a finite
double within `4e-6` of the probability. -/
theorem C61_double_new_b_100 (hf : A.f = binary64) {n : ℕ} (hn : 1 ≤ n) (hn' : n ≤ 100) (hL : LibmAccurate A u50 n)
    (env : Env (Num A)) {delta etaF : ℝ} (hδ : delta ≤ (2 : ℝ) ^ (-45 : ℤ)) (hη : etaF ≤ (2 : ℝ) ^ (-100 : ℤ))
    (hfft : FFTAccurate (ieeeModel A u50 (double_ok hf)) env.fft (2 * n + 2049) delta etaF 256)
    {b : Fin n → Num A} (hbf : ∀ i, (b i).finite) (hb : ValidBound fun i => (b i).val)
    (isqrt : ℕ → ℕ) (ha : env.asserts = false ∨ isqrt n + 1 ≤ n) :
    ∃ x : Num A, ecdf1Newb env isqrt (List.ofFn b) = .ok x ∧ x.finite ∧
      |x.val - lowerProb (fun i => (b i).val)| ≤ 4 / 10 ^ 6 := by
  obtain ⟨⟨c1, c2, c3, c4⟩, c5⟩ := double_const hf hn hn' hfft.delta_nonneg hfft.etaF_nonneg hδ hη
  have hnr : (n : ℝ) ≤ 100 := by exact_mod_cast hn'
  obtain ⟨T, hT⟩ : ∃ T, T = 21 / 20 * (((377225 : ℕ) + 1) * u50 + √(2 * n + 2049 : ℕ) * (13 * u50 + 4 * delta) + 128 * u50)
      + (24 * √(2 * n + 2049 : ℕ) * etaF + (34 * √(2 * n + 2049 : ℕ) * (2 * n + 2049 : ℕ) + 128 ^ 2 + 3 * (n + 1)) * (2 : ℝ) ^ A.f.emin) :=
    ⟨_, rfl⟩
  rw [← hT] at c5
  have hT0 : 0 ≤ T := by
    rw [hT]
    have := hfft.delta_nonneg
    have := hfft.etaF_nonneg
    have := (double_ok hf).u_pos
    positivity
  have hmT : (3 * (n : ℝ) + 1) * T ≤ 301 * (4 / 10 ^ 10) := mul_le_mul (by linarith) c5 hT0 (by norm_num)
  obtain ⟨x, hx, hxf, hxA⟩ := ieee_new_b (double_ok hf) env hn hL le_rfl c1 c2 hfft (S := univ) exp_gap_one.1 exp_gap_one.2 (double_gap hf)
    (mem_univ _) (mem_univ _) (fun _ => mem_univ _) hbf hb isqrt ha
    (Q := 377225) ((double_Q hn hn' (m := 5) (by norm_num)).trans (by norm_num)) c4 c3 hT (hmT.trans (by norm_num))
  refine ⟨x, hx, hxf, hxA.trans ?_⟩
  have hE := esqrt_le (n := n) (s := 10) (by omega)
  push_cast at hE
  have : 6 / 5 * Real.exp 1 * √(n : ℝ) * ((3 * n + 1) * T) ≤ 6 / 5 * (2.7183 * 10) * (301 * (4 / 10 ^ 10)) := by
    refine mul_le_mul (by linarith) hmT (by positivity) (by norm_num)
  have h2 : (n : ℝ) ^ 2 * u50 ≤ 100 ^ 2 * u50 :=
    mul_le_mul_of_nonneg_right (pow_le_pow_left₀ (Nat.cast_nonneg n) hnr 2) (double_ok hf).u_pos.le
  refine (add_le_add this h2).trans ?_
  rw [u50_val]; norm_num

end
end CP.Props
