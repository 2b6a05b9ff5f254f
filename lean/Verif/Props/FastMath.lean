import Verif.Proofs.FastIeee
import Verif.Props.IeeeProgram
import Verif.Proofs.FastWit
/-
Property C66: accuracy of `ecdf2` as compiled with `-O3 -ffast-math -march=native`, whatever legal evaluation order the compiler chose.
-/
open MeasureTheory Set
namespace CP.Props
open CP.Spec FOps
noncomputable section

/-- C66: in any floating-point arithmetic, for any legal compilation (each inner loop sums its products in any order, with or without
fused multiply-add, the exponent of each Poisson probability is rearranged in any way, the final division is replaced by a
multiplication or not) and any valid finite boundaries, `ecdf2` (without FFT, or with FFT and at most 126 points) returns a finite
non-negative number, equal to the non-crossing probability up to a factor between `g^-K` and `g^K` and an absolute error `A`;
`K = (2n+1)(Q+n+3+e)+Q+3` is polynomial in `n` and `A` comes from underflow only. -/
theorem C66_error {F : Type} [FOps F] {R : FloatModel F} {S : Set F} {c : FastCode F} {e : ℕ} (hc : FastCode.Legal c e)
    {n : ℕ} (hn : 1 ≤ n) {etaE expMin : ℝ} (M : MathLibrary R n etaE expMin) (hops : FastOps R c n etaE expMin) (hg : R.g ≤ 8 / 7)
    (env : Env F) {useFft : Bool} (hsm : useFft = false ∨ n ≤ 126) {b B : Fin n → F}
    (hz : zero ∈ S) (ho : one ∈ S) (hbS : ∀ i, b i ∈ S) (hBS : ∀ i, B i ∈ S)
    (hbf : ∀ i, R.finite (b i)) (hBf : ∀ i, R.finite (B i)) (hb : ValidBound fun i => R.val (b i))
    (hB : ValidBound fun i => R.val (B i)) {sort : List (Bound F) → List (Bound F)} (hsort : SortContractF R sort)
    (ha : env.asserts = false ∨ ¬ StronglyCrossed (fun i => R.val (b i)) (fun i => R.val (B i)))
    {Lam : ℝ} (hln : Real.log n ≤ Lam)
    (hLam : ∀ x ∈ S, ∀ y ∈ S, R.finite x → R.finite y → 0 ≤ R.val x → R.val x < R.val y → R.val y ≤ 1 →
      |Real.log (n * (R.val y - R.val x))| ≤ Lam)
    {Q K : ℕ} (hQ : 5 * n * Lam + 11 * n + 5 * Real.log n.factorial ≤ Q) (hK : K = (2 * n + 1) * (Q + n + 3 + e) + Q + 3)
    {X A : ℝ} (hX : X = (1 + ((n : ℝ) + 1) * (etaE + R.eta)) ^ (2 * n + 1) - 1) (hA : A = X / poissonProb n n + (2 + X) * R.eta)
    (hO1 : 7 * (n * Lam + n + Real.log n.factorial) ≤ R.Omega) (hO2 : R.g ^ (Q + 1) / poissonProb n n ≤ R.Omega)
    (hO3 : (1 + A) * R.g ^ K ≤ R.Omega) (hmin : expMin * R.g ^ Q ≤ poissonProb n n) :
    ∃ x, ecdf2Fast c env sort (List.ofFn b) (List.ofFn B) useFft = .ok x ∧ R.finite x ∧ 0 ≤ R.val x ∧
      noncrossProb (fun i => R.val (b i)) (fun i => R.val (B i)) / R.g ^ K - A ≤ R.val x ∧
      R.val x ≤ (noncrossProb (fun i => R.val (b i)) (fun i => R.val (B i)) + A) * R.g ^ K ∧
      (R.ZeroExact → noncrossProb (fun i => R.val (b i)) (fun i => R.val (B i)) = 0 → R.val x = 0) := by
  have hpmf := fastPmf_of_lib M hops hc hg hn hln hLam hQ hO1 hO2 hmin
  have hK' : K = (2 * n + 1) * (Q + 1 + n + 2 + e) + (Q + 1) + 2 := by rw [hK]; ring
  subst hK' hX
  obtain ⟨x, hx, h⟩ := ecdf2Fast_round hc hops env hsm hpmf hz ho hbS hBS hbf hBf hb hB hsort ha hA hn hO2 hO3
  exact ⟨x, hx, h.fin, h.nonneg, h.lower, h.upper, h.exact0⟩

variable {A : FloatSystem}

/-- The number of rounding errors in a Poisson probability, for points that are doubles. -/
theorem double_Q_fast {n N m : ℕ} (hn : 1 ≤ n) (hnN : n ≤ N) (hm : (N : ℝ) ≤ (27 / 10 : ℝ) ^ m) :
    5 * (n : ℝ) * (Real.log n + Real.log (1 / (2 : ℝ) ^ (-1074 : ℤ))) + 11 * n + 5 * Real.log n.factorial
      ≤ 5 * N * (m + 744.45) + 11 * N + 5 * (N * m) := by
  have hnr : (1 : ℝ) ≤ n := by exact_mod_cast hn
  have hNr : (n : ℝ) ≤ N := by exact_mod_cast hnN
  have h1 := log_le_of_exp hn (hNr.trans hm)
  have h2 := log_gap
  have h3 := log_fact_le_mul n
  have h4 : (n : ℝ) * Real.log n ≤ N * m := mul_le_mul hNr h1 (Real.log_nonneg hnr) (by linarith)
  have h5 : 5 * (n : ℝ) * (Real.log n + Real.log (1 / (2 : ℝ) ^ (-1074 : ℤ))) ≤ 5 * N * (m + 744.45) :=
    (mul_le_mul_of_nonneg_left (add_le_add h1 h2) (by linarith)).trans
      (mul_le_mul_of_nonneg_right (by linarith) (by positivity))
  linarith

/-- `ecdf2` as compiled, in double precision, with the size and the error as parameters. -/
theorem double_fast (hf : A.f = binary64) {c : FastCode (Num A)} (hc : FastIeee A u50 c) {ex ex' : ℕ} (hleg : FastCode.Legal c ex) (hex : ex ≤ ex')
    {n N m Q K s : ℕ} {e : ℝ} (hn : 1 ≤ n) (hnN : n ≤ N) {useFft : Bool} (hsm : useFft = false ∨ n ≤ 126) (hL : LibmAccurate A u50 n)
    (env : Env (Num A)) {b B : Fin n → Num A} (hbf : ∀ i, (b i).finite) (hBf : ∀ i, (B i).finite)
    (hb : ValidBound fun i => (b i).val) (hB : ValidBound fun i => (B i).val)
    {sort : List (Bound (Num A)) → List (Bound (Num A))} (hperm : ∀ l, (sort l).Perm l)
    (hsorted : ∀ l, (∀ x ∈ l, x.location.finite) → (sort l).Pairwise fun x y => lt y.location x.location = false)
    (ha : env.asserts = false ∨ ¬ StronglyCrossed (fun i => (b i).val) (fun i => (B i).val))
    (hm : (N : ℝ) ≤ (27 / 10 : ℝ) ^ m) (hQ : 5 * (N : ℝ) * (m + 744.45) + 11 * N + 5 * (N * m) ≤ Q)
    (hK : (2 * N + 1) * (Q + N + 3 + ex') + Q + 3 ≤ K) (hs : N ≤ s ^ 2) (hN : N ≤ 2 ^ 20) (hs2 : s ≤ 2 ^ 10) (hK2 : K ≤ 2 ^ 40)
    (he : 1 ≤ (1 + e) * (1 - K * u50)) (hKe : K * u50 ≤ e) :
    ∃ x : Num A, ecdf2Fast c env sort (List.ofFn b) (List.ofFn B) useFft = .ok x ∧ x.finite ∧ 0 ≤ x.val ∧
      |x.val - noncrossProb (fun i => (b i).val) (fun i => (B i).val)|
        ≤ e * noncrossProb (fun i => (b i).val) (fun i => (B i).val) + (2 : ℝ) ^ (-1000 : ℤ) ∧
      (noncrossProb (fun i => (b i).val) (fun i => (B i).val) = 0 → x.val = 0) := by
  have h := double_ok hf
  have hemin : A.f.emin = -1074 := by rw [hf]; rfl
  have hemax : A.f.emax = 1024 := by rw [hf]; rfl
  have hp : A.f.p = 53 := by rw [hf]; rfl
  have hmn : A.f.minNormal = (2 : ℝ) ^ (-1022 : ℤ) := by
    unfold Format.minNormal; rw [hemin, hp]; norm_num
  have hNr : (N : ℝ) ≤ 2 ^ 20 := by exact_mod_cast hN
  have hnr : (n : ℝ) ≤ N := by exact_mod_cast hnN
  have hn1 : (1 : ℝ) ≤ n := by exact_mod_cast hn
  have hsr : (s : ℝ) ≤ 2 ^ 10 := by exact_mod_cast hs2
  have hE := esqrt_le (n := n) (s := s) (hnN.trans hs)
  have hE0 : 0 ≤ Real.exp 1 * √(n : ℝ) := by positivity
  have hE12 : Real.exp 1 * √(n : ℝ) ≤ 2 ^ 12 := by linarith
  obtain ⟨K', hK'⟩ : ∃ K', K' = (2 * n + 1) * (Q + n + 3 + ex) + Q + 3 := ⟨_, rfl⟩
  have hKK : K' ≤ K := by
    rw [hK']
    refine le_trans ?_ hK
    have : (2 * n + 1) * (Q + n + 3 + ex) ≤ (2 * N + 1) * (Q + N + 3 + ex') := Nat.mul_le_mul (by omega) (by omega)
    omega
  have hKr : (K' : ℝ) ≤ K := by exact_mod_cast hKK
  have hK2r : (K : ℝ) ≤ 2 ^ 40 := by exact_mod_cast hK2
  have hu0 := h.u_pos
  have hKu : (K : ℝ) * u50 ≤ 1 / 2 := by
    rw [u50_val]; linarith
  have hKu' : (K' : ℝ) * u50 ≤ K * u50 := mul_le_mul_of_nonneg_right hKr hu0.le
  obtain ⟨W, hW⟩ : ∃ W, W = 5 * (2 * n + 1) * (n + 1) * (Real.exp 1 * √n) * (2 : ℝ) ^ A.f.emin := ⟨_, rfl⟩
  have hWle : W ≤ (2 : ℝ) ^ (-1001 : ℤ) := by
    have h1 : 5 * (2 * (n : ℝ) + 1) * (n + 1) * (Real.exp 1 * √n) ≤ 2 ^ 60 := by
      have x1 : 5 * (2 * (n : ℝ) + 1) ≤ 2 ^ 24 := by linarith
      have x2 : (n : ℝ) + 1 ≤ 2 ^ 21 := by linarith
      calc _ ≤ (2 : ℝ) ^ 24 * 2 ^ 21 * 2 ^ 12 :=
            mul_le_mul (mul_le_mul x1 x2 (by linarith) (by norm_num)) hE12 hE0 (by norm_num)
        _ ≤ _ := by norm_num
    rw [hW, hemin]
    calc _ ≤ (2 : ℝ) ^ (60 : ℕ) * (2 : ℝ) ^ (-1074 : ℤ) := mul_le_mul_of_nonneg_right h1 (by positivity)
      _ = (2 : ℝ) ^ (-1014 : ℤ) := by rw [← zpow_natCast, ← zpow_add₀ (by norm_num)]; norm_num
      _ ≤ _ := zpow_le_zpow_right₀ (by norm_num) (by norm_num)
  have hW0 : 0 ≤ W := by rw [hW]; positivity
  have hW1 : W ≤ 1 / 2 := hWle.trans (by
    calc (2 : ℝ) ^ (-1001 : ℤ) ≤ 2 ^ (-1 : ℤ) := zpow_le_zpow_right₀ (by norm_num) (by norm_num)
      _ = _ := by norm_num)
  have hmin : A.f.minNormal * (2 * (Real.exp 1 * √n)) ≤ 1 := by
    rw [hmn]
    calc (2 : ℝ) ^ (-1022 : ℤ) * (2 * (Real.exp 1 * √n)) ≤ (2 : ℝ) ^ (-20 : ℤ) * (2 * 2 ^ 12) :=
          mul_le_mul (zpow_le_zpow_right₀ (by norm_num) (by norm_num)) (by linarith) (by linarith) (by positivity)
      _ ≤ 1 := by norm_num
  have hKO : (K' : ℝ) ≤ (2 : ℝ) ^ (A.f.emax - 1) := by
    rw [hemax]
    refine (hKr.trans hK2r).trans ?_
    rw [← zpow_natCast]
    exact zpow_le_zpow_right₀ (by norm_num) (by norm_num)
  have hEO : 2 * (Real.exp 1 * √(n : ℝ)) ≤ (2 : ℝ) ^ (A.f.emax - 1) := by
    rw [hemax]
    have h1 : 2 * (Real.exp 1 * √(n : ℝ)) ≤ (2 : ℝ) ^ (13 : ℤ) := (by linarith : 2 * (Real.exp 1 * √(n : ℝ)) ≤ 2 ^ 13).trans (by norm_num)
    exact h1.trans (zpow_le_zpow_right₀ (by norm_num) (by norm_num))
  obtain ⟨x, hx, hxf, hx0, hl, hu, hz0⟩ := fast_ieee_direct h hc hleg env hn hsm hL (by rw [hp]; omega) (S := univ) (gap := (2 : ℝ) ^ (-1074 : ℤ)) (by positivity)
    (by calc (2 : ℝ) ^ (-1074 : ℤ) ≤ 2 ^ (0 : ℤ) := zpow_le_zpow_right₀ (by norm_num) (by norm_num)
          _ = 1 := zpow_zero _)
    (fun x _ y _ hxf hyf _ hlt _ => by rw [← hemin]; exact fin_gap hxf hyf hlt) (mem_univ _) (mem_univ _) (fun _ => mem_univ _)
    (fun _ => mem_univ _) hbf hBf hb hB (sort := sort) ⟨hperm, hsorted⟩ ha ((double_Q_fast hn hnN hm).trans hQ) hK' (hKu'.trans hKu) hKO hmin
    hEO hW hW1
  refine ⟨x, hx, hxf, hx0, ?_, hz0⟩
  have hP : 0 ≤ noncrossProb (fun i => (b i).val) (fun i => (B i).val) := measureReal_nonneg
  have he2 : 1 ≤ (1 + e) * (1 - K' * u50) := by
    refine he.trans (mul_le_mul_of_nonneg_left (by linarith) ?_)
    have : 0 ≤ (K : ℝ) * u50 := by positivity
    linarith
  have := rel_abs hP hW0 (hKu'.trans hKu) he2 hl hu (hKu'.trans hKe)
  refine this.trans (by
    have e1 : (2 : ℝ) ^ (-1000 : ℤ) = 2 * 2 ^ (-1001 : ℤ) := by
      rw [show (-1000 : ℤ) = 1 + -1001 by norm_num, zpow_add₀ (by norm_num), zpow_one]
    rw [e1]
    linarith)

/-- C66: `ecdf2` with or without FFT, compiled with `-ffast-math` in any legal way (no term of an inner sum passing through more than
1000 additional roundings), in IEEE-754 double precision with a math library accurate to four units in the last place, for every pair of
valid boundaries of up to 100 doubles: the result is a finite non-negative double whose relative error is at most `7e-8` (plus `2^-1000`
for underflow): the same bound as without `-ffast-math` (C61). -/
theorem C66_double_100 (hf : A.f = binary64) {c : FastCode (Num A)} (hc : FastIeee A u50 c) {e : ℕ} (hleg : FastCode.Legal c e) (he : e ≤ 1000)
    {n : ℕ} (hn : 1 ≤ n) (hn' : n ≤ 100) (hL : LibmAccurate A u50 n) (useFft : Bool)
    (env : Env (Num A)) {b B : Fin n → Num A} (hbf : ∀ i, (b i).finite) (hBf : ∀ i, (B i).finite)
    (hb : ValidBound fun i => (b i).val) (hB : ValidBound fun i => (B i).val)
    {sort : List (Bound (Num A)) → List (Bound (Num A))} (hperm : ∀ l, (sort l).Perm l)
    (hsorted : ∀ l, (∀ x ∈ l, x.location.finite) → (sort l).Pairwise fun x y => lt y.location x.location = false)
    (ha : env.asserts = false ∨ ¬ StronglyCrossed (fun i => (b i).val) (fun i => (B i).val)) :
    ∃ x : Num A, ecdf2Fast c env sort (List.ofFn b) (List.ofFn B) useFft = .ok x ∧ x.finite ∧ 0 ≤ x.val ∧
      |x.val - noncrossProb (fun i => (b i).val) (fun i => (B i).val)|
        ≤ 7 / 10 ^ 8 * noncrossProb (fun i => (b i).val) (fun i => (B i).val) + (2 : ℝ) ^ (-1000 : ℤ) ∧
      (noncrossProb (fun i => (b i).val) (fun i => (B i).val) = 0 → x.val = 0) :=
  double_fast hf hc hleg he (N := 100) (m := 5) (Q := 378325) (K := 76700000) (s := 10) hn hn' (Or.inr (by omega)) hL env hbf hBf hb hB hperm hsorted ha
    (by norm_num) (by norm_num) (by norm_num) (by norm_num) (by norm_num) (by norm_num) (by norm_num)
    (by rw [u50_val]; norm_num) (by rw [u50_val]; norm_num)

/-- C66: the same without FFT for up to 1000 doubles, with relative error at most `7e-6`. -/
theorem C66_double_1000 (hf : A.f = binary64) {c : FastCode (Num A)} (hc : FastIeee A u50 c) {e : ℕ} (hleg : FastCode.Legal c e) (he : e ≤ 1000)
    {n : ℕ} (hn : 1 ≤ n) (hn' : n ≤ 1000) (hL : LibmAccurate A u50 n)
    (env : Env (Num A)) {b B : Fin n → Num A} (hbf : ∀ i, (b i).finite) (hBf : ∀ i, (B i).finite)
    (hb : ValidBound fun i => (b i).val) (hB : ValidBound fun i => (B i).val)
    {sort : List (Bound (Num A)) → List (Bound (Num A))} (hperm : ∀ l, (sort l).Perm l)
    (hsorted : ∀ l, (∀ x ∈ l, x.location.finite) → (sort l).Pairwise fun x y => lt y.location x.location = false)
    (ha : env.asserts = false ∨ ¬ StronglyCrossed (fun i => (b i).val) (fun i => (B i).val)) :
    ∃ x : Num A, ecdf2Fast c env sort (List.ofFn b) (List.ofFn B) false = .ok x ∧ x.finite ∧ 0 ≤ x.val ∧
      |x.val - noncrossProb (fun i => (b i).val) (fun i => (B i).val)|
        ≤ 7 / 10 ^ 6 * noncrossProb (fun i => (b i).val) (fun i => (B i).val) + (2 : ℝ) ^ (-1000 : ℤ) ∧
      (noncrossProb (fun i => (b i).val) (fun i => (B i).val) = 0 → x.val = 0) :=
  double_fast hf hc hleg he (N := 1000) (m := 7) (Q := 3803250) (K := 7620000000) (s := 32) hn hn' (Or.inl rfl) hL env hbf hBf hb hB hperm hsorted ha
    (by norm_num) (by norm_num) (by norm_num) (by norm_num) (by norm_num) (by norm_num) (by norm_num)
    (by rw [u50_val]; norm_num) (by rw [u50_val]; norm_num)

/-- C66, consistency of the model with C01: the compiled code that follows the source to the letter is legal, and returns what the model of
the source returns. -/
theorem C66_strict {F : Type} [FOps F] (fma : F → F → F → F) (env : Env F) (sort : List (Bound F) → List (Bound F)) (b B : List F)
    (useFft : Bool) : FastCode.Legal (strictCode fma) 0 ∧
    ∀ x, ecdf2 env sort b B useFft = .ok x → ecdf2Fast (strictCode fma) env sort b B useFft = .ok x :=
  ⟨strict_legal fma, ecdf2_strict fma env sort b B useFft⟩

/-- The assumptions can be met by code that differs from the source: two accumulators, fused multiply-add, multiplication by the
reciprocal; with merge sort and a correctly rounded library. -/
theorem twoLanes_ieee : FastIeee doubles u50 (twoLanes (exactFma doubles)) :=
  fastIeee_of (doubles_libm (N := 0) u50_ge (by norm_num)) rfl rfl

example (env : Env (Num doubles)) (ha : env.asserts = false) :
    ∃ x : Num doubles, ecdf2Fast (twoLanes (exactFma doubles)) env ieeeSort (List.ofFn fun _ : Fin 8 => roundNum doubles (1 / 8))
        (List.ofFn fun _ : Fin 8 => roundNum doubles (3 / 4)) true = .ok x ∧ x.finite ∧ 0 ≤ x.val ∧
      |x.val - noncrossProb (fun _ : Fin 8 => (roundNum doubles (1 / 8)).val) (fun _ => (roundNum doubles (3 / 4)).val)|
        ≤ 7 / 10 ^ 8 * noncrossProb (fun _ : Fin 8 => (roundNum doubles (1 / 8)).val) (fun _ => (roundNum doubles (3 / 4)).val)
          + (2 : ℝ) ^ (-1000 : ℤ) ∧
      (noncrossProb (fun _ : Fin 8 => (roundNum doubles (1 / 8)).val) (fun _ => (roundNum doubles (3 / 4)).val) = 0 → x.val = 0) := by
  have hv : ∀ c : ℝ, 0 ≤ c → c ≤ 1 → ValidBound (fun _ : Fin 8 => c) := fun c h0 h1 => ⟨fun _ _ _ => le_rfl, fun _ => ⟨h0, h1⟩⟩
  obtain ⟨b1, -, b3, -⟩ := double_read (A := doubles) rfl (hv (1 / 8) (by norm_num) (by norm_num))
  obtain ⟨B1, -, B3, -⟩ := double_read (A := doubles) rfl (hv (3 / 4) (by norm_num) (by norm_num))
  have hs := ieeeSort_contract (double_ok (A := doubles) rfl)
  exact C66_double_100 rfl twoLanes_ieee (twoLanes_legal _) (by norm_num) (by norm_num) (by norm_num) (doubles_libm u50_ge (by norm_num))
    true env b1 B1 b3 B3 hs.perm hs.sorted (Or.inl ha)

end
end CP.Props
