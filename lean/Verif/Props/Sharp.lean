import Verif.Proofs.SharpIeee
import Verif.Proofs.FastStrictConv
import Verif.Props.FastMath
import Verif.Props.FastProgram
/-
Property C75: the relative error of `ecdf2` (direct convolution) grows like the square of the number of points; the printed digits for
large boundaries.
-/
open MeasureTheory Set
namespace CP.Props
open CP.Spec FOps
noncomputable section

/-- C75: in any floating-point arithmetic, for any legal compilation and any valid finite boundaries, `ecdf2` (without FFT, or with FFT
and at most 126 points) returns a finite non-negative number, equal to the non-crossing probability up to a factor between `g^-K` and
`g^K` and an absolute error `A` from underflow, where `K = (2n+1)(n+4+e) + 2(8n+nP) + 3` and `P` is about five times the largest
`|log lambda|` plus `5 log n`. -/
theorem C75_error {F : Type} [FOps F] {R : FloatModel F} {S : Set F} {c : FastCode F} {e : ℕ} (hc : FastCode.Legal c e)
    {n : ℕ} (hn : 1 ≤ n) {etaE expMin : ℝ} (M : MathLibrary R n etaE expMin) (hops : FastOps R c n etaE expMin) (hg : R.g ≤ 8 / 7)
    (env : Env F) {useFft : Bool} (hsm : useFft = false ∨ n ≤ 126) {b B : Fin n → F}
    (hz : zero ∈ S) (ho : one ∈ S) (hbS : ∀ i, b i ∈ S) (hBS : ∀ i, B i ∈ S)
    (hbf : ∀ i, R.finite (b i)) (hBf : ∀ i, R.finite (B i)) (hb : ValidBound fun i => R.val (b i))
    (hB : ValidBound fun i => R.val (B i)) {sort : List (Bound F) → List (Bound F)} (hsort : SortContractF R sort)
    (ha : env.asserts = false ∨ ¬ StronglyCrossed (fun i => R.val (b i)) (fun i => R.val (B i)))
    {Lam : ℝ} (hln : Real.log n ≤ Lam)
    (hLam : ∀ x ∈ S, ∀ y ∈ S, R.finite x → R.finite y → 0 ≤ R.val x → R.val x < R.val y → R.val y ≤ 1 →
      |Real.log (n * (R.val y - R.val x))| ≤ Lam)
    {P K : ℕ} (hP : 5 * Lam + 5 * Real.log n + 4 ≤ P) (hK : K = (2 * n + 1) * (n + 4 + e) + 2 * (8 * n + n * P) + 3)
    {X A : ℝ} (hX : X = (1 + ((n : ℝ) + 1) * (etaE + R.eta)) ^ (2 * n + 1) - 1) (hA : A = X / poissonProb n n + (2 + X) * R.eta)
    (hO1 : 7 * (n * Lam + n + Real.log n.factorial) ≤ R.Omega) (hO2 : R.g ^ (8 * n + n * P + 1) / poissonProb n n ≤ R.Omega)
    (hO3 : (1 + A) * R.g ^ K ≤ R.Omega) (hmin : expMin * R.g ^ (8 * n + n * P) ≤ poissonProb n n) :
    ∃ x, ecdf2Fast c env sort (List.ofFn b) (List.ofFn B) useFft = .ok x ∧ R.finite x ∧ 0 ≤ R.val x ∧
      noncrossProb (fun i => R.val (b i)) (fun i => R.val (B i)) / R.g ^ K - A ≤ R.val x ∧
      R.val x ≤ (noncrossProb (fun i => R.val (b i)) (fun i => R.val (B i)) + A) * R.g ^ K ∧
      (R.ZeroExact → noncrossProb (fun i => R.val (b i)) (fun i => R.val (B i)) = 0 → R.val x = 0) := by
  have hpmf := sharpPmf_of_lib M hops hc hg hn hln hLam hP rfl hO1 hO2 hmin
  have hK' : K = 8 * n + (2 * n + 1) * (n + 4 + e) + n * P + (8 * n + n * P + 1) + 2 := by rw [hK]; ring
  subst hK' hX
  obtain ⟨x, hx, h⟩ := ecdf2Fast_sharp hc hops env hsm hpmf hz ho hbS hBS hbf hBf hb hB hsort ha hA hn hO2 hO3
  exact ⟨x, hx, h.fin, h.nonneg, h.lower, h.upper, h.exact0⟩

variable {A : FloatSystem}

/-- `ecdf2` as compiled, in double precision, with the size and the error as parameters. -/
theorem double_sharp (hf : A.f = binary64) {c : FastCode (Num A)} (hc : FastIeee A u50 c) {ex ex' : ℕ} (hleg : FastCode.Legal c ex) (hex : ex ≤ ex')
    {n N m P K s : ℕ} {e : ℝ} (hn : 1 ≤ n) (hnN : n ≤ N) {useFft : Bool} (hsm : useFft = false ∨ n ≤ 126) (hL : LibmAccurate A u50 n)
    (env : Env (Num A)) {b B : Fin n → Num A} (hbf : ∀ i, (b i).finite) (hBf : ∀ i, (B i).finite)
    (hb : ValidBound fun i => (b i).val) (hB : ValidBound fun i => (B i).val)
    {sort : List (Bound (Num A)) → List (Bound (Num A))} (hperm : ∀ l, (sort l).Perm l)
    (hsorted : ∀ l, (∀ x ∈ l, x.location.finite) → (sort l).Pairwise fun x y => lt y.location x.location = false)
    (ha : env.asserts = false ∨ ¬ StronglyCrossed (fun i => (b i).val) (fun i => (B i).val))
    (hm : (N : ℝ) ≤ (27 / 10 : ℝ) ^ m) (hP' : 5 * ((m : ℝ) + 744.45) + 5 * m + 4 ≤ P)
    (hK : (2 * n + 1) * (n + 4 + ex') + 2 * (8 * n + n * P) + 3 ≤ K) (hs : N ≤ s ^ 2) (hN : N ≤ 2 ^ 20) (hs2 : s ≤ 2 ^ 10) (hK2 : K ≤ 2 ^ 40)
    (he : 1 ≤ (1 + e) * (1 - K * u50)) (hKe : K * u50 ≤ e) :
    ∃ x : Num A, ecdf2Fast c env sort (List.ofFn b) (List.ofFn B) useFft = .ok x ∧ x.finite ∧ 0 ≤ x.val ∧
      |x.val - noncrossProb (fun i => (b i).val) (fun i => (B i).val)|
        ≤ e * noncrossProb (fun i => (b i).val) (fun i => (B i).val) + (2 : ℝ) ^ (-1000 : ℤ) ∧
      (noncrossProb (fun i => (b i).val) (fun i => (B i).val) = 0 → x.val = 0) := by
  have h := double_ok hf
  have hPr : 5 * (Real.log n + Real.log (1 / (2 : ℝ) ^ (-1074 : ℤ))) + 5 * Real.log n + 4 ≤ P := by
    have h1 := log_le_of_exp hn ((by exact_mod_cast hnN : (n : ℝ) ≤ N).trans hm)
    have h2 := log_gap
    linarith
  have hemin : A.f.emin = -1074 := by rw [hf]; rfl
  have hemax : A.f.emax = 1024 := by rw [hf]; rfl
  have hp : A.f.p = 53 := by rw [hf]; rfl
  have hmn : A.f.minNormal = (2 : ℝ) ^ (-1022 : ℤ) := by
    unfold Format.minNormal; rw [hemin, hp]; norm_num
  have hNr : (N : ℝ) ≤ 2 ^ 20 := by exact_mod_cast hN
  have hnr : (n : ℝ) ≤ N := by exact_mod_cast hnN
  have hn1 : (1 : ℝ) ≤ n := by exact_mod_cast hn
  have hsr : (s : ℝ) ≤ 2 ^ 10 := by exact_mod_cast hs2
  have hE := esqrt_le (n := n) (s := s) (hnN.trans hs)
  have hE0 : 0 ≤ Real.exp 1 * √(n : ℝ) := by positivity
  have hE12 : Real.exp 1 * √(n : ℝ) ≤ 2 ^ 12 := by linarith
  obtain ⟨K', hK'⟩ : ∃ K', K' = (2 * n + 1) * (n + 4 + ex) + 2 * (8 * n + n * P) + 3 := ⟨_, rfl⟩
  have hKK : K' ≤ K := by
    rw [hK']
    refine le_trans ?_ hK
    have : (2 * n + 1) * (n + 4 + ex) ≤ (2 * n + 1) * (n + 4 + ex') := Nat.mul_le_mul_left _ (by omega)
    omega
  have hKr : (K' : ℝ) ≤ K := by exact_mod_cast hKK
  have hK2r : (K : ℝ) ≤ 2 ^ 40 := by exact_mod_cast hK2
  have hu0 := h.u_pos
  have hKu : (K : ℝ) * u50 ≤ 1 / 2 := by
    rw [u50_val]; linarith
  have hKu' : (K' : ℝ) * u50 ≤ K * u50 := mul_le_mul_of_nonneg_right hKr hu0.le
  obtain ⟨W, hW⟩ : ∃ W, W = 5 * (2 * n + 1) * (n + 1) * (Real.exp 1 * √n) * (2 : ℝ) ^ A.f.emin := ⟨_, rfl⟩
  have hWle : W ≤ (2 : ℝ) ^ (-1001 : ℤ) := by
    have h1 : 5 * (2 * (n : ℝ) + 1) * (n + 1) * (Real.exp 1 * √n) ≤ 2 ^ 60 := by
      have x1 : 5 * (2 * (n : ℝ) + 1) ≤ 2 ^ 24 := by linarith
      have x2 : (n : ℝ) + 1 ≤ 2 ^ 21 := by linarith
      calc _ ≤ (2 : ℝ) ^ 24 * 2 ^ 21 * 2 ^ 12 :=
            mul_le_mul (mul_le_mul x1 x2 (by linarith) (by norm_num)) hE12 hE0 (by norm_num)
        _ ≤ _ := by norm_num
    rw [hW, hemin]
    calc _ ≤ (2 : ℝ) ^ (60 : ℕ) * (2 : ℝ) ^ (-1074 : ℤ) := mul_le_mul_of_nonneg_right h1 (by positivity)
      _ = (2 : ℝ) ^ (-1014 : ℤ) := by rw [← zpow_natCast, ← zpow_add₀ (by norm_num)]; norm_num
      _ ≤ _ := zpow_le_zpow_right₀ (by norm_num) (by norm_num)
  have hW0 : 0 ≤ W := by rw [hW]; positivity
  have hW1 : W ≤ 1 / 2 := hWle.trans (by
    calc (2 : ℝ) ^ (-1001 : ℤ) ≤ 2 ^ (-1 : ℤ) := zpow_le_zpow_right₀ (by norm_num) (by norm_num)
      _ = _ := by norm_num)
  have hmin : A.f.minNormal * (2 * (Real.exp 1 * √n)) ≤ 1 := by
    rw [hmn]
    calc (2 : ℝ) ^ (-1022 : ℤ) * (2 * (Real.exp 1 * √n)) ≤ (2 : ℝ) ^ (-20 : ℤ) * (2 * 2 ^ 12) :=
          mul_le_mul (zpow_le_zpow_right₀ (by norm_num) (by norm_num)) (by linarith) (by linarith) (by positivity)
      _ ≤ 1 := by norm_num
  have hKO : (K' : ℝ) ≤ (2 : ℝ) ^ (A.f.emax - 1) := by
    rw [hemax]
    refine (hKr.trans hK2r).trans ?_
    rw [← zpow_natCast]
    exact zpow_le_zpow_right₀ (by norm_num) (by norm_num)
  have hEO : 2 * (Real.exp 1 * √(n : ℝ)) ≤ (2 : ℝ) ^ (A.f.emax - 1) := by
    rw [hemax]
    have h1 : 2 * (Real.exp 1 * √(n : ℝ)) ≤ (2 : ℝ) ^ (13 : ℤ) := (by linarith : 2 * (Real.exp 1 * √(n : ℝ)) ≤ 2 ^ 13).trans (by norm_num)
    exact h1.trans (zpow_le_zpow_right₀ (by norm_num) (by norm_num))
  obtain ⟨x, hx, hxf, hx0, hl, hu, hz0⟩ := sharp_ieee_direct h hc hleg env hn hsm hL (by rw [hp]; omega) (S := univ) (gap := (2 : ℝ) ^ (-1074 : ℤ)) (by positivity)
    (by calc (2 : ℝ) ^ (-1074 : ℤ) ≤ 2 ^ (0 : ℤ) := zpow_le_zpow_right₀ (by norm_num) (by norm_num)
          _ = 1 := zpow_zero _)
    (fun x _ y _ hxf hyf _ hlt _ => by rw [← hemin]; exact fin_gap hxf hyf hlt) (mem_univ _) (mem_univ _) (fun _ => mem_univ _)
    (fun _ => mem_univ _) hbf hBf hb hB (sort := sort) ⟨hperm, hsorted⟩ ha hPr hK' (hKu'.trans hKu) hKO hmin
    hEO hW hW1
  refine ⟨x, hx, hxf, hx0, ?_, hz0⟩
  have hPP : 0 ≤ noncrossProb (fun i => (b i).val) (fun i => (B i).val) := measureReal_nonneg
  have he2 : 1 ≤ (1 + e) * (1 - K' * u50) := by
    refine he.trans (mul_le_mul_of_nonneg_left (by linarith) ?_)
    have : 0 ≤ (K : ℝ) * u50 := by positivity
    linarith
  have := rel_abs hPP hW0 (hKu'.trans hKu) he2 hl hu (hKu'.trans hKe)
  refine this.trans (by
    have e1 : (2 : ℝ) ^ (-1000 : ℤ) = 2 * 2 ^ (-1001 : ℤ) := by
      rw [show (-1000 : ℤ) = 1 + -1001 by norm_num, zpow_add₀ (by norm_num), zpow_one]
    rw [e1]
    linarith)

/-- The relative error of `ecdf2` on boundaries of `n` doubles. -/
def relErr (n : ℕ) : ℝ := (2 * (n : ℝ) ^ 2 + 11000 * n) / 10 ^ 15

theorem relErr_nonneg (n : ℕ) : 0 ≤ relErr n := by unfold relErr; positivity

theorem relErr_le {n : ℕ} (hn : n ≤ 100000) : relErr n ≤ 3 / 10 ^ 5 := by
  have h : (n : ℝ) ≤ 100000 := by exact_mod_cast hn
  have h0 : (0 : ℝ) ≤ n := Nat.cast_nonneg n
  unfold relErr
  rw [div_le_div_iff₀ (by norm_num) (by norm_num)]
  nlinarith

/-- C75: `ecdf2` without FFT (or with FFT and at most 126 points), compiled with `-ffast-math` in any legal way (no term of an inner sum
passing through more than 1000 additional roundings), in IEEE-754 double precision with a math library accurate to four units in the last
place, for every pair of valid boundaries of up to 100000 doubles: the result is a finite non-negative double whose relative error is at
most `(2n^2 + 11000n) / 10^15` (plus `2^-1000` for underflow), that is `1.4e-8` for 1000 points, `3.1e-7` for 10000 points. -/
theorem C75_double (hf : A.f = binary64) {c : FastCode (Num A)} (hc : FastIeee A u50 c) {e : ℕ} (hleg : FastCode.Legal c e) (he : e ≤ 1000)
    {n : ℕ} (hn : 1 ≤ n) (hn' : n ≤ 100000) {useFft : Bool} (hsm : useFft = false ∨ n ≤ 126) (hL : LibmAccurate A u50 n)
    (env : Env (Num A)) {b B : Fin n → Num A} (hbf : ∀ i, (b i).finite) (hBf : ∀ i, (B i).finite)
    (hb : ValidBound fun i => (b i).val) (hB : ValidBound fun i => (B i).val)
    {sort : List (Bound (Num A)) → List (Bound (Num A))} (hperm : ∀ l, (sort l).Perm l)
    (hsorted : ∀ l, (∀ x ∈ l, x.location.finite) → (sort l).Pairwise fun x y => lt y.location x.location = false)
    (ha : env.asserts = false ∨ ¬ StronglyCrossed (fun i => (b i).val) (fun i => (B i).val)) :
    ∃ x : Num A, ecdf2Fast c env sort (List.ofFn b) (List.ofFn B) useFft = .ok x ∧ x.finite ∧ 0 ≤ x.val ∧
      |x.val - noncrossProb (fun i => (b i).val) (fun i => (B i).val)|
        ≤ (2 * (n : ℝ) ^ 2 + 11000 * n) / 10 ^ 15 * noncrossProb (fun i => (b i).val) (fun i => (B i).val) + (2 : ℝ) ^ (-1000 : ℤ) ∧
      (noncrossProb (fun i => (b i).val) (fun i => (B i).val) = 0 → x.val = 0) := by
  have hnr : (n : ℝ) ≤ 100000 := by exact_mod_cast hn'
  have hn1 : (1 : ℝ) ≤ n := by exact_mod_cast hn
  have hE := relErr_le hn'
  have hu : ((2 * n ^ 2 + 10726 * n : ℕ) : ℝ) * u50 ≤ 9 / 10 * relErr n := by
    rw [u50_val]
    unfold relErr
    push_cast
    have : (0 : ℝ) ≤ 2 * (n : ℝ) ^ 2 + 10726 * n := by positivity
    have h2 : (0 : ℝ) ≤ (n : ℝ) ^ 2 := by positivity
    rw [← sub_nonneg]
    ring_nf
    nlinarith
  have hr0 := relErr_nonneg n
  refine double_sharp hf hc hleg he (N := 100000) (m := 12) (P := 3847) (K := 2 * n ^ 2 + 10726 * n) (s := 317) (e := relErr n) hn hn' hsm hL env
    hbf hBf hb hB hperm hsorted ha (by norm_num) (by norm_num) (by nlinarith) (by norm_num) (by norm_num) (by norm_num) (by nlinarith) ?_ ?_
  · have h3 : (1 + relErr n) * (9 / 10 * relErr n) ≤ (1 + 3 / 10 ^ 5) * (9 / 10 * relErr n) :=
      mul_le_mul_of_nonneg_right (by linarith) (by positivity)
    have h4 : (1 + relErr n) * (((2 * n ^ 2 + 10726 * n : ℕ) : ℝ) * u50) ≤ (1 + relErr n) * (9 / 10 * relErr n) :=
      mul_le_mul_of_nonneg_left hu (by linarith)
    have h5 : (1 + relErr n) * (1 - ((2 * n ^ 2 + 10726 * n : ℕ) : ℝ) * u50) = 1 + relErr n - (1 + relErr n) * (((2 * n ^ 2 + 10726 * n : ℕ) : ℝ) * u50) := by ring
    rw [h5]
    linarith
  · linarith

/-- C75: the same for the source followed to the letter. -/
theorem C75_double_source (hf : A.f = binary64) {n : ℕ} (hn : 1 ≤ n) (hn' : n ≤ 100000) {useFft : Bool} (hsm : useFft = false ∨ n ≤ 126)
    (hL : LibmAccurate A u50 n)
    (env : Env (Num A)) {b B : Fin n → Num A} (hbf : ∀ i, (b i).finite) (hBf : ∀ i, (B i).finite)
    (hb : ValidBound fun i => (b i).val) (hB : ValidBound fun i => (B i).val)
    {sort : List (Bound (Num A)) → List (Bound (Num A))} (hperm : ∀ l, (sort l).Perm l)
    (hsorted : ∀ l, (∀ x ∈ l, x.location.finite) → (sort l).Pairwise fun x y => lt y.location x.location = false)
    (ha : env.asserts = false ∨ ¬ StronglyCrossed (fun i => (b i).val) (fun i => (B i).val)) :
    ∃ x : Num A, ecdf2 env sort (List.ofFn b) (List.ofFn B) useFft = .ok x ∧ x.finite ∧ 0 ≤ x.val ∧
      |x.val - noncrossProb (fun i => (b i).val) (fun i => (B i).val)|
        ≤ (2 * (n : ℝ) ^ 2 + 11000 * n) / 10 ^ 15 * noncrossProb (fun i => (b i).val) (fun i => (B i).val) + (2 : ℝ) ^ (-1000 : ℤ) ∧
      (noncrossProb (fun i => (b i).val) (fun i => (B i).val) = 0 → x.val = 0) := by
  obtain ⟨x, hx, h⟩ := C75_double hf (c := strictCode (exactFma A)) (fastIeee_of hL rfl rfl) (strict_legal _) (by norm_num) hn hn' hsm hL env
    hbf hBf hb hB hperm hsorted ha
  exact ⟨x, ecdf2_strict_conv _ _ _ _ _ _ x hx, h⟩

variable {D : FloatSystem} {G : Type} [FOps G]

/-- The error of the computation and of the conversion of the decimal numbers in the file. -/
theorem sharp_acc {n : ℕ} (hn' : n ≤ 100000) (hn : 1 ≤ n) {P x q : ℝ}
    (hxe : |x - q| ≤ (2 * (n : ℝ) ^ 2 + 11000 * n) / 10 ^ 15 * q + (2 : ℝ) ^ (-1000 : ℤ)) (hsh : |q - P| ≤ (n : ℝ) ^ 2 / 2 ^ 51) :
    |x - P| ≤ (2 * (n : ℝ) ^ 2 + 11000 * n) / 10 ^ 15 * P + (n : ℝ) ^ 2 / 10 ^ 15 := by
  have hE := relErr_le hn'
  have hE0 := relErr_nonneg n
  change |x - q| ≤ relErr n * q + _ at hxe
  change _ ≤ relErr n * P + _
  have hn1 : (1 : ℝ) ≤ (n : ℝ) ^ 2 := one_le_pow₀ (by exact_mod_cast hn)
  have htiny : (2 : ℝ) ^ (-1000 : ℤ) ≤ 1 / 10 ^ 20 :=
    (zpow_le_zpow_right₀ (by norm_num) (by norm_num) : (2 : ℝ) ^ (-1000 : ℤ) ≤ 2 ^ (-100 : ℤ)).trans (by norm_num)
  have e1 : (n : ℝ) ^ 2 / 2 ^ 51 ≤ (n : ℝ) ^ 2 * (1 / 2 / 10 ^ 15) := by
    rw [div_eq_mul_one_div]
    exact mul_le_mul_of_nonneg_left (by norm_num) (by linarith)
  have h1 := abs_le.mp (hsh.trans e1)
  have h2 := abs_sub_le x q P
  have h3 : relErr n * q ≤ relErr n * (P + (n : ℝ) ^ 2 * (1 / 2 / 10 ^ 15)) := mul_le_mul_of_nonneg_left (by linarith) hE0
  have h6 : relErr n * ((n : ℝ) ^ 2 * (1 / 2 / 10 ^ 15)) ≤ 3 / 10 ^ 5 * ((n : ℝ) ^ 2 * (1 / 2 / 10 ^ 15)) :=
    mul_le_mul_of_nonneg_right hE (by positivity)
  have h5 := hsh.trans e1
  linarith

/-- Both two-sided commands as compiled, given what was read from the file. -/
theorem sharp_ecdf2 {p : FastProgram (Num D) G} {e : ℕ} (hp : FastMachine p e) (w : World (Num D)) {fmt : Num D → Str} {inRange : ℝ → Prop} {n : ℕ} (hM : DoubleMachine w fmt inRange n)
    (ioWhat : Str) (hn : 1 ≤ n) (hn' : n ≤ 100000) {b B : Fin n → ℝ} (hb : ValidBound b) (hB : ValidBound B)
    (ha : w.env.asserts = false ∨ ¬ StronglyCrossed b B) {name : Str} {lb lB : List (Num D)}
    (hread : readAndCheckBoundariesFile w.libc w.fs name = .ok (lb, lB))
    (hpad : Computes.Padded lb lB (List.ofFn fun i => roundNum D (b i)) (List.ofFn fun i => roundNum D (B i)))
    {P : ℝ} (hP : P = noncrossProb b B) {s : Str} (hs : PrintsAs P ((2 * (n : ℝ) ^ 2 + 11000 * n) / 10 ^ 15 * P + (n : ℝ) ^ 2 / 10 ^ 15) s)
    {command : Str} (hc : command = "ecdf2-ks2001".toList ∨ command = "ecdf2-mn2017".toList ∧ n ≤ 126) :
    crossprobRunFast p w fmt ioWhat [command, name] = .exited 0 (s ++ ['\n']) := by
  subst hP
  obtain ⟨b1, -, b3, b4⟩ := double_read (A := D) hM.format hb
  obtain ⟨B1, -, B3, B4⟩ := double_read (A := D) hM.format hB
  have hsh := read_shift le_rfl b4 B4
  have ha' := ha.imp id (not_crossed hM.format hb hB)
  rcases hc with rfl | ⟨rfl, hsm⟩
  · obtain ⟨x, hx, hxf, -, hxe, -⟩ := C75_double hM.format hp.ks2001Acc hp.ks2001 hp.depth hn hn' (Or.inl rfl) hM.libm w.env b1 B1 b3 B3 hM.sortPerm hM.sortSorted ha'
    exact runFast_of hM.print ioWhat hread hxf (Or.inr (Or.inl ⟨rfl, (calculate_padded (by simp) (by simp) hn hpad).trans hx⟩)) hs (sharp_acc hn' hn hxe hsh)
  · obtain ⟨x, hx, hxf, -, hxe, -⟩ := C75_double hM.format hp.mn2017Acc hp.mn2017 hp.depth hn hn' (useFft := true) (Or.inr hsm) hM.libm w.env b1 B1 b3 B3 hM.sortPerm hM.sortSorted ha'
    exact runFast_of hM.print ioWhat hread hxf (Or.inr (Or.inr ⟨rfl, (calculate_padded (by simp) (by simp) hn hpad).trans hx⟩)) hs (sharp_acc hn' hn hxe hsh)

/-- Both two-sided commands, the source followed to the letter, given what was read from the file. -/
theorem sharp_source (w : World (Num D)) {fmt : Num D → Str} {inRange : ℝ → Prop} {n : ℕ} (hM : DoubleMachine w fmt inRange n)
    (ioWhat : Str) (hn : 1 ≤ n) (hn' : n ≤ 100000) {b B : Fin n → ℝ} (hb : ValidBound b) (hB : ValidBound B)
    (ha : w.env.asserts = false ∨ ¬ StronglyCrossed b B) {name : Str} {lb lB : List (Num D)}
    (hread : readAndCheckBoundariesFile w.libc w.fs name = .ok (lb, lB))
    (hpad : Computes.Padded lb lB (List.ofFn fun i => roundNum D (b i)) (List.ofFn fun i => roundNum D (B i)))
    {P : ℝ} (hP : P = noncrossProb b B) {s : Str} (hs : PrintsAs P ((2 * (n : ℝ) ^ 2 + 11000 * n) / 10 ^ 15 * P + (n : ℝ) ^ 2 / 10 ^ 15) s)
    {command : Str} (hc : command = "ecdf2-ks2001".toList ∨ command = "ecdf2-mn2017".toList ∧ n ≤ 126) :
    crossprobRun w fmt ioWhat [command, name] = .exited 0 (s ++ ['\n']) := by
  subst hP
  obtain ⟨b1, -, b3, b4⟩ := double_read (A := D) hM.format hb
  obtain ⟨B1, -, B3, B4⟩ := double_read (A := D) hM.format hB
  have hsh := read_shift le_rfl b4 B4
  have ha' := ha.imp id (not_crossed hM.format hb hB)
  rcases hc with rfl | ⟨rfl, hsm⟩
  · obtain ⟨x, hx, hxf, -, hxe, -⟩ := C75_double_source hM.format hn hn' (Or.inl rfl) hM.libm w.env b1 B1 b3 B3 hM.sortPerm hM.sortSorted ha'
    have h : crossprobMain w ["ecdf2-ks2001".toList, name] = .printed x :=
      (C26_printed w _ x).mpr ⟨_, _, _, _, rfl, hread, Or.inr (Or.inr (Or.inl ⟨rfl, _, _, hpad, hx.symm⟩))⟩
    exact printed_digits hM.print ioWhat hxf h hs (sharp_acc hn' hn hxe hsh)
  · obtain ⟨x, hx, hxf, -, hxe, -⟩ := C75_double_source hM.format hn hn' (useFft := true) (Or.inr hsm) hM.libm w.env b1 B1 b3 B3 hM.sortPerm hM.sortSorted ha'
    have h : crossprobMain w ["ecdf2-mn2017".toList, name] = .printed x :=
      (C26_printed w _ x).mpr ⟨_, _, _, _, rfl, hread, Or.inr (Or.inr (Or.inr ⟨rfl, _, _, hpad, hx.symm⟩))⟩
    exact printed_digits hM.print ioWhat hxf h hs (sharp_acc hn' hn hxe hsh)

/-- C75: `crossprob ecdf2-ks2001 file` and `crossprob ecdf2-mn2017 file` as compiled, in IEEE-754 double precision, on a file with two
valid boundaries of up to 100000 points (126 for `ecdf2-mn2017`, with any FFT library).  If every number within
`(2n^2 + 11000n) 1e-15 P + n^2 1e-15` of the probability `P` (`1.3e-8 P + 1e-9` for 1000 points, `3.1e-7 P + 1e-7` for 10000) is written `s` with six
significant digits, the program writes `s`, a newline and nothing else, and exits with 0. -/
theorem C75_program_two_sided {p : FastProgram (Num D) G} {e : ℕ} (hp : FastMachine p e) (w : World (Num D)) {fmt : Num D → Str} {inRange : ℝ → Prop} {n : ℕ} (hM : DoubleMachine w fmt inRange n)
    (ioWhat : Str) (hn : 1 ≤ n) (hn' : n ≤ 100000) (fb fB : Fin n → Field) (hfb : ∀ i, (fb i).WF) (hfB : ∀ i, (fB i).WF)
    (hinb : ∀ i, inRange (fb i).num.value) (hinB : ∀ i, inRange (fB i).num.value)
    (hb : ValidBound (valuesOf fb)) (hB : ValidBound (valuesOf fB))
    (ha : w.env.asserts = false ∨ ¬ StronglyCrossed (valuesOf fb) (valuesOf fB))
    (name text : Str) (hfile : w.fs name = .contents text) (hlines : FirstTwoLines text (lineOf fb) (lineOf fB))
    {P : ℝ} (hP : P = noncrossProb (valuesOf fb) (valuesOf fB)) {s : Str} (hs : PrintsAs P ((2 * (n : ℝ) ^ 2 + 11000 * n) / 10 ^ 15 * P + (n : ℝ) ^ 2 / 10 ^ 15) s)
    {command : Str} (hc : command = "ecdf2-ks2001".toList ∨ command = "ecdf2-mn2017".toList ∧ n ≤ 126) :
    crossprobRunFast p w fmt ioWhat [command, name] = .exited 0 (s ++ ['\n']) := by
  exact sharp_ecdf2 hp w hM ioWhat hn hn' hb hB ha (read_file hM.strtod fb fB hfb hfB hinb hinB hfile hlines)
    (Or.inl ⟨by simp, rfl, rfl⟩) hP hs hc

/-- C75: the two-sided commands on a file with only an upper boundary. -/
theorem C75_program_two_sided_upper {p : FastProgram (Num D) G} {e : ℕ} (hp : FastMachine p e) (w : World (Num D)) {fmt : Num D → Str} {inRange : ℝ → Prop} {n : ℕ} (hM : DoubleMachine w fmt inRange n)
    (ioWhat : Str) (hn : 1 ≤ n) (hn' : n ≤ 100000) (fs : Fin n → Field) (hfs : ∀ i, (fs i).WF)
    (hin : ∀ i, inRange (fs i).num.value) (hB : ValidBound (valuesOf fs))
    (name text : Str) (hfile : w.fs name = .contents text) (hlines : FirstTwoLines text [] (lineOf fs))
    {P : ℝ} (hP : P = upperProb (valuesOf fs)) {s : Str} (hs : PrintsAs P ((2 * (n : ℝ) ^ 2 + 11000 * n) / 10 ^ 15 * P + (n : ℝ) ^ 2 / 10 ^ 15) s)
    {command : Str} (hc : command = "ecdf2-ks2001".toList ∨ command = "ecdf2-mn2017".toList ∧ n ≤ 126) :
    crossprobRunFast p w fmt ioWhat [command, name] = .exited 0 (s ++ ['\n']) := by
  have he : lineOf (n := 0) Fin.elim0 = [] := by simp [lineOf, List.intercalate]
  have hz : noncrossProb (fun _ : Fin n => (0 : ℝ)) (valuesOf fs) = P := by rw [hP]; exact noncrossProb_zeros fun _ => le_rfl
  refine sharp_ecdf2 hp w hM ioWhat hn hn' (valid_const le_rfl zero_le_one) hB (Or.inr ?_)
    (read_file hM.strtod (n := 0) (m := n) Fin.elim0 fs (fun i => i.elim0) hfs (fun i => i.elim0) hin hfile (by rw [he]; exact hlines))
    (Or.inr (Or.inl ⟨by simp, by rw [ne_eq, List.ofFn_eq_nil_iff]; omega, ?_, rfl⟩)) hz.symm hs hc
  · rintro ⟨i, j, -, h⟩
    have := (hB.range i).1
    have := (hB.range j).1
    linarith
  · rw [List.length_ofFn, round_zero, replicate_ofFn]

/-- C75: the two-sided commands on a file with only a lower boundary. -/
theorem C75_program_two_sided_lower {p : FastProgram (Num D) G} {e : ℕ} (hp : FastMachine p e) (w : World (Num D)) {fmt : Num D → Str} {inRange : ℝ → Prop} {n : ℕ} (hM : DoubleMachine w fmt inRange n)
    (ioWhat : Str) (hn : 1 ≤ n) (hn' : n ≤ 100000) (fs : Fin n → Field) (hfs : ∀ i, (fs i).WF)
    (hin : ∀ i, inRange (fs i).num.value) (hb : ValidBound (valuesOf fs))
    (name text : Str) (hfile : w.fs name = .contents text) (hlines : FirstTwoLines text (lineOf fs) [])
    {P : ℝ} (hP : P = lowerProb (valuesOf fs)) {s : Str} (hs : PrintsAs P ((2 * (n : ℝ) ^ 2 + 11000 * n) / 10 ^ 15 * P + (n : ℝ) ^ 2 / 10 ^ 15) s)
    {command : Str} (hc : command = "ecdf2-ks2001".toList ∨ command = "ecdf2-mn2017".toList ∧ n ≤ 126) :
    crossprobRunFast p w fmt ioWhat [command, name] = .exited 0 (s ++ ['\n']) := by
  have he : lineOf (n := 0) Fin.elim0 = [] := by simp [lineOf, List.intercalate]
  have hz : noncrossProb (valuesOf fs) (fun _ : Fin n => (1 : ℝ)) = P := by rw [hP]; exact noncrossProb_ones fun _ => le_rfl
  refine sharp_ecdf2 hp w hM ioWhat hn hn' hb (valid_const zero_le_one le_rfl) (Or.inr ?_)
    (read_file hM.strtod (n := n) (m := 0) fs Fin.elim0 hfs (fun i => i.elim0) hin (fun i => i.elim0) hfile (by rw [he]; exact hlines))
    (Or.inr (Or.inr ⟨by rw [ne_eq, List.ofFn_eq_nil_iff]; omega, by simp, rfl, ?_⟩)) hz.symm hs hc
  · rintro ⟨i, j, -, h⟩
    have := (hb.range i).2
    have := (hb.range j).2
    linarith
  · rw [List.length_ofFn, round_one, replicate_ofFn]

/-- C75: `crossprob ecdf2-ks2001 file` and `crossprob ecdf2-mn2017 file` with the source followed to the letter, in IEEE-754 double
precision.  If every number within `(2n^2 + 11000n) 1e-15 P + n^2 1e-15` of the probability `P` is written `s` with six significant digits, the program writes `s`, a newline and nothing else, and exits with 0. -/
theorem C75_source_two_sided (w : World (Num D)) {fmt : Num D → Str} {inRange : ℝ → Prop} {n : ℕ} (hM : DoubleMachine w fmt inRange n)
    (ioWhat : Str) (hn : 1 ≤ n) (hn' : n ≤ 100000) (fb fB : Fin n → Field) (hfb : ∀ i, (fb i).WF) (hfB : ∀ i, (fB i).WF)
    (hinb : ∀ i, inRange (fb i).num.value) (hinB : ∀ i, inRange (fB i).num.value)
    (hb : ValidBound (valuesOf fb)) (hB : ValidBound (valuesOf fB))
    (ha : w.env.asserts = false ∨ ¬ StronglyCrossed (valuesOf fb) (valuesOf fB))
    (name text : Str) (hfile : w.fs name = .contents text) (hlines : FirstTwoLines text (lineOf fb) (lineOf fB))
    {P : ℝ} (hP : P = noncrossProb (valuesOf fb) (valuesOf fB)) {s : Str} (hs : PrintsAs P ((2 * (n : ℝ) ^ 2 + 11000 * n) / 10 ^ 15 * P + (n : ℝ) ^ 2 / 10 ^ 15) s)
    {command : Str} (hc : command = "ecdf2-ks2001".toList ∨ command = "ecdf2-mn2017".toList ∧ n ≤ 126) :
    crossprobRun w fmt ioWhat [command, name] = .exited 0 (s ++ ['\n']) := by
  exact sharp_source w hM ioWhat hn hn' hb hB ha (read_file hM.strtod fb fB hfb hfB hinb hinB hfile hlines)
    (Or.inl ⟨by simp, rfl, rfl⟩) hP hs hc

/-- C75: the two-sided commands on a file with only an upper boundary. -/
theorem C75_source_two_sided_upper (w : World (Num D)) {fmt : Num D → Str} {inRange : ℝ → Prop} {n : ℕ} (hM : DoubleMachine w fmt inRange n)
    (ioWhat : Str) (hn : 1 ≤ n) (hn' : n ≤ 100000) (fs : Fin n → Field) (hfs : ∀ i, (fs i).WF)
    (hin : ∀ i, inRange (fs i).num.value) (hB : ValidBound (valuesOf fs))
    (name text : Str) (hfile : w.fs name = .contents text) (hlines : FirstTwoLines text [] (lineOf fs))
    {P : ℝ} (hP : P = upperProb (valuesOf fs)) {s : Str} (hs : PrintsAs P ((2 * (n : ℝ) ^ 2 + 11000 * n) / 10 ^ 15 * P + (n : ℝ) ^ 2 / 10 ^ 15) s)
    {command : Str} (hc : command = "ecdf2-ks2001".toList ∨ command = "ecdf2-mn2017".toList ∧ n ≤ 126) :
    crossprobRun w fmt ioWhat [command, name] = .exited 0 (s ++ ['\n']) := by
  have he : lineOf (n := 0) Fin.elim0 = [] := by simp [lineOf, List.intercalate]
  have hz : noncrossProb (fun _ : Fin n => (0 : ℝ)) (valuesOf fs) = P := by rw [hP]; exact noncrossProb_zeros fun _ => le_rfl
  refine sharp_source w hM ioWhat hn hn' (valid_const le_rfl zero_le_one) hB (Or.inr ?_)
    (read_file hM.strtod (n := 0) (m := n) Fin.elim0 fs (fun i => i.elim0) hfs (fun i => i.elim0) hin hfile (by rw [he]; exact hlines))
    (Or.inr (Or.inl ⟨by simp, by rw [ne_eq, List.ofFn_eq_nil_iff]; omega, ?_, rfl⟩)) hz.symm hs hc
  · rintro ⟨i, j, -, h⟩
    have := (hB.range i).1
    have := (hB.range j).1
    linarith
  · rw [List.length_ofFn, round_zero, replicate_ofFn]

/-- C75: the two-sided commands on a file with only a lower boundary. -/
theorem C75_source_two_sided_lower (w : World (Num D)) {fmt : Num D → Str} {inRange : ℝ → Prop} {n : ℕ} (hM : DoubleMachine w fmt inRange n)
    (ioWhat : Str) (hn : 1 ≤ n) (hn' : n ≤ 100000) (fs : Fin n → Field) (hfs : ∀ i, (fs i).WF)
    (hin : ∀ i, inRange (fs i).num.value) (hb : ValidBound (valuesOf fs))
    (name text : Str) (hfile : w.fs name = .contents text) (hlines : FirstTwoLines text (lineOf fs) [])
    {P : ℝ} (hP : P = lowerProb (valuesOf fs)) {s : Str} (hs : PrintsAs P ((2 * (n : ℝ) ^ 2 + 11000 * n) / 10 ^ 15 * P + (n : ℝ) ^ 2 / 10 ^ 15) s)
    {command : Str} (hc : command = "ecdf2-ks2001".toList ∨ command = "ecdf2-mn2017".toList ∧ n ≤ 126) :
    crossprobRun w fmt ioWhat [command, name] = .exited 0 (s ++ ['\n']) := by
  have he : lineOf (n := 0) Fin.elim0 = [] := by simp [lineOf, List.intercalate]
  have hz : noncrossProb (valuesOf fs) (fun _ : Fin n => (1 : ℝ)) = P := by rw [hP]; exact noncrossProb_ones fun _ => le_rfl
  refine sharp_source w hM ioWhat hn hn' hb (valid_const zero_le_one le_rfl) (Or.inr ?_)
    (read_file hM.strtod (n := n) (m := 0) fs Fin.elim0 hfs (fun i => i.elim0) hin (fun i => i.elim0) hfile (by rw [he]; exact hlines))
    (Or.inr (Or.inr ⟨by rw [ne_eq, List.ofFn_eq_nil_iff]; omega, by simp, rfl, ?_⟩)) hz.symm hs hc
  · rintro ⟨i, j, -, h⟩
    have := (hb.range i).2
    have := (hb.range j).2
    linarith
  · rw [List.length_ofFn, round_one, replicate_ofFn]

/-- The assumptions can be met: 1000 equal points, with code that differs from the source (two accumulators, fused multiply-add,
reciprocal), merge sort and a correctly rounded library. -/
example (env : Env (Num doubles)) (ha : env.asserts = false) :
    ∃ x : Num doubles, ecdf2Fast (twoLanes (exactFma doubles)) env ieeeSort (List.ofFn fun _ : Fin 1000 => roundNum doubles (1 / 8))
        (List.ofFn fun _ : Fin 1000 => roundNum doubles (3 / 4)) false = .ok x ∧ x.finite ∧ 0 ≤ x.val ∧
      |x.val - noncrossProb (fun _ : Fin 1000 => (roundNum doubles (1 / 8)).val) (fun _ => (roundNum doubles (3 / 4)).val)|
        ≤ (2 * ((1000 : ℕ) : ℝ) ^ 2 + 11000 * (1000 : ℕ)) / 10 ^ 15 * noncrossProb (fun _ : Fin 1000 => (roundNum doubles (1 / 8)).val) (fun _ => (roundNum doubles (3 / 4)).val)
          + (2 : ℝ) ^ (-1000 : ℤ) ∧
      (noncrossProb (fun _ : Fin 1000 => (roundNum doubles (1 / 8)).val) (fun _ => (roundNum doubles (3 / 4)).val) = 0 → x.val = 0) := by
  have hv : ∀ c : ℝ, 0 ≤ c → c ≤ 1 → ValidBound (fun _ : Fin 1000 => c) := fun c h0 h1 => ⟨fun _ _ _ => le_rfl, fun _ => ⟨h0, h1⟩⟩
  obtain ⟨b1, -, b3, -⟩ := double_read (A := doubles) rfl (hv (1 / 8) (by norm_num) (by norm_num))
  obtain ⟨B1, -, B3, -⟩ := double_read (A := doubles) rfl (hv (3 / 4) (by norm_num) (by norm_num))
  have hs := ieeeSort_contract (double_ok (A := doubles) rfl)
  exact C75_double rfl twoLanes_ieee (twoLanes_legal _) (by norm_num) (by norm_num) (by norm_num) (Or.inl rfl) (doubles_libm u50_ge (by norm_num))
    env b1 B1 b3 B3 hs.perm hs.sorted (Or.inl ha)

end
end CP.Props
