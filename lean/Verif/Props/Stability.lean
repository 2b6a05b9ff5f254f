import Verif.Proofs.Stability
import Verif.Props.Exact
import Verif.Props.RoundingNew
/-
Property C54: small changes of the boundaries (such as rounding the decimals of a boundary file to doubles) change the result
by a small amount.
-/
open MeasureTheory Set
namespace CP.Props
open CP.Spec FOps

/-- C54: the two-sided result changes by at most `n` times the total change of all boundary points. -/
theorem C54_ecdf2_stable (env env' : Env XR) (hf : ExactFFT env.fft) (hf' : ExactFFT env'.fft)
    {sort sort' : List (Bound XR) → List (Bound XR)} (hsort : SortContract sort) (hsort' : SortContract sort') {n : ℕ}
    {b B b' B' : Fin n → ℝ} (hb : ValidBound b) (hB : ValidBound B) (hb' : ValidBound b') (hB' : ValidBound B')
    (useFft useFft' : Bool) (ha : env.asserts = false ∨ ¬ StronglyCrossed b B)
    (ha' : env'.asserts = false ∨ ¬ StronglyCrossed b' B') :
    ∃ x x' : ℝ, ecdf2 env sort (toList b) (toList B) useFft = .ok (XR.fin x) ∧
      ecdf2 env' sort' (toList b') (toList B') useFft' = .ok (XR.fin x') ∧
      |x - x'| ≤ n * ∑ i, (|b i - b' i| + |B i - B' i|) :=
  ⟨_, _, C01_ecdf2 env hf hsort hb hB useFft ha, C01_ecdf2 env' hf' hsort' hb' hB' useFft' ha', noncross_lipschitz b B b' B'⟩

/-- C54: the same for the four one-sided functions. -/
theorem C54_one_sided_stable (env env' : Env XR) (hf : ExactFFT env.fft) (hf' : ExactFFT env'.fft) {n : ℕ}
    {c c' : Fin n → ℝ} (hc : ValidBound c) (hc' : ValidBound c') :
    (∃ x x' : ℝ, ecdf1Mns2016b env (toList c) = .ok (XR.fin x) ∧ ecdf1Mns2016b env' (toList c') = .ok (XR.fin x') ∧
      |x - x'| ≤ n * ∑ i, |c i - c' i|) ∧
    (∃ x x' : ℝ, ecdf1Mns2016B env (toList c) = .ok (XR.fin x) ∧ ecdf1Mns2016B env' (toList c') = .ok (XR.fin x') ∧
      |x - x'| ≤ n * ∑ i, |c i - c' i|) ∧
    (1 ≤ n → (env.asserts = false ∧ env'.asserts = false) ∨ 2 ≤ n →
      (∃ x x' : ℝ, ecdf1Newb env Nat.sqrt (toList c) = .ok (XR.fin x) ∧ ecdf1Newb env' Nat.sqrt (toList c') = .ok (XR.fin x') ∧
        |x - x'| ≤ n * ∑ i, |c i - c' i|) ∧
      (∃ x x' : ℝ, ecdf1NewB env Nat.sqrt (toList c) = .ok (XR.fin x) ∧ ecdf1NewB env' Nat.sqrt (toList c') = .ok (XR.fin x') ∧
        |x - x'| ≤ n * ∑ i, |c i - c' i|)) :=
  ⟨⟨_, _, C04_ecdf1_mns2016_b env hc, C04_ecdf1_mns2016_b env' hc', lower_lipschitz c c'⟩,
   ⟨_, _, C05_ecdf1_mns2016_B env hc, C05_ecdf1_mns2016_B env' hc', upper_lipschitz c c'⟩,
   fun hn ha => ⟨⟨_, _, C03_ecdf1_new_b env hf hn hc (ha.imp And.left id), C03_ecdf1_new_b env' hf' hn hc' (ha.imp And.right id),
      lower_lipschitz c c'⟩,
    ⟨_, _, C02_ecdf1_new_B env hf hn hc (ha.imp And.left id), C02_ecdf1_new_B env' hf' hn hc' (ha.imp And.right id),
      upper_lipschitz c c'⟩⟩⟩

/-- The bound is attained to first order: moving the single boundary point of a one-point sample by `d` changes the result by
exactly `d`. -/
example (f : Bool) (d : ℝ) (h0 : 0 ≤ d) (h1 : d ≤ 1 / 4) : ∃ x x' : ℝ,
    ecdf2 relEnv mergeSortBounds (toList fun _ : Fin 1 => 1 / 4) (toList fun _ : Fin 1 => 3 / 4) f = .ok (XR.fin x) ∧
    ecdf2 relEnv mergeSortBounds (toList fun _ : Fin 1 => 1 / 4 + d) (toList fun _ : Fin 1 => 3 / 4) f = .ok (XR.fin x') ∧
    |x - x'| = d := by
  have v : ∀ t : ℝ, 0 ≤ t → t ≤ 1 → ValidBound fun _ : Fin 1 => t := fun t h h' => ⟨fun _ _ _ => le_rfl, fun _ => ⟨h, h'⟩⟩
  refine ⟨_, _, C01_ecdf2 relEnv exactFFTW_exact mergeSortBounds_contract (v _ (by norm_num) (by norm_num))
    (v _ (by norm_num) (by norm_num)) f (Or.inl rfl), C01_ecdf2 relEnv exactFFTW_exact mergeSortBounds_contract
    (v _ (by linarith) (by linarith)) (v _ (by norm_num) (by norm_num)) f (Or.inl rfl), ?_⟩
  rw [noncrossProb_one _ _ (by norm_num) (by norm_num) (by norm_num), noncrossProb_one _ _ (by linarith) (by linarith) (by norm_num)]
  rw [abs_of_nonneg] <;> linarith

/-- `p`-bit rounding of a boundary keeps it valid and moves each point by at most `2^-p`. -/
theorem round_valid {p : ℕ} (hp : 1 ≤ p) {n : ℕ} {b : Fin n → ℝ} (hb : ValidBound b) :
    (ValidBound fun i => roundTo p (b i)) ∧ ∀ i, |roundTo p (b i) - b i| ≤ 2 ^ (-(p : ℤ)) := by
  refine ⟨⟨fun i j h => roundTo_mono hp (hb.range i).1 (hb.mono h), fun i => ⟨?_, ?_⟩⟩, fun i => ?_⟩
  · have := roundTo_mono hp le_rfl (hb.range i).1
    rwa [roundTo_zero] at this
  · have := roundTo_mono hp (hb.range i).1 (hb.range i).2
    rwa [roundTo_one hp] at this
  · refine (roundTo_err p (b i)).trans ?_
    rw [abs_of_nonneg (hb.range i).1]
    exact mul_le_of_le_one_right (by positivity) (hb.range i).2

/-- `p`-bit rounding does not make boundaries cross. -/
theorem round_crossed {p : ℕ} (hp : 1 ≤ p) {n : ℕ} {b B : Fin n → ℝ} (hb : ValidBound b) (h : ¬ StronglyCrossed b B) :
    ¬ StronglyCrossed (fun i => roundTo p (b i)) (fun i => roundTo p (B i)) := by
  rintro ⟨i, j, hij, hlt⟩
  exact h ⟨i, j, hij, lt_of_not_ge fun hle => absurd hlt (not_lt.mpr (roundTo_mono hp (hb.range i).1 hle))⟩

/-- C54: decimal input.  If the boundaries `b`, `B` are rounded to `p` bits when they are read, `ecdf2` in `p`-bit arithmetic
is still within the bound of C52 plus `2 n^2 2^-p` of the probability for the boundaries as written. -/
theorem C54_decimal_input {p : ℕ} (hp : 3 ≤ p) (env : Env (Fp p)) {n : ℕ} (hn : 1 ≤ n)
    {b B : Fin n → ℝ} (hb : ValidBound b) (hB : ValidBound B) (ha : env.asserts = false ∨ ¬ StronglyCrossed b B)
    {sort : List (Bound (Fp p)) → List (Bound (Fp p))}
    (hperm : ∀ l, (sort l).Perm l)
    (hsorted : ∀ l, (∀ x ∈ l, ∃ r : ℝ, x.location = some r) → (sort l).Pairwise fun x y => lt y.location x.location = false)
    {Nmax : ℕ} {delta : ℝ} (hfft : FFTAccurate (fpModel p (by omega) 0) env.fft Nmax delta 0 256) (hN : 2 * n + 2049 ≤ Nmax)
    {rb rB : Fin n → ℝ} (hrb : ∀ i, rb i = roundTo p (b i)) (hrB : ∀ i, rB i = roundTo p (B i))
    {Lam : ℝ}
    (hLam : ∀ x ∈ {0, 1} ∪ range rb ∪ range rB, ∀ y ∈ {0, 1} ∪ range rb ∪ range rB, x < y → |Real.log (n * (y - x))| ≤ Lam)
    {Q : ℕ} (hQ : 5 * n * Lam + 10 * n + 3 * Real.log n.factorial + 1 ≤ Q)
    {u T : ℝ} (hu : u = 2 ^ (-(p : ℤ))) (hT : T = 2 * (2 * (Q * u) + √Nmax * (13 * u + 4 * delta) + 256 * u))
    (hsmall : (2 * n + 1) * T ≤ 1 / 2) :
    ∃ x : ℝ, ecdf2 env sort (List.ofFn (fpVec rb)) (List.ofFn (fpVec rB)) true = .ok (some x : Fp p) ∧
      |x - noncrossProb b B| ≤ 4 * Real.exp 1 * √n * ((2 * n + 1) * T) + 2 * n ^ 2 * u := by
  have hp1 : 1 ≤ p := by omega
  obtain ⟨vb, eb⟩ := round_valid hp1 hb
  obtain ⟨vB, eB⟩ := round_valid hp1 hB
  obtain rfl : rb = fun i => roundTo p (b i) := funext hrb
  obtain rfl : rB = fun i => roundTo p (B i) := funext hrB
  obtain ⟨x, hx, h⟩ := C52_binary_floating_point hp env hn vb vB (ha.imp id (round_crossed hp1 hb)) hperm hsorted hfft hN hLam hQ hu hT hsmall
  refine ⟨x, hx, (abs_sub_le _ _ _).trans (add_le_add h ((noncross_lipschitz _ _ _ _).trans ?_))⟩
  have hs : ∑ i, (|roundTo p (b i) - b i| + |roundTo p (B i) - B i|) ≤ ∑ _i : Fin n, (2 * u) :=
    Finset.sum_le_sum fun i _ => by rw [hu]; linarith [eb i, eB i]
  rw [Finset.sum_const, Finset.card_univ, Fintype.card_fin, nsmul_eq_mul] at hs
  calc (n : ℝ) * _ ≤ n * (n * (2 * u)) := mul_le_mul_of_nonneg_left hs (Nat.cast_nonneg n)
    _ = _ := by ring

/-- The distances between the points of the example, rounded to 53 bits. -/
theorem exLam_rounded : ∀ x ∈ {0, 1} ∪ range (fun i => roundTo 53 (exb i)) ∪ range (fun i => roundTo 53 (exB i)),
    ∀ y ∈ {0, 1} ∪ range (fun i => roundTo 53 (exb i)) ∪ range (fun i => roundTo 53 (exB i)),
    x < y → |Real.log ((2 : ℕ) * (y - x))| ≤ 12 := by
  obtain ⟨a1, a2⟩ := round_near (x := 1 / 10) (by norm_num) (by norm_num)
  obtain ⟨b1, b2⟩ := round_near (x := 3 / 10) (by norm_num) (by norm_num)
  obtain ⟨c1, c2⟩ := round_near (x := 1 / 2) (by norm_num) (by norm_num)
  obtain ⟨d1, d2⟩ := round_near (x := 9 / 10) (by norm_num) (by norm_num)
  have hmem : ∀ x ∈ ({0, 1} ∪ range (fun i => roundTo 53 (exb i)) ∪ range (fun i => roundTo 53 (exB i)) : Set ℝ),
      x = 0 ∨ x = 1 ∨ x = roundTo 53 (1 / 10) ∨ x = roundTo 53 (3 / 10) ∨ x = roundTo 53 (1 / 2) ∨ x = roundTo 53 (9 / 10) := by
    rintro x ((h | ⟨i, rfl⟩) | ⟨i, rfl⟩)
    · rcases h with h | h
      · exact Or.inl h
      · exact Or.inr (Or.inl h)
    · fin_cases i <;> simp [exb]
    · fin_cases i <;> simp [exB]
  generalize roundTo 53 (1 / 10) = r1 at *
  generalize roundTo 53 (3 / 10) = r3 at *
  generalize roundTo 53 (1 / 2) = r5 at *
  generalize roundTo 53 (9 / 10) = r9 at *
  intro x hx y hy hlt
  have hx' := hmem x hx
  have hy' := hmem y hy
  refine log_two_le' ?_ ?_ <;>
  rcases hx' with rfl | rfl | rfl | rfl | rfl | rfl <;> rcases hy' with rfl | rfl | rfl | rfl | rfl | rfl <;>
    linarith

/-- C54 is about something: the decimals 0.1, 0.3, 0.5, 0.9 are not all 53-bit numbers, but the result for the rounded
boundaries is within `1e-10` of the probability for the decimals. -/
example : ∃ x : ℝ, ecdf2 fpFftEnv fpSort (List.ofFn (fpVec fun i => roundTo 53 (exb i)))
      (List.ofFn (fpVec fun i => roundTo 53 (exB i))) true = .ok (some x : Fp 53) ∧
    |x - noncrossProb exb exB| ≤ 1 / 10 ^ 10 := by
  obtain ⟨x, hx, h⟩ := C54_decimal_input (p := 53) (by norm_num) fpFftEnv (n := 2) (by norm_num)
    exb_valid exB_valid (Or.inl rfl) (sort := fpSort) (fpSort_contract (by norm_num) 0).perm
    (fpSort_contract (by norm_num) 0).sorted fpFft_accurate (by norm_num) (fun _ => rfl) (fun _ => rfl) exLam_rounded (Q := 150) exQ'
    rfl rfl (by rw [sqrt4096]; norm_num)
  refine ⟨x, hx, h.trans ?_⟩
  rw [sqrt4096]
  refine (add_le_add_left (mul_le_mul_of_nonneg_right ex_factor (by positivity)) _).trans ?_
  norm_num

end CP.Props
