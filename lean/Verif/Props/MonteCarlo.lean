import Verif.Proofs.MonteCarloPoisson
import Verif.Props.Cli
import Verif.Props.Rng
/-
Properties C32-C35, C38, C46, C48: the Monte-Carlo program crossprob_mc.
-/
namespace CP.Props
open CP.Spec CP.McSpec FOps
variable {F : Type} [FOps F] {S : Type}

/-! ## C32 -/

/-- C32: the crossing test never faults (in particular never reads out of bounds) and reports "no crossing"
exactly if the first `num` steps stay inside, in any arithmetic. -/
theorem C32_exact (steps b B : List F) (num : ℕ) (h : num ≤ steps.length) :
    ∃ c, stepFunctionCross steps num b B = .ok c ∧ (c = false ↔ Inside (steps.take num) b B) :=
  stepFunctionCross_ok steps b B num h

/-- In exact arithmetic, for full-length real lists: "inside" means `b_i <= x_i <= B_i` for all `i`. -/
theorem C32_full_length {n : ℕ} (x b B : Fin n → ℝ) :
    stepFunctionCross (toList x) n (toList b) (toList B) =
      .ok (!(decide (∀ i, b i ≤ x i ∧ x i ≤ B i))) := by
  obtain ⟨c, hc, hiff⟩ := C32_exact (toList x) (toList b) (toList B) n (by simp)
  rw [hc]
  rw [List.take_of_length_le (by simp)] at hiff
  have hin : Inside (toList x) (toList b) (toList B) ↔ ∀ i, b i ≤ x i ∧ x i ≤ B i := by
    unfold Inside
    simp only [length_toList, le_refl, true_and, implies_true]
    have hget : ∀ (f : Fin n → ℝ) (i : ℕ) (y : XR), (toList f)[i]? = some y ↔ ∃ h : i < n, y = .fin (f ⟨i, h⟩) := by
      intro f i y
      unfold toList
      rw [List.getElem?_ofFn]
      by_cases hi : i < n
      · simp [hi, eq_comm]
      · simp [hi]
    constructor
    · rintro ⟨h1, h2⟩ i
      have e1 := h1 i _ _ ((hget x i _).mpr ⟨i.2, rfl⟩) ((hget B i _).mpr ⟨i.2, rfl⟩)
      have e2 := h2 i _ _ ((hget x i _).mpr ⟨i.2, rfl⟩) ((hget b i _).mpr ⟨i.2, rfl⟩)
      simp only [XR.lt_fin, decide_eq_false_iff_not, not_lt] at e1 e2
      exact ⟨e2, e1⟩
    · intro h
      constructor
      · intro i u v hu hv
        obtain ⟨hi, rfl⟩ := (hget x i u).mp hu
        obtain ⟨_, rfl⟩ := (hget B i v).mp hv
        simpa using (h ⟨i, hi⟩).2
      · intro i u v hu hv
        obtain ⟨hi, rfl⟩ := (hget x i u).mp hu
        obtain ⟨_, rfl⟩ := (hget b i v).mp hv
        simpa using (h ⟨i, hi⟩).1
  rw [hin] at hiff
  congr 1
  by_cases h : ∀ i, b i ≤ x i ∧ x i ≤ B i
  · rw [hiff.mpr h, decide_eq_true h]; rfl
  · rw [decide_eq_false h]
    cases c with
    | true => rfl
    | false => exact absurd (hiff.mp rfl) h

example : stepFunctionCross [XR.fin (1/5), XR.fin (1/2)] 2 (toList exb) (toList exB) = .ok false := by
  have := C32_full_length ![1/5, 1/2] exb exB
  rw [decide_eq_true] at this
  · simpa [toList] using this
  · intro i
    fin_cases i <;> simp [exb, exB] <;> norm_num

/-! ## C38, C33: the simulated samples -/

/-- `E_0 + ... + E_{k-1}` for `E_j = -log(v_j)`. -/
noncomputable def expSum (v : ℕ → ℝ) (k : ℕ) : ℝ := ∑ j ∈ Finset.range k, -Real.log (v j)

/-- The sample that exact arithmetic would produce from the draws `v`: `n` partial sums of independent
exponential random numbers divided by the `n+1`-st. -/
noncomputable def realSample (v : ℕ → ℝ) (n : ℕ) : Fin n → ℝ := fun i => expSum v (i + 1) / expSum v (n + 1)

theorem expSum_strictMono {v : ℕ → ℝ} (hv : ∀ j, 0 < v j ∧ v j < 1) : StrictMono (expSum v) := by
  apply strictMono_nat_of_lt_succ
  intro k
  unfold expSum
  rw [Finset.sum_range_succ]
  have := Real.log_neg (hv k).1 (hv k).2
  linarith

theorem expSum_pos {v : ℕ → ℝ} (hv : ∀ j, 0 < v j ∧ v j < 1) (k : ℕ) : 0 < expSum v (k + 1) := by
  have := expSum_strictMono hv (Nat.succ_pos k)
  simpa [expSum] using this

theorem arrival_fin {v : ℕ → ℝ} {u : ℕ → XR} {k : ℕ} (hu : ∀ j, j < k → u j = .fin (v j) ∧ 0 < v j) :
    arrival one u k = .fin (expSum v k) := by
  induction k with
  | zero => simp [arrival, expSum]
  | succ k ih =>
    rw [arrival, ih (fun j hj => hu j (by omega)), (hu k (by omega)).1, XR.log_fin (hu k (by omega)).2]
    simp only [XR.one_eq, XR.neg_fin, XR.mul_fin, XR.add_fin, XR.fin_inj]
    unfold expSum
    rw [Finset.sum_range_succ]
    ring

theorem sample_fin {v : ℕ → ℝ} {u : ℕ → XR} (hu : ∀ j, u j = .fin (v j)) (hv : ∀ j, 0 < v j ∧ v j < 1) (n : ℕ) :
    sample u n = toList (realSample v n) := by
  have hT : ∀ k, arrival one u k = .fin (expSum v k) := fun k => arrival_fin fun j _ => ⟨hu j, (hv j).1⟩
  unfold sample toList
  apply List.ext_getElem?
  intro i
  by_cases hi : i < n
  · rw [List.getElem?_map, List.getElem?_range hi, List.getElem?_ofFn, dif_pos hi]
    simp only [Option.map_some]
    rw [hT, hT, XR.div_fin _ (ne_of_gt (expSum_pos hv n))]
    rfl
  · rw [List.getElem?_eq_none (by simp; omega), List.getElem?_eq_none (by simp; omega)]

/-- C38: if all uniform draws lie strictly between 0 and 1, the simulated sample (exact arithmetic) is
strictly increasing and lies strictly between 0 and 1; in particular it is already sorted. -/
theorem C38_sorted_sample {v : ℕ → ℝ} {u : ℕ → XR} (hu : ∀ j, u j = .fin (v j)) (hv : ∀ j, 0 < v j ∧ v j < 1) (n : ℕ) :
    sample u n = toList (realSample v n) ∧ StrictMono (realSample v n) ∧
    (∀ i, 0 < realSample v n i ∧ realSample v n i < 1) ∧ orderStat (realSample v n) = realSample v n := by
  have hpos := expSum_pos hv n
  have hmono : StrictMono (realSample v n) := by
    intro i j hij
    unfold realSample
    exact div_lt_div_of_pos_right (expSum_strictMono hv (by simpa using hij)) hpos
  refine ⟨sample_fin hu hv n, hmono, fun i => ⟨div_pos (expSum_pos hv i) hpos, ?_⟩, ?_⟩
  · unfold realSample
    rw [div_lt_one hpos]
    exact expSum_strictMono hv (by omega)
  · unfold orderStat
    rw [Tuple.sort_eq_refl_iff_monotone.mpr hmono.monotone]
    rfl

/-- C38: a uniform draw that is exactly 0 (see `C36_zero_draw_possible`) as draw number `k <= n` of a run turns
the sample into `k` zeros followed by `n - k` NaNs. -/
theorem C38_zero_draw {v : ℕ → ℝ} {u : ℕ → XR} {n k : ℕ} (hk : k ≤ n) (h0 : u k = .fin 0)
    (hu : ∀ j, j ≠ k → u j = .fin (v j)) (hv : ∀ j, j ≠ k → 0 < v j ∧ v j < 1) :
    sample u n = List.replicate k (.fin 0) ++ List.replicate (n - k) .nan := by
  have hfin : ∀ i, i ≤ k → arrival one u i = .fin (expSum v i) := fun i hi =>
    arrival_fin fun j hj => ⟨hu j (by omega), (hv j (by omega)).1⟩
  have hinf : ∀ i, k < i → arrival one u i = .pinf := by
    intro i hi
    induction i with
    | zero => omega
    | succ i ih =>
      rw [arrival]
      by_cases hik : i = k
      · subst hik
        rw [hfin i le_rfl, h0, XR.log_zero, XR.one_eq, XR.neg_fin]
        have : FOps.mul (XR.fin (-1)) XR.ninf = XR.pinf := by
          show (if (-1 : ℝ) = 0 then _ else if (0 < (-1 : ℝ) ↔ false = true) then _ else _) = _
          rw [if_neg (by norm_num), if_pos (by norm_num)]
        rw [this]
        rfl
      · rw [ih (by omega), hu i hik, XR.log_fin (hv i hik).1, XR.one_eq, XR.neg_fin, XR.mul_fin]
        rfl
  unfold sample
  apply List.ext_getElem?
  intro i
  by_cases hi : i < n
  · rw [List.getElem?_map, List.getElem?_range hi, hinf (n + 1) (by omega)]
    simp only [Option.map_some]
    by_cases hik : i < k
    · rw [hfin (i + 1) (by omega), List.getElem?_append_left (by simpa using hik), List.getElem?_replicate,
        if_pos hik]
      rfl
    · rw [hinf (i + 1) (by omega), List.getElem?_append_right (by simpa using hik), List.getElem?_replicate,
        if_pos (by simp; omega)]
      rfl
  · rw [List.getElem?_eq_none (by simp; omega), List.getElem?_eq_none (by simp; omega)]

/-- C38: since NaN compares false, a run whose first draw is 0 is counted as non-crossing, whatever the
(full-length) boundaries, even if they cannot be satisfied at all. -/
theorem C38_zero_draw_never_crosses {v : ℕ → ℝ} {u : ℕ → XR} {n : ℕ} (h0 : u 0 = .fin 0)
    (hu : ∀ j, j ≠ 0 → u j = .fin (v j)) (hv : ∀ j, j ≠ 0 → 0 < v j ∧ v j < 1) (b B : List XR)
    (hb : b = [] ∨ n ≤ b.length) (hB : B.length ≤ n) : Inside (sample u n) b B := by
  have hs := C38_zero_draw (Nat.zero_le n) h0 hu hv
  simp only [List.replicate_zero, List.nil_append, Nat.sub_zero] at hs
  rw [hs]
  refine ⟨by simpa using hB, fun h => ?_, ?_, ?_⟩
  · rcases hb with hb | hb
    · exact absurd hb h
    · simpa using hb
  · intro i x y hx _
    rw [List.getElem?_replicate] at hx
    split at hx
    · injection hx with hx; subst hx; cases y <;> rfl
    · cases hx
  · intro i x y hx _
    rw [List.getElem?_replicate] at hx
    split at hx
    · injection hx with hx; subst hx; cases y <;> rfl
    · cases hx

/-- C33 in any arithmetic and for any generator: the returned estimate is the number of runs that do not stay
inside, divided by the number of runs; run `r` uses draws `r(n+1), ..., r(n+1)+n`. -/
theorem C33_any_arithmetic (uniform : S → F × S) (rng : S) (n : ℕ) (hn : 1 ≤ n) (b B : List F) (N : ℕ)
    (hB : B.length ≤ n) (hb : b = [] ∨ n ≤ b.length) (hN : (N : ℤ) ≤ 2 ^ 31 - 1) :
    ecdfMc uniform rng n b B N = .ok (ofInt (countUpTo (fun r => ¬ Inside
        (sample (fun j => draw uniform rng (r * (n + 1) + j)) n) b B) N : ℤ) /ᶠ ofInt (N : ℤ)) :=
  ecdfMc_ok uniform rng n hn b B N hB hb hN

/-- C33: with draws strictly between 0 and 1 and full-length boundaries, the crossing estimate is the fraction
of simulated samples outside the event whose probability the exact algorithms compute. -/
theorem C33_counts_complement (uniform : S → XR × S) (rng : S) (v : ℕ → ℝ)
    (hu : ∀ j, draw uniform rng j = .fin (v j)) (hv : ∀ j, 0 < v j ∧ v j < 1) {n : ℕ} (hn : 1 ≤ n) (b B : Fin n → ℝ)
    (N : ℕ) (hN0 : 1 ≤ N) (hN : (N : ℤ) ≤ 2 ^ 31 - 1) :
    ecdfMc uniform rng n (toList b) (toList B) N = .ok (.fin ((countUpTo (fun r =>
      realSample (fun j => v (r * (n + 1) + j)) n ∉ {x | ∀ i, b i ≤ orderStat x i ∧ orderStat x i ≤ B i}) N : ℝ) / N)) := by
  rw [C33_any_arithmetic uniform rng n hn _ _ N (by simp) (by right; simp) hN]
  have hN' : ((N : ℤ) : ℝ) ≠ 0 := by
    have : (1 : ℝ) ≤ N := by exact_mod_cast hN0
    push_cast
    linarith
  rw [XR.ofInt_eq, XR.ofInt_eq, XR.div_fin _ hN']
  congr 2
  have hev : ∀ r, Inside (sample (fun j => draw uniform rng (r * (n + 1) + j)) n) (toList b) (toList B) ↔
      realSample (fun j => v (r * (n + 1) + j)) n ∈ {x | ∀ i, b i ≤ orderStat x i ∧ orderStat x i ≤ B i} := by
    intro r
    obtain ⟨h1, -, -, h4⟩ := C38_sorted_sample (u := fun j => draw uniform rng (r * (n + 1) + j))
      (v := fun j => v (r * (n + 1) + j)) (fun j => hu _) (fun j => hv _) n
    obtain ⟨c, hc, hiff⟩ := C32_exact (toList (realSample (fun j => v (r * (n + 1) + j)) n)) (toList b) (toList B) n
      (by simp)
    rw [List.take_of_length_le (by simp)] at hiff
    rw [C32_full_length] at hc
    injection hc with hc
    rw [h1, ← hiff, ← hc, Set.mem_ofPred_eq, h4]
    simp
  have : (fun r => ¬ Inside (sample (fun j => draw uniform rng (r * (n + 1) + j)) n) (toList b) (toList B)) =
      fun r => realSample (fun j => v (r * (n + 1) + j)) n ∉ {x | ∀ i, b i ≤ orderStat x i ∧ orderStat x i ≤ B i} := by
    funext r
    rw [hev r]
  rw [this]
  push_cast
  rfl

/-- C33: the estimate is a number between 0 and 1, whatever the draws (even 0, infinite or NaN). -/
theorem C33_in_unit_interval (uniform : S → XR × S) (rng : S) (n : ℕ) (hn : 1 ≤ n) (b B : List XR) (N : ℕ)
    (hB : B.length ≤ n) (hb : b = [] ∨ n ≤ b.length) (hN0 : 1 ≤ N) (hN : (N : ℤ) ≤ 2 ^ 31 - 1) :
    ∃ p : ℝ, ecdfMc uniform rng n b B N = .ok (.fin p) ∧ 0 ≤ p ∧ p ≤ 1 := by
  have hN' : ((N : ℤ) : ℝ) ≠ 0 := by
    have : (1 : ℝ) ≤ N := by exact_mod_cast hN0
    push_cast
    linarith
  refine ⟨_, by rw [C33_any_arithmetic uniform rng n hn _ _ N hB hb hN, XR.ofInt_eq, XR.ofInt_eq, XR.div_fin _ hN'],
    by positivity, ?_⟩
  rw [div_le_one (by positivity)]
  exact_mod_cast countUpTo_le _ N

/-- C33: boundaries of impossible sizes are reported as certainly crossed, without simulating. -/
theorem C33_sizes (uniform : S → F × S) (rng : S) (n : ℤ) (b B : List F) (N : ℤ)
    (h : n < B.length ∨ (b ≠ [] ∧ (b.length : ℤ) < n)) : ecdfMc uniform rng n b B N = .ok one := by
  unfold ecdfMc
  by_cases h1 : (B.length : ℤ) > n
  · rw [if_pos h1]
  · rw [if_neg h1]
    rcases h with h | ⟨hb, h⟩
    · omega
    · rw [if_pos ⟨List.length_pos_iff.mpr hb, h⟩]

/-- A generator for the examples: it always returns 1/2. -/
noncomputable def halfRng : Unit → XR × Unit := fun _ => (.fin (1/2), ())

theorem halfRng_draw (j : ℕ) : draw halfRng () j = .fin ((fun _ => 1/2 : ℕ → ℝ) j) := rfl

example : ∃ p : ℝ, ecdfMc halfRng () (2 : ℕ) (toList exb) (toList exB) (1000 : ℕ) = .ok (.fin p) ∧ 0 ≤ p ∧ p ≤ 1 :=
  C33_in_unit_interval halfRng () 2 (by norm_num) _ _ 1000 (by simp) (by simp) (by norm_num) (by norm_num)

example := C33_counts_complement halfRng () _ halfRng_draw (fun _ => by norm_num) (n := 2) (by norm_num) exb exB 1000
  (by norm_num) (by norm_num)

/-! ## C34 -/

/-- C34: with more than `INT_MAX` simulations `ecdf_crossing_probability_montecarlo` never returns: it runs
forever, or its counter overflows (undefined behaviour). -/
theorem C34_ecdf_never_returns (uniform : S → F × S) (rng : S) (n : ℕ) (hn : 1 ≤ n) (b B : List F) (N : ℤ)
    (hB : B.length ≤ n) (hb : b = [] ∨ n ≤ b.length) (hN : 2 ^ 31 - 1 < N) :
    ∀ v, ecdfMc uniform rng n b B N ≠ .ok v := by
  intro v hv
  rcases ecdfMc_not_ok uniform rng n hn b B N hB hb hN with h | h <;> rw [h] at hv <;> cases hv

/-- C34: it runs forever if no simulated sample crosses. -/
theorem C34_ecdf_hangs (uniform : S → F × S) (rng : S) (n : ℕ) (hn : 1 ≤ n) (b B : List F) (N : ℤ)
    (hB : B.length ≤ n) (hb : b = [] ∨ n ≤ b.length) (hN : 2 ^ 31 - 1 < N)
    (hin : ∀ r : ℕ, Inside (sample (fun j => draw uniform rng (r * (n + 1) + j)) n) b B) :
    ecdfMc uniform rng n b B N = .error .diverge :=
  ecdfMc_hangs uniform rng n hn b B N hB hb hN hin

/-- C34: the Poisson simulation runs forever with more than `INT_MAX` simulations, always. -/
theorem C34_poisson_hangs (asserts : Bool) (uniform : S → F × S) (rng : S) (intensity : F) (b B : List F) (N : ℤ)
    (hb : b = [] ∨ B.length ≤ b.length) (hN : 2 ^ 31 - 1 < N) :
    poissonMc asserts uniform (.ok rng) intensity b B N = .error .diverge :=
  poissonMc_hangs asserts uniform rng intensity b B N hb hN

/-- C34: with 0 simulations both estimates are `0/0`, i.e. NaN. -/
theorem C34_zero_simulations (asserts : Bool) (uniform : S → XR × S) (rng : S) (n : ℕ) (hn : 1 ≤ n) (b B : List XR)
    (intensity : XR) :
    (B.length ≤ n → (b = [] ∨ n ≤ b.length) → ecdfMc uniform rng n b B 0 = .ok .nan) ∧
    ((b = [] ∨ B.length ≤ b.length) → poissonMc asserts uniform (.ok rng) intensity b B 0 = .ok .nan) := by
  have h0 : (ofInt 0 : XR) /ᶠ ofInt 0 = .nan := by
    show XR.div (.fin ((0 : ℤ) : ℝ)) (.fin ((0 : ℤ) : ℝ)) = _
    simp [XR.div]
  constructor
  · intro hB hb
    have := C33_any_arithmetic uniform rng n hn b B 0 hB hb (by norm_num)
    rw [countUpTo_zero] at this
    exact this.trans (by rw [← h0]; rfl)
  · intro hb
    have := poissonMc_ok asserts uniform rng intensity b B 0 hb (by decide)
    rw [countUpTo_zero] at this
    exact this.trans (by rw [← h0]; rfl)

example : ∀ v, ecdfMc halfRng () (2 : ℕ) (toList exb) (toList exB) (2 ^ 31) ≠ .ok v :=
  C34_ecdf_never_returns halfRng () 2 (by norm_num) _ _ _ (by simp) (by simp) (by norm_num)

/-! ## The Poisson simulation, C35 -/

/-- The Poisson simulation in any arithmetic and for any generator: every path ends after at most `|b| + 1`
draws, and the estimate is the number of paths that do not stay inside, divided by the number of paths. -/
theorem C35_poisson_counts (asserts : Bool) (uniform : S → F × S) (rng : S) (intensity : F) (b B : List F) (N : ℕ)
    (hb : b = [] ∨ B.length ≤ b.length) (hN : (N : ℤ) ≤ 2 ^ 31 - 1) :
    poissonMc asserts uniform (.ok rng) intensity b B N = .ok (ofInt (countUpTo (fun r => ¬ PoissonInside
        (arrival (one /ᶠ intensity) fun j =>
          draw uniform rng (pathStart (one /ᶠ intensity) (draw uniform rng) b.length r + j)) b B) N : ℤ) /ᶠ
      ofInt (N : ℤ)) :=
  poissonMc_ok asserts uniform rng intensity b B N hb hN

/-- The Poisson estimate is a number between 0 and 1, whatever the draws. -/
theorem C35_poisson_in_unit_interval (asserts : Bool) (uniform : S → XR × S) (rng : S) (intensity : XR)
    (b B : List XR) (N : ℕ) (hb : b = [] ∨ B.length ≤ b.length) (hN0 : 1 ≤ N) (hN : (N : ℤ) ≤ 2 ^ 31 - 1) :
    ∃ p : ℝ, poissonMc asserts uniform (.ok rng) intensity b B N = .ok (.fin p) ∧ 0 ≤ p ∧ p ≤ 1 := by
  have hN' : ((N : ℤ) : ℝ) ≠ 0 := by
    have : (1 : ℝ) ≤ N := by exact_mod_cast hN0
    push_cast
    linarith
  rw [C35_poisson_counts asserts uniform rng intensity b B N hb hN]
  generalize hc : countUpTo _ N = c
  have hcN : c ≤ N := by rw [← hc]; exact countUpTo_le _ N
  refine ⟨_, by rw [XR.ofInt_eq, XR.ofInt_eq, XR.div_fin _ hN'], by positivity, ?_⟩
  rw [div_le_one (by positivity)]
  exact_mod_cast hcN

/-- C35: with an empty `b` and a non-empty `B` no path is ever counted as non-crossing, in any arithmetic and
for any draws ... -/
theorem C35_empty_b_never_inside (T : ℕ → F) (B : List F) (hB : B ≠ []) : ¬ PoissonInside T [] B := by
  rintro ⟨K, hK, -, -, hin⟩
  have hK0 : K = 0 := by simpa using hK
  subst hK0
  have := hin.1
  simp at this
  exact hB this

/-- ... so the crossing estimate is 1 (and the program prints 0), regardless of `B`. -/
theorem C35_empty_b_prints_zero (asserts : Bool) (uniform : S → XR × S) (rng : S) (intensity : XR) (B : List XR)
    (hB : B ≠ []) (N : ℕ) (hN0 : 1 ≤ N) (hN : (N : ℤ) ≤ 2 ^ 31 - 1) :
    poissonMc asserts uniform (.ok rng) intensity [] B N = .ok (.fin 1) := by
  rw [C35_poisson_counts asserts uniform rng intensity [] B N (Or.inl rfl) hN]
  have hcount : countUpTo (fun r => ¬ PoissonInside (arrival (one /ᶠ intensity) fun j =>
      draw uniform rng (pathStart (one /ᶠ intensity) (draw uniform rng) ([] : List XR).length r + j)) [] B) N = N := by
    have hall : ∀ k, countUpTo (fun r => ¬ PoissonInside (arrival (one /ᶠ intensity) fun j =>
        draw uniform rng (pathStart (one /ᶠ intensity) (draw uniform rng) ([] : List XR).length r + j)) [] B) k = k := by
      intro k
      induction k with
      | zero => exact countUpTo_zero _
      | succ k ih => rw [countUpTo_succ, ih, if_pos (C35_empty_b_never_inside _ B hB)]
    exact hall N
  have hN' : ((N : ℤ) : ℝ) ≠ 0 := by
    have : (1 : ℝ) ≤ N := by exact_mod_cast hN0
    push_cast
    linarith
  rw [hcount, XR.ofInt_eq, XR.div_fin _ hN', div_self hN']

/-- In contrast, an empty `b` in `ecdf` mode means "no such boundary": a sample below `B` is inside. -/
theorem C35_ecdf_differs : Inside [XR.fin (1/4), XR.fin (1/2)] [] (toList exB) := by
  refine ⟨by simp, by simp, ?_, by simp⟩
  intro i x y hx hy
  match i with
  | 0 => simp [toList, exB] at hx hy; subst hx hy; simp; norm_num
  | 1 => simp [toList, exB] at hx hy; subst hx hy; simp; norm_num
  | (i + 2) => simp at hx

/-- C35: sizes that cannot be met are reported as certainly crossed. -/
theorem C35_poisson_sizes (asserts : Bool) (uniform : S → F × S) (rng : M S) (intensity : F) (b B : List F) (N : ℤ)
    (hb : b ≠ []) (h : b.length < B.length) : poissonMc asserts uniform rng intensity b B N = .ok one := by
  unfold poissonMc
  rw [if_pos ⟨List.length_pos_iff.mpr hb, h⟩]

/-- A Poisson path in exact arithmetic: inside means that for the number `K` of arrivals up to time 1, there
are between `|B|` and `|b|` of them, each `T_i` for `i <= |B|` is at most `B_i`, and each `T_i` up to time 1 is at
least `b_i`. -/
theorem C35_path_event (t : ℕ → ℝ) (ht : StrictMono t) (b B : List ℝ) :
    PoissonInside (fun k => XR.fin (t k)) (b.map .fin) (B.map .fin) ↔
      ∃ K : ℕ, (∀ k, 1 ≤ k → (t k ≤ 1 ↔ k ≤ K)) ∧ B.length ≤ K ∧ K ≤ b.length ∧
        (∀ i y, B[i]? = some y → t (i + 1) ≤ y) ∧ ∀ i y, i < K → b[i]? = some y → y ≤ t (i + 1) := by
  have hget : ∀ (K i : ℕ) (x : XR), ((List.range K).map fun i => XR.fin (t (i + 1)))[i]? = some x ↔
      i < K ∧ x = .fin (t (i + 1)) := by
    intro K i x
    by_cases hi : i < K
    · rw [List.getElem?_map, List.getElem?_range hi]
      simp [hi, eq_comm]
    · rw [List.getElem?_eq_none (by simp; omega)]
      simp [hi]
  have hmap : ∀ (l : List ℝ) (i : ℕ) (x : XR), (l.map XR.fin)[i]? = some x ↔ ∃ y, l[i]? = some y ∧ x = .fin y := by
    intro l i x
    rw [List.getElem?_map]
    cases l[i]? <;> simp [eq_comm]
  constructor
  · rintro ⟨K, hK, h1, h2, hin1, hin2, hin3, hin4⟩
    rw [List.length_map] at hK hin1
    simp only [List.length_map, List.length_range] at hin1
    simp only [XR.one_eq, XR.lt_fin, decide_eq_false_iff_not, not_lt, decide_eq_true_eq] at h1 h2
    refine ⟨K, fun k hk => ?_, hin1, hK, ?_, ?_⟩
    · constructor
      · intro h
        by_contra hc
        have : t (K + 1) ≤ t k := ht.monotone (by omega)
        linarith
      · intro h
        have := h1 (k - 1) (by omega)
        rwa [show k - 1 + 1 = k by omega] at this
    · intro i y hy
      have hi : i < B.length := (List.getElem?_eq_some_iff.mp hy).1
      have := hin3 i _ _ ((hget K i _).mpr ⟨by omega, rfl⟩) ((hmap B i _).mpr ⟨y, hy, rfl⟩)
      simpa using this
    · intro i y hi hy
      have := hin4 i _ _ ((hget K i _).mpr ⟨hi, rfl⟩) ((hmap b i _).mpr ⟨y, hy, rfl⟩)
      simpa using this
  · rintro ⟨K, hK, hB, hbK, h3, h4⟩
    refine ⟨K, by simpa using hbK, ?_, ?_, by simpa using hB, fun _ => by simpa using hbK, ?_, ?_⟩
    · intro k hk
      have := (hK (k + 1) (by omega)).mpr (by omega)
      simpa using this
    · have : ¬ t (K + 1) ≤ 1 := fun h => by
        have := (hK (K + 1) (by omega)).mp h
        omega
      simpa using this
    · intro i x y hx hy
      obtain ⟨hi, rfl⟩ := (hget K i x).mp hx
      obtain ⟨z, hz, rfl⟩ := (hmap B i y).mp hy
      simpa using h3 i z hz
    · intro i x y hx hy
      obtain ⟨hi, rfl⟩ := (hget K i x).mp hx
      obtain ⟨z, hz, rfl⟩ := (hmap b i y).mp hy
      simpa using h4 i z hi hz

/-! ## C46: the Poisson seed -/

/-- C46: computing the seed of the Poisson simulation is fine for intensities up to 2147 and undefined
behaviour (an out-of-range conversion to `int`) from 2148 on. -/
theorem C46_seed (time : ℤ) (n : ℕ) :
    (n ≤ 2147 → poissonSeed time (ofInt (n : ℤ) : XR) = .ok (BitVec.ofInt 64 (time + n * 1000000))) ∧
    (2148 ≤ n → ∃ what, poissonSeed time (ofInt (n : ℤ) : XR) = .error (.ub what)) := by
  have htr : FBits.trunc ((ofInt (n : ℤ) : XR) *ᶠ ofInt 1000000) = some ((n : ℤ) * 1000000) := by
    rw [XR.ofInt_eq, XR.ofInt_eq, XR.mul_fin]
    show XR.trunc _ = _
    unfold XR.trunc
    dsimp only
    rw [if_pos (by positivity)]
    congr 1
    rw [← Int.cast_mul, Int.floor_intCast]
  unfold poissonSeed INT_MAX
  rw [htr]
  dsimp only
  constructor
  · intro h
    rw [if_pos (by constructor <;> omega)]
  · intro h
    rw [if_neg (by omega)]
    exact ⟨_, rfl⟩

end CP.Props
