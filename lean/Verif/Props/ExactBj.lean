import Verif.Model.ExactBj
import Verif.Proofs.BetaLaw
import Verif.Props.Validate
import Verif.Props.Safety
/-
Property C56: benchmarks/exactbj.py computes the exact Berk-Jones statistic and its null distribution.
-/
open MeasureTheory Set
namespace CP.Props
open CP.Spec FOps

/-- Contract of `scipy.special`: for positive integer parameters, `betainc` is the regularised incomplete beta function on
[0,1] and `betaincinv` inverts it. -/
structure SciPyContract (sp : SciPy XR) : Prop where
  betainc : ∀ a b : ℕ, 1 ≤ a → 1 ≤ b → ∀ x ∈ Icc (0 : ℝ) 1, sp.betainc a b (XR.fin x) = XR.fin (regIncBeta a b x)
  betaincinv : ∀ a b : ℕ, 1 ≤ a → 1 ≤ b → ∀ y ∈ Icc (0 : ℝ) 1, ∃ t ∈ Icc (0 : ℝ) 1,
    sp.betaincinv a b (XR.fin y) = XR.fin t ∧ regIncBeta a b t = y

/-- Contract of `ndarray.sort` on finite numbers. -/
structure NumSort (sort : List XR → List XR) : Prop where
  perm : ∀ l, (sort l).Perm l
  sorted : ∀ l : List ℝ, (sort (l.map XR.fin)).Pairwise fun x y => FOps.lt y x = false

/-- C56: `_uniform_order_statistic_cdf(i, n, x)` is `Pr[U_(i) <= x]` (here `i` counts from 0). -/
theorem C56_order_statistic_cdf {sp : SciPy XR} (h : SciPyContract sp) {n : ℕ} (i : Fin n) {x : ℝ} (hx : x ∈ Icc (0 : ℝ) 1) :
    uniformOrderStatisticCdf sp ((i : ℕ) + 1) n (XR.fin x) = XR.fin ((iidUniform n).real {u | orderStat u i ≤ x}) := by
  unfold uniformOrderStatisticCdf
  have e := h.betainc ((i : ℕ) + 1) (n - i) (by omega) (by omega) x hx
  have e1 : (n : ℤ) - ((i : ℕ) + 1) + 1 = ((n - i : ℕ) : ℤ) := by omega
  rw [e1]
  push_cast at e
  rw [← orderCdf_eq_beta i hx.1 hx.2] at e
  exact e

theorem sort_toList {sort : List XR → List XR} (hs : NumSort sort) {n : ℕ} (x : Fin n → ℝ) :
    sort (toList x) = toList (orderStat x) := by
  have h1 : (sort (toList x)).Perm (toList (orderStat x)) := by
    refine (hs.perm _).trans ?_
    unfold toList orderStat
    exact (Equiv.Perm.ofFn_comp_perm (Tuple.sort x) fun i => XR.fin (x i)).symm
  have h2 : (sort (toList x)).Pairwise fun x y => FOps.lt y x = false := by
    have := hs.sorted (List.ofFn x)
    rwa [← toList_eq] at this
  have h3 : (toList (orderStat x)).Pairwise fun x y => FOps.lt y x = false :=
    by
    unfold toList
    rw [List.pairwise_ofFn]
    intro i j hij
    have := orderStat_monotone x hij.le
    simpa [FOps.lt, XR.lt] using this
  refine h1.eq_of_pairwise ?_ h2 h3
  intro a b ha hb hab hba
  have hfin : ∀ c ∈ toList (orderStat x), ∃ r, c = XR.fin r := by
    intro c hc
    unfold toList at hc
    rw [List.mem_ofFn] at hc
    obtain ⟨i, rfl⟩ := hc
    exact ⟨_, rfl⟩
  obtain ⟨r, rfl⟩ := hfin a (h1.mem_iff.mp ha)
  obtain ⟨s, rfl⟩ := hfin b hb
  have e1 : ¬ s < r := by simpa [FOps.lt, XR.lt] using hab
  have e2 : ¬ r < s := by simpa [FOps.lt, XR.lt] using hba
  rw [le_antisymm (not_lt.mp e1) (not_lt.mp e2)]

theorem pValues_eq {sp : SciPy XR} (h : SciPyContract sp) {n : ℕ} (x : Fin n → ℝ) (hx : ∀ i, x i ∈ Icc (0 : ℝ) 1)
    (m k : ℕ) (hmk : k + m = n) : pValues sp n ((k : ℤ) + 1) ((toList x).drop k)
      = (List.ofFn fun i : Fin n => XR.fin (orderCdf n i (x i))).drop k := by
  induction m generalizing k with
  | zero =>
    rw [List.drop_eq_nil_of_le (by simp; omega), List.drop_eq_nil_of_le (by simp; omega)]
    rfl
  | succ m ih =>
    have hk : k < n := by omega
    rw [List.drop_eq_getElem_cons (l := toList x) (by simpa using hk),
      List.drop_eq_getElem_cons (l := List.ofFn fun i : Fin n => XR.fin (orderCdf n i (x i))) (by simpa using hk), pValues]
    congr 1
    · have e : (toList x)[k]'(by simpa using hk) = XR.fin (x ⟨k, hk⟩) := by simp [toList]
      rw [e, List.getElem_ofFn]
      exact C56_order_statistic_cdf h ⟨k, hk⟩ (hx _)
    · have := ih (k + 1) (by omega)
      push_cast at this
      exact this

theorem foldl_min (l : List ℝ) (p : ℝ) :
    (l.map XR.fin).foldl (fun m y => if FOps.lt y m then y else m) (XR.fin p) = XR.fin (l.foldl min p) := by
  induction l generalizing p with
  | nil => rfl
  | cons a l ih =>
    rw [List.map_cons, List.foldl_cons, List.foldl_cons]
    have e : (if FOps.lt (XR.fin a) (XR.fin p) = true then XR.fin a else XR.fin p) = XR.fin (min p a) := by
      by_cases h : a < p
      · have : FOps.lt (XR.fin a) (XR.fin p) = true := by simpa [FOps.lt, XR.lt] using h
        rw [if_pos this, min_eq_right h.le]
      · have : ¬ FOps.lt (XR.fin a) (XR.fin p) = true := by simpa [FOps.lt, XR.lt] using h
        rw [if_neg this, min_eq_left (not_lt.mp h)]
    rw [e, ih]

theorem foldl_min_le (l : List ℝ) (p : ℝ) : (∀ y ∈ p :: l, l.foldl min p ≤ y) ∧ l.foldl min p ∈ p :: l := by
  induction l generalizing p with
  | nil => simp
  | cons a l ih =>
    obtain ⟨h1, h2⟩ := ih (min p a)
    rw [List.foldl_cons]
    constructor
    · intro y hy
      have h3 := h1 (min p a) (by simp)
      rcases List.mem_cons.mp hy with rfl | hy
      · exact h3.trans (min_le_left _ _)
      · rcases List.mem_cons.mp hy with rfl | hy
        · exact h3.trans (min_le_right _ _)
        · exact h1 y (by simp [hy])
    · rcases List.mem_cons.mp h2 with h | h
      · rw [h]
        rcases min_choice p a with h | h <;> rw [h] <;> simp
      · simp [h]

theorem minOf_eq {n : ℕ} [NeZero n] (f : Fin n → ℝ) :
    minOf (List.ofFn fun i => XR.fin (f i)) = .ok (XR.fin (Finset.univ.inf' Finset.univ_nonempty f)) := by
  have e : (List.ofFn fun i => XR.fin (f i)) = (List.ofFn f).map XR.fin := by rw [List.map_ofFn]; rfl
  rw [e]
  cases hl : List.ofFn f with
  | nil =>
    have := congrArg List.length hl
    rw [List.length_ofFn, List.length_nil] at this
    exact absurd this (NeZero.ne n)
  | cons p l =>
    rw [List.map_cons, minOf, foldl_min]
    obtain ⟨h1, h2⟩ := foldl_min_le l p
    rw [← hl] at h1 h2
    congr 2
    rw [List.mem_ofFn] at h2
    obtain ⟨i, hi⟩ := h2
    refine le_antisymm (Finset.le_inf' _ _ fun j _ => h1 _ (List.mem_ofFn.mpr ⟨j, rfl⟩)) ?_
    rw [← hi]
    exact Finset.inf'_le f (Finset.mem_univ i)

theorem allInUnit_toList {n : ℕ} (x : Fin n → ℝ) : allInUnit (toList x) = true ↔ ∀ i, x i ∈ Icc (0 : ℝ) 1 := by
  unfold allInUnit toList
  rw [List.all_eq_true]
  have key : ∀ r : ℝ, (FOps.ge (XR.fin r) (FOps.zero : XR) && FOps.ge (FOps.one : XR) (XR.fin r)) = true ↔ r ∈ Icc (0 : ℝ) 1 := by
    intro r
    have e1 : FOps.ge (XR.fin r) (FOps.zero : XR) = true ↔ 0 ≤ r := by
      rw [le_iff_lt_or_eq]
      simp only [FOps.ge, XR.zero_eq, XR.lt_fin, XR.eq_fin, Bool.or_eq_true, decide_eq_true_eq]
      exact or_congr Iff.rfl eq_comm
    have e2 : FOps.ge (FOps.one : XR) (XR.fin r) = true ↔ r ≤ 1 := by
      rw [le_iff_lt_or_eq]
      simp only [FOps.ge, XR.one_eq, XR.lt_fin, XR.eq_fin, Bool.or_eq_true, decide_eq_true_eq]
      exact or_congr Iff.rfl eq_comm
    rw [Bool.and_eq_true, e1, e2]; rfl
  constructor
  · intro h i
    exact (key _).mp (h _ (List.mem_ofFn.mpr ⟨i, rfl⟩))
  · intro h y hy
    rw [List.mem_ofFn] at hy
    obtain ⟨i, rfl⟩ := hy
    exact (key _).mpr (h i)

/-- C56: on a sample of `n >= 1` points of [0,1], `Mn_plus_statistic` returns the smallest p-value of the order statistics.  A
list is left alone, but a float array is sorted in place. -/
theorem C56_statistic {sp : SciPy XR} (h : SciPyContract sp) {sort : List XR → List XR} (hs : NumSort sort) {n : ℕ} [NeZero n]
    (x : Fin n → ℝ) (hx : ∀ i, x i ∈ Icc (0 : ℝ) 1) :
    mnPlusStatistic sp sort (.list (toList x)) = .ok (XR.fin (bjStat x), .list (toList x)) ∧
    mnPlusStatistic sp sort (.ndarray (toList x)) = .ok (XR.fin (bjStat x), .ndarray (toList (orderStat x))) := by
  have hp : minOf (pValues sp (n : ℤ) 1 (toList (orderStat x))) = .ok (XR.fin (bjStat x)) := by
    have := pValues_eq h (orderStat x) (fun i => orderStat_mem hx i) n 0 (by omega)
    rw [List.drop_zero, List.drop_zero, Nat.cast_zero, zero_add] at this
    rw [this]
    exact minOf_eq _
  have ha := (allInUnit_toList x).mpr hx
  constructor
  · unfold mnPlusStatistic
    simp only [Samples.vals, ha, Bool.not_true, Bool.false_eq_true, if_false, sort_toList hs, length_toList]
    rw [hp]; rfl
  · unfold mnPlusStatistic
    simp only [Samples.vals, ha, Bool.not_true, Bool.false_eq_true, if_false, sort_toList hs, length_toList]
    rw [hp]; rfl

/-- C56: a sample with a point outside [0,1] raises AssertionError, an empty one ValueError. -/
theorem C56_statistic_errors (sp : SciPy XR) (sort : List XR → List XR) (hs : NumSort sort) {n : ℕ} (x : Fin n → ℝ) :
    (¬ (∀ i, x i ∈ Icc (0 : ℝ) 1) →
      mnPlusStatistic sp sort (.list (toList x)) = .error (.uncaught "AssertionError") ∧
      mnPlusStatistic sp sort (.ndarray (toList x)) = .error (.uncaught "AssertionError")) ∧
    ∃ msg, mnPlusStatistic sp sort (.list []) = .error (.uncaught msg) := by
  constructor
  · intro hx
    have ha : allInUnit (toList x) = false := by
      rw [Bool.eq_false_iff, Ne, allInUnit_toList]; exact hx
    constructor <;>
    · unfold mnPlusStatistic
      simp only [Samples.vals, ha, Bool.not_false, if_true]
  · refine ⟨"ValueError: zero-size array to reduction operation minimum which has no identity", ?_⟩
    unfold mnPlusStatistic
    have : sort [] = [] := List.Perm.eq_nil (hs.perm [])
    simp only [Samples.vals, allInUnit, List.all_nil, Bool.not_true, Bool.false_eq_true, if_false, this, pValues, minOf]
    rfl

/-- C56: for `0 <= y <= 1`, `Mn_plus_bounds` returns a valid boundary of `y`-quantiles. -/
theorem C56_bounds {sp : SciPy XR} (h : SciPyContract sp) (n : ℕ) {y : ℝ} (hy : y ∈ Icc (0 : ℝ) 1) :
    ∃ t : Fin n → ℝ, mnPlusBounds sp n (XR.fin y) = toList t ∧ ValidBound t ∧
      ∀ i, (iidUniform n).real {u | orderStat u i ≤ t i} = y := by
  have key : ∀ i : Fin n, ∃ t ∈ Icc (0 : ℝ) 1,
      sp.betaincinv (((i : ℕ) : ℤ) + 1) ((n : ℤ) - (((i : ℕ) : ℤ) + 1) + 1) (XR.fin y) = XR.fin t ∧ orderCdf n i t = y := by
    intro i
    obtain ⟨t, ht, e1, e2⟩ := h.betaincinv ((i : ℕ) + 1) (n - i) (by omega) (by omega) y hy
    refine ⟨t, ht, ?_, ?_⟩
    · rw [show (n : ℤ) - (((i : ℕ) : ℤ) + 1) + 1 = ((n - i : ℕ) : ℤ) by omega]
      push_cast at e1
      exact e1
    · rw [orderCdf_eq_beta i ht.1 ht.2]; exact e2
  choose t ht e1 e2 using key
  refine ⟨t, ?_, quantile_valid ht e2, e2⟩
  unfold mnPlusBounds toList
  apply List.ext_getElem
  · simp
  · intro k h1 h2
    rw [List.getElem_map, List.getElem_ofFn, List.getElem_range]
    exact e1 ⟨k, _⟩

/-- C56: `Mn_plus_distribution(n, y)` is the null distribution function `Pr[M_n^+ < y]` of the statistic. -/
theorem C56_distribution (env : Env XR) (hf : ExactFFT env.fft) {sp : SciPy XR} (h : SciPyContract sp) {n : ℕ} [NeZero n]
    (ha : env.asserts = false ∨ 2 ≤ n) {y : ℝ} (hy : y ∈ Icc (0 : ℝ) 1) :
    mnPlusDistribution env sp Nat.sqrt n (XR.fin y) = .ok (XR.fin ((iidUniform n).real {x | bjStat x < y})) := by
  obtain ⟨t, e, ht, hq⟩ := C56_bounds h n hy
  unfold mnPlusDistribution
  rw [e, C03_ecdf1_new_b env hf (NeZero.one_le) ht ha, M_ok_bind, bjStat_law ht.range hq]
  simp

/-- C56: for `n = 0` the call of `ecdf1_new_b` with an empty list is undefined behaviour (release build). -/
theorem C56_distribution_empty (env : Env XR) (ha : env.asserts = false) (sp : SciPy XR) (y : XR) :
    ∃ msg, mnPlusDistribution env sp Nat.sqrt 0 y = .error (.ub msg) := by
  unfold mnPlusDistribution
  have : mnPlusBounds sp 0 y = [] := rfl
  rw [this, C17_new_b_empty env Nat.sqrt, ha]
  exact ⟨_, rfl⟩

theorem bjStat_one {n : ℕ} [NeZero n] : (iidUniform n).real {x : Fin n → ℝ | bjStat x < 1} = 1 := by
  have hn : 1 ≤ n := NeZero.one_le
  have hl := bjStat_law (n := n) (t := fun _ => 1) (y := 1) (fun _ => ⟨zero_le_one, le_rfl⟩) (fun i => orderCdf_one i)
  rw [hl]
  have : lowerProb (fun _ : Fin n => (1 : ℝ)) = 0 := by
    unfold lowerProb
    have e : (iidUniform n).real {x : Fin n → ℝ | ∀ i, 1 ≤ orderStat x i} = (iidUniform n).real (∅ : Set (Fin n → ℝ)) := by
      refine measureReal_congr ?_
      filter_upwards [ae_mem (n := n), ae_ne (n := n) 1] with x hx h1
      refine propext ⟨fun hh => ?_, fun hh => hh.elim⟩
      exact h1 _ (le_antisymm (orderStat_mem hx ⟨0, hn⟩).2 (hh ⟨0, hn⟩))
    rw [e, measureReal_empty]
  rw [this, sub_zero]

/-- C56: the distribution function is 0 at 0 and 1 at 1, so the equation solved by `inverse_Mn_plus` makes sense. -/
theorem C56_distribution_ends (env : Env XR) (hf : ExactFFT env.fft) {sp : SciPy XR} (h : SciPyContract sp) {n : ℕ} [NeZero n]
    (ha : env.asserts = false ∨ 2 ≤ n) :
    mnPlusDistribution env sp Nat.sqrt n (XR.fin 0) = .ok (XR.fin 0) ∧
    mnPlusDistribution env sp Nat.sqrt n (XR.fin 1) = .ok (XR.fin 1) := by
  have hn : 1 ≤ n := NeZero.one_le
  constructor
  · rw [C56_distribution env hf h ha ⟨le_rfl, zero_le_one⟩]
    have : {x : Fin n → ℝ | bjStat x < 0} = ∅ := by
      ext x
      simp only [Set.mem_ofPred_eq, mem_empty_iff_false, iff_false, not_lt]
      exact Finset.le_inf' _ _ fun i _ => orderCdf_nonneg i _
    rw [this, measureReal_empty]
  · rw [C56_distribution env hf h ha ⟨zero_le_one, le_rfl⟩]
    rw [bjStat_one]

/-! The contracts can be met. -/

theorem regIncBeta_surj (a b : ℕ) (ha : 1 ≤ a) (hb : 1 ≤ b) {y : ℝ} (hy : y ∈ Icc (0 : ℝ) 1) :
    ∃ t ∈ Icc (0 : ℝ) 1, regIncBeta a b t = y := by
  obtain ⟨t, ht, e⟩ := orderCdf_surj (n := a + b - 1) ⟨a - 1, by omega⟩ hy
  refine ⟨t, ht, ?_⟩
  rw [orderCdf_eq_beta _ ht.1 ht.2] at e
  simp only at e
  rwa [show a - 1 + 1 = a by omega, show a + b - 1 - (a - 1) = b by omega] at e

open Classical in
/-- An exact `scipy.special`. -/
noncomputable def exactSciPy : SciPy XR where
  betainc a b x := match x with
    | .fin r => .fin (regIncBeta a.toNat b.toNat r)
    | _ => .nan
  betaincinv a b y := match y with
    | .fin r => if h : ∃ t ∈ Icc (0 : ℝ) 1, regIncBeta a.toNat b.toNat t = r then .fin h.choose else .nan
    | _ => .nan

theorem exactSciPy_contract : SciPyContract exactSciPy where
  betainc a b _ _ x _ := by simp [exactSciPy]
  betaincinv a b ha hb y hy := by
    have h := regIncBeta_surj a b ha hb hy
    refine ⟨h.choose, h.choose_spec.1, ?_, h.choose_spec.2⟩
    unfold exactSciPy
    simp only [Int.toNat_natCast]
    rw [dif_pos h]

/-- `ndarray.sort` as a merge sort. -/
noncomputable def mergeSortNums (l : List XR) : List XR := l.mergeSort fun x y => !FOps.lt y x

theorem mergeSortNums_contract : NumSort mergeSortNums where
  perm l := List.mergeSort_perm l _
  sorted l := by
    have e : mergeSortNums (l.map XR.fin) = (l.mergeSort fun x y => !FOps.lt (XR.fin y) (XR.fin x)).map XR.fin := by
      unfold mergeSortNums
      rw [List.map_mergeSort]
      intro a _ b _; rfl
    rw [e, List.pairwise_map]
    refine (List.pairwise_mergeSort (fun a b c h1 h2 => ?_) (fun a b => ?_) l).imp fun h => by simpa using h
    · simp only [FOps.lt, XR.lt, Bool.not_eq_eq_eq_not, Bool.not_true, decide_eq_false_iff_not, not_lt] at *
      exact h1.trans h2
    · simp only [FOps.lt, XR.lt, Bool.or_eq_true, Bool.not_eq_eq_eq_not, Bool.not_true, decide_eq_false_iff_not, not_lt]
      exact le_total a b

/-! A concrete sample, out of order, passed as an array: the caller's array is sorted by the call. -/

example : mnPlusStatistic exactSciPy mergeSortNums (.ndarray (toList (![1 / 2, 1 / 4] : Fin 2 → ℝ)))
    = .ok (XR.fin (bjStat ![1 / 2, 1 / 4]), .ndarray (toList (orderStat ![1 / 2, 1 / 4]))) :=
  (C56_statistic exactSciPy_contract mergeSortNums_contract _ (by
    intro i; fin_cases i <;> norm_num)).2

example : mnPlusDistribution dbgEnv exactSciPy Nat.sqrt 2 (XR.fin (1 / 20))
    = .ok (XR.fin ((iidUniform 2).real {x | bjStat x < 1 / 20})) :=
  C56_distribution dbgEnv exactFFTW_exact exactSciPy_contract (Or.inr le_rfl) ⟨by norm_num, by norm_num⟩

end CP.Props
