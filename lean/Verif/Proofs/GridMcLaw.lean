import Verif.Proofs.GridMc
import Verif.Proofs.Hoeffding
import Mathlib.MeasureTheory.Function.Floor
/-! The probability that a double-precision sample crosses. -/
open MeasureTheory Set
namespace CP.Spec
open FOps McSpec Props
noncomputable section
variable {A : FloatSystem}

/-- The floating-point numbers `bN` are within `delta` of the real numbers `b`. -/
def CloseTo (A : FloatSystem) (delta : ℝ) (bN : List (Num A)) (b : List ℝ) : Prop :=
  List.Forall₂ (fun (x : Num A) v => ∃ w, x.real? = some w ∧ |w - v| ≤ delta) bN b

/-- Draws for which the double-precision sample does not stay inside. -/
def gridCross (A : FloatSystem) (n : ℕ) (b B : List (Num A)) : Set Draws :=
  {u | ¬ Inside (sample (fun j => gridNum A (u j)) n) b B}

theorem arrival_congr {F : Type} [FOps F] {beta : F} {d d' : ℕ → F} {k : ℕ} (h : ∀ j, j < k → d j = d' j) : arrival beta d k = arrival beta d' k := by
  induction k with
  | zero => rfl
  | succ k ih => rw [arrival, arrival, ih fun j hj => h j (by omega), h k (by omega)]

theorem sample_congr {F : Type} [FOps F] {d d' : ℕ → F} {n : ℕ} (h : ∀ j, j < n + 1 → d j = d' j) : sample d n = sample d' n := by
  refine List.ext_getElem? fun i => ?_
  rw [sample_get, sample_get]
  by_cases hi : i < n
  · rw [if_pos hi, if_pos hi, arrival_congr fun j hj => h j (by omega), arrival_congr (k := n + 1) fun j hj => h j hj]
  · rw [if_neg hi, if_neg hi]

/-- A set of sequences that is determined by the first `m` draws, cut off after 52 binary digits, is measurable. -/
theorem measurable_of_grid {m : ℕ} {E : Set Draws}
    (h : ∀ u u' : Draws, (∀ j, j < m → ⌊(2 : ℝ) ^ 52 * u j⌋ = ⌊(2 : ℝ) ^ 52 * u' j⌋) → (u ∈ E ↔ u' ∈ E)) : MeasurableSet E := by
  set φ : Draws → (Fin m → ℤ) := fun u j => ⌊(2 : ℝ) ^ 52 * u j⌋ with hφ
  have hm : Measurable φ := measurable_pi_iff.mpr fun j => (measurable_const.mul (measurable_pi_apply _)).floor
  have e : E = φ ⁻¹' (φ '' E) := by
    refine Subset.antisymm (subset_preimage_image _ _) ?_
    rintro u ⟨u', hu', hh⟩
    refine (h u' u fun j hj => ?_).mp hu'
    exact congrFun hh ⟨j, hj⟩
  rw [e]
  exact hm (Set.to_countable _).measurableSet

theorem gridCross_run (A : FloatSystem) (n : ℕ) (b B : List (Num A)) : IsRun (fun _ => n + 1) (gridCross A n b B) (n + 1) := by
  have hdep : ∀ u u' : Draws, (∀ j, j < n + 1 → ⌊(2 : ℝ) ^ 52 * u j⌋ = ⌊(2 : ℝ) ^ 52 * u' j⌋) → (u ∈ gridCross A n b B ↔ u' ∈ gridCross A n b B) := by
    intro u u' h
    unfold gridCross
    rw [Set.mem_ofPred_eq, Set.mem_ofPred_eq, sample_congr (d' := fun j => gridNum A (u' j)) fun j hj => by unfold gridNum; rw [h j hj]]
  refine ⟨fun _ => le_rfl, fun l => MeasurableSet.const _, fun l u u' _ => by simp, measurable_of_grid hdep, ?_⟩
  intro l u u' h
  by_cases hl : n + 1 = l
  · subst hl
    have := hdep u u' fun j hj => by rw [h j hj]
    simp only [mem_inter_iff, Set.mem_ofPred_eq, and_true]
    exact this
  · simp [hl]

/-- Coefficients of `X_i - v T` in terms of the exponential random numbers. -/
def tcoef (n i : ℕ) (v : ℝ) (j : Fin (n + 1)) : ℝ := if (j : ℕ) < i + 1 then 1 - v else -v

theorem tcoef_sum (u : ℕ → ℝ) {n i : ℕ} (hi : i < n) (v : ℝ) :
    ∑ j : Fin (n + 1), tcoef n i v j * -Real.log (u j) = expSum u (i + 1) - v * expSum u (n + 1) := by
  have h := Fin.sum_univ_eq_sum_range (fun j => (if j < i + 1 then 1 - v else -v) * -Real.log (u j)) (n + 1)
  have e : ∑ j : Fin (n + 1), tcoef n i v j * -Real.log (u j) = ∑ j ∈ Finset.range (n + 1), (if j < i + 1 then 1 - v else -v) * -Real.log (u j) := h
  rw [e]
  have e2 : ∀ j ∈ Finset.range (n + 1), (if j < i + 1 then 1 - v else -v) * -Real.log (u j) =
      (if j < i + 1 then -Real.log (u j) else 0) - v * -Real.log (u j) := by
    intro j _
    split <;> ring
  rw [Finset.sum_congr rfl e2, Finset.sum_sub_distrib, ← Finset.mul_sum, ← Finset.sum_filter]
  congr 1
  unfold expSum
  refine Finset.sum_congr ?_ fun _ _ => rfl
  ext j
  simp only [Finset.mem_filter, Finset.mem_range]
  omega

theorem tcoef_big {n i : ℕ} (hi : i < n) (v : ℝ) : ∃ p, 1 / 2 ≤ |tcoef n i v p| := by
  by_cases h : v ≤ 1 / 2
  · refine ⟨0, ?_⟩
    rw [tcoef, if_pos (by simp), abs_of_nonneg (by linarith)]
    linarith
  · refine ⟨Fin.last n, ?_⟩
    rw [tcoef, if_neg (by simp; omega), abs_neg]
    exact (not_le.mp h).le.trans (le_abs_self v)

/-- The uncertainty per exponential random number, relative to its size. -/
def mcRel (n : ℕ) (delta : ℝ) : ℝ := (6 * n + 14) * u50 + delta

/-- Draws for which point `i` is too close to boundary `l_i`, if there is one. -/
def testSet (n : ℕ) (delta : ℝ) (l : List ℝ) (i : ℕ) : Set (Fin (n + 1) → ℝ) :=
  match l[i]? with
  | none => ∅
  | some v => nearSet (1 / 2 ^ 50) (6 * u50) (mcRel n delta) (tcoef n i v) 0 0

/-- Bound for the probability of one test set. -/
def testProb (n : ℕ) (delta : ℝ) : ℝ := 8 * (n * (210 * u50 + mcRel n delta)) + 280 * mcRel n delta + 96 * u50

theorem u50_pos : 0 < u50 := by rw [u50_val]; norm_num

theorem mcRel_nonneg (n : ℕ) {delta : ℝ} (hd : 0 ≤ delta) : 0 ≤ mcRel n delta := by
  have := u50_pos
  unfold mcRel
  positivity

theorem testProb_nonneg (n : ℕ) {delta : ℝ} (hd : 0 ≤ delta) : 0 ≤ testProb n delta := by
  have := u50_pos
  have := mcRel_nonneg n hd
  unfold testProb
  positivity

theorem testSet_prob {n : ℕ} {delta : ℝ} (hd : 0 ≤ delta) (l : List ℝ) {i : ℕ} (hi : i < n) :
    iidUniform (n + 1) (testSet n delta l i) ≤ ENNReal.ofReal (testProb n delta) := by
  unfold testSet
  cases h : l[i]? with
  | none => simp
  | some v =>
    dsimp only
    obtain ⟨p, hp⟩ := tcoef_big hi v
    have hu := u50_pos
    have hr := mcRel_nonneg n hd
    refine (nearSet_prob (by norm_num) (by norm_num) (by positivity) hr _ p hp 0 le_rfl).trans (ENNReal.ofReal_le_ofReal ?_)
    have hl : -Real.log (1 / 2 ^ 50) ≤ 35 := by
      rw [one_div, Real.log_inv, Real.log_pow]
      have := Real.log_two_lt_d9
      push_cast
      linarith
    have h1 : 6 * u50 * -Real.log (1 / 2 ^ 50) ≤ 6 * u50 * 35 := mul_le_mul_of_nonneg_left hl (by positivity)
    have h2 : mcRel n delta * -Real.log (1 / 2 ^ 50) ≤ mcRel n delta * 35 := mul_le_mul_of_nonneg_left hl hr
    have h3 : (n : ℝ) * (6 * u50 * -Real.log (1 / 2 ^ 50) + mcRel n delta) ≤ n * (6 * u50 * 35 + mcRel n delta) :=
      mul_le_mul_of_nonneg_left (by linarith) (by positivity)
    unfold testProb
    linarith

theorem measurable_testSet (n : ℕ) (delta : ℝ) (l : List ℝ) (i : ℕ) : MeasurableSet (testSet n delta l i) := by
  unfold testSet
  split
  · exact MeasurableSet.empty
  · exact measurable_nearSet _ _ _ _ _ _

theorem not_testSet {n : ℕ} {delta : ℝ} {l : List ℝ} {i : ℕ} (hi : i < n) {v : ℝ} (hv : l[i]? = some v) {u : ℕ → ℝ}
    (hu : ∀ j, j ≤ n → 1 / 2 ^ 50 ≤ u j ∧ u j < 1) (h : (fun j : Fin (n + 1) => u j) ∉ testSet n delta l i) :
    gam n delta u < |expSum u (i + 1) - v * expSum u (n + 1)| := by
  unfold testSet at h
  rw [hv] at h
  dsimp only at h
  by_contra hle
  refine h ⟨fun j => ⟨(hu j (by have := j.2; omega)).1, (hu j (by have := j.2; omega)).2.le⟩, ?_⟩
  rw [tcoef_sum u hi v, add_zero, add_zero]
  refine (not_lt.mp hle).trans (le_of_eq ?_)
  have h1 := Fin.sum_univ_eq_sum_range (fun j => 6 * u50 / u j + mcRel n delta * -Real.log (u j)) (n + 1)
  rw [h1, Finset.sum_add_distrib, ← Finset.mul_sum]
  unfold gam recSum expSum mcRel
  rw [Finset.mul_sum]
  congr 1
  exact Finset.sum_congr rfl fun j _ => by ring

/-- Away from the bad draws the double-precision sample crosses if and only if the exact one does. -/
theorem gridCross_iff (hA : A.f = binary64) (hlog : LogAccurate A u50) {n : ℕ} (hn : n < 2 ^ 40) {delta : ℝ} (hd0 : 0 ≤ delta) (hd1 : delta ≤ 1 / 2)
    {bN BN : List (Num A)} {b B : List ℝ} (hb : CloseTo A delta bN b) (hB : CloseTo A delta BN B)
    (hbu : ∀ v ∈ b, 0 ≤ v ∧ v ≤ 1) (hBu : ∀ v ∈ B, 0 ≤ v ∧ v ≤ 1) (hBn : B.length ≤ n) (hbn : b = [] ∨ n ≤ b.length) {u : ℕ → ℝ}
    (hu : ∀ j, j ≤ n → 1 / 2 ^ 50 ≤ u j ∧ u j < 1) (h1 : ∀ i, i < n → (fun j : Fin (n + 1) => u j) ∉ testSet n delta b i)
    (h2 : ∀ i, i < n → (fun j : Fin (n + 1) => u j) ∉ testSet n delta B i) :
    u ∈ gridCross A n bN BN ↔ u ∈ crossSet n b B := by
  have hT : 0 < expSum u (n + 1) := Finset.sum_pos (fun j hj => by
      rw [Finset.mem_range] at hj
      have := hu j (by omega)
      have h0 : 0 < u j := lt_of_lt_of_le (by positivity) this.1
      linarith [Real.log_neg h0 this.2]) ⟨0, by simp⟩
  have hlen : (sample (fun j => gridNum A (u j)) n).length = n := by simp [sample]
  -- one comparison
  have key : ∀ (lN : List (Num A)) (l : List ℝ), CloseTo A delta lN l → (∀ v ∈ l, 0 ≤ v ∧ v ≤ 1) →
      (∀ i, i < n → (fun j : Fin (n + 1) => u j) ∉ testSet n delta l i) → ∀ (i : ℕ) (x z : Num A),
      (sample (fun j => gridNum A (u j)) n)[i]? = some x → lN[i]? = some z → ∃ (hi : i < n) (v : ℝ), l[i]? = some v ∧
        (lt z x = decide (v < realSample u n ⟨i, hi⟩)) ∧ (lt x z = decide (realSample u n ⟨i, hi⟩ < v)) ∧ v ≠ realSample u n ⟨i, hi⟩ := by
    intro lN l hc hl ht i x z hx hz
    have hi : i < n := by
      by_contra hge
      rw [List.getElem?_eq_none (by omega)] at hx
      cases hx
    obtain ⟨hz1, hz2⟩ := List.getElem?_eq_some_iff.mp hz
    have hlen2 := hc.length_eq
    have hil : i < l.length := by omega
    have hcl := (List.forall₂_iff_get.mp hc).2 i hz1 hil
    rw [List.get_eq_getElem, List.get_eq_getElem] at hcl
    obtain ⟨w, hw, hwv⟩ := hcl
    set v := l[i] with hv
    have hvl : l[i]? = some v := List.getElem?_eq_getElem hil
    obtain ⟨v0, v1⟩ := hl v (List.getElem_mem hil)
    obtain ⟨y, hh, hy, hcmp⟩ := grid_sample hA hlog hn hu hi
    rw [hy] at hx
    obtain rfl := Option.some.inj hx
    rw [hz2] at hw
    obtain ⟨c1, c2⟩ := hcmp v delta v0 v1 hd0 hd1
    have hg := not_testSet hi hvl hu (ht i hi)
    have hab := abs_le.mp hwv
    refine ⟨hi, v, hvl, ?_⟩
    have hreal : realSample u n ⟨i, hi⟩ = expSum u (i + 1) / expSum u (n + 1) := rfl
    rw [hreal]
    match z, hw with
    | Fl.fin w' h', hw =>
      have e : w' = w := Option.some.inj hw
      subst e
      have e1 : lt (mkNum A w' h') (mkNum A y hh) = decide (w' < y) := rfl
      have e2 : lt (mkNum A y hh) (mkNum A w' h') = decide (y < w') := rfl
      change (lt (mkNum A w' h') (mkNum A y hh) = _) ∧ (lt (mkNum A y hh) (mkNum A w' h') = _) ∧ _
      rw [e1, e2]
      rcases lt_abs.mp hg with h | h
      · have h3 := c1 h
        have hgam : 0 ≤ gam n delta u := by
          unfold gam recSum
          have := u50_pos
          have : 0 ≤ ∑ j ∈ Finset.range (n + 1), 1 / u j := Finset.sum_nonneg fun j hj => by
            rw [Finset.mem_range] at hj
            have := hu j (by omega)
            have h0 : 0 ≤ u j := le_trans (by positivity) this.1
            positivity
          positivity
        have h4 : v < expSum u (i + 1) / expSum u (n + 1) := by rw [lt_div_iff₀ hT]; linarith
        exact ⟨by rw [decide_eq_decide]; constructor <;> intro _ <;> linarith,
          by rw [decide_eq_decide]; constructor <;> intro _ <;> linarith, h4.ne⟩
      · have h3 := c2 (by linarith)
        have hgam : 0 ≤ gam n delta u := by
          unfold gam recSum
          have := u50_pos
          have : 0 ≤ ∑ j ∈ Finset.range (n + 1), 1 / u j := Finset.sum_nonneg fun j hj => by
            rw [Finset.mem_range] at hj
            have := hu j (by omega)
            have h0 : 0 ≤ u j := le_trans (by positivity) this.1
            positivity
          positivity
        have h4 : expSum u (i + 1) / expSum u (n + 1) < v := by rw [div_lt_iff₀ hT]; linarith
        exact ⟨by rw [decide_eq_decide]; constructor <;> intro _ <;> linarith,
          by rw [decide_eq_decide]; constructor <;> intro _ <;> linarith, h4.ne'⟩
  unfold gridCross crossSet
  rw [Set.mem_ofPred_eq, Set.mem_ofPred_eq]
  refine not_congr ?_
  have hlb := hb.length_eq
  have hlB := hB.length_eq
  have back : ∀ (lN : List (Num A)) (l : List ℝ), CloseTo A delta lN l → ∀ (i : Fin n) (v : ℝ), l[(i : ℕ)]? = some v →
      ∃ z x : Num A, lN[(i : ℕ)]? = some z ∧ (sample (fun j => gridNum A (u j)) n)[(i : ℕ)]? = some x := by
    intro lN l hc i v hv
    obtain ⟨hil, -⟩ := List.getElem?_eq_some_iff.mp hv
    have := hc.length_eq
    exact ⟨_, _, List.getElem?_eq_getElem (by omega), List.getElem?_eq_getElem (by rw [hlen]; exact i.2)⟩
  unfold Inside StaysInside
  constructor
  · rintro ⟨-, -, h3, h4⟩
    refine ⟨fun i v hv => ?_, fun i v hv => ?_⟩
    · obtain ⟨z, x, hz, hx⟩ := back bN b hb i v hv
      obtain ⟨hi, v', hv', -, k2, -⟩ := key bN b hb hbu h1 i x z hx hz
      rw [hv] at hv'
      obtain rfl := Option.some.inj hv'
      rw [h4 i x z hx hz] at k2
      simpa using k2
    · obtain ⟨z, x, hz, hx⟩ := back BN B hB i v hv
      obtain ⟨hi, v', hv', k1, -, -⟩ := key BN B hB hBu h2 i x z hx hz
      rw [hv] at hv'
      obtain rfl := Option.some.inj hv'
      rw [h3 i x z hx hz] at k1
      simpa using k1
  · rintro ⟨s1, s2⟩
    refine ⟨by omega, fun h => ?_, ?_, ?_⟩
    · rcases hbn with rfl | hbn
      · exact absurd (List.length_eq_zero_iff.mp (by simpa using hlb)) h
      · omega
    · intro i x z hx hz
      obtain ⟨hi, v, hv, k1, -, -⟩ := key BN B hB hBu h2 i x z hx hz
      rw [k1, decide_eq_false_iff_not, not_lt]
      exact s2 ⟨i, hi⟩ v hv
    · intro i x z hx hz
      obtain ⟨hi, v, hv, -, k2, -⟩ := key bN b hb hbu h1 i x z hx hz
      rw [k2, decide_eq_false_iff_not, not_lt]
      exact s1 ⟨i, hi⟩ v hv

/-- Bound for the difference of the crossing probabilities in double precision and in exact arithmetic. -/
def mcBias (n : ℕ) (delta : ℝ) : ℝ := (n + 1) * u50 + 2 * n * testProb n delta

theorem mcBias_nonneg (n : ℕ) {delta : ℝ} (hd : 0 ≤ delta) : 0 ≤ mcBias n delta := by
  have := u50_pos
  have := testProb_nonneg n hd
  unfold mcBias
  positivity

section
variable {Ω : Type*} [MeasurableSpace Ω] {μ : Measure Ω} [IsProbabilityMeasure μ] {U : ℕ → Ω → ℝ}

theorem gridCross_prob (hA : A.f = binary64) (hlog : LogAccurate A u50) (hU : IidDraws U μ) {n : ℕ} (hn : n < 2 ^ 40) {delta : ℝ}
    (hd0 : 0 ≤ delta) (hd1 : delta ≤ 1 / 2)
    {bN BN : List (Num A)} {b B : List ℝ} (hb : CloseTo A delta bN b) (hB : CloseTo A delta BN B)
    (hbu : ∀ v ∈ b, 0 ≤ v ∧ v ≤ 1) (hBu : ∀ v ∈ B, 0 ≤ v ∧ v ≤ 1) (hBn : B.length ≤ n) (hbn : b = [] ∨ n ≤ b.length) :
    |μ.real {ω | seqOf U ω ∈ gridCross A n bN BN} - (1 - insideProb n b B)| ≤ mcBias n delta := by
  have hTP := testProb_nonneg n hd0
  set low : ℕ → Set Ω := fun j => {ω | U j ω < 1 / 2 ^ 50} with hlow
  set near : List ℝ → ℕ → Set Ω := fun l i => {ω | (fun j : Fin (n + 1) => U (0 + j) ω) ∈ testSet n delta l i} with hnear
  set bad : Set Ω := (⋃ j ∈ Finset.range (n + 1), low j) ∪ ((⋃ i ∈ Finset.range n, near b i) ∪ ⋃ i ∈ Finset.range n, near B i) with hbad
  have hlowp : ∀ j, μ.real (low j) ≤ u50 := by
    intro j
    have e : μ (low j) = (μ.map (U j)) (Iio (1 / 2 ^ 50)) := (Measure.map_apply (hU.meas j) measurableSet_Iio).symm
    rw [measureReal_def, e, hU.law j, Measure.restrict_apply measurableSet_Iio]
    refine ENNReal.toReal_le_of_le_ofReal u50_pos.le ?_
    calc volume (Iio (1 / 2 ^ 50 : ℝ) ∩ Icc 0 1) ≤ volume (Icc (0 : ℝ) (1 / 2 ^ 50)) :=
          measure_mono fun x hx => ⟨hx.2.1, (show x < 1 / 2 ^ 50 from hx.1).le⟩
      _ = ENNReal.ofReal u50 := by rw [Real.volume_Icc, sub_zero, u50_val]; norm_num
  have hnearp : ∀ l i, i < n → μ.real (near l i) ≤ testProb n delta := by
    intro l i hi
    have e := block_measure hU 0 (n + 1) (measurable_testSet n delta l i)
    rw [measureReal_def]
    refine ENNReal.toReal_le_of_le_ofReal hTP ?_
    rw [hnear]
    dsimp only
    rw [e]
    exact testSet_prob hd0 l hi
  have hbadp : μ.real bad ≤ mcBias n delta := by
    have s1 : μ.real (⋃ j ∈ Finset.range (n + 1), low j) ≤ (n + 1) * u50 := by
      refine (measureReal_biUnion_finset_le _ _).trans ((Finset.sum_le_sum fun j _ => hlowp j).trans (le_of_eq ?_))
      simp
    have s2 : ∀ l, μ.real (⋃ i ∈ Finset.range n, near l i) ≤ n * testProb n delta := by
      intro l
      refine (measureReal_biUnion_finset_le _ _).trans ((Finset.sum_le_sum fun i hi => hnearp l i (Finset.mem_range.mp hi)).trans (le_of_eq ?_))
      simp
    have t1 := measureReal_union_le (μ := μ) (⋃ j ∈ Finset.range (n + 1), low j) ((⋃ i ∈ Finset.range n, near b i) ∪ ⋃ i ∈ Finset.range n, near B i)
    have t2 := measureReal_union_le (μ := μ) (⋃ i ∈ Finset.range n, near b i) (⋃ i ∈ Finset.range n, near B i)
    have := s2 b
    have := s2 B
    unfold mcBias
    rw [hbad]
    linarith
  rw [← crossSet_prob hU n b B]
  have hae : ∀ᵐ ω ∂μ, ω ∉ bad → (seqOf U ω ∈ gridCross A n bN BN ↔ seqOf U ω ∈ crossSet n b B) := by
    filter_upwards [ae_draws hU] with ω hω hnb
    rw [hbad] at hnb
    simp only [mem_union, mem_iUnion, not_or, not_exists, Finset.mem_range] at hnb
    obtain ⟨g1, g2, g3⟩ := hnb
    refine gridCross_iff hA hlog hn hd0 hd1 hb hB hbu hBu hBn hbn (fun j hj => ⟨?_, (hω j).2⟩) (fun i hi => ?_) (fun i hi => ?_)
    · have := g1 j (by omega)
      exact not_lt.mp this
    · have := g2 i hi
      rw [hnear] at this
      simpa [seqOf] using this
    · have := g3 i hi
      rw [hnear] at this
      simpa [seqOf] using this
  have one : ∀ E F : Set Draws, (∀ᵐ ω ∂μ, ω ∉ bad → (seqOf U ω ∈ E ↔ seqOf U ω ∈ F)) →
      μ.real {ω | seqOf U ω ∈ E} ≤ μ.real {ω | seqOf U ω ∈ F} + μ.real bad := by
    intro E F h
    refine le_trans ?_ (measureReal_union_le _ _)
    rw [measureReal_def, measureReal_def]
    refine ENNReal.toReal_mono (measure_ne_top _ _) (measure_mono_ae ?_)
    filter_upwards [h] with ω h1 h2
    by_cases hb : ω ∈ bad
    · exact Or.inr hb
    · exact Or.inl ((h1 hb).mp h2)
  have a1 := one _ _ hae
  have a2 := one _ _ (hae.mono fun ω h hb => (h hb).symm)
  rw [abs_le]
  constructor <;> linarith

end

end
end CP.Spec
