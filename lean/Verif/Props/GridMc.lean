import Verif.Proofs.GridTransfer
import Verif.Model.McGenerator
import Verif.Props.IeeeMc
/-
Property C71: accuracy of the Monte-Carlo simulation of crossprob_mc in double precision, with a generator of independent
52-bit draws.
-/
open MeasureTheory Set ProbabilityTheory
namespace CP.Props
open CP.Spec CP.McSpec FOps
noncomputable section
variable {A : FloatSystem}

/-- The floating-point estimate for `c` crossings differs by less than `c'` from `q`. -/
def Estimates (A : FloatSystem) (n N : ℕ) (bN BN : List (Num A)) (q c : ℝ) (k : ℕ → ℕ) : Prop :=
  |(countUpTo (fun r => ¬ Inside (sample (fun j => roundNum A ((k (r * (n + 1) + j) : ℝ) / 2 ^ 52)) n) bN BN) N : ℝ) / N - q| < c

theorem countUpTo_congr {p q : ℕ → Prop} {N : ℕ} (h : ∀ r < N, p r ↔ q r) : countUpTo p N = countUpTo q N := by
  unfold countUpTo
  congr 1
  ext r
  simp only [Finset.mem_filter, Finset.mem_range]
  exact and_congr_right fun hr => h r hr

theorem estimates_congr {n N : ℕ} {bN BN : List (Num A)} {q c : ℝ} {k k' : ℕ → ℕ} (h : ∀ j, j < N * (n + 1) → k j = k' j) :
    Estimates A n N bN BN q c k ↔ Estimates A n N bN BN q c k' := by
  have : countUpTo (fun r => ¬ Inside (sample (fun j => roundNum A ((k (r * (n + 1) + j) : ℝ) / 2 ^ 52)) n) bN BN) N =
      countUpTo (fun r => ¬ Inside (sample (fun j => roundNum A ((k' (r * (n + 1) + j) : ℝ) / 2 ^ 52)) n) bN BN) N := by
    refine countUpTo_congr fun r hr => ?_
    rw [sample_congr (d' := fun j => roundNum A ((k' (r * (n + 1) + j) : ℝ) / 2 ^ 52)) fun j hj => ?_]
    rw [h]
    calc r * (n + 1) + j < r * (n + 1) + (n + 1) := by omega
      _ = (r + 1) * (n + 1) := by ring
      _ ≤ N * (n + 1) := Nat.mul_le_mul_right _ hr
  unfold Estimates
  rw [this]

section
variable {Ω : Type*} [MeasurableSpace Ω] {μ : Measure Ω} [IsProbabilityMeasure μ] {K : ℕ → Ω → ℕ}

theorem estimates_prob (hA : A.f = binary64) (hlog : LogAccurate A u50) (hK : IidGrid K μ) {n : ℕ} (hn : n < 2 ^ 40) {delta : ℝ}
    (hd0 : 0 ≤ delta) (hd1 : delta ≤ 1 / 2)
    {bN BN : List (Num A)} {b B : List ℝ} (hb : CloseTo A delta bN b) (hB : CloseTo A delta BN B)
    (hbu : ∀ v ∈ b, 0 ≤ v ∧ v ≤ 1) (hBu : ∀ v ∈ B, 0 ≤ v ∧ v ≤ 1) (hBn : B.length ≤ n) (hbn : b = [] ∨ n ≤ b.length)
    (N : ℕ) (hN0 : 1 ≤ N) {c : ℝ} (hc : 0 ≤ c) :
    μ.real {ω | ¬ Estimates A n N bN BN (1 - insideProb n b B) (c + mcBias n delta) fun j => K j ω} ≤ 2 * Real.exp (-2 * N * c ^ 2) := by
  have h1 := grid_transfer hK (M := N * (n + 1)) (S := {k | ¬ Estimates A n N bN BN (1 - insideProb n b B) (c + mcBias n delta) k})
    fun k k' h => not_congr (estimates_congr h)
  refine le_trans (le_of_eq h1) ?_
  set U : ℕ → (ℕ → ℝ) → ℝ := fun j x => x j with hU
  have hiid : IidDraws U streamLaw := streamLaw_iid
  set p := streamLaw.real {x | seqOf U x ∈ gridCross A n bN BN} with hp
  have hbias := gridCross_prob hA hlog hiid hn hd0 hd1 hb hB hbu hBu hBn hbn
  refine le_trans ?_ (run_hoeffding hiid (gridCross_run A n bN BN) hp.symm N hN0 hc)
  rw [measureReal_def, measureReal_def]
  refine ENNReal.toReal_mono (measure_ne_top _ _) (measure_mono_ae ?_)
  filter_upwards [ae_draws hiid] with x hx hbad
  by_contra hlt
  refine hbad ?_
  have hlt' := not_le.mp hlt
  have hev : (fun r => shift (startOf (fun _ => n + 1) (seqOf U x) r) (seqOf U x) ∈ gridCross A n bN BN) =
      fun r => ¬ Inside (sample (fun j => roundNum A ((digits52 (x (r * (n + 1) + j)) : ℝ) / 2 ^ 52)) n) bN BN := by
    funext r
    rw [startOf_const]
    unfold gridCross
    rw [Set.mem_ofPred_eq]
    have : (fun j => gridNum A (shift (r * (n + 1)) (seqOf U x) j)) = fun j => roundNum A ((digits52 (x (r * (n + 1) + j)) : ℝ) / 2 ^ 52) := by
      funext j
      unfold gridNum shift digits52
      have h0 : 0 ≤ (2 : ℝ) ^ 52 * x (r * (n + 1) + j) := mul_nonneg (by positivity) (hx _).1.le
      have e : ((⌊(2 : ℝ) ^ 52 * x (r * (n + 1) + j)⌋ : ℤ) : ℝ) = ((⌊(2 : ℝ) ^ 52 * x (r * (n + 1) + j)⌋₊ : ℕ) : ℝ) := by
        rw [← Int.natCast_floor_eq_floor h0, Int.cast_natCast]
      show roundNum A (((⌊(2 : ℝ) ^ 52 * x (r * (n + 1) + j)⌋ : ℤ) : ℝ) / 2 ^ 52) = _
      rw [e]
    rw [this]
  rw [hev] at hlt'
  unfold Estimates
  have h2 := abs_add_le ((countUpTo (fun r => ¬ Inside (sample (fun j => roundNum A ((digits52 (x (r * (n + 1) + j)) : ℝ) / 2 ^ 52)) n) bN BN) N : ℝ) / N - p)
    (p - (1 - insideProb n b B))
  rw [sub_add_sub_cancel] at h2
  linarith

/-- A generator whose draws are `K_j / 2^52`. -/
theorem draw_round {S : Type} {uniform : S → Num A × S} {s : S} {k : ℕ → ℕ}
    (h : ∀ j, (draw uniform s j).real? = some ((k j : ℝ) / 2 ^ 52)) (j : ℕ) : draw uniform s j = roundNum A ((k j : ℝ) / 2 ^ 52) := by
  have := h j
  generalize draw uniform s j = z at this
  match z, this with
  | Fl.fin y hy, h =>
    have e : y = (k j : ℝ) / 2 ^ 52 := Option.some.inj h
    subst e
    exact (roundNum_of_fin hy).symm

/-- C71: `ecdf_crossing_probability_montecarlo` in double precision, with independent 52-bit draws.  Let the given floating-point
boundaries be within `delta` of real numbers `b`, `B` in `[0,1]`.  Except with probability `2 exp(-2 N c^2)` the function returns a
number that differs from the probability that the order statistics of `n` uniform numbers leave the boundaries `b`, `B` by less than `c`
plus a small systematic error. -/
theorem C71_ecdf (hA : A.f = binary64) (hlog : LogAccurate A u50) {S : Type} (uniform : S → Num A × S) (rng : Ω → S) (hK : IidGrid K μ)
    (hdraw : ∀ ω j, (draw uniform (rng ω) j).real? = some ((K j ω : ℝ) / 2 ^ 52)) (n : ℕ) (hn : 1 ≤ n) (hn' : n < 2 ^ 40) {delta : ℝ}
    (hd0 : 0 ≤ delta) (hd1 : delta ≤ 1 / 2) (bN BN : List (Num A)) (b B : List ℝ) (hb : CloseTo A delta bN b) (hB : CloseTo A delta BN B)
    (hbu : ∀ v ∈ b, 0 ≤ v ∧ v ≤ 1) (hBu : ∀ v ∈ B, 0 ≤ v ∧ v ≤ 1) (hBn : B.length ≤ n) (hbn : b = [] ∨ n ≤ b.length)
    (N : ℕ) (hN0 : 1 ≤ N) (hN : (N : ℤ) ≤ 2 ^ 31 - 1) {c : ℝ} (hc : 0 ≤ c) :
    μ.real {ω | ¬ ∃ (x : Num A) (p : ℝ), ecdfMc uniform (rng ω) n bN BN N = .ok x ∧ x.real? = some p ∧ 0 ≤ p ∧ p ≤ 1 ∧
        |p - (1 - insideProb n b B)| < c + (mcBias n delta + 1 / 2 ^ 49)} ≤ 2 * Real.exp (-2 * N * c ^ 2) := by
  refine le_trans (measureReal_mono ?_) (estimates_prob hA hlog hK hn' hd0 hd1 hb hB hbu hBu hBn hbn N hN0 hc)
  intro ω hbad hest
  refine hbad ?_
  have hlb := hb.length_eq
  have hlB := hB.length_eq
  have hrun := C33_any_arithmetic uniform (rng ω) n hn bN BN N (by omega) (by
    rcases hbn with rfl | hbn
    · left; exact List.length_eq_zero_iff.mp (by simpa using hlb)
    · right; omega) hN
  simp only [draw_round (hdraw ω)] at hrun
  set q := countUpTo (fun r => ¬ Inside (sample (fun j => roundNum A ((K (r * (n + 1) + j) ω : ℝ) / 2 ^ 52)) n) bN BN) N with hq
  obtain ⟨hh, e, p0, p1, herr⟩ := estimate_num (A := A) hA (c := q) (countUpTo_le _ N) hN0 hN
  refine ⟨_, A.r ((q : ℝ) / N), hrun, by rw [e]; rfl, p0, p1, ?_⟩
  have h3 : |(q : ℝ) / N - (1 - insideProb n b B)| < c + mcBias n delta := hest
  have h2 := abs_add_le (A.r ((q : ℝ) / N) - (q : ℝ) / N) ((q : ℝ) / N - (1 - insideProb n b B))
  rw [sub_add_sub_cancel] at h2
  linarith

end

/-- The systematic error for boundaries of up to 10, 100 and 1000 numbers given with the precision of a `double`. -/
theorem C71_bias (n : ℕ) :
    (n ≤ 10 → mcBias n (1 / 2 ^ 49) ≤ 1 / 10 ^ 8) ∧ (n ≤ 100 → mcBias n (1 / 2 ^ 49) ≤ 1 / 10 ^ 6) ∧
    (n ≤ 1000 → mcBias n (1 / 2 ^ 49) ≤ 1 / 10 ^ 4 * 2) := by
  have key : ∀ m : ℕ, n ≤ m → mcBias n (1 / 2 ^ 49) ≤ mcBias m (1 / 2 ^ 49) := by
    intro m h
    have hr : (n : ℝ) ≤ m := by exact_mod_cast h
    have hu := u50_pos
    have hrel : mcRel n (1 / 2 ^ 49) ≤ mcRel m (1 / 2 ^ 49) := by
      unfold mcRel
      have := mul_le_mul_of_nonneg_right (show (6 * (n : ℝ) + 14) ≤ 6 * m + 14 by linarith) hu.le
      linarith
    have h0 := mcRel_nonneg n (delta := 1 / 2 ^ 49) (by positivity)
    have ht : testProb n (1 / 2 ^ 49) ≤ testProb m (1 / 2 ^ 49) := by
      unfold testProb
      have := mul_le_mul hr (show 210 * u50 + mcRel n (1 / 2 ^ 49) ≤ 210 * u50 + mcRel m (1 / 2 ^ 49) by linarith) (by positivity) (by positivity)
      linarith
    have ht0 := testProb_nonneg n (delta := 1 / 2 ^ 49) (by positivity)
    unfold mcBias
    have h1 := mul_le_mul_of_nonneg_right (show (n : ℝ) + 1 ≤ m + 1 by linarith) hu.le
    have h2 := mul_le_mul (show 2 * (n : ℝ) ≤ 2 * m by linarith) ht ht0 (by positivity)
    linarith
  refine ⟨fun h => (key 10 h).trans ?_, fun h => (key 100 h).trans ?_, fun h => (key 1000 h).trans ?_⟩ <;>
  · unfold mcBias testProb mcRel
    rw [u50_val]
    norm_num

end
end CP.Props
