import Verif.Proofs.GridPoisson
import Verif.Props.GridMcProgram
/-
Property C73: accuracy of the Poisson mode of crossprob_mc in double precision, with a generator of independent 52-bit draws.
-/
open MeasureTheory Set ProbabilityTheory
namespace CP.Props
open CP.Spec CP.McSpec FOps
noncomputable section
variable {A : FloatSystem}

section
variable {F : Type} [FOps F]

theorem pathDraws_le (T : ℕ → F) (m : ℕ) : pathDraws T m ≤ m + 1 := ((pathDraws_eq T m _).mp rfl).2.1

theorem pathStart_le (beta : F) (d : ℕ → F) (m r : ℕ) : pathStart beta d m r ≤ r * (m + 1) := by
  induction r with
  | zero => simp [pathStart]
  | succ r ih =>
    rw [pathStart]
    have := pathDraws_le (arrival beta fun j => d (pathStart beta d m r + j)) m
    rw [Nat.succ_mul]
    omega

theorem pathStart_congr {beta : F} {d d' : ℕ → F} {m r : ℕ} (h : ∀ j, j < r * (m + 1) → d j = d' j) :
    pathStart beta d m r = pathStart beta d' m r := by
  induction r with
  | zero => rfl
  | succ r ih =>
    have h1 := ih fun j hj => h j (by rw [Nat.succ_mul]; omega)
    rw [pathStart, pathStart, ← h1]
    congr 1
    have hs := pathStart_le beta d m r
    refine ((pathDraws_congr (l := pathDraws (arrival beta fun j => d (pathStart beta d m r + j)) m) fun k hk => ?_).mp rfl).symm
    have := pathDraws_le (arrival beta fun j => d (pathStart beta d m r + j)) m
    exact arrival_congr fun j hj => h _ (by rw [Nat.succ_mul]; omega)

theorem path_congr {beta : F} {d d' : ℕ → F} {b B : List F} {r N : ℕ} (hr : r < N) (h : ∀ j, j < N * (b.length + 1) → d j = d' j) :
    PoissonInside (arrival beta fun j => d (pathStart beta d b.length r + j)) b B ↔
      PoissonInside (arrival beta fun j => d' (pathStart beta d' b.length r + j)) b B := by
  have hrN : (r + 1) * (b.length + 1) ≤ N * (b.length + 1) := Nat.mul_le_mul_right _ hr
  rw [Nat.succ_mul] at hrN
  rw [← pathStart_congr (d := d) (d' := d') fun j hj => h j (by omega)]
  have hs := pathStart_le beta d b.length r
  have e : ∀ k, k ≤ b.length + 1 → arrival beta (fun j => d (pathStart beta d b.length r + j)) k =
      arrival beta (fun j => d' (pathStart beta d b.length r + j)) k := fun k hk => arrival_congr fun j hj => h _ (by omega)
  constructor
  · exact poissonInside_congr fun k hk => e k (hk.trans (pathDraws_le _ _))
  · exact poissonInside_congr fun k hk => (e k (hk.trans (pathDraws_le _ _))).symm

end

/-- The fraction of crossing paths for given 52-bit draws is closer than `c` to `q`. -/
def PathEstimates (A : FloatSystem) (beta : Num A) (N : ℕ) (bN BN : List (Num A)) (q c : ℝ) (k : ℕ → ℕ) : Prop :=
  |(countUpTo (fun r => ¬ PoissonInside (arrival beta fun j =>
      roundNum A ((k (pathStart beta (fun i => roundNum A ((k i : ℝ) / 2 ^ 52)) bN.length r + j) : ℝ) / 2 ^ 52)) bN BN) N : ℝ) / N - q| < c

theorem pathEstimates_congr {beta : Num A} {N : ℕ} {bN BN : List (Num A)} {q c : ℝ} {k k' : ℕ → ℕ}
    (h : ∀ j, j < N * (bN.length + 1) → k j = k' j) : PathEstimates A beta N bN BN q c k ↔ PathEstimates A beta N bN BN q c k' := by
  have := countUpTo_congr (N := N) fun r hr => not_congr (path_congr (beta := beta) (b := bN) (B := BN)
    (d := fun i => roundNum A ((k i : ℝ) / 2 ^ 52)) (d' := fun i => roundNum A ((k' i : ℝ) / 2 ^ 52)) hr fun j hj => by
      rw [h j hj])
  unfold PathEstimates
  rw [this]

section
variable {Ω : Type*} [MeasurableSpace Ω] {μ : Measure Ω} [IsProbabilityMeasure μ] {K : ℕ → Ω → ℕ}

theorem pathEstimates_prob (hA : A.f = binary64) (hlog : LogAccurate A u50) (hK : IidGrid K μ) {lam beta : ℝ} (hl1 : 1 ≤ lam) (hl2 : lam ≤ 2 ^ 40)
    (hbe : A.f.Fin beta) (hlb : |lam * beta - 1| ≤ 2 * u50) {delta : ℝ} (hd0 : 0 ≤ delta)
    {bN BN : List (Num A)} {b B : List ℝ} (hm : b.length < 2 ^ 40) (hb : CloseTo A delta bN b) (hB : CloseTo A delta BN B)
    (N : ℕ) (hN0 : 1 ≤ N) {c : ℝ} (hc : 0 ≤ c) :
    μ.real {ω | ¬ PathEstimates A (mkNum A beta hbe) N bN BN (1 - poissonInsideProb lam b B) (c + poissonBias b.length (lam * delta)) fun j => K j ω} ≤
      2 * Real.exp (-2 * N * c ^ 2) := by
  have h1 := grid_transfer hK (M := N * (bN.length + 1))
    (S := {k | ¬ PathEstimates A (mkNum A beta hbe) N bN BN (1 - poissonInsideProb lam b B) (c + poissonBias b.length (lam * delta)) k})
    fun k k' h => not_congr (pathEstimates_congr h)
  refine le_trans (le_of_eq h1) ?_
  set U : ℕ → (ℕ → ℝ) → ℝ := fun j x => x j with hU
  have hiid : IidDraws U streamLaw := streamLaw_iid
  set p := streamLaw.real {x | seqOf U x ∈ gridPathCross A (mkNum A beta hbe) bN BN} with hp
  have hbias := gridPathCross_prob hA hlog hiid hl1 hl2 hbe hlb hd0 hm hb hB
  refine le_trans ?_ (run_hoeffding hiid (gridPathCross_run A (mkNum A beta hbe) bN BN) hp.symm N hN0 hc)
  rw [measureReal_def, measureReal_def]
  refine ENNReal.toReal_mono (measure_ne_top _ _) (measure_mono_ae ?_)
  filter_upwards [ae_draws hiid] with x hx hbad
  by_contra hlt
  refine hbad ?_
  have hlt' := not_le.mp hlt
  have hd : ∀ j, gridNum A (x j) = roundNum A ((digits52 (x j) : ℝ) / 2 ^ 52) := by
    intro j
    unfold gridNum digits52
    have h0 : 0 ≤ (2 : ℝ) ^ 52 * x j := mul_nonneg (by positivity) (hx _).1.le
    rw [← Int.natCast_floor_eq_floor h0, Int.cast_natCast]
  have hst : ∀ r, startOf (gridPathLen A (mkNum A beta hbe) bN.length) (seqOf U x) r =
      pathStart (mkNum A beta hbe) (fun i => roundNum A ((digits52 (x i) : ℝ) / 2 ^ 52)) bN.length r := by
    intro r
    induction r with
    | zero => rfl
    | succ r ih =>
      rw [pathStart, startOf, ih]
      unfold gridPathLen
      congr 2
      funext j
      exact congrFun (congrArg (arrival (mkNum A beta hbe)) (funext fun i => hd _)) j
  have hev : (fun r => shift (startOf (gridPathLen A (mkNum A beta hbe) bN.length) (seqOf U x) r) (seqOf U x) ∈ gridPathCross A (mkNum A beta hbe) bN BN) =
      fun r => ¬ PoissonInside (arrival (mkNum A beta hbe) fun j =>
      roundNum A ((digits52 (x (pathStart (mkNum A beta hbe) (fun i => roundNum A ((digits52 (x i) : ℝ) / 2 ^ 52)) bN.length r + j)) : ℝ) / 2 ^ 52)) bN BN := by
    funext r
    rw [hst]
    unfold gridPathCross
    rw [Set.mem_ofPred_eq]
    have : (fun j => gridNum A (shift (pathStart (mkNum A beta hbe) (fun i => roundNum A ((digits52 (x i) : ℝ) / 2 ^ 52)) bN.length r) (seqOf U x) j)) =
        fun j => roundNum A ((digits52 (x (pathStart (mkNum A beta hbe) (fun i => roundNum A ((digits52 (x i) : ℝ) / 2 ^ 52)) bN.length r + j)) : ℝ) / 2 ^ 52) :=
      funext fun j => hd _
    rw [this]
  rw [hev] at hlt'
  unfold PathEstimates
  refine lt_of_le_of_lt (b := _) ?_ (add_lt_add_of_lt_of_le hlt' hbias)
  exact abs_sub_le _ _ _

/-- C73: `poisson_process_crossing_probability_montecarlo` in double precision, with independent 52-bit draws.  Let the given
floating-point boundaries be within `delta` of real numbers `b`, `B`, and the intensity be at least 1.  Except with probability
`2 exp(-2 N c^2)` the function returns a number that differs from the probability that a homogeneous Poisson process leaves the
boundaries `b`, `B` by less than `c` plus a small systematic error, although the paths use a random number of draws. -/
theorem C73_poisson (hA : A.f = binary64) (hlog : LogAccurate A u50) (asserts : Bool) {S : Type} (uniform : S → Num A × S) (rng : Ω → S)
    (hK : IidGrid K μ) (hdraw : ∀ ω j, (draw uniform (rng ω) j).real? = some ((K j ω : ℝ) / 2 ^ 52))
    {intensity : Num A} {lam : ℝ} (hi : intensity.real? = some lam) (hl1 : 1 ≤ lam) (hl2 : lam ≤ 2 ^ 40) {delta : ℝ} (hd0 : 0 ≤ delta)
    (bN BN : List (Num A)) (b B : List ℝ) (hb : CloseTo A delta bN b) (hB : CloseTo A delta BN B)
    (hbB : b = [] ∨ B.length ≤ b.length) (hm : b.length < 2 ^ 40)
    (N : ℕ) (hN0 : 1 ≤ N) (hN : (N : ℤ) ≤ 2 ^ 31 - 1) {c : ℝ} (hc : 0 ≤ c) :
    μ.real {ω | ¬ ∃ (x : Num A) (p : ℝ), poissonMc asserts uniform (.ok (rng ω)) intensity bN BN N = .ok x ∧ x.real? = some p ∧
        0 ≤ p ∧ p ≤ 1 ∧ |p - (1 - poissonInsideProb lam b B)| < c + (poissonBias b.length (lam * delta) + 1 / 2 ^ 49)} ≤
      2 * Real.exp (-2 * N * c ^ 2) := by
  match intensity, hi with
  | Fl.fin lam' hlam, hi =>
  have e : lam' = lam := Option.some.inj hi
  subst e
  obtain ⟨beta, hbe, ebeta, hlb⟩ := beta_num hA hl1 hl2 hlam
  refine le_trans (measureReal_mono ?_) (pathEstimates_prob hA hlog hK hl1 hl2 hbe hlb hd0 hm hb hB N hN0 hc)
  intro ω hbad hest
  refine hbad ?_
  have hlb := hb.length_eq
  have hlB := hB.length_eq
  have hrun := C35_poisson_counts asserts uniform (rng ω) (mkNum A lam' hlam) bN BN N (by
    rcases hbB with rfl | hbB
    · left; exact List.length_eq_zero_iff.mp (by simpa using hlb)
    · right; omega) hN
  have hdr : draw uniform (rng ω) = fun j => roundNum A ((K j ω : ℝ) / 2 ^ 52) := funext (draw_round (hdraw ω))
  rw [hdr, ebeta] at hrun
  set q := countUpTo (fun r => ¬ PoissonInside (arrival (mkNum A beta hbe) fun j =>
      roundNum A ((K (pathStart (mkNum A beta hbe) (fun i => roundNum A ((K i ω : ℝ) / 2 ^ 52)) bN.length r + j) ω : ℝ) / 2 ^ 52)) bN BN) N with hq
  obtain ⟨hh, e, p0, p1, herr⟩ := estimate_num (A := A) hA (c := q) (countUpTo_le _ N) hN0 hN
  refine ⟨_, A.r ((q : ℝ) / N), hrun, by rw [e]; rfl, p0, p1, ?_⟩
  have h3 : |(q : ℝ) / N - (1 - poissonInsideProb lam' b B)| < c + poissonBias b.length (lam' * delta) := hest
  have h2 := abs_add_le (A.r ((q : ℝ) / N) - (q : ℝ) / N) ((q : ℝ) / N - (1 - poissonInsideProb lam' b B))
  rw [sub_add_sub_cancel] at h2
  linarith

end

theorem poissonBias_mono {n m : ℕ} (h : n ≤ m) {g g' : ℝ} (hg : 0 ≤ g) (hg' : g ≤ g') : poissonBias n g ≤ poissonBias m g' := by
  have hr : (n : ℝ) ≤ m := by exact_mod_cast h
  have hu := u50_pos
  have hrel : pRel n ≤ pRel m := by
    unfold pRel
    exact mul_le_mul_of_nonneg_right (by linarith) hu.le
  have h0 := pRel_nonneg n
  have ht : pTestProb n g ≤ pTestProb m g' := by
    unfold pTestProb
    have := mul_le_mul hr (show 140 * u50 + pRel n ≤ 140 * u50 + pRel m by linarith) (by positivity) (by positivity)
    linarith
  have ht0 := pTestProb_nonneg n hg
  unfold poissonBias
  exact mul_le_mul (by linarith) (by linarith) (by positivity) (by positivity)

/-- The systematic error with `n` points at intensity `n`, as in the program, for boundaries given with the precision of a `double`. -/
theorem C73_bias (n : ℕ) :
    (n ≤ 10 → poissonBias n (n * (1 / 2 ^ 49)) ≤ 1 / 10 ^ 8) ∧ (n ≤ 100 → poissonBias n (n * (1 / 2 ^ 49)) ≤ 1 / 10 ^ 6) ∧
    (n ≤ 2147 → poissonBias n (n * (1 / 2 ^ 49)) ≤ 1 / 10 ^ 3) := by
  have key : ∀ m : ℕ, n ≤ m → poissonBias n (n * (1 / 2 ^ 49)) ≤ poissonBias m (m * (1 / 2 ^ 49)) := by
    intro m h
    have hr : (n : ℝ) ≤ m := by exact_mod_cast h
    exact poissonBias_mono h (by positivity) (mul_le_mul_of_nonneg_right hr (by positivity))
  refine ⟨fun h => (key 10 h).trans ?_, fun h => (key 100 h).trans ?_, fun h => (key 2147 h).trans ?_⟩ <;>
  · unfold poissonBias pTestProb pRel
    rw [u50_val]
    norm_num

/-! ## The program -/

theorem int_num (hA : A.f = binary64) {n : ℕ} (hn : n ≤ 2 ^ 53) : ∃ h, (ofInt (n : ℤ) : Num A) = mkNum A n h := by
  have hf : A.f.OK := hA ▸ binary64_ok
  have hp : A.f.p = 53 := by rw [hA]; rfl
  have he : A.f.emax = 1024 := by rw [hA]; rfl
  have hrep := rep_int (f := A.f) hf (k := (n : ℤ)) (by rw [hp, abs_of_nonneg (by omega)]; exact_mod_cast hn)
  have hlt : |((n : ℤ) : ℝ)| < (2 : ℝ) ^ A.f.emax := by
    rw [he, Int.cast_natCast, abs_of_nonneg (by positivity)]
    have h1 : (n : ℝ) ≤ 2 ^ 53 := by exact_mod_cast hn
    have h2 : (2 : ℝ) ^ (54 : ℤ) ≤ (2 : ℝ) ^ (1024 : ℤ) := zpow_le_zpow_right₀ (by norm_num) (by norm_num)
    refine lt_of_lt_of_le ?_ h2
    norm_num at h1 ⊢
    linarith
  have e : (ofInt (n : ℤ) : Num A) = roundNum A ((n : ℤ) : ℝ) := rfl
  have hfin : A.f.Fin ((n : ℤ) : ℝ) := ⟨hrep, hlt⟩
  rw [e, roundNum_of_fin hfin]
  exact ⟨by rw [← Int.cast_natCast]; exact hfin, mkNum_congr (Int.cast_natCast n)⟩

/-- C73: computing the seed in double precision is fine for up to 2147 points and undefined behaviour (an out-of-range conversion
to `int`) from 2148 on. -/
theorem C73_seed (hA : A.f = binary64) (time : ℤ) (n : ℕ) :
    (n ≤ 2147 → poissonSeed time (ofInt (n : ℤ) : Num A) = .ok (BitVec.ofInt 64 (time + n * 1000000))) ∧
    (2148 ≤ n → n ≤ 2 ^ 33 → ∃ what, poissonSeed time (ofInt (n : ℤ) : Num A) = .error (.ub what)) := by
  have htr : n ≤ 2 ^ 33 → FBits.trunc ((ofInt (n : ℤ) : Num A) *ᶠ ofInt 1000000) = some ((n : ℤ) * 1000000) := by
    intro hn
    obtain ⟨h1, e1⟩ := int_num hA (n := n) (by omega)
    obtain ⟨h2, e2⟩ := int_num hA (n := 1000000) (by norm_num)
    obtain ⟨h3, e3⟩ := int_num hA (n := n * 1000000) (by omega)
    have e2' : (ofInt 1000000 : Num A) = mkNum A ((1000000 : ℕ) : ℝ) h2 := e2
    have e4 : (mkNum A n h1 *ᶠ mkNum A ((1000000 : ℕ) : ℝ) h2 : Num A) = roundNum A ((n : ℝ) * ((1000000 : ℕ) : ℝ)) := rfl
    have e5 : (ofInt ((n * 1000000 : ℕ) : ℤ) : Num A) = roundNum A (((n * 1000000 : ℕ) : ℤ) : ℝ) := rfl
    rw [e1, e2', e4]
    have e6 : (n : ℝ) * ((1000000 : ℕ) : ℝ) = (((n * 1000000 : ℕ) : ℤ) : ℝ) := by push_cast; ring
    rw [e6, ← e5, e3]
    have e7 : FBits.trunc (mkNum A ((n * 1000000 : ℕ) : ℝ) h3) =
        some (if 0 ≤ ((n * 1000000 : ℕ) : ℝ) then ⌊((n * 1000000 : ℕ) : ℝ)⌋ else ⌈((n * 1000000 : ℕ) : ℝ)⌉) := rfl
    rw [e7, if_pos (by positivity), Int.floor_natCast]
    push_cast
    rfl
  unfold poissonSeed INT_MAX
  constructor
  · intro h
    rw [htr (by omega)]
    dsimp only
    rw [if_pos (by constructor <;> omega)]
  · intro h h'
    rw [htr h']
    dsimp only
    rw [if_neg (by omega)]
    exact ⟨_, rfl⟩

/-- The `poisson` command with any generator. -/
theorem mcRunWith_poisson {F : Type} [FOps F] [FBits F] (g : Generator F) (w : McWorld F) (fmt : F → Str) (ioWhat file num : Str) {N : ℤ}
    (hN0 : 0 ≤ N) (hN : stringToLong w.libc num = .ok N) {b B : List F} (h : readAndCheckBoundariesFile w.libc w.fs file = .ok (b, B))
    {x : F} (hx : poissonMc w.asserts g.uniform ((poissonSeed w.time (ofInt ((max b.length B.length : ℕ) : ℤ) : F)).map g.seed)
      (ofInt ((max b.length B.length : ℕ) : ℤ)) b B N = .ok x) :
    mcRunWith g w fmt ioWhat ["poisson".toList, file, num] = .exited 0 (fmt (one -ᶠ x) ++ ['\n']) := by
  unfold mcRunWith mcHandleIOWith
  dsimp only
  rw [hN]
  simp only [OutM.lift, bind, OutM.bind, h]
  rw [if_neg (by omega)]
  dsimp only
  rw [if_pos trivial]
  rw [hx]
  rfl

theorem poissonInsideProb_empty {lam : ℝ} {b B : List ℝ} (h : b.length < B.length) : poissonInsideProb lam b B = 0 := by
  unfold poissonInsideProb
  rw [Finset.Icc_eq_empty (by omega), Finset.sum_empty]

section
variable {Ω : Type*} [MeasurableSpace Ω] {μ : Measure Ω} [IsProbabilityMeasure μ] {K : ℕ → Ω → ℕ}

/-- The systematic error of the number printed by `crossprob_mc poisson`: 52-bit draws, rounding, and six digits of output. -/
def poissonPrintBias (n : ℕ) : ℝ := poissonBias n (n * (1 / 2 ^ 49)) + 1 / 2 ^ 48 + 5 / 10 ^ 6

/-- C73, once the file is read. -/
theorem mc_print_poisson {w : McWorld (Num A)} {fmt : Num A → Str} {inRange : ℝ → Prop} (hM : McDoubleMachine w fmt inRange) (ioWhat : Str)
    (gen : Ω → Generator (Num A)) (hK : IidGrid K μ)
    (hgen : ∀ ω seed j, (draw (gen ω).uniform ((gen ω).seed seed) j).real? = some ((K j ω : ℝ) / 2 ^ 52))
    {n m : ℕ} {v : Fin n → ℝ} {V : Fin m → ℝ} (hv : ∀ i, 0 ≤ v i ∧ v i ≤ 1) (hV : ∀ i, 0 ≤ V i ∧ V i ≤ 1)
    (hsz : 1 ≤ max n m) (hmax : max n m ≤ 2147) {name : Str}
    (hread : readAndCheckBoundariesFile w.libc w.fs name = .ok (List.ofFn fun i => roundNum A (v i), List.ofFn fun i => roundNum A (V i)))
    (N : ℕ) (hN0 : 1 ≤ N) (hN : (N : ℤ) ≤ 2 ^ 31 - 1) {c : ℝ} (hc : 0 ≤ c) :
    μ.real {ω | ¬ ∃ d : Dec, d.WF ∧
        mcRunWith (gen ω) w fmt ioWhat ["poisson".toList, name, (toString (N : ℤ)).toList] = .exited 0 (d.text ++ ['\n']) ∧
        |d.value - poissonInsideProb (max n m : ℕ) (List.ofFn v) (List.ofFn V)| < c + poissonPrintBias (max n m)} ≤ 2 * Real.exp (-2 * N * c ^ 2) := by
  have hA := hM.format
  have hf : A.f.OK := hA ▸ binary64_ok
  have hnum := C31_roundtrip hM.strtol (N : ℤ) (by constructor <;> omega)
  obtain ⟨hlam, elam⟩ := int_num hA (n := max n m) (by omega)
  have hl1 : (1 : ℝ) ≤ (max n m : ℕ) := by exact_mod_cast hsz
  have hl2 : ((max n m : ℕ) : ℝ) ≤ 2 ^ 40 := by
    have : ((max n m : ℕ) : ℝ) ≤ 2147 := by exact_mod_cast hmax
    exact this.trans (by norm_num)
  set bN := List.ofFn fun i => roundNum A (v i) with hbN
  set BN := List.ofFn fun i => roundNum A (V i) with hBN
  have hlen : max bN.length BN.length = max n m := by rw [hbN, hBN, List.length_ofFn, List.length_ofFn]
  have hbias0 := poissonBias_nonneg (max n m) (g := (max n m : ℕ) * (1 / 2 ^ 49)) (by positivity)
  have hseed := (C73_seed hA w.time (max n m)).1 hmax
  -- from the returned number to the printed one
  have print : ∀ (ω : Ω) (p : ℝ) (hp : A.f.Fin p), 0 ≤ p → p ≤ 1 →
      poissonMc w.asserts (gen ω).uniform ((poissonSeed w.time (ofInt ((max bN.length BN.length : ℕ) : ℤ) : Num A)).map (gen ω).seed)
        (ofInt ((max bN.length BN.length : ℕ) : ℤ)) bN BN N = .ok (mkNum A p hp) →
      ∃ d : Dec, d.WF ∧ mcRunWith (gen ω) w fmt ioWhat ["poisson".toList, name, (toString (N : ℤ)).toList] = .exited 0 (d.text ++ ['\n']) ∧
        |d.value - (1 - p)| ≤ 5 / 10 ^ 6 + 1 / 2 ^ 50 := by
    intro ω p hp p0 p1 hrun
    obtain ⟨h2, e2, q0, q1⟩ := one_sub_num hf hp p0 p1
    have hout := mcRunWith_poisson (gen ω) w fmt ioWhat name _ (by omega) hnum hread hrun
    rw [e2] at hout
    obtain ⟨d, dw, dt, dv⟩ := C59_number hM.print (x := mkNum A (A.r (1 - p)) h2) (v := A.r (1 - p)) rfl
    refine ⟨d, dw, by rw [hout, dt], ?_⟩
    have h5 : |A.r (1 - p) - (1 - p)| ≤ 1 / 2 ^ 50 := by
      obtain ⟨k, hk⟩ := rep_mult hp.1
      obtain ⟨l, hl⟩ := rep_mult (rep_one hf)
      have h5 := round_rel (double_ok hA) (k := l - k) (x := 1 - p) (by push_cast; rw [sub_mul, ← hk, ← hl])
      rw [abs_of_nonneg (by linarith : (0 : ℝ) ≤ 1 - p), u50_val] at h5
      refine h5.trans (le_trans (mul_le_of_le_one_right (by norm_num) (by linarith)) ?_)
      norm_num
    rw [abs_of_nonneg q0] at dv
    have h6 : 5 / 10 ^ 6 * A.r (1 - p) ≤ 5 / 10 ^ 6 := mul_le_of_le_one_right (by norm_num) q1
    exact (abs_sub_le _ (A.r (1 - p)) _).trans (add_le_add (dv.trans h6) h5)
  by_cases hnm : n = 0 ∨ m ≤ n
  · -- simulation
    obtain ⟨beta, hbe, ebeta, hlb⟩ := beta_num hA hl1 hl2 hlam
    refine le_trans (measureReal_mono ?_) (pathEstimates_prob hA hM.log hK hl1 hl2 hbe hlb (delta := 1 / 2 ^ 49) (by norm_num)
      (b := List.ofFn v) (B := List.ofFn V) (by rw [List.length_ofFn]; omega) (closeTo_fields hA hv) (closeTo_fields hA hV) N hN0 hc)
    intro ω hbad hest
    refine hbad ?_
    set rng := (gen ω).seed (BitVec.ofInt 64 (w.time + (max n m : ℕ) * 1000000)) with hrng
    have hrun := C35_poisson_counts w.asserts (gen ω).uniform rng (ofInt ((max n m : ℕ) : ℤ)) bN BN N (by
      rcases hnm with rfl | h
      · left; rw [hbN]; simp
      · right; rw [hbN, hBN, List.length_ofFn, List.length_ofFn]; exact h) hN
    have hdr : draw (gen ω).uniform rng = fun j => roundNum A ((K j ω : ℝ) / 2 ^ 52) := funext (draw_round (hgen ω _))
    have ebeta' : (one /ᶠ ofInt ((max n m : ℕ) : ℤ) : Num A) = mkNum A beta hbe := by rw [elam]; exact ebeta
    rw [hdr, ebeta'] at hrun
    set q := countUpTo (fun r => ¬ PoissonInside (arrival (mkNum A beta hbe) fun j =>
      roundNum A ((K (pathStart (mkNum A beta hbe) (fun i => roundNum A ((K i ω : ℝ) / 2 ^ 52)) bN.length r + j) ω : ℝ) / 2 ^ 52)) bN BN) N with hq
    obtain ⟨hh, e, p0, p1, herr⟩ := estimate_num (A := A) hA (c := q) (countUpTo_le _ N) hN0 hN
    rw [e] at hrun
    obtain ⟨d, dw, dt, dv⟩ := print ω _ hh p0 p1 (by
      rw [hlen, hseed]
      exact hrun)
    refine ⟨d, dw, dt, ?_⟩
    have h3 : |(q : ℝ) / N - (1 - poissonInsideProb (max n m : ℕ) (List.ofFn v) (List.ofFn V))| <
      c + poissonBias (List.ofFn v).length ((max n m : ℕ) * (1 / 2 ^ 49)) := hest
    have h4 : poissonBias (List.ofFn v).length ((max n m : ℕ) * (1 / 2 ^ 49)) ≤ poissonBias (max n m) ((max n m : ℕ) * (1 / 2 ^ 49)) :=
      poissonBias_mono (by rw [List.length_ofFn]; exact le_max_left _ _) (by positivity) le_rfl
    unfold poissonPrintBias
    generalize poissonBias (List.ofFn v).length ((max n m : ℕ) * (1 / 2 ^ 49)) = bias at *
    generalize poissonBias (max n m) ((max n m : ℕ) * (1 / 2 ^ 49)) = bias' at *
    generalize poissonInsideProb (max n m : ℕ) (List.ofFn v) (List.ofFn V) = P at *
    generalize A.r ((q : ℝ) / N) = s at *
    generalize (q : ℝ) / N = t at *
    rw [abs_le] at dv herr
    rw [abs_lt] at h3 ⊢
    obtain ⟨d6a, d6b⟩ := dv
    obtain ⟨ha, hb⟩ := herr
    obtain ⟨h3a, h3b⟩ := h3
    have e48 : (1 : ℝ) / 2 ^ 48 = 4 * (1 / 2 ^ 50) := by norm_num
    have e49 : (1 : ℝ) / 2 ^ 49 = 2 * (1 / 2 ^ 50) := by norm_num
    have e50 : (0 : ℝ) < 1 / 2 ^ 50 := by positivity
    rw [e48]
    rw [e49] at ha hb
    constructor <;> linarith
  · -- more upper limits than lower ones
    have hP : poissonInsideProb (max n m : ℕ) (List.ofFn v) (List.ofFn V) = 0 :=
      poissonInsideProb_empty (by rw [List.length_ofFn, List.length_ofFn]; omega)
    have hall : {ω | ¬ ∃ d : Dec, d.WF ∧
        mcRunWith (gen ω) w fmt ioWhat ["poisson".toList, name, (toString (N : ℤ)).toList] = .exited 0 (d.text ++ ['\n']) ∧
        |d.value - poissonInsideProb (max n m : ℕ) (List.ofFn v) (List.ofFn V)| < c + poissonPrintBias (max n m)} = ∅ := by
      refine eq_empty_of_forall_notMem fun ω hbad => hbad ?_
      obtain ⟨d, dw, dt, dv⟩ := print ω 1 (fin_one hf) zero_le_one le_rfl (by
        unfold poissonMc
        rw [if_pos (by rw [hbN, hBN, List.length_ofFn, List.length_ofFn]; omega), num_one hf])
      refine ⟨d, dw, dt, ?_⟩
      rw [hP, sub_zero]
      rw [sub_self, sub_zero] at dv
      unfold poissonPrintBias
      have e48 : (1 : ℝ) / 2 ^ 48 = 4 * (1 / 2 ^ 50) := by norm_num
      have e50 : (0 : ℝ) < 1 / 2 ^ 50 := by positivity
      rw [e48]
      linarith
    rw [hall, measureReal_empty]
    positivity

/-- C73, the program: for every boundary file with at most 2147 numbers in `[0,1]` per line and every positive number of simulations up
to `INT_MAX`, if the generator delivers independent 52-bit draws after seeding (with any seed), then except with probability
`2 exp(-2 N c^2)` the program `crossprob_mc poisson` exits with 0 and prints a number that differs by less than `c` plus a small
systematic error from the probability that a Poisson process of intensity `max(n, m)` stays inside the boundaries as written in the
file. -/
theorem C73_program {w : McWorld (Num A)} {fmt : Num A → Str} {inRange : ℝ → Prop} (hM : McDoubleMachine w fmt inRange) (ioWhat : Str)
    (gen : Ω → Generator (Num A)) (hK : IidGrid K μ)
    (hgen : ∀ ω seed j, (draw (gen ω).uniform ((gen ω).seed seed) j).real? = some ((K j ω : ℝ) / 2 ^ 52))
    {n m : ℕ} (fb : Fin n → Field) (fB : Fin m → Field) (hfb : ∀ i, (fb i).WF) (hfB : ∀ i, (fB i).WF)
    (hinb : ∀ i, inRange (fb i).num.value) (hinB : ∀ i, inRange (fB i).num.value)
    (hb : ∀ i, 0 ≤ valuesOf fb i ∧ valuesOf fb i ≤ 1) (hB : ∀ i, 0 ≤ valuesOf fB i ∧ valuesOf fB i ≤ 1)
    (hsz : 1 ≤ max n m) (hmax : max n m ≤ 2147) {name text : Str} (hfile : w.fs name = .contents text)
    (hlines : FirstTwoLines text (lineOf fb) (lineOf fB)) (N : ℕ) (hN0 : 1 ≤ N) (hN : (N : ℤ) ≤ 2 ^ 31 - 1) {c : ℝ} (hc : 0 ≤ c) :
    μ.real {ω | ¬ ∃ d : Dec, d.WF ∧
        mcRunWith (gen ω) w fmt ioWhat ["poisson".toList, name, (toString (N : ℤ)).toList] = .exited 0 (d.text ++ ['\n']) ∧
        |d.value - poissonInsideProb (max n m : ℕ) (List.ofFn (valuesOf fb)) (List.ofFn (valuesOf fB))| < c + poissonPrintBias (max n m)} ≤
      2 * Real.exp (-2 * N * c ^ 2) :=
  mc_print_poisson hM ioWhat gen hK hgen hb hB hsz hmax (mc_read_file hM.strtod fb fB hfb hfB hinb hinB hfile hlines) N hN0 hN hc

end

/-- The systematic error of the printed number for at most 100 points. -/
theorem C73_print_bias {n : ℕ} (h : n ≤ 100) : poissonPrintBias n ≤ 7 / 10 ^ 6 := by
  unfold poissonPrintBias
  have := (C73_bias n).2.1 h
  norm_num at this ⊢
  linarith

/-- C73: from 2148 numbers on, the behaviour of `crossprob_mc poisson` is undefined: the seed does not fit into an `int`. -/
theorem C73_program_undefined {w : McWorld (Num A)} {fmt : Num A → Str} {inRange : ℝ → Prop} (hM : McDoubleMachine w fmt inRange) (ioWhat : Str)
    (gen : Generator (Num A)) {n m : ℕ} (fb : Fin n → Field) (fB : Fin m → Field) (hfb : ∀ i, (fb i).WF) (hfB : ∀ i, (fB i).WF)
    (hinb : ∀ i, inRange (fb i).num.value) (hinB : ∀ i, inRange (fB i).num.value)
    (hnm : n = 0 ∨ m ≤ n) (hbig : 2148 ≤ max n m) (hmax : max n m ≤ 2 ^ 33) {name text : Str} (hfile : w.fs name = .contents text)
    (hlines : FirstTwoLines text (lineOf fb) (lineOf fB)) (N : ℕ) (hN : (N : ℤ) ≤ 2 ^ 63 - 1) :
    mcRunWith gen w fmt ioWhat ["poisson".toList, name, (toString (N : ℤ)).toList] = .undefined := by
  have hnum := C31_roundtrip hM.strtol (N : ℤ) (by constructor <;> omega)
  have hread := mc_read_file hM.strtod fb fB hfb hfB hinb hinB hfile hlines
  obtain ⟨what, hseed⟩ := (C73_seed hM.format w.time (max n m)).2 hbig hmax
  unfold mcRunWith mcHandleIOWith
  dsimp only
  rw [hnum]
  simp only [OutM.lift, bind, OutM.bind, hread]
  rw [if_neg (by omega)]
  dsimp only
  rw [if_pos trivial, List.length_ofFn, List.length_ofFn, hseed]
  unfold poissonMc
  rw [if_neg (by rw [List.length_ofFn, List.length_ofFn]; omega)]
  rfl

/-! ## The hypotheses can be met -/

theorem poissonInsideProb_two {b B : Fin 2 → ℝ} :
    poissonInsideProb 2 (List.ofFn b) (List.ofFn B) = 2 * Real.exp (-2) * noncrossProb b B := by
  unfold poissonInsideProb
  rw [List.length_ofFn, List.length_ofFn, Finset.Icc_self, Finset.sum_singleton, insideProb_full]
  rw [show ((Nat.factorial 2 : ℕ) : ℝ) = 2 by norm_num [Nat.factorial]]
  ring

/-- `crossprob_mc poisson tests/bounds2.txt 1000000` with ideal 52-bit draws. -/
example (time : ℤ) (junk : TinyMT) :
    streamLaw.real {x : ℕ → ℝ | ¬ ∃ d : Dec, d.WF ∧ mcRunWith (listGenerator fun j => digits52 (x j)) (mcSuiteWorld time junk) doublePrint []
        ["poisson".toList, "tests/bounds2.txt".toList, "1000000".toList] = .exited 0 (d.text ++ ['\n']) ∧
        |d.value - 1.5 * Real.exp (-2)| < 0.01} ≤ 2 * Real.exp (-196) := by
  have hgen : ∀ (x : ℕ → ℝ) (seed : BitVec 64) (j : ℕ), (draw (listGenerator fun j => digits52 (x j)).uniform
      ((listGenerator fun j => digits52 (x j)).seed seed) j).real? = some (((digits52 (x j) % 2 ^ 52 : ℕ) : ℝ) / 2 ^ 52) := by
    intro x seed j
    have h := listGenerator_draw (fun j => digits52 (x j)) 0 j
    rw [zero_add] at h
    refine (congrArg Num.real? h).trans ?_
    have hlt : digits52 (x j) % 2 ^ 52 < 2 ^ 52 := Nat.mod_lt _ (by norm_num)
    rw [roundNum_of_fin (grid_fin (A := doubles) rfl (by omega))]
    rfl
  have hfile : (mcSuiteWorld time junk).fs "tests/bounds2.txt".toList = .contents ((suiteFiles.lookup "tests/bounds2.txt".toList).getD []) :=
    suiteWorld_file (name := "tests/bounds2.txt".toList) (text := (suiteFiles.lookup "tests/bounds2.txt".toList).getD []) (by decide +kernel)
  have unit : ∀ {L : List Entry} (hl : L.length = 2) (_ : L.all Entry.ok = true) (_ : L.all (fun e => e.num ≤ 10 ^ 13) = true) (i : Fin 2),
      0 ≤ valuesOf (fieldsOf L hl) i ∧ valuesOf (fieldsOf L hl) i ≤ 1 := by
    intro L hl hok hle i
    rw [valuesOf_fields hl hok]
    have h1 := List.all_eq_true.mp hle _ (List.getElem_mem (show i.val < L.length by omega))
    rw [decide_eq_true_eq] at h1
    refine ⟨by positivity, ?_⟩
    rw [div_le_one (by norm_num)]
    exact_mod_cast h1
  have key := C73_program (mcSuiteWorld_ok time junk) [] (fun x : ℕ → ℝ => listGenerator fun j => digits52 (x j)) digits52_grid hgen
    (fieldsOf line2b line2b_len) (fieldsOf line2B line2B_len) (fieldsOf_wf _ (by decide)) (fieldsOf_wf _ (by decide))
    (fun _ => trivial) (fun _ => trivial) (unit line2b_len (by decide) (by decide)) (unit line2B_len (by decide) (by decide))
    (by norm_num) (by norm_num) hfile (by
      rw [line_fields, line_fields]
      exact ⟨by decide, by decide, Or.inl ⟨[], by decide +kernel⟩⟩) 1000000 (by norm_num) (by norm_num) (c := 99 / 10000) (by norm_num)
  refine le_trans (measureReal_mono ?_) (key.trans ?_)
  · intro x hbad hgood
    refine hbad ?_
    obtain ⟨d, dw, dt, dv⟩ := hgood
    refine ⟨d, dw, dt, ?_⟩
    have hb := C73_print_bias (n := max 2 2) (by norm_num)
    have hv := value_2
    rw [show ((max 2 2 : ℕ) : ℝ) = 2 by norm_num, poissonInsideProb_two] at dv
    have he0 := Real.exp_pos (-2)
    have he1 : Real.exp (-2) ≤ 1 := Real.exp_le_one_iff.mpr (by norm_num)
    generalize noncrossProb (valuesOf (fieldsOf line2b line2b_len)) (valuesOf (fieldsOf line2B line2B_len)) = P at *
    have h2 : |2 * Real.exp (-2) * P - 1.5 * Real.exp (-2)| ≤ 6 / 10 ^ 7 := by
      have e : 2 * Real.exp (-2) * P - 1.5 * Real.exp (-2) = 2 * Real.exp (-2) * (P - 750000 / 10 ^ 6) := by ring
      rw [e, abs_mul, abs_of_pos (by positivity)]
      have := mul_le_mul (show 2 * Real.exp (-2) ≤ 2 by linarith) hv (abs_nonneg _) (by norm_num)
      refine this.trans ?_
      norm_num
    have := abs_sub_le d.value (2 * Real.exp (-2) * P) (1.5 * Real.exp (-2))
    norm_num at hb h2 dv this ⊢
    linarith
  · refine mul_le_mul_of_nonneg_left (Real.exp_le_exp.mpr ?_) (by norm_num)
    norm_num

/-- C73 for boundaries `0.1, 0.3` and `0.5, 0.9`, with a generator that reads its draws from a sequence. -/
example :=
  C73_poisson (A := doubles) rfl doubles_log true (S := ℕ × (ℕ → ℝ))
    (fun s => (roundNum doubles (((digits52 (s.2 s.1) % 2 ^ 52 : ℕ) : ℝ) / 2 ^ 52), (s.1 + 1, s.2))) (fun x : ℕ → ℝ => (0, x)) digits52_grid
    (by
      intro x j
      have hst : ∀ (j i : ℕ), stateAt (fun s : ℕ × (ℕ → ℝ) => (roundNum doubles (((digits52 (s.2 s.1) % 2 ^ 52 : ℕ) : ℝ) / 2 ^ 52), (s.1 + 1, s.2))) (i, x) j = (i + j, x) := by
        intro j
        induction j with
        | zero => intro i; rfl
        | succ j ih =>
          intro i
          have h : ∀ (f : ℕ × (ℕ → ℝ) → ℕ × (ℕ → ℝ)) s, f^[j + 1] s = f^[j] (f s) := fun f s => Function.iterate_succ_apply f j s
          have := ih (i + 1)
          unfold stateAt at this ⊢
          rw [h, this]
          congr 1
          omega
      unfold draw
      rw [hst j 0, zero_add]
      have hlt : digits52 (x j) % 2 ^ 52 < 2 ^ 52 := Nat.mod_lt _ (by norm_num)
      dsimp only
      rw [roundNum_of_fin (grid_fin (A := doubles) rfl (by omega))]
      rfl)
    (intensity := ofInt 2) (lam := 2) (by
      obtain ⟨h, e⟩ := int_num (A := doubles) rfl (n := 2) (by norm_num)
      have e' : (ofInt 2 : Num doubles) = mkNum doubles ((2 : ℕ) : ℝ) h := e
      rw [e']
      show some ((2 : ℕ) : ℝ) = some 2
      norm_num) (by norm_num) (by norm_num) (delta := 1 / 2 ^ 49) (by norm_num) _ _ _ _
    (closeTo_fields (A := doubles) rfl (v := ![1/10, 3/10]) (by simp [Fin.forall_fin_two]; norm_num))
    (closeTo_fields (A := doubles) rfl (v := ![1/2, 9/10]) (by simp [Fin.forall_fin_two]; norm_num))
    (by simp) (by simp) 1000000 (by norm_num) (by norm_num) (c := 1 / 100) (by norm_num)

end
end CP.Props
