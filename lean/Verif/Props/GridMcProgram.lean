import Verif.Props.GridMc
import Verif.Props.Suite
/-
Property C71, whole program: the output of crossprob_mc and the statistical assertions of the repository's test-suite.
-/
open MeasureTheory Set ProbabilityTheory
namespace CP.Props
open CP.Spec CP.McSpec FOps
noncomputable section
variable {A : FloatSystem}

/-- The `ecdf` command with any generator. -/
theorem mcRunWith_ecdf {F : Type} [FOps F] [FBits F] (g : Generator F) (w : McWorld F) (fmt : F → Str) (ioWhat file num : Str) {N : ℤ}
    (hN0 : 0 ≤ N) (hN : stringToLong w.libc num = .ok N) {b B : List F} (h : readAndCheckBoundariesFile w.libc w.fs file = .ok (b, B))
    {x : F} (hx : ecdfMc g.uniform (g.seed (BitVec.ofInt 64 (w.time + ((max b.length B.length : ℕ) : ℤ) * 2 ^ 20)))
      ((max b.length B.length : ℕ) : ℤ) b B N = .ok x) :
    mcRunWith g w fmt ioWhat ["ecdf".toList, file, num] = .exited 0 (fmt (one -ᶠ x) ++ ['\n']) := by
  unfold mcRunWith mcHandleIOWith
  dsimp only
  rw [hN]
  simp only [OutM.lift, bind, OutM.bind, h]
  rw [if_neg (by omega)]
  dsimp only
  rw [if_neg (by decide), if_pos trivial]
  rw [hx]
  rfl

theorem closeTo_fields (hA : A.f = binary64) {n : ℕ} {v : Fin n → ℝ} (hv : ∀ i, 0 ≤ v i ∧ v i ≤ 1) :
    CloseTo A (1 / 2 ^ 49) (List.ofFn fun i => roundNum A (v i)) (List.ofFn v) := by
  have hf : A.f.OK := hA ▸ binary64_ok
  have hmin : A.f.emin = -1074 := by rw [hA]; rfl
  unfold CloseTo
  rw [List.forall₂_iff_get]
  refine ⟨by simp, fun i h1 h2 => ?_⟩
  simp only [List.get_eq_getElem, List.getElem_ofFn]
  set x := v ⟨i, by simpa using h1⟩
  obtain ⟨x0, x1⟩ : 0 ≤ x ∧ x ≤ 1 := hv _
  obtain ⟨h, e, -, -⟩ := roundNum_unit (A := A) hf x0 x1
  refine ⟨A.r x, by rw [e]; rfl, ?_⟩
  have := round_abs (double_ok hA) x
  rw [abs_of_nonneg x0, u50_val, hmin] at this
  have h3 : (2 : ℝ) ^ ((-1074 : ℤ) - 1) ≤ (2 : ℝ) ^ (-50 : ℤ) := zpow_le_zpow_right₀ (by norm_num) (by norm_num)
  have h4 : (2 : ℝ) ^ (-50 : ℤ) = 1 / 2 ^ 50 := by norm_num
  rw [h4] at h3
  refine this.trans ((add_le_add (mul_le_of_le_one_right (by norm_num) x1) h3).trans ?_)
  norm_num

section
variable {Ω : Type*} [MeasurableSpace Ω] {μ : Measure Ω} [IsProbabilityMeasure μ] {K : ℕ → Ω → ℕ}

/-- The systematic error of the printed number: 52-bit draws, rounding, and six digits of output. -/
def mcPrintBias (n : ℕ) : ℝ := mcBias n (1 / 2 ^ 49) + 1 / 2 ^ 48 + 5 / 10 ^ 6

/-- C71, once the file is read. -/
theorem mc_print_prob {w : McWorld (Num A)} {fmt : Num A → Str} {inRange : ℝ → Prop} (hM : McDoubleMachine w fmt inRange) (ioWhat : Str)
    (gen : Ω → Generator (Num A)) (hK : IidGrid K μ)
    (hgen : ∀ ω seed j, (draw (gen ω).uniform ((gen ω).seed seed) j).real? = some ((K j ω : ℝ) / 2 ^ 52))
    {n m : ℕ} {v : Fin n → ℝ} {V : Fin m → ℝ} (hv : ∀ i, 0 ≤ v i ∧ v i ≤ 1) (hV : ∀ i, 0 ≤ V i ∧ V i ≤ 1) (hnm : n = 0 ∨ m ≤ n)
    (hsz : 1 ≤ max n m) (hmax : max n m < 2 ^ 40) {name : Str}
    (hread : readAndCheckBoundariesFile w.libc w.fs name = .ok (List.ofFn fun i => roundNum A (v i), List.ofFn fun i => roundNum A (V i)))
    (N : ℕ) (hN0 : 1 ≤ N) (hN : (N : ℤ) ≤ 2 ^ 31 - 1) {c : ℝ} (hc : 0 ≤ c) :
    μ.real {ω | ¬ ∃ d : Dec, d.WF ∧
        mcRunWith (gen ω) w fmt ioWhat ["ecdf".toList, name, (toString (N : ℤ)).toList] = .exited 0 (d.text ++ ['\n']) ∧
        |d.value - insideProb (max n m) (List.ofFn v) (List.ofFn V)| < c + mcPrintBias (max n m)} ≤ 2 * Real.exp (-2 * N * c ^ 2) := by
  have hA := hM.format
  have hf : A.f.OK := hA ▸ binary64_ok
  have hnum := C31_roundtrip hM.strtol (N : ℤ) (by constructor <;> omega)
  refine le_trans (measureReal_mono ?_) (estimates_prob hA hM.log hK hmax (delta := 1 / 2 ^ 49) (by norm_num) (by norm_num)
    (closeTo_fields hA hv) (closeTo_fields hA hV) (List.forall_mem_ofFn_iff.mpr hv) (List.forall_mem_ofFn_iff.mpr hV)
    (by rw [List.length_ofFn]; exact le_max_right _ _) (by
      rcases hnm with rfl | h
      · left; simp
      · right; rw [List.length_ofFn]; exact max_le le_rfl h) N hN0 hc)
  intro ω hbad hest
  refine hbad ?_
  set bN := List.ofFn fun i => roundNum A (v i) with hbN
  set BN := List.ofFn fun i => roundNum A (V i) with hBN
  have hlen : max bN.length BN.length = max n m := by rw [hbN, hBN, List.length_ofFn, List.length_ofFn]
  set rng := (gen ω).seed (BitVec.ofInt 64 (w.time + ((max bN.length BN.length : ℕ) : ℤ) * 2 ^ 20)) with hrng
  have hrun := C33_any_arithmetic (gen ω).uniform rng (max n m) hsz bN BN N (by rw [hBN, List.length_ofFn]; exact le_max_right _ _) (by
    rcases hnm with rfl | h
    · left; rw [hbN]; simp
    · right; rw [hbN, List.length_ofFn]; exact max_le le_rfl h) hN
  have hdr : ∀ j, draw (gen ω).uniform rng j = roundNum A ((K j ω : ℝ) / 2 ^ 52) := draw_round (hgen ω _)
  simp only [hdr] at hrun
  set q := countUpTo (fun r => ¬ Inside (sample (fun j => roundNum A ((K (r * (max n m + 1) + j) ω : ℝ) / 2 ^ 52)) (max n m)) bN BN) N with hq
  obtain ⟨h1, e1, p0, p1, herr⟩ := estimate_num (A := A) hA (c := q) (countUpTo_le _ N) hN0 hN
  rw [e1] at hrun
  set p := A.r ((q : ℝ) / N) with hp
  obtain ⟨h2, e2, q0, q1⟩ := one_sub_num hf h1 p0 p1
  have hout := mcRunWith_ecdf (gen ω) w fmt ioWhat name _ (by omega) hnum hread (by rw [← hrng, hlen]; exact hrun)
  rw [e2] at hout
  obtain ⟨d, dw, dt, dv⟩ := C59_number hM.print (x := mkNum A (A.r (1 - p)) h2) (v := A.r (1 - p)) rfl
  refine ⟨d, dw, by rw [hout, dt], ?_⟩
  have h3 : |(q : ℝ) / N - (1 - insideProb (max n m) (List.ofFn v) (List.ofFn V))| < c + mcBias (max n m) (1 / 2 ^ 49) := hest
  have h5 : |A.r (1 - p) - (1 - p)| ≤ 1 / 2 ^ 50 := by
    obtain ⟨k, hk⟩ := rep_mult h1.1
    obtain ⟨l, hl⟩ := rep_mult (rep_one hf)
    have h5 := round_rel (double_ok hA) (k := l - k) (x := 1 - p) (by push_cast; rw [sub_mul, ← hk, ← hl])
    rw [abs_of_nonneg (by linarith : (0 : ℝ) ≤ 1 - p), u50_val] at h5
    refine h5.trans (le_trans (mul_le_of_le_one_right (by norm_num) (by linarith)) ?_)
    norm_num
  rw [abs_of_nonneg q0] at dv
  have h6 : 5 / 10 ^ 6 * A.r (1 - p) ≤ 5 / 10 ^ 6 := mul_le_of_le_one_right (by norm_num) q1
  unfold mcPrintBias
  generalize insideProb (max n m) (List.ofFn v) (List.ofFn V) = P at *
  generalize mcBias (max n m) (1 / 2 ^ 49) = bias at *
  generalize A.r (1 - p) = s at *
  generalize (q : ℝ) / N = t at *
  have d6 := dv.trans h6
  rw [abs_le] at d6 h5 herr
  rw [abs_lt] at h3 ⊢
  obtain ⟨d6a, d6b⟩ := d6
  obtain ⟨h5a, h5b⟩ := h5
  obtain ⟨ha, hb⟩ := herr
  obtain ⟨h3a, h3b⟩ := h3
  have e48 : (1 : ℝ) / 2 ^ 48 = 4 * (1 / 2 ^ 50) := by norm_num
  have e49 : (1 : ℝ) / 2 ^ 49 = 2 * (1 / 2 ^ 50) := by norm_num
  have e50 : (0 : ℝ) < 1 / 2 ^ 50 := by positivity
  rw [e48]
  rw [e49] at ha hb
  constructor <;> linarith

/-- C71, the program: for every boundary file with numbers in `[0,1]` and every positive number of simulations up to `INT_MAX`, if the
generator delivers independent 52-bit draws after seeding (with any seed), then except with probability `2 exp(-2 N c^2)` the
program exits with 0 and prints a number that differs by less than `c` plus a small systematic error from the probability that the
order statistics of `max(n, m)` uniform numbers stay inside the boundaries as written in the file. -/
theorem C71_program {w : McWorld (Num A)} {fmt : Num A → Str} {inRange : ℝ → Prop} (hM : McDoubleMachine w fmt inRange) (ioWhat : Str)
    (gen : Ω → Generator (Num A)) (hK : IidGrid K μ)
    (hgen : ∀ ω seed j, (draw (gen ω).uniform ((gen ω).seed seed) j).real? = some ((K j ω : ℝ) / 2 ^ 52))
    {n m : ℕ} (fb : Fin n → Field) (fB : Fin m → Field) (hfb : ∀ i, (fb i).WF) (hfB : ∀ i, (fB i).WF)
    (hinb : ∀ i, inRange (fb i).num.value) (hinB : ∀ i, inRange (fB i).num.value)
    (hb : ∀ i, 0 ≤ valuesOf fb i ∧ valuesOf fb i ≤ 1) (hB : ∀ i, 0 ≤ valuesOf fB i ∧ valuesOf fB i ≤ 1)
    (hnm : n = 0 ∨ m ≤ n) (hsz : 1 ≤ max n m) (hmax : max n m < 2 ^ 40) {name text : Str} (hfile : w.fs name = .contents text)
    (hlines : FirstTwoLines text (lineOf fb) (lineOf fB)) (N : ℕ) (hN0 : 1 ≤ N) (hN : (N : ℤ) ≤ 2 ^ 31 - 1) {c : ℝ} (hc : 0 ≤ c) :
    μ.real {ω | ¬ ∃ d : Dec, d.WF ∧
        mcRunWith (gen ω) w fmt ioWhat ["ecdf".toList, name, (toString (N : ℤ)).toList] = .exited 0 (d.text ++ ['\n']) ∧
        |d.value - insideProb (max n m) (List.ofFn (valuesOf fb)) (List.ofFn (valuesOf fB))| < c + mcPrintBias (max n m)} ≤
      2 * Real.exp (-2 * N * c ^ 2) :=
  mc_print_prob hM ioWhat gen hK hgen hb hB hnm hsz hmax (mc_read_file hM.strtod fb fB hfb hfB hinb hinB hfile hlines) N hN0 hN hc

end

/-- The systematic error of the printed number for at most 100 points. -/
theorem C71_print_bias {n : ℕ} (h : n ≤ 100) : mcPrintBias n ≤ 7 / 10 ^ 6 := by
  unfold mcPrintBias
  have := (C71_bias n).2.1 h
  norm_num at this ⊢
  linarith

/-! ## The statistical assertions of the test-suite -/

theorem value_of_check {n m : ℕ} {lb lB : List ℕ} {b B : Fin n → ℝ}
    (hb : List.ofFn b = lb.map fun k : ℕ => (k : ℝ) / ((10 ^ 13 : ℕ) : ℝ)) (hB : List.ofFn B = lB.map fun k : ℕ => (k : ℝ) / ((10 ^ 13 : ℕ) : ℝ))
    (h : digitsCheck n m lb lB = true) : |noncrossProb b B - (m : ℝ) / 10 ^ 6| ≤ 3 / 10 ^ 7 := by
  unfold digitsCheck at h
  dsimp only at h
  simp only [Bool.and_eq_true, decide_eq_true_eq, List.all_eq_true] at h
  obtain ⟨⟨⟨⟨⟨⟨⟨h1, h2⟩, h3⟩, h4⟩, h5⟩, h6⟩, -⟩, -⟩ := h
  have e := eval_noncross (D := 10 ^ 13) (by norm_num) hb hB h1 h2 h3 h4
  set DD := (10 ^ 13) ^ n with hDD
  set T := evalN n (10 ^ 13) (tagged lb lB)
  have hD : (0 : ℝ) < DD := by rw [hDD]; positivity
  have hP : (T : ℝ) = noncrossProb b B * DD := by
    rw [e, hDD]; push_cast; field_simp
  have a1 : (m : ℝ) * DD * 10 ≤ T * 10 ^ 7 + 3 * DD := by exact_mod_cast h5
  have a2 : (T : ℝ) * 10 ^ 7 ≤ m * DD * 10 + 3 * DD := by exact_mod_cast h6
  rw [hP] at a1 a2
  have b1 : (m : ℝ) * 10 ≤ noncrossProb b B * 10 ^ 7 + 3 := by
    refine le_of_mul_le_mul_right ?_ hD; linarith
  have b2 : noncrossProb b B * 10 ^ 7 ≤ (m : ℝ) * 10 + 3 := by
    refine le_of_mul_le_mul_right ?_ hD; linarith
  rw [abs_le]; constructor <;> linarith

theorem value_M : |upperProb (valuesOf (fieldsOf lineM lineM_len)) - 608924 / 10 ^ 6| ≤ 3 / 10 ^ 7 := by
  rw [← noncrossProb_zeros (b := fun _ => 0) fun _ => le_rfl]
  exact_mod_cast value_of_check (m := 608924) (ofFn_zero _) (ofFn_fields lineM_len (by decide)) (by decide +kernel)

theorem value_P : |lowerProb (valuesOf (fieldsOf lineP lineP_len)) - 608924 / 10 ^ 6| ≤ 3 / 10 ^ 7 := by
  rw [← noncrossProb_ones (B := fun _ => 1) fun _ => le_rfl]
  exact_mod_cast value_of_check (m := 608924) (ofFn_fields lineP_len (by decide)) (ofFn_one _) (by decide +kernel)

theorem value_2 : |noncrossProb (valuesOf (fieldsOf line2b line2b_len)) (valuesOf (fieldsOf line2B line2B_len)) - 750000 / 10 ^ 6| ≤ 3 / 10 ^ 7 := by
  exact_mod_cast value_of_check (m := 750000) (ofFn_fields line2b_len (by decide)) (ofFn_fields line2B_len (by decide)) (by decide +kernel)

theorem value_8 : |noncrossProb (valuesOf (fieldsOf line8b line8b_len)) (valuesOf (fieldsOf line8B line8B_len)) - 840529 / 10 ^ 6| ≤ 3 / 10 ^ 7 := by
  exact_mod_cast value_of_check (m := 840529) (ofFn_fields line8b_len (by decide)) (ofFn_fields line8B_len (by decide)) (by decide +kernel)

/-- The statistical assertions of `test_crossprob_mc_binomial` (`tests/test_crossprob.py:56-66`): file and expected number. -/
def mcSuite : List (Str × ℝ) :=
  [("tests/bounds2.txt".toList, 0.75), ("tests/bounds8.txt".toList, 0.840529), ("tests/bounds_cksplus_10.txt".toList, 0.608924),
   ("tests/bounds_cksminus_10.txt".toList, 0.608924)]

section
variable {Ω : Type*} [MeasurableSpace Ω] {μ : Measure Ω} [IsProbabilityMeasure μ] {K : ℕ → Ω → ℕ}

/-- C71, the four statistical assertions of the test-suite, `abs(float(output) - expected) < 0.01` with `1000000` simulations: each
of them fails with probability at most `2 exp(-196)`. -/
theorem C71_suite {w : McWorld (Num A)} {fmt : Num A → Str} {inRange : ℝ → Prop} (hM : McDoubleMachine w fmt inRange) (ioWhat : Str)
    (gen : Ω → Generator (Num A)) (hK : IidGrid K μ)
    (hgen : ∀ ω seed j, (draw (gen ω).uniform ((gen ω).seed seed) j).real? = some ((K j ω : ℝ) / 2 ^ 52))
    (hin : ∀ v : ℝ, (v = 0 ∨ 1 / 100 ≤ v ∧ v ≤ 1) → inRange v) (hfiles : ∀ f ∈ suiteFiles, w.fs f.1 = .contents f.2)
    {t : Str × ℝ} (ht : t ∈ mcSuite) :
    μ.real {ω | ¬ ∃ d : Dec, d.WF ∧ mcRunWith (gen ω) w fmt ioWhat ["ecdf".toList, t.1, "1000000".toList] = .exited 0 (d.text ++ ['\n']) ∧
        |d.value - t.2| < 0.01} ≤ 2 * Real.exp (-196) := by
  simp only [suiteFiles, List.forall_mem_cons, List.not_mem_nil, false_implies, implies_true, and_true] at hfiles
  obtain ⟨-, f2, f8, fP, fM, -, -⟩ := hfiles
  have he : lineOf (n := 0) Fin.elim0 = [] := by simp [lineOf, List.intercalate]
  have hnum : "1000000".toList = (toString ((1000000 : ℕ) : ℤ)).toList := by decide
  have unit : ∀ {L : List Entry} {n : ℕ} (hl : L.length = n) (_ : L.all Entry.ok = true) (_ : L.all (fun e => e.num ≤ 10 ^ 13) = true) (i : Fin n),
      0 ≤ valuesOf (fieldsOf L hl) i ∧ valuesOf (fieldsOf L hl) i ≤ 1 := by
    intro L n hl hok hle i
    rw [valuesOf_fields hl hok]
    have h1 := List.all_eq_true.mp hle _ (List.getElem_mem (show i.val < L.length by omega))
    rw [decide_eq_true_eq] at h1
    refine ⟨by positivity, ?_⟩
    rw [div_le_one (by norm_num)]
    exact_mod_cast h1
  have fin0 : ∀ i : Fin 0, 0 ≤ valuesOf (Fin.elim0 : Fin 0 → Field) i ∧ valuesOf (Fin.elim0 : Fin 0 → Field) i ≤ 1 := fun i => i.elim0
  have e0 : List.ofFn (valuesOf (Fin.elim0 : Fin 0 → Field)) = [] := by simp
  have wrap : ∀ {n m : ℕ} {v : Fin n → ℝ} {V : Fin m → ℝ} (hv : ∀ i, 0 ≤ v i ∧ v i ≤ 1) (hV : ∀ i, 0 ≤ V i ∧ V i ≤ 1) (hnm : n = 0 ∨ m ≤ n)
      (hsz : 1 ≤ max n m) (hmax : max n m ≤ 100) {name : Str}
      (hread : readAndCheckBoundariesFile w.libc w.fs name = .ok (List.ofFn fun i => roundNum A (v i), List.ofFn fun i => roundNum A (V i)))
      {r : ℝ} (hr : |insideProb (max n m) (List.ofFn v) (List.ofFn V) - r| ≤ 3 / 10 ^ 7),
      μ.real {ω | ¬ ∃ d : Dec, d.WF ∧ mcRunWith (gen ω) w fmt ioWhat ["ecdf".toList, name, "1000000".toList] = .exited 0 (d.text ++ ['\n']) ∧
        |d.value - r| < 0.01} ≤ 2 * Real.exp (-196) := by
    intro n m v V hv hV hnm hsz hmax name hread r hr
    have key := mc_print_prob hM ioWhat gen hK hgen hv hV hnm hsz (by omega) hread 1000000 (by norm_num) (by norm_num)
      (c := 99 / 10000) (by norm_num)
    rw [← hnum] at key
    refine le_trans (measureReal_mono ?_) (key.trans ?_)
    · intro ω hbad hgood
      refine hbad ?_
      obtain ⟨d, dw, dt, dv⟩ := hgood
      refine ⟨d, dw, dt, ?_⟩
      have hb := C71_print_bias hmax
      have := abs_add_le (d.value - insideProb (max n m) (List.ofFn v) (List.ofFn V)) (insideProb (max n m) (List.ofFn v) (List.ofFn V) - r)
      rw [sub_add_sub_cancel] at this
      norm_num at hb hr dv this ⊢
      linarith
    · refine mul_le_mul_of_nonneg_left (Real.exp_le_exp.mpr ?_) (by norm_num)
      norm_num
  simp only [mcSuite, List.mem_cons, List.not_mem_nil, or_false] at ht
  rcases ht with rfl | rfl | rfl | rfl
  · refine wrap (unit line2b_len (by decide) (by decide)) (unit line2B_len (by decide) (by decide)) (Or.inr le_rfl) (by norm_num) (by norm_num)
      (mc_read_file hM.strtod _ _ (fieldsOf_wf _ (by decide)) (fieldsOf_wf _ (by decide)) (range_fields _ (by decide) hin (by decide))
        (range_fields _ (by decide) hin (by decide)) f2 ?_) ?_
    · rw [line_fields, line_fields]
      exact ⟨by decide, by decide, Or.inl ⟨[], by decide +kernel⟩⟩
    · have := value_2
      rw [max_self, insideProb_full]
      norm_num at this ⊢
      exact this
  · refine wrap (unit line8b_len (by decide) (by decide)) (unit line8B_len (by decide) (by decide)) (Or.inr le_rfl) (by norm_num) (by norm_num)
      (mc_read_file hM.strtod _ _ (fieldsOf_wf _ (by decide)) (fieldsOf_wf _ (by decide)) (range_fields _ (by decide) hin (by decide))
        (range_fields _ (by decide) hin (by decide)) f8 ?_) ?_
    · rw [line_fields, line_fields]
      exact ⟨by decide, by decide, Or.inl ⟨[], by decide +kernel⟩⟩
    · have := value_8
      rw [max_self, insideProb_full]
      norm_num at this ⊢
      exact this
  · refine wrap (unit lineP_len (by decide) (by decide)) fin0 (Or.inr (by norm_num)) (by norm_num) (by norm_num)
      (mc_read_file hM.strtod _ Fin.elim0 (fieldsOf_wf _ (by decide)) (fun i => i.elim0) (range_fields _ (by decide) hin (by decide))
        (fun i => i.elim0) fP ?_) ?_
    · rw [line_fields, he]
      exact ⟨by decide, by decide, Or.inl ⟨[], by decide +kernel⟩⟩
    · have := value_P
      rw [e0, show max 10 0 = 10 from rfl, insideProb_lower]
      norm_num at this ⊢
      exact this
  · refine wrap fin0 (unit lineM_len (by decide) (by decide)) (Or.inl rfl) (by norm_num) (by norm_num)
      (mc_read_file hM.strtod Fin.elim0 _ (fun i => i.elim0) (fieldsOf_wf _ (by decide)) (fun i => i.elim0) (range_fields _ (by decide) hin (by decide))
        fM ?_) ?_
    · rw [line_fields, he]
      exact ⟨by decide, by decide, Or.inl ⟨[], by decide +kernel⟩⟩
    · have := value_M
      rw [e0, show max 0 10 = 10 from rfl, insideProb_upper]
      norm_num at this ⊢
      exact this

end

/-! ## The hypotheses can be met -/

/-- A generator that reads a sequence of integers below `2^52`. -/
def listGenerator (k : ℕ → ℕ) : Generator (Num doubles) where
  State := ℕ
  seed := fun _ => 0
  uniform := fun j => (roundNum doubles (((k j % 2 ^ 52 : ℕ) : ℝ) / 2 ^ 52), j + 1)

theorem listGenerator_draw (k : ℕ → ℕ) (s j : ℕ) :
    draw (fun j : ℕ => (roundNum doubles (((k j % 2 ^ 52 : ℕ) : ℝ) / 2 ^ 52), j + 1)) s j =
      roundNum doubles (((k (s + j) % 2 ^ 52 : ℕ) : ℝ) / 2 ^ 52) := by
  induction j generalizing s with
  | zero => rfl
  | succ j ih =>
    have h := ih (s + 1)
    rw [show s + 1 + j = s + (j + 1) by ring] at h
    exact h

/-- Independent 52-bit draws exist. -/
theorem digits52_grid : IidGrid (fun j (x : ℕ → ℝ) => digits52 (x j) % 2 ^ 52) streamLaw where
  meas j := ((measurable_of_countable fun k : ℕ => k % 2 ^ 52).comp measurable_digits52).comp (measurable_pi_apply j)
  indep := streamLaw_iid.indep.comp (fun _ x => digits52 x % 2 ^ 52)
    fun _ => (measurable_of_countable fun k : ℕ => k % 2 ^ 52).comp measurable_digits52
  law j k hk := by
    have hm : MeasurableSet {y | digits52 y = k} := measurable_digits52 (measurableSet_singleton k)
    rw [← digits52_law hk, ← streamLaw_iid.law j, map_measureReal_apply (streamLaw_iid.meas j) hm]
    refine measureReal_congr ?_
    filter_upwards [ae_draws streamLaw_iid] with x hx
    have h1 : digits52 (x j) < 2 ^ 52 := by
      unfold digits52
      have h0 := hx j
      rw [Nat.floor_lt (mul_nonneg (by positivity) h0.1.le)]
      have := mul_lt_of_lt_one_right (show (0 : ℝ) < 2 ^ 52 by norm_num) h0.2
      norm_num at this ⊢
      exact this
    show (digits52 (x j) % 2 ^ 52 = k) = (digits52 (x j) = k)
    rw [Nat.mod_eq_of_lt h1]

example (time : ℤ) (junk : TinyMT) :
    streamLaw.real {x : ℕ → ℝ | ¬ ∃ d : Dec, d.WF ∧ mcRunWith (listGenerator fun j => digits52 (x j)) (mcSuiteWorld time junk) doublePrint []
        ["ecdf".toList, "tests/bounds2.txt".toList, "1000000".toList] = .exited 0 (d.text ++ ['\n']) ∧ |d.value - 0.75| < 0.01} ≤
      2 * Real.exp (-196) := by
  have hgen : ∀ (x : ℕ → ℝ) (seed : BitVec 64) (j : ℕ), (draw (listGenerator fun j => digits52 (x j)).uniform
      ((listGenerator fun j => digits52 (x j)).seed seed) j).real? = some (((digits52 (x j) % 2 ^ 52 : ℕ) : ℝ) / 2 ^ 52) := by
    intro x seed j
    have h := listGenerator_draw (fun j => digits52 (x j)) 0 j
    rw [zero_add] at h
    refine (congrArg Num.real? h).trans ?_
    have hlt : digits52 (x j) % 2 ^ 52 < 2 ^ 52 := Nat.mod_lt _ (by norm_num)
    rw [roundNum_of_fin (grid_fin (A := doubles) rfl (by omega))]
    rfl
  have hfiles : ∀ f ∈ suiteFiles, (mcSuiteWorld time junk).fs f.1 = .contents f.2 := by
    intro f hf
    have h : ∀ f ∈ suiteFiles, suiteFiles.lookup f.1 = some f.2 := by decide +kernel
    exact suiteWorld_file (h f hf)
  have ht : ("tests/bounds2.txt".toList, 0.75) ∈ mcSuite := by simp [mcSuite]
  have key := C71_suite (mcSuiteWorld_ok time junk) [] (fun x : ℕ → ℝ => listGenerator fun j => digits52 (x j)) digits52_grid hgen
    (fun _ _ => trivial) hfiles ht
  exact key

end
end CP.Props
