import Verif.Props.LongDouble
import Verif.Props.Suite
/-
Property C65, end to end: the command-line program with `double` and `long double`, from the text of the file to the printed text, and
the whole deterministic part of the repository's test-suite.
-/
open MeasureTheory Set
namespace CP.Props
open CP.Spec FOps
noncomputable section

variable {D A : FloatSystem}

/-- The `long double` of a machine: at least the x87 extended format, a library accurate to four units in the last place of that format,
and `pow` no worse than 20 multiplications. -/
structure LongDoubleMachine (A : FloatSystem) (n : ℕ) : Prop where
  format : LongDoubleFormat A.f
  libm : LibmAccurate A u61 n
  pow : PowAccurate A u61 20 n

/-- From a computed double to what the program writes. -/
theorem printedX {G : Type} [FOps G] {L : LongDouble (Num D) G} {w : World (Num D)} {fmt : Num D → Str} (hprint : PrintSpec fmt Num.real?) (ioWhat : Str) {name : Str}
    {b B : List (Num D)} (hread : readAndCheckBoundariesFile w.libc w.fs name = .ok (b, B)) {x : Num D} (hx : x.finite)
    (h : (b ≠ [] ∧ B = [] ∧ ecdf1Mns2016bX L w.env b = .ok x) ∨ (b = [] ∧ B ≠ [] ∧ ecdf1Mns2016BX L w.env B = .ok x))
    {P tol : ℝ} {s : Str} (hs : PrintsAs P tol s) (he : |x.val - P| ≤ tol) :
    crossprobRunX L w fmt ioWhat ["ecdf1-mns2016".toList, name] = .exited 0 (s ++ ['\n']) := by
  obtain ⟨a, ha, rfl⟩ := hx
  obtain ⟨h0, h1⟩ := hs a he
  obtain ⟨m, X, h2, h3⟩ := hprint.pos (mkNum D a ha) a rfl h0
  have hc : calculateEcdf1Mns2016IOX L w b B = .lift (.ok (mkNum D a ha)) := by
    unfold calculateEcdf1Mns2016IOX
    rcases h with ⟨h4, rfl, h5⟩ | ⟨rfl, h4, h5⟩
    · rw [if_pos ⟨List.length_pos_iff.mpr h4, rfl⟩, h5]
    · rw [if_neg (by simp), if_pos ⟨rfl, List.length_pos_iff.mpr h4⟩, h5]
  have hh : handleCommandLineArgumentsIOX L w fmt "ecdf1-mns2016".toList name = ⟨fmt (mkNum D a ha) ++ ['\n'], .ok ()⟩ := by
    unfold handleCommandLineArgumentsIOX
    rw [hread]
    simp only [if_true]
    have : ∀ r : OutM (Num D), r = .lift (.ok (mkNum D a ha)) → (OutM.bind r fun result => OutM.put (fmt result ++ ['\n'])) = ⟨fmt (mkNum D a ha) ++ ['\n'], .ok ()⟩ := by
      rintro r rfl; rfl
    exact this _ hc
  unfold crossprobRunX
  dsimp only
  rw [hh, ← h1 m X h2, ← h3]

/-- `crossprob ecdf1-mns2016 file`, given what was read from the file: only a lower boundary. -/
theorem digits_mns_lower (w : World (Num D)) {fmt : Num D → Str} {inRange : ℝ → Prop} {n : ℕ} (hM : DoubleMachine w fmt inRange n)
    (hA : LongDoubleMachine A n) (ioWhat : Str) (hn : 1 ≤ n) (hn' : n ≤ 20) {v : Fin n → ℝ} (hv : ValidBound v)
    {name : Str} (hread : readAndCheckBoundariesFile w.libc w.fs name = .ok (List.ofFn fun i => roundNum D (v i), []))
    (hP : 1 / 10 ^ 8 ≤ lowerProb v) {s : Str} (hs : PrintsAs (lowerProb v) (1 / 10 ^ 9) s) :
    crossprobRunX (ieeeConv D A) w fmt ioWhat ["ecdf1-mns2016".toList, name] = .exited 0 (s ++ ['\n']) := by
  obtain ⟨b1, -, b3, b4⟩ := double_read (A := D) hM.format hv
  have hsh := (lower_lipschitz (fun i => (roundNum D (v i)).val) v).trans (sum_shift_20 hn' b4)
  have h5 := abs_le.mp hsh
  obtain ⟨x, hx, hxf, hxe⟩ := C65_long_double_20 hM.format hA.format hn' hA.libm hA.pow w.env b1 b3 (by norm_num at hP h5 ⊢; linarith)
  have hne : (List.ofFn fun i => roundNum D (v i)) ≠ [] := by rw [ne_eq, List.ofFn_eq_nil_iff]; omega
  refine printedX hM.print ioWhat hread hxf (Or.inl ⟨hne, rfl, hx⟩) hs ?_
  have := abs_sub_le x.val (lowerProb fun i => (roundNum D (v i)).val) (lowerProb v)
  refine this.trans ((add_le_add hxe hsh).trans ?_)
  norm_num

/-- `crossprob ecdf1-mns2016 file`, given what was read from the file: only an upper boundary. -/
theorem digits_mns_upper (w : World (Num D)) {fmt : Num D → Str} {inRange : ℝ → Prop} {n : ℕ} (hM : DoubleMachine w fmt inRange n)
    (hA : LongDoubleMachine A n) (ioWhat : Str) (hn : 1 ≤ n) (hn' : n ≤ 20) {v : Fin n → ℝ} (hv : ValidBound v)
    {name : Str} (hread : readAndCheckBoundariesFile w.libc w.fs name = .ok ([], List.ofFn fun i => roundNum D (v i)))
    (hP : 1 / 10 ^ 8 ≤ upperProb v) {s : Str} (hs : PrintsAs (upperProb v) (1 / 10 ^ 9) s) :
    crossprobRunX (ieeeConv D A) w fmt ioWhat ["ecdf1-mns2016".toList, name] = .exited 0 (s ++ ['\n']) := by
  obtain ⟨b1, -, b3, b4⟩ := double_read (A := D) hM.format hv
  have hsh := (upper_lipschitz (fun i => (roundNum D (v i)).val) v).trans (sum_shift_20 hn' b4)
  have h5 := abs_le.mp hsh
  obtain ⟨x, hx, hxf, hxe⟩ := C65_long_double_B_20 hM.format hA.format hn' hA.libm hA.pow w.env b1 b3 (by norm_num at hP h5 ⊢; linarith)
  have hne : (List.ofFn fun i => roundNum D (v i)) ≠ [] := by rw [ne_eq, List.ofFn_eq_nil_iff]; omega
  refine printedX hM.print ioWhat hread hxf (Or.inr ⟨rfl, hne, hx⟩) hs ?_
  have := abs_sub_le x.val (upperProb fun i => (roundNum D (v i)).val) (upperProb v)
  refine this.trans ((add_le_add hxe hsh).trans ?_)
  norm_num

/-- C65: `crossprob ecdf1-mns2016 file`, with IEEE doubles and `long double` inside, on a file with only a lower boundary of up to 20
points whose probability `P` is at least `1e-8`.  If every number within `1e-9` of `P` is written `s` with six significant digits, the
program writes `s`, a newline and nothing else, and exits with 0. -/
theorem C65_program_lower (w : World (Num D)) {fmt : Num D → Str} {inRange : ℝ → Prop} {n : ℕ} (hM : DoubleMachine w fmt inRange n)
    (hA : LongDoubleMachine A n) (ioWhat : Str) (hn : 1 ≤ n) (hn' : n ≤ 20) (fs : Fin n → Field) (hfs : ∀ i, (fs i).WF)
    (hin : ∀ i, inRange (fs i).num.value) (hv : ValidBound (valuesOf fs))
    (name text : Str) (hfile : w.fs name = .contents text) (hlines : FirstTwoLines text (lineOf fs) [])
    {P : ℝ} (hP : P = lowerProb (valuesOf fs)) (hP8 : 1 / 10 ^ 8 ≤ P) {s : Str} (hs : PrintsAs P (1 / 10 ^ 9) s) :
    crossprobRunX (ieeeConv D A) w fmt ioWhat ["ecdf1-mns2016".toList, name] = .exited 0 (s ++ ['\n']) := by
  subst hP
  have he : lineOf (n := 0) Fin.elim0 = [] := by simp [lineOf, List.intercalate]
  have hr := read_file hM.strtod (n := n) (m := 0) fs Fin.elim0 hfs (fun i => i.elim0) hin (fun i => i.elim0) hfile (by rw [he]; exact hlines)
  exact digits_mns_lower w hM hA ioWhat hn hn' hv (hr.trans (by simp)) hP8 hs

/-- C65: `crossprob ecdf1-mns2016 file` on a file with only an upper boundary of up to 20 points. -/
theorem C65_program_upper (w : World (Num D)) {fmt : Num D → Str} {inRange : ℝ → Prop} {n : ℕ} (hM : DoubleMachine w fmt inRange n)
    (hA : LongDoubleMachine A n) (ioWhat : Str) (hn : 1 ≤ n) (hn' : n ≤ 20) (fs : Fin n → Field) (hfs : ∀ i, (fs i).WF)
    (hin : ∀ i, inRange (fs i).num.value) (hv : ValidBound (valuesOf fs))
    (name text : Str) (hfile : w.fs name = .contents text) (hlines : FirstTwoLines text [] (lineOf fs))
    {P : ℝ} (hP : P = upperProb (valuesOf fs)) (hP8 : 1 / 10 ^ 8 ≤ P) {s : Str} (hs : PrintsAs P (1 / 10 ^ 9) s) :
    crossprobRunX (ieeeConv D A) w fmt ioWhat ["ecdf1-mns2016".toList, name] = .exited 0 (s ++ ['\n']) := by
  subst hP
  have he : lineOf (n := 0) Fin.elim0 = [] := by simp [lineOf, List.intercalate]
  have hr := read_file hM.strtod (n := 0) (m := n) Fin.elim0 fs (fun i => i.elim0) hfs (fun i => i.elim0) hin hfile (by rw [he]; exact hlines)
  exact digits_mns_upper w hM hA ioWhat hn hn' hv (hr.trans (by simp)) hP8 hs

/-- The assertions about `ecdf1-mns2016`, `tests/test_crossprob.py:31-35`. -/
def suiteMns : List (Str × Str × Str) :=
  [("ecdf1-mns2016".toList, "tests/bounds_0.txt".toList, "1".toList),
   ("ecdf1-mns2016".toList, "tests/bounds__1.txt".toList, "1".toList),
   ("ecdf1-mns2016".toList, "tests/bounds_cksminus_10.txt".toList, "0.608924".toList),
   ("ecdf1-mns2016".toList, "tests/bounds_cksplus_10.txt".toList, "0.608924".toList)]

/-- A number printed `0.608924` is not small. -/
theorem printed_big {P : ℝ} {N DD : ℕ} (hDD : 0 < DD) (hP : P = (N : ℝ) / (DD : ℝ)) (h1 : DD ≤ 10 * N) : 1 / 10 ^ 8 ≤ P := by
  have hD : (0 : ℝ) < DD := by exact_mod_cast hDD
  have h2 : (DD : ℝ) ≤ 10 * N := by exact_mod_cast h1
  rw [hP, le_div_iff₀ hD]
  linarith

theorem big_of_check {n : ℕ} {lb lB : List ℕ} {b B : Fin n → ℝ}
    (hb : List.ofFn b = lb.map fun k : ℕ => (k : ℝ) / ((10 ^ 13 : ℕ) : ℝ)) (hB : List.ofFn B = lB.map fun k : ℕ => (k : ℝ) / ((10 ^ 13 : ℕ) : ℝ))
    (h : digitsCheck n 608924 lb lB = true) : 1 / 10 ^ 8 ≤ noncrossProb b B := by
  unfold digitsCheck at h
  dsimp only at h
  simp only [Bool.and_eq_true, decide_eq_true_eq, List.all_eq_true] at h
  obtain ⟨⟨⟨⟨⟨⟨⟨h1, h2⟩, h3⟩, h4⟩, h5⟩, h6⟩, h7⟩, h8⟩ := h
  have e := eval_noncross (D := 10 ^ 13) (by norm_num) hb hB h1 h2 h3 h4
  refine printed_big (N := evalN n (10 ^ 13) (tagged lb lB)) (DD := (10 ^ 13) ^ n) (by positivity) ?_ ?_
  · rw [e]; push_cast; rfl
  · generalize (10 ^ 13) ^ n = DD at *
    omega

/-- C65, the repository's test-suite, complete: on every machine with IEEE-754 doubles and a `long double` of at least the x87
extended format (any rounding rule for ties, any libm accurate to four units in the last place, any conforming `strtod` and output
routine, any sorting algorithm, any FFT library, with or without assertions) all deterministic assertions of `tests/test_crossprob.py`
hold: the program writes the expected digits and exits with 0. -/
theorem C65_suite (w : World (Num D)) {fmt : Num D → Str} {inRange : ℝ → Prop} (hM : ∀ n ≤ 10, DoubleMachine w fmt inRange n)
    (hA : ∀ n ≤ 10, LongDoubleMachine A n)
    (ioWhat : Str) (hin : ∀ v, (v = 0 ∨ 1 / 100 ≤ v ∧ v ≤ 1) → inRange v)
    (ha : w.env.asserts = false ∨ ∀ n, 3 ≤ n → w.isqrt n + 1 ≤ n)
    (hfiles : ∀ f ∈ suiteFiles, w.fs f.1 = .contents f.2) {command name expected : Str} (ht : (command, name, expected) ∈ suite ++ suiteMns) :
    crossprobRunX (ieeeConv D A) w fmt ioWhat [command, name] = .exited 0 (expected ++ ['\n']) := by
  rw [List.mem_append] at ht
  rcases ht with ht | ht
  · rw [runX_eq, C63_suite w hM ioWhat hin ha hfiles ht]
    simp only [suite, List.mem_cons, List.not_mem_nil, or_false, Prod.mk.injEq] at ht
    simp only [List.head?_cons, ne_eq, Option.some.injEq]
    rcases ht with ⟨rfl, -⟩ | ⟨rfl, -⟩ | ⟨rfl, -⟩ | ⟨rfl, -⟩ | ⟨rfl, -⟩ | ⟨rfl, -⟩ | ⟨rfl, -⟩ | ⟨rfl, -⟩ | ⟨rfl, -⟩ | ⟨rfl, -⟩ | ⟨rfl, -⟩ |
      ⟨rfl, -⟩ | ⟨rfl, -⟩ | ⟨rfl, -⟩ <;> decide
  simp only [suiteFiles, List.forall_mem_cons, List.not_mem_nil, false_implies, implies_true, and_true] at hfiles
  obtain ⟨f01, f2, f8, fP, fM, f0, f1⟩ := hfiles
  have n1 : crossprobRunX (ieeeConv D A) w fmt ioWhat ["ecdf1-mns2016".toList, "tests/bounds_0.txt".toList] = .exited 0 ("1".toList ++ ['\n']) := by
    refine digits_mns_lower w (hM 3 (by norm_num)) (hA 3 (by norm_num)) ioWhat (by norm_num) (by norm_num) (v := valuesOf (fieldsOf line000 line000_len))
      (valid_fields _ (by decide) (by decide)) ?_ (by rw [prints_000 rfl]; norm_num) (by rw [prints_000 rfl]; exact printsAs_one (by norm_num))
    rw [C30_two_lines w.libc w.fs _ _ ("0, 0, 0,".toList) [] f0 ⟨by decide, by decide, Or.inl ⟨[], by decide +kernel⟩⟩]
    have h1 := C28_trailing_comma (hM 3 (by norm_num)).strtod (List.ofFn (fieldsOf line000 line000_len)) (by decide)
      (List.forall_mem_ofFn_iff.mpr (fieldsOf_wf _ (by decide)))
      (List.forall_mem_ofFn_iff.mpr (range_fields line000_len (by decide) hin (by decide)))
    have e : List.intercalate [','] ((List.ofFn (fieldsOf line000 line000_len)).map Field.text) ++ [','] = "0, 0, 0,".toList := by
      have := line_fields line000 line000_len
      unfold lineOf at this
      rw [this]; decide
    rw [e] at h1
    rw [h1, C28_empty, List.map_ofFn]
    rfl
  have n2 : crossprobRunX (ieeeConv D A) w fmt ioWhat ["ecdf1-mns2016".toList, "tests/bounds__1.txt".toList] = .exited 0 ("1".toList ++ ['\n']) := by
    refine C65_program_upper w (hM 3 (by norm_num)) (hA 3 (by norm_num)) ioWhat (by norm_num) (by norm_num) (fieldsOf line111 line111_len)
      (fieldsOf_wf _ (by decide)) (range_fields _ (by decide) hin (by decide)) (valid_fields _ (by decide) (by decide))
      _ _ f1 ?_ (prints_111 rfl).symm (by norm_num) (printsAs_one (by norm_num))
    rw [line_fields]
    exact ⟨by decide, by decide, Or.inl ⟨[], by decide +kernel⟩⟩
  have n3 : crossprobRunX (ieeeConv D A) w fmt ioWhat ["ecdf1-mns2016".toList, "tests/bounds_cksminus_10.txt".toList] =
      .exited 0 ("0.608924".toList ++ ['\n']) := by
    refine C65_program_upper w (hM 10 (by norm_num)) (hA 10 (by norm_num)) ioWhat (by norm_num) (by norm_num) (fieldsOf lineM lineM_len)
      (fieldsOf_wf _ (by decide)) (range_fields _ (by decide) hin (by decide)) (valid_fields _ (by decide) (by decide))
      _ _ fM ?_ rfl ?_ (PrintsAs.mono (prints_M rfl).1 (by norm_num))
    · rw [line_fields]
      exact ⟨by decide, by decide, Or.inl ⟨[], by decide +kernel⟩⟩
    · rw [← noncrossProb_zeros (b := fun _ => 0) fun _ => le_rfl]
      exact big_of_check (ofFn_zero _) (ofFn_fields _ (by decide)) (by decide +kernel)
  have n4 : crossprobRunX (ieeeConv D A) w fmt ioWhat ["ecdf1-mns2016".toList, "tests/bounds_cksplus_10.txt".toList] =
      .exited 0 ("0.608924".toList ++ ['\n']) := by
    refine C65_program_lower w (hM 10 (by norm_num)) (hA 10 (by norm_num)) ioWhat (by norm_num) (by norm_num) (fieldsOf lineP lineP_len)
      (fieldsOf_wf _ (by decide)) (range_fields _ (by decide) hin (by decide)) (valid_fields _ (by decide) (by decide))
      _ _ fP ?_ rfl ?_ (PrintsAs.mono (prints_P rfl).1 (by norm_num))
    · rw [line_fields]
      exact ⟨by decide, by decide, Or.inl ⟨[], by decide +kernel⟩⟩
    · rw [← noncrossProb_ones (B := fun _ => 1) fun _ => le_rfl]
      exact big_of_check (ofFn_fields _ (by decide)) (ofFn_one _) (by decide +kernel)
  simp only [suiteMns, List.mem_cons, List.not_mem_nil, or_false, Prod.mk.injEq] at ht
  rcases ht with ⟨rfl, rfl, rfl⟩ | ⟨rfl, rfl, rfl⟩ | ⟨rfl, rfl, rfl⟩ | ⟨rfl, rfl, rfl⟩
  exacts [n1, n2, n3, n4]

/-! ### The assumptions can be met -/

theorem x87_longDouble : LongDoubleFormat x87Extended :=
  ⟨⟨le_rfl, le_rfl, le_rfl⟩, by norm_num [x87Extended], by norm_num [x87Extended]⟩

theorem binary128_longDouble : LongDoubleFormat binary128 :=
  ⟨⟨by norm_num [x87Extended, binary128], by norm_num [x87Extended, binary128], by norm_num [x87Extended, binary128]⟩,
    by norm_num [binary128], by norm_num [binary128]⟩

theorem x87_wide : x87Extended.Wide :=
  ⟨long_fmt_ok x87_longDouble, by norm_num [x87Extended], by norm_num [x87Extended], by norm_num [x87Extended], by norm_num [x87Extended],
    by norm_num [x87Extended]⟩

theorem binary128_wide : binary128.Wide :=
  ⟨long_fmt_ok binary128_longDouble, by norm_num [binary128], by norm_num [binary128], by norm_num [binary128], by norm_num [binary128],
    by norm_num [binary128]⟩

theorem binary64_wide : binary64.Wide :=
  ⟨binary64_ok, by norm_num [binary64], by norm_num [binary64], by norm_num [binary64], by norm_num [binary64], by norm_num [binary64]⟩

/-- x87 extended precision with a correctly rounded math library. -/
def x87 : FloatSystem := correctSys x87Extended x87_wide.ok

/-- Quadruple precision with a correctly rounded math library. -/
def quads : FloatSystem := correctSys binary128 binary128_wide.ok

theorem x87_machine {n : ℕ} (hn : n ≤ 2 ^ 64) : LongDoubleMachine x87 n where
  format := x87_longDouble
  libm := correct_libm x87_wide (by unfold u61; exact zpow_le_zpow_right₀ (by norm_num) (by norm_num [x87Extended])) hn
  pow := correct_pow x87_wide (by unfold u61; exact zpow_le_zpow_right₀ (by norm_num) (by norm_num [x87Extended])) (by norm_num)

theorem quads_machine {n : ℕ} (hn : n ≤ 2 ^ 64) : LongDoubleMachine quads n where
  format := binary128_longDouble
  libm := correct_libm binary128_wide (by unfold u61; exact zpow_le_zpow_right₀ (by norm_num) (by norm_num [binary128])) hn
  pow := correct_pow binary128_wide (by unfold u61; exact zpow_le_zpow_right₀ (by norm_num) (by norm_num [binary128])) (by norm_num)

/-- The whole suite on a machine with doubles, x87 `long double` and an FFT library that always returns NaN. -/
example {command name expected : Str} (ht : (command, name, expected) ∈ suite ++ suiteMns) :
    crossprobRunX (ieeeConv doubles x87) suiteWorld doublePrint [] [command, name] = .exited 0 (expected ++ ['\n']) := by
  refine C65_suite suiteWorld (inRange := fun _ => True) (fun n hn => ?_) (fun n hn => x87_machine (by omega)) [] (fun _ _ => trivial) (Or.inl rfl) ?_ ht
  · have hM := brokenWorld_ok [] (n := n) (by omega)
    exact ⟨hM.format, hM.libm, hM.strtod, hM.print, hM.sortPerm, hM.sortSorted⟩
  · intro f hf
    simp only [suiteFiles, List.mem_cons, List.not_mem_nil, or_false] at hf
    rcases hf with rfl | rfl | rfl | rfl | rfl | rfl | rfl <;> exact suiteWorld_file (by decide +kernel)

/-- The same on ARM, with quadruple-precision `long double`. -/
example {command name expected : Str} (ht : (command, name, expected) ∈ suite ++ suiteMns) :
    crossprobRunX (ieeeConv doubles quads) suiteWorld doublePrint [] [command, name] = .exited 0 (expected ++ ['\n']) := by
  refine C65_suite suiteWorld (inRange := fun _ => True) (fun n hn => ?_) (fun n hn => quads_machine (by omega)) [] (fun _ _ => trivial) (Or.inl rfl) ?_ ht
  · have hM := brokenWorld_ok [] (n := n) (by omega)
    exact ⟨hM.format, hM.libm, hM.strtod, hM.print, hM.sortPerm, hM.sortSorted⟩
  · intro f hf
    simp only [suiteFiles, List.mem_cons, List.not_mem_nil, or_false] at hf
    rcases hf with rfl | rfl | rfl | rfl | rfl | rfl | rfl <;> exact suiteWorld_file (by decide +kernel)

/-- `1/2` in doubles. -/
theorem half_double : ∃ h, roundNum doubles (1 / 2) = Fl.fin (1 / 2 : ℝ) h := by
  obtain ⟨h, e⟩ := roundNum_fin (A := doubles) binary64_ok (x := 1 / 2) (by
    have := one_le_Omega (A := doubles) binary64_ok
    rw [abs_of_pos (by norm_num)]; linarith)
  have hr : doubles.r (1 / 2) = 1 / 2 := nearest_rep doubles.nearest ⟨1, -1, by norm_num [binary64, doubles_f], by norm_num [binary64, doubles_f], by norm_num⟩
  refine ⟨hr ▸ h, ?_⟩
  rw [e]
  congr 1

/-- One point: `Pr[X ≥ 1/2] = 1/2`; `C65_long_double_20`, `C65_long_double_B_20` and `C64_double_20` apply. -/
example : ∃ x : Num doubles, ecdf1Mns2016bX (ieeeConv doubles x87) suiteWorld.env [roundNum doubles (1 / 2)] = .ok x ∧ |x.val - 1 / 2| ≤ 1 / 10 ^ 10 := by
  obtain ⟨h, e⟩ := half_double
  have hb : ValidBound (fun i : Fin 1 => (roundNum doubles (1 / 2)).val) := by
    rw [e]
    exact valid_const (by show (0 : ℝ) ≤ 1 / 2; norm_num) (by show (1 / 2 : ℝ) ≤ 1; norm_num)
  have hP : (lowerProb fun i : Fin 1 => (roundNum doubles (1 / 2)).val) = 1 / 2 := by
    rw [← noncrossProb_ones (B := fun _ => 1) fun _ => le_rfl, e]
    rw [eval_noncross (D := 2) (L := [(1, .bSTEP), (2, .BSTEP)]) (nb := [1]) (nB := [2]) (by norm_num) (by simp [List.ofFn_succ]; rfl) (by simp [List.ofFn_succ]) (by decide) (by decide) (by decide) (by decide),
      show evalN 1 2 [(1, .bSTEP), (2, .BSTEP)] = 1 by decide +kernel]
    norm_num
  obtain ⟨x, hx, -, hxe⟩ := C65_long_double_20 (D := doubles) (A := x87) rfl x87_longDouble (n := 1) (by norm_num) (x87_machine (by norm_num)).libm
    (x87_machine (by norm_num)).pow suiteWorld.env (b := fun _ => roundNum doubles (1 / 2)) (fun _ => by rw [e]; exact ⟨_, _, rfl⟩) hb (by rw [hP]; norm_num)
  rw [hP] at hxe
  exact ⟨x, by simpa [List.ofFn_succ] using hx, hxe⟩

example : ∃ x : Num doubles, ecdf1Mns2016b suiteWorld.env [roundNum doubles (1 / 2)] = .ok x ∧ |x.val - 1 / 2| ≤ 6 / 10 ^ 8 := by
  obtain ⟨h, e⟩ := half_double
  have hb : ValidBound (fun i : Fin 1 => (roundNum doubles (1 / 2)).val) := by
    rw [e]
    exact valid_const (by show (0 : ℝ) ≤ 1 / 2; norm_num) (by show (1 / 2 : ℝ) ≤ 1; norm_num)
  have hP : (lowerProb fun i : Fin 1 => (roundNum doubles (1 / 2)).val) = 1 / 2 := by
    rw [← noncrossProb_ones (B := fun _ => 1) fun _ => le_rfl, e]
    rw [eval_noncross (D := 2) (L := [(1, .bSTEP), (2, .BSTEP)]) (nb := [1]) (nB := [2]) (by norm_num) (by simp [List.ofFn_succ]; rfl) (by simp [List.ofFn_succ]) (by decide) (by decide) (by decide) (by decide),
      show evalN 1 2 [(1, .bSTEP), (2, .BSTEP)] = 1 by decide +kernel]
    norm_num
  have hu : (2 : ℝ) ^ (-(binary64.p : ℤ)) ≤ u50 := by unfold u50; exact zpow_le_zpow_right₀ (by norm_num) (by norm_num [binary64])
  obtain ⟨x, hx, -, hxe⟩ := C64_double_20 (A := doubles) rfl (n := 1) (by norm_num) (correct_libm binary64_wide hu (by norm_num))
    (correct_pow binary64_wide hu (by norm_num)) suiteWorld.env (b := fun _ => roundNum doubles (1 / 2)) (fun _ => by rw [e]; exact ⟨_, _, rfl⟩) hb (by rw [hP]; norm_num)
  rw [hP] at hxe
  exact ⟨x, by simpa [List.ofFn_succ] using hx, hxe⟩

end
end CP.Props
