import Verif.Props.FastMns
import Verif.Props.FastProgram
import Verif.Proofs.FastMnsStrict
/-
Property C68, end to end: the command-line program with all three algorithms as compiled with `-ffast-math`, from the text of the file to
the printed digits, and the whole deterministic part of the repository's test-suite.
-/
open MeasureTheory Set
namespace CP.Props
open CP.Spec FOps
noncomputable section

variable {D A : FloatSystem}

/-- `ecdf1_mns2016` as compiled, with IEEE doubles outside and inside a `long double` of at least the x87 extended format whose library
is accurate to four units in the last place of that format: every choice of the compiler is legal, no term of the sum in `evaluate` passes
through more than 100 additional roundings, and the code for `pow` is no worse than 20 multiplications. -/
structure FastLongMachine (p : FastProgram (Num D) (Num A)) (ex n : ℕ) : Prop where
  long : p.long = ieeeConv D A
  depth : ex ≤ 100
  mns : MnsCode.Legal p.mns ex
  mnsAcc : MnsIeee A u61 20 n p.mns
  format : LongDoubleFormat A.f
  libm : LibmAccurate A u61 n

/-- From a computed double to what the program writes. -/
theorem fast_mns_printed {G : Type} [FOps G] {p : FastProgram (Num D) G} {w : World (Num D)} {fmt : Num D → Str} (hprint : PrintSpec fmt Num.real?) (ioWhat : Str) {name : Str}
    {b B : List (Num D)} (hread : readAndCheckBoundariesFile w.libc w.fs name = .ok (b, B)) {x : Num D} (hx : x.finite)
    (h : (b ≠ [] ∧ B = [] ∧ ecdf1Mns2016bXFast p.mns p.long w.env b = .ok x) ∨ (b = [] ∧ B ≠ [] ∧ ecdf1Mns2016BXFast p.mns p.long w.env B = .ok x))
    {P tol : ℝ} {s : Str} (hs : PrintsAs P tol s) (he : |x.val - P| ≤ tol) :
    crossprobRunFast p w fmt ioWhat ["ecdf1-mns2016".toList, name] = .exited 0 (s ++ ['\n']) := by
  obtain ⟨a, ha, rfl⟩ := hx
  obtain ⟨h0, h1⟩ := hs a he
  obtain ⟨m, X, h2, h3⟩ := hprint.pos (mkNum D a ha) a rfl h0
  have hc : calculateEcdf1Mns2016IOXFast p.mns p.long w b B = .lift (.ok (mkNum D a ha)) := by
    unfold calculateEcdf1Mns2016IOXFast
    rcases h with ⟨h4, rfl, h5⟩ | ⟨rfl, h4, h5⟩
    · rw [if_pos ⟨List.length_pos_iff.mpr h4, rfl⟩, h5]
    · rw [if_neg (by simp), if_pos ⟨rfl, List.length_pos_iff.mpr h4⟩, h5]
  have hh : handleCommandLineArgumentsIOFast p w fmt "ecdf1-mns2016".toList name = ⟨fmt (mkNum D a ha) ++ ['\n'], .ok ()⟩ := by
    unfold handleCommandLineArgumentsIOFast
    rw [hread]
    simp only [if_true]
    have : ∀ r : OutM (Num D), r = .lift (.ok (mkNum D a ha)) → (OutM.bind r fun result => OutM.put (fmt result ++ ['\n'])) = ⟨fmt (mkNum D a ha) ++ ['\n'], .ok ()⟩ := by
      rintro r rfl; rfl
    exact this _ hc
  unfold crossprobRunFast
  dsimp only
  rw [hh, ← h1 m X h2, ← h3]

/-- `crossprob ecdf1-mns2016 file`, given what was read from the file: only a lower boundary. -/
theorem fast_mns_lower {p : FastProgram (Num D) (Num A)} {ex : ℕ} (w : World (Num D)) {fmt : Num D → Str} {inRange : ℝ → Prop} {n : ℕ} (hM : DoubleMachine w fmt inRange n)
    (hp : FastLongMachine p ex n) (ioWhat : Str) (hn : 1 ≤ n) (hn' : n ≤ 20) {v : Fin n → ℝ} (hv : ValidBound v)
    {name : Str} (hread : readAndCheckBoundariesFile w.libc w.fs name = .ok (List.ofFn fun i => roundNum D (v i), []))
    (hP : 1 / 10 ^ 8 ≤ lowerProb v) {s : Str} (hs : PrintsAs (lowerProb v) (1 / 10 ^ 9) s) :
    crossprobRunFast p w fmt ioWhat ["ecdf1-mns2016".toList, name] = .exited 0 (s ++ ['\n']) := by
  obtain ⟨b1, -, b3, b4⟩ := double_read (A := D) hM.format hv
  have hsh := (lower_lipschitz (fun i => (roundNum D (v i)).val) v).trans (sum_shift_20 hn' b4)
  have h5 := abs_le.mp hsh
  obtain ⟨x, hx, hxf, hxe⟩ := C68_long_double_20 hM.format hp.format hn' hp.depth hp.mns hp.mnsAcc hp.libm w.env b1 b3 (by norm_num at hP h5 ⊢; linarith)
  have hne : (List.ofFn fun i => roundNum D (v i)) ≠ [] := by rw [ne_eq, List.ofFn_eq_nil_iff]; omega
  refine fast_mns_printed hM.print ioWhat hread hxf (Or.inl ⟨hne, rfl, by rw [hp.long]; exact hx⟩) hs ?_
  have := abs_sub_le x.val (lowerProb fun i => (roundNum D (v i)).val) (lowerProb v)
  refine this.trans ((add_le_add hxe hsh).trans ?_)
  norm_num

/-- `crossprob ecdf1-mns2016 file`, given what was read from the file: only an upper boundary. -/
theorem fast_mns_upper {p : FastProgram (Num D) (Num A)} {ex : ℕ} (w : World (Num D)) {fmt : Num D → Str} {inRange : ℝ → Prop} {n : ℕ} (hM : DoubleMachine w fmt inRange n)
    (hp : FastLongMachine p ex n) (ioWhat : Str) (hn : 1 ≤ n) (hn' : n ≤ 20) {v : Fin n → ℝ} (hv : ValidBound v)
    {name : Str} (hread : readAndCheckBoundariesFile w.libc w.fs name = .ok ([], List.ofFn fun i => roundNum D (v i)))
    (hP : 1 / 10 ^ 8 ≤ upperProb v) {s : Str} (hs : PrintsAs (upperProb v) (1 / 10 ^ 9) s) :
    crossprobRunFast p w fmt ioWhat ["ecdf1-mns2016".toList, name] = .exited 0 (s ++ ['\n']) := by
  obtain ⟨b1, -, b3, b4⟩ := double_read (A := D) hM.format hv
  have hsh := (upper_lipschitz (fun i => (roundNum D (v i)).val) v).trans (sum_shift_20 hn' b4)
  have h5 := abs_le.mp hsh
  obtain ⟨x, hx, hxf, hxe⟩ := C68_long_double_B_20 hM.format hp.format hn' hp.depth hp.mns hp.mnsAcc hp.libm w.env b1 b3 (by norm_num at hP h5 ⊢; linarith)
  have hne : (List.ofFn fun i => roundNum D (v i)) ≠ [] := by rw [ne_eq, List.ofFn_eq_nil_iff]; omega
  refine fast_mns_printed hM.print ioWhat hread hxf (Or.inr ⟨rfl, hne, by rw [hp.long]; exact hx⟩) hs ?_
  have := abs_sub_le x.val (upperProb fun i => (roundNum D (v i)).val) (upperProb v)
  refine this.trans ((add_le_add hxe hsh).trans ?_)
  norm_num

/-- C68: `crossprob ecdf1-mns2016 file` as compiled with `-ffast-math`, with IEEE doubles and `long double` inside, on a file with only a lower boundary of up to 20
points whose probability `P` is at least `1e-8`.  If every number within `1e-9` of `P` is written `s` with six significant digits, the
program writes `s`, a newline and nothing else, and exits with 0. -/
theorem C68_program_lower {p : FastProgram (Num D) (Num A)} {ex : ℕ} (w : World (Num D)) {fmt : Num D → Str} {inRange : ℝ → Prop} {n : ℕ} (hM : DoubleMachine w fmt inRange n)
    (hp : FastLongMachine p ex n) (ioWhat : Str) (hn : 1 ≤ n) (hn' : n ≤ 20) (fs : Fin n → Field) (hfs : ∀ i, (fs i).WF)
    (hin : ∀ i, inRange (fs i).num.value) (hv : ValidBound (valuesOf fs))
    (name text : Str) (hfile : w.fs name = .contents text) (hlines : FirstTwoLines text (lineOf fs) [])
    {P : ℝ} (hP : P = lowerProb (valuesOf fs)) (hP8 : 1 / 10 ^ 8 ≤ P) {s : Str} (hs : PrintsAs P (1 / 10 ^ 9) s) :
    crossprobRunFast p w fmt ioWhat ["ecdf1-mns2016".toList, name] = .exited 0 (s ++ ['\n']) := by
  subst hP
  have he : lineOf (n := 0) Fin.elim0 = [] := by simp [lineOf, List.intercalate]
  have hr := read_file hM.strtod (n := n) (m := 0) fs Fin.elim0 hfs (fun i => i.elim0) hin (fun i => i.elim0) hfile (by rw [he]; exact hlines)
  exact fast_mns_lower w hM hp ioWhat hn hn' hv (hr.trans (by simp)) hP8 hs

/-- C68: `crossprob ecdf1-mns2016 file` on a file with only an upper boundary of up to 20 points. -/
theorem C68_program_upper {p : FastProgram (Num D) (Num A)} {ex : ℕ} (w : World (Num D)) {fmt : Num D → Str} {inRange : ℝ → Prop} {n : ℕ} (hM : DoubleMachine w fmt inRange n)
    (hp : FastLongMachine p ex n) (ioWhat : Str) (hn : 1 ≤ n) (hn' : n ≤ 20) (fs : Fin n → Field) (hfs : ∀ i, (fs i).WF)
    (hin : ∀ i, inRange (fs i).num.value) (hv : ValidBound (valuesOf fs))
    (name text : Str) (hfile : w.fs name = .contents text) (hlines : FirstTwoLines text [] (lineOf fs))
    {P : ℝ} (hP : P = upperProb (valuesOf fs)) (hP8 : 1 / 10 ^ 8 ≤ P) {s : Str} (hs : PrintsAs P (1 / 10 ^ 9) s) :
    crossprobRunFast p w fmt ioWhat ["ecdf1-mns2016".toList, name] = .exited 0 (s ++ ['\n']) := by
  subst hP
  have he : lineOf (n := 0) Fin.elim0 = [] := by simp [lineOf, List.intercalate]
  have hr := read_file hM.strtod (n := 0) (m := n) Fin.elim0 fs (fun i => i.elim0) hfs (fun i => i.elim0) hin hfile (by rw [he]; exact hlines)
  exact fast_mns_upper w hM hp ioWhat hn hn' hv (hr.trans (by simp)) hP8 hs

/-- C68, the repository's test-suite, complete: on every machine with IEEE-754 doubles and a `long double` of at least the x87
extended format, with all three algorithms compiled with `-ffast-math` in any legal way (any rounding rule for ties, any libm accurate to four units in the last place, any conforming `strtod` and output
routine, any sorting algorithm, any FFT library, with or without assertions) all deterministic assertions of `tests/test_crossprob.py`
hold: the program writes the expected digits and exits with 0. -/
theorem C68_suite {p : FastProgram (Num D) (Num A)} {ex : ℕ} (w : World (Num D)) {fmt : Num D → Str} {inRange : ℝ → Prop} (hM : ∀ n ≤ 10, DoubleMachine w fmt inRange n)
    {e2 : ℕ} (hq : FastMachine p e2) (hp : ∀ n ≤ 10, FastLongMachine p ex n)
    (ioWhat : Str) (hin : ∀ v, (v = 0 ∨ 1 / 100 ≤ v ∧ v ≤ 1) → inRange v)
    (ha : w.env.asserts = false ∨ ∀ n, 3 ≤ n → w.isqrt n + 1 ≤ n)
    (hfiles : ∀ f ∈ suiteFiles, w.fs f.1 = .contents f.2) {command name expected : Str} (ht : (command, name, expected) ∈ suite ++ suiteMns) :
    crossprobRunFast p w fmt ioWhat [command, name] = .exited 0 (expected ++ ['\n']) := by
  rw [List.mem_append] at ht
  rcases ht with ht | ht
  · exact C67_suite hq w hM ioWhat hin ha hfiles ht
  simp only [suiteFiles, List.forall_mem_cons, List.not_mem_nil, false_implies, implies_true, and_true] at hfiles
  obtain ⟨f01, f2, f8, fP, fM, f0, f1⟩ := hfiles
  have n1 : crossprobRunFast p w fmt ioWhat ["ecdf1-mns2016".toList, "tests/bounds_0.txt".toList] = .exited 0 ("1".toList ++ ['\n']) := by
    refine fast_mns_lower w (hM 3 (by norm_num)) (hp 3 (by norm_num)) ioWhat (by norm_num) (by norm_num) (v := valuesOf (fieldsOf line000 line000_len))
      (valid_fields _ (by decide) (by decide)) ?_ (by rw [prints_000 rfl]; norm_num) (by rw [prints_000 rfl]; exact printsAs_one (by norm_num))
    rw [C30_two_lines w.libc w.fs _ _ ("0, 0, 0,".toList) [] f0 ⟨by decide, by decide, Or.inl ⟨[], by decide +kernel⟩⟩]
    have h1 := C28_trailing_comma (hM 3 (by norm_num)).strtod (List.ofFn (fieldsOf line000 line000_len)) (by decide)
      (List.forall_mem_ofFn_iff.mpr (fieldsOf_wf _ (by decide)))
      (List.forall_mem_ofFn_iff.mpr (range_fields line000_len (by decide) hin (by decide)))
    have e : List.intercalate [','] ((List.ofFn (fieldsOf line000 line000_len)).map Field.text) ++ [','] = "0, 0, 0,".toList := by
      have := line_fields line000 line000_len
      unfold lineOf at this
      rw [this]; decide
    rw [e] at h1
    rw [h1, C28_empty, List.map_ofFn]
    rfl
  have n2 : crossprobRunFast p w fmt ioWhat ["ecdf1-mns2016".toList, "tests/bounds__1.txt".toList] = .exited 0 ("1".toList ++ ['\n']) := by
    refine C68_program_upper w (hM 3 (by norm_num)) (hp 3 (by norm_num)) ioWhat (by norm_num) (by norm_num) (fieldsOf line111 line111_len)
      (fieldsOf_wf _ (by decide)) (range_fields _ (by decide) hin (by decide)) (valid_fields _ (by decide) (by decide))
      _ _ f1 ?_ (prints_111 rfl).symm (by norm_num) (printsAs_one (by norm_num))
    rw [line_fields]
    exact ⟨by decide, by decide, Or.inl ⟨[], by decide +kernel⟩⟩
  have n3 : crossprobRunFast p w fmt ioWhat ["ecdf1-mns2016".toList, "tests/bounds_cksminus_10.txt".toList] =
      .exited 0 ("0.608924".toList ++ ['\n']) := by
    refine C68_program_upper w (hM 10 (by norm_num)) (hp 10 (by norm_num)) ioWhat (by norm_num) (by norm_num) (fieldsOf lineM lineM_len)
      (fieldsOf_wf _ (by decide)) (range_fields _ (by decide) hin (by decide)) (valid_fields _ (by decide) (by decide))
      _ _ fM ?_ rfl ?_ (PrintsAs.mono (prints_M rfl).1 (by norm_num))
    · rw [line_fields]
      exact ⟨by decide, by decide, Or.inl ⟨[], by decide +kernel⟩⟩
    · rw [← noncrossProb_zeros (b := fun _ => 0) fun _ => le_rfl]
      exact big_of_check (ofFn_zero _) (ofFn_fields _ (by decide)) (by decide +kernel)
  have n4 : crossprobRunFast p w fmt ioWhat ["ecdf1-mns2016".toList, "tests/bounds_cksplus_10.txt".toList] =
      .exited 0 ("0.608924".toList ++ ['\n']) := by
    refine C68_program_lower w (hM 10 (by norm_num)) (hp 10 (by norm_num)) ioWhat (by norm_num) (by norm_num) (fieldsOf lineP lineP_len)
      (fieldsOf_wf _ (by decide)) (range_fields _ (by decide) hin (by decide)) (valid_fields _ (by decide) (by decide))
      _ _ fP ?_ rfl ?_ (PrintsAs.mono (prints_P rfl).1 (by norm_num))
    · rw [line_fields]
      exact ⟨by decide, by decide, Or.inl ⟨[], by decide +kernel⟩⟩
    · rw [← noncrossProb_ones (B := fun _ => 1) fun _ => le_rfl]
      exact big_of_check (ofFn_fields _ (by decide)) (ofFn_one _) (by decide +kernel)
  simp only [suiteMns, List.mem_cons, List.not_mem_nil, or_false, Prod.mk.injEq] at ht
  rcases ht with ⟨rfl, rfl, rfl⟩ | ⟨rfl, rfl, rfl⟩ | ⟨rfl, rfl, rfl⟩ | ⟨rfl, rfl, rfl⟩
  exacts [n1, n2, n3, n4]

/-- C68, consistency: the compiled code that follows the source to the letter is legal and returns what the model of the source
returns. -/
theorem C68_strict {F G : Type} [FOps F] [FOps G] (fma : G → G → G → G) (L : LongDouble F G) (env : Env F) (v : List F) :
    MnsCode.Legal (strictMns fma) 0 ∧
    (∀ x, ecdf1Mns2016bX L env v = .ok x → ecdf1Mns2016bXFast (strictMns fma) L env v = .ok x) ∧
    (∀ x, ecdf1Mns2016BX L env v = .ok x → ecdf1Mns2016BXFast (strictMns fma) L env v = .ok x) :=
  ⟨strictMns_legal fma, ecdf1Mns2016b_strict fma L env v, ecdf1Mns2016B_strict fma L env v⟩

/-! ### The assumptions can be met -/

theorem twoLanesMns_legal (A : FloatSystem) : MnsCode.Legal (twoLanesMns A) 0 where
  sum := fun site d => (twoLanes_legal (exactFma A)).sum site d
  height := fun site d => (twoLanes_legal (exactFma A)).height site d
  coeffs := rfl
  uses := rfl

theorem twoLanesMns_ieee {A : FloatSystem} {n : ℕ} (h : LongDoubleMachine A n) : MnsIeee A u61 20 n (twoLanesMns A) where
  fma := fun _ _ _ _ _ _ => rfl
  powi := fun _ x hx k hk hO => h.pow x hx k hk hO
  exp := h.libm.exp

theorem twoLanesProgram_long {n : ℕ} (hn : n ≤ 2 ^ 64) : FastLongMachine twoLanesProgram 0 n where
  long := rfl
  depth := by norm_num
  mns := twoLanesMns_legal x87
  mnsAcc := twoLanesMns_ieee (x87_machine hn)
  format := x87_longDouble
  libm := (x87_machine hn).libm

/-- The whole suite, compiled with two accumulators, fused multiply-add and reciprocals, on a machine with doubles, x87 `long double` and
an FFT library that always returns NaN. -/
example {command name expected : Str} (ht : (command, name, expected) ∈ suite ++ suiteMns) :
    crossprobRunFast twoLanesProgram suiteWorld doublePrint [] [command, name] = .exited 0 (expected ++ ['\n']) := by
  refine C68_suite suiteWorld (inRange := fun _ => True) (fun n hn => ?_) twoLanesProgram_ok (fun n hn => twoLanesProgram_long (by omega)) [] (fun _ _ => trivial) (Or.inl rfl) ?_ ht
  · have hM := brokenWorld_ok [] (n := n) (by omega)
    exact ⟨hM.format, hM.libm, hM.strtod, hM.print, hM.sortPerm, hM.sortSorted⟩
  · intro f hf
    simp only [suiteFiles, List.mem_cons, List.not_mem_nil, or_false] at hf
    rcases hf with rfl | rfl | rfl | rfl | rfl | rfl | rfl <;> exact suiteWorld_file (by decide +kernel)

/-- One point: `Pr[X ≥ 1/2] = 1/2`; `C68_long_double_20` applies. -/
example : ∃ x : Num doubles, ecdf1Mns2016bXFast (twoLanesMns x87) (ieeeConv doubles x87) suiteWorld.env [roundNum doubles (1 / 2)] = .ok x ∧ |x.val - 1 / 2| ≤ 2 / 10 ^ 10 := by
  obtain ⟨h, e⟩ := half_double
  have hb : ValidBound (fun i : Fin 1 => (roundNum doubles (1 / 2)).val) := by
    rw [e]
    exact valid_const (by show (0 : ℝ) ≤ 1 / 2; norm_num) (by show (1 / 2 : ℝ) ≤ 1; norm_num)
  have hP : (lowerProb fun i : Fin 1 => (roundNum doubles (1 / 2)).val) = 1 / 2 := by
    rw [← noncrossProb_ones (B := fun _ => 1) fun _ => le_rfl, e]
    rw [eval_noncross (D := 2) (L := [(1, .bSTEP), (2, .BSTEP)]) (nb := [1]) (nB := [2]) (by norm_num) (by simp [List.ofFn_succ]; rfl) (by simp [List.ofFn_succ]) (by decide) (by decide) (by decide) (by decide),
      show evalN 1 2 [(1, .bSTEP), (2, .BSTEP)] = 1 by decide +kernel]
    norm_num
  obtain ⟨x, hx, -, hxe⟩ := C68_long_double_20 (Dd := doubles) (A := x87) rfl x87_longDouble (n := 1) (by norm_num) (by norm_num) (twoLanesMns_legal x87)
    (twoLanesMns_ieee (x87_machine (by norm_num))) (x87_machine (by norm_num)).libm suiteWorld.env (b := fun _ => roundNum doubles (1 / 2)) (fun _ => by rw [e]; exact ⟨_, _, rfl⟩) hb (by rw [hP]; norm_num)
  rw [hP] at hxe
  exact ⟨x, by simpa [List.ofFn_succ] using hx, hxe⟩

end
end CP.Props
