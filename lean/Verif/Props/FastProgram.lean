import Verif.Props.FastNew
import Verif.Proofs.FastNewStrict
import Verif.Model.FastProgram
import Verif.Props.LongDoubleProgram
/-
Property C67, end to end: the command-line program as compiled, from the text of the file to the printed digits, and the deterministic
part of the repository's test-suite.
-/
open MeasureTheory Set
namespace CP.Props
open CP.Spec FOps
noncomputable section

variable {D : FloatSystem}

/-- A compiled program on IEEE doubles: every choice of the compiler is legal, no term of an inner sum passes through more than 1000
additional roundings, fused multiply-add and `exp` are accurate to four units in the last place. -/
structure FastMachine {G : Type} (p : FastProgram (Num D) G) (e : ℕ) : Prop where
  depth : e ≤ 1000
  ks2001 : FastCode.Legal p.ks2001 e
  ks2001Acc : FastIeee D u50 p.ks2001
  mn2017 : FastCode.Legal p.mn2017 e
  mn2017Acc : FastIeee D u50 p.mn2017
  new : FastCode.Legal p.new.toFastCode e
  newAcc : FastIeee D u50 p.new.toFastCode

/-- From a successful computation to what the program writes. -/
theorem runFast_of {G : Type} [FOps G] {p : FastProgram (Num D) G} {w : World (Num D)} {fmt : Num D → Str} (hprint : PrintSpec fmt Num.real?)
    (ioWhat : Str) {command name : Str} {b B : List (Num D)} (hread : readAndCheckBoundariesFile w.libc w.fs name = .ok (b, B))
    {x : Num D} (hx : x.finite)
    (h : (command = "ecdf1-new".toList ∧ calculateEcdf1NewIOFast p.new w b B = .lift (.ok x)) ∨
      (command = "ecdf2-ks2001".toList ∧ calculateEcdf2Fast p.ks2001 w false b B = .ok x) ∨
      (command = "ecdf2-mn2017".toList ∧ calculateEcdf2Fast p.mn2017 w true b B = .ok x))
    {P tol : ℝ} {s : Str} (hs : PrintsAs P tol s) (he : |x.val - P| ≤ tol) :
    crossprobRunFast p w fmt ioWhat [command, name] = .exited 0 (s ++ ['\n']) := by
  obtain ⟨a, ha, rfl⟩ := hx
  obtain ⟨h0, h1⟩ := hs a he
  obtain ⟨m, X, h2, h3⟩ := hprint.pos (mkNum D a ha) a rfl h0
  have hh : handleCommandLineArgumentsIOFast p w fmt command name = ⟨fmt (mkNum D a ha) ++ ['\n'], .ok ()⟩ := by
    have key : ∀ r : OutM (Num D), r = .lift (.ok (mkNum D a ha)) → (OutM.bind r fun result => OutM.put (fmt result ++ ['\n'])) = ⟨fmt (mkNum D a ha) ++ ['\n'], .ok ()⟩ := by
      rintro r rfl; rfl
    unfold handleCommandLineArgumentsIOFast
    rw [hread]
    rcases h with ⟨rfl, h⟩ | ⟨rfl, h⟩ | ⟨rfl, h⟩
    · have n1 : ¬ "ecdf1-new".toList = "ecdf1-mns2016".toList := by decide
      simp only [if_neg n1, if_true]
      exact key _ h
    · have n1 : ¬ "ecdf2-ks2001".toList = "ecdf1-mns2016".toList := by decide
      have n2 : ¬ "ecdf2-ks2001".toList = "ecdf1-new".toList := by decide
      simp only [if_neg n1, if_neg n2, if_true]
      exact key _ (by rw [h])
    · have n1 : ¬ "ecdf2-mn2017".toList = "ecdf1-mns2016".toList := by decide
      have n2 : ¬ "ecdf2-mn2017".toList = "ecdf1-new".toList := by decide
      have n3 : ¬ "ecdf2-mn2017".toList = "ecdf2-ks2001".toList := by decide
      simp only [if_neg n1, if_neg n2, if_neg n3, if_true]
      exact key _ (by rw [h])
  unfold crossprobRunFast
  dsimp only
  rw [hh, ← h1 m X h2, ← h3]

theorem calculate_padded {c : FastCode (Num D)} {w : World (Num D)} {useFft : Bool} {lb lB b B : List (Num D)} {n : ℕ} (hb : b.length = n)
    (hB : B.length = n) (hn : 1 ≤ n) (hpad : Computes.Padded lb lB b B) :
    calculateEcdf2Fast c w useFft lb lB = ecdf2Fast c w.env w.sort b B useFft := by
  unfold calculateEcdf2Fast
  dsimp only
  rcases hpad with ⟨h1, rfl, rfl⟩ | ⟨rfl, h1, rfl, rfl⟩ | ⟨h1, rfl, rfl, rfl⟩
  · rw [if_pos (by omega)]
  · have : 0 < B.length := List.length_pos_iff.mpr h1
    rw [if_neg (by simp only [List.length_nil]; omega), if_pos (by simp)]
    simp
  · have : 0 < b.length := List.length_pos_iff.mpr h1
    rw [if_neg (by simp only [List.length_nil]; omega), if_neg (by omega), if_pos (by simp)]
    simp

variable {G : Type} [FOps G]

/-- Both two-sided commands, given what was read from the file. -/
theorem fast_ecdf2 {p : FastProgram (Num D) G} {e : ℕ} (hp : FastMachine p e) (w : World (Num D)) {fmt : Num D → Str} {inRange : ℝ → Prop} {n : ℕ} (hM : DoubleMachine w fmt inRange n)
    (ioWhat : Str) (hn : 1 ≤ n) (hn' : n ≤ 100) {b B : Fin n → ℝ} (hb : ValidBound b) (hB : ValidBound B)
    (ha : w.env.asserts = false ∨ ¬ StronglyCrossed b B) {name : Str} {lb lB : List (Num D)}
    (hread : readAndCheckBoundariesFile w.libc w.fs name = .ok (lb, lB))
    (hpad : Computes.Padded lb lB (List.ofFn fun i => roundNum D (b i)) (List.ofFn fun i => roundNum D (B i)))
    {s : Str} (hs : PrintsAs (noncrossProb b B) (1 / 10 ^ 7 * noncrossProb b B + 1 / 10 ^ 11) s)
    {command : Str} (hc : command = "ecdf2-ks2001".toList ∨ command = "ecdf2-mn2017".toList) :
    crossprobRunFast p w fmt ioWhat [command, name] = .exited 0 (s ++ ['\n']) := by
  obtain ⟨b1, -, b3, b4⟩ := double_read (A := D) hM.format hb
  obtain ⟨B1, -, B3, B4⟩ := double_read (A := D) hM.format hB
  have hsh := read_shift hn' b4 B4
  have acc : ∀ {x q : ℝ}, |x - q| ≤ 7 / 10 ^ 8 * q + (2 : ℝ) ^ (-1000 : ℤ) → |q - noncrossProb b B| ≤ ((100 : ℕ) : ℝ) ^ 2 / 2 ^ 51 →
      |x - noncrossProb b B| ≤ 1 / 10 ^ 7 * noncrossProb b B + 1 / 10 ^ 11 := by
    intro x q hxe hsh
    have hP : 0 ≤ noncrossProb b B := measureReal_nonneg
    have htiny : (2 : ℝ) ^ (-1000 : ℤ) ≤ 1 / 10 ^ 20 :=
      (zpow_le_zpow_right₀ (by norm_num) (by norm_num) : (2 : ℝ) ^ (-1000 : ℤ) ≤ 2 ^ (-100 : ℤ)).trans (by norm_num)
    have e1 : ((100 : ℕ) : ℝ) ^ 2 / 2 ^ 51 ≤ 5 / 10 ^ 12 := by norm_num
    have h1 := abs_le.mp (hsh.trans e1)
    have h2 := abs_sub_le x q (noncrossProb b B)
    have h3 : 7 / 10 ^ 8 * q ≤ 7 / 10 ^ 8 * (noncrossProb b B + 5 / 10 ^ 12) := mul_le_mul_of_nonneg_left (by linarith) (by norm_num)
    have h4 := hxe.trans (add_le_add h3 htiny)
    have h5 := hsh.trans e1
    linarith
  have ha' := ha.imp id (not_crossed hM.format hb hB)
  rcases hc with rfl | rfl
  · obtain ⟨x, hx, hxf, -, hxe, -⟩ := C66_double_100 hM.format hp.ks2001Acc hp.ks2001 hp.depth hn hn' hM.libm false w.env b1 B1 b3 B3 hM.sortPerm hM.sortSorted ha'
    exact runFast_of hM.print ioWhat hread hxf (Or.inr (Or.inl ⟨rfl, (calculate_padded (by simp) (by simp) hn hpad).trans hx⟩)) hs (acc hxe hsh)
  · obtain ⟨x, hx, hxf, -, hxe, -⟩ := C66_double_100 hM.format hp.mn2017Acc hp.mn2017 hp.depth hn hn' hM.libm true w.env b1 B1 b3 B3 hM.sortPerm hM.sortSorted ha'
    exact runFast_of hM.print ioWhat hread hxf (Or.inr (Or.inr ⟨rfl, (calculate_padded (by simp) (by simp) hn hpad).trans hx⟩)) hs (acc hxe hsh)

/-- C67: `crossprob ecdf2-ks2001 file` and `crossprob ecdf2-mn2017 file` in IEEE-754 double precision with any FFT library, on a file with
two valid boundaries of up to 100 points.  If every number within `1e-7 P + 1e-11` of the probability `P` is written `s` with six
significant digits, the program writes `s`, a newline and nothing else, and exits with 0. -/
theorem C67_program_two_sided {p : FastProgram (Num D) G} {e : ℕ} (hp : FastMachine p e) (w : World (Num D)) {fmt : Num D → Str} {inRange : ℝ → Prop} {n : ℕ} (hM : DoubleMachine w fmt inRange n)
    (ioWhat : Str) (hn : 1 ≤ n) (hn' : n ≤ 100) (fb fB : Fin n → Field) (hfb : ∀ i, (fb i).WF) (hfB : ∀ i, (fB i).WF)
    (hinb : ∀ i, inRange (fb i).num.value) (hinB : ∀ i, inRange (fB i).num.value)
    (hb : ValidBound (valuesOf fb)) (hB : ValidBound (valuesOf fB))
    (ha : w.env.asserts = false ∨ ¬ StronglyCrossed (valuesOf fb) (valuesOf fB))
    (name text : Str) (hfile : w.fs name = .contents text) (hlines : FirstTwoLines text (lineOf fb) (lineOf fB))
    {P : ℝ} (hP : P = noncrossProb (valuesOf fb) (valuesOf fB)) {s : Str} (hs : PrintsAs P (1 / 10 ^ 7 * P + 1 / 10 ^ 11) s)
    {command : Str} (hc : command = "ecdf2-ks2001".toList ∨ command = "ecdf2-mn2017".toList) :
    crossprobRunFast p w fmt ioWhat [command, name] = .exited 0 (s ++ ['\n']) := by
  subst hP
  exact fast_ecdf2 hp w hM ioWhat hn hn' hb hB ha (read_file hM.strtod fb fB hfb hfB hinb hinB hfile hlines)
    (Or.inl ⟨by simp, rfl, rfl⟩) hs hc

/-- C67: the two-sided commands on a file with only an upper boundary. -/
theorem C67_program_two_sided_upper {p : FastProgram (Num D) G} {e : ℕ} (hp : FastMachine p e) (w : World (Num D)) {fmt : Num D → Str} {inRange : ℝ → Prop} {n : ℕ} (hM : DoubleMachine w fmt inRange n)
    (ioWhat : Str) (hn : 1 ≤ n) (hn' : n ≤ 100) (fs : Fin n → Field) (hfs : ∀ i, (fs i).WF)
    (hin : ∀ i, inRange (fs i).num.value) (hB : ValidBound (valuesOf fs))
    (name text : Str) (hfile : w.fs name = .contents text) (hlines : FirstTwoLines text [] (lineOf fs))
    {P : ℝ} (hP : P = upperProb (valuesOf fs)) {s : Str} (hs : PrintsAs P (1 / 10 ^ 7 * P + 1 / 10 ^ 11) s)
    {command : Str} (hc : command = "ecdf2-ks2001".toList ∨ command = "ecdf2-mn2017".toList) :
    crossprobRunFast p w fmt ioWhat [command, name] = .exited 0 (s ++ ['\n']) := by
  have he : lineOf (n := 0) Fin.elim0 = [] := by simp [lineOf, List.intercalate]
  have hz : noncrossProb (fun _ : Fin n => (0 : ℝ)) (valuesOf fs) = P := by rw [hP]; exact noncrossProb_zeros fun _ => le_rfl
  refine fast_ecdf2 hp w hM ioWhat hn hn' (valid_const le_rfl zero_le_one) hB (Or.inr ?_)
    (read_file hM.strtod (n := 0) (m := n) Fin.elim0 fs (fun i => i.elim0) hfs (fun i => i.elim0) hin hfile (by rw [he]; exact hlines))
    (Or.inr (Or.inl ⟨by simp, by rw [ne_eq, List.ofFn_eq_nil_iff]; omega, ?_, rfl⟩)) (by rw [hz]; exact hs) hc
  · rintro ⟨i, j, -, h⟩
    have := (hB.range i).1
    have := (hB.range j).1
    linarith
  · rw [List.length_ofFn, round_zero, replicate_ofFn]

/-- C67: the two-sided commands on a file with only a lower boundary. -/
theorem C67_program_two_sided_lower {p : FastProgram (Num D) G} {e : ℕ} (hp : FastMachine p e) (w : World (Num D)) {fmt : Num D → Str} {inRange : ℝ → Prop} {n : ℕ} (hM : DoubleMachine w fmt inRange n)
    (ioWhat : Str) (hn : 1 ≤ n) (hn' : n ≤ 100) (fs : Fin n → Field) (hfs : ∀ i, (fs i).WF)
    (hin : ∀ i, inRange (fs i).num.value) (hb : ValidBound (valuesOf fs))
    (name text : Str) (hfile : w.fs name = .contents text) (hlines : FirstTwoLines text (lineOf fs) [])
    {P : ℝ} (hP : P = lowerProb (valuesOf fs)) {s : Str} (hs : PrintsAs P (1 / 10 ^ 7 * P + 1 / 10 ^ 11) s)
    {command : Str} (hc : command = "ecdf2-ks2001".toList ∨ command = "ecdf2-mn2017".toList) :
    crossprobRunFast p w fmt ioWhat [command, name] = .exited 0 (s ++ ['\n']) := by
  have he : lineOf (n := 0) Fin.elim0 = [] := by simp [lineOf, List.intercalate]
  have hz : noncrossProb (valuesOf fs) (fun _ : Fin n => (1 : ℝ)) = P := by rw [hP]; exact noncrossProb_ones fun _ => le_rfl
  refine fast_ecdf2 hp w hM ioWhat hn hn' hb (valid_const zero_le_one le_rfl) (Or.inr ?_)
    (read_file hM.strtod (n := n) (m := 0) fs Fin.elim0 hfs (fun i => i.elim0) hin (fun i => i.elim0) hfile (by rw [he]; exact hlines))
    (Or.inr (Or.inr ⟨by rw [ne_eq, List.ofFn_eq_nil_iff]; omega, by simp, rfl, ?_⟩)) (by rw [hz]; exact hs) hc
  · rintro ⟨i, j, -, h⟩
    have := (hb.range i).2
    have := (hb.range j).2
    linarith
  · rw [List.length_ofFn, round_one, replicate_ofFn]

/-- `crossprob ecdf1-new file`, given what was read from the file: only an upper boundary. -/
theorem fast_new_upper {p : FastProgram (Num D) G} {e : ℕ} (hp : FastMachine p e) (w : World (Num D)) {fmt : Num D → Str} {inRange : ℝ → Prop} {n : ℕ} (hM : DoubleMachine w fmt inRange n)
    (ioWhat : Str) (hn : 1 ≤ n) (hn' : n ≤ 20) {v : Fin n → ℝ} (hv : ValidBound v) (ha : w.env.asserts = false ∨ w.isqrt n + 1 ≤ n)
    {name : Str} (hread : readAndCheckBoundariesFile w.libc w.fs name = .ok ([], List.ofFn fun i => roundNum D (v i)))
    {s : Str} (hs : PrintsAs (upperProb v) (1 / 10 ^ 7) s) :
    crossprobRunFast p w fmt ioWhat ["ecdf1-new".toList, name] = .exited 0 (s ++ ['\n']) := by
  obtain ⟨b1, -, b3, b4⟩ := double_read (A := D) hM.format hv
  obtain ⟨⟨x, hx, hxf, hxe⟩, -⟩ := C67_double_20 hM.format hp.newAcc hp.new hp.depth hn hn' hM.libm w.env b1 b3 w.isqrt ha
  have hne : (List.ofFn fun i => roundNum D (v i)) ≠ [] := by rw [ne_eq, List.ofFn_eq_nil_iff]; omega
  refine runFast_of hM.print ioWhat hread hxf (Or.inl ⟨rfl, ?_⟩) hs ?_
  · unfold calculateEcdf1NewIOFast
    rw [if_neg (by simp), if_pos ⟨rfl, List.length_pos_iff.mpr hne⟩, hx]
  · have hsh := (upper_lipschitz (fun i => (roundNum D (v i)).val) v).trans (sum_shift_20 hn' b4)
    have := abs_sub_le x.val (upperProb fun i => (roundNum D (v i)).val) (upperProb v)
    linarith

/-- `crossprob ecdf1-new file`, given what was read from the file: only a lower boundary. -/
theorem fast_new_lower {p : FastProgram (Num D) G} {e : ℕ} (hp : FastMachine p e) (w : World (Num D)) {fmt : Num D → Str} {inRange : ℝ → Prop} {n : ℕ} (hM : DoubleMachine w fmt inRange n)
    (ioWhat : Str) (hn : 1 ≤ n) (hn' : n ≤ 20) {v : Fin n → ℝ} (hv : ValidBound v) (ha : w.env.asserts = false ∨ w.isqrt n + 1 ≤ n)
    {name : Str} (hread : readAndCheckBoundariesFile w.libc w.fs name = .ok (List.ofFn fun i => roundNum D (v i), []))
    {s : Str} (hs : PrintsAs (lowerProb v) (1 / 10 ^ 7) s) :
    crossprobRunFast p w fmt ioWhat ["ecdf1-new".toList, name] = .exited 0 (s ++ ['\n']) := by
  obtain ⟨b1, -, b3, b4⟩ := double_read (A := D) hM.format hv
  obtain ⟨-, x, hx, hxf, hxe⟩ := C67_double_20 hM.format hp.newAcc hp.new hp.depth hn hn' hM.libm w.env b1 b3 w.isqrt ha
  have hne : (List.ofFn fun i => roundNum D (v i)) ≠ [] := by rw [ne_eq, List.ofFn_eq_nil_iff]; omega
  refine runFast_of hM.print ioWhat hread hxf (Or.inl ⟨rfl, ?_⟩) hs ?_
  · unfold calculateEcdf1NewIOFast
    rw [if_pos ⟨List.length_pos_iff.mpr hne, rfl⟩, hx]
  · have hsh := (lower_lipschitz (fun i => (roundNum D (v i)).val) v).trans (sum_shift_20 hn' b4)
    have := abs_sub_le x.val (lowerProb fun i => (roundNum D (v i)).val) (lowerProb v)
    linarith

/-- C67: `crossprob ecdf1-new file` in IEEE-754 double precision with any FFT library, on a file with only an upper boundary of up to 20
points.  If every number within `1e-7` of the probability `P` is written `s` with six significant digits, the program writes `s`, a
newline and nothing else, and exits with 0. -/
theorem C67_program_new_upper {p : FastProgram (Num D) G} {e : ℕ} (hp : FastMachine p e) (w : World (Num D)) {fmt : Num D → Str} {inRange : ℝ → Prop} {n : ℕ} (hM : DoubleMachine w fmt inRange n)
    (ioWhat : Str) (hn : 1 ≤ n) (hn' : n ≤ 20) (fs : Fin n → Field) (hfs : ∀ i, (fs i).WF)
    (hin : ∀ i, inRange (fs i).num.value) (hv : ValidBound (valuesOf fs)) (ha : w.env.asserts = false ∨ w.isqrt n + 1 ≤ n)
    (name text : Str) (hfile : w.fs name = .contents text) (hlines : FirstTwoLines text [] (lineOf fs))
    {P : ℝ} (hP : P = upperProb (valuesOf fs)) {s : Str} (hs : PrintsAs P (1 / 10 ^ 7) s) :
    crossprobRunFast p w fmt ioWhat ["ecdf1-new".toList, name] = .exited 0 (s ++ ['\n']) := by
  subst hP
  have he : lineOf (n := 0) Fin.elim0 = [] := by simp [lineOf, List.intercalate]
  have hr := read_file hM.strtod (n := 0) (m := n) Fin.elim0 fs (fun i => i.elim0) hfs (fun i => i.elim0) hin hfile (by rw [he]; exact hlines)
  exact fast_new_upper hp w hM ioWhat hn hn' hv ha (hr.trans (by simp)) hs

/-- C67: `crossprob ecdf1-new file` on a file with only a lower boundary of up to 20 points. -/
theorem C67_program_new_lower {p : FastProgram (Num D) G} {e : ℕ} (hp : FastMachine p e) (w : World (Num D)) {fmt : Num D → Str} {inRange : ℝ → Prop} {n : ℕ} (hM : DoubleMachine w fmt inRange n)
    (ioWhat : Str) (hn : 1 ≤ n) (hn' : n ≤ 20) (fs : Fin n → Field) (hfs : ∀ i, (fs i).WF)
    (hin : ∀ i, inRange (fs i).num.value) (hv : ValidBound (valuesOf fs)) (ha : w.env.asserts = false ∨ w.isqrt n + 1 ≤ n)
    (name text : Str) (hfile : w.fs name = .contents text) (hlines : FirstTwoLines text (lineOf fs) [])
    {P : ℝ} (hP : P = lowerProb (valuesOf fs)) {s : Str} (hs : PrintsAs P (1 / 10 ^ 7) s) :
    crossprobRunFast p w fmt ioWhat ["ecdf1-new".toList, name] = .exited 0 (s ++ ['\n']) := by
  subst hP
  have he : lineOf (n := 0) Fin.elim0 = [] := by simp [lineOf, List.intercalate]
  have hr := read_file hM.strtod (n := n) (m := 0) fs Fin.elim0 hfs (fun i => i.elim0) hin (fun i => i.elim0) hfile (by rw [he]; exact hlines)
  exact fast_new_lower hp w hM ioWhat hn hn' hv ha (hr.trans (by simp)) hs

/-- C67, the repository's test-suite as compiled: on every machine with IEEE-754 doubles, `ecdf2` and `ecdf1_new` compiled with `-ffast-math`
in any legal way, any libm accurate to four units in the last place, any conforming `strtod` and output routine, any sorting algorithm, any
FFT library, with or without assertions, the assertions in `suite` hold: the program writes the expected digits and exits with 0. -/
theorem C67_suite {p : FastProgram (Num D) G} {ex : ℕ} (hp : FastMachine p ex) (w : World (Num D)) {fmt : Num D → Str} {inRange : ℝ → Prop} (hM : ∀ n ≤ 10, DoubleMachine w fmt inRange n)
    (ioWhat : Str) (hin : ∀ v, (v = 0 ∨ 1 / 100 ≤ v ∧ v ≤ 1) → inRange v)
    (ha : w.env.asserts = false ∨ ∀ n, 3 ≤ n → w.isqrt n + 1 ≤ n)
    (hfiles : ∀ f ∈ suiteFiles, w.fs f.1 = .contents f.2) {command name expected : Str} (ht : (command, name, expected) ∈ suite) :
    crossprobRunFast p w fmt ioWhat [command, name] = .exited 0 (expected ++ ['\n']) := by
  simp only [suiteFiles, List.forall_mem_cons, List.not_mem_nil, false_implies, implies_true, and_true] at hfiles
  obtain ⟨f01, f2, f8, fP, fM, f0, f1⟩ := hfiles
  have he : lineOf (n := 0) Fin.elim0 = [] := by simp [lineOf, List.intercalate]
  have two : ∀ c : Str, (c = "ecdf2-ks2001".toList ∨ c = "ecdf2-mn2017".toList) →
      crossprobRunFast p w fmt ioWhat [c, "tests/bounds_0_1.txt".toList] = .exited 0 ("1".toList ++ ['\n']) ∧
      crossprobRunFast p w fmt ioWhat [c, "tests/bounds2.txt".toList] = .exited 0 ("0.75".toList ++ ['\n']) ∧
      crossprobRunFast p w fmt ioWhat [c, "tests/bounds8.txt".toList] = .exited 0 ("0.840529".toList ++ ['\n']) ∧
      crossprobRunFast p w fmt ioWhat [c, "tests/bounds_cksplus_10.txt".toList] = .exited 0 ("0.608924".toList ++ ['\n']) ∧
      crossprobRunFast p w fmt ioWhat [c, "tests/bounds_cksminus_10.txt".toList] = .exited 0 ("0.608924".toList ++ ['\n']) := by
    intro c hc
    refine ⟨?_, ?_, ?_, ?_, ?_⟩
    · refine C67_program_two_sided hp w (hM 3 (by norm_num)) ioWhat (by norm_num) (by norm_num) (fieldsOf line000 line000_len) (fieldsOf line111 line111_len)
        (fieldsOf_wf _ (by decide)) (fieldsOf_wf _ (by decide)) (range_fields _ (by decide) hin (by decide))
        (range_fields _ (by decide) hin (by decide)) (valid_fields _ (by decide) (by decide)) (valid_fields _ (by decide) (by decide))
        (Or.inr (not_crossed_fields _ _ (by decide) (by decide) (by decide))) _ _ f01 ?_ (prints_01 rfl rfl).symm
        (printsAs_one (by norm_num)) hc
      rw [line_fields, line_fields]
      exact ⟨by decide, by decide, Or.inl ⟨[], by decide +kernel⟩⟩
    · refine C67_program_two_sided hp w (hM 2 (by norm_num)) ioWhat (by norm_num) (by norm_num) (fieldsOf line2b line2b_len) (fieldsOf line2B line2B_len)
        (fieldsOf_wf _ (by decide)) (fieldsOf_wf _ (by decide)) (range_fields _ (by decide) hin (by decide))
        (range_fields _ (by decide) hin (by decide)) (valid_fields _ (by decide) (by decide)) (valid_fields _ (by decide) (by decide))
        (Or.inr (not_crossed_fields _ _ (by decide) (by decide) (by decide))) _ _ f2 ?_ rfl (prints_2 rfl rfl) hc
      rw [line_fields, line_fields]
      exact ⟨by decide, by decide, Or.inl ⟨[], by decide +kernel⟩⟩
    · refine C67_program_two_sided hp w (hM 8 (by norm_num)) ioWhat (by norm_num) (by norm_num) (fieldsOf line8b line8b_len) (fieldsOf line8B line8B_len)
        (fieldsOf_wf _ (by decide)) (fieldsOf_wf _ (by decide)) (range_fields _ (by decide) hin (by decide))
        (range_fields _ (by decide) hin (by decide)) (valid_fields _ (by decide) (by decide)) (valid_fields _ (by decide) (by decide))
        (Or.inr (not_crossed_fields _ _ (by decide) (by decide) (by decide))) _ _ f8 ?_ rfl (prints_8 rfl rfl) hc
      rw [line_fields, line_fields]
      exact ⟨by decide, by decide, Or.inl ⟨[], by decide +kernel⟩⟩
    · refine C67_program_two_sided_lower hp w (hM 10 (by norm_num)) ioWhat (by norm_num) (by norm_num) (fieldsOf lineP lineP_len)
        (fieldsOf_wf _ (by decide)) (range_fields _ (by decide) hin (by decide)) (valid_fields _ (by decide) (by decide))
        _ _ fP ?_ rfl (prints_P rfl).2 hc
      rw [line_fields]
      exact ⟨by decide, by decide, Or.inl ⟨[], by decide +kernel⟩⟩
    · refine C67_program_two_sided_upper hp w (hM 10 (by norm_num)) ioWhat (by norm_num) (by norm_num) (fieldsOf lineM lineM_len)
        (fieldsOf_wf _ (by decide)) (range_fields _ (by decide) hin (by decide)) (valid_fields _ (by decide) (by decide))
        _ _ fM ?_ rfl (prints_M rfl).2 hc
      rw [line_fields]
      exact ⟨by decide, by decide, Or.inl ⟨[], by decide +kernel⟩⟩
  obtain ⟨k1, k2, k3, k4, k5⟩ := two _ (Or.inl rfl)
  obtain ⟨m1, m2, m3, m4, m5⟩ := two _ (Or.inr rfl)
  have n1 : crossprobRunFast p w fmt ioWhat ["ecdf1-new".toList, "tests/bounds_0.txt".toList] = .exited 0 ("1".toList ++ ['\n']) := by
    refine fast_new_lower hp w (hM 3 (by norm_num)) ioWhat (by norm_num) (by norm_num) (v := valuesOf (fieldsOf line000 line000_len))
      (valid_fields _ (by decide) (by decide)) (ha.imp id fun h => h 3 le_rfl) ?_ (by rw [prints_000 rfl]; exact printsAs_one (by norm_num))
    rw [C30_two_lines w.libc w.fs _ _ ("0, 0, 0,".toList) [] f0 ⟨by decide, by decide, Or.inl ⟨[], by decide +kernel⟩⟩]
    have h1 := C28_trailing_comma (hM 3 (by norm_num)).strtod (List.ofFn (fieldsOf line000 line000_len)) (by decide)
      (List.forall_mem_ofFn_iff.mpr (fieldsOf_wf _ (by decide)))
      (List.forall_mem_ofFn_iff.mpr (range_fields line000_len (by decide) hin (by decide)))
    have e : List.intercalate [','] ((List.ofFn (fieldsOf line000 line000_len)).map Field.text) ++ [','] = "0, 0, 0,".toList := by
      have := line_fields line000 line000_len
      unfold lineOf at this
      rw [this]; decide
    rw [e] at h1
    rw [h1, C28_empty, List.map_ofFn]
    rfl
  have n2 : crossprobRunFast p w fmt ioWhat ["ecdf1-new".toList, "tests/bounds__1.txt".toList] = .exited 0 ("1".toList ++ ['\n']) := by
    refine C67_program_new_upper hp w (hM 3 (by norm_num)) ioWhat (by norm_num) (by norm_num) (fieldsOf line111 line111_len)
      (fieldsOf_wf _ (by decide)) (range_fields _ (by decide) hin (by decide)) (valid_fields _ (by decide) (by decide))
      (ha.imp id fun h => h 3 le_rfl) _ _ f1 ?_ (prints_111 rfl).symm (printsAs_one (by norm_num))
    rw [line_fields]
    exact ⟨by decide, by decide, Or.inl ⟨[], by decide +kernel⟩⟩
  have n3 : crossprobRunFast p w fmt ioWhat ["ecdf1-new".toList, "tests/bounds_cksminus_10.txt".toList] = .exited 0 ("0.608924".toList ++ ['\n']) := by
    refine C67_program_new_upper hp w (hM 10 (by norm_num)) ioWhat (by norm_num) (by norm_num) (fieldsOf lineM lineM_len)
      (fieldsOf_wf _ (by decide)) (range_fields _ (by decide) hin (by decide)) (valid_fields _ (by decide) (by decide))
      (ha.imp id fun h => h 10 (by norm_num)) _ _ fM ?_ rfl (prints_M rfl).1
    rw [line_fields]
    exact ⟨by decide, by decide, Or.inl ⟨[], by decide +kernel⟩⟩
  have n4 : crossprobRunFast p w fmt ioWhat ["ecdf1-new".toList, "tests/bounds_cksplus_10.txt".toList] = .exited 0 ("0.608924".toList ++ ['\n']) := by
    refine C67_program_new_lower hp w (hM 10 (by norm_num)) ioWhat (by norm_num) (by norm_num) (fieldsOf lineP lineP_len)
      (fieldsOf_wf _ (by decide)) (range_fields _ (by decide) hin (by decide)) (valid_fields _ (by decide) (by decide))
      (ha.imp id fun h => h 10 (by norm_num)) _ _ fP ?_ rfl (prints_P rfl).1
    rw [line_fields]
    exact ⟨by decide, by decide, Or.inl ⟨[], by decide +kernel⟩⟩
  simp only [suite, List.mem_cons, List.not_mem_nil, or_false, Prod.mk.injEq] at ht
  rcases ht with ⟨rfl, rfl, rfl⟩ | ⟨rfl, rfl, rfl⟩ | ⟨rfl, rfl, rfl⟩ | ⟨rfl, rfl, rfl⟩ | ⟨rfl, rfl, rfl⟩ | ⟨rfl, rfl, rfl⟩ |
    ⟨rfl, rfl, rfl⟩ | ⟨rfl, rfl, rfl⟩ | ⟨rfl, rfl, rfl⟩ | ⟨rfl, rfl, rfl⟩ | ⟨rfl, rfl, rfl⟩ | ⟨rfl, rfl, rfl⟩ | ⟨rfl, rfl, rfl⟩ | ⟨rfl, rfl, rfl⟩
  exacts [k1, k2, k3, k4, k5, m1, m2, m3, m5, m4, n1, n2, n3, n4]

/-- C67, consistency: the compiled code that follows the source to the letter is legal and returns what the model of the source
returns. -/
theorem C67_strict {F : Type} [FOps F] (fma : F → F → F → F) (env : Env F) (isqrt : ℕ → ℕ) (v : List F) :
    FastCode.Legal (strictCodeNew fma).toFastCode 0 ∧
    (∀ x, ecdf1NewB env isqrt v = .ok x → ecdf1NewBFast (strictCodeNew fma) env isqrt v = .ok x) ∧
    (∀ x, ecdf1Newb env isqrt v = .ok x → ecdf1NewbFast (strictCodeNew fma) env isqrt v = .ok x) :=
  ⟨strict_legal fma, ecdf1NewB_strict fma env isqrt v, ecdf1Newb_strict fma env isqrt v⟩

/-! ### The assumptions can be met -/

/-- Two accumulators, fused multiply-add everywhere, multiplication by reciprocals. -/
def twoLanesMns (A : FloatSystem) : MnsCode (Num A) where
  fma := exactFma A
  sum := fun _ d => .add (lane ((List.range (d + 1)).filter fun k => k % 2 = 0)) (lane ((List.range (d + 1)).filter fun k => ¬ k % 2 = 0))
  powi := fun _ i y => FOps.powi y (i : Int)
  recip := fun _ _ => true
  exponent := .fnma (.add .lambda .lgamma)
  exp := FOps.exp

/-- Two accumulators, fused multiply-add everywhere, multiplication by reciprocals, x87 `long double`. -/
def twoLanesProgram : FastProgram (Num doubles) (Num x87) where
  ks2001 := twoLanes (exactFma doubles)
  mn2017 := twoLanes (exactFma doubles)
  new := { twoLanes (exactFma doubles) with fused := fun _ _ => true }
  mns := twoLanesMns x87
  long := ieeeConv doubles x87

theorem twoLanesProgram_ok : FastMachine twoLanesProgram 0 where
  depth := by norm_num
  ks2001 := twoLanes_legal _
  ks2001Acc := twoLanes_ieee
  mn2017 := twoLanes_legal _
  mn2017Acc := twoLanes_ieee
  new := twoLanes_legal _
  newAcc := twoLanes_ieee

/-- The suite, so compiled. -/
example {command name expected : Str} (ht : (command, name, expected) ∈ suite) :
    crossprobRunFast twoLanesProgram suiteWorld doublePrint [] [command, name] = .exited 0 (expected ++ ['\n']) := by
  refine C67_suite twoLanesProgram_ok suiteWorld (inRange := fun _ => True) (fun n hn => ?_) [] (fun _ _ => trivial) (Or.inl rfl) ?_ ht
  · have hM := brokenWorld_ok [] (n := n) (by omega)
    exact ⟨hM.format, hM.libm, hM.strtod, hM.print, hM.sortPerm, hM.sortSorted⟩
  · intro f hf
    simp only [suiteFiles, List.mem_cons, List.not_mem_nil, or_false] at hf
    rcases hf with rfl | rfl | rfl | rfl | rfl | rfl | rfl <;> exact suiteWorld_file (by decide +kernel)

/-- `C67_double_20` on a concrete boundary. -/
example (env : Env (Num doubles)) (ha : env.asserts = false) (isqrt : ℕ → ℕ) :
    ∃ x : Num doubles, ecdf1NewBFast twoLanesProgram.new env isqrt (List.ofFn fun _ : Fin 8 => roundNum doubles (3 / 4)) = .ok x ∧ x.finite ∧
      |x.val - upperProb fun _ : Fin 8 => (roundNum doubles (3 / 4)).val| ≤ 9 / 10 ^ 8 := by
  obtain ⟨B1, -, B3, -⟩ := double_read (A := doubles) rfl (valid_const (n := 8) (c := 3 / 4) (by norm_num) (by norm_num))
  exact (C67_double_20 rfl twoLanesProgram_ok.newAcc twoLanesProgram_ok.new (by norm_num) (by norm_num) (by norm_num) (doubles_libm u50_ge (by norm_num))
    env B1 B3 isqrt (Or.inl ha)).1

end
end CP.Props
