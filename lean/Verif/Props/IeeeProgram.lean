import Verif.Props.Ieee
import Verif.Props.OutputFp
import Verif.Proofs.IeeeWit
/-
Property C61, end to end: the command-line program in IEEE-754 double precision, from the text of the file to the printed text.
-/
open MeasureTheory Set
namespace CP.Props
open CP.Spec FOps
noncomputable section

variable {A : FloatSystem}

/-- A machine with IEEE-754 doubles: math library accurate to four units in the last place, `strtod` rounds to nearest the
decimal numbers in range, `operator<<` prints six significant digits, `std::sort` sorts.  `n` is the length of the boundary. -/
structure DoubleMachine (w : World (Num A)) (fmt : Num A → Str) (inRange : ℝ → Prop) (n : ℕ) : Prop where
  format : A.f = binary64
  libm : LibmAccurate A u50 n
  strtod : StrtodSpec w.libc.strtod (roundNum A) inRange
  print : PrintSpec fmt Num.real?
  sortPerm : ∀ l, (w.sort l).Perm l
  sortSorted : ∀ l, (∀ x ∈ l, x.location.finite) → (w.sort l).Pairwise fun x y => lt y.location x.location = false

/-- The FFT library of the machine is accurate to `2^-45` (in the Euclidean norm), apart from underflow, for the lengths used
with boundaries of length `n`. -/
def FFTAccurateDouble (w : World (Num A)) (n : ℕ) : Prop :=
  ∃ (hf : A.f = binary64) (delta etaF : ℝ), delta ≤ (2 : ℝ) ^ (-45 : ℤ) ∧ etaF ≤ (2 : ℝ) ^ (-100 : ℤ) ∧
    FFTAccurate (ieeeModel A u50 (double_ok hf)) w.env.fft (2 * n + 2049) delta etaF 256

/-- Numbers in [0,1] are converted to doubles in [0,1], monotonically and with an error of at most `2^-52`. -/
theorem double_read (hf : A.f = binary64) {n : ℕ} {c : Fin n → ℝ} (hc : ValidBound c) :
    (∀ i, (roundNum A (c i)).finite) ∧ (∀ i, (roundNum A (c i)).val = A.r (c i)) ∧ ValidBound (fun i => (roundNum A (c i)).val) ∧
      ∀ i, |(roundNum A (c i)).val - c i| ≤ 1 / 2 ^ 52 := by
  have hok : A.f.OK := hf ▸ binary64_ok
  have h1 : ∀ i, Num.finite (roundNum A (c i)) ∧ Num.val (roundNum A (c i)) = A.r (c i) := fun i =>
    roundNum_finite hok (by
      have := one_le_Omega (A := A) hok
      rw [abs_of_nonneg (hc.range i).1]
      linarith [(hc.range i).2])
  refine ⟨fun i => (h1 i).1, fun i => (h1 i).2, ⟨?_, ?_⟩, ?_⟩
  · intro i j hij
    beta_reduce
    rw [(h1 i).2, (h1 j).2]
    exact nearest_mono A.nearest (hc.mono hij)
  · intro i
    beta_reduce
    rw [(h1 i).2]
    constructor
    · have := nearest_mono A.nearest (hc.range i).1
      rwa [nearest_zero hok A.nearest] at this
    · have := nearest_mono A.nearest (hc.range i).2
      rwa [nearest_rep A.nearest (rep_one hok)] at this
  · intro i
    rw [(h1 i).2]
    have hp : A.f.p = 53 := by rw [hf]; rfl
    have hemin : A.f.emin = -1074 := by rw [hf]; rfl
    have h2 := nearest_ulp hok A.nearest (c i) (e := -53) (by rw [hemin]; norm_num) (by
      rw [abs_of_nonneg (hc.range i).1, hp]
      norm_num
      exact (hc.range i).2)
    refine h2.trans ?_
    norm_num

/-- Moving every point of two boundaries by at most `2^-52`. -/
theorem read_shift {n N : ℕ} (hn : n ≤ N) {b B b' B' : Fin n → ℝ} (h1 : ∀ i, |b' i - b i| ≤ 1 / 2 ^ 52) (h2 : ∀ i, |B' i - B i| ≤ 1 / 2 ^ 52) :
    |noncrossProb b' B' - noncrossProb b B| ≤ (N : ℝ) ^ 2 / 2 ^ 51 := by
  refine (noncross_lipschitz b' B' b B).trans ?_
  have hs : ∑ i, (|b' i - b i| + |B' i - B i|) ≤ ∑ _i : Fin n, (1 / 2 ^ 51 : ℝ) :=
    Finset.sum_le_sum fun i _ => by
      have := add_le_add (h1 i) (h2 i)
      refine this.trans (by norm_num)
  rw [Finset.sum_const, Finset.card_univ, Fintype.card_fin, nsmul_eq_mul] at hs
  have hnr : (n : ℝ) ≤ N := by exact_mod_cast hn
  have h0 : (0 : ℝ) ≤ n := Nat.cast_nonneg n
  calc (n : ℝ) * _ ≤ n * (n * (1 / 2 ^ 51)) := mul_le_mul_of_nonneg_left hs h0
    _ ≤ N * (N * (1 / 2 ^ 51)) := mul_le_mul hnr (mul_le_mul_of_nonneg_right hnr (by norm_num)) (by positivity) (h0.trans hnr)
    _ = _ := by ring

/-- From a computed double to the printed text. -/
theorem printed_text {w : World (Num A)} {fmt : Num A → Str} (hprint : PrintSpec fmt Num.real?) (ioWhat : Str) {args : List Str} {x : Num A}
    (hx : x.finite) (h : crossprobMain w args = .printed x) :
    ∃ d : Dec, d.WF ∧ crossprobRun w fmt ioWhat args = .exited 0 (d.text ++ ['\n']) ∧ |d.value - x.val| ≤ 5 / 10 ^ 6 * |x.val| := by
  have key := C59_output w fmt ioWhat args
  rw [h] at key
  obtain ⟨a, ha, rfl⟩ := hx
  obtain ⟨d, hd, he, hv⟩ := C59_number hprint (x := mkNum A a ha) (v := a) rfl
  exact ⟨d, hd, by rw [← he]; exact key, hv⟩

/-- Collecting the errors: reading, computing, printing. -/
theorem collect {d x P' P e a s : ℝ} (hP : 0 ≤ P) (he : 0 ≤ e) (he1 : e ≤ 1) (ha : 0 ≤ a) (hs : 0 ≤ s) (h1 : |d - x| ≤ 5 / 10 ^ 6 * |x|)
    (h2 : |x - P'| ≤ e * P' + a) (h3 : |P' - P| ≤ s) :
    |d - P| ≤ (e + 5 / 10 ^ 6 * (1 + e)) * P + 3 * (a + s) := by
  have hx : |x| ≤ |P'| + |x - P'| := by
    have := abs_sub_abs_le_abs_sub x P'
    linarith
  have hP' : |P'| ≤ P + s := by
    have := abs_sub_abs_le_abs_sub P' P
    rw [abs_of_nonneg hP] at this
    linarith
  have hP1 := le_abs_self P'
  have h4 : |d - P| ≤ |d - x| + |x - P'| + |P' - P| :=
    (abs_sub_le d P' P).trans (add_le_add_left (abs_sub_le d x P') _)
  have h5 : e * P' ≤ e * (P + s) := mul_le_mul_of_nonneg_left (hP1.trans hP') he
  have h6 : e * s ≤ s := mul_le_of_le_one_left hs he1
  nlinarith

theorem collect0 {d x P' P a s : ℝ} (hP : 0 ≤ P) (ha : 0 ≤ a) (hs : 0 ≤ s) (h1 : |d - x| ≤ 5 / 10 ^ 6 * |x|)
    (h2 : |x - P'| ≤ a) (h3 : |P' - P| ≤ s) :
    |d - P| ≤ 5 / 10 ^ 6 * P + 10001 / 10000 * (a + s) := by
  have hx : |x| ≤ P + a + s := by
    have := abs_sub_abs_le_abs_sub x P
    have h4 := abs_sub_le x P' P
    rw [abs_of_nonneg hP] at this
    linarith
  have h4 : |d - P| ≤ |d - x| + |x - P'| + |P' - P| :=
    (abs_sub_le d P' P).trans (add_le_add_left (abs_sub_le d x P') _)
  linarith

/-- The two lines of the file as doubles. -/
theorem read_file {w : World (Num A)} {inRange : ℝ → Prop} (hspec : StrtodSpec w.libc.strtod (roundNum A) inRange) {n m : ℕ}
    (fb : Fin n → Field) (fB : Fin m → Field) (hfb : ∀ i, (fb i).WF) (hfB : ∀ i, (fB i).WF)
    (hinb : ∀ i, inRange (fb i).num.value) (hinB : ∀ i, inRange (fB i).num.value)
    {name text : Str} (hfile : w.fs name = .contents text) (hlines : FirstTwoLines text (lineOf fb) (lineOf fB)) :
    readAndCheckBoundariesFile w.libc w.fs name
      = .ok (List.ofFn fun i => roundNum A (valuesOf fb i), List.ofFn fun i => roundNum A (valuesOf fB i)) := by
  rw [C30_two_lines w.libc w.fs name text _ _ hfile hlines, parse_line hspec fb hfb hinb, parse_line hspec fB hfB hinB]
  rfl

theorem not_crossed (hf : A.f = binary64) {n : ℕ} {b B : Fin n → ℝ} (hb : ValidBound b) (hB : ValidBound B) (h : ¬ StronglyCrossed b B) :
    ¬ StronglyCrossed (fun i => (roundNum A (b i)).val) (fun i => (roundNum A (B i)).val) := by
  rintro ⟨i, j, hij, hlt⟩
  refine h ⟨i, j, hij, ?_⟩
  by_contra hle
  push Not at hle
  have := nearest_mono A.nearest hle
  beta_reduce at hlt
  rw [(double_read hf hb).2.1, (double_read hf hB).2.1] at hlt
  linarith

/-- C61, the whole program: `crossprob ecdf2-ks2001 file` in IEEE-754 double precision, on a file whose two lines are the
decimal numbers of two valid boundaries of length at most 1000.  The program exits with 0 and writes one decimal number and a
newline; the number differs from the probability for the boundaries as written in the file by at most `12.1e-6` times that
probability plus `2e-9`. -/
theorem C61_program_direct (w : World (Num A)) {fmt : Num A → Str} {inRange : ℝ → Prop} {n : ℕ} (hM : DoubleMachine w fmt inRange n)
    (ioWhat : Str) (hn : 1 ≤ n) (hn' : n ≤ 1000) (fb fB : Fin n → Field) (hfb : ∀ i, (fb i).WF) (hfB : ∀ i, (fB i).WF)
    (hinb : ∀ i, inRange (fb i).num.value) (hinB : ∀ i, inRange (fB i).num.value)
    (hb : ValidBound (valuesOf fb)) (hB : ValidBound (valuesOf fB))
    (ha : w.env.asserts = false ∨ ¬ StronglyCrossed (valuesOf fb) (valuesOf fB))
    (name text : Str) (hfile : w.fs name = .contents text) (hlines : FirstTwoLines text (lineOf fb) (lineOf fB)) :
    ∃ d : Dec, d.WF ∧ crossprobRun w fmt ioWhat ["ecdf2-ks2001".toList, name] = .exited 0 (d.text ++ ['\n']) ∧
      |d.value - noncrossProb (valuesOf fb) (valuesOf fB)| ≤ 121 / 10 ^ 7 * noncrossProb (valuesOf fb) (valuesOf fB) + 2 / 10 ^ 9 := by
  obtain ⟨b1, -, b3, b4⟩ := double_read (A := A) hM.format hb
  obtain ⟨B1, -, B3, B4⟩ := double_read (A := A) hM.format hB
  obtain ⟨x, hx, hxf, -, hxe, -⟩ := C61_double_1000 hM.format hn hn' hM.libm w.env b1 B1 b3 B3 hM.sortPerm hM.sortSorted
    (ha.imp id (not_crossed hM.format hb hB))
  have h : crossprobMain w ["ecdf2-ks2001".toList, name] = .printed x := by
    refine (C26_printed w _ x).mpr ⟨_, _, _, _, rfl, read_file hM.strtod fb fB hfb hfB hinb hinB hfile hlines, ?_⟩
    exact Or.inr (Or.inr (Or.inl ⟨rfl, _, _, Or.inl ⟨by simp, rfl, rfl⟩, hx.symm⟩))
  obtain ⟨d, hd, hr, hv⟩ := printed_text hM.print ioWhat hxf h
  refine ⟨d, hd, hr, ?_⟩
  have hP : 0 ≤ noncrossProb (valuesOf fb) (valuesOf fB) := measureReal_nonneg
  have htiny : (2 : ℝ) ^ (-1000 : ℤ) ≤ 1 / 10 ^ 20 :=
    (zpow_le_zpow_right₀ (by norm_num) (by norm_num) : (2 : ℝ) ^ (-1000 : ℤ) ≤ 2 ^ (-100 : ℤ)).trans (by norm_num)
  have := collect hP (by norm_num) (by norm_num) (by norm_num) (by norm_num) hv (hxe.trans (add_le_add_right htiny _)) (read_shift hn' b4 B4)
  refine this.trans (add_le_add (mul_le_mul_of_nonneg_right (by norm_num) hP) (by norm_num))

/-- C61, the whole program: the same with boundaries of length at most 100: the printed number differs from the probability
by at most `5.1e-6` times the probability (`5e-6` of it from printing six digits) plus `2e-11`. -/
theorem C61_program_direct_100 (w : World (Num A)) {fmt : Num A → Str} {inRange : ℝ → Prop} {n : ℕ} (hM : DoubleMachine w fmt inRange n)
    (ioWhat : Str) (hn : 1 ≤ n) (hn' : n ≤ 100) (fb fB : Fin n → Field) (hfb : ∀ i, (fb i).WF) (hfB : ∀ i, (fB i).WF)
    (hinb : ∀ i, inRange (fb i).num.value) (hinB : ∀ i, inRange (fB i).num.value)
    (hb : ValidBound (valuesOf fb)) (hB : ValidBound (valuesOf fB))
    (ha : w.env.asserts = false ∨ ¬ StronglyCrossed (valuesOf fb) (valuesOf fB))
    (name text : Str) (hfile : w.fs name = .contents text) (hlines : FirstTwoLines text (lineOf fb) (lineOf fB)) :
    ∃ d : Dec, d.WF ∧ crossprobRun w fmt ioWhat ["ecdf2-ks2001".toList, name] = .exited 0 (d.text ++ ['\n']) ∧
      |d.value - noncrossProb (valuesOf fb) (valuesOf fB)| ≤ 51 / 10 ^ 7 * noncrossProb (valuesOf fb) (valuesOf fB) + 2 / 10 ^ 11 := by
  obtain ⟨b1, -, b3, b4⟩ := double_read (A := A) hM.format hb
  obtain ⟨B1, -, B3, B4⟩ := double_read (A := A) hM.format hB
  obtain ⟨x, hx, hxf, -, hxe, -⟩ := C61_double_100 hM.format hn hn' hM.libm w.env b1 B1 b3 B3 hM.sortPerm hM.sortSorted
    (ha.imp id (not_crossed hM.format hb hB))
  have h : crossprobMain w ["ecdf2-ks2001".toList, name] = .printed x := by
    refine (C26_printed w _ x).mpr ⟨_, _, _, _, rfl, read_file hM.strtod fb fB hfb hfB hinb hinB hfile hlines, ?_⟩
    exact Or.inr (Or.inr (Or.inl ⟨rfl, _, _, Or.inl ⟨by simp, rfl, rfl⟩, hx.symm⟩))
  obtain ⟨d, hd, hr, hv⟩ := printed_text hM.print ioWhat hxf h
  refine ⟨d, hd, hr, ?_⟩
  have hP : 0 ≤ noncrossProb (valuesOf fb) (valuesOf fB) := measureReal_nonneg
  have htiny : (2 : ℝ) ^ (-1000 : ℤ) ≤ 1 / 10 ^ 20 :=
    (zpow_le_zpow_right₀ (by norm_num) (by norm_num) : (2 : ℝ) ^ (-1000 : ℤ) ≤ 2 ^ (-100 : ℤ)).trans (by norm_num)
  have := collect hP (by norm_num) (by norm_num) (by norm_num) (by norm_num) hv (hxe.trans (add_le_add_right htiny _)) (read_shift hn' b4 B4)
  refine this.trans (add_le_add (mul_le_mul_of_nonneg_right (by norm_num) hP) (by norm_num))

/-- C61, the whole program with FFT: `crossprob ecdf2-mn2017 file` prints a number within `9e-6` of the probability. -/
theorem C61_program_fft_100 (w : World (Num A)) {fmt : Num A → Str} {inRange : ℝ → Prop} {n : ℕ} (hM : DoubleMachine w fmt inRange n)
    (hF : FFTAccurateDouble w n)
    (ioWhat : Str) (hn : 1 ≤ n) (hn' : n ≤ 100) (fb fB : Fin n → Field) (hfb : ∀ i, (fb i).WF) (hfB : ∀ i, (fB i).WF)
    (hinb : ∀ i, inRange (fb i).num.value) (hinB : ∀ i, inRange (fB i).num.value)
    (hb : ValidBound (valuesOf fb)) (hB : ValidBound (valuesOf fB))
    (ha : w.env.asserts = false ∨ ¬ StronglyCrossed (valuesOf fb) (valuesOf fB))
    (name text : Str) (hfile : w.fs name = .contents text) (hlines : FirstTwoLines text (lineOf fb) (lineOf fB)) :
    ∃ d : Dec, d.WF ∧ crossprobRun w fmt ioWhat ["ecdf2-mn2017".toList, name] = .exited 0 (d.text ++ ['\n']) ∧
      |d.value - noncrossProb (valuesOf fb) (valuesOf fB)| ≤ 5 / 10 ^ 6 * noncrossProb (valuesOf fb) (valuesOf fB) + 4 / 10 ^ 6 := by
  obtain ⟨b1, -, b3, b4⟩ := double_read (A := A) hM.format hb
  obtain ⟨B1, -, B3, B4⟩ := double_read (A := A) hM.format hB
  obtain ⟨hf, delta, etaF, hδ, hη, hfft⟩ := hF
  obtain ⟨x, hx, hxf, hxe⟩ := C61_double_fft_100 hf hn hn' hM.libm w.env hδ hη hfft b1 B1 b3 B3 hM.sortPerm hM.sortSorted
    (ha.imp id (not_crossed hf hb hB))
  have h : crossprobMain w ["ecdf2-mn2017".toList, name] = .printed x := by
    refine (C26_printed w _ x).mpr ⟨_, _, _, _, rfl, read_file hM.strtod fb fB hfb hfB hinb hinB hfile hlines, ?_⟩
    exact Or.inr (Or.inr (Or.inr ⟨rfl, _, _, Or.inl ⟨by simp, rfl, rfl⟩, hx.symm⟩))
  obtain ⟨d, hd, hr, hv⟩ := printed_text hM.print ioWhat hxf h
  refine ⟨d, hd, hr, ?_⟩
  have hP : 0 ≤ noncrossProb (valuesOf fb) (valuesOf fB) := measureReal_nonneg
  have := collect0 hP (by norm_num) (by norm_num) hv hxe (read_shift hn' b4 B4)
  exact this.trans (add_le_add le_rfl (by norm_num))

/-- C61, the whole program: `crossprob ecdf1-new file` on a file with only an upper boundary of length at most 100 prints a
number within `1e-5` of the probability. -/
theorem C61_program_new_B_100 (w : World (Num A)) {fmt : Num A → Str} {inRange : ℝ → Prop} {n : ℕ} (hM : DoubleMachine w fmt inRange n)
    (hF : FFTAccurateDouble w n) (ioWhat : Str) (hn : 1 ≤ n) (hn' : n ≤ 100) (fs : Fin n → Field) (hfs : ∀ i, (fs i).WF)
    (hin : ∀ i, inRange (fs i).num.value) (hv : ValidBound (valuesOf fs)) (ha : w.env.asserts = false ∨ w.isqrt n + 1 ≤ n)
    (name text : Str) (hfile : w.fs name = .contents text) (hlines : FirstTwoLines text [] (lineOf fs)) :
    ∃ d : Dec, d.WF ∧ crossprobRun w fmt ioWhat ["ecdf1-new".toList, name] = .exited 0 (d.text ++ ['\n']) ∧
      |d.value - upperProb (valuesOf fs)| ≤ 5 / 10 ^ 6 * upperProb (valuesOf fs) + 5 / 10 ^ 6 := by
  obtain ⟨b1, -, b3, b4⟩ := double_read (A := A) hM.format hv
  obtain ⟨hf, delta, etaF, hδ, hη, hfft⟩ := hF
  obtain ⟨x, hx, hxf, hxe⟩ := C61_double_new_B_100 hf hn hn' hM.libm w.env hδ hη hfft b1 b3 w.isqrt ha
  have hne : (List.ofFn fun i => roundNum A (valuesOf fs i)) ≠ [] := by
    rw [ne_eq, List.ofFn_eq_nil_iff]; omega
  have he : lineOf (n := 0) Fin.elim0 = [] := by simp [lineOf, List.intercalate]
  have h : crossprobMain w ["ecdf1-new".toList, name] = .printed x := by
    refine (C26_printed w _ x).mpr ⟨_, _, _, _, rfl,
      read_file hM.strtod (n := 0) (m := n) Fin.elim0 fs (fun i => i.elim0) hfs (fun i => i.elim0) hin hfile (by rw [he]; exact hlines), ?_⟩
    exact Or.inr (Or.inl ⟨rfl, Or.inr ⟨by simp, hne, hx.symm⟩⟩)
  obtain ⟨d, hd, hr, hdv⟩ := printed_text hM.print ioWhat hxf h
  refine ⟨d, hd, hr, ?_⟩
  have hP : 0 ≤ upperProb (valuesOf fs) := measureReal_nonneg
  have hsh : |upperProb (fun i => (roundNum A (valuesOf fs i)).val) - upperProb (valuesOf fs)| ≤ (100 : ℝ) ^ 2 / 2 ^ 51 := by
    refine (upper_lipschitz _ _).trans ?_
    have hs : ∑ i, |(roundNum A (valuesOf fs i)).val - valuesOf fs i| ≤ ∑ _i : Fin n, (1 / 2 ^ 52 : ℝ) :=
      Finset.sum_le_sum fun i _ => b4 i
    rw [Finset.sum_const, Finset.card_univ, Fintype.card_fin, nsmul_eq_mul] at hs
    have hnr : (n : ℝ) ≤ 100 := by exact_mod_cast hn'
    have h0 : (0 : ℝ) ≤ n := Nat.cast_nonneg n
    calc (n : ℝ) * _ ≤ n * (n * (1 / 2 ^ 52)) := mul_le_mul_of_nonneg_left hs h0
      _ ≤ 100 * (100 * (1 / 2 ^ 52)) := mul_le_mul hnr (mul_le_mul_of_nonneg_right hnr (by norm_num)) (by positivity) (h0.trans hnr)
      _ ≤ _ := by norm_num
  have := collect0 hP (by norm_num) (by norm_num) hdv hxe hsh
  exact this.trans (add_le_add le_rfl (by norm_num))

/-- C61, the whole program: `crossprob ecdf1-new file` on a file with only a lower boundary of length at most 100 prints a
number within `1e-5` of the probability. -/
theorem C61_program_new_b_100 (w : World (Num A)) {fmt : Num A → Str} {inRange : ℝ → Prop} {n : ℕ} (hM : DoubleMachine w fmt inRange n)
    (hF : FFTAccurateDouble w n) (ioWhat : Str) (hn : 1 ≤ n) (hn' : n ≤ 100) (fs : Fin n → Field) (hfs : ∀ i, (fs i).WF)
    (hin : ∀ i, inRange (fs i).num.value) (hv : ValidBound (valuesOf fs)) (ha : w.env.asserts = false ∨ w.isqrt n + 1 ≤ n)
    (name text : Str) (hfile : w.fs name = .contents text) (hlines : FirstTwoLines text (lineOf fs) []) :
    ∃ d : Dec, d.WF ∧ crossprobRun w fmt ioWhat ["ecdf1-new".toList, name] = .exited 0 (d.text ++ ['\n']) ∧
      |d.value - lowerProb (valuesOf fs)| ≤ 5 / 10 ^ 6 * lowerProb (valuesOf fs) + 5 / 10 ^ 6 := by
  obtain ⟨b1, -, b3, b4⟩ := double_read (A := A) hM.format hv
  obtain ⟨hf, delta, etaF, hδ, hη, hfft⟩ := hF
  obtain ⟨x, hx, hxf, hxe⟩ := C61_double_new_b_100 hf hn hn' hM.libm w.env hδ hη hfft b1 b3 w.isqrt ha
  have hne : (List.ofFn fun i => roundNum A (valuesOf fs i)) ≠ [] := by
    rw [ne_eq, List.ofFn_eq_nil_iff]; omega
  have he : lineOf (n := 0) Fin.elim0 = [] := by simp [lineOf, List.intercalate]
  have h : crossprobMain w ["ecdf1-new".toList, name] = .printed x := by
    refine (C26_printed w _ x).mpr ⟨_, _, _, _, rfl,
      read_file hM.strtod (n := n) (m := 0) fs Fin.elim0 hfs (fun i => i.elim0) hin (fun i => i.elim0) hfile (by rw [he]; exact hlines), ?_⟩
    exact Or.inr (Or.inl ⟨rfl, Or.inl ⟨hne, by simp, hx.symm⟩⟩)
  obtain ⟨d, hd, hr, hdv⟩ := printed_text hM.print ioWhat hxf h
  refine ⟨d, hd, hr, ?_⟩
  have hP : 0 ≤ lowerProb (valuesOf fs) := measureReal_nonneg
  have hsh : |lowerProb (fun i => (roundNum A (valuesOf fs i)).val) - lowerProb (valuesOf fs)| ≤ (100 : ℝ) ^ 2 / 2 ^ 51 := by
    refine (lower_lipschitz _ _).trans ?_
    have hs : ∑ i, |(roundNum A (valuesOf fs i)).val - valuesOf fs i| ≤ ∑ _i : Fin n, (1 / 2 ^ 52 : ℝ) :=
      Finset.sum_le_sum fun i _ => b4 i
    rw [Finset.sum_const, Finset.card_univ, Fintype.card_fin, nsmul_eq_mul] at hs
    have hnr : (n : ℝ) ≤ 100 := by exact_mod_cast hn'
    have h0 : (0 : ℝ) ≤ n := Nat.cast_nonneg n
    calc (n : ℝ) * _ ≤ n * (n * (1 / 2 ^ 52)) := mul_le_mul_of_nonneg_left hs h0
      _ ≤ 100 * (100 * (1 / 2 ^ 52)) := mul_le_mul hnr (mul_le_mul_of_nonneg_right hnr (by norm_num)) (by positivity) (h0.trans hnr)
      _ ≤ _ := by norm_num
  have := collect0 hP (by norm_num) (by norm_num) hdv hxe hsh
  exact this.trans (add_le_add le_rfl (by norm_num))

/-! ### The assumptions can be met -/

/-- Conversion to double. -/
def numOfXR : XR → Num doubles
  | .fin v => roundNum doubles v
  | .pinf => (Fl.pinf : Fl binary64)
  | .ninf => (Fl.ninf : Fl binary64)
  | .nan => (Fl.nan : Fl binary64)

/-- `strtod` to doubles. -/
def doubleStrtod (s : Str) : StrtodResult (Num doubles) :=
  let r := Witness.strtod s
  ⟨numOfXR r.value, r.consumed, r.errno⟩

theorem doubleStrtod_spec : StrtodSpec doubleStrtod (roundNum doubles) fun _ => True where
  number ws d rest h1 h2 h3 h4 := by
    unfold doubleStrtod
    rw [Witness.strtod_spec.number ws d rest h1 h2 h3 h4]
    rfl
  outOfRange _ _ _ _ _ _ h := absurd trivial h
  noNumber s h := by
    have e1 := (Witness.strtod_spec.noNumber s h).1
    refine ⟨?_, (Witness.strtod_spec.noNumber s h).2⟩
    show numOfXR (Witness.strtod s).value = _
    rw [e1]
    rfl

/-- The program in double precision, with a file. -/
def doubleWorld (file : Str) : World (Num doubles) :=
  { env := { asserts := false, fft := ieeeFFTW doubles, junk := fun _ _ => (Fl.nan : Fl binary64),
             junkC := fun _ _ => ((Fl.nan : Fl binary64), (Fl.nan : Fl binary64)) },
    sort := ieeeSort, isqrt := Nat.sqrt, libc := { strtol := Witness.strtol, strtod := doubleStrtod, strerror := fun _ => [] },
    fs := fun name => if name = "bounds.txt".toList then .contents file else .unreadable }

/-- Printing doubles. -/
def doublePrint (x : Num doubles) : Str := print6 x.real?

theorem u50_ge : (2 : ℝ) ^ (-53 : ℤ) ≤ u50 := zpow_le_zpow_right₀ (by norm_num) (by norm_num)

theorem doubleWorld_ok (file : Str) {n : ℕ} (hn : n ≤ 2 ^ 64) : DoubleMachine (doubleWorld file) doublePrint (fun _ => True) n where
  format := rfl
  libm := doubles_libm u50_ge hn
  strtod := doubleStrtod_spec
  print := print6_spec Num.real?
  sortPerm := (ieeeSort_contract (double_ok doubles_f)).perm
  sortSorted := (ieeeSort_contract (double_ok doubles_f)).sorted

theorem doubleWorld_fft (file : Str) {n : ℕ} (hn : n ≤ 100) : FFTAccurateDouble (doubleWorld file) n := by
  have hs : √((2 * n + 2049 : ℕ) : ℝ) ≤ 48 := by
    have : ((2 * n + 2049 : ℕ) : ℝ) ≤ 2249 := by exact_mod_cast (by omega : 2 * n + 2049 ≤ 2249)
    rw [Real.sqrt_le_left (by norm_num)]; linarith
  have hs0 := Real.sqrt_nonneg ((2 * n + 2049 : ℕ) : ℝ)
  refine ⟨doubles_f, 2 * u50, √((2 * n + 2049 : ℕ) : ℝ) * (2 : ℝ) ^ doubles.f.emin, ?_, ?_, ?_⟩
  · rw [u50_val]; norm_num
  · have e : doubles.f.emin = -1074 := rfl
    rw [e]
    calc √((2 * n + 2049 : ℕ) : ℝ) * (2 : ℝ) ^ (-1074 : ℤ) ≤ 2 ^ (6 : ℤ) * (2 : ℝ) ^ (-106 : ℤ) :=
          mul_le_mul (hs.trans (by norm_num)) (zpow_le_zpow_right₀ (by norm_num) (by norm_num)) (by positivity) (by norm_num)
      _ = _ := by rw [← zpow_add₀ (by norm_num)]; norm_num
  · refine ieeeFFTW_accurate (double_ok doubles_f) (2 * n + 2049) (big_large ?_)
    have : √((2 * n + 2049 : ℕ) : ℝ) * √((2 * n + 2049 : ℕ) : ℝ) ≤ 48 * 48 := mul_le_mul hs hs hs0 (by norm_num)
    linarith

theorem ex_low : valuesOf ![tenth '1', tenth '3'] = exb := by
  funext i
  fin_cases i
  · exact (tenth_value (d := '1') (k := 1) (by decide)).trans (by norm_num [exb])
  · exact (tenth_value (d := '3') (k := 3) (by decide)).trans (by norm_num [exb])

theorem ex_high : valuesOf ![tenth '5', tenth '9'] = exB := by
  funext i
  fin_cases i
  · exact (tenth_value (d := '5') (k := 5) (by decide)).trans (by norm_num [exB])
  · exact (tenth_value (d := '9') (k := 9) (by decide)).trans (by norm_num [exB])

/-- C61 is about something: on the file `0.1,0.3⏎0.5,0.9⏎` the program in double precision prints a number within `6e-6` of the
probability, without and with FFT. -/
example : (∃ d : Dec, d.WF ∧ crossprobRun (doubleWorld "0.1,0.3\n0.5,0.9\n".toList) doublePrint [] ["ecdf2-ks2001".toList, "bounds.txt".toList]
      = .exited 0 (d.text ++ ['\n']) ∧ |d.value - noncrossProb exb exB| ≤ 6 / 10 ^ 6) ∧
    ∃ d : Dec, d.WF ∧ crossprobRun (doubleWorld "0.1,0.3\n0.5,0.9\n".toList) doublePrint [] ["ecdf2-mn2017".toList, "bounds.txt".toList]
      = .exited 0 (d.text ++ ['\n']) ∧ |d.value - noncrossProb exb exB| ≤ 9 / 10 ^ 6 := by
  have hp1 : noncrossProb exb exB ≤ 1 := measureReal_le_one
  have wf1 : ∀ i, (![tenth '1', tenth '3'] i).WF := by intro i; fin_cases i <;> exact tenth_wf rfl
  have wf2 : ∀ i, (![tenth '5', tenth '9'] i).WF := by intro i; fin_cases i <;> exact tenth_wf rfl
  constructor
  · obtain ⟨d, hd, hr, hv⟩ := C61_program_direct_100 (doubleWorld "0.1,0.3\n0.5,0.9\n".toList) (doubleWorld_ok _ (by norm_num)) []
      (by norm_num) (by norm_num) ![tenth '1', tenth '3'] ![tenth '5', tenth '9'] wf1 wf2 (fun _ => trivial) (fun _ => trivial)
      (ex_low ▸ exb_valid) (ex_high ▸ exB_valid) (Or.inl rfl) "bounds.txt".toList "0.1,0.3\n0.5,0.9\n".toList
      (by unfold doubleWorld; dsimp only; rw [if_pos rfl]) exLines
    rw [ex_low, ex_high] at hv
    exact ⟨d, hd, hr, by linarith⟩
  · obtain ⟨d, hd, hr, hv⟩ := C61_program_fft_100 (doubleWorld "0.1,0.3\n0.5,0.9\n".toList) (doubleWorld_ok _ (by norm_num))
      (doubleWorld_fft _ (by norm_num)) []
      (by norm_num) (by norm_num) ![tenth '1', tenth '3'] ![tenth '5', tenth '9'] wf1 wf2 (fun _ => trivial) (fun _ => trivial)
      (ex_low ▸ exb_valid) (ex_high ▸ exB_valid) (Or.inl rfl) "bounds.txt".toList "0.1,0.3\n0.5,0.9\n".toList
      (by unfold doubleWorld; dsimp only; rw [if_pos rfl]) exLines
    rw [ex_low, ex_high] at hv
    exact ⟨d, hd, hr, by linarith⟩

theorem exLine_lower : FirstTwoLines "0.1,0.3\n\n".toList (lineOf ![tenth '1', tenth '3']) [] := by
  have e1 : lineOf ![tenth '1', tenth '3'] = "0.1,0.3".toList := by decide
  rw [e1]
  exact ⟨by decide, by decide, Or.inl ⟨[], rfl⟩⟩

theorem exLine_upper : FirstTwoLines "\n0.5,0.9\n".toList [] (lineOf ![tenth '5', tenth '9']) := by
  have e1 : lineOf ![tenth '5', tenth '9'] = "0.5,0.9".toList := by decide
  rw [e1]
  exact ⟨by decide, by decide, Or.inl ⟨[], rfl⟩⟩

/-- C61 for the one-sided command is about something. -/
example : (∃ d : Dec, d.WF ∧ crossprobRun (doubleWorld "0.1,0.3\n\n".toList) doublePrint [] ["ecdf1-new".toList, "bounds.txt".toList]
      = .exited 0 (d.text ++ ['\n']) ∧ |d.value - lowerProb exb| ≤ 1 / 10 ^ 5) ∧
    ∃ d : Dec, d.WF ∧ crossprobRun (doubleWorld "\n0.5,0.9\n".toList) doublePrint [] ["ecdf1-new".toList, "bounds.txt".toList]
      = .exited 0 (d.text ++ ['\n']) ∧ |d.value - upperProb exB| ≤ 1 / 10 ^ 5 := by
  have wf1 : ∀ i, (![tenth '1', tenth '3'] i).WF := by intro i; fin_cases i <;> exact tenth_wf rfl
  have wf2 : ∀ i, (![tenth '5', tenth '9'] i).WF := by intro i; fin_cases i <;> exact tenth_wf rfl
  have hl : lowerProb exb ≤ 1 := measureReal_le_one
  have hu : upperProb exB ≤ 1 := measureReal_le_one
  constructor
  · obtain ⟨d, hd, hr, hv⟩ := C61_program_new_b_100 (doubleWorld "0.1,0.3\n\n".toList) (doubleWorld_ok _ (by norm_num))
      (doubleWorld_fft _ (by norm_num)) [] (by norm_num) (by norm_num) ![tenth '1', tenth '3'] wf1 (fun _ => trivial)
      (ex_low ▸ exb_valid) (Or.inl rfl) "bounds.txt".toList "0.1,0.3\n\n".toList
      (by unfold doubleWorld; dsimp only; rw [if_pos rfl]) exLine_lower
    rw [ex_low] at hv
    exact ⟨d, hd, hr, by linarith⟩
  · obtain ⟨d, hd, hr, hv⟩ := C61_program_new_B_100 (doubleWorld "\n0.5,0.9\n".toList) (doubleWorld_ok _ (by norm_num))
      (doubleWorld_fft _ (by norm_num)) [] (by norm_num) (by norm_num) ![tenth '5', tenth '9'] wf2 (fun _ => trivial)
      (ex_high ▸ exB_valid) (Or.inl rfl) "bounds.txt".toList "\n0.5,0.9\n".toList
      (by unfold doubleWorld; dsimp only; rw [if_pos rfl]) exLine_upper
    rw [ex_high] at hv
    exact ⟨d, hd, hr, by linarith⟩

end
end CP.Props
