import Verif.Props.IeeeFft
import Verif.Props.IeeeProgram
/-
Property C61, continued: the whole program with FFT in IEEE-754 double precision, for up to 1000 points.
-/
open MeasureTheory Set
namespace CP.Props
open CP.Spec FOps
noncomputable section

variable {A : FloatSystem}

/-- C61, the whole program with FFT: `crossprob ecdf2-mn2017 file` prints a number within `905e-6` of the probability. -/
theorem C61_program_fft_1000 (w : World (Num A)) {fmt : Num A → Str} {inRange : ℝ → Prop} {n : ℕ} (hM : DoubleMachine w fmt inRange n)
    (hF : FFTAccurateDouble w n)
    (ioWhat : Str) (hn : 1 ≤ n) (hn' : n ≤ 1000) (fb fB : Fin n → Field) (hfb : ∀ i, (fb i).WF) (hfB : ∀ i, (fB i).WF)
    (hinb : ∀ i, inRange (fb i).num.value) (hinB : ∀ i, inRange (fB i).num.value)
    (hb : ValidBound (valuesOf fb)) (hB : ValidBound (valuesOf fB))
    (ha : w.env.asserts = false ∨ ¬ StronglyCrossed (valuesOf fb) (valuesOf fB))
    (name text : Str) (hfile : w.fs name = .contents text) (hlines : FirstTwoLines text (lineOf fb) (lineOf fB)) :
    ∃ d : Dec, d.WF ∧ crossprobRun w fmt ioWhat ["ecdf2-mn2017".toList, name] = .exited 0 (d.text ++ ['\n']) ∧
      |d.value - noncrossProb (valuesOf fb) (valuesOf fB)| ≤ 5 / 10 ^ 6 * noncrossProb (valuesOf fb) (valuesOf fB) + 9 / 10 ^ 4 := by
  obtain ⟨b1, -, b3, b4⟩ := double_read (A := A) hM.format hb
  obtain ⟨B1, -, B3, B4⟩ := double_read (A := A) hM.format hB
  obtain ⟨hf, delta, etaF, hδ, hη, hfft⟩ := hF
  obtain ⟨x, hx, hxf, hxe⟩ := C61_double_fft_1000 hf hn hn' hM.libm w.env hδ hη hfft b1 B1 b3 B3 hM.sortPerm hM.sortSorted
    (ha.imp id (not_crossed hf hb hB))
  have h : crossprobMain w ["ecdf2-mn2017".toList, name] = .printed x := by
    refine (C26_printed w _ x).mpr ⟨_, _, _, _, rfl, read_file hM.strtod fb fB hfb hfB hinb hinB hfile hlines, ?_⟩
    exact Or.inr (Or.inr (Or.inr ⟨rfl, _, _, Or.inl ⟨by simp, rfl, rfl⟩, hx.symm⟩))
  obtain ⟨d, hd, hr, hv⟩ := printed_text hM.print ioWhat hxf h
  refine ⟨d, hd, hr, ?_⟩
  have hP : 0 ≤ noncrossProb (valuesOf fb) (valuesOf fB) := measureReal_nonneg
  have := collect0 hP (by norm_num) (by norm_num) hv hxe (read_shift hn' b4 B4)
  exact this.trans (add_le_add le_rfl (by norm_num))

/-- C61, the whole program: `crossprob ecdf1-new file` on a file with only an upper boundary of length at most 1000 prints a
number within `1305e-6` of the probability. -/
theorem C61_program_new_B_1000 (w : World (Num A)) {fmt : Num A → Str} {inRange : ℝ → Prop} {n : ℕ} (hM : DoubleMachine w fmt inRange n)
    (hF : FFTAccurateDouble w n) (ioWhat : Str) (hn : 1 ≤ n) (hn' : n ≤ 1000) (fs : Fin n → Field) (hfs : ∀ i, (fs i).WF)
    (hin : ∀ i, inRange (fs i).num.value) (hv : ValidBound (valuesOf fs)) (ha : w.env.asserts = false ∨ w.isqrt n + 1 ≤ n)
    (name text : Str) (hfile : w.fs name = .contents text) (hlines : FirstTwoLines text [] (lineOf fs)) :
    ∃ d : Dec, d.WF ∧ crossprobRun w fmt ioWhat ["ecdf1-new".toList, name] = .exited 0 (d.text ++ ['\n']) ∧
      |d.value - upperProb (valuesOf fs)| ≤ 5 / 10 ^ 6 * upperProb (valuesOf fs) + 13 / 10 ^ 4 := by
  obtain ⟨b1, -, b3, b4⟩ := double_read (A := A) hM.format hv
  obtain ⟨hf, delta, etaF, hδ, hη, hfft⟩ := hF
  obtain ⟨x, hx, hxf, hxe⟩ := C61_double_new_B_1000 hf hn hn' hM.libm w.env hδ hη hfft b1 b3 w.isqrt ha
  have hne : (List.ofFn fun i => roundNum A (valuesOf fs i)) ≠ [] := by
    rw [ne_eq, List.ofFn_eq_nil_iff]; omega
  have he : lineOf (n := 0) Fin.elim0 = [] := by simp [lineOf, List.intercalate]
  have h : crossprobMain w ["ecdf1-new".toList, name] = .printed x := by
    refine (C26_printed w _ x).mpr ⟨_, _, _, _, rfl,
      read_file hM.strtod (n := 0) (m := n) Fin.elim0 fs (fun i => i.elim0) hfs (fun i => i.elim0) hin hfile (by rw [he]; exact hlines), ?_⟩
    exact Or.inr (Or.inl ⟨rfl, Or.inr ⟨by simp, hne, hx.symm⟩⟩)
  obtain ⟨d, hd, hr, hdv⟩ := printed_text hM.print ioWhat hxf h
  refine ⟨d, hd, hr, ?_⟩
  have hP : 0 ≤ upperProb (valuesOf fs) := measureReal_nonneg
  have hsh : |upperProb (fun i => (roundNum A (valuesOf fs i)).val) - upperProb (valuesOf fs)| ≤ (1000 : ℝ) ^ 2 / 2 ^ 51 := by
    refine (upper_lipschitz _ _).trans ?_
    have hs : ∑ i, |(roundNum A (valuesOf fs i)).val - valuesOf fs i| ≤ ∑ _i : Fin n, (1 / 2 ^ 52 : ℝ) :=
      Finset.sum_le_sum fun i _ => b4 i
    rw [Finset.sum_const, Finset.card_univ, Fintype.card_fin, nsmul_eq_mul] at hs
    have hnr : (n : ℝ) ≤ 1000 := by exact_mod_cast hn'
    have h0 : (0 : ℝ) ≤ n := Nat.cast_nonneg n
    calc (n : ℝ) * _ ≤ n * (n * (1 / 2 ^ 52)) := mul_le_mul_of_nonneg_left hs h0
      _ ≤ 1000 * (1000 * (1 / 2 ^ 52)) := mul_le_mul hnr (mul_le_mul_of_nonneg_right hnr (by norm_num)) (by positivity) (h0.trans hnr)
      _ ≤ _ := by norm_num
  have := collect0 hP (by norm_num) (by norm_num) hdv hxe hsh
  exact this.trans (add_le_add le_rfl (by norm_num))

/-- C61, the whole program: `crossprob ecdf1-new file` on a file with only a lower boundary of length at most 1000 prints a
number within `1305e-6` of the probability. -/
theorem C61_program_new_b_1000 (w : World (Num A)) {fmt : Num A → Str} {inRange : ℝ → Prop} {n : ℕ} (hM : DoubleMachine w fmt inRange n)
    (hF : FFTAccurateDouble w n) (ioWhat : Str) (hn : 1 ≤ n) (hn' : n ≤ 1000) (fs : Fin n → Field) (hfs : ∀ i, (fs i).WF)
    (hin : ∀ i, inRange (fs i).num.value) (hv : ValidBound (valuesOf fs)) (ha : w.env.asserts = false ∨ w.isqrt n + 1 ≤ n)
    (name text : Str) (hfile : w.fs name = .contents text) (hlines : FirstTwoLines text (lineOf fs) []) :
    ∃ d : Dec, d.WF ∧ crossprobRun w fmt ioWhat ["ecdf1-new".toList, name] = .exited 0 (d.text ++ ['\n']) ∧
      |d.value - lowerProb (valuesOf fs)| ≤ 5 / 10 ^ 6 * lowerProb (valuesOf fs) + 13 / 10 ^ 4 := by
  obtain ⟨b1, -, b3, b4⟩ := double_read (A := A) hM.format hv
  obtain ⟨hf, delta, etaF, hδ, hη, hfft⟩ := hF
  obtain ⟨x, hx, hxf, hxe⟩ := C61_double_new_b_1000 hf hn hn' hM.libm w.env hδ hη hfft b1 b3 w.isqrt ha
  have hne : (List.ofFn fun i => roundNum A (valuesOf fs i)) ≠ [] := by
    rw [ne_eq, List.ofFn_eq_nil_iff]; omega
  have he : lineOf (n := 0) Fin.elim0 = [] := by simp [lineOf, List.intercalate]
  have h : crossprobMain w ["ecdf1-new".toList, name] = .printed x := by
    refine (C26_printed w _ x).mpr ⟨_, _, _, _, rfl,
      read_file hM.strtod (n := n) (m := 0) fs Fin.elim0 hfs (fun i => i.elim0) hin (fun i => i.elim0) hfile (by rw [he]; exact hlines), ?_⟩
    exact Or.inr (Or.inl ⟨rfl, Or.inl ⟨hne, by simp, hx.symm⟩⟩)
  obtain ⟨d, hd, hr, hdv⟩ := printed_text hM.print ioWhat hxf h
  refine ⟨d, hd, hr, ?_⟩
  have hP : 0 ≤ lowerProb (valuesOf fs) := measureReal_nonneg
  have hsh : |lowerProb (fun i => (roundNum A (valuesOf fs i)).val) - lowerProb (valuesOf fs)| ≤ (1000 : ℝ) ^ 2 / 2 ^ 51 := by
    refine (lower_lipschitz _ _).trans ?_
    have hs : ∑ i, |(roundNum A (valuesOf fs i)).val - valuesOf fs i| ≤ ∑ _i : Fin n, (1 / 2 ^ 52 : ℝ) :=
      Finset.sum_le_sum fun i _ => b4 i
    rw [Finset.sum_const, Finset.card_univ, Fintype.card_fin, nsmul_eq_mul] at hs
    have hnr : (n : ℝ) ≤ 1000 := by exact_mod_cast hn'
    have h0 : (0 : ℝ) ≤ n := Nat.cast_nonneg n
    calc (n : ℝ) * _ ≤ n * (n * (1 / 2 ^ 52)) := mul_le_mul_of_nonneg_left hs h0
      _ ≤ 1000 * (1000 * (1 / 2 ^ 52)) := mul_le_mul hnr (mul_le_mul_of_nonneg_right hnr (by norm_num)) (by positivity) (h0.trans hnr)
      _ ≤ _ := by norm_num
  have := collect0 hP (by norm_num) (by norm_num) hdv hxe hsh
  exact this.trans (add_le_add le_rfl (by norm_num))

/-! ### The assumptions can be met -/

theorem doubleWorld_fft_1000 (file : Str) {n : ℕ} (hn : n ≤ 1000) : FFTAccurateDouble (doubleWorld file) n := by
  have hs : √((2 * n + 2049 : ℕ) : ℝ) ≤ 64 := by
    have : ((2 * n + 2049 : ℕ) : ℝ) ≤ 4049 := by exact_mod_cast (by omega : 2 * n + 2049 ≤ 4049)
    rw [Real.sqrt_le_left (by norm_num)]; linarith
  have hs0 := Real.sqrt_nonneg ((2 * n + 2049 : ℕ) : ℝ)
  refine ⟨doubles_f, 2 * u50, √((2 * n + 2049 : ℕ) : ℝ) * (2 : ℝ) ^ doubles.f.emin, ?_, ?_, ?_⟩
  · rw [u50_val]; norm_num
  · have e : doubles.f.emin = -1074 := rfl
    rw [e]
    calc √((2 * n + 2049 : ℕ) : ℝ) * (2 : ℝ) ^ (-1074 : ℤ) ≤ 2 ^ (6 : ℤ) * (2 : ℝ) ^ (-106 : ℤ) :=
          mul_le_mul (hs.trans (by norm_num)) (zpow_le_zpow_right₀ (by norm_num) (by norm_num)) (by positivity) (by norm_num)
      _ = _ := by rw [← zpow_add₀ (by norm_num)]; norm_num
  · refine ieeeFFTW_accurate (double_ok doubles_f) (2 * n + 2049) (big_large ?_)
    have : √((2 * n + 2049 : ℕ) : ℝ) * √((2 * n + 2049 : ℕ) : ℝ) ≤ 64 * 64 := mul_le_mul hs hs hs0 (by norm_num)
    linarith

/-- The FFT theorems are about something: there is a machine meeting every assumption for 1000 points. -/
example (file : Str) : DoubleMachine (doubleWorld file) doublePrint (fun _ => True) 1000 ∧ FFTAccurateDouble (doubleWorld file) 1000 :=
  ⟨doubleWorld_ok file (by norm_num), doubleWorld_fft_1000 file le_rfl⟩

end
end CP.Props
