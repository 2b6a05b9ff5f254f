import Verif.Props.Output
import Verif.Props.Stability
import Verif.Proofs.MnsFinal
/-
Property C59, continued: the number that is printed.
-/
open MeasureTheory Set
namespace CP.Props
open CP.Spec FOps
variable {F : Type} [FOps F]

/-- The decimal text `0`, with a sign. -/
def decZero (sg : Sign) : Dec := ⟨sg, ['0'], none, none⟩

theorem decZero_wf (sg : Sign) : (decZero sg).WF := by
  refine ⟨?_, ?_, by simp [decZero], by simp [decZero]⟩
  · intro c hc; simp [decZero] at hc; subst hc; decide
  · intro c hc; simp [decZero, Dec.fracDigits] at hc

theorem decZero_value (sg : Sign) : (decZero sg).value = 0 := by
  have h : natOf ['0'] = 0 := by decide
  simp [Dec.value, decZero, Dec.fracDigits, h]

omit [FOps F] in
/-- C59: a finite number is printed as a decimal number that differs from it by at most 5/1000000 of its size. -/
theorem C59_number {fmt : F → Str} {val : F → Option ℝ} (hp : PrintSpec fmt val) {x : F} {v : ℝ} (hx : val x = some v) :
    ∃ d : Dec, d.WF ∧ fmt x = d.text ∧ |d.value - v| ≤ 5 / 10 ^ 6 * |v| := by
  rcases lt_trichotomy v 0 with h | rfl | h
  · obtain ⟨m, X, h1, h2⟩ := hp.neg x v hx h
    obtain ⟨a, b, c⟩ := sixDigits_spec h1
    refine ⟨_, g6_wf .minus X a b, h2, ?_⟩
    rw [g6_value .minus X a b, abs_of_neg h]
    have : ((Sign.minus.unit : ℤ) : ℝ) * (m * (10 : ℝ) ^ (X - 5)) - v = -(m * (10 : ℝ) ^ (X - 5) - -v) := by
      simp only [Sign.unit]; push_cast; ring
    rw [this, abs_neg]
    exact c
  · rcases hp.zero x hx with h | h
    · exact ⟨decZero .none, decZero_wf _, h, by simp [decZero_value]⟩
    · exact ⟨decZero .minus, decZero_wf _, h, by simp [decZero_value]⟩
  · obtain ⟨m, X, h1, h2⟩ := hp.pos x v hx h
    obtain ⟨a, b, c⟩ := sixDigits_spec h1
    refine ⟨_, g6_wf .none X a b, h2, ?_⟩
    rw [g6_value .none X a b, abs_of_pos h]
    simpa [Sign.unit] using c

omit [FOps F] in
/-- C59: infinities and NaN are printed as text that is not a number. -/
theorem C59_special {fmt : F → Str} {val : F → Option ℝ} (hp : PrintSpec fmt val) {x : F} (hx : val x = none) :
    ∀ d : Dec, d.WF → fmt x ≠ d.text := by
  intro d hd he
  have h := hp.special x hx
  have hh : ∀ c, c ∈ fmt x → c = '-' ∨ c ∈ ['i', 'n', 'f', 'a'] := by
    intro c hc
    simp only [List.mem_cons, List.not_mem_nil, or_false] at h
    rcases h with h | h | h | h <;> rw [h] at hc <;> simp only [List.mem_cons, List.not_mem_nil, or_false] at hc ⊢ <;> tauto
  obtain ⟨h1, h2, h3, -⟩ := hd
  obtain ⟨c, hc⟩ : ∃ c, c ∈ d.int ++ d.fracDigits := List.exists_mem_of_ne_nil _ h3
  have hcd : c.isDigit = true := by
    rcases List.mem_append.mp hc with h | h
    · exact h1 c h
    · exact h2 c h
  have hct : c ∈ fmt x := by
    rw [he]
    unfold Dec.text
    rcases List.mem_append.mp hc with h | h
    · simp [h]
    · unfold Dec.fracDigits at h
      unfold Dec.fracText
      cases hf : d.frac with
      | none => rw [hf] at h; simp at h
      | some f => rw [hf] at h; simp at h; simp [h]
  rcases hh c hct with rfl | hm
  · exact absurd hcd (by decide)
  · simp only [List.mem_cons, List.not_mem_nil, or_false] at hm
    rcases hm with rfl | rfl | rfl | rfl <;> exact absurd hcd (by decide)

theorem digit_head {d : Dec} (hd : d.WF) : ∃ c r, d.text = c :: r ∧ (c.isDigit = true ∨ c = '-' ∨ c = '+' ∨ c = '.') := by
  obtain ⟨h1, h2, h3, -⟩ := hd
  unfold Dec.text
  cases d.sign with
  | minus => exact ⟨_, _, rfl, by simp⟩
  | plus => exact ⟨_, _, rfl, by simp⟩
  | none =>
    simp only [Sign.text, List.nil_append]
    cases hi : d.int with
    | cons c r => exact ⟨c, _, rfl, Or.inl (h1 c (by rw [hi]; simp))⟩
    | nil =>
      unfold Dec.fracText
      cases hf : d.frac with
      | none => rw [hi] at h3; unfold Dec.fracDigits at h3; rw [hf] at h3; simp at h3
      | some f => exact ⟨'.', _, rfl, by simp⟩

theorem usage_head : ∃ r, usageText = 'S' :: r := by
  have : usageText = "SYNOPSIS\n".toList ++ usageLines.tail.flatMap String.toList := rfl
  rw [this]
  exact ⟨_, rfl⟩

/-- C59: the program exits with status 0 if and only if its output is a printed number and a newline. -/
theorem C59_exit_zero_iff_number {fmt : F → Str} {val : F → Option ℝ} (hp : PrintSpec fmt val) (w : World F) (ioWhat : Str)
    (args : List Str) {code : ℕ} {out : Str} (h : crossprobRun w fmt ioWhat args = .exited code out) :
    code = 0 ↔ ∃ r, out = fmt r ++ ['\n'] := by
  have hhead : ∀ r, ∃ c t, fmt r = c :: t ∧ (c.isDigit = true ∨ c = '-' ∨ c = '+' ∨ c = '.' ∨ c = 'n' ∨ (c = 'i' ∧ t = ['n', 'f'])) := by
    intro r
    cases hv : val r with
    | some v =>
      obtain ⟨d, hd, e, -⟩ := C59_number hp hv
      obtain ⟨c, t, h1, h2⟩ := digit_head hd
      refine ⟨c, t, e.trans h1, ?_⟩
      tauto
    | none =>
      have h := hp.special r hv
      simp only [List.mem_cons, List.not_mem_nil, or_false] at h
      rcases h with h | h | h | h <;> exact ⟨_, _, h, by simp⟩
  have no : ∀ (c0 : Char) (t0 : Str), (c0 = 'S' ∨ c0 = 'E' ∨ (c0 = 'i' ∧ t0.head? = some 'f')) → ¬ ∃ r, c0 :: t0 = fmt r ++ ['\n'] := by
    rintro c0 t0 hc ⟨r, hr⟩
    obtain ⟨c, t, h1, h2⟩ := hhead r
    rw [h1, List.cons_append] at hr
    injection hr with e1 e2
    subst e1 e2
    rcases hc with rfl | rfl | ⟨rfl, hc⟩
    · revert h2; simp
    · revert h2; simp
    · rcases h2 with h2 | h2 | h2 | h2 | h2 | ⟨-, rfl⟩
      · exact absurd h2 (by decide)
      · exact absurd h2 (by decide)
      · exact absurd h2 (by decide)
      · exact absurd h2 (by decide)
      · exact absurd h2 (by decide)
      · simp at hc
  have key := C59_output w fmt ioWhat args
  obtain ⟨ut, hut⟩ := usage_head
  cases hm : crossprobMain w args with
  | printed r => rw [hm] at key; dsimp only at key; rw [key] at h; cases h; exact ⟨fun _ => ⟨r, rfl⟩, fun _ => rfl⟩
  | usage =>
    rw [hm] at key; dsimp only at key; rw [key] at h; cases h
    refine ⟨fun h => by omega, fun h => ?_⟩
    rw [hut] at h
    exact absurd h (no 'S' _ (Or.inl rfl))
  | ioError =>
    rw [hm] at key; dsimp only at key; rw [key] at h; cases h
    refine ⟨fun h => by omega, fun h => ?_⟩
    exact absurd h (no 'i' _ (Or.inr (Or.inr ⟨rfl, rfl⟩)))
  | error msg =>
    rw [hm] at key; dsimp only at key
    obtain ⟨c, f, -, k1, k2⟩ := key
    by_cases hs : ShowsUsage w c f
    · rw [k1 hs] at h; cases h
      refine ⟨fun h => by omega, fun h => ?_⟩
      rw [hut] at h
      exact absurd h (no 'S' _ (Or.inl rfl))
    · rw [k2 hs] at h; cases h
      refine ⟨fun h => by omega, fun h => ?_⟩
      exact absurd h (no 'E' _ (Or.inr (Or.inl rfl)))
  | aborted => rw [hm] at key; dsimp only at key; rw [key] at h; cases h
  | undefined => rw [hm] at key; dsimp only at key; rw [key] at h; cases h
  | hangs => rw [hm] at key; dsimp only at key; rw [key] at h; cases h

omit [FOps F] in
/-- C59: a probability above 0.9999995 is printed as `1`, so a crossing probability `1 - p` below `5e-7` is lost. -/
theorem C59_prints_one {fmt : F → Str} {val : F → Option ℝ} (hp : PrintSpec fmt val) {x : F} {v : ℝ} (hx : val x = some v)
    (h1 : 9999995 / 10 ^ 7 < v) (h2 : v ≤ 1) : fmt x = ['1'] := by
  obtain ⟨m, X, ⟨e, m0, g1, g2, g3, hc⟩, hf⟩ := hp.pos x v hx (lt_trans (by norm_num) h1)
  have fin : (g6 .none 100000 0).text = ['1'] := by decide
  have he : e ≤ 0 := by
    by_contra hlt
    have : (10 : ℝ) ^ (1 : ℤ) ≤ (10 : ℝ) ^ e := zpow_le_zpow_right₀ (by norm_num) (by omega)
    norm_num at this
    linarith
  have he1 : -1 ≤ e := by
    by_contra hlt
    have : (10 : ℝ) ^ (e + 1) ≤ (10 : ℝ) ^ (-1 : ℤ) := zpow_le_zpow_right₀ (by norm_num) (by omega)
    norm_num at this
    norm_num at h1
    linarith
  obtain rfl | rfl : e = 0 ∨ e = -1 := by omega
  · have hv : v = 1 := le_antisymm h2 (by simpa using g1)
    subst hv
    have hm : m0 = 100000 := by
      norm_num at g3
      obtain ⟨a, b⟩ := abs_le.mp g3
      have l1 : (99999 : ℝ) < m0 := by linarith
      have l2 : (m0 : ℝ) < 100001 := by linarith
      have l1' : 99999 < m0 := by exact_mod_cast l1
      have l2' : m0 < 100001 := by exact_mod_cast l2
      omega
    subst hm
    rcases hc with ⟨-, rfl, rfl⟩ | ⟨h, -, -⟩
    · rw [hf, fin]
    · omega
  · have hm : m0 = 1000000 := by
      norm_num at g3
      obtain ⟨a, b⟩ := abs_le.mp g3
      norm_num at h1
      have l1 : (999999 : ℝ) < m0 := by linarith
      have l2 : (m0 : ℝ) < 1000001 := by linarith
      have l1' : 999999 < m0 := by exact_mod_cast l1
      have l2' : m0 < 1000001 := by exact_mod_cast l2
      omega
    subst hm
    rcases hc with ⟨h, -, -⟩ | ⟨-, rfl, rfl⟩
    · omega
    · rw [hf]; exact fin

/-- C59: a printed number, whatever follows it, is read back by `string_to_double` as the floating-point number nearest to the
printed decimal. -/
theorem C59_reads_back {fmt : F → Str} {val : F → Option ℝ} (hp : PrintSpec fmt val) {libc : Libc F} {rnd : ℝ → F}
    {inRange : ℝ → Prop} (hspec : StrtodSpec libc.strtod rnd inRange) {x : F} {v : ℝ} (hx : val x = some v)
    (hin : ∀ r, |r - v| ≤ 5 / 10 ^ 6 * |v| → inRange r)
    {rest : Str} (hr : EndsNumber rest) :
    ∃ r : ℝ, |r - v| ≤ 5 / 10 ^ 6 * |v| ∧ stringToDouble libc (fmt x ++ rest) = .ok (rnd r) := by
  obtain ⟨d, hd, he, hv⟩ := C59_number hp hx
  refine ⟨d.value, hv, ?_⟩
  rw [he]
  have := C29_prefix hspec [] d rest (by simp) hd hr (hin _ hv)
  simpa using this

/-! ### From the file to the printed text -/

/-- The value of a finite number of the exact arithmetic. -/
def XR.value? : XR → Option ℝ
  | .fin r => some r
  | _ => none

/-- C59 (two-sided, exact arithmetic): the `ecdf2-*` commands exit with status 0 and print one line with a decimal number within
5/1000000 (relative) of the non-crossing probability of the numbers in the file. -/
theorem C59_two_sided {fmt : XR → Str} (hp : PrintSpec fmt XR.value?) (ioWhat : Str)
    (w : World XR) (hf : ExactFFT w.env.fft) (hsort : SortContract w.sort)
    (hspec : StrtodSpec w.libc.strtod XR.fin fun _ => True) {n : ℕ} (fb fB : Fin n → Field)
    (hfb : ∀ i, (fb i).WF) (hfB : ∀ i, (fB i).WF) (hb : ValidBound (valuesOf fb)) (hB : ValidBound (valuesOf fB))
    (name text : Str) (hfile : w.fs name = .contents text) (hlines : FirstTwoLines text (lineOf fb) (lineOf fB))
    (command : String) (hc : command = "ecdf2-ks2001" ∨ command = "ecdf2-mn2017")
    (ha : w.env.asserts = false ∨ ¬ StronglyCrossed (valuesOf fb) (valuesOf fB)) :
    ∃ d : Dec, d.WF ∧ crossprobRun w fmt ioWhat [command.toList, name] = .exited 0 (d.text ++ ['\n']) ∧
      |d.value - noncrossProb (valuesOf fb) (valuesOf fB)| ≤ 5 / 10 ^ 6 * noncrossProb (valuesOf fb) (valuesOf fB) := by
  have h := C41_two_sided w hf hsort hspec fb fB hfb hfB hb hB name text hfile hlines command hc ha
  have key := C59_output w fmt ioWhat [command.toList, name]
  rw [h] at key
  obtain ⟨d, hd, he, hv⟩ := C59_number hp (x := XR.fin (noncrossProb (valuesOf fb) (valuesOf fB))) rfl
  refine ⟨d, hd, by rw [← he]; exact key, ?_⟩
  rwa [abs_of_nonneg (show 0 ≤ noncrossProb (valuesOf fb) (valuesOf fB) from measureReal_nonneg)] at hv

/-- C59 (one boundary, exact arithmetic): the same for each of the four commands and a file with one empty line. -/
theorem C59_one_sided {fmt : XR → Str} (hp : PrintSpec fmt XR.value?) (ioWhat : Str)
    (w : World XR) (hf : ExactFFT w.env.fft) (hsort : SortContract w.sort) (hsq : w.isqrt = Nat.sqrt)
    (hspec : StrtodSpec w.libc.strtod XR.fin fun _ => True) {n : ℕ} (hn : 1 ≤ n) (fc : Fin n → Field)
    (hfc : ∀ i, (fc i).WF) (hcv : ValidBound (valuesOf fc)) (name text : Str) (hfile : w.fs name = .contents text)
    (command : String) (hc : command ∈ ["ecdf1-mns2016", "ecdf1-new", "ecdf2-ks2001", "ecdf2-mn2017"])
    (ha : command = "ecdf1-new" → w.env.asserts = false ∨ 2 ≤ n) :
    (FirstTwoLines text [] (lineOf fc) → ∃ d : Dec, d.WF ∧
      crossprobRun w fmt ioWhat [command.toList, name] = .exited 0 (d.text ++ ['\n']) ∧
      |d.value - upperProb (valuesOf fc)| ≤ 5 / 10 ^ 6 * upperProb (valuesOf fc)) ∧
    (FirstTwoLines text (lineOf fc) [] → ∃ d : Dec, d.WF ∧
      crossprobRun w fmt ioWhat [command.toList, name] = .exited 0 (d.text ++ ['\n']) ∧
      |d.value - lowerProb (valuesOf fc)| ≤ 5 / 10 ^ 6 * lowerProb (valuesOf fc)) := by
  have key := C59_output w fmt ioWhat [command.toList, name]
  constructor <;> intro hl
  · have h := C41_upper w hf hsort hsq hspec hn fc hfc hcv name text hfile hl command hc ha
    rw [h] at key
    obtain ⟨d, hd, he, hv⟩ := C59_number hp (x := XR.fin (upperProb (valuesOf fc))) rfl
    refine ⟨d, hd, by rw [← he]; exact key, ?_⟩
    rwa [abs_of_nonneg (show 0 ≤ upperProb (valuesOf fc) from measureReal_nonneg)] at hv
  · have h := C41_lower w hf hsort hsq hspec hn fc hfc hcv name text hfile hl command hc ha
    rw [h] at key
    obtain ⟨d, hd, he, hv⟩ := C59_number hp (x := XR.fin (lowerProb (valuesOf fc))) rfl
    refine ⟨d, hd, by rw [← he]; exact key, ?_⟩
    rwa [abs_of_nonneg (show 0 ≤ lowerProb (valuesOf fc) from measureReal_nonneg)] at hv

end CP.Props
