import Verif.Props.OutputUse
import Verif.Props.Stability
import Verif.Proofs.Bisect
/-
Property C59: the whole program in floating point, from the text of the file to the printed text.
-/
open MeasureTheory Set
namespace CP.Props
open CP.Spec FOps

variable {F : Type} [FOps F]

/-- A line of numbers is read as the numbers written in it, each converted to floating point. -/
theorem parse_line {libc : Libc F} {rnd : ℝ → F} {inRange : ℝ → Prop} (hspec : StrtodSpec libc.strtod rnd inRange) {n : ℕ}
    (fs : Fin n → Field) (hwf : ∀ i, (fs i).WF) (hin : ∀ i, inRange (fs i).num.value) :
    readCommaDelimitedDoubles libc (lineOf fs) = .ok (List.ofFn fun i => rnd (valuesOf fs i)) := by
  by_cases hn : n = 0
  · subst hn
    have : lineOf fs = [] := by simp [lineOf, List.intercalate]
    rw [this, C28_empty]
    simp
  · unfold lineOf
    rw [C28_line hspec _ (by simpa using hn) (by
      intro f hf
      obtain ⟨i, rfl⟩ := (List.mem_ofFn' fs f).mp hf
      exact hwf i) (by
      intro f hf
      obtain ⟨i, rfl⟩ := (List.mem_ofFn' fs f).mp hf
      exact hin i)]
    simp [valuesOf, List.map_ofFn]
    rfl

/-- C59 in floating point: `ecdf2-mn2017` on a file with the decimal numbers of two valid boundaries, in `p`-bit arithmetic, with
decimal input rounded to `p` bits and output rounded to six digits.  The program exits with 0 and writes one decimal number and
a newline; the number is within the error of C54 plus six-digit rounding of the probability for the boundaries as written. -/
theorem C59_floating_point {p : ℕ} (hp : 3 ≤ p) (w : World (Fp p))
    {fmt : Fp p → Str} (hprint : PrintSpec fmt fun x => (x : Option ℝ)) (ioWhat : Str)
    {inRange : ℝ → Prop} (hspec : StrtodSpec w.libc.strtod (fun r => (some (roundTo p r) : Option ℝ)) inRange)
    {n : ℕ} (hn : 1 ≤ n) (fb fB : Fin n → Field) (hfb : ∀ i, (fb i).WF) (hfB : ∀ i, (fB i).WF)
    (hinb : ∀ i, inRange (fb i).num.value) (hinB : ∀ i, inRange (fB i).num.value)
    (hb : ValidBound (valuesOf fb)) (hB : ValidBound (valuesOf fB))
    (ha : w.env.asserts = false ∨ ¬ StronglyCrossed (valuesOf fb) (valuesOf fB))
    (name text : Str) (hfile : w.fs name = .contents text) (hlines : FirstTwoLines text (lineOf fb) (lineOf fB))
    (hperm : ∀ l, (w.sort l).Perm l)
    (hsorted : ∀ l, (∀ x ∈ l, ∃ r : ℝ, x.location = some r) → (w.sort l).Pairwise fun x y => lt y.location x.location = false)
    {Nmax : ℕ} {delta : ℝ} (hfft : FFTAccurate (fpModel p (by omega) 0) w.env.fft Nmax delta 0 256) (hN : 2 * n + 2049 ≤ Nmax)
    {rb rB : Fin n → ℝ} (hrb : ∀ i, rb i = roundTo p (valuesOf fb i)) (hrB : ∀ i, rB i = roundTo p (valuesOf fB i))
    {Lam : ℝ}
    (hLam : ∀ x ∈ {0, 1} ∪ range rb ∪ range rB, ∀ y ∈ {0, 1} ∪ range rb ∪ range rB, x < y → |Real.log (n * (y - x))| ≤ Lam)
    {Q : ℕ} (hQ : 5 * n * Lam + 10 * n + 3 * Real.log n.factorial + 1 ≤ Q)
    {u T δ : ℝ} (hu : u = 2 ^ (-(p : ℤ))) (hT : T = 2 * (2 * (Q * u) + √Nmax * (13 * u + 4 * delta) + 256 * u))
    (hsmall : (2 * n + 1) * T ≤ 1 / 2) (hδ : δ = 4 * Real.exp 1 * √n * ((2 * n + 1) * T) + 2 * n ^ 2 * u) :
    ∃ d : Dec, d.WF ∧ crossprobRun w fmt ioWhat ["ecdf2-mn2017".toList, name] = .exited 0 (d.text ++ ['\n']) ∧
      |d.value - noncrossProb (valuesOf fb) (valuesOf fB)| ≤
        δ + 5 / 10 ^ 6 * (noncrossProb (valuesOf fb) (valuesOf fB) + δ) := by
  obtain ⟨x, hx, hxe⟩ := C54_decimal_input hp w.env hn hb hB ha hperm hsorted hfft hN hrb hrB hLam hQ hu hT hsmall
  rw [← hδ] at hxe
  have h : crossprobMain w ["ecdf2-mn2017".toList, name] = .printed (fpR p x) := by
    refine (C26_printed w _ (fpR p x)).mpr ⟨_, _, List.ofFn (fpVec rb), List.ofFn (fpVec rB), rfl, ?_, ?_⟩
    · rw [C30_two_lines w.libc w.fs name text _ _ hfile hlines, parse_line hspec fb hfb hinb, parse_line hspec fB hfB hinB]
      obtain rfl : rb = fun i => roundTo p (valuesOf fb i) := funext hrb
      obtain rfl : rB = fun i => roundTo p (valuesOf fB i) := funext hrB
      rfl
    · exact Or.inr (Or.inr (Or.inr ⟨rfl, _, _, Or.inl ⟨by simp, rfl, rfl⟩, hx.symm⟩))
  have key := C59_output w fmt ioWhat ["ecdf2-mn2017".toList, name]
  rw [h] at key
  obtain ⟨d, hd, he, hv⟩ := C59_number hprint (x := fpR p x) (v := x) rfl
  refine ⟨d, hd, by rw [← he]; exact key, ?_⟩
  have h0 : 0 ≤ noncrossProb (valuesOf fb) (valuesOf fB) := measureReal_nonneg
  have hx1 : |x| ≤ noncrossProb (valuesOf fb) (valuesOf fB) + δ := by
    have := abs_sub_abs_le_abs_sub x (noncrossProb (valuesOf fb) (valuesOf fB))
    rw [abs_of_nonneg h0] at this
    linarith
  calc _ ≤ |d.value - x| + |x - noncrossProb (valuesOf fb) (valuesOf fB)| := abs_sub_le _ _ _
    _ ≤ _ := by
      have := mul_le_mul_of_nonneg_left hx1 (show (0 : ℝ) ≤ 5 / 10 ^ 6 by norm_num)
      linarith

/-- Rounding to 53 bits. -/
noncomputable def fpOfXR : XR → Fp 53
  | .fin v => fpR 53 (roundTo 53 v)
  | _ => (none : Option ℝ)

/-- `strtod` to 53-bit numbers. -/
noncomputable def fpStrtod (s : Str) : StrtodResult (Fp 53) :=
  let r := Witness.strtod s
  ⟨fpOfXR r.value, r.consumed, r.errno⟩

theorem fpStrtod_spec : StrtodSpec fpStrtod (fun r => (some (roundTo 53 r) : Option ℝ)) fun _ => True where
  number ws d rest h1 h2 h3 h4 := by
    unfold fpStrtod
    rw [Witness.strtod_spec.number ws d rest h1 h2 h3 h4]
    rfl
  outOfRange _ _ _ _ _ _ h := absurd trivial h
  noNumber s h := by
    have e1 := (Witness.strtod_spec.noNumber s h).1
    refine ⟨?_, (Witness.strtod_spec.noNumber s h).2⟩
    show fpOfXR (Witness.strtod s).value = _
    rw [e1]
    rfl

/-- The program in 53-bit arithmetic, with a file. -/
noncomputable def fpWorld (file : Str) : World (Fp 53) :=
  { env := fpFftEnv, sort := fpSort, isqrt := Nat.sqrt, libc := { strtol := Witness.strtol, strtod := fpStrtod, strerror := fun _ => [] },
    fs := fun name => if name = "bounds.txt".toList then .contents file else .unreadable }

/-- C59 is about something: on the file `0.1,0.3⏎0.5,0.9⏎` the program in 53-bit arithmetic prints a number within `6e-6` of the
probability. -/
example : ∃ d : Dec, d.WF ∧ crossprobRun (fpWorld "0.1,0.3\n0.5,0.9\n".toList) (fun x => print6 x) []
      ["ecdf2-mn2017".toList, "bounds.txt".toList] = .exited 0 (d.text ++ ['\n']) ∧
    |d.value - noncrossProb exb exB| ≤ 6 / 10 ^ 6 := by
  have h1 : valuesOf ![tenth '1', tenth '3'] = exb := by
    funext i
    fin_cases i
    · exact (tenth_value (d := '1') (k := 1) (by decide)).trans (by norm_num [exb])
    · exact (tenth_value (d := '3') (k := 3) (by decide)).trans (by norm_num [exb])
  have h2 : valuesOf ![tenth '5', tenth '9'] = exB := by
    funext i
    fin_cases i
    · exact (tenth_value (d := '5') (k := 5) (by decide)).trans (by norm_num [exB])
    · exact (tenth_value (d := '9') (k := 9) (by decide)).trans (by norm_num [exB])
  obtain ⟨d, hd, hr, hv⟩ := C59_floating_point (p := 53) (by norm_num) (fpWorld "0.1,0.3\n0.5,0.9\n".toList)
    (print6_spec fun x : Fp 53 => (x : Option ℝ)) [] fpStrtod_spec (by norm_num) ![tenth '1', tenth '3'] ![tenth '5', tenth '9']
    (by intro i; fin_cases i <;> exact tenth_wf rfl) (by intro i; fin_cases i <;> exact tenth_wf rfl)
    (fun _ => trivial) (fun _ => trivial)
    (h1 ▸ exb_valid) (h2 ▸ exB_valid) (Or.inl rfl) "bounds.txt".toList "0.1,0.3\n0.5,0.9\n".toList
    (by unfold fpWorld; dsimp only; rw [if_pos rfl]) exLines (fpSort_contract (by norm_num) 0).perm
    (fpSort_contract (by norm_num) 0).sorted fpFft_accurate (by norm_num) (rb := fun i => roundTo 53 (exb i))
    (rB := fun i => roundTo 53 (exB i)) (by rw [h1]; exact fun _ => rfl) (by rw [h2]; exact fun _ => rfl) exLam_rounded (Q := 150) exQ'
    rfl rfl (by rw [sqrt4096]; norm_num) rfl
  rw [h1, h2] at hv
  refine ⟨d, hd, hr, hv.trans ?_⟩
  have hp1 : noncrossProb exb exB ≤ 1 := measureReal_le_one
  have hδ : 4 * Real.exp 1 * √((2 : ℕ) : ℝ) * ((2 * (2 : ℕ) + 1) * (2 * (2 * ((150 : ℕ) * (2 : ℝ) ^ (-((53 : ℕ) : ℤ))) +
      √((4096 : ℕ) : ℝ) * (13 * (2 : ℝ) ^ (-((53 : ℕ) : ℤ)) + 4 * (2 : ℝ) ^ (-((53 : ℕ) : ℤ))) + 256 * (2 : ℝ) ^ (-((53 : ℕ) : ℤ))))) +
      2 * ((2 : ℕ) : ℝ) ^ 2 * (2 : ℝ) ^ (-((53 : ℕ) : ℤ)) ≤ 1 / 10 ^ 10 := by
    rw [sqrt4096]
    refine (add_le_add_left (mul_le_mul_of_nonneg_right ex_factor (by positivity)) _).trans ?_
    norm_num
  nlinarith

end CP.Props
