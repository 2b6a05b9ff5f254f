import Verif.Proofs.SmallFft
import Verif.Props.IeeeProgram
import Verif.Props.Tables
/-
Property C62: up to 126 points (or for narrow bands of any length) the FFT is never used, so that the FFT variants are the same
functions as the direct ones, whatever the FFT library computes.
-/
open MeasureTheory Set
namespace CP.Props
open CP.Spec FOps
variable {F : Type} [FOps F]

/-- C62: up to 126 points `ecdf2` with `use_fft = true` and with `use_fft = false` do the same thing (same number, bit for bit, or
same error), in any arithmetic, with any FFT library, for any lists (valid or not), in either build. -/
theorem C62_ecdf2_same (env : Env F) {sort : List (Bound F) → List (Bound F)} (hperm : ∀ l, (sort l).Perm l) (b B : List F)
    (hn : b.length ≤ 126) : ecdf2 env sort b B true = ecdf2 env sort b B false :=
  ecdf2_narrow env sort b B fun p hp => narrow_of_length sort hperm hn p hp

/-- C62, narrow bands: whatever the number of points, if each point of the upper boundary is (in the machine's comparison) smaller
than the points of the lower boundary 126 or more places later, the two variants of `ecdf2` do the same thing. -/
theorem C62_ecdf2_band (env : Env F) {sort : List (Bound F) → List (Bound F)} (hperm : ∀ l, (sort l).Perm l) (b B : List F)
    (hsorted : (sort (unsortedBounds b B)).Pairwise fun x y => lt y.location x.location = false)
    (hband : ∀ (i j : ℕ) x y, B[i]? = some x → b[j]? = some y → i + 126 ≤ j → lt x y = true) :
    ecdf2 env sort b B true = ecdf2 env sort b B false := by
  by_cases hl : b.length = B.length
  · exact ecdf2_narrow env sort b B fun p hp => narrow_of_band sort hperm hsorted hl hband p hp
  · unfold ecdf2
    dsimp only
    refine M_bind_congr rfl fun _ => ?_
    obtain ⟨msg, e⟩ : ∃ msg, checkBoundaryVector "B" (b.length : Int) B = .error (.runtimeError msg) := by
      unfold checkBoundaryVector
      rw [if_pos (by omega)]
      exact ⟨_, rfl⟩
    rw [e]
    rfl

/-- C62 for narrow bands is about something: 300 points, band `i/600 ≤ X_(i) ≤ (i+100)/600`. -/
example (env : Env XR) :
    ecdf2 env mergeSortBounds (List.ofFn fun i : Fin 300 => XR.fin ((i : ℝ) / 600)) (List.ofFn fun i : Fin 300 => XR.fin (((i : ℝ) + 100) / 600)) true
      = ecdf2 env mergeSortBounds (List.ofFn fun i : Fin 300 => XR.fin ((i : ℝ) / 600))
          (List.ofFn fun i : Fin 300 => XR.fin (((i : ℝ) + 100) / 600)) false := by
  refine C62_ecdf2_band env mergeSortBounds_contract.perm _ _ (mergeSortBounds_contract.sorted _ ?_) ?_
  · intro x hx
    unfold unsortedBounds at hx
    rw [List.mem_append, List.mem_map, List.mem_map] at hx
    rcases hx with ⟨a, ha, rfl⟩ | ⟨a, ha, rfl⟩
    · obtain ⟨i, rfl⟩ := List.mem_ofFn.mp ha
      exact ⟨_, rfl⟩
    · obtain ⟨i, rfl⟩ := List.mem_ofFn.mp ha
      exact ⟨_, rfl⟩
  · intro i j x y hx hy hij
    rw [List.getElem?_ofFn] at hx hy
    split at hx
    · split at hy
      · cases hx; cases hy
        have h1 : (i : ℝ) + 126 ≤ j := by exact_mod_cast hij
        rw [XR.lt_fin, decide_eq_true_eq]
        dsimp only
        linarith
      · cases hy
    · cases hx

/-- C62: up to 126 points `ecdf1_new_B` and `ecdf1_new_b` give the same result with any two FFT libraries. -/
theorem C62_new_same (env : Env F) (fft' : FFTW F) (isqrt : ℕ → ℕ) (v : List F) (hn : v.length ≤ 126) :
    ecdf1NewB { env with fft := fft' } isqrt v = ecdf1NewB env isqrt v ∧
    ecdf1Newb { env with fft := fft' } isqrt v = ecdf1Newb env isqrt v :=
  ⟨ecdf1NewB_fft_irrel env fft' isqrt v hn, ecdf1Newb_fft_irrel env fft' isqrt v hn⟩

theorem ecdf2_false_fft (env : Env F) (fft' : FFTW F) (sort : List (Bound F) → List (Bound F)) (b B : List F) :
    ecdf2 { env with fft := fft' } sort b B false = ecdf2 env sort b B false := by
  have e : ∀ I, ncStep { env with fft := fft' } I false = ncStep env I false := by
    intro I
    funext s bd
    unfold ncStep ncConvolve
    simp only [Bool.false_eq_true, if_false]
    rfl
  unfold ecdf2
  dsimp only
  refine M_bind_congr rfl fun _ => M_bind_congr rfl fun _ => M_bind_congr ?_ fun probs => rfl
  unfold poissonProcessNoncrossingProbability
  dsimp only
  refine M_bind_congr rfl fun src => M_bind_congr rfl fun g => M_bind_congr ?_ fun s => rfl
  rw [e]
  rfl

/-- All the boundaries in the file have at most 126 points. -/
def SmallFile (w : World F) (name : Str) : Prop :=
  ∀ b B, readAndCheckBoundariesFile w.libc w.fs name = .ok (b, B) → b.length ≤ 126 ∧ B.length ≤ 126

theorem mn_eq_ks (w : World F) (hperm : ∀ l, (w.sort l).Perm l) {b B : List F} (hb : b.length ≤ 126) (hB : B.length ≤ 126) :
    calculateEcdf2Mn2017 w b B = calculateEcdf2Ks2001 w b B := by
  unfold calculateEcdf2Mn2017 calculateEcdf2Ks2001
  dsimp only
  rw [C62_ecdf2_same w.env hperm b B hb, C62_ecdf2_same w.env hperm b _ hb,
    C62_ecdf2_same w.env hperm (List.replicate _ zero) B (by rw [List.length_replicate]; omega)]

/-- C62, the whole program: on a file with at most 126 points per line, `crossprob ecdf2-mn2017 file` and
`crossprob ecdf2-ks2001 file` write exactly the same output and exit with the same code. -/
theorem C62_program_same (w : World F) (hperm : ∀ l, (w.sort l).Perm l) (fmt : F → Str) (ioWhat : Str) (name : Str)
    (hs : SmallFile w name) :
    crossprobRun w fmt ioWhat ["ecdf2-mn2017".toList, name] = crossprobRun w fmt ioWhat ["ecdf2-ks2001".toList, name] := by
  have key : handleCommandLineArgumentsIO w fmt "ecdf2-mn2017".toList name
      = handleCommandLineArgumentsIO w fmt "ecdf2-ks2001".toList name := by
    unfold handleCommandLineArgumentsIO
    rw [outM_lift_bind, outM_lift_bind]
    cases hr : readAndCheckBoundariesFile w.libc w.fs name with
    | error e => rfl
    | ok bb =>
      obtain ⟨b, B⟩ := bb
      dsimp only
      rw [if_neg (by decide), if_neg (by decide), if_neg (by decide), if_pos rfl, if_neg (by decide), if_neg (by decide), if_pos rfl,
        mn_eq_ks w hperm (hs b B hr).1 (hs b B hr).2]
  unfold crossprobRun
  dsimp only
  rw [key]

/-- C62, the whole program: on a file with at most 126 points per line no command depends on the FFT library. -/
theorem C62_program_any_fft (w : World F) (hperm : ∀ l, (w.sort l).Perm l) (fft' : FFTW F) (fmt : F → Str) (ioWhat : Str)
    (command name : Str) (hs : SmallFile w name) :
    crossprobRun { w with env := { w.env with fft := fft' } } fmt ioWhat [command, name] = crossprobRun w fmt ioWhat [command, name] := by
  have key : handleCommandLineArgumentsIO { w with env := { w.env with fft := fft' } } fmt command name
      = handleCommandLineArgumentsIO w fmt command name := by
    unfold handleCommandLineArgumentsIO
    rw [outM_lift_bind, outM_lift_bind]
    cases hr : readAndCheckBoundariesFile w.libc w.fs name with
    | error e => rfl
    | ok bb =>
      obtain ⟨b, B⟩ := bb
      obtain ⟨h1, h2⟩ := hs b B hr
      dsimp only
      have e1 : calculateEcdf1Mns2016IO { w with env := { w.env with fft := fft' } } b B = calculateEcdf1Mns2016IO w b B := rfl
      have e2 : calculateEcdf1NewIO { w with env := { w.env with fft := fft' } } b B = calculateEcdf1NewIO w b B := by
        unfold calculateEcdf1NewIO
        dsimp only
        rw [ecdf1NewB_fft_irrel w.env fft' w.isqrt B h2, ecdf1Newb_fft_irrel w.env fft' w.isqrt b h1]
      have e3 : calculateEcdf2Ks2001 { w with env := { w.env with fft := fft' } } b B = calculateEcdf2Ks2001 w b B := by
        unfold calculateEcdf2Ks2001
        simp only [ecdf2_false_fft]
      have e4 : calculateEcdf2Mn2017 { w with env := { w.env with fft := fft' } } b B = calculateEcdf2Mn2017 w b B := by
        rw [mn_eq_ks w hperm h1 h2, ← e3]
        exact mn_eq_ks { w with env := { w.env with fft := fft' } } hperm h1 h2
      rw [e1, e2, e3, e4]
  unfold crossprobRun
  dsimp only
  rw [key]

/-! ### The threshold is exact -/

/-- C62, the threshold: a convolution of fewer than 128 elements does not depend on the FFT library; a convolution of 128 or more
elements returns exactly what the library's inverse transform returned (here a library whose inverse transform is constantly `z`). -/
theorem C62_threshold (env : Env F) {m : Int} (hm : 0 ≤ m) {cv : Convolver F} (h : Reachable env m cv) (c : Call F) (hv : c.Valid)
    (hs : c.size ≤ m) :
    (c.size < 128 → ∀ fft' : FFTW F, c.run { env with fft := fft' } cv = c.run env cv) ∧
    (128 ≤ c.size → ∀ z : F, (∀ N ys j, env.fft.c2r N ys j = z) →
      ∃ cv' out, c.run env cv = .ok (cv', out) ∧ ∀ j : ℕ, (j : Int) < c.size → out[c.oo.toNat + j]? = some z) := by
  refine ⟨fun h1 fft' => convolve_fft_irrel env fft' cv h1 _ _ _ _ _ _, fun h1 z hz => ?_⟩
  obtain ⟨⟨cv', out⟩, e1, e2⟩ := (call_sat (E := NoFault) env (reachable_inv hm h) c hv hs).exists_ok
  refine ⟨cv', out, e1, fun j hj => ?_⟩
  have hoo := hv.o0
  have := (e2.2.2 (c.oo + j) z).mpr (Or.inl ⟨by omega, by omega, by
    unfold convVal MINIMUM_SIZE_FOR_FFTW_CONVOLUTION fftConv
    rw [if_neg (by omega)]
    exact (hz _ _ _).symm⟩)
  have e : (c.oo + j).toNat = c.oo.toNat + j := by omega
  rw [← e]
  exact this.2

/-- With direct convolution, a one-hot input gives back the other input: so that the second part of `C62_threshold` shows a
difference (128 elements, a library that always returns 0). -/
example (env : Env XR) (hz : ∀ N ys j, env.fft.c2r N ys j = XR.fin 0) :
    ∃ cv' out, (Call.mk 128 (constList 128) 0 (constList 128) 0 (constList 128) 0).run env (Convolver.new env 128) = .ok (cv', out) ∧
      out[(0 : Int).toNat + 0]? = some (XR.fin 0) := by
  have hv : (Call.mk 128 (constList 128) 0 (constList 128) 0 (constList 128) 0 : Call XR).Valid := by
    refine ⟨?_, ?_, ?_, ?_, ?_, ?_⟩ <;> dsimp only <;> first | (rw [constList_length]; norm_num) | norm_num
  obtain ⟨cv', out, h1, h2⟩ := (C62_threshold env (m := 128) (by norm_num) .new _ hv le_rfl).2 le_rfl _ hz
  exact ⟨cv', out, h1, h2 0 (by norm_num)⟩

/-! ### Consequence: accuracy without assumptions on the FFT library -/

noncomputable section
variable {A : FloatSystem}

/-- C62: `ecdf2` with `use_fft = true` in double precision, for boundaries of up to 100 doubles: relative error `8e-8`, with any FFT
library whatsoever. -/
theorem C62_double_mn2017_100 (hf : A.f = binary64) {n : ℕ} (hn : 1 ≤ n) (hn' : n ≤ 100) (hL : LibmAccurate A u50 n)
    (env : Env (Num A)) {b B : Fin n → Num A} (hbf : ∀ i, (b i).finite) (hBf : ∀ i, (B i).finite)
    (hb : ValidBound fun i => (b i).val) (hB : ValidBound fun i => (B i).val)
    {sort : List (Bound (Num A)) → List (Bound (Num A))} (hperm : ∀ l, (sort l).Perm l)
    (hsorted : ∀ l, (∀ x ∈ l, x.location.finite) → (sort l).Pairwise fun x y => lt y.location x.location = false)
    (ha : env.asserts = false ∨ ¬ StronglyCrossed (fun i => (b i).val) (fun i => (B i).val)) :
    ∃ x : Num A, ecdf2 env sort (List.ofFn b) (List.ofFn B) true = .ok x ∧ x.finite ∧ 0 ≤ x.val ∧
      |x.val - noncrossProb (fun i => (b i).val) (fun i => (B i).val)|
        ≤ 7 / 10 ^ 8 * noncrossProb (fun i => (b i).val) (fun i => (B i).val) + (2 : ℝ) ^ (-1000 : ℤ) ∧
      (noncrossProb (fun i => (b i).val) (fun i => (B i).val) = 0 → x.val = 0) := by
  rw [C62_ecdf2_same env hperm _ _ (by rw [List.length_ofFn]; omega)]
  exact C61_double_100 hf hn hn' hL env hbf hBf hb hB hperm hsorted ha

theorem small_of_fields {w : World (Num A)} {fmt : Num A → Str} {inRange : ℝ → Prop} {n k m : ℕ} (hM : DoubleMachine w fmt inRange k)
    (hn : n ≤ 126) (hm : m ≤ 126) (fb : Fin n → Field) (fB : Fin m → Field) (hfb : ∀ i, (fb i).WF) (hfB : ∀ i, (fB i).WF)
    (hinb : ∀ i, inRange (fb i).num.value) (hinB : ∀ i, inRange (fB i).num.value)
    {name text : Str} (hfile : w.fs name = .contents text) (hlines : FirstTwoLines text (lineOf fb) (lineOf fB)) : SmallFile w name := by
  intro b B h
  rw [read_file hM.strtod fb fB hfb hfB hinb hinB hfile hlines] at h
  cases h
  simp only [List.length_ofFn]
  exact ⟨hn, hm⟩

/-- C62, the whole program: `crossprob ecdf2-mn2017 file` in double precision, up to 100 points, with any FFT library. -/
theorem C62_program_mn2017_100 (w : World (Num A)) {fmt : Num A → Str} {inRange : ℝ → Prop} {n : ℕ} (hM : DoubleMachine w fmt inRange n)
    (ioWhat : Str) (hn : 1 ≤ n) (hn' : n ≤ 100) (fb fB : Fin n → Field) (hfb : ∀ i, (fb i).WF) (hfB : ∀ i, (fB i).WF)
    (hinb : ∀ i, inRange (fb i).num.value) (hinB : ∀ i, inRange (fB i).num.value)
    (hb : ValidBound (valuesOf fb)) (hB : ValidBound (valuesOf fB))
    (ha : w.env.asserts = false ∨ ¬ StronglyCrossed (valuesOf fb) (valuesOf fB))
    (name text : Str) (hfile : w.fs name = .contents text) (hlines : FirstTwoLines text (lineOf fb) (lineOf fB)) :
    ∃ d : Dec, d.WF ∧ crossprobRun w fmt ioWhat ["ecdf2-mn2017".toList, name] = .exited 0 (d.text ++ ['\n']) ∧
      |d.value - noncrossProb (valuesOf fb) (valuesOf fB)| ≤ 51 / 10 ^ 7 * noncrossProb (valuesOf fb) (valuesOf fB) + 2 / 10 ^ 11 := by
  rw [C62_program_same w hM.sortPerm fmt ioWhat name
    (small_of_fields hM (by omega) (by omega) fb fB hfb hfB hinb hinB hfile hlines)]
  exact C61_program_direct_100 w hM ioWhat hn hn' fb fB hfb hfB hinb hinB hb hB ha name text hfile hlines

/-- A world with a faultless FFT library in place of the real one. -/
def withGoodFFT (w : World (Num A)) : World (Num A) := { w with env := { w.env with fft := ieeeFFTW A } }

theorem goodFFT_accurate (hf : A.f = binary64) (w : World (Num A)) {n : ℕ} (hn : n ≤ 100) : FFTAccurateDouble (withGoodFFT w) n := by
  have hs : √((2 * n + 2049 : ℕ) : ℝ) ≤ 48 := by
    have : ((2 * n + 2049 : ℕ) : ℝ) ≤ 2249 := by exact_mod_cast (by omega : 2 * n + 2049 ≤ 2249)
    rw [Real.sqrt_le_left (by norm_num)]; linarith
  have hs0 := Real.sqrt_nonneg ((2 * n + 2049 : ℕ) : ℝ)
  refine ⟨hf, 2 * u50, √((2 * n + 2049 : ℕ) : ℝ) * (2 : ℝ) ^ A.f.emin, ?_, ?_, ?_⟩
  · rw [u50_val]; norm_num
  · have e : A.f.emin = -1074 := by rw [hf]; rfl
    rw [e]
    calc √((2 * n + 2049 : ℕ) : ℝ) * (2 : ℝ) ^ (-1074 : ℤ) ≤ 2 ^ (6 : ℤ) * (2 : ℝ) ^ (-106 : ℤ) :=
          mul_le_mul (hs.trans (by norm_num)) (zpow_le_zpow_right₀ (by norm_num) (by norm_num)) (by positivity) (by norm_num)
      _ = _ := by rw [← zpow_add₀ (by norm_num)]; norm_num
  · refine ieeeFFTW_accurate (double_ok hf) (2 * n + 2049) ?_
    have e : A.f.emax = 1024 := by rw [hf]; rfl
    rw [e]
    have h40 : (2 : ℝ) ^ (40 : ℤ) ≤ (2 : ℝ) ^ (1024 - 1 : ℤ) := zpow_le_zpow_right₀ (by norm_num) (by norm_num)
    refine le_trans ?_ h40
    have : √((2 * n + 2049 : ℕ) : ℝ) * √((2 * n + 2049 : ℕ) : ℝ) ≤ 48 * 48 := mul_le_mul hs hs hs0 (by norm_num)
    have e40 : (2 : ℝ) ^ (40 : ℤ) = 1099511627776 := by norm_num
    rw [e40]
    linarith

theorem goodFFT_machine {w : World (Num A)} {fmt : Num A → Str} {inRange : ℝ → Prop} {n : ℕ} (hM : DoubleMachine w fmt inRange n) :
    DoubleMachine (withGoodFFT w) fmt inRange n :=
  ⟨hM.format, hM.libm, hM.strtod, hM.print, hM.sortPerm, hM.sortSorted⟩

/-- C62, the whole program: `crossprob ecdf1-new file` on a file with only an upper boundary, in double precision, up to 100 points,
with any FFT library. -/
theorem C62_program_new_B_100 (w : World (Num A)) {fmt : Num A → Str} {inRange : ℝ → Prop} {n : ℕ} (hM : DoubleMachine w fmt inRange n)
    (ioWhat : Str) (hn : 1 ≤ n) (hn' : n ≤ 100) (fs : Fin n → Field) (hfs : ∀ i, (fs i).WF)
    (hin : ∀ i, inRange (fs i).num.value) (hv : ValidBound (valuesOf fs)) (ha : w.env.asserts = false ∨ w.isqrt n + 1 ≤ n)
    (name text : Str) (hfile : w.fs name = .contents text) (hlines : FirstTwoLines text [] (lineOf fs)) :
    ∃ d : Dec, d.WF ∧ crossprobRun w fmt ioWhat ["ecdf1-new".toList, name] = .exited 0 (d.text ++ ['\n']) ∧
      |d.value - upperProb (valuesOf fs)| ≤ 5 / 10 ^ 6 * upperProb (valuesOf fs) + 5 / 10 ^ 6 := by
  have he : lineOf (n := 0) Fin.elim0 = [] := by simp [lineOf, List.intercalate]
  rw [← C62_program_any_fft w hM.sortPerm (ieeeFFTW A) fmt ioWhat _ name
    (small_of_fields hM (n := 0) (by omega) (by omega) Fin.elim0 fs (fun i => i.elim0) hfs (fun i => i.elim0) hin hfile (by rw [he]; exact hlines))]
  exact C61_program_new_B_100 (withGoodFFT w) (goodFFT_machine hM) (goodFFT_accurate hM.format w hn') ioWhat hn hn' fs hfs hin hv ha name text
    hfile hlines

/-- C62, the whole program: `crossprob ecdf1-new file` on a file with only a lower boundary, in double precision, up to 100 points,
with any FFT library. -/
theorem C62_program_new_b_100 (w : World (Num A)) {fmt : Num A → Str} {inRange : ℝ → Prop} {n : ℕ} (hM : DoubleMachine w fmt inRange n)
    (ioWhat : Str) (hn : 1 ≤ n) (hn' : n ≤ 100) (fs : Fin n → Field) (hfs : ∀ i, (fs i).WF)
    (hin : ∀ i, inRange (fs i).num.value) (hv : ValidBound (valuesOf fs)) (ha : w.env.asserts = false ∨ w.isqrt n + 1 ≤ n)
    (name text : Str) (hfile : w.fs name = .contents text) (hlines : FirstTwoLines text (lineOf fs) []) :
    ∃ d : Dec, d.WF ∧ crossprobRun w fmt ioWhat ["ecdf1-new".toList, name] = .exited 0 (d.text ++ ['\n']) ∧
      |d.value - lowerProb (valuesOf fs)| ≤ 5 / 10 ^ 6 * lowerProb (valuesOf fs) + 5 / 10 ^ 6 := by
  have he : lineOf (n := 0) Fin.elim0 = [] := by simp [lineOf, List.intercalate]
  rw [← C62_program_any_fft w hM.sortPerm (ieeeFFTW A) fmt ioWhat _ name
    (small_of_fields hM (m := 0) (by omega) (by omega) fs Fin.elim0 hfs (fun i => i.elim0) hin (fun i => i.elim0) hfile (by rw [he]; exact hlines))]
  exact C61_program_new_b_100 (withGoodFFT w) (goodFFT_machine hM) (goodFFT_accurate hM.format w hn') ioWhat hn hn' fs hfs hin hv ha name text
    hfile hlines

/-- An FFT library that always returns NaN. -/
def nanFFT : FFTW (Num doubles) :=
  ⟨fun _ _ _ => ((Fl.nan : Fl binary64), (Fl.nan : Fl binary64)), fun _ _ _ => (Fl.nan : Fl binary64),
    fun _ _ _ => (Fl.nan : Fl binary64), fun _ _ _ => ((Fl.nan : Fl binary64), (Fl.nan : Fl binary64))⟩

/-- The world of C61 with that library. -/
def brokenWorld (file : Str) : World (Num doubles) := { doubleWorld file with env := { (doubleWorld file).env with fft := nanFFT } }

theorem brokenWorld_ok (file : Str) {n : ℕ} (hn : n ≤ 2 ^ 64) : DoubleMachine (brokenWorld file) doublePrint (fun _ => True) n :=
  have hM := doubleWorld_ok file hn
  ⟨hM.format, hM.libm, hM.strtod, hM.print, hM.sortPerm, hM.sortSorted⟩

/-- C62 is about something: on the file `0.1,0.3⏎0.5,0.9⏎` with an FFT library that always returns NaN, `ecdf2-mn2017` still prints
the right number. -/
example : ∃ d : Dec, d.WF ∧
    crossprobRun (brokenWorld "0.1,0.3\n0.5,0.9\n".toList) doublePrint [] ["ecdf2-mn2017".toList, "bounds.txt".toList]
      = .exited 0 (d.text ++ ['\n']) ∧ |d.value - noncrossProb exb exB| ≤ 6 / 10 ^ 6 := by
  have hp1 : noncrossProb exb exB ≤ 1 := measureReal_le_one
  have wf1 : ∀ i, (![tenth '1', tenth '3'] i).WF := by intro i; fin_cases i <;> exact tenth_wf rfl
  have wf2 : ∀ i, (![tenth '5', tenth '9'] i).WF := by intro i; fin_cases i <;> exact tenth_wf rfl
  obtain ⟨d, hd, hr, hv⟩ := C62_program_mn2017_100 (brokenWorld "0.1,0.3\n0.5,0.9\n".toList) (brokenWorld_ok _ (by norm_num)) []
      (by norm_num) (by norm_num) ![tenth '1', tenth '3'] ![tenth '5', tenth '9'] wf1 wf2 (fun _ => trivial) (fun _ => trivial)
      (ex_low ▸ exb_valid) (ex_high ▸ exB_valid) (Or.inl rfl) "bounds.txt".toList "0.1,0.3\n0.5,0.9\n".toList
      (by unfold brokenWorld doubleWorld; dsimp only; rw [if_pos rfl]) exLines
  rw [ex_low, ex_high] at hv
  exact ⟨d, hd, hr, by linarith⟩

/-- The same for the one-sided command. -/
example : ∃ d : Dec, d.WF ∧
    crossprobRun (brokenWorld "\n0.5,0.9\n".toList) doublePrint [] ["ecdf1-new".toList, "bounds.txt".toList]
      = .exited 0 (d.text ++ ['\n']) ∧ |d.value - upperProb exB| ≤ 1 / 10 ^ 5 := by
  have wf2 : ∀ i, (![tenth '5', tenth '9'] i).WF := by intro i; fin_cases i <;> exact tenth_wf rfl
  have hu : upperProb exB ≤ 1 := measureReal_le_one
  obtain ⟨d, hd, hr, hv⟩ := C62_program_new_B_100 (brokenWorld "\n0.5,0.9\n".toList) (brokenWorld_ok _ (by norm_num))
      [] (by norm_num) (by norm_num) ![tenth '5', tenth '9'] wf2 (fun _ => trivial)
      (ex_high ▸ exB_valid) (Or.inl rfl) "bounds.txt".toList "\n0.5,0.9\n".toList
      (by unfold brokenWorld doubleWorld; dsimp only; rw [if_pos rfl]) exLine_upper
  rw [ex_high] at hv
  exact ⟨d, hd, hr, by linarith⟩

end

end CP.Props
