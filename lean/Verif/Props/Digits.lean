import Verif.Props.SmallFft
import Verif.Proofs.Digits
/-
Property C63: the six printed digits are the right ones whenever the probability is not too close to a point where the sixth digit
changes.
-/
open MeasureTheory Set
namespace CP.Props
open CP.Spec FOps
noncomputable section

variable {A : FloatSystem}

/-- C63, a criterion: if `P` is at least `10^X + tol` and differs from the six-digit number `m 10^(X-5)` by less than half a unit in
the sixth place minus `tol`, then every number within `tol` of `P` is printed as `m 10^(X-5)`. -/
theorem C63_criterion {P tol : ℝ} {m : ℕ} {X : ℤ} (hm : m < 1000000) (hlo : (10 : ℝ) ^ X + tol ≤ P)
    (h : |P - m * (10 : ℝ) ^ (X - 5)| + tol < (10 : ℝ) ^ (X - 5) / 2) : PrintsAs P tol (g6 .none m X).text := printsAs_of hm hlo h

/-- From a computed double to the printed digits. -/
theorem printed_digits {w : World (Num A)} {fmt : Num A → Str} (hprint : PrintSpec fmt Num.real?) (ioWhat : Str) {args : List Str} {x : Num A}
    (hx : x.finite) (h : crossprobMain w args = .printed x) {P tol : ℝ} {s : Str} (hs : PrintsAs P tol s) (he : |x.val - P| ≤ tol) :
    crossprobRun w fmt ioWhat args = .exited 0 (s ++ ['\n']) := by
  have key := C59_output w fmt ioWhat args
  rw [h] at key
  obtain ⟨a, ha, rfl⟩ := hx
  obtain ⟨h0, h1⟩ := hs a he
  obtain ⟨m, X, h2, h3⟩ := hprint.pos (mkNum A a ha) a rfl h0
  rw [← h1 m X h2, ← h3]
  exact key

/-- `PrintsAs` with a larger tolerance is stronger. -/
theorem PrintsAs.mono {P tol tol' : ℝ} {s : Str} (h : PrintsAs P tol s) (ht : tol' ≤ tol) : PrintsAs P tol' s :=
  fun v hv => h v (hv.trans ht)

/-- Both two-sided commands, given what was read from the file. -/
theorem digits_ecdf2 (w : World (Num A)) {fmt : Num A → Str} {inRange : ℝ → Prop} {n : ℕ} (hM : DoubleMachine w fmt inRange n)
    (ioWhat : Str) (hn : 1 ≤ n) (hn' : n ≤ 100) {b B : Fin n → ℝ} (hb : ValidBound b) (hB : ValidBound B)
    (ha : w.env.asserts = false ∨ ¬ StronglyCrossed b B) {name : Str} {lb lB : List (Num A)}
    (hread : readAndCheckBoundariesFile w.libc w.fs name = .ok (lb, lB))
    (hpad : Computes.Padded lb lB (List.ofFn fun i => roundNum A (b i)) (List.ofFn fun i => roundNum A (B i)))
    {s : Str} (hs : PrintsAs (noncrossProb b B) (1 / 10 ^ 7 * noncrossProb b B + 1 / 10 ^ 11) s)
    {command : Str} (hc : command = "ecdf2-ks2001".toList ∨ command = "ecdf2-mn2017".toList) :
    crossprobRun w fmt ioWhat [command, name] = .exited 0 (s ++ ['\n']) := by
  have ks : crossprobRun w fmt ioWhat ["ecdf2-ks2001".toList, name] = .exited 0 (s ++ ['\n']) := by
    obtain ⟨b1, -, b3, b4⟩ := double_read (A := A) hM.format hb
    obtain ⟨B1, -, B3, B4⟩ := double_read (A := A) hM.format hB
    obtain ⟨x, hx, hxf, -, hxe, -⟩ := C61_double_100 hM.format hn hn' hM.libm w.env b1 B1 b3 B3 hM.sortPerm hM.sortSorted
      (ha.imp id (not_crossed hM.format hb hB))
    have h : crossprobMain w ["ecdf2-ks2001".toList, name] = .printed x :=
      (C26_printed w _ x).mpr ⟨_, _, _, _, rfl, hread, Or.inr (Or.inr (Or.inl ⟨rfl, _, _, hpad, hx.symm⟩))⟩
    refine printed_digits hM.print ioWhat hxf h hs ?_
    have hP : 0 ≤ noncrossProb b B := measureReal_nonneg
    have htiny : (2 : ℝ) ^ (-1000 : ℤ) ≤ 1 / 10 ^ 20 :=
      (zpow_le_zpow_right₀ (by norm_num) (by norm_num) : (2 : ℝ) ^ (-1000 : ℤ) ≤ 2 ^ (-100 : ℤ)).trans (by norm_num)
    have hsh := read_shift hn' b4 B4
    obtain ⟨q, hq⟩ : ∃ q, q = noncrossProb (fun i => (roundNum A (b i)).val) (fun i => (roundNum A (B i)).val) := ⟨_, rfl⟩
    rw [← hq] at hxe hsh
    have e1 : ((100 : ℕ) : ℝ) ^ 2 / 2 ^ 51 ≤ 5 / 10 ^ 12 := by norm_num
    have h1 := abs_le.mp (hsh.trans e1)
    have h2 := abs_sub_le x.val q (noncrossProb b B)
    have h3 : 7 / 10 ^ 8 * q ≤ 7 / 10 ^ 8 * (noncrossProb b B + 5 / 10 ^ 12) := mul_le_mul_of_nonneg_left (by linarith) (by norm_num)
    have h4 := hxe.trans (add_le_add h3 htiny)
    have h5 := hsh.trans e1
    linarith
  rcases hc with rfl | rfl
  · exact ks
  · rw [C62_program_same w hM.sortPerm fmt ioWhat name ?_, ks]
    intro b' B' h'
    rw [hread] at h'
    cases h'
    rcases hpad with ⟨h1, h2, h3⟩ | ⟨h1, -, -, h3⟩ | ⟨-, h1, h2, -⟩
    · have := congrArg List.length h2
      rw [List.length_ofFn] at this
      omega
    · have := congrArg List.length h3
      rw [List.length_ofFn] at this
      rw [h1]; simp only [List.length_nil]; omega
    · have := congrArg List.length h2
      rw [List.length_ofFn] at this
      rw [h1]; simp only [List.length_nil]; omega

/-- C63: `crossprob ecdf2-ks2001 file` and `crossprob ecdf2-mn2017 file` in IEEE-754 double precision with any FFT library, on a file with
two valid boundaries of up to 100 points.  If every number within `1e-7 P + 1e-11` of the probability `P` is written `s` with six
significant digits, the program writes `s`, a newline and nothing else, and exits with 0. -/
theorem C63_two_sided (w : World (Num A)) {fmt : Num A → Str} {inRange : ℝ → Prop} {n : ℕ} (hM : DoubleMachine w fmt inRange n)
    (ioWhat : Str) (hn : 1 ≤ n) (hn' : n ≤ 100) (fb fB : Fin n → Field) (hfb : ∀ i, (fb i).WF) (hfB : ∀ i, (fB i).WF)
    (hinb : ∀ i, inRange (fb i).num.value) (hinB : ∀ i, inRange (fB i).num.value)
    (hb : ValidBound (valuesOf fb)) (hB : ValidBound (valuesOf fB))
    (ha : w.env.asserts = false ∨ ¬ StronglyCrossed (valuesOf fb) (valuesOf fB))
    (name text : Str) (hfile : w.fs name = .contents text) (hlines : FirstTwoLines text (lineOf fb) (lineOf fB))
    {P : ℝ} (hP : P = noncrossProb (valuesOf fb) (valuesOf fB)) {s : Str} (hs : PrintsAs P (1 / 10 ^ 7 * P + 1 / 10 ^ 11) s)
    {command : Str} (hc : command = "ecdf2-ks2001".toList ∨ command = "ecdf2-mn2017".toList) :
    crossprobRun w fmt ioWhat [command, name] = .exited 0 (s ++ ['\n']) := by
  subst hP
  exact digits_ecdf2 w hM ioWhat hn hn' hb hB ha (read_file hM.strtod fb fB hfb hfB hinb hinB hfile hlines)
    (Or.inl ⟨by simp, rfl, rfl⟩) hs hc

theorem round_zero : (zero : Num A) = roundNum A 0 := by
  show roundNum A ((0 : ℤ) : ℝ) = _
  rw [Int.cast_zero]

theorem round_one : (one : Num A) = roundNum A 1 := by
  show roundNum A ((1 : ℤ) : ℝ) = _
  rw [Int.cast_one]

theorem valid_const {n : ℕ} {c : ℝ} (h0 : 0 ≤ c) (h1 : c ≤ 1) : ValidBound (fun _ : Fin n => c) :=
  ⟨fun _ _ _ => le_rfl, fun _ => ⟨h0, h1⟩⟩

theorem replicate_ofFn {α : Type} (n : ℕ) (c : α) : List.replicate n c = List.ofFn fun _ : Fin n => c := (List.ofFn_const n c).symm

/-- C63: the two-sided commands on a file with only an upper boundary. -/
theorem C63_two_sided_upper (w : World (Num A)) {fmt : Num A → Str} {inRange : ℝ → Prop} {n : ℕ} (hM : DoubleMachine w fmt inRange n)
    (ioWhat : Str) (hn : 1 ≤ n) (hn' : n ≤ 100) (fs : Fin n → Field) (hfs : ∀ i, (fs i).WF)
    (hin : ∀ i, inRange (fs i).num.value) (hB : ValidBound (valuesOf fs))
    (name text : Str) (hfile : w.fs name = .contents text) (hlines : FirstTwoLines text [] (lineOf fs))
    {P : ℝ} (hP : P = upperProb (valuesOf fs)) {s : Str} (hs : PrintsAs P (1 / 10 ^ 7 * P + 1 / 10 ^ 11) s)
    {command : Str} (hc : command = "ecdf2-ks2001".toList ∨ command = "ecdf2-mn2017".toList) :
    crossprobRun w fmt ioWhat [command, name] = .exited 0 (s ++ ['\n']) := by
  have he : lineOf (n := 0) Fin.elim0 = [] := by simp [lineOf, List.intercalate]
  have hz : noncrossProb (fun _ : Fin n => (0 : ℝ)) (valuesOf fs) = P := by rw [hP]; exact noncrossProb_zeros fun _ => le_rfl
  refine digits_ecdf2 w hM ioWhat hn hn' (valid_const le_rfl zero_le_one) hB (Or.inr ?_)
    (read_file hM.strtod (n := 0) (m := n) Fin.elim0 fs (fun i => i.elim0) hfs (fun i => i.elim0) hin hfile (by rw [he]; exact hlines))
    (Or.inr (Or.inl ⟨by simp, by rw [ne_eq, List.ofFn_eq_nil_iff]; omega, ?_, rfl⟩)) (by rw [hz]; exact hs) hc
  · rintro ⟨i, j, -, h⟩
    have := (hB.range i).1
    have := (hB.range j).1
    linarith
  · rw [List.length_ofFn, round_zero, replicate_ofFn]

/-- C63: the two-sided commands on a file with only a lower boundary. -/
theorem C63_two_sided_lower (w : World (Num A)) {fmt : Num A → Str} {inRange : ℝ → Prop} {n : ℕ} (hM : DoubleMachine w fmt inRange n)
    (ioWhat : Str) (hn : 1 ≤ n) (hn' : n ≤ 100) (fs : Fin n → Field) (hfs : ∀ i, (fs i).WF)
    (hin : ∀ i, inRange (fs i).num.value) (hb : ValidBound (valuesOf fs))
    (name text : Str) (hfile : w.fs name = .contents text) (hlines : FirstTwoLines text (lineOf fs) [])
    {P : ℝ} (hP : P = lowerProb (valuesOf fs)) {s : Str} (hs : PrintsAs P (1 / 10 ^ 7 * P + 1 / 10 ^ 11) s)
    {command : Str} (hc : command = "ecdf2-ks2001".toList ∨ command = "ecdf2-mn2017".toList) :
    crossprobRun w fmt ioWhat [command, name] = .exited 0 (s ++ ['\n']) := by
  have he : lineOf (n := 0) Fin.elim0 = [] := by simp [lineOf, List.intercalate]
  have hz : noncrossProb (valuesOf fs) (fun _ : Fin n => (1 : ℝ)) = P := by rw [hP]; exact noncrossProb_ones fun _ => le_rfl
  refine digits_ecdf2 w hM ioWhat hn hn' hb (valid_const zero_le_one le_rfl) (Or.inr ?_)
    (read_file hM.strtod (n := n) (m := 0) fs Fin.elim0 hfs (fun i => i.elim0) hin (fun i => i.elim0) hfile (by rw [he]; exact hlines))
    (Or.inr (Or.inr ⟨by rw [ne_eq, List.ofFn_eq_nil_iff]; omega, by simp, rfl, ?_⟩)) (by rw [hz]; exact hs) hc
  · rintro ⟨i, j, -, h⟩
    have := (hb.range i).2
    have := (hb.range j).2
    linarith
  · rw [List.length_ofFn, round_one, replicate_ofFn]

/-! ### `ecdf1-new` -/

/-- Numbers for `ecdf1_new` with up to 20 points. -/
theorem double_const_20 (hf : A.f = binary64) {n : ℕ} (hn' : n ≤ 20) {delta etaF : ℝ} (hδ0 : 0 ≤ delta) (hη0 : 0 ≤ etaF)
    (hδ : delta ≤ (2 : ℝ) ^ (-45 : ℤ)) (hη : etaF ≤ (2 : ℝ) ^ (-100 : ℤ)) :
    21 / 20 * (((75500 : ℕ) + 1) * u50 + √(2 * n + 2049 : ℕ) * (13 * u50 + 4 * delta) + 128 * u50)
      + (24 * √(2 * n + 2049 : ℕ) * etaF + (34 * √(2 * n + 2049 : ℕ) * (2 * n + 2049 : ℕ) + 128 ^ 2 + 3 * (n + 1)) * (2 : ℝ) ^ A.f.emin)
      ≤ 8 / 10 ^ 11 := by
  have hemin : A.f.emin = -1074 := by rw [hf]; rfl
  have hnr : (n : ℝ) ≤ 20 := by exact_mod_cast hn'
  have hNr : ((2 * n + 2049 : ℕ) : ℝ) ≤ 2249 := by push_cast; linarith
  have hs48 : √((2 * n + 2049 : ℕ) : ℝ) ≤ 48 := by
    rw [Real.sqrt_le_left (by norm_num)]; linarith
  have hs0 := Real.sqrt_nonneg ((2 * n + 2049 : ℕ) : ℝ)
  rw [hemin]
  have hw : (2 : ℝ) ^ (-1074 : ℤ) ≤ 2 ^ (-100 : ℤ) := zpow_le_zpow_right₀ (by norm_num) (by norm_num)
  have h100 : (2 : ℝ) ^ (-100 : ℤ) ≤ 1 / 10 ^ 30 := by norm_num
  have h45 : (2 : ℝ) ^ (-45 : ℤ) = 1 / 35184372088832 := by norm_num
  rw [h45] at hδ
  have hw0 : (0 : ℝ) < (2 : ℝ) ^ (-1074 : ℤ) := by positivity
  have a1 : √((2 * n + 2049 : ℕ) : ℝ) * (13 * u50 + 4 * delta) ≤ 48 * (13 * u50 + 4 * (1 / 35184372088832)) :=
    mul_le_mul hs48 (by linarith) (by rw [u50_val]; linarith) (by norm_num)
  have a2 : 24 * √((2 * n + 2049 : ℕ) : ℝ) * etaF ≤ 24 * 48 * (1 / 10 ^ 30) :=
    mul_le_mul (by linarith) (hη.trans h100) hη0 (by norm_num)
  have a3 : √((2 * n + 2049 : ℕ) : ℝ) * ((2 * n + 2049 : ℕ) : ℝ) ≤ 48 * 2249 := mul_le_mul hs48 hNr (Nat.cast_nonneg _) (by norm_num)
  have a4 : (34 * √((2 * n + 2049 : ℕ) : ℝ) * ((2 * n + 2049 : ℕ) : ℝ) + 128 ^ 2 + 3 * (n + 1)) * (2 : ℝ) ^ (-1074 : ℤ)
      ≤ (34 * (48 * 2249) + 128 ^ 2 + 3 * 101) * (1 / 10 ^ 30) := by
    refine mul_le_mul (by linarith) (hw.trans h100) hw0.le (by norm_num)
  rw [u50_val] at a1 ⊢
  push_cast at a1 a2 a4 ⊢
  linarith

/-- C63: `ecdf1_new_B` and `ecdf1_new_b` in IEEE-754 double precision with any FFT library, up to 20 points: absolute error at most
`9e-8`. -/
theorem C63_double_new_20 (hf : A.f = binary64) {n : ℕ} (hn : 1 ≤ n) (hn' : n ≤ 20) (hL : LibmAccurate A u50 n)
    (w : World (Num A)) {v : Fin n → Num A} (hvf : ∀ i, (v i).finite) (hv : ValidBound fun i => (v i).val)
    (isqrt : ℕ → ℕ) (ha : w.env.asserts = false ∨ isqrt n + 1 ≤ n) :
    (∃ x : Num A, ecdf1NewB w.env isqrt (List.ofFn v) = .ok x ∧ x.finite ∧ |x.val - upperProb (fun i => (v i).val)| ≤ 9 / 10 ^ 8) ∧
    (∃ x : Num A, ecdf1Newb w.env isqrt (List.ofFn v) = .ok x ∧ x.finite ∧ |x.val - lowerProb (fun i => (v i).val)| ≤ 9 / 10 ^ 8) := by
  obtain ⟨hf, delta, etaF, hδ, hη, hfft⟩ := goodFFT_accurate hf w (n := n) (by omega)
  obtain ⟨⟨c1, c2, c3, c4⟩, -⟩ := double_const hf hn (by omega) hfft.delta_nonneg hfft.etaF_nonneg hδ hη
  have c5 := double_const_20 hf hn' hfft.delta_nonneg hfft.etaF_nonneg hδ hη
  have hnr : (n : ℝ) ≤ 20 := by exact_mod_cast hn'
  obtain ⟨T, hT⟩ : ∃ T, T = 21 / 20 * (((75500 : ℕ) + 1) * u50 + √(2 * n + 2049 : ℕ) * (13 * u50 + 4 * delta) + 128 * u50)
      + (24 * √(2 * n + 2049 : ℕ) * etaF + (34 * √(2 * n + 2049 : ℕ) * (2 * n + 2049 : ℕ) + 128 ^ 2 + 3 * (n + 1)) * (2 : ℝ) ^ A.f.emin) :=
    ⟨_, rfl⟩
  rw [← hT] at c5
  have hT0 : 0 ≤ T := by
    rw [hT]
    have := hfft.delta_nonneg
    have := hfft.etaF_nonneg
    have := (double_ok hf).u_pos
    positivity
  have hmT : (3 * (n : ℝ) + 1) * T ≤ 61 * (8 / 10 ^ 11) := mul_le_mul (by linarith) c5 hT0 (by norm_num)
  have c4' : ((75500 : ℕ) : ℝ) + 512 + ((2 * n + 2049 : ℕ) : ℝ) + √n ≤ (2 : ℝ) ^ (A.f.emax - 1) := by
    refine le_trans ?_ c4
    gcongr
    norm_num
  have hE := esqrt_le (n := n) (s := 5) (by omega)
  push_cast at hE
  have h1 : 6 / 5 * Real.exp 1 * √(n : ℝ) * ((3 * n + 1) * T) ≤ 6 / 5 * (2.7183 * 5) * (61 * (8 / 10 ^ 11)) := by
    refine mul_le_mul (by linarith) hmT (by positivity) (by norm_num)
  have h2 : (n : ℝ) ^ 2 * u50 ≤ 20 ^ 2 * u50 :=
    mul_le_mul_of_nonneg_right (pow_le_pow_left₀ (Nat.cast_nonneg n) hnr 2) (double_ok hf).u_pos.le
  obtain ⟨e1, e2⟩ := C62_new_same w.env (ieeeFFTW A) isqrt (List.ofFn v) (by rw [List.length_ofFn]; omega)
  rw [← e1, ← e2]
  constructor
  · obtain ⟨x, hx, hxf, hxA⟩ := ieee_new_B (double_ok hf) (withGoodFFT w).env hn hL le_rfl c1 c2 hfft (S := univ) exp_gap_one.1 exp_gap_one.2
      (double_gap hf) (mem_univ _) (mem_univ _) (fun _ => mem_univ _) hvf hv isqrt ha
      (Q := 75500) ((double_Q hn hn' (m := 4) (by norm_num)).trans (by norm_num)) c4' c3 hT (hmT.trans (by norm_num))
    exact ⟨x, hx, hxf, (hxA.trans h1).trans (by norm_num)⟩
  · obtain ⟨x, hx, hxf, hxA⟩ := ieee_new_b (double_ok hf) (withGoodFFT w).env hn hL le_rfl c1 c2 hfft (S := univ) exp_gap_one.1 exp_gap_one.2
      (double_gap hf) (mem_univ _) (mem_univ _) (fun _ => mem_univ _) hvf hv isqrt ha
      (Q := 75500) ((double_Q hn hn' (m := 4) (by norm_num)).trans (by norm_num)) c4' c3 hT (hmT.trans (by norm_num))
    refine ⟨x, hx, hxf, (hxA.trans (add_le_add h1 h2)).trans ?_⟩
    rw [u50_val]; norm_num

theorem sum_shift_20 {n : ℕ} (hn' : n ≤ 20) {e : Fin n → ℝ} (h : ∀ i, e i ≤ 1 / 2 ^ 52) : (n : ℝ) * ∑ i, e i ≤ 1 / 10 ^ 12 := by
  have hs : ∑ i, e i ≤ ∑ _i : Fin n, (1 / 2 ^ 52 : ℝ) := Finset.sum_le_sum fun i _ => h i
  rw [Finset.sum_const, Finset.card_univ, Fintype.card_fin, nsmul_eq_mul] at hs
  have hnr : (n : ℝ) ≤ 20 := by exact_mod_cast hn'
  have h0 : (0 : ℝ) ≤ n := Nat.cast_nonneg n
  calc (n : ℝ) * _ ≤ n * (n * (1 / 2 ^ 52)) := mul_le_mul_of_nonneg_left hs h0
    _ ≤ 20 * (20 * (1 / 2 ^ 52)) := mul_le_mul hnr (mul_le_mul_of_nonneg_right hnr (by norm_num)) (by positivity) (h0.trans hnr)
    _ ≤ _ := by norm_num

/-- `crossprob ecdf1-new file`, given what was read from the file: only an upper boundary. -/
theorem digits_new_upper (w : World (Num A)) {fmt : Num A → Str} {inRange : ℝ → Prop} {n : ℕ} (hM : DoubleMachine w fmt inRange n)
    (ioWhat : Str) (hn : 1 ≤ n) (hn' : n ≤ 20) {v : Fin n → ℝ} (hv : ValidBound v) (ha : w.env.asserts = false ∨ w.isqrt n + 1 ≤ n)
    {name : Str} (hread : readAndCheckBoundariesFile w.libc w.fs name = .ok ([], List.ofFn fun i => roundNum A (v i)))
    {s : Str} (hs : PrintsAs (upperProb v) (1 / 10 ^ 7) s) :
    crossprobRun w fmt ioWhat ["ecdf1-new".toList, name] = .exited 0 (s ++ ['\n']) := by
  obtain ⟨b1, -, b3, b4⟩ := double_read (A := A) hM.format hv
  obtain ⟨⟨x, hx, hxf, hxe⟩, -⟩ := C63_double_new_20 hM.format hn hn' hM.libm w b1 b3 w.isqrt ha
  have hne : (List.ofFn fun i => roundNum A (v i)) ≠ [] := by rw [ne_eq, List.ofFn_eq_nil_iff]; omega
  have h : crossprobMain w ["ecdf1-new".toList, name] = .printed x :=
    (C26_printed w _ x).mpr ⟨_, _, _, _, rfl, hread, Or.inr (Or.inl ⟨rfl, Or.inr ⟨by simp, hne, hx.symm⟩⟩)⟩
  refine printed_digits hM.print ioWhat hxf h hs ?_
  have hsh := (upper_lipschitz (fun i => (roundNum A (v i)).val) v).trans (sum_shift_20 hn' b4)
  have := abs_sub_le x.val (upperProb fun i => (roundNum A (v i)).val) (upperProb v)
  linarith

/-- `crossprob ecdf1-new file`, given what was read from the file: only a lower boundary. -/
theorem digits_new_lower (w : World (Num A)) {fmt : Num A → Str} {inRange : ℝ → Prop} {n : ℕ} (hM : DoubleMachine w fmt inRange n)
    (ioWhat : Str) (hn : 1 ≤ n) (hn' : n ≤ 20) {v : Fin n → ℝ} (hv : ValidBound v) (ha : w.env.asserts = false ∨ w.isqrt n + 1 ≤ n)
    {name : Str} (hread : readAndCheckBoundariesFile w.libc w.fs name = .ok (List.ofFn fun i => roundNum A (v i), []))
    {s : Str} (hs : PrintsAs (lowerProb v) (1 / 10 ^ 7) s) :
    crossprobRun w fmt ioWhat ["ecdf1-new".toList, name] = .exited 0 (s ++ ['\n']) := by
  obtain ⟨b1, -, b3, b4⟩ := double_read (A := A) hM.format hv
  obtain ⟨-, x, hx, hxf, hxe⟩ := C63_double_new_20 hM.format hn hn' hM.libm w b1 b3 w.isqrt ha
  have hne : (List.ofFn fun i => roundNum A (v i)) ≠ [] := by rw [ne_eq, List.ofFn_eq_nil_iff]; omega
  have h : crossprobMain w ["ecdf1-new".toList, name] = .printed x :=
    (C26_printed w _ x).mpr ⟨_, _, _, _, rfl, hread, Or.inr (Or.inl ⟨rfl, Or.inl ⟨hne, by simp, hx.symm⟩⟩)⟩
  refine printed_digits hM.print ioWhat hxf h hs ?_
  have hsh := (lower_lipschitz (fun i => (roundNum A (v i)).val) v).trans (sum_shift_20 hn' b4)
  have := abs_sub_le x.val (lowerProb fun i => (roundNum A (v i)).val) (lowerProb v)
  linarith

/-- C63: `crossprob ecdf1-new file` in IEEE-754 double precision with any FFT library, on a file with only an upper boundary of up to 20
points.  If every number within `1e-7` of the probability `P` is written `s` with six significant digits, the program writes `s`, a
newline and nothing else, and exits with 0. -/
theorem C63_new_upper (w : World (Num A)) {fmt : Num A → Str} {inRange : ℝ → Prop} {n : ℕ} (hM : DoubleMachine w fmt inRange n)
    (ioWhat : Str) (hn : 1 ≤ n) (hn' : n ≤ 20) (fs : Fin n → Field) (hfs : ∀ i, (fs i).WF)
    (hin : ∀ i, inRange (fs i).num.value) (hv : ValidBound (valuesOf fs)) (ha : w.env.asserts = false ∨ w.isqrt n + 1 ≤ n)
    (name text : Str) (hfile : w.fs name = .contents text) (hlines : FirstTwoLines text [] (lineOf fs))
    {P : ℝ} (hP : P = upperProb (valuesOf fs)) {s : Str} (hs : PrintsAs P (1 / 10 ^ 7) s) :
    crossprobRun w fmt ioWhat ["ecdf1-new".toList, name] = .exited 0 (s ++ ['\n']) := by
  subst hP
  have he : lineOf (n := 0) Fin.elim0 = [] := by simp [lineOf, List.intercalate]
  have hr := read_file hM.strtod (n := 0) (m := n) Fin.elim0 fs (fun i => i.elim0) hfs (fun i => i.elim0) hin hfile (by rw [he]; exact hlines)
  exact digits_new_upper w hM ioWhat hn hn' hv ha (hr.trans (by simp)) hs

/-- C63: `crossprob ecdf1-new file` on a file with only a lower boundary of up to 20 points. -/
theorem C63_new_lower (w : World (Num A)) {fmt : Num A → Str} {inRange : ℝ → Prop} {n : ℕ} (hM : DoubleMachine w fmt inRange n)
    (ioWhat : Str) (hn : 1 ≤ n) (hn' : n ≤ 20) (fs : Fin n → Field) (hfs : ∀ i, (fs i).WF)
    (hin : ∀ i, inRange (fs i).num.value) (hv : ValidBound (valuesOf fs)) (ha : w.env.asserts = false ∨ w.isqrt n + 1 ≤ n)
    (name text : Str) (hfile : w.fs name = .contents text) (hlines : FirstTwoLines text (lineOf fs) [])
    {P : ℝ} (hP : P = lowerProb (valuesOf fs)) {s : Str} (hs : PrintsAs P (1 / 10 ^ 7) s) :
    crossprobRun w fmt ioWhat ["ecdf1-new".toList, name] = .exited 0 (s ++ ['\n']) := by
  subst hP
  have he : lineOf (n := 0) Fin.elim0 = [] := by simp [lineOf, List.intercalate]
  have hr := read_file hM.strtod (n := n) (m := 0) fs Fin.elim0 hfs (fun i => i.elim0) hin (fun i => i.elim0) hfile (by rw [he]; exact hlines)
  exact digits_new_lower w hM ioWhat hn hn' hv ha (hr.trans (by simp)) hs

end
end CP.Props
