import Verif.Props.Digits
import Verif.Proofs.EvalProb
/-
Property C63, the repository's own test-suite (`tests/test_crossprob.py:19-54`) as a theorem: on every machine with IEEE-754 doubles the
deterministic assertions about `ecdf2-ks2001`, `ecdf2-mn2017` and `ecdf1-new` hold.
-/
open MeasureTheory Set
namespace CP.Props
open CP.Spec FOps
noncomputable section

variable {A : FloatSystem}

/-! ### Fields and values of the test files -/

/-- A number in a test file: is it preceded by a space; digits before the point; digits after the point, if there is a point. -/
abbrev Entry := Bool × Str × Option Str

/-- Its field. -/
def Entry.field (e : Entry) : Field := ⟨if e.1 then [' '] else [], ⟨.none, e.2.1, e.2.2, none⟩, []⟩

/-- Its value times `10^13`. -/
def Entry.num (e : Entry) : ℕ := natOf (e.2.1 ++ e.2.2.getD []) * 10 ^ (13 - (e.2.2.getD []).length)

/-- Only digits, at least one, at most 13 after the point, and the value at most 1. -/
def Entry.ok (e : Entry) : Bool :=
  e.2.1.all Char.isDigit && (e.2.2.getD []).all Char.isDigit && !(e.2.1 ++ e.2.2.getD []).isEmpty
    && ((e.2.2.getD []).length ≤ 13) && (e.num ≤ 10 ^ 13)

theorem Entry.wf {e : Entry} (h : e.ok = true) : e.field.WF := by
  unfold Entry.ok at h
  simp only [Bool.and_eq_true, List.all_eq_true, Bool.not_eq_true', List.isEmpty_eq_false_iff] at h
  obtain ⟨⟨⟨⟨h1, h2⟩, h3⟩, -⟩, -⟩ := h
  refine ⟨?_, ⟨h1, h2, h3, ?_⟩, ?_, ?_⟩
  · intro c hc
    unfold Entry.field at hc
    dsimp only at hc
    split at hc
    · rw [List.mem_singleton] at hc
      subst hc
      unfold IsSpace; decide
    · cases hc
  · intro c s ds hc; cases hc
  · intro c hc; cases hc
  · intro hc; cases hc

theorem Entry.value {e : Entry} (h : e.ok = true) : e.field.num.value = (e.num : ℝ) / ((10 ^ 13 : ℕ) : ℝ) := by
  unfold Entry.ok at h
  simp only [Bool.and_eq_true, decide_eq_true_eq] at h
  have hl := h.1.2
  obtain ⟨k, hk⟩ : ∃ k, 13 = (e.2.2.getD []).length + k := ⟨_, (Nat.add_sub_cancel' hl).symm⟩
  unfold Dec.value Entry.num Entry.field Dec.fracDigits Dec.expVal Sign.unit
  dsimp only
  rw [show 13 - (e.2.2.getD []).length = k by omega]
  push_cast
  rw [show ((0 : ℤ) - ((e.2.2.getD []).length : ℤ)) = (k : ℤ) - (13 : ℕ) by omega, zpow_sub₀ (by norm_num), zpow_natCast, zpow_natCast]
  ring

/-- The fields of a line. -/
def fieldsOf (L : List Entry) {n : ℕ} (hl : L.length = n) : Fin n → Field := fun i => (L[i.val]'(by omega)).field

section
variable {L : List Entry} {n : ℕ} (hl : L.length = n) (h : L.all Entry.ok = true)
include h

theorem fieldsOf_wf (i) : (fieldsOf L hl i).WF := Entry.wf (List.all_eq_true.mp h _ (List.getElem_mem _))

theorem valuesOf_fields (i) : valuesOf (fieldsOf L hl) i = ((L[i.val]'(by omega)).num : ℝ) / ((10 ^ 13 : ℕ) : ℝ) :=
  Entry.value (List.all_eq_true.mp h _ (List.getElem_mem _))

theorem ofFn_fields : List.ofFn (valuesOf (fieldsOf L hl)) = (L.map Entry.num).map fun k : ℕ => (k : ℝ) / ((10 ^ 13 : ℕ) : ℝ) := by
  rw [funext (valuesOf_fields hl h)]
  refine List.ext_getElem (by simp [hl]) fun i h1 h2 => ?_
  simp

theorem valid_fields (hs : (L.map Entry.num).Pairwise (· ≤ ·)) : ValidBound (valuesOf (fieldsOf L hl)) := by
  have hD : (0 : ℝ) < ((10 ^ 13 : ℕ) : ℝ) := by norm_num
  constructor
  · intro i j hij
    rw [valuesOf_fields hl h, valuesOf_fields hl h]
    refine div_le_div_of_nonneg_right ?_ hD.le
    rcases eq_or_lt_of_le hij with rfl | hlt
    · exact le_rfl
    · rw [List.pairwise_iff_getElem] at hs
      have := hs i j (by simp [hl]) (by simp [hl]) hlt
      simp only [List.getElem_map] at this
      exact_mod_cast this
  · intro i
    rw [valuesOf_fields hl h]
    have hk := List.all_eq_true.mp h _ (List.getElem_mem (n := i.val) (by omega : i.val < L.length))
    unfold Entry.ok at hk
    simp only [Bool.and_eq_true, decide_eq_true_eq] at hk
    refine ⟨by positivity, ?_⟩
    rw [div_le_one hD]
    exact_mod_cast hk.2

theorem range_fields {inRange : ℝ → Prop} (hin : ∀ v, (v = 0 ∨ 1 / 100 ≤ v ∧ v ≤ 1) → inRange v)
    (hk : L.all (fun e => e.num == 0 || 10 ^ 11 ≤ e.num) = true) (i) : inRange (fieldsOf L hl i).num.value := by
  refine hin _ ?_
  have e : (fieldsOf L hl i).num.value = _ := valuesOf_fields hl h i
  rw [e]
  have h1 := List.all_eq_true.mp hk _ (List.getElem_mem (n := i.val) (by omega : i.val < L.length))
  have h2 := List.all_eq_true.mp h _ (List.getElem_mem (n := i.val) (by omega : i.val < L.length))
  unfold Entry.ok at h2
  simp only [Bool.and_eq_true, decide_eq_true_eq, Bool.or_eq_true, beq_iff_eq] at h1 h2
  have h3 : ((L[i.val]'(by omega)).num : ℝ) ≤ 10 ^ 13 := by exact_mod_cast h2.2
  rcases h1 with h1 | h1
  · left; rw [h1]; simp
  · right
    have h4 : (10 : ℝ) ^ 11 ≤ ((L[i.val]'(by omega)).num : ℝ) := by exact_mod_cast h1
    push_cast
    rw [le_div_iff₀ (by norm_num), div_le_one (by norm_num)]
    exact ⟨by linarith, by linarith⟩

end

theorem line_fields (L : List Entry) {n : ℕ} (hl : L.length = n) :
    lineOf (fieldsOf L hl) = List.intercalate [','] (L.map fun e => e.field.text) := by
  unfold lineOf
  congr 1
  refine List.ext_getElem (by simp [hl]) fun i h1 h2 => ?_
  simp [fieldsOf]

/-! ### The digits, from integer arithmetic -/

/-- `k / 10^6` is a six-digit number at least `1/10`, and the probability is within `3e-7` of it. -/
theorem prints_of_eval {P : ℝ} {N DD m : ℕ} (hDD : 0 < DD) (hP : P = (N : ℝ) / (DD : ℝ)) (h1 : m * DD * 10 ≤ N * 10 ^ 7 + 3 * DD)
    (h2 : N * 10 ^ 7 ≤ m * DD * 10 + 3 * DD) (hm : 200000 ≤ m) (hm' : m < 1000000) :
    PrintsAs P (1 / 10 ^ 7) (g6 .none m (-1)).text ∧ PrintsAs P (1 / 10 ^ 7 * P + 1 / 10 ^ 11) (g6 .none m (-1)).text := by
  have hD : (0 : ℝ) < DD := by exact_mod_cast hDD
  have a1 : (m : ℝ) * DD * 10 ≤ N * 10 ^ 7 + 3 * DD := by exact_mod_cast h1
  have a2 : (N : ℝ) * 10 ^ 7 ≤ m * DD * 10 + 3 * DD := by exact_mod_cast h2
  have hN : (N : ℝ) = P * DD := by rw [hP]; field_simp
  rw [hN] at a1 a2
  have b1 : (m : ℝ) * 10 ≤ P * 10 ^ 7 + 3 := by
    refine le_of_mul_le_mul_right ?_ hD; linarith
  have b2 : P * 10 ^ 7 ≤ (m : ℝ) * 10 + 3 := by
    refine le_of_mul_le_mul_right ?_ hD; linarith
  have hm1 : (200000 : ℝ) ≤ m := by exact_mod_cast hm
  have hm2 : (m : ℝ) ≤ 999999 := by exact_mod_cast (by omega : m ≤ 999999)
  have key : ∀ tol : ℝ, tol ≤ 11 / 10 ^ 8 → PrintsAs P tol (g6 .none m (-1)).text := by
    intro tol ht
    refine C63_criterion hm' ?_ ?_
    · norm_num; linarith
    · have e : (10 : ℝ) ^ ((-1 : ℤ) - 5) = 1 / 10 ^ 6 := by norm_num
      rw [e]
      have : |P - m * (1 / 10 ^ 6)| ≤ 3 / 10 ^ 7 := by
        rw [abs_le]; constructor <;> linarith
      linarith
  exact ⟨key _ (by norm_num), key _ (by linarith)⟩

/-! ### The test files -/

/-- `0.d`, preceded by a space. -/
def sp (i f : String) : Entry := (true, i.toList, some f.toList)
/-- The first number of a line. -/
def st (i f : String) : Entry := (false, i.toList, some f.toList)

/-- `tests/bounds_0_1.txt`, `tests/bounds_0.txt` line 1. -/
def line000 : List Entry := [(false, ['0'], none), (true, ['0'], none), (true, ['0'], none)]
/-- `tests/bounds_0_1.txt`, `tests/bounds__1.txt` line 2. -/
def line111 : List Entry := [(false, ['1'], none), (true, ['1'], none), (true, ['1'], none)]
/-- `tests/bounds2.txt` line 1. -/
def line2b : List Entry := [st "0" "0", sp "0" "0"]
/-- `tests/bounds2.txt` line 2. -/
def line2B : List Entry := [st "0" "5", sp "1" "0"]
/-- `tests/bounds8.txt` line 1. -/
def line8b : List Entry := [st "0" "0", sp "0" "0", sp "0" "1", sp "0" "2", sp "0" "3", sp "0" "4", sp "0" "5", sp "0" "6"]
/-- `tests/bounds8.txt` line 2. -/
def line8B : List Entry := [st "0" "5", sp "0" "6", sp "0" "7", sp "0" "8", sp "0" "9", sp "1" "0", sp "1" "0", sp "1" "0"]
/-- `tests/bounds_cksplus_10.txt` line 1. -/
def lineP : List Entry := [st "0" "0104807417938", sp "0" "0545286199977", sp "0" "11582527803", sp "0" "187562296647", sp "0" "267318098687",
  sp "0" "354215928873", sp "0" "448269167616", sp "0" "550396111326", sp "0" "663152276693", sp "0" "794328234724"]
/-- `tests/bounds_cksminus_10.txt` line 2. -/
def lineM : List Entry := [st "0" "205671765276", sp "0" "336847723307", sp "0" "449603888674", sp "0" "551730832384", sp "0" "645784071127",
  sp "0" "732681901313", sp "0" "812437703353", sp "0" "88417472197", sp "0" "945471380002", sp "0" "989519258206"]

theorem line000_len : line000.length = 3 := rfl
theorem line111_len : line111.length = 3 := rfl
theorem line2b_len : line2b.length = 2 := rfl
theorem line2B_len : line2B.length = 2 := rfl
theorem line8b_len : line8b.length = 8 := rfl
theorem line8B_len : line8B.length = 8 := rfl
theorem lineP_len : lineP.length = 10 := rfl
theorem lineM_len : lineM.length = 10 := rfl

/-- The test files: name and content. -/
def suiteFiles : List (Str × Str) :=
  [("tests/bounds_0_1.txt".toList, "0, 0, 0\n1, 1, 1\n".toList),
   ("tests/bounds2.txt".toList, "0.0, 0.0\n0.5, 1.0\n".toList),
   ("tests/bounds8.txt".toList, "0.0, 0.0, 0.1, 0.2, 0.3, 0.4, 0.5, 0.6\n0.5, 0.6, 0.7, 0.8, 0.9, 1.0, 1.0, 1.0\n".toList),
   ("tests/bounds_cksplus_10.txt".toList, "0.0104807417938, 0.0545286199977, 0.11582527803, 0.187562296647, 0.267318098687, 0.354215928873, 0.448269167616, 0.550396111326, 0.663152276693, 0.794328234724\n\n".toList),
   ("tests/bounds_cksminus_10.txt".toList, "\n0.205671765276, 0.336847723307, 0.449603888674, 0.551730832384, 0.645784071127, 0.732681901313, 0.812437703353, 0.88417472197, 0.945471380002, 0.989519258206\n".toList),
   ("tests/bounds_0.txt".toList, "0, 0, 0,\n\n".toList),
   ("tests/bounds__1.txt".toList, "\n1, 1, 1\n".toList)]

/-- The assertions of `tests/test_crossprob.py:19-24,37-48` (command, file, expected output): all deterministic ones except those about
`ecdf1-mns2016`, which are in C65 (`Props/LongDoubleProgram.lean`). -/
def suite : List (Str × Str × Str) :=
  [("ecdf2-ks2001".toList, "tests/bounds_0_1.txt".toList, "1".toList),
   ("ecdf2-ks2001".toList, "tests/bounds2.txt".toList, "0.75".toList),
   ("ecdf2-ks2001".toList, "tests/bounds8.txt".toList, "0.840529".toList),
   ("ecdf2-ks2001".toList, "tests/bounds_cksplus_10.txt".toList, "0.608924".toList),
   ("ecdf2-ks2001".toList, "tests/bounds_cksminus_10.txt".toList, "0.608924".toList),
   ("ecdf2-mn2017".toList, "tests/bounds_0_1.txt".toList, "1".toList),
   ("ecdf2-mn2017".toList, "tests/bounds2.txt".toList, "0.75".toList),
   ("ecdf2-mn2017".toList, "tests/bounds8.txt".toList, "0.840529".toList),
   ("ecdf2-mn2017".toList, "tests/bounds_cksminus_10.txt".toList, "0.608924".toList),
   ("ecdf2-mn2017".toList, "tests/bounds_cksplus_10.txt".toList, "0.608924".toList),
   ("ecdf1-new".toList, "tests/bounds_0.txt".toList, "1".toList),
   ("ecdf1-new".toList, "tests/bounds__1.txt".toList, "1".toList),
   ("ecdf1-new".toList, "tests/bounds_cksminus_10.txt".toList, "0.608924".toList),
   ("ecdf1-new".toList, "tests/bounds_cksplus_10.txt".toList, "0.608924".toList)]

/-- Insertion into a list of tagged numerators. -/
def ins (x : ℕ × BoundType) : List (ℕ × BoundType) → List (ℕ × BoundType)
  | [] => [x]
  | y :: l => if x.1 ≤ y.1 then x :: y :: l else y :: ins x l

/-- The points of two boundaries in increasing order. -/
def tagged (lb lB : List ℕ) : List (ℕ × BoundType) :=
  ((lB.map fun k => (k, BoundType.BSTEP)) ++ (lb.map fun k => (k, BoundType.bSTEP))).foldr ins []

/-- What has to be computed to know the digits of a probability. -/
def digitsCheck (n m : ℕ) (lb lB : List ℕ) : Bool :=
  let L := tagged lb lB
  let N := evalN n (10 ^ 13) L
  let DD := (10 ^ 13) ^ n
  decide ((L.filter fun x => x.2 = .bSTEP).map Prod.fst = lb) && decide ((L.filter fun x => x.2 = .BSTEP).map Prod.fst = lB)
    && L.all (fun y => y.1 ≤ 10 ^ 13) && decide (L.Pairwise fun x y => x.1 ≤ y.1)
    && decide (m * DD * 10 ≤ N * 10 ^ 7 + 3 * DD) && decide (N * 10 ^ 7 ≤ m * DD * 10 + 3 * DD) && decide (200000 ≤ m) && decide (m < 1000000)

theorem prints_of_check {n m : ℕ} {lb lB : List ℕ} {b B : Fin n → ℝ}
    (hb : List.ofFn b = lb.map fun k : ℕ => (k : ℝ) / ((10 ^ 13 : ℕ) : ℝ)) (hB : List.ofFn B = lB.map fun k : ℕ => (k : ℝ) / ((10 ^ 13 : ℕ) : ℝ))
    (h : digitsCheck n m lb lB = true) :
    PrintsAs (noncrossProb b B) (1 / 10 ^ 7) (g6 .none m (-1)).text ∧
    PrintsAs (noncrossProb b B) (1 / 10 ^ 7 * noncrossProb b B + 1 / 10 ^ 11) (g6 .none m (-1)).text := by
  unfold digitsCheck at h
  dsimp only at h
  simp only [Bool.and_eq_true, decide_eq_true_eq, List.all_eq_true] at h
  obtain ⟨⟨⟨⟨⟨⟨⟨h1, h2⟩, h3⟩, h4⟩, h5⟩, h6⟩, h7⟩, h8⟩ := h
  have e := eval_noncross (D := 10 ^ 13) (by norm_num) hb hB h1 h2 h3 h4
  refine prints_of_eval (DD := (10 ^ 13) ^ n) (by positivity) ?_ h5 h6 h7 h8
  rw [e]; push_cast; rfl

theorem ofFn_zero (n : ℕ) : List.ofFn (fun _ : Fin n => (0 : ℝ)) = (List.replicate n 0).map fun k : ℕ => (k : ℝ) / ((10 ^ 13 : ℕ) : ℝ) := by
  rw [List.map_replicate, List.ofFn_const]; simp

theorem ofFn_one (n : ℕ) : List.ofFn (fun _ : Fin n => (1 : ℝ)) = (List.replicate n (10 ^ 13)).map fun k : ℕ => (k : ℝ) / ((10 ^ 13 : ℕ) : ℝ) := by
  rw [List.map_replicate, List.ofFn_const]; simp

theorem prints_M {v : Fin 10 → ℝ} (hv : v = valuesOf (fieldsOf lineM lineM_len)) : PrintsAs (upperProb v) (1 / 10 ^ 7) "0.608924".toList ∧
    PrintsAs (upperProb v) (1 / 10 ^ 7 * upperProb v + 1 / 10 ^ 11) "0.608924".toList := by
  rw [← noncrossProb_zeros (b := fun _ => 0) fun _ => le_rfl]
  exact prints_of_check (m := 608924) (ofFn_zero _) (hv ▸ ofFn_fields _ (by decide)) (by decide +kernel)

theorem prints_P {v : Fin 10 → ℝ} (hv : v = valuesOf (fieldsOf lineP lineP_len)) : PrintsAs (lowerProb v) (1 / 10 ^ 7) "0.608924".toList ∧
    PrintsAs (lowerProb v) (1 / 10 ^ 7 * lowerProb v + 1 / 10 ^ 11) "0.608924".toList := by
  rw [← noncrossProb_ones (B := fun _ => 1) fun _ => le_rfl]
  exact prints_of_check (m := 608924) (hv ▸ ofFn_fields _ (by decide)) (ofFn_one _) (by decide +kernel)

theorem prints_2 {b B : Fin 2 → ℝ} (hb : b = valuesOf (fieldsOf line2b line2b_len)) (hB : B = valuesOf (fieldsOf line2B line2B_len)) :
    PrintsAs (noncrossProb b B) (1 / 10 ^ 7 * noncrossProb b B + 1 / 10 ^ 11) "0.75".toList :=
  (prints_of_check (m := 750000) (hb ▸ ofFn_fields _ (by decide)) (hB ▸ ofFn_fields _ (by decide)) (by decide +kernel)).2

theorem prints_8 {b B : Fin 8 → ℝ} (hb : b = valuesOf (fieldsOf line8b line8b_len)) (hB : B = valuesOf (fieldsOf line8B line8B_len)) :
    PrintsAs (noncrossProb b B) (1 / 10 ^ 7 * noncrossProb b B + 1 / 10 ^ 11) "0.840529".toList :=
  (prints_of_check (m := 840529) (hb ▸ ofFn_fields _ (by decide)) (hB ▸ ofFn_fields _ (by decide)) (by decide +kernel)).2

theorem not_crossed_fields {Lb LB : List Entry} {n : ℕ} (hlb : Lb.length = n) (hlB : LB.length = n) (hb : Lb.all Entry.ok = true)
    (hB : LB.all Entry.ok = true) (h : (Lb.zip (LB.drop 1)).all (fun p => p.1.num ≤ p.2.num) = true) :
    ¬ StronglyCrossed (valuesOf (fieldsOf Lb hlb)) (valuesOf (fieldsOf LB hlB)) := by
  rintro ⟨i, j, hij, hlt⟩
  rw [valuesOf_fields hlb hb, valuesOf_fields hlB hB] at hlt
  have hi : i.val < (Lb.zip (LB.drop 1)).length := by
    rw [List.length_zip, List.length_drop]; have := i.2; have := j.2; omega
  have h1 := List.all_eq_true.mp h _ (List.getElem_mem hi)
  simp only [List.getElem_zip, List.getElem_drop, decide_eq_true_eq] at h1
  have e : LB[1 + i.val]'(by have := j.2; omega) = LB[j.val]'(by omega) := by congr 1; omega
  rw [e] at h1
  have h2 : ((Lb[i.val]'(by omega)).num : ℝ) ≤ ((LB[j.val]'(by omega)).num : ℝ) := by exact_mod_cast h1
  exact absurd hlt (not_lt.mpr (div_le_div_of_nonneg_right h2 (by norm_num)))

theorem prints_111 {v : Fin 3 → ℝ} (hv : v = valuesOf (fieldsOf line111 line111_len)) : upperProb v = 1 := by
  rw [← noncrossProb_zeros (b := fun _ => 0) fun _ => le_rfl,
    eval_noncross (D := 10 ^ 13) (L := tagged (List.replicate 3 0) (line111.map Entry.num)) (by norm_num) (ofFn_zero _)
      (hv ▸ ofFn_fields _ (by decide)) (by decide) (by decide) (by decide) (by decide),
    show evalN 3 (10 ^ 13) (tagged (List.replicate 3 0) (line111.map Entry.num)) = (10 ^ 13) ^ 3 by decide +kernel]
  norm_num

theorem prints_000 {v : Fin 3 → ℝ} (hv : v = valuesOf (fieldsOf line000 line000_len)) : lowerProb v = 1 := by
  rw [← noncrossProb_ones (B := fun _ => 1) fun _ => le_rfl,
    eval_noncross (D := 10 ^ 13) (L := tagged (line000.map Entry.num) (List.replicate 3 (10 ^ 13))) (by norm_num)
      (hv ▸ ofFn_fields _ (by decide)) (ofFn_one _) (by decide) (by decide) (by decide) (by decide),
    show evalN 3 (10 ^ 13) (tagged (line000.map Entry.num) (List.replicate 3 (10 ^ 13))) = (10 ^ 13) ^ 3 by decide +kernel]
  norm_num

theorem prints_01 {b B : Fin 3 → ℝ} (hb : b = valuesOf (fieldsOf line000 line000_len)) (hB : B = valuesOf (fieldsOf line111 line111_len)) :
    noncrossProb b B = 1 := by
  rw [eval_noncross (D := 10 ^ 13) (L := tagged (line000.map Entry.num) (line111.map Entry.num)) (by norm_num)
      (hb ▸ ofFn_fields _ (by decide)) (hB ▸ ofFn_fields _ (by decide)) (by decide) (by decide) (by decide) (by decide),
    show evalN 3 (10 ^ 13) (tagged (line000.map Entry.num) (line111.map Entry.num)) = (10 ^ 13) ^ 3 by decide +kernel]
  norm_num

/-- C63, the repository's test-suite: on every machine with IEEE-754 doubles (any rounding rule for ties, any libm accurate to
`2^-50`, any conforming `strtod` and output routine, any sorting algorithm, any FFT library, with or without assertions) the
assertions in `suite` hold: the program writes the expected digits and exits with 0. -/
theorem C63_suite (w : World (Num A)) {fmt : Num A → Str} {inRange : ℝ → Prop} (hM : ∀ n ≤ 10, DoubleMachine w fmt inRange n)
    (ioWhat : Str) (hin : ∀ v, (v = 0 ∨ 1 / 100 ≤ v ∧ v ≤ 1) → inRange v)
    (ha : w.env.asserts = false ∨ ∀ n, 3 ≤ n → w.isqrt n + 1 ≤ n)
    (hfiles : ∀ f ∈ suiteFiles, w.fs f.1 = .contents f.2) {command name expected : Str} (ht : (command, name, expected) ∈ suite) :
    crossprobRun w fmt ioWhat [command, name] = .exited 0 (expected ++ ['\n']) := by
  simp only [suiteFiles, List.forall_mem_cons, List.not_mem_nil, false_implies, implies_true, and_true] at hfiles
  obtain ⟨f01, f2, f8, fP, fM, f0, f1⟩ := hfiles
  have he : lineOf (n := 0) Fin.elim0 = [] := by simp [lineOf, List.intercalate]
  have two : ∀ c : Str, (c = "ecdf2-ks2001".toList ∨ c = "ecdf2-mn2017".toList) →
      crossprobRun w fmt ioWhat [c, "tests/bounds_0_1.txt".toList] = .exited 0 ("1".toList ++ ['\n']) ∧
      crossprobRun w fmt ioWhat [c, "tests/bounds2.txt".toList] = .exited 0 ("0.75".toList ++ ['\n']) ∧
      crossprobRun w fmt ioWhat [c, "tests/bounds8.txt".toList] = .exited 0 ("0.840529".toList ++ ['\n']) ∧
      crossprobRun w fmt ioWhat [c, "tests/bounds_cksplus_10.txt".toList] = .exited 0 ("0.608924".toList ++ ['\n']) ∧
      crossprobRun w fmt ioWhat [c, "tests/bounds_cksminus_10.txt".toList] = .exited 0 ("0.608924".toList ++ ['\n']) := by
    intro c hc
    refine ⟨?_, ?_, ?_, ?_, ?_⟩
    · refine C63_two_sided w (hM 3 (by norm_num)) ioWhat (by norm_num) (by norm_num) (fieldsOf line000 line000_len) (fieldsOf line111 line111_len)
        (fieldsOf_wf _ (by decide)) (fieldsOf_wf _ (by decide)) (range_fields _ (by decide) hin (by decide))
        (range_fields _ (by decide) hin (by decide)) (valid_fields _ (by decide) (by decide)) (valid_fields _ (by decide) (by decide))
        (Or.inr (not_crossed_fields _ _ (by decide) (by decide) (by decide))) _ _ f01 ?_ (prints_01 rfl rfl).symm
        (printsAs_one (by norm_num)) hc
      rw [line_fields, line_fields]
      exact ⟨by decide, by decide, Or.inl ⟨[], by decide +kernel⟩⟩
    · refine C63_two_sided w (hM 2 (by norm_num)) ioWhat (by norm_num) (by norm_num) (fieldsOf line2b line2b_len) (fieldsOf line2B line2B_len)
        (fieldsOf_wf _ (by decide)) (fieldsOf_wf _ (by decide)) (range_fields _ (by decide) hin (by decide))
        (range_fields _ (by decide) hin (by decide)) (valid_fields _ (by decide) (by decide)) (valid_fields _ (by decide) (by decide))
        (Or.inr (not_crossed_fields _ _ (by decide) (by decide) (by decide))) _ _ f2 ?_ rfl (prints_2 rfl rfl) hc
      rw [line_fields, line_fields]
      exact ⟨by decide, by decide, Or.inl ⟨[], by decide +kernel⟩⟩
    · refine C63_two_sided w (hM 8 (by norm_num)) ioWhat (by norm_num) (by norm_num) (fieldsOf line8b line8b_len) (fieldsOf line8B line8B_len)
        (fieldsOf_wf _ (by decide)) (fieldsOf_wf _ (by decide)) (range_fields _ (by decide) hin (by decide))
        (range_fields _ (by decide) hin (by decide)) (valid_fields _ (by decide) (by decide)) (valid_fields _ (by decide) (by decide))
        (Or.inr (not_crossed_fields _ _ (by decide) (by decide) (by decide))) _ _ f8 ?_ rfl (prints_8 rfl rfl) hc
      rw [line_fields, line_fields]
      exact ⟨by decide, by decide, Or.inl ⟨[], by decide +kernel⟩⟩
    · refine C63_two_sided_lower w (hM 10 (by norm_num)) ioWhat (by norm_num) (by norm_num) (fieldsOf lineP lineP_len)
        (fieldsOf_wf _ (by decide)) (range_fields _ (by decide) hin (by decide)) (valid_fields _ (by decide) (by decide))
        _ _ fP ?_ rfl (prints_P rfl).2 hc
      rw [line_fields]
      exact ⟨by decide, by decide, Or.inl ⟨[], by decide +kernel⟩⟩
    · refine C63_two_sided_upper w (hM 10 (by norm_num)) ioWhat (by norm_num) (by norm_num) (fieldsOf lineM lineM_len)
        (fieldsOf_wf _ (by decide)) (range_fields _ (by decide) hin (by decide)) (valid_fields _ (by decide) (by decide))
        _ _ fM ?_ rfl (prints_M rfl).2 hc
      rw [line_fields]
      exact ⟨by decide, by decide, Or.inl ⟨[], by decide +kernel⟩⟩
  obtain ⟨k1, k2, k3, k4, k5⟩ := two _ (Or.inl rfl)
  obtain ⟨m1, m2, m3, m4, m5⟩ := two _ (Or.inr rfl)
  have n1 : crossprobRun w fmt ioWhat ["ecdf1-new".toList, "tests/bounds_0.txt".toList] = .exited 0 ("1".toList ++ ['\n']) := by
    refine digits_new_lower w (hM 3 (by norm_num)) ioWhat (by norm_num) (by norm_num) (v := valuesOf (fieldsOf line000 line000_len))
      (valid_fields _ (by decide) (by decide)) (ha.imp id fun h => h 3 le_rfl) ?_ (by rw [prints_000 rfl]; exact printsAs_one (by norm_num))
    rw [C30_two_lines w.libc w.fs _ _ ("0, 0, 0,".toList) [] f0 ⟨by decide, by decide, Or.inl ⟨[], by decide +kernel⟩⟩]
    have h1 := C28_trailing_comma (hM 3 (by norm_num)).strtod (List.ofFn (fieldsOf line000 line000_len)) (by decide)
      (List.forall_mem_ofFn_iff.mpr (fieldsOf_wf _ (by decide)))
      (List.forall_mem_ofFn_iff.mpr (range_fields line000_len (by decide) hin (by decide)))
    have e : List.intercalate [','] ((List.ofFn (fieldsOf line000 line000_len)).map Field.text) ++ [','] = "0, 0, 0,".toList := by
      have := line_fields line000 line000_len
      unfold lineOf at this
      rw [this]; decide
    rw [e] at h1
    rw [h1, C28_empty, List.map_ofFn]
    rfl
  have n2 : crossprobRun w fmt ioWhat ["ecdf1-new".toList, "tests/bounds__1.txt".toList] = .exited 0 ("1".toList ++ ['\n']) := by
    refine C63_new_upper w (hM 3 (by norm_num)) ioWhat (by norm_num) (by norm_num) (fieldsOf line111 line111_len)
      (fieldsOf_wf _ (by decide)) (range_fields _ (by decide) hin (by decide)) (valid_fields _ (by decide) (by decide))
      (ha.imp id fun h => h 3 le_rfl) _ _ f1 ?_ (prints_111 rfl).symm (printsAs_one (by norm_num))
    rw [line_fields]
    exact ⟨by decide, by decide, Or.inl ⟨[], by decide +kernel⟩⟩
  have n3 : crossprobRun w fmt ioWhat ["ecdf1-new".toList, "tests/bounds_cksminus_10.txt".toList] = .exited 0 ("0.608924".toList ++ ['\n']) := by
    refine C63_new_upper w (hM 10 (by norm_num)) ioWhat (by norm_num) (by norm_num) (fieldsOf lineM lineM_len)
      (fieldsOf_wf _ (by decide)) (range_fields _ (by decide) hin (by decide)) (valid_fields _ (by decide) (by decide))
      (ha.imp id fun h => h 10 (by norm_num)) _ _ fM ?_ rfl (prints_M rfl).1
    rw [line_fields]
    exact ⟨by decide, by decide, Or.inl ⟨[], by decide +kernel⟩⟩
  have n4 : crossprobRun w fmt ioWhat ["ecdf1-new".toList, "tests/bounds_cksplus_10.txt".toList] = .exited 0 ("0.608924".toList ++ ['\n']) := by
    refine C63_new_lower w (hM 10 (by norm_num)) ioWhat (by norm_num) (by norm_num) (fieldsOf lineP lineP_len)
      (fieldsOf_wf _ (by decide)) (range_fields _ (by decide) hin (by decide)) (valid_fields _ (by decide) (by decide))
      (ha.imp id fun h => h 10 (by norm_num)) _ _ fP ?_ rfl (prints_P rfl).1
    rw [line_fields]
    exact ⟨by decide, by decide, Or.inl ⟨[], by decide +kernel⟩⟩
  simp only [suite, List.mem_cons, List.not_mem_nil, or_false, Prod.mk.injEq] at ht
  rcases ht with ⟨rfl, rfl, rfl⟩ | ⟨rfl, rfl, rfl⟩ | ⟨rfl, rfl, rfl⟩ | ⟨rfl, rfl, rfl⟩ | ⟨rfl, rfl, rfl⟩ | ⟨rfl, rfl, rfl⟩ |
    ⟨rfl, rfl, rfl⟩ | ⟨rfl, rfl, rfl⟩ | ⟨rfl, rfl, rfl⟩ | ⟨rfl, rfl, rfl⟩ | ⟨rfl, rfl, rfl⟩ | ⟨rfl, rfl, rfl⟩ | ⟨rfl, rfl, rfl⟩ | ⟨rfl, rfl, rfl⟩
  exacts [k1, k2, k3, k4, k5, m1, m2, m3, m5, m4, n1, n2, n3, n4]

/-- The assumptions of `C63_suite` can be met: IEEE doubles, an FFT library that always returns NaN, and the test files on disk. -/
def suiteWorld : World (Num doubles) := { brokenWorld [] with
  fs := fun name => match suiteFiles.lookup name with
    | some text => .contents text
    | none => .unreadable }

theorem suiteWorld_file {name text : Str} (h : suiteFiles.lookup name = some text) : suiteWorld.fs name = .contents text := by
  show (match suiteFiles.lookup name with | some text => FileState.contents text | none => .unreadable) = _
  rw [h]

example {command name expected : Str} (ht : (command, name, expected) ∈ suite) :
    crossprobRun suiteWorld doublePrint [] [command, name] = .exited 0 (expected ++ ['\n']) := by
  refine C63_suite suiteWorld (inRange := fun _ => True) (fun n hn => ?_) [] (fun _ _ => trivial) (Or.inl rfl) ?_ ht
  · have hM := brokenWorld_ok [] (n := n) (by omega)
    exact ⟨hM.format, hM.libm, hM.strtod, hM.print, hM.sortPerm, hM.sortSorted⟩
  · intro f hf
    simp only [suiteFiles, List.mem_cons, List.not_mem_nil, or_false] at hf
    rcases hf with rfl | rfl | rfl | rfl | rfl | rfl | rfl <;> exact suiteWorld_file (by decide +kernel)

end
end CP.Props
