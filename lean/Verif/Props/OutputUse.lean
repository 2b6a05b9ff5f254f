import Verif.Props.OutputMc
import Verif.Proofs.ExactBj
/-
Property C59: a formatting function with the contract exists; the documented examples.
-/
open MeasureTheory Set
namespace CP.Props
open CP.Spec FOps

open scoped Classical in
/-- `%.6g` of a number. -/
noncomputable def print6 (v : Option ℝ) : Str :=
  match v with
  | none => ['n', 'a', 'n']
  | some r =>
    if h : 0 < r then (g6 .none (sixDigits_exists h).choose (sixDigits_exists h).choose_spec.choose).text
    else if h : r < 0 then (g6 .minus (sixDigits_exists (neg_pos.mpr h)).choose (sixDigits_exists (neg_pos.mpr h)).choose_spec.choose).text
    else ['0']

theorem print6_spec {F : Type} (val : F → Option ℝ) : PrintSpec (fun x => print6 (val x)) val where
  zero x hx := by left; rw [hx]; simp [print6]
  pos x v hx h := by
    refine ⟨_, _, (sixDigits_exists h).choose_spec.choose_spec, ?_⟩
    rw [hx]
    unfold print6
    dsimp only
    rw [dif_pos h]
  neg x v hx h := by
    refine ⟨_, _, (sixDigits_exists (neg_pos.mpr h)).choose_spec.choose_spec, ?_⟩
    rw [hx]
    unfold print6
    dsimp only
    rw [dif_neg (not_lt.mpr h.le), dif_pos h]
  special x hx := by rw [hx]; simp [print6]

/-- The hypotheses of `C59_two_sided` are met: the program on the file `0.1,0.3⏎0.5,0.9⏎`, in the assertion build. -/
example : ∃ d : Dec, d.WF ∧ crossprobRun (exWorld true "0.1,0.3\n0.5,0.9\n".toList) (fun x => print6 (XR.value? x)) []
      ["ecdf2-mn2017".toList, "bounds.txt".toList] = .exited 0 (d.text ++ ['\n']) ∧
    |d.value - noncrossProb exb exB| ≤ 5 / 10 ^ 6 * noncrossProb exb exB := by
  have h1 : valuesOf ![tenth '1', tenth '3'] = exb := by
    funext i
    fin_cases i
    · exact (tenth_value (d := '1') (k := 1) (by decide)).trans (by norm_num [exb])
    · exact (tenth_value (d := '3') (k := 3) (by decide)).trans (by norm_num [exb])
  have h2 : valuesOf ![tenth '5', tenth '9'] = exB := by
    funext i
    fin_cases i
    · exact (tenth_value (d := '5') (k := 5) (by decide)).trans (by norm_num [exB])
    · exact (tenth_value (d := '9') (k := 9) (by decide)).trans (by norm_num [exB])
  have := C59_two_sided (print6_spec XR.value?) [] (exWorld true "0.1,0.3\n0.5,0.9\n".toList) exactFFTW_exact mergeSortBounds_contract
    Witness.strtod_spec ![tenth '1', tenth '3'] ![tenth '5', tenth '9']
    (by intro i; fin_cases i <;> exact tenth_wf rfl) (by intro i; fin_cases i <;> exact tenth_wf rfl)
    (h1 ▸ exb_valid) (h2 ▸ exB_valid) "bounds.txt".toList "0.1,0.3\n0.5,0.9\n".toList (exWorld_fs _ _)
    exLines "ecdf2-mn2017" (Or.inr rfl)
    (Or.inr (by
      rw [h1, h2]
      rintro ⟨i, j, hij, h⟩
      fin_cases i <;> fin_cases j <;> simp [exb, exB] at hij h
      norm_num at h))
  rw [h1, h2] at this
  exact this

/-- Some numbers as `%.6g` writes them. -/
example : (g6 .none 333333 (-1)).text = "0.333333".toList ∧ (g6 .none 100000 0).text = "1".toList ∧
    (g6 .none 123450 (-5)).text = "1.2345e-05".toList ∧ (g6 .none 500000 (-3)).text = "0.005".toList ∧
    (g6 .minus 250000 7).text = "-2.5e+07".toList ∧ (g6 .none 100000 (-100)).text = "1e-100".toList := by decide

/-! ### The example in the usage text -/

/-- The text that `l` is part of. -/
def Contains (text l : Str) : Prop := ∃ a b, text = a ++ l ++ b

/-- The candidates for command names in the usage text: the words of lines of the form `        <word>: ...`. -/
def usageWords : List Str := usageLines.filterMap fun l =>
  let t := l.toList.drop 8
  let c := t.takeWhile fun ch => ch != ' ' && ch != ':' && ch != '\n'
  if "        ".toList.isPrefixOf l.toList && ": ".toList.isPrefixOf (t.drop c.length) then some c else none

theorem usageWords_eq : usageWords = ["ecdf2-ks2001".toList, "ecdf2-mn2017".toList, "ecdf1-mns2016".toList, "ecdf1-new".toList] := by
  decide +kernel

/-- C59: the usage text lists exactly the commands the program accepts: a word is accepted as a command (for some contents of the
file) if and only if the usage text has a line consisting of eight blanks, the word, a colon and a description. -/
theorem C59_usage_lists_commands {F : Type} [FOps F] (w : World F) (c : Str) (hc : ∀ ch ∈ c, ch ≠ ' ' ∧ ch ≠ ':' ∧ ch ≠ '\n') :
    (∃ l ∈ usageLines, ("        ".toList ++ c ++ ": ".toList) <+: l.toList) ↔ ∃ b B m, Computes w (String.ofList c) b B m := by
  have hw : (∃ l ∈ usageLines, ("        ".toList ++ c ++ ": ".toList) <+: l.toList) ↔ c ∈ usageWords := by
    unfold usageWords
    rw [List.mem_filterMap]
    refine exists_congr fun l => and_congr_right fun _ => ?_
    dsimp only
    constructor
    · rintro ⟨rest, hl⟩
      have ht : l.toList.drop 8 = c ++ (": ".toList ++ rest) := by
        rw [← hl, List.append_assoc, List.append_assoc]
        rfl
      have htw : (l.toList.drop 8).takeWhile (fun ch => ch != ' ' && ch != ':' && ch != '\n') = c := by
        rw [ht, List.takeWhile_append_of_pos (by
          intro ch hch
          obtain ⟨h1, h2, h3⟩ := hc ch hch
          simp [h1, h2, h3])]
        have : (": ".toList ++ rest).takeWhile (fun ch => ch != ' ' && ch != ':' && ch != '\n') = [] := rfl
        rw [this, List.append_nil]
      rw [htw, if_pos]
      rw [Bool.and_eq_true]
      constructor
      · rw [← hl, List.append_assoc, List.append_assoc]
        rfl
      · rw [ht, List.drop_left]
        rfl
    · intro h
      split at h
      · rename_i hcond
        rw [Bool.and_eq_true, List.isPrefixOf_iff_prefix, List.isPrefixOf_iff_prefix] at hcond
        cases h
        obtain ⟨⟨t1, h1⟩, ⟨t2, h2⟩⟩ := hcond
        refine ⟨t2, ?_⟩
        have hd : l.toList.drop 8 = t1 := by rw [← h1]; rfl
        conv_rhs => rw [← h1]
        rw [List.append_assoc, List.append_assoc]
        congr 1
        rw [h2, hd]
        exact (List.prefix_iff_eq_append.mp (List.takeWhile_prefix _))
      · cases h
  rw [hw, usageWords_eq]
  have hne : ([FOps.zero] : List F) ≠ [] := by simp
  constructor
  · intro h
    simp only [List.mem_cons, List.not_mem_nil, or_false] at h
    rcases h with rfl | rfl | rfl | rfl
    · exact ⟨[], [], _, Or.inr (Or.inr (Or.inl ⟨String.ofList_toList, _, _, Or.inl ⟨rfl, rfl, rfl⟩, rfl⟩))⟩
    · exact ⟨[], [], _, Or.inr (Or.inr (Or.inr ⟨String.ofList_toList, _, _, Or.inl ⟨rfl, rfl, rfl⟩, rfl⟩))⟩
    · exact ⟨[FOps.zero], [], _, Or.inl ⟨String.ofList_toList, Or.inl ⟨hne, rfl, rfl⟩⟩⟩
    · exact ⟨[FOps.zero], [], _, Or.inr (Or.inl ⟨String.ofList_toList, Or.inl ⟨hne, rfl, rfl⟩⟩)⟩
  · rintro ⟨b, B, m, h⟩
    have hs : ∀ s : String, String.ofList c = s → c = s.toList := by rintro s rfl; exact String.toList_ofList.symm
    rcases h with ⟨h, -⟩ | ⟨h, -⟩ | ⟨h, -⟩ | ⟨h, -⟩ <;> rw [hs _ h] <;> decide


/-- Consecutive lines of the usage text. -/
theorem contains_usage (a k : ℕ) : Contains usageText (((usageLines.drop a).take k).flatMap String.toList) := by
  refine ⟨(usageLines.take a).flatMap String.toList, (usageLines.drop (a + k)).flatMap String.toList, ?_⟩
  unfold usageText
  rw [← List.flatMap_append, ← List.flatMap_append]
  congr 1
  rw [List.append_assoc, ← List.drop_drop, List.take_append_drop, List.take_append_drop]

/-- The boundaries of the example file in the usage text. -/
noncomputable def useb : Fin 3 → ℝ := ![0, 15 / 100, 5 / 10]
noncomputable def useB : Fin 3 → ℝ := ![7 / 10, 9 / 10, 1]
/-- The upper boundary of the event the usage text describes. -/
noncomputable def useB' : Fin 3 → ℝ := ![7 / 10, 9 / 10, 7 / 10]

theorem useb_valid : ValidBound useb := by
  constructor
  · intro i j hij; fin_cases i <;> fin_cases j <;> simp [useb] at hij ⊢ <;> norm_num
  · intro i; fin_cases i <;> norm_num [useb]
theorem useB_valid : ValidBound useB := by
  constructor
  · intro i j hij; fin_cases i <;> fin_cases j <;> simp [useB] at hij ⊢ <;> norm_num
  · intro i; fin_cases i <;> norm_num [useB]

theorem use_lower : 8 / 10 ≤ lowerProb useb := by
  rw [← exact_final useb_valid]
  simp [Finset.sum_range_succ, exMu, exAl, sgnCoef_succ, sgnCoef_zero, extB, Nat.factorial, useb]
  norm_num

theorem use_upper : 9 / 10 ≤ upperProb useB := by
  have e : reflect useB = ![0, 1 / 10, 3 / 10] := by
    funext i
    fin_cases i <;> simp [reflect, useB, Fin.rev] <;> norm_num
  rw [upperProb_reflect, ← exact_final (reflect_valid useB_valid), e]
  simp [Finset.sum_range_succ, exMu, exAl, sgnCoef_succ, sgnCoef_zero, extB, Nat.factorial]
  norm_num

/-- The probability that the program computes for the example file is at least 0.7. -/
theorem use_computed : 7 / 10 ≤ noncrossProb useb useB := by
  have e : {x : Fin 3 → ℝ | ∀ i, useb i ≤ orderStat x i ∧ orderStat x i ≤ useB i}
      = {x | ∀ i, useb i ≤ orderStat x i} ∩ {x | ∀ i, orderStat x i ≤ useB i} := by
    ext x; simp only [mem_ofPred_eq, mem_inter_iff, forall_and]
  have hm : MeasurableSet {x : Fin 3 → ℝ | ∀ i, orderStat x i ≤ useB i} := by
    have : {x : Fin 3 → ℝ | ∀ i, orderStat x i ≤ useB i} = ⋂ i, {x | orderStat x i ≤ useB i} := by ext; simp
    rw [this]
    exact MeasurableSet.iInter fun i => measurable_orderStat_le i _
  have h := measureReal_union_add_inter (μ := iidUniform 3) (s := {x : Fin 3 → ℝ | ∀ i, useb i ≤ orderStat x i}) hm
  have h1 : (iidUniform 3).real ({x : Fin 3 → ℝ | ∀ i, useb i ≤ orderStat x i} ∪ {x | ∀ i, orderStat x i ≤ useB i}) ≤ 1 :=
    measureReal_le_one
  have h2 := use_lower
  have h3 := use_upper
  unfold lowerProb at h2
  unfold upperProb at h3
  unfold noncrossProb
  rw [e]
  linarith

/-- The event that the usage text describes has probability at most 0.343. -/
theorem use_described : noncrossProb useb useB' ≤ 343 / 1000 := by
  have h : noncrossProb useb useB' ≤ upperProb (fun _ : Fin 3 => (7 / 10 : ℝ)) := by
    unfold noncrossProb upperProb
    refine measureReal_mono (fun x hx i => ?_)
    refine (orderStat_monotone x (Fin.le_last i)).trans ?_
    have := (hx 2).2
    simpa [useB'] using this
  refine h.trans (le_of_eq ?_)
  have hv : ValidBound (reflect fun _ : Fin 3 => (7 / 10 : ℝ)) :=
    reflect_valid ⟨fun _ _ _ => le_rfl, fun _ => by norm_num⟩
  have e : (reflect fun _ : Fin 3 => (7 / 10 : ℝ)) = ![3 / 10, 3 / 10, 3 / 10] := by
    funext i
    fin_cases i <;> simp [reflect] <;> norm_num
  rw [upperProb_reflect, ← exact_final hv, e]
  simp [Finset.sum_range_succ, exMu, exAl, sgnCoef_succ, sgnCoef_zero, extB, Nat.factorial]
  norm_num

/-- The fields of the two lines of the example file. -/
def useFb : List Field :=
  [⟨"    ".toList, ⟨.none, ['0'], none, none⟩, []⟩, ⟨[' '], ⟨.none, ['0'], some ['1', '5'], none⟩, []⟩,
    ⟨[' '], ⟨.none, ['0'], some ['5'], none⟩, []⟩]
def useFB : List Field :=
  [⟨"    ".toList, ⟨.none, ['0'], some ['7'], none⟩, []⟩, ⟨[' '], ⟨.none, ['0'], some ['9'], none⟩, []⟩,
    ⟨[' '], ⟨.none, ['1'], none, none⟩, []⟩]

instance (l : Str) : Decidable (AllDigits l) := by unfold AllDigits; infer_instance

theorem useFb_wf : ∀ f ∈ useFb, f.WF := by
  simp [useFb, Field.WF, Dec.WF, EndsNumber, Dec.fracDigits]
  decide
theorem useFB_wf : ∀ f ∈ useFB, f.WF := by
  simp [useFB, Field.WF, Dec.WF, EndsNumber, Dec.fracDigits]
  decide

theorem useFb_val : (useFb.map fun f => XR.fin f.num.value) = toList useb := by
  simp [useFb, Dec.value, Sign.unit, natOf, Dec.fracDigits, Dec.expVal, toList, useb, List.ofFn_succ]
  norm_num [zpow_neg]
theorem useFB_val : (useFB.map fun f => XR.fin f.num.value) = toList useB := by
  simp [useFB, Dec.value, Sign.unit, natOf, Dec.fracDigits, Dec.expVal, toList, useB, List.ofFn_succ]
  norm_num [zpow_neg]

/-- C59: the first example of the usage text.  The text says that, to check the probability that
`X_(1)<=0.7 and 0.15<=X_(2)<=0.9 and 0.5<=X_(3)<= 0.7`, one should write the given file and run `ecdf2-mn2017`.  On exactly
that file the program exits with 0 and prints a number that is at least 0.69999, namely the probability of
`X_(1)<=0.7 and 0.15<=X_(2)<=0.9 and 0.5<=X_(3)` to six digits, whereas the described event has probability at most 0.343. -/
theorem C59_usage_example {fmt : XR → Str} (hp : PrintSpec fmt XR.value?) (ioWhat : Str)
    (w : World XR) (hf : ExactFFT w.env.fft) (hsort : SortContract w.sort)
    (hspec : StrtodSpec w.libc.strtod XR.fin fun _ => True)
    (hfile : w.fs "bounds.txt".toList = .contents "    0, 0.15, 0.5,\n    0.7, 0.9, 1\n".toList) :
    Contains usageText (["    To check the probability that\n",
      "    X_(1)<=0.7 and 0.15<=X_(2)<=0.9 and 0.5<=X_(3)<= 0.7\n",
      "    write the following bounds.txt file:\n",
      "    0, 0.15, 0.5,\n",
      "    0.7, 0.9, 1\n",
      "    and run './bin/crossprob ecdf2-mn2017 bounds.txt'\n"].flatMap String.toList) ∧
    (∃ d : Dec, d.WF ∧ crossprobRun w fmt ioWhat ["ecdf2-mn2017".toList, "bounds.txt".toList] = .exited 0 (d.text ++ ['\n']) ∧
      |d.value - noncrossProb useb useB| ≤ 5 / 10 ^ 6 ∧ 69999 / 100000 ≤ d.value) ∧
    noncrossProb useb useB' ≤ 343 / 1000 := by
  refine ⟨?_, ?_, use_described⟩
  · exact contains_usage 37 6
  · have hcross : ¬ StronglyCrossed useb useB := by
      rintro ⟨i, j, hij, h⟩
      fin_cases i <;> fin_cases j <;> simp [useb, useB] at hij h <;> norm_num at h
    have h : crossprobMain w ["ecdf2-mn2017".toList, "bounds.txt".toList] = .printed (XR.fin (noncrossProb useb useB)) := by
      rw [C26_printed]
      refine ⟨_, _, toList useb, toList useB, rfl, ?_, ?_⟩
      · rw [C30_two_lines w.libc w.fs _ _ "    0, 0.15, 0.5,".toList "    0.7, 0.9, 1".toList hfile
          ⟨by decide, by decide, Or.inl ⟨[], rfl⟩⟩]
        have e1 : "    0, 0.15, 0.5,".toList = List.intercalate [','] (useFb.map Field.text) ++ [','] := by decide
        have e2 : "    0.7, 0.9, 1".toList = List.intercalate [','] (useFB.map Field.text) := by decide
        rw [e1, e2, C28_trailing_comma hspec useFb (by simp [useFb]) useFb_wf (fun _ _ => trivial),
          C28_line hspec useFB (by simp [useFB]) useFB_wf (fun _ _ => trivial), useFb_val, useFB_val]
        rfl
      · have hp : Computes.Padded (toList useb) (toList useB) (toList useb) (toList useB) :=
          Or.inl ⟨by simp [toList], rfl, rfl⟩
        exact Or.inr (Or.inr (Or.inr ⟨rfl, _, _, hp, (C01_ecdf2 w.env hf hsort useb_valid useB_valid true (Or.inr hcross)).symm⟩))
    have key := C59_output w fmt ioWhat ["ecdf2-mn2017".toList, "bounds.txt".toList]
    rw [h] at key
    obtain ⟨d, hd, he, hv⟩ := C59_number hp (x := XR.fin (noncrossProb useb useB)) rfl
    have h0 := use_computed
    have h1 : noncrossProb useb useB ≤ 1 := measureReal_le_one
    rw [abs_of_nonneg (show 0 ≤ noncrossProb useb useB by linarith)] at hv
    have h2 : |d.value - noncrossProb useb useB| ≤ 5 / 10 ^ 6 := hv.trans (by nlinarith)
    refine ⟨d, hd, by rw [← he]; exact key, h2, ?_⟩
    have := (abs_le.mp h2).1
    linarith

/-- 0.45 is printed as `0.45`. -/
theorem print_045 {m : ℕ} {X : ℤ} (h : SixDigits (9 / 20) m X) : (g6 .none m X).text = "0.45".toList := by
  obtain ⟨e, m0, h1, h2, h3, hc⟩ := h
  have he : e = -1 := by
    have a : e < 0 := by
      by_contra hn
      have : (1 : ℝ) ≤ (10 : ℝ) ^ e := one_le_zpow₀ (by norm_num) (by omega)
      linarith
    have b : -2 < e := by
      by_contra hn
      have : (10 : ℝ) ^ (e + 1) ≤ (10 : ℝ) ^ (-1 : ℤ) := zpow_le_zpow_right₀ (by norm_num) (by omega)
      norm_num at this
      linarith
    omega
  subst he
  have e6 : (9 / 20 : ℝ) / (10 : ℝ) ^ (-1 - 5 : ℤ) = 450000 := by norm_num [zpow_neg]
  rw [e6, abs_le] at h3
  have hm : m0 = 450000 := by
    have a : (m0 : ℝ) < (450001 : ℕ) := by push_cast; linarith [h3.1]
    have b : ((449999 : ℕ) : ℝ) < m0 := by push_cast; linarith [h3.2]
    have := Nat.cast_lt.mp a
    have := Nat.cast_lt.mp b
    omega
  subst hm
  rcases hc with ⟨-, rfl, rfl⟩ | ⟨h, -⟩
  · decide
  · omega

theorem use_one : upperProb ![(1 / 2 : ℝ), 7 / 10] = 9 / 20 := by
  have hv : ValidBound ![(1 / 2 : ℝ), 7 / 10] := by
    constructor
    · intro i j hij; fin_cases i <;> fin_cases j <;> simp at hij ⊢ <;> norm_num
    · intro i; fin_cases i <;> norm_num
  have e : reflect ![(1 / 2 : ℝ), 7 / 10] = ![3 / 10, 1 / 2] := by
    funext i
    fin_cases i <;> simp [reflect] <;> norm_num
  rw [upperProb_reflect, ← exact_final (reflect_valid hv), e]
  simp [Finset.sum_range_succ, exMu, exAl, sgnCoef_succ, sgnCoef_zero, extB, Nat.factorial]
  norm_num

/-- C59: the second example of the usage text, `ecdf1-new` on a file with an empty first line and `0.5, 0.7`: if the first line
is really empty, the program prints `0.45` exactly. -/
theorem C59_usage_example_one_sided {fmt : XR → Str} (hp : PrintSpec fmt XR.value?) (ioWhat : Str)
    (w : World XR) (hf : ExactFFT w.env.fft) (hsort : SortContract w.sort) (hsq : w.isqrt = Nat.sqrt)
    (hspec : StrtodSpec w.libc.strtod XR.fin fun _ => True)
    (name : Str) (hfile : w.fs name = .contents "\n    0.5, 0.7\n".toList) :
    upperProb ![(1 / 2 : ℝ), 7 / 10] = 9 / 20 ∧
    crossprobRun w fmt ioWhat ["ecdf1-new".toList, name] = .exited 0 "0.45\n".toList := by
  refine ⟨use_one, ?_⟩
  let fB : Fin 2 → Field := ![⟨"    ".toList, ⟨.none, ['0'], some ['5'], none⟩, []⟩, ⟨[' '], ⟨.none, ['0'], some ['7'], none⟩, []⟩]
  have hv : valuesOf fB = ![(1 / 2 : ℝ), 7 / 10] := by
    funext i
    fin_cases i <;> simp [valuesOf, fB, Dec.value, Sign.unit, natOf, Dec.fracDigits, Dec.expVal] <;> norm_num [zpow_neg]
  have hvalid : ValidBound ![(1 / 2 : ℝ), 7 / 10] := by
    constructor
    · intro i j hij; fin_cases i <;> fin_cases j <;> simp at hij ⊢ <;> norm_num
    · intro i; fin_cases i <;> norm_num
  have h := C41_upper w hf hsort hsq hspec (by norm_num) fB
    (by intro i; fin_cases i <;> simp [fB, Field.WF, Dec.WF, EndsNumber, Dec.fracDigits] <;> decide)
    (hv ▸ hvalid) name _ hfile ⟨by decide, by decide, Or.inl ⟨[], by decide⟩⟩ "ecdf1-new" (by simp)
    (fun _ => Or.inr le_rfl)
  rw [hv, use_one] at h
  have key := C59_output w fmt ioWhat ["ecdf1-new".toList, name]
  rw [h] at key
  obtain ⟨m, X, h1, h2⟩ := hp.pos (XR.fin (9 / 20)) (9 / 20) rfl (by norm_num)
  have e : fmt (XR.fin (9 / 20)) = "0.45".toList := by rw [h2, print_045 h1]
  dsimp only at key
  rw [e] at key
  exact key

/-- The hypotheses of the last two theorems are met. -/
example (a : Bool) : ∃ d : Dec, d.WF ∧
    crossprobRun (exWorld a "    0, 0.15, 0.5,\n    0.7, 0.9, 1\n".toList) (fun x => print6 (XR.value? x)) []
      ["ecdf2-mn2017".toList, "bounds.txt".toList] = .exited 0 (d.text ++ ['\n']) :=
  let ⟨d, h1, h2, _⟩ := (C59_usage_example (print6_spec XR.value?) [] (exWorld a _) (by cases a <;> exact exactFFTW_exact) mergeSortBounds_contract
    Witness.strtod_spec (exWorld_fs _ _)).2.1
  ⟨d, h1, h2⟩
example (a : Bool) : crossprobRun (exWorld a "\n    0.5, 0.7\n".toList) (fun x => print6 (XR.value? x)) []
      ["ecdf1-new".toList, "bounds.txt".toList] = .exited 0 "0.45\n".toList :=
  (C59_usage_example_one_sided (print6_spec XR.value?) [] (exWorld a _) (by cases a <;> exact exactFFTW_exact)
    mergeSortBounds_contract rfl Witness.strtod_spec _ (exWorld_fs _ _)).2

/-- C59: the same example as it is printed in the usage text, where the first line consists of blanks.  A first line of blanks
is not empty: with every command the program prints an error and exits with 3. -/
theorem C59_blank_line {F : Type} [FOps F] {rnd : ℝ → F} {inRange : ℝ → Prop} (fmt : F → Str) (ioWhat : Str) (w : World F)
    (hspec : StrtodSpec w.libc.strtod rnd inRange) (h0 : FOps.eq (rnd 0) FOps.zero = true)
    (name text l2 : Str) (k : ℕ) (hfile : w.fs name = .contents text) (hlines : FirstTwoLines text (List.replicate (k + 1) ' ') l2)
    (command : Str) :
    ∃ msg, crossprobRun w fmt ioWhat [command, name] = .exited 3 ("Error:\n".toList ++ whatText msg ++ ['\n']) := by
  obtain ⟨msg, hm⟩ := C28_bad_field hspec h0 [] [] (List.replicate (k + 1) ' ') (by simp)
    ⟨List.replicate (k + 1) ' ', .none, [], by
      simp [cStr, Sign.text], by simp [IsSpace], by simp, by simp, by simp⟩ (Or.inl (by simp))
  refine ⟨msg, ?_⟩
  have hr : readAndCheckBoundariesFile w.libc w.fs name = .error (.runtimeError msg) := by
    rw [C30_two_lines w.libc w.fs name text _ _ hfile hlines]
    rw [List.nil_append, List.intercalate_singleton] at hm
    rw [hm]
    rfl
  unfold crossprobRun handleCommandLineArgumentsIO
  dsimp only
  rw [hr]
  rfl

/-- The usage text shows twelve blanks as the first line of this file. -/
example : Contains usageText ("    where bounds1.txt is the following (first line is empty):\n            \n    0.5, 0.7\n".toList) := by
  exact contains_usage 47 3

end CP.Props
