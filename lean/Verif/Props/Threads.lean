import Verif.Proofs.ThreadsIeee
import Verif.Proofs.ThreadsAlone
import Verif.Proofs.ThreadsPlan
import Verif.Props.Exact
import Verif.Props.LongDoubleProgram
import Verif.Proofs.LibmWit
/-
Property C80: calls in several threads of one process, under every schedule.
-/
open MeasureTheory Set
namespace CP.Props
open CP.Spec FOps
noncomputable section

variable {F : Type} [FOps F]

/-- C80: whatever calls run at the same time, under every schedule, a call of `ecdf2` or `ecdf1_new` that has ended has ended exactly
as if it had run alone (in any arithmetic), unless two calls have been inside the FFTW planner at the same time. -/
theorem C80_result (env : Env F) (sort : List (Bound F) → List (Bound F)) (isqrt : ℕ → ℕ) (e : ℤ) (calls : ℕ → LibCall F) (schedule : List ℕ)
    (hrace : ((Process.start env sort isqrt e calls).run schedule).race = false) {i : ℕ} (hi : ¬ (calls i).isMns) {r : M F}
    (hr : ((Process.start env sort isqrt e calls).run schedule).ended i r) : r = (calls i).sequential env sort isqrt := by
  rcases hr with h | h
  · rw [hrace] at h; cases h
  · exact Process.result env sort isqrt e calls schedule hi h

/-- C80: two calls are never inside the FFTW planner at the same time if at most one of the calls is large (`ecdf2` with FFT or
`ecdf1_new`, more than 126 points); in particular never if only `ecdf2` without FFT, `ecdf1_mns2016` and small calls are used. -/
theorem C80_no_planner_race (env : Env F) {sort : List (Bound F) → List (Bound F)} (hperm : ∀ l, (sort l).Perm l) (isqrt : ℕ → ℕ) (e : ℤ)
    (calls : ℕ → LibCall F) (hone : ∀ i j, (calls i).large → (calls j).large → i = j) (schedule : List ℕ) :
    ((Process.start env sort isqrt e calls).run schedule).race = false :=
  Process.Inv.run_race (fun i j hi hj => hone i j ((calls i).largeB_iff.mp hi) ((calls j).largeB_iff.mp hj)) schedule
    (Process.start_inv_large env hperm isqrt e calls) rfl

/-- C80: calls of `ecdf1_mns2016` one after the other (as under the lock of the Python interpreter), whatever else runs: every call
that has ended has ended exactly as if it had run alone, in any arithmetic, whatever the static variable contained at first. -/
theorem C80_serial (env : Env F) (sort : List (Bound F) → List (Bound F)) (isqrt : ℕ → ℕ) (e : ℤ) (calls : ℕ → LibCall F) (schedule : List ℕ)
    (hrace : ((Process.start env sort isqrt e calls).run schedule).race = false)
    (hserial : Serial (fun i => (calls i).isMns) schedule) {i : ℕ} {r : M F}
    (hr : ((Process.start env sort isqrt e calls).run schedule).ended i r) : r = (calls i).sequential env sort isqrt := by
  rcases hr with h | h
  · rw [hrace] at h; cases h
  · exact Process.serial_result env sort isqrt e calls schedule hserial h

/-- C80: also with all calls of `ecdf1_mns2016` interleaved in any way, in exact arithmetic `ecdf1_mns2016_b` returns the lower one-sided
probability: the exponents that the calls take from each other do not matter. -/
theorem C80_mns_b (env : Env XR) (sort : List (Bound XR) → List (Bound XR)) (isqrt : ℕ → ℕ) (e : ℤ) (calls : ℕ → LibCall XR) (schedule : List ℕ)
    (hrace : ((Process.start env sort isqrt e calls).run schedule).race = false) {i n : ℕ} {b : Fin n → ℝ} (hb : ValidBound b)
    (hi : calls i = .mnsb (toList b)) {r : M XR} (hr : ((Process.start env sort isqrt e calls).run schedule).ended i r) :
    r = .ok (XR.fin (lowerProb b)) := by
  rcases hr with h | h
  · rw [hrace] at h; cases h
  · have := ((Process.start_inv env sort isqrt e calls).run schedule).done h
    rw [hi] at this
    obtain ⟨read, rfl⟩ := this
    exact mns_sat env read hb

/-- C80: the same for `ecdf1_mns2016_B` and the upper one-sided probability. -/
theorem C80_mns_B (env : Env XR) (sort : List (Bound XR) → List (Bound XR)) (isqrt : ℕ → ℕ) (e : ℤ) (calls : ℕ → LibCall XR) (schedule : List ℕ)
    (hrace : ((Process.start env sort isqrt e calls).run schedule).race = false) {i n : ℕ} {B : Fin n → ℝ} (hB : ValidBound B)
    (hi : calls i = .mnsB (toList B)) {r : M XR} (hr : ((Process.start env sort isqrt e calls).run schedule).ended i r) :
    r = .ok (XR.fin (upperProb B)) := by
  rcases hr with h | h
  · rw [hrace] at h; cases h
  · have := ((Process.start_inv env sort isqrt e calls).run schedule).done h
    rw [hi] at this
    obtain ⟨read, rfl⟩ := this
    unfold ecdf1Mns2016BWith
    dsimp only
    rw [check_valid hB "B" _ (by simp), M_ok_bind, symmetricSteps_eq, M_ok_bind, mns_sat env _ (reflect_valid hB), upperProb_reflect]

/-- C80: no call waits for another: under every infinite schedule that gives call `i` a turn again and again, call `i` ends. -/
theorem C80_ends (env : Env F) (sort : List (Bound F) → List (Bound F)) (isqrt : ℕ → ℕ) (e : ℤ) (calls : ℕ → LibCall F) (turn : ℕ → ℕ) (i : ℕ)
    (hfair : ∀ N, ∃ m ≥ N, turn m = i) :
    ∃ m r, ((Process.start env sort isqrt e calls).run ((List.range m).map turn)).thread i = .done r := by
  obtain ⟨m, r, h⟩ := Process.ends_fair i _ (Process.start env sort isqrt e calls) turn rfl hfair
  refine ⟨m, r, ?_⟩
  have : ∀ m, (Process.start env sort isqrt e calls).run ((List.range m).map turn) = (Process.start env sort isqrt e calls).after turn m := by
    intro m
    induction m with
    | zero => rfl
    | succ m ih =>
      rw [List.range_succ, List.map_append, Process.run_append, ih]
      rfl
  rw [this]
  exact h

/-- C80, the limits: any two large calls of `ecdf1_new` that would return a number alone can meet in the FFTW planner, in any arithmetic. -/
theorem C80_planner_race (env : Env F) (sort : List (Bound F) → List (Bound F)) (isqrt : ℕ → ℕ) (e : ℤ) (calls : ℕ → LibCall F) {i j : ℕ} (hij : i ≠ j)
    (h : ∀ l, l = i ∨ l = j → (∃ x, (calls l).sequential env sort isqrt = .ok x) ∧
      ((∃ B, calls l = .newB B ∧ 126 < B.length) ∨ ∃ b, calls l = .newb b ∧ 126 < b.length)) :
    ∃ schedule, ((Process.start env sort isqrt e calls).run schedule).race = true := by
  have key : ∀ l, l = i ∨ l = j → Thr.Enters ((Process.start env sort isqrt e calls).thread l) := by
    intro l hl
    obtain ⟨⟨x, hx⟩, ⟨B, hB, hn⟩ | ⟨b, hb, hn⟩⟩ := h l hl
    · rw [hB] at hx
      show Thr.Enters ((calls l).thread env sort isqrt)
      rw [hB]
      exact ecdf1NewBT_enters hn hx
    · rw [hb] at hx
      show Thr.Enters ((calls l).thread env sort isqrt)
      rw [hb]
      exact ecdf1NewbT_enters hn hx
  exact ⟨[i, j], Process.race_possible _ hij (key i (.inl rfl)) (key j (.inr rfl))⟩

/-- C80, the limits: in floating-point arithmetic, a call of `ecdf1_mns2016_b` with the boundary 0 (probability 1) and so many points
that `1/n!` underflows can end with the result 0, because calls in other threads (with a single point) overwrite the exponents. -/
theorem C80_static_variable {A : FloatSystem} {u : ℝ} (h : A.OK u) {n : ℕ} (hF : AnnexF A n) (hn : 1 - (n : ℤ) < A.f.emin)
    (hnp : n ≤ 2 ^ A.f.p) (hno : (n : ℝ) ≤ (2 : ℝ) ^ (A.f.emax - 1)) (env : Env (Num A)) (sort : List (Bound (Num A)) → List (Bound (Num A)))
    (isqrt : ℕ → ℕ) (e : ℤ) :
    ∃ (calls : ℕ → LibCall (Num A)) (schedule : List ℕ), calls 0 = .mnsb (List.replicate n zero) ∧ (∀ i ≥ 1, calls i = .mnsb [zero]) ∧
      ((Process.start env sort isqrt e calls).run schedule).race = false ∧
      ((Process.start env sort isqrt e calls).run schedule).thread 0 = .done (.ok zero) ∧ (zero : Num A).val = 0 ∧
      lowerProb (fun _ : Fin n => (zero : Num A).val) = 1 := by
  obtain ⟨s, hs⟩ := spoiled h hF hn hnp hno env sort isqrt e
  have hv : (zero : Num A).val = 0 := by rw [zero_eq h.fmt]; rfl
  refine ⟨_, s, if_pos rfl, fun i hi => if_neg (by omega), ?_, hs, hv, ?_⟩
  · refine Process.Inv.run_race (sh := fun _ => true) (pl := fun _ => false) (P := fun _ _ => True) (fun i j hi => by cases hi) s ?_ rfl
    constructor
    · intro i
      show Thr.Spec true false false (LibCall.thread env sort isqrt (if i = 0 then _ else _)) _
      split
      · exact Thr.Spec.mono id id (fun _ _ => trivial) (ecdf1Mns2016bT_spec env false _)
      · exact Thr.Spec.mono id id (fun _ _ => trivial) (ecdf1Mns2016bT_spec env false _)
    · exact List.nodup_nil
    · intro i hi; cases hi
  · rw [hv]
    exact lowerProb_zeros n

/-- C80, the limits, with 80-bit `long double` as in the source: from 16447 points on the result can be 0, although the same call alone
returns a number within 1/40000 of 1. -/
theorem C80_static_variable_x87 {A : FloatSystem} (hA : A.f = x87Extended) {n : ℕ} (hM : LongDoubleMachine A n) (hF : AnnexF A n) (hn : 16447 ≤ n)
    (hnp : n ≤ 1000000) (env : Env (Num A)) (sort : List (Bound (Num A)) → List (Bound (Num A))) (isqrt : ℕ → ℕ) (e : ℤ) :
    ∃ (calls : ℕ → LibCall (Num A)) (schedule : List ℕ), calls 0 = .mnsb (List.replicate n zero) ∧ (∀ i ≥ 1, calls i = .mnsb [zero]) ∧
      ((Process.start env sort isqrt e calls).run schedule).race = false ∧
      ((Process.start env sort isqrt e calls).run schedule).thread 0 = .done (.ok zero) ∧ (zero : Num A).val = 0 ∧
      lowerProb (fun _ : Fin n => (zero : Num A).val) = 1 ∧
      ∃ x, (calls 0).sequential env sort isqrt = .ok x ∧ x.finite ∧ |x.val - 1| ≤ 1 / 40000 := by
  obtain ⟨calls, s, h0, h1, h2, h3, h4, h5⟩ := C80_static_variable (long_ok hM.format) hF
    (by rw [hA]; show 1 - (n : ℤ) < -16445; omega) (by rw [hA]; exact hnp.trans (by norm_num [x87Extended]))
    (by
      rw [hA]
      have h1 : (n : ℝ) ≤ 2 ^ 64 := by exact_mod_cast hnp.trans (by norm_num)
      refine h1.trans ?_
      have h2 : (2 : ℝ) ^ (64 : ℤ) ≤ 2 ^ (x87Extended.emax - 1) := zpow_le_zpow_right₀ (by norm_num) (by norm_num [x87Extended])
      exact_mod_cast h2) env sort isqrt e
  refine ⟨calls, s, h0, h1, h2, h3, h4, h5, ?_⟩
  rw [h0]
  exact mns_alone (long_ok hM.format) hF hM.libm hM.pow hnp rfl (by rw [hA]; norm_num [x87Extended]) (by rw [hA]; norm_num [x87Extended])
    (by rw [hA]; norm_num [x87Extended]) env

/-- C80: altogether, if at most one of the calls is large and the calls of `ecdf1_mns2016` are not interleaved, then every call that has
ended has ended exactly as if it had run alone; in any arithmetic, under every such schedule. -/
theorem C80_all (env : Env F) {sort : List (Bound F) → List (Bound F)} (hperm : ∀ l, (sort l).Perm l) (isqrt : ℕ → ℕ) (e : ℤ)
    (calls : ℕ → LibCall F) (hone : ∀ i j, (calls i).large → (calls j).large → i = j) (schedule : List ℕ)
    (hserial : Serial (fun i => (calls i).isMns) schedule) {i : ℕ} {r : M F}
    (hr : ((Process.start env sort isqrt e calls).run schedule).ended i r) : r = (calls i).sequential env sort isqrt :=
  C80_serial env sort isqrt e calls schedule (C80_no_planner_race env hperm isqrt e calls hone schedule) hserial hr

/-! ### Examples -/

/-- The math functions of the correctly rounded system at special arguments. -/
theorem correct_annexF {f : Format} (hf : f.Wide) {n : ℕ} (hn : n + 1 ≤ 2 ^ f.p) (hn64 : n ≤ 2 ^ 64) :
    AnnexF (correctSys f hf.ok) n := by
  have ok : (correctSys f hf.ok).f.OK := hf.ok
  have hl := correct_libm hf (u := 1) (N := n) (zpow_le_one_of_nonpos₀ (by norm_num) (by omega)) hn64
  have h64 : ((n + 1 : ℕ) : ℝ) ≤ (2 : ℝ) ^ (f.emax - 1) := by
    have h1 : ((n + 1 : ℕ) : ℝ) ≤ ((2 ^ 64 + 1 : ℕ) : ℝ) := by exact_mod_cast Nat.add_le_add_right hn64 1
    refine h1.trans (le_trans ?_ (zpow_le_zpow_right₀ (by norm_num) (show (65 : ℤ) ≤ f.emax - 1 by have := hf.high; omega)))
    norm_num
  have hp2 : 2 ≤ 2 ^ f.p := by
    calc 2 = 2 ^ 1 := rfl
      _ ≤ 2 ^ f.p := Nat.pow_le_pow_right (by norm_num) hf.small.1
  constructor
  · intro k hk
    rw [zero_eq ok]
    show roundNum (correctSys f hf.ok) ((0 : ℝ) ^ (k : ℤ)) = _
    rw [zpow_natCast, zero_pow (by omega)]
    exact roundNum_of_rep ok (by rw [abs_zero]; positivity) _
  · rw [zero_eq ok, one_eq ok]
    show roundNum (correctSys f hf.ok) ((0 : ℝ) ^ (0 : ℤ)) = _
    rw [zpow_zero]
    exact roundNum_of_rep ok (by rw [abs_one]; linarith [one_le_Omega ok]) _
  · intro k
    rw [one_eq ok]
    show roundNum (correctSys f hf.ok) ((1 : ℝ) ^ (k : ℤ)) = _
    rw [one_zpow]
    exact roundNum_of_rep ok (by rw [abs_one]; linarith [one_le_Omega ok]) _
  · rw [zero_eq ok]
    show (if (0 : ℝ) < 0 then _ else if (0 : ℝ) = 0 then Fl.ninf else _) = _
    rw [if_neg (lt_irrefl _), if_pos rfl]
    rfl
  · rw [zero_eq ok]
    show roundNum (correctSys f hf.ok) (0 : ℝ) = _
    exact roundNum_of_rep ok (by rw [abs_zero]; positivity) _
  · obtain ⟨h2, e2⟩ := ofInt_num (A := correctSys f hf.ok) ok (k := 2) hp2
      (by have := one_le_Omega ok; push_cast; linarith)
    obtain ⟨v, hv, e, -⟩ := hl.log _ h2 (by norm_num)
    refine ⟨v, hv, ?_⟩
    rw [show (ofInt 2 : Num (correctSys f hf.ok)) = _ from e2]
    exact e
  · obtain ⟨h2, e2⟩ := ofInt_num (A := correctSys f hf.ok) ok (k := n + 1) hn h64
    have e3 : (ofInt ((n : ℤ) + 1) : Num (correctSys f hf.ok)) = mkNum _ ((n + 1 : ℕ) : ℝ) h2 := by rw [← e2]; push_cast; rfl
    have hc : ((n + 1 : ℕ) : ℝ) = (n : ℝ) + 1 := by push_cast; ring
    rw [e3, thr_mkNum_congr hc h2 (hc ▸ h2)]
    obtain ⟨v, hv, e, -⟩ := hl.lgamma n (hc ▸ h2) le_rfl
    exact ⟨v, hv, e⟩

/-- Four calls at once: two of `ecdf1_mns2016` on the same static variable, and `ecdf2` and `ecdf1_new`. -/
def fourCalls : ℕ → LibCall XR
  | 0 => .mnsb (toList exb)
  | 1 => .mnsB (toList exB)
  | 2 => .ecdf2 (toList exb) (toList exB) true
  | _ => .newb (toList exb)

theorem fourCalls_small (i : ℕ) : ¬ (fourCalls i).large := by
  match i with
  | 0 => exact id
  | 1 => exact id
  | 2 => intro h; have := h.2; simp [toList] at this
  | i + 3 => intro h; have h : 126 < (toList exb).length := h; simp [toList] at h

theorem fourCalls_race (schedule : List ℕ) : ((Process.start relEnv mergeSortBounds Nat.sqrt 7 fourCalls).run schedule).race = false :=
  C80_no_planner_race relEnv mergeSortBounds_contract.perm Nat.sqrt 7 fourCalls (fun i _ h => absurd h (fourCalls_small i)) schedule

/-- In turns, all four end, each with its probability. -/
example : ∃ m, ((Process.start relEnv mergeSortBounds Nat.sqrt 7 fourCalls).run ((List.range m).map (· % 4))).thread 0 =
    .done (.ok (XR.fin (lowerProb exb))) := by
  obtain ⟨m, r, h⟩ := C80_ends relEnv mergeSortBounds Nat.sqrt 7 fourCalls (· % 4) 0 (fun N => ⟨4 * N, by omega, by omega⟩)
  refine ⟨m, ?_⟩
  rw [h, C80_mns_b relEnv mergeSortBounds Nat.sqrt 7 fourCalls _ (fourCalls_race _) exb_valid rfl (Or.inr h)]

example : ∃ m, ((Process.start relEnv mergeSortBounds Nat.sqrt 7 fourCalls).run ((List.range m).map (· % 4))).thread 1 =
    .done (.ok (XR.fin (upperProb exB))) := by
  obtain ⟨m, r, h⟩ := C80_ends relEnv mergeSortBounds Nat.sqrt 7 fourCalls (· % 4) 1 (fun N => ⟨4 * N + 1, by omega, by omega⟩)
  refine ⟨m, ?_⟩
  rw [h, C80_mns_B relEnv mergeSortBounds Nat.sqrt 7 fourCalls _ (fourCalls_race _) exB_valid rfl (Or.inr h)]

example : ∃ m, ((Process.start relEnv mergeSortBounds Nat.sqrt 7 fourCalls).run ((List.range m).map (· % 4))).thread 2 =
    .done (.ok (XR.fin (noncrossProb exb exB))) := by
  obtain ⟨m, r, h⟩ := C80_ends relEnv mergeSortBounds Nat.sqrt 7 fourCalls (· % 4) 2 (fun N => ⟨4 * N + 2, by omega, by omega⟩)
  refine ⟨m, ?_⟩
  rw [h, C80_result relEnv mergeSortBounds Nat.sqrt 7 fourCalls _ (fourCalls_race _) (i := 2) id (Or.inr h)]
  exact congrArg _ (C01_ecdf2 relEnv exactFFTW_exact mergeSortBounds_contract exb_valid exB_valid true (Or.inl rfl))

/-- Calls in the order of their numbers are not interleaved. -/
theorem serial_of_sorted (who : ℕ → Prop) {schedule : List ℕ} (h : schedule.Pairwise (· ≤ ·)) : Serial who schedule := by
  rintro i j - - hij s1 s2 s3 s4 rfl
  simp only [List.pairwise_append, List.pairwise_cons, List.append_assoc, List.cons_append, List.mem_append, List.mem_cons] at h
  have h1 : i ≤ j := h.2.1.1 j (Or.inr (Or.inl rfl))
  have h2 : j ≤ i := h.2.1.2.2.1.1 i (Or.inr (Or.inl rfl))
  omega

/-- First a part of call 0, then a part of call 1: whatever has ended has ended as if alone. -/
example (a k : ℕ) {r : M XR}
    (hr : ((Process.start relEnv mergeSortBounds Nat.sqrt 7 fourCalls).run (List.replicate a 0 ++ List.replicate k 1)).ended 1 r) :
    r = ecdf1Mns2016B relEnv (toList exB) := by
  refine C80_all relEnv mergeSortBounds_contract.perm Nat.sqrt 7 fourCalls (fun i _ h => absurd h (fourCalls_small i)) _
    (serial_of_sorted _ ?_) hr
  rw [List.pairwise_append]
  refine ⟨List.pairwise_replicate.mpr (Or.inr le_rfl), List.pairwise_replicate.mpr (Or.inr le_rfl), fun x hx y hy => ?_⟩
  rw [List.eq_of_mem_replicate hx]; omega

/-- Two calls of `ecdf1_new_b` with 127 points can meet in the planner. -/
example : ∃ schedule, ((Process.start relEnv mergeSortBounds Nat.sqrt 0
    fun _ => .newb (toList fun _ : Fin 127 => (1 / 2 : ℝ))).run schedule).race = true := by
  refine C80_planner_race relEnv mergeSortBounds Nat.sqrt 0 _ (i := 0) (j := 1) (by norm_num) fun l _ =>
    ⟨⟨XR.fin (lowerProb fun _ : Fin 127 => (1 / 2 : ℝ)), ?_⟩, Or.inr ⟨_, rfl, ?_⟩⟩
  · exact C03_ecdf1_new_b relEnv exactFFTW_exact (by norm_num) (valid_const (by norm_num) (by norm_num)) (Or.inl rfl)
  · simp [toList]

/-- The static variable spoils a result on a machine with x87 `long double` and correctly rounded math functions. -/
example (env : Env (Num x87)) (sort : List (Bound (Num x87)) → List (Bound (Num x87))) :
    ∃ (calls : ℕ → LibCall (Num x87)) (schedule : List ℕ), calls 0 = .mnsb (List.replicate 20000 zero) ∧
      ((Process.start env sort Nat.sqrt 0 calls).run schedule).thread 0 = .done (.ok zero) ∧
      ∃ x, (calls 0).sequential env sort Nat.sqrt = .ok x ∧ x.finite ∧ |x.val - 1| ≤ 1 / 40000 := by
  obtain ⟨calls, s, h0, -, -, h1, -, -, h2⟩ := C80_static_variable_x87 (A := x87) rfl (x87_machine (n := 20000) (by norm_num))
    (correct_annexF x87_wide (n := 20000) (by show 20001 ≤ 2 ^ 64; norm_num) (by norm_num)) (by norm_num) (by norm_num) env sort Nat.sqrt 0
  exact ⟨calls, s, h0, h1, h2⟩

end
end CP.Props
