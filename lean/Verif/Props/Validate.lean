import Verif.Props.Exact
import Verif.Proofs.Erase
/-
Properties C14 (validation) and C15 (NaN).
-/
open Set
namespace CP.Props
open CP.Spec
open Classical

/-- A list of numbers is in order: no later number is smaller than an earlier one. -/
def Ordered (l : List XR) : Prop := l.Pairwise fun x y => FOps.lt y x = false
/-- Some number leaves `[0,1]`. -/
def LeavesUnit (l : List XR) : Prop := ∃ x ∈ l, FOps.lt x (XR.fin 0) = true ∨ FOps.lt (XR.fin 1) x = true
/-- No entry is NaN. -/
def NoNan (l : List XR) : Prop := ∀ x ∈ l, x ≠ XR.nan

theorem xr_not_lt_trans {x y z : XR} (hy : y ≠ XR.nan) (h1 : FOps.lt y x = false) (h2 : FOps.lt z y = false)  :
    FOps.lt z x = false := by
  cases x <;> cases y <;> cases z <;> simp_all [FOps.lt, XR.lt]
  exact h1.trans h2

theorem xr_lt_false_of {x y z : XR} (hy : y ≠ XR.nan) (h1 : FOps.lt y x = false) (h2 : FOps.lt z x = true) : FOps.lt z y = true := by
  cases h : FOps.lt z y
  · rw [xr_not_lt_trans hy h1 h] at h2; cases h2
  · rfl

theorem isMonotoneFrom_iff (l : List XR) (hn : NoNan l) (p : XR) :
    isMonotoneFrom p l = true ↔ Ordered l ∧ ∀ x ∈ l, FOps.lt x p = false := by
  induction l generalizing p with
  | nil => simp [isMonotoneFrom, Ordered]
  | cons a l ih =>
    have hn' : NoNan l := fun x hx => hn x (by simp [hx])
    have ha : a ≠ XR.nan := hn a (by simp)
    unfold isMonotoneFrom Ordered
    rw [List.pairwise_cons]
    by_cases h : FOps.lt a p = true
    · rw [if_pos h]
      simp only [Bool.false_eq_true, false_iff]
      rintro ⟨_, h2⟩
      rw [h2 a (by simp)] at h; cases h
    · rw [if_neg h, ih hn' a]
      have h' : FOps.lt a p = false := by simpa using h
      constructor
      · rintro ⟨h1, h2⟩
        refine ⟨⟨h2, h1⟩, ?_⟩
        intro x hx
        rcases List.mem_cons.mp hx with rfl | hx
        · exact h'
        · exact xr_not_lt_trans ha h' (h2 x hx)
      · rintro ⟨⟨h1, h2⟩, _⟩
        exact ⟨h2, h1⟩

theorem isMonotone_iff (l : List XR) (hn : NoNan l) : isMonotoneIncreasing l = true ↔ Ordered l := by
  unfold isMonotoneIncreasing
  rw [isMonotoneFrom_iff l hn]
  simp

theorem outOfRange_iff (l : List XR) (hn : NoNan l) (ho : Ordered l) : outOfRange l = true ↔ LeavesUnit l := by
  cases l with
  | nil => simp [outOfRange, LeavesUnit]
  | cons a l =>
    unfold outOfRange LeavesUnit
    simp only [Bool.or_eq_true, XR.zero_eq, XR.one_eq]
    constructor
    · rintro (h | h)
      · exact ⟨a, by simp, Or.inl h⟩
      · exact ⟨_, List.getLast_mem (by simp), Or.inr h⟩
    · rintro ⟨x, hx, h | h⟩
      · left
        rcases List.mem_cons.mp hx with rfl | hx
        · exact h
        · have h1 := (List.pairwise_cons.mp ho).1 x hx
          have ha := hn x (by simp [hx])
          have hna := hn a (by simp)
          by_contra hc
          have hc' : FOps.lt a (XR.fin 0) = false := by simpa using hc
          rw [xr_not_lt_trans hna hc' h1] at h
          cases h
      · right
        -- the last element is not below x
        have hlast : x = (a :: l).getLast (by simp) ∨ FOps.lt ((a :: l).getLast (by simp)) x = false := by
          have hne : (a :: l) ≠ [] := by simp
          have hsplit := List.dropLast_concat_getLast hne
          have ho' : ((a :: l).dropLast ++ [(a :: l).getLast hne]).Pairwise fun x y => FOps.lt y x = false := by
            rw [hsplit]; exact ho
          rw [List.pairwise_append] at ho'
          rw [← hsplit] at hx
          rcases List.mem_append.mp hx with hx | hx
          · exact Or.inr (ho'.2.2 x hx _ (by simp))
          · left; simpa using hx
        rcases hlast with he | he
        · rw [← he]; exact h
        · have hnl := hn ((a :: l).getLast (by simp)) (List.getLast_mem _)
          have hnx := hn x hx
          by_contra hc
          have hc' : FOps.lt (XR.fin 1) ((a :: l).getLast (by simp)) = false := by simpa using hc
          rw [xr_not_lt_trans hnl he hc'] at h
          cases h

/-- C14 (the validator): on lists without NaN, the length error comes first, then the order error,
then the range error, and exactly the remaining lists are accepted. -/
theorem C14_check (name : String) (n : Int) (l : List XR) (hn : NoNan l) :
    checkBoundaryVector name n l =
      if (l.length : Int) ≠ n then .error (.runtimeError (lengthMsg name n l.length))
      else if ¬ Ordered l then .error (.runtimeError (monotoneMsg name n))
      else if LeavesUnit l then .error (.runtimeError (rangeMsg name n))
      else .ok () := by
  unfold checkBoundaryVector
  by_cases h1 : (l.length : Int) ≠ n
  · rw [if_pos h1, if_pos h1]
  · rw [if_neg h1, if_neg h1]
    by_cases h2 : Ordered l
    · have e1 : isMonotoneIncreasing l = true := (isMonotone_iff l hn).mpr h2
      rw [if_neg (by rw [e1]; simp)]
      by_cases h3 : LeavesUnit l
      · rw [if_pos ((outOfRange_iff l hn h2).mpr h3), if_neg (not_not.mpr h2), if_pos h3]
      · rw [if_neg (fun h => h3 ((outOfRange_iff l hn h2).mp h)), if_neg (not_not.mpr h2), if_neg h3]
    · rw [if_pos, if_pos h2]
      have : isMonotoneIncreasing l ≠ true := fun h => h2 ((isMonotone_iff l hn).mp h)
      simpa using this

example : checkBoundaryVector "b" 2 [XR.fin (1/2), XR.fin (1/4)] = .error (.runtimeError (monotoneMsg "b" 2)) := by
  rw [C14_check _ _ _ (by intro x hx; simp at hx; rcases hx with rfl | rfl <;> simp)]
  have : ¬ Ordered [XR.fin (1/2), XR.fin (1/4)] := by
    unfold Ordered; simp; norm_num
  rw [if_neg (by simp), if_pos this]

/-- A valid boundary list in terms of the numbers passed to the program. -/
def ValidList (l : List XR) : Prop := Ordered l ∧ ¬ LeavesUnit l

/-- The lists without NaN that are valid are exactly the valid real boundaries. -/
theorem validList_iff (l : List XR) (hn : NoNan l) :
    ValidList l ↔ ∃ b : Fin l.length → ℝ, ValidBound b ∧ l = toList b := by
  constructor
  · rintro ⟨ho, hr⟩
    have hfin : ∀ x ∈ l, ∃ r : ℝ, x = XR.fin r ∧ 0 ≤ r ∧ r ≤ 1 := by
      intro x hx
      have h : ¬ (FOps.lt x (XR.fin 0) = true ∨ FOps.lt (XR.fin 1) x = true) := fun h => hr ⟨x, hx, h⟩
      cases x with
      | fin r =>
        refine ⟨r, rfl, ?_, ?_⟩
        · by_contra hc; exact h (Or.inl (by simpa using hc))
        · by_contra hc; exact h (Or.inr (by simpa using hc))
      | pinf => exact absurd (Or.inr rfl) h
      | ninf => exact absurd (Or.inl rfl) h
      | nan => exact absurd rfl (hn _ hx)
    choose g hg using hfin
    refine ⟨fun i => g l[i] (List.getElem_mem _), ⟨?_, ?_⟩, ?_⟩
    · intro i j hij
      rcases hij.eq_or_lt with rfl | hij
      · exact le_rfl
      have := List.pairwise_iff_getElem.mp ho i j i.2 j.2 hij
      have e1 := (hg l[i] (List.getElem_mem _)).1
      have e2 := (hg l[j] (List.getElem_mem _)).1
      by_contra hc
      have hc' := not_le.mp hc
      have h3 : FOps.lt (l[(j : ℕ)]) (l[(i : ℕ)]) = FOps.lt (XR.fin (g l[j] (List.getElem_mem _))) (XR.fin (g l[i] (List.getElem_mem _))) := by
        congr 1
      rw [h3, XR.lt_fin, decide_eq_false_iff_not] at this
      exact this hc'
    · intro i; exact (hg l[i] _).2
    · apply List.ext_getElem
      · simp
      · intro i h1 h2
        simp only [toList, List.getElem_ofFn]
        exact (hg l[i] (List.getElem_mem _)).1
  · rintro ⟨b, hb, hl⟩
    have h1 := check_valid hb "b" _ rfl
    rw [← hl, C14_check _ _ _ hn] at h1
    simp only [ne_eq, not_true_eq_false, if_false] at h1
    constructor
    · by_contra hc; rw [if_pos hc] at h1; cases h1
    · intro hc
      by_cases h2 : Ordered l
      · rw [if_neg (by simpa using h2), if_pos hc] at h1; cases h1
      · rw [if_pos h2] at h1; cases h1

/-- A rejected list: the error of the first failing test. -/
theorem check_invalid (name : String) (n : Int) (l : List XR) (hn : NoNan l)
    (h : ¬ ((l.length : Int) = n ∧ ValidList l)) :
    ∃ msg, checkBoundaryVector name n l = .error (.runtimeError msg) := by
  rw [C14_check _ _ _ hn]
  by_cases h1 : (l.length : Int) = n
  · rw [if_neg (by simpa using h1)]
    by_cases h2 : Ordered l
    · rw [if_neg (by simpa using h2)]
      have h3 : LeavesUnit l := by
        by_contra hc; exact h ⟨h1, h2, hc⟩
      rw [if_pos h3]; exact ⟨_, rfl⟩
    · rw [if_pos h2]; exact ⟨_, rfl⟩
  · rw [if_pos h1]; exact ⟨_, rfl⟩

theorem check_validList (name : String) (n : Int) (l : List XR) (hn : NoNan l) (h1 : (l.length : Int) = n)
    (h : ValidList l) : checkBoundaryVector name n l = .ok () := by
  rw [C14_check _ _ _ hn, if_neg (by simpa using h1), if_neg (by simpa using h.1), if_neg h.2]

/-- C14 for `ecdf2`: on lists without NaN it throws `runtime_error` if and only if the two lists are
not valid boundaries of the same length; in that case the outcome is that of the first failing
check, so nothing has been computed. -/
theorem C14_ecdf2 (env : Env XR) (hf : ExactFFT env.fft) {sort : List (Bound XR) → List (Bound XR)}
    (hsort : SortContract sort) (b B : List XR) (hb : NoNan b) (hB : NoNan B) (useFft : Bool) :
    ((∃ msg, ecdf2 env sort b B useFft = .error (.runtimeError msg)) ↔
      ¬ (B.length = b.length ∧ ValidList b ∧ ValidList B)) ∧
    (∀ msg, checkBoundaryVector "b" b.length b = .error (.runtimeError msg) →
      ecdf2 env sort b B useFft = .error (.runtimeError msg)) ∧
    (∀ msg, checkBoundaryVector "b" b.length b = .ok () →
      checkBoundaryVector "B" b.length B = .error (.runtimeError msg) →
      ecdf2 env sort b B useFft = .error (.runtimeError msg)) := by
  have h1 : ∀ msg, checkBoundaryVector "b" b.length b = .error (.runtimeError msg) →
      ecdf2 env sort b B useFft = .error (.runtimeError msg) := by
    intro msg h
    unfold ecdf2
    dsimp only
    rw [h]; rfl
  have h2 : ∀ msg, checkBoundaryVector "b" b.length b = .ok () →
      checkBoundaryVector "B" b.length B = .error (.runtimeError msg) →
      ecdf2 env sort b B useFft = .error (.runtimeError msg) := by
    intro msg h h'
    unfold ecdf2
    dsimp only
    rw [h, M_ok_bind, h']; rfl
  refine ⟨⟨?_, ?_⟩, h1, h2⟩
  · rintro ⟨msg, h⟩ ⟨hl, hvb, hvB⟩
    obtain ⟨b', hb', eb⟩ := (validList_iff b hb).mp hvb
    obtain ⟨B', hB', eB⟩ := (validList_iff B hB).mp hvB
    obtain ⟨n, hn⟩ : ∃ n, n = b.length := ⟨_, rfl⟩
    have hnB : n = B.length := by omega
    generalize hbl : b.length = nb at *
    generalize hBl : B.length = nB at *
    subst hn
    subst hnB
    rw [eb, eB] at h
    by_cases ha : env.asserts = false ∨ ¬ StronglyCrossed b' B'
    · rw [C01_ecdf2 env hf hsort hb' hB' useFft ha] at h; cases h
    · have h1 : env.asserts = true := by
        cases hh : env.asserts
        · exact absurd (Or.inl hh) ha
        · rfl
      have h2 : StronglyCrossed b' B' := by
        by_contra hc; exact ha (Or.inr hc)
      rw [ecdf2_abort env hf h1 hb' hB' hsort useFft h2] at h
      cases h
  · intro h
    by_cases hvb : ValidList b
    · have hc := check_validList "b" b.length b hb rfl hvb
      obtain ⟨msg, hm⟩ := check_invalid "B" b.length B hB (fun hh => h ⟨by exact_mod_cast hh.1, hvb, hh.2⟩)
      exact ⟨msg, h2 msg hc hm⟩
    · obtain ⟨msg, hm⟩ := check_invalid "b" b.length b hb (fun hh => hvb hh.2)
      exact ⟨msg, h1 msg hm⟩

/-- C14 for `ecdf1_mns2016_b`. -/
theorem C14_mns2016_b (env : Env XR) (l : List XR) (hl : NoNan l) :
    (∃ msg, ecdf1Mns2016b env l = .error (.runtimeError msg)) ↔ ¬ ValidList l := by
  constructor
  · rintro ⟨msg, h⟩ hv
    obtain ⟨b, hb, e⟩ := (validList_iff l hl).mp hv
    rw [e, C04_ecdf1_mns2016_b env hb] at h
    cases h
  · intro h
    obtain ⟨msg, hm⟩ := check_invalid "b" l.length l hl (fun hh => h hh.2)
    refine ⟨msg, ?_⟩
    unfold ecdf1Mns2016b ecdf1Mns2016bWith
    dsimp only
    rw [hm]; rfl

/-- C14 for `ecdf1_mns2016_B`. -/
theorem C14_mns2016_B (env : Env XR) (l : List XR) (hl : NoNan l) :
    (∃ msg, ecdf1Mns2016B env l = .error (.runtimeError msg)) ↔ ¬ ValidList l := by
  constructor
  · rintro ⟨msg, h⟩ hv
    obtain ⟨b, hb, e⟩ := (validList_iff l hl).mp hv
    rw [e, C05_ecdf1_mns2016_B env hb] at h
    cases h
  · intro h
    obtain ⟨msg, hm⟩ := check_invalid "B" l.length l hl (fun hh => h hh.2)
    refine ⟨msg, ?_⟩
    unfold ecdf1Mns2016B
    dsimp only
    rw [hm]; rfl

/-- C17 (n = 0): `ecdf1_new_B` on an empty list aborts (assertions on) or reads `B[-1]`. -/
theorem C17_new_B_empty {F : Type} [FOps F] (env : Env F) (isqrt : ℕ → ℕ) :
    ecdf1NewB env isqrt ([] : List F) =
      if env.asserts then .error (.assertFailed "jump_size <= n") else .error (.ub "read at negative index") := by
  unfold ecdf1NewB
  have hc : checkBoundaryVector "B" 0 ([] : List F) = .ok () := by
    simp [checkBoundaryVector, isMonotoneIncreasing, isMonotoneFrom, outOfRange]
  dsimp only [List.length_nil, Int.natCast_zero]
  rw [hc, M_ok_bind]
  unfold poissonBNoncrossingProbabilityN2
  dsimp only
  cases ha : env.asserts
  · rw [assertC_off, M_ok_bind]
    have hw : wr (DoubleBuffer.new ((0 : Int) + 1) (FOps.zero : F)).src 0 FOps.one
        = .ok [FOps.one] := by
      simp [wr, DoubleBuffer.new, DoubleBuffer.src]
    rw [hw, M_ok_bind]
    have hp : ∃ g, PmfGen.new env (0 + 1) = .ok g := by
      unfold PmfGen.new
      rw [assertC_true _ (by simp), M_ok_bind]; exact ⟨_, rfl⟩
    obtain ⟨g, hg⟩ := hp
    rw [hg, M_ok_bind]
    simp only [List.length_nil]
    have hI : min (-1 + ((isqrt 0 : ℕ) + 1 : Int)) (((0 : ℕ) : Int) - 1) = -1 := by omega
    rw [hI]
    unfold blockLoop blockStep
    have hr : rd ([] : List F) (-1) = .error (.ub "read at negative index") := by
      simp [rd]
    rw [hr]
    simp
  · unfold assertC
    rw [if_pos]
    · simp
    · simp

/-- C14 for `ecdf1_new_B`. -/
theorem C14_new_B (env : Env XR) (hf : ExactFFT env.fft) (l : List XR) (hl : NoNan l) :
    (∃ msg, ecdf1NewB env Nat.sqrt l = .error (.runtimeError msg)) ↔ ¬ ValidList l := by
  constructor
  · rintro ⟨msg, h⟩ hv
    obtain ⟨b, hb, e⟩ := (validList_iff l hl).mp hv
    rcases Nat.lt_or_ge l.length 2 with hlen | hlen
    · rcases Nat.eq_zero_or_pos l.length with h0 | h1
      · rw [List.length_eq_zero_iff.mp h0, C17_new_B_empty] at h
        split at h <;> cases h
      · cases hasr : env.asserts
        · rw [e, C02_ecdf1_new_B env hf h1 hb (Or.inl hasr)] at h
          cases h
        · have h1' : l.length = 1 := by omega
          unfold ecdf1NewB at h
          dsimp only at h
          rw [check_validList "B" l.length l hl rfl hv, M_ok_bind] at h
          unfold poissonBNoncrossingProbabilityN2 assertC at h
          rw [h1', if_pos (by simp [hasr])] at h
          cases h
    · rw [e, C02_ecdf1_new_B env hf (by omega) hb (Or.inr hlen)] at h
      cases h
  · intro h
    obtain ⟨msg, hm⟩ := check_invalid "B" l.length l hl (fun hh => h hh.2)
    refine ⟨msg, ?_⟩
    unfold ecdf1NewB
    dsimp only
    rw [hm]; rfl

/-- C14 for `ecdf1_new_b`. -/
theorem C14_new_b (env : Env XR) (hf : ExactFFT env.fft) (l : List XR) (hl : NoNan l) :
    (∃ msg, ecdf1Newb env Nat.sqrt l = .error (.runtimeError msg)) ↔ ¬ ValidList l := by
  constructor
  · rintro ⟨msg, h⟩ hv
    obtain ⟨b, hb, e⟩ := (validList_iff l hl).mp hv
    have hr := reflect_valid hb
    have : ecdf1Newb env Nat.sqrt l = ecdf1NewB env Nat.sqrt (toList (reflect b)) := by
      unfold ecdf1Newb
      dsimp only
      rw [check_validList "b" l.length l hl rfl hv, M_ok_bind]
      conv_lhs => rw [e]
      rw [symmetricSteps_eq, M_ok_bind]
    rw [this] at h
    have hnn : NoNan (toList (reflect b)) := by
      intro x hx
      unfold toList at hx
      rw [List.mem_ofFn] at hx
      obtain ⟨i, rfl⟩ := hx
      simp
    have := (C14_new_B env hf _ hnn).mp ⟨msg, h⟩
    apply this
    rw [validList_iff _ hnn]
    have hlen : (toList (reflect b)).length = l.length := by simp
    rw [hlen]
    exact ⟨_, hr, rfl⟩
  · intro h
    obtain ⟨msg, hm⟩ := check_invalid "b" l.length l hl (fun hh => h hh.2)
    refine ⟨msg, ?_⟩
    unfold ecdf1Newb
    dsimp only
    rw [hm]; rfl

/-- Both sides of C14 occur. -/
example : ValidList (toList exb) := by
  have hn : NoNan (toList exb) := by
    intro x hx
    unfold toList at hx
    rw [List.mem_ofFn] at hx
    obtain ⟨i, rfl⟩ := hx
    simp
  have := (validList_iff (toList exb) hn)
  have hlen : (toList exb).length = 2 := by simp
  rw [hlen] at this
  exact this.mpr ⟨exb, exb_valid, rfl⟩
example : ¬ ValidList [XR.fin (1/2), XR.fin (3/2)] := by
  rintro ⟨_, h⟩
  exact h ⟨XR.fin (3/2), by simp, Or.inr (by norm_num)⟩

end CP.Props
