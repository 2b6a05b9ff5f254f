import Verif.Props.Output
import Verif.Props.Python
import Verif.Props.Validate
import Verif.Props.Strings
import Verif.Props.OutputMc
import Verif.Proofs.RoundingAbs
import Verif.Proofs.Ieee
/-
Property C77: the text of every error message, and which one is shown when several things are wrong.
-/
namespace CP.Props
open CP.Spec FOps
variable {F : Type} [FOps F]

/-! ### Specification -/

/-- Some number of the list is smaller than the one before it. -/
def Descends (l : List F) : Prop := ∃ i, ∃ h : i + 1 < l.length, FOps.lt l[i + 1] l[i] = true

/-- The first number is below 0 or the last one is above 1. -/
def EndsOutside (l : List F) : Prop :=
  ∃ h : l ≠ [], FOps.lt (l.head h) FOps.zero = true ∨ FOps.lt FOps.one (l.getLast h) = true

/-- `b_1,...,b_17` -/
def listNames (name : String) (n : ℕ) : Str :=
  name.toList ++ "_1,...,".toList ++ name.toList ++ "_".toList ++ Nat.toDigits 10 n

open scoped Classical in
/-- What is wrong with one list of numbers, in words. -/
noncomputable def problem (name : String) (l : List F) : Option Str :=
  if Descends l then some (listNames name l.length ++ " must be monotone non-decreasing.".toList)
  else if EndsOutside l then some (listNames name l.length ++ " must be in the interval [0,1].".toList)
  else none

open scoped Classical in
/-- The text after `Error:` for a readable file with the lists `b` and `B`, and whether the usage text comes before it. -/
noncomputable def diagnosis (command : Str) (b B : List F) : Option (Bool × Str) :=
  if command = "ecdf1-mns2016".toList ∧ (b = [] ↔ B = []) then
    some (true, "Expecting EITHER a lower or an upper boundary function when using the 'ecdf1-mns2016' command for computing a one-sided boundary crossing.\n".toList)
  else if command = "ecdf1-new".toList ∧ (b = [] ↔ B = []) then
    some (true, "Expecting EITHER a lower or an upper boundary function when using the 'ecdf1-m2020' command for computing a one-sided boundary crossing.\n".toList)
  else if command ∈ ["ecdf2-ks2001".toList, "ecdf2-mn2017".toList] ∧ b ≠ [] ∧ B ≠ [] ∧ b.length ≠ B.length then
    some (false, "Expecting either two boundary lists of length n or one list of length n and one of length zero".toList)
  else if command ∈ ["ecdf1-mns2016".toList, "ecdf1-new".toList, "ecdf2-ks2001".toList, "ecdf2-mn2017".toList] then
    ((problem "b" b).or (problem "B" B)).map fun m => (false, m)
  else some (true, "Second command line argument must be one of: 'ecdf1-mns2016', 'ecdf1-new', 'ecdf2-ks2001', 'ecdf2-mn2017'.".toList)

/-- What is needed of `<`: nothing is below minus infinity, and 0 and 1 are in order. -/
structure OrderLaws (F : Type) [FOps F] : Prop where
  negInf : ∀ x : F, FOps.lt x FOps.negInf = false
  zero : FOps.lt (FOps.zero : F) FOps.zero = false
  one : FOps.lt (FOps.one : F) FOps.one = false
  one_zero : FOps.lt (FOps.one : F) FOps.zero = false

/-- The laws hold in exact arithmetic with infinities and NaN. -/
theorem orderLaws_exact : OrderLaws XR where
  negInf x := by cases x <;> rfl
  zero := by simp
  one := by simp
  one_zero := by simp

/-! ### One list -/

theorem toString_nat (n : ℕ) : (toString (n : Int)).toList = Nat.toDigits 10 n := by
  show (Nat.repr n).toList = _
  simp [Nat.repr]

theorem isMonotoneFrom_false (l : List F) (p : F) :
    isMonotoneFrom p l = false ↔ Descends (p :: l) := by
  induction l generalizing p with
  | nil =>
    constructor
    · intro h; cases h
    · rintro ⟨i, h, _⟩; simp at h
  | cons x xs ih =>
    unfold isMonotoneFrom
    by_cases hx : FOps.lt x p = true
    · simp only [hx, if_true]
      refine ⟨fun _ => ⟨0, by simp, by simpa using hx⟩, fun _ => trivial⟩
    · rw [if_neg hx, ih]
      constructor
      · rintro ⟨i, h, hl⟩
        exact ⟨i + 1, by simp at h ⊢; omega, by simpa using hl⟩
      · rintro ⟨i, h, hl⟩
        match i with
        | 0 => simp at hl; exact absurd hl hx
        | i + 1 => exact ⟨i, by simp at h ⊢; omega, by simpa using hl⟩

theorem isMonotone_false (law : OrderLaws F) (l : List F) : isMonotoneIncreasing l = false ↔ Descends l := by
  unfold isMonotoneIncreasing
  rw [isMonotoneFrom_false]
  constructor
  · rintro ⟨i, h, hl⟩
    match i with
    | 0 =>
      match l, h, hl with
      | x :: xs, h, hl =>
        simp [law.negInf] at hl
    | i + 1 => exact ⟨i, by simp at h ⊢; omega, by simpa using hl⟩
  · rintro ⟨i, h, hl⟩
    exact ⟨i + 1, by simp; omega, by simpa using hl⟩

theorem outOfRange_true (l : List F) : outOfRange l = true ↔ EndsOutside l := by
  unfold outOfRange EndsOutside
  match l with
  | [] => simp
  | x :: xs => simp

theorem monotoneMsg_text (name : String) (n : ℕ) :
    (monotoneMsg name n).toList = listNames name n ++ " must be monotone non-decreasing.".toList := by
  unfold monotoneMsg listNames
  simp only [String.toList_append, toString_nat, show ∀ s : String, toString s = s from fun _ => rfl]

theorem rangeMsg_text (name : String) (n : ℕ) :
    (rangeMsg name n).toList = listNames name n ++ " must be in the interval [0,1].".toList := by
  unfold rangeMsg listNames
  simp only [String.toList_append, toString_nat, show ∀ s : String, toString s = s from fun _ => rfl]

/-- C77 (one list): the validator rejects a list of the right length exactly when it has a problem, with that text. -/
theorem C77_list (law : OrderLaws F) (name : String) (l : List F) :
    checkBoundaryVector name l.length l =
      match problem name l with
      | some m => .error (.runtimeError (String.ofList m))
      | none => .ok () := by
  unfold checkBoundaryVector problem
  rw [if_neg (by simp)]
  by_cases h1 : Descends l
  · rw [if_pos h1, if_pos (by rw [(isMonotone_false law l).mpr h1]; rfl)]
    rw [← monotoneMsg_text]
    simp only [String.ofList_toList]
  · have e1 : isMonotoneIncreasing l = true := by
      by_contra h
      exact h1 ((isMonotone_false law l).mp (by simpa using h))
    rw [if_neg h1, if_neg (by rw [e1]; simp)]
    by_cases h2 : EndsOutside l
    · rw [if_pos h2, if_pos ((outOfRange_true l).mpr h2), ← rangeMsg_text]
      simp only [String.ofList_toList]
    · rw [if_neg h2, if_neg (fun h => h2 ((outOfRange_true l).mp h))]

theorem problem_nil (name : String) : problem name ([] : List F) = none := by
  unfold problem
  rw [if_neg (by rintro ⟨i, h, _⟩; simp at h), if_neg (by rintro ⟨h, _⟩; simp at h)]

theorem problem_replicate (name : String) (n : ℕ) (x : F) (h1 : FOps.lt x x = false) (h2 : FOps.lt x FOps.zero = false)
    (h3 : FOps.lt FOps.one x = false) : problem name (List.replicate n x) = none := by
  unfold problem
  rw [if_neg, if_neg]
  · rintro ⟨h, h'⟩
    simp [h2, h3] at h'
  · rintro ⟨i, h, hl⟩
    simp [h1] at hl

/-! ### The functions -/

theorem check_problem (law : OrderLaws F) {name : String} {l : List F} {m : Str} (h : problem name l = some m) :
    checkBoundaryVector name l.length l = .error (.runtimeError (String.ofList m)) := by
  rw [C77_list law, h]

theorem check_fine (law : OrderLaws F) {name : String} {l : List F} (h : problem name l = none) :
    checkBoundaryVector name l.length l = .ok () := by
  rw [C77_list law, h]

theorem ecdf2_problem (law : OrderLaws F) (env : Env F) (sort : List (Bound F) → List (Bound F)) {b B : List F} (f : Bool)
    (hl : b.length = B.length) {m : Str} (h : (problem "b" b).or (problem "B" B) = some m) :
    ecdf2 env sort b B f = .error (.runtimeError (String.ofList m)) := by
  unfold ecdf2
  dsimp only
  cases hb : problem "b" b with
  | some m' =>
    rw [hb] at h
    obtain rfl : m' = m := by simpa using h
    rw [check_problem law hb]
    rfl
  | none =>
    rw [hb] at h
    have hB : problem "B" B = some m := by simpa using h
    rw [check_fine law hb, M_ok_bind, hl, check_problem law hB]
    rfl

/-- C77 (Python): lists of different lengths. -/
theorem C77_python_lengths (law : OrderLaws F) (env : Env F) (sort : List (Bound F) → List (Bound F)) (b B : List F) (f : Bool)
    (hb : problem "b" b = none) (hl : B.length ≠ b.length) :
    pyEcdf2 env sort [.numbers b, .numbers B, .bool f] = .runtimeError (String.ofList
      ("Expecting ".toList ++ Nat.toDigits 10 b.length ++ " input bounds ".toList ++ listNames "B" b.length
        ++ " but got input of length ".toList ++ Nat.toDigits 10 B.length ++ ".".toList)) := by
  have hc : checkBoundaryVector "B" b.length B = .error (.runtimeError (lengthMsg "B" b.length B.length)) := by
    unfold checkBoundaryVector
    rw [if_pos (by omega)]
  have ht : lengthMsg "B" b.length B.length = String.ofList
      ("Expecting ".toList ++ Nat.toDigits 10 b.length ++ " input bounds ".toList ++ listNames "B" b.length
        ++ " but got input of length ".toList ++ Nat.toDigits 10 B.length ++ ".".toList) := by
    apply String.toList_inj.mp
    rw [String.toList_ofList]
    unfold lengthMsg listNames
    simp only [String.toList_append, toString_nat, show ∀ s : String, toString s = s from fun _ => rfl,
      show toString B.length = toString (B.length : Int) from rfl, List.append_assoc]
  have he : ecdf2 env sort b B f = .error (.runtimeError (lengthMsg "B" b.length B.length)) := by
    unfold ecdf2
    dsimp only
    rw [check_fine law hb, M_ok_bind, hc]
    rfl
  show pyTry (ecdf2 env sort b B f) = _
  rw [he, ht]
  rfl

/-- C77 (Python): lists of equal lengths; the one-list functions. -/
theorem C77_python (law : OrderLaws F) (env : Env F) (sort : List (Bound F) → List (Bound F)) (isqrt : ℕ → ℕ) (m : Str) :
    (∀ b B f, b.length = B.length → (problem "b" b).or (problem "B" B) = some m →
      pyEcdf2 env sort [.numbers b, .numbers B, .bool f] = .runtimeError (String.ofList m)) ∧
    (∀ b B f, problem "b" b = some m → pyEcdf2 env sort [.numbers b, .numbers B, .bool f] = .runtimeError (String.ofList m)) ∧
    (∀ b, problem "b" b = some m → pyNewb env isqrt [.numbers b] = .runtimeError (String.ofList m) ∧
      pyMns2016b env [.numbers b] = .runtimeError (String.ofList m)) ∧
    (∀ B, problem "B" B = some m → pyNewB env isqrt [.numbers B] = .runtimeError (String.ofList m) ∧
      pyMns2016B env [.numbers B] = .runtimeError (String.ofList m)) := by
  refine ⟨fun b B f hl h => ?_, fun b B f h => ?_, fun b h => ⟨?_, ?_⟩, fun B h => ⟨?_, ?_⟩⟩
  · show pyTry (ecdf2 env sort b B f) = _
    rw [ecdf2_problem law env sort f hl h]
    rfl
  · show pyTry (ecdf2 env sort b B f) = _
    unfold ecdf2
    dsimp only
    rw [check_problem law h]
    rfl
  · show pyTry (ecdf1Newb env isqrt b) = _
    unfold ecdf1Newb
    dsimp only
    rw [check_problem law h]
    rfl
  · show pyTry (ecdf1Mns2016b env b) = _
    unfold ecdf1Mns2016b ecdf1Mns2016bWith
    dsimp only
    rw [check_problem law h]
    rfl
  · show pyTry (ecdf1NewB env isqrt B) = _
    unfold ecdf1NewB
    dsimp only
    rw [check_problem law h]
    rfl
  · show pyTry (ecdf1Mns2016B env B) = _
    unfold ecdf1Mns2016B
    dsimp only
    rw [check_problem law h]
    rfl

/-! ### The program -/

theorem two_sided_problem (law : OrderLaws F) (w : World F) {b B : List F} (hl : ¬ (b ≠ [] ∧ B ≠ [] ∧ b.length ≠ B.length))
    {m : Str} (h : (problem "b" b).or (problem "B" B) = some m) :
    calculateEcdf2Ks2001 w b B = .error (.runtimeError (String.ofList m)) ∧
    calculateEcdf2Mn2017 w b B = .error (.runtimeError (String.ofList m)) := by
  unfold calculateEcdf2Ks2001 calculateEcdf2Mn2017
  dsimp only
  by_cases he : b.length = B.length
  · rw [if_pos ⟨by omega, by omega⟩, if_pos ⟨by omega, by omega⟩]
    exact ⟨ecdf2_problem law _ _ _ he h, ecdf2_problem law _ _ _ he h⟩
  · by_cases hb : b = []
    · subst hb
      have hB : 0 < B.length := by
        rcases Nat.eq_zero_or_pos B.length with h0 | h0
        · simp [h0] at he
        · exact h0
      have hz := problem_replicate (F := F) "b" B.length FOps.zero law.zero law.zero law.one_zero
      rw [problem_nil] at h
      rw [← hz] at h
      have e : max ([] : List F).length B.length = B.length := by simp
      have l0 : ([] : List F).length = 0 := rfl
      rw [e]
      constructor <;>
      · rw [if_neg (by omega), if_pos ⟨rfl, rfl⟩]
        exact ecdf2_problem law _ _ _ (by simp) h
    · have hB : B = [] := by
        by_contra hB
        exact hl ⟨hb, hB, he⟩
      subst hB
      have hb' := List.length_pos_iff.mpr hb
      have hz := problem_replicate (F := F) "B" b.length FOps.one law.one law.one_zero law.one
      rw [problem_nil, ← hz] at h
      have e : max b.length ([] : List F).length = b.length := by simp
      have l0 : ([] : List F).length = 0 := rfl
      rw [e]
      constructor <;>
      · rw [if_neg (by omega), if_neg (by omega), if_pos ⟨rfl, rfl⟩]
        exact ecdf2_problem law _ _ _ (by simp) h

theorem lift_error_bind {α β : Type} (e : Fault) (f : α → OutM β) :
    ((OutM.lift (.error e) : OutM α) >>= f) = ⟨[], .error e⟩ := by
  rw [outM_lift_bind]

theorem put_error_bind {α β : Type} (s : Str) (e : Fault) (f : α → OutM β) :
    ((do OutM.put s; OutM.lift (.error e) : OutM α) >>= f) = ⟨s, .error e⟩ := by
  show OutM.bind (OutM.bind _ _) _ = _
  simp [OutM.bind, OutM.put, OutM.lift]

theorem handle_diagnosed (law : OrderLaws F) (w : World F) (fmt : F → Str) (command filename : Str) (b B : List F)
    (hr : readAndCheckBoundariesFile w.libc w.fs filename = .ok (b, B)) (usage : Bool) (m : Str)
    (h : diagnosis command b B = some (usage, m)) :
    handleCommandLineArgumentsIO w fmt command filename =
      ⟨if usage then usageText else [], .error (.runtimeError (String.ofList m))⟩ := by
  unfold handleCommandLineArgumentsIO
  rw [outM_lift_bind, hr]
  dsimp only
  have n12 : "ecdf1-new".toList ≠ "ecdf1-mns2016".toList := by decide
  have n13 : "ecdf2-ks2001".toList ≠ "ecdf1-mns2016".toList := by decide
  have n14 : "ecdf2-mn2017".toList ≠ "ecdf1-mns2016".toList := by decide
  have n23 : "ecdf2-ks2001".toList ≠ "ecdf1-new".toList := by decide
  have n24 : "ecdf2-mn2017".toList ≠ "ecdf1-new".toList := by decide
  have n34 : "ecdf2-mn2017".toList ≠ "ecdf2-ks2001".toList := by decide
  have hside : (b = [] ↔ B = []) → ¬ (b.length > 0 ∧ B.length = 0) ∧ ¬ (b.length = 0 ∧ B.length > 0) := by
    intro h
    rw [← List.length_eq_zero_iff, ← List.length_eq_zero_iff] at h
    omega
  have hside' : ¬ (b = [] ↔ B = []) → (0 < b.length ∧ B = []) ∨ (b = [] ∧ 0 < B.length) := by
    intro h
    by_cases hb : b = []
    · right
      refine ⟨hb, List.length_pos_iff.mpr fun hB => h ⟨fun _ => hB, fun _ => hb⟩⟩
    · left
      refine ⟨List.length_pos_iff.mpr hb, ?_⟩
      by_contra hB
      exact h ⟨fun h => absurd h hb, fun h => absurd h hB⟩
  unfold diagnosis at h
  by_cases k1 : command = "ecdf1-mns2016".toList
  · subst k1
    rw [if_pos rfl]
    unfold calculateEcdf1Mns2016IO
    by_cases hs : b = [] ↔ B = []
    · rw [if_pos ⟨rfl, hs⟩] at h
      obtain ⟨rfl, rfl⟩ := Prod.mk.inj (Option.some.inj h)
      rw [if_neg (hside hs).1, if_neg (hside hs).2, put_error_bind, String.ofList_toList]
      rfl
    · rw [if_neg (by simp [hs]), if_neg (by simp [hs]), if_neg (by simp), if_pos (by simp)] at h
      obtain ⟨m', hm', hp⟩ := Option.map_eq_some_iff.mp h
      obtain ⟨rfl, rfl⟩ : false = usage ∧ m' = m := by simpa using hp
      rcases hside' hs with ⟨hb, rfl⟩ | ⟨rfl, hB⟩
      · rw [if_pos ⟨hb, rfl⟩]
        unfold ecdf1Mns2016b ecdf1Mns2016bWith
        dsimp only
        rw [problem_nil, Option.or_none] at hm'
        rw [check_problem law hm']
        exact lift_error_bind _ _
      · rw [if_neg (by simp), if_pos ⟨rfl, hB⟩]
        unfold ecdf1Mns2016B
        dsimp only
        rw [problem_nil, Option.none_or] at hm'
        rw [check_problem law hm']
        exact lift_error_bind _ _
  · rw [if_neg (fun h => k1 h.1)] at h
    rw [if_neg k1]
    by_cases k2 : command = "ecdf1-new".toList
    · subst k2
      rw [if_pos rfl]
      unfold calculateEcdf1NewIO
      by_cases hs : b = [] ↔ B = []
      · rw [if_pos ⟨rfl, hs⟩] at h
        obtain ⟨rfl, rfl⟩ := Prod.mk.inj (Option.some.inj h)
        rw [if_neg (hside hs).1, if_neg (hside hs).2, put_error_bind, String.ofList_toList]
        rfl
      · rw [if_neg (by simp [hs]), if_neg (by simp), if_pos (by simp)] at h
        obtain ⟨m', hm', hp⟩ := Option.map_eq_some_iff.mp h
        obtain ⟨rfl, rfl⟩ : false = usage ∧ m' = m := by simpa using hp
        rcases hside' hs with ⟨hb, rfl⟩ | ⟨rfl, hB⟩
        · rw [if_pos ⟨hb, rfl⟩]
          unfold ecdf1Newb
          dsimp only
          rw [problem_nil, Option.or_none] at hm'
          rw [check_problem law hm']
          exact lift_error_bind _ _
        · rw [if_neg (by simp), if_pos ⟨rfl, hB⟩]
          unfold ecdf1NewB
          dsimp only
          rw [problem_nil, Option.none_or] at hm'
          rw [check_problem law hm']
          exact lift_error_bind _ _
    · rw [if_neg (fun h => k2 h.1)] at h
      rw [if_neg k2]
      have lens : b ≠ [] ∧ B ≠ [] ∧ b.length ≠ B.length →
          calculateEcdf2Ks2001 w b B = .error (.runtimeError ecdf2LengthsMsg) ∧
          calculateEcdf2Mn2017 w b B = .error (.runtimeError ecdf2LengthsMsg) := by
        rintro ⟨hb, hB, hne⟩
        have h1 := List.length_pos_iff.mpr hb
        have h2 := List.length_pos_iff.mpr hB
        unfold calculateEcdf2Ks2001 calculateEcdf2Mn2017
        dsimp only
        rw [if_neg (by omega), if_neg (by omega), if_neg (by omega), if_neg (by omega), if_neg (by omega), if_neg (by omega)]
        exact ⟨rfl, rfl⟩
      by_cases k34 : command ∈ ["ecdf2-ks2001".toList, "ecdf2-mn2017".toList]
      · have run : ∀ e, calculateEcdf2Ks2001 w b B = .error e → calculateEcdf2Mn2017 w b B = .error e →
            (if command = "ecdf2-ks2001".toList then OutM.lift (calculateEcdf2Ks2001 w b B) >>= fun result => OutM.put (fmt result ++ ['\n'])
              else if command = "ecdf2-mn2017".toList then OutM.lift (calculateEcdf2Mn2017 w b B) >>= fun result => OutM.put (fmt result ++ ['\n'])
              else do
                OutM.put usageText
                OutM.lift (.error (.runtimeError unknownCommandMsg)) >>= fun result => OutM.put (fmt result ++ ['\n'])) = ⟨[], .error e⟩ := by
          intro e h1 h2
          rw [h1, h2]
          by_cases k3 : command = "ecdf2-ks2001".toList
          · rw [if_pos k3]; exact lift_error_bind _ _
          · have k4 : command = "ecdf2-mn2017".toList := by
              simp only [List.mem_cons, List.not_mem_nil, or_false] at k34
              exact k34.resolve_left k3
            rw [if_neg k3, if_pos k4]; exact lift_error_bind _ _
        by_cases hl : b ≠ [] ∧ B ≠ [] ∧ b.length ≠ B.length
        · rw [if_pos ⟨k34, hl⟩] at h
          obtain ⟨rfl, rfl⟩ := Prod.mk.inj (Option.some.inj h)
          rw [run _ (lens hl).1 (lens hl).2, String.ofList_toList]
          rfl
        · rw [if_neg (fun h => hl h.2), if_pos (by
            simp only [List.mem_cons, List.not_mem_nil, or_false] at k34 ⊢
            exact Or.inr (Or.inr k34))] at h
          obtain ⟨m', hm', hp⟩ := Option.map_eq_some_iff.mp h
          obtain ⟨rfl, rfl⟩ : false = usage ∧ m' = m := by simpa using hp
          obtain ⟨e1, e2⟩ := two_sided_problem law w hl hm'
          rw [run _ e1 e2]
          rfl
      · rw [if_neg (fun h => k34 h.1), if_neg (by
          simp only [List.mem_cons, List.not_mem_nil, or_false, not_or] at k34 ⊢
          exact ⟨k1, k2, k34.1, k34.2⟩)] at h
        simp only [List.mem_cons, List.not_mem_nil, or_false, not_or] at k34
        obtain ⟨rfl, rfl⟩ := Prod.mk.inj (Option.some.inj h)
        rw [if_neg k34.1, if_neg k34.2, outM_put_bind, outM_lift_bind, String.ofList_toList]
        simp only [List.append_nil]
        rfl

theorem digits_noNul (n : ℕ) : '\x00' ∉ Nat.toDigits 10 n := by
  intro h
  have := Nat.isDigit_of_mem_toDigits (by norm_num) (by norm_num) h
  revert this
  decide

theorem problem_noNul {name : String} {l : List F} {m : Str} (hn : '\x00' ∉ name.toList) (h : problem name l = some m) : '\x00' ∉ m := by
  have hd := digits_noNul l.length
  unfold problem listNames at h
  split at h
  · obtain rfl := Option.some.inj h
    simp only [List.mem_append, not_or]
    exact ⟨⟨⟨⟨⟨hn, by decide⟩, hn⟩, by decide⟩, hd⟩, by decide⟩
  · split at h
    · obtain rfl := Option.some.inj h
      simp only [List.mem_append, not_or]
      exact ⟨⟨⟨⟨⟨hn, by decide⟩, hn⟩, by decide⟩, hd⟩, by decide⟩
    · cases h

theorem diagnosis_noNul {command : Str} {b B : List F} {usage : Bool} {m : Str} (h : diagnosis command b B = some (usage, m)) :
    '\x00' ∉ m := by
  unfold diagnosis at h
  split at h
  · obtain ⟨rfl, rfl⟩ := Prod.mk.inj (Option.some.inj h)
    decide +kernel
  split at h
  · obtain ⟨rfl, rfl⟩ := Prod.mk.inj (Option.some.inj h)
    decide +kernel
  split at h
  · obtain ⟨rfl, rfl⟩ := Prod.mk.inj (Option.some.inj h)
    decide +kernel
  split at h
  · obtain ⟨m', hm', hp⟩ := Option.map_eq_some_iff.mp h
    obtain ⟨rfl, rfl⟩ := Prod.mk.inj hp
    cases hb : problem "b" b with
    | some x =>
      rw [hb] at hm'
      obtain rfl : x = m' := by simpa using hm'
      exact problem_noNul (by decide) hb
    | none =>
      rw [hb] at hm'
      exact problem_noNul (name := "B") (l := B) (by decide) (by simpa using hm')
  · obtain ⟨rfl, rfl⟩ := Prod.mk.inj (Option.some.inj h)
    decide +kernel

theorem whatText_ofList {m : Str} (h : '\x00' ∉ m) : whatText (String.ofList m) = m := by
  unfold whatText
  rw [String.toList_ofList, cStr_noNul m h]

/-- C77: what the program writes about a readable file with something wrong: the usage text if the diagnosis says so, `Error:` and
the diagnosis, with exit status 3.  Any arithmetic, either build, NaN included. -/
theorem C77_program (law : OrderLaws F) (w : World F) (fmt : F → Str) (ioWhat command filename : Str) (b B : List F)
    (hr : readAndCheckBoundariesFile w.libc w.fs filename = .ok (b, B)) (usage : Bool) (m : Str)
    (h : diagnosis command b B = some (usage, m)) :
    crossprobRun w fmt ioWhat [command, filename] =
      .exited 3 ((if usage then usageText else []) ++ "Error:\n".toList ++ m ++ ['\n']) := by
  unfold crossprobRun
  dsimp only
  rw [handle_diagnosed law w fmt command filename b B hr usage m h]
  dsimp only
  rw [whatText_ofList (diagnosis_noNul h)]

/-! ### Files that cannot be read -/

theorem run_read_error (w : World F) (fmt : F → Str) (ioWhat command filename : Str) (m : Str) (hm : '\x00' ∉ m)
    (hr : readAndCheckBoundariesFile w.libc w.fs filename = .error (.runtimeError (String.ofList m))) :
    crossprobRun w fmt ioWhat [command, filename] = .exited 3 ("Error:\n".toList ++ m ++ ['\n']) := by
  have e : handleCommandLineArgumentsIO w fmt command filename = ⟨[], .error (.runtimeError (String.ofList m))⟩ := by
    unfold handleCommandLineArgumentsIO
    rw [hr]
    exact lift_error_bind _ _
  unfold crossprobRun
  dsimp only
  rw [e]
  dsimp only
  rw [whatText_ofList hm]
  simp only [List.nil_append]

/-- C77: a file that cannot be opened is named in the message, whatever the command. -/
theorem C77_unreadable (w : World F) (fmt : F → Str) (ioWhat command filename : Str) (hn : '\x00' ∉ filename)
    (hfs : w.fs filename = .unreadable) :
    crossprobRun w fmt ioWhat [command, filename] =
      .exited 3 ("Error:\nUnable to read input file '".toList ++ filename ++ "'\n".toList) := by
  rw [run_read_error w fmt ioWhat command filename ("Unable to read input file '".toList ++ filename ++ "'".toList) ?_ (C30_unreadable w.libc w.fs filename hfs)]
  · congr 1
    rw [show "Error:\nUnable to read input file '".toList = "Error:\n".toList ++ "Unable to read input file '".toList from rfl,
      show "'\n".toList = "'".toList ++ ['\n'] from rfl]
    simp only [List.append_assoc]
  · simp only [List.mem_append, not_or]
    exact ⟨⟨by decide, hn⟩, by decide⟩

theorem mapM_first_error {α β : Type} (f : α → M β) (before after : List α) (bad : α) (e : Fault)
    (hb : ∀ x ∈ before, ∃ y, f x = .ok y) (he : f bad = .error e) : (before ++ bad :: after).mapM f = .error e := by
  induction before with
  | nil =>
    rw [List.nil_append, List.mapM_cons, he]
    rfl
  | cons x xs ih =>
    obtain ⟨y, hy⟩ := hb x (by simp)
    rw [List.cons_append, List.mapM_cons, hy, M_ok_bind, ih fun z hz => hb z (by simp [hz])]
    rfl

theorem mem_intercalate_comma {c : Char} {l : List Str} (h : c ∈ List.intercalate [','] l) (hc : c ≠ ',') : ∃ p ∈ l, c ∈ p := by
  induction l with
  | nil => simp [List.intercalate] at h
  | cons a l ih =>
    cases l with
    | nil =>
      rw [List.intercalate_singleton] at h
      exact ⟨a, by simp, h⟩
    | cons a' l =>
      rw [List.intercalate_cons_cons, List.mem_append, List.mem_append] at h
      rcases h with (h | h) | h
      · exact ⟨a, by simp, h⟩
      · simp at h; exact absurd h hc
      · obtain ⟨p, hp, hcp⟩ := ih h
        exact ⟨p, by simp at hp ⊢; right; exact hp, hcp⟩

/-- The message about a field that is not a number. -/
def badFieldText (bad : Str) : Str := "Error converting string to double '".toList ++ bad ++ "'".toList

theorem line_bad_field {libc : Libc F} {rnd : ℝ → F} {inRange : ℝ → Prop} (hspec : StrtodSpec libc.strtod rnd inRange)
    (h0 : FOps.eq (rnd 0) FOps.zero = true) (before after : List Str) (bad : Str)
    (hc : ∀ p ∈ before ++ bad :: after, ',' ∉ p) (hok : ∀ p ∈ before, ∃ x, stringToDouble libc p = .ok x)
    (hbad : NotNumber (cStr bad)) (hlast : bad ≠ [] ∨ after ≠ []) :
    readCommaDelimitedDoubles libc (List.intercalate [','] (before ++ bad :: after)) =
      .error (.runtimeError (String.ofList (badFieldText bad))) := by
  have he : stringToDouble libc bad = .error (.runtimeError (String.ofList (badFieldText bad))) := by
    unfold stringToDouble
    dsimp only
    obtain ⟨h1, h2⟩ := hspec.noNumber _ hbad
    rw [h1, h2, if_pos (by rw [h0]; rfl)]
    rfl
  unfold readCommaDelimitedDoubles
  rw [C27_split_join _ ',' (by simp) hc, M_ok_bind]
  unfold dropTrailingEmpty
  split
  · next h =>
    have e : (before ++ bad :: after).take ((before ++ bad :: after).length - 1) = (before ++ bad :: after).dropLast :=
      List.dropLast_eq_take.symm
    rw [e]
    have hne : after ≠ [] := by
      rintro rfl
      rcases hlast with hl | hl
      · have := h.2
        simp at this
        exact hl this
      · exact hl rfl
    obtain ⟨a, as, rfl⟩ := List.exists_cons_of_ne_nil hne
    rw [List.dropLast_append_of_ne_nil (by simp), List.dropLast_cons_of_ne_nil (by simp)]
    exact mapM_first_error _ _ _ _ _ hok he
  · exact mapM_first_error _ _ _ _ _ hok he

theorem badFieldText_noNul {bad : Str} (h : '\x00' ∉ bad) : '\x00' ∉ badFieldText bad := by
  unfold badFieldText
  simp only [List.mem_append, not_or]
  exact ⟨⟨by decide, h⟩, by decide⟩

/-- C77: the first field that is not a number is quoted in the message, whatever the command: on the first line (the second one
may then be anything, or missing), or on the second line if the first one is readable. -/
theorem C77_bad_field (w : World F) (fmt : F → Str) (ioWhat command filename : Str) {rnd : ℝ → F} {inRange : ℝ → Prop}
    (hspec : StrtodSpec w.libc.strtod rnd inRange) (h0 : FOps.eq (rnd 0) FOps.zero = true)
    (before after : List Str) (bad : Str) (hnul : '\x00' ∉ bad)
    (hc : ∀ p ∈ before ++ bad :: after, ',' ∉ p ∧ '\n' ∉ p) (hok : ∀ p ∈ before, ∃ x, stringToDouble w.libc p = .ok x)
    (hbad : NotNumber (cStr bad)) (hlast : bad ≠ [] ∨ after ≠ [])
    (hfs : (∃ rest, w.fs filename = .contents (List.intercalate [','] (before ++ bad :: after) ++ '\n' :: rest)) ∨
      w.fs filename = .contents (List.intercalate [','] (before ++ bad :: after)) ∨
      ∃ text l1 b, w.fs filename = .contents text ∧ FirstTwoLines text l1 (List.intercalate [','] (before ++ bad :: after)) ∧
        readCommaDelimitedDoubles w.libc l1 = .ok b) :
    crossprobRun w fmt ioWhat [command, filename] = .exited 3 ("Error:\n".toList ++ badFieldText bad ++ ['\n']) := by
  apply run_read_error w fmt ioWhat command filename _ (badFieldText_noNul hnul)
  have hline := line_bad_field hspec h0 before after bad (fun p hp => (hc p hp).1) hok hbad hlast
  generalize hL : List.intercalate [','] (before ++ bad :: after) = L at hfs hline
  have hne : L ≠ [] := by
    rintro rfl
    rw [C28_empty] at hline
    cases hline
  have hnl : '\n' ∉ L := by
    rw [← hL]
    intro hm
    obtain ⟨p, hp, h⟩ := mem_intercalate_comma hm (by decide)
    exact (hc p hp).2 h
  rcases hfs with ⟨rest, hfs⟩ | hfs | ⟨text, l1, b, hfs, h2, hb⟩
  · unfold readAndCheckBoundariesFile readNextLine
    rw [hfs]
    dsimp only
    rw [getline_line L rest hnl]
    simp only [M_ok_bind, hline]
    rfl
  · unfold readAndCheckBoundariesFile readNextLine
    rw [hfs]
    dsimp only
    rw [getline_last L hnl hne]
    simp only [M_ok_bind, hline]
    rfl
  · rw [C30_two_lines w.libc w.fs filename text l1 L hfs h2, hb, M_ok_bind, hline]
    rfl

/-! ### Nothing wrong -/

theorem valid_of_fine {name : String} {l : List XR} (hn : NoNan l) (h : problem name l = none) :
    ∃ b : Fin l.length → ℝ, ValidBound b ∧ l = toList b := by
  rw [← validList_iff l hn]
  by_contra hv
  obtain ⟨msg, hm⟩ := check_invalid name l.length l hn (fun h => hv h.2)
  rw [check_fine orderLaws_exact h] at hm
  cases hm

theorem lowerProb_mem {n : ℕ} (b : Fin n → ℝ) : 0 ≤ lowerProb b ∧ lowerProb b ≤ 1 :=
  ⟨MeasureTheory.measureReal_nonneg, MeasureTheory.measureReal_le_one⟩

theorem upperProb_mem {n : ℕ} (B : Fin n → ℝ) : 0 ≤ upperProb B ∧ upperProb B ≤ 1 :=
  ⟨MeasureTheory.measureReal_nonneg, MeasureTheory.measureReal_le_one⟩

theorem toList_const {n : ℕ} (c : ℝ) : toList (fun _ : Fin n => c) = List.replicate n (XR.fin c) := by
  unfold toList
  rw [List.ofFn_const]

/-- C77: conversely, if a readable file without NaN has no problem, the program (as built, without assertions) prints a number
between 0 and 1 and exits with status 0: in exact arithmetic there is no other error. -/
theorem C77_complete (w : World XR) (hf : ExactFFT w.env.fft) (hsort : SortContract w.sort) (hsq : w.isqrt = Nat.sqrt)
    (ha : w.env.asserts = false) (fmt : XR → Str) (ioWhat command filename : Str) (b B : List XR)
    (hr : readAndCheckBoundariesFile w.libc w.fs filename = .ok (b, B)) (hb : NoNan b) (hB : NoNan B)
    (h : diagnosis command b B = none) :
    ∃ r : ℝ, 0 ≤ r ∧ r ≤ 1 ∧ crossprobRun w fmt ioWhat [command, filename] = .exited 0 (fmt (XR.fin r) ++ ['\n']) := by
  suffices hs : ∃ r : ℝ, 0 ≤ r ∧ r ≤ 1 ∧ Computes w (String.ofList command) b B (.ok (XR.fin r)) by
    obtain ⟨r, h0, h1, hc⟩ := hs
    refine ⟨r, h0, h1, ?_⟩
    have hp := (C26_printed w [command, filename] (XR.fin r)).mpr ⟨command, filename, b, B, rfl, hr, hc⟩
    have := C59_output w fmt ioWhat [command, filename]
    rw [hp] at this
    exact this
  unfold diagnosis at h
  split at h
  · cases h
  next c1 =>
  split at h
  · cases h
  next c2 =>
  split at h
  · cases h
  next c3 =>
  split at h
  swap
  · cases h
  next c4 =>
  rw [Option.map_eq_none_iff, Option.or_eq_none_iff] at h
  obtain ⟨b', hb', eb⟩ := valid_of_fine hb h.1
  obtain ⟨B', hB', eB⟩ := valid_of_fine hB h.2
  have hside' : ¬ (b = [] ↔ B = []) → (b ≠ [] ∧ B = []) ∨ (b = [] ∧ B ≠ []) := by
    clear * -
    tauto
  simp only [List.mem_cons, List.not_mem_nil, or_false] at c4
  have two : ∀ f : Bool, ¬ (b ≠ [] ∧ B ≠ [] ∧ b.length ≠ B.length) →
      ∃ r : ℝ, 0 ≤ r ∧ r ≤ 1 ∧ ∃ b'' B'', Computes.Padded b B b'' B'' ∧ ecdf2 w.env w.sort b'' B'' f = .ok (XR.fin r) := by
    intro f hl
    by_cases he : b.length = B.length
    · obtain ⟨B'', hB'', eB''⟩ : ∃ B'' : Fin b.length → ℝ, ValidBound B'' ∧ B = toList B'' := by
        rw [he]; exact ⟨B', hB', eB⟩
      refine ⟨noncrossProb b' B'', (noncrossProb_mem _ b' B'').1, (noncrossProb_mem _ b' B'').2, b, B, Or.inl ⟨he, rfl, rfl⟩, ?_⟩
      have := C01_ecdf2 w.env hf hsort hb' hB'' f (Or.inl ha)
      rwa [← eb, ← eB''] at this
    · by_cases hbn : b = []
      · have hBn : B ≠ [] := by
          rintro rfl
          rw [hbn] at he
          exact he rfl
        have hz : ValidBound (fun _ : Fin B.length => (0 : ℝ)) := ⟨fun _ _ _ => le_rfl, fun _ => ⟨le_rfl, zero_le_one⟩⟩
        refine ⟨noncrossProb (fun _ => 0) B', (noncrossProb_mem _ _ B').1, (noncrossProb_mem _ _ B').2, _, _,
          Or.inr (Or.inl ⟨hbn, hBn, rfl, rfl⟩), ?_⟩
        have := C01_ecdf2 w.env hf hsort hz hB' f (Or.inl ha)
        rwa [toList_const, ← eB, ← XR.zero_eq] at this
      · have hBn : B = [] := by
          by_contra hBn
          exact hl ⟨hbn, hBn, he⟩
        have hz : ValidBound (fun _ : Fin b.length => (1 : ℝ)) := ⟨fun _ _ _ => le_rfl, fun _ => ⟨zero_le_one, le_rfl⟩⟩
        refine ⟨noncrossProb b' (fun _ => 1), (noncrossProb_mem _ b' _).1, (noncrossProb_mem _ b' _).2, _, _,
          Or.inr (Or.inr ⟨hbn, hBn, rfl, rfl⟩), ?_⟩
        have := C01_ecdf2 w.env hf hsort hb' hz f (Or.inl ha)
        rwa [toList_const, ← eb, ← XR.one_eq] at this
  rcases c4 with rfl | rfl | rfl | rfl
  · rcases hside' (fun h => c1 ⟨rfl, h⟩) with ⟨h1, h2⟩ | ⟨h1, h2⟩
    · refine ⟨lowerProb b', (lowerProb_mem b').1, (lowerProb_mem b').2, Or.inl ⟨String.ofList_toList, Or.inl ⟨h1, h2, ?_⟩⟩⟩
      have := C04_ecdf1_mns2016_b w.env hb'
      rw [← eb] at this
      exact this.symm
    · refine ⟨upperProb B', (upperProb_mem B').1, (upperProb_mem B').2, Or.inl ⟨String.ofList_toList, Or.inr ⟨h1, h2, ?_⟩⟩⟩
      have := C05_ecdf1_mns2016_B w.env hB'
      rw [← eB] at this
      exact this.symm
  · rcases hside' (fun h => c2 ⟨rfl, h⟩) with ⟨h1, h2⟩ | ⟨h1, h2⟩
    · refine ⟨lowerProb b', (lowerProb_mem b').1, (lowerProb_mem b').2, Or.inr (Or.inl ⟨String.ofList_toList, Or.inl ⟨h1, h2, ?_⟩⟩)⟩
      have := C03_ecdf1_new_b w.env hf (List.length_pos_iff.mpr h1) hb' (Or.inl ha)
      rw [← eb] at this
      rw [hsq]
      exact this.symm
    · refine ⟨upperProb B', (upperProb_mem B').1, (upperProb_mem B').2, Or.inr (Or.inl ⟨String.ofList_toList, Or.inr ⟨h1, h2, ?_⟩⟩)⟩
      have := C02_ecdf1_new_B w.env hf (List.length_pos_iff.mpr h2) hB' (Or.inl ha)
      rw [← eB] at this
      rw [hsq]
      exact this.symm
  · obtain ⟨r, h0, h1, b'', B'', hp, he⟩ := two false (fun h => c3 ⟨by simp, h⟩)
    exact ⟨r, h0, h1, Or.inr (Or.inr (Or.inl ⟨String.ofList_toList, b'', B'', hp, he.symm⟩))⟩
  · obtain ⟨r, h0, h1, b'', B'', hp, he⟩ := two true (fun h => c3 ⟨by simp, h⟩)
    exact ⟨r, h0, h1, Or.inr (Or.inr (Or.inr ⟨String.ofList_toList, b'', B'', hp, he.symm⟩))⟩

/-! ### crossprob_mc -/

theorem mc_error [FBits F] (w : McWorld F) (fmt : F → Str) (ioWhat : Str) (args : List Str) (m : String)
    (h : mcMain w args = .error m) :
    (McShowsUsage w args → mcRun w fmt ioWhat args = .exited 2 (mcUsageText ++ "runtime_error exception caught:\n".toList ++ whatText m ++ ['\n'])) ∧
    (¬ McShowsUsage w args → mcRun w fmt ioWhat args = .exited 2 ("runtime_error exception caught:\n".toList ++ whatText m ++ ['\n'])) := by
  have := C59_mc_output w fmt ioWhat args
  rw [h] at this
  exact this

/-- C77 (crossprob_mc): the messages about the arguments. -/
theorem C77_mc_arguments [FBits F] (w : McWorld F) (fmt : F → Str) (ioWhat command file num : Str) :
    (∀ args : List Str, args.length ≠ 3 → mcRun w fmt ioWhat args =
      .exited 2 (mcUsageText ++ "runtime_error exception caught:\n".toList ++ "Expecting 3 command line arguments!".toList ++ ['\n'])) ∧
    (∀ N, stringToLong w.libc num = .ok N → N < 0 → mcRun w fmt ioWhat [command, file, num] =
      .exited 2 (mcUsageText ++ "runtime_error exception caught:\n".toList ++ "num-simulations must be non-negative!".toList ++ ['\n'])) ∧
    (∀ N bB, stringToLong w.libc num = .ok N → 0 ≤ N → readAndCheckBoundariesFile w.libc w.fs file = .ok bB →
      command ≠ "poisson".toList → command ≠ "ecdf".toList → mcRun w fmt ioWhat [command, file, num] =
      .exited 2 (mcUsageText ++ "runtime_error exception caught:\n".toList ++ "Second command line argument must be 'ecdf' or 'poisson'".toList ++ ['\n'])) ∧
    (∀ N, stringToLong w.libc num = .ok N → 0 ≤ N → w.fs file = .unreadable → '\x00' ∉ file → mcRun w fmt ioWhat [command, file, num] =
      .exited 2 ("runtime_error exception caught:\n".toList ++ "Unable to read input file '".toList ++ file ++ ['\'', '\n'])) := by
  have what : ∀ m : String, '\x00' ∉ m.toList → whatText m = m.toList := by
    intro m hm
    unfold whatText
    exact cStr_noNul _ hm
  refine ⟨fun args h3 => ?_, fun N hN hneg => ?_, fun N bB hN hpos hr h1 h2 => ?_, fun N hN hpos hfs hnul => ?_⟩
  · rw [(mc_error w fmt ioWhat args _ (C48_usage w args h3)).1 (Or.inl h3)]
    rw [what _ (by decide +kernel)]
  · have hm : mcMain w [command, file, num] = .error "num-simulations must be non-negative!" := by
      unfold mcMain mcHandle
      dsimp only
      rw [hN, M_ok_bind, if_pos hneg]
    rw [(mc_error w fmt ioWhat _ _ hm).1 (Or.inr ⟨command, file, num, N, rfl, hN, Or.inl hneg⟩)]
    rw [what _ (by decide +kernel)]
  · have hm : mcMain w [command, file, num] = .error "Second command line argument must be 'ecdf' or 'poisson'" := by
      unfold mcMain mcHandle
      dsimp only
      rw [hN, M_ok_bind, if_neg (by omega), hr, M_ok_bind]
      rw [if_neg h1, if_neg h2]
    rw [(mc_error w fmt ioWhat _ _ hm).1 (Or.inr ⟨command, file, num, N, rfl, hN, Or.inr ⟨⟨bB, hr⟩, h1, h2⟩⟩)]
    rw [what _ (by decide +kernel)]
  · have hr := C30_unreadable w.libc w.fs file hfs
    have hm := (C48_bad_file w command file num N hpos hN).2 _ hr
    have hns : ¬ McShowsUsage w [command, file, num] := by
      rintro (h | ⟨c', f', n', N', he, hN', h⟩)
      · exact h rfl
      · simp only [List.cons.injEq, and_true] at he
        obtain ⟨rfl, rfl, rfl⟩ := he
        rw [hN] at hN'
        obtain rfl : N = N' := by simpa using hN'
        rcases h with h | ⟨⟨bB, h⟩, _⟩
        · omega
        · rw [hr] at h; cases h
    rw [(mc_error w fmt ioWhat _ _ hm).2 hns]
    rw [whatText_ofList (by
      simp only [List.mem_append, not_or]
      exact ⟨⟨by decide, hnul⟩, by decide⟩)]
    simp only [List.append_assoc, List.cons_append, List.nil_append]

/-- C77 (crossprob_mc): the message about a number of simulations that is not a number. -/
theorem C77_mc_number [FBits F] (w : McWorld F) (hspec : StrtolSpec w.libc.strtol) (fmt : F → Str) (ioWhat command file num : Str)
    (hnul : '\x00' ∉ num) :
    (∀ ws sg ds c rest, LongForm num ws sg ds (c :: rest) → IsLong (sg.unit * natOf ds) → mcRun w fmt ioWhat [command, file, num] =
      .exited 2 ("runtime_error exception caught:\n".toList ++ "Trailing characters during conversion of string to long:".toList ++ num ++ ['\n', '\n'])) ∧
    ((¬ ∃ ws sg ds rest, LongForm num ws sg ds rest) → (w.libc.strtol num).errno = 0 → mcRun w fmt ioWhat [command, file, num] =
      .exited 2 ("runtime_error exception caught:\n".toList ++ "Error converting string to long: ".toList ++ num ++ ['\n'] ++ "No digits were found.".toList ++ ['\n'])) := by
  have hcs : cStr num = num := cStr_noNul num hnul
  have run : ∀ m : Str, '\x00' ∉ m → stringToLong w.libc num = .error (.runtimeError (String.ofList m)) →
      mcRun w fmt ioWhat [command, file, num] = .exited 2 ("runtime_error exception caught:\n".toList ++ m ++ ['\n']) := by
    intro m hm he
    have hmain : mcMain w [command, file, num] = .error (String.ofList m) := by
      unfold mcMain mcHandle
      dsimp only
      rw [he]
      rfl
    have hns : ¬ McShowsUsage w [command, file, num] := by
      rintro (h | ⟨c', f', n', N', he', hN', h⟩)
      · exact h rfl
      · simp only [List.cons.injEq, and_true] at he'
        obtain ⟨rfl, rfl, rfl⟩ := he'
        rw [he] at hN'
        cases hN'
    rw [(mc_error w fmt ioWhat _ _ hmain).2 hns, whatText_ofList hm]
  constructor
  · intro ws sg ds c rest h hl
    have hs := hspec.number num ws sg ds (c :: rest) h hl
    rw [run ("Trailing characters during conversion of string to long:".toList ++ num ++ ['\n']) (by
        simp only [List.mem_append, not_or]
        exact ⟨⟨by decide +kernel, hnul⟩, by decide⟩)]
    · simp only [List.append_assoc, List.cons_append, List.nil_append]
    · unfold stringToLong
      dsimp only
      rw [hcs, hs]
      dsimp only
      have hpos : (ws ++ sg.text ++ ds).length ≠ 0 := by
        have := List.length_pos_iff.mpr h.2.2.2.1
        simp only [List.length_append]
        omega
      have hget : num[(ws ++ sg.text ++ ds).length]? ≠ none := by
        have e : num = (ws ++ sg.text ++ ds) ++ c :: rest := h.1
        rw [e, List.getElem?_append_right le_rfl]
        simp
      rw [if_neg (by simp [ERANGE]), if_neg hpos, if_pos hget]
  · intro h he
    obtain ⟨h1, h2⟩ := hspec.noNumber num h
    rw [run ("Error converting string to long: ".toList ++ num ++ ['\n'] ++ "No digits were found.".toList) (by
        simp only [List.mem_append, not_or]
        exact ⟨⟨⟨by decide +kernel, hnul⟩, by decide⟩, by decide +kernel⟩)]
    · simp only [List.append_assoc, List.cons_append, List.nil_append]
    · unfold stringToLong
      dsimp only
      rw [hcs, h1, h2, he, if_neg (by simp [ERANGE, LONG_MAX, LONG_MIN]), if_pos rfl]

/-! ### Examples -/

/-- The laws hold in every IEEE-754 arithmetic. -/
theorem orderLaws_ieee (A : FloatSystem) (hf : A.f.OK) : OrderLaws (Num A) := by
  have v : ∀ k : ℤ, (k = 0 ∨ k = 1) → ∃ h, (FOps.ofInt k : Num A) = Fl.fin (k : ℝ) h := by
    intro k hk
    obtain ⟨⟨a, ha, e⟩, h2⟩ := ofInt_exact hf (k := k)
      (by
        rcases hk with rfl | rfl
        · simp
        · rw [abs_one]; exact one_le_pow₀ (by norm_num))
      (by
        rcases hk with rfl | rfl
        · simp; positivity
        · rw [Int.cast_one, abs_one]; linarith [one_le_Omega hf])
    rw [e] at h2
    obtain rfl : a = k := h2
    exact ⟨ha, e⟩
  obtain ⟨z, hz⟩ := v 0 (Or.inl rfl)
  obtain ⟨o, ho⟩ := v 1 (Or.inr rfl)
  refine ⟨?_, ?_, ?_, ?_⟩
  · intro x; cases x <;> rfl
  · show Num.lt (FOps.ofInt 0 : Num A) (FOps.ofInt 0) = false
    rw [hz]; simp [Num.lt]
  · show Num.lt (FOps.ofInt 1 : Num A) (FOps.ofInt 1) = false
    rw [ho]; simp [Num.lt]
  · show Num.lt (FOps.ofInt 1 : Num A) (FOps.ofInt 0) = false
    rw [hz, ho]; simp [Num.lt]

/-- The program on the file `0.3,0.1⏎0.5,0.9⏎`. -/
example (fmt : XR → Str) (ioWhat : Str) :
    crossprobRun (exWorld false "0.3,0.1\n0.5,0.9\n".toList) fmt ioWhat ["ecdf2-mn2017".toList, "bounds.txt".toList]
      = .exited 3 ("Error:\nb_1,...,b_2 must be monotone non-decreasing.\n".toList) := by
  have hl : FirstTwoLines "0.3,0.1\n0.5,0.9\n".toList (lineOf ![tenth '3', tenth '1']) (lineOf ![tenth '5', tenth '9']) := by
    have e1 : lineOf ![tenth '3', tenth '1'] = "0.3,0.1".toList := by decide
    have e2 : lineOf ![tenth '5', tenth '9'] = "0.5,0.9".toList := by decide
    rw [e1, e2]
    exact ⟨by decide, by decide, Or.inl ⟨[], rfl⟩⟩
  have wf : ∀ d d' : Char, d.isDigit = true → d'.isDigit = true → ∀ i, (![tenth d, tenth d'] i).WF := by
    intro d d' h h' i
    fin_cases i
    · exact tenth_wf h
    · exact tenth_wf h'
  have hr : readAndCheckBoundariesFile (exWorld false "0.3,0.1\n0.5,0.9\n".toList).libc (exWorld false "0.3,0.1\n0.5,0.9\n".toList).fs
      "bounds.txt".toList = .ok (toList (valuesOf ![tenth '3', tenth '1']), toList (valuesOf ![tenth '5', tenth '9'])) := by
    rw [C30_two_lines _ _ _ _ _ _ (exWorld_fs _ _) hl,
      parse_lineOf Witness.strtod_spec ![tenth '3', tenth '1'] (wf _ _ rfl rfl), M_ok_bind,
      parse_lineOf Witness.strtod_spec ![tenth '5', tenth '9'] (wf _ _ rfl rfl)]
    rfl
  have hd : Descends (toList (valuesOf ![tenth '3', tenth '1'])) := by
    refine ⟨0, by simp [toList], ?_⟩
    have h1 : (tenth '3').num.value = (3 : ℕ) / 10 := tenth_value (by decide)
    have h2 : (tenth '1').num.value = (1 : ℕ) / 10 := tenth_value (by decide)
    simp [toList, valuesOf, h1, h2]
    norm_num
  have hlen : (toList (valuesOf ![tenth '3', tenth '1'])).length = 2 := by simp [toList]
  have hlen' : (toList (valuesOf ![tenth '5', tenth '9'])).length = 2 := by simp [toList]
  have h : diagnosis "ecdf2-mn2017".toList (toList (valuesOf ![tenth '3', tenth '1'])) (toList (valuesOf ![tenth '5', tenth '9'])) =
      some (false, "b_1,...,b_2 must be monotone non-decreasing.".toList) := by
    unfold diagnosis problem
    rw [if_neg (fun h => absurd h.1 (by decide)), if_neg (fun h => absurd h.1 (by decide)),
      if_neg (by rw [hlen, hlen']; rintro ⟨_, _, _, h⟩; exact h rfl), if_pos (by decide), if_pos hd, hlen]
    decide +kernel
  rw [C77_program orderLaws_exact _ fmt ioWhat _ _ _ _ hr false _ h]
  exact congrArg (RunEnd.exited 3) (by decide +kernel)

end CP.Props
