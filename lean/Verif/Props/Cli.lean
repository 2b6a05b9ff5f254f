import Verif.Props.Strings
import Verif.Model.Cli
/-
Properties C25, C26, C41: the command line program.
-/
namespace CP.Props
open CP.Spec
variable {F : Type} [FOps F]

/-! ## C25 -/

/-- C25: with an empty first list the `ecdf2-*` commands compute the one-sided probability of the second. -/
theorem C25_empty_lower (w : World XR) (hf : ExactFFT w.env.fft) (hsort : SortContract w.sort) {n : ℕ} {B : Fin n → ℝ}
    (hB : ValidBound B) :
    calculateEcdf2Ks2001 w [] (toList B) = .ok (XR.fin (upperProb B)) ∧
    calculateEcdf2Mn2017 w [] (toList B) = .ok (XR.fin (upperProb B)) := by
  have e : List.replicate n (FOps.zero : XR) = toList (fun _ : Fin n => (0 : ℝ)) := by
    simp [toList, List.ofFn_const]
  have key : ∀ f, ecdf2 w.env w.sort (toList fun _ : Fin n => (0 : ℝ)) (toList B) f = .ok (XR.fin (upperProb B)) := by
    intro f
    rw [C01_ecdf2 w.env hf hsort ⟨fun _ _ _ => le_rfl, fun _ => ⟨le_rfl, zero_le_one⟩⟩ hB, noncrossProb_zeros fun _ => le_rfl]
    right
    rintro ⟨i, j, _, h⟩
    exact absurd (hB.range j).1 (not_le.mpr h)
  have hl : (toList B).length = n := by simp [toList]
  constructor
  · unfold calculateEcdf2Ks2001
    dsimp only
    rw [List.length_nil, hl]
    by_cases h0 : n = 0
    · subst h0
      rw [if_pos ⟨by simp, by simp⟩]
      have := key false
      rw [show (toList fun _ : Fin 0 => (0 : ℝ)) = [] from by simp [toList]] at this
      exact this
    · rw [if_neg (by simp [Ne.symm h0]), if_pos ⟨rfl, by simp⟩, Nat.zero_max, e, key]
  · unfold calculateEcdf2Mn2017
    dsimp only
    rw [List.length_nil, hl]
    by_cases h0 : n = 0
    · subst h0
      rw [if_pos ⟨by simp, by simp⟩]
      have := key true
      rw [show (toList fun _ : Fin 0 => (0 : ℝ)) = [] from by simp [toList]] at this
      exact this
    · rw [if_neg (by simp [Ne.symm h0]), if_pos ⟨rfl, by simp⟩, Nat.zero_max, e, key]

/-- C25: with an empty second list they compute the one-sided probability of the first. -/
theorem C25_empty_upper (w : World XR) (hf : ExactFFT w.env.fft) (hsort : SortContract w.sort) {n : ℕ} {b : Fin n → ℝ}
    (hb : ValidBound b) :
    calculateEcdf2Ks2001 w (toList b) [] = .ok (XR.fin (lowerProb b)) ∧
    calculateEcdf2Mn2017 w (toList b) [] = .ok (XR.fin (lowerProb b)) := by
  have e : List.replicate n (FOps.one : XR) = toList (fun _ : Fin n => (1 : ℝ)) := by
    simp [toList, List.ofFn_const]
  have key : ∀ f, ecdf2 w.env w.sort (toList b) (toList fun _ : Fin n => (1 : ℝ)) f = .ok (XR.fin (lowerProb b)) := by
    intro f
    rw [C01_ecdf2 w.env hf hsort hb ⟨fun _ _ _ => le_rfl, fun _ => ⟨zero_le_one, le_rfl⟩⟩, noncrossProb_ones fun _ => le_rfl]
    right
    rintro ⟨i, j, _, h⟩
    exact absurd (hb.range i).2 (not_le.mpr h)
  have hl : (toList b).length = n := by simp [toList]
  constructor
  · unfold calculateEcdf2Ks2001
    dsimp only
    rw [List.length_nil, hl]
    by_cases h0 : n = 0
    · subst h0
      rw [if_pos ⟨by simp, by simp⟩]
      have := key false
      rw [show (toList fun _ : Fin 0 => (1 : ℝ)) = [] from by simp [toList]] at this
      exact this
    · rw [if_neg (by simp [h0, Ne.symm h0]), if_neg (by simp [h0]), if_pos ⟨by simp, rfl⟩, Nat.max_zero, e, key]
  · unfold calculateEcdf2Mn2017
    dsimp only
    rw [List.length_nil, hl]
    by_cases h0 : n = 0
    · subst h0
      rw [if_pos ⟨by simp, by simp⟩]
      have := key true
      rw [show (toList fun _ : Fin 0 => (1 : ℝ)) = [] from by simp [toList]] at this
      exact this
    · rw [if_neg (by simp [h0, Ne.symm h0]), if_neg (by simp [h0]), if_pos ⟨by simp, rfl⟩, Nat.max_zero, e, key]

/-- C25: two lists of equal length are passed on unchanged (`ks2001` without FFT, `mn2017` with). -/
theorem C25_two_sided (w : World F) (b B : List F) (h : b.length = B.length) :
    calculateEcdf2Ks2001 w b B = ecdf2 w.env w.sort b B false ∧ calculateEcdf2Mn2017 w b B = ecdf2 w.env w.sort b B true := by
  unfold calculateEcdf2Ks2001 calculateEcdf2Mn2017
  dsimp only
  rw [if_pos ⟨by omega, by omega⟩, if_pos ⟨by omega, by omega⟩]
  exact ⟨rfl, rfl⟩

/-- C25: lists of different non-zero lengths throw, in any arithmetic. -/
theorem C25_length_mismatch (w : World F) (b B : List F) (hb : b ≠ []) (hB : B ≠ []) (h : b.length ≠ B.length) :
    (∃ msg, calculateEcdf2Ks2001 w b B = .error (.runtimeError msg)) ∧
    ∃ msg, calculateEcdf2Mn2017 w b B = .error (.runtimeError msg) := by
  have h1 := List.length_pos_iff.mpr hb
  have h2 := List.length_pos_iff.mpr hB
  constructor
  · refine ⟨ecdf2LengthsMsg, ?_⟩
    unfold calculateEcdf2Ks2001
    dsimp only
    rw [if_neg (by omega), if_neg (by omega), if_neg (by omega)]
  · refine ⟨ecdf2LengthsMsg, ?_⟩
    unfold calculateEcdf2Mn2017
    dsimp only
    rw [if_neg (by omega), if_neg (by omega), if_neg (by omega)]

/-- C25: the one-sided commands demand exactly one non-empty list. -/
theorem C25_one_sided_needs_one (w : World F) (b B : List F) (h : (b = [] ↔ B = [])) :
    (∃ msg, calculateEcdf1New w b B = .error (.runtimeError msg)) ∧
    ∃ msg, calculateEcdf1Mns2016 w b B = .error (.runtimeError msg) := by
  have h1 : ¬ (b.length > 0 ∧ B.length = 0) := by
    rintro ⟨h1, h2⟩
    have := h.mpr (List.length_eq_zero_iff.mp h2)
    simp [this] at h1
  have h2 : ¬ (b.length = 0 ∧ B.length > 0) := by
    rintro ⟨h1, h2⟩
    have := h.mp (List.length_eq_zero_iff.mp h1)
    simp [this] at h2
  constructor
  · unfold calculateEcdf1New
    rw [if_neg h1, if_neg h2]
    exact ⟨_, rfl⟩
  · unfold calculateEcdf1Mns2016
    rw [if_neg h1, if_neg h2]
    exact ⟨_, rfl⟩

/-- A world to run the program in. -/
noncomputable def exWorld (asserts : Bool) (file : Str) : World XR :=
  { env := if asserts then dbgEnv else relEnv
    sort := mergeSortBounds
    isqrt := Nat.sqrt
    libc := Witness.libc
    fs := fun name => if name = "bounds.txt".toList then .contents file else .unreadable }

example : calculateEcdf2Ks2001 (exWorld true []) [] (toList exB) = .ok (XR.fin (upperProb exB)) :=
  (C25_empty_lower (exWorld true []) exactFFTW_exact mergeSortBounds_contract exB_valid).1

/-! ## C26 -/

/-- The command named on the command line, applied to the two lists in the file, yields `r`.  An empty line
stands for the trivial boundary in the `ecdf2-*` commands; the one-sided commands need exactly one
non-empty line. -/
def Computes (w : World F) (command : String) (b B : List F) (m : M F) : Prop :=
  (command = "ecdf1-mns2016" ∧ ((b ≠ [] ∧ B = [] ∧ m = ecdf1Mns2016b w.env b) ∨ (b = [] ∧ B ≠ [] ∧ m = ecdf1Mns2016B w.env B))) ∨
  (command = "ecdf1-new" ∧ ((b ≠ [] ∧ B = [] ∧ m = ecdf1Newb w.env w.isqrt b) ∨ (b = [] ∧ B ≠ [] ∧ m = ecdf1NewB w.env w.isqrt B))) ∨
  ((command = "ecdf2-ks2001" ∧ ∃ b' B', Padded b B b' B' ∧ m = ecdf2 w.env w.sort b' B' false) ∨
   (command = "ecdf2-mn2017" ∧ ∃ b' B', Padded b B b' B' ∧ m = ecdf2 w.env w.sort b' B' true))
where
  /-- both lists have the same length, or one is empty and is replaced by zeros (lower) or ones (upper) -/
  Padded (b B b' B' : List F) : Prop :=
    (b.length = B.length ∧ b' = b ∧ B' = B) ∨
    (b = [] ∧ B ≠ [] ∧ b' = List.replicate B.length FOps.zero ∧ B' = B) ∨
    (b ≠ [] ∧ B = [] ∧ b' = b ∧ B' = List.replicate b.length FOps.one)

/-- The outcome of the dispatcher once the file has been read. -/
theorem dispatch_cases (w : World F) (command name : Str) (b B : List F)
    (hr : readAndCheckBoundariesFile w.libc w.fs name = .ok (b, B)) :
    (∃ m, Computes w (String.ofList command) b B m ∧ handleCommandLineArguments w command name = m) ∨
    ((∀ m, ¬ Computes w (String.ofList command) b B m) ∧
      ∃ msg, handleCommandLineArguments w command name = .error (.runtimeError msg)) := by
  have hstr : ∀ s : String, command = s.toList ↔ String.ofList command = s := by
    intro s
    constructor
    · rintro rfl; exact String.ofList_toList
    · rintro rfl; exact String.toList_ofList.symm
  unfold handleCommandLineArguments
  rw [hr, M_ok_bind]
  dsimp only
  by_cases c1 : command = "ecdf1-mns2016".toList
  · rw [if_pos c1]
    have c1' := (hstr _).mp c1
    unfold calculateEcdf1Mns2016
    by_cases h1 : b.length > 0 ∧ B.length = 0
    · rw [if_pos h1]
      exact Or.inl ⟨_, Or.inl ⟨c1', Or.inl ⟨List.length_pos_iff.mp h1.1, List.length_eq_zero_iff.mp h1.2, rfl⟩⟩, rfl⟩
    · rw [if_neg h1]
      by_cases h2 : b.length = 0 ∧ B.length > 0
      · rw [if_pos h2]
        exact Or.inl ⟨_, Or.inl ⟨c1', Or.inr ⟨List.length_eq_zero_iff.mp h2.1, List.length_pos_iff.mp h2.2, rfl⟩⟩, rfl⟩
      · rw [if_neg h2]
        refine Or.inr ⟨?_, _, rfl⟩
        unfold Computes
        rw [c1']
        rintro m (⟨_, ⟨hb, hB, _⟩ | ⟨hb, hB, _⟩⟩ | ⟨h, _⟩ | ⟨h, _⟩ | ⟨h, _⟩)
        · exact h1 ⟨List.length_pos_iff.mpr hb, List.length_eq_zero_iff.mpr hB⟩
        · exact h2 ⟨List.length_eq_zero_iff.mpr hb, List.length_pos_iff.mpr hB⟩
        all_goals exact absurd h (by decide)
  · rw [if_neg c1]
    by_cases c2 : command = "ecdf1-new".toList
    · rw [if_pos c2]
      have c2' := (hstr _).mp c2
      unfold calculateEcdf1New
      by_cases h1 : b.length > 0 ∧ B.length = 0
      · rw [if_pos h1]
        exact Or.inl ⟨_, Or.inr (Or.inl ⟨c2', Or.inl ⟨List.length_pos_iff.mp h1.1, List.length_eq_zero_iff.mp h1.2, rfl⟩⟩), rfl⟩
      · rw [if_neg h1]
        by_cases h2 : b.length = 0 ∧ B.length > 0
        · rw [if_pos h2]
          exact Or.inl ⟨_, Or.inr (Or.inl ⟨c2', Or.inr ⟨List.length_eq_zero_iff.mp h2.1, List.length_pos_iff.mp h2.2, rfl⟩⟩), rfl⟩
        · rw [if_neg h2]
          refine Or.inr ⟨?_, _, rfl⟩
          unfold Computes
          rw [c2']
          rintro m (⟨h, _⟩ | ⟨_, ⟨hb, hB, _⟩ | ⟨hb, hB, _⟩⟩ | ⟨h, _⟩ | ⟨h, _⟩)
          · exact absurd h (by decide)
          · exact h1 ⟨List.length_pos_iff.mpr hb, List.length_eq_zero_iff.mpr hB⟩
          · exact h2 ⟨List.length_eq_zero_iff.mpr hb, List.length_pos_iff.mpr hB⟩
          all_goals exact absurd h (by decide)
    · rw [if_neg c2]
      have pad : ∀ (useFft : Bool), 
          (if b.length = max b.length B.length ∧ B.length = max b.length B.length then ecdf2 w.env w.sort b B useFft
            else if b.length = 0 ∧ B.length = max b.length B.length then
              ecdf2 w.env w.sort (List.replicate (max b.length B.length) FOps.zero) B useFft
            else if b.length = max b.length B.length ∧ B.length = 0 then
              ecdf2 w.env w.sort b (List.replicate (max b.length B.length) FOps.one) useFft
            else .error (.runtimeError ecdf2LengthsMsg)) = .error (.runtimeError ecdf2LengthsMsg) ∧
              (∀ b' B', ¬ Computes.Padded b B b' B') ∨
          ∃ b' B', Computes.Padded b B b' B' ∧ 
            (if b.length = max b.length B.length ∧ B.length = max b.length B.length then ecdf2 w.env w.sort b B useFft
            else if b.length = 0 ∧ B.length = max b.length B.length then
              ecdf2 w.env w.sort (List.replicate (max b.length B.length) FOps.zero) B useFft
            else if b.length = max b.length B.length ∧ B.length = 0 then
              ecdf2 w.env w.sort b (List.replicate (max b.length B.length) FOps.one) useFft
            else .error (.runtimeError ecdf2LengthsMsg)) = ecdf2 w.env w.sort b' B' useFft := by
        intro useFft
        by_cases h1 : b.length = max b.length B.length ∧ B.length = max b.length B.length
        · rw [if_pos h1]
          exact Or.inr ⟨b, B, Or.inl ⟨by omega, rfl, rfl⟩, rfl⟩
        · rw [if_neg h1]
          by_cases h2 : b.length = 0 ∧ B.length = max b.length B.length
          · rw [if_pos h2]
            refine Or.inr ⟨_, B, Or.inr (Or.inl ⟨List.length_eq_zero_iff.mp h2.1, ?_, by rw [← h2.2], rfl⟩), rfl⟩
            rintro rfl
            simp at h1
            omega
          · rw [if_neg h2]
            by_cases h3 : b.length = max b.length B.length ∧ B.length = 0
            · rw [if_pos h3]
              refine Or.inr ⟨b, _, Or.inr (Or.inr ⟨?_, List.length_eq_zero_iff.mp h3.2, rfl, by rw [← h3.1]⟩), rfl⟩
              rintro rfl
              simp at h1
              omega
            · rw [if_neg h3]
              refine Or.inl ⟨rfl, ?_⟩
              rintro b' B' (⟨h, _⟩ | ⟨rfl, _⟩ | ⟨_, rfl, _⟩)
              · omega
              · simp at h2
              · simp at h3
      by_cases c3 : command = "ecdf2-ks2001".toList
      · rw [if_pos c3]
        have c3' := (hstr _).mp c3
        unfold calculateEcdf2Ks2001
        rcases pad false with ⟨h1, h2⟩ | ⟨b', B', h1, h2⟩
        · refine Or.inr ⟨?_, _, h1⟩
          unfold Computes
          rw [c3']
          rintro m (⟨h, _⟩ | ⟨h, _⟩ | ⟨_, b', B', hp, _⟩ | ⟨h, _⟩)
          · exact absurd h (by decide)
          · exact absurd h (by decide)
          · exact h2 b' B' hp
          · exact absurd h (by decide)
        · exact Or.inl ⟨_, Or.inr (Or.inr (Or.inl ⟨c3', b', B', h1, rfl⟩)), h2⟩
      · rw [if_neg c3]
        by_cases c4 : command = "ecdf2-mn2017".toList
        · rw [if_pos c4]
          have c4' := (hstr _).mp c4
          unfold calculateEcdf2Mn2017
          rcases pad true with ⟨h1, h2⟩ | ⟨b', B', h1, h2⟩
          · refine Or.inr ⟨?_, _, h1⟩
            unfold Computes
            rw [c4']
            rintro m (⟨h, _⟩ | ⟨h, _⟩ | ⟨h, _⟩ | ⟨_, b', B', hp, _⟩)
            · exact absurd h (by decide)
            · exact absurd h (by decide)
            · exact absurd h (by decide)
            · exact h2 b' B' hp
          · exact Or.inl ⟨_, Or.inr (Or.inr (Or.inr ⟨c4', b', B', h1, rfl⟩)), h2⟩
        · rw [if_neg c4]
          refine Or.inr ⟨?_, _, rfl⟩
          rintro m (⟨h, _⟩ | ⟨h, _⟩ | ⟨h, _⟩ | ⟨h, _⟩)
          · exact c1 ((hstr _).mpr h)
          · exact c2 ((hstr _).mpr h)
          · exact c3 ((hstr _).mpr h)
          · exact c4 ((hstr _).mpr h)

theorem padded_unique {b B b1 B1 b2 B2 : List F} (h1 : Computes.Padded b B b1 B1) (h2 : Computes.Padded b B b2 B2) :
    b1 = b2 ∧ B1 = B2 := by
  rcases h1 with ⟨hl, rfl, rfl⟩ | ⟨hb, hB, rfl, rfl⟩ | ⟨hb, hB, rfl, rfl⟩ <;>
  rcases h2 with ⟨hl', rfl, rfl⟩ | ⟨hb', hB', rfl, rfl⟩ | ⟨hb', hB', rfl, rfl⟩ <;> simp_all

theorem computes_unique {w : World F} {command : String} {b B : List F} {m m' : M F} (h : Computes w command b B m)
    (h' : Computes w command b B m') : m = m' := by
  rcases h with ⟨rfl, ⟨h1, h2, rfl⟩ | ⟨h1, h2, rfl⟩⟩ | ⟨rfl, ⟨h1, h2, rfl⟩ | ⟨h1, h2, rfl⟩⟩ | ⟨rfl, b', B', hp, rfl⟩ | ⟨rfl, b', B', hp, rfl⟩ <;>
  rcases h' with ⟨e, ⟨h1', h2', rfl⟩ | ⟨h1', h2', rfl⟩⟩ | ⟨e, ⟨h1', h2', rfl⟩ | ⟨h1', h2', rfl⟩⟩ | ⟨e, b2, B2, hp', rfl⟩ | ⟨e, b2, B2, hp', rfl⟩ <;>
  first
  | rfl
  | exact absurd e (by decide)
  | exact absurd h1 h1'
  | exact absurd h1' h1
  | (obtain ⟨rfl, rfl⟩ := padded_unique hp hp'; rfl)

theorem computes_cleanOrAbort {w : World F} (hperm : ∀ l, (w.sort l).Perm l) {command : String} {b B : List F} {m : M F}
    (h : Computes w command b B m) : CleanOrAbort m ∧ (w.env.asserts = false → Clean m) := by
  have hnewB : ∀ v : List F, v ≠ [] → CleanOrAbort (ecdf1NewB w.env w.isqrt v) ∧
      (w.env.asserts = false → Clean (ecdf1NewB w.env w.isqrt v)) := fun v hv =>
    ⟨cleanOrAbort_of_erases (ecdf1NewB_erase w.env w.isqrt v)
      (C17_new_B_release w.env.noAsserts rfl w.isqrt v (List.length_pos_iff.mpr hv)),
     fun ha => C17_new_B_release w.env ha w.isqrt v (List.length_pos_iff.mpr hv)⟩
  have hnewb : ∀ v : List F, v ≠ [] → CleanOrAbort (ecdf1Newb w.env w.isqrt v) ∧
      (w.env.asserts = false → Clean (ecdf1Newb w.env w.isqrt v)) := fun v hv =>
    ⟨cleanOrAbort_of_erases (ecdf1Newb_erase w.env w.isqrt v)
      (C17_new_b_release w.env.noAsserts rfl w.isqrt v (List.length_pos_iff.mpr hv)),
     fun ha => C17_new_b_release w.env ha w.isqrt v (List.length_pos_iff.mpr hv)⟩
  have h2 : ∀ b' B' f, CleanOrAbort (ecdf2 w.env w.sort b' B' f) ∧
      (w.env.asserts = false → Clean (ecdf2 w.env w.sort b' B' f)) := fun b' B' f =>
    ⟨(C16_ecdf2_any w.env hperm b' B' f).1, fun ha => C16_ecdf2_release w.env ha hperm b' B' f⟩
  rcases h with ⟨_, ⟨_, _, rfl⟩ | ⟨_, _, rfl⟩⟩ | ⟨_, ⟨hb, _, rfl⟩ | ⟨_, hB, rfl⟩⟩ | ⟨_, b', B', _, rfl⟩ | ⟨_, b', B', _, rfl⟩
  · have := C18_mns2016_b w.env (fun _ => FOps.frexpExp) b
    exact ⟨Or.inl this, fun _ => this⟩
  · exact ⟨Or.inl (C18_mns2016_B w.env B), fun _ => C18_mns2016_B w.env B⟩
  · exact hnewb b hb
  · exact hnewB B hB
  · exact h2 b' B' false
  · exact h2 b' B' true

/-- C26: usage and exit code 1 exactly when there are not exactly two arguments. -/
theorem C26_usage (w : World F) (args : List Str) : crossprobMain w args = .usage ↔ args.length ≠ 2 := by
  match args with
  | [] => simp [crossprobMain]
  | [a] => simp [crossprobMain]
  | [c, f] =>
    simp only [List.length_cons, List.length_nil, Nat.reduceAdd, ne_eq, not_true_eq_false, iff_false]
    unfold crossprobMain
    dsimp only
    intro h
    split at h <;> cases h
  | a :: b :: c :: l => simp [crossprobMain]

/-- C26: exit code 0 with a printed result exactly when the file can be read and the algorithm named on the
command line returns that result on its contents. -/
theorem C26_printed (w : World F) (args : List Str) (r : F) :
    crossprobMain w args = .printed r ↔ ∃ command name b B, args = [command, name] ∧
      readAndCheckBoundariesFile w.libc w.fs name = .ok (b, B) ∧ Computes w (String.ofList command) b B (.ok r) := by
  constructor
  · intro h
    have hl : args.length = 2 := by
      by_contra hc
      rw [(C26_usage w args).mpr hc] at h
      cases h
    obtain ⟨c, f, rfl⟩ := List.length_eq_two.mp hl
    unfold crossprobMain at h
    dsimp only at h
    have hh : handleCommandLineArguments w c f = .ok r := by
      cases e : handleCommandLineArguments w c f with
      | ok a => rw [e] at h; cases h; rfl
      | error e' => rw [e] at h; cases e' <;> cases h
    cases hr : readAndCheckBoundariesFile w.libc w.fs f with
    | error e => unfold handleCommandLineArguments at hh; rw [hr] at hh; cases hh
    | ok p =>
      obtain ⟨b, B⟩ := p
      rcases dispatch_cases w c f b B hr with ⟨m, hm, he⟩ | ⟨_, msg, he⟩
      · rw [hh] at he
        exact ⟨c, f, b, B, rfl, hr, he ▸ hm⟩
      · rw [hh] at he; cases he
  · rintro ⟨c, f, b, B, rfl, hr, hc⟩
    rcases dispatch_cases w c f b B hr with ⟨m, hm, he⟩ | ⟨hno, _⟩
    · have : m = .ok r := computes_unique hm hc
      unfold crossprobMain
      dsimp only
      rw [he, this]
    · exact absurd hc (hno _)

/-- C26: exit code 2 exactly on a stream failure while reading the file. -/
theorem C26_io (w : World F) (hperm : ∀ l, (w.sort l).Perm l) (args : List Str) :
    crossprobMain w args = .ioError ↔ ∃ command name, args = [command, name] ∧
      readAndCheckBoundariesFile w.libc w.fs name = .error .ioFailure := by
  constructor
  · intro h
    have hl : args.length = 2 := by
      by_contra hc
      rw [(C26_usage w args).mpr hc] at h
      cases h
    obtain ⟨c, f, rfl⟩ := List.length_eq_two.mp hl
    refine ⟨c, f, rfl, ?_⟩
    have hh : handleCommandLineArguments w c f = .error .ioFailure := by
      unfold crossprobMain at h
      dsimp only at h
      cases e : handleCommandLineArguments w c f with
      | ok a => rw [e] at h; cases h
      | error e' => rw [e] at h; cases e' <;> first | rfl | cases h
    cases hr : readAndCheckBoundariesFile w.libc w.fs f with
    | error e => unfold handleCommandLineArguments at hh; rw [hr] at hh; have h3 : (Except.error e : M F) = .error .ioFailure := hh; cases h3; rfl
    | ok p =>
      exfalso
      obtain ⟨b, B⟩ := p
      rcases dispatch_cases w c f b B hr with ⟨m, hm, he⟩ | ⟨_, msg, he⟩
      · rw [hh] at he
        rcases (computes_cleanOrAbort hperm hm).1 with (⟨a, ha⟩ | ⟨a, ha⟩) | ⟨a, ha⟩ <;> (rw [ha] at he; cases he)
      · rw [hh] at he; cases he
  · rintro ⟨c, f, rfl, hr⟩
    unfold crossprobMain handleCommandLineArguments
    dsimp only
    rw [hr]
    rfl

/-- C26: exit code 3 exactly when the file is unreadable or malformed, the command is unknown or does not
fit the two lists, or the algorithm throws. -/
theorem C26_error (w : World F) (args : List Str) :
    (∃ msg, crossprobMain w args = .error msg) ↔ ∃ command name, args = [command, name] ∧
      ((∃ msg, readAndCheckBoundariesFile w.libc w.fs name = .error (.runtimeError msg)) ∨
       ∃ b B, readAndCheckBoundariesFile w.libc w.fs name = .ok (b, B) ∧
        ((∀ m, ¬ Computes w (String.ofList command) b B m) ∨
         ∃ msg, Computes w (String.ofList command) b B (.error (.runtimeError msg)))) := by
  constructor
  · rintro ⟨msg, h⟩
    have hl : args.length = 2 := by
      by_contra hc
      rw [(C26_usage w args).mpr hc] at h
      cases h
    obtain ⟨c, f, rfl⟩ := List.length_eq_two.mp hl
    refine ⟨c, f, rfl, ?_⟩
    have hh : handleCommandLineArguments w c f = .error (.runtimeError msg) := by
      unfold crossprobMain at h
      dsimp only at h
      cases e : handleCommandLineArguments w c f with
      | ok a => rw [e] at h; cases h
      | error e' => rw [e] at h; cases e' <;> first | (cases h; rfl) | cases h
    cases hr : readAndCheckBoundariesFile w.libc w.fs f with
    | error e => unfold handleCommandLineArguments at hh; rw [hr] at hh; have h3 : (Except.error e : M F) = .error (.runtimeError msg) := hh; cases h3; exact Or.inl ⟨msg, rfl⟩
    | ok p =>
      obtain ⟨b, B⟩ := p
      refine Or.inr ⟨b, B, rfl, ?_⟩
      rcases dispatch_cases w c f b B hr with ⟨m, hm, he⟩ | ⟨hno, _⟩
      · rw [hh] at he
        exact Or.inr ⟨msg, he ▸ hm⟩
      · exact Or.inl hno
  · rintro ⟨c, f, rfl, ⟨msg, hr⟩ | ⟨b, B, hr, h⟩⟩
    · refine ⟨msg, ?_⟩
      unfold crossprobMain handleCommandLineArguments
      dsimp only
      rw [hr]
      rfl
    · have : ∃ msg, handleCommandLineArguments w c f = .error (.runtimeError msg) := by
        rcases dispatch_cases w c f b B hr with ⟨m, hm, he⟩ | ⟨_, msg, he⟩
        · rcases h with h | ⟨msg, h⟩
          · exact absurd hm (h m)
          · exact ⟨msg, he.trans (computes_unique hm h)⟩
        · exact ⟨msg, he⟩
      obtain ⟨msg, he⟩ := this
      refine ⟨msg, ?_⟩
      unfold crossprobMain
      dsimp only
      rw [he]

/-- C26: for all arguments, files, arithmetic and libraries, the program ends with one of the four exit codes
or, if assertions are compiled in, with an abort: it never hangs and never performs an undefined access. -/
theorem C26_total (w : World F) (hperm : ∀ l, (w.sort l).Perm l) (args : List Str) :
    (∃ code ∈ [0, 1, 2, 3], (crossprobMain w args).exitCode = some code) ∨
    (w.env.asserts = true ∧ crossprobMain w args = .aborted) := by
  by_cases hl : args.length = 2
  · obtain ⟨c, f, rfl⟩ := List.length_eq_two.mp hl
    unfold crossprobMain
    dsimp only
    rcases C30_outcomes w.libc w.fs f with (⟨⟨b, B⟩, hr⟩ | ⟨msg, hr⟩) | hr
    · have key : (Clean (handleCommandLineArguments w c f)) ∨
          (w.env.asserts = true ∧ ∃ msg, handleCommandLineArguments w c f = .error (.assertFailed msg)) := by
        rcases dispatch_cases w c f b B hr with ⟨m, hm, he⟩ | ⟨_, msg, he⟩
        · rw [he]
          obtain ⟨h1, h2⟩ := computes_cleanOrAbort hperm hm
          cases ha : w.env.asserts with
          | false => exact Or.inl (h2 ha)
          | true =>
            rcases h1 with h1 | h1
            · exact Or.inl h1
            · exact Or.inr ⟨rfl, h1⟩
        · exact Or.inl (Or.inr ⟨msg, he⟩)
      rcases key with (⟨r, h⟩ | ⟨msg, h⟩) | ⟨ha, msg, h⟩
      · rw [h]; exact Or.inl ⟨0, by simp, rfl⟩
      · rw [h]; exact Or.inl ⟨3, by simp, rfl⟩
      · rw [h]; exact Or.inr ⟨ha, rfl⟩
    · have : handleCommandLineArguments w c f = .error (.runtimeError msg) := by
        unfold handleCommandLineArguments
        rw [hr]
        rfl
      rw [this]
      exact Or.inl ⟨3, by simp, rfl⟩
    · have : handleCommandLineArguments w c f = .error .ioFailure := by
        unfold handleCommandLineArguments
        rw [hr]
        rfl
      rw [this]
      exact Or.inl ⟨2, by simp, rfl⟩
  · rw [(C26_usage w args).mpr hl]
    exact Or.inl ⟨1, by simp, rfl⟩

/-- C26: an unknown command is reported as such, once the file has been read successfully. -/
theorem C26_unknown_command (w : World F) (command name : Str) (b B : List F)
    (hr : readAndCheckBoundariesFile w.libc w.fs name = .ok (b, B))
    (hc : String.ofList command ∉ ["ecdf1-mns2016", "ecdf1-new", "ecdf2-ks2001", "ecdf2-mn2017"]) :
    crossprobMain w [command, name] = .error "Second command line argument must be one of: 'ecdf1-mns2016', 'ecdf1-new', 'ecdf2-ks2001', 'ecdf2-mn2017'." := by
  simp only [List.mem_cons, List.not_mem_nil, or_false, not_or] at hc
  have hne : ∀ s : String, String.ofList command ≠ s → command ≠ s.toList := by
    rintro s h rfl
    exact h String.ofList_toList
  unfold crossprobMain handleCommandLineArguments
  dsimp only
  rw [hr, M_ok_bind]
  dsimp only
  rw [if_neg (hne _ hc.1), if_neg (hne _ hc.2.1), if_neg (hne _ hc.2.2.1), if_neg (hne _ hc.2.2.2)]
  rfl

/-! ## C41 -/

/-- The line with the given fields, separated by commas. -/
def lineOf {n : ℕ} (fs : Fin n → Field) : Str := List.intercalate [','] ((List.ofFn fs).map Field.text)

/-- The numbers written in the fields. -/
noncomputable def valuesOf {n : ℕ} (fs : Fin n → Field) : Fin n → ℝ := fun i => (fs i).num.value

theorem parse_lineOf {libc : Libc XR} (hspec : StrtodSpec libc.strtod XR.fin fun _ => True) {n : ℕ} (fs : Fin n → Field)
    (hwf : ∀ i, (fs i).WF) : readCommaDelimitedDoubles libc (lineOf fs) = .ok (toList (valuesOf fs)) := by
  by_cases hn : n = 0
  · subst hn
    have : lineOf fs = [] := by simp [lineOf, List.intercalate]
    rw [this, C28_empty]
    simp [toList]
  · unfold lineOf
    rw [C28_line hspec _ (by simpa using hn) (by
      intro f hf
      obtain ⟨i, rfl⟩ := (List.mem_ofFn' fs f).mp hf
      exact hwf i) (fun _ _ => trivial)]
    simp [toList, valuesOf, List.map_ofFn]
    rfl

/-- C41 (two-sided): if the first two lines of the file are comma-separated decimal numbers forming valid
boundaries of the same length, the `ecdf2-*` commands print exactly the non-crossing probability of those
numbers and exit with code 0. -/
theorem C41_two_sided (w : World XR) (hf : ExactFFT w.env.fft) (hsort : SortContract w.sort)
    (hspec : StrtodSpec w.libc.strtod XR.fin fun _ => True) {n : ℕ} (fb fB : Fin n → Field)
    (hfb : ∀ i, (fb i).WF) (hfB : ∀ i, (fB i).WF) (hb : ValidBound (valuesOf fb)) (hB : ValidBound (valuesOf fB))
    (name text : Str) (hfile : w.fs name = .contents text) (hlines : FirstTwoLines text (lineOf fb) (lineOf fB))
    (command : String) (hc : command = "ecdf2-ks2001" ∨ command = "ecdf2-mn2017")
    (ha : w.env.asserts = false ∨ ¬ StronglyCrossed (valuesOf fb) (valuesOf fB)) :
    crossprobMain w [command.toList, name] = .printed (XR.fin (noncrossProb (valuesOf fb) (valuesOf fB))) := by
  rw [C26_printed]
  refine ⟨command.toList, name, toList (valuesOf fb), toList (valuesOf fB), rfl, ?_, ?_⟩
  · rw [C30_two_lines w.libc w.fs name text _ _ hfile hlines, parse_lineOf hspec fb hfb, parse_lineOf hspec fB hfB]
    rfl
  · rw [String.ofList_toList]
    have hp : Computes.Padded (toList (valuesOf fb)) (toList (valuesOf fB)) (toList (valuesOf fb)) (toList (valuesOf fB)) :=
      Or.inl ⟨by simp [toList], rfl, rfl⟩
    rcases hc with rfl | rfl
    · exact Or.inr (Or.inr (Or.inl ⟨rfl, _, _, hp, (C01_ecdf2 w.env hf hsort hb hB false ha).symm⟩))
    · exact Or.inr (Or.inr (Or.inr ⟨rfl, _, _, hp, (C01_ecdf2 w.env hf hsort hb hB true ha).symm⟩))

/-- C41 (upper boundary only): an empty first line and a line of numbers; every command prints the one-sided
probability. -/
theorem C41_upper (w : World XR) (hf : ExactFFT w.env.fft) (hsort : SortContract w.sort) (hsq : w.isqrt = Nat.sqrt)
    (hspec : StrtodSpec w.libc.strtod XR.fin fun _ => True) {n : ℕ} (hn : 1 ≤ n) (fB : Fin n → Field)
    (hfB : ∀ i, (fB i).WF) (hB : ValidBound (valuesOf fB))
    (name text : Str) (hfile : w.fs name = .contents text) (hlines : FirstTwoLines text [] (lineOf fB))
    (command : String) (hc : command ∈ ["ecdf1-mns2016", "ecdf1-new", "ecdf2-ks2001", "ecdf2-mn2017"])
    (ha : command = "ecdf1-new" → w.env.asserts = false ∨ 2 ≤ n) :
    crossprobMain w [command.toList, name] = .printed (XR.fin (upperProb (valuesOf fB))) := by
  rw [C26_printed]
  refine ⟨command.toList, name, [], toList (valuesOf fB), rfl, ?_, ?_⟩
  · rw [C30_two_lines w.libc w.fs name text _ _ hfile hlines, C28_empty, parse_lineOf hspec fB hfB]
    rfl
  · rw [String.ofList_toList]
    have hne : toList (valuesOf fB) ≠ [] := by
      intro h
      have := congrArg List.length h
      simp [toList] at this
      omega
    have hl : (toList (valuesOf fB)).length = n := by simp [toList]
    have hp : Computes.Padded [] (toList (valuesOf fB)) (List.replicate n FOps.zero) (toList (valuesOf fB)) :=
      Or.inr (Or.inl ⟨rfl, hne, by rw [hl], rfl⟩)
    have e : List.replicate n (FOps.zero : XR) = toList (fun _ : Fin n => (0 : ℝ)) := by
      simp [toList, List.ofFn_const]
    have key : ∀ f, ecdf2 w.env w.sort (List.replicate n FOps.zero) (toList (valuesOf fB)) f
        = .ok (XR.fin (upperProb (valuesOf fB))) := by
      intro f
      rw [e, C01_ecdf2 w.env hf hsort ⟨fun _ _ _ => le_rfl, fun _ => ⟨le_rfl, zero_le_one⟩⟩ hB,
        noncrossProb_zeros fun _ => le_rfl]
      right
      rintro ⟨i, j, _, h⟩
      exact absurd (hB.range j).1 (not_le.mpr h)
    simp only [List.mem_cons, List.not_mem_nil, or_false] at hc
    rcases hc with rfl | rfl | rfl | rfl
    · exact Or.inl ⟨rfl, Or.inr ⟨rfl, hne, (C05_ecdf1_mns2016_B w.env hB).symm⟩⟩
    · refine Or.inr (Or.inl ⟨rfl, Or.inr ⟨rfl, hne, ?_⟩⟩)
      rw [hsq]
      exact (C02_ecdf1_new_B w.env hf hn hB (ha rfl)).symm
    · exact Or.inr (Or.inr (Or.inl ⟨rfl, _, _, hp, (key false).symm⟩))
    · exact Or.inr (Or.inr (Or.inr ⟨rfl, _, _, hp, (key true).symm⟩))

/-- C41 (lower boundary only): a line of numbers followed by an empty line. -/
theorem C41_lower (w : World XR) (hf : ExactFFT w.env.fft) (hsort : SortContract w.sort) (hsq : w.isqrt = Nat.sqrt)
    (hspec : StrtodSpec w.libc.strtod XR.fin fun _ => True) {n : ℕ} (hn : 1 ≤ n) (fb : Fin n → Field)
    (hfb : ∀ i, (fb i).WF) (hb : ValidBound (valuesOf fb))
    (name text : Str) (hfile : w.fs name = .contents text) (hlines : FirstTwoLines text (lineOf fb) [])
    (command : String) (hc : command ∈ ["ecdf1-mns2016", "ecdf1-new", "ecdf2-ks2001", "ecdf2-mn2017"])
    (ha : command = "ecdf1-new" → w.env.asserts = false ∨ 2 ≤ n) :
    crossprobMain w [command.toList, name] = .printed (XR.fin (lowerProb (valuesOf fb))) := by
  rw [C26_printed]
  refine ⟨command.toList, name, toList (valuesOf fb), [], rfl, ?_, ?_⟩
  · rw [C30_two_lines w.libc w.fs name text _ _ hfile hlines, C28_empty, parse_lineOf hspec fb hfb]
    rfl
  · rw [String.ofList_toList]
    have hne : toList (valuesOf fb) ≠ [] := by
      intro h
      have := congrArg List.length h
      simp [toList] at this
      omega
    have hl : (toList (valuesOf fb)).length = n := by simp [toList]
    have hp : Computes.Padded (toList (valuesOf fb)) [] (toList (valuesOf fb)) (List.replicate n FOps.one) :=
      Or.inr (Or.inr ⟨hne, rfl, rfl, by rw [hl]⟩)
    have e : List.replicate n (FOps.one : XR) = toList (fun _ : Fin n => (1 : ℝ)) := by
      simp [toList, List.ofFn_const]
    have key : ∀ f, ecdf2 w.env w.sort (toList (valuesOf fb)) (List.replicate n FOps.one) f
        = .ok (XR.fin (lowerProb (valuesOf fb))) := by
      intro f
      rw [e, C01_ecdf2 w.env hf hsort hb ⟨fun _ _ _ => le_rfl, fun _ => ⟨zero_le_one, le_rfl⟩⟩,
        noncrossProb_ones fun _ => le_rfl]
      right
      rintro ⟨i, j, _, h⟩
      exact absurd (hb.range i).2 (not_le.mpr h)
    simp only [List.mem_cons, List.not_mem_nil, or_false] at hc
    rcases hc with rfl | rfl | rfl | rfl
    · exact Or.inl ⟨rfl, Or.inl ⟨hne, rfl, (C04_ecdf1_mns2016_b w.env hb).symm⟩⟩
    · refine Or.inr (Or.inl ⟨rfl, Or.inl ⟨hne, rfl, ?_⟩⟩)
      rw [hsq]
      exact (C03_ecdf1_new_b w.env hf hn hb (ha rfl)).symm
    · exact Or.inr (Or.inr (Or.inl ⟨rfl, _, _, hp, (key false).symm⟩))
    · exact Or.inr (Or.inr (Or.inr ⟨rfl, _, _, hp, (key true).symm⟩))

/-- A one-digit decimal `0.d`. -/
def tenth (d : Char) : Field := ⟨[], ⟨.none, ['0'], some [d], none⟩, []⟩

theorem tenth_wf {d : Char} (h : d.isDigit = true) : (tenth d).WF := by
  refine ⟨by simp [tenth], ⟨by simp [tenth, AllDigits], ?_, by simp [tenth], by simp [tenth]⟩, ?_, by simp [tenth]⟩
  · intro c hc
    simp [tenth, Dec.fracDigits] at hc
    subst hc; exact h
  · intro c hc; cases hc

theorem tenth_value {d : Char} {k : ℕ} (h : natOf ['0', d] = k) : (tenth d).num.value = k / 10 := by
  simp only [Dec.value, tenth, Sign.unit, Dec.fracDigits, Dec.expVal, Option.getD_some, List.cons_append, List.nil_append, h]
  norm_num
  ring

theorem exWorld_fs (a : Bool) (file : Str) : (exWorld a file).fs "bounds.txt".toList = .contents file := by
  unfold exWorld
  dsimp only
  rw [if_pos rfl]

theorem exLines : FirstTwoLines "0.1,0.3\n0.5,0.9\n".toList (lineOf ![tenth '1', tenth '3']) (lineOf ![tenth '5', tenth '9']) := by
  have e1 : lineOf ![tenth '1', tenth '3'] = "0.1,0.3".toList := by decide
  have e2 : lineOf ![tenth '5', tenth '9'] = "0.5,0.9".toList := by decide
  rw [e1, e2]
  exact ⟨by decide, by decide, Or.inl ⟨[], rfl⟩⟩

/-- The whole program on the file `0.1,0.3⏎0.5,0.9⏎`, in the assertion build. -/
example : crossprobMain (exWorld true "0.1,0.3\n0.5,0.9\n".toList) ["ecdf2-mn2017".toList, "bounds.txt".toList]
    = .printed (XR.fin (noncrossProb exb exB)) := by
  have h1 : valuesOf ![tenth '1', tenth '3'] = exb := by
    funext i
    fin_cases i
    · exact (tenth_value (d := '1') (k := 1) (by decide)).trans (by norm_num [exb])
    · exact (tenth_value (d := '3') (k := 3) (by decide)).trans (by norm_num [exb])
  have h2 : valuesOf ![tenth '5', tenth '9'] = exB := by
    funext i
    fin_cases i
    · exact (tenth_value (d := '5') (k := 5) (by decide)).trans (by norm_num [exB])
    · exact (tenth_value (d := '9') (k := 9) (by decide)).trans (by norm_num [exB])
  have := C41_two_sided (exWorld true "0.1,0.3\n0.5,0.9\n".toList) exactFFTW_exact mergeSortBounds_contract
    Witness.strtod_spec ![tenth '1', tenth '3'] ![tenth '5', tenth '9']
    (by intro i; fin_cases i <;> exact tenth_wf rfl) (by intro i; fin_cases i <;> exact tenth_wf rfl)
    (h1 ▸ exb_valid) (h2 ▸ exB_valid) "bounds.txt".toList "0.1,0.3\n0.5,0.9\n".toList (exWorld_fs _ _)
    exLines "ecdf2-mn2017" (Or.inr rfl)
    (Or.inr (by
      rw [h1, h2]
      rintro ⟨i, j, hij, h⟩
      fin_cases i <;> fin_cases j <;> simp [exb, exB] at hij h
      norm_num at h))
  rw [h1, h2] at this
  exact this

end CP.Props
