import Verif.Model.PyObject
import Verif.Props.Ownership
import Verif.Props.Python
/-
Lemmas for property C89.
-/
namespace CP.Props
open CP CP.Spec
variable {F : Type} [FOps F] {σ : Type}

set_option linter.unusedSectionVars false

/-! ## Specification -/

/-- The object gives the same answers whenever it is asked (`none`: an exception); its methods may have other effects. -/
structure Steady (s : PySeq F σ) (len : Option ℕ) (item : ℕ → Option (PyItem F)) : Prop where
  len_eq : ∀ p, (s.len p).1 = len
  get_eq : ∀ i p, (s.get i p).1 = item i

/-- The object is a list, tuple, array, ... with these elements. -/
def ListLike (s : PySeq F σ) (items : List (PyItem F)) : Prop :=
  (∀ p, (s.len p).1 = some items.length) ∧ ∀ i (h : i < items.length) p, (s.get i p).1 = some items[i]

/-- The number that an element is: `float` and `int` objects are numbers, except for an `int` too large for a `double`. -/
def itemValue (longAsDouble : ℤ → Option F) : PyItem F → Option F
  | .float x => some x
  | .int z => longAsDouble z
  | .other => none

/-- What an object is to the five functions (in the terms of C49). -/
inductive Means (longAsDouble : ℤ → Option F) : PyObj F σ → PyArg F → Prop
  | none : Means longAsDouble .none .none
  | bool (b : Bool) : Means longAsDouble (.bool b) (.bool b)
  | vectorDouble (v : List F) : Means longAsDouble (.vectorDouble v) (.numbers v)
  | proxy : Means longAsDouble .proxy .other
  | plain : Means longAsDouble .plain .other
  | numbers {s : PySeq F σ} {items : List (PyItem F)} {v : List F} (hs : ListLike s items)
      (hv : items.map (itemValue longAsDouble) = v.map some) : Means longAsDouble (.seq s) (.numbers v)
  | notNumbers {s : PySeq F σ} {items : List (PyItem F)} {x : PyItem F} (hs : ListLike s items) (hx : x ∈ items)
      (hv : itemValue longAsDouble x = Option.none) : Means longAsDouble (.seq s) .other

/-- Blocks leaked by refusing an object: one if it is a sequence. -/
def refusalLeak : PyObj F σ → PyArg F → ℕ
  | .seq _, .other => 1
  | _, _ => 0

/-- Blocks left by a call with one argument, if the function itself leaves `k`. -/
def callLeak (o : PyObj F σ) : PyArg F → ℕ → ℕ
  | .numbers _, k => k
  | a, _ => refusalLeak o a

/-- This answer of `__getitem__` is read as a number; after a failed `__len__` an `int` is not. -/
def IsRead (longAsDouble : ℤ → Option F) (len : Option ℕ) (item : Option (PyItem F)) : Prop :=
  (∃ x, item = some (.float x)) ∨ (len ≠ none ∧ ∃ z x, item = some (.int z) ∧ longAsDouble z = some x)

/-- Item `i` is the first one, before the end if there is an end, that is not read as a number. -/
def FirstUnread (longAsDouble : ℤ → Option F) (len : Option ℕ) (item : ℕ → Option (PyItem F)) (i : ℕ) : Prop :=
  (∀ n, len = some n → i < n) ∧ (∀ j, j < i → IsRead longAsDouble len (item j)) ∧ ¬ IsRead longAsDouble len (item i)

/-- However long one waits from some time on, the call has ended with this outcome, and exactly `k` blocks are live that were not
live before the call; the error indicator has been reset. -/
def EndsWith (call : ℕ → Option (PyOutcome F × PyState σ)) (o : PyOutcome F) (k : ℕ) (w : HWorld) : Prop :=
  ∃ st', (∃ fuel0, ∀ fuel, fuel0 ≤ fuel → call fuel = some (o, st')) ∧
    (∃ hs : List ℕ, hs.length = k ∧ (∀ h ∈ hs, h ∉ w.live) ∧ st'.heap.live.Perm (hs ++ w.live)) ∧ Allocator st'.heap ∧ st'.err = false

/-- The call accesses memory through a null pointer: the interpreter is killed, or anything else happens. -/
def Crashes (call : ℕ → Option (PyOutcome F × PyState σ)) : Prop :=
  ∃ st' fuel0, ∀ fuel, fuel0 ≤ fuel → call fuel = some (.result .undefined, st')

/-- The call never ends. -/
def Hangs (call : ℕ → Option (PyOutcome F × PyState σ)) : Prop := ∀ fuel, call fuel = none

/-! ## Reading the sequence -/

/-- The number read for an item; an `int` is not read after a failed `__len__`. -/
def usable (lad : ℤ → Option F) (len : Option ℕ) : Option (PyItem F) → Option F
  | some (.float x) => some x
  | some (.int z) => if len.isNone then none else lad z
  | _ => none

/-- `Py_ssize_t` returned by `PySequence_Size`. -/
def ssize : Option ℕ → ℤ
  | some n => n
  | none => -1

theorem seqSize_eq {s : PySeq F σ} {len : Option ℕ} (hs : ∀ p, (s.len p).1 = len) (st : PyState σ) :
    ∃ p, seqSize s st = (ssize len, ⟨st.heap, p, st.err || len.isNone⟩) := by
  have h := hs st.py
  unfold seqSize
  rcases hl : s.len st.py with ⟨l, p⟩
  rw [hl] at h
  obtain rfl : l = len := h
  cases l with
  | none => exact ⟨p, by simp [ssize]⟩
  | some n => exact ⟨p, by simp [ssize]⟩

theorem assign_step {lad : ℤ → Option F} {s : PySeq F σ} {len : Option ℕ} (hs : ∀ p, (s.len p).1 = len)
    {i : ℕ} {item : Option (PyItem F)} (hget : ∀ p, (s.get i p).1 = item)
    (acc : List F) (st : PyState σ) (he : st.err = false ∨ len = none) (hn : len ≠ some i) :
    ∃ p, ∀ fuel, assignSeq lad s (fuel + 1) i acc st =
      match usable lad len item with
      | some x => assignSeq lad s fuel (i + 1) (acc ++ [x]) ⟨st.heap, p, len.isNone⟩
      | none => match item with
        | none => some (.crash, ⟨st.heap, p, len.isNone⟩)
        | some _ => some (.bad, ⟨st.heap, p, true⟩) := by
  obtain ⟨p, hp⟩ := seqSize_eq hs st
  have herr : (st.err || len.isNone) = len.isNone := by
    rcases he with he | he <;> simp [he]
  rw [herr] at hp
  have hg := hget p
  rcases hq : s.get i p with ⟨it, q⟩
  rw [hq] at hg
  obtain rfl : it = item := hg
  refine ⟨q, fun fuel => ?_⟩
  have hne : ¬ ((i : ℤ) = ssize len) := by
    cases len with
    | none => simp [ssize]
    | some n => simp only [ne_eq, Option.some.injEq] at hn; simp [ssize]; omega
  rw [assignSeq]
  simp only [hp]
  rw [if_neg hne]
  change (match asElem lad len.isNone (s.get i p).1 with
    | .crash => some (.crash, ⟨st.heap, (s.get i p).2, len.isNone⟩)
    | .bad => some (.bad, ⟨st.heap, (s.get i p).2, true⟩)
    | .number x => assignSeq lad s fuel (i + 1) (acc ++ [x]) ⟨st.heap, (s.get i p).2, len.isNone⟩ :
      Option (PyAssign F × PyState σ)) = _
  rw [hq]
  cases it with
  | none => simp [usable, asElem]
  | some x =>
    cases x with
    | float x => simp [usable, asElem]
    | other => simp [usable, asElem]
    | int z =>
      cases hz : lad z with
      | none => cases len <;> simp [usable, asElem, hz]
      | some y => cases len <;> simp [usable, asElem, hz]

theorem assign_stop {lad : ℤ → Option F} {s : PySeq F σ} {i : ℕ} (hs : ∀ p, (s.len p).1 = some i)
    (acc : List F) (st : PyState σ) (he : st.err = false) :
    ∃ p, ∀ fuel, assignSeq lad s (fuel + 1) i acc st = some (.done acc, ⟨st.heap, p, false⟩) := by
  obtain ⟨p, hp⟩ := seqSize_eq hs st
  refine ⟨p, fun fuel => ?_⟩
  rw [assignSeq]
  simp [hp, he, ssize]

/-- Reading the numbers `xs`. -/
theorem assign_prefix {lad : ℤ → Option F} {s : PySeq F σ} {len : Option ℕ} (hs : ∀ p, (s.len p).1 = len) :
    ∀ (xs : List F) (i : ℕ) (acc : List F) (st : PyState σ), (st.err = false ∨ len = none) →
      (∀ j (h : j < xs.length), len ≠ some (i + j) ∧
        ∃ item, (∀ p, (s.get (i + j) p).1 = item) ∧ usable lad len item = some xs[j]) →
      ∃ p e, (e = false ∨ len = none) ∧ ∀ fuel, assignSeq lad s (fuel + xs.length) i acc st =
        assignSeq lad s fuel (i + xs.length) (acc ++ xs) ⟨st.heap, p, e⟩ := by
  intro xs
  induction xs with
  | nil => intro i acc st he _; exact ⟨st.py, st.err, he, fun fuel => by simp⟩
  | cons x xs ih =>
    intro i acc st he h
    obtain ⟨h1, item, h3, h2⟩ := h 0 (by simp)
    simp only [Nat.add_zero, List.getElem_cons_zero] at h1 h2 h3
    obtain ⟨p, hp⟩ := assign_step (lad := lad) hs h3 acc st he h1
    simp only [h2] at hp
    obtain ⟨q, e, he', hq⟩ := ih (i + 1) (acc ++ [x]) ⟨st.heap, p, len.isNone⟩ (by cases len <;> simp) (by
      intro j hj
      have := h (j + 1) (by simpa using hj)
      simpa [Nat.add_assoc, Nat.add_comm 1 j] using this)
    refine ⟨q, e, he', fun fuel => ?_⟩
    have := hp (fuel + xs.length)
    rw [show fuel + (x :: xs).length = fuel + xs.length + 1 by simp; omega, this, hq]
    simp [Nat.add_assoc, Nat.add_comm 1]

/-- A sequence of the right length whose items are numbers. -/
theorem asptr_numbers {lad : ℤ → Option F} {s : PySeq F σ} {v : List F} (hl : ∀ p, (s.len p).1 = some v.length)
    (hg : ∀ j (h : j < v.length), ∃ item, (∀ p, (s.get j p).1 = some item) ∧ itemValue lad item = some v[j])
    (st : PyState σ) (he : st.err = false) :
    ∃ p, ∀ fuel, v.length + 1 ≤ fuel → asptrVec lad fuel (.seq s) st =
      some (.new st.heap.next v, ⟨(HM.alloc st.heap).2, p, false⟩) := by
  obtain ⟨p, e, he', hp⟩ := assign_prefix (lad := lad) hl v 0 [] ⟨(HM.alloc st.heap).2, st.py, st.err⟩ (Or.inl he) (by
    intro j hj
    obtain ⟨item, h1, h2⟩ := hg j hj
    refine ⟨by simp; omega, some item, by simpa using h1, ?_⟩
    cases item <;> simpa [usable, itemValue] using h2)
  have he'' : e = false := by simpa using he'
  subst he''
  obtain ⟨q, hq⟩ := assign_stop (lad := lad) (i := 0 + v.length) (by simpa using hl) ([] ++ v) ⟨(HM.alloc st.heap).2, p, false⟩ rfl
  refine ⟨q, fun fuel hf => ?_⟩
  obtain ⟨k, rfl⟩ : ∃ k, fuel = k + 1 + v.length := ⟨fuel - 1 - v.length, by omega⟩
  have := (hp (k + 1)).trans (hq k)
  unfold asptrVec
  simp only [this]
  simp

/-- What `asptr` returns for an item that is not a number. -/
def asptrOf : Option (PyItem F) → PyAsptr F
  | none => .crash
  | some _ => .error

/-- A sequence whose first unusable item comes before its end. -/
theorem asptr_unusable {lad : ℤ → Option F} {s : PySeq F σ} {len : Option ℕ} (hl : ∀ p, (s.len p).1 = len) {v : List F}
    (hlen : ∀ j, j ≤ v.length → len ≠ some j)
    (hg : ∀ j (h : j < v.length), ∃ item, (∀ p, (s.get j p).1 = item) ∧ usable lad len item = some v[j])
    {item : Option (PyItem F)} (hi : ∀ p, (s.get v.length p).1 = item) (hu : usable lad len item = none)
    (st : PyState σ) (he : st.err = false) :
    ∃ st', st'.heap = (HM.alloc st.heap).2 ∧ ∀ fuel, v.length + 1 ≤ fuel → asptrVec lad fuel (.seq s) st =
      some (asptrOf item, st') := by
  obtain ⟨p, e, he', hp⟩ := assign_prefix (lad := lad) hl v 0 [] ⟨(HM.alloc st.heap).2, st.py, st.err⟩ (Or.inl he) (by
    intro j hj
    obtain ⟨item, h1, h2⟩ := hg j hj
    exact ⟨by simpa using hlen j hj.le, item, by simpa using h1, h2⟩)
  obtain ⟨q, hq⟩ := assign_step (lad := lad) hl (i := 0 + v.length) (item := item) (by simpa using hi) ([] ++ v)
    ⟨(HM.alloc st.heap).2, p, e⟩ he' (by simpa using hlen v.length le_rfl)
  rw [hu] at hq
  cases item with
  | none =>
    refine ⟨⟨(HM.alloc st.heap).2, q, len.isNone⟩, rfl, fun fuel hf => ?_⟩
    obtain ⟨k, rfl⟩ : ∃ k, fuel = k + 1 + v.length := ⟨fuel - 1 - v.length, by omega⟩
    have := (hp (k + 1)).trans (hq k)
    unfold asptrVec
    simp only [this, asptrOf]
  | some x =>
    refine ⟨⟨(HM.alloc st.heap).2, q, true⟩, rfl, fun fuel hf => ?_⟩
    obtain ⟨k, rfl⟩ : ∃ k, fuel = k + 1 + v.length := ⟨fuel - 1 - v.length, by omega⟩
    have := (hp (k + 1)).trans (hq k)
    unfold asptrVec
    simp only [this, asptrOf]

/-- A sequence without length whose items are all `float` objects. -/
theorem asptr_endless {lad : ℤ → Option F} {s : PySeq F σ} (hl : ∀ p, (s.len p).1 = none) (x : ℕ → F)
    (hg : ∀ j p, (s.get j p).1 = some (.float (x j))) (st : PyState σ) (fuel : ℕ) : asptrVec lad fuel (.seq s) st = none := by
  have key : ∀ fuel i acc st, assignSeq lad s fuel i acc st = none := by
    intro fuel
    induction fuel with
    | zero => intros; rfl
    | succ k ih =>
      intro i acc st
      obtain ⟨p, hp⟩ := assign_step (lad := lad) hl (hg i) acc st (Or.inr rfl) (by simp)
      rw [hp k]
      exact ih _ _ _
  unfold asptrVec
  simp only [key]

theorem isRead_iff {lad : ℤ → Option F} {len : Option ℕ} {item : Option (PyItem F)} :
    IsRead lad len item ↔ ∃ x, usable lad len item = some x := by
  unfold IsRead
  cases item with
  | none => simp [usable]
  | some y =>
    cases y with
    | float x => simp [usable]
    | other => simp [usable]
    | int z => cases len <;> simp [usable]

theorem exists_reads {lad : ℤ → Option F} {len : Option ℕ} {item : ℕ → Option (PyItem F)} : ∀ i,
    (∀ j, j < i → IsRead lad len (item j)) →
    ∃ v : List F, v.length = i ∧ ∀ j (h : j < v.length), usable lad len (item j) = some v[j] := by
  intro i h
  haveI : Nonempty F := ⟨FOps.zero⟩
  choose! x hx using fun j (hj : j < i) => isRead_iff.1 (h j hj)
  refine ⟨List.ofFn (fun j : Fin i => x j), by simp, ?_⟩
  intro j hj
  simpa using hx j (by simpa using hj)

/-- A sequence object with steady answers: the four cases. -/
theorem asptr_firstUnread {lad : ℤ → Option F} {s : PySeq F σ} {len : Option ℕ} {item : ℕ → Option (PyItem F)}
    (hs : Steady s len item) {i : ℕ} (hi : FirstUnread lad len item i) (st : PyState σ) (he : st.err = false) :
    ∃ st', st'.heap = (HM.alloc st.heap).2 ∧ ∀ fuel, i + 1 ≤ fuel → asptrVec lad fuel (.seq s) st =
      some (asptrOf (item i), st') := by
  obtain ⟨h1, h2, h3⟩ := hi
  obtain ⟨v, rfl, hv⟩ := exists_reads (lad := lad) i h2
  exact asptr_unusable hs.len_eq (fun j hj hc => by have := h1 j hc; omega) (fun j hj => ⟨item j, hs.get_eq j, hv j hj⟩)
    (hs.get_eq v.length) (by
      cases hu : usable lad len (item v.length) with
      | none => rfl
      | some x => exact absurd (isRead_iff.2 ⟨x, hu⟩) h3) st he

theorem steady_cases (lad : ℤ → Option F) {s : PySeq F σ} {len : Option ℕ} {item : ℕ → Option (PyItem F)} (hs : Steady s len item) :
    (∃ v, Means lad (.seq s) (.numbers v)) ∨ (∃ i, FirstUnread lad len item i) ∨
      (len = none ∧ ∀ i, ∃ x, item i = some (.float x)) := by
  by_cases h : ∃ i, (∀ n, len = some n → i < n) ∧ ¬ IsRead lad len (item i)
  · classical
    refine Or.inr (Or.inl ⟨Nat.find h, (Nat.find_spec h).1, fun j hj => ?_, (Nat.find_spec h).2⟩)
    by_contra hc
    exact Nat.find_min h hj ⟨fun n hn => lt_trans hj ((Nat.find_spec h).1 n hn), hc⟩
  · push Not at h
    cases len with
    | none =>
      refine Or.inr (Or.inr ⟨rfl, fun i => ?_⟩)
      rcases h i (by simp) with h | ⟨h, -⟩
      · exact h
      · exact absurd rfl h
    | some n =>
      left
      have h' : ∀ i, i < n → ∃ y x, item i = some y ∧ itemValue lad y = some x := by
        intro i hi
        rcases h i (by intro m hm; cases hm; exact hi) with ⟨x, hx⟩ | ⟨-, z, x, h1, h2⟩
        · exact ⟨_, x, hx, rfl⟩
        · exact ⟨_, x, h1, h2⟩
      haveI : Nonempty F := ⟨FOps.zero⟩
      haveI : Nonempty (PyItem F) := ⟨.other⟩
      choose! y x hyx using h'
      refine ⟨List.ofFn (fun i : Fin n => x i), Means.numbers (items := List.ofFn (fun i : Fin n => y i)) ⟨?_, ?_⟩ ?_⟩
      · simpa using hs.len_eq
      · intro i hi p
        rw [hs.get_eq i p]
        simpa using (hyx i (by simpa using hi)).1
      · apply List.ext_getElem
        · simp
        · intro i h1 h2
          simpa using (hyx i (by simpa using h1)).2

/-! ## The wrappers -/

/-- The handles of the vectors made for the call. -/
def newHandles (args : List (PyAsptr F)) : List ℕ := args.filterMap fun a => match a with | .new h _ => some h | _ => none

theorem allocator_alloc {w : HWorld} (hw : Allocator w) : Allocator (HM.alloc w).2 := by
  refine ⟨?_, ?_⟩
  · simp only [HM.alloc, List.nodup_cons]
    exact ⟨fun h => absurd (hw.2 _ h) (lt_irrefl _), hw.1⟩
  · intro h hh
    simp only [HM.alloc, List.mem_cons] at hh ⊢
    rcases hh with rfl | hh
    · omega
    · have := hw.2 h hh; omega

theorem allocator_free {w : HWorld} (hw : Allocator w) {h : ℕ} (hh : h ∈ w.live) :
    ∃ w', HM.free h w = (.ok (), w') ∧ Allocator w' ∧ w'.live = w.live.erase h := by
  refine ⟨{ w with live := w.live.erase h }, by simp [HM.free, hh], ⟨hw.1.erase h, ?_⟩, rfl⟩
  intro k hk
  exact hw.2 k (List.mem_of_mem_erase hk)

theorem leave_spec (r : PyResult F) : ∀ (args : List (PyAsptr F)) (st : PyState σ) (hs base : List ℕ),
    Allocator st.heap → st.heap.live.Perm (hs ++ (newHandles args ++ base)) → (st.err = false ∨ ∀ x, r ≠ .float x) →
    (leaveWrapper args r st).1 = .result r ∧
      (Allocator (leaveWrapper args r st).2.heap ∧ (leaveWrapper args r st).2.err = false) ∧
      (leaveWrapper args r st).2.heap.live.Perm (hs ++ base) := by
  intro args
  induction args with
  | nil =>
    intro st hs base ha hp he
    have hp' : st.heap.live.Perm (hs ++ base) := by simpa [newHandles] using hp
    cases r with
    | float x =>
      have he' : st.err = false := by
        rcases he with he | he
        · exact he
        · exact absurd rfl (he x)
      simp only [leaveWrapper, he']
      exact ⟨rfl, ⟨ha, trivial⟩, hp'⟩
    | typeError => exact ⟨rfl, ⟨ha, rfl⟩, hp'⟩
    | valueError => exact ⟨rfl, ⟨ha, rfl⟩, hp'⟩
    | runtimeError m => exact ⟨rfl, ⟨ha, rfl⟩, hp'⟩
    | aborted => exact ⟨rfl, ⟨ha, rfl⟩, hp'⟩
    | undefined => exact ⟨rfl, ⟨ha, rfl⟩, hp'⟩
    | hangs => exact ⟨rfl, ⟨ha, rfl⟩, hp'⟩
  | cons a rest ih =>
    intro st hs base ha hp he
    cases a with
    | new h v =>
      have hmem : h ∈ st.heap.live := hp.mem_iff.2 (by simp [newHandles])
      obtain ⟨w', h1, h2, h3⟩ := allocator_free ha hmem
      have hp2 : w'.live.Perm (hs ++ (newHandles rest ++ base)) := by
        rw [h3]
        have h4 : (hs ++ (newHandles (.new h v :: rest) ++ base)).Perm (h :: (hs ++ (newHandles rest ++ base))) := by
          simpa [newHandles] using List.perm_middle
        simpa using ((hp.trans h4).erase h)
      have := ih { st with heap := w' } hs base h2 hp2 he
      unfold leaveWrapper
      simp only [deleteArg, h1]
      exact this
    | null => exact ih st hs base ha (by simpa [newHandles] using hp) he
    | old v => exact ih st hs base ha (by simpa [newHandles] using hp) he
    | error => exact ih st hs base ha (by simpa [newHandles] using hp) he
    | crash => exact ih st hs base ha (by simpa [newHandles] using hp) he

/-- A C++ function that ends with the outcome `m` and leaves `k` new blocks. -/
def Tidy (f : HM F) (m : M F) (k : ℕ) : Prop :=
  Clean m ∧ ∀ w, Allocator w → (f w).1 = m ∧ Allocator (f w).2 ∧
    ∃ hs : List ℕ, hs.length = k ∧ (∀ h ∈ hs, h ∉ w.live) ∧ (f w).2.live.Perm (hs ++ w.live)

theorem tidy_of_noLeak {f : HM F} {m : M F} (h : NoLeak f m) (hc : Clean m) : Tidy f m 0 := by
  refine ⟨hc, fun w hw => ?_⟩
  obtain ⟨h1, h2⟩ := h w hw
  have : Ended m := by
    rcases hc with ⟨a, rfl⟩ | ⟨msg, rfl⟩ <;> trivial
  obtain ⟨h3, h4⟩ := h2 this
  exact ⟨h1, h4, [], rfl, by simp, by simpa using h3⟩

/-- 1 for an exception. -/
def thrown : M F → ℕ
  | .ok _ => 0
  | .error _ => 1

theorem tidy_of_leaks {f : HM F} {m : M F} (h : LeaksOnThrow f m) (hc : Clean m) :
    Tidy f m (thrown m) := by
  refine ⟨hc, fun w hw => ?_⟩
  obtain ⟨h1, h2, h3⟩ := h w hw
  rcases hc with ⟨a, rfl⟩ | ⟨msg, rfl⟩
  · obtain ⟨h4, h5⟩ := h2 ⟨a, rfl⟩
    exact ⟨h1, h5, [], rfl, by simp, by simpa using h4⟩
  · obtain ⟨⟨x, hx, h4⟩, h5⟩ := h3 trivial
    exact ⟨h1, h5, [x], rfl, by simpa using hx, by simpa using h4⟩

theorem call_spec {f : HM F} {m : M F} {k : ℕ} (hf : Tidy f m k) (args : List (PyAsptr F)) (st : PyState σ) (base : List ℕ)
    (ha : Allocator st.heap) (hp : st.heap.live.Perm (newHandles args ++ base)) (he : st.err = false) :
    (callAndLeave args f st).1 = .result (pyTry m) ∧
      (Allocator (callAndLeave args f st).2.heap ∧ (callAndLeave args f st).2.err = false) ∧
      ∃ hs : List ℕ, hs.length = k ∧ (∀ h ∈ hs, h ∉ base) ∧ (callAndLeave args f st).2.heap.live.Perm (hs ++ base) := by
  obtain ⟨hc, hf⟩ := hf
  obtain ⟨h1, h2, hs, h3, h4, h5⟩ := hf st.heap ha
  have hl := leave_spec (pyTry m) args { st with heap := (f st.heap).2 } hs base h2 (h5.trans (hp.append_left hs)) (Or.inl he)
  have hcall : callAndLeave args f st = leaveWrapper args (pyTry m) { st with heap := (f st.heap).2 } := by
    unfold callAndLeave
    simp only [h1]
    rcases hc with ⟨a, rfl⟩ | ⟨msg, rfl⟩ <;> rfl
  rw [hcall]
  exact ⟨hl.1, hl.2.1, hs, h3, fun h hh hb => h4 h hh (hp.mem_iff.2 (by simp [hb])), hl.2.2⟩

theorem first_bad {lad : ℤ → Option F} : ∀ items : List (PyItem F), (∃ x ∈ items, itemValue lad x = none) →
    ∃ v : List F, ∃ h : v.length < items.length, (∀ j (hj : j < v.length), itemValue lad (items[j]'(hj.trans h)) = some v[j]) ∧
      itemValue lad items[v.length] = none := by
  intro items
  induction items with
  | nil => rintro ⟨x, hx, -⟩; cases hx
  | cons y items ih =>
    rintro ⟨x, hx, hv⟩
    cases hy : itemValue lad y with
    | none => exact ⟨[], by simp, by simp, by simpa using hy⟩
    | some u =>
      have hx' : x ∈ items := by
        rcases List.mem_cons.1 hx with rfl | h
        · rw [hy] at hv; cases hv
        · exact h
      obtain ⟨v, h, h1, h2⟩ := ih ⟨x, hx', hv⟩
      refine ⟨u :: v, by simpa using h, ?_, by simpa using h2⟩
      intro j hj
      cases j with
      | zero => simpa using hy
      | succ j => simpa using h1 j (by simpa using hj)

/-- Conversion of an argument. -/
theorem means_asptr {lad : ℤ → Option F} {o : PyObj F σ} {a : PyArg F} (h : Means lad o a) (st : PyState σ)
    (ha : Allocator st.heap) (he : st.err = false) :
    ∃ r st1 fuel0, (∀ fuel, fuel0 ≤ fuel → asptrVec lad fuel o st = some (r, st1)) ∧ r ≠ .crash ∧ argVector r = pyVector a ∧
      Allocator st1.heap ∧ (st1.err = false ∨ ∀ v, a ≠ .numbers v) ∧
      ∃ hs : List ℕ, hs.length = refusalLeak o a ∧ (∀ h ∈ hs, h ∉ st.heap.live) ∧ (∀ v, a = .numbers v → hs = []) ∧
        st1.heap.live.Perm (hs ++ (newHandles [r] ++ st.heap.live)) := by
  cases h with
  | none => exact ⟨.null, st, 0, fun _ _ => rfl, by simp, rfl, ha, Or.inl he, [], rfl, by simp, by simp, by simp [newHandles]⟩
  | bool b => exact ⟨.error, st, 0, fun _ _ => rfl, by simp, rfl, ha, Or.inl he, [], rfl, by simp, by simp, by simp [newHandles]⟩
  | vectorDouble v =>
    exact ⟨.old v, st, 0, fun _ _ => rfl, by simp, rfl, ha, Or.inl he, [], rfl, by simp, by simp, by simp [newHandles]⟩
  | proxy => exact ⟨.error, st, 0, fun _ _ => rfl, by simp, rfl, ha, Or.inl he, [], rfl, by simp, by simp, by simp [newHandles]⟩
  | plain => exact ⟨.error, st, 0, fun _ _ => rfl, by simp, rfl, ha, Or.inl he, [], rfl, by simp, by simp, by simp [newHandles]⟩
  | @numbers s items v hs hv =>
    have hlen : items.length = v.length := by simpa using congrArg List.length hv
    obtain ⟨p, hp⟩ := asptr_numbers (lad := lad) (s := s) (v := v) (by rw [← hlen]; exact hs.1) (by
      intro j hj
      refine ⟨items[j], hs.2 j (by omega), ?_⟩
      have h1 : (items.map (itemValue lad))[j]? = (v.map some)[j]? := by rw [hv]
      simpa [hj, hlen] using h1) st he
    refine ⟨.new st.heap.next v, _, v.length + 1, hp, by simp, rfl, allocator_alloc ha, Or.inl rfl, [], rfl, by simp, by simp, ?_⟩
    simp [newHandles, HM.alloc]
  | @notNumbers s items x hs hx hv =>
    obtain ⟨v, h, h1, h2⟩ := first_bad (lad := lad) items ⟨x, hx, hv⟩
    obtain ⟨st', h3, h4⟩ := asptr_unusable (lad := lad) (s := s) (len := some items.length) hs.1 (v := v)
      (fun j hj hc => by simp only [Option.some.injEq] at hc; omega)
      (fun j hj => ⟨some items[j], hs.2 j (by omega), by
        have := h1 j hj
        cases hi : items[j] with
        | float y => rw [hi] at this; simpa [usable, itemValue] using this
        | int z => rw [hi] at this; simpa [usable, itemValue] using this
        | other => rw [hi] at this; simp [itemValue] at this⟩)
      (item := some items[v.length]) (hs.2 v.length h) (by
        cases hi : items[v.length] with
        | float y => rw [hi] at h2; simp [itemValue] at h2
        | int z => rw [hi] at h2; simpa [usable, itemValue] using h2
        | other => rfl) st he
    refine ⟨.error, st', v.length + 1, h4, by simp, rfl, ?_, Or.inr (by simp), [st.heap.next], rfl, ?_, by simp, ?_⟩
    · rw [h3]; exact allocator_alloc ha
    · intro k hk
      obtain rfl : k = st.heap.next := by simpa using hk
      exact fun hm => absurd (ha.2 _ hm) (lt_irrefl _)
    · rw [h3]; simp [newHandles, HM.alloc]

theorem wrapOne_spec {lad : ℤ → Option F} {o : PyObj F σ} {a : PyArg F} (h : Means lad o a) {f : List F → HM F} {m : List F → M F}
    {k : ℕ} (hf : ∀ v, a = .numbers v → Tidy (f v) (m v) k) (st : PyState σ) (ha : Allocator st.heap) (he : st.err = false) :
    EndsWith (fun fuel => wrapOne lad f fuel o st) (.result (pyOne m [a]))
      (callLeak o a k) st.heap := by
  obtain ⟨r, st1, fuel0, h1, h2, h3, h4, h5, hs, h6, h7, h8, h9⟩ := means_asptr h st ha he
  have hw : ∀ fuel, fuel0 ≤ fuel → wrapOne lad f fuel o st = match argVector r with
      | .error e => some (leaveWrapper [r] e st1)
      | .ok v => some (callAndLeave [r] (f v) st1) := by
    intro fuel hfu
    unfold wrapOne
    rw [h1 fuel hfu]
    cases r with
    | crash => exact absurd rfl h2
    | _ => rfl
  cases hpv : pyVector a with
  | error e =>
    rw [h3, hpv] at hw
    have hne : ∀ v, a ≠ .numbers v := by rintro v rfl; cases hpv
    have hk : callLeak o a k = refusalLeak o a := by
      cases a with
      | numbers v => exact absurd rfl (hne v)
      | _ => rfl
    have hfl : ∀ x, e ≠ .float x := by
      rintro x rfl
      cases a <;> cases hpv
    have hl := leave_spec e [r] st1 hs st.heap.live h4 h9 (Or.inr hfl)
    refine ⟨(leaveWrapper [r] e st1).2, ⟨fuel0, fun fuel hfu => ?_⟩, ⟨hs, by rw [h6, hk], h7, hl.2.2⟩, hl.2.1⟩
    have hr : pyOne m [a] = e := by simp [pyOne, hpv, pyDone, Bind.bind, Except.bind]
    show wrapOne lad f fuel o st = _
    rw [hw fuel hfu, hr, ← hl.1]
  | ok v =>
    rw [h3, hpv] at hw
    have hav : a = .numbers v := by cases a <;> simp_all [pyVector]
    subst hav
    have hs0 := h8 v rfl
    subst hs0
    have hc := call_spec (hf v rfl) [r] st1 st.heap.live h4 (by simpa using h9) (by
      rcases h5 with h5 | h5
      · exact h5
      · exact absurd rfl (h5 v))
    refine ⟨(callAndLeave [r] (f v) st1).2, ⟨fuel0, fun fuel hfu => ?_⟩, hc.2.2, hc.2.1⟩
    have hr : pyOne m [.numbers v] = pyTry (m v) := rfl
    show wrapOne lad f fuel o st = _
    rw [hw fuel hfu, hr, ← hc.1]

theorem wrapEcdf2_spec {lad : ℤ → Option F} {o1 o2 o3 : PyObj F σ} {a1 a2 a3 : PyArg F} (hm1 : Means lad o1 a1)
    (hm2 : Means lad o2 a2) (hm3 : Means lad o3 a3) {env : Env F} {sort : List (Bound F) → List (Bound F)}
    (hf : ∀ b B u, Tidy (ecdf2H env sort b B u) (ecdf2 env sort b B u) 0) (st : PyState σ) (ha : Allocator st.heap)
    (he : st.err = false) :
    EndsWith (fun fuel => wrapEcdf2 lad (ecdf2H env sort) fuel o1 o2 o3 st) (.result (pyEcdf2 env sort [a1, a2, a3]))
      (callLeak o1 a1 (refusalLeak o2 a2)) st.heap := by
  obtain ⟨r, st1, fuel1, h1, h2, h3, h4, h5, hs, h6, h7, h8, h9⟩ := means_asptr hm1 st ha he
  cases hpv : pyVector a1 with
  | error e =>
    have hw : ∀ fuel, fuel1 ≤ fuel → wrapEcdf2 lad (ecdf2H env sort) fuel o1 o2 o3 st = some (leaveWrapper [r] e st1) := by
      intro fuel hfu
      have h3' : argVector r = .error e := h3.trans hpv
      unfold wrapEcdf2
      rw [h1 fuel hfu]
      cases r with
      | crash => exact absurd rfl h2
      | _ => simp only [h3']
    have hne : ∀ v, a1 ≠ .numbers v := by rintro v rfl; cases hpv
    have hk : (callLeak o1 a1 (refusalLeak o2 a2)) = refusalLeak o1 a1 := by
      cases a1 with
      | numbers v => exact absurd rfl (hne v)
      | _ => rfl
    have hfl : ∀ x, e ≠ .float x := by
      rintro x rfl
      cases a1 <;> cases hpv
    have hl := leave_spec e [r] st1 hs st.heap.live h4 h9 (Or.inr hfl)
    refine ⟨(leaveWrapper [r] e st1).2, ⟨fuel1, fun fuel hfu => ?_⟩, ⟨hs, by rw [h6, hk], h7, hl.2.2⟩, hl.2.1⟩
    have hr : pyEcdf2 env sort [a1, a2, a3] = e := by simp [pyEcdf2, hpv, pyDone, Bind.bind, Except.bind]
    show wrapEcdf2 lad (ecdf2H env sort) fuel o1 o2 _ st = some (_, _)
    rw [hw fuel hfu, hr, ← hl.1]
  | ok b =>
    have hav : a1 = .numbers b := by cases a1 <;> simp_all [pyVector]
    subst hav
    have hs0 := h8 b rfl
    subst hs0
    have he1 : st1.err = false := by
      rcases h5 with h5 | h5
      · exact h5
      · exact absurd rfl (h5 b)
    have hb : argVector r = .ok b := h3
    obtain ⟨r', st2, fuel2, k1, k2, k3, k4, k5, hs', k6, k7, k8, k9⟩ := means_asptr hm2 st1 h4 he1
    have k9' : st2.heap.live.Perm (hs' ++ (newHandles [r, r'] ++ st.heap.live)) := by
      refine k9.trans (List.Perm.append_left _ ?_)
      refine (List.Perm.append_left _ h9).trans ?_
      have e1 : newHandles [r, r'] = newHandles [r] ++ newHandles [r'] := by
        simp only [newHandles, ← List.filterMap_append, List.cons_append, List.nil_append]
      rw [e1, List.nil_append, List.append_assoc]
      exact (List.perm_append_comm_assoc _ _ _)
    have k7' : ∀ h ∈ hs', h ∉ st.heap.live := fun h hh hm => k7 h hh (h9.mem_iff.2 (by simp [hm]))
    have hw : ∀ fuel, max fuel1 fuel2 ≤ fuel → wrapEcdf2 lad (ecdf2H env sort) fuel o1 o2 o3 st = match argVector r' with
        | .error e => some (leaveWrapper [r, r'] e st2)
        | .ok B => some (thirdArg [r, r'] (ecdf2H env sort b B) o3 st2) := by
      intro fuel hfu
      unfold wrapEcdf2
      rw [h1 fuel (by omega)]
      have : asptrVec lad fuel o2 st1 = some (r', st2) := k1 fuel (by omega)
      cases r with
      | crash => exact absurd rfl h2
      | _ =>
        simp only [hb, this]
        cases r' with
        | crash => exact absurd rfl k2
        | _ => rfl
    cases hpv2 : pyVector a2 with
    | error e =>
      rw [k3, hpv2] at hw
      have hfl : ∀ x, e ≠ .float x := by
        rintro x rfl
        cases a2 <;> cases hpv2
      have hl := leave_spec e [r, r'] st2 hs' st.heap.live k4 k9' (Or.inr hfl)
      refine ⟨(leaveWrapper [r, r'] e st2).2, ⟨max fuel1 fuel2, fun fuel hfu => ?_⟩, ⟨hs', k6, k7', hl.2.2⟩, hl.2.1⟩
      have hr : pyEcdf2 env sort [.numbers b, a2, a3] = e := by
        cases a2 <;> cases hpv2 <;> rfl
      show wrapEcdf2 lad (ecdf2H env sort) fuel o1 o2 _ st = some (_, _)
      rw [hw fuel hfu, hr, ← hl.1]
    | ok B =>
      rw [k3, hpv2] at hw
      have hav : a2 = .numbers B := by cases a2 <;> simp_all [pyVector]
      subst hav
      have hs0 := k8 B rfl
      subst hs0
      have he2 : st2.err = false := by
        rcases k5 with k5 | k5
        · exact k5
        · exact absurd rfl (k5 B)
      by_cases hb3 : ∃ u, o3 = .bool u
      · obtain ⟨u, rfl⟩ := hb3
        cases hm3
        have hc := call_spec (hf b B u) [r, r'] st2 st.heap.live k4 (by simpa using k9') he2
        have hleak : refusalLeak o2 (PyArg.numbers B) = 0 := by rw [← k6]; rfl
        simp only [hleak]
        refine ⟨(callAndLeave [r, r'] (ecdf2H env sort b B u) st2).2, ⟨max fuel1 fuel2, fun fuel hfu => ?_⟩, hc.2.2, hc.2.1⟩
        have hr : pyEcdf2 env sort [.numbers b, .numbers B, .bool u] = pyTry (ecdf2 env sort b B u) := rfl
        show wrapEcdf2 lad (ecdf2H env sort) fuel o1 o2 _ st = some (_, _)
        rw [hw fuel hfu, hr, ← hc.1]
        rfl
      · have hl := leave_spec .typeError [r, r'] st2 [] st.heap.live k4 k9' (Or.inr (by simp))
        refine ⟨(leaveWrapper [r, r'] .typeError st2).2, ⟨max fuel1 fuel2, fun fuel hfu => ?_⟩, ⟨[], k6, k7', hl.2.2⟩, hl.2.1⟩
        have hr : pyEcdf2 env sort [.numbers b, .numbers B, a3] = .typeError := by
          refine C49_use_fft_type env sort b B a3 ?_
          rintro u rfl
          cases hm3
          exact hb3 ⟨u, rfl⟩
        show wrapEcdf2 lad (ecdf2H env sort) fuel o1 o2 _ st = some (_, _)
        rw [hw fuel hfu, hr]
        have : thirdArg [r, r'] (ecdf2H env sort b B) o3 st2 = leaveWrapper [r, r'] .typeError st2 := by
          cases o3 with
          | bool u => exact absurd ⟨u, rfl⟩ hb3
          | _ => rfl
        show some (thirdArg [r, r'] (ecdf2H env sort b B) o3 st2) = _
        rw [this, ← hl.1]

end CP.Props
