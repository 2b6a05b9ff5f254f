import Verif.Proofs.PyObject
/-!
Property C89: what the Python functions do with arbitrary Python objects.  The specification (`Steady`, `ListLike`, `itemValue`,
`Means`, `refusalLeak`, `callLeak`, `EndsWith`, `Crashes`, `Hangs`) is at the head of `Proofs/PyObject.lean`; `Survives`,
`pyEcdf2`, ... are those of C49.  `longAsDouble` is `PyLong_AsDouble`; the extension is built with NDEBUG.
-/
namespace CP.Props
open CP CP.Spec
set_option linter.unusedSectionVars false
variable {F : Type} [FOps F] {σ : Type}

/-! ## Lists, tuples and other objects that behave like them -/

/-- C89: `ecdf2` on any three objects that are None, bools, `VectorDouble`s, objects that are not sequences, or sequences that behave
like lists: the call does what C49 says about the lists of numbers they stand for, and frees every vector it made, except the one of
a sequence that is refused because of an element. -/
theorem C89_ecdf2 (env : Env F) (hae : env.asserts = false) {sort : List (Bound F) → List (Bound F)}
    (hperm : ∀ l, (sort l).Perm l) (longAsDouble : ℤ → Option F) {o1 o2 o3 : PyObj F σ} {a1 a2 a3 : PyArg F}
    (h1 : Means longAsDouble o1 a1) (h2 : Means longAsDouble o2 a2) (h3 : Means longAsDouble o3 a3)
    (st : PyState σ) (ha : Allocator st.heap) (he : st.err = false) :
    EndsWith (fun time => wrapEcdf2 longAsDouble (ecdf2H env sort) time o1 o2 o3 st)
      (.result (pyEcdf2 env sort [a1, a2, a3])) (callLeak o1 a1 (refusalLeak o2 a2)) st.heap :=
  wrapEcdf2_spec h1 h2 h3 (fun b B u => tidy_of_noLeak (C51_ecdf2 env sort b B u) (C16_ecdf2_release env hae hperm b B u)) st ha he

/-- C89: `ecdf1_mns2016_b` and `ecdf1_mns2016_B`. -/
theorem C89_mns2016 (env : Env F) (longAsDouble : ℤ → Option F) {o : PyObj F σ} {a : PyArg F} (h : Means longAsDouble o a)
    (st : PyState σ) (ha : Allocator st.heap) (he : st.err = false) :
    EndsWith (fun time => wrapOne longAsDouble (ecdf1Mns2016bH env) time o st) (.result (pyMns2016b env [a])) (refusalLeak o a) st.heap ∧
    EndsWith (fun time => wrapOne longAsDouble (ecdf1Mns2016BH env) time o st) (.result (pyMns2016B env [a])) (refusalLeak o a) st.heap := by
  have hk : callLeak o a 0 = refusalLeak o a := by
    cases a with
    | numbers v => cases o <;> rfl
    | _ => rfl
  rw [← hk]
  exact ⟨wrapOne_spec h (fun v _ => tidy_of_noLeak (C51_mns2016_b env v) (C18_mns2016_b env _ v)) st ha he,
    wrapOne_spec h (fun v _ => tidy_of_noLeak (C51_mns2016_B env v) (C18_mns2016_B env v)) st ha he⟩

/-- C89: `ecdf1_new_B`, except for the empty list: besides, a call that raises RuntimeError may leave one block (exactly when
validation accepts the list, C51). -/
theorem C89_new_B (env : Env F) (hae : env.asserts = false) (isqrt : ℕ → ℕ) (longAsDouble : ℤ → Option F) {o : PyObj F σ}
    {a : PyArg F} (h : Means longAsDouble o a) (hne : a ≠ .numbers []) (st : PyState σ) (ha : Allocator st.heap)
    (he : st.err = false) :
    ∃ k, EndsWith (fun time => wrapOne longAsDouble (ecdf1NewBH env isqrt) time o st) (.result (pyNewB env isqrt [a]))
        (callLeak o a k) st.heap ∧ k ≤ 1 ∧
      ∀ v, a = .numbers v → (k = 1 ↔ checkBoundaryVector "B" v.length v = .ok () ∧ ∃ msg, pyNewB env isqrt [a] = .runtimeError msg) := by
  by_cases hv : ∃ v, a = .numbers v
  · obtain ⟨v, rfl⟩ := hv
    have hv0 : 1 ≤ v.length := List.length_pos_iff.2 (by rintro rfl; exact hne rfl)
    have hc := C17_new_B_release env hae isqrt v hv0
    have hpy : pyNewB env isqrt [.numbers v] = pyTry (ecdf1NewB env isqrt v) := rfl
    cases hcheck : checkBoundaryVector "B" v.length v with
    | error e =>
      refine ⟨0, wrapOne_spec h (fun u hu => ?_) st ha he, by omega, ?_⟩
      · cases hu
        exact tidy_of_noLeak (C51_new_B_rejected env isqrt v hcheck) hc
      · rintro u hu
        cases hu
        rw [hcheck]
        simp
    | ok u =>
      refine ⟨thrown (ecdf1NewB env isqrt v), wrapOne_spec h (fun u hu => ?_) st ha he, ?_, ?_⟩
      · cases hu
        exact tidy_of_leaks (C51_new_B_accepted env isqrt v hcheck) hc
      · unfold thrown; split <;> omega
      · intro u hu
        cases hu
        rw [hcheck, hpy]
        rcases hc with ⟨x, hx⟩ | ⟨msg, hm⟩
        · rw [hx]; simp [pyTry, thrown]
        · rw [hm]; simp [pyTry, thrown]
  · refine ⟨0, wrapOne_spec h (fun v hv' => absurd ⟨v, hv'⟩ hv) st ha he, by omega, fun v hv' => absurd ⟨v, hv'⟩ hv⟩

/-- C89: `ecdf1_new_b` on a list of numbers or anything else, except for the empty list. -/
theorem C89_new_b (env : Env F) (hae : env.asserts = false) (isqrt : ℕ → ℕ) (longAsDouble : ℤ → Option F) {o : PyObj F σ}
    {a : PyArg F} (h : Means longAsDouble o a) (hne : a ≠ .numbers []) (st : PyState σ) (ha : Allocator st.heap)
    (he : st.err = false) :
    ∃ k, EndsWith (fun time => wrapOne longAsDouble (ecdf1NewbH env isqrt) time o st) (.result (pyNewb env isqrt [a]))
        (callLeak o a k) st.heap ∧ k ≤ 1 ∧ ∀ x, pyNewb env isqrt [a] = .float x → callLeak o a k = 0 := by
  by_cases hv : ∃ v, a = .numbers v
  · obtain ⟨v, rfl⟩ := hv
    have hv0 : 1 ≤ v.length := List.length_pos_iff.2 (by rintro rfl; exact hne rfl)
    have hc := C17_new_b_release env hae isqrt v hv0
    have hpy : pyNewb env isqrt [.numbers v] = pyTry (ecdf1Newb env isqrt v) := rfl
    obtain ⟨steps, hs⟩ : ∃ steps, symmetricSteps v = .ok steps := by
      obtain ⟨s, hs, -⟩ := symmetricSteps_safe v
      exact ⟨s, hs⟩
    by_cases hacc : checkBoundaryVector "b" v.length v = .ok () ∧ checkBoundaryVector "B" steps.length steps = .ok ()
    · refine ⟨thrown (ecdf1Newb env isqrt v), wrapOne_spec h (fun u hu => ?_) st ha he, ?_, ?_⟩
      · cases hu
        exact tidy_of_leaks ((C51_new_b env isqrt v steps hs).2 hacc.1 hacc.2) hc
      · unfold thrown; split <;> omega
      · intro x hx
        rw [hpy] at hx
        rcases hc with ⟨y, hy⟩ | ⟨msg, hm⟩
        · simp [hy, callLeak, thrown]
        · rw [hm] at hx; cases hx
    · refine ⟨0, wrapOne_spec h (fun u hu => ?_) st ha he, by omega, fun x _ => rfl⟩
      cases hu
      exact tidy_of_noLeak ((C51_new_b env isqrt v steps hs).1 (by tauto)) hc
  · refine ⟨0, wrapOne_spec h (fun v hv' => absurd ⟨v, hv'⟩ hv) st ha he, by omega, fun x hx => ?_⟩
    cases a with
    | numbers v => exact absurd ⟨v, rfl⟩ hv
    | none => cases hx
    | bool b => cases hx
    | other => cases hx

/-! ## Objects with their own `__len__` and `__getitem__` -/

/-- C89: an object whose answers do not change over time stands for a list of numbers, or has a first item that is not read as a
number, or has no length and floats for ever. -/
theorem C89_steady_cases (longAsDouble : ℤ → Option F) {s : PySeq F σ} {len : Option ℕ} {item : ℕ → Option (PyItem F)}
    (hs : Steady s len item) :
    (∃ v, Means longAsDouble (.seq s) (.numbers v)) ∨ (∃ i, FirstUnread longAsDouble len item i) ∨
      (len = none ∧ ∀ i, ∃ x, item i = some (.float x)) := steady_cases longAsDouble hs

/-- C89: if the first item that is not a number is an object, then TypeError is raised and one vector is leaked, whichever
function is called. -/
theorem C89_item_not_number (longAsDouble : ℤ → Option F) {s : PySeq F σ} {len : Option ℕ} {item : ℕ → Option (PyItem F)}
    (hs : Steady s len item) {i : ℕ} (hi : FirstUnread longAsDouble len item i) {x : PyItem F} (hx : item i = some x)
    (f : List F → HM F) (g : List F → List F → Bool → HM F) (o2 o3 : PyObj F σ) (st : PyState σ) (ha : Allocator st.heap)
    (he : st.err = false) :
    EndsWith (fun time => wrapOne longAsDouble f time (.seq s) st) (.result .typeError) 1 st.heap ∧
    EndsWith (fun time => wrapEcdf2 longAsDouble g time (.seq s) o2 o3 st) (.result .typeError) 1 st.heap := by
  obtain ⟨st', h1, h2⟩ := asptr_firstUnread hs hi st he
  rw [hx] at h2
  have hl := leave_spec (.typeError : PyResult F) [.error] st' [st.heap.next] st.heap.live (by rw [h1]; exact allocator_alloc ha)
    (by rw [h1]; simp [newHandles, HM.alloc]) (Or.inr (by simp))
  have hfresh : ∀ h ∈ [st.heap.next], h ∉ st.heap.live := by
    intro k hk
    obtain rfl : k = st.heap.next := by simpa using hk
    exact fun hm => absurd (ha.2 _ hm) (lt_irrefl _)
  constructor
  · refine ⟨_, ⟨i + 1, fun fuel hfu => ?_⟩, ⟨_, rfl, hfresh, hl.2.2⟩, hl.2.1⟩
    show wrapOne longAsDouble f fuel (.seq s) st = _
    unfold wrapOne
    rw [h2 fuel hfu, ← hl.1]
    rfl
  · refine ⟨_, ⟨i + 1, fun fuel hfu => ?_⟩, ⟨_, rfl, hfresh, hl.2.2⟩, hl.2.1⟩
    show wrapEcdf2 longAsDouble g fuel (.seq s) o2 o3 st = _
    unfold wrapEcdf2
    rw [h2 fuel hfu, ← hl.1]
    rfl

/-- C89: if instead `__getitem__` raises an exception (any exception) there, then the interpreter crashes, whichever function is called. -/
theorem C89_item_raises (longAsDouble : ℤ → Option F) {s : PySeq F σ} {len : Option ℕ} {item : ℕ → Option (PyItem F)}
    (hs : Steady s len item) {i : ℕ} (hi : FirstUnread longAsDouble len item i) (hx : item i = none)
    (f : List F → HM F) (g : List F → List F → Bool → HM F) (o2 o3 : PyObj F σ) (st : PyState σ) (he : st.err = false) :
    Crashes (fun time => wrapOne longAsDouble f time (.seq s) st) ∧
    Crashes (fun time => wrapEcdf2 longAsDouble g time (.seq s) o2 o3 st) := by
  obtain ⟨st', h1, h2⟩ := asptr_firstUnread hs hi st he
  rw [hx] at h2
  constructor
  · refine ⟨st', i + 1, fun fuel hfu => ?_⟩
    show wrapOne longAsDouble f fuel (.seq s) st = _
    unfold wrapOne
    rw [h2 fuel hfu]
    rfl
  · refine ⟨st', i + 1, fun fuel hfu => ?_⟩
    show wrapEcdf2 longAsDouble g fuel (.seq s) o2 o3 st = _
    unfold wrapEcdf2
    rw [h2 fuel hfu]
    rfl

/-- C89: the same for the second argument of `ecdf2`, if the first one is a list of numbers. -/
theorem C89_second_argument (longAsDouble : ℤ → Option F) {o1 : PyObj F σ} {b : List F} (h1 : Means longAsDouble o1 (.numbers b))
    {s : PySeq F σ} {len : Option ℕ} {item : ℕ → Option (PyItem F)} (hs : Steady s len item) {i : ℕ}
    (hi : FirstUnread longAsDouble len item i) (g : List F → List F → Bool → HM F) (o3 : PyObj F σ) (st : PyState σ)
    (ha : Allocator st.heap) (he : st.err = false) :
    (item i = none → Crashes (fun time => wrapEcdf2 longAsDouble g time o1 (.seq s) o3 st)) ∧
    (item i ≠ none → EndsWith (fun time => wrapEcdf2 longAsDouble g time o1 (.seq s) o3 st) (.result .typeError) 1 st.heap) := by
  obtain ⟨r, st1, fuel1, k1, k2, k3, k4, k5, hs0, k6, k7, k8, k9⟩ := means_asptr h1 st ha he
  have hs1 := k8 b rfl
  subst hs1
  have he1 : st1.err = false := by
    rcases k5 with k5 | k5
    · exact k5
    · exact absurd rfl (k5 b)
  have k3' : argVector r = .ok b := k3
  obtain ⟨st', h2, h3⟩ := asptr_firstUnread hs hi st1 he1
  constructor
  · intro hx
    rw [hx] at h3
    refine ⟨st', max fuel1 (i + 1), fun fuel hfu => ?_⟩
    have e1 := k1 fuel (by omega)
    have e2 := h3 fuel (by omega)
    show wrapEcdf2 longAsDouble g fuel o1 (.seq s) o3 st = _
    unfold wrapEcdf2
    rw [e1]
    cases r with
    | crash => exact absurd rfl k2
    | _ => simp only [k3', e2, asptrOf]
  · intro hx
    obtain ⟨x, hx⟩ := Option.ne_none_iff_exists'.1 hx
    rw [hx] at h3
    have hp : st'.heap.live.Perm ([st1.heap.next] ++ (newHandles [r, .error] ++ st.heap.live)) := by
      have e1 : newHandles [r, .error] = newHandles [r] := by
        cases r <;> simp [newHandles]
      rw [h2, e1]
      simpa [HM.alloc] using k9
    have hl := leave_spec (.typeError : PyResult F) [r, .error] st' [st1.heap.next] st.heap.live
      (by rw [h2]; exact allocator_alloc k4) hp (Or.inr (by simp))
    refine ⟨_, ⟨max fuel1 (i + 1), fun fuel hfu => ?_⟩, ⟨_, rfl, ?_, hl.2.2⟩, hl.2.1⟩
    · have e1 := k1 fuel (by omega)
      have e2 := h3 fuel (by omega)
      show wrapEcdf2 longAsDouble g fuel o1 (.seq s) o3 st = _
      unfold wrapEcdf2
      rw [e1, ← hl.1]
      cases r with
      | crash => exact absurd rfl k2
      | null => cases k3'
      | error => cases k3'
      | _ => simp only [e2, asptrOf, argVector]
    · intro k hk
      obtain rfl : k = st1.heap.next := by simpa using hk
      intro hm
      have : st1.heap.next ∈ st1.heap.live := k9.mem_iff.2 (by simp [hm])
      exact absurd (k4.2 _ this) (lt_irrefl _)

/-- C89: an object without a usable `__len__` that has a float for every index is read for ever. -/
theorem C89_no_length (longAsDouble : ℤ → Option F) {s : PySeq F σ} {item : ℕ → Option (PyItem F)} (hs : Steady s none item)
    (hx : ∀ i, ∃ x, item i = some (.float x)) (f : List F → HM F) (g : List F → List F → Bool → HM F) (o2 o3 : PyObj F σ)
    (st : PyState σ) :
    Hangs (fun time => wrapOne longAsDouble f time (.seq s) st) ∧ Hangs (fun time => wrapEcdf2 longAsDouble g time (.seq s) o2 o3 st) := by
  choose x hx using hx
  have h := asptr_endless (lad := longAsDouble) hs.len_eq x (fun j p => (hs.get_eq j p).trans (hx j)) st
  constructor
  · intro fuel
    show wrapOne longAsDouble f fuel (.seq s) st = none
    unfold wrapOne
    rw [h fuel]
  · intro fuel
    show wrapEcdf2 longAsDouble g fuel (.seq s) o2 o3 st = none
    unfold wrapEcdf2
    rw [h fuel]

/-- C89: hence the interpreter survives `ecdf1_mns2016_b(s)` and `ecdf1_mns2016_B(s)` exactly if no exception of `__getitem__` comes
first, and the items end. -/
theorem C89_mns2016_survives_iff (env : Env F) (longAsDouble : ℤ → Option F) {s : PySeq F σ} {len : Option ℕ}
    {item : ℕ → Option (PyItem F)} (hs : Steady s len item) (st : PyState σ) (ha : Allocator st.heap) (he : st.err = false)
    (f : List F → HM F) (hf : f = ecdf1Mns2016bH env ∨ f = ecdf1Mns2016BH env) :
    (∃ r k, EndsWith (fun time => wrapOne longAsDouble f time (.seq s) st) (.result r) k st.heap ∧ Survives r) ↔
      ¬ ((∃ i, FirstUnread longAsDouble len item i ∧ item i = none) ∨ (len = none ∧ ∀ i, ∃ x, item i = some (.float x))) := by
  constructor
  · rintro ⟨r, k, ⟨st', ⟨T, hT⟩, -⟩, hr⟩ (⟨i, hi, hx⟩ | ⟨hl, hx⟩)
    · obtain ⟨⟨st2, T2, h2⟩, -⟩ := C89_item_raises longAsDouble hs hi hx f (fun _ _ _ => HM.lift (.error .diverge)) .none .none st he
      have e1 := hT (max T T2) (by omega)
      have e2 := h2 (max T T2) (by omega)
      rw [e1] at e2
      simp only [Option.some.injEq, Prod.mk.injEq, PyOutcome.result.injEq] at e2
      rw [e2.1] at hr
      rcases hr with ⟨x, h⟩ | h | h | ⟨m, h⟩ <;> cases h
    · subst hl
      have h2 := (C89_no_length longAsDouble hs hx f (fun _ _ _ => HM.lift (.error .diverge)) .none .none st).1 T
      have e1 := hT T le_rfl
      rw [h2] at e1
      cases e1
  · intro h
    push Not at h
    rcases steady_cases longAsDouble hs with ⟨v, hv⟩ | ⟨i, hi⟩ | ⟨hl, hx⟩
    · obtain ⟨h1, h2⟩ := C89_mns2016 env longAsDouble hv st ha he
      obtain ⟨s1, s2⟩ := C49_mns2016_survives env [.numbers v]
      rcases hf with rfl | rfl
      · exact ⟨_, _, h1, s1⟩
      · exact ⟨_, _, h2, s2⟩
    · obtain ⟨x, hx⟩ := Option.ne_none_iff_exists'.1 (h.1 i hi)
      exact ⟨_, _, (C89_item_not_number longAsDouble hs hi hx f (fun _ _ _ => HM.lift (.error .diverge)) .none .none st ha he).1,
        Or.inr (Or.inl rfl)⟩
    · obtain ⟨i, hi⟩ := h.2 hl
      obtain ⟨x, hx⟩ := hx i
      exact absurd hx (hi x)

/-! ## Objects that change while they are read -/

/-- A list whose `__getitem__` returns an element and removes one: the state is the number of elements left. -/
def popping (x : F) : PySeq F ℕ where
  len p := (some p, p)
  get i p := if i < p then (some (.float x), p - 1) else (none, p)

theorem pop_step (lad : ℤ → Option F) (x : F) (fuel i : ℕ) (acc : List F) (w : HWorld) (p : ℕ) (h : i < p) :
    assignSeq lad (popping x) (fuel + 1) i acc ⟨w, p, false⟩ = assignSeq lad (popping x) fuel (i + 1) (acc ++ [x]) ⟨w, p - 1, false⟩ := by
  rw [assignSeq]
  have : ¬ ((i : ℤ) = p) := by omega
  simp [seqSize, popping, asElem, h, this]

theorem pop_reads (lad : ℤ → Option F) (x : F) : ∀ (k i : ℕ) (acc : List F) (w : HWorld) (p : ℕ), i + 2 * k ≤ p →
    ∀ fuel, assignSeq lad (popping x) (fuel + k) i acc ⟨w, p, false⟩ =
      assignSeq lad (popping x) fuel (i + k) (acc ++ List.replicate k x) ⟨w, p - k, false⟩ := by
  intro k
  induction k with
  | zero => intro i acc w p _ fuel; simp
  | succ k ih =>
    intro i acc w p h fuel
    rw [show fuel + (k + 1) = (fuel + k) + 1 by omega, pop_step lad x _ i acc w p (by omega), ih (i + 1) _ w (p - 1) (by omega)]
    rw [show i + 1 + k = i + (k + 1) by omega, show p - 1 - k = p - (k + 1) by omega]
    simp [List.replicate_succ]

/-- C89: the length is asked again before every item and compared for equality only.  So of a list that loses one element for every
item read, half of the items are taken if their number is even; the interpreter crashes if it is odd. -/
theorem C89_popping (longAsDouble : ℤ → Option F) (x : F) (m : ℕ) (w : HWorld) (f : List F → HM F) :
    (∀ time, m + 1 ≤ time → asptrVec longAsDouble time (.seq (popping x)) ⟨w, 2 * m, false⟩ =
      some (.new w.next (List.replicate m x), ⟨(HM.alloc w).2, m, false⟩)) ∧
    Crashes (fun time => wrapOne longAsDouble f time (.seq (popping x)) ⟨w, 2 * m + 1, false⟩) := by
  constructor
  · intro time ht
    obtain ⟨k, rfl⟩ : ∃ k, time = k + 1 + m := ⟨time - 1 - m, by omega⟩
    have h := pop_reads longAsDouble x m 0 [] (HM.alloc w).2 (2 * m) (by omega) (k + 1)
    have h2 : assignSeq longAsDouble (popping x) (k + 1) (0 + m) ([] ++ List.replicate m x) ⟨(HM.alloc w).2, 2 * m - m, false⟩ =
        some (.done (List.replicate m x), ⟨(HM.alloc w).2, m, false⟩) := by
      rw [assignSeq]
      have e : 2 * m - m = m := by omega
      simp [seqSize, popping, e]
    rw [h2] at h
    unfold asptrVec
    simp only [h]
  · refine ⟨⟨(HM.alloc w).2, m, false⟩, m + 2, fun time ht => ?_⟩
    obtain ⟨k, rfl⟩ : ∃ k, time = k + 1 + 1 + m := ⟨time - 2 - m, by omega⟩
    have h := pop_reads longAsDouble x m 0 [] (HM.alloc w).2 (2 * m + 1) (by omega) (k + 1 + 1)
    have h2 : assignSeq longAsDouble (popping x) (k + 1 + 1) (0 + m) ([] ++ List.replicate m x)
        ⟨(HM.alloc w).2, 2 * m + 1 - m, false⟩ = some (.crash, ⟨(HM.alloc w).2, m, false⟩) := by
      rw [show 2 * m + 1 - m = m + 1 by omega, pop_step longAsDouble x _ (0 + m) _ _ (m + 1) (by omega), assignSeq]
      simp [seqSize, popping, asElem]
    rw [h2] at h
    show wrapOne longAsDouble f (k + 1 + 1 + m) (.seq (popping x)) _ = _
    unfold wrapOne asptrVec
    simp only [h]

/-- A sequence of one float whose `__len__` raises an exception when it is called for the first time. -/
def flakyLen (x : F) : PySeq F Bool where
  len p := if p then (some 1, p) else (none, true)
  get i p := if i = 0 then (some (.float x), p) else (none, p)

/-- C89: an exception of `__len__` is not noticed; the function is called, and then SystemError is raised instead of returning its
result. -/
theorem C89_system_error (env : Env F) (longAsDouble : ℤ → Option F) (x y : F) (hy : ecdf1Mns2016b env [x] = .ok y) (w : HWorld)
    (ha : Allocator w) : ∃ st' T, ∀ time, T ≤ time →
      wrapOne longAsDouble (ecdf1Mns2016bH env) time (.seq (flakyLen x)) ⟨w, false, false⟩ = some (.systemError, st') := by
  have h1 : ∀ k, asptrVec longAsDouble (k + 2) (.seq (flakyLen x)) ⟨w, false, false⟩ =
      some (.new w.next [x], ⟨(HM.alloc w).2, true, true⟩) := by
    intro k
    unfold asptrVec
    simp only
    rw [assignSeq]
    simp only [seqSize, flakyLen, asElem]
    simp [assignSeq, seqSize]
  obtain ⟨h2, h3⟩ := C51_mns2016_b env [x] (HM.alloc w).2 (allocator_alloc ha)
  rw [hy] at h2
  obtain ⟨h4, h5⟩ := h3 (by rw [hy]; trivial)
  have hmem : w.next ∈ (ecdf1Mns2016bH env [x] (HM.alloc w).2).2.live := h4.mem_iff.2 (by simp [HM.alloc])
  obtain ⟨w', h6, -, -⟩ := allocator_free h5 hmem
  refine ⟨⟨w', true, false⟩, 2, fun time ht => ?_⟩
  obtain ⟨k, rfl⟩ : ∃ k, time = k + 2 := ⟨time - 2, by omega⟩
  unfold wrapOne
  rw [h1 k]
  simp only [argVector, callAndLeave]
  rw [show ecdf1Mns2016bH env [x] (HM.alloc w).2 = (.ok y, (ecdf1Mns2016bH env [x] (HM.alloc w).2).2) from Prod.ext h2 rfl]
  simp only [pyTry, leaveWrapper, deleteArg, h6, if_true]

/-! ## The leak accumulates -/

/-- `n` calls of a function one after the other, each ending with TypeError. -/
inductive Calls (call : PyState σ → ℕ → Option (PyOutcome F × PyState σ)) : ℕ → PyState σ → PyState σ → Prop
  | zero (st : PyState σ) : Calls call 0 st st
  | succ {n : ℕ} {st st1 st2 : PyState σ} (T : ℕ) (h : ∀ time, T ≤ time → call st time = some (.result .typeError, st1))
      (hn : Calls call n st1 st2) : Calls call (n + 1) st st2

/-- C89: `n` calls with a list that contains something that is not a number leave `n` vectors. -/
theorem C89_leak_accumulates (longAsDouble : ℤ → Option F) {s : PySeq F σ} {items : List (PyItem F)} (hs : ListLike s items)
    {x : PyItem F} (hx : x ∈ items) (hv : itemValue longAsDouble x = none) (f : List F → HM F) (n : ℕ) :
    ∀ st : PyState σ, Allocator st.heap → st.err = false →
      ∃ st', Calls (fun st time => wrapOne longAsDouble f time (.seq s) st) n st st' ∧
        st'.heap.live.length = st.heap.live.length + n := by
  induction n with
  | zero => intro st _ _; exact ⟨st, .zero st, rfl⟩
  | succ n ih =>
    intro st ha he
    have h : EndsWith (fun time => wrapOne longAsDouble f time (.seq s) st) (.result .typeError) 1 st.heap :=
      wrapOne_spec (m := fun _ => .error .diverge) (k := 0) (Means.notNumbers hs hx hv) (fun v hv' => by cases hv') st ha he
    obtain ⟨st1, ⟨T, hT⟩, ⟨hs', h1, -, h3⟩, h4, h5⟩ := h
    obtain ⟨st2, k1, k2⟩ := ih st1 h4 h5
    refine ⟨st2, .succ T hT k1, ?_⟩
    have := h3.length_eq
    rw [List.length_append, h1] at this
    omega

/-! ## The hypotheses are satisfiable -/

/-- A Python list. -/
def pyList (items : List (PyItem F)) : PySeq F Unit where
  len _ := (some items.length, ())
  get i _ := (items[i]?, ())

theorem pyList_listLike (items : List (PyItem F)) : ListLike (pyList items) items :=
  ⟨fun _ => rfl, fun i h _ => by simp [pyList, h]⟩

/-- An object like a dictionary or a filtered `pandas.Series`: two elements, with the keys 3 and 7. -/
def keyed (x y : F) : PySeq F Unit where
  len _ := (some 2, ())
  get i _ := (if i = 3 then some (.float x) else if i = 7 then some (.float y) else none, ())

/-- `PyLong_AsDouble` in exact arithmetic with the range of doubles. -/
noncomputable def exactLong (z : ℤ) : Option XR := if |z| < 2 ^ 1024 then some (.fin z) else none

/-- `[0.5, 1, 1]` is the list of numbers 1/2, 1, 1 (1 being an `int`). -/
example : Means exactLong (.seq (pyList [.float (.fin (1/2)), .int 1, .int 1])) (.numbers [.fin (1/2), .fin 1, .fin 1]) := by
  refine Means.numbers (pyList_listLike _) ?_
  have h : (1 : ℤ) < 2 ^ 1024 := by
    calc (1 : ℤ) < 2 ^ 1 := by norm_num
      _ ≤ 2 ^ 1024 := pow_le_pow_right₀ (by norm_num) (by norm_num)
  simp [itemValue, exactLong, h]

/-- `[0.5, None]` is not. -/
example : Means exactLong (.seq (pyList [.float (.fin (1/2)), .other])) .other :=
  Means.notNumbers (x := .other) (pyList_listLike _) (by simp) rfl

/-- `ecdf1_new_b` of an object with the keys 3 and 7 crashes the interpreter. -/
example (env : Env XR) (st : PyState Unit) (he : st.err = false) :
    Crashes (fun time => wrapOne exactLong (ecdf1NewbH env Nat.sqrt) time (.seq (keyed (.fin (1/2)) (.fin 1))) st) :=
  (C89_item_raises exactLong (s := keyed (.fin (1/2)) (.fin 1)) (len := some 2)
    (item := fun i => if i = 3 then some (.float (.fin (1/2))) else if i = 7 then some (.float (.fin 1)) else none)
    ⟨fun _ => rfl, fun _ _ => rfl⟩ (i := 0) ⟨by rintro n ⟨⟩; norm_num, by simp, by simp [IsRead]⟩ (by simp) _
    (ecdf2H env id) .none .none st he).1

/-- `C89_system_error` has a case: `ecdf1_mns2016_b([0.5])`. -/
example (env : Env XR) : ∃ y, ecdf1Mns2016b env [.fin (1/2)] = .ok y :=
  ⟨_, (C04_ecdf1_mns2016_b env (n := 1) (b := fun _ => (1 / 2 : ℝ))
    (⟨fun _ _ _ => le_rfl, fun _ => ⟨by norm_num, by norm_num⟩⟩ : ValidBound _) : _)⟩

example : Allocator ⟨7, [3, 5], [], []⟩ := ⟨by simp, by simp⟩

end CP.Props
