import Mathlib.Tactic.Linarith
import Verif.Proofs.VectorDouble
/-
C85: slices and indices of `VectorDouble` against those of Python lists.  C86: histories and the other methods.
Specification: `VectorSpec.lean`.
-/
namespace CP.Swig
open PyList
variable {α : Type}

/-- C85: `v[start:stop:step]` is what the same slice of a list with the same elements is, for negative steps always, for positive
steps if the start is absent or not behind the last element. -/
theorem C85_get (v : List α) (a b c : Option Int) (hstep : c.getD 1 ≠ 0) (hbig : -(2 ^ 62) ≤ c.getD 1 ∧ c.getD 1 ≤ 2 ^ 62)
    (hlen : (v.length : Int) ≤ 2 ^ 60 - 1) (hstart : 0 < c.getD 1 → ∀ k ∈ a, fromEnd v.length k < v.length) :
    getSlice v ⟨arg a, arg b, arg c⟩ = .ok (slice v a b (c.getD 1)) := by
  rcases lt_or_gt_of_ne hstep with h | h
  · exact getSlice_down h hlen (by omega)
  · refine getSlice_up h hlen (by omega) ?_
    cases a with
    | none =>
      simp only [rawStart, if_neg (show ¬ c.getD 1 < 0 by omega)]
      omega
    | some k => exact Or.inl (hstart h k rfl)

/-- `[10, 20, 30, 40, 50][-4::2]`, `[4:0:-2]` and `[3:1]` -/
example : getSlice [10, 20, 30, 40, 50] ⟨.int (-4), .none, .int 2⟩ = .ok [20, 40] ∧
    getSlice [10, 20, 30, 40, 50] ⟨.int 4, .int 0, .int (-2)⟩ = .ok [50, 30] ∧
    getSlice [10, 20, 30, 40, 50] ⟨.int 3, .int 1, .none⟩ = .ok [] := ⟨rfl, rfl, rfl⟩

/-- C85 (finding): with a positive step and a start behind the last element a list gives an empty list, but `VectorDouble` starts at
the first element. -/
theorem C85_get_past_end (v : List α) (k : Int) (b c : Option Int) (hstep : 0 < c.getD 1 ∧ c.getD 1 ≤ 2 ^ 62)
    (hlen : (v.length : Int) ≤ 2 ^ 60 - 1) (hk : (v.length : Int) ≤ k) :
    slice v (some k) b (c.getD 1) = [] ∧ getSlice v ⟨.int k, arg b, arg c⟩ = .ok (slice v none b (c.getD 1)) := by
  have hf : first v.length (c.getD 1) (some k) = v.length := by
    simp only [first, if_neg (show ¬ c.getD 1 < 0 by omega), fromEnd, if_neg (show ¬ k < 0 by omega)]
    omega
  refine ⟨?_, getSlice_past (a := some k) hstep.1 hlen (by omega) ?_⟩
  · have hj : stop v.length (c.getD 1) b ≤ v.length := by rw [stop_up hstep.1]; omega
    unfold slice
    have hp : positions v.length (some k) b (c.getD 1) = [] := by
      have h0 : ((stop v.length (c.getD 1) b) - first v.length (c.getD 1) (some k)).toNat = 0 := by omega
      rw [positions_up (T := (c.getD 1).toNat) hstep.1 (by omega) rfl rfl, h0]
      have : cnt 0 (c.getD 1).toNat = 0 := by
        have := cnt_le (D := 0) (T := (c.getD 1).toNat) (by omega); omega
      rw [this]; rfl
    rw [hp]; rfl
  · simp only [rawStart, fromEnd, if_neg (show ¬ k < 0 by omega)]; exact hk

/-- `v[3:]` of three elements is all of them. -/
example : getSlice [10, 20, 30] ⟨.int 3, .none, .none⟩ = .ok [10, 20, 30] ∧ slice [10, 20, 30] (some 3) none 1 = [] :=
  ⟨rfl, rfl⟩

/-- C85: `v[start:stop:step] = xs` does what it does to a list, ValueError included, for every sequence `xs` other than `v` itself. -/
theorem C85_set (v xs : List α) (a b c : Option Int) (hstep : c.getD 1 ≠ 0) (hbig : -(2 ^ 62) ≤ c.getD 1 ∧ c.getD 1 ≤ 2 ^ 62)
    (hlen : (v.length : Int) + xs.length ≤ 2 ^ 60 - 1) :
    setSlice v ⟨arg a, arg b, arg c⟩ (.copy xs) =
      match assignSlice v a b (c.getD 1) xs with
      | some w => .ok w
      | none => .error .valueError := by
  rcases lt_or_gt_of_ne hstep with h | h
  · exact setSlice_down h (by omega)
  · exact setSlice_up h hlen (by omega)

/-- `v[1:3] = [1, 2, 3]`, `v[::-2] = [1, 2, 3]`, `v[9:] = [7]`, `v[::2] = [1]` -/
example : setSlice [10, 20, 30, 40, 50] ⟨.int 1, .int 3, .none⟩ (.copy [1, 2, 3]) = .ok [10, 1, 2, 3, 40, 50] ∧
    setSlice [10, 20, 30, 40, 50] ⟨.none, .none, .int (-2)⟩ (.copy [1, 2, 3]) = .ok [3, 20, 2, 40, 1] ∧
    setSlice [10, 20, 30, 40, 50] ⟨.int 9, .none, .none⟩ (.copy [7]) = .ok [10, 20, 30, 40, 50, 7] ∧
    setSlice [10, 20, 30, 40, 50] ⟨.none, .none, .int 2⟩ (.copy [1]) = .error .valueError := ⟨rfl, rfl, rfl, rfl⟩

/-- C85: `del v[start:stop:step]` does what it does to a list. -/
theorem C85_del (v : List α) (a b c : Option Int) (hstep : c.getD 1 ≠ 0) (hbig : -(2 ^ 62) ≤ c.getD 1 ∧ c.getD 1 ≤ 2 ^ 62)
    (hlen : (v.length : Int) ≤ 2 ^ 60 - 1) :
    delSlice v ⟨arg a, arg b, arg c⟩ = .ok (deleteSlice v a b (c.getD 1)) := by
  rcases lt_or_gt_of_ne hstep with h | h
  · exact delSlice_down h (by omega)
  · exact delSlice_up h (by omega)

/-- `del v[::2]`, `del v[-2:0:-2]`, `del v[1:9]` -/
example : delSlice [10, 20, 30, 40, 50] ⟨.none, .none, .int 2⟩ = .ok [20, 40] ∧
    delSlice [10, 20, 30, 40, 50] ⟨.int (-2), .int 0, .int (-2)⟩ = .ok [10, 30, 50] ∧
    delSlice [10, 20, 30, 40, 50] ⟨.int 1, .int 9, .none⟩ = .ok [10] := ⟨rfl, rfl, rfl⟩

/-- C85: `v[i]`, `v[i] = x` and `del v[i]` do what they do to a list, IndexError included. -/
theorem C85_item (v : List α) (i : Int) (x : α) (hi : -(2 ^ 63) < i ∧ i < 2 ^ 63) :
    (∀ p, index v.length i = some p → ∃ h : p < v.length, getItem v i = .ok v[p] ∧ setItem v i x = .ok (v.set p x) ∧
      delItem v i = .ok (v.eraseIdx p)) ∧
    (index v.length i = none → getItem v i = .error .indexError ∧ setItem v i x = .error .indexError ∧
      delItem v i = .error .indexError) := by
  refine ⟨fun p hp => ⟨index_lt hp, ?_, ?_, ?_⟩, fun hp => ⟨?_, ?_, ?_⟩⟩
  · rw [getItem_spec v hi.1 (by omega), hp, Option.bind_some, List.getElem?_eq_getElem (index_lt hp)]
  · rw [setItem_spec v x hi.1 (by omega), hp]
  · rw [delItem_spec v hi.1 (by omega), hp]
  · rw [getItem_spec v hi.1 (by omega), hp]; rfl
  · rw [setItem_spec v x hi.1 (by omega), hp]
  · rw [delItem_spec v hi.1 (by omega), hp]

/-- `v[-1]` and `v[3]` of three elements -/
example : index 3 (-1) = some 2 ∧ index 3 3 = none ∧ index 3 (-4) = none := ⟨rfl, rfl, rfl⟩

/-- C85: step 0 is ValueError for all three. -/
theorem C85_step_zero (v : List α) (a b : Option Int) (xs : Source α) :
    getSlice v ⟨arg a, arg b, .int 0⟩ = .error .valueError ∧ setSlice v ⟨arg a, arg b, .int 0⟩ xs = .error .valueError ∧
      delSlice v ⟨arg a, arg b, .int 0⟩ = .error .valueError := step_zero v a b xs

/-- C85 (finding): a part of a slice that is neither absent nor an `int` (for lists: TypeError, or allowed if it has `__index__`) is
undefined behaviour, whatever the vector. -/
theorem C85_not_int (v : List α) (s : PySlice) (xs : Source α) (h : s.start = .other ∨ s.stop = .other ∨ s.step = .other) :
    (∃ w, getSlice v s = .error (.ub w)) ∧ (∃ w, setSlice v s xs = .error (.ub w)) ∧ ∃ w, delSlice v s = .error (.ub w) := by
  have := not_int v.length s h
  refine ⟨⟨"uninitialised variable", ?_⟩, ⟨"uninitialised variable", ?_⟩, ⟨"uninitialised variable", ?_⟩⟩
  · unfold getSlice; rw [this]; rfl
  · unfold setSlice; rw [this]; rfl
  · unfold delSlice; rw [this]; rfl

/-- C85 (finding): a step of about `2^63` (for example `sys.maxsize`) overflows if the vector is not empty. -/
theorem C85_huge_step (v : List α) (step : Int) (hlen : (v.length : Int) ≤ 2 ^ 60 - 1)
    (hs : 2 ^ 63 - 1 < v.length + step ∨ 2 ^ 63 - 1 < v.length - step) :
    ∃ w, getSlice v ⟨.none, .none, .int step⟩ = .error (.ub w) := by
  refine ⟨"signed overflow", ?_⟩
  have h1 := sliceGetIndices_arg v.length none none (some step)
  simp only [arg, Option.getD_some] at h1
  unfold getSlice
  rw [h1]
  simp only [bind, Except.bind]
  unfold getslice
  dsimp only
  rcases hs with hs | hs
  · have hpos : 0 < step := by omega
    rw [sliceAdjust_up (n := v.length) (step := step) hpos none none false (by simp only [rawStart]; rw [if_neg (by omega)]; omega),
      first_up hpos, stop_up hpos]
    simp only [bind, Except.bind, if_pos hpos, rawStart, rawStop, if_neg (show ¬ step < 0 by omega)]
    rw [show max (0 : ℤ) (min 0 v.length) = 0 by omega, show max (0 : ℤ) (min v.length v.length) = v.length by omega,
      show max (0 : ℤ) v.length = v.length by omega, advanceTo_ok (by omega) (by omega), advanceTo_ok (by omega) (by omega)]
    simp only []
    rw [if_neg (by omega)]
    unfold ptrdiff PTRDIFF_MAX
    rw [if_neg (by omega)]
  · have hneg : step < 0 := by omega
    rw [sliceAdjust_down (n := v.length) (step := step) hneg none none false, first_down hneg, stop_down hneg]
    simp only [bind, Except.bind, if_neg (show ¬ 0 < step by omega), rawStart, rawStop, if_pos hneg]
    unfold ptrdiff PTRDIFF_MAX
    rw [if_neg (by omega)]

example : (2 : Int) ^ 63 - 1 < ([5] : List Int).length + (2 ^ 63 - 1) := by norm_num

/-- C85 (finding): `v[::-1] = v` reverses a list, but makes `VectorDouble` a palindrome: its first half stays, the second half
mirrors it. -/
theorem C85_self_reverse (v : List α) (hlen : (v.length : Int) ≤ 2 ^ 60 - 1) :
    assignSlice v none none (-1) v = some v.reverse ∧
    ∃ w, setSlice v ⟨.none, .none, .int (-1)⟩ .same = .ok w ∧ w.length = v.length ∧
      ∀ p, p < v.length → w[p]? = v[min p (v.length - 1 - p)]? := by
  refine ⟨?_, setSlice_self_reverse v hlen⟩
  have hpos : positions v.length none none (-1) = (List.range v.length).map fun k : ℕ => ((v.length : ℤ) - 1) - k * (1 : ℕ) := by
    rw [positions_down (T := 1) (i := (v.length : ℤ) - 1) (j := -1) (by omega) (by omega) (by simp [first]) (by simp [stop])]
    congr 2
    unfold cnt; omega
  unfold assignSlice
  rw [if_neg (by omega), hpos, if_pos (by simp)]
  congr 1
  have gen : ∀ (m : ℕ), m ≤ v.length → ∀ p, p < v.length →
      (((((List.range m).map fun k : ℕ => ((v.length : ℤ) - 1) - k * (1 : ℕ)).zip v).foldl (fun l px => l.set px.1.toNat px.2) v)[p]?
        = if v.length ≤ p + m then v[v.length - 1 - p]? else v[p]?) ∧
      ((((List.range m).map fun k : ℕ => ((v.length : ℤ) - 1) - k * (1 : ℕ)).zip v).foldl (fun l px => l.set px.1.toNat px.2) v).length
        = v.length := by
    intro m
    induction m with
    | zero => intro _ p hp; simp; intro h; omega
    | succ m ih =>
      intro hm p hp
      obtain ⟨ih1, ih2⟩ := ih (by omega) p hp
      have hz : ((List.range (m + 1)).map fun k : ℕ => ((v.length : ℤ) - 1) - k * (1 : ℕ)).zip v
          = ((List.range m).map fun k : ℕ => ((v.length : ℤ) - 1) - k * (1 : ℕ)).zip v ++ [((v.length : ℤ) - 1 - m * (1 : ℕ), v[m])] := by
        exact zip_range_succ _ v m (by omega)
      rw [hz, List.foldl_append]
      simp only [List.foldl_cons, List.foldl_nil, List.length_set]
      refine ⟨?_, ih2⟩
      have ht : ((v.length : ℤ) - 1 - m * ((1 : ℕ) : ℤ)).toNat = v.length - 1 - m := by omega
      rw [ht, List.getElem?_set]
      by_cases h : v.length - 1 - m = p
      · subst h
        rw [if_pos rfl, if_pos (by omega), if_pos (by omega), ← List.getElem?_eq_getElem (by omega)]
        congr 1; omega
      · rw [if_neg h, ih1]
        by_cases h1 : v.length ≤ p + m
        · rw [if_pos h1, if_pos (by omega)]
        · rw [if_neg h1, if_neg (by omega)]
  apply List.ext_getElem?
  intro p
  by_cases hp : p < v.length
  · rw [(gen v.length le_rfl p hp).1, if_pos (by omega), List.getElem?_reverse hp]
  · by_cases h0 : v.length = 0
    · obtain rfl := List.eq_nil_of_length_eq_zero h0
      rfl
    · have := (gen v.length le_rfl 0 (by omega)).2
      rw [List.getElem?_eq_none (by omega), List.getElem?_eq_none (by simp; omega)]

/-- `v[::-1] = v` for `v = VectorDouble([1, 2, 3, 4])` -/
example : setSlice [1, 2, 3, 4] ⟨.none, .none, .int (-1)⟩ .same = .ok [1, 2, 2, 1] := rfl

/-- C85 (finding): `v[start:stop] = v` is undefined behaviour (a list allows it). -/
theorem C85_self_assign (v : List α) (a b : Option Int) :
    ∃ w, setSlice v ⟨arg a, arg b, .none⟩ .same = .error (.ub w) := by
  have h1 := sliceGetIndices_arg v.length a b none
  have h2 := sliceAdjust_up (n := v.length) (step := 1) (by omega) a b true (Or.inl rfl)
  refine ⟨"insert of a range of the vector into itself", ?_⟩
  unfold setSlice
  rw [show SliceArg.none = arg none from rfl, h1]
  simp only [bind, Except.bind, Option.getD_none]
  unfold setslice
  dsimp only [Source.contents]
  rw [h2]
  rfl

/-- C86: any sequence of `append`, `pop`, `clear`, `v[i] = x`, `del v[i]`, `v[s] = xs`, `del v[s]` on a `VectorDouble`: every call
returns or raises what it does for a list with the same elements, the contents are those of the list, and nothing is undefined
or terminates the interpreter. -/
theorem C86_history (v : List α) (ops : List (Op α)) (hr : ∀ op ∈ ops, inRange op)
    (hlen : (v.length : Int) + (ops.map grow).sum ≤ 2 ^ 60 - 1) :
    calls v (ops.map Call.of) = .ok ((applyAll v ops).1.map seen, (applyAll v ops).2) :=
  calls_spec ops v hr hlen

/-- A history with a failing call in the middle. -/
example : calls [1, 2] ([.append 3, .setSlice none none (some 2) [7], .setItem (-1) 9, .pop, .delSlice (some 1) none none].map Call.of)
    = .ok ([.ok none, .error .valueError, .ok none, .ok (some 9), .ok none], [1]) := rfl

/-- C86: `list(v)` gives the elements in order, and the iterator stops behind the last one. -/
theorem C86_iterate (v : List α) (stamp : Nat) : toPyList v stamp = .ok v := by
  unfold toPyList
  have := collect_ok v stamp v.length 0 [] (by omega)
  simpa using this

/-- C86 (finding): an iterator made before the vector changed its size must not be used (for lists it may be). -/
theorem C86_iterator_invalidated (it : Iter) (v : List α) (stamp : Nat) (h : it.stamp ≠ stamp) :
    ∃ w, it.next v stamp = .error (.ub w) := by
  refine ⟨"invalidated iterator", ?_⟩
  unfold Iter.next
  rw [if_pos h]

/-- C86: `front`, `back`, `pop` and `pop_back` of a vector with an element ... -/
theorem C86_ends (v : List α) (x y : α) :
    front (x :: v) = .ok x ∧ back (v ++ [y]) = .ok y ∧ pop (v ++ [y]) = .ok (y, v) ∧ popBack (v ++ [y]) = .ok v := by
  refine ⟨rfl, ?_, ?_, ?_⟩
  · unfold back
    rw [show (((v ++ [y]).length : ℕ) : ℤ) - 1 = (v.length : ℕ) by simp, deref_ok (by simp)]
    simp
  · simp [pop]
  · simp [popBack]

/-- C86 (finding): ... and of an empty vector: `pop` raises IndexError, the others are undefined behaviour. -/
theorem C86_ends_empty : pop ([] : List α) = .error .indexError ∧ (∃ w, front ([] : List α) = .error (.ub w)) ∧
    (∃ w, back ([] : List α) = .error (.ub w)) ∧ ∃ w, popBack ([] : List α) = .error (.ub w) := by
  refine ⟨rfl, ⟨_, rfl⟩, ⟨_, rfl⟩, ⟨"pop_back of an empty vector", ?_⟩⟩
  simp [popBack]

/-- C86: `VectorDouble(n, x)` (also `assign`) holds `n` times `x`; `resize` keeps the first elements and adds `x`s behind them;
`reserve` changes nothing. -/
theorem C86_size (v : List α) (n : Nat) (x : α) (hn : (n : Int) ≤ 2 ^ 60 - 1) :
    (∃ w, assign n x = .ok w ∧ w.length = n ∧ ∀ p < n, w[p]? = some x) ∧
    (∃ w, resize v n x = .ok w ∧ w.length = n ∧ ∀ p < n, w[p]? = some (v[p]?.getD x)) ∧ reserveMethod v n = .ok v := by
  have h : reserve (n : ℤ) = .ok () := by unfold reserve MAX_SIZE; rw [if_pos hn]
  refine ⟨⟨List.replicate n x, ?_, by simp, fun p hp => by simp [hp]⟩, ⟨v.take n ++ List.replicate (n - v.length) x, ?_, ?_, ?_⟩, ?_⟩
  · unfold assign; rw [h]; rfl
  · unfold resize; rw [h]; rfl
  · simp; omega
  · intro p hp
    by_cases hv : p < v.length
    · rw [List.getElem?_append_left (by simp; omega), List.getElem?_take_of_lt hp, List.getElem?_eq_getElem hv]; rfl
    · rw [List.getElem?_append_right (by simp; omega), List.getElem?_replicate, if_pos (by simp; omega), List.getElem?_eq_none (by omega)]
      rfl
  · unfold reserveMethod; rw [h]; rfl

example : resize [1, 2, 3] 2 0 = .ok [1, 2] ∧ resize [1, 2, 3] 5 0 = .ok [1, 2, 3, 0, 0] := ⟨rfl, rfl⟩

/-- C86 (finding): a size above `2^60 - 1` terminates the interpreter (`std::length_error` is not caught) instead of raising an
exception. -/
theorem C86_too_large (v : List α) (n : Nat) (x : α) (hn : 2 ^ 60 - 1 < n) :
    assign n x = .error .terminated ∧ resize v n x = .error .terminated ∧ reserveMethod v n = .error .terminated := by
  have h : reserve (n : ℤ) = .error .terminated := by unfold reserve MAX_SIZE; rw [if_neg (by omega)]
  refine ⟨?_, ?_, ?_⟩
  · unfold assign; rw [h]; rfl
  · unfold resize; rw [h]; rfl
  · unfold reserveMethod; rw [h]; rfl

end CP.Swig
