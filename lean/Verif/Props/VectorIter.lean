import Verif.Model.VectorIter
import Mathlib.Tactic.Linarith
import Mathlib.Tactic.SplitIfs
import Mathlib.Tactic.Ring
/-
Property C92: iterator objects of a `VectorDouble`.
-/
namespace CP.Props
open CP.Swig
variable {α : Type}

/-! ### Specification -/

/-- What a Python programmer expects of an object that walks over the list `v` and is before the element with index `k`: the new index
and what is seen.  Moving beyond an end stops there with StopIteration. -/
def walk (v : List α) (k : ℕ) : Move → ℕ × Except PyFault (Option α)
  | .advance n =>
    if n < -2 ^ 63 ∨ 2 ^ 63 ≤ n then (k, .error .typeError)
    else if 0 ≤ k + n ∧ k + n ≤ v.length then ((k + n).toNat, .ok none)
    else (if 0 < n then v.length else 0, .error .stopIteration)
  | .incr n => if k + n ≤ v.length then (k + n, .ok none) else (v.length, .error .stopIteration)
  | .decr n => if n ≤ k then (k - n, .ok none) else (0, .error .stopIteration)
  | .next => if h : k < v.length then (k + 1, .ok (some v[k])) else (k, .error .stopIteration)
  | .previous => if h : 0 < k ∧ k ≤ v.length then (k - 1, .ok (some (v[k - 1]'(by omega)))) else (k, .error .stopIteration)
  | .value => if h : k < v.length then (k, .ok (some v[k])) else (k, .error .stopIteration)

/-- A sequence of calls. -/
def walks (v : List α) : ℕ → List Move → ℕ × List (Except PyFault (Option α))
  | k, [] => (k, [])
  | k, m :: ms => ((walks v (walk v k m).1 ms).1, (walk v k m).2 :: (walks v (walk v k m).1 ms).2)

/-- An iterator that can be passed to `insert` and `erase`, at the element with index `k`. -/
structure AtIndex (stamp : ℕ) (it : It) (k : ℕ) : Prop where
  forward : it.rev = false
  current : it.stamp = stamp
  index : it.cur = k

/-! ### Moving -/

theorem P_ok_bind {β γ : Type} (x : β) (f : β → P γ) : (Except.ok x >>= f) = f x := rfl
theorem P_error_bind {β γ : Type} (e : PyFault) (f : β → P γ) : ((Except.error e : P β) >>= f) = .error e := rfl

theorem advanceTo_ok {v : List α} {p : Int} (h : 0 ≤ p ∧ p ≤ v.length) : advanceTo v p = .ok p := by
  unfold advanceTo; rw [if_pos h]

theorem advanceTo_ub {v : List α} {p : Int} (h : ¬ (0 ≤ p ∧ p ≤ v.length)) : ∃ w, advanceTo v p = .error (.ub w) := by
  unfold advanceTo; rw [if_neg h]; exact ⟨_, rfl⟩

theorem deref_ok {v : List α} {k : ℕ} (h : k < v.length) : deref v k = .ok v[k] := by
  unfold deref
  rw [if_pos (by omega)]
  simp [h]

/-- The loop without a stop, inside the vector. -/
theorem stepLoop_open (v : List α) (d : Int) (hd : d = 1 ∨ d = -1) (n : ℕ) (it : It) (h0 : 0 ≤ it.cur ∧ it.cur ≤ v.length) :
    (0 ≤ it.cur + d * n ∧ it.cur + d * n ≤ v.length → stepLoop v d none n it = .ok ({ it with cur := it.cur + d * n }, false)) ∧
    (¬ (0 ≤ it.cur + d * n ∧ it.cur + d * n ≤ v.length) → ∃ w, stepLoop v d none n it = .error (.ub w)) := by
  induction n generalizing it with
  | zero => simp [stepLoop, h0]
  | succ n ih =>
    unfold stepLoop
    rw [if_neg (by simp)]
    by_cases h1 : 0 ≤ it.cur + d ∧ it.cur + d ≤ v.length
    · rw [advanceTo_ok h1, P_ok_bind]
      have := ih { it with cur := it.cur + d } h1
      dsimp only at this
      have e : it.cur + d + d * (n : ℤ) = it.cur + d * ((n + 1 : ℕ) : ℤ) := by push_cast; ring
      rw [e] at this
      exact this
    · obtain ⟨w, hw⟩ := advanceTo_ub h1
      rw [hw, P_error_bind]
      refine ⟨fun h => absurd ?_ h1, fun _ => ⟨w, rfl⟩⟩
      rcases hd with rfl | rfl <;> push_cast at h <;> constructor <;> omega

/-- The loop up to the end of a closed iterator. -/
theorem stepLoop_up (v : List α) (n : ℕ) (it : It) (k : ℕ) (hk : k ≤ v.length) (hc : it.cur = k) :
    stepLoop v 1 (some (v.length : ℤ)) n it =
      .ok ({ it with cur := ((if k + n ≤ v.length then k + n else v.length : ℕ) : ℤ) }, decide (¬ k + n ≤ v.length)) := by
  induction n generalizing it k with
  | zero =>
    unfold stepLoop
    rw [if_pos (by omega)]
    cases it
    simp_all
  | succ n ih =>
    unfold stepLoop
    by_cases h1 : k = v.length
    · rw [if_pos (by rw [hc, h1]), if_neg (by omega)]
      cases it
      simp_all
    · rw [if_neg (by rw [hc]; simp; omega), advanceTo_ok (by rw [hc]; constructor <;> omega), P_ok_bind,
        ih _ (k + 1) (by omega) (by simp [hc])]
      simp only [show k + 1 + n = k + (n + 1) by omega]

/-- The loop down to the beginning of a closed iterator. -/
theorem stepLoop_down (v : List α) (n : ℕ) (it : It) (k : ℕ) (hk : k ≤ v.length) (hc : it.cur = k) :
    stepLoop v (-1) (some 0) n it = .ok ({ it with cur := ((if n ≤ k then k - n else 0 : ℕ) : ℤ) }, decide (¬ n ≤ k)) := by
  induction n generalizing it k with
  | zero =>
    unfold stepLoop
    rw [if_pos (by omega)]
    cases it
    simp_all
  | succ n ih =>
    unfold stepLoop
    by_cases h1 : k = 0
    · rw [if_pos (by rw [hc, h1]; rfl), if_neg (by omega)]
      cases it
      simp_all
    · rw [if_neg (by rw [hc]; simp; omega), advanceTo_ok (by rw [hc]; constructor <;> omega), P_ok_bind,
        ih _ (k - 1) (by omega) (by simp [hc]; omega)]
      by_cases h2 : n + 1 ≤ k
      · rw [if_pos (by omega), if_pos h2]
        simp [show n ≤ k - 1 by omega, show k - 1 - n = k - (n + 1) by omega, show ¬ k < n + 1 by omega]
      · rw [if_neg (by omega), if_neg h2]
        simp [show k < n + 1 by omega, show k - 1 < n by omega]

theorem ptrdiff_ok {x : Int} (h : -2 ^ 63 ≤ x ∧ x < 2 ^ 63) : ptrdiff x = .ok x := by
  unfold ptrdiff PTRDIFF_MAX; rw [if_pos (by constructor <;> omega)]

theorem fits_iff (n : Int) : fits n = true ↔ -2 ^ 63 ≤ n ∧ n < 2 ^ 63 := by
  unfold fits PTRDIFF_MAX
  rw [decide_eq_true_iff]
  constructor <;> rintro ⟨h1, h2⟩ <;> constructor <;> omega

/-- `iter(v)` moved to index `k`. -/
def iterAt (v : List α) (stamp k : ℕ) : It := { iter_ v stamp with cur := k }

theorem iterAt_value (v : List α) (stamp k : ℕ) (hk : k ≤ v.length) :
    (iterAt v stamp k).value v stamp = if h : k < v.length then .ok v[k] else .error .stopIteration := by
  have hl : (iterAt v stamp k).live stamp = .ok () := if_pos rfl
  unfold It.value
  rw [hl, P_ok_bind]
  show (if (k : ℤ) = v.length then _ else _) = _
  by_cases h : k < v.length
  · rw [if_neg (by omega), dif_pos h]; exact deref_ok h
  · rw [if_pos (by omega), dif_neg h]

theorem iterAt_incr (v : List α) (stamp k n : ℕ) (hk : k ≤ v.length) :
    (iterAt v stamp k).incr v stamp n = .ok (iterAt v stamp (if k + n ≤ v.length then k + n else v.length), decide (¬ k + n ≤ v.length)) := by
  have hl : (iterAt v stamp k).live stamp = .ok () := if_pos rfl
  unfold It.incr
  rw [hl, P_ok_bind]
  exact stepLoop_up v n _ k hk rfl

theorem iterAt_decr (v : List α) (stamp k n : ℕ) (hk : k ≤ v.length) :
    (iterAt v stamp k).decr v stamp n = .ok (iterAt v stamp (if n ≤ k then k - n else 0), decide (¬ n ≤ k)) := by
  have hl : (iterAt v stamp k).live stamp = .ok () := if_pos rfl
  unfold It.decr
  rw [if_neg (by simp [iterAt, iter_]), hl, P_ok_bind]
  exact stepLoop_down v n _ k hk rfl

theorem iterAt_move (v : List α) (stamp k : ℕ) (hk : k ≤ v.length) (m : Move) (hm : ∀ n, m = .advance n → n ≠ -2 ^ 63) :
    (iterAt v stamp k).move v stamp m = .ok (iterAt v stamp (walk v k m).1, (walk v k m).2) ∧ (walk v k m).1 ≤ v.length := by
  cases m with
  | advance n =>
    have hn := hm n rfl
    unfold It.move walk
    by_cases hf : n < -2 ^ 63 ∨ 2 ^ 63 ≤ n
    · have : ¬ fits n = true := by rw [fits_iff]; omega
      simp only [this, if_pos hf]
      exact ⟨rfl, hk⟩
    · have : fits n = true := by rw [fits_iff]; omega
      simp only [this, if_neg hf, if_true]
      unfold It.advance
      by_cases h0 : 0 < n
      · rw [if_pos h0, iterAt_incr v stamp k _ hk]
        by_cases h1 : k + n.toNat ≤ v.length
        · rw [if_pos h1, if_pos (by constructor <;> omega)]
          simp only [P_ok_bind]
          refine ⟨?_, by omega⟩
          simp [h1, show (k + n).toNat = k + n.toNat by omega]
        · rw [if_neg h1, if_neg (by omega), if_pos h0]
          simp only [P_ok_bind]
          refine ⟨?_, le_rfl⟩
          simp [h1]
      · rw [if_neg h0, ptrdiff_ok (by constructor <;> omega), P_ok_bind, iterAt_decr v stamp k _ hk]
        by_cases h1 : (-n).toNat ≤ k
        · rw [if_pos h1, if_pos (by constructor <;> omega)]
          simp only [P_ok_bind]
          refine ⟨?_, by omega⟩
          simp [h1, show (k + n).toNat = k - (-n).toNat by omega]
        · rw [if_neg h1, if_neg (by omega), if_neg h0]
          simp only [P_ok_bind]
          refine ⟨?_, by omega⟩
          simp [h1]
  | incr n =>
    unfold It.move walk
    dsimp only
    rw [iterAt_incr v stamp k n hk]
    by_cases h : k + n ≤ v.length
    · simp [h, P_ok_bind]
    · simp only [if_neg h, P_ok_bind]
      exact ⟨by simp [h], le_rfl⟩
  | decr n =>
    unfold It.move walk
    dsimp only
    rw [iterAt_decr v stamp k n hk]
    by_cases h : n ≤ k
    · simp only [if_pos h, P_ok_bind]
      exact ⟨by simp [h], by omega⟩
    · simp only [if_neg h, P_ok_bind]
      exact ⟨by simp [h], by omega⟩
  | next =>
    unfold It.move walk
    dsimp only
    rw [iterAt_value v stamp k hk]
    by_cases h : k < v.length
    · rw [dif_pos h, dif_pos h]
      dsimp only
      rw [iterAt_incr v stamp k 1 hk, P_ok_bind]
      simp only [if_pos (show k + 1 ≤ v.length by omega)]
      exact ⟨by simp [show k + 1 ≤ v.length by omega], by omega⟩
    · rw [dif_neg h, dif_neg h]
      exact ⟨rfl, hk⟩
  | previous =>
    unfold It.move walk
    dsimp only
    rw [iterAt_decr v stamp k 1 hk, P_ok_bind]
    by_cases h : 1 ≤ k
    · rw [dif_pos ⟨by omega, hk⟩]
      simp only [if_pos h]
      rw [iterAt_value v stamp (k - 1) (by omega)]
      simp only [h, not_true, decide_false, dif_pos (show k - 1 < v.length by omega)]
      exact ⟨rfl, by omega⟩
    · have : k = 0 := by omega
      subst this
      simp [iterAt]
  | value =>
    unfold It.move walk
    dsimp only
    rw [iterAt_value v stamp k hk]
    by_cases h : k < v.length
    · rw [dif_pos h, dif_pos h]; exact ⟨rfl, hk⟩
    · rw [dif_neg h, dif_neg h]; exact ⟨rfl, hk⟩

/-- C92: every sequence of calls of methods of the iterator `iter(v)`, with any numbers (except `-2**63`), behaves as an object that walks
over the list; it never leaves the list and is never undefined behaviour, as long as the vector keeps its size. -/
theorem C92_iter_history (v : List α) (stamp : ℕ) (ms : List Move) (hm : ∀ n, Move.advance n ∈ ms → n ≠ -2 ^ 63) :
    (iter_ v stamp).moves v stamp ms = .ok (iterAt v stamp (walks v 0 ms).1, (walks v 0 ms).2) ∧ (walks v 0 ms).1 ≤ v.length := by
  have key : ∀ (ms : List Move) (k : ℕ), k ≤ v.length → (∀ n, Move.advance n ∈ ms → n ≠ -2 ^ 63) →
      (iterAt v stamp k).moves v stamp ms = .ok (iterAt v stamp (walks v k ms).1, (walks v k ms).2) ∧ (walks v k ms).1 ≤ v.length := by
    intro ms
    induction ms with
    | nil => intro k hk _; exact ⟨rfl, hk⟩
    | cons m ms ih =>
      intro k hk hm
      obtain ⟨h1, h2⟩ := iterAt_move v stamp k hk m (fun n hn => hm n (by rw [hn]; exact List.mem_cons_self))
      obtain ⟨h3, h4⟩ := ih _ h2 fun n hn => hm n (List.mem_cons_of_mem _ hn)
      unfold It.moves walks
      rw [h1, P_ok_bind]
      dsimp only
      rw [h3, P_ok_bind]
      exact ⟨rfl, h4⟩
  exact key ms 0 (Nat.zero_le _) hm

/-- C92: `list(v)`-like reading: `n` calls of `next` give the first `n` elements. -/
theorem C92_iter_reads (v : List α) (stamp n : ℕ) (hn : n ≤ v.length) :
    (iter_ v stamp).moves v stamp (List.replicate n .next) = .ok (iterAt v stamp n, (v.take n).map fun x => .ok (some x)) := by
  have key : ∀ n k, k + n ≤ v.length → walks v k (List.replicate n .next) = (k + n, ((v.drop k).take n).map fun x => .ok (some x)) := by
    intro n
    induction n with
    | zero => intro k _; simp [walks]
    | succ n ih =>
      intro k h
      rw [List.replicate_succ]
      unfold walks
      have hw : walk v k .next = (k + 1, .ok (some (v[k]'(by omega)))) := by unfold walk; rw [dif_pos (by omega)]
      rw [hw]
      dsimp only
      rw [ih (k + 1) (by omega), List.drop_eq_getElem_cons (by omega : k < v.length), List.take_succ_cons, List.map_cons]
      simp only [Prod.mk.injEq, and_true]
      omega
  have h := (C92_iter_history v stamp (List.replicate n .next) (by
    intro m hm
    have := List.eq_of_mem_replicate hm
    cases this)).1
  rw [key n 0 (by omega)] at h
  simpa using h

/-- C92: `it + n` for `n <= 0` and `it - n` for `n >= 0` never work, not even `v.end() - 1` or `it + 0`: TypeError, for every iterator. -/
theorem C92_no_step_back (v : List α) (stamp : ℕ) (it : It) (n : Int) :
    (n ≤ 0 → -2 ^ 63 < n → it.add v stamp n = .error .typeError) ∧ (0 ≤ n → n < 2 ^ 63 → it.sub v stamp n = .error .typeError) := by
  constructor
  · intro h1 h2
    unfold It.add
    rw [if_pos ((fits_iff n).mpr (by constructor <;> omega))]
    unfold It.advance
    rw [if_neg (by omega), ptrdiff_ok (by constructor <;> omega)]
    rfl
  · intro h1 h2
    unfold It.sub
    rw [if_pos ((fits_iff n).mpr (by constructor <;> omega)), ptrdiff_ok (by constructor <;> omega), P_ok_bind]
    unfold It.advance
    rw [if_neg (by omega), ptrdiff_ok (by constructor <;> omega)]
    rfl

/-- C92: `v.begin() + n` for `n > 0` is at index `n` if the vector has at least `n` elements, and undefined behaviour otherwise; `iter(v) + n`
is a TypeError in that case. -/
theorem C92_plus (v : List α) (stamp : ℕ) (n : ℕ) (hn : 0 < n) (hn' : (n : Int) < 2 ^ 63) :
    (n ≤ v.length → ∃ it, (begin_ stamp).add v stamp n = .ok it ∧ AtIndex stamp it n ∧ it.fwd = true) ∧
    (v.length < n → (∃ w, (begin_ stamp).add v stamp n = .error (.ub w)) ∧ (iter_ v stamp).add v stamp n = .error .typeError) := by
  have hf : fits n = true := (fits_iff n).mpr (by constructor <;> omega)
  have hl : (begin_ stamp).copy.live stamp = .ok () := if_pos rfl
  have hb := stepLoop_open v 1 (Or.inl rfl) n (begin_ stamp).copy (by show (0 : ℤ) ≤ 0 ∧ (0 : ℤ) ≤ v.length; omega)
  have hc : (begin_ stamp).copy.cur = 0 := rfl
  have he : (begin_ stamp).add v stamp n = (do
      let (r, stopped) ← stepLoop v 1 none n (begin_ stamp).copy
      if stopped then .error .typeError else .ok r) := by
    unfold It.add It.advance It.incr
    rw [if_pos hf, if_pos (by omega), hl, P_ok_bind, Int.toNat_natCast]
    rfl
  constructor
  · intro h
    have := hb.1 (by rw [hc]; constructor <;> omega)
    rw [he, this, P_ok_bind]
    refine ⟨_, rfl, ⟨rfl, rfl, ?_⟩, rfl⟩
    show (begin_ stamp).copy.cur + 1 * (n : ℤ) = n
    rw [hc]; omega
  · intro h
    obtain ⟨w, hw⟩ := hb.2 (by rw [hc]; omega)
    refine ⟨⟨w, by rw [he, hw]; rfl⟩, ?_⟩
    unfold It.add It.advance It.incr
    have hl : (iter_ v stamp).copy.live stamp = .ok () := if_pos rfl
    rw [if_pos hf, if_pos (by omega), hl, P_ok_bind, Int.toNat_natCast]
    have := stepLoop_up v n (iter_ v stamp).copy 0 (Nat.zero_le _) rfl
    have e : stepLoop v (iter_ v stamp).copy.dir ((iter_ v stamp).copy.closed.map Prod.snd) n (iter_ v stamp).copy = _ := this
    rw [e, P_ok_bind]
    simp [show ¬ n ≤ v.length by omega]

/-- The calls that move an iterator back. -/
def BackMove : Move → Prop
  | .advance n => -2 ^ 63 < n ∧ n ≤ 0
  | .decr _ => True
  | .previous => True
  | _ => False

theorem stepLoop_fwd {v : List α} {d : Int} {stop : Option Int} {n : ℕ} {it r : It} {s : Bool}
    (h : stepLoop v d stop n it = .ok (r, s)) : r.fwd = it.fwd := by
  induction n generalizing it with
  | zero => unfold stepLoop at h; cases h; rfl
  | succ n ih =>
    unfold stepLoop at h
    split_ifs at h
    · cases h; rfl
    · cases hc : advanceTo v (it.cur + d) with
      | error e => rw [hc, P_error_bind] at h; cases h
      | ok c => rw [hc, P_ok_bind] at h; have := ih h; exact this

theorem incr_fwd {v : List α} {stamp n : ℕ} {it r : It} {s : Bool} (h : it.incr v stamp n = .ok (r, s)) : r.fwd = it.fwd := by
  unfold It.incr at h
  cases hl : it.live stamp with
  | error e => rw [hl, P_error_bind] at h; cases h
  | ok _ => rw [hl, P_ok_bind] at h; exact stepLoop_fwd h

theorem decr_fwd {v : List α} {stamp n : ℕ} {it r : It} {s : Bool} (h : it.decr v stamp n = .ok (r, s)) : r.fwd = it.fwd := by
  unfold It.decr at h
  split_ifs at h
  · cases h; rfl
  · cases hl : it.live stamp with
    | error e => rw [hl, P_error_bind] at h; cases h
    | ok _ => rw [hl, P_ok_bind] at h; exact stepLoop_fwd h

theorem advance_fwd {v : List α} {stamp : ℕ} {n : Int} {it r : It} {s : Bool} (h : it.advance v stamp n = .ok (r, s)) : r.fwd = it.fwd := by
  unfold It.advance at h
  split_ifs at h
  · exact incr_fwd h
  · cases hp : ptrdiff (-n) with
    | error e => rw [hp, P_error_bind] at h; cases h
    | ok c => rw [hp, P_ok_bind] at h; exact decr_fwd h

theorem move_fwd {v : List α} {stamp : ℕ} {it r : It} {m : Move} {o : Except PyFault (Option α)} (h : it.move v stamp m = .ok (r, o)) :
    r.fwd = it.fwd := by
  have aux : ∀ {x : P (It × Bool)} {f : It × Bool → P (It × Except PyFault (Option α))},
      (x >>= f) = .ok (r, o) → ∃ y, x = .ok y ∧ f y = .ok (r, o) := by
    intro x f h
    cases x with
    | error e => cases h
    | ok y => exact ⟨y, rfl, h⟩
  unfold It.move at h
  cases m with
  | advance n =>
    dsimp only at h
    split_ifs at h
    · obtain ⟨⟨y, s⟩, h1, h2⟩ := aux h
      cases h2; exact advance_fwd h1
    · cases h; rfl
  | incr n => obtain ⟨⟨y, s⟩, h1, h2⟩ := aux h; cases h2; exact incr_fwd h1
  | decr n => obtain ⟨⟨y, s⟩, h1, h2⟩ := aux h; cases h2; exact decr_fwd h1
  | next =>
    dsimp only at h
    cases hv : it.value v stamp with
    | ok x => rw [hv] at h; obtain ⟨⟨y, s⟩, h1, h2⟩ := aux h; cases h2; exact incr_fwd h1
    | error e => rw [hv] at h; cases e <;> cases h; rfl
  | previous =>
    obtain ⟨⟨y, s⟩, h1, h2⟩ := aux h
    have := decr_fwd h1
    dsimp only at h2
    split_ifs at h2
    · cases h2; exact this
    · cases hv : y.value v stamp with
      | ok x => rw [hv] at h2; cases h2; exact this
      | error e => rw [hv] at h2; cases e <;> cases h2; exact this
  | value =>
    dsimp only at h
    cases hv : it.value v stamp with
    | ok x => rw [hv] at h; cases h; rfl
    | error e => rw [hv] at h; cases e <;> cases h; rfl

theorem moves_fwd {v : List α} {stamp : ℕ} {ms : List Move} {it r : It} {os : List (Except PyFault (Option α))}
    (h : it.moves v stamp ms = .ok (r, os)) : r.fwd = it.fwd := by
  induction ms generalizing it os with
  | nil => unfold It.moves at h; cases h; rfl
  | cons m ms ih =>
    unfold It.moves at h
    cases hm : it.move v stamp m with
    | error e => rw [hm, P_error_bind] at h; cases h
    | ok y =>
      rw [hm, P_ok_bind] at h
      dsimp only at h
      cases hr : y.1.moves v stamp ms with
      | error e => rw [hr, P_error_bind] at h; cases h
      | ok z => rw [hr, P_ok_bind] at h; cases h; exact (ih hr).trans (move_fwd hm)

/-- C92: an iterator that was made by `it.copy()` or `it + n` or `it - n` can never be moved back, whatever was done with it before: every such
call raises StopIteration and leaves it where it is. -/
theorem C92_copies_only_forward (v : List α) (stamp : ℕ) (it r r' : It) (n : Int)
    (hr : r = it.copy ∨ it.add v stamp n = .ok r ∨ it.sub v stamp n = .ok r) (ms : List Move)
    (os : List (Except PyFault (Option α))) (hm : r.moves v stamp ms = .ok (r', os)) (m : Move) (hb : BackMove m) :
    r'.move v stamp m = .ok (r', .error .stopIteration) := by
  have hadd : ∀ {k : Int} {x : P (It × Bool)}, x = it.copy.advance v stamp k →
      (x >>= fun y => if y.2 then (.error .typeError : P It) else .ok y.1) = .ok r → r.fwd = true := by
    intro k x hx h
    cases hx' : x with
    | error e => rw [hx', P_error_bind] at h; cases h
    | ok y =>
      rw [hx', P_ok_bind] at h
      split_ifs at h
      cases h
      exact advance_fwd (it := it.copy) (s := y.2) (n := k) (r := y.1) (hx.symm.trans hx')
  have hf : r.fwd = true := by
    rcases hr with rfl | h | h
    · rfl
    · unfold It.add at h
      split_ifs at h
      exact hadd rfl h
    · unfold It.sub at h
      split_ifs at h
      cases hp : ptrdiff (-n) with
      | error e => rw [hp, P_error_bind] at h; cases h
      | ok k => rw [hp, P_ok_bind] at h; exact hadd (k := k) rfl h
  have hf' : r'.fwd = true := (moves_fwd hm).trans hf
  have hd : ∀ k, r'.decr v stamp k = .ok (r', true) := fun k => by unfold It.decr; rw [if_pos hf']
  cases m with
  | advance k =>
    obtain ⟨h1, h2⟩ := hb
    unfold It.move
    dsimp only
    rw [if_pos ((fits_iff k).mpr (by constructor <;> omega))]
    unfold It.advance
    rw [if_neg (by omega), ptrdiff_ok (by constructor <;> omega), P_ok_bind, hd]
    rfl
  | decr k => unfold It.move; dsimp only; rw [hd]; rfl
  | previous => unfold It.move; dsimp only; rw [hd]; rfl
  | incr k => exact hb.elim
  | next => exact hb.elim
  | value => exact hb.elim

/-- C92: `it += n` (or `it.advance(n)`) for an iterator made by `begin()` or `end()`, at index `k`, goes to the index `k + n` in both directions if
there is one, and is undefined behaviour otherwise. -/
theorem C92_in_place (v : List α) (stamp k : ℕ) (hk : k ≤ v.length) (n : Int) (hn : -2 ^ 63 < n ∧ n < 2 ^ 63) :
    (0 ≤ k + n ∧ k + n ≤ v.length →
      (makeOpen false k stamp).move v stamp (.advance n) = .ok (makeOpen false (k + n) stamp, .ok none)) ∧
    (¬ (0 ≤ k + n ∧ k + n ≤ v.length) → ∃ w, (makeOpen false k stamp).move v stamp (.advance n) = .error (.ub w)) := by
  have hl : (makeOpen false k stamp).live stamp = .ok () := if_pos rfl
  have h0 : 0 ≤ (makeOpen false k stamp).cur ∧ (makeOpen false k stamp).cur ≤ v.length := by
    show (0 : ℤ) ≤ k ∧ (k : ℤ) ≤ v.length; omega
  unfold It.move
  dsimp only
  rw [if_pos ((fits_iff n).mpr (by constructor <;> omega))]
  unfold It.advance
  by_cases hp : 0 < n
  · have h := stepLoop_open v 1 (Or.inl rfl) n.toNat (makeOpen false k stamp) h0
    have ec : (makeOpen false k stamp).cur + 1 * (n.toNat : ℤ) = k + n := by show (k : ℤ) + _ = _; omega
    rw [ec] at h
    rw [if_pos hp]
    unfold It.incr
    rw [hl, P_ok_bind]
    constructor
    · intro hr
      have h := h.1 hr
      have e : stepLoop v (makeOpen false k stamp).dir ((makeOpen false k stamp).closed.map Prod.snd) n.toNat (makeOpen false k stamp) = _ := h
      rw [e]; rfl
    · intro hr
      obtain ⟨w, h⟩ := h.2 hr
      have e : stepLoop v (makeOpen false k stamp).dir ((makeOpen false k stamp).closed.map Prod.snd) n.toNat (makeOpen false k stamp) = _ := h
      rw [e]; exact ⟨w, rfl⟩
  · have h := stepLoop_open v (-1) (Or.inr rfl) (-n).toNat (makeOpen false k stamp) h0
    have ec : (makeOpen false k stamp).cur + -1 * ((-n).toNat : ℤ) = k + n := by show (k : ℤ) + _ = _; omega
    rw [ec] at h
    rw [if_neg hp, ptrdiff_ok (by constructor <;> omega), P_ok_bind]
    unfold It.decr
    rw [if_neg (by simp [makeOpen]), hl, P_ok_bind]
    constructor
    · intro hr
      have h := h.1 hr
      have e : stepLoop v (-(makeOpen false k stamp).dir) ((makeOpen false k stamp).closed.map Prod.fst) (-n).toNat (makeOpen false k stamp) = _ := h
      rw [e]; rfl
    · intro hr
      obtain ⟨w, h⟩ := h.2 hr
      have e : stepLoop v (-(makeOpen false k stamp).dir) ((makeOpen false k stamp).closed.map Prod.fst) (-n).toNat (makeOpen false k stamp) = _ := h
      rw [e]; exact ⟨w, rfl⟩

/-- C92: comparing: `it1 - it2` is the difference of the indices and `it1 == it2` compares them; an iterator and a reverse iterator cannot be
compared, and `==` and `-` then end the Python process, while `distance` raises ValueError. -/
theorem C92_compare (v : List α) (stamp i j : ℕ) :
    (∀ it1 it2, AtIndex stamp it1 i → AtIndex stamp it2 j →
      difference stamp it1 it2 = .ok ((i : Int) - j) ∧ distance stamp it1 it2 = .ok ((j : Int) - i) ∧ equal stamp it1 it2 = .ok (decide (i = j))) ∧
    (∀ it1 it2 : It, it1.rev ≠ it2.rev →
      difference stamp it1 it2 = .error .terminated ∧ equal stamp it1 it2 = .error .terminated ∧ distance stamp it1 it2 = .error .valueError) ∧
    (begin_ stamp).rev ≠ (rbegin_ v stamp).rev := by
  refine ⟨fun it1 it2 h1 h2 => ?_, fun it1 it2 h => ?_, by simp [begin_, rbegin_, makeOpen]⟩
  · obtain ⟨a1, b1, c1⟩ := h1
    obtain ⟨a2, b2, c2⟩ := h2
    refine ⟨?_, ?_, ?_⟩
    · simp [difference, distanceWith, a1, a2, It.live, b1, b2, It.dir, c1, c2, P_ok_bind]
    · simp [distance, distanceWith, a1, a2, It.live, b1, b2, It.dir, c1, c2, P_ok_bind]
    · simp [equal, a1, a2, It.live, b1, b2, c1, c2, P_ok_bind]
  · exact ⟨if_neg (Ne.symm h), if_neg h, if_neg h⟩

/-! ### Changing the vector -/

theorem position_ok {stamp k : ℕ} {it : It} (h : AtIndex stamp it k) : it.position stamp = .ok k := by
  unfold It.position
  rw [if_neg (by simp [h.forward])]
  unfold It.live
  rw [if_pos h.current, P_ok_bind, h.index]

theorem makeOpen_value (v : List α) (stamp k : ℕ) (h : k < v.length) : (makeOpen false k stamp).value v stamp = .ok v[k] := by
  have hl : (makeOpen false k stamp).live stamp = .ok () := if_pos rfl
  unfold It.value
  rw [hl, P_ok_bind]
  exact deref_ok h

theorem insertIdx_take_drop (v : List α) (k : ℕ) (x : α) (hk : k ≤ v.length) : v.insertIdx k x = v.take k ++ x :: v.drop k := by
  induction k generalizing v with
  | zero => simp
  | succ k ih =>
    cases v with
    | nil => simp at hk
    | cons a v =>
      rw [List.insertIdx_succ_cons, ih v (by simpa using hk)]
      simp

/-- C92: `v.insert(it, x)` puts `x` before the element at the iterator, and returns an iterator to it. -/
theorem C92_insert (v : List α) (stamp k : ℕ) (it : It) (hit : AtIndex stamp it k) (hk : k ≤ v.length) (hsz : v.length < 2 ^ 60 - 1) (x : α) :
    ∃ r, insertBefore v stamp it x = .ok (v.insertIdx k x, r) ∧ AtIndex (stamp + 1) r k ∧ r.value (v.insertIdx k x) (stamp + 1) = .ok x := by
  have hlen : k < (v.insertIdx k x).length := by rw [List.length_insertIdx_of_le_length hk]; omega
  refine ⟨makeOpen false k (stamp + 1), ?_, ⟨rfl, rfl, rfl⟩, ?_⟩
  · unfold insertBefore
    rw [position_ok hit, P_ok_bind, advanceTo_ok (by constructor <;> omega), P_ok_bind]
    unfold reserve MAX_SIZE
    rw [if_pos (by omega), P_ok_bind, Int.toNat_natCast, insertIdx_take_drop v k x hk]
    simp
  · rw [makeOpen_value _ _ _ hlen, List.getElem_insertIdx_self]

/-- C92: `v.insert(it, n, x)` puts `n` copies there. -/
theorem C92_insert_copies (v : List α) (stamp k n : ℕ) (it : It) (hit : AtIndex stamp it k) (hk : k ≤ v.length) (x : α) :
    (v.length + n < 2 ^ 60 → insertN v stamp it n x = .ok (v.take k ++ List.replicate n x ++ v.drop k)) ∧
    (2 ^ 60 ≤ v.length + n → insertN v stamp it n x = .error .terminated) := by
  unfold insertN
  rw [position_ok hit, P_ok_bind, advanceTo_ok (by constructor <;> omega), P_ok_bind]
  unfold reserve MAX_SIZE
  constructor
  · intro h
    rw [if_pos (by omega), P_ok_bind, Int.toNat_natCast]
  · intro h
    rw [if_neg (by omega)]; rfl

/-- C92: `v.erase(it)` removes the element at the iterator and returns an iterator to the one after it; at the end it is undefined behaviour. -/
theorem C92_erase (v : List α) (stamp k : ℕ) (it : It) (hit : AtIndex stamp it k) :
    (k < v.length → ∃ r, erase v stamp it = .ok (v.eraseIdx k, r) ∧ AtIndex (stamp + 1) r k ∧
      ∀ h : k + 1 < v.length, r.value (v.eraseIdx k) (stamp + 1) = .ok v[k + 1]) ∧
    (v.length ≤ k → ∃ w, erase v stamp it = .error (.ub w)) := by
  unfold erase
  rw [position_ok hit, P_ok_bind]
  unfold eraseAt
  constructor
  · intro h
    rw [if_pos (by constructor <;> omega), P_ok_bind, Int.toNat_natCast]
    refine ⟨_, rfl, ⟨rfl, rfl, rfl⟩, fun h1 => ?_⟩
    rw [makeOpen_value _ _ _ (by rw [List.length_eraseIdx_of_lt h]; omega), List.getElem_eraseIdx_of_ge _ (le_refl k)]
  · intro h
    rw [if_neg (by omega)]
    exact ⟨_, rfl⟩

/-- C92: `v.erase(it1, it2)` removes the elements from the first iterator up to the second; if they are in the wrong order it is undefined
behaviour. -/
theorem C92_erase_range (v : List α) (stamp i j : ℕ) (it1 it2 : It) (h1 : AtIndex stamp it1 i) (h2 : AtIndex stamp it2 j) (hi : i ≤ v.length)
    (hj : j ≤ v.length) :
    (i ≤ j → ∃ r, eraseRange v stamp it1 it2 = .ok (v.take i ++ v.drop j, r) ∧ AtIndex (stamp + 1) r i ∧
      ∀ h : j < v.length, r.value (v.take i ++ v.drop j) (stamp + 1) = .ok v[j]) ∧
    (j < i → ∃ w, eraseRange v stamp it1 it2 = .error (.ub w)) := by
  unfold eraseRange
  rw [position_ok h1, P_ok_bind, position_ok h2, P_ok_bind, advanceTo_ok (by constructor <;> omega), P_ok_bind,
    advanceTo_ok (by constructor <;> omega), P_ok_bind]
  constructor
  · intro h
    rw [if_pos (by omega), Int.toNat_natCast, Int.toNat_natCast]
    refine ⟨_, rfl, ⟨rfl, rfl, rfl⟩, fun h1 => ?_⟩
    have hl : (v.take i).length = i := by rw [List.length_take]; omega
    rw [makeOpen_value _ _ _ (by rw [List.length_append, hl, List.length_drop]; omega)]
    congr 1
    rw [List.getElem_append_right (by omega)]
    simp [hl]
  · intro h
    rw [if_neg (by omega)]
    exact ⟨_, rfl⟩

/-- C92: `insert` and `erase` refuse reverse iterators with TypeError, and an iterator made before the last change of size is undefined
behaviour. -/
theorem C92_wrong_iterators (v : List α) (stamp : ℕ) (it : It) (n : ℕ) (x : α) :
    (it.rev = true → insertBefore v stamp it x = .error .typeError ∧ insertN v stamp it n x = .error .typeError ∧ erase v stamp it = .error .typeError) ∧
    (it.rev = false → it.stamp ≠ stamp → ∃ w, insertBefore v stamp it x = .error (.ub w) ∧ insertN v stamp it n x = .error (.ub w) ∧
      erase v stamp it = .error (.ub w)) := by
  constructor
  · intro h
    have : it.position stamp = .error .typeError := if_pos h
    unfold insertBefore insertN erase
    rw [this]
    exact ⟨rfl, rfl, rfl⟩
  · intro h h'
    have : it.position stamp = .error (.ub "invalidated iterator") := by
      unfold It.position It.live
      rw [if_neg (by simp [h]), if_neg h']; rfl
    unfold insertBefore insertN erase
    rw [this]
    exact ⟨_, rfl, rfl, rfl⟩

/-! ### `begin()`, `end()`, `rbegin()`, `rend()` -/

/-- The list as the iterators see it: `rbegin()` and `rend()` see it from its last element. -/
def seen (rev : Bool) (v : List α) : List α := if rev then v.reverse else v

/-- An iterator from `begin()` or `end()` (`rev = false`) or from `rbegin()` or `rend()`, moved to the `k`-th element of what it sees. -/
def openAt (rev : Bool) (v : List α) (stamp k : ℕ) : It := makeOpen rev (if rev then (v.length : ℤ) - k else k) stamp

theorem seen_length (rev : Bool) (v : List α) : (seen rev v).length = v.length := by cases rev <;> simp [seen]

theorem openAt_live (rev : Bool) (v : List α) (stamp k : ℕ) : (openAt rev v stamp k).live stamp = .ok () := if_pos rfl

theorem openAt_value (rev : Bool) (v : List α) (stamp k : ℕ) (hk : k ≤ v.length) :
    (∀ h : k < (seen rev v).length, (openAt rev v stamp k).value v stamp = .ok (seen rev v)[k]) ∧
    (¬ k < (seen rev v).length → ∃ w, (openAt rev v stamp k).value v stamp = .error (.ub w)) := by
  unfold It.value
  rw [openAt_live, P_ok_bind]
  cases rev with
  | false =>
    refine ⟨fun h => deref_ok h, fun h => ?_⟩
    show ∃ w, deref v (k : ℤ) = _
    unfold deref
    rw [if_pos (by omega)]
    have : v[(k : ℤ).toNat]? = none := by simp [seen] at h ⊢; omega
    rw [this]
    exact ⟨_, rfl⟩
  | true =>
    constructor
    · intro h
      have h' : k < v.length := by rwa [seen_length] at h
      show deref v ((v.length : ℤ) - k - 1) = _
      have e : (v.length : ℤ) - k - 1 = ((v.length - 1 - k : ℕ) : ℤ) := by omega
      rw [e, deref_ok (by omega)]
      simp [seen]
    · intro h
      rw [seen_length] at h
      show ∃ w, deref v ((v.length : ℤ) - k - 1) = _
      unfold deref
      rw [if_neg (by omega)]
      exact ⟨_, rfl⟩

theorem openAt_incr (rev : Bool) (v : List α) (stamp k n : ℕ) (hk : k ≤ v.length) :
    (k + n ≤ v.length → (openAt rev v stamp k).incr v stamp n = .ok (openAt rev v stamp (k + n), false)) ∧
    (¬ k + n ≤ v.length → ∃ w, (openAt rev v stamp k).incr v stamp n = .error (.ub w)) := by
  unfold It.incr
  rw [openAt_live, P_ok_bind]
  cases rev with
  | false =>
    have h := stepLoop_open v 1 (Or.inl rfl) n (openAt false v stamp k) (by show (0 : ℤ) ≤ k ∧ (k : ℤ) ≤ v.length; omega)
    have hc : (openAt false v stamp k).cur = k := rfl
    rw [hc] at h
    refine ⟨fun h1 => (h.1 (by omega)).trans ?_, fun h1 => h.2 (by omega)⟩
    simp [openAt, makeOpen]
  | true =>
    have h := stepLoop_open v (-1) (Or.inr rfl) n (openAt true v stamp k) (by show (0 : ℤ) ≤ v.length - k ∧ (v.length : ℤ) - k ≤ v.length; omega)
    have hc : (openAt true v stamp k).cur = v.length - k := rfl
    rw [hc] at h
    refine ⟨fun h1 => (h.1 (by omega)).trans ?_, fun h1 => h.2 (by omega)⟩
    simp [openAt, makeOpen]; omega

theorem openAt_decr (rev : Bool) (v : List α) (stamp k n : ℕ) (hk : k ≤ v.length) :
    (n ≤ k → (openAt rev v stamp k).decr v stamp n = .ok (openAt rev v stamp (k - n), false)) ∧
    (¬ n ≤ k → ∃ w, (openAt rev v stamp k).decr v stamp n = .error (.ub w)) := by
  unfold It.decr
  rw [if_neg (by simp [openAt, makeOpen]), openAt_live, P_ok_bind]
  cases rev with
  | false =>
    have h := stepLoop_open v (-1) (Or.inr rfl) n (openAt false v stamp k) (by show (0 : ℤ) ≤ k ∧ (k : ℤ) ≤ v.length; omega)
    have hc : (openAt false v stamp k).cur = k := rfl
    rw [hc] at h
    refine ⟨fun h1 => (h.1 (by omega)).trans ?_, fun h1 => h.2 (by omega)⟩
    simp [openAt, makeOpen]; omega
  | true =>
    have h := stepLoop_open v 1 (Or.inl rfl) n (openAt true v stamp k) (by show (0 : ℤ) ≤ v.length - k ∧ (v.length : ℤ) - k ≤ v.length; omega)
    have hc : (openAt true v stamp k).cur = v.length - k := rfl
    rw [hc] at h
    refine ⟨fun h1 => (h.1 (by omega)).trans ?_, fun h1 => h.2 (by omega)⟩
    simp [openAt, makeOpen]; omega

/-- One call: what the walking object does, and undefined behaviour where that would raise StopIteration. -/
theorem openAt_move (rev : Bool) (v : List α) (stamp k : ℕ) (hk : k ≤ v.length) (m : Move) (hm : ∀ n, m = .advance n → n ≠ -2 ^ 63) :
    ((∃ o, (walk (seen rev v) k m).2 = .ok o ∨ (walk (seen rev v) k m).2 = .error .typeError) →
      (openAt rev v stamp k).move v stamp m = .ok (openAt rev v stamp (walk (seen rev v) k m).1, (walk (seen rev v) k m).2) ∧
      (walk (seen rev v) k m).1 ≤ v.length) ∧
    ((walk (seen rev v) k m).2 = .error .stopIteration → ∃ w, (openAt rev v stamp k).move v stamp m = .error (.ub w)) := by
  have hlen := seen_length rev v
  obtain ⟨v1, v2⟩ := openAt_value rev v stamp k hk
  cases m with
  | advance n =>
    have hn := hm n rfl
    unfold It.move walk
    by_cases hf : n < -2 ^ 63 ∨ 2 ^ 63 ≤ n
    · have : ¬ fits n = true := by rw [fits_iff]; omega
      simp only [this, if_pos hf]
      exact ⟨fun _ => ⟨rfl, hk⟩, fun h => by cases h⟩
    · have : fits n = true := by rw [fits_iff]; omega
      simp only [this, if_neg hf, if_true]
      unfold It.advance
      rw [hlen]
      by_cases h0 : 0 < n
      · simp only [if_pos h0]
        obtain ⟨i1, i2⟩ := openAt_incr rev v stamp k n.toNat hk
        by_cases h1 : k + n.toNat ≤ v.length
        · rw [i1 h1, if_pos (by constructor <;> omega)]
          refine ⟨fun _ => ⟨?_, by show (k + n).toNat ≤ _; omega⟩, fun h => by cases h⟩
          simp only [P_ok_bind]
          simp [show (k + n).toNat = k + n.toNat by omega]
        · obtain ⟨w, hw⟩ := i2 h1
          rw [hw, if_neg (by omega)]
          exact ⟨fun ⟨o, h⟩ => (by rcases h with h | h <;> simp at h), fun _ => ⟨w, rfl⟩⟩
      · simp only [if_neg h0]
        rw [ptrdiff_ok (by constructor <;> omega), P_ok_bind]
        obtain ⟨i1, i2⟩ := openAt_decr rev v stamp k (-n).toNat hk
        by_cases h1 : (-n).toNat ≤ k
        · rw [i1 h1, if_pos (by constructor <;> omega)]
          refine ⟨fun _ => ⟨?_, by show (k + n).toNat ≤ _; omega⟩, fun h => by cases h⟩
          simp only [P_ok_bind]
          simp [show (k + n).toNat = k - (-n).toNat by omega]
        · obtain ⟨w, hw⟩ := i2 h1
          rw [hw, if_neg (by omega)]
          exact ⟨fun ⟨o, h⟩ => (by rcases h with h | h <;> simp at h), fun _ => ⟨w, rfl⟩⟩
  | incr n =>
    unfold It.move walk
    dsimp only
    rw [hlen]
    obtain ⟨i1, i2⟩ := openAt_incr rev v stamp k n hk
    by_cases h : k + n ≤ v.length
    · rw [i1 h, if_pos h]
      exact ⟨fun _ => ⟨rfl, h⟩, fun h => by cases h⟩
    · obtain ⟨w, hw⟩ := i2 h
      rw [hw, if_neg h]
      exact ⟨fun ⟨o, h⟩ => (by rcases h with h | h <;> simp at h), fun _ => ⟨w, rfl⟩⟩
  | decr n =>
    unfold It.move walk
    dsimp only
    obtain ⟨i1, i2⟩ := openAt_decr rev v stamp k n hk
    by_cases h : n ≤ k
    · rw [i1 h, if_pos h]
      exact ⟨fun _ => ⟨rfl, by show k - n ≤ _; omega⟩, fun h => by cases h⟩
    · obtain ⟨w, hw⟩ := i2 h
      rw [hw, if_neg h]
      exact ⟨fun ⟨o, h⟩ => (by rcases h with h | h <;> simp at h), fun _ => ⟨w, rfl⟩⟩
  | next =>
    unfold It.move walk
    dsimp only
    by_cases h : k < (seen rev v).length
    · rw [dif_pos h, v1 h]
      dsimp only
      rw [(openAt_incr rev v stamp k 1 hk).1 (by omega)]
      exact ⟨fun _ => ⟨rfl, by omega⟩, fun h => by cases h⟩
    · obtain ⟨w, hw⟩ := v2 h
      rw [dif_neg h, hw]
      exact ⟨fun ⟨o, h⟩ => (by rcases h with h | h <;> simp at h), fun _ => ⟨w, rfl⟩⟩
  | previous =>
    unfold It.move walk
    dsimp only
    obtain ⟨i1, i2⟩ := openAt_decr rev v stamp k 1 hk
    by_cases h : 1 ≤ k
    · rw [dif_pos ⟨by omega, by omega⟩, i1 h, P_ok_bind]
      dsimp only
      rw [(openAt_value rev v stamp (k - 1) (by omega)).1 (by omega)]
      exact ⟨fun _ => ⟨rfl, by show k - 1 ≤ _; omega⟩, fun h => by cases h⟩
    · obtain ⟨w, hw⟩ := i2 h
      rw [dif_neg (by omega), hw]
      exact ⟨fun ⟨o, h⟩ => (by rcases h with h | h <;> simp at h), fun _ => ⟨w, rfl⟩⟩
  | value =>
    unfold It.move walk
    dsimp only
    by_cases h : k < (seen rev v).length
    · rw [dif_pos h, v1 h]
      exact ⟨fun _ => ⟨rfl, hk⟩, fun h => by cases h⟩
    · obtain ⟨w, hw⟩ := v2 h
      rw [dif_neg h, hw]
      exact ⟨fun ⟨o, h⟩ => (by rcases h with h | h <;> simp at h), fun _ => ⟨w, rfl⟩⟩

theorem walk_outcome (v : List α) (k : ℕ) (m : Move) :
    (∃ o, (walk v k m).2 = .ok o ∨ (walk v k m).2 = .error .typeError) ∨ (walk v k m).2 = .error .stopIteration := by
  unfold walk
  cases m <;> dsimp only <;> split_ifs <;> simp

/-- C92: every sequence of calls of methods of `begin()`, `end()`, `rbegin()` or `rend()`, with any numbers (except `-2**63`): as long as it does
not leave the vector it behaves as an object that walks over the list (for `rbegin()` and `rend()`: over the reversed list), and exactly where `iter(v)`
would raise StopIteration it is undefined behaviour. -/
theorem C92_open_history (rev : Bool) (v : List α) (stamp k : ℕ) (hk : k ≤ v.length) (ms : List Move)
    (hm : ∀ n, Move.advance n ∈ ms → n ≠ -2 ^ 63) :
    ((∀ o ∈ (walks (seen rev v) k ms).2, o ≠ .error .stopIteration) →
      (openAt rev v stamp k).moves v stamp ms = .ok (openAt rev v stamp (walks (seen rev v) k ms).1, (walks (seen rev v) k ms).2) ∧
      (walks (seen rev v) k ms).1 ≤ v.length) ∧
    (.error .stopIteration ∈ (walks (seen rev v) k ms).2 → ∃ w, (openAt rev v stamp k).moves v stamp ms = .error (.ub w)) := by
  induction ms generalizing k with
  | nil => exact ⟨fun _ => ⟨rfl, hk⟩, fun h => by simp [walks] at h⟩
  | cons m ms ih =>
    obtain ⟨h1, h2⟩ := openAt_move rev v stamp k hk m fun n hn => hm n (by simp [hn])
    unfold It.moves walks
    dsimp only
    rcases walk_outcome (seen rev v) k m with ho | ho
    · obtain ⟨h3, h4⟩ := h1 ho
      obtain ⟨h5, h6⟩ := ih _ h4 fun n hn => hm n (List.mem_cons_of_mem _ hn)
      rw [h3, P_ok_bind]
      constructor
      · intro h
        obtain ⟨h7, h8⟩ := h5 fun o ho => h o (List.mem_cons_of_mem _ ho)
        dsimp only
        rw [h7, P_ok_bind]
        exact ⟨rfl, h8⟩
      · intro h
        rcases List.mem_cons.mp h with h | h
        · obtain ⟨o, ho | ho⟩ := ho <;> rw [ho] at h <;> cases h
        · obtain ⟨w, hw⟩ := h6 h
          dsimp only
          rw [hw]
          exact ⟨w, rfl⟩
    · obtain ⟨w, hw⟩ := h2 ho
      rw [hw, P_error_bind]
      exact ⟨fun h => absurd ho (h _ (List.mem_cons_self ..)), fun _ => ⟨w, rfl⟩⟩

/-- C92: where these iterators begin. -/
theorem C92_open_start (v : List α) (stamp : ℕ) :
    begin_ stamp = openAt false v stamp 0 ∧ end_ v stamp = openAt false v stamp v.length ∧
    rbegin_ v stamp = openAt true v stamp 0 ∧ rend_ stamp = openAt true v stamp v.length := by
  refine ⟨rfl, rfl, ?_, ?_⟩
  · simp [rbegin_, openAt]
  · simp [rend_, openAt]

/-- C92: the difference of two iterators of the same kind is the difference of their places, for reverse iterators as well. -/
theorem C92_open_compare (rev : Bool) (v : List α) (stamp i j : ℕ) :
    difference stamp (openAt rev v stamp i) (openAt rev v stamp j) = .ok ((i : Int) - j) ∧
    distance stamp (openAt rev v stamp i) (openAt rev v stamp j) = .ok ((j : Int) - i) ∧
    equal stamp (openAt rev v stamp i) (openAt rev v stamp j) = .ok (decide (i = j)) := by
  cases rev
  · simp [difference, distance, distanceWith, equal, openAt, makeOpen, It.live, It.dir, P_ok_bind]
  · refine ⟨?_, ?_, ?_⟩ <;> simp [difference, distance, distanceWith, equal, openAt, makeOpen, It.live, It.dir, P_ok_bind]

/-! ### Examples -/

/-- `rbegin()` of three elements. -/
example : (rbegin_ [10, 20, 30] 0).moves [10, 20, 30] 0 [.next, .next, .previous, .advance 1, .value] =
    .ok (openAt true [10, 20, 30] 0 2, [.ok (some 30), .ok (some 20), .ok (some 20), .ok none, .ok (some 10)]) := by decide

/-- Three elements: to the end, one step too far, back, and reading. -/
example : (iter_ [10, 20, 30] 0).moves [10, 20, 30] 0 [.advance 2, .value, .advance 5, .previous, .decr 7, .next] =
    .ok (iterAt [10, 20, 30] 0 1,
      [.ok none, .ok (some 30), .error .stopIteration, .ok (some 30), .error .stopIteration, .ok (some 10)]) := by decide

/-- The last element cannot be removed with `v.erase(v.end() - 1)`, but with `it = v.end(); it -= 1; v.erase(it)`. -/
example : (end_ [10, 20, 30] 4).sub [10, 20, 30] 4 1 = .error .typeError ∧
    (end_ [10, 20, 30] 4).move [10, 20, 30] 4 (.advance (-1)) = .ok (makeOpen false 2 4, .ok none) ∧
    (erase [10, 20, 30] 4 (makeOpen false 2 4)).map Prod.fst = .ok [10, 20] ∧
    (insertBefore [10, 20, 30] 4 (makeOpen false 1 4) 15).map Prod.fst = .ok [10, 15, 20, 30] := by decide

end CP.Props
