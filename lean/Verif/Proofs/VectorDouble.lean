import Mathlib.Tactic.Ring
import Mathlib.Tactic.Linarith
import Mathlib.Data.List.Basic
import Mathlib.Data.List.Range
import Verif.Model.VectorDouble
import Verif.VectorSpec
/-
Proofs for C85, C86: slices of `VectorDouble` against slices of Python lists.
-/
namespace CP.Swig
open PyList
variable {α : Type}

/-- Number of positions `0, T, 2T, …` below `D`. -/
def cnt (D T : ℕ) : ℕ := (D + T - 1) / T

theorem lt_cnt {D T k : ℕ} (hT : 1 ≤ T) : k < cnt D T ↔ k * T < D := by
  unfold cnt
  rw [Nat.lt_iff_add_one_le, Nat.le_div_iff_mul_le (by omega), Nat.add_mul]
  omega

theorem cnt_le {D T : ℕ} (hT : 1 ≤ T) : cnt D T ≤ D := by
  by_contra h
  have := (lt_cnt (D := D) (T := T) (k := D) hT).1 (by omega)
  nlinarith

theorem filter_range_cnt {D T n : ℕ} (hT : 1 ≤ T) (hD : D ≤ n) :
    (List.range n).filter (fun k => decide (k * T < D)) = List.range (cnt D T) := by
  have hc := cnt_le (D := D) hT
  obtain ⟨m, rfl⟩ : ∃ m, n = cnt D T + m := ⟨n - cnt D T, by omega⟩
  rw [List.range_add, List.filter_append, List.filter_eq_self.2, List.filter_eq_nil_iff.2, List.append_nil]
  · intro x hx
    obtain ⟨y, _, rfl⟩ := List.mem_map.1 hx
    rw [decide_eq_true_iff, ← lt_cnt hT]; omega
  · intro x hx
    rw [decide_eq_true_iff, ← lt_cnt hT]; exact List.mem_range.1 hx

/-- The positions of an upward slice. -/
theorem positions_up {n : ℕ} {a b : Option ℤ} {step : ℤ} {i j : ℤ} {T : ℕ} (hs : 0 < step) (hT : step = T)
    (hi : first n step a = i) (hj : stop n step b = j) :
    positions n a b step = (List.range (cnt (j - i).toNat T)).map fun k : ℕ => i + k * T := by
  have hi0 : 0 ≤ i := by
    rw [← hi]; unfold first; split <;> split_ifs <;> omega
  have hjn : j ≤ n := by
    rw [← hj]; unfold stop; split <;> split_ifs <;> omega
  unfold positions
  rw [List.filter_map, hi, hj, hT, ← filter_range_cnt (n := n) (by omega) (by omega)]
  congr 1
  apply List.filter_congr
  intro k _
  simp only [Function.comp_apply, if_neg (show ¬ (T : ℤ) < 0 by omega)]
  congr 1
  rw [eq_iff_iff]
  constructor
  · intro h
    have : ((k * T : ℕ) : ℤ) < ((j - i).toNat : ℤ) := by push_cast; omega
    exact_mod_cast this
  · intro h
    have : ((k * T : ℕ) : ℤ) < ((j - i).toNat : ℤ) := by exact_mod_cast h
    push_cast at this; omega

/-- The positions of a downward slice. -/
theorem positions_down {n : ℕ} {a b : Option ℤ} {step : ℤ} {i j : ℤ} {T : ℕ} (hs : step < 0) (hT : -step = T)
    (hi : first n step a = i) (hj : stop n step b = j) :
    positions n a b step = (List.range (cnt (i - j).toNat T)).map fun k : ℕ => i - k * T := by
  have hi0 : i ≤ n - 1 := by
    rw [← hi]; unfold first; split <;> split_ifs <;> omega
  have hjn : -1 ≤ j := by
    rw [← hj]; unfold stop; split <;> split_ifs <;> omega
  have hst : step = -(T : ℤ) := by omega
  unfold positions
  rw [List.filter_map, hi, hj, ← filter_range_cnt (n := n) (by omega) (by omega)]
  have hf : (fun k : ℕ => i + (k : ℤ) * step) = fun k : ℕ => i - k * T := by
    funext k; rw [hst]; ring
  rw [hf]
  congr 1
  apply List.filter_congr
  intro k _
  simp only [Function.comp_apply, if_pos hs]
  congr 1
  rw [eq_iff_iff]
  constructor
  · intro h
    have : ((k * T : ℕ) : ℤ) < ((i - j).toNat : ℤ) := by push_cast; omega
    exact_mod_cast this
  · intro h
    have : ((k * T : ℕ) : ℤ) < ((i - j).toNat : ℤ) := by exact_mod_cast h
    push_cast at this; omega

/-! ### iterators -/

theorem skip_up {stop it : ℤ} (h : it ≤ stop) : ∀ T : ℕ, skip 1 stop T it = min (it + T) stop := by
  intro T
  induction T generalizing it with
  | zero => simp [skip]; omega
  | succ T ih =>
    unfold skip
    by_cases he : it = stop
    · rw [if_pos he]; push_cast; omega
    · rw [if_neg he, ih (by omega)]; push_cast; omega

theorem skip_down {stop it : ℤ} (h : stop ≤ it) : ∀ T : ℕ, skip (-1) stop T it = max (it - T) stop := by
  intro T
  induction T generalizing it with
  | zero => simp [skip]; omega
  | succ T ih =>
    unfold skip
    by_cases he : it = stop
    · rw [if_pos he]; push_cast; omega
    · rw [if_neg he, ih (by omega)]; push_cast; omega

theorem deref_ok {v : List α} {p : ℕ} (h : p < v.length) : deref v p = .ok v[p] := by
  unfold deref
  rw [if_pos (by omega)]
  simp [h]

theorem advanceTo_ok {v : List α} {p : ℤ} (h0 : 0 ≤ p) (h : p ≤ v.length) : advanceTo v p = .ok p := by
  unfold advanceTo; rw [if_pos ⟨h0, h⟩]

theorem store_ok {v : List α} {p : ℕ} (h : p < v.length) (x : α) : store v p x = .ok (v.set p x) := by
  unfold store; rw [if_pos (by omega)]; simp

theorem eraseAt_ok {v : List α} {p : ℕ} (h : p < v.length) : eraseAt v p = .ok (v.eraseIdx p) := by
  unfold eraseAt; rw [if_pos (by omega)]; simp

theorem ptrdiff_ok {x : ℤ} (h : -(2 ^ 63) ≤ x) (h' : x ≤ 2 ^ 63 - 1) : ptrdiff x = .ok x := by
  unfold ptrdiff PTRDIFF_MAX; rw [if_pos (by omega)]

/-- The value of `(D + step - 1) / step` as a `size_t`. -/
theorem count_value {D T : ℕ} (hT : 1 ≤ T) (hD : (D : ℤ) + T ≤ 2 ^ 63 - 1) :
    toSizeT (((D : ℤ) + T - 1).tdiv T) = cnt D T := by
  have h1 : ((D : ℤ) + T - 1) = ((D + T - 1 : ℕ) : ℤ) := by omega
  have h2 : ((D : ℤ) + T - 1).tdiv T = ((cnt D T : ℕ) : ℤ) := by
    rw [h1, Int.tdiv_eq_ediv_of_nonneg (by omega)]
    unfold cnt; norm_cast
  rw [h2]
  unfold toSizeT
  have := cnt_le (D := D) hT
  apply Int.emod_eq_of_lt (by omega)
  have : (2 : ℤ) ^ 63 < 2 ^ 64 := by norm_num
  omega

/-! ### reading -/

theorem copyLoop_ok {v : List α} {T : ℕ} (hT : 1 ≤ T) {se : ℕ} (hse : se ≤ v.length) :
    ∀ (m fuel it : ℕ) (acc : List α), it ≤ se → cnt (se - it) T = m → m ≤ fuel →
      copyLoop v T se fuel it acc =
        .ok (acc ++ ((List.range m).map fun k : ℕ => (it : ℤ) + k * T).filterMap fun p => v[p.toNat]?) := by
  intro m
  induction m with
  | zero =>
    intro fuel it acc hit hm hf
    have hD : se - it = 0 := by
      by_contra h
      have := (lt_cnt (D := se - it) (T := T) (k := 0) hT).2 (by omega)
      omega
    have : (it : ℤ) = se := by omega
    cases fuel <;> simp [copyLoop, this]
  | succ m ih =>
    intro fuel it acc hit hm hf
    have hD : 0 < se - it := by
      have := (lt_cnt (D := se - it) (T := T) (k := 0) hT).1 (by omega)
      omega
    obtain ⟨fuel, rfl⟩ : ∃ f, fuel = f + 1 := ⟨fuel - 1, by omega⟩
    have hlt : it < v.length := by omega
    rw [copyLoop, if_neg (by omega), deref_ok hlt, skip_up (by omega)]
    have hnext : min ((it : ℤ) + T) se = ((min (it + T) se : ℕ) : ℤ) := by omega
    have hm' : cnt (se - min (it + T) se) T = m := by
      by_cases h : se ≤ it + T
      · have h0 : cnt (se - min (it + T) se) T = 0 := by
          have := cnt_le (D := se - min (it + T) se) hT; omega
        have : ¬ 1 < cnt (se - it) T := by rw [lt_cnt hT]; omega
        omega
      · have e : se - it = (se - min (it + T) se) + T := by omega
        have : cnt (se - it) T = cnt (se - min (it + T) se) T + 1 := by
          rw [e]; unfold cnt
          rw [show se - min (it + T) se + T + T - 1 = (se - min (it + T) se + T - 1) + T by omega, Nat.add_div_right _ (by omega)]
        omega
    change copyLoop v T se fuel (min ((it : ℤ) + T) se) (acc ++ [v[it]]) = _
    rw [hnext, ih fuel _ _ (by omega) hm' (by omega), List.range_succ_eq_map, List.map_cons, List.map_map, List.filterMap_cons]
    simp only [Nat.cast_zero, zero_mul, add_zero, Int.toNat_natCast, List.getElem?_eq_getElem hlt, List.append_assoc, List.cons_append,
      List.nil_append]
    congr 3
    by_cases h : se ≤ it + T
    · have : m = 0 := by
        have := cnt_le (D := se - min (it + T) se) hT; omega
      subst this; simp
    · congr 1
      apply List.map_congr_left
      intro k _
      simp only [Function.comp_apply]
      rw [show min (it + T) se = it + T by omega]
      push_cast; ring

theorem copyLoopRev_ok {v : List α} {T : ℕ} (hT : 1 ≤ T) {se : ℕ} :
    ∀ (m fuel it : ℕ) (acc : List α), it ≤ v.length → se ≤ it → cnt (it - se) T = m → m ≤ fuel →
      copyLoopRev v T se fuel it acc =
        .ok (acc ++ ((List.range m).map fun k : ℕ => ((it : ℤ) - 1) - k * T).filterMap fun p => v[p.toNat]?) := by
  intro m
  induction m with
  | zero =>
    intro fuel it acc hv hit hm hf
    have hD : it - se = 0 := by
      by_contra h
      have := (lt_cnt (D := it - se) (T := T) (k := 0) hT).2 (by omega)
      omega
    have : (it : ℤ) = se := by omega
    cases fuel <;> simp [copyLoopRev, this]
  | succ m ih =>
    intro fuel it acc hv hit hm hf
    have hD : 0 < it - se := by
      have := (lt_cnt (D := it - se) (T := T) (k := 0) hT).1 (by omega)
      omega
    obtain ⟨fuel, rfl⟩ : ∃ f, fuel = f + 1 := ⟨fuel - 1, by omega⟩
    obtain ⟨p, rfl⟩ : ∃ p, it = p + 1 := ⟨it - 1, by omega⟩
    have hlt : p < v.length := by omega
    rw [copyLoopRev, if_neg (by omega), show ((p + 1 : ℕ) : ℤ) - 1 = p by push_cast; ring, deref_ok hlt, skip_down (by omega)]
    have hnext : max (((p + 1 : ℕ) : ℤ) - T) se = ((max (p + 1 - T) se : ℕ) : ℤ) := by omega
    have hm' : cnt (max (p + 1 - T) se - se) T = m := by
      by_cases h : p + 1 ≤ se + T
      · have h0 : cnt (max (p + 1 - T) se - se) T = 0 := by
          have := cnt_le (D := max (p + 1 - T) se - se) hT; omega
        have : ¬ 1 < cnt (p + 1 - se) T := by rw [lt_cnt hT]; omega
        omega
      · have e : p + 1 - se = (max (p + 1 - T) se - se) + T := by omega
        have : cnt (p + 1 - se) T = cnt (max (p + 1 - T) se - se) T + 1 := by
          rw [e]; unfold cnt
          rw [show max (p + 1 - T) se - se + T + T - 1 = (max (p + 1 - T) se - se + T - 1) + T by omega, Nat.add_div_right _ (by omega)]
        omega
    change copyLoopRev v T se fuel (max (((p + 1 : ℕ) : ℤ) - T) se) (acc ++ [v[p]]) = _
    rw [hnext, ih fuel _ _ (by omega) (by omega) hm' (by omega), List.range_succ_eq_map, List.map_cons, List.map_map, List.filterMap_cons]
    simp only [Nat.cast_zero, zero_mul, sub_zero, Int.toNat_natCast, List.getElem?_eq_getElem hlt, List.append_assoc, List.cons_append,
      List.nil_append]
    congr 3
    by_cases h : p + 1 ≤ se + T
    · have : m = 0 := by
        have := cnt_le (D := max (p + 1 - T) se - se) hT; omega
      subst this; simp
    · congr 1
      apply List.map_congr_left
      intro k _
      simp only [Function.comp_apply]
      rw [show ((max (p + 1 - T) se : ℕ) : ℤ) = (p : ℤ) + 1 - T by omega]
      push_cast; ring

/-! ### indices of a slice -/

/-- The value that `PySlice_GetIndices` computes for the start. -/
def rawStart (n : ℕ) (step : ℤ) : Option ℤ → ℤ
  | none => if step < 0 then n - 1 else 0
  | some k => fromEnd n k

/-- The value that `PySlice_GetIndices` computes for the stop. -/
def rawStop (n : ℕ) (step : ℤ) : Option ℤ → ℤ
  | none => if step < 0 then -1 else n
  | some k => fromEnd n k

theorem sliceGetIndices_arg (n : ℕ) (a b c : Option ℤ) :
    sliceGetIndices ⟨arg a, arg b, arg c⟩ n = .ok (rawStart n (c.getD 1) a, rawStop n (c.getD 1) b, c.getD 1) := by
  cases a <;> cases b <;> cases c <;> rfl

theorem first_up {n : ℕ} {step : ℤ} (hs : 0 < step) (a : Option ℤ) : first n step a = max 0 (min (rawStart n step a) n) := by
  cases a <;> simp only [first, rawStart] <;> rw [if_neg (by omega)]
  omega

theorem stop_up {n : ℕ} {step : ℤ} (hs : 0 < step) (a : Option ℤ) : stop n step a = max 0 (min (rawStop n step a) n) := by
  cases a <;> simp only [stop, rawStop] <;> rw [if_neg (by omega)]
  omega

theorem first_down {n : ℕ} {step : ℤ} (hs : step < 0) (a : Option ℤ) :
    first n step a = max (-1) (min (rawStart n step a) (n - 1)) := by
  cases a <;> simp only [first, rawStart] <;> rw [if_pos (by omega)]
  omega

theorem stop_down {n : ℕ} {step : ℤ} (hs : step < 0) (a : Option ℤ) :
    stop n step a = max (-1) (min (rawStop n step a) (n - 1)) := by
  cases a <;> simp only [stop, rawStop] <;> rw [if_pos (by omega)]
  omega

theorem sliceAdjust_up {n : ℕ} {step : ℤ} (hs : 0 < step) (a b : Option ℤ) (ins : Bool) (h : ins = true ∨ rawStart n step a < n ∨ n = 0) :
    sliceAdjust (rawStart n step a) (rawStop n step b) step n ins =
      .ok (first n step a, max (first n step a) (stop n step b)) := by
  rw [first_up hs, stop_up hs]
  generalize rawStart n step a = i at *
  generalize rawStop n step b = j at *
  unfold sliceAdjust
  rw [if_neg (by omega), if_pos hs]
  simp only [Except.ok.injEq, Prod.mk.injEq]
  have e : (if i < 0 then 0 else if i < (n : ℤ) then i else if (ins && decide ((n : ℤ) ≤ i)) = true then (n : ℤ) else 0) = max 0 (min i n) := by
    split_ifs with h1 h2 h3
    · omega
    · omega
    · omega
    · rcases h with h | h | h
      · simp [h] at h3; omega
      · omega
      · omega
  have e2 : (if j < 0 then 0 else if j < (n : ℤ) then j else n) = max 0 (min j n) := by
    split_ifs <;> omega
  rw [e, e2]
  refine ⟨rfl, ?_⟩
  split_ifs <;> omega

/-- A positive step and a start behind the last element: the start is silently 0. -/
theorem sliceAdjust_past {n : ℕ} {step : ℤ} (hs : 0 < step) (a b : Option ℤ) (h : (n : ℤ) ≤ rawStart n step a) :
    sliceAdjust (rawStart n step a) (rawStop n step b) step n = .ok (0, stop n step b) := by
  rw [stop_up hs]
  generalize rawStart n step a = i at *
  generalize rawStop n step b = j at *
  unfold sliceAdjust
  rw [if_neg (by omega), if_pos hs]
  simp only [Except.ok.injEq, Prod.mk.injEq, Bool.false_and]
  have e : (if i < 0 then 0 else if i < (n : ℤ) then i else if false = true then (n : ℤ) else 0) = 0 := by
    rw [if_neg (show ¬ i < n by omega), if_neg (show ¬ false = true by simp)]
    split_ifs <;> rfl
  have e2 : (if j < 0 then 0 else if j < (n : ℤ) then j else n) = max 0 (min j n) := by
    split_ifs <;> omega
  rw [e, e2]
  refine ⟨rfl, ?_⟩
  split_ifs <;> omega

theorem sliceAdjust_down {n : ℕ} {step : ℤ} (hs : step < 0) (a b : Option ℤ) (ins : Bool) :
    sliceAdjust (rawStart n step a) (rawStop n step b) step n ins =
      .ok (max (first n step a) (stop n step b), stop n step b) := by
  rw [first_down hs, stop_down hs]
  generalize rawStart n step a = i at *
  generalize rawStop n step b = j at *
  unfold sliceAdjust
  rw [if_neg (by omega), if_neg (by omega)]
  simp only [Except.ok.injEq, Prod.mk.injEq]
  have e : (if i < -1 then -1 else if i < (n : ℤ) then i else if (n : ℤ) - 1 ≤ i then (n : ℤ) - 1 else 0) = max (-1) (min i (n - 1)) := by
    split_ifs <;> omega
  have e2 : (if j < -1 then -1 else if j < (n : ℤ) then j else (n : ℤ) - 1) = max (-1) (min j (n - 1)) := by
    split_ifs <;> omega
  rw [e, e2]
  refine ⟨?_, rfl⟩
  split_ifs <;> omega

/-! ### reading a slice -/

theorem filterMap_range {v : List α} : ∀ (m i : ℕ), i + m ≤ v.length →
    ((List.range m).map fun k : ℕ => (i : ℤ) + k * (1 : ℕ)).filterMap (fun p => v[p.toNat]?) = (v.drop i).take m := by
  intro m
  induction m with
  | zero => simp
  | succ m ih =>
    intro i h
    rw [List.range_succ, List.map_append, List.filterMap_append, ih i (by omega)]
    have hd : (v.drop i)[m]? = v[i + m]? := by rw [List.getElem?_drop]
    rw [List.take_add_one, hd]
    congr 1
    have : ((i : ℤ) + (m : ℤ) * ((1 : ℕ) : ℤ)).toNat = i + m := by omega
    simp only [List.map_cons, List.map_nil, List.filterMap_cons, List.filterMap_nil, this]
    rw [List.getElem?_eq_getElem (by omega)]
    rfl

theorem getslice_up_core {v : List α} {T i j : ℕ} (hT : 1 ≤ T) (hij : i ≤ j) (hj : j ≤ v.length)
    (hN : (v.length : ℤ) ≤ MAX_SIZE) (hb : (v.length : ℤ) + T ≤ 2 ^ 63 - 1) {x y : ℤ}
    (h : sliceAdjust x y T v.length = .ok ((i : ℤ), (j : ℤ))) :
    getslice v x y T =
      .ok (((List.range (cnt (j - i) T)).map fun k : ℕ => (i : ℤ) + k * T).filterMap fun p => v[p.toNat]?) := by
  unfold getslice
  dsimp only
  rw [h]
  simp only [bind, Except.bind, if_pos (show 0 < (T : ℤ) by omega)]
  rw [advanceTo_ok (by omega) (by omega), advanceTo_ok (by omega) (by omega)]
  simp only []
  split_ifs with h1
  · obtain rfl : T = 1 := by omega
    have hc : cnt (j - i) 1 = j - i := by unfold cnt; omega
    rw [hc, filterMap_range (j - i) i (by omega)]
    congr 2
    omega
  · rw [ptrdiff_ok (by omega) (by omega)]
    simp only []
    rw [show (j : ℤ) - i + T - 1 = ((j - i : ℕ) : ℤ) + T - 1 by omega, count_value hT (by omega)]
    have hc := cnt_le (D := j - i) hT
    unfold reserve
    rw [if_pos (by omega)]
    simp only []
    rw [show ((T : ℤ)).toNat = T by omega, copyLoop_ok hT hj _ _ _ _ hij rfl (by omega), List.nil_append]

theorem getslice_down_core {v : List α} {T i j : ℕ} (hT : 1 ≤ T) (hij : j ≤ i) (hi : i ≤ v.length)
    (hN : (v.length : ℤ) ≤ MAX_SIZE) (hb : (v.length : ℤ) + T ≤ 2 ^ 63 - 1) {x y : ℤ}
    (h : sliceAdjust x y (-T) v.length = .ok ((i : ℤ) - 1, (j : ℤ) - 1)) :
    getslice v x y (-T) =
      .ok (((List.range (cnt (i - j) T)).map fun k : ℕ => ((i : ℤ) - 1) - k * T).filterMap fun p => v[p.toNat]?) := by
  unfold getslice
  dsimp only
  rw [h]
  simp only [bind, Except.bind, if_neg (show ¬ 0 < -(T : ℤ) by omega), neg_neg]
  rw [ptrdiff_ok (by omega) (by omega)]
  simp only []
  rw [ptrdiff_ok (by omega) (by omega)]
  simp only []
  rw [show (i : ℤ) - 1 - (j - 1) - -T - 1 = ((i - j : ℕ) : ℤ) + T - 1 by omega, count_value hT (by omega)]
  have hc := cnt_le (D := i - j) hT
  unfold reserve
  rw [if_pos (by omega)]
  simp only []
  rw [show (v.length : ℤ) - (v.length - (i - 1) - 1) = i by omega, show (v.length : ℤ) - (v.length - (j - 1) - 1) = j by omega,
    advanceTo_ok (by omega) (by omega), advanceTo_ok (by omega) (by omega)]
  simp only []
  rw [show ((T : ℤ)).toNat = T by omega, copyLoopRev_ok hT _ _ _ _ hi hij rfl (by omega), List.nil_append]

theorem getSlice_up {v : List α} {a b c : Option ℤ} (hs : 0 < c.getD 1) (hN : (v.length : ℤ) ≤ MAX_SIZE)
    (hb : (v.length : ℤ) + c.getD 1 ≤ 2 ^ 63 - 1) (h : rawStart v.length (c.getD 1) a < v.length ∨ v.length = 0) :
    getSlice v ⟨arg a, arg b, arg c⟩ = .ok (slice v a b (c.getD 1)) := by
  unfold getSlice
  rw [sliceGetIndices_arg]
  simp only [bind, Except.bind]
  generalize c.getD 1 = st at *
  obtain ⟨T, rfl⟩ : ∃ T : ℕ, st = T := ⟨st.toNat, by omega⟩
  have hi0 : 0 ≤ first v.length T a ∧ first v.length T a ≤ v.length := by rw [first_up hs]; omega
  have hj0 : 0 ≤ stop v.length T b ∧ stop v.length T b ≤ v.length := by rw [stop_up hs]; omega
  obtain ⟨i, hi⟩ : ∃ i : ℕ, first v.length T a = i := ⟨_, (Int.toNat_of_nonneg hi0.1).symm⟩
  obtain ⟨j, hj⟩ : ∃ j : ℕ, stop v.length T b = j := ⟨_, (Int.toNat_of_nonneg hj0.1).symm⟩
  have hadj := sliceAdjust_up (n := v.length) hs a b false (Or.inr h)
  rw [hi, hj, show max (i : ℤ) j = ((max i j : ℕ) : ℤ) by omega] at hadj
  rw [getslice_up_core (by omega) (by omega) (by omega) hN hb hadj]
  unfold slice
  rw [positions_up hs rfl hi hj]
  congr 5
  omega

/-- A positive step and a start behind the last element. -/
theorem getSlice_past {v : List α} {a b c : Option ℤ} (hs : 0 < c.getD 1) (hN : (v.length : ℤ) ≤ MAX_SIZE)
    (hb : (v.length : ℤ) + c.getD 1 ≤ 2 ^ 63 - 1) (h : (v.length : ℤ) ≤ rawStart v.length (c.getD 1) a) :
    getSlice v ⟨arg a, arg b, arg c⟩ = .ok (slice v none b (c.getD 1)) := by
  unfold getSlice
  rw [sliceGetIndices_arg]
  simp only [bind, Except.bind]
  generalize c.getD 1 = st at *
  obtain ⟨T, rfl⟩ : ∃ T : ℕ, st = T := ⟨st.toNat, by omega⟩
  have hj0 : 0 ≤ stop v.length T b ∧ stop v.length T b ≤ v.length := by rw [stop_up hs]; omega
  obtain ⟨j, hj⟩ : ∃ j : ℕ, stop v.length T b = j := ⟨_, (Int.toNat_of_nonneg hj0.1).symm⟩
  have hadj := sliceAdjust_past (n := v.length) hs a b h
  rw [hj, show (0 : ℤ) = ((0 : ℕ) : ℤ) by rfl] at hadj
  rw [getslice_up_core (by omega) (by omega) (by omega) hN hb hadj]
  unfold slice
  rw [positions_up (i := ((0 : ℕ) : ℤ)) hs rfl (by simp [first]) hj]
  congr 5

theorem getSlice_down {v : List α} {a b c : Option ℤ} (hs : c.getD 1 < 0) (hN : (v.length : ℤ) ≤ MAX_SIZE)
    (hb : (v.length : ℤ) - c.getD 1 ≤ 2 ^ 63 - 1) :
    getSlice v ⟨arg a, arg b, arg c⟩ = .ok (slice v a b (c.getD 1)) := by
  unfold getSlice
  rw [sliceGetIndices_arg]
  simp only [bind, Except.bind]
  generalize c.getD 1 = st at *
  obtain ⟨T, rfl⟩ : ∃ T : ℕ, st = -(T : ℤ) := ⟨(-st).toNat, by omega⟩
  have hi0 : -1 ≤ first v.length (-T) a ∧ first v.length (-T) a ≤ v.length - 1 := by rw [first_down hs]; omega
  have hj0 : -1 ≤ stop v.length (-T) b ∧ stop v.length (-T) b ≤ v.length - 1 := by rw [stop_down hs]; omega
  obtain ⟨i, hi⟩ : ∃ i : ℕ, first v.length (-T) a = (i : ℤ) - 1 := ⟨(first v.length (-T) a + 1).toNat, by omega⟩
  obtain ⟨j, hj⟩ : ∃ j : ℕ, stop v.length (-T) b = (j : ℤ) - 1 := ⟨(stop v.length (-T) b + 1).toNat, by omega⟩
  have hadj := sliceAdjust_down (n := v.length) hs a b false
  rw [hi, hj, show max ((i : ℤ) - 1) (j - 1) = ((max i j : ℕ) : ℤ) - 1 by omega] at hadj
  rw [getslice_down_core (by omega) (by omega) (by omega) hN (by omega) hadj]
  unfold slice
  rw [positions_down (T := T) hs (by omega) hi hj]
  have hD : ((i : ℤ) - 1 - (j - 1)).toNat = i - j := by omega
  by_cases hc : i ≤ j
  · have e1 : max i j - j = 0 := by omega
    have e2 : i - j = 0 := by omega
    have : cnt 0 T = 0 := by have := cnt_le (D := 0) (T := T) (by omega); omega
    rw [hD, e1, e2, this]; rfl
  · rw [hD, show max i j = i by omega]

/-! ### writing and deleting -/

theorem storeLoop_ok {T : ℕ} (hT : 1 ≤ T) {xs : List α} :
    ∀ (m it q : ℕ) (v : List α), it ≤ v.length → m ≤ cnt (v.length - it) T → q + m = xs.length →
      storeLoop T (.copy xs) m it q v =
        .ok ((((List.range m).map fun k : ℕ => (it : ℤ) + k * T).zip (xs.drop q)).foldl (fun l px => l.set px.1.toNat px.2) v) := by
  intro m
  induction m with
  | zero => intro it q v _ _ _; simp [storeLoop]
  | succ m ih =>
    intro it q v hit hm hq
    have hD : 0 < v.length - it := by
      have := (lt_cnt (D := v.length - it) (T := T) (k := 0) hT).1 (by omega)
      omega
    have hlt : it < v.length := by omega
    have hql : q < xs.length := by omega
    rw [storeLoop, if_neg (by omega)]
    simp only [bind, Except.bind, Source.contents]
    rw [deref_ok hql]
    simp only []
    rw [store_ok hlt]
    simp only [List.length_set]
    rw [skip_up (by omega), show min ((it : ℤ) + 1 + (T - 1 : ℕ)) v.length = ((min (it + T) v.length : ℕ) : ℤ) by omega,
      show (q : ℤ) + 1 = ((q + 1 : ℕ) : ℤ) by push_cast; ring]
    have hm' : m ≤ cnt (v.length - min (it + T) v.length) T := by
      by_contra hcon
      have h2 : m * T < v.length - it := (lt_cnt hT).1 (by omega)
      cases m with
      | zero => omega
      | succ m =>
        rw [Nat.add_mul] at h2
        have := (lt_cnt (D := v.length - min (it + T) v.length) (T := T) (k := m) hT).2 (by omega)
        omega
    rw [ih _ _ _ (by simp) (by simpa using hm') (by omega), List.range_succ_eq_map, List.map_cons, List.map_map,
      List.drop_eq_getElem_cons hql, List.zip_cons_cons, List.foldl_cons]
    simp only [Nat.cast_zero, zero_mul, add_zero, Int.toNat_natCast]
    cases m with
    | zero => simp
    | succ m =>
      have h2 : (m + 1) * T < v.length - it := (lt_cnt hT).1 (by omega)
      rw [Nat.add_mul] at h2
      congr 3
      apply List.map_congr_left
      intro k _
      simp only [Function.comp_apply]
      rw [show min (it + T) v.length = it + T by omega]
      push_cast; ring

theorem storeLoopRev_ok {T : ℕ} (hT : 1 ≤ T) {xs : List α} :
    ∀ (m it q : ℕ) (v : List α), it ≤ v.length → m ≤ cnt it T → q + m = xs.length →
      storeLoopRev T (.copy xs) m it q v =
        .ok ((((List.range m).map fun k : ℕ => ((it : ℤ) - 1) - k * T).zip (xs.drop q)).foldl (fun l px => l.set px.1.toNat px.2) v) := by
  intro m
  induction m with
  | zero => intro it q v _ _ _; simp [storeLoopRev]
  | succ m ih =>
    intro it q v hit hm hq
    have hD : 0 < it := by
      have := (lt_cnt (D := it) (T := T) (k := 0) hT).1 (by omega)
      omega
    obtain ⟨p, rfl⟩ : ∃ p, it = p + 1 := ⟨it - 1, by omega⟩
    have hlt : p < v.length := by omega
    have hql : q < xs.length := by omega
    rw [storeLoopRev, if_neg (by omega)]
    simp only [bind, Except.bind, Source.contents]
    rw [deref_ok hql]
    simp only []
    rw [show ((p + 1 : ℕ) : ℤ) - 1 = p by push_cast; ring, store_ok hlt]
    simp only []
    rw [skip_down (by omega), show max ((p : ℤ) - (T - 1 : ℕ)) 0 = ((p + 1 - T : ℕ) : ℤ) by omega,
      show (q : ℤ) + 1 = ((q + 1 : ℕ) : ℤ) by push_cast; ring]
    have hm' : m ≤ cnt (p + 1 - T) T := by
      by_contra hcon
      have h2 : m * T < p + 1 := (lt_cnt hT).1 (by omega)
      cases m with
      | zero => omega
      | succ m =>
        rw [Nat.add_mul] at h2
        have := (lt_cnt (D := p + 1 - T) (T := T) (k := m) hT).2 (by omega)
        omega
    rw [ih _ _ _ (by simp; omega) hm' (by omega), List.range_succ_eq_map, List.map_cons, List.map_map,
      List.drop_eq_getElem_cons hql, List.zip_cons_cons, List.foldl_cons]
    simp only [Nat.cast_zero, zero_mul, sub_zero, Int.toNat_natCast]
    cases m with
    | zero => simp
    | succ m =>
      have h2 : (m + 1) * T < p + 1 := (lt_cnt hT).1 (by omega)
      rw [Nat.add_mul] at h2
      congr 3
      apply List.map_congr_left
      intro k _
      simp only [Function.comp_apply]
      rw [show ((p + 1 - T : ℕ) : ℤ) = (p : ℤ) + 1 - T by omega]
      push_cast; ring

/-- The elements at the positions that satisfy `P`. -/
def keepIdx (P : ℕ → Bool) (l : List α) : List α := (l.zipIdx.filter fun x => P x.2).map Prod.fst

theorem keepIdx_cons (P : ℕ → Bool) (x : α) (l : List α) :
    keepIdx P (x :: l) = (if P 0 then [x] else []) ++ keepIdx (fun i => P (i + 1)) l := by
  unfold keepIdx
  rw [List.zipIdx_cons', List.filter_cons]
  have : (List.map (Prod.map id fun x => x + 1) l.zipIdx).filter (fun x => P x.2)
      = (l.zipIdx.filter fun x => P (x.2 + 1)).map (Prod.map id fun x => x + 1) := by
    rw [List.filter_map]; rfl
  rw [this]
  split_ifs <;> simp

theorem keepIdx_congr {P Q : ℕ → Bool} {l : List α} (h : ∀ i, P i = Q i) : keepIdx P l = keepIdx Q l := by
  rw [show P = Q from funext h]

theorem keepIdx_true {P : ℕ → Bool} : ∀ {l : List α}, (∀ i, P i = true) → keepIdx P l = l := by
  intro l h
  unfold keepIdx
  rw [List.filter_eq_self.2 (fun x _ => h x.2)]
  simp

theorem keepIdx_erase : ∀ (l : List α) (p : ℕ) (P Q : ℕ → Bool), p < l.length → Q p = false → (∀ i < p, P i = Q i) →
    (∀ i, p ≤ i → P i = Q (i + 1)) → keepIdx P (l.eraseIdx p) = keepIdx Q l := by
  intro l
  induction l with
  | nil => intro p P Q h; simp at h
  | cons x l ih =>
    intro p P Q hp h0 h1 h2
    cases p with
    | zero =>
      rw [List.eraseIdx_cons_zero, keepIdx_cons, if_neg (by simp [h0]), List.nil_append]
      exact keepIdx_congr fun i => h2 i (by omega)
    | succ p =>
      rw [List.eraseIdx_cons_succ, keepIdx_cons, keepIdx_cons, h1 0 (by omega),
        ih p (fun i => P (i + 1)) (fun i => Q (i + 1)) (by simpa using hp) h0 (fun i hi => h1 _ (by omega)) (fun i hi => h2 _ (by omega))]

theorem deleteLoop_ok {T : ℕ} (hT : 1 ≤ T) :
    ∀ (m it : ℕ) (v : List α), it ≤ v.length → m ≤ cnt (v.length - it) T →
      deleteLoop T m it v = .ok (keepIdx (fun i => decide (∀ k < m, i ≠ it + k * T)) v) := by
  intro m
  induction m with
  | zero => intro it v _ _; rw [keepIdx_true (by simp)]; rfl
  | succ m ih =>
    intro it v hit hm
    have hD : 0 < v.length - it := by
      have := (lt_cnt (D := v.length - it) (T := T) (k := 0) hT).1 (by omega)
      omega
    have hlt : it < v.length := by omega
    have hlen : (v.eraseIdx it).length = v.length - 1 := List.length_eraseIdx_of_lt hlt
    rw [deleteLoop]
    simp only [bind, Except.bind]
    rw [eraseAt_ok hlt]
    simp only [hlen]
    rw [skip_up (by omega), show min ((it : ℤ) + (T - 1 : ℕ)) (v.length - 1 : ℕ) = ((min (it + (T - 1)) (v.length - 1) : ℕ) : ℤ) by omega]
    have hm' : m ≤ cnt (v.length - 1 - min (it + (T - 1)) (v.length - 1)) T := by
      by_contra hcon
      have h2 : m * T < v.length - it := (lt_cnt hT).1 (by omega)
      cases m with
      | zero => omega
      | succ m =>
        rw [Nat.add_mul] at h2
        have := (lt_cnt (D := v.length - 1 - min (it + (T - 1)) (v.length - 1)) (T := T) (k := m) hT).2 (by omega)
        omega
    rw [ih _ _ (by omega) (by rw [hlen]; exact hm')]
    congr 1
    apply keepIdx_erase _ _ _ _ hlt
    · simp only [decide_eq_false_iff_not, not_forall]
      exact ⟨0, by omega, by simp⟩
    · intro i hi
      rw [decide_eq_decide]
      constructor
      · intro _ k _ h
        omega
      · intro _ k _ h
        omega
    · intro i hi
      rw [decide_eq_decide]
      cases m with
      | zero =>
        constructor
        · intro _ k hk h
          obtain rfl : k = 0 := by omega
          omega
        · intro _ k hk; omega
      | succ m =>
        have h2 : (m + 1) * T < v.length - it := (lt_cnt hT).1 (by omega)
        rw [Nat.add_mul] at h2
        have e : min (it + (T - 1)) (v.length - 1) = it + (T - 1) := by omega
        rw [e]
        constructor
        · intro h k hk hc
          cases k with
          | zero => omega
          | succ k =>
            rw [Nat.add_mul] at hc
            exact h k (by omega) (by omega)
        · intro h k hk hc
          exact h (k + 1) (by omega) (by rw [Nat.add_mul]; omega)

theorem deleteLoopRev_ok {T : ℕ} (hT : 1 ≤ T) :
    ∀ (m it : ℕ) (v : List α), it ≤ v.length → m ≤ cnt it T →
      deleteLoopRev T m it v = .ok (keepIdx (fun i => decide (∀ k < m, (i : ℤ) ≠ (it : ℤ) - 1 - k * T)) v) := by
  intro m
  induction m with
  | zero => intro it v _ _; rw [keepIdx_true (by simp)]; rfl
  | succ m ih =>
    intro it v hit hm
    have hD : 0 < it := by
      have := (lt_cnt (D := it) (T := T) (k := 0) hT).1 (by omega)
      omega
    obtain ⟨p, rfl⟩ : ∃ p, it = p + 1 := ⟨it - 1, by omega⟩
    have hlt : p < v.length := by omega
    have hlen : (v.eraseIdx p).length = v.length - 1 := List.length_eraseIdx_of_lt hlt
    rw [deleteLoopRev]
    simp only [bind, Except.bind]
    rw [show ((p + 1 : ℕ) : ℤ) - 1 = p by push_cast; ring, eraseAt_ok hlt]
    simp only []
    rw [skip_down (by omega), show max ((p : ℤ) - (T - 1 : ℕ)) 0 = ((p + 1 - T : ℕ) : ℤ) by omega]
    have hm' : m ≤ cnt (p + 1 - T) T := by
      by_contra hcon
      have h2 : m * T < p + 1 := (lt_cnt hT).1 (by omega)
      cases m with
      | zero => omega
      | succ m =>
        rw [Nat.add_mul] at h2
        have := (lt_cnt (D := p + 1 - T) (T := T) (k := m) hT).2 (by omega)
        omega
    rw [ih _ _ (by omega) hm']
    congr 1
    have h2 : m * T < p + 1 := (lt_cnt hT).1 (by omega)
    apply keepIdx_erase _ _ _ _ hlt
    · simp only [decide_eq_false_iff_not, not_forall]
      exact ⟨0, by omega, by simp⟩
    · intro i hi
      rw [decide_eq_decide]
      cases m with
      | zero =>
        constructor
        · intro _ k hk h
          obtain rfl : k = 0 := by omega
          omega
        · intro _ k hk; omega
      | succ m =>
        rw [Nat.add_mul] at h2
        rw [show ((p + 1 - T : ℕ) : ℤ) = (p : ℤ) + 1 - T by omega]
        constructor
        · intro h k hk hc
          cases k with
          | zero => omega
          | succ k =>
            apply h k (by omega)
            rw [hc]; push_cast; ring
        · intro h k hk hc
          apply h (k + 1) (by omega)
          rw [hc]; push_cast; ring
    · intro i hi
      rw [decide_eq_decide]
      constructor
      · intro _ k _ h
        have : (0 : ℤ) ≤ k * T := by positivity
        push_cast at h; omega
      · intro _ k _ h
        have : (0 : ℤ) ≤ k * T := by positivity
        omega


/-! ### assignment to a slice and deletion of a slice -/

theorem positions_length_le {n : ℕ} (a b : Option ℤ) (step : ℤ) : (positions n a b step).length ≤ n := by
  unfold positions
  exact (List.length_filter_le _ _).trans (by simp)

theorem deleteSlice_keepIdx (l : List α) (a b : Option ℤ) (step : ℤ) :
    deleteSlice l a b step = keepIdx (fun i => decide ((i : ℤ) ∉ positions l.length a b step)) l := rfl

/-- Cutting a block out. -/
theorem keepIdx_block : ∀ (l : List α) (i j : ℕ), i ≤ j → j ≤ l.length →
    keepIdx (fun p => decide (p < i ∨ j ≤ p)) l = l.take i ++ l.drop j := by
  intro l
  induction l with
  | nil => intro i j _ hj; simp [keepIdx]
  | cons x l ih =>
    intro i j hij hj
    rw [keepIdx_cons]
    cases j with
    | zero =>
      obtain rfl : i = 0 := by omega
      rw [keepIdx_true (by simp)]; simp
    | succ j =>
      have hl : j ≤ l.length := by simpa using hj
      cases i with
      | zero =>
        have := ih 0 j (by omega) hl
        rw [keepIdx_congr (Q := fun p => decide (p < 0 ∨ j ≤ p)) (fun p => by simp), this]
        simp
      | succ i =>
        have := ih i j (by omega) hl
        rw [keepIdx_congr (Q := fun p => decide (p < i ∨ j ≤ p)) (fun p => by simp), this]
        simp

theorem delSlice_up {v : List α} {a b c : Option ℤ} (hs : 0 < c.getD 1)
    (hb : (v.length : ℤ) + c.getD 1 ≤ 2 ^ 63 - 1) :
    delSlice v ⟨arg a, arg b, arg c⟩ = .ok (deleteSlice v a b (c.getD 1)) := by
  unfold delSlice
  rw [sliceGetIndices_arg]
  simp only [bind, Except.bind]
  generalize c.getD 1 = st at *
  obtain ⟨T, rfl⟩ : ∃ T : ℕ, st = T := ⟨st.toNat, by omega⟩
  have hi0 : 0 ≤ first v.length T a ∧ first v.length T a ≤ v.length := by rw [first_up hs]; omega
  have hj0 : 0 ≤ stop v.length T b ∧ stop v.length T b ≤ v.length := by rw [stop_up hs]; omega
  obtain ⟨i, hi⟩ : ∃ i : ℕ, first v.length T a = i := ⟨_, (Int.toNat_of_nonneg hi0.1).symm⟩
  obtain ⟨j, hj⟩ : ∃ j : ℕ, stop v.length T b = j := ⟨_, (Int.toNat_of_nonneg hj0.1).symm⟩
  have hadj := sliceAdjust_up (n := v.length) hs a b true (Or.inl rfl)
  rw [hi, hj, show max (i : ℤ) j = ((max i j : ℕ) : ℤ) by omega] at hadj
  rw [deleteSlice_keepIdx, positions_up hs rfl hi hj, show ((j : ℤ) - i).toNat = max i j - i by omega]
  generalize hJ : max i j = J at *
  unfold delslice
  dsimp only
  rw [hadj]
  simp only [bind, Except.bind, if_pos hs]
  rw [advanceTo_ok (by omega) (by omega)]
  simp only []
  split_ifs with h1
  · obtain rfl : T = 1 := by omega
    rw [advanceTo_ok (by omega) (by omega)]
    simp only [Int.toNat_natCast]
    rw [← keepIdx_block v i J (by omega) (by omega), show cnt (J - i) 1 = J - i by unfold cnt; omega]
    congr 1
    apply keepIdx_congr
    intro p
    rw [decide_eq_decide]
    simp only [List.mem_map, List.mem_range, not_exists, not_and]
    constructor
    · intro h k hk; omega
    · intro h
      by_contra hc
      exact h (p - i) (by omega) (by omega)
  · rw [ptrdiff_ok (by omega) (by omega)]
    simp only []
    rw [show (J : ℤ) - i + T - 1 = ((J - i : ℕ) : ℤ) + T - 1 by omega, count_value (by omega) (by omega)]
    simp only [Int.toNat_natCast]
    have hmono : cnt (J - i) T ≤ cnt (v.length - i) T := by
      unfold cnt; exact Nat.div_le_div_right (by omega)
    rw [deleteLoop_ok (by omega) _ _ _ (by omega) hmono]
    congr 1
    apply keepIdx_congr
    intro p
    rw [decide_eq_decide]
    simp only [List.mem_map, List.mem_range, not_exists, not_and]
    constructor
    · intro h k hk hc
      apply h k hk
      have : ((i + k * T : ℕ) : ℤ) = p := by push_cast; exact hc
      omega
    · intro h k hk hc
      apply h k hk
      rw [hc]; push_cast; ring

theorem delSlice_down {v : List α} {a b c : Option ℤ} (hs : c.getD 1 < 0)
    (hb : (v.length : ℤ) - c.getD 1 ≤ 2 ^ 63 - 1) :
    delSlice v ⟨arg a, arg b, arg c⟩ = .ok (deleteSlice v a b (c.getD 1)) := by
  unfold delSlice
  rw [sliceGetIndices_arg]
  simp only [bind, Except.bind]
  generalize c.getD 1 = st at *
  obtain ⟨T, rfl⟩ : ∃ T : ℕ, st = -(T : ℤ) := ⟨(-st).toNat, by omega⟩
  have hi0 : -1 ≤ first v.length (-T) a ∧ first v.length (-T) a ≤ v.length - 1 := by rw [first_down hs]; omega
  have hj0 : -1 ≤ stop v.length (-T) b ∧ stop v.length (-T) b ≤ v.length - 1 := by rw [stop_down hs]; omega
  obtain ⟨i, hi⟩ : ∃ i : ℕ, first v.length (-T) a = (i : ℤ) - 1 := ⟨(first v.length (-T) a + 1).toNat, by omega⟩
  obtain ⟨j, hj⟩ : ∃ j : ℕ, stop v.length (-T) b = (j : ℤ) - 1 := ⟨(stop v.length (-T) b + 1).toNat, by omega⟩
  have hadj := sliceAdjust_down (n := v.length) hs a b true
  rw [hi, hj, show max ((i : ℤ) - 1) (j - 1) = ((max i j : ℕ) : ℤ) - 1 by omega] at hadj
  rw [deleteSlice_keepIdx, positions_down (T := T) hs (by omega) hi hj, show ((i : ℤ) - 1 - (j - 1)).toNat = i - j by omega]
  unfold delslice
  dsimp only
  rw [hadj]
  simp only [bind, Except.bind, if_neg (show ¬ 0 < -(T : ℤ) by omega)]
  rw [show (v.length : ℤ) - (v.length - (((max i j : ℕ) : ℤ) - 1) - 1) = ((max i j : ℕ) : ℤ) by omega, advanceTo_ok (by omega) (by omega)]
  simp only [neg_neg]
  rw [ptrdiff_ok (by omega) (by omega), ptrdiff_ok (by omega) (by omega)]
  simp only []
  rw [show ((max i j : ℕ) : ℤ) - 1 - (j - 1) - -T - 1 = ((i - j : ℕ) : ℤ) + T - 1 by omega, count_value (by omega) (by omega)]
  simp only [Int.toNat_natCast]
  have hmono : cnt (i - j) T ≤ cnt (max i j) T := by
    unfold cnt; exact Nat.div_le_div_right (by omega)
  rw [deleteLoopRev_ok (by omega) _ _ _ (by omega) hmono]
  congr 1
  apply keepIdx_congr
  intro p
  rw [decide_eq_decide]
  simp only [List.mem_map, List.mem_range, not_exists, not_and]
  by_cases hc : i ≤ j
  · have e2 : i - j = 0 := by omega
    have : cnt 0 T = 0 := by have := cnt_le (D := 0) (T := T) (by omega); omega
    rw [e2, this]; simp
  · rw [show max i j = i by omega]
    exact ⟨fun h k hk hc => h k hk hc.symm, fun h k hk hc => h k hk hc.symm⟩

theorem setSlice_up {v : List α} {a b c : Option ℤ} {xs : List α} (hs : 0 < c.getD 1)
    (hN : (v.length : ℤ) + xs.length ≤ MAX_SIZE)
    (hb : (v.length : ℤ) + c.getD 1 ≤ 2 ^ 63 - 1) :
    setSlice v ⟨arg a, arg b, arg c⟩ (.copy xs) =
      match assignSlice v a b (c.getD 1) xs with
      | some w => .ok w
      | none => .error .valueError := by
  unfold setSlice
  rw [sliceGetIndices_arg]
  simp only [bind, Except.bind]
  generalize c.getD 1 = st at *
  obtain ⟨T, rfl⟩ : ∃ T : ℕ, st = T := ⟨st.toNat, by omega⟩
  have hi0 : 0 ≤ first v.length T a ∧ first v.length T a ≤ v.length := by rw [first_up hs]; omega
  have hj0 : 0 ≤ stop v.length T b ∧ stop v.length T b ≤ v.length := by rw [stop_up hs]; omega
  obtain ⟨i, hi⟩ : ∃ i : ℕ, first v.length T a = i := ⟨_, (Int.toNat_of_nonneg hi0.1).symm⟩
  obtain ⟨j, hj⟩ : ∃ j : ℕ, stop v.length T b = j := ⟨_, (Int.toNat_of_nonneg hj0.1).symm⟩
  have hadj := sliceAdjust_up (n := v.length) hs a b true (Or.inl rfl)
  rw [hi, hj, show max (i : ℤ) j = ((max i j : ℕ) : ℤ) by omega] at hadj
  unfold setslice assignSlice
  dsimp only [Source.contents]
  rw [hadj]
  simp only [bind, Except.bind, if_pos hs]
  by_cases h1 : T = 1
  · subst h1
    have hib : i ≤ v.length := by omega
    have hjb : j ≤ v.length := by omega
    simp only [Nat.cast_one, ↓reduceIte] at hi hj ⊢
    simp only [hi, hj, show max (i : ℤ) j = ((max i j : ℕ) : ℤ) by omega, Int.toNat_natCast]
    generalize hJ : max i j = J at *
    have hilen : i ≤ v.length := by omega
    split_ifs with h2
    · unfold reserve
      rw [if_pos (by omega)]
      simp only []
      rw [advanceTo_ok (by omega) (by omega)]
      simp only []
      rw [advanceTo_ok (by omega) (by omega)]
      simp only []
      rw [advanceTo_ok (by omega) (by omega)]
      simp only [Int.toNat_natCast]
      rw [show ((i : ℤ) + ((J : ℤ) - i)).toNat = J by omega, List.append_assoc, List.append_assoc, ← List.append_assoc (xs.take _),
        List.take_append_drop, ← List.append_assoc]
    · rw [advanceTo_ok (by omega) (by omega)]
      simp only []
      rw [advanceTo_ok (by omega) (by omega)]
      simp only [Int.toNat_natCast]
      rw [advanceTo_ok (by omega) (by simp only [List.length_append, List.length_take, List.length_drop]; omega)]
      simp only [Int.toNat_natCast]
      rw [List.take_append_of_le_length (by rw [List.length_take]; omega), List.take_of_length_le (by rw [List.length_take]; omega),
        List.drop_append_of_le_length (by rw [List.length_take]; omega), List.drop_of_length_le (by rw [List.length_take]; omega)]
      simp
  · rw [if_neg (by omega), if_neg (by omega), ptrdiff_ok (by omega) (by omega)]
    simp only []
    rw [positions_up hs rfl hi hj, show ((j : ℤ) - i).toNat = max i j - i by omega]
    generalize hJ : max i j = J at *
    rw [show (J : ℤ) - i + T - 1 = ((J - i : ℕ) : ℤ) + T - 1 by omega, count_value (by omega) (by omega)]
    simp only [List.length_map, List.length_range]
    by_cases hx : xs.length = cnt (J - i) T
    · rw [if_neg (by rw [hx]; simp), if_pos hx, advanceTo_ok (by omega) (by omega)]
      simp only [Int.toNat_natCast]
      have hmono : cnt (J - i) T ≤ cnt (v.length - i) T := by
        unfold cnt; exact Nat.div_le_div_right (by omega)
      have := storeLoop_ok (T := T) (by omega) (xs := xs) (cnt (J - i) T) i 0 v (by omega) hmono (by omega)
      rw [List.drop_zero] at this
      exact this
    · rw [if_pos (by omega), if_neg hx]

theorem setSlice_down {v : List α} {a b c : Option ℤ} {xs : List α} (hs : c.getD 1 < 0)
    (hb : (v.length : ℤ) - c.getD 1 ≤ 2 ^ 63 - 1) :
    setSlice v ⟨arg a, arg b, arg c⟩ (.copy xs) =
      match assignSlice v a b (c.getD 1) xs with
      | some w => .ok w
      | none => .error .valueError := by
  unfold setSlice
  rw [sliceGetIndices_arg]
  simp only [bind, Except.bind]
  generalize c.getD 1 = st at *
  obtain ⟨T, rfl⟩ : ∃ T : ℕ, st = -(T : ℤ) := ⟨(-st).toNat, by omega⟩
  have hi0 : -1 ≤ first v.length (-T) a ∧ first v.length (-T) a ≤ v.length - 1 := by rw [first_down hs]; omega
  have hj0 : -1 ≤ stop v.length (-T) b ∧ stop v.length (-T) b ≤ v.length - 1 := by rw [stop_down hs]; omega
  obtain ⟨i, hi⟩ : ∃ i : ℕ, first v.length (-T) a = (i : ℤ) - 1 := ⟨(first v.length (-T) a + 1).toNat, by omega⟩
  obtain ⟨j, hj⟩ : ∃ j : ℕ, stop v.length (-T) b = (j : ℤ) - 1 := ⟨(stop v.length (-T) b + 1).toNat, by omega⟩
  have hadj := sliceAdjust_down (n := v.length) hs a b true
  rw [hi, hj, show max ((i : ℤ) - 1) (j - 1) = ((max i j : ℕ) : ℤ) - 1 by omega] at hadj
  unfold setslice assignSlice
  dsimp only [Source.contents]
  rw [hadj]
  simp only [bind, Except.bind, if_neg (show ¬ 0 < -(T : ℤ) by omega), neg_neg]
  rw [if_neg (show ¬ -(T : ℤ) = 1 by omega), positions_down (T := T) hs (by omega) hi hj,
    show ((i : ℤ) - 1 - (j - 1)).toNat = i - j by omega, ptrdiff_ok (by omega) (by omega), ptrdiff_ok (by omega) (by omega)]
  simp only []
  rw [show ((max i j : ℕ) : ℤ) - 1 - (j - 1) - -T - 1 = ((i - j : ℕ) : ℤ) + T - 1 by omega, count_value (by omega) (by omega)]
  simp only [List.length_map, List.length_range]
  by_cases hx : xs.length = cnt (i - j) T
  · rw [if_neg (by rw [hx]; simp), if_pos hx,
      show (v.length : ℤ) - (v.length - (((max i j : ℕ) : ℤ) - 1) - 1) = ((max i j : ℕ) : ℤ) by omega, advanceTo_ok (by omega) (by omega)]
    simp only [Int.toNat_natCast]
    have hmono : cnt (i - j) T ≤ cnt (max i j) T := by
      unfold cnt; exact Nat.div_le_div_right (by omega)
    have := storeLoopRev_ok (T := T) (by omega) (xs := xs) (cnt (i - j) T) (max i j) 0 v (by omega) hmono (by omega)
    rw [List.drop_zero] at this
    refine this.trans ?_
    by_cases hc : i ≤ j
    · have e2 : i - j = 0 := by omega
      have : cnt 0 T = 0 := by have := cnt_le (D := 0) (T := T) (by omega); omega
      rw [e2, this]; rfl
    · rw [show max i j = i by omega]
  · rw [if_pos (by omega), if_neg hx]


/-! ### single elements -/

theorem checkIndex_spec {n : ℕ} {i : ℤ} (hi : -(2 ^ 63) < i) (hi' : i ≤ 2 ^ 63 - 1) :
    checkIndex i n = match index n i with
      | some p => .ok (p : ℤ)
      | none => .error .indexError := by
  unfold checkIndex index fromEnd
  by_cases h0 : i < 0
  · simp only [if_pos h0]
    rw [ptrdiff_ok (by omega) (by omega)]
    simp only [bind, Except.bind]
    split_ifs with h1 h2 h2
    · simp only []; congr 1; omega
    · omega
    · omega
    · rfl
  · simp only [if_neg h0, Bool.false_and]
    by_cases h1 : i < (n : ℤ)
    · rw [if_pos h1, if_pos (by omega)]; simp only []; congr 1; omega
    · rw [if_neg h1, if_neg (by simp), if_neg (by omega)]

theorem fits_ok {i : ℤ} (hi : -(2 ^ 63) < i) (hi' : i ≤ 2 ^ 63 - 1) : fits i = true := by
  unfold fits PTRDIFF_MAX; rw [decide_eq_true_iff]; omega

theorem index_lt {n : ℕ} {i : ℤ} {p : ℕ} (h : index n i = some p) : p < n := by
  unfold index at h
  split_ifs at h with h1
  obtain rfl := Option.some.inj h
  omega

theorem getItem_spec (v : List α) {i : ℤ} (hi : -(2 ^ 63) < i) (hi' : i ≤ 2 ^ 63 - 1) :
    getItem v i = match (index v.length i).bind (fun p => v[p]?) with
      | some x => .ok x
      | none => .error .indexError := by
  unfold getItem
  rw [if_pos (fits_ok hi hi'), checkIndex_spec hi hi']
  cases h : index v.length i with
  | none => rfl
  | some p =>
    have := index_lt h
    simp only [bind, Except.bind, Option.bind_some]
    rw [deref_ok this, List.getElem?_eq_getElem this]

theorem setItem_spec (v : List α) {i : ℤ} (x : α) (hi : -(2 ^ 63) < i) (hi' : i ≤ 2 ^ 63 - 1) :
    setItem v i x = match index v.length i with
      | some p => .ok (v.set p x)
      | none => .error .indexError := by
  unfold setItem
  rw [if_pos (fits_ok hi hi'), checkIndex_spec hi hi']
  cases h : index v.length i with
  | none => rfl
  | some p =>
    simp only [bind, Except.bind]
    rw [store_ok (index_lt h)]

theorem delItem_spec (v : List α) {i : ℤ} (hi : -(2 ^ 63) < i) (hi' : i ≤ 2 ^ 63 - 1) :
    delItem v i = match index v.length i with
      | some p => .ok (v.eraseIdx p)
      | none => .error .indexError := by
  unfold delItem
  rw [if_pos (fits_ok hi hi'), checkIndex_spec hi hi']
  cases h : index v.length i with
  | none => rfl
  | some p =>
    simp only [bind, Except.bind]
    rw [eraseAt_ok (index_lt h)]

/-! ### slices that are not two or three ints -/

theorem step_zero (v : List α) (a b : Option ℤ) (xs : Source α) :
    getSlice v ⟨arg a, arg b, .int 0⟩ = .error .valueError ∧ setSlice v ⟨arg a, arg b, .int 0⟩ xs = .error .valueError ∧
      delSlice v ⟨arg a, arg b, .int 0⟩ = .error .valueError := by
  have h := sliceGetIndices_arg v.length a b (some 0)
  refine ⟨?_, ?_, ?_⟩
  · unfold getSlice
    rw [show SliceArg.int 0 = arg (some 0) from rfl, h]; rfl
  · unfold setSlice
    rw [show SliceArg.int 0 = arg (some 0) from rfl, h]; rfl
  · unfold delSlice
    rw [show SliceArg.int 0 = arg (some 0) from rfl, h]; rfl

theorem not_int (n : ℤ) (s : PySlice) (h : s.start = .other ∨ s.stop = .other ∨ s.step = .other) :
    sliceGetIndices s n = .error (.ub "uninitialised variable") := by
  obtain ⟨a, b, c⟩ := s
  cases a <;> cases b <;> cases c <;> simp_all [sliceGetIndices, slicePart, bind, Except.bind]

/-! ### assignment of a vector to its own reverse -/

theorem storeLoopRev_same {v : List α} :
    ∀ (m k : ℕ) (w : List α), k + m = v.length → w.length = v.length →
      (∀ p, p < v.length → w[p]? = if v.length ≤ p + k then v[min p (v.length - 1 - p)]? else v[p]?) →
      ∃ r, storeLoopRev 1 .same m (m : ℤ) (k : ℤ) w = .ok r ∧ r.length = v.length ∧
        ∀ p, p < v.length → r[p]? = v[min p (v.length - 1 - p)]? := by
  intro m
  induction m with
  | zero =>
    intro k w hk hw h
    exact ⟨w, rfl, hw, fun p hp => by rw [h p hp, if_pos (by omega)]⟩
  | succ m ih =>
    intro k w hk hw h
    rw [storeLoopRev, if_neg (by omega)]
    simp only [bind, Except.bind, Source.contents]
    have hkl : k < w.length := by omega
    rw [deref_ok hkl]
    simp only []
    rw [show ((m + 1 : ℕ) : ℤ) - 1 = m by push_cast; ring, store_ok (by omega)]
    simp only [Nat.sub_self]
    rw [show skip (-1) 0 0 (m : ℤ) = m from rfl, show (k : ℤ) + 1 = ((k + 1 : ℕ) : ℤ) by push_cast; ring]
    apply ih (k + 1) _ (by omega) (by simpa using hw)
    intro p hp
    rw [List.getElem?_set]
    by_cases hpm : m = p
    · subst hpm
      rw [if_pos rfl, if_pos (by omega), if_pos (by omega), ← List.getElem?_eq_getElem hkl, h k (by omega)]
      split_ifs with h1
      · congr 1; omega
      · congr 1; omega
    · rw [if_neg hpm, h p hp]
      by_cases h1 : v.length ≤ p + k
      · rw [if_pos h1, if_pos (by omega)]
      · rw [if_neg h1, if_neg (by omega)]

theorem zip_range_succ {β : Type} (f : ℕ → β) (v : List α) (m : ℕ) (hm : m < v.length) :
    ((List.range (m + 1)).map f).zip v = ((List.range m).map f).zip v ++ [(f m, v[m])] := by
  apply List.ext_getElem
  · simp; omega
  · intro p h1 h2
    rw [List.getElem_append]
    split_ifs with h
    · simp
    · have : p = m := by simp at h h1; omega
      subst this
      simp [show min p v.length = p by omega]

theorem setSlice_self_reverse (v : List α) (hN : (v.length : ℤ) ≤ MAX_SIZE) :
    ∃ w, setSlice v ⟨.none, .none, .int (-1)⟩ .same = .ok w ∧ w.length = v.length ∧
      ∀ p, p < v.length → w[p]? = v[min p (v.length - 1 - p)]? := by
  have hi : first v.length (-1) none = (v.length : ℤ) - 1 := by simp [first]
  have hj : stop v.length (-1) none = -1 := by simp [stop]
  have hadj := sliceAdjust_down (n := v.length) (step := -1) (by omega) none none true
  rw [hi, hj, show max ((v.length : ℤ) - 1) (-1) = (v.length : ℤ) - 1 by omega] at hadj
  have hM : MAX_SIZE = 2 ^ 60 - 1 := rfl
  have hc := count_value (D := v.length) (T := 1) (by omega) (by omega)
  have h1 : cnt v.length 1 = v.length := by unfold cnt; omega
  obtain ⟨w, hw, hl, hp⟩ := storeLoopRev_same (v := v) v.length 0 v (by omega) rfl (fun p hp => by rw [if_neg (by omega)])
  refine ⟨w, ?_, hl, hp⟩
  unfold setSlice
  have hg := sliceGetIndices_arg v.length none none (some (-1))
  simp only [arg, Option.getD_some] at hg
  rw [hg]
  simp only [bind, Except.bind]
  unfold setslice
  dsimp only [Source.contents]
  rw [hadj]
  simp only [bind, Except.bind, if_neg (show ¬ (0 : ℤ) < -1 by omega), neg_neg]
  rw [ptrdiff_ok (by omega) (by omega), ptrdiff_ok (by omega) (by omega)]
  simp only []
  rw [h1, Nat.cast_one] at hc
  rw [show (v.length : ℤ) - 1 - -1 - -1 - 1 = (v.length : ℤ) + 1 - 1 by ring, hc,
    if_neg (by simp), show (v.length : ℤ) - (v.length - ((v.length : ℤ) - 1) - 1) = v.length by ring,
    advanceTo_ok (by omega) (by omega)]
  simp only [Int.toNat_natCast]
  exact hw

/-! ### iteration -/

theorem collect_ok (v : List α) (stamp : ℕ) : ∀ (m k : ℕ) (acc : List α), k + m = v.length →
    Iter.collect v (m + 1) ⟨k, v.length, stamp⟩ acc = .ok (acc ++ v.drop k) := by
  intro m
  induction m with
  | zero =>
    intro k acc hk
    obtain rfl : k = v.length := by omega
    simp [Iter.collect, Iter.next]
  | succ m ih =>
    intro k acc hk
    have hkl : k < v.length := by omega
    have hn : Iter.next ⟨k, v.length, stamp⟩ v stamp = .ok (v[k], ⟨((k + 1 : ℕ) : ℤ), v.length, stamp⟩) := by
      unfold Iter.next
      rw [if_neg (by simp), if_neg (by simp only []; omega)]
      simp only [bind, Except.bind]
      rw [deref_ok hkl]
      simp
    rw [Iter.collect]
    simp only [hn]
    rw [ih _ _ (by omega), List.append_assoc, List.singleton_append, ← List.drop_eq_getElem_cons hkl]

/-! ### histories -/

theorem assignSlice_length {l w : List α} {a b : Option ℤ} {step : ℤ} {xs : List α} (h : assignSlice l a b step xs = some w) :
    w.length ≤ l.length + xs.length := by
  unfold assignSlice at h
  split_ifs at h with h1 h2
  · obtain rfl := Option.some.inj h
    have hf : 0 ≤ first l.length 1 a ∧ first l.length 1 a ≤ l.length := by rw [first_up (by omega)]; omega
    simp only [List.length_append, List.length_take, List.length_drop]
    omega
  · obtain rfl := Option.some.inj h
    have : ∀ (zs : List (ℤ × α)) (u : List α), (zs.foldl (fun l px => l.set px.1.toNat px.2) u).length = u.length := by
      intro zs
      induction zs with
      | nil => intro u; rfl
      | cons z zs ih => intro u; rw [List.foldl_cons, ih, List.length_set]
    rw [this]; omega

theorem deleteSlice_length (l : List α) (a b : Option ℤ) (step : ℤ) : (deleteSlice l a b step).length ≤ l.length := by
  unfold deleteSlice
  rw [List.length_map]
  exact (List.length_filter_le _ _).trans (by simp)


theorem apply_length (l : List α) (op : Op α) : (apply l op).2.length ≤ l.length + grow op := by
  cases op with
  | append x => simp [apply, grow]
  | pop => simp only [apply]; split <;> simp [grow]
  | clear => simp [apply]
  | setItem i x => simp only [apply]; split <;> simp [grow]
  | delItem i =>
    simp only [apply]; split
    · simp [grow]
    · simp only [grow, List.length_eraseIdx]; split <;> omega
  | setSlice a b c xs =>
    simp only [apply]; split_ifs
    · simp
    · split
      · simp
      · rename_i w h; exact assignSlice_length h
  | delSlice a b c =>
    simp only [apply]; split_ifs
    · simp
    · simpa [grow] using deleteSlice_length l a b (c.getD 1)

theorem arg_zero {c : Option ℤ} (h : c.getD 1 = 0) : arg c = .int 0 := by
  cases c with
  | none => simp at h
  | some k => simp at h; subst h; rfl

theorem call_spec (v : List α) (op : Op α) (hr : inRange op) (hg : (v.length : ℤ) + grow op ≤ MAX_SIZE) :
    call v (Call.of op) = .ok (seen (apply v op).1, (apply v op).2) := by
  simp only [MAX_SIZE] at hg
  cases op with
  | append x =>
    have : append v x = .ok (v ++ [x]) := by
      unfold append reserve
      simp only [grow] at hg
      rw [if_pos (by unfold MAX_SIZE; push_cast at hg; omega)]; rfl
    rw [Call.of, call, this]; rfl
  | pop =>
    rw [Call.of, call, pop, PyList.apply]
    cases v.getLast? <;> rfl
  | clear => rfl
  | setItem i x =>
    simp only [inRange] at hr
    rw [Call.of, call, PyList.apply]
    rw [setItem_spec v x (by omega) (by omega)]
    cases index v.length i <;> rfl
  | delItem i =>
    simp only [inRange] at hr
    rw [Call.of, call, PyList.apply]
    rw [delItem_spec v (by omega) (by omega)]
    cases index v.length i <;> rfl
  | setSlice a b c xs =>
    simp only [inRange, grow] at hr hg
    rw [Call.of, call, PyList.apply]
    rcases lt_trichotomy (c.getD 1) 0 with h | h | h
    · rw [setSlice_down h (by omega), if_neg (by omega)]
      cases assignSlice v a b (c.getD 1) xs <;> rfl
    · rw [arg_zero h, (step_zero v a b (.copy xs)).2.1, if_pos h]; rfl
    · rw [setSlice_up h (by unfold MAX_SIZE; omega) (by omega), if_neg (by omega)]
      cases assignSlice v a b (c.getD 1) xs <;> rfl
  | delSlice a b c =>
    simp only [inRange, grow] at hr hg
    rw [Call.of, call, PyList.apply]
    rcases lt_trichotomy (c.getD 1) 0 with h | h | h
    · rw [delSlice_down h (by omega), if_neg (by omega)]; rfl
    · rw [arg_zero h, (step_zero v a b .same).2.2, if_pos h]; rfl
    · rw [delSlice_up h (by omega), if_neg (by omega)]; rfl

theorem calls_spec : ∀ (ops : List (Op α)) (v : List α), (∀ op ∈ ops, inRange op) →
    (v.length : ℤ) + (ops.map grow).sum ≤ MAX_SIZE →
    calls v (ops.map Call.of) = .ok ((applyAll v ops).1.map seen, (applyAll v ops).2) := by
  intro ops
  induction ops with
  | nil => intro v _ _; rfl
  | cons op ops ih =>
    intro v hr hg
    rw [List.map_cons, List.sum_cons] at hg
    push_cast at hg
    have hl := apply_length v op
    rw [List.map_cons, calls, call_spec v op (hr op (by simp)) (by omega)]
    simp only [bind, Except.bind]
    rw [ih _ (fun o ho => hr o (by simp [ho])) (by omega)]
    rfl

end CP.Swig
