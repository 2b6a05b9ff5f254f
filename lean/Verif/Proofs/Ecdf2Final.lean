import Verif.Proofs.Ecdf2Exact
import Verif.SortSpec
import Mathlib.Data.List.Sort
/-
From the window constraints of the loop to the boundaries, and the final value of `ecdf2`.
-/
set_option linter.unusedVariables false
open Finset MeasureTheory
namespace CP.Spec
noncomputable section
variable {E : Fault → Prop}

/-- Location of the last processed point. -/
def lastLoc (t : ℝ) (L : List RBound) : ℝ := (L.getLast?.map Prod.fst).getD t

theorem lastLoc_cons (t : ℝ) (y : RBound) (L : List RBound) : lastLoc t (y :: L) = lastLoc y.1 L := by
  unfold lastLoc
  cases L with
  | nil => simp
  | cons z L => simp [List.getLast?_cons]

theorem tc_append (tag : BoundType) (L L' : List RBound) : tc tag (L ++ L') = tc tag L + tc tag L' := by
  simp [tc]

theorem mem_win {n : ℕ} {x : Fin n → ℝ} (L : List RBound) : ∀ (c d : ℕ), x ∈ win n c d L ↔
    ∀ L1 y L2, L = L1 ++ y :: L2 →
      d + tc .BSTEP (L1 ++ [y]) ≤ count y.1 x ∧ count y.1 x ≤ c + tc .bSTEP L1 := by
  induction L with
  | nil => intro c d; simp [win]
  | cons y L ih =>
    intro c d
    simp only [win]
    rw [Set.mem_inter_iff, ih]
    constructor
    · rintro ⟨⟨h1, h2⟩, h3⟩ L1 z L2 e
      cases L1 with
      | nil =>
        simp only [List.nil_append, List.cons.injEq] at e
        obtain ⟨rfl, rfl⟩ := e
        have := dN_tc y d []
        simp only [List.nil_append, tc, List.filter_nil, List.length_nil, Nat.add_zero] at this ⊢
        exact ⟨by omega, by omega⟩
      | cons w L1 =>
        simp only [List.cons_append, List.cons.injEq] at e
        obtain ⟨rfl, rfl⟩ := e
        have := h3 L1 z L2 rfl
        have e1 := dN_tc y d (L1 ++ [z])
        have e2 := cN_tc y c L1
        rw [List.cons_append]
        omega
    · intro h
      refine ⟨?_, ?_⟩
      · have := h [] y L rfl
        have e := dN_tc y d []
        simp only [List.nil_append, tc, List.filter_nil, List.length_nil, Nat.add_zero] at this e
        exact ⟨by omega, by omega⟩
      · intro L1 z L2 e
        subst e
        have := h (y :: L1) z L2 rfl
        have e1 := dN_tc y d (L1 ++ [z])
        have e2 := cN_tc y c L1
        rw [List.cons_append] at this
        omega

theorem noAbort_iff (L : List RBound) : ∀ (t : ℝ) (c d : ℕ), noAbort t c d L ↔
    ∀ L1 y L2, L = L1 ++ y :: L2 → lastLoc t L1 < y.1 → d + tc .BSTEP L1 ≤ c + tc .bSTEP L1 + 1 := by
  induction L with
  | nil => intro t c d; simp [noAbort]
  | cons y L ih =>
    intro t c d
    simp only [noAbort]
    rw [ih]
    constructor
    · rintro ⟨h1, h3⟩ L1 z L2 e hlt
      cases L1 with
      | nil =>
        simp only [List.nil_append, List.cons.injEq] at e
        obtain ⟨rfl, rfl⟩ := e
        have := h1 (by simpa [lastLoc] using hlt)
        simpa [tc] using this
      | cons w L1 =>
        simp only [List.cons_append, List.cons.injEq] at e
        obtain ⟨rfl, rfl⟩ := e
        rw [lastLoc_cons] at hlt
        have := h3 L1 z L2 rfl hlt
        have e1 := dN_tc y d L1
        have e2 := cN_tc y c L1
        omega
    · intro h
      refine ⟨?_, ?_⟩
      · intro hlt
        have := h [] y L rfl (by simpa [lastLoc] using hlt)
        simpa [tc] using this
      · intro L1 z L2 e hlt
        subst e
        have := h (y :: L1) z L2 rfl (by rw [lastLoc_cons]; exact hlt)
        have e1 := dN_tc y d L1
        have e2 := cN_tc y c L1
        omega

/-- A list of points that contains the boundary `b` (tag `tag`) in order. -/
def Lists {n : ℕ} (tag : BoundType) (b : Fin n → ℝ) (L : List RBound) : Prop :=
  (L.filter fun x => x.2 = tag).map Prod.fst = List.ofFn b

theorem Lists.tc {n : ℕ} {tag : BoundType} {b : Fin n → ℝ} {L : List RBound} (h : Lists tag b L) :
    tc tag L = n := by
  have := congrArg List.length h
  simpa [CP.Spec.tc] using this

/-- If `L = P ++ S` and there are more than `tc P` points, then point number `tc P + k` is in `S`. -/
theorem Lists.mem_right {n : ℕ} {tag : BoundType} {b : Fin n → ℝ} {P S : List RBound}
    (h : Lists tag b (P ++ S)) (i : Fin n) (hi : CP.Spec.tc tag P ≤ i) : ∃ y ∈ S, y.2 = tag ∧ y.1 = b i := by
  unfold Lists at h
  rw [List.filter_append, List.map_append] at h
  have hl : ((P.filter fun x => x.2 = tag).map Prod.fst).length = CP.Spec.tc tag P := by simp [CP.Spec.tc]
  have h2 : (List.ofFn b)[(i : ℕ)]? = some (b i) := by simp
  rw [← h, List.getElem?_append_right (by omega)] at h2
  have := List.mem_of_getElem? h2
  rw [List.mem_map] at this
  obtain ⟨y, hy, hyb⟩ := this
  rw [List.mem_filter] at hy
  exact ⟨y, hy.1, by simpa using hy.2, hyb⟩

theorem Lists.mem_left {n : ℕ} {tag : BoundType} {b : Fin n → ℝ} {P S : List RBound}
    (h : Lists tag b (P ++ S)) (i : Fin n) (hi : i < CP.Spec.tc tag P) : ∃ y ∈ P, y.2 = tag ∧ y.1 = b i := by
  unfold Lists at h
  rw [List.filter_append, List.map_append] at h
  have hl : ((P.filter fun x => x.2 = tag).map Prod.fst).length = CP.Spec.tc tag P := by simp [CP.Spec.tc]
  have h2 : (List.ofFn b)[(i : ℕ)]? = some (b i) := by simp
  rw [← h, List.getElem?_append_left (by omega)] at h2
  have := List.mem_of_getElem? h2
  rw [List.mem_map] at this
  obtain ⟨y, hy, hyb⟩ := this
  rw [List.mem_filter] at hy
  exact ⟨y, hy.1, by simpa using hy.2, hyb⟩

theorem filter_split {α : Type} (p : α → Bool) (L : List α) : ∀ (i : ℕ) (y : α), (L.filter p)[i]? = some y →
    ∃ L1 L2, L = L1 ++ y :: L2 ∧ (L1.filter p).length = i ∧ p y = true := by
  induction L with
  | nil => intro i y h; simp at h
  | cons z L ih =>
    intro i y h
    by_cases hz : p z = true
    · rw [List.filter_cons_of_pos hz] at h
      cases i with
      | zero =>
        simp only [List.getElem?_cons_zero, Option.some.injEq] at h
        subst h
        exact ⟨[], L, rfl, rfl, hz⟩
      | succ i =>
        simp only [List.getElem?_cons_succ] at h
        obtain ⟨L1, L2, e1, e2, e3⟩ := ih i y h
        exact ⟨z :: L1, L2, by rw [e1]; rfl, by rw [List.filter_cons_of_pos hz]; simp [e2], e3⟩
    · rw [List.filter_cons_of_neg hz] at h
      obtain ⟨L1, L2, e1, e2, e3⟩ := ih i y h
      exact ⟨z :: L1, L2, by rw [e1]; rfl, by rw [List.filter_cons_of_neg hz]; exact e2, e3⟩

theorem Lists.split {n : ℕ} {tag : BoundType} {b : Fin n → ℝ} {L : List RBound} (h : Lists tag b L)
    (i : Fin n) : ∃ L1 y L2, L = L1 ++ y :: L2 ∧ CP.Spec.tc tag L1 = i ∧ y.2 = tag ∧ y.1 = b i := by
  unfold Lists at h
  have h2 : (List.ofFn b)[(i : ℕ)]? = some (b i) := by simp
  rw [← h, List.getElem?_map] at h2
  rw [Option.map_eq_some_iff] at h2
  obtain ⟨y, hy, hyb⟩ := h2
  obtain ⟨L1, L2, e1, e2, e3⟩ := filter_split _ _ _ _ hy
  exact ⟨L1, y, L2, e1, e2, by simpa using e3, hyb⟩

/-- For a sorted list of points the window event is the non-crossing event. -/
theorem win_eq {n : ℕ} {b B : Fin n → ℝ} {L : List RBound} (hb : Lists .bSTEP b L) (hB : Lists .BSTEP B L)
    (hs : L.Pairwise fun x y => x.1 ≤ y.1) :
    win n 0 0 L = {x | ∀ i : Fin n, count (b i) x ≤ i ∧ (i : ℕ) < count (B i) x} := by
  ext x
  rw [mem_win]
  constructor
  · intro h i
    constructor
    · obtain ⟨L1, y, L2, e, h1, h2, h3⟩ := hb.split i
      have := (h L1 y L2 e).2
      rw [h1, h3] at this
      omega
    · obtain ⟨L1, y, L2, e, h1, h2, h3⟩ := hB.split i
      have := (h L1 y L2 e).1
      rw [tc_append, h1, h3, tc_cons, if_pos h2] at this
      omega
  · intro h L1 y L2 e
    have hs' := hs
    rw [e, List.pairwise_append, List.pairwise_cons] at hs'
    constructor
    · by_cases hz : tc .BSTEP (L1 ++ [y]) = 0
      · omega
      · have hle : tc .BSTEP (L1 ++ [y]) ≤ n := by
          rw [← hB.tc, e, tc_append, tc_append, tc_cons, tc_cons]; simp [tc]
        have e' : L = (L1 ++ [y]) ++ L2 := by rw [e]; simp
        obtain ⟨z, hz1, hz2, hz3⟩ := (e' ▸ hB).mem_left ⟨tc .BSTEP (L1 ++ [y]) - 1, by omega⟩
          (by show _ - 1 < _; omega)
        have hzy : z.1 ≤ y.1 := by
          rw [List.mem_append, List.mem_singleton] at hz1
          rcases hz1 with hz1 | hz1
          · exact hs'.2.2 z hz1 y (by simp)
          · rw [hz1]
        have := (h ⟨tc .BSTEP (L1 ++ [y]) - 1, by omega⟩).2
        rw [← hz3] at this
        have := this.trans_le (count_mono x hzy)
        simp only at this
        omega
    · by_cases hn : tc .bSTEP L1 < n
      · obtain ⟨z, hz1, hz2, hz3⟩ := (e ▸ hb).mem_right ⟨tc .bSTEP L1, hn⟩ (le_refl _)
        have hzy : y.1 ≤ z.1 := by
          rw [List.mem_cons] at hz1
          rcases hz1 with hz1 | hz1
          · rw [hz1]
          · exact hs'.2.1.1 z hz1
        have := (h ⟨tc .bSTEP L1, hn⟩).1
        rw [← hz3] at this
        have := (count_mono x hzy).trans this
        simp only at this
        omega
      · have := count_le y.1 x
        omega

/-- Strongly crossed boundaries. -/
theorem noAbort_eq {n : ℕ} {b B : Fin n → ℝ} {L : List RBound} (hb : Lists .bSTEP b L) (hB : Lists .BSTEP B L)
    (hBm : Monotone B) (hs : L.Pairwise fun x y => x.1 ≤ y.1) (h0 : ∀ y ∈ L, 0 ≤ y.1) :
    noAbort 0 0 0 L ↔ ¬ ∃ i j : Fin n, (j : ℕ) = i + 1 ∧ B j < b i := by
  rw [noAbort_iff]
  constructor
  · rintro h ⟨i, j, hij, hlt⟩
    set p : RBound → Bool := fun y => decide (y.1 ≤ B j) with hp
    set L1 := L.takeWhile p with hL1
    have hsplit : L = L1 ++ L.dropWhile p := by rw [hL1, List.takeWhile_append_dropWhile]
    have hL1le : ∀ y ∈ L1, y.1 ≤ B j := by
      intro y hy
      have := List.all_takeWhile (p := p) (l := L)
      rw [List.all_eq_true] at this
      simpa [hp] using this y hy
    cases hd : L.dropWhile p with
    | nil =>
      rw [hd, List.append_nil] at hsplit
      obtain ⟨P, y, S, e, _, _, hy⟩ := hb.split i
      have : y ∈ L1 := by rw [← hsplit, e]; simp
      have := hL1le y this
      rw [hy] at this
      exact absurd this (not_le.mpr hlt)
    | cons y L2 =>
      rw [hd] at hsplit
      have hny : ¬ y.1 ≤ B j := by
        have hq : ∀ (l : List RBound), l.dropWhile p = y :: L2 → p y = false := by
          intro l hl
          induction l with
          | nil => simp at hl
          | cons z l ih =>
            rw [List.dropWhile_cons] at hl
            split at hl
            · exact ih hl
            · rename_i hz
              simp only [List.cons.injEq] at hl
              rw [← hl.1]; simpa using hz
        simpa [hp] using hq L hd
      have hgt : ∀ z ∈ y :: L2, B j < z.1 := by
        intro z hz
        rw [List.mem_cons] at hz
        have hs' := hs
        rw [hsplit, List.pairwise_append, List.pairwise_cons] at hs'
        rcases hz with hz | hz
        · rw [hz]; exact not_le.mp hny
        · exact (not_le.mp hny).trans_le (hs'.2.1.1 z hz)
      have hBc : j + 1 ≤ tc .BSTEP L1 := by
        by_contra hc
        obtain ⟨z, hz1, _, hz3⟩ := (hsplit ▸ hB).mem_right j (by omega)
        have := hgt z hz1
        rw [hz3] at this
        exact lt_irrefl _ this
      have hbc : tc .bSTEP L1 ≤ i := by
        by_contra hc
        obtain ⟨z, hz1, _, hz3⟩ := (hsplit ▸ hb).mem_left i (by omega)
        have := hL1le z hz1
        rw [hz3] at this
        exact absurd this (not_le.mpr hlt)
      have hlast : lastLoc 0 L1 < y.1 := by
        have hle : lastLoc 0 L1 ≤ B j := by
          unfold lastLoc
          cases hg : L1.getLast? with
          | none =>
            have : L1 = [] := by simpa using hg
            rw [this] at hBc
            simp [tc] at hBc
          | some w =>
            have : w ∈ L1 := List.mem_of_getLast? hg
            simpa using hL1le w this
        exact hle.trans_lt (not_le.mp hny)
      have := h L1 y L2 hsplit hlast
      omega
  · intro h L1 y L2 e hlast
    by_contra hc
    have hBn : tc .BSTEP L1 ≤ n := by rw [← hB.tc, e, tc_append]; omega
    have hjn : tc .bSTEP L1 + 1 < n := by omega
    apply h
    refine ⟨⟨tc .bSTEP L1, by omega⟩, ⟨tc .bSTEP L1 + 1, hjn⟩, rfl, ?_⟩
    obtain ⟨z, hz1, _, hz3⟩ := (e ▸ hB).mem_left ⟨tc .bSTEP L1 + 1, hjn⟩ (by show _ + 1 < _; omega)
    obtain ⟨w, hw1, _, hw3⟩ := (e ▸ hb).mem_right ⟨tc .bSTEP L1, by omega⟩ (le_refl _)
    rw [← hz3, ← hw3]
    have hs' := hs
    rw [e, List.pairwise_append, List.pairwise_cons] at hs'
    have hyw : y.1 ≤ w.1 := by
      rw [List.mem_cons] at hw1
      rcases hw1 with hw1 | hw1
      · rw [hw1]
      · exact hs'.2.1.1 w hw1
    refine lt_of_le_of_lt ?_ (hlast.trans_le hyw)
    -- `z` is at most the last element of `L1`
    have : ∀ (l : List RBound), l.Pairwise (fun x y => x.1 ≤ y.1) → ∀ z ∈ l, z.1 ≤ lastLoc 0 l := by
      intro l hl z hz
      rcases List.eq_nil_or_concat l with rfl | ⟨l', a, rfl⟩
      · simp at hz
      · rw [List.concat_eq_append] at hl hz ⊢
        simp only [lastLoc, List.getLast?_append, List.getLast?_singleton, Option.some_or,
          Option.map_some, Option.getD_some]
        rw [List.mem_append, List.mem_singleton] at hz
        rw [List.pairwise_append] at hl
        rcases hz with hz | hz
        · exact hl.2.2 z hz a (by simp)
        · rw [hz]
    exact this L1 hs'.1 z hz1

/-! ### The sorted list -/

/-- The unsorted points. -/
def unsortedR {n : ℕ} (b B : Fin n → ℝ) : List RBound :=
  (List.ofFn b).map (fun x => (x, BoundType.bSTEP)) ++ (List.ofFn B).map (fun x => (x, BoundType.BSTEP))

/-- A boundary as the list of numbers passed to the program. -/
def toList {n : ℕ} (b : Fin n → ℝ) : List XR := List.ofFn fun i => XR.fin (b i)

theorem toList_eq {n : ℕ} (b : Fin n → ℝ) : toList b = (List.ofFn b).map XR.fin := by
  unfold toList; rw [List.map_ofFn]; rfl

@[simp] theorem length_toList {n : ℕ} (b : Fin n → ℝ) : (toList b).length = n := by simp [toList]

theorem unsorted_eq {n : ℕ} (b B : Fin n → ℝ) :
    unsortedBounds (toList b) (toList B) = (unsortedR b B).map toB := by
  unfold unsortedBounds unsortedR
  rw [toList_eq, toList_eq]
  simp [toB, Function.comp_def]

theorem sorted_points {n : ℕ} {b B : Fin n → ℝ} (hb : ValidBound b) (hB : ValidBound B)
    {sort : List (Bound XR) → List (Bound XR)} (hsort : SortContract sort) :
    ∃ L : List RBound, joinAllBounds sort (toList b) (toList B) = L.map toB ∧
      L.getLast? = some (1, BoundType.END) ∧
      L.Pairwise (fun x y => x.1 ≤ y.1) ∧ Lists .bSTEP b L ∧ Lists .BSTEP B L ∧
      (∀ y ∈ L, 0 ≤ y.1) ∧ (∀ y ∈ L, y.1 ≤ 1) := by
  have hperm := hsort.perm (unsortedBounds (toList b) (toList B))
  have hfin : ∀ x ∈ unsortedBounds (toList b) (toList B), ∃ y ∈ unsortedR b B, toB y = x := by
    rw [unsorted_eq]; intro x hx; simpa using hx
  have hsorted := hsort.sorted (unsortedBounds (toList b) (toList B)) (by
    intro x hx; obtain ⟨y, _, hy⟩ := hfin x hx; exact ⟨y.1, by rw [← hy]; rfl⟩)
  set S := sort (unsortedBounds (toList b) (toList B)) with hS
  let back : Bound XR → RBound := fun x => (toReal x.location, x.tag)
  have hback : ∀ y, back (toB y) = y := fun y => rfl
  set L0 := S.map back with hL0
  have hL0S : L0.map toB = S := by
    rw [hL0, List.map_map]
    conv_rhs => rw [← List.map_id S]
    refine List.map_congr_left fun x hx => ?_
    obtain ⟨y, _, hy⟩ := hfin x (hperm.mem_iff.mp hx)
    rw [← hy]; simp [hback]
  have hL0perm : L0.Perm (unsortedR b B) := by
    have := hperm.map back
    rw [unsorted_eq, List.map_map] at this
    have e : back ∘ toB = id := by funext y; exact hback y
    rwa [e, List.map_id] at this
  have hL0sorted : L0.Pairwise (fun x y => x.1 ≤ y.1) := by
    rw [← hL0S, List.pairwise_map] at hsorted
    refine hsorted.imp ?_
    intro x y hxy
    simpa [toB] using hxy
  have hrange : ∀ y ∈ L0, 0 ≤ y.1 ∧ y.1 ≤ 1 := by
    intro y hy
    have := hL0perm.mem_iff.mp hy
    unfold unsortedR at this
    rw [List.mem_append, List.mem_map, List.mem_map] at this
    rcases this with ⟨r, hr, rfl⟩ | ⟨r, hr, rfl⟩
    · rw [List.mem_ofFn] at hr; obtain ⟨i, rfl⟩ := hr; exact hb.range i
    · rw [List.mem_ofFn] at hr; obtain ⟨i, rfl⟩ := hr; exact hB.range i
  have hlists : ∀ (tag : BoundType) (f : Fin n → ℝ), Monotone f → ((unsortedR b B).filter fun x => x.2 = tag).map Prod.fst = List.ofFn f →
      (L0.filter fun x => x.2 = tag).map Prod.fst = List.ofFn f := by
    intro tag f hf he
    have hp := (hL0perm.filter fun x => x.2 = tag).map Prod.fst
    rw [he] at hp
    refine hp.eq_of_pairwise' (r := (· ≤ ·)) ?_ ?_
    · rw [List.pairwise_map]; exact hL0sorted.filter _
    · rw [List.pairwise_ofFn]; intro i j hij; exact hf hij.le
  refine ⟨L0 ++ [(1, BoundType.END)], ?_, by simp, ?_, ?_, ?_, ?_, ?_⟩
  · unfold joinAllBounds
    rw [List.map_append, hL0S, ← hS]
    simp [toB]
  · rw [List.pairwise_append]
    refine ⟨hL0sorted, by simp, ?_⟩
    intro a ha c hc
    rw [List.mem_singleton] at hc
    rw [hc]; exact (hrange a ha).2
  · unfold Lists
    rw [List.filter_append, List.map_append, hlists .bSTEP b hb.mono]
    · simp
    · unfold unsortedR
      rw [List.filter_append, List.filter_map, List.filter_map]
      simp [Function.comp_def]
  · unfold Lists
    rw [List.filter_append, List.map_append, hlists .BSTEP B hB.mono]
    · simp
    · unfold unsortedR
      rw [List.filter_append, List.filter_map, List.filter_map]
      simp [Function.comp_def]
  · intro y hy
    rw [List.mem_append, List.mem_singleton] at hy
    rcases hy with hy | hy
    · exact (hrange y hy).1
    · rw [hy]; norm_num
  · intro y hy
    rw [List.mem_append, List.mem_singleton] at hy
    rcases hy with hy | hy
    · exact (hrange y hy).2
    · rw [hy]

/-! ### Validation of a valid list -/

theorem isMonotoneFrom_fin {n : ℕ} (b : Fin n → ℝ) (hm : Monotone b) (p : XR)
    (hp : ∀ i, FOps.lt (XR.fin (b i)) p = false) :
    isMonotoneFrom p (toList b) = true := by
  induction n generalizing p with
  | zero => simp [toList, isMonotoneFrom]
  | succ n ih =>
    unfold toList
    rw [List.ofFn_succ, isMonotoneFrom]
    rw [if_neg (by rw [hp 0]; simp)]
    refine ih (fun i => b i.succ) (fun i j h => hm (Fin.succ_le_succ_iff.mpr h)) _ ?_
    intro i
    simpa using hm (Fin.zero_le i.succ)

theorem check_valid {n : ℕ} {b : Fin n → ℝ} (hb : ValidBound b) (name : String) (k : Int) (hk : k = n) :
    checkBoundaryVector name k (toList b) = .ok () := by
  unfold checkBoundaryVector
  rw [if_neg (by simp [hk])]
  have h1 : isMonotoneIncreasing (toList b) = true := by
    unfold isMonotoneIncreasing
    exact isMonotoneFrom_fin b hb.mono _ (fun i => by simp)
  rw [h1]
  have h2 : outOfRange (toList b) = false := by
    cases n with
    | zero => simp [toList, outOfRange]
    | succ n =>
      have e : toList b = XR.fin (b 0) :: List.ofFn (fun i : Fin n => XR.fin (b i.succ)) := by
        unfold toList; rw [List.ofFn_succ]
      have hl : ∀ (l : List XR) (h : l ≠ []), l = toList b → ∃ i, l.getLast h = XR.fin (b i) := by
        intro l h e
        have hmem : ∀ y ∈ l, ∃ i, y = XR.fin (b i) := by
          intro y hy
          rw [e] at hy
          unfold toList at hy
          rw [List.mem_ofFn] at hy
          obtain ⟨i, hi⟩ := hy
          exact ⟨i, hi.symm⟩
        exact hmem _ (List.getLast_mem h)
      rw [e]
      obtain ⟨i, hi⟩ := hl _ (by simp) e.symm
      unfold outOfRange
      dsimp only
      rw [hi]
      have h0 := (hb.range 0).1
      have h1 := (hb.range i).2
      simp [h0, h1]
  simp [h2]

/-! ### The value of `ecdf2` -/

theorem init_rep (env : Env XR) {n : ℕ} {g : PmfGen XR} (hg : PmfInv ((n : ℤ) + 1) g) {src : List XR}
    (hl : (src.length : Int) = n + 1) (h1 : Has src 0 (XR.fin 1)) :
    Rep n { buffers := (DoubleBuffer.new ((n : ℤ) + 1) (FOps.zero : XR)).setSrc src,
            conv := Convolver.new env ((n : ℤ) + 1), pmfgen := g, bStep := 0, BStep := 0,
            prev := FOps.zero } 0 (fun m => if m = 0 then 1 else 0) 0 0 := by
  refine ⟨ncInit env (n := (n : Int)) (by omega) hg hl, rfl, rfl, by simp, ?_, ?_⟩
  · intro m hm
    have : m ≠ 0 := by omega
    simp [this]
  · intro m hm1 hm2
    have : m = 0 := by omega
    subst this
    dsimp only
    rw [DoubleBuffer.src_setSrc]
    simpa [pw] using h1

theorem ecdf2_sat (env : Env XR) (hf : ExactFFT env.fft) {n : ℕ} {b B : Fin n → ℝ} (hb : ValidBound b)
    (hB : ValidBound B) {sort : List (Bound XR) → List (Bound XR)} (hsort : SortContract sort) (useFft : Bool)
    (ha : env.asserts = false ∨ ¬ ∃ i j : Fin n, (j : ℕ) = i + 1 ∧ B j < b i) :
    ecdf2 env sort (toList b) (toList B) useFft = .ok (XR.fin (noncrossProb b B)) := by
  have key : Sat NoFault (fun r => r = XR.fin (noncrossProb b B)) (ecdf2 env sort (toList b) (toList B) useFft) := by
    unfold ecdf2
    dsimp only
    rw [check_valid hb "b" _ (by simp), M_ok_bind, check_valid hB "B" _ (by simp), M_ok_bind]
    simp only [length_toList]
    obtain ⟨L, hjoin, hlast, hsorted, hLb, hLB, h0, h1⟩ := sorted_points hb hB hsort
    have hr : Sat NoFault (fun probs => Has probs (n : ℤ) (XR.fin (Real.exp (-(n : ℝ)) * (n : ℝ) ^ n *
          (noncrossProb b B / (n.factorial : ℝ)))))
        (poissonProcessNoncrossingProbability env sort (n : ℤ) (FOps.ofInt (n : ℤ)) (toList b) (toList B) useFft) := by
      unfold poissonProcessNoncrossingProbability
      have hl0 : ((DoubleBuffer.new ((n : Int) + 1) (FOps.zero : XR)).src.length : Int) = n + 1 := by
        simp [DoubleBuffer.new, DoubleBuffer.src]
      refine Sat.bind (wr_sat _ (by omega) (by omega)) fun src hsrc => ?_
      refine Sat.bind (pmfGen_new_sat env (by omega)) fun g hg => ?_
      rw [hjoin]
      have hrep := init_rep env hg (src := src) (by omega) ((hsrc.2 _ _).2 (Or.inl ⟨rfl, by simp⟩))
      have e : (FOps.ofInt (n : ℤ) : XR) = XR.fin (n : ℝ) := by simp
      rw [e]
      refine Sat.bind (ncFold_exact env hf (useFft := useFft) L _ 0 _ 0 0 Set.univ hrep CountLaw.zero le_rfl h0 h1 hsorted ?_ ?_ ?_) ?_
      · rw [hLb.tc]; omega
      · rw [hLB.tc]; omega
      · rw [noAbort_eq hLb hLB hB.mono hsorted h0]; exact ha
      · rintro s ⟨v, hrep', hlaw⟩
        rw [hlast] at hrep' hlaw
        simp only [Option.map_some, Option.getD_some] at hrep' hlaw
        rw [hLb.tc, hLB.tc] at hrep'
        rw [Set.univ_inter, win_eq hLb hLB hsorted] at hlaw
        have hp := hlaw.prob
        rw [← noncrossProb_eq] at hp
        have := hrep'.val n (by omega) (by omega)
        have hfac : (n.factorial : ℝ) ≠ 0 := by exact_mod_cast (Nat.factorial_pos n).ne'
        have e2 : noncrossProb b B / (n.factorial : ℝ) = v n := by rw [hp]; field_simp
        rw [e2]
        simp only [pw, mul_one] at this
        exact this
    refine Sat.bind hr fun probs hp => ?_
    rw [rd_eq hp, M_ok_bind]
    refine Sat.bind (poissonPmf_sat env (by omega) (Or.inr ?_)) ?_
    · simp only [FOps.ge, XR.zero_eq, XR.ofInt_eq, XR.lt_fin, XR.eq_fin]
      by_cases hn : n = 0 <;> simp [hn, Nat.pos_iff_ne_zero]
    · intro p hp
      show _ = _
      rw [hp, XR.ofInt_eq, pmfVal_fin (by simp)]
      have hpos : 0 < pois (n : ℝ) n := by
        by_cases hn : n = 0
        · subst hn; simp [pois]
        · exact pois_pos (by exact_mod_cast Nat.pos_of_ne_zero hn) n
      simp only [Int.cast_natCast, Int.toNat_natCast]
      rw [XR.div_fin _ hpos.ne', XR.fin_inj]
      unfold pois at hpos ⊢
      have hfac : (n.factorial : ℝ) ≠ 0 := by exact_mod_cast (Nat.factorial_pos n).ne'
      have hne : Real.exp (-(n : ℝ)) * (n : ℝ) ^ n ≠ 0 := by
        intro h0
        rw [h0] at hpos
        simp at hpos
      field_simp
  obtain ⟨a, h1, h2⟩ := key.exists_ok
  rw [h1, h2]

/-! ### The assertion build -/

theorem ncFold_abort (env : Env XR) (hf : ExactFFT env.fft) (hasr : env.asserts = true) {n : ℕ}
    {useFft : Bool} (L : List RBound) :
    ∀ (s : NCState XR) (t : ℝ) (v : ℕ → ℝ) (c d : ℕ), Rep n s t v c d →
    (∀ y ∈ L, t ≤ y.1) → L.Pairwise (fun x y => x.1 ≤ y.1) →
    c + tc .bSTEP L ≤ n → d + tc .BSTEP L ≤ n → ¬ noAbort t c d L →
    (L.map toB).foldlM (ncStep env (XR.fin n) useFft) s = .error (.assertFailed "k >= 0") := by
  induction L with
  | nil => intro s t v c d _ _ _ _ _ h; exact absurd trivial h
  | cons y L ih =>
    intro s t v c d hr hge hp hc hd ha
    rw [List.map_cons, List.foldlM_cons]
    have hty := hge y (by simp)
    rw [List.pairwise_cons] at hp
    have hcc := cN_tc y c L
    have hdd := dN_tc y d L
    by_cases hstep : t < y.1 → d ≤ c + 1
    · have hok := ncStep_exact (E := NoFault) env hf (useFft := useFft) hr y hty
        (by intro h; rw [tc_cons, if_pos h] at hc; omega)
        (by intro h; rw [tc_cons, if_pos h] at hd; omega) (Or.inr hstep)
      obtain ⟨s', hs', hr'⟩ := hok.exists_ok
      rw [hs', M_ok_bind]
      refine ih s' y.1 _ _ _ hr' hp.1 hp.2 (by omega) (by omega) ?_
      intro hno
      exact ha ⟨hstep, hno⟩
    · have hlt : t < y.1 := by
        by_contra h
        exact hstep (fun h' => absurd h' h)
      have hcd : c + 1 < d := by
        by_contra h
        exact hstep (fun _ => by omega)
      have hn : 0 < (n : ℝ) := by
        have : 0 < n := by omega
        exact_mod_cast this
      have herr : ncStep env (XR.fin n) useFft s (toB y) = .error (.assertFailed "k >= 0") := by
        unfold ncStep
        have hlam : FOps.mul (XR.fin (n : ℝ)) (FOps.sub (toB y).location s.prev) = XR.fin ((n : ℝ) * (y.1 - t)) := by
          rw [hr.prev]; simp [toB]
        have hpos : 0 < (n : ℝ) * (y.1 - t) := mul_pos hn (by linarith)
        dsimp only
        rw [hlam, if_pos (by simpa using hpos)]
        unfold PmfGen.computeArray assertC
        have hb := hr.b; have hB := hr.B
        have : ¬ (0 ≤ s.bStep - s.BStep + 1) := by omega
        simp [hasr, this]
      rw [herr]
      rfl

/-- With assertions, `ecdf2` aborts on strongly crossed boundaries. -/
theorem ecdf2_abort (env : Env XR) (hf : ExactFFT env.fft) (hasr : env.asserts = true) {n : ℕ} {b B : Fin n → ℝ}
    (hb : ValidBound b) (hB : ValidBound B) {sort : List (Bound XR) → List (Bound XR)} (hsort : SortContract sort)
    (useFft : Bool) (ha : ∃ i j : Fin n, (j : ℕ) = i + 1 ∧ B j < b i) :
    ecdf2 env sort (toList b) (toList B) useFft = .error (.assertFailed "k >= 0") := by
  unfold ecdf2
  dsimp only
  rw [check_valid hb "b" _ (by simp), M_ok_bind, check_valid hB "B" _ (by simp), M_ok_bind]
  simp only [length_toList]
  obtain ⟨L, hjoin, hlast, hsorted, hLb, hLB, h0, h1⟩ := sorted_points hb hB hsort
  unfold poissonProcessNoncrossingProbability
  have hl0 : ((DoubleBuffer.new ((n : Int) + 1) (FOps.zero : XR)).src.length : Int) = n + 1 := by
    simp [DoubleBuffer.new, DoubleBuffer.src]
  obtain ⟨src, hw, hsrc⟩ := (wr_sat (E := NoFault) (a := (DoubleBuffer.new ((n : Int) + 1) (FOps.zero : XR)).src)
    (i := 0) (FOps.one : XR) (by omega) (by omega)).exists_ok
  obtain ⟨g, hg', hg⟩ := (pmfGen_new_sat (E := NoFault) env (m := (n : ℤ) + 1) (by omega)).exists_ok
  have hrep := init_rep env hg (src := src) (by omega) ((hsrc.2 _ _).2 (Or.inl ⟨rfl, by simp⟩))
  have e : (FOps.ofInt (n : ℤ) : XR) = XR.fin (n : ℝ) := by simp
  dsimp only
  rw [hw, M_ok_bind, hg', M_ok_bind, hjoin, e]
  rw [ncFold_abort env hf hasr L _ 0 _ 0 0 hrep h0 hsorted (by rw [hLb.tc]; omega) (by rw [hLB.tc]; omega)
    (by rw [noAbort_eq hLb hLB hB.mono hsorted h0]; exact not_not.mpr ha)]
  rfl

end
end CP.Spec
