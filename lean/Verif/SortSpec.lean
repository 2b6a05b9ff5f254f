import Verif.Model.XR
import Verif.Model.Ecdf2
/-
What is assumed of `std::sort` (src/ecdf2.cc:53): it permutes its input, and the result is ordered by
the comparison `operator<` on locations whenever all locations are numbers (otherwise the comparison
is not a strict weak ordering).  The order of equal elements is unconstrained.
-/
namespace CP.Spec

/-- Contract of `std::sort` on boundary points, exact arithmetic. -/
structure SortContract (sort : List (Bound XR) → List (Bound XR)) : Prop where
  perm : ∀ l, (sort l).Perm l
  sorted : ∀ l, (∀ x ∈ l, ∃ r : ℝ, x.location = XR.fin r) →
    (sort l).Pairwise fun x y => FOps.lt y.location x.location = false

/-- Real value of a location (0 if it is not a number); only used for the witness below. -/
noncomputable def locKey (x : Bound XR) : ℝ :=
  match x.location with
  | XR.fin r => r
  | _ => 0

open Classical in
/-- A sorting function satisfying the contract. -/
noncomputable def mergeSortBounds (l : List (Bound XR)) : List (Bound XR) :=
  l.mergeSort fun x y => decide (locKey x ≤ locKey y)

theorem mergeSortBounds_contract : SortContract mergeSortBounds where
  perm l := List.mergeSort_perm l _
  sorted l hfin := by
    have h := List.pairwise_mergeSort (le := fun x y : Bound XR => decide (locKey x ≤ locKey y))
      (by intro a b c; simp only [decide_eq_true_eq]; exact le_trans)
      (by intro a b; simp only [Bool.or_eq_true, decide_eq_true_eq]; exact le_total _ _) l
    unfold mergeSortBounds
    refine h.imp_of_mem ?_
    intro x y hx hy hxy
    obtain ⟨r, hr⟩ := hfin x (List.mem_mergeSort.mp hx)
    obtain ⟨r', hr'⟩ := hfin y (List.mem_mergeSort.mp hy)
    simp only [decide_eq_true_eq, locKey, hr, hr'] at hxy
    simp [hr, hr', hxy]

end CP.Spec
