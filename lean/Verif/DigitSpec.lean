import Verif.OutputSpec
/-
When six printed digits are determined by an approximation.  Stated without reference to the code under study.
-/
namespace CP.Spec

/-- Every number within `tol` of `P` is positive and is written `s` when rounded to six significant digits (`%.6g`). -/
def PrintsAs (P tol : ℝ) (s : Str) : Prop :=
  ∀ v, |v - P| ≤ tol → 0 < v ∧ ∀ m X, SixDigits v m X → (g6 .none m X).text = s

end CP.Spec
