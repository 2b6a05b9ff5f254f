import Verif.FastMathSpec
import Verif.FftAccSpec
import Verif.Model.FastNew
/-
What is assumed of the fused multiply-add in `ecdf1_new` as compiled, where the operands have any sign.
-/
namespace CP.Spec
open FOps
variable {F : Type} [FOps F]

/-- The fused multiply-add has relative error at most `u` and an absolute underflow error, for operands of any sign; `neg` is exact. -/
structure SignedFma (R : FloatModel F) (c : FastCode F) (u : ℝ) : Prop where
  fma : ∀ x y z : F, R.finite x → R.finite y → R.finite z → |R.val x * R.val y + R.val z| ≤ R.Omega →
    R.finite (c.fma x y z) ∧
      |R.val (c.fma x y z) - (R.val x * R.val y + R.val z)| ≤ u * |R.val x * R.val y + R.val z| + R.eta
  neg : ∀ x : F, R.finite x → R.finite (neg x) ∧ R.val (neg x) = - R.val x

end CP.Spec
