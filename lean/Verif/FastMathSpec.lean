import Verif.Model.FastMath
import Verif.Ieee
/-
What `-ffast-math` allows the compiler to do to `ecdf2`, and what is assumed of the instructions and library functions it uses.
The link commands (Makefile:15,38; setup.py:23) do not contain `-ffast-math`, so the start-up code that turns subnormal numbers
off is not linked: arithmetic keeps gradual underflow.
-/
namespace CP
/-- The coefficients of `lambda`, `k*log(lambda)`, `lgamma(k+1)` in the expression. -/
def ExpTree.coeffs : ExpTree → ℤ × ℤ × ℤ
  | .lambda => (1, 0, 0)
  | .lgamma => (0, 0, 1)
  | .klog => (0, 1, 0)
  | .neg t => - t.coeffs
  | .add t u => t.coeffs + u.coeffs
  | .sub t u => t.coeffs - u.coeffs
  | .fma t => (0, 1, 0) + t.coeffs
  | .fnma t => t.coeffs - (0, 1, 0)

/-- How many times one of the three terms is used. -/
def ExpTree.uses : ExpTree → ℕ
  | .lambda => 1
  | .lgamma => 1
  | .klog => 1
  | .neg t => t.uses
  | .add t u => t.uses + u.uses
  | .sub t u => t.uses + u.uses
  | .fma t => t.uses + 1
  | .fnma t => t.uses + 1

namespace Spec
open FOps
variable {F : Type} [FOps F]

/-- The compiled code computes, in real arithmetic, what the source says: every inner loop sums the products `0,...,j`, each
once, in some order, where no term passes through more than `e` roundings more than in the order of the source; every exponent is
`-lambda + k*log(lambda) - lgamma(k+1)`, each term used once. -/
structure FastCode.Legal (c : FastCode F) (e : ℕ) : Prop where
  sum : ∀ site j, (c.sum site j).terms.Perm (List.range (j + 1))
  height : ∀ site j, (c.sum site j).height ≤ j + 2 + e
  coeffs : ∀ site k, (c.exponent site k).coeffs = (-1, 1, -1)
  uses : ∀ site k, (c.exponent site k).uses = 3

/-- Accuracy of the instructions and functions that only fast-math code uses, in the style of `FloatModel` and `MathLibrary`. -/
structure FastOps (R : FloatModel F) (c : FastCode F) (n : ℕ) (etaE expMin : ℝ) : Prop where
  fma : ∀ x y z : F, R.finite x → R.finite y → R.finite z → 0 ≤ R.val x → 0 ≤ R.val y → 0 ≤ R.val z →
    R.val x * R.val y + R.val z ≤ R.Omega →
    R.finite (c.fma x y z) ∧ 0 ≤ R.val (c.fma x y z) ∧ (R.val x * R.val y + R.val z) / R.g - R.eta ≤ R.val (c.fma x y z) ∧
      R.val (c.fma x y z) ≤ (R.val x * R.val y + R.val z) * R.g + R.eta
  fmaZero : ∀ x y z : F, R.finite x → R.finite y → R.finite z → R.val x = 0 ∨ R.val y = 0 → R.val z = 0 → R.val (c.fma x y z) = 0
  fmaScale : ∀ (k : ℕ) (x z : F), k ≤ n → R.finite x → R.finite z → |k * R.val x + R.val z| ≤ R.Omega →
    R.finite (c.fma (ofInt k) x z) ∧
    |R.val (c.fma (ofInt k) x z) - (k * R.val x + R.val z)| ≤ (1 - 1 / R.g) * |k * R.val x + R.val z|
  fmaNegScale : ∀ (k : ℕ) (x z : F), k ≤ n → R.finite x → R.finite z → |- (k * R.val x) + R.val z| ≤ R.Omega →
    R.finite (c.fma (neg (ofInt k)) x z) ∧
    |R.val (c.fma (neg (ofInt k)) x z) - (- (k * R.val x) + R.val z)| ≤ (1 - 1 / R.g) * |- (k * R.val x) + R.val z|
  exp : ∀ (site k : ℕ) (x : F), R.finite x → Real.exp (R.val x) ≤ R.Omega →
    R.finite (c.exp site k x) ∧ 0 ≤ R.val (c.exp site k x) ∧ Real.exp (R.val x) / R.g - etaE ≤ R.val (c.exp site k x) ∧
      R.val (c.exp site k x) ≤ Real.exp (R.val x) * R.g + etaE ∧
      (expMin ≤ Real.exp (R.val x) →
        Real.exp (R.val x) / R.g ≤ R.val (c.exp site k x) ∧ R.val (c.exp site k x) ≤ Real.exp (R.val x) * R.g)

/-- In IEEE-754 arithmetic: the fused multiply-add rounds the exact `x*y+z` once, and the `exp` functions called have relative
error at most `u` where the exact value is a normal number (and not close to overflow), and are off by at most the smallest
positive number where it is below. -/
structure FastIeee (A : FloatSystem) (u : ℝ) (c : FastCode (Num A)) : Prop where
  fma : ∀ x y z : Num A, x.finite → y.finite → z.finite → c.fma x y z = roundNum A (x.val * y.val + z.val)
  exp : ∀ (site k : ℕ) x h, Real.exp x ≤ (2 : ℝ) ^ (A.f.emax - 1) → ∃ v h', c.exp site k (mkNum A x h) = mkNum A v h' ∧
    (A.f.minNormal ≤ Real.exp x → |v - Real.exp x| ≤ u * Real.exp x) ∧
    (Real.exp x < A.f.minNormal → 0 ≤ v ∧ |v - Real.exp x| ≤ (2 : ℝ) ^ A.f.emin)

/-- The order of evaluation of the source: one accumulator that starts at 0.  src/common.cc:44-48 -/
def strictSum : ℕ → SumTree
  | 0 => .add .zero (.prod 0)
  | j + 1 => .add (strictSum j) (.prod (j + 1))

/-- The compiled code that follows the source to the letter (no `-ffast-math`). -/
def strictCode (fma : F → F → F → F) : FastCode F where
  fma := fma
  sum := fun _ j => strictSum j
  exponent := fun _ _ => .sub (.add (.neg .lambda) .klog) .lgamma
  exp := fun _ _ => FOps.exp
  product := fun _ _ => (.terms .scaleFst .scaleFst .none, .terms .scaleFst .scaleFst .none)
  quot := .div

end Spec
end CP
