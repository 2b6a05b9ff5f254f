import Verif.FastMathSpec
import Verif.LongDoubleSpec
import Verif.Model.FastMns
/-
What `-ffast-math` allows the compiler to do to `ecdf1_mns2016`, and what is assumed of the instructions and library functions it uses.
-/
namespace CP.Spec
open FOps
variable {G : Type} [FOps G]

/-- The compiled code computes, in real arithmetic, what the source says: `evaluate` sums the terms `0,...,degree`, each once, in some
order, where no term passes through more than `e` roundings more than in the order of the source; the exponent is
`lgamma(n+1) + log(integral) - delta*log(2)`, each term used once. -/
structure MnsCode.Legal (c : MnsCode G) (e : ℕ) : Prop where
  sum : ∀ site d, (c.sum site d).terms.Perm (List.range (d + 1))
  height : ∀ site d, (c.sum site d).height ≤ d + 2 + e
  coeffs : c.exponent.coeffs = (1, -1, 1)
  uses : c.exponent.uses = 3

/-- In IEEE-754 arithmetic: the fused multiply-add rounds the exact `x*y+z` once; the code for `pow(x, k)`, `k <= N`, is no worse than
`q` successive roundings; `exp` is as in `LibmAccurate`. -/
structure MnsIeee (A : FloatSystem) (u : ℝ) (q N : ℕ) (c : MnsCode (Num A)) : Prop where
  fma : ∀ x y z : Num A, x.finite → y.finite → z.finite → c.fma x y z = roundNum A (x.val * y.val + z.val)
  powi : ∀ site x h (k : ℕ), k ≤ N → |x ^ k| ≤ (2 : ℝ) ^ (A.f.emax - 1) → ∃ v h', c.powi site k (mkNum A x h) = mkNum A v h' ∧
    |v - x ^ k| ≤ ((1 + u) ^ q - 1) * |x ^ k| + q * (2 : ℝ) ^ A.f.emin
  exp : ∀ x h, Real.exp x ≤ (2 : ℝ) ^ (A.f.emax - 1) → ∃ v h', c.exp (mkNum A x h) = mkNum A v h' ∧
    (A.f.minNormal ≤ Real.exp x → |v - Real.exp x| ≤ u * Real.exp x) ∧
    (Real.exp x < A.f.minNormal → 0 ≤ v ∧ |v - Real.exp x| ≤ (2 : ℝ) ^ A.f.emin)

/-- The compiled code that follows the source to the letter (no `-ffast-math`). -/
def strictMns (fma : G → G → G → G) : MnsCode G where
  fma := fma
  sum := fun _ d => strictSum d
  powi := fun _ i y => FOps.powi y (i : Int)
  recip := fun _ _ => false
  exponent := .sub (.add .lgamma .lambda) .klog
  exp := FOps.exp

end CP.Spec
