import Verif.Model.Ecdf2
import Mathlib.Analysis.SpecialFunctions.Log.Basic
/-
What is assumed of floating-point arithmetic and of the C math library in the theorems about rounding
errors.  IEEE-754 double precision with gradual underflow satisfies `FloatModel` with
`g = 1/(1 - 2^-53)`, `eta = 2^-1074`, `Omega` = the largest finite double.
-/
namespace CP.Spec
open FOps

/-- A floating-point number system: `finite` numbers have a real value, comparisons of finite numbers are exact, and on
non-negative finite numbers addition, multiplication and division return the exact result up to a factor between
`1/g` and `g` (`g` close to 1) and, for multiplication and division, an absolute underflow error `eta`, provided the
exact result does not exceed the overflow threshold `Omega`. -/
structure FloatModel (F : Type) [FOps F] where
  finite : F → Prop
  val : F → ℝ
  g : ℝ
  eta : ℝ
  Omega : ℝ
  one_le_g : 1 ≤ g
  eta_nonneg : 0 ≤ eta
  zero_finite : finite (zero : F)
  val_zero : val zero = 0
  one_finite : finite (one : F)
  val_one : val one = 1
  lt_iff : ∀ x y : F, finite x → finite y → (lt x y = true ↔ val x < val y)
  not_lt_negInf : ∀ x : F, finite x → lt x negInf = false
  add : ∀ x y : F, finite x → finite y → 0 ≤ val x → 0 ≤ val y → val x + val y ≤ Omega →
    finite (x +ᶠ y) ∧ (val x + val y) / g ≤ val (x +ᶠ y) ∧ val (x +ᶠ y) ≤ (val x + val y) * g
  mul : ∀ x y : F, finite x → finite y → 0 ≤ val x → 0 ≤ val y → val x * val y ≤ Omega →
    finite (x *ᶠ y) ∧ 0 ≤ val (x *ᶠ y) ∧ val x * val y / g - eta ≤ val (x *ᶠ y) ∧
      val (x *ᶠ y) ≤ val x * val y * g + eta
  div : ∀ x y : F, finite x → finite y → 0 ≤ val x → 0 < val y → val x / val y ≤ Omega →
    finite (x /ᶠ y) ∧ 0 ≤ val (x /ᶠ y) ∧ val x / val y / g - eta ≤ val (x /ᶠ y) ∧
      val (x /ᶠ y) ≤ val x / val y * g + eta

/-- Products with a factor 0 and quotients of 0 are exactly 0, as in every IEEE-754 arithmetic. -/
structure FloatModel.ZeroExact {F : Type} [FOps F] (R : FloatModel F) : Prop where
  mul : ∀ x y : F, R.finite x → R.finite y → R.val x = 0 ∨ R.val y = 0 → R.val (x *ᶠ y) = 0
  div : ∀ x y : F, R.finite x → R.finite y → R.val x = 0 → R.val y ≠ 0 → R.val (x /ᶠ y) = 0

/-- The Poisson probability `e^-lam lam^k / k!`. -/
noncomputable def poissonProb (lam : ℝ) (k : ℕ) : ℝ := Real.exp (-lam) * lam ^ k / (k.factorial : ℝ)

variable {F : Type} [FOps F]

/-- Accuracy of the elementary functions, in the form in which the code uses them, for sample size `n`: for points
`x <= y` of a set `S` of numbers of [0,1] (the boundary points, 0 and 1), `lambda = n*(y-x)` is computed with the right sign, and `exp(-lambda + k*log(lambda) - lgamma(k+1))`
is the Poisson probability up to a factor between `g^-P` and `g^P` and an absolute (underflow) error `etaP`; the
probability that Poisson(n) equals n is computed without underflow error. -/
structure PmfAccurate (R : FloatModel F) (S : Set F) (n P : ℕ) (etaP : ℝ) : Prop where
  etaP_nonneg : 0 ≤ etaP
  sign : ∀ x ∈ S, ∀ y ∈ S, R.finite x → R.finite y → 0 ≤ R.val x → R.val x ≤ R.val y → R.val y ≤ 1 →
    lt (ofInt n *ᶠ (y -ᶠ x)) zero = false ∧
    (lt zero (ofInt n *ᶠ (y -ᶠ x)) = true ↔ R.val x < R.val y) ∧
    (FOps.eq (ofInt n *ᶠ (y -ᶠ x)) zero = true ↔ R.val x = R.val y)
  pmf : ∀ x ∈ S, ∀ y ∈ S, R.finite x → R.finite y → 0 ≤ R.val x → R.val x < R.val y → R.val y ≤ 1 → ∀ k : ℕ, k ≤ n →
    ∀ p : F, p = exp (neg (ofInt n *ᶠ (y -ᶠ x)) +ᶠ ofInt k *ᶠ log (ofInt n *ᶠ (y -ᶠ x)) -ᶠ lgamma (ofInt (k + 1))) →
    R.finite p ∧ 0 ≤ R.val p ∧
    poissonProb (n * (R.val y - R.val x)) k / R.g ^ P - etaP ≤ R.val p ∧
    R.val p ≤ (poissonProb (n * (R.val y - R.val x)) k + etaP) * R.g ^ P
  n_pos : ge (ofInt n : F) zero = true ∧ FOps.eq (ofInt n : F) zero = false
  last : ∀ p : F, p = exp (neg (ofInt n) +ᶠ ofInt n *ᶠ log (ofInt n) -ᶠ lgamma (ofInt (n + 1))) →
    R.finite p ∧ poissonProb n n / R.g ^ P ≤ R.val p ∧ R.val p ≤ poissonProb n n * R.g ^ P

/-- Accuracy of the individual library functions and signed operations behind `PmfAccurate`, for sample size `n` and points
taken from `S`: subtraction, addition, integer multiples, `log`, `lgamma` have relative error at most `1 - 1/g` (no overflow);
integers up to `n+1` are exact; `exp` is accurate up to the factor `g` and an absolute underflow error `etaE`, which
disappears when the exact value is at least `expMin`. -/
structure MathLibrary (R : FloatModel F) (n : ℕ) (etaE expMin : ℝ) : Prop where
  etaE_nonneg : 0 ≤ etaE
  ofInt : ∀ k : ℕ, k ≤ n + 1 → R.finite (ofInt k) ∧ R.val (ofInt k) = k
  eq_iff : ∀ x y : F, R.finite x → R.finite y → (FOps.eq x y = true ↔ R.val x = R.val y)
  neg : ∀ x : F, R.finite x → R.finite (neg x) ∧ R.val (neg x) = - R.val x
  add : ∀ x y : F, R.finite x → R.finite y → |R.val x + R.val y| ≤ R.Omega →
    R.finite (x +ᶠ y) ∧ |R.val (x +ᶠ y) - (R.val x + R.val y)| ≤ (1 - 1 / R.g) * |R.val x + R.val y|
  sub : ∀ x y : F, R.finite x → R.finite y → |R.val x - R.val y| ≤ R.Omega →
    R.finite (x -ᶠ y) ∧ |R.val (x -ᶠ y) - (R.val x - R.val y)| ≤ (1 - 1 / R.g) * |R.val x - R.val y|
  scale : ∀ (k : ℕ) (x : F), k ≤ n → R.finite x → |k * R.val x| ≤ R.Omega →
    R.finite (FOps.ofInt k *ᶠ x) ∧ |R.val (FOps.ofInt k *ᶠ x) - k * R.val x| ≤ (1 - 1 / R.g) * |k * R.val x|
  log : ∀ x : F, R.finite x → 0 < R.val x →
    R.finite (log x) ∧ |R.val (log x) - Real.log (R.val x)| ≤ (1 - 1 / R.g) * |Real.log (R.val x)|
  lgamma : ∀ k : ℕ, k ≤ n → R.finite (lgamma (FOps.ofInt (k + 1))) ∧
    |R.val (lgamma (FOps.ofInt (k + 1))) - Real.log k.factorial| ≤ (1 - 1 / R.g) * Real.log k.factorial
  exp : ∀ x : F, R.finite x → Real.exp (R.val x) ≤ R.Omega →
    R.finite (exp x) ∧ 0 ≤ R.val (exp x) ∧ Real.exp (R.val x) / R.g - etaE ≤ R.val (exp x) ∧
      R.val (exp x) ≤ Real.exp (R.val x) * R.g + etaE ∧
      (expMin ≤ Real.exp (R.val x) →
        Real.exp (R.val x) / R.g ≤ R.val (exp x) ∧ R.val (exp x) ≤ Real.exp (R.val x) * R.g)

/-- Contract of `std::sort` on boundary points with finite locations. -/
structure SortContractF (R : FloatModel F) (sort : List (Bound F) → List (Bound F)) : Prop where
  perm : ∀ l, (sort l).Perm l
  sorted : ∀ l, (∀ x ∈ l, R.finite x.location) → (sort l).Pairwise fun x y => lt y.location x.location = false

end CP.Spec
