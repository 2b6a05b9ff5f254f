import Verif.LibcSpec
/-
What the C++ standard says about `cout << x` for a `double` with default flags: the same as `printf("%.6g", x)` (C11 7.21.6.1):
six significant decimal digits, correctly rounded, fixed notation for exponents -4 to 5 and scientific notation otherwise,
trailing zeros and a trailing point removed.  Stated without reference to the code under study.
-/
namespace CP.Spec

/-- `a > 0` has, rounded to six significant digits, the digits of the six-digit number `m` and decimal exponent `X`:
`a` is about `m 10^(X-5)`.  Exact ties may go either way. -/
def SixDigits (a : ℝ) (m : ℕ) (X : ℤ) : Prop :=
  ∃ (e : ℤ) (m0 : ℕ), (10 : ℝ) ^ e ≤ a ∧ a < (10 : ℝ) ^ (e + 1) ∧ |a / (10 : ℝ) ^ (e - 5) - m0| ≤ 1 / 2 ∧
    ((m0 < 1000000 ∧ m = m0 ∧ X = e) ∨ (m0 = 1000000 ∧ m = 100000 ∧ X = e + 1))

/-- Remove trailing zeros. -/
def strip0 (l : Str) : Str := (l.reverse.dropWhile fun c => c = '0').reverse

/-- Digits after the point, without trailing zeros; no point if nothing is left. -/
def fracPart (l : Str) : Option Str := if strip0 l = [] then none else some (strip0 l)

/-- Digits of an exponent: at least two. -/
def expDigits (k : ℕ) : Str := if k < 10 then '0' :: (toString k).toList else (toString k).toList

/-- How `%.6g` writes `m 10^(X-5)`, where `m` has six digits. -/
def g6 (sg : Sign) (m : ℕ) (X : ℤ) : Dec :=
  let ds := (toString m).toList
  if 0 ≤ X ∧ X < 6 then ⟨sg, ds.take (X.toNat + 1), fracPart (ds.drop (X.toNat + 1)), none⟩
  else if -4 ≤ X ∧ X < 0 then ⟨sg, ['0'], fracPart (List.replicate (-X - 1).toNat '0' ++ ds), none⟩
  else ⟨sg, ds.take 1, fracPart (ds.drop 1), some ('e', if X < 0 then .minus else .plus, expDigits X.natAbs)⟩

/-- Contract of `operator<<(double)`; `val x` is the value of a finite `x` and `none` for infinities and NaN. -/
structure PrintSpec {F : Type} (fmt : F → Str) (val : F → Option ℝ) : Prop where
  zero : ∀ x, val x = some 0 → fmt x = ['0'] ∨ fmt x = ['-', '0']
  pos : ∀ x v, val x = some v → 0 < v → ∃ m X, SixDigits v m X ∧ fmt x = (g6 .none m X).text
  neg : ∀ x v, val x = some v → v < 0 → ∃ m X, SixDigits (-v) m X ∧ fmt x = (g6 .minus m X).text
  special : ∀ x, val x = none → fmt x ∈ [['i', 'n', 'f'], ['-', 'i', 'n', 'f'], ['n', 'a', 'n'], ['-', 'n', 'a', 'n']]

end CP.Spec
