import Verif.RoundSpec
import Mathlib.Algebra.Order.Archimedean.Real.Basic
import Mathlib.Data.Int.Log
/-
IEEE-754 binary floating point with its bounded exponent range: gradual underflow (subnormal numbers), overflow to infinities,
NaN, and rounding to a nearest representable number (any rule for ties).  The C math library is a parameter; what is assumed of
its accuracy is `LibmAccurate`.  Simplification: +0 and -0 are one number, and division by it treats it as +0.
-/
namespace CP.Spec
noncomputable section

/-- A binary format: `p` significant bits, smallest positive number `2^emin`, overflow from `2^emax` on. -/
structure Format where
  p : ℕ
  emin : ℤ
  emax : ℤ

/-- The format of `double`. -/
def binary64 : Format := ⟨53, -1074, 1024⟩

/-- Numbers of the format if there were no overflow: `m 2^e` with an integer `m` of at most `p` bits and `e >= emin`. -/
def Format.Rep (f : Format) (x : ℝ) : Prop := ∃ m e : ℤ, |m| < 2 ^ f.p ∧ f.emin ≤ e ∧ x = m * (2 : ℝ) ^ e

/-- Finite numbers of the format. -/
def Format.Fin (f : Format) (x : ℝ) : Prop := f.Rep x ∧ |x| < (2 : ℝ) ^ f.emax

/-- Values of a floating-point variable. -/
inductive Fl (f : Format) where
  | fin (x : ℝ) (h : f.Fin x)
  | pinf
  | ninf
  | nan

/-- A rounding function to nearest: the result is representable and no representable number is closer. -/
structure Nearest (f : Format) (r : ℝ → ℝ) : Prop where
  rep : ∀ x, f.Rep (r x)
  near : ∀ x y, f.Rep y → |r x - x| ≤ |y - x|

open scoped Classical in
/-- The result of an operation whose exact result is the real number `x`: rounded, with overflow to an infinity. -/
def roundFl {f : Format} {r : ℝ → ℝ} (hr : Nearest f r) (x : ℝ) : Fl f :=
  if h : |r x| < (2 : ℝ) ^ f.emax then Fl.fin (r x) ⟨hr.rep x, h⟩
  else if 0 < x then Fl.pinf else Fl.ninf

/-- The C math library, for a format. -/
structure Libm (f : Format) where
  exp : Fl f → Fl f
  log : Fl f → Fl f
  lgamma : Fl f → Fl f
  powi : Fl f → ℤ → Fl f

/-- A floating-point system: a format, a rounding to nearest, a math library. -/
structure FloatSystem where
  f : Format
  r : ℝ → ℝ
  nearest : Nearest f r
  libm : Libm f

/-- The numbers of a floating-point system. -/
def Num (A : FloatSystem) : Type := Fl A.f

variable {A : FloatSystem}

/-- The real value. -/
def Num.val (x : Num A) : ℝ := match x with
  | .fin a _ => a
  | _ => 0

/-- A number of the format as a floating-point value. -/
def mkNum (A : FloatSystem) (a : ℝ) (h : A.f.Fin a) : Num A := Fl.fin a h

/-- The real number, if it is one. -/
def Num.real? (x : Num A) : Option ℝ := match x with
  | .fin a _ => some a
  | _ => none

/-- Neither an infinity nor NaN. -/
def Num.finite (x : Num A) : Prop := ∃ a h, x = mkNum A a h

/-- The result of an operation whose exact result is the real number `x`. -/
def roundNum (A : FloatSystem) (x : ℝ) : Num A := roundFl A.nearest x

/-- The sign of a number as -1, 0, 1 (0 for NaN). -/
def Num.sgn (x : Num A) : ℤ := match x with
  | .fin a _ => SignType.sign a
  | .pinf => 1
  | .ninf => -1
  | .nan => 0

/-- An infinity or zero-by-infinity (NaN) with the given sign. -/
def infOf (A : FloatSystem) (s : ℤ) : Num A := if 0 < s then Fl.pinf else if s < 0 then Fl.ninf else Fl.nan

/-- Addition. -/
def Num.add (x y : Num A) : Num A := match x, y with
  | .fin a _, .fin b _ => roundNum A (a + b)
  | .nan, _ => Fl.nan
  | _, .nan => Fl.nan
  | .pinf, .ninf => Fl.nan
  | .ninf, .pinf => Fl.nan
  | .pinf, _ => Fl.pinf
  | _, .pinf => Fl.pinf
  | .ninf, _ => Fl.ninf
  | _, .ninf => Fl.ninf

theorem Format.Rep.neg {f : Format} {x : ℝ} (h : f.Rep x) : f.Rep (-x) := by
  obtain ⟨m, e, hm, he, rfl⟩ := h
  exact ⟨-m, e, by rwa [abs_neg], he, by push_cast; ring⟩

/-- Negation, exact. -/
def Num.neg (x : Num A) : Num A := match x with
  | .fin a h => Fl.fin (-a) ⟨h.1.neg, by rw [abs_neg]; exact h.2⟩
  | .pinf => Fl.ninf
  | .ninf => Fl.pinf
  | .nan => Fl.nan

/-- Multiplication. -/
def Num.mul (x y : Num A) : Num A := match x, y with
  | .fin a _, .fin b _ => roundNum A (a * b)
  | .nan, _ => Fl.nan
  | _, .nan => Fl.nan
  | x, y => infOf A (Num.sgn (A := A) x * Num.sgn (A := A) y)

open scoped Classical in
/-- Division. -/
def Num.div (x y : Num A) : Num A := match x, y with
  | .fin a h, .fin b _ => if b = 0 then infOf A (Num.sgn (A := A) (Fl.fin a h)) else roundNum A (a / b)
  | .nan, _ => Fl.nan
  | _, .nan => Fl.nan
  | .fin _ _, _ => roundNum A 0
  | x, .fin b h => infOf A (Num.sgn (A := A) x * (if b = 0 then 1 else Num.sgn (A := A) (Fl.fin b h)))
  | _, _ => Fl.nan

open scoped Classical in
/-- The comparison `<`, false if an operand is NaN. -/
def Num.lt (x y : Num A) : Bool := match x, y with
  | .nan, _ => false
  | _, .nan => false
  | .fin a _, .fin b _ => decide (a < b)
  | .ninf, .ninf => false
  | .ninf, _ => true
  | _, .ninf => false
  | .pinf, _ => false
  | _, .pinf => true

open scoped Classical in
/-- The comparison `==`, false if an operand is NaN. -/
def Num.eq (x y : Num A) : Bool := match x, y with
  | .fin a _, .fin b _ => decide (a = b)
  | .pinf, .pinf => true
  | .ninf, .ninf => true
  | _, _ => false

open scoped Classical in
/-- The arithmetic of a floating-point system. -/
instance (A : FloatSystem) : FOps (Num A) where
  ofInt k := roundNum A k
  add := Num.add
  sub x y := Num.add x (Num.neg y)
  mul := Num.mul
  div := Num.div
  neg := Num.neg
  lt := Num.lt
  eq := Num.eq
  exp x := A.libm.exp x
  log x := A.libm.log x
  lgamma x := A.libm.lgamma x
  powi x k := A.libm.powi x k
  negInf := Fl.ninf
  frexpExp x := match x with
    | .fin a _ => if a = 0 then 0 else Int.log 2 |a| + 1
    | _ => 0
  ldexp x e := match x with
    | .fin a _ => roundNum A (a * (2 : ℝ) ^ e)
    | y => y

/-- The smallest positive normal number. -/
def Format.minNormal (f : Format) : ℝ := (2 : ℝ) ^ (f.emin + f.p - 1)

/-- Accuracy of the math library: relative error at most `u` for `log` and for `lgamma` at the integers from 1 to `N+1`; `exp`
has relative error at most `u` where the exact value is a normal number (and not close to overflow), and is off by at most the
smallest positive number where it is below. -/
structure LibmAccurate (A : FloatSystem) (u : ℝ) (N : ℕ) : Prop where
  log : ∀ x h, 0 < x → ∃ v h', A.libm.log (Fl.fin x h) = Fl.fin v h' ∧ |v - Real.log x| ≤ u * |Real.log x|
  lgamma : ∀ (k : ℕ) h, k ≤ N → ∃ v h', A.libm.lgamma (Fl.fin ((k : ℝ) + 1) h) = Fl.fin v h' ∧
    |v - Real.log k.factorial| ≤ u * |Real.log k.factorial|
  exp : ∀ x h, Real.exp x ≤ (2 : ℝ) ^ (A.f.emax - 1) → ∃ v h', A.libm.exp (Fl.fin x h) = Fl.fin v h' ∧
    (A.f.minNormal ≤ Real.exp x → |v - Real.exp x| ≤ u * Real.exp x) ∧
    (Real.exp x < A.f.minNormal → 0 ≤ v ∧ |v - Real.exp x| ≤ (2 : ℝ) ^ A.f.emin)

end
end CP.Spec
