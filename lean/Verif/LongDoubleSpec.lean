import Verif.Model.LongDouble
import Verif.IeeePow
/-
Conversion between two floating-point formats, and what a widening conversion satisfies.
-/
namespace CP.Spec
noncomputable section
open FOps

/-- Conversion of a number of one floating-point system to another one: rounded (with overflow), infinities and NaN kept. -/
def convert (D A : FloatSystem) (x : Num D) : Num A := match x with
  | .fin a _ => roundNum A a
  | .pinf => Fl.pinf
  | .ninf => Fl.ninf
  | .nan => Fl.nan

/-- The conversions between `double` (`D`) and `long double` (`A`). -/
def ieeeConv (D A : FloatSystem) : LongDouble (Num D) (Num A) := ⟨convert D A, convert A D⟩

/-- Every number of format `f` is a number of format `g`. -/
structure Format.Sub (f g : Format) : Prop where
  p : f.p ≤ g.p
  emin : g.emin ≤ f.emin
  emax : f.emax ≤ g.emax

/-- A format that can be that of `long double`: at least the precision and range of the x87 extended format. -/
structure LongDoubleFormat (f : Format) : Prop where
  sub : x87Extended.Sub f
  one : f.emin + f.p ≤ 1
  range : (f.p : ℤ) < f.emax

/-- The format of `long double` on 64-bit ARM and RISC-V Linux (IEEE quadruple precision). -/
def binary128 : Format := ⟨113, -16494, 16384⟩

/-- A widening conversion preserves the order, the constants and negation. -/
structure Widens {F G : Type} [FOps F] [FOps G] (widen : F → G) : Prop where
  lt : ∀ x y, lt (widen x) (widen y) = lt x y
  zero : widen zero = zero
  one : widen one = one
  negInf : widen negInf = negInf
  neg : ∀ x, widen (neg x) = neg (widen x)

end
end CP.Spec
