import Verif.Ieee
import Verif.Model.XRBits
/-
Bit patterns of `double` numbers, and truncation, for the arithmetic of a floating-point system.
-/
namespace CP.Spec
noncomputable section

/-- An extended real number as a floating-point value. -/
def ofXR (A : FloatSystem) : XR → Num A
  | .fin v => roundNum A v
  | .pinf => (Fl.pinf : Fl A.f)
  | .ninf => (Fl.ninf : Fl A.f)
  | .nan => (Fl.nan : Fl A.f)

open scoped Classical in
/-- Reading a 64-bit pattern as a `double` (the union in src/tinymt64.h:135-138): exact if the numbers of the system are doubles.
Truncation as in the conversion from `double` to `int` (src/crossprob_mc.cc:148). -/
instance (A : FloatSystem) : FBits (Num A) where
  ofBits w := ofXR A (XR.ofBits w)
  trunc x := match x with
    | .fin a _ => some (if 0 ≤ a then ⌊a⌋ else ⌈a⌉)
    | _ => none

/-- The sign of the logarithm: the math library returns no positive number (and no NaN) for arguments in `[0,1]`.  (Infinite
for the argument 0.) -/
def LogSign (A : FloatSystem) : Prop :=
  ∀ x h, 0 ≤ x → x ≤ 1 → A.libm.log (Fl.fin x h) = Fl.ninf ∨ ∃ v h', A.libm.log (Fl.fin x h) = Fl.fin v h' ∧ v ≤ 0

/-- Accuracy of the logarithm: relative error at most `u`, minus infinity at 0. -/
structure LogAccurate (A : FloatSystem) (u : ℝ) : Prop where
  log : ∀ x h, 0 < x → ∃ v h', A.libm.log (Fl.fin x h) = Fl.fin v h' ∧ |v - Real.log x| ≤ u * |Real.log x|
  zero : ∀ h, A.libm.log (Fl.fin 0 h) = Fl.ninf

end
end CP.Spec
