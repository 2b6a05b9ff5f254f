import Verif.Model.Strings
import Mathlib.Analysis.SpecialFunctions.Pow.Real
/-
What the C standard says about `strtol(p, &end, 10)` and `strtod(p, &end)` on decimal numbers (C11
7.22.1.3, 7.22.1.4), stated without reference to the code under study.  Only decimal notation is
specified for `strtod`; hexadecimal floats, "inf" and "nan" are left unconstrained.
-/
namespace CP.Spec

/-- `isspace` in the "C" locale. -/
def IsSpace (c : Char) : Prop := c ∈ [' ', '\t', '\n', '\x0b', '\x0c', '\r']

instance (c : Char) : Decidable (IsSpace c) := by unfold IsSpace; infer_instance

/-- All characters are decimal digits. -/
def AllDigits (l : Str) : Prop := ∀ c ∈ l, c.isDigit = true

/-- The number written by a string of decimal digits. -/
def natOf (l : Str) : ℕ := l.foldl (fun a c => 10 * a + (c.toNat - '0'.toNat)) 0

/-- An optional sign. -/
inductive Sign where
  | none
  | plus
  | minus

/-- Its text. -/
def Sign.text : Sign → Str
  | none => []
  | plus => ['+']
  | minus => ['-']

/-- Its effect: 1 or -1. -/
def Sign.unit : Sign → ℤ
  | minus => -1
  | _ => 1

/-- A decimal number in scientific notation, with every part optional except that there must be some
digit: `sign digits . digits e sign digits`. -/
structure Dec where
  sign : Sign
  int : Str
  /-- digits after the decimal point, if there is a decimal point -/
  frac : Option Str
  /-- the letter, sign and digits of the exponent, if there is one -/
  exp : Option (Char × Sign × Str)

namespace Dec

/-- The digits after the point. -/
def fracDigits (d : Dec) : Str := d.frac.getD []

/-- Well-formed: at least one digit; the exponent, if any, has at least one digit. -/
def WF (d : Dec) : Prop :=
  AllDigits d.int ∧ AllDigits d.fracDigits ∧ d.int ++ d.fracDigits ≠ [] ∧
  ∀ c s ds, d.exp = some (c, s, ds) → (c = 'e' ∨ c = 'E') ∧ AllDigits ds ∧ ds ≠ []

/-- Text of the fraction. -/
def fracText (d : Dec) : Str := match d.frac with
  | none => []
  | some f => '.' :: f
/-- Text of the exponent. -/
def expText (d : Dec) : Str := match d.exp with
  | none => []
  | some (c, s, ds) => c :: (s.text ++ ds)

/-- How the number is written. -/
def text (d : Dec) : Str := d.sign.text ++ d.int ++ d.fracText ++ d.expText

/-- The exponent. -/
def expVal (d : Dec) : ℤ := match d.exp with
  | none => 0
  | some (_, s, ds) => s.unit * natOf ds

/-- The real number that is written. -/
noncomputable def value (d : Dec) : ℝ :=
  d.sign.unit * (natOf (d.int ++ d.fracDigits) : ℝ) * (10 : ℝ) ^ (d.expVal - d.fracDigits.length)

end Dec

/-- Text that cannot continue a decimal number: it is empty or its first character is not a digit,
`.`, `e`, `E`, `x` or `X`. -/
def EndsNumber (rest : Str) : Prop :=
  ∀ c, rest.head? = some c → c.isDigit = false ∧ c ∉ ['.', 'e', 'E', 'x', 'X']

/-- After white space and an optional sign there is no digit, no point followed by a digit, and no letter
that could start `inf` or `nan`. -/
def NotNumber (s : Str) : Prop :=
  ∃ (ws : Str) (sg : Sign) (t : Str), s = ws ++ sg.text ++ t ∧ (∀ c ∈ ws, IsSpace c) ∧
    (∀ c, t.head? = some c → c.isDigit = false ∧ c ∉ ['i', 'I', 'n', 'N']) ∧
    (sg = .none → ∀ c, t.head? = some c → ¬ IsSpace c ∧ c ∉ ['+', '-']) ∧
    (∀ c, t.head? = some '.' → t[1]? = some c → c.isDigit = false)

/-- Contract of `strtod` on decimal numbers; `rnd` is the conversion of a real number to the floating
point type and `inRange` says which numbers do not overflow or underflow. -/
structure StrtodSpec {F : Type} (strtod : Str → StrtodResult F) (rnd : ℝ → F) (inRange : ℝ → Prop) : Prop where
  number : ∀ (ws : Str) (d : Dec) (rest : Str), (∀ c ∈ ws, IsSpace c) → d.WF → EndsNumber rest → inRange d.value →
    strtod (ws ++ d.text ++ rest) = ⟨rnd d.value, (ws ++ d.text).length, 0⟩
  outOfRange : ∀ (ws : Str) (d : Dec) (rest : Str), (∀ c ∈ ws, IsSpace c) → d.WF → EndsNumber rest → ¬ inRange d.value →
    (strtod (ws ++ d.text ++ rest)).errno = ERANGE ∧ (strtod (ws ++ d.text ++ rest)).consumed = (ws ++ d.text).length
  noNumber : ∀ s, NotNumber s → (strtod s).value = rnd 0 ∧ (strtod s).consumed = 0

/-- `s` is white space, an optional sign, at least one digit, and a rest that does not continue the digits. -/
def LongForm (s ws : Str) (sg : Sign) (ds rest : Str) : Prop :=
  s = ws ++ sg.text ++ ds ++ rest ∧ (∀ c ∈ ws, IsSpace c) ∧ AllDigits ds ∧ ds ≠ [] ∧
    ∀ c, rest.head? = some c → c.isDigit = false

/-- The 64-bit signed integers. -/
def IsLong (v : ℤ) : Prop := -(2 ^ 63) ≤ v ∧ v ≤ 2 ^ 63 - 1

/-- Contract of `strtol(p, &end, 10)`. -/
structure StrtolSpec (strtol : Str → StrtolResult) : Prop where
  number : ∀ s ws sg ds rest, LongForm s ws sg ds rest → IsLong (sg.unit * natOf ds) →
    strtol s = ⟨sg.unit * natOf ds, (ws ++ sg.text ++ ds).length, 0⟩
  tooLarge : ∀ s ws sg ds rest, LongForm s ws sg ds rest → 2 ^ 63 - 1 < sg.unit * (natOf ds : ℤ) →
    strtol s = ⟨LONG_MAX, (ws ++ sg.text ++ ds).length, ERANGE⟩
  tooSmall : ∀ s ws sg ds rest, LongForm s ws sg ds rest → sg.unit * (natOf ds : ℤ) < -(2 ^ 63) →
    strtol s = ⟨LONG_MIN, (ws ++ sg.text ++ ds).length, ERANGE⟩
  noNumber : ∀ s, (¬ ∃ ws sg ds rest, LongForm s ws sg ds rest) →
    (strtol s).value = 0 ∧ (strtol s).consumed = 0

end CP.Spec
