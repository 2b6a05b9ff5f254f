import Verif.Model.Basic
/-
Model of src/string_utils.cc.  A C++ `string` is a list of characters.  Line lengths are unbounded
integers here: the `int` casts of `s.size()` and `v.size()` (string_utils.cc:65, 94) are exact for
lengths below 2^31.
-/
namespace CP
variable {F : Type} [FOps F]
open FOps

/-- A C++ `std::string`. -/
abbrev Str := List Char

/-- Result of `strtol(p, &endptr, 10)`: value, `endptr - p`, and `errno` (0 before the call). -/
structure StrtolResult where
  value : Int
  consumed : Nat
  errno : Int

/-- Result of `strtod(p, &endptr)`: value, `endptr - p`, and `errno` (0 before the call). -/
structure StrtodResult (F : Type) where
  value : F
  consumed : Nat
  errno : Int

/-- The C library functions used for parsing, and `strerror`. -/
structure Libc (F : Type) where
  strtol : Str → StrtolResult
  strtod : Str → StrtodResult F
  strerror : Int → Str

/-- `ERANGE` on Linux.  Used in src/string_utils.cc:22 -/
def ERANGE : Int := 34
/-- `LONG_MAX` (64-bit `long`).  Used in src/string_utils.cc:22 -/
def LONG_MAX : Int := 2 ^ 63 - 1
/-- `LONG_MIN`.  Used in src/string_utils.cc:22 -/
def LONG_MIN : Int := -(2 ^ 63)

/-- `s.c_str()` as seen by the C functions: the characters before the first NUL. -/
def cStr (s : Str) : Str := s.takeWhile fun c => c ≠ '\x00'

/-- `string_to_long`.  src/string_utils.cc:14-35 -/
def stringToLong (libc : Libc F) (s : Str) : M Int :=
  let r := libc.strtol (cStr s)
  if (r.errno = ERANGE ∧ (r.value = LONG_MAX ∨ r.value = LONG_MIN)) ∨ (r.errno ≠ 0 ∧ r.value = 0) then
    .error (.runtimeError (String.ofList ("Error converting string to long: ".toList ++ s ++ ['\n'] ++ libc.strerror r.errno)))
  else if r.consumed = 0 then
    .error (.runtimeError (String.ofList ("Error converting string to long: ".toList ++ s ++ ['\n'] ++ "No digits were found.".toList)))
  else if (cStr s)[r.consumed]? ≠ none then
    .error (.runtimeError (String.ofList ("Trailing characters during conversion of string to long:".toList ++ s ++ ['\n'])))
  else .ok r.value

/-- `string_to_double`.  src/string_utils.cc:37-58 -/
def stringToDouble (libc : Libc F) (s : Str) : M F :=
  let r := libc.strtod (cStr s)
  if eq r.value zero && decide (r.consumed = 0) then
    .error (.runtimeError (String.ofList ("Error converting string to double '".toList ++ s ++ ['\''])))
  else if r.errno ≠ 0 then
    .error (.runtimeError (String.ofList ("Error converting string to double '".toList ++ s ++ ['\'', '\n'] ++ libc.strerror r.errno)))
  else .ok r.value

/-- `s.substr(pos, len)`: throws `std::out_of_range` (a `logic_error`, which `main` does not catch) if
`pos > s.size()`. -/
def substr (s : Str) (pos len : Int) : M Str :=
  if 0 ≤ pos ∧ pos ≤ s.length then .ok ((s.drop pos.toNat).take len.toNat)
  else .error (.uncaught "std::out_of_range")

/-- `split`.  src/string_utils.cc:60-75 -/
def split (s : Str) (delimiter : Char) : M (List Str) := do
  let (substrings, start) ← forRange 0 s.length (([] : List Str), (0 : Int)) fun i st => do
    let c ← rd s i
    if c = delimiter then do
      let piece ← substr s st.2 (i - st.2)
      .ok (st.1 ++ [piece], i + 1)
    else .ok st
  let last ← substr s start (s.length - start)
  .ok (substrings ++ [last])

/-- The optional trailing comma: drop the last substring if it is empty.  src/string_utils.cc:82-84 -/
def dropTrailingEmpty (substrings : List Str) : List Str :=
  if substrings.length ≥ 1 ∧ substrings.getLast? = some [] then substrings.take (substrings.length - 1) else substrings

/-- `read_comma_delimited_doubles`.  src/string_utils.cc:77-89 -/
def readCommaDelimitedDoubles (libc : Libc F) (line : Str) : M (List F) := do
  let substrings ← split line ','
  (dropTrailingEmpty substrings).mapM (stringToDouble libc)

/-- `vector_to_string`; `fmt` is `operator<<` for doubles.  src/string_utils.cc:91-102 -/
def vectorToString (fmt : F → Str) (v : List F) : M Str := do
  let ss ← forRange 0 v.length ([] : Str) fun i ss => do
    let x ← rd v i
    let ss := ss ++ fmt x
    if i ≠ (v.length : Int) - 1 then .ok (ss ++ [',', ' ']) else .ok ss
  .ok (ss ++ ['\n'])

end CP
