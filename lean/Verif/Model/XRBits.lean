import Verif.Model.XR
import Verif.Model.TinyMT
/-
Bit patterns of IEEE-754 binary64 numbers, and truncation, for the exact arithmetic `XR`.
-/
namespace CP
namespace XR
open Classical

/-- The number with the given binary64 bit pattern (sign bit, 11 exponent bits, 52 mantissa bits). -/
noncomputable def ofBits (w : BitVec 64) : XR :=
  let sign : ℝ := if w.toNat / 2 ^ 63 = 0 then 1 else -1
  let e : ℕ := w.toNat / 2 ^ 52 % 2 ^ 11
  let m : ℕ := w.toNat % 2 ^ 52
  if e = 2047 then
    if m ≠ 0 then nan else if w.toNat / 2 ^ 63 = 0 then pinf else ninf
  else if e = 0 then fin (sign * ((m : ℝ) / 2 ^ 1074))
  else fin (sign * ((1 + (m : ℝ) / 2 ^ 52) * (2 : ℝ) ^ ((e : ℤ) - 1023)))

/-- Rounding toward zero. -/
noncomputable def trunc : XR → Option Int
  | fin r => some (if 0 ≤ r then ⌊r⌋ else ⌈r⌉)
  | _ => none

noncomputable instance : FBits XR where
  ofBits := ofBits
  trunc := trunc

end XR
end CP
