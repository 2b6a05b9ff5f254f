import Verif.RoundSpec
import Mathlib.Algebra.Order.Round
import Mathlib.Data.Int.Log
import Mathlib.Data.Real.Archimedean
import Mathlib.Tactic.Linarith
import Mathlib.Tactic.NormNum
import Mathlib.Tactic.FieldSimp
import Mathlib.Tactic.Positivity
/-
A concrete arithmetic that really rounds: `p`-bit binary floating point (round to nearest, 53 bits for `double`, 64 for x87
`long double`) with an unbounded exponent range.  Every operation and library function returns the exact result rounded to
`p` significant bits.  It satisfies `FloatModel` and `MathLibrary` with no underflow error.
-/
namespace CP.Spec
open FOps

/-- `x` rounded to `p` significant bits. -/
noncomputable def roundTo (p : ℕ) (x : ℝ) : ℝ :=
  (round (x / (2 : ℝ) ^ (Int.log 2 |x| - p + 1)) : ℝ) * (2 : ℝ) ^ (Int.log 2 |x| - p + 1)

/-- `p`-bit floating-point numbers; `none` stands for infinities and NaN. -/
def Fp (_p : ℕ) : Type := Option ℝ

variable {p : ℕ}

/-- Apply a unary operation and round. -/
noncomputable def Fp.un (f : ℝ → ℝ) (x : Fp p) : Fp p := Option.map (fun a => roundTo p (f a)) x
/-- Apply a binary operation and round. -/
noncomputable def Fp.bin (f : ℝ → ℝ → ℝ) (x y : Fp p) : Fp p :=
  match x, y with
  | some a, some b => some (roundTo p (f a b))
  | _, _ => none

open scoped Classical in
noncomputable instance : FOps (Fp p) where
  ofInt k := some (k : ℝ)
  add := Fp.bin (· + ·)
  sub := Fp.bin (· - ·)
  mul := Fp.bin (· * ·)
  div x y := match x, y with
    | some a, some b => if b = 0 then none else some (roundTo p (a / b))
    | _, _ => none
  neg x := Option.map (fun a => - a) x
  lt x y := match x, y with
    | some a, some b => decide (a < b)
    | _, _ => false
  eq x y := match x, y with
    | some a, some b => decide (a = b)
    | _, _ => false
  exp := Fp.un Real.exp
  log x := match x with
    | some a => if 0 < a then some (roundTo p (Real.log a)) else none
    | none => none
  lgamma := Fp.un fun a => Real.log (⌊a⌋₊ - 1).factorial
  powi x k := Fp.un (fun a => a ^ k) x
  negInf := none
  frexpExp x := match x with
    | some a => if a = 0 then 0 else Int.log 2 |a| + 1
    | none => 0
  ldexp x e := Option.map (fun a => a * (2 : ℝ) ^ e) x

theorem Fp.div_some {a b : ℝ} (h : b ≠ 0) :
    FOps.div (F := Fp p) (some a : Option ℝ) (some b : Option ℝ) = (some (roundTo p (a / b)) : Option ℝ) := if_neg h
theorem Fp.log_some {a : ℝ} (h : 0 < a) : FOps.log (F := Fp p) (some a : Option ℝ) = (some (roundTo p (Real.log a)) : Option ℝ) :=
  if_pos h
theorem Fp.log_nonpos {a : ℝ} (h : a ≤ 0) : FOps.log (F := Fp p) (some a : Option ℝ) = (none : Option ℝ) :=
  if_neg (not_lt.mpr h)

/-- Rounding to nearest has relative error at most `2^-p`. -/
theorem roundTo_err (p : ℕ) (x : ℝ) : |roundTo p x - x| ≤ (2 : ℝ) ^ (-(p : ℤ)) * |x| := by
  by_cases hx : x = 0
  · subst hx; simp [roundTo]
  · have hx0 : 0 < |x| := abs_pos.mpr hx
    set e := Int.log 2 |x| with he
    have h2 : (2 : ℝ) ^ e ≤ |x| := by
      have := Int.zpow_log_le_self (b := 2) (by norm_num) hx0
      simpa using this
    set s := (2 : ℝ) ^ (e - p + 1) with hs
    have s0 : 0 < s := by positivity
    have hr := abs_sub_round (x / s)
    have : roundTo p x - x = - (x / s - round (x / s)) * s := by
      unfold roundTo
      rw [← he, ← hs]
      have : x = x / s * s := by field_simp
      nth_rw 2 [this]
      ring
    rw [this, abs_mul, abs_neg, abs_of_pos s0]
    calc |x / s - round (x / s)| * s ≤ 1 / 2 * s := mul_le_mul_of_nonneg_right hr s0.le
      _ = (2 : ℝ) ^ (-(p : ℤ)) * 2 ^ e := by
        rw [hs, show e - (p : ℤ) + 1 = (-(p : ℤ)) + e + 1 by ring, zpow_add₀ (by norm_num), zpow_add₀ (by norm_num)]
        ring
      _ ≤ _ := mul_le_mul_of_nonneg_left h2 (by positivity)

/-- The factor `1/(1 - 2^-p)`. -/
noncomputable def gOf (p : ℕ) : ℝ := 1 / (1 - (2 : ℝ) ^ (-(p : ℤ)))

theorem gOf_u {p : ℕ} : 1 - 1 / gOf p = (2 : ℝ) ^ (-(p : ℤ)) := by
  unfold gOf; rw [one_div_one_div]; ring

theorem two_neg_le {p q : ℕ} (h : q ≤ p) : (2 : ℝ) ^ (-(p : ℤ)) ≤ (2 : ℝ) ^ (-(q : ℤ)) :=
  zpow_le_zpow_right₀ (by norm_num) (by omega)

theorem gOf_pos {p : ℕ} (hp : 1 ≤ p) : 0 < gOf p := by
  have := two_neg_le hp
  unfold gOf
  apply one_div_pos.mpr
  norm_num at this
  have h : (2 : ℝ) ^ (-(p : ℤ)) ≤ 1 / 2 := by simpa using this
  linarith

theorem one_le_gOf {p : ℕ} (hp : 1 ≤ p) : 1 ≤ gOf p := by
  have h0 := gOf_pos hp
  have := @gOf_u p
  have h2 : (0 : ℝ) < 2 ^ (-(p : ℤ)) := by positivity
  have : 1 / gOf p < 1 := by linarith
  rw [div_lt_one h0] at this
  exact this.le

theorem gOf_le {p : ℕ} (hp : 3 ≤ p) : gOf p ≤ 8 / 7 := by
  have := two_neg_le hp
  unfold gOf
  rw [div_le_div_iff₀]
  · norm_num at this ⊢
    have h : (2 : ℝ) ^ (-(p : ℤ)) ≤ 1 / 8 := by simpa using this
    simp only [zpow_neg, zpow_natCast] at h ⊢
    linarith
  · have h : (2 : ℝ) ^ (-(p : ℤ)) ≤ 1 / 8 := by norm_num at this; simpa using this
    linarith
  · norm_num

end CP.Spec
