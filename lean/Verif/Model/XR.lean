import Verif.Model.Basic
import Mathlib.Analysis.SpecialFunctions.Gamma.Basic
import Mathlib.Analysis.SpecialFunctions.Log.Basic
import Mathlib.Data.Int.Log
/-
Exact arithmetic with IEEE-754 special values: the instance of `FOps` used for theorems about
computed values.  Finite operations are exact real arithmetic (no rounding, no overflow, one
unsigned zero); `±inf` and `NaN` follow IEEE-754 / C99 Annex F.
-/
namespace CP

/-- Real numbers extended with `+inf`, `-inf` and `NaN`. -/
inductive XR where
  | fin (r : ℝ)
  | pinf
  | ninf
  | nan

namespace XR
open Classical

/-- Is the value a NaN? -/
def isNan : XR → Prop
  | nan => True
  | _ => False

noncomputable section

/-- IEEE addition. -/
def add : XR → XR → XR
  | fin a, fin b => fin (a + b)
  | nan, _ => nan
  | _, nan => nan
  | pinf, ninf => nan
  | ninf, pinf => nan
  | pinf, _ => pinf
  | _, pinf => pinf
  | ninf, _ => ninf
  | _, ninf => ninf

/-- Negation. -/
def neg : XR → XR
  | fin a => fin (-a)
  | pinf => ninf
  | ninf => pinf
  | nan => nan

/-- infinity of the given sign times a finite number -/
def infMul (pos : Bool) (r : ℝ) : XR :=
  if r = 0 then nan else if (0 < r ↔ pos = true) then pinf else ninf

/-- IEEE multiplication. -/
def mul : XR → XR → XR
  | fin a, fin b => fin (a * b)
  | nan, _ => nan
  | _, nan => nan
  | pinf, fin b => infMul true b
  | ninf, fin b => infMul false b
  | fin a, pinf => infMul true a
  | fin a, ninf => infMul false a
  | pinf, pinf => pinf
  | ninf, ninf => pinf
  | pinf, ninf => ninf
  | ninf, pinf => ninf

/-- IEEE division (zero taken unsigned). -/
def div : XR → XR → XR
  | fin a, fin b =>
    if b ≠ 0 then fin (a / b) else if a = 0 then nan else if 0 < a then pinf else ninf
  | nan, _ => nan
  | _, nan => nan
  | fin _, pinf => fin 0
  | fin _, ninf => fin 0
  | pinf, fin b => if 0 ≤ b then pinf else ninf
  | ninf, fin b => if 0 ≤ b then ninf else pinf
  | _, _ => nan

/-- `<` -/
def lt : XR → XR → Bool
  | fin a, fin b => decide (a < b)
  | fin _, pinf => true
  | ninf, fin _ => true
  | ninf, pinf => true
  | _, _ => false

/-- `==` -/
def eq : XR → XR → Bool
  | fin a, fin b => decide (a = b)
  | pinf, pinf => true
  | ninf, ninf => true
  | _, _ => false

/-- `exp` -/
def exp : XR → XR
  | fin a => fin (Real.exp a)
  | pinf => pinf
  | ninf => fin 0
  | nan => nan

/-- `log`: `log(0) = -inf`, `log` of a negative number is NaN. -/
def log : XR → XR
  | fin a => if 0 < a then fin (Real.log a) else if a = 0 then ninf else nan
  | pinf => pinf
  | ninf => nan
  | nan => nan

/-- `lgamma`: `log |Γ(x)|`, `+inf` at the poles. -/
def lgamma : XR → XR
  | fin a => if ∃ n : ℕ, a = -(n : ℝ) then pinf else fin (Real.log |Real.Gamma a|)
  | pinf => pinf
  | ninf => pinf
  | nan => nan

/-- `pow(x, i)` for an integer `i`. -/
def powi : XR → Int → XR
  | fin a, i => if a = 0 ∧ i < 0 then pinf else fin (a ^ i)
  | nan, i => if i = 0 then fin 1 else nan
  | pinf, i => if i = 0 then fin 1 else if 0 < i then pinf else fin 0
  | ninf, i =>
    if i = 0 then fin 1 else if i < 0 then fin 0 else if i % 2 = 0 then pinf else ninf

/-- exponent of `frexp`: the `e` with `2^(e-1) <= |x| < 2^e`, and 0 for zero (unspecified values
for non-finite arguments taken as 0) -/
def frexpExp : XR → Int
  | fin a => if a = 0 then 0 else Int.log 2 |a| + 1
  | _ => 0

/-- `ldexp(x, e) = x * 2^e` -/
def ldexp : XR → Int → XR
  | fin a, e => fin (a * (2 : ℝ) ^ e)
  | x, _ => x

end

noncomputable instance : FOps XR where
  ofInt i := fin (i : ℝ)
  add := add
  sub x y := add x (neg y)
  mul := mul
  div := div
  neg := neg
  lt := lt
  eq := eq
  exp := exp
  log := log
  lgamma := lgamma
  powi := powi
  negInf := ninf
  frexpExp := frexpExp
  ldexp := ldexp

section simp
variable (a b : ℝ)
@[simp] theorem ofInt_eq (i : Int) : (FOps.ofInt i : XR) = fin (i : ℝ) := rfl
@[simp] theorem zero_eq : (FOps.zero : XR) = fin 0 := by simp [FOps.zero]
@[simp] theorem one_eq : (FOps.one : XR) = fin 1 := by simp [FOps.one]
@[simp] theorem add_fin : FOps.add (fin a) (fin b) = fin (a + b) := rfl
@[simp] theorem sub_fin : FOps.sub (fin a) (fin b) = fin (a - b) := by
  show fin (a + -b) = _
  rw [sub_eq_add_neg]
@[simp] theorem mul_fin : FOps.mul (fin a) (fin b) = fin (a * b) := rfl
@[simp] theorem neg_fin : FOps.neg (fin a) = fin (-a) := rfl
theorem div_fin {b : ℝ} (h : b ≠ 0) : FOps.div (fin a) (fin b) = fin (a / b) := by
  show (if b ≠ 0 then _ else _) = _
  rw [if_pos h]
@[simp] theorem lt_fin : FOps.lt (fin a) (fin b) = decide (a < b) := rfl
@[simp] theorem eq_fin : FOps.eq (fin a) (fin b) = decide (a = b) := rfl
@[simp] theorem exp_fin : FOps.exp (fin a) = fin (Real.exp a) := rfl
@[simp] theorem exp_ninf : FOps.exp ninf = fin 0 := rfl
theorem log_fin {a : ℝ} (h : 0 < a) : FOps.log (fin a) = fin (Real.log a) := by
  show (if 0 < a then _ else _) = _
  rw [if_pos h]
@[simp] theorem log_zero : FOps.log (fin 0) = ninf := by
  show (if (0:ℝ) < 0 then _ else _) = _
  simp
theorem lgamma_succ (k : ℕ) : FOps.lgamma (fin ((k : ℝ) + 1)) = fin (Real.log (k.factorial : ℝ)) := by
  show (if ∃ n : ℕ, ((k : ℝ) + 1) = -(n : ℝ) then _ else _) = _
  have hn : ¬ ∃ n : ℕ, ((k : ℝ) + 1) = -(n : ℝ) := by
    rintro ⟨n, hn⟩
    have h1 : (0 : ℝ) ≤ k := Nat.cast_nonneg k
    have h2 : (0 : ℝ) ≤ n := Nat.cast_nonneg n
    linarith
  rw [if_neg hn, Real.Gamma_nat_eq_factorial, abs_of_nonneg (Nat.cast_nonneg _)]
theorem lgamma_zero : FOps.lgamma (fin 0) = pinf := by
  show (if ∃ n : ℕ, (0 : ℝ) = -(n : ℝ) then _ else _) = _
  rw [if_pos ⟨0, by simp⟩]
@[simp] theorem powi_fin (i : ℕ) : FOps.powi (fin a) (i : Int) = fin (a ^ i) := by
  show (if a = 0 ∧ (i : Int) < 0 then _ else _) = _
  rw [if_neg (by omega), zpow_natCast]
@[simp] theorem negInf_eq : (FOps.negInf : XR) = ninf := rfl
@[simp] theorem ldexp_fin (e : Int) : FOps.ldexp (fin a) e = fin (a * (2 : ℝ) ^ e) := rfl
@[simp] theorem fin_inj {a b : ℝ} : fin a = fin b ↔ a = b := ⟨fun h => by injection h, fun h => by rw [h]⟩
@[simp] theorem lt_ninf (x : XR) : FOps.lt x ninf = false := by cases x <;> rfl
end simp

end XR
end CP
