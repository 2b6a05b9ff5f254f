import Verif.Model.Ecdf1New
/-
Model of the computations of benchmarks/exactbj.py (the exact Berk-Jones statistic and its quantiles).  The functions that
save results are in `Model/Pickler.lean`; plotting is not modelled; neither are the debug prints and the "Large relative error!" message.
-/
namespace CP
variable {F : Type} [FOps F]
open FOps

/-- The two functions of `scipy.special` that are used. -/
structure SciPy (F : Type) where
  /-- regularised incomplete beta function `betainc(a, b, x)` -/
  betainc : Int → Int → F → F
  /-- its inverse in `x`, `betaincinv(a, b, y)` -/
  betaincinv : Int → Int → F → F

/-- A sequence of numbers passed to `Mn_plus_statistic`: `asarray` copies a list but returns a float array itself. -/
inductive Samples (F : Type) where
  | list (v : List F)
  | ndarray (v : List F)

/-- The numbers. -/
def Samples.vals : Samples F → List F
  | .list v => v
  | .ndarray v => v

/-- `_uniform_order_statistic_cdf(i, n, x)`.  benchmarks/exactbj.py:27-39 -/
def uniformOrderStatisticCdf (sp : SciPy F) (i n : Int) (x : F) : F := sp.betainc i (n - i + 1) x

/-- `0 <= x <= 1` for all samples.  benchmarks/exactbj.py:43 -/
def allInUnit (v : List F) : Bool := v.all fun x => ge x zero && ge one x

/-- `p_values.min()`; a NaN p-value, which numpy would propagate, is not treated specially.  benchmarks/exactbj.py:48 -/
def minOf : List F → M F
  | [] => .error (.uncaught "ValueError: zero-size array to reduction operation minimum which has no identity")
  | p :: ps => .ok (ps.foldl (fun m y => if lt y m then y else m) p)

/-- The p-values of the sorted samples, `i = 1, 2, ...`.  benchmarks/exactbj.py:47 -/
def pValues (sp : SciPy F) (n : Int) : Int → List F → List F
  | _, [] => []
  | i, x :: xs => uniformOrderStatisticCdf sp i n x :: pValues sp n (i + 1) xs

/-- `Mn_plus_statistic(uniform01_samples)`: the statistic, and the caller's sequence after the call (`X.sort()` sorts in place,
and for a float array `X` is the caller's array).  benchmarks/exactbj.py:42-48 -/
def mnPlusStatistic (sp : SciPy F) (sort : List F → List F) (s : Samples F) : M (F × Samples F) := do
  if !allInUnit s.vals then .error (.uncaught "AssertionError")
  else
    let X := sort s.vals
    let m ← minOf (pValues sp s.vals.length 1 X)
    .ok (m, match s with
      | .list v => .list v
      | .ndarray _ => .ndarray X)

/-- `Mn_plus_bounds(n, Mn_plus_value)`.  benchmarks/exactbj.py:51-53 -/
def mnPlusBounds (sp : SciPy F) (n : Nat) (v : F) : List F :=
  (List.range n).map fun (k : Nat) => sp.betaincinv ((k : Int) + 1) ((n : Int) - (k + 1) + 1) v

/-- `Mn_plus_distribution(n, x)`.  benchmarks/exactbj.py:56-59 -/
def mnPlusDistribution (env : Env F) (sp : SciPy F) (isqrt : Nat → Nat) (n : Nat) (x : F) : M F := do
  let r ← ecdf1Newb env isqrt (mnPlusBounds sp n x)
  .ok (one -ᶠ r)

/-- `N_BINARY_SEARCH_STEPS_MAX`.  benchmarks/exactbj.py:62 -/
def bisectStepsMax : Nat := 110

/-- The loop of `inverse_Mn_plus`, `rem` iterations before the range is exhausted; returns the last value of the loop variable
and `mid`.  benchmarks/exactbj.py:73-95 -/
def bisectLoop (dist : F → M F) (alpha : F) : (rem i : Nat) → (low high : F) → (last : Option (F × F)) → (mid : F) → M (Nat × F)
  | 0, i, _, _, _, mid => .ok (i - 1, mid)
  | rem + 1, i, low, high, last, mid =>
    if (match last with
        | none => false
        | some (l, h) => FOps.eq l low && FOps.eq h high) then .ok (i, mid)
    else do
      let mid' := (low +ᶠ high) /ᶠ ofInt 2
      let midAlpha ← dist mid'
      let low' := if lt midAlpha alpha then mid' else low
      let high' := if lt midAlpha alpha then high else mid'
      if ge low' high' then .ok (i, mid')
      else bisectLoop dist alpha rem (i + 1) low' high' (some (low, high)) mid'

/-- `inverse_Mn_plus(n, alpha, debug_prints)` for the distribution function `dist`; the second evaluation of the distribution
only produces a message.  benchmarks/exactbj.py:65-104 -/
def bisect (dist : F → M F) (alpha : F) : M F := do
  let r ← bisectLoop dist alpha bisectStepsMax 0 zero one none zero
  if r.1 < bisectStepsMax - 1 then do
    let _ ← dist r.2
    .ok r.2
  else .error (.uncaught "AssertionError: Reached N_BINARY_SEARCH_STEPS_MAX => did not converge!")

/-- `inverse_Mn_plus`.  benchmarks/exactbj.py:65-104 -/
def inverseMnPlus (env : Env F) (sp : SciPy F) (isqrt : Nat → Nat) (n : Nat) (alpha : F) : M F :=
  bisect (mnPlusDistribution env sp isqrt n) alpha

end CP
