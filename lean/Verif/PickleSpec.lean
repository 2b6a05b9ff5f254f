import Verif.Model.Pickler
/-
Specification side of property C72: what `pickle` and `gzip` are assumed to do, and what the tables of a benchmark run contain.
-/
namespace CP.Spec
open FOps
variable {V F : Type} [FOps F]

/-- What is assumed of `pickle` inside `gzip` for a value that is saved: the whole file gives the value back, and the beginning of
the file is either rejected (an exception) or gives the value. -/
structure Stores (c : Codec V) (v : V) : Prop where
  whole : ∀ t, c.decode (c.encode t v) = some v
  part : ∀ t p, p <+: c.encode t v → c.decode p = none ∨ c.decode p = some v

/-- Entry `i` of the rows after the durations `durations` have been measured for it: blank if there are none, otherwise
`1 - value of the call` and the smallest of the durations. -/
def Entry (rows : Rows F) (i : Nat) (call : M F) (durations : List Int) : Prop :=
  (durations = [] → rows.results[i]? = some none ∧ rows.times[i]? = some none) ∧
  (durations ≠ [] → ∃ r m, call = .ok r ∧ durations.min? = some m ∧
    rows.results[i]? = some (some (one -ᶠ r)) ∧ rows.times[i]? = some (some m))

/-- Tables with one entry for each sample size, after item `i` has been treated `count i` times. -/
structure TablesAt (e : BenchEnv F) (maxKs maxMns len : Nat) (thresholds : List (Nat × F)) (count : Nat → Nat) (s : Tables F) : Prop where
  lengths : ∀ rows ∈ [s.ks2001, s.mns2016, s.mn2017, s.new], rows.results.length = len ∧ rows.times.length = len
  /-- items without threshold -/
  rest : ∀ i, thresholds.length ≤ i → i < len → ∀ rows ∈ [s.ks2001, s.mns2016, s.mn2017, s.new],
    rows.results[i]? = some none ∧ rows.times[i]? = some none
  ks2001 : ∀ i n t, thresholds[i]? = some (n, t) → Entry s.ks2001 i
    (ecdf2 e.env e.sort (mnPlusBounds e.sp n t) (List.replicate n one) false)
    (if n ≤ maxKs then (List.range (count i)).map (e.elapsed · i 0) else [])
  mns2016 : ∀ i n t, thresholds[i]? = some (n, t) → Entry s.mns2016 i
    (ecdf1Mns2016b e.env (mnPlusBounds e.sp n t))
    (if n ≤ maxMns then (List.range (count i)).map (e.elapsed · i 1) else [])
  mn2017 : ∀ i n t, thresholds[i]? = some (n, t) → Entry s.mn2017 i
    (ecdf2 e.env e.sort (mnPlusBounds e.sp n t) (List.replicate n one) true)
    ((List.range (count i)).map (e.elapsed · i 2))
  new : ∀ i n t, thresholds[i]? = some (n, t) → Entry s.new i
    (ecdf1Newb e.env e.isqrt (mnPlusBounds e.sp n t))
    ((List.range (count i)).map (e.elapsed · i 3))

/-- The rows of the large scale run after the first `k` sample sizes. -/
structure LargeAt (e : BenchEnv F) (threshold : F) (nRange : List Nat) (k : Nat) (mn new : Rows F) : Prop where
  lengths : ∀ rows ∈ [mn, new], rows.results.length = nRange.length ∧ rows.times.length = nRange.length
  mn2017 : ∀ i n, nRange[i]? = some n → Entry mn i
    (ecdf2 e.env e.sort (mnPlusBounds e.sp n threshold) (List.replicate n one) true) (if i < k then [e.elapsed 0 i 2] else [])
  new : ∀ i n, nRange[i]? = some n → Entry new i
    (ecdf1Newb e.env e.isqrt (mnPlusBounds e.sp n threshold)) (if i < k then [e.elapsed 0 i 3] else [])

end CP.Spec
