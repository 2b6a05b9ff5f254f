import Verif.Model.VectorDouble
/-
Specification for C85, C86: Python lists (namespace `CP.PyList`, independent of the model of `VectorDouble`), and the
dictionary between operations on lists and calls on a `VectorDouble` (namespace `CP.Swig`).
Sources: The Python Standard Library, "Common Sequence Types" and "Mutable Sequence Types" (notes 3-5 on `s[i:j:k]`).
-/
namespace CP.PyList
variable {α : Type}

/-- A part of a slice, counted from the end if negative. -/
def fromEnd (n : Nat) (k : Int) : Int := if k < 0 then k + n else k

/-- Where a slice starts: the first (for negative steps: last) element by default, else the given position, at most just behind the
ends. -/
def first (n : Nat) (step : Int) : Option Int → Int
  | none => if step < 0 then n - 1 else 0
  | some k => if step < 0 then max (-1) (min (fromEnd n k) (n - 1)) else max 0 (min (fromEnd n k) n)

/-- Where a slice stops (not included). -/
def stop (n : Nat) (step : Int) : Option Int → Int
  | none => if step < 0 then -1 else n
  | some k => if step < 0 then max (-1) (min (fromEnd n k) (n - 1)) else max 0 (min (fromEnd n k) n)

/-- The positions selected by `start:stop:step`, in order: `first`, `first + step`, `first + 2 step`, ... as long as they are before `stop` (for
negative steps: behind it). -/
def positions (n : Nat) (start stop' : Option Int) (step : Int) : List Int :=
  ((List.range n).map fun k : Nat => first n step start + k * step).filter fun p =>
    decide (if step < 0 then stop n step stop' < p else p < stop n step stop')

/-- `l[start:stop:step]` -/
def slice (l : List α) (start stop' : Option Int) (step : Int) : List α :=
  (positions l.length start stop' step).filterMap fun p => l[p.toNat]?

/-- `del l[start:stop:step]` -/
def deleteSlice (l : List α) (start stop' : Option Int) (step : Int) : List α :=
  (l.zipIdx.filter fun x => decide (((x.2 : Nat) : Int) ∉ positions l.length start stop' step)).map Prod.fst

/-- `l[start:stop:step] = xs`; `none` is ValueError.  Slices with step 1 may change their length; they are replaced from their
start to their stop (to their start if that is behind the stop). -/
def assignSlice (l : List α) (start stop' : Option Int) (step : Int) (xs : List α) : Option (List α) :=
  if step = 1 then
    some (l.take (first l.length 1 start).toNat ++ xs ++
      l.drop (max (first l.length 1 start) (stop l.length 1 stop')).toNat)
  else if xs.length = (positions l.length start stop' step).length then
    some (((positions l.length start stop' step).zip xs).foldl (fun l px => l.set px.1.toNat px.2) l)
  else none

/-- The position an index means, if there is one. -/
def index (n : Nat) (i : Int) : Option Nat :=
  if 0 ≤ fromEnd n i ∧ fromEnd n i < n then some (fromEnd n i).toNat else none

/-- The exceptions of list operations. -/
inductive Exc where
  | indexError
  | valueError

/-- A method call that changes a list. -/
inductive Op (α : Type) where
  /-- `l.append(x)` -/
  | append (x : α)
  /-- `l.pop()` -/
  | pop
  /-- `l.clear()` -/
  | clear
  /-- `l[i] = x` -/
  | setItem (i : Int) (x : α)
  /-- `del l[i]` -/
  | delItem (i : Int)
  /-- `l[start:stop:step] = xs` -/
  | setSlice (start stop step : Option Int) (xs : List α)
  /-- `del l[start:stop:step]` -/
  | delSlice (start stop step : Option Int)

/-- One operation on a list: the value it returns (only `pop`) or the exception it raises, and the list afterwards.  A missing
step is 1, a step 0 is ValueError. -/
def apply (l : List α) : Op α → Except Exc (Option α) × List α
  | .append x => (.ok none, l ++ [x])
  | .pop => match l.getLast? with
    | none => (.error .indexError, l)
    | some x => (.ok (some x), l.dropLast)
  | .clear => (.ok none, [])
  | .setItem i x => match index l.length i with
    | none => (.error .indexError, l)
    | some p => (.ok none, l.set p x)
  | .delItem i => match index l.length i with
    | none => (.error .indexError, l)
    | some p => (.ok none, l.eraseIdx p)
  | .setSlice a b c xs =>
    if c.getD 1 = 0 then (.error .valueError, l)
    else match assignSlice l a b (c.getD 1) xs with
      | none => (.error .valueError, l)
      | some w => (.ok none, w)
  | .delSlice a b c =>
    if c.getD 1 = 0 then (.error .valueError, l) else (.ok none, deleteSlice l a b (c.getD 1))

/-- A sequence of operations: the results in order, and the list at the end. -/
def applyAll (l : List α) : List (Op α) → List (Except Exc (Option α)) × List α
  | [] => ([], l)
  | op :: ops => ((apply l op).1 :: (applyAll (apply l op).2 ops).1, (applyAll (apply l op).2 ops).2)

end CP.PyList

namespace CP.Swig
open PyList
variable {α : Type}

/-- A part of a slice that is absent or an `int`. -/
def arg : Option Int → SliceArg
  | none => .none
  | some k => .int k

/-- The call of the Python program for an operation. -/
def Call.of : Op α → Call α
  | .append x => .append x
  | .pop => .pop
  | .clear => .clear
  | .setItem i x => .setItem i x
  | .delItem i => .delItem i
  | .setSlice a b c xs => .setSlice ⟨arg a, arg b, arg c⟩ xs
  | .delSlice a b c => .delSlice ⟨arg a, arg b, arg c⟩

/-- What the program sees, for a result of a list operation. -/
def seen : Except Exc (Option α) → Seen α
  | .ok o => .ok o
  | .error .indexError => .error .indexError
  | .error .valueError => .error .valueError

/-- Number of elements an operation can add. -/
def grow : Op α → Nat
  | .append _ => 1
  | .setSlice _ _ _ xs => xs.length
  | _ => 0

/-- The integers of an operation are within range. -/
def inRange : Op α → Prop
  | .setItem i _ => -(2 ^ 63) < i ∧ i < 2 ^ 63
  | .delItem i => -(2 ^ 63) < i ∧ i < 2 ^ 63
  | .setSlice _ _ c _ => -(2 ^ 62) ≤ c.getD 1 ∧ c.getD 1 ≤ 2 ^ 62
  | .delSlice _ _ c => -(2 ^ 62) ≤ c.getD 1 ∧ c.getD 1 ≤ 2 ^ 62
  | _ => True

end CP.Swig
