/-
Model of the class `VectorDouble` of the Python module: the container templates and wrappers generated by SWIG in
python_extension/crossprob.cc and the methods in python_extension/crossprob.py:177-283.  A `std::vector<double>` is a
list (of an arbitrary type `α`: the values are never computed with), an iterator is a position, a reverse iterator is the
position it is based on.  `Py_ssize_t`, `ptrdiff_t` and `size_t` have 64 bits; signed overflow is undefined behaviour.
Not modelled: reference counting, exhaustion of memory below the maximal size of a vector, integers outside the range of
`Py_ssize_t` as parts of a slice, `swap`, `get_allocator`, `capacity`.  `begin`, `end`, `rbegin`, `rend`, `erase`, `insert`: VectorIter.lean.
-/
namespace CP.Swig

/-- What ends a call other than a normal return. -/
inductive PyFault where
  /-- IndexError (`std::out_of_range`) -/
  | indexError
  /-- ValueError (`std::invalid_argument`) -/
  | valueError
  /-- TypeError (no overload accepts the arguments) -/
  | typeError
  /-- StopIteration -/
  | stopIteration
  /-- a C++ exception that the wrapper does not catch: the interpreter is terminated -/
  | terminated
  /-- undefined behaviour -/
  | ub (what : String)
  /-- a loop that does not end -/
  | diverge
deriving Repr, DecidableEq

/-- Outcome of a call. -/
abbrev P := Except PyFault

variable {α : Type}

/-- Largest value of `ptrdiff_t` and `Py_ssize_t`. -/
def PTRDIFF_MAX : Int := 2 ^ 63 - 1
/-- Largest size of a `std::vector<double>` (`max_size()` in libstdc++: `PTRDIFF_MAX / sizeof(double)`). -/
def MAX_SIZE : Int := 2 ^ 60 - 1

/-- A `ptrdiff_t` expression with the mathematical value `x`. -/
def ptrdiff (x : Int) : P Int :=
  if -(PTRDIFF_MAX + 1) ≤ x ∧ x ≤ PTRDIFF_MAX then .ok x else .error (.ub "signed overflow")

/-- `std::advance` to position `p` (relative to `begin()`): the result must be in `[begin(), end()]`. -/
def advanceTo (v : List α) (p : Int) : P Int :=
  if 0 ≤ p ∧ p ≤ v.length then .ok p else .error (.ub "iterator out of range")

/-- `*it` -/
def deref (v : List α) (p : Int) : P α :=
  if 0 ≤ p then
    match v[p.toNat]? with
    | some x => .ok x
    | none => .error (.ub "dereference")
  else .error (.ub "dereference")

/-- `*it = x` -/
def store (v : List α) (p : Int) (x : α) : P (List α) :=
  if 0 ≤ p ∧ p < v.length then .ok (v.set p.toNat x) else .error (.ub "dereference")

/-- `v.erase(it)`: the returned iterator is the same position. -/
def eraseAt (v : List α) (p : Int) : P (List α) :=
  if 0 ≤ p ∧ p < v.length then .ok (v.eraseIdx p.toNat) else .error (.ub "erase out of range")

/-- `v.reserve(n)` (also the size check of constructors, `resize` and `assign`): throws `std::length_error` above the maximal
size. -/
def reserve (n : Int) : P Unit := if n ≤ MAX_SIZE then .ok () else .error .terminated

/-- A value converted to `size_t`. -/
def toSizeT (x : Int) : Int := x % 2 ^ 64

/-- `check_index`.  python_extension/crossprob.cc:3677-3689 -/
def checkIndex (i : Int) (size : Int) (insert : Bool := false) : P Int :=
  if i < 0 then do
    let ni ← ptrdiff (-i)
    if ni ≤ size then .ok (i + size) else .error .indexError
  else if i < size then .ok i
  else if insert && decide (i = size) then .ok size
  else .error .indexError

/-- `slice_adjust`; `ii` and `jj` are 0 before the call, and `ii` is left alone if `i >= size`, `step > 0` and not `insert`.
python_extension/crossprob.cc:3691-3729 -/
def sliceAdjust (i j step : Int) (size : Int) (insert : Bool := false) : P (Int × Int) :=
  if step = 0 then .error .valueError
  else if 0 < step then
    let ii := if i < 0 then 0 else if i < size then i else if insert && decide (size ≤ i) then size else 0
    let jj := if j < 0 then 0 else if j < size then j else size
    .ok (ii, if jj < ii then ii else jj)
  else
    let ii := if i < -1 then -1 else if i < size then i else if size - 1 ≤ i then size - 1 else 0
    let jj := if j < -1 then -1 else if j < size then j else size - 1
    .ok (if ii < jj then jj else ii, jj)

/-- `for (c = 0; c < n && it != stop; ++c) it++`; `d` is 1 for an iterator, -1 for the base of a reverse iterator. -/
def skip (d : Int) (stop : Int) : Nat → Int → Int
  | 0, it => it
  | n + 1, it => if it = stop then it else skip d stop n (it + d)

/-- The loop that copies every `step`-th element, `step > 1`.  python_extension/crossprob.cc:3780-3784 -/
def copyLoop (v : List α) (step : Nat) (se : Int) : Nat → Int → List α → P (List α)
  | 0, it, acc => if it = se then .ok acc else .error .diverge
  | k + 1, it, acc =>
    if it = se then .ok acc
    else do
      let x ← deref v it
      copyLoop v step se k (skip 1 se step it) (acc ++ [x])

/-- The same with reverse iterators.  python_extension/crossprob.cc:3794-3798 -/
def copyLoopRev (v : List α) (step : Nat) (se : Int) : Nat → Int → List α → P (List α)
  | 0, it, acc => if it = se then .ok acc else .error .diverge
  | k + 1, it, acc =>
    if it = se then .ok acc
    else do
      let x ← deref v (it - 1)
      copyLoopRev v step se k (skip (-1) se step it) (acc ++ [x])

/-- `getslice`.  python_extension/crossprob.cc:3760-3801.  (The `while` loops get one iteration more than they can need.) -/
def getslice (v : List α) (i j step : Int) : P (List α) := do
  let size : Int := v.length
  let (ii, jj) ← sliceAdjust i j step size
  if 0 < step then do
    let sb ← advanceTo v ii
    let se ← advanceTo v jj
    if step = 1 then
      .ok ((v.drop sb.toNat).take (se - sb).toNat)
    else do
      let t ← ptrdiff (jj - ii + step)
      reserve (toSizeT ((t - 1).tdiv step))
      copyLoop v step.toNat se (v.length + 1) sb []
  else do
    let t ← ptrdiff (ii - jj - step)
    let ns ← ptrdiff (-step)
    reserve (toSizeT ((t - 1).tdiv ns))
    let sb ← advanceTo v (size - (size - ii - 1))
    let se ← advanceTo v (size - (size - jj - 1))
    copyLoopRev v ns.toNat se (v.length + 1) sb []

/-- The sequence that is assigned to a slice: a copy of another sequence, or the vector itself (`v[...] = v`: the wrapper
passes the same C++ object). -/
inductive Source (α : Type) where
  | copy (xs : List α)
  | same

/-- Current contents of the source if the vector holds `v`. -/
def Source.contents (v : List α) : Source α → List α
  | .copy xs => xs
  | .same => v

/-- The loop of `setslice` for `step > 1`.  python_extension/crossprob.cc:3839-3843 -/
def storeLoop (step : Nat) (is : Source α) : Nat → Int → Int → List α → P (List α)
  | 0, _, _, v => .ok v
  | rc + 1, it, isit, v =>
    if it = v.length then .ok v
    else do
      let x ← deref (is.contents v) isit
      let v' ← store v it x
      storeLoop step is rc (skip 1 v'.length (step - 1) (it + 1)) (isit + 1) v'

/-- The same with reverse iterators, `step < 0`.  python_extension/crossprob.cc:3856-3860 -/
def storeLoopRev (step : Nat) (is : Source α) : Nat → Int → Int → List α → P (List α)
  | 0, _, _, v => .ok v
  | rc + 1, it, isit, v =>
    if it = 0 then .ok v
    else do
      let x ← deref (is.contents v) isit
      let v' ← store v (it - 1) x
      storeLoopRev step is rc (skip (-1) 0 (step - 1) (it - 1)) (isit + 1) v'

/-- `setslice`.  python_extension/crossprob.cc:3803-3863.  For `step == 1` the vector is modified with `std::copy` and `insert` of a
range, which must not be part of the vector itself. -/
def setslice (v : List α) (i j step : Int) (is : Source α) : P (List α) := do
  let size : Int := v.length
  let n : Int := (is.contents v).length
  let (ii, jj) ← sliceAdjust i j step size true
  if 0 < step then
    if step = 1 then
      match is with
      | .same => .error (.ub "insert of a range of the vector into itself")
      | .copy xs =>
        let ssize := jj - ii
        if ssize ≤ n then do
          reserve (size - ssize + n)
          let sb ← advanceTo v ii
          let isit ← advanceTo xs (jj - ii)
          -- std::copy(is.begin(), isit, sb), then insert the rest behind it
          let e ← advanceTo v (sb + isit)
          .ok (v.take sb.toNat ++ xs.take isit.toNat ++ xs.drop isit.toNat ++ v.drop e.toNat)
        else do
          let sb ← advanceTo v ii
          let se ← advanceTo v jj
          let v' := v.take sb.toNat ++ v.drop se.toNat
          let sb ← advanceTo v' ii
          .ok (v'.take sb.toNat ++ xs ++ v'.drop sb.toNat)
    else do
      let t ← ptrdiff (jj - ii + step)
      let replacecount := toSizeT ((t - 1).tdiv step)
      if n ≠ replacecount then .error .valueError
      else do
        let it ← advanceTo v ii
        storeLoop step.toNat is replacecount.toNat it 0 v
  else do
    let t ← ptrdiff (ii - jj - step)
    let ns ← ptrdiff (-step)
    let replacecount := toSizeT ((t - 1).tdiv ns)
    if n ≠ replacecount then .error .valueError
    else do
      let it ← advanceTo v (size - (size - ii - 1))
      storeLoopRev ns.toNat is replacecount.toNat it 0 v

/-- The loop of `delslice` for `step > 1`.  python_extension/crossprob.cc:3883-3888 -/
def deleteLoop (step : Nat) : Nat → Int → List α → P (List α)
  | 0, _, v => .ok v
  | dc + 1, it, v => do
    let v' ← eraseAt v it
    deleteLoop step dc (skip 1 v'.length (step - 1) it) v'

/-- The loop of `delslice` for `step < 0`: `it = reverse_iterator(erase((++it).base()))`.  python_extension/crossprob.cc:3895-3900 -/
def deleteLoopRev (step : Nat) : Nat → Int → List α → P (List α)
  | 0, _, v => .ok v
  | dc + 1, it, v => do
    let v' ← eraseAt v (it - 1)
    deleteLoopRev step dc (skip (-1) 0 (step - 1) (it - 1)) v'

/-- `delslice`.  python_extension/crossprob.cc:3866-3902 -/
def delslice (v : List α) (i j step : Int) : P (List α) := do
  let size : Int := v.length
  let (ii, jj) ← sliceAdjust i j step size true
  if 0 < step then do
    let sb ← advanceTo v ii
    if step = 1 then do
      let se ← advanceTo v jj
      .ok (v.take sb.toNat ++ v.drop se.toNat)
    else do
      let t ← ptrdiff (jj - ii + step)
      deleteLoop step.toNat (toSizeT ((t - 1).tdiv step)).toNat sb v
  else do
    let sb ← advanceTo v (size - (size - ii - 1))
    let t ← ptrdiff (ii - jj - step)
    let ns ← ptrdiff (-step)
    deleteLoopRev ns.toNat (toSizeT ((t - 1).tdiv ns)).toNat sb v

/-- A part of a Python slice. -/
inductive SliceArg where
  | none
  | int (k : Int)
  /-- anything else, e.g. a float or a numpy integer -/
  | other

/-- A Python slice `start:stop:step`. -/
structure PySlice where
  start : SliceArg
  stop : SliceArg
  step : SliceArg

/-- One variable of CPython's `PySlice_GetIndices(slice, length, &start, &stop, &step)` as the code uses it: the status is ignored,
so a part that is no `int` leaves this variable and the ones after it uninitialised, and reading them is undefined behaviour. -/
def slicePart (length : Int) (default : Int) : SliceArg → P Int
  | .none => .ok default
  | .int k => .ok (if k < 0 then k + length else k)
  | .other => .error (.ub "uninitialised variable")

/-- `PySlice_GetIndices` (negative parts are counted from the end, nothing is clipped).
python_extension/crossprob.cc:4606, 4617, 4628, 4639 -/
def sliceGetIndices (s : PySlice) (length : Int) : P (Int × Int × Int) := do
  let step ← match s.step with
    | .none => .ok 1
    | .int k => .ok k
    | .other => .error (.ub "uninitialised variable")
  let start ← slicePart length (if step < 0 then length - 1 else 0) s.start
  let stop ← slicePart length (if step < 0 then -1 else length) s.stop
  .ok (start, stop, step)

/-- Does an `int` fit into `ptrdiff_t`?  (`SWIG_AsVal_ptrdiff_t`, python_extension/crossprob.cc:3291-3309) -/
def fits (i : Int) : Bool := decide (-(PTRDIFF_MAX + 1) ≤ i ∧ i ≤ PTRDIFF_MAX)

/-- `v[i]` with an index.  python_extension/crossprob.cc:4644-4646, 6093-6130, 3740-3745 -/
def getItem (v : List α) (i : Int) : P α :=
  if fits i then do
    let p ← checkIndex i v.length
    deref v p
  else .error .typeError

/-- `v[i:j:k]`.  python_extension/crossprob.cc:4600-4610, 5902-5933 -/
def getSlice (v : List α) (s : PySlice) : P (List α) := do
  let (i, j, step) ← sliceGetIndices s v.length
  getslice v i j step

/-- `v[i] = x`.  python_extension/crossprob.cc:4682-4684, 6165-6213 -/
def setItem (v : List α) (i : Int) (x : α) : P (List α) :=
  if fits i then do
    let p ← checkIndex i v.length
    store v p x
  else .error .typeError

/-- `v[i:j:k] = xs`.  python_extension/crossprob.cc:4611-4621, 5935-5984 -/
def setSlice (v : List α) (s : PySlice) (is : Source α) : P (List α) := do
  let (i, j, step) ← sliceGetIndices s v.length
  setslice v i j step is

/-- `del v[i]`.  python_extension/crossprob.cc:4597-4599, 3747-3751, 5869-5899 -/
def delItem (v : List α) (i : Int) : P (List α) :=
  if fits i then do
    let p ← checkIndex i v.length
    eraseAt v p
  else .error .typeError

/-- `del v[i:j:k]`.  python_extension/crossprob.cc:4633-4643, 6017-6048 -/
def delSlice (v : List α) (s : PySlice) : P (List α) := do
  let (i, j, step) ← sliceGetIndices s v.length
  delslice v i j step

/-- `v.append(x)` and `v.push_back(x)`.  python_extension/crossprob.cc:4692-4694, 6314-6341, 6898-6926 -/
def append (v : List α) (x : α) : P (List α) := do
  reserve (v.length + 1)
  .ok (v ++ [x])

/-- `v.pop()`: the last element and the rest.  python_extension/crossprob.cc:4685-4691, 6288-6311 -/
def pop (v : List α) : P (α × List α) :=
  match v.getLast? with
  | none => .error .indexError
  | some x => .ok (x, v.dropLast)

/-- `v.front()`, without any check.  python_extension/crossprob.cc:6929-6950 -/
def front (v : List α) : P α := deref v 0

/-- `v.back()`, without any check.  python_extension/crossprob.cc:6953-6974 -/
def back (v : List α) : P α := deref v (v.length - 1)

/-- `v.pop_back()`, without any check.  python_extension/crossprob.cc:6625-6644 -/
def popBack (v : List α) : P (List α) :=
  if v = [] then .error (.ub "pop_back of an empty vector") else .ok v.dropLast

/-- `v.clear()`.  python_extension/crossprob.cc:6559-6578 -/
def clear (_ : List α) : P (List α) := .ok []

/-- `VectorDouble(n, x)` and `v.assign(n, x)`; `VectorDouble(n)` has `x = 0.0`.  No exception is caught.
python_extension/crossprob.cc:6604-6622, 6810-6838, 6977-7013 -/
def assign (n : Nat) (x : α) : P (List α) := do
  reserve n
  .ok (List.replicate n x)

/-- `v.resize(n, x)`; `v.resize(n)` has `x = 0.0`.  No exception is caught.  python_extension/crossprob.cc:6647-6672, 7016-7051 -/
def resize (v : List α) (n : Nat) (x : α) : P (List α) := do
  reserve n
  .ok (v.take n ++ List.replicate (n - v.length) x)

/-- `v.reserve(n)`.  No exception is caught.  python_extension/crossprob.cc:7266-7292 -/
def reserveMethod (v : List α) (n : Nat) : P (List α) := do
  reserve n
  .ok v

/-- An iterator made by `iter(v)`: current position, end of the vector when it was made, and how often the vector had changed its
size by then (`stamp`).  python_extension/crossprob.cc:4539-4541, 4064-4104 -/
structure Iter where
  cur : Int
  last : Int
  stamp : Nat

/-- `next(it)`: `value()` then `incr()`.  Any operation that changes the size of the vector invalidates the past-the-end iterator
that is stored.  python_extension/crossprob.cc:2878-2891, 4081-4104 -/
def Iter.next (it : Iter) (v : List α) (stamp : Nat) : P (α × Iter) :=
  if it.stamp ≠ stamp then .error (.ub "invalidated iterator")
  else if it.cur = it.last then .error .stopIteration
  else do
    let x ← deref v it.cur
    .ok (x, { it with cur := it.cur + 1 })

/-- `list(v)`, `for x in v`: `next` until StopIteration. -/
def Iter.collect (v : List α) : Nat → Iter → List α → P (List α)
  | 0, _, _ => .error .diverge
  | k + 1, it, acc =>
    match it.next v it.stamp with
    | .ok (x, it') => Iter.collect v k it' (acc ++ [x])
    | .error .stopIteration => .ok acc
    | .error e => .error e

/-- `list(v)` for a vector that is not modified meanwhile.  python_extension/crossprob.py:181-184 -/
def toPyList (v : List α) (stamp : Nat) : P (List α) := Iter.collect v (v.length + 1) ⟨0, v.length, stamp⟩ []

/-- A call of a method that changes a `VectorDouble`, as the Python program writes it. -/
inductive Call (α : Type) where
  /-- `v.append(x)` -/
  | append (x : α)
  /-- `v.pop()` -/
  | pop
  /-- `v.clear()` -/
  | clear
  /-- `v[i] = x` -/
  | setItem (i : Int) (x : α)
  /-- `del v[i]` -/
  | delItem (i : Int)
  /-- `v[s] = xs` with another sequence `xs` -/
  | setSlice (s : PySlice) (xs : List α)
  /-- `del v[s]` -/
  | delSlice (s : PySlice)

/-- What the Python program sees of a call: a value (only from `pop`) or an exception. -/
abbrev Seen (α : Type) := Except PyFault (Option α)

/-- The result of a method (value and new contents) as the program sees it, and the new contents.  An exception leaves the vector
as it was (every exception is thrown before the first modification); after termination or undefined behaviour there is no new
state. -/
def finish (v : List α) : P (Option α × List α) → P (Seen α × List α)
  | .ok (o, w) => .ok (.ok o, w)
  | .error .indexError => .ok (.error .indexError, v)
  | .error .valueError => .ok (.error .valueError, v)
  | .error .typeError => .ok (.error .typeError, v)
  | .error e => .error e

/-- One call on a vector that holds `v`: what the program sees and the new contents. -/
def call (v : List α) : Call α → P (Seen α × List α)
  | .append x => finish v ((append v x).map fun w => (none, w))
  | .pop => finish v ((pop v).map fun (x, w) => (some x, w))
  | .clear => finish v ((clear v).map fun w => (none, w))
  | .setItem i x => finish v ((setItem v i x).map fun w => (none, w))
  | .delItem i => finish v ((delItem v i).map fun w => (none, w))
  | .setSlice s xs => finish v ((setSlice v s (.copy xs)).map fun w => (none, w))
  | .delSlice s => finish v ((delSlice v s).map fun w => (none, w))

/-- A sequence of calls: everything that is seen and the last contents. -/
def calls (v : List α) : List (Call α) → P (List (Seen α) × List α)
  | [] => .ok ([], v)
  | c :: cs => do
    let (o, w) ← call v c
    let (os, w') ← calls w cs
    .ok (o :: os, w')

end CP.Swig
