import Verif.Model.VectorDouble
/-
Iterator objects of `VectorDouble` in Python: `begin()`, `end()`, `rbegin()`, `rend()`, `iter(v)`, moving and comparing them, and the
methods `insert` and `erase`, as generated by SWIG in python_extension/crossprob.cc.
One vector; its contents `v` and the number `stamp` of operations so far that changed its size are arguments.
Simplified: an iterator is taken to be invalid after every operation that changes the size of its vector (the C++ standard keeps some of them
valid); not modelled: iterators of several vectors, a vector destroyed while iterators exist, loss of memory.
-/
namespace CP.Swig
variable {α : Type}

/-- An iterator object.  python_extension/crossprob.cc:3949-3989, 4001-4132 -/
structure It where
  /-- based on `std::reverse_iterator` (from `rbegin` and `rend`) -/
  rev : Bool
  /-- an object of one of the classes `SwigPyForwardIterator…`, which inherit `decr` from the base class -/
  fwd : Bool
  /-- `begin` and `end` of a `…Closed_T` object -/
  closed : Option (Int × Int)
  /-- position of `current` (of its base, for a reverse iterator) -/
  cur : Int
  /-- number of changes of size of the vector when the iterator was made -/
  stamp : Nat
deriving DecidableEq

/-- Direction of `++`. -/
def It.dir (it : It) : Int := if it.rev then -1 else 1

/-- Use of an iterator: it must not have been invalidated. -/
def It.live (it : It) (stamp : Nat) : P Unit := if it.stamp = stamp then .ok () else .error (.ub "invalidated iterator")

/-- `make_output_iterator(current)`: an `…Open_T` object.  python_extension/crossprob.cc:4159-4164 -/
def makeOpen (rev : Bool) (cur : Int) (stamp : Nat) : It := ⟨rev, false, none, cur, stamp⟩

/-- `v.begin()`.  python_extension/crossprob.cc:6463-6484 -/
def begin_ (stamp : Nat) : It := makeOpen false 0 stamp
/-- `v.end()`.  python_extension/crossprob.cc:6487-6508 -/
def end_ (v : List α) (stamp : Nat) : It := makeOpen false v.length stamp
/-- `v.rbegin()`.  python_extension/crossprob.cc:6511-6532 -/
def rbegin_ (v : List α) (stamp : Nat) : It := makeOpen true v.length stamp
/-- `v.rend()`.  python_extension/crossprob.cc:6535-6556 -/
def rend_ (stamp : Nat) : It := makeOpen true 0 stamp
/-- `iter(v)`: a `…Closed_T` object.  python_extension/crossprob.cc:4539-4541, 4145-4150 -/
def iter_ (v : List α) (stamp : Nat) : It := ⟨false, false, some (0, v.length), 0, stamp⟩

/-- `value()`.  python_extension/crossprob.cc:4018-4020, 4080-4086 -/
def It.value (v : List α) (stamp : Nat) (it : It) : P α := do
  it.live stamp
  match it.closed with
  | some (_, e) => if it.cur = e then .error .stopIteration else deref v (if it.rev then it.cur - 1 else it.cur)
  | none => deref v (if it.rev then it.cur - 1 else it.cur)

/-- The loops of `incr` and `decr`: `d` is the direction and `stop` where a `…Closed_T` object throws `stop_iteration`.  The result: the
iterator as it is left, and whether `stop_iteration` was thrown.  python_extension/crossprob.cc:4027-4033, 4053-4059, 4093-4103, 4122-4132 -/
def stepLoop (v : List α) (d : Int) (stop : Option Int) : Nat → It → P (It × Bool)
  | 0, it => .ok (it, false)
  | n + 1, it =>
    if stop = some it.cur then .ok (it, true)
    else do
      let c ← advanceTo v (it.cur + d)
      stepLoop v d stop n { it with cur := c }

/-- `incr(n)`. -/
def It.incr (v : List α) (stamp : Nat) (n : Nat) (it : It) : P (It × Bool) := do
  it.live stamp
  stepLoop v it.dir (it.closed.map Prod.snd) n it

/-- `decr(n)`; the base class throws `stop_iteration` whatever `n` is.  python_extension/crossprob.cc:2858-2861 -/
def It.decr (v : List α) (stamp : Nat) (n : Nat) (it : It) : P (It × Bool) :=
  if it.fwd then .ok (it, true)
  else do
    it.live stamp
    stepLoop v (-it.dir) (it.closed.map Prod.fst) n it

/-- `advance(n)`.  python_extension/crossprob.cc:2907-2910 -/
def It.advance (v : List α) (stamp : Nat) (n : Int) (it : It) : P (It × Bool) :=
  if 0 < n then it.incr v stamp n.toNat
  else do
    let m ← ptrdiff (-n)
    it.decr v stamp m.toNat

/-- `copy()`: only the forward classes define it, so the copy of every iterator is a forward iterator.
python_extension/crossprob.cc:4022-4025, 4088-4091; `it.copy()`: 5064-5085 -/
def It.copy (it : It) : It := { it with fwd := true }

/-- `it + n`: a moved copy.  On `stop_iteration` the wrapper returns `NotImplemented`, and Python raises TypeError; so it does if `n` is no
`ptrdiff_t`.  python_extension/crossprob.cc:2932-2935, 5364-5401 -/
def It.add (v : List α) (stamp : Nat) (it : It) (n : Int) : P It :=
  if fits n then do
    let (r, stopped) ← it.copy.advance v stamp n
    if stopped then .error .typeError else .ok r
  else .error .typeError

/-- `it - n`.  python_extension/crossprob.cc:2937-2940, 5404-5440 -/
def It.sub (v : List α) (stamp : Nat) (it : It) (n : Int) : P It :=
  if fits n then do
    let m ← ptrdiff (-n)
    let (r, stopped) ← it.copy.advance v stamp m
    if stopped then .error .typeError else .ok r
  else .error .typeError

/-- `it1.distance(it2)` (`wrong` is how the wrapper treats `std::invalid_argument`).
python_extension/crossprob.cc:3977-3985, 4990-5024 -/
def distanceWith (wrong : PyFault) (stamp : Nat) (it1 it2 : It) : P Int :=
  if it1.rev = it2.rev then do
    it1.live stamp
    it2.live stamp
    .ok (it1.dir * (it2.cur - it1.cur))
  else .error wrong

/-- `it1.distance(it2)`: the wrapper catches the exception.  python_extension/crossprob.cc:4990-5024 -/
def distance (stamp : Nat) (it1 it2 : It) : P Int := distanceWith .valueError stamp it1 it2

/-- `it1 - it2`: `it2.distance(it1)`; the wrapper does not catch the exception.  python_extension/crossprob.cc:2942-2945, 5443-5474 -/
def difference (stamp : Nat) (it1 it2 : It) : P Int := distanceWith .terminated stamp it2 it1

/-- `it1 == it2`; the wrapper does not catch the exception.  python_extension/crossprob.cc:3966-3974, 5218-5250 -/
def equal (stamp : Nat) (it1 it2 : It) : P Bool :=
  if it1.rev = it2.rev then do
    it1.live stamp
    it2.live stamp
    .ok (decide (it1.cur = it2.cur))
  else .error .terminated

/-- A call that moves or reads an iterator object. -/
inductive Move where
  /-- `it.advance(n)`, `it += n` (and `it -= -n`) -/
  | advance (n : Int)
  /-- `it.incr(n)` -/
  | incr (n : Nat)
  /-- `it.decr(n)` -/
  | decr (n : Nat)
  /-- `next(it)` -/
  | next
  /-- `it.previous()` -/
  | previous
  /-- `it.value()` -/
  | value

/-- One such call: the iterator afterwards, and what the Python program sees (`none`: no value).
python_extension/crossprob.cc:2878-2905, 4743-5216, 5288-5361 -/
def It.move (v : List α) (stamp : Nat) (it : It) : Move → P (It × Except PyFault (Option α))
  | .advance n =>
    if fits n then do
      let (r, stopped) ← it.advance v stamp n
      .ok (r, if stopped then .error .stopIteration else .ok none)
    else .ok (it, .error .typeError)
  | .incr n => do
    let (r, stopped) ← it.incr v stamp n
    .ok (r, if stopped then .error .stopIteration else .ok none)
  | .decr n => do
    let (r, stopped) ← it.decr v stamp n
    .ok (r, if stopped then .error .stopIteration else .ok none)
  | .next =>
    match it.value v stamp with
    | .ok x => do
      let (r, stopped) ← it.incr v stamp 1
      .ok (r, if stopped then .error .stopIteration else .ok (some x))
    | .error .stopIteration => .ok (it, .error .stopIteration)
    | .error e => .error e
  | .previous => do
    let (r, stopped) ← it.decr v stamp 1
    if stopped then .ok (r, .error .stopIteration)
    else
      match r.value v stamp with
      | .ok x => .ok (r, .ok (some x))
      | .error .stopIteration => .ok (r, .error .stopIteration)
      | .error e => .error e
  | .value =>
    match it.value v stamp with
    | .ok x => .ok (it, .ok (some x))
    | .error .stopIteration => .ok (it, .error .stopIteration)
    | .error e => .error e

/-- A sequence of such calls: the iterator at the end and everything that is seen. -/
def It.moves (v : List α) (stamp : Nat) : It → List Move → P (It × List (Except PyFault (Option α)))
  | it, [] => .ok (it, [])
  | it, m :: ms => do
    let (it, o) ← it.move v stamp m
    let (it, os) ← It.moves v stamp it ms
    .ok (it, o :: os)

/-- The position that the wrappers of `insert` and `erase` take from an iterator object: a reverse iterator is of the wrong type.
python_extension/crossprob.cc:6691-6701, 6773-6780, 7126-7136, 7218-7224 -/
def It.position (it : It) (stamp : Nat) : P Int :=
  if it.rev then .error .typeError
  else do
    it.live stamp
    .ok it.cur

/-- `v.insert(it, x)`: the new contents and the returned iterator (made after the change of size).
python_extension/crossprob.cc:4697, 7106-7149 -/
def insertBefore (v : List α) (stamp : Nat) (it : It) (x : α) : P (List α × It) := do
  let p ← it.position stamp
  let p ← advanceTo v p
  reserve (v.length + 1)
  .ok (v.take p.toNat ++ [x] ++ v.drop p.toNat, makeOpen false p (stamp + 1))

/-- `v.insert(it, n, x)`.  python_extension/crossprob.cc:4698, 7152-7201 -/
def insertN (v : List α) (stamp : Nat) (it : It) (n : Nat) (x : α) : P (List α) := do
  let p ← it.position stamp
  let p ← advanceTo v p
  reserve (v.length + n)
  .ok (v.take p.toNat ++ List.replicate n x ++ v.drop p.toNat)

/-- `v.erase(it)`.  python_extension/crossprob.cc:4695, 6675-6708 -/
def erase (v : List α) (stamp : Nat) (it : It) : P (List α × It) := do
  let p ← it.position stamp
  let v' ← eraseAt v p
  .ok (v', makeOpen false p (stamp + 1))

/-- `v.erase(it1, it2)`: the iterators must be a range.  python_extension/crossprob.cc:4696, 6711-6758 -/
def eraseRange (v : List α) (stamp : Nat) (it1 it2 : It) : P (List α × It) := do
  let p ← it1.position stamp
  let q ← it2.position stamp
  let p ← advanceTo v p
  let q ← advanceTo v q
  if p ≤ q then .ok (v.take p.toNat ++ v.drop q.toNat, makeOpen false p (stamp + 1)) else .error (.ub "no range")

end CP.Swig
