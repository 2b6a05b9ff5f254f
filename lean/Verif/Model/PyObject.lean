import Verif.Model.Heap
import Verif.Model.Python
/-
Model of the conversion of Python objects to `std::vector<double>` arguments by the SWIG-generated code in
python_extension/crossprob.cc, one level below `pyVector` of Python.lean: arbitrary objects with their own `__len__` and
`__getitem__`, the error indicator of the interpreter and the vectors that the wrappers create and delete.
Simplifications: reference counts are not modelled, nor the texts of the wrappers' messages; a `std::vector` (the object made by
`new` and its buffer) is one block; memory never runs out; an object with an attribute `this` is `proxy`.
-/
namespace CP
variable {F : Type} [FOps F]

/-- An object returned by `PySequence_GetItem`, as far as `SWIG_AsVal_double` distinguishes them.
python_extension/crossprob.cc:2963-2986 -/
inductive PyItem (F : Type) where
  /-- an instance of `float` or of a class derived from it (such as `numpy.float64`) -/
  | float (x : F)
  /-- an instance of `int` or of a class derived from it (such as `bool`) -/
  | int (z : Int)
  /-- anything else: `None`, strings, `fractions.Fraction`, `numpy.float32`, ... -/
  | other

/-- How an object with a method `__getitem__` behaves; `σ` is the state of the rest of the interpreter, which the methods may
read and change. -/
structure PySeq (F σ : Type) where
  /-- `PySequence_Size`; `none` if there is no `__len__` or it raises -/
  len : σ → Option Nat × σ
  /-- `PySequence_GetItem`; `none` (a null pointer) if it raises -/
  get : Nat → σ → Option (PyItem F) × σ

/-- A Python object, as far as the wrappers distinguish them. -/
inductive PyObj (F σ : Type) where
  | none
  | bool (b : Bool)
  /-- a `VectorDouble` and its elements -/
  | vectorDouble (v : List F)
  /-- a SWIG object of another class -/
  | proxy
  /-- an object for which `PySequence_Check` holds: list, tuple, str, array or an instance of a class with `__getitem__` -/
  | seq (s : PySeq F σ)
  /-- any other object: a number, a set, a dict, a generator -/
  | plain

/-- The state while a wrapper runs: the heap, the interpreter, and whether the error indicator is set (`PyErr_Occurred`). -/
structure PyState (σ : Type) where
  heap : HWorld
  py : σ
  err : Bool

/-- What `as<double>` does with an item.  The null pointer is dereferenced, because `asval` is called before the test `!obj`;
an `int` is refused if the error indicator is set already, and the indicator is cleared.
python_extension/crossprob.cc:3515-3528, 2963-2986 -/
inductive PyElem (F : Type) where
  | number (x : F)
  | bad
  | crash

/-- `SWIG_AsVal_double` as `as<double>` calls it; `longAsDouble` is `PyLong_AsDouble` (`none`: OverflowError).
python_extension/crossprob.cc:2963-2986, 3515-3528 -/
def asElem (longAsDouble : Int → Option F) (err : Bool) : Option (PyItem F) → PyElem F
  | .none => .crash
  | some (.float x) => .number x
  | some (.int z) =>
    match longAsDouble z with
    | some x => if err then .bad else .number x
    | .none => .bad
  | some .other => .bad

/-- `size()` converted to `Py_ssize_t`: `-1` after an exception.  python_extension/crossprob.cc:4344-4347, 4364-4372 -/
def seqSize {σ : Type} (s : PySeq F σ) (st : PyState σ) : Int × PyState σ :=
  match s.len st.py with
  | (some n, p) => (n, { st with py := p })
  | (.none, p) => (-1, { st with py := p, err := true })

/-- How the loop of `assign` ends. -/
inductive PyAssign (F : Type) where
  | done (v : List F)
  | bad
  | crash

/-- The loop of `assign`: the length is asked again before every item, and compared for equality.  `none`: still running after
`fuel` rounds.  python_extension/crossprob.cc:4426-4434, 4247-4255 (`==`, `!=`), 4181-4196 (the item) -/
def assignSeq {σ : Type} (longAsDouble : Int → Option F) (s : PySeq F σ) :
    Nat → Nat → List F → PyState σ → Option (PyAssign F × PyState σ)
  | 0, _, _, _ => .none
  | fuel + 1, i, acc, st =>
    let (n, st1) := seqSize s st
    if (i : Int) = n then some (.done acc, st1)
    else
      let (item, p) := s.get i st1.py
      let st2 : PyState σ := { st1 with py := p }
      match asElem longAsDouble st1.err item with
      | .crash => some (.crash, st2)
      | .bad => some (.bad, { st2 with err := true })
      | .number x => assignSeq longAsDouble s fuel (i + 1) (acc ++ [x]) st2

/-- What `swig::asptr` hands to a wrapper. -/
inductive PyAsptr (F : Type) where
  /-- `SWIG_OLDOBJ` with a null pointer -/
  | null
  /-- `SWIG_OLDOBJ`: the vector of a `VectorDouble` -/
  | old (v : List F)
  /-- `SWIG_NEWOBJ`: a vector made for this call, and its handle -/
  | new (h : Nat) (v : List F)
  /-- `SWIG_ERROR` -/
  | error
  | crash

/-- `swig::asptr`.  The new vector is not deleted when `assign` throws.  python_extension/crossprob.cc:4440-4474 -/
def asptrVec {σ : Type} (longAsDouble : Int → Option F) (fuel : Nat) (o : PyObj F σ) (st : PyState σ) :
    Option (PyAsptr F × PyState σ) :=
  match o with
  | .none => some (.null, st)
  | .vectorDouble v => some (.old v, st)
  | .proxy => some (.error, st)
  | .bool _ => some (.error, st)
  | .plain => some (.error, st)
  | .seq s =>
    let h := st.heap.next
    let w := (HM.alloc st.heap).2
    match assignSeq longAsDouble s fuel 0 [] { st with heap := w } with
    | .none => .none
    | some (.done v, st1) => some (.new h v, st1)
    | some (.bad, st1) => some (.error, st1)
    | some (.crash, st1) => some (.crash, st1)

/-- What the caller in Python sees. -/
inductive PyOutcome (F : Type) where
  | result (r : PyResult F)
  /-- SystemError: the wrapper returned a value although the error indicator was set -/
  | systemError

/-- `if (SWIG_IsNewObj(res)) delete arg;`.  Deleting what is not live is undefined behaviour.
python_extension/crossprob.cc:7414-7415, 7418-7419 -/
def deleteArg (r : PyAsptr F) (w : HWorld) : M Unit × HWorld :=
  match r with
  | .new h _ => HM.free h w
  | _ => (.ok (), w)

/-- The deletions before a wrapper returns, then its outcome; `args` are the arguments converted so far. -/
def leaveWrapper {σ : Type} (args : List (PyAsptr F)) (r : PyResult F) (st : PyState σ) : PyOutcome F × PyState σ :=
  match args with
  | [] =>
    match r with
    | .float _ => (if st.err then .systemError else .result r, { st with err := false })
    | _ => (.result r, { st with err := false })
  | a :: rest =>
    match deleteArg a st.heap with
    | (.ok _, w) => leaveWrapper rest r { st with heap := w }
    | (.error _, w) => (.result .undefined, { st with heap := w })

/-- A failed conversion, or the vector: `SWIG_IsOK(res)` and `!ptr` tests of the wrappers.
python_extension/crossprob.cc:7376-7384, 7386-7394 -/
def argVector : PyAsptr F → Except (PyResult F) (List F)
  | .null => .error .valueError
  | .old v => .ok v
  | .new _ v => .ok v
  | .error => .error .typeError
  | .crash => .error .undefined

/-- The call of the C++ function, its `try`/`catch`, and the way out of the wrapper: after an assertion, undefined behaviour or
while it hangs nothing is deleted.  python_extension/crossprob.cc:7401-7420 -/
def callAndLeave {σ : Type} (args : List (PyAsptr F)) (f : HM F) (st : PyState σ) : PyOutcome F × PyState σ :=
  let (m, w) := f st.heap
  let st1 : PyState σ := { st with heap := w }
  match pyTry m with
  | .aborted => (.result .aborted, st1)
  | .undefined => (.result .undefined, st1)
  | .hangs => (.result .hangs, st1)
  | r => leaveWrapper args r st1

/-- A wrapper with one list argument; `none`: still reading the argument.
python_extension/crossprob.cc:7423-7460, 7463-7500, 7503-7540, 7543-7580 -/
def wrapOne {σ : Type} (longAsDouble : Int → Option F) (f : List F → HM F) (fuel : Nat) (o : PyObj F σ) (st : PyState σ) :
    Option (PyOutcome F × PyState σ) :=
  match asptrVec longAsDouble fuel o st with
  | .none => .none
  | some (.crash, st1) => some (.result .undefined, st1)
  | some (r, st1) =>
    match argVector r with
    | .error e => some (leaveWrapper [r] e st1)
    | .ok v => some (callAndLeave [r] (f v) st1)

/-- The third argument of `ecdf2`, and the call.  python_extension/crossprob.cc:7396-7420, 4705-4716 -/
def thirdArg {σ : Type} (args : List (PyAsptr F)) (f : Bool → HM F) (o3 : PyObj F σ) (st : PyState σ) :
    PyOutcome F × PyState σ :=
  match o3 with
  | .bool useFft => callAndLeave args (f useFft) st
  | _ => leaveWrapper args .typeError st

/-- The wrapper of `ecdf2`; `none`: still reading the arguments.  The arguments are converted in order, and those converted
already are deleted when a later one is refused.  python_extension/crossprob.cc:7361-7420, 4705-4716 -/
def wrapEcdf2 {σ : Type} (longAsDouble : Int → Option F) (f : List F → List F → Bool → HM F) (fuel : Nat)
    (o1 o2 o3 : PyObj F σ) (st : PyState σ) : Option (PyOutcome F × PyState σ) :=
  match asptrVec longAsDouble fuel o1 st with
  | .none => .none
  | some (.crash, st1) => some (.result .undefined, st1)
  | some (r1, st1) =>
    match argVector r1 with
    | .error e => some (leaveWrapper [r1] e st1)
    | .ok b =>
      match asptrVec longAsDouble fuel o2 st1 with
      | .none => .none
      | some (.crash, st2) => some (.result .undefined, st2)
      | some (r2, st2) =>
        match argVector r2 with
        | .error e => some (leaveWrapper [r1, r2] e st2)
        | .ok B => some (thirdArg [r1, r2] (f b B) o3 st2)

end CP
