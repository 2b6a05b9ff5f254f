import Verif.Model.Ecdf2
import Verif.Model.Mns2016
/-
Model of the Python module: the SWIG-generated wrappers in python_extension/crossprob.cc and the forwarding
functions in python_extension/crossprob.py.  Reference counting and the texts of the error messages of the
wrappers are not modelled; the class `VectorDouble` is in VectorDouble.lean.
-/
namespace CP
variable {F : Type} [FOps F]

/-- A Python argument, as far as the wrappers distinguish them. -/
inductive PyArg (F : Type) where
  /-- `None` -/
  | none
  /-- a sequence (list, tuple, numpy array) of numbers, or a `VectorDouble` object -/
  | numbers (v : List F)
  /-- `True` or `False` -/
  | bool (b : Bool)
  /-- anything else, including sequences with a non-numeric element; sequences with items that cannot be read are in
  PyObject.lean -/
  | other

/-- What a call does. -/
inductive PyResult (F : Type) where
  | float (x : F)
  | typeError
  | valueError
  | runtimeError (msg : String)
  /-- the interpreter is killed (SIGABRT) -/
  | aborted
  /-- undefined behaviour -/
  | undefined
  /-- never returns -/
  | hangs

/-- Conversion of a `std::vector<double> const &` argument: `swig::asptr` accepts `None` with a null pointer, which the
wrapper rejects with ValueError; `True`/`False` are not sequences.
python_extension/crossprob.cc:4439-4473, 7374-7384 -/
def pyVector : PyArg F → Except (PyResult F) (List F)
  | .none => .error .valueError
  | .numbers v => .ok v
  | .bool _ => .error .typeError
  | .other => .error .typeError

/-- Conversion of the `bool` argument: only `True` and `False` are accepted.
python_extension/crossprob.cc:4705-4716, 7396-7400 -/
def pyBool : PyArg F → Except (PyResult F) Bool
  | .bool b => .ok b
  | _ => .error .typeError

/-- The `try`/`catch` around each call: `runtime_error` and every other C++ exception become a Python
RuntimeError (`SWIG_UnknownError` maps to RuntimeError, line 900).
python_extension/crossprob.cc:7401-7412, 871-904 -/
def pyTry (m : M F) : PyResult F :=
  match m with
  | .ok x => .float x
  | .error (.runtimeError msg) => .runtimeError msg
  | .error .ioFailure => .runtimeError "basic_ios::clear"
  | .error (.uncaught msg) => .runtimeError msg
  | .error (.assertFailed _) => .aborted
  | .error (.ub _) => .undefined
  | .error .diverge => .hangs

/-- The result or the error. -/
def pyDone : Except (PyResult F) (PyResult F) → PyResult F
  | .ok r => r
  | .error r => r

/-- `crossprob.ecdf2(b, B, use_fft)`.  python_extension/crossprob.cc:7361-7420, crossprob.py:285-287 -/
def pyEcdf2 (env : Env F) (sort : List (Bound F) → List (Bound F)) (args : List (PyArg F)) : PyResult F :=
  match args with
  | [a1, a2, a3] => pyDone do
    let b ← pyVector a1
    let B ← pyVector a2
    let useFft ← pyBool a3
    .ok (pyTry (ecdf2 env sort b B useFft))
  | _ => .typeError

/-- A wrapper with one list argument.  python_extension/crossprob.cc:7423-7460, 7463-7500, 7503-7540, 7543-7580,
crossprob.py:289-303 -/
def pyOne (f : List F → M F) (args : List (PyArg F)) : PyResult F :=
  match args with
  | [a] => pyDone do
    let v ← pyVector a
    .ok (pyTry (f v))
  | _ => .typeError

/-- `crossprob.ecdf1_mns2016_B(B)` -/
def pyMns2016B (env : Env F) : List (PyArg F) → PyResult F := pyOne (ecdf1Mns2016B env)
/-- `crossprob.ecdf1_mns2016_b(b)` -/
def pyMns2016b (env : Env F) : List (PyArg F) → PyResult F := pyOne (ecdf1Mns2016b env)
/-- `crossprob.ecdf1_new_B(B)` -/
def pyNewB (env : Env F) (isqrt : Nat → Nat) : List (PyArg F) → PyResult F := pyOne (ecdf1NewB env isqrt)
/-- `crossprob.ecdf1_new_b(b)` -/
def pyNewb (env : Env F) (isqrt : Nat → Nat) : List (PyArg F) → PyResult F := pyOne (ecdf1Newb env isqrt)

end CP
