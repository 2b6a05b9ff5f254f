/-
Execution model shared by all modelled C++ functions: outcomes (including undefined behaviour),
bounds-checked arrays, `for` loops, and the arithmetic interface.
-/
namespace CP

/-- Everything that can end a modelled C++ computation other than a normal return. -/
inductive Fault where
  /-- `throw std::runtime_error(msg)` -/
  | runtimeError (msg : String)
  /-- `std::ifstream::failure`, thrown by a stream with `exceptions(failbit | badbit)` -/
  | ioFailure
  /-- a failed `assert(...)` (SIGABRT); only in builds without `-DNDEBUG` -/
  | assertFailed (cond : String)
  /-- undefined behaviour: out-of-bounds access -/
  | ub (what : String)
  /-- an exception that is not a `runtime_error` and that `main` does not catch (`std::terminate`) -/
  | uncaught (what : String)
  /-- a loop that does not terminate -/
  | diverge
deriving Repr, DecidableEq

/-- Computations of the model: a normal result or a fault. -/
abbrev M := Except Fault

/-- `a[i]` on a `std::vector` or a heap array; out of bounds is undefined behaviour. -/
def rd {α : Type} (a : List α) (i : Int) : M α :=
  if 0 ≤ i then
    match a[i.toNat]? with
    | some x => .ok x
    | none => .error (.ub "read out of bounds")
  else .error (.ub "read at negative index")

/-- `a[i] = x` on a `std::vector` or a heap array; out of bounds is undefined behaviour. -/
def wr {α : Type} (a : List α) (i : Int) (x : α) : M (List α) :=
  if 0 ≤ i ∧ i.toNat < a.length then .ok (a.set i.toNat x)
  else .error (.ub "write out of bounds")

/-- `&a[i]` on a `std::vector` (`operator[]`): the index must be in range. -/
def addrOf {α : Type} (a : List α) (i : Int) : M Int :=
  if 0 ≤ i ∧ i.toNat < a.length then .ok i
  else .error (.ub "operator[] out of range")

/-- Read `cnt` consecutive elements starting at `off` (`memcpy`/`std::copy` source). -/
def rdBlock {α : Type} (a : List α) (off cnt : Int) : M (List α) :=
  if 0 ≤ off ∧ 0 ≤ cnt ∧ (off + cnt).toNat ≤ a.length then
    .ok ((a.drop off.toNat).take cnt.toNat)
  else .error (.ub "block read out of bounds")

/-- Write the elements `xs` consecutively starting at `off`
(`memcpy`/`memset`/`std::fill`/`std::copy` destination, library output arrays). -/
def wrBlock {α : Type} (a : List α) (off : Int) (xs : List α) : M (List α) :=
  if 0 ≤ off ∧ off.toNat + xs.length ≤ a.length then
    .ok (a.take off.toNat ++ xs ++ a.drop (off.toNat + xs.length))
  else .error (.ub "block write out of bounds")

/-- `assert(cond)`: checked only when assertions are compiled in. -/
def assertC (enabled : Bool) (cond : Bool) (what : String) : M Unit :=
  if enabled && !cond then .error (.assertFailed what) else .ok ()

/-- `k` iterations of a loop body, with loop variable starting at `i`. -/
def forAux {σ : Type} (body : Int → σ → M σ) : Nat → Int → σ → M σ
  | 0, _, s => .ok s
  | k + 1, i, s => do
    let s' ← body i s
    forAux body k (i + 1) s'

/-- `for (int i = lo; i < hi; ++i) body` with loop state `s`. -/
def forRange {σ : Type} (lo hi : Int) (s : σ) (body : Int → σ → M σ) : M σ :=
  forAux body (hi - lo).toNat lo s

/-- Floating point arithmetic, as an interface without laws.  Theorems that do not assume any
law hold for every rounding behaviour, `NaN`, overflow, compiler reassociation of single
operations, etc.  `lt`/`eq` are the C++ `<`/`==` on `double`. -/
class FOps (F : Type) where
  ofInt : Int → F
  add : F → F → F
  sub : F → F → F
  mul : F → F → F
  div : F → F → F
  neg : F → F
  lt : F → F → Bool
  eq : F → F → Bool
  exp : F → F
  log : F → F
  lgamma : F → F
  /-- `POW(x, i)` with an `int` exponent -/
  powi : F → Int → F
  /-- `-numeric_limits<double>::infinity()` -/
  negInf : F
  /-- exponent stored by `frexp(x, &exponent)` -/
  frexpExp : F → Int
  /-- `ldexp(x, e)` -/
  ldexp : F → Int → F

namespace FOps
variable {F : Type} [FOps F]
/-- `0.0` -/
def zero : F := ofInt 0
/-- `1.0` -/
def one : F := ofInt 1
/-- `x >= y` on doubles (`x > y || x == y`, false if either is NaN) -/
def ge (x y : F) : Bool := lt y x || eq x y
end FOps

scoped infixl:65 " +ᶠ " => FOps.add
scoped infixl:65 " -ᶠ " => FOps.sub
scoped infixl:70 " *ᶠ " => FOps.mul
scoped infixl:70 " /ᶠ " => FOps.div

/-- The FFTW3 library as used by the code (fftwconvolver.cc:77, 92, 131, 137, 142): given a plan
size `N`, `r2c` maps the `N` real inputs to the (at least) `N/2+1` complex outputs, `c2r` maps the
`N/2+1` complex inputs to `N` real outputs.  The plans are created with `FFTW_DESTROY_INPUT`, so
executing a plan replaces the input by unspecified contents: `*Clobber`. -/
structure FFTW (F : Type) where
  r2c : (N : Nat) → List F → Nat → F × F
  r2cClobber : (N : Nat) → List F → Nat → F
  c2r : (N : Nat) → List (F × F) → Nat → F
  c2rClobber : (N : Nat) → List (F × F) → Nat → F × F

end CP
