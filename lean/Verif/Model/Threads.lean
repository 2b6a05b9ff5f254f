import Verif.Model.Ecdf2
import Verif.Model.Ecdf1New
import Verif.Model.Mns2016
/-
Calls in several threads.  The functions of src/ecdf2.cc, src/ecdf1_new.cc and src/ecdf1_mns2016.cc share two things with calls in
other threads of the same process: the variable `static int exponent` of `extract_exponent` (src/ecdf1_mns2016.cc:192) and the
planner of FFTW, whose routines (`fftw_plan_*`, `fftw_destroy_plan`) may not run at the same time in two threads; the FFTW manual
excepts only `fftw_execute*`.  Everything else a call reads or writes is its own.

A call is a tree of what it does to the shared things, with its local computations in between; each definition is the definition of
the same name (without the final `T`) in `Verif.Model`, line by line.  The scheduler lets any call take its next step at any time.
Simplification: a load and a store of the shared `int` are single steps (a C++ compiler may assume that there is no race at all).
`lgamma` writes the global variable `signgam`, which nothing here reads; it is left out.  Plans are destroyed when the
`FFTWConvolver` goes out of scope, when the function that owns it returns or throws.
-/
namespace CP
variable {F : Type} [FOps F]
open FOps

/-- What a call still has to do. -/
inductive Thr (α : Type) : Type
  /-- the call has ended -/
  | done (r : M α)
  /-- assignment to the static variable -/
  | store (v : Int) (k : Thr α)
  /-- read access to the static variable -/
  | load (k : Int → Thr α)
  /-- a routine of the FFTW planner is entered -/
  | enter (k : Thr α)
  /-- a routine of the FFTW planner is left -/
  | leave (k : Thr α)

namespace Thr

/-- Sequencing. -/
def bind {α β : Type} (f : α → Thr β) : Thr α → Thr β
  | done (.ok a) => f a
  | done (.error e) => done (.error e)
  | store v k => store v (bind f k)
  | load k => load fun v => bind f (k v)
  | enter k => enter (bind f k)
  | leave k => leave (bind f k)

instance : Monad Thr where
  pure a := done (.ok a)
  bind t f := bind f t

/-- A computation that touches nothing shared. -/
def lift {α : Type} (m : M α) : Thr α := done m

/-- `n` calls of `fftw_destroy_plan`, then `t`. -/
def destroy {α : Type} (t : Thr α) : Nat → Thr α
  | 0 => t
  | n + 1 => enter (leave (destroy t n))

/-- Whether destructors run at the end. -/
def unwinds {α : Type} : M α → Bool
  | .ok _ => true
  | .error (.runtimeError _) => true
  | .error .ioFailure => true
  | .error _ => false

/-- A scope with an `FFTWConvolver` that has `n` plans: its destructor destroys these and all plans made in the scope.
src/fftwconvolver.cc:146-167 -/
def withConvolver {α : Type} : Nat → Thr α → Thr α
  | n, done r => if unwinds r then destroy (done r) n else done r
  | n, store v k => store v (withConvolver n k)
  | n, load k => load fun v => withConvolver n (k v)
  | n, enter k => enter (withConvolver (n + 1) k)
  | n, leave k => leave (withConvolver n k)

/-- `for (int i = lo; i < hi; ++i)`. -/
def forAux {σ : Type} (body : Int → σ → Thr σ) : Nat → Int → σ → Thr σ
  | 0, _, s => pure s
  | k + 1, i, s => do
    let s' ← body i s
    forAux body k (i + 1) s'

/-- `for (int i = lo; i < hi; ++i)`. -/
def forRange {σ : Type} (lo hi : Int) (s : σ) (body : Int → σ → Thr σ) : Thr σ :=
  forAux body (hi - lo).toNat lo s

/-- `static int exponent; FREXP(x, &exponent); return exponent;`.  src/ecdf1_mns2016.cc:190-195 -/
def extractExponent (x : F) : Thr Int := store (frexpExp x) (load fun v => pure v)

end Thr
open Thr

namespace Convolver

/-- `memoized_r2c_plan`, `memoized_c2r_plan`: the planner is called when the entry is `NULL`.  src/fftwconvolver.cc:68-96 -/
def memoizedPlanT (env : Env F) (plans : List (Option Int)) (roundedSize : Int) : Thr (Int × List (Option Int)) := do
  lift (assertC env.asserts (decide (0 < roundedSize)) "rounded_size > 0")
  lift (assertC env.asserts (decide (roundedSize.tmod ROUNDING = 0)) "(rounded_size % ROUNDING) == 0")
  let index := roundedSize.tdiv ROUNDING - 1
  lift (assertC env.asserts (decide (0 ≤ index ∧ index < (plans.length : Int))) "index < plans.size()")
  let p ← lift (rd plans index)
  match p with
  | none => enter (leave (do
      let plans' ← lift (wr plans index (some roundedSize))
      pure (roundedSize, plans')))
  | some sz => pure (sz, plans)

/-- `FFTWConvolver::convolve_same_size`.  src/fftwconvolver.cc:105-144 -/
def convolveT (env : Env F) (cv : Convolver F) (size : Int) (inputA : List F) (oa : Int)
    (inputB : List F) (ob : Int) (output : List F) (oo : Int) : Thr (Convolver F × List F) := do
  if size > cv.maximumInputSize then
    lift (.error (.runtimeError (sizeMsg size cv.maximumInputSize)))
  else if size ≤ 0 then pure (cv, output)
  else if size < MINIMUM_SIZE_FOR_FFTW_CONVOLUTION then do
    let output ← lift (convolveSameSize size inputA oa inputB ob output oo)
    pure (cv, output)
  else do
    let paddedSize := roundUp (2 * size) ROUNDING
    let r2cIn ← lift (copyZeroPadded inputA oa cv.r2cIn size paddedSize)
    let (plan, r2cPlans) ← memoizedPlanT env cv.r2cPlans paddedSize
    let (r2cIn, tmpComplex) ← lift (execR2C env plan r2cIn cv.tmpComplex)
    let r2cIn ← lift (copyZeroPadded inputB ob r2cIn size paddedSize)
    let (plan, r2cPlans) ← memoizedPlanT env r2cPlans paddedSize
    let (r2cIn, r2cOut) ← lift (execR2C env plan r2cIn cv.r2cOut)
    let c2rIn ← lift (elementwiseComplexProduct (paddedSize.tdiv 2 + 1) tmpComplex r2cOut cv.c2rIn
      (one /ᶠ ofInt paddedSize))
    let (plan, c2rPlans) ← memoizedPlanT env cv.c2rPlans paddedSize
    let (c2rIn, c2rOut) ← lift (execC2R env plan c2rIn cv.c2rOut)
    let res ← lift (rdBlock c2rOut 0 size)
    let output ← lift (wrBlock output oo res)
    pure ({ cv with r2cPlans := r2cPlans, c2rPlans := c2rPlans, r2cIn := r2cIn, r2cOut := r2cOut,
                    c2rIn := c2rIn, c2rOut := c2rOut, tmpComplex := tmpComplex }, output)

end Convolver

/-! ## src/ecdf2.cc -/

/-- src/ecdf2.cc:100-104 -/
def ncConvolveT (env : Env F) (useFft : Bool) (conv : Convolver F) (curSize : Int) (pmf : List F)
    (src : List F) (oS : Int) (dest : List F) (oD : Int) : Thr (Convolver F × List F) :=
  if useFft then conv.convolveT env curSize pmf 0 src oS dest oD
  else do
    let d ← lift (convolveSameSize curSize pmf 0 src oS dest oD)
    pure (conv, d)

/-- src/ecdf2.cc:94-114 -/
def ncStepT (env : Env F) (intensity : F) (useFft : Bool) (s : NCState F) (bd : Bound F) : Thr (NCState F) := do
  let curSize := s.bStep - s.BStep + 1
  let lambda := intensity *ᶠ (bd.location -ᶠ s.prev)
  if lt zero lambda then do
    let pmfgen ← lift (s.pmfgen.computeArray env curSize lambda)
    let oS ← lift (addrOf s.buffers.src s.BStep)
    let oD ← lift (addrOf s.buffers.dest s.BStep)
    let (conv, dest) ← ncConvolveT env useFft s.conv curSize pmfgen.pmfArray s.buffers.src oS s.buffers.dest oD
    let (dest, bc, Bc) ← lift (updateDestBufferAndStepCounts bd.tag dest s.bStep s.BStep)
    pure { buffers := (s.buffers.setDest dest).flip, conv := conv, pmfgen := pmfgen,
           bStep := bc, BStep := Bc, prev := bd.location }
  else if eq lambda zero then do
    let (src, bc, Bc) ← lift (updateDestBufferAndStepCounts bd.tag s.buffers.src s.bStep s.BStep)
    pure { s with buffers := s.buffers.setSrc src, bStep := bc, BStep := Bc, prev := bd.location }
  else
    lift (.error (.runtimeError negLambdaMsg))

/-- src/ecdf2.cc:79-116 -/
def poissonProcessNoncrossingProbabilityT (env : Env F) (sort : List (Bound F) → List (Bound F))
    (n : Int) (intensity : F) (b B : List F) (useFft : Bool) : Thr (List F) := do
  let bounds := joinAllBounds sort b B
  let buffers : DoubleBuffer F := DoubleBuffer.new (n + 1) zero
  let src ← lift (wr buffers.src 0 one)
  let conv := Convolver.new env (n + 1)
  withConvolver 0 do
    let pmfgen ← lift (PmfGen.new env (n + 1))
    let s0 : NCState F :=
      { buffers := buffers.setSrc src, conv := conv, pmfgen := pmfgen, bStep := 0, BStep := 0, prev := zero }
    let s ← bounds.foldlM (ncStepT env intensity useFft) s0
    pure s.buffers.src

/-- src/ecdf2.cc:118-127 -/
def ecdf2T (env : Env F) (sort : List (Bound F) → List (Bound F)) (b B : List F) (useFft : Bool) : Thr F := do
  let n : Int := b.length
  lift (checkBoundaryVector "b" n b)
  lift (checkBoundaryVector "B" n B)
  let probs ← poissonProcessNoncrossingProbabilityT env sort n (ofInt n) b B useFft
  let x ← lift (rd probs n)
  let p ← lift (poissonPmf env (ofInt n) n)
  pure (x /ᶠ p)

/-! ## src/ecdf1_new.cc -/

/-- src/ecdf1_new.cc:66-82 -/
def miniStepT (env : Env F) (n : Int) (intensity : F) (B : List F) (Iprev I : Int) (i : Int)
    (s : MiniState F) : Thr (MiniState F) := do
  let Bi ← lift (rd B i)
  let pmfgen ← lift (s.pmfgen.computeArray env (I - i + 1) (intensity *ᶠ (Bi -ᶠ s.iPrevLocation)))
  let oS ← lift (addrOf s.minibuffers.src (i - Iprev - 1))
  let oD ← lift (addrOf s.minibuffers.dest (i - Iprev - 1))
  let (conv, md) ← s.conv.convolveT env (I - i + 1) pmfgen.pmfArray 0 s.minibuffers.src oS
    s.minibuffers.dest oD
  let probExitNow ← lift (rd md (i - Iprev - 1))
  let BI ← lift (rd B I)
  let lambda := intensity *ᶠ (BI -ᶠ Bi)
  let dest ← lift (CP.forRange (I + 1) (n + 1) s.dest fun j dest => do
    let dj ← rd dest j
    let p ← pmfgen.evaluatePmf env lambda (j - i)
    wr dest j (dj -ᶠ probExitNow *ᶠ p))
  let md ← lift (wr md (i - Iprev - 1) zero)
  let ms ← lift (wr s.minibuffers.src (i - Iprev - 1) zero)
  pure { dest := dest, minibuffers := ((s.minibuffers.setDest md).setSrc ms).flip, conv := conv,
         pmfgen := pmfgen, iPrevLocation := Bi }

/-- src/ecdf1_new.cc:46-88 -/
def blockStepT (env : Env F) (n : Int) (intensity : F) (B : List F) (I : Int)
    (s : BlockState F) : Thr (BlockState F) := do
  let BI ← lift (rd B I)
  let pmfgen ← lift (s.pmfgen.computeArray env (n - s.Iprev) (intensity *ᶠ (BI -ᶠ s.IprevLocation)))
  let oS ← lift (addrOf s.buffers.src (s.Iprev + 1))
  let (conv, tmp) ← s.conv.convolveT env (n - s.Iprev) pmfgen.pmfArray 0 s.buffers.src oS s.tmp 0
  let _ ← lift (addrOf s.buffers.dest 0)
  let _ ← lift (addrOf s.buffers.dest (I + 1))
  let dest ← lift (wrBlock s.buffers.dest 0 (List.replicate (I + 1).toNat zero))
  let xs ← lift (rdBlock tmp (I - s.Iprev) ((n - s.Iprev) - (I - s.Iprev)))
  let dest ← lift (wrBlock dest (I + 1) xs)
  let _ ← lift (addrOf s.buffers.src (I + 1))
  let _ ← lift (addrOf s.minibuffers.src 0)
  let ys ← lift (rdBlock s.buffers.src (s.Iprev + 1) ((I + 1) - (s.Iprev + 1)))
  let ms ← lift (wrBlock s.minibuffers.src 0 ys)
  let m0 : MiniState F :=
    { dest := dest, minibuffers := s.minibuffers.setSrc ms, conv := conv, pmfgen := pmfgen,
      iPrevLocation := s.IprevLocation }
  let m ← Thr.forRange (s.Iprev + 1) I m0 (miniStepT env n intensity B s.Iprev I)
  pure { buffers := (s.buffers.setDest m.dest).flip, minibuffers := m.minibuffers, conv := m.conv,
         pmfgen := m.pmfgen, tmp := tmp, IprevLocation := BI, Iprev := I }

/-- src/ecdf1_new.cc:42-96 -/
def blockLoopT (env : Env F) (n : Int) (intensity : F) (B : List F) (jumpSize nSteps : Int) :
    Nat → Int → BlockState F → Thr (BlockState F)
  | 0, _, _ => lift (.error .diverge)
  | fuel + 1, I, s => do
    let s ← blockStepT env n intensity B I s
    if I = nSteps - 1 then pure s
    else blockLoopT env n intensity B jumpSize nSteps fuel (min (I + jumpSize) (nSteps - 1)) s

/-- src/ecdf1_new.cc:24-112 -/
def poissonBNoncrossingProbabilityN2T (env : Env F) (n : Int) (intensity : F) (B : List F)
    (jumpSize : Int) : Thr (List F) := do
  lift (assertC env.asserts (decide (jumpSize ≤ n)) "jump_size <= n")
  let buffers : DoubleBuffer F := DoubleBuffer.new (n + 1) zero
  let minibuffers : DoubleBuffer F := DoubleBuffer.new jumpSize zero
  let src ← lift (wr buffers.src 0 one)
  let conv := Convolver.new env (n + 1)
  withConvolver 0 do
    let pmfgen ← lift (PmfGen.new env (n + 1))
    let nSteps : Int := B.length
    let s0 : BlockState F :=
      { buffers := buffers.setSrc src, minibuffers := minibuffers, conv := conv,
        pmfgen := pmfgen, tmp := allocDoubles env 20 (n + 1), IprevLocation := zero, Iprev := -1 }
    let s ← blockLoopT env n intensity B jumpSize nSteps (B.length + 1)
      (min (-1 + jumpSize) (nSteps - 1)) s0
    let pmfgen ← lift (s.pmfgen.computeArray env (n - nSteps + 1) (intensity *ᶠ (one -ᶠ s.IprevLocation)))
    let oS ← lift (addrOf s.buffers.src nSteps)
    let oD ← lift (addrOf s.buffers.dest nSteps)
    let (_, dest) ← s.conv.convolveT env (n - nSteps + 1) pmfgen.pmfArray 0 s.buffers.src oS
      s.buffers.dest oD
    lift (wrBlock dest 0 (List.replicate nSteps.toNat zero))

/-- src/ecdf1_new.cc:114-128 -/
def ecdf1NewBT (env : Env F) (isqrt : Nat → Nat) (B : List F) : Thr F := do
  let n : Int := B.length
  lift (checkBoundaryVector "B" n B)
  let k : Int := (isqrt B.length : Int) + 1
  let probs ← poissonBNoncrossingProbabilityN2T env n (ofInt n) B k
  let x ← lift (rd probs n)
  let p ← lift (poissonPmf env (ofInt n) n)
  pure (x /ᶠ p)

/-- src/ecdf1_new.cc:131-143 -/
def ecdf1NewbT (env : Env F) (isqrt : Nat → Nat) (b : List F) : Thr F := do
  let n : Int := b.length
  lift (checkBoundaryVector "b" n b)
  let steps ← lift (symmetricSteps b)
  ecdf1NewBT env isqrt steps

/-! ## src/ecdf1_mns2016.cc -/

/-- src/ecdf1_mns2016.cc:210-227 -/
def mnsStepT (env : Env F) (b : List F) (i : Int) (s : Poly F × Int) : Thr (Poly F × Int) := do
  let p ← lift s.1.integrate
  let bi ← lift (rd b i)
  let p ← lift (p.setAdd env 1 (neg bi))
  let v ← lift (p.evaluate bi)
  let p ← lift (p.setMult env 0 (neg v))
  if i.tmod NUM_ITERATIONS_BETWEEN_EXP_FIXES = 0 then do
    let maxCoef ← lift (p.maxMult env)
    let highest ← extractExponent maxCoef
    if highest < 0 then do
      let p ← lift (p.ldexpAll (0 - highest))
      pure (p, s.2 + (0 - highest))
    else pure (p, s.2)
  else pure (p, s.2)

/-- src/ecdf1_mns2016.cc:197-242 -/
def ecdf1Mns2016bT (env : Env F) (b : List F) : Thr F := do
  let n : Int := b.length
  lift (checkBoundaryVector "b" n b)
  let p ← lift (Poly.new env (n + 1))
  let p ← lift (p.setMult env 0 one)
  let (p, delta) ← Thr.forRange 0 n (p, (0 : Int)) (mnsStepT env b)
  let integralResult ← lift (p.evaluate (ofInt 1))
  let logIntegralResult := log integralResult
  pure (exp (lgamma (ofInt (n + 1)) +ᶠ logIntegralResult -ᶠ ofInt delta *ᶠ log (ofInt 2)))

/-- src/ecdf1_mns2016.cc:244-255 -/
def ecdf1Mns2016BT (env : Env F) (B : List F) : Thr F := do
  let n : Int := B.length
  lift (checkBoundaryVector "B" n B)
  let steps ← lift (symmetricSteps B)
  ecdf1Mns2016bT env steps

/-! ## Calls and schedules -/

/-- A call of one of the five functions. -/
inductive LibCall (F : Type) where
  | ecdf2 (b B : List F) (useFft : Bool)
  | newB (B : List F)
  | newb (b : List F)
  | mnsb (b : List F)
  | mnsB (B : List F)

/-- What the call does, step by step. -/
def LibCall.thread (env : Env F) (sort : List (Bound F) → List (Bound F)) (isqrt : Nat → Nat) : LibCall F → Thr F
  | .ecdf2 b B useFft => ecdf2T env sort b B useFft
  | .newB B => ecdf1NewBT env isqrt B
  | .newb b => ecdf1NewbT env isqrt b
  | .mnsb b => ecdf1Mns2016bT env b
  | .mnsB B => ecdf1Mns2016BT env B

/-- A moment in the life of the process: the static variable, the calls inside the FFTW planner, whether two have ever been
there at the same time, and the calls in progress. -/
structure Process (F : Type) where
  exponent : Int
  planning : List Nat
  race : Bool
  thread : Nat → Thr F

/-- Replace the state of call `i`. -/
def Process.set (p : Process F) (i : Nat) (t : Thr F) : Process F :=
  { p with thread := fun j => if j = i then t else p.thread j }

/-- LibCall `i` takes its next step. -/
def Process.step (p : Process F) (i : Nat) : Process F :=
  match p.thread i with
  | .done _ => p
  | .store v k => { p.set i k with exponent := v }
  | .load k => p.set i (k p.exponent)
  | .enter k => { p.set i k with planning := i :: p.planning, race := p.race || !p.planning.isEmpty }
  | .leave k => { p.set i k with planning := p.planning.erase i }

/-- The process after the steps of a schedule. -/
def Process.run (p : Process F) (schedule : List Nat) : Process F := schedule.foldl Process.step p

/-- The calls `calls 0, calls 1, ...` begin (each at any later time); the static variable has any value. -/
def Process.start (env : Env F) (sort : List (Bound F) → List (Bound F)) (isqrt : Nat → Nat) (e : Int) (calls : Nat → LibCall F) :
    Process F where
  exponent := e
  planning := []
  race := false
  thread := fun i => (calls i).thread env sort isqrt

/-- LibCall `i` has ended, in this way.  After two calls have been in the planner at the same time, anything may have happened. -/
def Process.ended (p : Process F) (i : Nat) (r : M F) : Prop := p.race = true ∨ p.thread i = .done r

end CP
