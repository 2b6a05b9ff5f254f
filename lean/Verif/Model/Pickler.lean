import Verif.Model.ExactBj
import Verif.Model.Strings
import Verif.Model.Ecdf2
import Verif.Model.Mns2016
/-
Model of benchmarks/pickler.py and of the functions of benchmarks/exactbj.py that compute, save and load results.
Messages on standard output, the creation of the directory and matplotlib are not modelled; neither is the module `utils` that
benchmarks/exactbj.py:21 imports and that the repository does not contain.
-/
namespace CP
open FOps
variable {V : Type}

/-! ## Files -/

/-- What the file system holds under a name. -/
abbrev Disk := Str → Option (List UInt8)

/-- Changes of the file system: opening a file for writing makes it empty, then bytes are appended. -/
inductive DiskOp where
  | truncate (file : Str)
  | append (file : Str) (byte : UInt8)

/-- Effect of one change. -/
def DiskOp.apply (disk : Disk) : DiskOp → Disk
  | .truncate file => fun f => if f = file then some [] else disk f
  | .append file byte => fun f => if f = file then (disk f).map (· ++ [byte]) else disk f

/-- Effect of several changes. -/
def runOps (disk : Disk) (ops : List DiskOp) : Disk := ops.foldl DiskOp.apply disk

/-- `pickle` and `gzip` together: the bytes for a value and the time stored with it, and reading them back (`none`: an exception). -/
structure Codec (V : Type) where
  encode : Nat → V → List UInt8
  decode : List UInt8 → Option V

/-- One call of `pickler.dump` at time `time`. -/
structure Dump (V : Type) where
  file : Str
  time : Nat
  value : V

/-- `dump`: `GzipFile(filename, 'wb')` empties the file, then the bytes are written.  benchmarks/pickler.py:21-31 -/
def Dump.ops (c : Codec V) (d : Dump V) : List DiskOp :=
  .truncate d.file :: (c.encode d.time d.value).map (.append d.file)

/-- `load`.  benchmarks/pickler.py:41-47 -/
def load (c : Codec V) (disk : Disk) (file : Str) : M V :=
  match disk file with
  | none => .error (.uncaught "FileNotFoundError")
  | some bytes => match c.decode bytes with
    | none => .error (.uncaught "the file cannot be read back")
    | some v => .ok v

/-- `_pickled_name`, for a relative name.  benchmarks/pickler.py:17-18 -/
def pickledName (dir name : Str) : Str := dir ++ ['/'] ++ name ++ ".pickle.gz".toList

/-! ## Computations that save results -/

/-- The calls of `dump` of a computation, in order, and its result. -/
structure PyIO (V α : Type) where
  dumps : List (Dump V)
  result : M α

namespace PyIO
/-- A computation that saves nothing. -/
def lift {α : Type} (m : M α) : PyIO V α := ⟨[], m⟩
/-- Saving a value. -/
def dump (file : Str) (time : Nat) (v : V) : PyIO V Unit := ⟨[⟨file, time, v⟩], .ok ()⟩
/-- Sequencing. -/
def bind {α β : Type} (x : PyIO V α) (f : α → PyIO V β) : PyIO V β :=
  match x.result with
  | .ok a => ⟨x.dumps ++ (f a).dumps, (f a).result⟩
  | .error e => ⟨x.dumps, .error e⟩
instance : Monad (PyIO V) where
  pure a := ⟨[], .ok a⟩
  bind := bind
end PyIO

/-- The changes of the file system made by a computation. -/
def PyIO.ops {α : Type} (c : Codec V) (x : PyIO V α) : List DiskOp := x.dumps.flatMap (Dump.ops c)

/-! ## The records -/

variable {F : Type} [FOps F]

/-- Running times in ticks of the clock (`none` is `inf`) and results (`none` is `None`) of one algorithm. -/
structure Rows (F : Type) where
  times : List (Option Int)
  results : List (Option F)

/-- The tables of `precalc_timings_Mn_plus`. -/
structure Tables (F : Type) where
  ks2001 : Rows F
  mns2016 : Rows F
  mn2017 : Rows F
  new : Rows F

/-- The dictionaries that are saved; the name of the processor is left out. -/
inductive Saved (F : Type) where
  | thresholds (nRange : List Nat) (thresholds : List (Nat × F))
  | timings (nRange : List Nat) (numReps : Nat) (tables : Tables F)
  | largescale (nRange : List Nat) (threshold : F) (mn2017 new : Rows F)

/-! ## precalc_Mn_plus_alpha_level_thresholds -/

/-- The loop, with the thresholds found so far.  benchmarks/exactbj.py:137-142 -/
def thresholdsLoop (inverse : Nat → M F) (file : Str) (clock : Nat → Nat) (nRange : List Nat) :
    List Nat → List (Nat × F) → PyIO (Saved F) Unit
  | [], _ => pure ()
  | n :: rest, acc => do
    let t ← PyIO.lift (inverse n)
    PyIO.dump file (clock acc.length) (.thresholds nRange (acc ++ [(n, t)]))
    thresholdsLoop inverse file clock nRange rest (acc ++ [(n, t)])

/-- File of the thresholds; `text` is the level `alpha` as printed by Python.  benchmarks/exactbj.py:142,150 -/
def thresholdsFile (dir text : Str) : Str := pickledName dir ("Mn_plus_thresholds_".toList ++ text)

/-- File of the timings.  benchmarks/exactbj.py:190 -/
def timingsFile (dir text : Str) : Str := pickledName dir ("Mn_plus_timings_".toList ++ text)

/-- File of the large scale timings.  benchmarks/exactbj.py:225 -/
def largescaleFile (dir : Str) : Str := pickledName dir "Mn_plus_timings_largescale".toList

/-- `precalc_Mn_plus_alpha_level_thresholds(alpha, n_range)`; `file` is the name of the file, `clock j` the time of the `j`-th call
of `dump`.  benchmarks/exactbj.py:134-142 -/
def precalcThresholds (env : Env F) (sp : SciPy F) (isqrt : Nat → Nat) (alpha : F) (file : Str) (clock : Nat → Nat) (nRange : List Nat) :
    PyIO (Saved F) Unit :=
  thresholdsLoop (fun n => inverseMnPlus env sp isqrt n alpha) file clock nRange nRange []

/-! ## precalc_timings_Mn_plus -/

/-- `min(t, elapsed)`, `t` possibly infinite. -/
def minTime (t : Option Int) (elapsed : Int) : Int :=
  match t with
  | none => elapsed
  | some t => min t elapsed

/-- `results[i] = 1.0 - r; timings[i] = min(timings[i], t.elapsed)`.  benchmarks/exactbj.py:173-188 -/
def Rows.record (rows : Rows F) (i : Nat) (elapsed : Int) (r : F) : M (Rows F) :=
  match rows.results[i]?, rows.times[i]? with
  | some _, some t => .ok ⟨rows.times.set i (some (minTime t elapsed)), rows.results.set i (some (one -ᶠ r))⟩
  | _, _ => .error (.uncaught "IndexError: list assignment index out of range")

/-- `([inf]*k, [None]*k)`.  benchmarks/exactbj.py:152-163 -/
def Rows.empty (k : Nat) : Rows F := ⟨List.replicate k none, List.replicate k none⟩

/-- The parts that do not change during a run. -/
structure BenchEnv (F : Type) where
  env : Env F
  sp : SciPy F
  sort : List (Bound F) → List (Bound F)
  isqrt : Nat → Nat
  /-- wall time of algorithm number `a` in repetition `rep` on item `i` -/
  elapsed : (rep i a : Nat) → Int
  /-- time of the call of `dump` in repetition `rep` after item `i` -/
  clock : (rep i : Nat) → Nat

/-- One timed call: `with Timer(..) as t: results[i] = 1.0-call` and `timings[i] = min(timings[i], t.elapsed)`.
benchmarks/exactbj.py:172-174 and the three similar places -/
def measure (call : M F) (rows : Rows F) (i : Nat) (elapsed : Int) : M (Rows F) := do
  let r ← call
  rows.record i elapsed r

/-- The body of the inner loop up to the call of `dump`.  benchmarks/exactbj.py:168-188 -/
def timingsStep (e : BenchEnv F) (maxKs maxMns rep i n : Nat) (threshold : F) (s : Tables F) : M (Tables F) := do
  let bounds := mnPlusBounds e.sp n threshold
  let ks ← (if n ≤ maxKs then measure (ecdf2 e.env e.sort bounds (List.replicate n one) false) s.ks2001 i (e.elapsed rep i 0)
    else .ok s.ks2001)
  let mns ← (if n ≤ maxMns then measure (ecdf1Mns2016b e.env bounds) s.mns2016 i (e.elapsed rep i 1) else .ok s.mns2016)
  let mn ← measure (ecdf2 e.env e.sort bounds (List.replicate n one) true) s.mn2017 i (e.elapsed rep i 2)
  let new ← measure (ecdf1Newb e.env e.isqrt bounds) s.new i (e.elapsed rep i 3)
  .ok ⟨ks, mns, mn, new⟩

/-- The inner loop from item `i` on.  benchmarks/exactbj.py:167-197 -/
def timingsInner (e : BenchEnv F) (maxKs maxMns numReps : Nat) (file : Str) (nRange : List Nat) (rep : Nat) :
    Nat → List (Nat × F) → Tables F → PyIO (Saved F) (Tables F)
  | _, [], s => pure s
  | i, (n, t) :: rest, s => do
    let s' ← PyIO.lift (timingsStep e maxKs maxMns rep i n t s)
    PyIO.dump file (e.clock rep i) (.timings nRange numReps s')
    timingsInner e maxKs maxMns numReps file nRange rep (i + 1) rest s'

/-- The outer loop, `k` repetitions from number `rep` on.  benchmarks/exactbj.py:165-197 -/
def timingsOuter (e : BenchEnv F) (maxKs maxMns numReps : Nat) (file : Str) (nRange : List Nat) (thresholds : List (Nat × F)) :
    (k rep : Nat) → Tables F → PyIO (Saved F) (Tables F)
  | 0, _, s => pure s
  | k + 1, rep, s => do
    let s' ← timingsInner e maxKs maxMns numReps file nRange rep 0 thresholds s
    timingsOuter e maxKs maxMns numReps file nRange thresholds k (rep + 1) s'

/-- `precalc_timings_Mn_plus(alpha, max_ks2001_n, max_mns2016_n, num_reps)`; the final tables, which Python discards, are returned.
benchmarks/exactbj.py:145-197 -/
def precalcTimings (e : BenchEnv F) (c : Codec (Saved F)) (disk : Disk) (source file : Str) (maxKs maxMns numReps : Nat) :
    PyIO (Saved F) (Tables F) := do
  let d ← PyIO.lift (load c disk source)
  match d with
  | .thresholds nRange thresholds =>
    let k := nRange.length
    timingsOuter e maxKs maxMns numReps file nRange thresholds numReps 0 ⟨Rows.empty k, Rows.empty k, Rows.empty k, Rows.empty k⟩
  | _ => PyIO.lift (.error (.uncaught "AttributeError: 'StructFromDict' object has no attribute 'thresholds'"))

/-! ## precalc_timings_Mn_plus_largescale, plot_relative_errors -/

/-- The loop from item `i` on.  benchmarks/exactbj.py:210-230 -/
def largescaleLoop (e : BenchEnv F) (threshold : F) (file : Str) (nRange : List Nat) :
    Nat → List Nat → Rows F → Rows F → PyIO (Saved F) (Rows F × Rows F)
  | _, [], mn, new => pure (mn, new)
  | i, n :: rest, mn, new => do
    let bounds := mnPlusBounds e.sp n threshold
    let new' ← PyIO.lift (measure (ecdf1Newb e.env e.isqrt bounds) new i (e.elapsed 0 i 3))
    let mn' ← PyIO.lift (measure (ecdf2 e.env e.sort bounds (List.replicate n one) true) mn i (e.elapsed 0 i 2))
    PyIO.dump file (e.clock 0 i) (.largescale nRange threshold mn' new')
    largescaleLoop e threshold file nRange (i + 1) rest mn' new'

/-- `precalc_timings_Mn_plus_largescale(threshold, n_range)`.  benchmarks/exactbj.py:200-230 -/
def precalcLargescale (e : BenchEnv F) (threshold : F) (file : Str) (nRange : List Nat) : PyIO (Saved F) (Rows F × Rows F) :=
  largescaleLoop e threshold file nRange 0 nRange (Rows.empty nRange.length) (Rows.empty nRange.length)

/-- `precalc_all()`; the constants of the file are parameters.  benchmarks/exactbj.py:377-381 -/
def precalcAll (e : BenchEnv F) (c : Codec (Saved F)) (disk : Disk) (dir text : Str) (alpha threshold : F) (clock : Nat → Nat)
    (nRange large : List Nat) (maxKs maxMns numReps : Nat) : PyIO (Saved F) Unit := do
  let first := precalcThresholds e.env e.sp e.isqrt alpha (thresholdsFile dir text) clock nRange
  first
  let _ ← precalcTimings e c (runOps disk (first.ops c)) (thresholdsFile dir text) (timingsFile dir text) maxKs maxMns numReps
  let _ ← precalcLargescale e threshold (largescaleFile dir) large
  pure ()

/-- `absolute(res_new - res_mn2017) / res_mn2017`, elementwise; `None` entries make the subtraction fail.
benchmarks/exactbj.py:331-333 -/
def relativeErrors : List (Option F) → List (Option F) → M (List F)
  | some x :: xs, some y :: ys => do
    let d := x -ᶠ y
    let l ← relativeErrors xs ys
    .ok ((if lt d zero then neg d else d) /ᶠ y :: l)
  | [], [] => .ok []
  | _, _ => .error (.uncaught "TypeError or ValueError")

end CP
