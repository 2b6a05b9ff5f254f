import Verif.Model.Cli
import Verif.Model.MonteCarlo
/-
What the two programs write to standard output (src/crossprob.cc, src/crossprob_mc.cc).  `operator<<(double)` is the parameter
`fmt`; its contract is in `OutputSpec.lean`.  Writing to standard output is assumed to succeed.
-/
namespace CP
variable {F : Type} [FOps F]
open FOps

/-- A computation that writes text: what it has written by the time it ends, and how it ends. -/
structure OutM (α : Type) where
  text : Str
  result : M α

namespace OutM
/-- Nothing written. -/
def lift {α : Type} (m : M α) : OutM α := ⟨[], m⟩
/-- `cout << s`. -/
def put (s : Str) : OutM Unit := ⟨s, .ok ()⟩
/-- Sequencing: an exception keeps what has been written. -/
def bind {α β : Type} (x : OutM α) (f : α → OutM β) : OutM β :=
  match x.result with
  | .ok a => ⟨x.text ++ (f a).text, (f a).result⟩
  | .error e => ⟨x.text, .error e⟩
instance : Monad OutM where
  pure a := ⟨[], .ok a⟩
  bind := bind
end OutM

/-- The lines of `print_usage`.  src/crossprob.cc:18-79 -/
def usageLines : List String :=
  ["SYNOPSIS\n",
   "    crossprob <algorithm> <one-or-two-sided-boundaries-filename>\n",
   "\n",
   "DESCRIPTION\n",
   "    Let X_1, ..., X_n be a set of points sampled uniformly from the interval [0,1]\n",
   "    and let X_(1) <= X_(2) <= ... <= X_(n) be the sorted sample.\n",
   "\n",
   "    This program implements several algorithms for computing the non-crossing probability that\n",
   "        for all i: b_i <= X_(i) <= B_i\n",
   "    It also has one-sided non-crossing variants:\n",
   "        for all i: b_i <= X_(i)\n",
   "    and\n",
   "        for all i: X_(i) <= B_i\n",
   "\n",
   "    For more details see https://github.com/mosco/crossing-probability\n",
   "    and the references at the end of this help page.\n",
   "\n",
   "OPTIONS\n",
   "    <algorithm>\n",
   "        ecdf2-ks2001: an O(n^3) algorithm for two-sided boundaries. [KS2001]\n",
   "        ecdf2-mn2017: an O(n^2 log n) method for two-sided boundaries. [MN2017]\n",
   "        ecdf1-mns2016: an O(n^2) method for one-sided boundaries. [MNS2016]\n",
   "        ecdf1-new: New O(n^2) method, typically faster than ecdf1-mns2016. [NEW]\n",
   "\n",
   "    <one-or-two-sided-boundaries-filename>\n",
   "        This text file contains the two lines of comma-separater numbers:\n",
   "            b_1, b_2, ..., b_n\n",
   "            B_1, B_2, ..., B_n\n",
   "\n",
   "        For the two-sided ecdf2-* algorithms, both lines should have n numbers.\n",
   "        If the first line is empty b_i is implicitly assumed to be 0.\n",
   "        If the second line is empty B_i is implicitly assumed to be 1.\n",
   "\n",
   "        For the one-sided ecdf1-* algorithms one of the input lines must\n",
   "        have n elements and the other line must be empty.\n",
   "\n",
   "EXAMPLES:\n",
   "    To check the probability that\n",
   "    X_(1)<=0.7 and 0.15<=X_(2)<=0.9 and 0.5<=X_(3)<= 0.7\n",
   "    write the following bounds.txt file:\n",
   "    0, 0.15, 0.5,\n",
   "    0.7, 0.9, 1\n",
   "    and run './bin/crossprob ecdf2-mn2017 bounds.txt'\n",
   "\n",
   "    To compute a one-sided crossing probability for two samples\n",
   "    that X_(1) <= 0.5 and X_(2) <= 0.7, we can run\n",
   "        ./bin/crossprob ecdf1-new bounds1.txt\n",
   "    where bounds1.txt is the following (first line is empty):\n",
   "            \n",
   "    0.5, 0.7\n",
   "\n",
   "REFERENCES\n",
   "    [KS2001] Estate Khmaladze, Eka Shinjikashvili (2001). Calculation of noncrossing probabilities for Poisson\n",
   "             processes and its corollaries, Advances in Applied Probability. https://doi.org/10.1239/aap/1005091361\n",
   "    [MNS2016] Amit Moscovich, Boaz Nadler, Clifford Spiegelman (2016). On the exact Berk-Jones statistics and their\n",
   "             p-value calculation. Electronic Journal of Statistics. https://doi.org/10.1214/16-EJS1172\n",
   "    [MN2017] Amit Moscovich, Boaz Nadler (2017). Fast calculation of boundary crossing probabilities for Poisson processes.\n",
   "             Statistics & Probability Letters. https://doi.org/10.1016/j.spl.2016.11.027\n",
   "    [NEW]    Amit Moscovich (2020). Fast calculation of p-values for one-sided Kolmogorov-Smirnov type statistics. Preprint. https://arxiv.org/abs/2009.04954\n"]

/-- `print_usage`.  src/crossprob.cc:18-79 -/
def usageText : Str := usageLines.flatMap String.toList

/-- `calculate_ecdf1_mns2016`.  src/crossprob.cc:81-91 -/
def calculateEcdf1Mns2016IO (w : World F) (b B : List F) : OutM F :=
  if b.length > 0 ∧ B.length = 0 then .lift (ecdf1Mns2016b w.env b)
  else if b.length = 0 ∧ B.length > 0 then .lift (ecdf1Mns2016B w.env B)
  else do
    OutM.put usageText
    .lift (.error (.runtimeError "Expecting EITHER a lower or an upper boundary function when using the 'ecdf1-mns2016' command for computing a one-sided boundary crossing.\n"))

/-- `calculate_ecdf1_new`.  src/crossprob.cc:93-103 -/
def calculateEcdf1NewIO (w : World F) (b B : List F) : OutM F :=
  if b.length > 0 ∧ B.length = 0 then .lift (ecdf1Newb w.env w.isqrt b)
  else if b.length = 0 ∧ B.length > 0 then .lift (ecdf1NewB w.env w.isqrt B)
  else do
    OutM.put usageText
    .lift (.error (.runtimeError "Expecting EITHER a lower or an upper boundary function when using the 'ecdf1-m2020' command for computing a one-sided boundary crossing.\n"))

/-- `handle_command_line_arguments`.  src/crossprob.cc:144-174 -/
def handleCommandLineArgumentsIO (w : World F) (fmt : F → Str) (command filename : Str) : OutM Unit := do
  let (b, B) ← OutM.lift (readAndCheckBoundariesFile w.libc w.fs filename)
  let result ←
    if command = "ecdf1-mns2016".toList then calculateEcdf1Mns2016IO w b B
    else if command = "ecdf1-new".toList then calculateEcdf1NewIO w b B
    else if command = "ecdf2-ks2001".toList then .lift (calculateEcdf2Ks2001 w b B)
    else if command = "ecdf2-mn2017".toList then .lift (calculateEcdf2Mn2017 w b B)
    else do
      OutM.put usageText
      .lift (.error (.runtimeError unknownCommandMsg))
  OutM.put (fmt result ++ ['\n'])

/-- How a process ends, with its output. -/
inductive RunEnd where
  /-- normal exit -/
  | exited (code : Nat) (stdout : Str)
  /-- killed by SIGABRT (failed assertion or uncaught exception); text still buffered is lost -/
  | aborted
  /-- undefined behaviour: anything can happen -/
  | undefined
  /-- never ends -/
  | hangs

/-- What `cout << e.what()` prints: `what()` is a C string, cut at the first NUL. -/
def whatText (msg : String) : Str := cStr msg.toList

/-- `main`; `ioWhat` is the (implementation-defined) text of an `ifstream::failure`.  src/crossprob.cc:176-195 -/
def crossprobRun (w : World F) (fmt : F → Str) (ioWhat : Str) (args : List Str) : RunEnd :=
  match args with
  | [command, filename] =>
    let r := handleCommandLineArgumentsIO w fmt command filename
    match r.result with
    | .ok _ => .exited 0 r.text
    | .error .ioFailure => .exited 2 (r.text ++ "ifstream::failure exception caught:\n".toList ++ ioWhat ++ ['\n'])
    | .error (.runtimeError msg) => .exited 3 (r.text ++ "Error:\n".toList ++ whatText msg ++ ['\n'])
    | .error (.assertFailed _) => .aborted
    | .error (.uncaught _) => .aborted
    | .error (.ub _) => .undefined
    | .error .diverge => .hangs
  | _ => .exited 1 (usageText ++ "Error: Expecting 2 command line arguments!\n".toList)

/-- The lines of `print_usage` of crossprob_mc.  src/crossprob_mc.cc:159-190 -/
def mcUsageLines : List String :=
  ["SYNOPSIS\n",
   "    crossing_probability poisson <boundary-functions-file> <num-simulations>\n",
   "    crossing_probability ecdf <boundary-functions-file> <num-simulations>\n",
   "\n",
   "DESCRIPTION\n",
   "    crossing_probability poisson <boundary-functions-file> <num-simulations>\n",
   "        Estimates (using Monte-Carlo simulations) the non-crossing probability that that g(t) < xi_n(t) < h(t) for all t in [0,1]\n",
   "        where xi_n(t) is a homogeneous Poisson process of intensity n in the interval [0,1].\n",
   "\n",
   "    crossing_probability ecdf <boundary-functions-file> <num-simulations>\n",
   "        Estimates (using Monte-Carlo simulations) the non-crossing probability that that g(t) < F_n(t) < h(t) for all t in [0,1]\n",
   "        where F_n(t) is the empirical CDF of n uniform samples in [0,1]. i.e.\n",
   "            F_n(t) = (number of X_i < t)/n  where X_1,...X_n ~ U[0,1].\n",
   "\n",
   "OPTIONS\n",
   "    <boundary-functions-file>\n",
   "        This file describes the boundary functions g(t) and h(t).\n",
   "        It must contain exactly 2 lines of monotone-increasing comma-separated numbers between 0 and 1\n",
   "        that are the integer-crossing points of the boundary functions.\n",
   "\n",
   "        Line 1: the i-th number in this list is inf{t in [0,1] : g(t) >= i}\n",
   "        Line 2: the i-th number in this list is sup{t in [0,1] : h(t) <= i}\n",
   "\n",
   "        Example:\n",
   "            0, 0, 0.15, 0.5, 0.8\n",
   "            0.3, 0.7, 0.9, 1\n",
   "\n",
   "    <num-simulations>\n",
   "        Number of Monte-Carlo simulation runs.\n"]

/-- `print_usage`.  src/crossprob_mc.cc:159-190 -/
def mcUsageText : Str := mcUsageLines.flatMap String.toList

variable [FBits F]

/-- `handle_command_line_arguments` of crossprob_mc, with three arguments.  src/crossprob_mc.cc:199-227 -/
noncomputable def mcHandleIO (w : McWorld F) (fmt : F → Str) (command filename numSims : Str) : OutM Unit := do
  let numSimulations ← OutM.lift (stringToLong w.libc numSims)
  if numSimulations < 0 then do
    OutM.put mcUsageText
    .lift (.error (.runtimeError "num-simulations must be non-negative!"))
  else do
    let (b, B) ← OutM.lift (readAndCheckBoundariesFile w.libc w.fs filename)
    let n : Int := (max b.length B.length : Nat)
    if command = "poisson".toList then do
      let p ← OutM.lift (poissonMc w.asserts TinyMT.generateDouble01
        ((poissonSeed w.time (ofInt n : F)).map w.junk.init) (ofInt n) b B numSimulations)
      OutM.put (fmt (one -ᶠ p) ++ ['\n'])
    else if command = "ecdf".toList then do
      let p ← OutM.lift (ecdfMc TinyMT.generateDouble01 (w.junk.init (BitVec.ofInt 64 (w.time + n * 2 ^ 20))) n b B numSimulations)
      OutM.put (fmt (one -ᶠ p) ++ ['\n'])
    else do
      OutM.put mcUsageText
      .lift (.error (.runtimeError "Second command line argument must be 'ecdf' or 'poisson'"))

/-- `main` of crossprob_mc.  src/crossprob_mc.cc:192-197, 229-243 -/
noncomputable def mcRun (w : McWorld F) (fmt : F → Str) (ioWhat : Str) (args : List Str) : RunEnd :=
  let r : OutM Unit := match args with
    | [command, filename, numSims] => mcHandleIO w fmt command filename numSims
    | _ => do
      OutM.put mcUsageText
      .lift (.error (.runtimeError "Expecting 3 command line arguments!"))
  match r.result with
  | .ok _ => .exited 0 r.text
  | .error .ioFailure => .exited 1 (r.text ++ "ifstream::failure exception caught:\n".toList ++ ioWhat ++ ['\n'])
  | .error (.runtimeError msg) => .exited 2 (r.text ++ "runtime_error exception caught:\n".toList ++ whatText msg ++ ['\n'])
  | .error (.assertFailed _) => .aborted
  | .error (.uncaught _) => .aborted
  | .error (.ub _) => .undefined
  | .error .diverge => .hangs

end CP
