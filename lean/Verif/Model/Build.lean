import Mathlib.Data.List.Basic
/-
Model of building the programs with the Makefile and of `make python`.
The rules of the Makefile are data (`rules`, `pattern`); `prereqs` reads them as GNU make does.  Files have a content and a time of
modification; every write gets a new time.  The compiler, the linker and SWIG are parameters: functions of the contents they read.
Simplified: a run of make is atomic with respect to edits; the source files exist; `rm -rf`, `mkdir -p` succeed; the rule of the Makefile
for `src/fftw_wrappers.o`, a module that no longer exists, is left out; the system's headers and libraries, the variables of the Makefile
and the compiler's version are one content, `env`.
-/
namespace CP.Build

/-- The `.cc` files in src/. -/
inductive Src where
  | common | crossprob | crossprobMc | ecdf1Mns2016 | ecdf1New | ecdf2 | fftwconvolver | poissonPmf | readBoundariesFile | stringUtils
  | tinymt64
deriving DecidableEq, Repr

/-- The header files in src/. -/
inductive Hdr where
  | alignedMem | common | ecdf1Mns2016 | ecdf1New | ecdf2 | fftwconvolver | poissonPmf | readBoundariesFile | stringUtils | tinymt64
deriving DecidableEq, Repr

/-- The two programs. -/
inductive Exe where
  | crossprob | crossprobMc
deriving DecidableEq, Repr

/-- Files that the Makefile mentions: `src/m.cc`, `src/h.hh`, `build/m.o`, `src/m.o`, `bin/e`. -/
inductive File where
  | src (m : Src)
  | hdr (h : Hdr)
  | obj (m : Src)
  | srcObj (m : Src)
  | exe (e : Exe)
deriving DecidableEq, Repr

open File

/-- The explicit rules.  Makefile:22-24, 36, 39, 66-83 -/
def rules : List (File × List File) :=
  [ (exe .crossprob, [obj .crossprob, obj .ecdf1Mns2016, obj .ecdf1New, obj .ecdf2, obj .fftwconvolver, obj .stringUtils,
      obj .readBoundariesFile, obj .poissonPmf, obj .common]),
    (exe .crossprobMc, [obj .crossprobMc, obj .stringUtils, obj .readBoundariesFile, obj .tinymt64, obj .common]),
    (srcObj .common, [hdr .common]),
    (srcObj .crossprob, [hdr .common, hdr .readBoundariesFile]),
    (srcObj .crossprob, [hdr .stringUtils, hdr .ecdf1Mns2016, hdr .ecdf1New]),
    (srcObj .crossprob, [hdr .ecdf2]),
    (srcObj .crossprobMc, [hdr .stringUtils, hdr .readBoundariesFile]),
    (srcObj .crossprobMc, [hdr .tinymt64]),
    (srcObj .ecdf1Mns2016, [hdr .ecdf1Mns2016, hdr .common]),
    (srcObj .ecdf1New, [hdr .ecdf1New, hdr .common, hdr .poissonPmf]),
    (srcObj .ecdf1New, [hdr .fftwconvolver, hdr .alignedMem, hdr .stringUtils]),
    (srcObj .ecdf2, [hdr .ecdf2, hdr .fftwconvolver, hdr .alignedMem]),
    (srcObj .ecdf2, [hdr .common, hdr .poissonPmf, hdr .stringUtils]),
    (srcObj .ecdf2, [hdr .readBoundariesFile]),
    (srcObj .fftwconvolver, [hdr .fftwconvolver, hdr .alignedMem]),
    (srcObj .poissonPmf, [hdr .poissonPmf, hdr .alignedMem]),
    (srcObj .readBoundariesFile, [hdr .readBoundariesFile, hdr .stringUtils]),
    (srcObj .stringUtils, [hdr .stringUtils]),
    (srcObj .tinymt64, [hdr .tinymt64]) ]

/-- The pattern rule `build/%.o: src/%.cc`.  Makefile:42 -/
def pattern : File → List File
  | obj m => [src m]
  | _ => []

/-- All prerequisites of a target. -/
def prereqs (f : File) : List File := pattern f ++ (rules.filter (fun r => decide (r.1 = f))).flatMap Prod.snd

/-- The compiler, the linker and SWIG. -/
structure Tools (C E O X : Type) where
  /-- object file from a source file, the headers and the environment; `none`: an error -/
  compile : Src → C → (Hdr → C) → E → Option O
  /-- program from object files, in the order of the command line -/
  link : Exe → E → List O → Option X
  /-- the wrapper `python_extension/crossprob.cc` from `crossprob.i` -/
  swig : C → Option C
  /-- object file of the wrapper -/
  compileWrapper : C → (Hdr → C) → E → Option O
  /-- Python's extension module -/
  linkModule : E → List O → Option X

/-- The files and the clock. -/
structure State (C E O X : Type) where
  now : Nat
  src : Src → C
  srcTime : Src → Nat
  hdr : Hdr → C
  hdrTime : Hdr → Nat
  env : E
  /-- `build/` exists -/
  buildDir : Bool
  /-- `bin/` exists -/
  binDir : Bool
  obj : Src → Option (O × Nat)
  exe : Exe → Option (X × Nat)
  /-- `src/crossprob.i` -/
  iface : C
  /-- `python_extension/crossprob.cc` -/
  wrapper : Option (C × Nat)
  /-- the extension module in `build/lib*/` -/
  pyModule : Option (X × Nat)

/-- What make prints. -/
inductive Action where
  | mkdir
  | compiled (m : Src)
  | linked (e : Exe)
deriving DecidableEq, Repr

/-- Outcome of (a part of) a run: the files, what was done, and whether all commands succeeded. -/
structure Out (C E O X : Type) where
  state : State C E O X
  log : List Action
  ok : Bool

variable {C E O X : Type} (T : Tools C E O X)

/-- Modification time. -/
def mtime (s : State C E O X) : File → Option Nat
  | .src m => some (s.srcTime m)
  | .hdr h => some (s.hdrTime h)
  | .obj m => (s.obj m).map Prod.snd
  | .srcObj _ => none
  | .exe e => (s.exe e).map Prod.snd

/-- Must the target be remade?  It is missing, or a prerequisite is missing or newer. -/
def outdated (s : State C E O X) (f : File) : Bool :=
  match mtime s f with
  | none => true
  | some t => (prereqs f).any fun p =>
      match mtime s p with
      | none => true
      | some t' => decide (t < t')

/-- Store an object file. -/
def setObj (s : State C E O X) (m : Src) (o : Option (O × Nat)) : State C E O X :=
  { s with now := s.now + 1, obj := fun k => if k = m then o else s.obj k }

/-- Store a program. -/
def setExe (s : State C E O X) (e : Exe) (x : Option (X × Nat)) : State C E O X :=
  { s with now := s.now + 1, exe := fun k => if k = e then x else s.exe k }

/-- Bring `build/m.o` up to date.  The compiler removes its output if it fails.  Makefile:42-43 -/
def makeObj (m : Src) (s : State C E O X) : Out C E O X :=
  if outdated s (.obj m) then
    if s.buildDir then
      match T.compile m (s.src m) s.hdr s.env with
      | some o => ⟨setObj s m (some (o, s.now + 1)), [.compiled m], true⟩
      | none => ⟨setObj s m none, [], false⟩
    else ⟨s, [], false⟩
  else ⟨s, [], true⟩

/-- The object files among the prerequisites, in order: `$(CROSSPROB_OBJECTS)`, `$(CROSSPROB_MC_OBJECTS)`.  Makefile:22, 24 -/
def objects (e : Exe) : List Src := (prereqs (.exe e)).filterMap fun f => match f with | .obj m => some m | _ => none

/-- Link `bin/e` if need be (its prerequisites have been dealt with).  Makefile:36-40 -/
def linkExe (e : Exe) (s : State C E O X) : Out C E O X :=
  if outdated s (.exe e) then
    if s.binDir then
      match (objects e).mapM (fun m => (s.obj m).map Prod.fst) with
      | none => ⟨s, [], false⟩
      | some os =>
        match T.link e s.env os with
        | some x => ⟨setExe s e (some (x, s.now + 1)), [.linked e], true⟩
        | none => ⟨setExe s e none, [], false⟩
    else ⟨s, [], false⟩
  else ⟨s, [], true⟩

/-- Commands one after the other; the first failure ends make. -/
def inOrder : List (State C E O X → Out C E O X) → State C E O X → Out C E O X
  | [], s => ⟨s, [], true⟩
  | f :: fs, s =>
    let r := f s
    if r.ok then
      let r' := inOrder fs r.state
      ⟨r'.state, r.log ++ r'.log, r'.ok⟩
    else r

/-- `mkdir -p build`, a phony target: always run.  Makefile:28, 30-31 -/
def mkBuild (s : State C E O X) : Out C E O X := ⟨{ s with buildDir := true }, [.mkdir], true⟩

/-- `mkdir -p bin`.  Makefile:28, 33-34 -/
def mkBin (s : State C E O X) : Out C E O X := ⟨{ s with binDir := true }, [.mkdir], true⟩

/-- Bring a program up to date.  Makefile:36-40 -/
def makeExe (e : Exe) (s : State C E O X) : Out C E O X :=
  inOrder ((objects e).map (makeObj T) ++ [linkExe T e]) s

/-- `make` (one job at a time): the prerequisites of `all` in order.  Makefile:26 -/
def makeAll (s : State C E O X) : Out C E O X :=
  inOrder [mkBuild, mkBin, makeExe T .crossprob, makeExe T .crossprobMc] s

/-- `make clean`.  Makefile:48-54 -/
def clean (s : State C E O X) : State C E O X :=
  { s with buildDir := false, binDir := false, obj := fun _ => none, exe := fun _ => none, wrapper := none, pyModule := none }

/-- The modules in setup.py, without the wrapper.  setup.py:6-13 -/
def pySources : List Src := [.common, .stringUtils, .poissonPmf, .fftwconvolver, .ecdf1Mns2016, .ecdf1New, .ecdf2]

/-- Is the extension module missing or older than the wrapper (of time `tw`) or another source?  (`newer_group` of distutils) -/
def moduleOutdated (s : State C E O X) (tw : Nat) : Bool :=
  match s.pyModule with
  | none => true
  | some (_, t) => decide (t < tw) || pySources.any fun m => decide (t < s.srcTime m)

/-- `python setup.py build`: distutils compiles all sources if one of them is newer than the extension module (or that is missing), and
does nothing otherwise.  It keeps its object files, which do not matter, and the module
in subdirectories of `build/`.  setup.py:4-25 -/
def setupBuild (s : State C E O X) : State C E O X × Bool :=
  match s.wrapper with
  | none => (s, false)
  | some (w, tw) =>
    if moduleOutdated s tw then
      match pySources.mapM (fun m => T.compile m (s.src m) s.hdr s.env), T.compileWrapper w s.hdr s.env with
      | some os, some o =>
        match T.linkModule s.env (os ++ [o]) with
        | some x => ({ s with now := s.now + 1, pyModule := some (x, s.now + 1), buildDir := true }, true)
        | none => ({ s with buildDir := true }, false)
      | _, _ => ({ s with buildDir := true }, false)
    else (s, true)

/-- `make python`.  Makefile:56-58 -/
def makePython (s : State C E O X) : State C E O X × Bool :=
  match T.swig s.iface with
  | none => (s, false)
  | some w => setupBuild T { s with now := s.now + 1, wrapper := some (w, s.now + 1) }

/-- What happens in a working copy. -/
inductive Event (C E O : Type) where
  | editSrc (m : Src) (c : C)
  | editHdr (h : Hdr) (c : C)
  /-- another compiler, other flags, other system headers -/
  | editEnv (e : E)
  | editIface (c : C)
  | make
  | makeExe (e : Exe)
  | makeObj (m : Src)
  | clean
  | rmObj (m : Src)
  | rmExe (e : Exe)
  | makePython
  | setupBuild
  /-- a `make` that has got as far as compiling `m` is killed while the object file is being written -/
  | killed (m : Src) (junk : O)

/-- Effect of an event. -/
def step (s : State C E O X) : Event C E O → State C E O X
  | .editSrc m c => { s with now := s.now + 1, src := fun k => if k = m then c else s.src k,
                             srcTime := fun k => if k = m then s.now + 1 else s.srcTime k }
  | .editHdr h c => { s with now := s.now + 1, hdr := fun k => if k = h then c else s.hdr k,
                             hdrTime := fun k => if k = h then s.now + 1 else s.hdrTime k }
  | .editEnv e => { s with env := e }
  | .editIface c => { s with iface := c }
  | .make => (makeAll T s).state
  | .makeExe e => (makeExe T e s).state
  | .makeObj m => (makeObj T m s).state
  | .clean => clean s
  | .rmObj m => setObj s m none
  | .rmExe e => setExe s e none
  | .makePython => (makePython T s).1
  | .setupBuild => (setupBuild T s).1
  | .killed m junk => setObj s m (some (junk, s.now + 1))

/-- A history. -/
def run (s : State C E O X) (h : List (Event C E O)) : State C E O X := h.foldl (step T) s

/-- A fresh checkout. -/
def checkout (src : Src → C) (hdr : Hdr → C) (iface : C) (env : E) : State C E O X :=
  { now := 0, src := src, srcTime := fun _ => 0, hdr := hdr, hdrTime := fun _ => 0, env := env, buildDir := false, binDir := false,
    obj := fun _ => none, exe := fun _ => none, iface := iface, wrapper := none, pyModule := none }

/-- The jobs of a parallel make (`make -j`). -/
inductive Job where
  | mkBuild
  | mkBin
  | obj (m : Src)
  | exe (e : Exe)
deriving DecidableEq, Repr

/-- A job, when its prerequisites are done. -/
def doJob (s : State C E O X) : Job → Out C E O X
  | .mkBuild => CP.Build.mkBuild s
  | .mkBin => CP.Build.mkBin s
  | .obj m => CP.Build.makeObj T m s
  | .exe e => linkExe T e s

/-- A parallel make whose jobs finish in the given order.  Simplified: a job takes effect at one instant (the compilers run at the same time
read files that none of them writes). -/
def parallel (js : List Job) (s : State C E O X) : Out C E O X := inOrder (js.map fun j s => doJob T s j) s

end CP.Build
