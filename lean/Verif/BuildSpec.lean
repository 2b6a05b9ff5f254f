import Verif.Model.Build
/-
What a build should produce, without reference to make, times or existing files.
-/
namespace CP.Spec
open CP.Build

/-- The modules of each program, in the order of the link command. -/
def modules : Exe → List Src
  | .crossprob => [.crossprob, .ecdf1Mns2016, .ecdf1New, .ecdf2, .fftwconvolver, .stringUtils, .readBoundariesFile, .poissonPmf, .common]
  | .crossprobMc => [.crossprobMc, .stringUtils, .readBoundariesFile, .tinymt64, .common]

variable {C E O X : Type}

/-- The program that compiling all its modules from scratch, with the present sources, headers and flags, would give. -/
def freshBuild (T : Tools C E O X) (s : State C E O X) (e : Exe) : Option X := do
  let os ← (modules e).mapM fun m => T.compile m (s.src m) s.hdr s.env
  T.link e s.env os

/-- The same for Python's extension module. -/
def freshModule (T : Tools C E O X) (s : State C E O X) : Option X := do
  let w ← T.swig s.iface
  let os ← [Src.common, .stringUtils, .poissonPmf, .fftwconvolver, .ecdf1Mns2016, .ecdf1New, .ecdf2].mapM fun m =>
    T.compile m (s.src m) s.hdr s.env
  let o ← T.compileWrapper w s.hdr s.env
  T.linkModule s.env (os ++ [o])

/-- The events that the Makefile does not notice: changes of headers, flags and compiler; and kills. -/
def Unnoticed : Event C E O → Prop
  | .editHdr _ _ => True
  | .editEnv _ => True
  | .killed _ _ => True
  | _ => False

/-- A possible order of jobs: every program is linked after all its modules are compiled. -/
def Ordered (js : List Job) : Prop := ∀ pre e post, js = pre ++ .exe e :: post → ∀ m ∈ modules e, .obj m ∈ pre

/-- A compiler that produces a given object file for one module, and otherwise the usual ones. -/
def withJunk (T : Tools C E O X) (m : Src) (junk : O) : Tools C E O X :=
  { T with compile := fun k c h e => if k = m then some junk else T.compile k c h e }

end CP.Spec
