import Verif.Proofs.Build
/-
C88: incremental builds.  `T` is any compiler, linker and SWIG; `s` any working copy reached by any history.
-/
namespace CP.Props
open CP.Build CP.Spec

variable {C E O X : Type} (T : Tools C E O X)

/-- C88: as long as no header, flag or compiler has changed (and no make was killed) since the last `make clean`, whatever else happened
before and since: make succeeds exactly if both programs can be built from scratch, and then both are what building from scratch gives. -/
theorem C88_make (src : Src → C) (hdr : Hdr → C) (iface : C) (env : E) (before since : List (Event C E O))
    (hs : ∀ ev ∈ since, ¬ Unnoticed ev) :
    let s : State C E O X := run T (checkout src hdr iface env) (before ++ .clean :: since)
    ((makeAll T s).ok = true ↔ ∀ e, ∃ x, freshBuild T s e = some x) ∧
    ((makeAll T s).ok = true → ∀ e, ((makeAll T s).state.exe e).map Prod.fst = freshBuild T s e) := by
  intro s
  have hg : Good T s := by
    have h1 : s = run T (clean (run T (checkout src hdr iface env) before)) since := by
      simp only [s, run, List.foldl_append, List.foldl_cons]; rfl
    rw [h1]
    exact run_good since _ (clean_good (run_clock before _ (checkout_clock src hdr iface env))) hs
  have key : (makeAll T s).ok = true → ∀ e, ∃ x, ((makeAll T s).state.exe e).map Prod.fst = some x ∧ freshBuild T s e = some x := by
    intro hok e
    rw [makeAll_eq] at hok ⊢
    have hd := parallel_done allJobs [] s hg (by simp) (by simp) allJobs_ordered hok e (by cases e <;> decide)
    obtain ⟨h1, h2⟩ := parallel_good allJobs s hg
    obtain ⟨x, h3, h4⟩ := h1.fresh hd
    exact ⟨x, h3, by rw [← h2.fresh]; exact h4⟩
  refine ⟨⟨fun hok e => ?_, fun hf => ?_⟩, fun hok e => ?_⟩
  · obtain ⟨x, -, h⟩ := key hok e; exact ⟨x, h⟩
  · rw [makeAll_eq]
    unfold allJobs
    rw [List.append_assoc]
    simp only [List.cons_append, List.nil_append]
    rw [parallel_cons, parallel_cons]
    simp only [doJob, mkBuild, mkBin, if_true]
    refine parallel_succ _ [.mkBuild, .mkBin] _ ⟨hg.src, hg.obj, hg.exe⟩ (by simp) allJobs_ordered rfl rfl fun e => ?_
    exact hf e
  · obtain ⟨x, h1, h2⟩ := key hok e
    rw [h1, h2]

/-- C88: the same from the checkout on, before any `make clean`. -/
theorem C88_make_first (src : Src → C) (hdr : Hdr → C) (iface : C) (env : E) (since : List (Event C E O))
    (hs : ∀ ev ∈ since, ¬ Unnoticed ev) :
    let s : State C E O X := run T (checkout src hdr iface env) since
    ((makeAll T s).ok = true ↔ ∀ e, ∃ x, freshBuild T s e = some x) ∧
    ((makeAll T s).ok = true → ∀ e, ((makeAll T s).state.exe e).map Prod.fst = freshBuild T s e) :=
  C88_make T src hdr iface env [] since hs

/-- A made working copy: a successful make has just run, after any history. -/
def JustMade (s : State C E O X) : Prop :=
  ∃ src hdr iface env before since, (∀ ev ∈ since, ¬ Unnoticed ev) ∧
    s = (makeAll T (run T (checkout src hdr iface env) (before ++ .clean :: since))).state ∧
    (makeAll T (run T (checkout src hdr iface env) (before ++ .clean :: since))).ok = true

theorem JustMade.good {T : Tools C E O X} {s : State C E O X} (h : JustMade T s) : Good T s ∧ ∀ e, Done s e := by
  obtain ⟨src, hdr, iface, env, before, since, hs, rfl, hok⟩ := h
  set s := run T (checkout src hdr iface env) (before ++ .clean :: since) with hs'
  have hg : Good T s := by
    have h1 : s = run T (clean (run T (checkout src hdr iface env) before)) since := by
      simp only [s, run, List.foldl_append, List.foldl_cons]; rfl
    rw [h1]
    exact run_good since _ (clean_good (run_clock before _ (checkout_clock src hdr iface env))) hs
  rw [makeAll_eq] at hok ⊢
  exact ⟨(parallel_good allJobs s hg).1,
    fun e => parallel_done allJobs [] s hg (by simp) (by simp) allJobs_ordered hok e (by cases e <;> decide)⟩

/-- C88: make does no more than needed: after a successful make, editing `src/m.cc` makes the next (successful) make compile this module and
no other, and link the programs that contain it and no others. -/
theorem C88_minimal {s : State C E O X} (h : JustMade T s) (m : Src) (c : C) (hok : (makeAll T (step T s (.editSrc m c))).ok = true) :
    (∀ k, .compiled k ∈ (makeAll T (step T s (.editSrc m c))).log ↔ k = m) ∧
    (∀ e, .linked e ∈ (makeAll T (step T s (.editSrc m c))).log ↔ m ∈ modules e) := by
  obtain ⟨hg, hd⟩ := h.good
  have hg' : Good T (step T s (.editSrc m c)) := step_good hg _ (by simp [Unnoticed])
  have hm : ¬ UpObj (step T s (.editSrc m c)) m := by
    rintro ⟨o, t, h1, h2⟩
    simp only [step, if_true] at h1 h2
    have := (hg.obj m o t h1).1
    omega
  have hup : ∀ k, k ≠ m → UpObj (step T s (.editSrc m c)) k := by
    intro k hk
    obtain ⟨e, he⟩ := module_mem k
    obtain ⟨o, t, h1, h2⟩ := (hd e).2 k he
    refine ⟨o, t, h1, ?_⟩
    simp only [step, if_neg hk]
    exact h2
  rw [makeAll_eq] at hok ⊢
  refine ⟨fun k => ⟨fun hk => ?_, fun hk => ?_⟩, fun e => ⟨fun he => ?_, fun he => ?_⟩⟩
  · by_contra hne
    exact log_up _ _ _ (hup k hne) hk
  · subst hk
    exact log_compiled _ _ _ hm (by cases k <;> decide) hok
  · by_contra hne
    refine log_done _ _ _ ⟨?_, fun k hk => hup k (by rintro rfl; exact hne hk)⟩ he
    exact (hd e).1
  · have hsplit : ∃ a b, allJobs = a ++ .exe e :: b := List.append_of_mem (by cases e <;> decide)
    obtain ⟨a, b, hab⟩ := hsplit
    have hma : Job.obj m ∈ a := allJobs_ordered a e b hab m he
    rw [hab] at hok ⊢
    exact log_linked a b _ e m hg' he hm hma hok

/-- C88: right after a successful make another one compiles and links nothing. -/
theorem C88_idle {s : State C E O X} (h : JustMade T s) :
    (makeAll T s).ok = true ∧ (makeAll T s).log = [.mkdir, .mkdir] ∧ (makeAll T s).state.obj = s.obj ∧ (makeAll T s).state.exe = s.exe := by
  rw [makeAll_noop h.good.2]
  exact ⟨rfl, rfl, rfl, rfl⟩

/-- C88: header files, flags and the compiler are not noticed: after a successful make, whatever changes of them are made, in whatever number,
make succeeds, compiles nothing and leaves both programs as they were, built from the old headers. -/
theorem C88_headers_ignored {s : State C E O X} (h : JustMade T s) (edits : List (Event C E O))
    (he : ∀ ev ∈ edits, (∃ x c, ev = .editHdr x c) ∨ ∃ v, ev = .editEnv v) :
    (makeAll T (run T s edits)).ok = true ∧ (makeAll T (run T s edits)).log = [.mkdir, .mkdir] ∧
      ∀ e, ((makeAll T (run T s edits)).state.exe e).map Prod.fst = freshBuild T s e := by
  have key : ∀ (edits : List (Event C E O)) (s : State C E O X), (∀ ev ∈ edits, (∃ x c, ev = .editHdr x c) ∨ ∃ v, ev = .editEnv v) →
      (run T s edits).obj = s.obj ∧ (run T s edits).exe = s.exe ∧ (run T s edits).srcTime = s.srcTime := by
    intro edits
    induction edits with
    | nil => intros; exact ⟨rfl, rfl, rfl⟩
    | cons ev edits ih =>
      intro s he
      obtain ⟨h1, h2, h3⟩ := ih (step T s ev) fun ev' h' => he ev' (by simp [h'])
      change (run T (step T s ev) edits).obj = _ ∧ (run T (step T s ev) edits).exe = _ ∧ (run T (step T s ev) edits).srcTime = _
      rw [h1, h2, h3]
      rcases he ev (by simp) with ⟨x, c, rfl⟩ | ⟨v, rfl⟩ <;> exact ⟨rfl, rfl, rfl⟩
  obtain ⟨h1, h2, h3⟩ := key edits s he
  obtain ⟨hg, hd⟩ := h.good
  have hd' : ∀ e, Done (run T s edits) e := by
    intro e
    have := hd e
    unfold Done UpExe UpObj at this ⊢
    rw [h1, h2, h3]
    exact this
  rw [makeAll_noop hd']
  refine ⟨rfl, rfl, fun e => ?_⟩
  obtain ⟨x, h4, h5⟩ := hg.fresh (hd e)
  rw [h5, ← h4]
  change ((run T s edits).exe e).map Prod.fst = _
  rw [h2]

/-- C88: none of the rules generated by `make depend` concerns a file that make ever builds: the headers are prerequisites of `src/m.o`, the
object files are `build/m.o`. -/
theorem C88_no_header_prerequisites (f : File) (hf : (∃ m, f = .obj m) ∨ ∃ e, f = .exe e) (h : Hdr) : .hdr h ∉ prereqs f := by
  rcases hf with ⟨m, rfl⟩ | ⟨e, rfl⟩
  · rw [prereqs_obj]; simp
  · rw [prereqs_exe]; simp

/-- C88: `make -j`: if the two directories exist, every order in which the jobs can finish (a program after its modules) ends with both programs
as built from scratch. -/
theorem C88_parallel (src : Src → C) (hdr : Hdr → C) (iface : C) (env : E) (before since : List (Event C E O))
    (hs : ∀ ev ∈ since, ¬ Unnoticed ev) (js : List Job) (ho : Ordered js) (hall : ∀ e, .exe e ∈ js) :
    let s : State C E O X := run T (checkout src hdr iface env) (before ++ .clean :: since)
    s.buildDir = true → s.binDir = true → (∀ e, ∃ x, freshBuild T s e = some x) →
    (parallel T js s).ok = true ∧ ∀ e, ((parallel T js s).state.exe e).map Prod.fst = freshBuild T s e := by
  intro s hb hb' hf
  have hg : Good T s := by
    have h1 : s = run T (clean (run T (checkout src hdr iface env) before)) since := by
      simp only [s, run, List.foldl_append, List.foldl_cons]; rfl
    rw [h1]
    exact run_good since _ (clean_good (run_clock before _ (checkout_clock src hdr iface env))) hs
  have hok := parallel_succ js [] s hg (by simp) ho hb hb' hf
  refine ⟨hok, fun e => ?_⟩
  have hd := parallel_done js [] s hg (by simp) (by simp) ho hok e (hall e)
  obtain ⟨h1, h2⟩ := parallel_good js s hg
  obtain ⟨x, h3, h4⟩ := h1.fresh hd
  rw [h3, ← h4, h2.fresh]

/-- C88: in a fresh checkout `make -j` may fail: no rule says that the directory must exist before a module is compiled, so a schedule that
starts with a compilation is possible, and it fails, whatever the sources. -/
theorem C88_parallel_fresh (src : Src → C) (hdr : Hdr → C) (iface : C) (env : E) (m : Src) (js : List Job) :
    (parallel T (.obj m :: js) (checkout src hdr iface env : State C E O X)).ok = false := by
  rw [parallel_cons]
  have : doJob T (checkout src hdr iface env : State C E O X) (.obj m) = ⟨checkout src hdr iface env, [], false⟩ := by
    change makeObj T m _ = _
    unfold makeObj outdated
    simp [mtime, checkout]
  rw [this]
  rfl

/-- C88: if make is killed while it writes the object file of a module, the next makes take the torso for an up-to-date object file: the module is
not compiled again, and if linking succeeds, the programs are built with it. -/
theorem C88_killed {s : State C E O X} (h : JustMade T s) (edits : List (Event C E O)) (he : ∀ ev ∈ edits, ∃ k c, ev = .editSrc k c)
    (m : Src) (junk : O) :
    let s' := step T (run T s edits) (.killed m junk)
    .compiled m ∉ (makeAll T s').log ∧ ((makeAll T s').state.obj m).map Prod.fst = some junk ∧
    ((makeAll T s').ok = true → ∀ e, ((makeAll T s').state.exe e).map Prod.fst = freshBuild (withJunk T m junk) s' e) := by
  intro s'
  have hg : Good T (run T s edits) := run_good edits s h.good.1 fun ev hev => by
    obtain ⟨k, c, rfl⟩ := he ev hev; simp [Unnoticed]
  have hg' : Good (withJunk T m junk) s' := killed_good hg m junk
  have hu : UpObj s' m := ⟨junk, (run T s edits).now + 1, by simp [s', step, setObj], (hg.src m).trans (Nat.le_succ _)⟩
  rw [makeAll_eq]
  refine ⟨log_up _ _ _ hu, ?_, fun hok e => ?_⟩
  · rw [parallel_keepObj _ _ _ hu]
    simp [s', step, setObj]
  · rw [← parallel_withJunk junk allJobs s' hu] at hok ⊢
    have hd := parallel_done allJobs [] s' hg' (by simp) (by simp) allJobs_ordered hok e (by cases e <;> decide)
    obtain ⟨h1, h2⟩ := parallel_good allJobs s' hg'
    obtain ⟨x, h3, h4⟩ := h1.fresh hd
    rw [h3, ← h4, h2.fresh]

/-- C88: `make python` always does the right thing, whatever happened before: it succeeds exactly if the extension module can be built
from the present files, and then this is what it leaves. -/
theorem C88_python (src : Src → C) (hdr : Hdr → C) (iface : C) (env : E) (before : List (Event C E O)) :
    let s : State C E O X := run T (checkout src hdr iface env) before
    ((makePython T s).2 = true ↔ ∃ x, freshModule T s = some x) ∧
    ((makePython T s).2 = true → (makePython T s).1.pyModule.map Prod.fst = freshModule T s) := by
  intro s
  have hc : Clock s := run_clock before _ (checkout_clock src hdr iface env)
  unfold makePython freshModule
  cases T.swig s.iface with
  | none => simp
  | some w =>
    unfold setupBuild
    simp only [Option.bind_eq_bind, Option.bind_some]
    have hn : moduleOutdated { s with now := s.now + 1, wrapper := some (w, s.now + 1) } (s.now + 1) = true := by
      unfold moduleOutdated
      cases hp : s.pyModule with
      | none => rfl
      | some p =>
        obtain ⟨x, t⟩ := p
        have := hc.module x t hp
        simp [Nat.lt_succ_of_le this]
    rw [if_pos hn]
    change _ ∧ _
    rw [show pySources = [Src.common, .stringUtils, .poissonPmf, .fftwconvolver, .ecdf1Mns2016, .ecdf1New, .ecdf2] from rfl]
    cases [Src.common, .stringUtils, .poissonPmf, .fftwconvolver, .ecdf1Mns2016, .ecdf1New, .ecdf2].mapM
        fun m => T.compile m (s.src m) s.hdr s.env with
    | none => simp
    | some os =>
      cases T.compileWrapper w s.hdr s.env with
      | none => simp
      | some o =>
        simp only [Option.bind_some]
        cases T.linkModule s.env (os ++ [o]) with
        | none => simp
        | some x => simp

/-- C88: `python setup.py build` alone does not notice changes of headers: once it has succeeded it changes nothing after them. -/
theorem C88_setup_headers (src : Src → C) (hdr : Hdr → C) (iface : C) (env : E) (before : List (Event C E O)) (h : Hdr) (c : C) :
    let s : State C E O X := run T (checkout src hdr iface env) before
    (setupBuild T s).2 = true →
      (setupBuild T (step T (setupBuild T s).1 (.editHdr h c))).2 = true ∧
      (setupBuild T (step T (setupBuild T s).1 (.editHdr h c))).1.pyModule = (setupBuild T s).1.pyModule := by
  intro s hok
  have hc : Clock s := run_clock before _ (checkout_clock src hdr iface env)
  -- what a successful run leaves
  have key : ∃ w tw x t, (setupBuild T s).1.wrapper = some (w, tw) ∧ (setupBuild T s).1.pyModule = some (x, t) ∧ tw ≤ t ∧
      ∀ m ∈ pySources, (setupBuild T s).1.srcTime m ≤ t := by
    unfold setupBuild at hok ⊢
    cases hw : s.wrapper with
    | none => rw [hw] at hok; cases hok
    | some p =>
      obtain ⟨w, tw⟩ := p
      rw [hw] at hok
      simp only [] at hok ⊢
      split_ifs at hok ⊢ with hn
      · cases h1 : pySources.mapM fun m => T.compile m (s.src m) s.hdr s.env with
        | none => rw [h1] at hok; simp at hok
        | some os =>
          cases h2 : T.compileWrapper w s.hdr s.env with
          | none => rw [h1, h2] at hok; simp at hok
          | some o =>
            rw [h1, h2] at hok
            simp only [] at hok ⊢
            cases h3 : T.linkModule s.env (os ++ [o]) with
            | none => rw [h3] at hok; simp at hok
            | some x =>
              exact ⟨w, tw, x, s.now + 1, rfl, rfl, (hc.wrapper w tw hw).trans (Nat.le_succ _), fun m _ => (hc.src m).trans (Nat.le_succ _)⟩
      · cases hp : s.pyModule with
        | none => simp [moduleOutdated, hp] at hn
        | some q =>
          obtain ⟨x, t⟩ := q
          unfold moduleOutdated at hn
          rw [hp] at hn
          simp only [Bool.or_eq_true, decide_eq_true_eq, List.any_eq_true, not_or, not_exists, not_and, not_lt] at hn
          exact ⟨w, tw, x, t, hw, rfl, hn.1, hn.2⟩
  obtain ⟨w, tw, x, t, h1, h2, h3, h4⟩ := key
  set s1 := (setupBuild T s).1
  have hn : ((decide (t < tw) || pySources.any fun m => decide (t < s1.srcTime m)) = true) = False := by
    simp only [Bool.or_eq_true, decide_eq_true_eq, List.any_eq_true, eq_iff_iff, iff_false, not_or, not_lt, not_exists, not_and]
    exact ⟨h3, h4⟩
  unfold setupBuild
  simp only [step, h1, moduleOutdated, h2]
  simp only [hn, if_false]
  exact ⟨trivial, trivial⟩

/-! A concrete compiler: the object file records the source, the header common.hh and the flags; source 0 does not compile. -/

/-- Example tools. -/
def exTools : Tools ℕ ℕ (ℕ × ℕ × ℕ) (List (ℕ × ℕ × ℕ)) where
  compile _ c h e := if c = 0 then none else some (c, h .common, e)
  link _ _ os := some os
  swig c := some c
  compileWrapper c h e := some (c, h .common, e)
  linkModule _ os := some os

/-- Example checkout. -/
def exTree : State ℕ ℕ (ℕ × ℕ × ℕ) (List (ℕ × ℕ × ℕ)) := checkout (fun _ => 1) (fun _ => 1) 1 1

theorem exMade : JustMade exTools (makeAll exTools exTree).state :=
  ⟨fun _ => 1, fun _ => 1, 1, 1, [], [], by simp, rfl, by decide +kernel⟩

/-- C88: so after editing a header, make leaves a program that differs from a fresh build, and editing one module afterwards gives a program that
mixes modules compiled with the old and the new header. -/
theorem C88_stale :
    let s := step exTools (makeAll exTools exTree).state (.editHdr .common 2)
    (makeAll exTools s).ok = true ∧
    ((makeAll exTools s).state.exe .crossprobMc).map Prod.fst = some [(1, 1, 1), (1, 1, 1), (1, 1, 1), (1, 1, 1), (1, 1, 1)] ∧
    freshBuild exTools s .crossprobMc = some [(1, 2, 1), (1, 2, 1), (1, 2, 1), (1, 2, 1), (1, 2, 1)] ∧
    ((makeAll exTools (step exTools s (.editSrc .stringUtils 3))).state.exe .crossprobMc).map Prod.fst
      = some [(1, 1, 1), (3, 2, 1), (1, 1, 1), (1, 1, 1), (1, 1, 1)] := by
  refine ⟨by decide +kernel, by decide +kernel, by decide +kernel, by decide +kernel⟩

example : (makeAll exTools (step exTools (makeAll exTools exTree).state (.editSrc .tinymt64 5))).log = [.mkdir, .mkdir, .compiled .tinymt64, .linked .crossprobMc] := by
  decide +kernel

example : (∀ k, .compiled k ∈ (makeAll exTools (step exTools (makeAll exTools exTree).state (.editSrc .tinymt64 5))).log ↔ k = .tinymt64) :=
  (C88_minimal exTools exMade .tinymt64 5 (by decide +kernel)).1

example : (makeAll exTools (step exTools (makeAll exTools exTree).state (.editSrc .common 0))).ok = false := by decide +kernel

example : ((makeAll exTools (run exTools (checkout (fun _ => 1) (fun _ => 1) 1 1)
    ([.make, .editHdr .common 2, .killed .ecdf2 (0, 0, 0)] ++ .clean :: [.editSrc .ecdf2 7, .make, .rmObj .common, .editSrc .ecdf2 8]))).state.exe .crossprob).map Prod.fst
    = some [(1, 2, 1), (1, 2, 1), (1, 2, 1), (8, 2, 1), (1, 2, 1), (1, 2, 1), (1, 2, 1), (1, 2, 1), (1, 2, 1)] :=
  ((C88_make exTools (fun _ => 1) (fun _ => 1) 1 1 [.make, .editHdr .common 2, .killed .ecdf2 (0, 0, 0)]
    [.editSrc .ecdf2 7, .make, .rmObj .common, .editSrc .ecdf2 8] (by simp [Unnoticed])).2 (by decide +kernel) .crossprob).trans (by decide +kernel)

example : ((makeAll exTools (run exTools (makeAll exTools exTree).state [.editHdr .ecdf2 2, .editEnv 3])).state.exe .crossprobMc).map Prod.fst
    = some [(1, 1, 1), (1, 1, 1), (1, 1, 1), (1, 1, 1), (1, 1, 1)] :=
  ((C88_headers_ignored exTools exMade [.editHdr .ecdf2 2, .editEnv 3] (by simp)).2.2 .crossprobMc).trans (by decide +kernel)

/-- A possible schedule: the programs last, the modules in another order than in the Makefile. -/
def exSchedule : List Job := [.obj .tinymt64, .mkBin, .obj .common, .obj .stringUtils, .obj .readBoundariesFile, .obj .crossprobMc, .exe .crossprobMc,
  .mkBuild, .obj .ecdf2, .obj .ecdf1New, .obj .ecdf1Mns2016, .obj .poissonPmf, .obj .fftwconvolver, .obj .crossprob, .exe .crossprob]

theorem exSchedule_ordered : Ordered exSchedule := by
  have key : ∀ i : Fin exSchedule.length, ∀ e, exSchedule[i] = .exe e → ∀ m ∈ modules e, Job.obj m ∈ exSchedule.take i := by
    intro i e
    revert i
    cases e <;> decide +kernel
  intro pre e post h m hm
  have hl : pre.length < exSchedule.length := by rw [h]; simp
  have := key ⟨pre.length, hl⟩ e (by simp [h]) m hm
  simpa [h] using this

example : (parallel exTools exSchedule (run exTools exTree [.make, .editSrc .common 4])).ok = true :=
  (C88_parallel exTools (fun _ => 1) (fun _ => 1) 1 1 [] [.make, .editSrc .common 4] (by simp [Unnoticed]) exSchedule exSchedule_ordered
    (by intro e; cases e <;> decide +kernel) (by decide +kernel) (by decide +kernel) (by intro e; cases e <;> exact ⟨_, rfl⟩)).1

example : ((makeAll exTools (step exTools (makeAll exTools exTree).state (.killed .common (9, 9, 9)))).state.exe .crossprobMc).map Prod.fst
    = some [(1, 1, 1), (1, 1, 1), (1, 1, 1), (1, 1, 1), (9, 9, 9)] :=
  ((C88_killed exTools exMade [] (by simp) .common (9, 9, 9)).2.2 (by decide +kernel) .crossprobMc).trans (by decide +kernel)

example : (setupBuild exTools (step exTools (makePython exTools exTree).1 (.editHdr .common 2))).1.pyModule.map Prod.fst
    = some [(1, 1, 1), (1, 1, 1), (1, 1, 1), (1, 1, 1), (1, 1, 1), (1, 1, 1), (1, 1, 1), (1, 1, 1)] := by decide +kernel

example : (makePython exTools (step exTools (makePython exTools exTree).1 (.editHdr .common 2))).1.pyModule.map Prod.fst
    = some [(1, 2, 1), (1, 2, 1), (1, 2, 1), (1, 2, 1), (1, 2, 1), (1, 2, 1), (1, 2, 1), (1, 2, 1)] :=
  ((C88_python exTools (fun _ => 1) (fun _ => 1) 1 1 [.makePython, .editHdr .common 2]).2 (by decide +kernel)).trans (by decide +kernel)

end CP.Props
