import Verif.Proofs.Pickler
import Verif.Props.ExactBj
import Verif.Props.Bisect
/-
Property C72: the benchmark functions that compute, save and load results, interrupted at any point.
`ops <+: run.ops c` says that the run was killed after the changes `ops` of the file system (or has finished, or has raised).
-/
open MeasureTheory Set
namespace CP.Props
open CP.Spec FOps

section
variable {F : Type} [FOps F]

/-! ## Thresholds -/

/-- C72: killed at any point, `precalc_Mn_plus_alpha_level_thresholds` has changed no other file, and its own file is either what it
was before the run, or cannot be loaded, or holds the list `n_range` and thresholds for the first sizes, each of them as returned by
`inverse_Mn_plus`. -/
theorem C72_thresholds_crash (env : Env F) (sp : SciPy F) (isqrt : ℕ → ℕ) (alpha : F) (file : Str) (clock : ℕ → ℕ) (nRange : List ℕ)
    (c : Codec (Saved F)) (hst : ∀ d ∈ (precalcThresholds env sp isqrt alpha file clock nRange).dumps, Stores c d.value)
    (disk : Disk) {ops : List DiskOp} (hops : ops <+: (precalcThresholds env sp isqrt alpha file clock nRange).ops c) :
    (∀ f, f ≠ file → runOps disk ops f = disk f) ∧
    (runOps disk ops file = disk file ∨
      (∃ e, load c (runOps disk ops) file = .error e) ∨
      ∃ (done rest : List ℕ) (ts : List F), done ≠ [] ∧ nRange = done ++ rest ∧
        done.map (fun n => inverseMnPlus env sp isqrt n alpha) = ts.map .ok ∧
        load c (runOps disk ops) file = .ok (.thresholds nRange (done.zip ts))) := by
  obtain ⟨good, rest, ts, hs, hg, hd, -⟩ := thresholds_run (fun n => inverseMnPlus env sp isqrt n alpha) file clock nRange
  have hd' : (precalcThresholds env sp isqrt alpha file clock nRange).dumps = _ := hd
  have hfile : ∀ d ∈ (precalcThresholds env sp isqrt alpha file clock nRange).dumps, d.file = file := by
    rw [hd']
    intro d hm
    obtain ⟨j, -, rfl⟩ := List.mem_map.mp hm
    rfl
  rcases crash_saves c disk hfile hops with ⟨-, e⟩ | ⟨ds1, d, ds2, p, hsplit, hp, e⟩
  · rw [e]
    exact ⟨fun _ _ => rfl, Or.inl rfl⟩
  · rw [e]
    refine ⟨fun f hf => put_other disk hf p, Or.inr ?_⟩
    have hm : d ∈ (precalcThresholds env sp isqrt alpha file clock nRange).dumps := by rw [hsplit]; simp
    rcases load_put_part (hst d hm) disk file hp with h | h
    · exact Or.inl h
    · refine Or.inr ?_
      rw [hd'] at hm
      obtain ⟨j, hj, rfl⟩ := List.mem_map.mp hm
      rw [List.mem_range] at hj
      have hlen : good.length = ts.length := by
        have := congrArg List.length hg
        simpa using this
      refine ⟨good.take (j + 1), good.drop (j + 1) ++ rest, ts.take (j + 1), ?_, ?_, ?_, ?_⟩
      · intro h0
        have := congrArg List.length h0
        rw [List.length_take, List.length_nil] at this
        omega
      · rw [← List.append_assoc, List.take_append_drop]
        exact hs
      · rw [List.map_take, hg, List.map_take]
      · rw [h, List.zip_eq_zipWith, List.zip_eq_zipWith, List.take_zipWith]

/-- C72: if the thresholds of the sizes `done` are found and the next size, if there is one, raises `e`, the run raises `e` (or
returns normally when all sizes are done), and the file then holds all the thresholds that were found. -/
theorem C72_thresholds_saved (env : Env F) (sp : SciPy F) (isqrt : ℕ → ℕ) (alpha : F) (file : Str) (clock : ℕ → ℕ)
    (done rest : List ℕ) (ts : List F) (hdone : done.map (fun n => inverseMnPlus env sp isqrt n alpha) = ts.map .ok)
    (result : M Unit) (hrest : (rest = [] ∧ result = .ok ()) ∨
      ∃ n rest' e, rest = n :: rest' ∧ inverseMnPlus env sp isqrt n alpha = .error e ∧ result = .error e)
    (c : Codec (Saved F)) (hst : ∀ d ∈ (precalcThresholds env sp isqrt alpha file clock (done ++ rest)).dumps, Stores c d.value)
    (disk : Disk) :
    (precalcThresholds env sp isqrt alpha file clock (done ++ rest)).result = result ∧
    (done = [] → runOps disk ((precalcThresholds env sp isqrt alpha file clock (done ++ rest)).ops c) = disk) ∧
    (done ≠ [] → load c (runOps disk ((precalcThresholds env sp isqrt alpha file clock (done ++ rest)).ops c)) file
      = .ok (.thresholds (done ++ rest) (done.zip ts))) := by
  have hrun := thresholdsLoop_found (inverse := fun n => inverseMnPlus env sp isqrt n alpha) file clock (done ++ rest) done ts rest []
    hdone
  have hd : (precalcThresholds env sp isqrt alpha file clock (done ++ rest)).dumps
      = (List.range done.length).map (fun j => ⟨file, clock j, .thresholds (done ++ rest) ((done.zip ts).take (j + 1))⟩) ∧
      (precalcThresholds env sp isqrt alpha file clock (done ++ rest)).result = result := by
    unfold precalcThresholds
    rw [hrun]
    rcases hrest with ⟨rfl, rfl⟩ | ⟨n, rest', e, rfl, he, rfl⟩
    · simp [thresholdsLoop, pure]
    · rw [thresholdsLoop_cons_error he]
      simp
  refine ⟨hd.2, fun h0 => ?_, fun h0 => ?_⟩
  · unfold PyIO.ops
    rw [hd.1, h0]
    rfl
  · have hfile : ∀ d ∈ (precalcThresholds env sp isqrt alpha file clock (done ++ rest)).dumps, d.file = file := by
      rw [hd.1]
      intro d hm
      obtain ⟨j, -, rfl⟩ := List.mem_map.mp hm
      rfl
    unfold PyIO.ops
    rw [runOps_saves c disk hfile]
    obtain ⟨k, hk⟩ : ∃ k, done.length = k + 1 := Nat.exists_eq_succ_of_ne_zero fun h => h0 (List.length_eq_zero_iff.mp h)
    have hlen : done.length = ts.length := by
      have := congrArg List.length hdone
      simpa using this
    have hlast : (precalcThresholds env sp isqrt alpha file clock (done ++ rest)).dumps.getLast?
        = some ⟨file, clock k, .thresholds (done ++ rest) (done.zip ts)⟩ := by
      rw [hd.1, hk, List.range_succ, List.map_append, List.map_singleton, List.getLast?_append, List.getLast?_singleton,
        Option.some_or, List.take_of_length_le (by rw [List.length_zip, ← hlen, min_self, hk])]
    rw [hlast]
    exact load_put_whole (hst _ (List.mem_of_getLast? hlast)) disk file _

/-- C72: saving is not atomic: when the thresholds of the sizes `done` have been saved and the next one is found, there is a point
where the file holds the thresholds of `done` and, one step later, cannot be loaded at all. -/
theorem C72_thresholds_not_atomic (env : Env F) (sp : SciPy F) (isqrt : ℕ → ℕ) (alpha : F) (file : Str) (clock : ℕ → ℕ)
    (done : List ℕ) (n : ℕ) (rest : List ℕ) (ts : List F) (t : F) (h0 : done ≠ [])
    (hdone : done.map (fun n => inverseMnPlus env sp isqrt n alpha) = ts.map .ok)
    (hn : inverseMnPlus env sp isqrt n alpha = .ok t) (c : Codec (Saved F)) (hempty : c.decode [] = none)
    (hst : ∀ d ∈ (precalcThresholds env sp isqrt alpha file clock (done ++ n :: rest)).dumps, Stores c d.value) (disk : Disk) :
    ∃ ops, ops ++ [.truncate file] <+: (precalcThresholds env sp isqrt alpha file clock (done ++ n :: rest)).ops c ∧
      load c (runOps disk ops) file = .ok (.thresholds (done ++ n :: rest) (done.zip ts)) ∧
      ∃ e, load c (runOps disk (ops ++ [.truncate file])) file = .error e := by
  obtain ⟨nRange, hR⟩ : ∃ l, l = done ++ n :: rest := ⟨_, rfl⟩
  have hrun := thresholdsLoop_found (inverse := fun n => inverseMnPlus env sp isqrt n alpha) file clock nRange done ts (n :: rest) []
    hdone
  rw [thresholdsLoop_cons_ok hn, ← hR] at hrun
  rw [← hR] at hst ⊢
  obtain ⟨ds, hds⟩ : ∃ ds : List (Dump (Saved F)), ds = (List.range done.length).map
      (fun j => ⟨file, clock j, .thresholds nRange ((done.zip ts).take (j + 1))⟩) := ⟨_, rfl⟩
  have hd : ∃ d ds', d.file = file ∧ (precalcThresholds env sp isqrt alpha file clock nRange).dumps = ds ++ d :: ds' := by
    unfold precalcThresholds
    rw [hrun, hds]
    simp only [List.nil_append, List.length_nil, Nat.zero_add]
    exact ⟨_, _, rfl, rfl⟩
  obtain ⟨d, ds', hdf, hd⟩ := hd
  have hfile : ∀ d ∈ ds, d.file = file := by
    rw [hds]
    intro d hm
    obtain ⟨j, -, rfl⟩ := List.mem_map.mp hm
    rfl
  have hlen : done.length = ts.length := by
    have := congrArg List.length hdone
    simpa using this
  obtain ⟨k, hk⟩ : ∃ k, done.length = k + 1 := Nat.exists_eq_succ_of_ne_zero fun h => h0 (List.length_eq_zero_iff.mp h)
  have hlast : ds.getLast? = some ⟨file, clock k, .thresholds nRange (done.zip ts)⟩ := by
    rw [hds, hk, List.range_succ, List.map_append, List.map_singleton, List.getLast?_append, List.getLast?_singleton,
      Option.some_or, List.take_of_length_le (by rw [List.length_zip, ← hlen, min_self, hk])]
  refine ⟨ds.flatMap (Dump.ops c), ?_, ?_, ?_⟩
  · unfold PyIO.ops
    rw [hd, List.flatMap_append, List.flatMap_cons, List.prefix_append_right_inj, ← hdf]
    exact ⟨_, rfl⟩
  · rw [runOps_saves c disk hfile, hlast]
    exact load_put_whole (hst _ (by rw [hd]; exact List.mem_append_left _ (List.mem_of_getLast? hlast))) disk file _
  · have e : runOps disk (ds.flatMap (Dump.ops c) ++ [.truncate file]) = (runOps disk (ds.flatMap (Dump.ops c))).put file [] := by
      rw [runOps_append]
      exact runOps_start _ file []
    rw [e, load_put, hempty]
    exact ⟨_, rfl⟩

/-! ## Timings -/

theorem precalcTimings_eq {e : BenchEnv F} {c : Codec (Saved F)} {disk : Disk} {source file : Str} {maxKs maxMns numReps : ℕ}
    {nRange : List ℕ} {th : List (ℕ × F)} (hload : load c disk source = .ok (.thresholds nRange th)) :
    precalcTimings e c disk source file maxKs maxMns numReps = timingsOuter e maxKs maxMns numReps file nRange th numReps 0
      ⟨Rows.empty nRange.length, Rows.empty nRange.length, Rows.empty nRange.length, Rows.empty nRange.length⟩ := by
  show (PyIO.lift (load c disk source) >>= _) = _
  rw [PyIO.bind_lift_ok hload]

/-- C72: killed at any point (or after an exception), `precalc_timings_Mn_plus` has changed no other file, and its own file is either
what it was before, or cannot be loaded, or holds tables in which every entry is either blank or complete: in repetition `rep`, the
items up to `k` have been measured `rep + 1` times and the others `rep` times. -/
theorem C72_timings_crash (e : BenchEnv F) (c : Codec (Saved F)) (disk : Disk) (source file : Str) (maxKs maxMns numReps : ℕ)
    {nRange : List ℕ} {th : List (ℕ × F)} (hload : load c disk source = .ok (.thresholds nRange th)) (hlen : th.length ≤ nRange.length)
    (hst : ∀ d ∈ (precalcTimings e c disk source file maxKs maxMns numReps).dumps, Stores c d.value)
    {ops : List DiskOp} (hops : ops <+: (precalcTimings e c disk source file maxKs maxMns numReps).ops c) :
    (∀ f, f ≠ file → runOps disk ops f = disk f) ∧
    (runOps disk ops file = disk file ∨
      (∃ err, load c (runOps disk ops) file = .error err) ∨
      ∃ rep < numReps, ∃ k < th.length, ∃ s, load c (runOps disk ops) file = .ok (.timings nRange numReps s) ∧
        TablesAt e maxKs maxMns nRange.length th (fun j => if j ≤ k then rep + 1 else rep) s) := by
  obtain ⟨o1, -, -⟩ := outer_spec (e := e) (maxKs := maxKs) (maxMns := maxMns) (numReps := numReps) (file := file)
    (nRange := nRange) (th := th) numReps 0 _ (by omega) (empty_tables e maxKs maxMns hlen)
  rw [← precalcTimings_eq (c := c) (disk := disk) (source := source) hload] at o1
  rcases crash_saves c disk (fun d hd => (o1 d hd).1) hops with ⟨-, h⟩ | ⟨ds1, d, ds2, p, hsplit, hp, h⟩
  · rw [h]
    exact ⟨fun _ _ => rfl, Or.inl rfl⟩
  · rw [h]
    refine ⟨fun f hf => put_other disk hf p, Or.inr ?_⟩
    have hm : d ∈ (precalcTimings e c disk source file maxKs maxMns numReps).dumps := by rw [hsplit]; simp
    rcases load_put_part (hst d hm) disk file hp with h' | h'
    · exact Or.inl h'
    · obtain ⟨-, rep, hrep, k, hk, s, hv, hs⟩ := o1 d hm
      refine Or.inr ⟨rep, hrep, k, hk, s, by rw [h', hv], hs.congr fun i _ => ?_⟩
      unfold repCount
      simp only [Nat.lt_succ_iff]

/-- C72: when `precalc_timings_Mn_plus` returns, its file holds the final tables, in which every item has been measured `num_reps`
times; it does return if every call of the library does. -/
theorem C72_timings_complete (e : BenchEnv F) (c : Codec (Saved F)) (disk : Disk) (source file : Str) (maxKs maxMns numReps : ℕ)
    {nRange : List ℕ} {th : List (ℕ × F)} (hload : load c disk source = .ok (.thresholds nRange th)) (hlen : th.length ≤ nRange.length)
    (hst : ∀ d ∈ (precalcTimings e c disk source file maxKs maxMns numReps).dumps, Stores c d.value) :
    (∀ s, (precalcTimings e c disk source file maxKs maxMns numReps).result = .ok s →
      TablesAt e maxKs maxMns nRange.length th (fun _ => numReps) s ∧
      (numReps ≠ 0 → th ≠ [] → load c (runOps disk ((precalcTimings e c disk source file maxKs maxMns numReps).ops c)) file
        = .ok (.timings nRange numReps s))) ∧
    ((∀ n t, (n, t) ∈ th →
        (n ≤ maxKs → ∃ r, ecdf2 e.env e.sort (mnPlusBounds e.sp n t) (List.replicate n one) false = .ok r) ∧
        (n ≤ maxMns → ∃ r, ecdf1Mns2016b e.env (mnPlusBounds e.sp n t) = .ok r) ∧
        (∃ r, ecdf2 e.env e.sort (mnPlusBounds e.sp n t) (List.replicate n one) true = .ok r) ∧
        ∃ r, ecdf1Newb e.env e.isqrt (mnPlusBounds e.sp n t) = .ok r) →
      ∃ s, (precalcTimings e c disk source file maxKs maxMns numReps).result = .ok s) := by
  obtain ⟨o1, o2, o3⟩ := outer_spec (e := e) (maxKs := maxKs) (maxMns := maxMns) (numReps := numReps) (file := file)
    (nRange := nRange) (th := th) numReps 0 _ (by omega) (empty_tables e maxKs maxMns hlen)
  rw [← precalcTimings_eq (c := c) (disk := disk) (source := source) hload] at o1 o2 o3
  refine ⟨fun s hs => ?_, fun h => o3 fun x hx => ?_⟩
  · obtain ⟨h1, h2⟩ := o2 s hs
    refine ⟨h1, fun hr ht => ?_⟩
    rcases h2 with ⟨h2 | h2, -⟩ | ⟨ds, t, h2⟩
    · exact absurd h2 hr
    · exact absurd h2 ht
    · unfold PyIO.ops
      rw [runOps_saves c disk fun d hd => (o1 d hd).1, h2, List.getLast?_append, List.getLast?_singleton, Option.some_or]
      exact load_put_whole (hst ⟨file, t, .timings nRange numReps s⟩ (by rw [h2]; simp)) disk file _
  · obtain ⟨h1, h2, h3, h4⟩ := h x.1 x.2 hx
    exact ⟨h1, h2, h3, h4⟩

/-! ## Large scale -/

/-- C72: the same for `precalc_timings_Mn_plus_largescale`. -/
theorem C72_largescale_crash (e : BenchEnv F) (c : Codec (Saved F)) (disk : Disk) (y : F) (file : Str) (nRange : List ℕ)
    (hst : ∀ d ∈ (precalcLargescale e y file nRange).dumps, Stores c d.value)
    {ops : List DiskOp} (hops : ops <+: (precalcLargescale e y file nRange).ops c) :
    (∀ f, f ≠ file → runOps disk ops f = disk f) ∧
    (runOps disk ops file = disk file ∨
      (∃ err, load c (runOps disk ops) file = .error err) ∨
      ∃ k, 1 ≤ k ∧ k ≤ nRange.length ∧ ∃ mn new, load c (runOps disk ops) file = .ok (.largescale nRange y mn new) ∧
        LargeAt e y nRange k mn new) := by
  obtain ⟨o1, -, -⟩ := large_spec (e := e) (y := y) (file := file) (nRange := nRange) nRange [] _ _ (by simp) (empty_large e y nRange)
  change ∀ d ∈ (precalcLargescale e y file nRange).dumps, _ at o1
  rcases crash_saves c disk (fun d hd => (o1 d hd).1) hops with ⟨-, h⟩ | ⟨ds1, d, ds2, p, hsplit, hp, h⟩
  · rw [h]
    exact ⟨fun _ _ => rfl, Or.inl rfl⟩
  · rw [h]
    refine ⟨fun f hf => put_other disk hf p, Or.inr ?_⟩
    have hm : d ∈ (precalcLargescale e y file nRange).dumps := by rw [hsplit]; simp
    rcases load_put_part (hst d hm) disk file hp with h' | h'
    · exact Or.inl h'
    · obtain ⟨-, k, hk, mn, new, hv, hs⟩ := o1 d hm
      exact Or.inr ⟨k + 1, by omega, hk, mn, new, by rw [h', hv], hs⟩

theorem C72_largescale_complete (e : BenchEnv F) (c : Codec (Saved F)) (disk : Disk) (y : F) (file : Str) (nRange : List ℕ)
    (hst : ∀ d ∈ (precalcLargescale e y file nRange).dumps, Stores c d.value) :
    (∀ mn new, (precalcLargescale e y file nRange).result = .ok (mn, new) →
      LargeAt e y nRange nRange.length mn new ∧
      (nRange ≠ [] → load c (runOps disk ((precalcLargescale e y file nRange).ops c)) file = .ok (.largescale nRange y mn new))) ∧
    ((∀ n ∈ nRange, (∃ r, ecdf2 e.env e.sort (mnPlusBounds e.sp n y) (List.replicate n one) true = .ok r) ∧
        ∃ r, ecdf1Newb e.env e.isqrt (mnPlusBounds e.sp n y) = .ok r) →
      ∃ mn new, (precalcLargescale e y file nRange).result = .ok (mn, new)) := by
  obtain ⟨o1, o2, o3⟩ := large_spec (e := e) (y := y) (file := file) (nRange := nRange) nRange [] _ _ (by simp) (empty_large e y nRange)
  change ∀ d ∈ (precalcLargescale e y file nRange).dumps, _ at o1
  refine ⟨fun mn new hs => ?_, o3⟩
  obtain ⟨h1, h2⟩ := o2 mn new hs
  refine ⟨h1, fun h0 => ?_⟩
  rcases h2 with ⟨h2, -⟩ | ⟨ds, t, h2⟩
  · exact absurd h2 h0
  · change (precalcLargescale e y file nRange).dumps = _ at h2
    unfold PyIO.ops
    rw [runOps_saves c disk fun d hd => (o1 d hd).1, h2, List.getLast?_append, List.getLast?_singleton, Option.some_or]
    exact load_put_whole (hst ⟨file, t, .largescale nRange y mn new⟩ (by rw [h2]; simp)) disk file _

/-- C72: `plot_relative_errors` fails on what an interrupted large scale run has saved. -/
theorem C72_relative_errors_interrupted {e : BenchEnv F} {y : F} {nRange : List ℕ} {k : ℕ} {mn new : Rows F}
    (h : LargeAt e y nRange k mn new) (hk : k < nRange.length) : ∃ err, relativeErrors new.results mn.results = .error err := by
  refine relativeErrors_none (i := k) (Or.inl ?_)
  have := h.new k _ (List.getElem?_eq_getElem hk)
  rw [if_neg (lt_irrefl _)] at this
  exact (this.1 rfl).1

end

/-! ## Exact arithmetic -/

theorem ones_toList (n : ℕ) : (List.replicate n one : List XR) = toList (fun _ : Fin n => (1 : ℝ)) := by
  unfold toList
  rw [List.ofFn_const]
  simp

/-- The four calls for one item give the same value, and one minus it is `Pr[M_n^+ < y]`. -/
theorem exact_calls {e : BenchEnv XR} (hf : ExactFFT e.env.fft) (hsort : SortContract e.sort) (hsp : SciPyContract e.sp)
    (hq : e.isqrt = Nat.sqrt) {n : ℕ} [NeZero n] (ha : e.env.asserts = false ∨ 2 ≤ n) {y : ℝ} (hy : y ∈ Icc (0 : ℝ) 1) :
    ∃ r : ℝ, ecdf2 e.env e.sort (mnPlusBounds e.sp n (XR.fin y)) (List.replicate n one) false = .ok (XR.fin r) ∧
      ecdf2 e.env e.sort (mnPlusBounds e.sp n (XR.fin y)) (List.replicate n one) true = .ok (XR.fin r) ∧
      ecdf1Mns2016b e.env (mnPlusBounds e.sp n (XR.fin y)) = .ok (XR.fin r) ∧
      ecdf1Newb e.env e.isqrt (mnPlusBounds e.sp n (XR.fin y)) = .ok (XR.fin r) ∧
      (one -ᶠ XR.fin r : XR) = XR.fin ((iidUniform n).real {x | bjStat x < y}) := by
  obtain ⟨t, et, ht, hl⟩ := C56_bounds hsp n hy
  have h1 : ValidBound (fun _ : Fin n => (1 : ℝ)) := ⟨fun _ _ _ => le_rfl, fun _ => ⟨zero_le_one, le_rfl⟩⟩
  have hc : ¬ StronglyCrossed t (fun _ : Fin n => (1 : ℝ)) := by
    unfold StronglyCrossed
    push Not
    intro i
    intros
    linarith [(ht.range i).2]
  refine ⟨lowerProb t, ?_, ?_, ?_, ?_, ?_⟩
  · rw [et, ones_toList, C01_ecdf2 e.env hf hsort ht h1 false (Or.inr hc), noncrossProb_ones fun _ => le_rfl]
  · rw [et, ones_toList, C01_ecdf2 e.env hf hsort ht h1 true (Or.inr hc), noncrossProb_ones fun _ => le_rfl]
  · rw [et, C04_ecdf1_mns2016_b e.env ht]
  · rw [et, hq, C03_ecdf1_new_b e.env hf NeZero.one_le ht ha]
  · rw [bjStat_law ht.range hl]
    simp

/-- C72: in exact arithmetic the results in the tables are `Pr[M_n^+ < threshold]`, for each algorithm that was run, and those of
the algorithms that are not run for that size are blank. -/
theorem C72_tables_exact {e : BenchEnv XR} (hf : ExactFFT e.env.fft) (hsort : SortContract e.sort) (hsp : SciPyContract e.sp)
    (hq : e.isqrt = Nat.sqrt) {maxKs maxMns len : ℕ} {th : List (ℕ × XR)} {count : ℕ → ℕ} {s : Tables XR}
    (h : TablesAt e maxKs maxMns len th count s) {i n : ℕ} [NeZero n] {y : ℝ} (hi : th[i]? = some (n, XR.fin y))
    (ha : e.env.asserts = false ∨ 2 ≤ n) (hy : y ∈ Icc (0 : ℝ) 1) (hc : count i ≠ 0) :
    s.ks2001.results[i]? = some (if n ≤ maxKs then some (XR.fin ((iidUniform n).real {x | bjStat x < y})) else none) ∧
    s.mns2016.results[i]? = some (if n ≤ maxMns then some (XR.fin ((iidUniform n).real {x | bjStat x < y})) else none) ∧
    s.mn2017.results[i]? = some (some (XR.fin ((iidUniform n).real {x | bjStat x < y}))) ∧
    s.new.results[i]? = some (some (XR.fin ((iidUniform n).real {x | bjStat x < y}))) := by
  obtain ⟨r, c1, c2, c3, c4, hr⟩ := exact_calls (n := n) hf hsort hsp hq ha hy
  have hne : ∀ f : ℕ → ℤ, (List.range (count i)).map f ≠ [] := by
    intro f h0
    exact hc (by simpa using h0)
  have q1 := h.ks2001 i n _ hi
  have q2 := h.mns2016 i n _ hi
  obtain ⟨r3, m3, e3, -, q3, -⟩ := (h.mn2017 i n _ hi).2 (hne _)
  obtain ⟨r4, m4, e4, -, q4, -⟩ := (h.new i n _ hi).2 (hne _)
  rw [c2] at e3
  rw [c4] at e4
  cases e3
  cases e4
  rw [hr] at q3 q4
  refine ⟨?_, ?_, q3, q4⟩
  · by_cases hk : n ≤ maxKs
    · simp only [hk, if_true] at q1 ⊢
      obtain ⟨r', m, e', -, q, -⟩ := q1.2 (hne _)
      rw [c1] at e'
      cases e'
      rw [q, hr]
    · simp only [hk, if_false] at q1 ⊢
      exact (q1.1 rfl).1
  · by_cases hk : n ≤ maxMns
    · simp only [hk, if_true] at q2 ⊢
      obtain ⟨r', m, e', -, q, -⟩ := q2.2 (hne _)
      rw [c3] at e'
      cases e'
      rw [q, hr]
    · simp only [hk, if_false] at q2 ⊢
      exact (q2.1 rfl).1

/-- C72: in exact arithmetic `precalc_timings_Mn_plus` returns, for any thresholds in [0,1]. -/
theorem C72_timings_exact {e : BenchEnv XR} (hf : ExactFFT e.env.fft) (hsort : SortContract e.sort) (hsp : SciPyContract e.sp)
    (hq : e.isqrt = Nat.sqrt) (c : Codec (Saved XR)) (disk : Disk) (source file : Str) (maxKs maxMns numReps : ℕ)
    {nRange : List ℕ} {th : List (ℕ × XR)} (hload : load c disk source = .ok (.thresholds nRange th)) (hlen : th.length ≤ nRange.length)
    (hst : ∀ d ∈ (precalcTimings e c disk source file maxKs maxMns numReps).dumps, Stores c d.value)
    (hth : ∀ n t, (n, t) ∈ th → 1 ≤ n ∧ (e.env.asserts = false ∨ 2 ≤ n) ∧ ∃ y ∈ Icc (0 : ℝ) 1, t = XR.fin y) :
    ∃ s, (precalcTimings e c disk source file maxKs maxMns numReps).result = .ok s ∧
      TablesAt e maxKs maxMns nRange.length th (fun _ => numReps) s := by
  obtain ⟨h1, h2⟩ := C72_timings_complete e c disk source file maxKs maxMns numReps hload hlen hst
  obtain ⟨s, hs⟩ := h2 fun n t hm => by
    obtain ⟨hn, ha, y, hy, rfl⟩ := hth n t hm
    haveI : NeZero n := ⟨by omega⟩
    obtain ⟨r, c1, c2, c3, c4, -⟩ := exact_calls (n := n) hf hsort hsp hq ha hy
    exact ⟨fun _ => ⟨_, c1⟩, fun _ => ⟨_, c3⟩, ⟨_, c2⟩, ⟨_, c4⟩⟩
  exact ⟨s, hs, (h1 s hs).1⟩

theorem bjStat_pos {n : ℕ} [NeZero n] {sp : SciPy XR} (hsp : SciPyContract sp) {y : ℝ} (hy : y ∈ Icc (0 : ℝ) 1) (h0 : 0 < y) :
    0 < (iidUniform n).real {x : Fin n → ℝ | bjStat x < y} := by
  obtain ⟨t, et, ht, hl⟩ := C56_bounds hsp n hy
  rw [bjStat_law ht.range hl]
  have hi : (0 : ℕ) < n := NeZero.pos n
  have h1 : lowerProb t ≤ 1 - y := by
    unfold lowerProb
    have hm := measurable_orderStat_le (n := n) ⟨0, hi⟩ (t ⟨0, hi⟩)
    have hc := probReal_compl_eq_one_sub (μ := iidUniform n) hm
    rw [hl ⟨0, hi⟩] at hc
    rw [← hc]
    unfold Measure.real
    refine ENNReal.toReal_mono (measure_ne_top _ _) (measure_mono_ae ?_)
    filter_upwards [ae_ne (n := n) (t ⟨0, hi⟩)] with u hu hall hle
    exact hu _ (le_antisymm hle (hall ⟨0, hi⟩))
  linarith

theorem relativeErrors_same {v : List ℝ} (h : ∀ x ∈ v, x ≠ 0) :
    relativeErrors (v.map fun x => some (XR.fin x)) (v.map fun x => some (XR.fin x)) = .ok (List.replicate v.length (XR.fin 0)) := by
  induction v with
  | nil => rfl
  | cons x v ih =>
    have hx := h x (by simp)
    rw [List.map_cons, relativeErrors, ih fun z hz => h z (by simp [hz])]
    have hd : (XR.fin 0 /ᶠ XR.fin x : XR) = XR.fin 0 := by rw [XR.div_fin _ hx, zero_div]
    simp [hd, List.replicate_succ]

/-- C72: in exact arithmetic the relative errors that `plot_relative_errors` draws are all zero (for a threshold in (0,1]). -/
theorem C72_relative_errors_exact {e : BenchEnv XR} (hf : ExactFFT e.env.fft) (hsort : SortContract e.sort) (hsp : SciPyContract e.sp)
    (hq : e.isqrt = Nat.sqrt) {nRange : List ℕ} {y : ℝ} (hy : y ∈ Icc (0 : ℝ) 1) (h0 : 0 < y)
    (hn : ∀ n ∈ nRange, 1 ≤ n ∧ (e.env.asserts = false ∨ 2 ≤ n)) {mn new : Rows XR}
    (h : LargeAt e (XR.fin y) nRange nRange.length mn new) :
    relativeErrors new.results mn.results = .ok (List.replicate nRange.length (XR.fin 0)) := by
  have hP : ∀ n ∈ nRange, ∃ p : ℝ, p ≠ 0 ∧ ∀ i : ℕ, nRange[i]? = some n → mn.results[i]? = some (some (XR.fin p)) ∧
      new.results[i]? = some (some (XR.fin p)) := by
    intro n hm
    obtain ⟨h1, ha⟩ := hn n hm
    haveI : NeZero n := ⟨by omega⟩
    obtain ⟨r, -, c2, -, c4, hr⟩ := exact_calls (n := n) hf hsort hsp hq ha hy
    refine ⟨_, (bjStat_pos (n := n) hsp hy h0).ne', fun i hi => ?_⟩
    have hlt := (List.getElem?_eq_some_iff.mp hi).1
    have q3 := h.mn2017 i n hi
    have q4 := h.new i n hi
    rw [if_pos hlt] at q3 q4
    obtain ⟨r3, m3, e3, -, q3, -⟩ := q3.2 (by simp)
    obtain ⟨r4, m4, e4, -, q4, -⟩ := q4.2 (by simp)
    rw [c2] at e3
    rw [c4] at e4
    cases e3
    cases e4
    rw [hr] at q3 q4
    exact ⟨q3, q4⟩
  choose! P hP0 hP using hP
  have hl := h.lengths
  simp only [List.mem_cons, List.not_mem_nil, or_false, forall_eq_or_imp, forall_eq] at hl
  have key : mn.results = (nRange.map P).map (fun x => some (XR.fin x)) ∧ new.results = (nRange.map P).map (fun x => some (XR.fin x)) := by
    constructor
    all_goals
      apply List.ext_getElem?
      intro i
      by_cases hi : i < nRange.length
      · have := hP _ (List.getElem_mem hi) i (List.getElem?_eq_getElem hi)
        first
          | rw [this.1]; simp [hi]
          | rw [this.2]; simp [hi]
      · rw [List.getElem?_eq_none (by omega), List.getElem?_eq_none (by simp; omega)]
  rw [key.1, key.2, relativeErrors_same, List.length_map]
  intro x hx
  obtain ⟨n, hm, rfl⟩ := List.mem_map.mp hx
  exact hP0 n hm

/-! ## All together -/

section
variable {F : Type} [FOps F]

theorem pickledName_inj {dir a b : Str} (h : pickledName dir a = pickledName dir b) : a = b := by
  unfold pickledName at h
  rw [List.append_assoc, List.append_assoc, List.append_assoc, List.append_assoc] at h
  have h1 := List.append_cancel_left h
  have h2 := List.append_cancel_left h1
  exact List.append_cancel_right h2

theorem files_ne (dir : Str) {text : Str} (htext : text ≠ "largescale".toList) :
    thresholdsFile dir text ≠ timingsFile dir text ∧ thresholdsFile dir text ≠ largescaleFile dir ∧
    timingsFile dir text ≠ largescaleFile dir := by
  refine ⟨fun h => ?_, fun h => ?_, fun h => ?_⟩
  · have := pickledName_inj h
    simp at this
  · have := pickledName_inj h
    simp at this
  · have := pickledName_inj h
    simp at this
    exact htext (by simpa using this)

/-- What `precalc_all` does if it returns. -/
theorem all_run {e : BenchEnv F} {c : Codec (Saved F)} {disk : Disk} {dir text : Str} {alpha y : F} {clock : ℕ → ℕ}
    {nRange large : List ℕ} {maxKs maxMns numReps : ℕ}
    (hres : (precalcAll e c disk dir text alpha y clock nRange large maxKs maxMns numReps).result = .ok ()) :
    ∃ s mn new, (precalcThresholds e.env e.sp e.isqrt alpha (thresholdsFile dir text) clock nRange).result = .ok () ∧
      (precalcTimings e c (runOps disk ((precalcThresholds e.env e.sp e.isqrt alpha (thresholdsFile dir text) clock nRange).ops c))
        (thresholdsFile dir text) (timingsFile dir text) maxKs maxMns numReps).result = .ok s ∧
      (precalcLargescale e y (largescaleFile dir) large).result = .ok (mn, new) ∧
      (precalcAll e c disk dir text alpha y clock nRange large maxKs maxMns numReps).dumps =
        (precalcThresholds e.env e.sp e.isqrt alpha (thresholdsFile dir text) clock nRange).dumps ++
        ((precalcTimings e c (runOps disk ((precalcThresholds e.env e.sp e.isqrt alpha (thresholdsFile dir text) clock nRange).ops c))
          (thresholdsFile dir text) (timingsFile dir text) maxKs maxMns numReps).dumps ++
        (precalcLargescale e y (largescaleFile dir) large).dumps) := by
  unfold precalcAll at hres ⊢
  dsimp only at hres ⊢
  obtain ⟨x1, hx1⟩ : ∃ x, x = precalcThresholds e.env e.sp e.isqrt alpha (thresholdsFile dir text) clock nRange := ⟨_, rfl⟩
  rw [← hx1] at hres ⊢
  obtain ⟨x2, hx2⟩ : ∃ x, x = precalcTimings e c (runOps disk (x1.ops c)) (thresholdsFile dir text) (timingsFile dir text) maxKs maxMns
    numReps := ⟨_, rfl⟩
  rw [← hx2] at hres ⊢
  obtain ⟨x3, hx3⟩ : ∃ x, x = precalcLargescale e y (largescaleFile dir) large := ⟨_, rfl⟩
  rw [← hx3] at hres ⊢
  cases r1 : x1.result with
  | error err =>
    rw [PyIO.bind_error r1] at hres
    cases hres
  | ok u =>
    rw [PyIO.bind_ok r1] at hres ⊢
    cases r2 : x2.result with
    | error err =>
      rw [PyIO.bind_error r2] at hres
      cases hres
    | ok s =>
      rw [PyIO.bind_ok r2] at hres ⊢
      cases r3 : x3.result with
      | error err =>
        rw [PyIO.bind_error r3] at hres
        cases hres
      | ok p =>
        rw [PyIO.bind_ok r3]
        refine ⟨s, p.1, p.2, rfl, rfl, rfl, ?_⟩
        simp [pure]

/-- C72: after `precalc_all` the three files hold the thresholds of all sizes, the timings and results for exactly these thresholds,
and the large scale results. -/
theorem C72_all (e : BenchEnv F) (c : Codec (Saved F)) (disk : Disk) (dir : Str) {text : Str} (htext : text ≠ "largescale".toList)
    (alpha y : F) (clock : ℕ → ℕ) {nRange large : List ℕ} (h1 : nRange ≠ []) (h2 : large ≠ []) (maxKs maxMns : ℕ) {numReps : ℕ}
    (h3 : numReps ≠ 0)
    (hst : ∀ d ∈ (precalcAll e c disk dir text alpha y clock nRange large maxKs maxMns numReps).dumps, Stores c d.value)
    (hres : (precalcAll e c disk dir text alpha y clock nRange large maxKs maxMns numReps).result = .ok ())
    {after : Disk} (hafter : after = runOps disk ((precalcAll e c disk dir text alpha y clock nRange large maxKs maxMns numReps).ops c)) :
    ∃ ts s mn new, nRange.map (fun n => inverseMnPlus e.env e.sp e.isqrt n alpha) = ts.map .ok ∧
      TablesAt e maxKs maxMns nRange.length (nRange.zip ts) (fun _ => numReps) s ∧
      LargeAt e y large large.length mn new ∧
      load c after (thresholdsFile dir text) = .ok (.thresholds nRange (nRange.zip ts)) ∧
      load c after (timingsFile dir text) = .ok (.timings nRange numReps s) ∧
      load c after (largescaleFile dir) = .ok (.largescale large y mn new) := by
  obtain ⟨s, mn, new, r1, r2, r3, hd⟩ := all_run hres
  obtain ⟨n1, n2, n3⟩ := files_ne dir htext
  rw [hd] at hst
  obtain ⟨ts, hts⟩ : ∃ ts : List F, nRange.map (fun n => inverseMnPlus e.env e.sp e.isqrt n alpha) = ts.map .ok := by
    rcases split_found (fun n => inverseMnPlus e.env e.sp e.isqrt n alpha) nRange with h | ⟨good, n, rest, ts, x, hs, hg, he⟩
    · exact h
    · exfalso
      have hrun := thresholdsLoop_found (thresholdsFile dir text) clock nRange good ts (n :: rest) [] hg
      unfold precalcThresholds at r1
      rw [← hs] at hrun
      rw [hrun, thresholdsLoop_cons_error he] at r1
      cases r1
  have hs1 := fun d hdd => hst d (List.mem_append_left _ hdd)
  have hs2 := fun d hdd => hst d (List.mem_append_right _ (List.mem_append_left _ hdd))
  have hs3 := fun d hdd => hst d (List.mem_append_right _ (List.mem_append_right _ hdd))
  have s1 := C72_thresholds_saved e.env e.sp e.isqrt alpha (thresholdsFile dir text) clock nRange [] ts hts (.ok ())
    (Or.inl ⟨rfl, rfl⟩) c (by rw [List.append_nil]; exact hs1) disk
  rw [List.append_nil] at s1
  have hload := s1.2.2 h1
  have hlen : (nRange.zip ts).length ≤ nRange.length := by rw [List.length_zip]; exact min_le_left _ _
  have hlen' : nRange.length = ts.length := by
    have := congrArg List.length hts
    simpa using this
  have hz : nRange.zip ts ≠ [] := by
    intro h0
    have := congrArg List.length h0
    rw [List.length_zip, ← hlen', min_self, List.length_nil] at this
    exact h1 (List.length_eq_zero_iff.mp this)
  have s2 := (C72_timings_complete e c _ (thresholdsFile dir text) (timingsFile dir text) maxKs maxMns numReps hload hlen hs2).1 s r2
  have c2 := fun ops hops => (C72_timings_crash e c _ (thresholdsFile dir text) (timingsFile dir text) maxKs maxMns numReps hload hlen
    hs2 (ops := ops) hops).1
  have hD : after = runOps (runOps (runOps disk
      ((precalcThresholds e.env e.sp e.isqrt alpha (thresholdsFile dir text) clock nRange).ops c))
      ((precalcTimings e c (runOps disk ((precalcThresholds e.env e.sp e.isqrt alpha (thresholdsFile dir text) clock nRange).ops c))
          (thresholdsFile dir text) (timingsFile dir text) maxKs maxMns numReps).ops c))
      ((precalcLargescale e y (largescaleFile dir) large).ops c) := by
    rw [hafter]
    unfold PyIO.ops
    rw [hd, List.flatMap_append, List.flatMap_append, runOps_append, runOps_append]
    rfl
  have s3 := (C72_largescale_complete e c (runOps (runOps disk
      ((precalcThresholds e.env e.sp e.isqrt alpha (thresholdsFile dir text) clock nRange).ops c))
      ((precalcTimings e c (runOps disk ((precalcThresholds e.env e.sp e.isqrt alpha (thresholdsFile dir text) clock nRange).ops c))
          (thresholdsFile dir text) (timingsFile dir text) maxKs maxMns numReps).ops c)) y (largescaleFile dir) large hs3).1 mn new r3
  have c3 := fun disk ops hops => (C72_largescale_crash e c disk y (largescaleFile dir) large hs3 (ops := ops) hops).1
  refine ⟨ts, s, mn, new, hts, s2.1, s3.1, ?_, ?_, ?_⟩
  · rw [hD]
    unfold load
    rw [c3 _ _ List.prefix_rfl _ n2, c2 _ List.prefix_rfl _ n1]
    exact hload
  · rw [hD]
    unfold load
    rw [c3 _ _ List.prefix_rfl _ n3]
    exact s2.2 h3 hz
  · rw [hD]
    exact s3.2 h2

end

section
variable {F : Type} [FOps F]

theorem runOps_untouched {V : Type} (c : Codec V) (disk : Disk) (f : Str) (ds : List (Dump V)) (h : ∀ d ∈ ds, d.file ≠ f) :
    runOps disk (ds.flatMap (Dump.ops c)) f = disk f := by
  induction ds using List.reverseRecOn with
  | nil => rfl
  | append_singleton ds d ih =>
    rw [List.flatMap_append, runOps_append, List.flatMap_cons, List.flatMap_nil, List.append_nil, runOps_dump,
      put_other _ (h d (by simp)).symm]
    exact ih fun d' hd' => h d' (by simp [hd'])

theorem runOps_same {V : Type} (c : Codec V) (disk disk' : Disk) (f : Str) (ds : List (Dump V)) (h : ∃ d ∈ ds, d.file = f) :
    runOps disk (ds.flatMap (Dump.ops c)) f = runOps disk' (ds.flatMap (Dump.ops c)) f := by
  induction ds using List.reverseRecOn with
  | nil => simp at h
  | append_singleton ds d ih =>
    rw [List.flatMap_append, runOps_append, runOps_append, List.flatMap_cons, List.flatMap_nil, List.append_nil, runOps_dump,
      runOps_dump]
    by_cases hd : f = d.file
    · subst hd
      simp [Disk.put]
    · rw [put_other _ hd, put_other _ hd]
      refine ih ?_
      obtain ⟨d', hm, rfl⟩ := h
      rcases List.mem_append.mp hm with hm | hm
      · exact ⟨d', hm, rfl⟩
      · rw [List.mem_singleton.mp hm] at hd
        exact absurd rfl hd

/-- C72: `precalc_all` can be started again after a crash: from any state of the disk, a complete run leaves the same contents in
its three files. -/
theorem C72_all_rerun (e : BenchEnv F) (c : Codec (Saved F)) (disk disk' : Disk) (dir : Str) {text : Str}
    (htext : text ≠ "largescale".toList)
    (alpha y : F) (clock : ℕ → ℕ) {nRange large : List ℕ} (h1 : nRange ≠ []) (h2 : large ≠ []) (maxKs maxMns : ℕ) {numReps : ℕ}
    (h3 : numReps ≠ 0)
    (hst : ∀ d ∈ (precalcAll e c disk dir text alpha y clock nRange large maxKs maxMns numReps).dumps, Stores c d.value)
    (hres : (precalcAll e c disk dir text alpha y clock nRange large maxKs maxMns numReps).result = .ok ()) :
    (precalcAll e c disk' dir text alpha y clock nRange large maxKs maxMns numReps).result = .ok () ∧
    ∀ f ∈ [thresholdsFile dir text, timingsFile dir text, largescaleFile dir],
      runOps disk' ((precalcAll e c disk' dir text alpha y clock nRange large maxKs maxMns numReps).ops c) f =
      runOps disk ((precalcAll e c disk dir text alpha y clock nRange large maxKs maxMns numReps).ops c) f := by
  have same : ∀ disk2, precalcAll e c disk2 dir text alpha y clock nRange large maxKs maxMns numReps
      = precalcAll e c disk dir text alpha y clock nRange large maxKs maxMns numReps := by
    intro disk2
    obtain ⟨s, mn, new, r1, r2, r3, hd⟩ := all_run hres
    have hst' := hst
    rw [hd] at hst'
    have hs1 := fun d hdd => hst' d (List.mem_append_left _ hdd)
    obtain ⟨ts, -, -, -, hts, -, -, -, -, -⟩ := C72_all e c disk dir htext alpha y clock h1 h2 maxKs maxMns h3 hst hres rfl
    have load1 : ∀ dk, load c (runOps dk ((precalcThresholds e.env e.sp e.isqrt alpha (thresholdsFile dir text) clock nRange).ops c))
        (thresholdsFile dir text) = .ok (.thresholds nRange (nRange.zip ts)) := by
      intro dk
      have s1 := C72_thresholds_saved e.env e.sp e.isqrt alpha (thresholdsFile dir text) clock nRange [] ts hts (.ok ())
        (Or.inl ⟨rfl, rfl⟩) c (by rw [List.append_nil]; exact hs1) dk
      rw [List.append_nil] at s1
      exact s1.2.2 h1
    unfold precalcAll
    dsimp only
    rw [precalcTimings_eq (load1 disk2), precalcTimings_eq (load1 disk)]
  rw [same disk']
  refine ⟨hres, fun f hf => ?_⟩
  refine runOps_same c disk' disk f _ ?_
  by_contra hno
  push Not at hno
  have hz := same (fun _ => none)
  obtain ⟨ts, s, mn, new, -, -, -, l1, l2, l3⟩ := C72_all e c (fun _ => none) dir htext alpha y clock h1 h2 maxKs maxMns h3
    (by rw [hz]; exact hst) (by rw [hz]; exact hres) rfl
  rw [hz] at l1 l2 l3
  have hu : runOps (fun _ => none) ((precalcAll e c disk dir text alpha y clock nRange large maxKs maxMns numReps).ops c) f = none :=
    runOps_untouched c _ f _ hno
  simp only [List.mem_cons, List.not_mem_nil, or_false] at hf
  rcases hf with rfl | rfl | rfl
  · unfold load at l1
    rw [hu] at l1
    cases l1
  · unfold load at l2
    rw [hu] at l2
    cases l2
  · unfold load at l3
    rw [hu] at l3
    cases l3

end

/-! ## The hypotheses can be met -/

open Classical in
/-- A way to write finitely many values: the position in a list, in unary, and an end mark. -/
noncomputable def indexCodec {V : Type} (l : List V) : Codec V where
  encode _ v := List.replicate (l.idxOf v) 0 ++ [1]
  decode p := if p.getLast? = some 1 then l[p.length - 1]? else none

theorem indexCodec_stores {V : Type} {l : List V} {v : V} (hv : v ∈ l) : Stores (indexCodec l) v := by
  classical
  have hw : ∀ t, (indexCodec l).decode ((indexCodec l).encode t v) = some v := by
    intro t
    simp only [indexCodec, List.getLast?_append, List.getLast?_singleton, Option.some_or, if_true, List.length_append,
      List.length_replicate, List.length_singleton, Nat.add_sub_cancel]
    have hlt := List.idxOf_lt_length_of_mem hv
    rw [List.getElem?_eq_getElem hlt]
    congr 1
    exact List.getElem_idxOf hlt
  refine ⟨hw, fun t p hp => ?_⟩
  have he : (indexCodec l).encode t v = List.replicate (l.idxOf v) 0 ++ [1] := by
    simp only [indexCodec]
  rw [he, List.prefix_concat_iff] at hp
  rcases hp with rfl | hp
  · right
    rw [← he]
    exact hw t
  · left
    have hall : ∀ x ∈ p, x = 0 := fun x hx => List.eq_of_mem_replicate (hp.subset hx)
    simp only [indexCodec]
    rw [if_neg]
    intro h
    have := hall 1 (List.mem_of_getLast? h)
    exact absurd this (by decide)

theorem indexCodec_empty {V : Type} (l : List V) : (indexCodec l).decode [] = none := by simp [indexCodec]

/-- An example of timings in exact arithmetic: sizes 2 and 3, levels 1/10 and 1/2, two repetitions. -/
noncomputable def exBench : BenchEnv XR :=
  { env := relEnv, sp := exactSciPy, sort := mergeSortBounds, isqrt := Nat.sqrt, elapsed := fun rep i a => 7 + rep + 10 * i - a,
    clock := fun rep i => 100 * rep + i }

noncomputable def exThresholds : List (ℕ × XR) := [(2, XR.fin (1 / 10)), (3, XR.fin (1 / 2))]

noncomputable def exCodec : Codec (Saved XR) :=
  indexCodec (.thresholds [2, 3] exThresholds :: (timingsOuter exBench 2 1 2 ['t'] [2, 3] exThresholds 2 0
    ⟨Rows.empty 2, Rows.empty 2, Rows.empty 2, Rows.empty 2⟩).dumps.map (·.value))

noncomputable def exDisk : Disk := Disk.put (fun _ => none) ['s'] (exCodec.encode 5 (.thresholds [2, 3] exThresholds))

theorem exLoad : load exCodec exDisk ['s'] = .ok (.thresholds [2, 3] exThresholds) :=
  load_put_whole (indexCodec_stores (by simp)) _ _ _

theorem exStores : ∀ d ∈ (precalcTimings exBench exCodec exDisk ['s'] ['t'] 2 1 2).dumps, Stores exCodec d.value := by
  intro d hd
  rw [precalcTimings_eq exLoad] at hd
  exact indexCodec_stores (List.mem_cons_of_mem _ (List.mem_map.mpr ⟨d, hd, rfl⟩))

/-- The run returns, and the entry of size 3 of the new method is `Pr[M_3^+ < 1/2]`; that of the method for sizes up to 2 is blank. -/
example : ∃ s, (precalcTimings exBench exCodec exDisk ['s'] ['t'] 2 1 2).result = .ok s ∧
    s.new.results[1]? = some (some (XR.fin ((iidUniform 3).real {x | bjStat x < 1 / 2}))) ∧
    s.ks2001.results[1]? = some none ∧
    load exCodec (runOps exDisk ((precalcTimings exBench exCodec exDisk ['s'] ['t'] 2 1 2).ops exCodec)) ['t']
      = .ok (.timings [2, 3] 2 s) := by
  obtain ⟨s, hs, ht⟩ := C72_timings_exact (e := exBench) exactFFTW_exact mergeSortBounds_contract exactSciPy_contract rfl exCodec exDisk
    ['s'] ['t'] 2 1 2 exLoad (by simp [exThresholds]) exStores (by
      intro n t h
      simp only [exThresholds, List.mem_cons, List.not_mem_nil, or_false, Prod.mk.injEq] at h
      rcases h with ⟨rfl, rfl⟩ | ⟨rfl, rfl⟩
      · exact ⟨by norm_num, Or.inl rfl, _, ⟨by norm_num, by norm_num⟩, rfl⟩
      · exact ⟨by norm_num, Or.inl rfl, _, ⟨by norm_num, by norm_num⟩, rfl⟩)
  obtain ⟨q1, -, -, q4⟩ := C72_tables_exact (e := exBench) exactFFTW_exact mergeSortBounds_contract exactSciPy_contract rfl ht
    (i := 1) (n := 3) (y := 1 / 2) rfl (Or.inl rfl) ⟨by norm_num, by norm_num⟩ (by norm_num)
  exact ⟨s, hs, q4, by simpa using q1,
    ((C72_timings_complete exBench exCodec exDisk ['s'] ['t'] 2 1 2 exLoad (by simp [exThresholds]) exStores).1 s hs).2
      (by norm_num) (by simp [exThresholds])⟩

/-! A complete run of `precalc_all` in 53-bit arithmetic, for one size (1) and level 1/20. -/

theorem unit_threshold : ∃ r : ℝ, 1 / 100 ≤ r ∧ r ≤ 1 / 2 ∧
    inverseMnPlus fpFftEnv (unitSciPy 53) Nat.sqrt 1 (some (1 / 20) : Option ℝ) = .ok (some r : Option ℝ) := by
  obtain ⟨r, hr, e, hl⟩ := bisect_unit Nat.sqrt
  have hP : (iidUniform 1).real {s : Fin 1 → ℝ | bjStat s < r} = r := by
    have hq : ∀ i : Fin 1, orderCdf 1 i r = r := by
      intro i
      have := orderCdf_eq_beta i hr.1 hr.2
      have hi : i = 0 := Subsingleton.elim _ _
      subst hi
      rw [this]
      exact regIncBeta_one_one r
    have := bjStat_law (n := 1) (t := fun _ => r) (y := r) (fun _ => hr) hq
    rw [this]
    have h2 : lowerProb (fun _ : Fin 1 => r) = 1 - r := by
      have hc := probReal_compl_eq_one_sub (μ := iidUniform 1) (measurable_orderStat_le (n := 1) 0 r)
      have hq0 := hq 0
      unfold orderCdf at hq0
      rw [hq0] at hc
      rw [← hc]
      unfold lowerProb
      refine measureReal_congr ?_
      filter_upwards [ae_ne (n := 1) r] with u hu
      refine propext ⟨fun h hle => ?_, fun h i => ?_⟩
      · exact hu _ (le_antisymm hle (h 0))
      · have hi : i = 0 := Subsingleton.elim _ _
        subst hi
        have h' : ¬ orderStat u 0 ≤ r := h
        exact (not_le.mp h').le
    rw [h2]
    ring
  rw [hP, abs_le] at hl
  refine ⟨r, ?_, ?_, e⟩
  · have := hl.1
    norm_num at this ⊢
    linarith
  · have := hl.2
    norm_num at this ⊢
    linarith

noncomputable def unitBench : BenchEnv (Fp 53) :=
  { env := fpFftEnv, sp := unitSciPy 53, sort := fpSort, isqrt := Nat.sqrt, elapsed := fun rep _ a => 9 - rep + a,
    clock := fun rep i => 100 * rep + i }

theorem unit_calls {r : ℝ} (h1 : 1 / 100 ≤ r) (h2 : r ≤ 1 / 2)
    (h : inverseMnPlus fpFftEnv (unitSciPy 53) Nat.sqrt 1 (some (1 / 20) : Option ℝ) = .ok (some r : Option ℝ)) :
    (∃ x, ecdf2 fpFftEnv fpSort (mnPlusBounds (unitSciPy 53) 1 (some r : Option ℝ)) (List.replicate 1 one) true = .ok x) ∧
    ∃ x, ecdf1Newb fpFftEnv Nat.sqrt (mnPlusBounds (unitSciPy 53) 1 (some r : Option ℝ)) = .ok x := by
  constructor
  · have hmem : ∀ x ∈ ({0, 1} ∪ range (fun _ : Fin 1 => r) ∪ range (fun _ : Fin 1 => (1 : ℝ)) : Set ℝ), x = 0 ∨ x = 1 ∨ x = r := by
      rintro x ((h | ⟨i, rfl⟩) | ⟨i, rfl⟩)
      · rcases h with h | h
        · exact Or.inl h
        · exact Or.inr (Or.inl h)
      · exact Or.inr (Or.inr rfl)
      · exact Or.inr (Or.inl rfl)
    have g2 : (2 : ℝ) ^ (-(110 : ℤ)) ≤ 1 / 100 := by norm_num
    have hu : ((2 : ℝ) ^ (-((53 : ℕ) : ℤ))) = 1 / 9007199254740992 := by norm_num
    have hQ : 5 * ((1 : ℕ) : ℝ) * 77 + 10 * ((1 : ℕ) : ℝ) + 3 * Real.log (Nat.factorial 1) + 1 ≤ ((396 : ℕ) : ℝ) := by
      norm_num [Nat.factorial]
    obtain ⟨x, hx, -⟩ := C52_binary_floating_point (p := 53) (by norm_num) fpFftEnv (n := 1) le_rfl
      (b := fun _ => r) (B := fun _ => 1) ⟨fun _ _ _ => le_rfl, fun _ => ⟨by linarith, by linarith⟩⟩
      ⟨fun _ _ _ => le_rfl, fun _ => ⟨zero_le_one, le_rfl⟩⟩ (Or.inl rfl) (fpSort_contract (p := 53) (by omega) 0).perm
      (fpSort_contract (p := 53) (by omega) 0).sorted fpFft_accurate (by norm_num) (Lam := 77)
      (by
        intro x hx z hz hlt
        rw [Nat.cast_one, one_mul]
        refine log_small (g2.trans ?_) ?_ <;>
        rcases hmem x hx with rfl | rfl | rfl <;> rcases hmem z hz with rfl | rfl | rfl <;> linarith)
      hQ rfl rfl (by rw [sqrt4096, hu]; norm_num)
    have e1 : (List.replicate 1 one : List (Fp 53)) = List.ofFn (fpVec fun _ : Fin 1 => (1 : ℝ)) := by
      have h1 : (one : Fp 53) = (some (1 : ℝ) : Option ℝ) := by
        show (some ((1 : ℤ) : ℝ) : Option ℝ) = some 1
        simp
      rw [h1]
      rfl
    refine ⟨some x, ?_⟩
    rw [e1]
    exact hx
  · unfold inverseMnPlus bisect at h
    obtain ⟨a, -, h⟩ := bindOk h
    split at h
    · obtain ⟨d, hd, h⟩ := bindOk h
      have h' : a.2 = (some r : Option ℝ) := Except.ok.inj h
      rw [h'] at hd
      unfold mnPlusDistribution at hd
      obtain ⟨x, hx, -⟩ := bindOk hd
      exact ⟨x, hx⟩
    · cases h

/-- `precalc_all` returns for some way to write values that is able to store everything it saves. -/
example : ∃ (c : Codec (Saved (Fp 53))) (y : Fp 53), ∀ disk : Disk,
    (precalcAll unitBench c disk ['d'] "0.05".toList (some (1 / 20) : Option ℝ) y (fun j => j) [1] [1] 0 0 2).result = .ok () ∧
    (∀ d ∈ (precalcAll unitBench c disk ['d'] "0.05".toList (some (1 / 20) : Option ℝ) y (fun j => j) [1] [1] 0 0 2).dumps,
      Stores c d.value) := by
  obtain ⟨r, h1, h2, hr⟩ := unit_threshold
  obtain ⟨y, hy⟩ : ∃ y : Fp 53, y = (some r : Option ℝ) := ⟨_, rfl⟩
  rw [← hy] at hr
  obtain ⟨c2, c4⟩ := unit_calls h1 h2 (hy ▸ hr)
  rw [← hy] at c2 c4
  obtain ⟨x1, hx1⟩ : ∃ x : PyIO (Saved (Fp 53)) Unit, x = precalcThresholds unitBench.env unitBench.sp unitBench.isqrt
    (some (1 / 20) : Option ℝ) (thresholdsFile ['d'] "0.05".toList) (fun j => j) [1] := ⟨_, rfl⟩
  obtain ⟨x2, hx2⟩ : ∃ x : PyIO (Saved (Fp 53)) (Tables (Fp 53)), x = timingsOuter unitBench 0 0 2 (timingsFile ['d'] "0.05".toList)
    [1] [(1, y)] 2 0 ⟨Rows.empty 1, Rows.empty 1, Rows.empty 1, Rows.empty 1⟩ := ⟨_, rfl⟩
  obtain ⟨x3, hx3⟩ : ∃ x : PyIO (Saved (Fp 53)) (Rows (Fp 53) × Rows (Fp 53)), x = precalcLargescale unitBench y (largescaleFile ['d'])
    [1] := ⟨_, rfl⟩
  have hinv : [1].map (fun n => inverseMnPlus unitBench.env unitBench.sp unitBench.isqrt n (some (1 / 20) : Option ℝ)) = [y].map .ok := by
    simp only [List.map_cons, List.map_nil]
    exact congrArg (· :: []) hr
  have run1 := thresholdsLoop_found (thresholdsFile ['d'] "0.05".toList) (fun j => j) [1] [1] [y] [] [] hinv
  have e1 : x1 = ⟨[⟨thresholdsFile ['d'] "0.05".toList, 0, .thresholds [1] [(1, y)]⟩], .ok ()⟩ := by
    rw [hx1]
    exact run1
  refine ⟨indexCodec ((x1.dumps ++ (x2.dumps ++ x3.dumps)).map (·.value)), y, fun disk => ?_⟩
  obtain ⟨c, hc⟩ : ∃ c, c = indexCodec ((x1.dumps ++ (x2.dumps ++ x3.dumps)).map (·.value)) := ⟨_, rfl⟩
  rw [← hc]
  have hst : ∀ d ∈ x1.dumps ++ (x2.dumps ++ x3.dumps), Stores c d.value := by
    intro d hd
    rw [hc]
    exact indexCodec_stores (List.mem_map.mpr ⟨d, hd, rfl⟩)
  have hload : load c (runOps disk (x1.ops c)) (thresholdsFile ['d'] "0.05".toList) = .ok (.thresholds [1] [(1, y)]) := by
    have hs := hst ⟨thresholdsFile ['d'] "0.05".toList, 0, .thresholds [1] [(1, y)]⟩ (by rw [e1]; simp)
    have : runOps disk (x1.ops c) = disk.put (thresholdsFile ['d'] "0.05".toList) (c.encode 0 (.thresholds [1] [(1, y)])) := by
      unfold PyIO.ops
      rw [e1]
      simp only [List.flatMap_cons, List.flatMap_nil, List.append_nil]
      exact runOps_dump c disk _
    rw [this]
    exact load_put_whole hs _ _ _
  have o := outer_spec (e := unitBench) (maxKs := 0) (maxMns := 0) (numReps := 2) (file := timingsFile ['d'] "0.05".toList)
    (nRange := [1]) (th := [(1, y)]) 2 0 _ (by omega) (empty_tables unitBench 0 0 (by simp))
  obtain ⟨s, hs⟩ := o.2.2 (by
    intro x hx
    rw [List.mem_singleton.mp hx]
    exact ⟨fun h => absurd h (by norm_num), fun h => absurd h (by norm_num), c2, c4⟩)
  have l := large_spec (e := unitBench) (y := y) (file := largescaleFile ['d']) (nRange := [1]) [1] [] _ _ (by simp)
    (empty_large unitBench y [1])
  obtain ⟨mn, new, hl⟩ := l.2.2 (by
    intro n hn
    rw [List.mem_singleton.mp hn]
    exact ⟨c2, c4⟩)
  have r1 : x1.result = .ok () := by rw [e1]
  have r2 : x2.result = .ok s := by rw [hx2]; exact hs
  have r3 : x3.result = .ok (mn, new) := by rw [hx3]; exact hl
  have hall : precalcAll unitBench c disk ['d'] "0.05".toList (some (1 / 20) : Option ℝ) y (fun j => j) [1] [1] 0 0 2
      = ⟨x1.dumps ++ (x2.dumps ++ x3.dumps), .ok ()⟩ := by
    unfold precalcAll
    dsimp only
    rw [← hx1, precalcTimings_eq hload, ← hx3, PyIO.bind_ok r1]
    have : timingsOuter unitBench 0 0 2 (timingsFile ['d'] "0.05".toList) [1] [(1, y)] 2 0
      ⟨Rows.empty [1].length, Rows.empty [1].length, Rows.empty [1].length, Rows.empty [1].length⟩ = x2 := hx2.symm
    rw [this, PyIO.bind_ok r2, PyIO.bind_ok r3]
    simp [pure]
  rw [hall]
  exact ⟨rfl, hst⟩

/-- The thresholds run for the sizes 1, 1 at level 1/20: there is a point where one threshold is saved and a later one where the file
cannot be loaded. -/
example (disk : Disk) : ∃ (c : Codec (Saved (Fp 53))) (t : Fp 53) (ops : List DiskOp),
    ops ++ [.truncate ['t']] <+: (precalcThresholds fpFftEnv (unitSciPy 53) Nat.sqrt (some (1 / 20) : Option ℝ) ['t'] id [1, 1]).ops c ∧
    load c (runOps disk ops) ['t'] = .ok (.thresholds [1, 1] [(1, t)]) ∧
    ∃ e, load c (runOps disk (ops ++ [.truncate ['t']])) ['t'] = .error e := by
  obtain ⟨r, h1, h2, hr⟩ := unit_threshold
  obtain ⟨ops, h3, h4, h5⟩ := C72_thresholds_not_atomic fpFftEnv (unitSciPy 53) Nat.sqrt (some (1 / 20) : Option ℝ) ['t'] id [1] 1 []
    [(some r : Option ℝ)] (some r : Option ℝ) (by simp) (congrArg (· :: []) hr) hr
    (indexCodec ((precalcThresholds fpFftEnv (unitSciPy 53) Nat.sqrt (some (1 / 20) : Option ℝ) ['t'] id [1, 1]).dumps.map (·.value)))
    (indexCodec_empty _) (fun d hd => indexCodec_stores (List.mem_map.mpr ⟨d, hd, rfl⟩)) disk
  exact ⟨_, _, ops, h3, h4, h5⟩

end CP.Props
