import Mathlib.Data.List.Basic
import Mathlib.Data.List.MinMax
import Mathlib.Tactic.Ring
import Mathlib.Tactic.Linarith
import Verif.PickleSpec
/-
Crash points of the functions that save results (property C72).
-/
namespace CP
open CP.Spec FOps
variable {V F : Type} [FOps F]

/-! ## The file system -/

/-- The disk with another content of one file. -/
def Disk.put (disk : Disk) (file : Str) (bytes : List UInt8) : Disk := fun f => if f = file then some bytes else disk f

theorem runOps_append (disk : Disk) (a b : List DiskOp) : runOps disk (a ++ b) = runOps (runOps disk a) b := by
  unfold runOps
  rw [List.foldl_append]

theorem put_put (disk : Disk) (file : Str) (a b : List UInt8) : (disk.put file a).put file b = disk.put file b := by
  funext f
  unfold Disk.put
  split_ifs <;> rfl

theorem runOps_bytes (disk : Disk) (file : Str) (a b : List UInt8) :
    runOps (disk.put file a) (b.map (.append file)) = disk.put file (a ++ b) := by
  induction b generalizing a with
  | nil => simp [runOps]
  | cons x b ih =>
    have h : (DiskOp.append file x).apply (disk.put file a) = disk.put file (a ++ [x]) := by
      funext f
      unfold Disk.put DiskOp.apply
      dsimp only
      split_ifs <;> rfl
    have : runOps (disk.put file a) ((x :: b).map (.append file)) = runOps (disk.put file (a ++ [x])) (b.map (.append file)) := by
      unfold runOps
      rw [List.map_cons, List.foldl_cons, h]
    rw [this, ih, List.append_assoc]
    rfl

theorem runOps_start (disk : Disk) (file : Str) (b : List UInt8) :
    runOps disk (.truncate file :: b.map (.append file)) = disk.put file b := by
  have := runOps_bytes disk file [] b
  rw [List.nil_append] at this
  rw [← this]
  rfl

theorem runOps_dump (c : Codec V) (disk : Disk) (d : Dump V) : runOps disk (d.ops c) = disk.put d.file (c.encode d.time d.value) :=
  runOps_start ..

theorem prefix_map {α β : Type} (f : α → β) {l : List α} {q : List β} (h : q <+: l.map f) : ∃ p, p <+: l ∧ q = p.map f := by
  obtain ⟨r, hr⟩ := h
  obtain ⟨a, b, hl, ha, -⟩ := List.append_eq_map_iff.mp hr
  exact ⟨a, ⟨b, hl.symm⟩, ha.symm⟩

theorem runOps_part (c : Codec V) (disk : Disk) (d : Dump V) {q : List DiskOp} (hq : q <+: d.ops c) (h0 : q ≠ []) :
    ∃ p, p <+: c.encode d.time d.value ∧ runOps disk q = disk.put d.file p := by
  cases q with
  | nil => exact absurd rfl h0
  | cons x q =>
    unfold Dump.ops at hq
    obtain ⟨rfl, h⟩ := List.cons_prefix_cons.mp hq
    obtain ⟨p, hp, rfl⟩ := prefix_map _ h
    exact ⟨p, hp, runOps_start ..⟩

/-- Where a sequence of saves is interrupted. -/
theorem prefix_saves (c : Codec V) {ds : List (Dump V)} {ops : List DiskOp} (h : ops <+: ds.flatMap (Dump.ops c)) (h0 : ops ≠ []) :
    ∃ ds1 d ds2 q, ds = ds1 ++ d :: ds2 ∧ q <+: d.ops c ∧ q ≠ [] ∧ ops = ds1.flatMap (Dump.ops c) ++ q := by
  induction ds generalizing ops with
  | nil => exact absurd (List.prefix_nil.mp h) h0
  | cons d ds ih =>
    rw [List.flatMap_cons] at h
    rcases List.prefix_or_prefix_of_prefix h (List.prefix_append (d.ops c) _) with h1 | h1
    · exact ⟨[], d, ds, ops, rfl, h1, h0, rfl⟩
    · obtain ⟨r, rfl⟩ := h1
      by_cases hr : r = []
      · subst hr
        exact ⟨[], d, ds, d.ops c, rfl, List.prefix_rfl, by simp [Dump.ops], by simp⟩
      · have h2 : r <+: ds.flatMap (Dump.ops c) := (List.prefix_append_right_inj _).mp h
        obtain ⟨ds1, d', ds2, q, rfl, hq, hq0, rfl⟩ := ih h2 hr
        exact ⟨d :: ds1, d', ds2, q, rfl, hq, hq0, by simp⟩

theorem runOps_saves (c : Codec V) (disk : Disk) {ds : List (Dump V)} {file : Str} (h : ∀ d ∈ ds, d.file = file) :
    runOps disk (ds.flatMap (Dump.ops c)) = match ds.getLast? with
      | none => disk
      | some d => disk.put file (c.encode d.time d.value) := by
  induction ds using List.reverseRecOn with
  | nil => rfl
  | append_singleton ds d ih =>
    rw [List.flatMap_append, runOps_append, ih fun d' hd' => h d' (by simp [hd'])]
    simp only [List.flatMap_cons, List.flatMap_nil, List.append_nil, runOps_dump, List.getLast?_append, List.getLast?_singleton,
      Option.some_or]
    rw [h d (by simp)]
    split
    · rfl
    · rw [put_put]

/-- The disk after an interrupted sequence of saves to one file. -/
theorem crash_saves (c : Codec V) (disk : Disk) {ds : List (Dump V)} {file : Str} (h : ∀ d ∈ ds, d.file = file) {ops : List DiskOp}
    (hops : ops <+: ds.flatMap (Dump.ops c)) :
    (ops = [] ∧ runOps disk ops = disk) ∨
    ∃ ds1 d ds2 p, ds = ds1 ++ d :: ds2 ∧ p <+: c.encode d.time d.value ∧ runOps disk ops = disk.put file p := by
  by_cases h0 : ops = []
  · subst h0
    exact Or.inl ⟨rfl, rfl⟩
  · obtain ⟨ds1, d, ds2, q, rfl, hq, hq0, rfl⟩ := prefix_saves c hops h0
    refine Or.inr ?_
    obtain ⟨p, hp, e⟩ := runOps_part c (runOps disk (ds1.flatMap (Dump.ops c))) d hq hq0
    refine ⟨ds1, d, ds2, p, rfl, hp, ?_⟩
    rw [runOps_append, e, runOps_saves c disk fun d' hd' => h d' (by simp [hd']), h d (by simp)]
    split
    · rfl
    · rw [put_put]

theorem load_put (c : Codec V) (disk : Disk) (file : Str) (p : List UInt8) :
    load c (disk.put file p) file = match c.decode p with
      | none => .error (.uncaught "the file cannot be read back")
      | some v => .ok v := by
  unfold load Disk.put
  rw [if_pos rfl]
  cases h : c.decode p <;> simp [h]

theorem load_put_part {c : Codec V} {v : V} (hs : Stores c v) (disk : Disk) (file : Str) {t : Nat} {p : List UInt8}
    (hp : p <+: c.encode t v) : (∃ e, load c (disk.put file p) file = .error e) ∨ load c (disk.put file p) file = .ok v := by
  rw [load_put]
  rcases hs.part t p hp with h | h
  · exact Or.inl ⟨_, by rw [h]⟩
  · exact Or.inr (by rw [h])

theorem load_put_whole {c : Codec V} {v : V} (hs : Stores c v) (disk : Disk) (file : Str) (t : Nat) :
    load c (disk.put file (c.encode t v)) file = .ok v := by
  rw [load_put, hs.whole]

theorem put_other (disk : Disk) {f file : Str} (h : f ≠ file) (p : List UInt8) : disk.put file p f = disk f := by
  unfold Disk.put
  rw [if_neg h]

theorem load_other {c : Codec V} (disk : Disk) {f file : Str} (h : f ≠ file) (p : List UInt8) :
    load c (disk.put file p) f = load c disk f := by
  unfold load
  rw [put_other disk h]

/-! ## The monad -/

namespace PyIO
theorem bind_lift_ok {α β : Type} {m : M α} {a : α} (h : m = .ok a) (f : α → PyIO V β) : (PyIO.lift m >>= f) = f a := by
  subst h
  show PyIO.bind _ f = _
  unfold PyIO.bind PyIO.lift
  simp

theorem bind_lift_error {α β : Type} {m : M α} {x : Fault} (h : m = .error x) (f : α → PyIO V β) :
    (PyIO.lift m >>= f) = ⟨[], .error x⟩ := by
  subst h
  rfl

theorem bind_dump {β : Type} (file : Str) (t : Nat) (v : V) (f : Unit → PyIO V β) :
    (PyIO.dump file t v >>= f) = ⟨⟨file, t, v⟩ :: (f ()).dumps, (f ()).result⟩ := by
  show PyIO.bind _ f = _
  unfold PyIO.bind PyIO.dump
  simp

theorem bind_ok {α β : Type} {x : PyIO V α} {a : α} (h : x.result = .ok a) (f : α → PyIO V β) :
    (x >>= f) = ⟨x.dumps ++ (f a).dumps, (f a).result⟩ := by
  show PyIO.bind _ f = _
  unfold PyIO.bind
  rw [h]

theorem bind_error {α β : Type} {x : PyIO V α} {e : Fault} (h : x.result = .error e) (f : α → PyIO V β) :
    (x >>= f) = ⟨x.dumps, .error e⟩ := by
  show PyIO.bind _ f = _
  unfold PyIO.bind
  rw [h]
end PyIO

/-! ## Thresholds -/

theorem thresholdsLoop_cons_ok {inverse : Nat → M F} {n : Nat} {t : F} (h : inverse n = .ok t) (file : Str) (clock : Nat → Nat)
    (nRange rest : List Nat) (acc : List (Nat × F)) :
    thresholdsLoop inverse file clock nRange (n :: rest) acc =
      ⟨⟨file, clock acc.length, .thresholds nRange (acc ++ [(n, t)])⟩ ::
        (thresholdsLoop inverse file clock nRange rest (acc ++ [(n, t)])).dumps,
        (thresholdsLoop inverse file clock nRange rest (acc ++ [(n, t)])).result⟩ := by
  show (PyIO.lift (inverse n) >>= _) = _
  rw [PyIO.bind_lift_ok h, PyIO.bind_dump]

theorem thresholdsLoop_cons_error {inverse : Nat → M F} {n : Nat} {e : Fault} (h : inverse n = .error e) (file : Str)
    (clock : Nat → Nat) (nRange rest : List Nat) (acc : List (Nat × F)) :
    thresholdsLoop inverse file clock nRange (n :: rest) acc = ⟨[], .error e⟩ := by
  show (PyIO.lift (inverse n) >>= _) = _
  rw [PyIO.bind_lift_error h]

/-- The first thresholds are found: the dumps so far, then the rest of the loop. -/
theorem thresholdsLoop_found {inverse : Nat → M F} (file : Str) (clock : Nat → Nat) (nRange : List Nat) :
    ∀ (ns : List Nat) (ts : List F) (rest : List Nat) (acc : List (Nat × F)), ns.map inverse = ts.map .ok →
    thresholdsLoop inverse file clock nRange (ns ++ rest) acc =
      ⟨(List.range ns.length).map (fun j => ⟨file, clock (acc.length + j), .thresholds nRange (acc ++ (ns.zip ts).take (j + 1))⟩) ++
        (thresholdsLoop inverse file clock nRange rest (acc ++ ns.zip ts)).dumps,
        (thresholdsLoop inverse file clock nRange rest (acc ++ ns.zip ts)).result⟩
  | [], ts, rest, acc, h => by
    cases ts with
    | nil => simp
    | cons t ts => simp at h
  | n :: ns, [], rest, acc, h => by simp at h
  | n :: ns, t :: ts, rest, acc, h => by
    simp only [List.map_cons, List.cons.injEq] at h
    have ih := thresholdsLoop_found (inverse := inverse) file clock nRange ns ts rest (acc ++ [(n, t)]) h.2
    rw [List.cons_append, thresholdsLoop_cons_ok h.1, ih]
    simp only [List.zip_cons_cons, List.length_cons, List.append_assoc, List.singleton_append, List.length_append, List.length_nil]
    rw [List.range_succ_eq_map, List.map_cons, List.map_map]
    simp only [List.take_succ_cons, List.take_zero, List.cons_append, Nat.add_zero, Nat.zero_add]
    congr 3
    apply List.map_congr_left
    intro j _
    simp only [Function.comp_apply, Nat.succ_eq_add_one, List.take_succ_cons]
    rw [show acc.length + (0 + 1) + j = acc.length + (j + 1) by omega]

/-- Either all thresholds are found or there is a first failure. -/
theorem split_found (inverse : Nat → M F) : ∀ ns : List Nat,
    (∃ ts : List F, ns.map inverse = ts.map .ok) ∨
    ∃ (good : List Nat) (n : Nat) (rest : List Nat) (ts : List F) (e : Fault), ns = good ++ n :: rest ∧ good.map inverse = ts.map .ok ∧
      inverse n = .error e
  | [] => Or.inl ⟨[], rfl⟩
  | n :: ns => by
    cases h : inverse n with
    | error e => exact Or.inr ⟨[], n, ns, [], e, rfl, rfl, h⟩
    | ok t =>
      rcases split_found inverse ns with ⟨ts, hts⟩ | ⟨good, m, rest, ts, e, rfl, hg, he⟩
      · exact Or.inl ⟨t :: ts, by simp [h, hts]⟩
      · exact Or.inr ⟨n :: good, m, rest, t :: ts, e, rfl, by simp [h, hg], he⟩

/-- The dumps and the result of the loop. -/
theorem thresholds_run (inverse : Nat → M F) (file : Str) (clock : Nat → Nat) (nRange : List Nat) :
    ∃ (good rest : List Nat) (ts : List F), nRange = good ++ rest ∧ good.map inverse = ts.map .ok ∧
      (thresholdsLoop inverse file clock nRange nRange []).dumps =
        (List.range good.length).map (fun j => ⟨file, clock j, .thresholds nRange ((good.zip ts).take (j + 1))⟩) ∧
      ((rest = [] ∧ (thresholdsLoop inverse file clock nRange nRange []).result = .ok ()) ∨
        ∃ n rest' e, rest = n :: rest' ∧ inverse n = .error e ∧
          (thresholdsLoop inverse file clock nRange nRange []).result = .error e) := by
  rcases split_found inverse nRange with ⟨ts, hts⟩ | ⟨good, n, rest, ts, e, hs, hg, he⟩
  · refine ⟨nRange, [], ts, by simp, hts, ?_, Or.inl ⟨rfl, ?_⟩⟩
    all_goals
      have := thresholdsLoop_found file clock nRange nRange ts [] [] hts
      rw [List.append_nil] at this
      rw [this]
      simp [thresholdsLoop, pure]
  · refine ⟨good, n :: rest, ts, hs, hg, ?_, Or.inr ⟨n, rest, e, rfl, he, ?_⟩⟩
    all_goals
      have := thresholdsLoop_found file clock nRange good ts (n :: rest) [] hg
      rw [← hs] at this
      rw [this, thresholdsLoop_cons_error he]
    simp

/-! ## Timings -/

theorem entry_length {rows : Rows F} {i : Nat} {call : M F} {ds : List Int} (h : Entry rows i call ds) :
    i < rows.results.length ∧ i < rows.times.length := by
  by_cases hd : ds = []
  · obtain ⟨h1, h2⟩ := h.1 hd
    exact ⟨(List.getElem?_eq_some_iff.mp h1).1, (List.getElem?_eq_some_iff.mp h2).1⟩
  · obtain ⟨r, m, -, -, h1, h2⟩ := h.2 hd
    exact ⟨(List.getElem?_eq_some_iff.mp h1).1, (List.getElem?_eq_some_iff.mp h2).1⟩

theorem min?_concat (l : List Int) (x : Int) : (l ++ [x]).min? = some (match l.min? with
    | none => x
    | some m => min m x) := by
  cases l with
  | nil => rfl
  | cons a l =>
    rw [List.cons_append, List.min?_cons', List.min?_cons', List.foldl_append]
    rfl

/-- Recording a measurement succeeds and extends the entry; the other entries stay. -/
theorem record_entry {rows : Rows F} {i : Nat} {call : M F} {ds : List Int} (h : Entry rows i call ds) {r : F} (hr : call = .ok r)
    (x : Int) : ∃ rows', rows.record i x r = .ok rows' ∧ Entry rows' i call (ds ++ [x]) ∧
      rows'.results.length = rows.results.length ∧ rows'.times.length = rows.times.length ∧
      ∀ j, j ≠ i → rows'.results[j]? = rows.results[j]? ∧ rows'.times[j]? = rows.times[j]? := by
  obtain ⟨l1, l2⟩ := entry_length h
  obtain ⟨a, ha⟩ : ∃ a, rows.results[i]? = some a := ⟨_, List.getElem?_eq_getElem l1⟩
  obtain ⟨t, ht⟩ : ∃ t, rows.times[i]? = some t := ⟨_, List.getElem?_eq_getElem l2⟩
  refine ⟨⟨rows.times.set i (some (minTime t x)), rows.results.set i (some (one -ᶠ r))⟩, ?_, ⟨fun h0 => ?_, fun _ => ?_⟩, ?_, ?_, ?_⟩
  · unfold Rows.record
    rw [ha, ht]
  · simp at h0
  · refine ⟨r, minTime t x, hr, ?_, ?_, ?_⟩
    · rw [min?_concat]
      by_cases hd : ds = []
      · have := (h.1 hd).2
        rw [ht] at this
        cases this
        rw [hd]
        rfl
      · obtain ⟨r', m, -, hm, -, h2⟩ := h.2 hd
        rw [ht] at h2
        cases h2
        rw [hm]
        rfl
    · rw [List.getElem?_set_self l1]
    · rw [List.getElem?_set_self l2]
  · simp
  · simp
  · intro j hj
    simp only
    rw [List.getElem?_set_ne hj.symm, List.getElem?_set_ne hj.symm]
    exact ⟨rfl, rfl⟩

theorem Spec.Entry.congr {rows rows' : Rows F} {i : Nat} {call : M F} {ds : List Int} (h : Entry rows i call ds)
    (e : rows'.results[i]? = rows.results[i]? ∧ rows'.times[i]? = rows.times[i]?) : Entry rows' i call ds := by
  unfold Entry at h ⊢
  rw [e.1, e.2]
  exact h

/-- Rows that agree except for one entry. -/
structure SameBut (rows rows' : Rows F) (i : Nat) : Prop where
  len1 : rows'.results.length = rows.results.length
  len2 : rows'.times.length = rows.times.length
  other : ∀ j, j ≠ i → rows'.results[j]? = rows.results[j]? ∧ rows'.times[j]? = rows.times[j]?

/-- One measurement of one algorithm. -/
theorem measure_row {rows : Rows F} {i k : Nat} {call : M F} {f : Nat → Int} (h : Entry rows i call ((List.range k).map f)) :
    (∀ rows', measure call rows i (f k) = .ok rows' →
      Entry rows' i call ((List.range (k + 1)).map f) ∧ SameBut rows rows' i) ∧
    ((∃ r, call = .ok r) → ∃ rows', measure call rows i (f k) = .ok rows') := by
  cases hr : call with
  | error e =>
    refine ⟨fun rows' h' => ?_, fun h' => ?_⟩
    · exact absurd h' (by simp [measure, bind, Except.bind])
    · obtain ⟨r, hr'⟩ := h'
      cases hr'
  | ok r =>
    obtain ⟨rows1, e1, h1, l1, l2, h2⟩ := record_entry h hr (f k)
    have e : measure (.ok r) rows i (f k) = .ok rows1 := e1
    rw [e]
    refine ⟨fun rows' h' => ?_, fun _ => ⟨_, rfl⟩⟩
    cases h'
    rw [List.range_succ, List.map_append, ← hr]
    exact ⟨h1, l1, l2, h2⟩

theorem step_row {rows : Rows F} {i k : Nat} {call : M F} {f : Nat → Int} {cond : Prop} [Decidable cond]
    (h : Entry rows i call (if cond then (List.range k).map f else [])) :
    (∀ rows', (if cond then measure call rows i (f k) else .ok rows) = .ok rows' →
      Entry rows' i call (if cond then (List.range (k + 1)).map f else []) ∧ SameBut rows rows' i) ∧
    ((cond → ∃ r, call = .ok r) → ∃ rows', (if cond then measure call rows i (f k) else .ok rows) = .ok rows') := by
  by_cases hc : cond
  · simp only [hc, if_true, true_imp_iff] at h ⊢
    exact measure_row h
  · simp only [hc, if_false] at h ⊢
    refine ⟨fun rows' h' => ?_, fun _ => ⟨_, rfl⟩⟩
    cases h'
    exact ⟨h, rfl, rfl, fun _ _ => ⟨rfl, rfl⟩⟩

/-- All calls for an item succeed. -/
structure CallsOk (e : BenchEnv F) (maxKs maxMns n : Nat) (t : F) : Prop where
  ks2001 : n ≤ maxKs → ∃ r, ecdf2 e.env e.sort (mnPlusBounds e.sp n t) (List.replicate n one) false = .ok r
  mns2016 : n ≤ maxMns → ∃ r, ecdf1Mns2016b e.env (mnPlusBounds e.sp n t) = .ok r
  mn2017 : ∃ r, ecdf2 e.env e.sort (mnPlusBounds e.sp n t) (List.replicate n one) true = .ok r
  new : ∃ r, ecdf1Newb e.env e.isqrt (mnPlusBounds e.sp n t) = .ok r

theorem bindOk {α β : Type} {m : M α} {f : α → M β} {b : β} (h : (m >>= f) = .ok b) : ∃ a, m = .ok a ∧ f a = .ok b := by
  cases hm : m with
  | error e =>
    rw [hm] at h
    exact absurd h (by simp [bind, Except.bind])
  | ok a =>
    rw [hm] at h
    exact ⟨a, rfl, h⟩

/-- One item. -/
theorem step_tables {e : BenchEnv F} {maxKs maxMns len : Nat} {th : List (Nat × F)} {count : Nat → Nat} {s : Tables F}
    (h : TablesAt e maxKs maxMns len th count s) {i n : Nat} {t : F} (hi : th[i]? = some (n, t)) :
    (∀ s', timingsStep e maxKs maxMns (count i) i n t s = .ok s' →
      TablesAt e maxKs maxMns len th (fun j => if j = i then count i + 1 else count j) s') ∧
    (CallsOk e maxKs maxMns n t → ∃ s', timingsStep e maxKs maxMns (count i) i n t s = .ok s') := by
  have r1 := step_row (f := (e.elapsed · i 0)) (h.ks2001 i n t hi)
  have r2 := step_row (f := (e.elapsed · i 1)) (h.mns2016 i n t hi)
  have r3 := measure_row (f := (e.elapsed · i 2)) (h.mn2017 i n t hi)
  have r4 := measure_row (f := (e.elapsed · i 3)) (h.new i n t hi)
  constructor
  · intro s' hs
    unfold timingsStep at hs
    dsimp only at hs
    obtain ⟨ks, e1, hs⟩ := bindOk hs
    obtain ⟨mns, e2, hs⟩ := bindOk hs
    obtain ⟨mn, e3, hs⟩ := bindOk hs
    obtain ⟨new, e4, hs⟩ := bindOk hs
    cases hs
    obtain ⟨E1, S1⟩ := r1.1 ks e1
    obtain ⟨E2, S2⟩ := r2.1 mns e2
    obtain ⟨E3, S3⟩ := r3.1 mn e3
    obtain ⟨E4, S4⟩ := r4.1 new e4
    have hL := h.lengths
    have hR := h.rest
    simp only [List.mem_cons, List.not_mem_nil, or_false, forall_eq_or_imp, forall_eq] at hL hR
    refine ⟨?_, ?_, ?_, ?_, ?_, ?_⟩
    · simp only [List.mem_cons, List.not_mem_nil, or_false, forall_eq_or_imp, forall_eq]
      rw [S1.len1, S1.len2, S2.len1, S2.len2, S3.len1, S3.len2, S4.len1, S4.len2]
      exact hL
    · intro j hj hjl
      simp only [List.mem_cons, List.not_mem_nil, or_false, forall_eq_or_imp, forall_eq]
      have hne : j ≠ i := by
        have := (List.getElem?_eq_some_iff.mp hi).1
        omega
      rw [(S1.other j hne).1, (S1.other j hne).2, (S2.other j hne).1, (S2.other j hne).2, (S3.other j hne).1, (S3.other j hne).2,
        (S4.other j hne).1, (S4.other j hne).2]
      exact hR j hj hjl
    all_goals
      intro j m t' hj
      by_cases hji : j = i
      · subst hji
        rw [hi] at hj
        cases hj
        rw [if_pos rfl]
        assumption
      · rw [if_neg hji]
        first
          | exact Spec.Entry.congr (h.ks2001 j m t' hj) (S1.other j hji)
          | exact Spec.Entry.congr (h.mns2016 j m t' hj) (S2.other j hji)
          | exact Spec.Entry.congr (h.mn2017 j m t' hj) (S3.other j hji)
          | exact Spec.Entry.congr (h.new j m t' hj) (S4.other j hji)
  · intro hc
    obtain ⟨ks, e1⟩ := r1.2 hc.ks2001
    obtain ⟨mns, e2⟩ := r2.2 hc.mns2016
    obtain ⟨mn, e3⟩ := r3.2 hc.mn2017
    obtain ⟨new, e4⟩ := r4.2 hc.new
    refine ⟨⟨ks, mns, mn, new⟩, ?_⟩
    unfold timingsStep
    dsimp only at e1 e2 e3 e4 ⊢
    rw [e1, e2, e3, e4]
    rfl

theorem Spec.TablesAt.congr {e : BenchEnv F} {maxKs maxMns len : Nat} {th : List (Nat × F)} {count count' : Nat → Nat} {s : Tables F}
    (h : TablesAt e maxKs maxMns len th count s) (hc : ∀ i < th.length, count' i = count i) :
    TablesAt e maxKs maxMns len th count' s := by
  have hl : ∀ i (x : Nat × F), th[i]? = some x → i < th.length := fun i x hx => (List.getElem?_eq_some_iff.mp hx).1
  refine ⟨h.lengths, h.rest, ?_, ?_, ?_, ?_⟩
  all_goals
    intro i n t hi
    rw [hc i (hl i _ hi)]
  exacts [h.ks2001 i n t hi, h.mns2016 i n t hi, h.mn2017 i n t hi, h.new i n t hi]

/-- Counts in repetition `rep` (from 0) when the items before `k` have been treated. -/
def repCount (rep k : Nat) : Nat → Nat := fun j => if j < k then rep + 1 else rep

theorem inner_spec {e : BenchEnv F} {maxKs maxMns numReps : Nat} {file : Str} {nRange : List Nat} {th : List (Nat × F)} (rep : Nat) :
    ∀ (rest pre : List (Nat × F)) (s : Tables F), th = pre ++ rest →
    TablesAt e maxKs maxMns nRange.length th (repCount rep pre.length) s →
    (∀ d ∈ (timingsInner e maxKs maxMns numReps file nRange rep pre.length rest s).dumps, d.file = file ∧
      ∃ k < th.length, ∃ s', d.value = .timings nRange numReps s' ∧
        TablesAt e maxKs maxMns nRange.length th (repCount rep (k + 1)) s') ∧
    (∀ s', (timingsInner e maxKs maxMns numReps file nRange rep pre.length rest s).result = .ok s' →
      TablesAt e maxKs maxMns nRange.length th (repCount rep th.length) s' ∧
      ((rest = [] ∧ s' = s ∧ (timingsInner e maxKs maxMns numReps file nRange rep pre.length rest s).dumps = []) ∨
       ∃ ds t, (timingsInner e maxKs maxMns numReps file nRange rep pre.length rest s).dumps
          = ds ++ [⟨file, t, .timings nRange numReps s'⟩])) ∧
    ((∀ x ∈ rest, CallsOk e maxKs maxMns x.1 x.2) →
      ∃ s', (timingsInner e maxKs maxMns numReps file nRange rep pre.length rest s).result = .ok s')
  | [], pre, s, hth, h => by
    have hp : pre.length = th.length := by rw [hth]; simp
    refine ⟨fun d hd => ?_, fun s' hs => ?_, fun _ => ⟨s, rfl⟩⟩
    · simp [timingsInner, pure] at hd
    · simp only [timingsInner, pure, Except.ok.injEq] at hs
      subst hs
      rw [← hp]
      exact ⟨h, Or.inl ⟨rfl, rfl, rfl⟩⟩
  | (n, t) :: rest, pre, s, hth, h => by
    have hi : th[pre.length]? = some (n, t) := by rw [hth]; simp
    have hlt : pre.length < th.length := (List.getElem?_eq_some_iff.mp hi).1
    have hc : repCount rep pre.length pre.length = rep := by unfold repCount; simp
    obtain ⟨st1, st2⟩ := step_tables h hi
    rw [hc] at st1 st2
    have hc' : (fun j => if j = pre.length then rep + 1 else repCount rep pre.length j) = repCount rep (pre.length + 1) := by
      funext j
      unfold repCount
      split_ifs <;> first | rfl | omega
    rw [hc'] at st1
    have hpl : (pre ++ [(n, t)]).length = pre.length + 1 := by simp
    cases hr : timingsStep e maxKs maxMns rep pre.length n t s with
    | error x =>
      have e0 : timingsInner e maxKs maxMns numReps file nRange rep pre.length ((n, t) :: rest) s = ⟨[], .error x⟩ :=
        PyIO.bind_lift_error hr _
      rw [e0]
      refine ⟨fun d hd => absurd hd (by simp), fun s' hs => absurd hs (by simp), fun hcalls => ?_⟩
      obtain ⟨s', hs'⟩ := st2 (hcalls (n, t) (by simp))
      rw [hs'] at hr
      cases hr
    | ok s1 =>
      have h1 := st1 s1 hr
      obtain ⟨i1, i2, i3⟩ := inner_spec (e := e) (maxKs := maxKs) (maxMns := maxMns) (numReps := numReps) (file := file)
        (nRange := nRange) (th := th) rep rest (pre ++ [(n, t)]) s1 (by rw [hth]; simp) (by rw [hpl]; exact h1)
      rw [hpl] at i1 i2 i3
      have e0 : timingsInner e maxKs maxMns numReps file nRange rep pre.length ((n, t) :: rest) s
          = ⟨⟨file, e.clock rep pre.length, .timings nRange numReps s1⟩ ::
            (timingsInner e maxKs maxMns numReps file nRange rep (pre.length + 1) rest s1).dumps,
            (timingsInner e maxKs maxMns numReps file nRange rep (pre.length + 1) rest s1).result⟩ := by
        show (PyIO.lift (timingsStep e maxKs maxMns rep pre.length n t s) >>= _) = _
        rw [PyIO.bind_lift_ok hr, PyIO.bind_dump]
      rw [e0]
      refine ⟨fun d hd => ?_, fun s' hs => ?_, fun hcalls => i3 fun x hx => hcalls x (by simp [hx])⟩
      · rcases List.mem_cons.mp hd with rfl | hd
        · exact ⟨rfl, pre.length, hlt, s1, rfl, h1⟩
        · exact i1 d hd
      · obtain ⟨j1, j2⟩ := i2 s' hs
        refine ⟨j1, Or.inr ?_⟩
        rcases j2 with ⟨-, rfl, j3⟩ | ⟨ds, t', j3⟩
        · exact ⟨[], e.clock rep pre.length, by simp only [j3]; rfl⟩
        · exact ⟨⟨file, e.clock rep pre.length, .timings nRange numReps s1⟩ :: ds, t', by simp only [j3]; rfl⟩

theorem outer_spec {e : BenchEnv F} {maxKs maxMns numReps : Nat} {file : Str} {nRange : List Nat} {th : List (Nat × F)} :
    ∀ (k rep : Nat) (s : Tables F), rep + k = numReps → TablesAt e maxKs maxMns nRange.length th (fun _ => rep) s →
    (∀ d ∈ (timingsOuter e maxKs maxMns numReps file nRange th k rep s).dumps, d.file = file ∧
      ∃ rep' < numReps, ∃ k < th.length, ∃ s', d.value = .timings nRange numReps s' ∧
        TablesAt e maxKs maxMns nRange.length th (repCount rep' (k + 1)) s') ∧
    (∀ s', (timingsOuter e maxKs maxMns numReps file nRange th k rep s).result = .ok s' →
      TablesAt e maxKs maxMns nRange.length th (fun _ => numReps) s' ∧
      (((k = 0 ∨ th = []) ∧ (timingsOuter e maxKs maxMns numReps file nRange th k rep s).dumps = []) ∨
       ∃ ds t, (timingsOuter e maxKs maxMns numReps file nRange th k rep s).dumps
          = ds ++ [⟨file, t, .timings nRange numReps s'⟩])) ∧
    ((∀ x ∈ th, CallsOk e maxKs maxMns x.1 x.2) →
      ∃ s', (timingsOuter e maxKs maxMns numReps file nRange th k rep s).result = .ok s')
  | 0, rep, s, hk, h => by
    refine ⟨fun d hd => ?_, fun s' hs => ?_, fun _ => ⟨s, rfl⟩⟩
    · simp [timingsOuter, pure] at hd
    · simp only [timingsOuter, pure, Except.ok.injEq] at hs
      subst hs
      rw [Nat.add_zero] at hk
      rw [← hk]
      exact ⟨h, Or.inl ⟨Or.inl rfl, rfl⟩⟩
  | k + 1, rep, s, hk, h => by
    obtain ⟨i1, i2, i3⟩ := inner_spec (e := e) (maxKs := maxKs) (maxMns := maxMns) (numReps := numReps) (file := file)
      (nRange := nRange) (th := th) rep th [] s (by simp) (h.congr (by intro i _; simp [repCount]))
    rw [List.length_nil] at i1 i2 i3
    cases hr : (timingsInner e maxKs maxMns numReps file nRange rep 0 th s).result with
    | error x =>
      have e0 : timingsOuter e maxKs maxMns numReps file nRange th (k + 1) rep s
          = ⟨(timingsInner e maxKs maxMns numReps file nRange rep 0 th s).dumps, .error x⟩ := PyIO.bind_error hr _
      rw [e0]
      refine ⟨fun d hd => ?_, fun s' hs => absurd hs (by simp), fun hcalls => ?_⟩
      · obtain ⟨a, k', b⟩ := i1 d hd
        exact ⟨a, rep, by omega, k', b⟩
      · obtain ⟨s', hs'⟩ := i3 hcalls
        rw [hs'] at hr
        cases hr
    | ok s1 =>
      obtain ⟨j1, j2⟩ := i2 s1 hr
      have h1 : TablesAt e maxKs maxMns nRange.length th (fun _ => rep + 1) s1 :=
        j1.congr (by intro i hi; simp [repCount, hi])
      obtain ⟨o1, o2, o3⟩ := outer_spec (e := e) (maxKs := maxKs) (maxMns := maxMns) (numReps := numReps) (file := file)
        (nRange := nRange) (th := th) k (rep + 1) s1 (by omega) h1
      have e0 : timingsOuter e maxKs maxMns numReps file nRange th (k + 1) rep s
          = ⟨(timingsInner e maxKs maxMns numReps file nRange rep 0 th s).dumps ++
              (timingsOuter e maxKs maxMns numReps file nRange th k (rep + 1) s1).dumps,
            (timingsOuter e maxKs maxMns numReps file nRange th k (rep + 1) s1).result⟩ := PyIO.bind_ok hr _
      rw [e0]
      refine ⟨fun d hd => ?_, fun s' hs => ?_, o3⟩
      · rcases List.mem_append.mp hd with hd | hd
        · obtain ⟨a, k', b⟩ := i1 d hd
          exact ⟨a, rep, by omega, k', b⟩
        · exact o1 d hd
      · obtain ⟨p1, p2⟩ := o2 s' hs
        refine ⟨p1, ?_⟩
        rcases p2 with ⟨hz, p3⟩ | ⟨ds, t, p3⟩
        · rcases j2 with ⟨hz', -, j3⟩ | ⟨ds, t, j3⟩
          · exact Or.inl ⟨Or.inr hz', by simp only [p3, j3]; rfl⟩
          · rcases hz with rfl | rfl
            · have : s1 = s' := by
                simp only [timingsOuter, pure, Except.ok.injEq] at hs
                exact hs
              subst this
              exact Or.inr ⟨ds, t, by simp only [p3, j3, List.append_nil]⟩
            · exfalso
              have : (timingsInner e maxKs maxMns numReps file nRange rep 0 [] s).dumps = [] := rfl
              rw [this] at j3
              simp at j3
        · exact Or.inr ⟨(timingsInner e maxKs maxMns numReps file nRange rep 0 th s).dumps ++ ds, t, by
            simp only [p3, List.append_assoc]⟩

theorem empty_tables (e : BenchEnv F) (maxKs maxMns : Nat) {len : Nat} {th : List (Nat × F)} (h : th.length ≤ len) :
    TablesAt e maxKs maxMns len th (fun _ => 0) ⟨Rows.empty len, Rows.empty len, Rows.empty len, Rows.empty len⟩ := by
  have hb : ∀ i < len, (Rows.empty len : Rows F).results[i]? = some none ∧ (Rows.empty len : Rows F).times[i]? = some none := by
    intro i hi
    simp [Rows.empty, hi]
  have hl : ∀ i (x : Nat × F), th[i]? = some x → i < len := fun i x hx => by
    have := (List.getElem?_eq_some_iff.mp hx).1
    omega
  refine ⟨?_, ?_, ?_, ?_, ?_, ?_⟩
  · simp [Rows.empty]
  · intro i _ hi
    simp only [List.mem_cons, List.not_mem_nil, or_false, forall_eq_or_imp, forall_eq]
    exact ⟨hb i hi, hb i hi, hb i hi, hb i hi⟩
  all_goals
    intro i n t hi
    refine ⟨fun _ => hb i (hl i _ hi), fun h0 => absurd ?_ h0⟩
    simp

/-! ## Large scale -/

theorem large_spec {e : BenchEnv F} {y : F} {file : Str} {nRange : List Nat} :
    ∀ (rest pre : List Nat) (mn new : Rows F), nRange = pre ++ rest → LargeAt e y nRange pre.length mn new →
    (∀ d ∈ (largescaleLoop e y file nRange pre.length rest mn new).dumps, d.file = file ∧
      ∃ k < nRange.length, ∃ mn' new', d.value = .largescale nRange y mn' new' ∧ LargeAt e y nRange (k + 1) mn' new') ∧
    (∀ mn' new', (largescaleLoop e y file nRange pre.length rest mn new).result = .ok (mn', new') →
      LargeAt e y nRange nRange.length mn' new' ∧
      ((rest = [] ∧ mn' = mn ∧ new' = new ∧ (largescaleLoop e y file nRange pre.length rest mn new).dumps = []) ∨
       ∃ ds t, (largescaleLoop e y file nRange pre.length rest mn new).dumps
          = ds ++ [⟨file, t, .largescale nRange y mn' new'⟩])) ∧
    ((∀ n ∈ rest, (∃ r, ecdf2 e.env e.sort (mnPlusBounds e.sp n y) (List.replicate n one) true = .ok r) ∧
        ∃ r, ecdf1Newb e.env e.isqrt (mnPlusBounds e.sp n y) = .ok r) →
      ∃ mn' new', (largescaleLoop e y file nRange pre.length rest mn new).result = .ok (mn', new'))
  | [], pre, mn, new, hth, h => by
    have hp : pre.length = nRange.length := by rw [hth]; simp
    refine ⟨fun d hd => ?_, fun mn' new' hs => ?_, fun _ => ⟨mn, new, rfl⟩⟩
    · simp [largescaleLoop, pure] at hd
    · simp only [largescaleLoop, pure, Except.ok.injEq, Prod.mk.injEq] at hs
      obtain ⟨rfl, rfl⟩ := hs
      rw [← hp]
      exact ⟨h, Or.inl ⟨rfl, rfl, rfl, rfl⟩⟩
  | n :: rest, pre, mn, new, hth, h => by
    have hi : nRange[pre.length]? = some n := by rw [hth]; simp
    have hlt : pre.length < nRange.length := (List.getElem?_eq_some_iff.mp hi).1
    have q3 := h.mn2017 _ _ hi
    have q4 := h.new _ _ hi
    rw [if_neg (by omega)] at q3 q4
    have r3 := measure_row (k := 0) (f := fun _ => e.elapsed 0 pre.length 2) q3
    have r4 := measure_row (k := 0) (f := fun _ => e.elapsed 0 pre.length 3) q4
    have hpl : (pre ++ [n]).length = pre.length + 1 := by simp
    cases hr4 : measure (ecdf1Newb e.env e.isqrt (mnPlusBounds e.sp n y)) new pre.length (e.elapsed 0 pre.length 3) with
    | error x =>
      have e0 : largescaleLoop e y file nRange pre.length (n :: rest) mn new = ⟨[], .error x⟩ := PyIO.bind_lift_error hr4 _
      rw [e0]
      refine ⟨fun d hd => absurd hd (by simp), fun _ _ hs => absurd hs (by simp), fun hcalls => ?_⟩
      obtain ⟨s', hs'⟩ := r4.2 (hcalls n (by simp)).2
      rw [hs'] at hr4
      cases hr4
    | ok new1 =>
      cases hr3 : measure (ecdf2 e.env e.sort (mnPlusBounds e.sp n y) (List.replicate n one) true) mn pre.length
          (e.elapsed 0 pre.length 2) with
      | error x =>
        have e0 : largescaleLoop e y file nRange pre.length (n :: rest) mn new = ⟨[], .error x⟩ := by
          show (PyIO.lift (measure _ new _ _) >>= _) = _
          rw [PyIO.bind_lift_ok hr4, PyIO.bind_lift_error hr3]
        rw [e0]
        refine ⟨fun d hd => absurd hd (by simp), fun _ _ hs => absurd hs (by simp), fun hcalls => ?_⟩
        obtain ⟨s', hs'⟩ := r3.2 (hcalls n (by simp)).1
        rw [hs'] at hr3
        cases hr3
      | ok mn1 =>
        obtain ⟨E3, S3⟩ := r3.1 _ hr3
        obtain ⟨E4, S4⟩ := r4.1 _ hr4
        have h1 : LargeAt e y nRange (pre.length + 1) mn1 new1 := by
          have hL := h.lengths
          simp only [List.mem_cons, List.not_mem_nil, or_false, forall_eq_or_imp, forall_eq] at hL
          refine ⟨?_, ?_, ?_⟩
          · simp only [List.mem_cons, List.not_mem_nil, or_false, forall_eq_or_imp, forall_eq]
            rw [S3.len1, S3.len2, S4.len1, S4.len2]
            exact hL
          all_goals
            intro j m hj
            by_cases hji : j = pre.length
            · subst hji
              rw [hi] at hj
              cases hj
              rw [if_pos (by omega)]
              assumption
            · have hq : (j < pre.length + 1) = (j < pre.length) := by
                apply propext
                omega
              simp only [hq]
              first
                | exact Spec.Entry.congr (h.mn2017 j m hj) (S3.other j hji)
                | exact Spec.Entry.congr (h.new j m hj) (S4.other j hji)
        obtain ⟨i1, i2, i3⟩ := large_spec (e := e) (y := y) (file := file) (nRange := nRange) rest (pre ++ [n]) mn1 new1
          (by rw [hth]; simp) (by rw [hpl]; exact h1)
        rw [hpl] at i1 i2 i3
        have e0 : largescaleLoop e y file nRange pre.length (n :: rest) mn new
            = ⟨⟨file, e.clock 0 pre.length, .largescale nRange y mn1 new1⟩ ::
              (largescaleLoop e y file nRange (pre.length + 1) rest mn1 new1).dumps,
              (largescaleLoop e y file nRange (pre.length + 1) rest mn1 new1).result⟩ := by
          show (PyIO.lift (measure _ new _ _) >>= _) = _
          rw [PyIO.bind_lift_ok hr4, PyIO.bind_lift_ok hr3, PyIO.bind_dump]
        rw [e0]
        refine ⟨fun d hd => ?_, fun mn' new' hs => ?_, fun hcalls => i3 fun x hx => hcalls x (by simp [hx])⟩
        · rcases List.mem_cons.mp hd with rfl | hd
          · exact ⟨rfl, pre.length, hlt, mn1, new1, rfl, h1⟩
          · exact i1 d hd
        · obtain ⟨j1, j2⟩ := i2 mn' new' hs
          refine ⟨j1, Or.inr ?_⟩
          rcases j2 with ⟨-, rfl, rfl, j3⟩ | ⟨ds, t', j3⟩
          · exact ⟨[], e.clock 0 pre.length, by simp only [j3]; rfl⟩
          · exact ⟨⟨file, e.clock 0 pre.length, .largescale nRange y mn1 new1⟩ :: ds, t', by simp only [j3]; rfl⟩

theorem empty_large (e : BenchEnv F) (y : F) (nRange : List Nat) :
    LargeAt e y nRange 0 (Rows.empty nRange.length) (Rows.empty nRange.length) := by
  have hb : ∀ i < nRange.length, (Rows.empty nRange.length : Rows F).results[i]? = some none ∧
      (Rows.empty nRange.length : Rows F).times[i]? = some none := by
    intro i hi
    simp [Rows.empty, hi]
  refine ⟨by simp [Rows.empty], ?_, ?_⟩
  all_goals
    intro i n hi
    refine ⟨fun _ => hb i (List.getElem?_eq_some_iff.mp hi).1, fun h0 => absurd ?_ h0⟩
    simp

/-! ## Relative errors -/

theorem relativeErrors_none {a b : List (Option F)} {i : Nat} (h : a[i]? = some none ∨ b[i]? = some none) :
    ∃ x, relativeErrors a b = .error x := by
  induction a generalizing b i with
  | nil =>
    rcases h with h | h
    · simp at h
    · cases b with
      | nil => simp at h
      | cons y ys => cases y <;> exact ⟨_, rfl⟩
  | cons x xs ih =>
    cases b with
    | nil => cases x <;> exact ⟨_, rfl⟩
    | cons y ys =>
      cases x with
      | none => exact ⟨_, rfl⟩
      | some x =>
        cases y with
        | none => exact ⟨_, rfl⟩
        | some y =>
          cases i with
          | zero => simp at h
          | succ i =>
            obtain ⟨e, he⟩ := ih (b := ys) (i := i) (by simpa using h)
            refine ⟨e, ?_⟩
            unfold relativeErrors
            dsimp only
            rw [he]
            rfl

end CP
