import Verif.Model.Stdout
import Verif.Props.OutputText
import Verif.Props.OutputMc
import Verif.Props.VecString
/-!
Property C90: writing to standard output may fail.
-/
namespace CP.Props
open CP CP.Spec

/-! ## Lemmas -/

theorem sysWrite_spec (dev : Device) : ∀ (n : ℕ) (data : Str) (k : ℕ), data.length ≤ n →
    (∃ t, (sysWrite dev k data).1 ++ t = data ∧ ((sysWrite dev k data).2.1 = true ↔ t = [])) ∧
      ((∀ i, dev i ≠ none) → (sysWrite dev k data).2.1 = true) := by
  intro n
  induction n with
  | zero =>
    intro data k h
    obtain rfl : data = [] := List.length_eq_zero_iff.1 (by omega)
    rw [sysWrite]
    exact ⟨⟨[], rfl, by simp⟩, by simp⟩
  | succ n ih =>
    intro data k h
    cases data with
    | nil => rw [sysWrite]; exact ⟨⟨[], rfl, by simp⟩, by simp⟩
    | cons c rest =>
      rw [sysWrite]
      cases hd : dev k with
      | none => exact ⟨⟨c :: rest, rfl, by simp⟩, fun h => absurd hd (h k)⟩
      | some j =>
        obtain ⟨⟨t, h1, h2⟩, h3⟩ := ih (rest.drop j) (k + 1) (by simp only [List.length_cons] at h; simp; omega)
        refine ⟨⟨t, ?_, h2⟩, h3⟩
        show c :: rest.take j ++ (sysWrite dev (k + 1) (rest.drop j)).1 ++ t = c :: rest
        rw [List.append_assoc, h1]
        simp

/-- What has been passed on and what is in the buffer, against what was meant. -/
def OutInv (s : Stdout) (text : Str) : Prop :=
  (s.bad = false → s.arrived ++ s.buf = text) ∧ (s.bad = true → s.arrived <+: text ∧ s.buf = [])

theorem pass_inv (dev : Device) (s : Stdout) (data text : Str) (n : ℕ) (hs : s.bad = false) (h : s.arrived ++ data = text) :
    OutInv (s.pass dev data n) text ∧ ((∀ i, dev i ≠ none) → (s.pass dev data n).bad = false) := by
  obtain ⟨⟨t, h1, h2⟩, h3⟩ := sysWrite_spec dev _ (data.take n) s.calls le_rfl
  unfold Stdout.pass
  rcases hw : sysWrite dev s.calls (data.take n) with ⟨w, ok, k⟩
  rw [hw] at h1 h2 h3
  simp only at h1 h2 h3
  cases ok with
  | true =>
    obtain rfl := h2.1 rfl
    refine ⟨⟨fun _ => ?_, fun hb => by simp [hs] at hb⟩, fun _ => by simpa using hs⟩
    simp only [if_true, List.append_assoc]
    rw [List.append_nil] at h1
    rw [h1, List.take_append_drop, h]
  | false =>
    refine ⟨⟨fun hb => by simp at hb, fun _ => ⟨?_, by simp⟩⟩, fun hd => absurd (h3 hd) (by simp)⟩
    refine ⟨t ++ data.drop n, ?_⟩
    simp only [Bool.false_eq_true, if_false]
    rw [List.append_assoc, ← List.append_assoc w, h1, List.take_append_drop, h]

theorem op_inv (pol : Buffering) (dev : Device) (s : Stdout) (text : Str) (o : CoutOp) (h : OutInv s text) :
    OutInv (s.op pol dev o) (text ++ o.text) ∧ ((∀ i, dev i ≠ none) → s.bad = false → (s.op pol dev o).bad = false) := by
  unfold Stdout.op
  cases hb : s.bad with
  | true =>
    obtain ⟨h1, h2⟩ := h.2 hb
    simp only [if_true]
    exact ⟨⟨fun h => by simp [hb] at h, fun _ => ⟨h1.trans (List.prefix_append _ _), h2⟩⟩, by simp⟩
  | false =>
    have h1 := h.1 hb
    simp only [Bool.false_eq_true, if_false]
    cases o with
    | put t =>
      obtain ⟨a, b⟩ := pass_inv dev s (s.buf ++ t) (text ++ t) (pol s.buf t) hb (by rw [← List.append_assoc, h1])
      exact ⟨a, fun hd _ => b hd⟩
    | endl =>
      obtain ⟨a, b⟩ := pass_inv dev s (s.buf ++ ['\n']) (text ++ ['\n']) (pol s.buf ['\n']) hb (by rw [← List.append_assoc, h1])
      simp only
      split
      · exact ⟨a, fun hd _ => b hd⟩
      · rename_i hb1
        simp only [Bool.not_eq_true] at hb1
        obtain ⟨c, d⟩ := pass_inv dev _ _ (text ++ ['\n']) (s.pass dev (s.buf ++ ['\n']) (pol s.buf ['\n'])).buf.length hb1 (a.1 hb1)
        exact ⟨c, fun hd _ => d hd⟩

theorem ops_inv (pol : Buffering) (dev : Device) : ∀ (l : List CoutOp) (s : Stdout) (text : Str), OutInv s text →
    OutInv (Stdout.ops pol dev l s) (text ++ opsText l) ∧
      ((∀ i, dev i ≠ none) → s.bad = false → (Stdout.ops pol dev l s).bad = false) := by
  intro l
  induction l with
  | nil => intro s text h; exact ⟨by simpa [Stdout.ops, opsText] using h, fun _ h => h⟩
  | cons o l ih =>
    intro s text h
    obtain ⟨a, b⟩ := op_inv pol dev s text o h
    obtain ⟨c, d⟩ := ih _ _ a
    refine ⟨?_, fun hd hb => d hd (b hd hb)⟩
    have e : text ++ opsText (o :: l) = text ++ o.text ++ opsText l := by simp [opsText]
    rw [e]
    exact c

theorem init_inv : OutInv Stdout.init [] := ⟨fun _ => rfl, fun h => by simp [Stdout.init] at h⟩

/-! ## C90 -/

/-- C90: whatever `write` answers and however `stdout` is buffered, what arrives is a prefix of what the program means to write:
nothing is repeated, reordered or left out in the middle. -/
theorem C90_prefix (pol : Buffering) (dev : Device) (l : List CoutOp) : arrivedAtExit pol dev l <+: opsText l := by
  have h := (ops_inv pol dev l Stdout.init [] init_inv).1
  rw [List.nil_append] at h
  unfold arrivedAtExit
  simp only
  cases hb : (Stdout.ops pol dev l Stdout.init).bad with
  | false =>
    obtain ⟨a, -⟩ := pass_inv dev _ _ _ (Stdout.ops pol dev l Stdout.init).buf.length hb (h.1 hb)
    cases hb2 : ((Stdout.ops pol dev l Stdout.init).pass dev (Stdout.ops pol dev l Stdout.init).buf
        (Stdout.ops pol dev l Stdout.init).buf.length).bad with
    | false => exact ⟨_, a.1 hb2⟩
    | true => exact (a.2 hb2).1
  | true =>
    obtain ⟨h1, h2⟩ := h.2 hb
    rw [h2]
    simpa [Stdout.pass, sysWrite] using h1

/-- C90: the same if the process is killed at any time. -/
theorem C90_killed (pol : Buffering) (dev : Device) (l : List CoutOp) (k : ℕ) : arrivedBy pol dev l k <+: opsText l := by
  have h := (ops_inv pol dev (l.take k) Stdout.init [] init_inv).1
  rw [List.nil_append] at h
  have hp : opsText (l.take k) <+: opsText l := by
    refine ⟨opsText (l.drop k), ?_⟩
    rw [opsText, opsText, opsText, ← List.flatMap_append, List.take_append_drop]
  unfold arrivedBy
  cases hb : (Stdout.ops pol dev (l.take k) Stdout.init).bad with
  | false => exact List.IsPrefix.trans ⟨_, h.1 hb⟩ hp
  | true => exact (h.2 hb).1.trans hp

/-- C90: if no `write` fails, everything arrives, in whatever pieces `write` takes it. -/
theorem C90_complete (pol : Buffering) (dev : Device) (hd : ∀ i, dev i ≠ none) (l : List CoutOp) :
    arrivedAtExit pol dev l = opsText l := by
  obtain ⟨h, hg⟩ := ops_inv pol dev l Stdout.init [] init_inv
  rw [List.nil_append] at h
  have hb := hg hd rfl
  unfold arrivedAtExit
  simp only
  obtain ⟨a, b⟩ := pass_inv dev _ _ _ (Stdout.ops pol dev l Stdout.init).buf.length hb (h.1 hb)
  have := a.1 (b hd)
  have hbuf : ((Stdout.ops pol dev l Stdout.init).pass dev (Stdout.ops pol dev l Stdout.init).buf
        (Stdout.ops pol dev l Stdout.init).buf.length).buf = [] := by
    unfold Stdout.pass
    simp only
    split <;> simp
  rw [hbuf, List.append_nil] at this
  exact this

/-- A device with room for `k` more bytes, which takes them one by one. -/
def room (k : ℕ) : Device := fun i => if i < k then some 0 else none

theorem room_write (k : ℕ) : ∀ (data : Str) (c : ℕ), c ≤ k →
    sysWrite (room k) c data = (data.take (k - c), decide (data.length ≤ k - c), if data.length ≤ k - c then c + data.length else k + 1) := by
  intro data
  induction data with
  | nil => intro c _; rw [sysWrite]; simp
  | cons x rest ih =>
    intro c hc
    rw [sysWrite]
    by_cases h : c < k
    · have e : k - c = (k - (c + 1)) + 1 := by omega
      simp only [room, h, if_true, List.drop_zero, List.take_zero]
      rw [ih (c + 1) (by omega), e]
      simp only [List.singleton_append, List.length_cons, List.take_succ_cons, add_le_add_iff_right]
      congr 3
      omega
    · have e : k - c = 0 := by omega
      have e2 : c = k := by omega
      simp [room, e2]

/-- With room for `k` bytes, the number of bytes that have arrived. -/
def RoomInv (k : ℕ) (s : Stdout) : Prop :=
  (s.bad = false → s.calls = s.arrived.length ∧ s.calls ≤ k) ∧ (s.bad = true → s.arrived.length = k)

theorem room_pass (k : ℕ) (s : Stdout) (data : Str) (n : ℕ) (hb : s.bad = false) (h : RoomInv k s) :
    RoomInv k (s.pass (room k) data n) := by
  obtain ⟨h1, h2⟩ := h.1 hb
  unfold Stdout.pass
  rw [room_write k _ _ h2]
  simp only [decide_eq_true_eq]
  by_cases hl : (data.take n).length ≤ k - s.calls
  · simp only [if_pos hl]
    refine ⟨fun _ => ?_, fun hbad => by simp [hb] at hbad⟩
    have : ((data.take n).take (k - s.calls)).length = (data.take n).length := by rw [List.length_take]; omega
    simp only [List.length_append, this]
    omega
  · simp only [if_neg hl]
    refine ⟨fun hbad => by simp at hbad, fun _ => ?_⟩
    have : ((data.take n).take (k - s.calls)).length = k - s.calls := by rw [List.length_take]; omega
    simp only [List.length_append, this]
    omega

theorem room_op (pol : Buffering) (k : ℕ) (s : Stdout) (o : CoutOp) (h : RoomInv k s) : RoomInv k (s.op pol (room k) o) := by
  unfold Stdout.op
  split
  · exact h
  · rename_i hb
    simp only [Bool.not_eq_true] at hb
    cases o with
    | put t => exact room_pass k s _ _ hb h
    | endl =>
      simp only
      have h1 := room_pass k s (s.buf ++ ['\n']) (pol s.buf ['\n']) hb h
      split
      · exact h1
      · rename_i hb1
        exact room_pass k _ _ _ (by simpa using hb1) h1

/-- C90: every prefix can arrive: with room for `k` bytes (a full disk, a quota) the first `k` characters do. -/
theorem C90_disk_full (pol : Buffering) (l : List CoutOp) (k : ℕ) : arrivedAtExit pol (room k) l = (opsText l).take k := by
  have hops : ∀ (l : List CoutOp) (s : Stdout), RoomInv k s → RoomInv k (Stdout.ops pol (room k) l s) := by
    intro l
    induction l with
    | nil => intro s h; exact h
    | cons o l ih => intro s h; exact ih _ (room_op pol k s o h)
  have h1 := hops l Stdout.init ⟨fun _ => ⟨rfl, Nat.zero_le _⟩, fun h => by simp [Stdout.init] at h⟩
  have h := (ops_inv pol (room k) l Stdout.init [] init_inv).1
  rw [List.nil_append] at h
  have hpre := C90_prefix pol (room k) l
  have key : arrivedAtExit pol (room k) l = opsText l ∧ (opsText l).length ≤ k ∨ (arrivedAtExit pol (room k) l).length = k := by
    unfold arrivedAtExit
    simp only
    cases hb : (Stdout.ops pol (room k) l Stdout.init).bad with
    | true =>
      right
      rw [(h.2 hb).2]
      simpa [Stdout.pass, sysWrite] using h1.2 hb
    | false =>
      have h2 := room_pass k _ (Stdout.ops pol (room k) l Stdout.init).buf (Stdout.ops pol (room k) l Stdout.init).buf.length hb h1
      obtain ⟨a, -⟩ := pass_inv (room k) _ _ _ (Stdout.ops pol (room k) l Stdout.init).buf.length hb (h.1 hb)
      cases hb2 : ((Stdout.ops pol (room k) l Stdout.init).pass (room k) (Stdout.ops pol (room k) l Stdout.init).buf
          (Stdout.ops pol (room k) l Stdout.init).buf.length).bad with
      | true => exact Or.inr (h2.2 hb2)
      | false =>
        left
        have hbuf : ((Stdout.ops pol (room k) l Stdout.init).pass (room k) (Stdout.ops pol (room k) l Stdout.init).buf
            (Stdout.ops pol (room k) l Stdout.init).buf.length).buf = [] := by
          unfold Stdout.pass
          simp only
          split <;> simp
        have e := a.1 hb2
        rw [hbuf, List.append_nil] at e
        obtain ⟨g1, g2⟩ := h2.1 hb2
        refine ⟨e, ?_⟩
        rw [← e]
        omega
  rcases key with ⟨e, hk⟩ | e
  · rw [e, List.take_of_length_le hk]
  · rw [List.prefix_iff_eq_take.1 hpre, e]

/-! ## The two programs -/

/-- The text `text`, written in any pieces with any flushes, arrives as `out`. -/
def ArrivesAs (text out : Str) : Prop := ∃ pol dev l, opsText l = text ∧ out = arrivedAtExit pol dev l

theorem fmt_no_newline {F : Type} {fmt : F → Str} {val : F → Option ℝ} (hp : PrintSpec fmt val) (r : F) : '\n' ∉ fmt r := by
  cases hv : val r with
  | some v =>
    obtain ⟨d, hd, e, -⟩ := C59_number hp hv
    rw [e]
    exact text_ne hd (by decide) (by decide)
  | none =>
    have := hp.special r hv
    intro hc
    simp only [List.mem_cons, List.not_mem_nil, or_false] at this
    rcases this with h | h | h | h <;> rw [h] at hc <;> simp at hc

theorem line_complete {t out : Str} (ht : '\n' ∉ t) (h : out <+: t ++ ['\n']) : out = t ++ ['\n'] ↔ '\n' ∈ out := by
  constructor
  · rintro rfl; simp
  · intro hm
    rcases (List.prefix_concat_iff).1 h with h | h
    · exact h
    · exact absurd (h.subset hm) ht

variable {F : Type} [FOps F]

/-- C90: `crossprob`: when it exits with code 0, the number it printed has arrived in full exactly if a newline has; the code itself
says nothing, because any prefix, even nothing, may have arrived. -/
theorem C90_crossprob {fmt : F → Str} {val : F → Option ℝ} (hp : PrintSpec fmt val) (w : World F) (ioWhat : Str) (args : List Str)
    {text : Str} (h : crossprobRun w fmt ioWhat args = .exited 0 text) :
    ∃ r, crossprobMain w args = .printed r ∧ text = fmt r ++ ['\n'] ∧
      (∀ out, ArrivesAs text out → out <+: text ∧ (out = text ↔ '\n' ∈ out)) ∧
      ∀ out, out <+: text → ArrivesAs text out := by
  have h0 := C59_output w fmt ioWhat args
  have key : ∃ r, crossprobMain w args = .printed r ∧ text = fmt r ++ ['\n'] := by
    cases hm : crossprobMain w args with
    | printed r => rw [hm] at h0; simp only at h0; rw [h] at h0; cases h0; exact ⟨r, rfl, rfl⟩
    | usage => rw [hm] at h0; simp only at h0; rw [h] at h0; cases h0
    | ioError => rw [hm] at h0; simp only at h0; rw [h] at h0; cases h0
    | error msg =>
      rw [hm] at h0
      obtain ⟨c, f, -, h1, h2⟩ := h0
      by_cases hu : ShowsUsage w c f
      · have := h1 hu; rw [h] at this; cases this
      · have := h2 hu; rw [h] at this; cases this
    | aborted => rw [hm] at h0; simp only at h0; rw [h] at h0; cases h0
    | undefined => rw [hm] at h0; simp only at h0; rw [h] at h0; cases h0
    | hangs => rw [hm] at h0; simp only at h0; rw [h] at h0; cases h0
  obtain ⟨r, h1, rfl⟩ := key
  refine ⟨r, h1, rfl, ?_, ?_⟩
  · rintro out ⟨pol, dev, l, hl, rfl⟩
    have := C90_prefix pol dev l
    rw [hl] at this
    exact ⟨this, line_complete (fmt_no_newline hp r) this⟩
  · intro out ho
    refine ⟨fun _ _ => 0, room out.length, [.put (fmt r), .endl], by simp [opsText, CoutOp.text], ?_⟩
    rw [C90_disk_full]
    have : opsText [.put (fmt r), .endl] = fmt r ++ ['\n'] := by simp [opsText, CoutOp.text]
    rw [this]
    exact List.prefix_iff_eq_take.1 ho

/-- C90: the same for `crossprob_mc`. -/
theorem C90_crossprob_mc [FBits F] {fmt : F → Str} {val : F → Option ℝ} (hp : PrintSpec fmt val) (w : McWorld F) (ioWhat : Str)
    (args : List Str) {text : Str} (h : mcRun w fmt ioWhat args = .exited 0 text) :
    ∃ r, mcMain w args = .printed r ∧ text = fmt r ++ ['\n'] ∧
      ∀ out, ArrivesAs text out → out <+: text ∧ (out = text ↔ '\n' ∈ out) := by
  have h0 := C59_mc_output w fmt ioWhat args
  have key : ∃ r, mcMain w args = .printed r ∧ text = fmt r ++ ['\n'] := by
    cases hm : mcMain w args with
    | printed r => rw [hm] at h0; simp only at h0; rw [h] at h0; cases h0; exact ⟨r, rfl, rfl⟩
    | ioError => rw [hm] at h0; simp only at h0; rw [h] at h0; cases h0
    | error msg =>
      rw [hm] at h0
      obtain ⟨h1, h2⟩ := h0
      by_cases hu : McShowsUsage w args
      · have := h1 hu; rw [h] at this; cases this
      · have := h2 hu; rw [h] at this; cases this
    | aborted => rw [hm] at h0; simp only at h0; rw [h] at h0; cases h0
    | undefined => rw [hm] at h0; simp only at h0; rw [h] at h0; cases h0
    | hangs => rw [hm] at h0; simp only at h0; rw [h] at h0; cases h0
  obtain ⟨r, h1, rfl⟩ := key
  refine ⟨r, h1, rfl, ?_⟩
  rintro out ⟨pol, dev, l, hl, rfl⟩
  have := C90_prefix pol dev l
  rw [hl] at this
  exact ⟨this, line_complete (fmt_no_newline hp r) this⟩

/-- C90: a run that exits with another code never leaves something that can be taken for a result: what arrives is not a number
followed by a newline. -/
theorem C90_errors {fmt : F → Str} {val : F → Option ℝ} (hp : PrintSpec fmt val) (w : World F) (ioWhat : Str) (args : List Str)
    {code : ℕ} {text : Str} (h : crossprobRun w fmt ioWhat args = .exited code text) (hc : code ≠ 0) {out : Str}
    (ho : ArrivesAs text out) (r : F) : out ≠ fmt r ++ ['\n'] := by
  rintro rfl
  obtain ⟨pol, dev, l, hl, he⟩ := ho
  have hpre := C90_prefix pol dev l
  rw [← he, hl] at hpre
  obtain ⟨rest, hrest⟩ := hpre
  have hhead : ∃ c t, fmt r = c :: t ∧ (c.isDigit = true ∨ c = '-' ∨ c = '+' ∨ c = '.' ∨ c = 'n' ∨ (c = 'i' ∧ t = ['n', 'f'])) := by
    cases hv : val r with
    | some v =>
      obtain ⟨d, hd, e, -⟩ := C59_number hp hv
      obtain ⟨c, t, h1, h2⟩ := digit_head hd
      refine ⟨c, t, e.trans h1, ?_⟩
      tauto
    | none =>
      have h := hp.special r hv
      simp only [List.mem_cons, List.not_mem_nil, or_false] at h
      rcases h with h | h | h | h <;> exact ⟨_, _, h, by simp⟩
  have no : ∀ (c0 : Char) (t0 : Str), (c0 = 'S' ∨ c0 = 'E' ∨ (c0 = 'i' ∧ t0.head? = some 'f')) → text ≠ c0 :: t0 := by
    rintro c0 t0 hc0 rfl
    obtain ⟨c, t, h1, h2⟩ := hhead
    rw [h1, List.cons_append, List.cons_append] at hrest
    injection hrest with e1 e2
    subst e1 e2
    rcases hc0 with rfl | rfl | ⟨rfl, hc0⟩
    · revert h2; simp
    · revert h2; simp
    · rcases h2 with h2 | h2 | h2 | h2 | h2 | ⟨-, rfl⟩
      · exact absurd h2 (by decide)
      · exact absurd h2 (by decide)
      · exact absurd h2 (by decide)
      · exact absurd h2 (by decide)
      · exact absurd h2 (by decide)
      · simp at hc0
  have key := C59_output w fmt ioWhat args
  obtain ⟨ut, hut⟩ := usage_head
  cases hm : crossprobMain w args with
  | printed r => rw [hm] at key; dsimp only at key; rw [key] at h; cases h; exact hc rfl
  | usage =>
    rw [hm] at key; dsimp only at key; rw [key, hut] at h
    injection h with _ h
    exact no 'S' _ (Or.inl rfl) h.symm
  | ioError =>
    rw [hm] at key; dsimp only at key; rw [key] at h
    injection h with _ h
    exact no 'i' _ (Or.inr (Or.inr ⟨rfl, rfl⟩)) h.symm
  | error msg =>
    rw [hm] at key; dsimp only at key
    obtain ⟨c, f, -, k1, k2⟩ := key
    by_cases hs : ShowsUsage w c f
    · rw [k1 hs, hut] at h
      injection h with _ h
      exact no 'S' _ (Or.inl rfl) h.symm
    · rw [k2 hs] at h
      injection h with _ h
      exact no 'E' _ (Or.inr (Or.inl rfl)) h.symm
  | aborted => rw [hm] at key; dsimp only at key; rw [key] at h; cases h
  | undefined => rw [hm] at key; dsimp only at key; rw [key] at h; cases h
  | hangs => rw [hm] at key; dsimp only at key; rw [key] at h; cases h

/-- A truncated line can look like another number: `1.5e-05` cut off after three characters reads 1.5. -/
example : arrivedAtExit (fun _ _ => 0) (room 3) [.put "1.5e-05".toList, .endl] = "1.5".toList := by
  rw [C90_disk_full]
  rfl

/-- Line buffering, a device that takes two bytes, then one, then fails. -/
example : arrivedAtExit (fun b s => (b ++ s).length) (fun i => if i = 0 then some 1 else if i = 1 then some 0 else none)
    [.put "0.75".toList, .endl] = "0.7".toList := by
  decide +kernel

end CP.Props
