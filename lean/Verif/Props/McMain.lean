import Verif.Props.MonteCarlo
/-
Property C48: the crossprob_mc program as a whole.
-/
namespace CP.Props
open CP.Spec CP.McSpec FOps

/-- Exit code 2 and the usage text unless there are exactly three arguments. -/
theorem C48_usage {F : Type} [FOps F] [FBits F] (w : McWorld F) (args : List Str) (h : args.length ≠ 3) :
    mcMain w args = .error "Expecting 3 command line arguments!" := by
  match args with
  | [] => rfl
  | [_] => rfl
  | [_, _] => rfl
  | [_, _, _] => simp at h
  | _ :: _ :: _ :: _ :: _ => rfl

/-- A number of simulations that does not parse, or is negative, gives exit code 2, before the file is opened. -/
theorem C48_bad_number {F : Type} [FOps F] [FBits F] (w : McWorld F) (cmd file num : Str)
    (h : ∀ N, stringToLong w.libc num = .ok N → N < 0) : ∃ msg, mcMain w [cmd, file, num] = .error msg := by
  unfold mcMain mcHandle
  rcases C31_otherwise w.libc num with ⟨N, hN⟩ | ⟨msg, hN⟩
  · have := h N hN
    refine ⟨"num-simulations must be non-negative!", ?_⟩
    dsimp only
    rw [hN, M_ok_bind, if_pos this]
  · refine ⟨msg, ?_⟩
    dsimp only
    rw [hN]
    rfl

/-- An unreadable or malformed file gives exit code 1 (stream failure) or 2 (anything else). -/
theorem C48_bad_file {F : Type} [FOps F] [FBits F] (w : McWorld F) (cmd file num : Str) (N : ℤ) (hN0 : 0 ≤ N)
    (hN : stringToLong w.libc num = .ok N) :
    (readAndCheckBoundariesFile w.libc w.fs file = .error .ioFailure → mcMain w [cmd, file, num] = .ioError) ∧
    (∀ msg, readAndCheckBoundariesFile w.libc w.fs file = .error (.runtimeError msg) →
      mcMain w [cmd, file, num] = .error msg) := by
  constructor
  · intro h
    unfold mcMain mcHandle
    dsimp only
    rw [hN, M_ok_bind, if_neg (by omega), h]
    rfl
  · intro msg h
    unfold mcMain mcHandle
    dsimp only
    rw [hN, M_ok_bind, if_neg (by omega), h]
    rfl

/-- An unknown command gives exit code 2 (after the file has been read). -/
theorem C48_unknown_command {F : Type} [FOps F] [FBits F] (w : McWorld F) (cmd file num : Str) (N : ℤ) (hN0 : 0 ≤ N)
    (hN : stringToLong w.libc num = .ok N) (b B : List F) (h : readAndCheckBoundariesFile w.libc w.fs file = .ok (b, B))
    (h1 : cmd ≠ "ecdf".toList) (h2 : cmd ≠ "poisson".toList) : ∃ msg, mcMain w [cmd, file, num] = .error msg := by
  refine ⟨"Second command line argument must be 'ecdf' or 'poisson'", ?_⟩
  unfold mcMain mcHandle
  dsimp only
  rw [hN, M_ok_bind, if_neg (by omega), h, M_ok_bind]
  dsimp only
  rw [if_neg h2, if_neg h1]

theorem mcMain_ecdf {F : Type} [FOps F] [FBits F] (w : McWorld F) (file num : Str) (N : ℤ) (hN0 : 0 ≤ N)
    (hN : stringToLong w.libc num = .ok N) (b B : List F) (h : readAndCheckBoundariesFile w.libc w.fs file = .ok (b, B)) :
    mcHandle w "ecdf".toList file num = (do
      let p ← ecdfMc TinyMT.generateDouble01
        (w.junk.init (BitVec.ofInt 64 (w.time + ((max b.length B.length : ℕ) : ℤ) * 2 ^ 20)))
        ((max b.length B.length : ℕ) : ℤ) b B N
      .ok (one -ᶠ p)) := by
  unfold mcHandle
  rw [hN, M_ok_bind, if_neg (by omega), h, M_ok_bind]
  dsimp only
  rw [if_neg (by decide), if_pos rfl]

theorem mcMain_poisson {F : Type} [FOps F] [FBits F] (w : McWorld F) (file num : Str) (N : ℤ) (hN0 : 0 ≤ N)
    (hN : stringToLong w.libc num = .ok N) (b B : List F) (h : readAndCheckBoundariesFile w.libc w.fs file = .ok (b, B)) :
    mcHandle w "poisson".toList file num = (do
      let p ← poissonMc w.asserts TinyMT.generateDouble01
        ((poissonSeed w.time (ofInt ((max b.length B.length : ℕ) : ℤ) : F)).map w.junk.init)
        (ofInt ((max b.length B.length : ℕ) : ℤ)) b B N
      .ok (one -ᶠ p)) := by
  unfold mcHandle
  rw [hN, M_ok_bind, if_neg (by omega), h, M_ok_bind]
  dsimp only
  rw [if_pos rfl]

/-- The `ecdf` command: exit code 0, printing one minus the fraction of crossing runs, for any arithmetic, seed
and contents of the uninitialised memory. -/
theorem C48_ecdf {F : Type} [FOps F] [FBits F] (w : McWorld F) (file num : Str) (N : ℕ)
    (hN : stringToLong w.libc num = .ok (N : ℤ)) (hNmax : (N : ℤ) ≤ 2 ^ 31 - 1) (b B : List F)
    (h : readAndCheckBoundariesFile w.libc w.fs file = .ok (b, B))
    (hsz : b ≠ [] ∨ B ≠ []) (hb : b = [] ∨ B.length ≤ b.length) :
    let n := max b.length B.length
    let rng := w.junk.init (BitVec.ofInt 64 (w.time + (n : ℤ) * 2 ^ 20))
    mcMain w ["ecdf".toList, file, num] = .printed (one -ᶠ (ofInt (countUpTo (fun r => ¬ Inside
      (sample (fun j => draw TinyMT.generateDouble01 rng (r * (n + 1) + j)) n) b B) N : ℤ) /ᶠ ofInt (N : ℤ))) := by
  intro n rng
  have hn : 1 ≤ n := by
    rcases hsz with h | h
    · have := List.length_pos_iff.mpr h; omega
    · have := List.length_pos_iff.mpr h; omega
  unfold mcMain
  dsimp only
  rw [mcMain_ecdf w file num N (by omega) hN b B h,
    C33_any_arithmetic _ _ _ hn b B N (le_max_right _ _) (by
      rcases hb with hb | hb
      · exact Or.inl hb
      · right; omega) hNmax, M_ok_bind]

/-- The printed `ecdf` estimate is a number in `[0, 1]` for every positive number of simulations up to
`INT_MAX`, whatever the draws. -/
theorem C48_ecdf_in_unit_interval (w : McWorld XR) (file num : Str) (N : ℕ) (hN0 : 1 ≤ N)
    (hN : stringToLong w.libc num = .ok (N : ℤ)) (hNmax : (N : ℤ) ≤ 2 ^ 31 - 1) (b B : List XR)
    (h : readAndCheckBoundariesFile w.libc w.fs file = .ok (b, B)) (hsz : b ≠ [] ∨ B ≠ []) :
    ∃ p : ℝ, mcMain w ["ecdf".toList, file, num] = .printed (.fin p) ∧ 0 ≤ p ∧ p ≤ 1 := by
  have hn : 1 ≤ max b.length B.length := by
    rcases hsz with h | h
    · have := List.length_pos_iff.mpr h; omega
    · have := List.length_pos_iff.mpr h; omega
  unfold mcMain
  dsimp only
  rw [mcMain_ecdf w file num N (by omega) hN b B h]
  by_cases hb : b = [] ∨ B.length ≤ b.length
  · obtain ⟨p, hp, h0, h1⟩ := C33_in_unit_interval TinyMT.generateDouble01
      (w.junk.init (BitVec.ofInt 64 (w.time + ((max b.length B.length : ℕ) : ℤ) * 2 ^ 20)))
      (max b.length B.length) hn b B N (le_max_right _ _) (by
        rcases hb with hb | hb
        · exact Or.inl hb
        · right; omega) hN0 hNmax
    rw [hp, M_ok_bind]
    exact ⟨1 - p, by simp, by linarith, by linarith⟩
  · push Not at hb
    rw [C33_sizes _ _ _ _ _ _ (Or.inr ⟨hb.1, by have := hb.2; omega⟩), M_ok_bind]
    exact ⟨0, by simp, le_rfl, by norm_num⟩

/-- More than `INT_MAX` simulations: the program never prints anything. -/
theorem C48_too_many (w : McWorld XR) (file num : Str) (N : ℤ) (hNmax : 2 ^ 31 - 1 < N)
    (hN : stringToLong w.libc num = .ok N) (b B : List XR)
    (h : readAndCheckBoundariesFile w.libc w.fs file = .ok (b, B)) (hsz : b ≠ [] ∨ B ≠ [])
    (hb : b = [] ∨ B.length ≤ b.length) (cmd : Str) (p : XR) : mcMain w [cmd, file, num] ≠ .printed p := by
  have hn : 1 ≤ max b.length B.length := by
    rcases hsz with h | h
    · have := List.length_pos_iff.mpr h; omega
    · have := List.length_pos_iff.mpr h; omega
  by_cases h1 : cmd = "ecdf".toList
  · subst h1
    unfold mcMain
    dsimp only
    rw [mcMain_ecdf w file num N (by omega) hN b B h]
    rcases ecdfMc_not_ok TinyMT.generateDouble01
      (w.junk.init (BitVec.ofInt 64 (w.time + ((max b.length B.length : ℕ) : ℤ) * 2 ^ 20)))
      (max b.length B.length) hn b B N (le_max_right _ _) (by
        rcases hb with hb | hb
        · exact Or.inl hb
        · right; omega) hNmax with he | he <;> rw [he] <;> intro hc <;> cases hc
  · by_cases h2 : cmd = "poisson".toList
    · subst h2
      unfold mcMain
      dsimp only
      rw [mcMain_poisson w file num N (by omega) hN b B h]
      cases hs : (poissonSeed w.time (ofInt ((max b.length B.length : ℕ) : ℤ) : XR)).map w.junk.init with
      | ok rng => rw [C34_poisson_hangs _ _ _ _ _ _ _ hb hNmax]; intro hc; cases hc
      | error e =>
        unfold poissonMc
        rw [if_neg (by
          rintro ⟨g1, g2⟩
          rcases hb with hb | hb
          · rw [hb] at g1; simp at g1
          · omega)]
        cases e <;> intro hc <;> cases hc
    · obtain ⟨msg, he⟩ := C48_unknown_command w cmd file num N (by omega) hN b B h h1 h2
      rw [he]
      intro hc; cases hc

/-- The `poisson` command with boundaries of up to 2147 numbers: exit code 0 and a number in `[0, 1]`. -/
theorem C48_poisson (w : McWorld XR) (file num : Str) (N : ℕ) (hN0 : 1 ≤ N)
    (hN : stringToLong w.libc num = .ok (N : ℤ)) (hNmax : (N : ℤ) ≤ 2 ^ 31 - 1) (b B : List XR)
    (h : readAndCheckBoundariesFile w.libc w.fs file = .ok (b, B)) (hsz : max b.length B.length ≤ 2147) :
    ∃ p : ℝ, mcMain w ["poisson".toList, file, num] = .printed (.fin p) ∧ 0 ≤ p ∧ p ≤ 1 := by
  unfold mcMain
  dsimp only
  rw [mcMain_poisson w file num N (by omega) hN b B h, (C46_seed w.time _).1 hsz]
  by_cases hb : b = [] ∨ B.length ≤ b.length
  · have hmap : ∀ x : BitVec 64, (Except.ok x : M (BitVec 64)).map w.junk.init = .ok (w.junk.init x) := fun _ => rfl
    obtain ⟨p, hp, h0, h1⟩ := C35_poisson_in_unit_interval w.asserts TinyMT.generateDouble01
      (w.junk.init (BitVec.ofInt 64 (w.time + ((max b.length B.length : ℕ) : ℤ) * 1000000)))
      (ofInt ((max b.length B.length : ℕ) : ℤ)) b B N hb hN0 hNmax
    rw [hmap, hp, M_ok_bind]
    exact ⟨1 - p, by simp, by linarith, by linarith⟩
  · push Not at hb
    rw [C35_poisson_sizes _ _ _ _ _ _ _ hb.1 hb.2, M_ok_bind]
    exact ⟨0, by simp, le_rfl, by norm_num⟩

/-- From 2148 numbers on, the `poisson` command has undefined behaviour before simulating anything (unless the
first list is shorter than the second, in which case 0 is printed). -/
theorem C48_poisson_large_undefined (w : McWorld XR) (file num : Str) (N : ℤ) (hN0 : 0 ≤ N)
    (hN : stringToLong w.libc num = .ok N) (b B : List XR)
    (h : readAndCheckBoundariesFile w.libc w.fs file = .ok (b, B)) (hb : b = [] ∨ B.length ≤ b.length)
    (hsz : 2148 ≤ max b.length B.length) : mcMain w ["poisson".toList, file, num] = .undefined := by
  unfold mcMain
  dsimp only
  rw [mcMain_poisson w file num N (by omega) hN b B h]
  obtain ⟨what, hs⟩ := (C46_seed w.time _).2 hsz
  rw [hs]
  unfold poissonMc
  rw [if_neg (by
    rintro ⟨g1, g2⟩
    rcases hb with hb | hb
    · rw [hb] at g1; simp at g1
    · omega)]
  rfl

/-- With two empty lines and at least one simulation, the `ecdf` command evaluates `&tmp_buffer[0]` on an empty
vector, which is undefined. -/
theorem C48_ecdf_empty_undefined {F : Type} [FOps F] [FBits F] (w : McWorld F) (file num : Str) (N : ℤ) (hN0 : 1 ≤ N)
    (hN : stringToLong w.libc num = .ok N)
    (h : readAndCheckBoundariesFile w.libc w.fs file = .ok ([], [])) :
    mcMain w ["ecdf".toList, file, num] = .undefined := by
  unfold mcMain
  dsimp only
  rw [mcMain_ecdf w file num N (by omega) hN [] [] h]
  unfold ecdfMc
  rw [if_neg (by simp), if_neg (by simp)]
  rw [whileM_fault (e := .ub "operator[] out of range") (by simp; omega) (by
    unfold ecdfMcBody randomEcdfCross
    simp only [List.length_nil, max_self, Nat.cast_zero, Int.toNat_zero, List.replicate_zero]
    rw [forRange_empty (by decide), M_ok_bind]
    dsimp only
    rw [forRange_empty (by simp), M_ok_bind]
    rfl)]
  rfl

/-- A world to run the program in. -/
noncomputable def exMcWorld (file : Str) : McWorld XR :=
  { asserts := true, libc := Witness.libc, time := 1700000000, junk := ⟨0, 0, 0, 0, 0⟩
    fs := fun name => if name = "bounds.txt".toList then .contents file else .unreadable }

/-- The hypotheses above can be met: a run of 1000 simulations with two lines of one number each. -/
example : ∃ p : ℝ, mcMain (exMcWorld "0.5\n0.5".toList) ["ecdf".toList, "bounds.txt".toList, "1000".toList] =
    .printed (.fin p) ∧ 0 ≤ p ∧ p ≤ 1 := by
  have hN : stringToLong (exMcWorld "0.5\n0.5".toList).libc "1000".toList = .ok ((1000 : ℕ) : ℤ) :=
    C31_roundtrip (F := XR) Witness.strtol_spec 1000 (by constructor <;> norm_num)
  have hline : readCommaDelimitedDoubles (F := XR) Witness.libc "0.5".toList = .ok [XR.fin (1/2)] := by
    have := C28_line (libc := Witness.libc) Witness.strtod_spec [⟨[], dec05, []⟩] (by simp)
      (by
        intro f hf
        simp only [List.mem_cons, List.not_mem_nil, or_false] at hf
        subst hf
        exact ⟨by simp, dec05_wf, (by intro c hc; cases hc), by simp⟩)
      (fun _ _ => trivial)
    simp only [List.map_cons, List.map_nil, dec05_value, List.intercalate_singleton] at this
    have e : Field.text ⟨[], dec05, []⟩ = "0.5".toList := by decide
    rw [e] at this
    exact this
  have hfile : readAndCheckBoundariesFile (exMcWorld "0.5\n0.5".toList).libc (exMcWorld "0.5\n0.5".toList).fs
      "bounds.txt".toList = .ok ([XR.fin (1/2)], [XR.fin (1/2)]) :=
    (C30_success_iff _ _ _ _ _).mpr ⟨"0.5\n0.5".toList, "0.5".toList, "0.5".toList, rfl,
      ⟨by decide, by decide, Or.inr ⟨by decide, rfl⟩⟩, hline, hline⟩
  exact C48_ecdf_in_unit_interval _ _ _ 1000 (by norm_num) hN (by norm_num) _ _ hfile (by simp)

end CP.Props
