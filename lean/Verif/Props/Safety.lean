import Verif.Props.Validate
import Verif.Proofs.Erase
import Verif.Proofs.NewSafe
/-
Properties C15-C18 and C43: outcomes in arbitrary arithmetic.  `F` is any type with any operations
(`FOps F` has no laws), so these theorems hold whatever the floating point operations return.
-/
namespace CP.Props
open CP.Spec

/-- The call returned a value or threw `runtime_error`: no out-of-bounds access, no failed assertion,
no endless loop. -/
def Clean {α : Type} (m : M α) : Prop := (∃ a, m = .ok a) ∨ ∃ msg, m = .error (.runtimeError msg)

/-- As `Clean`, but a failed assertion (abort) is allowed too. -/
def CleanOrAbort {α : Type} (m : M α) : Prop := Clean m ∨ ∃ msg, m = .error (.assertFailed msg)

/-- The call performs no out-of-bounds access. -/
def NoUB {α : Type} (m : M α) : Prop := ∀ w, m ≠ .error (.ub w)

theorem clean_of_sat {α : Type} {m : M α} {Q : α → Prop} (h : Sat OnlyThrow Q m) : Clean m := by
  cases m with
  | ok a => exact Or.inl ⟨a, rfl⟩
  | error e =>
    obtain ⟨msg, rfl⟩ := h
    exact Or.inr ⟨msg, rfl⟩

theorem cleanOrAbort_of_erases {α : Type} {m m0 : M α} (h : Erases m m0) (h0 : Clean m0) : CleanOrAbort m := by
  rcases h with rfl | ⟨msg, rfl⟩
  · exact Or.inl h0
  · exact Or.inr ⟨msg, rfl⟩

theorem CleanOrAbort.noUB {α : Type} {m : M α} (h : CleanOrAbort m) : NoUB m := by
  rintro w rfl
  rcases h with (⟨a, h⟩ | ⟨a, h⟩) | ⟨a, h⟩ <;> cases h

variable {F : Type} [FOps F]

/-! ## C16 -/

/-- C16 (release build): `ecdf2` returns or throws `runtime_error`, whatever the arithmetic, the input
lists (valid or not), the order produced by `std::sort`, FFTW's output and uninitialised memory. -/
theorem C16_ecdf2_release (env : Env F) (ha : env.asserts = false) {sort : List (Bound F) → List (Bound F)}
    (hperm : ∀ l, (sort l).Perm l) (b B : List F) (useFft : Bool) : Clean (ecdf2 env sort b B useFft) :=
  clean_of_sat (ecdf2_safe env (fun msg => ⟨msg, rfl⟩) ha hperm b B useFft)

/-- C16 (either build): the only further outcome with assertions compiled in is an abort; there is
never an out-of-bounds access. -/
theorem C16_ecdf2_any (env : Env F) {sort : List (Bound F) → List (Bound F)}
    (hperm : ∀ l, (sort l).Perm l) (b B : List F) (useFft : Bool) :
    CleanOrAbort (ecdf2 env sort b B useFft) ∧ NoUB (ecdf2 env sort b B useFft) := by
  have h := cleanOrAbort_of_erases (ecdf2_erase env sort b B useFft)
    (C16_ecdf2_release env.noAsserts rfl hperm b B useFft)
  exact ⟨h, h.noUB⟩

/-- An arithmetic in which every operation returns the same garbage and all comparisons are true:
used to show that the theorems of this file apply to nonsense arithmetic. -/
def junkOps : FOps Unit where
  ofInt _ := (); add _ _ := (); sub _ _ := (); mul _ _ := (); div _ _ := (); neg _ := ()
  lt _ _ := true; eq _ _ := true; exp _ := (); log _ := (); lgamma _ := (); powi _ _ := ()
  negInf := (); frexpExp _ := 0; ldexp _ _ := ()

/-- The environment for `junkOps`. -/
def junkEnv (a : Bool) : Env Unit :=
  { asserts := a
    fft := { r2c := fun _ _ _ => ((), ()), r2cClobber := fun _ _ _ => (), c2r := fun _ _ _ => (),
             c2rClobber := fun _ _ _ => ((), ()) }
    junk := fun _ _ => (), junkC := fun _ _ => ((), ()) }

example : Clean (@ecdf2 Unit junkOps (junkEnv false) List.reverse [(), ()] [(), ()] true) :=
  letI := junkOps
  C16_ecdf2_release (junkEnv false) rfl List.reverse_perm [(), ()] [(), ()] true

/-! ## C17 -/

theorem newFaults_release : NewFaults OnlyThrow false :=
  ⟨fun msg => ⟨msg, rfl⟩, (fun h => by cases h), (fun h => by cases h)⟩

/-- The outcomes of `ecdf1_new` that are allowed in the assertion build. -/
def NewOutcome : Fault → Prop := fun f =>
  (∃ msg, f = .runtimeError msg) ∨ f = .assertFailed "lambda >= 0" ∨ f = .assertFailed "lambda >= 0.0"

theorem newFaults_any (a : Bool) : NewFaults NewOutcome a :=
  ⟨fun msg => Or.inl ⟨msg, rfl⟩, fun _ => Or.inr (Or.inl rfl), fun _ => Or.inr (Or.inr rfl)⟩

/-- C17 (release build, `n >= 1`): `ecdf1_new_B` returns or throws, in any arithmetic and for any block size rule. -/
theorem C17_new_B_release (env : Env F) (ha : env.asserts = false) (isqrt : ℕ → ℕ) (B : List F) (hn : 1 ≤ B.length) :
    Clean (ecdf1NewB env isqrt B) :=
  clean_of_sat (ecdf1NewB_safe env (ha ▸ newFaults_release) isqrt B hn (Or.inl ha))

theorem symmetricSteps_safe (v : List F) : ∃ s, symmetricSteps v = .ok s ∧ s.length = v.length := by
  unfold symmetricSteps
  have := Sat.forRange' (E := NoFault) (lo := 0) (hi := (v.length : Int)) (s := List.replicate v.length (FOps.zero : F))
    (body := fun i steps => do
      let x ← rd v (v.length - 1 - i)
      wr steps i (FOps.one -ᶠ x)) (fun s => s.length = v.length) (by simp) ?_
  · exact this.exists_ok
  · intro j s h0 h1 hs
    obtain ⟨f, hf⟩ := exists_fun (a := v)
    have e : Has v (v.length - 1 - j) (f (v.length - 1 - j.toNat)) := by
      have := hf (v.length - 1 - j.toNat) (by omega)
      have e : ((v.length - 1 - j.toNat : ℕ) : Int) = v.length - 1 - j := by omega
      rwa [e] at this
    rw [rd_eq e]
    refine (wr_sat _ h0 (by omega)).mono ?_
    intro a ⟨hl, _⟩
    omega

theorem check_clean {α : Type} (name : String) (n : Int) (v : List F) {m : M α}
    (h : Clean m) : Clean (checkBoundaryVector name n v >>= fun _ => m) := by
  unfold checkBoundaryVector
  split
  · exact Or.inr ⟨_, rfl⟩
  · split
    · exact Or.inr ⟨_, rfl⟩
    · split
      · exact Or.inr ⟨_, rfl⟩
      · exact h

theorem check_sat_bind {α : Type} {E : Fault → Prop} {Q : α → Prop} (hE : ∀ msg, E (.runtimeError msg)) (name : String)
    (n : Int) (v : List F) {m : M α} (h : Sat E Q m) : Sat E Q (checkBoundaryVector name n v >>= fun _ => m) := by
  unfold checkBoundaryVector
  split
  · exact hE _
  · split
    · exact hE _
    · split
      · exact hE _
      · exact h

/-- C17 (release build, `n >= 1`): `ecdf1_new_b` returns or throws, in any arithmetic. -/
theorem C17_new_b_release (env : Env F) (ha : env.asserts = false) (isqrt : ℕ → ℕ) (b : List F) (hn : 1 ≤ b.length) :
    Clean (ecdf1Newb env isqrt b) := by
  unfold ecdf1Newb
  obtain ⟨s, hs, hl⟩ := symmetricSteps_safe b
  refine check_clean "b" b.length b ?_
  rw [hs, M_ok_bind]
  exact C17_new_B_release env ha isqrt s (by omega)

/-- C17 (`n >= 2`, either build): `ecdf1_new_B` and `ecdf1_new_b` return, throw, or fail one of the two
assertions `lambda >= 0`: in particular they never access memory out of bounds and never fail the
assertion `jump_size <= n`. -/
theorem C17_new_any (env : Env F) (v : List F) (hn : 2 ≤ v.length) :
    (∀ e, ecdf1NewB env Nat.sqrt v = .error e → NewOutcome e) ∧
    (∀ e, ecdf1Newb env Nat.sqrt v = .error e → NewOutcome e) := by
  constructor
  · intro e he
    have := ecdf1NewB_safe env (newFaults_any env.asserts) Nat.sqrt v (by omega) (Or.inr (sqrt_succ_le hn))
    rw [he] at this
    exact this
  · intro e he
    have : Sat NewOutcome (fun _ => True) (ecdf1Newb env Nat.sqrt v) := by
      unfold ecdf1Newb
      obtain ⟨s, hs, hl⟩ := symmetricSteps_safe v
      refine check_sat_bind (newFaults_any env.asserts).rt "b" v.length v ?_
      rw [hs, M_ok_bind]
      exact ecdf1NewB_safe env (newFaults_any env.asserts) Nat.sqrt s (by omega)
        (Or.inr (by rw [hl]; exact sqrt_succ_le hn))
    rw [he] at this
    exact this

/-- C17 (`n = 1`): with assertions compiled in, every accepted one-element list aborts. -/
theorem C17_new_B_one (env : Env F) (ha : env.asserts = true) (x : F)
    (hx : checkBoundaryVector "B" 1 [x] = .ok ()) :
    ecdf1NewB env Nat.sqrt [x] = .error (.assertFailed "jump_size <= n") := by
  unfold ecdf1NewB
  simp only [List.length_cons, List.length_nil, Nat.zero_add, Nat.cast_one]
  rw [hx, M_ok_bind]
  unfold poissonBNoncrossingProbabilityN2 assertC
  rw [if_pos (by simp [ha])]
  rfl

/-- C17 (`n = 1`, lower boundary). -/
theorem C17_new_b_one (env : Env F) (ha : env.asserts = true) (x : F)
    (hx : checkBoundaryVector "b" 1 [x] = .ok ()) (hx' : checkBoundaryVector "B" 1 [FOps.one -ᶠ x] = .ok ()) :
    ecdf1Newb env Nat.sqrt [x] = .error (.assertFailed "jump_size <= n") := by
  unfold ecdf1Newb
  simp only [List.length_cons, List.length_nil, Nat.zero_add, Nat.cast_one]
  rw [hx, M_ok_bind]
  have : symmetricSteps [x] = .ok [FOps.one -ᶠ x] := by
    simp [symmetricSteps, forRange, forAux, rd, wr, M_ok_bind]
  rw [this, M_ok_bind]
  exact C17_new_B_one env ha _ hx'

/-- C17 (`n = 0`, lower boundary): abort with assertions, otherwise out-of-bounds read. -/
theorem C17_new_b_empty (env : Env F) (isqrt : ℕ → ℕ) :
    ecdf1Newb env isqrt ([] : List F) =
      if env.asserts then .error (.assertFailed "jump_size <= n") else .error (.ub "read at negative index") := by
  unfold ecdf1Newb
  have hc : checkBoundaryVector "b" 0 ([] : List F) = .ok () := by
    simp [checkBoundaryVector, isMonotoneIncreasing, isMonotoneFrom, outOfRange]
  dsimp only [List.length_nil, Int.natCast_zero]
  rw [hc, M_ok_bind]
  have : symmetricSteps ([] : List F) = .ok [] := by simp [symmetricSteps, forRange, forAux]
  rw [this, M_ok_bind]
  exact C17_new_B_empty env isqrt

/-- With assertions the perfectly valid boundary `B_1 = 1/2` aborts, although the answer is 1/2. -/
example : ecdf1NewB dbgEnv Nat.sqrt [XR.fin (1/2)] = .error (.assertFailed "jump_size <= n") := by
  refine C17_new_B_one dbgEnv rfl _ ?_
  rw [C14_check _ _ _ (by intro x hx; simp at hx; subst hx; simp), if_neg (by simp), if_neg, if_neg]
  · rintro ⟨x, hx, h⟩
    rw [List.mem_singleton] at hx
    subst hx
    rcases h with h | h <;> norm_num at h
  · unfold Ordered; simp
example : Clean (@ecdf1NewB Unit junkOps (junkEnv false) Nat.sqrt [(), (), ()]) :=
  letI := junkOps
  C17_new_B_release (junkEnv false) rfl Nat.sqrt [(), (), ()] (by simp)

/-! ## C18 -/

/-- C18: `ecdf1_mns2016_b` returns or throws in any arithmetic, in either build: no out-of-bounds
access, no failed assertion, whatever exponents are read at the rescaling steps. -/
theorem C18_mns2016_b (env : Env F) (readExponent : Int → F → Int) (b : List F) :
    Clean (ecdf1Mns2016bWith env readExponent b) :=
  clean_of_sat (mns_safe env (fun msg => ⟨msg, rfl⟩) readExponent b)

/-- C18 for `ecdf1_mns2016_B`. -/
theorem C18_mns2016_B (env : Env F) (B : List F) : Clean (ecdf1Mns2016B env B) := by
  unfold ecdf1Mns2016B
  obtain ⟨s, hs, _⟩ := symmetricSteps_safe B
  refine check_clean "B" B.length B ?_
  rw [hs, M_ok_bind]
  exact C18_mns2016_b env _ s

example : Clean (@ecdf1Mns2016B Unit junkOps (junkEnv true) [(), (), ()]) :=
  letI := junkOps
  C18_mns2016_B (junkEnv true) [(), (), ()]

/-! ## C43 -/

/-- C43: compiling assertions in only adds aborts: if the assertion build of an entry point ends in
any other way (a number, an exception, ...), the release build ends in the same way. -/
theorem C43_assertions_only_abort (env : Env F) (sort : List (Bound F) → List (Bound F)) (isqrt : ℕ → ℕ)
    (b B : List F) (useFft : Bool) :
    ((∀ msg, ecdf2 env sort b B useFft ≠ .error (.assertFailed msg)) →
      ecdf2 { env with asserts := false } sort b B useFft = ecdf2 env sort b B useFft) ∧
    ((∀ msg, ecdf1NewB env isqrt B ≠ .error (.assertFailed msg)) →
      ecdf1NewB { env with asserts := false } isqrt B = ecdf1NewB env isqrt B) ∧
    ((∀ msg, ecdf1Newb env isqrt b ≠ .error (.assertFailed msg)) →
      ecdf1Newb { env with asserts := false } isqrt b = ecdf1Newb env isqrt b) := by
  have key : ∀ {m m0 : M F}, Erases m m0 → (∀ msg, m ≠ .error (.assertFailed msg)) → m0 = m := by
    rintro m m0 (rfl | ⟨msg, rfl⟩) h
    · rfl
    · exact absurd rfl (h msg)
  exact ⟨key (ecdf2_erase env sort b B useFft), key (ecdf1NewB_erase env isqrt B), key (ecdf1Newb_erase env isqrt b)⟩

example (f : Bool) : ecdf2 { dbgEnv with asserts := false } mergeSortBounds (toList exb) (toList exB) f
    = ecdf2 dbgEnv mergeSortBounds (toList exb) (toList exB) f := by
  refine (C43_assertions_only_abort dbgEnv _ id _ _ f).1 fun msg h => ?_
  rw [C01_ecdf2 dbgEnv exactFFTW_exact mergeSortBounds_contract exb_valid exB_valid f (Or.inr ?_)] at h
  · cases h
  · rintro ⟨i, j, hij, h⟩
    fin_cases i <;> fin_cases j <;> simp [exb, exB] at hij h
    norm_num at h

/-! ## C15 -/

theorem step_nan (env : Env XR) (intensity : XR) (useFft : Bool) (s : NCState XR) (t : BoundType) :
    ncStep env intensity useFft s ⟨XR.nan, t⟩ = .error (.runtimeError negLambdaMsg) := by
  have h1 : ∀ x : XR, FOps.sub XR.nan x = XR.nan := by intro x; show XR.add _ _ = _; cases x <;> rfl
  have h2 : ∀ x : XR, FOps.mul x XR.nan = XR.nan := by intro x; show XR.mul _ _ = _; cases x <;> rfl
  unfold ncStep
  dsimp only
  rw [h1, h2]
  have h3 : FOps.lt (FOps.zero : XR) XR.nan = false := by rw [XR.zero_eq]; rfl
  have h4 : FOps.eq XR.nan (FOps.zero : XR) = false := by rw [XR.zero_eq]; rfl
  rw [h3, h4]
  rfl

theorem fold_nan (env : Env XR) (intensity : XR) (useFft : Bool) (l : List (Bound XR))
    (hl : ∃ x ∈ l, x.location = XR.nan) : ∀ (s s' : NCState XR), l.foldlM (ncStep env intensity useFft) s ≠ .ok s' := by
  induction l with
  | nil => obtain ⟨x, hx, _⟩ := hl; cases hx
  | cons y l ih =>
    intro s s' h
    rw [List.foldlM_cons] at h
    obtain ⟨x, hx, hn⟩ := hl
    rcases List.mem_cons.mp hx with rfl | hx
    · obtain ⟨loc, t⟩ := x
      dsimp only at hn
      subst hn
      rw [step_nan] at h
      cases h
    · cases hs : ncStep env intensity useFft s y with
      | error e => rw [hs] at h; cases h
      | ok s1 =>
        rw [hs, M_ok_bind] at h
        exact ih ⟨x, hx, hn⟩ s1 s' h

/-- C15: `ecdf2` never returns a value (not even NaN) when a list contains NaN, whatever order
`std::sort` leaves the elements in. -/
theorem C15_nan_no_value (env : Env XR) {sort : List (Bound XR) → List (Bound XR)} (hperm : ∀ l, (sort l).Perm l)
    (b B : List XR) (hnan : XR.nan ∈ b ∨ XR.nan ∈ B) (useFft : Bool) (x : XR) :
    ecdf2 env sort b B useFft ≠ .ok x := by
  intro h
  unfold ecdf2 at h
  dsimp only at h
  cases h1 : checkBoundaryVector "b" b.length b with
  | error e => rw [h1] at h; cases h
  | ok _ =>
  cases h2 : checkBoundaryVector "B" b.length B with
  | error e => rw [h1, h2] at h; cases h
  | ok _ =>
  rw [h1, h2, M_ok_bind, M_ok_bind] at h
  unfold poissonProcessNoncrossingProbability at h
  dsimp only at h
  rcases hw : wr (DoubleBuffer.new ((b.length : Int) + 1) (FOps.zero : XR)).src 0 FOps.one with e | src
  · rw [hw] at h; cases h
  rw [hw, M_ok_bind] at h
  rcases hp : PmfGen.new env ((b.length : Int) + 1) with e | g
  · rw [hp] at h; cases h
  rw [hp, M_ok_bind] at h
  rcases hf : (joinAllBounds sort b B).foldlM (ncStep env (FOps.ofInt (b.length : Int)) useFft)
      { buffers := (DoubleBuffer.new ((b.length : Int) + 1) (FOps.zero : XR)).setSrc src,
        conv := Convolver.new env ((b.length : Int) + 1), pmfgen := g, bStep := 0, BStep := 0, prev := FOps.zero } with e | s
  · rw [hf] at h; cases h
  refine fold_nan env _ useFft _ ?_ _ _ hf
  unfold joinAllBounds
  rcases hnan with hn | hn
  · exact ⟨⟨XR.nan, .bSTEP⟩, List.mem_append_left _ ((hperm _).mem_iff.mpr (List.mem_append_left _
      (List.mem_map.mpr ⟨_, hn, rfl⟩))), rfl⟩
  · exact ⟨⟨XR.nan, .BSTEP⟩, List.mem_append_left _ ((hperm _).mem_iff.mpr (List.mem_append_right _
      (List.mem_map.mpr ⟨_, hn, rfl⟩))), rfl⟩

/-- C15: in the release build the outcome is always a `runtime_error`. -/
theorem C15_nan_throws (env : Env XR) (ha : env.asserts = false) {sort : List (Bound XR) → List (Bound XR)}
    (hperm : ∀ l, (sort l).Perm l) (b B : List XR) (hnan : XR.nan ∈ b ∨ XR.nan ∈ B) (useFft : Bool) :
    ∃ msg, ecdf2 env sort b B useFft = .error (.runtimeError msg) := by
  rcases C16_ecdf2_release env ha hperm b B useFft with ⟨x, hx⟩ | h
  · exact absurd hx (C15_nan_no_value env hperm b B hnan useFft x)
  · exact h

/-- C15: validation accepts a list whose numbers decrease across a NaN (so the error comes from
deeper inside). -/
theorem C15_validation_accepts_nan :
    checkBoundaryVector "b" 3 [XR.fin (3/4), XR.nan, XR.fin (1/4)] = .ok () := by
  have h1 : FOps.lt XR.nan (XR.fin (3/4)) = false := rfl
  have h2 : FOps.lt (XR.fin (1/4)) XR.nan = false := rfl
  have h3 : FOps.lt (XR.fin (3/4)) XR.ninf = false := rfl
  norm_num [checkBoundaryVector, isMonotoneIncreasing, isMonotoneFrom, outOfRange, h1, h2, h3]

example : ∃ msg, ecdf2 relEnv List.reverse [XR.fin (3/4), XR.nan, XR.fin (1/4)] [XR.fin 1, XR.fin 1, XR.fin 1] true
    = .error (.runtimeError msg) :=
  C15_nan_throws relEnv rfl List.reverse_perm _ _ (Or.inl (by simp)) true

end CP.Props
