import Verif.Proofs.Heap
import Verif.Props.Exact
import Verif.Props.Safety
/-!
Property C51: memory blocks and FFTW plans.  `Model/Heap.lean` repeats the algorithms with constructors, destructors, `_mm_malloc`
and `_mm_free` made explicit; a call maps a world (the live blocks and plans) to an outcome and a new world.
-/
namespace CP.Props
open CP.Spec HM
set_option linter.unusedVariables false
variable {F : Type} [FOps F]

/-! ## Specification -/

/-- A possible state of the allocator: no handle is live twice and future handles are new. -/
def Allocator (w : HWorld) : Prop := w.live.Nodup ∧ ∀ h ∈ w.live, h < w.next

/-- The call ended with a result or with a C++ exception (and not by abort or undefined behaviour). -/
def Ended {α : Type} : M α → Prop
  | .ok _ => True
  | .error (.runtimeError _) => True
  | .error .ioFailure => True
  | .error _ => False

/-- The call ended with a C++ exception. -/
def Threw {α : Type} : M α → Prop
  | .error (.runtimeError _) => True
  | .error .ioFailure => True
  | _ => False

/-- The outcome is that of the function without explicit memory management, and once the call has ended exactly the blocks and
plans that were live before are live. -/
def NoLeak {α : Type} (x : HM α) (m : M α) : Prop :=
  ∀ w, Allocator w → (x w).1 = m ∧ (Ended m → (x w).2.live.Perm w.live ∧ Allocator (x w).2)

/-- As `NoLeak` for results; but after an exception exactly one more block is live, a block allocated by this call. -/
def LeaksOnThrow {α : Type} (x : HM α) (m : M α) : Prop :=
  ∀ w, Allocator w → (x w).1 = m ∧ ((∃ a, m = .ok a) → (x w).2.live.Perm w.live ∧ Allocator (x w).2) ∧
    (Threw m → (∃ h, h ∉ w.live ∧ (x w).2.live.Perm (h :: w.live)) ∧ Allocator (x w).2)

/-! ## From the simulation -/

theorem threw_throws {α : Type} {e : Fault} (h : Threw (.error e : M α)) : throws e = true := by
  cases e <;> first | rfl | exact absurd h (fun h => h)

theorem ended_throws {α : Type} {e : Fault} (h : Ended (.error e : M α)) : throws e = true := by
  cases e <;> first | rfl | exact absurd h (fun h => h)

theorem noLeak_of_sim {α : Type} {x : HM α} {m : M α}
    (h : ∀ base, Sim (LiveIs base) x m (fun a b w => a = b ∧ LiveIs base w) (LiveIs base)) : NoLeak x m := by
  intro w hw
  rcases h w.live w ⟨List.Perm.refl _, hw⟩ with ⟨a, b, h1, h2, h3, h4⟩ | ⟨e, h1, h2, h3⟩
  · subst h3; exact ⟨by rw [h1, h2], fun _ => h4⟩
  · exact ⟨by rw [h1, h2], fun he => h3 (ended_throws (h2 ▸ he))⟩

theorem leaks_of_sim {α : Type} {x : HM α} {m : M α}
    (h : ∀ base, Sim (LiveIs base) x m (fun a b w => a = b ∧ LiveIs base w) (Leaks base)) : LeaksOnThrow x m := by
  intro w hw
  rcases h w.live w ⟨List.Perm.refl _, hw⟩ with ⟨a, b, h1, h2, h3, h4⟩ | ⟨e, h1, h2, h3⟩
  · subst h3
    exact ⟨by rw [h1, h2], fun _ => h4, fun ht => by rw [h2] at ht; exact absurd ht (fun h => h)⟩
  · refine ⟨by rw [h1, h2], (fun ⟨a, ha⟩ => by rw [h2] at ha; cases ha), fun ht => ?_⟩
    obtain ⟨id, hid, hl⟩ := h3 (threw_throws (h2 ▸ ht))
    exact ⟨⟨id, hid, hl.1⟩, hl.2⟩

/-! ## C51 -/

/-- C51: `ecdf2` frees everything it allocates, whether it returns or throws, in any arithmetic. -/
theorem C51_ecdf2 (env : Env F) (sort : List (Bound F) → List (Bound F)) (b B : List F) (useFft : Bool) :
    NoLeak (ecdf2H env sort b B useFft) (ecdf2 env sort b B useFft) :=
  noLeak_of_sim fun base => ecdf2_sim env base sort b B useFft

/-- C51: so does `ecdf1_mns2016_b`. -/
theorem C51_mns2016_b (env : Env F) (b : List F) : NoLeak (ecdf1Mns2016bH env b) (ecdf1Mns2016b env b) :=
  noLeak_of_sim fun base => mnsb_sim env base b

/-- C51: so does `ecdf1_mns2016_B`. -/
theorem C51_mns2016_B (env : Env F) (B : List F) : NoLeak (ecdf1Mns2016BH env B) (ecdf1Mns2016B env B) :=
  noLeak_of_sim fun base => mnsB_sim env base B

/-- C51: `ecdf1_new_B` on a list that validation rejects leaks nothing. -/
theorem C51_new_B_rejected (env : Env F) (isqrt : ℕ → ℕ) (B : List F) {e : Fault}
    (hc : checkBoundaryVector "B" B.length B = .error e) : NoLeak (ecdf1NewBH env isqrt B) (ecdf1NewB env isqrt B) := by
  intro w hw
  have h1 : ecdf1NewBH env isqrt B w = (.error e, w) := bind_lift_error hc w
  have h2 : ecdf1NewB env isqrt B = .error e := by unfold ecdf1NewB; dsimp only; rw [hc]; rfl
  rw [h1, h2]
  exact ⟨rfl, fun _ => ⟨List.Perm.refl _, hw⟩⟩

/-- C51: `ecdf1_new_B` on a list that validation accepts frees everything if it returns and leaks exactly one block if it throws. -/
theorem C51_new_B_accepted (env : Env F) (isqrt : ℕ → ℕ) (B : List F) (hc : checkBoundaryVector "B" B.length B = .ok ()) :
    LeaksOnThrow (ecdf1NewBH env isqrt B) (ecdf1NewB env isqrt B) :=
  leaks_of_sim fun base => ecdf1NewB_sim env base isqrt B hc

/-- C51: `ecdf1_new_b`: nothing is leaked if validation rejects the list or the reflected list, or if the call returns; one block is
leaked if it throws after that. -/
theorem C51_new_b (env : Env F) (isqrt : ℕ → ℕ) (b steps : List F) (hs : symmetricSteps b = .ok steps) :
    ((checkBoundaryVector "b" b.length b ≠ .ok () ∨ checkBoundaryVector "B" steps.length steps ≠ .ok ()) →
      NoLeak (ecdf1NewbH env isqrt b) (ecdf1Newb env isqrt b)) ∧
    (checkBoundaryVector "b" b.length b = .ok () → checkBoundaryVector "B" steps.length steps = .ok () →
      LeaksOnThrow (ecdf1NewbH env isqrt b) (ecdf1Newb env isqrt b)) := by
  have key : checkBoundaryVector "b" b.length b = .ok () → ecdf1NewbH env isqrt b = ecdf1NewBH env isqrt steps ∧
      ecdf1Newb env isqrt b = ecdf1NewB env isqrt steps := by
    intro hc
    constructor
    · funext w
      exact (bind_lift_ok hc w).trans (bind_lift_ok hs w)
    · unfold ecdf1Newb
      dsimp only
      rw [hc, M_ok_bind, hs, M_ok_bind]
  constructor
  · rintro h
    cases hc : checkBoundaryVector "b" b.length b with
    | error e =>
      intro w hw
      have h1 : ecdf1NewbH env isqrt b w = (.error e, w) := bind_lift_error hc w
      have h2 : ecdf1Newb env isqrt b = .error e := by unfold ecdf1Newb; dsimp only; rw [hc]; rfl
      rw [h1, h2]
      exact ⟨rfl, fun _ => ⟨List.Perm.refl _, hw⟩⟩
    | ok u =>
      rw [(key hc).1, (key hc).2]
      rcases h with h | h
      · exact absurd hc h
      · cases hc' : checkBoundaryVector "B" steps.length steps with
        | ok u => exact absurd hc' h
        | error e => exact C51_new_B_rejected env isqrt steps hc'
  · intro hc hc'
    rw [(key hc).1, (key hc).2]
    exact C51_new_B_accepted env isqrt steps hc'

/-- C51: with exact arithmetic and a valid boundary of numbers nothing is leaked: there is no exception. -/
theorem C51_new_B_valid (env : Env XR) (hf : ExactFFT env.fft) {n : ℕ} (hn : 1 ≤ n) {B : Fin n → ℝ} (hB : ValidBound B)
    (ha : env.asserts = false ∨ 2 ≤ n) :
    NoLeak (ecdf1NewBH env Nat.sqrt (toList B)) (ecdf1NewB env Nat.sqrt (toList B)) := by
  have h := C02_ecdf1_new_B env hf hn hB ha
  cases hc : checkBoundaryVector "B" (toList B).length (toList B) with
  | error e => exact C51_new_B_rejected env Nat.sqrt _ hc
  | ok u =>
    intro w hw
    obtain ⟨h1, h2, -⟩ := C51_new_B_accepted env Nat.sqrt _ hc w hw
    exact ⟨h1, fun _ => h2 ⟨_, h⟩⟩

/-! ### The leak is reachable -/

/-- A list that validation accepts: comparisons with the NaN are false. -/
noncomputable def leakB : List XR := [.fin (1/2), .fin (1/2), .fin (1/2), .nan, .fin (1/5)]

theorem leakB_accepted : checkBoundaryVector "B" leakB.length leakB = .ok () := by
  unfold checkBoundaryVector
  rw [if_neg (by simp), if_neg (by simp [leakB, isMonotoneIncreasing, isMonotoneFrom, FOps.lt, XR.lt, FOps.negInf]),
    if_neg (by simp [leakB, outOfRange, FOps.lt, XR.lt]; norm_num)]

theorem bind_ok_inv {α β : Type} {m : M α} {f : α → M β} {y : β} (h : (m >>= f) = .ok y) : ∃ a, m = .ok a ∧ f a = .ok y := by
  cases m with
  | ok a => exact ⟨a, rfl, h⟩
  | error e => cases h

theorem leakB_throws (env : Env XR) (ha : env.asserts = false) : Threw (ecdf1NewB env Nat.sqrt leakB) := by
  rcases C17_new_B_release env ha Nat.sqrt leakB (by simp [leakB]) with ⟨a, h⟩ | ⟨msg, h⟩
  · exfalso
    unfold ecdf1NewB at h
    dsimp only at h
    obtain ⟨_, -, h⟩ := bind_ok_inv h
    obtain ⟨_, h, -⟩ := bind_ok_inv h
    have hl : leakB.length = 5 := rfl
    have hq : Nat.sqrt 5 = 2 := (Nat.eq_sqrt.2 ⟨by norm_num, by norm_num⟩).symm
    rw [hl, hq] at h
    unfold poissonBNoncrossingProbabilityN2 at h
    dsimp only at h
    obtain ⟨_, -, h⟩ := bind_ok_inv h
    obtain ⟨_, -, h⟩ := bind_ok_inv h
    obtain ⟨_, -, h⟩ := bind_ok_inv h
    obtain ⟨_, h, -⟩ := bind_ok_inv h
    rw [hl] at h
    norm_num at h
    unfold blockLoop at h
    obtain ⟨s1, h1, h⟩ := bind_ok_inv h
    rw [if_neg (by norm_num)] at h
    unfold blockLoop at h
    norm_num at h
    obtain ⟨s2, h2, -⟩ := bind_ok_inv h
    have e1 : s1.IprevLocation = XR.fin (1/2) := by
      unfold blockStep at h1
      dsimp only at h1
      obtain ⟨BI, hBI, h1⟩ := bind_ok_inv h1
      iterate 13 obtain ⟨_, -, h1⟩ := bind_ok_inv h1
      cases h1
      cases hBI
      rfl
    unfold blockStep at h2
    obtain ⟨BI, hBI, h2⟩ := bind_ok_inv h2
    obtain ⟨g, h2, -⟩ := bind_ok_inv h2
    cases hBI
    unfold PmfGen.computeArray at h2
    obtain ⟨_, -, h2⟩ := bind_ok_inv h2
    obtain ⟨_, -, h2⟩ := bind_ok_inv h2
    rw [if_pos] at h2
    · cases h2
    · rw [e1]
      simp [FOps.lt, XR.lt, FOps.mul, XR.mul, FOps.sub, XR.add, XR.neg, leakB]
      norm_num
  · rw [h]; exact trivial

/-- Call the function `k` times, catching the exceptions. -/
def repeatCalls {α : Type} (x : HM α) : ℕ → HWorld → HWorld
  | 0, w => w
  | k + 1, w => repeatCalls x k (x w).2

/-- C51: the leak happens, and accumulates: each call of `ecdf1_new_B` (release build) with this list leaves one more block. -/
theorem C51_leak_accumulates (env : Env XR) (ha : env.asserts = false) (k : ℕ) (w : HWorld) (hw : Allocator w) :
    (repeatCalls (ecdf1NewBH env Nat.sqrt leakB) k w).live.length = w.live.length + k := by
  induction k generalizing w with
  | zero => rfl
  | succ k ih =>
    obtain ⟨-, -, h⟩ := C51_new_B_accepted env Nat.sqrt leakB leakB_accepted w hw
    obtain ⟨⟨id, -, hp⟩, hw'⟩ := h (leakB_throws env ha)
    show (repeatCalls _ k _).live.length = _
    rw [ih _ hw', hp.length_eq, List.length_cons]
    omega

/-! ### Plans -/

/-- A call of `convolve_same_size` with its arguments. -/
structure ConvCall (F : Type) where
  size : Int
  a : List F
  oa : Int
  b : List F
  ob : Int
  out : List F
  oo : Int

/-- Calls on one convolver object, one after the other (up to the first fault). -/
def convCalls (env : Env F) : List (ConvCall F) → Convolver F → HM Unit
  | [], _ => pure ()
  | c :: cs, cv => do
    let r ← cv.convolveH env c.size c.a c.oa c.b c.ob c.out c.oo
    convCalls env cs r.1

/-- Number of plans that exist. -/
def planCount (w : HWorld) : ℕ := (handles w.r2c).length + (handles w.c2r).length

/-- Handles are only given to new plans, and the plan vectors keep their lengths. -/
def GrowsAt {α : Type} (x : HM α) (w : HWorld) : Prop :=
  (x w).2.next + planCount w = w.next + planCount (x w).2 ∧ (x w).2.r2c.length = w.r2c.length ∧ (x w).2.c2r.length = w.c2r.length

/-- From every world. -/
def Grows {α : Type} (x : HM α) : Prop := ∀ w, GrowsAt x w

theorem Grows.bind {α β : Type} {x : HM α} {f : α → HM β} (hx : Grows x) (hf : ∀ a, Grows (f a)) : Grows (x >>= f) := by
  intro w
  rcases h : x w with ⟨r, w'⟩
  have h1 := hx w
  unfold GrowsAt at h1 ⊢
  rw [h] at h1
  dsimp only at h1
  have e : (x >>= f) w = match x w with | (.ok a, w') => f a w' | (.error e, w') => (.error e, w') := rfl
  rw [e, h]
  cases r with
  | error e => exact h1
  | ok a =>
    have h2 := hf a w'
    unfold GrowsAt at h2
    dsimp only
    omega

theorem Grows.lift {α : Type} (m : M α) : Grows (HM.lift m) := fun w => ⟨rfl, rfl, rfl⟩
theorem Grows.pure {α : Type} (a : α) : Grows (pure a : HM α) := fun w => ⟨rfl, rfl, rfl⟩

theorem Grows.memor2c (env : Env F) (N : Int) : Grows (Convolver.memoizedR2CH env N) := by
  unfold Convolver.memoizedR2CH
  refine Grows.bind (Grows.lift _) fun _ => Grows.bind (Grows.lift _) fun _ => ?_
  intro w
  unfold GrowsAt
  rw [bind_ok (x := getR2C) (w' := w) (a := w.r2c) rfl]
  cases hA : assertC env.asserts (decide (0 ≤ N.tdiv ROUNDING - 1 ∧ N.tdiv ROUNDING - 1 < (w.r2c.length : Int))) "index < plans.size()" with
  | error e => rw [bind_lift_error rfl]; exact ⟨rfl, rfl, rfl⟩
  | ok u =>
    rw [bind_lift_ok rfl]
    cases hr : rd w.r2c (N.tdiv ROUNDING - 1) with
    | error e => rw [bind_lift_error rfl]; exact ⟨rfl, rfl, rfl⟩
    | ok p =>
      rw [bind_lift_ok rfl]
      cases p with
      | some x => exact ⟨rfl, rfl, rfl⟩
      | none =>
        show GrowsAt (HM.alloc >>= fun h => HM.lift (wr w.r2c (N.tdiv ROUNDING - 1) (some (h, N))) >>= fun l => HM.setR2C l >>= fun _ => Pure.pure N) w
        unfold GrowsAt
        rw [bind_ok (x := HM.alloc) (w' := (HM.alloc w).2) (a := w.next) rfl]
        cases hw : wr w.r2c (N.tdiv ROUNDING - 1) (some (w.next, N)) with
        | error e =>
          exfalso
          unfold rd at hr
          unfold wr at hw
          split at hw
          · cases hw
          · rename_i hn
            split at hr
            · split at hr
              · rename_i hi
                exact hn ⟨by assumption, (List.getElem?_eq_some_iff.1 hi).1⟩
              · cases hr
            · cases hr
        | ok l =>
          rw [bind_lift_ok rfl]
          have hl : l.length = w.r2c.length := by
            unfold wr at hw
            split at hw
            · cases hw; simp
            · cases hw
          have hp := (handles_set hr hw).length_eq
          rw [List.length_cons] at hp
          refine ⟨?_, ?_, ?_⟩
          · show w.next + 1 + ((handles w.r2c).length + (handles w.c2r).length) = w.next + ((handles l).length + (handles w.c2r).length)
            omega
          · exact hl
          · rfl

theorem Grows.memoc2r (env : Env F) (N : Int) : Grows (Convolver.memoizedC2RH env N) := by
  unfold Convolver.memoizedC2RH
  refine Grows.bind (Grows.lift _) fun _ => Grows.bind (Grows.lift _) fun _ => ?_
  intro w
  unfold GrowsAt
  rw [bind_ok (x := getC2R) (w' := w) (a := w.c2r) rfl]
  cases hA : assertC env.asserts (decide (0 ≤ N.tdiv ROUNDING - 1 ∧ N.tdiv ROUNDING - 1 < (w.c2r.length : Int))) "index < plans.size()" with
  | error e => rw [bind_lift_error rfl]; exact ⟨rfl, rfl, rfl⟩
  | ok u =>
    rw [bind_lift_ok rfl]
    cases hr : rd w.c2r (N.tdiv ROUNDING - 1) with
    | error e => rw [bind_lift_error rfl]; exact ⟨rfl, rfl, rfl⟩
    | ok p =>
      rw [bind_lift_ok rfl]
      cases p with
      | some x => exact ⟨rfl, rfl, rfl⟩
      | none =>
        show GrowsAt (HM.alloc >>= fun h => HM.lift (wr w.c2r (N.tdiv ROUNDING - 1) (some (h, N))) >>= fun l => HM.setC2R l >>= fun _ => Pure.pure N) w
        unfold GrowsAt
        rw [bind_ok (x := HM.alloc) (w' := (HM.alloc w).2) (a := w.next) rfl]
        cases hw : wr w.c2r (N.tdiv ROUNDING - 1) (some (w.next, N)) with
        | error e =>
          exfalso
          unfold rd at hr
          unfold wr at hw
          split at hw
          · cases hw
          · rename_i hn
            split at hr
            · split at hr
              · rename_i hi
                exact hn ⟨by assumption, (List.getElem?_eq_some_iff.1 hi).1⟩
              · cases hr
            · cases hr
        | ok l =>
          rw [bind_lift_ok rfl]
          have hl : l.length = w.c2r.length := by
            unfold wr at hw
            split at hw
            · cases hw; simp
            · cases hw
          have hp := (handles_set hr hw).length_eq
          rw [List.length_cons] at hp
          refine ⟨?_, ?_, ?_⟩
          · show w.next + 1 + ((handles w.r2c).length + (handles w.c2r).length) = w.next + ((handles w.r2c).length + (handles l).length)
            omega
          · rfl
          · exact hl

theorem Grows.convolve (env : Env F) (cv : Convolver F) (size : Int) (a : List F) (oa : Int) (b : List F) (ob : Int) (out : List F)
    (oo : Int) : Grows (cv.convolveH env size a oa b ob out oo) := by
  unfold Convolver.convolveH
  split
  · exact Grows.lift _
  split
  · exact Grows.pure _
  split
  · exact Grows.bind (Grows.lift _) fun _ => Grows.pure _
  · dsimp only
    refine Grows.bind (Grows.lift _) fun _ => Grows.bind (Grows.memor2c env _) fun _ => Grows.bind (Grows.lift _) fun _ =>
      Grows.bind (Grows.lift _) fun _ => Grows.bind (Grows.memor2c env _) fun _ => Grows.bind (Grows.lift _) fun _ =>
      Grows.bind (Grows.lift _) fun _ => Grows.bind (Grows.memoc2r env _) fun _ => Grows.bind (Grows.lift _) fun _ =>
      Grows.bind (Grows.lift _) fun _ => Grows.bind (Grows.lift _) fun _ => Grows.bind (fun w => ⟨rfl, rfl, rfl⟩) fun _ =>
      Grows.bind (fun w => ⟨rfl, rfl, rfl⟩) fun _ => Grows.pure _

theorem Grows.calls (env : Env F) (cs : List (ConvCall F)) : ∀ cv, Grows (convCalls env cs cv) := by
  induction cs with
  | nil => intro cv; exact Grows.pure _
  | cons c cs ih =>
    intro cv
    unfold convCalls
    exact Grows.bind (Grows.convolve env cv _ _ _ _ _ _ _) fun r => ih r.1

/-- C51: however many convolutions a convolver performs, of whatever sizes and with whatever outcome, it creates at most one plan per
direction and per padded size (a multiple of `ROUNDING` up to twice the maximum input size), apart from its five buffers. -/
theorem C51_plans (env : Env F) (maximumInputSize : Int) (calls : List (ConvCall F)) (w : HWorld) :
    ((Convolver.newH env maximumInputSize >>= fun r => convCalls env calls r.1) w).2.next
      ≤ w.next + 5 + 2 * ((roundUp (2 * maximumInputSize) ROUNDING).tdiv ROUNDING).toNat := by
  obtain ⟨hs, w', e, hn, h1, h2, h3⟩ : ∃ hs w', Convolver.newH env maximumInputSize w = (.ok (Convolver.new env maximumInputSize, hs), w') ∧
      w'.next = w.next + 5 ∧ w'.r2c.length = ((roundUp (2 * maximumInputSize) ROUNDING).tdiv ROUNDING).toNat ∧
      w'.c2r.length = ((roundUp (2 * maximumInputSize) ROUNDING).tdiv ROUNDING).toNat ∧ True :=
    ⟨⟨w.next, w.next + 1, w.next + 2, w.next + 3, w.next + 4⟩, _, rfl, rfl, List.length_replicate, List.length_replicate, trivial⟩
  rw [bind_ok e]
  have hg := Grows.calls env calls (Convolver.new env maximumInputSize) w'
  unfold GrowsAt at hg
  dsimp only
  generalize convCalls env calls (Convolver.new env maximumInputSize) w' = r at hg ⊢
  have hc : planCount r.2 ≤ r.2.r2c.length + r.2.c2r.length := by
    unfold planCount handles
    exact Nat.add_le_add (List.length_filterMap_le _ _) (List.length_filterMap_le _ _)
  omega

/-! ### Examples -/

/-- A world with one block that belongs to somebody else. -/
def oneBlock : HWorld := { next := 8, live := [5], r2c := [], c2r := [] }

theorem oneBlock_allocator : Allocator oneBlock := ⟨by simp [oneBlock], by simp [oneBlock]⟩

/-- A call that returns: the block of somebody else is live before and after. -/
example : (ecdf2H relEnv mergeSortBounds (toList exb) (toList exB) true oneBlock).2.live = [5] := by
  have h := (C51_ecdf2 relEnv mergeSortBounds (toList exb) (toList exB) true oneBlock oneBlock_allocator).2
    (by rw [C01_ecdf2 relEnv exactFFTW_exact mergeSortBounds_contract exb_valid exB_valid true (Or.inl rfl)]; exact trivial)
  exact List.perm_singleton.1 h.1

/-- A call that throws. -/
example : (ecdf1Mns2016bH relEnv [XR.fin 2] oneBlock).2.live = [5] := by
  have hc : checkBoundaryVector "b" (1 : ℕ) [XR.fin 2] = .error (.runtimeError (rangeMsg "b" (1 : ℕ))) := by
    unfold checkBoundaryVector
    rw [if_neg (by simp), if_neg (by simp [isMonotoneIncreasing, isMonotoneFrom, FOps.lt, XR.lt, FOps.negInf]),
      if_pos (by simp [outOfRange, FOps.lt, XR.lt])]
  have h := (C51_mns2016_b relEnv [XR.fin 2] oneBlock oneBlock_allocator).2
    (by
      have : ecdf1Mns2016b relEnv [XR.fin 2] = .error (.runtimeError (rangeMsg "b" (1 : ℕ))) := by
        unfold ecdf1Mns2016b ecdf1Mns2016bWith
        simp only [List.length_cons, List.length_nil, Nat.zero_add]
        rw [hc]; rfl
      rw [this]; exact trivial)
  exact List.perm_singleton.1 h.1

example : (repeatCalls (ecdf1NewBH relEnv Nat.sqrt leakB) 1000 oneBlock).live.length = 1001 :=
  C51_leak_accumulates relEnv rfl 1000 oneBlock oneBlock_allocator

end CP.Props
