import Verif.Model.Heap
import Verif.Proofs.Convolve
import Mathlib.Data.List.Perm.Basic
import Mathlib.Data.List.Nodup
/-! Ownership: the functions with explicit memory management do what the functions do, and free what they allocate. -/
namespace CP
set_option linter.unusedSectionVars false
variable {F : Type} [FOps F]
open FOps HM

/-- Faults that are C++ exceptions. -/
def throws : Fault → Bool
  | .runtimeError _ => true
  | .ioFailure => true
  | _ => false

/-- From a world satisfying `P`, `x` ends like `m`: with related results in a world satisfying `R`, or with the same fault, and
then, if the fault is an exception, in a world satisfying `S`. -/
def Sim {α β : Type} (P : HWorld → Prop) (x : HM α) (m : M β) (R : α → β → HWorld → Prop) (S : HWorld → Prop) : Prop :=
  ∀ w, P w → (∃ a b, (x w).1 = .ok a ∧ m = .ok b ∧ R a b (x w).2) ∨
    (∃ e, (x w).1 = .error e ∧ m = .error e ∧ (throws e = true → S (x w).2))

namespace Sim
variable {α β γ δ σ : Type} {P P' : HWorld → Prop} {S S' : HWorld → Prop}

theorem bind {x : HM α} {m : M β} {R : α → β → HWorld → Prop} {f : α → HM γ} {g : β → M δ} {R' : γ → δ → HWorld → Prop}
    (h : Sim P x m R S) (hf : ∀ a b, Sim (R a b) (f a) (g b) R' S) : Sim P (x >>= f) (m >>= g) R' S := by
  intro w hw
  rcases hx : x w with ⟨r, w'⟩
  rcases h w hw with ⟨a, b, h1, h2, h3⟩ | ⟨e, h1, h2, h3⟩
  · rw [hx] at h1 h3
    dsimp only at h1 h3
    have e1 : (x >>= f) w = f a w' := by
      show (match x w with | (.ok a, w') => f a w' | (.error e, w') => (.error e, w')) = _
      rw [hx, h1]
    have e2 : (m >>= g) = g b := by rw [h2]; rfl
    rw [e1, e2]
    exact hf a b w' h3
  · rw [hx] at h1 h3
    dsimp only at h1 h3
    have e1 : (x >>= f) w = (.error e, w') := by
      show (match x w with | (.ok a, w') => f a w' | (.error e, w') => (.error e, w')) = _
      rw [hx, h1]
    refine Or.inr ⟨e, by rw [e1], by rw [h2]; rfl, by rw [e1]; exact h3⟩

theorem lift {m : M α} (h : ∀ w, P w → S w) : Sim P (lift m) m (fun a b w => a = b ∧ m = .ok b ∧ P w) S := by
  intro w hw
  cases m with
  | ok a => exact Or.inl ⟨a, a, rfl, rfl, rfl, rfl, hw⟩
  | error e => exact Or.inr ⟨e, rfl, rfl, fun _ => h w hw⟩

/-- A lifted computation that does not throw. -/
theorem liftNT {m : M α} (h : ∀ e, m = .error e → throws e = false) :
    Sim P (HM.lift m) m (fun a b w => a = b ∧ m = .ok b ∧ P w) S := by
  intro w hw
  cases m with
  | ok a => exact Or.inl ⟨a, a, rfl, rfl, rfl, rfl, hw⟩
  | error e => exact Or.inr ⟨e, rfl, rfl, fun ht => absurd ht (by rw [h e rfl]; simp)⟩

theorem pureR {a : α} {b : β} {R : α → β → HWorld → Prop} (h : ∀ w, P w → R a b w) : Sim P (pure a) (.ok b) R S :=
  fun w hw => Or.inl ⟨a, b, rfl, rfl, h w hw⟩

/-- A step without counterpart that cannot fail. -/
theorem okStep {x : HM α} {P' : α → HWorld → Prop} {f : α → HM γ} {m : M δ} {R' : γ → δ → HWorld → Prop}
    (h : ∀ w, P w → ∃ a, (x w).1 = .ok a ∧ P' a (x w).2) (hf : ∀ a, Sim (P' a) (f a) m R' S) :
    Sim P (x >>= f) m R' S := by
  intro w hw
  rcases hx : x w with ⟨r, w'⟩
  obtain ⟨a, h1, h2⟩ := h w hw
  rw [hx] at h1 h2
  dsimp only at h1 h2
  have e1 : (x >>= f) w = f a w' := by
    show (match x w with | (.ok a, w') => f a w' | (.error e, w') => (.error e, w')) = _
    rw [hx, h1]
  rw [e1]
  exact hf a w' h2

theorem mono {x : HM α} {m : M β} {R R' : α → β → HWorld → Prop} (h : Sim P x m R S) (hp : ∀ w, P' w → P w)
    (hr : ∀ a b w, R a b w → R' a b w) (hs : ∀ w, S w → S' w) : Sim P' x m R' S' := by
  intro w hw
  rcases h w (hp w hw) with ⟨a, b, h1, h2, h3⟩ | ⟨e, h1, h2, h3⟩
  · exact Or.inl ⟨a, b, h1, h2, hr _ _ _ h3⟩
  · exact Or.inr ⟨e, h1, h2, fun ht => hs _ (h3 ht)⟩

theorem pre {x : HM α} {m : M β} {R : α → β → HWorld → Prop} (h : Sim P x m R S) (hp : ∀ w, P' w → P w) : Sim P' x m R S :=
  h.mono hp (fun _ _ _ h => h) fun _ h => h

theorem post {x : HM α} {m : M β} {R R' : α → β → HWorld → Prop} (h : Sim P x m R S) (hr : ∀ a b w, R a b w → R' a b w) :
    Sim P x m R' S := h.mono (fun _ h => h) hr fun _ h => h

/-- Use a fact that the precondition implies. -/
theorem fact {x : HM α} {m : M β} {R : α → β → HWorld → Prop} {p : Prop} (hp : ∀ w, P w → p) (h : p → Sim P x m R S) : Sim P x m R S :=
  fun w hw => h (hp w hw) w hw

theorem ite {p : Prop} [Decidable p] {x y : HM α} {m m' : M β} {R : α → β → HWorld → Prop} (h1 : p → Sim P x m R S)
    (h2 : ¬ p → Sim P y m' R S) : Sim P (if p then x else y) (if p then m else m') R S := by
  by_cases h : p
  · rw [if_pos h, if_pos h]; exact h1 h
  · rw [if_neg h, if_neg h]; exact h2 h

theorem forAux {body : Int → σ → M σ} {bodyH : Int → σ → HM σ} (Inv : σ → HWorld → Prop)
    (hb : ∀ j s, Sim (Inv s) (bodyH j s) (body j s) (fun a b w => a = b ∧ Inv a w) S) :
    ∀ (k : Nat) (i : Int) (s : σ),
      Sim (Inv s) (HM.forAux bodyH k i s) (CP.forAux body k i s) (fun a b w => a = b ∧ Inv a w) S := by
  intro k
  induction k with
  | zero => intro i s; exact pureR fun w hw => ⟨rfl, hw⟩
  | succ k ih =>
    intro i s
    unfold HM.forAux CP.forAux
    refine bind (hb i s) fun a b => ?_
    refine fact (p := a = b) (fun w hw => hw.1) fun hab => ?_
    subst hab
    exact (ih (i + 1) a).pre fun w hw => hw.2

theorem foldlM {f : σ → γ → M σ} {fH : σ → γ → HM σ} (Inv : σ → HWorld → Prop)
    (hb : ∀ s x, Sim (Inv s) (fH s x) (f s x) (fun a b w => a = b ∧ Inv a w) S) (l : List γ) :
    ∀ s, Sim (Inv s) (l.foldlM fH s) (l.foldlM f s) (fun a b w => a = b ∧ Inv a w) S := by
  induction l with
  | nil => intro s; exact pureR fun w hw => ⟨rfl, hw⟩
  | cons x l ih =>
    intro s
    rw [List.foldlM_cons, List.foldlM_cons]
    refine bind (hb s x) fun a b => ?_
    refine fact (p := a = b) (fun w hw => hw.1) fun hab => ?_
    subst hab
    exact (ih a).pre fun w hw => hw.2

/-- Leaving a scope. -/
theorem withDtor {dtor : HM Unit} {x : HM α} {m : M α} {R' : HWorld → Prop} {Q : HWorld → Prop}
    (h : Sim P x m (fun a b w => a = b ∧ Q w) S)
    (hok : ∀ w, Q w → (dtor w).1 = .ok () ∧ R' (dtor w).2) (herr : ∀ w, S w → (dtor w).1 = .ok () ∧ S' (dtor w).2) :
    Sim P (withDtor dtor x) m (fun a b w => a = b ∧ R' w) S' := by
  intro w hw
  unfold HM.withDtor
  rcases hx : x w with ⟨r, w'⟩
  rcases h w hw with ⟨a, b, h1, h2, h3⟩ | ⟨e, h1, h2, h3⟩
  · rw [hx] at h1 h3
    dsimp only at h1 h3
    obtain ⟨hab, hq⟩ := h3
    obtain ⟨hd, hr⟩ := hok w' hq
    left
    subst h1
    rcases hdt : dtor w' with ⟨d, w2⟩
    rw [hdt] at hd hr
    dsimp only at hd hr
    subst hd
    exact ⟨a, b, by simp [unwinds, hdt], h2, hab, by simpa [unwinds, hdt] using hr⟩
  · rw [hx] at h1 h3
    dsimp only at h1 h3
    subst h1
    right
    by_cases ht : throws e = true
    · obtain ⟨hd, hr⟩ := herr w' (h3 ht)
      have hu : unwinds (.error e : M α) = true := by
        cases e <;> simp_all [throws, unwinds]
      rcases hdt : dtor w' with ⟨d, w2⟩
      rw [hdt] at hd hr
      dsimp only at hd hr
      subst hd
      exact ⟨e, by simp [hu, hdt], h2, fun _ => by simpa [hu, hdt] using hr⟩
    · have hu : unwinds (.error e : M α) = false := by
        cases e <;> simp_all [throws, unwinds]
      exact ⟨e, by simp [hu], h2, fun h => absurd h ht⟩

end Sim

/-! ## Ownership -/

/-- Handles of the plans in a plan vector. -/
def handles (l : List (Option (Nat × Int))) : List Nat := l.filterMap (Option.map Prod.fst)

/-- The live handles are those in `base` and those of the plans, all different. -/
def Own (base : List Nat) (w : HWorld) : Prop :=
  w.live.Perm (base ++ (handles w.r2c ++ handles w.c2r)) ∧ w.live.Nodup ∧ ∀ h ∈ w.live, h < w.next

/-- Ownership, and the plan vectors are those of the convolver `cv`. -/
def CInv (base : List Nat) (cv : Convolver F) (w : HWorld) : Prop :=
  Own base w ∧ Convolver.planSizes w.r2c = cv.r2cPlans ∧ Convolver.planSizes w.c2r = cv.c2rPlans

theorem Own.perm {base base' : List Nat} {w : HWorld} (h : Own base w) (hp : base.Perm base') : Own base' w :=
  ⟨h.1.trans (hp.append_right _), h.2⟩

theorem handles_set {l l' : List (Option (Nat × Int))} {i : Int} {h : Nat} {sz : Int} (hr : rd l i = .ok none)
    (hw : wr l i (some (h, sz)) = .ok l') : (handles l').Perm (h :: handles l) := by
  unfold rd at hr
  unfold wr at hw
  split at hw
  · rename_i hi
    cases hw
    rw [if_pos hi.1, List.getElem?_eq_getElem hi.2] at hr
    dsimp only at hr
    cases hr' : l[i.toNat]'hi.2 with
    | some _ => rw [hr'] at hr; cases hr
    | none =>
      unfold handles
      have e1 : l = l.take i.toNat ++ none :: l.drop (i.toNat + 1) := by
        conv_lhs => rw [← List.take_append_drop i.toNat l, List.drop_eq_getElem_cons hi.2, hr']
      rw [List.set_eq_take_append_cons_drop, if_pos hi.2]
      conv_rhs => rw [e1]
      rw [List.filterMap_append, List.filterMap_append, List.filterMap_cons_some (by rfl), List.filterMap_cons_none (by rfl)]
      exact List.perm_middle
  · cases hw

theorem alloc_own {base : List Nat} {w : HWorld} (h : Own base w) :
    (alloc w).1 = .ok w.next ∧ Own (w.next :: base) (alloc w).2 := by
  refine ⟨rfl, ?_, ?_, ?_⟩
  · show (w.next :: w.live).Perm (w.next :: base ++ _)
    exact h.1.cons _
  · show (w.next :: w.live).Nodup
    exact List.nodup_cons.2 ⟨fun hm => absurd (h.2.2 _ hm) (by omega), h.2.1⟩
  · show ∀ h ∈ w.next :: w.live, h < w.next + 1
    intro k hk
    rcases List.mem_cons.1 hk with rfl | hk
    · omega
    · have := h.2.2 _ hk; omega

theorem free_own {base : List Nat} {w : HWorld} {k : Nat} (h : Own (k :: base) w) :
    (free k w).1 = .ok () ∧ Own base (free k w).2 ∧ (free k w).2.r2c = w.r2c ∧ (free k w).2.c2r = w.c2r := by
  have hm : k ∈ w.live := h.1.symm.subset (by simp)
  unfold HM.free
  rw [if_pos hm]
  refine ⟨rfl, ⟨?_, h.2.1.erase _, fun x hx => h.2.2 x (List.mem_of_mem_erase hx)⟩, rfl, rfl⟩
  have := h.1.erase k
  simpa using this

/-! ## The convolver -/

theorem Sim.liftRel {α β : Type} {P S : HWorld → Prop} {m : M α} {m' : M β} {r : α → β → Prop}
    (h : (∃ a b, m = .ok a ∧ m' = .ok b ∧ r a b) ∨ ∃ e, m = .error e ∧ m' = .error e)
    (hS : ∀ e, m = .error e → throws e = true → ∀ w, P w → S w) :
    Sim P (HM.lift m) m' (fun a b w => r a b ∧ m = .ok a ∧ m' = .ok b ∧ P w) S := by
  intro w hw
  rcases h with ⟨a, b, h1, h2, h3⟩ | ⟨e, h1, h2⟩
  · exact Or.inl ⟨a, b, h1, h2, h3, h1, h2, hw⟩
  · exact Or.inr ⟨e, h1, h2, fun ht => hS e h1 ht w hw⟩

theorem rd_throws {α : Type} {a : List α} {i : Int} {e : Fault} (h : rd a i = .error e) : throws e = false := by
  unfold rd at h
  split at h
  · split at h
    · cases h
    · cases h; rfl
  · cases h; rfl

theorem wr_throws {α : Type} {a : List α} {i : Int} {x : α} {e : Fault} (h : wr a i x = .error e) : throws e = false := by
  unfold wr at h
  split at h
  · cases h
  · cases h; rfl

theorem assertC_throws {en c : Bool} {what : String} {e : Fault} (h : assertC en c what = .error e) : throws e = false := by
  unfold assertC at h
  split at h
  · cases h; rfl
  · cases h

theorem rd_map_rel {α β : Type} (f : α → β) (l : List α) (i : Int) :
    (∃ a b, rd l i = .ok a ∧ rd (l.map f) i = .ok b ∧ f a = b) ∨ ∃ e, rd l i = .error e ∧ rd (l.map f) i = .error e := by
  unfold rd
  rw [List.getElem?_map]
  split
  · cases l[i.toNat]? with
    | some x => exact Or.inl ⟨x, f x, rfl, rfl, rfl⟩
    | none => exact Or.inr ⟨_, rfl, rfl⟩
  · exact Or.inr ⟨_, rfl, rfl⟩

theorem wr_map_rel {α β : Type} (f : α → β) (l : List α) (i : Int) (x : α) :
    (∃ a b, wr l i x = .ok a ∧ wr (l.map f) i (f x) = .ok b ∧ a.map f = b) ∨
      ∃ e, wr l i x = .error e ∧ wr (l.map f) i (f x) = .error e := by
  unfold wr
  rw [List.length_map]
  split
  · exact Or.inl ⟨_, _, rfl, rfl, by rw [List.map_set]⟩
  · exact Or.inr ⟨_, rfl, rfl⟩

/-- Ownership with given plan sizes. -/
def POwn (base : List Nat) (p q : List (Option Int)) (w : HWorld) : Prop :=
  Own base w ∧ Convolver.planSizes w.r2c = p ∧ Convolver.planSizes w.c2r = q

theorem memoizedR2C_sim (env : Env F) (base : List Nat) (p q : List (Option Int)) (N : Int) :
    Sim (POwn base p q) (Convolver.memoizedR2CH env N) (Convolver.memoizedPlan env p N)
      (fun a b w => a = b.1 ∧ POwn base b.2 q w) (Own base) := by
  unfold Convolver.memoizedR2CH Convolver.memoizedPlan
  refine Sim.bind (Sim.liftNT fun _ => assertC_throws) fun _ _ => ?_
  refine (Sim.bind (Sim.liftNT fun _ => assertC_throws) fun _ _ => ?_).pre fun w hw => hw.2.2
  refine (Sim.okStep (P' := fun plans w => plans = w.r2c ∧ POwn base p q w) (P := POwn base p q)
    (fun w hw => ⟨w.r2c, rfl, rfl, hw⟩) fun plans => ?_).pre fun w hw => hw.2.2
  refine Sim.fact (p := Convolver.planSizes plans = p) (fun w hw => hw.1 ▸ hw.2.2.1) fun hp => ?_
  subst hp
  dsimp only
  rw [show (Convolver.planSizes plans).length = plans.length from List.length_map _]
  refine Sim.bind (Sim.liftNT fun _ => assertC_throws) fun _ _ => ?_
  refine (Sim.bind (Sim.liftRel (rd_map_rel _ _ _) fun e h ht => absurd ht (by rw [rd_throws h]; simp)) fun a b => ?_).pre fun w hw => hw.2.2
  refine Sim.fact (p := Option.map Prod.snd a = b ∧ rd plans (N.tdiv ROUNDING - 1) = .ok a) (fun w hw => ⟨hw.1, hw.2.1⟩) fun ⟨hab, hrd⟩ => ?_
  subst hab
  cases a with
  | some x =>
    obtain ⟨h, sz⟩ := x
    exact Sim.pureR fun w hw => ⟨rfl, hw.2.2.2.2⟩
  | none =>
    dsimp only [Option.map]
    refine Sim.okStep (P' := fun h w => w.r2c = plans ∧ Convolver.planSizes w.c2r = q ∧ Own (h :: base) w) (fun w hw => ?_) fun h => ?_
    · have := alloc_own hw.2.2.2.2.1
      exact ⟨w.next, rfl, hw.2.2.2.1.symm, hw.2.2.2.2.2.2, this.2⟩
    · refine Sim.bind (Sim.liftRel (wr_map_rel (Option.map Prod.snd) _ _ (some (h, N))) fun e h ht => absurd ht (by rw [wr_throws h]; simp)) fun a b => ?_
      refine Sim.okStep (P' := fun _ w => POwn base b q w) (fun w hw => ⟨(), rfl, ?_⟩) fun _ => Sim.pureR fun w hw => ⟨rfl, hw⟩
      obtain ⟨h1, h2, -, h3, h4, h5⟩ := hw
      refine ⟨⟨?_, h5.2⟩, h1, h4⟩
      have hp := handles_set hrd h2
      rw [← h3] at hp
      show w.live.Perm (base ++ (handles a ++ handles w.c2r))
      refine h5.1.trans (List.Perm.symm ?_)
      refine ((hp.append_right (handles w.c2r)).append_left base).trans ?_
      exact List.perm_middle

theorem memoizedC2R_sim (env : Env F) (base : List Nat) (p q : List (Option Int)) (N : Int) :
    Sim (POwn base p q) (Convolver.memoizedC2RH env N) (Convolver.memoizedPlan env q N)
      (fun a b w => a = b.1 ∧ POwn base p b.2 w) (Own base) := by
  unfold Convolver.memoizedC2RH Convolver.memoizedPlan
  refine Sim.bind (Sim.liftNT fun _ => assertC_throws) fun _ _ => ?_
  refine (Sim.bind (Sim.liftNT fun _ => assertC_throws) fun _ _ => ?_).pre fun w hw => hw.2.2
  refine (Sim.okStep (P' := fun plans w => plans = w.c2r ∧ POwn base p q w) (P := POwn base p q)
    (fun w hw => ⟨w.c2r, rfl, rfl, hw⟩) fun plans => ?_).pre fun w hw => hw.2.2
  refine Sim.fact (p := Convolver.planSizes plans = q) (fun w hw => hw.1 ▸ hw.2.2.2) fun hp => ?_
  subst hp
  dsimp only
  rw [show (Convolver.planSizes plans).length = plans.length from List.length_map _]
  refine Sim.bind (Sim.liftNT fun _ => assertC_throws) fun _ _ => ?_
  refine (Sim.bind (Sim.liftRel (rd_map_rel _ _ _) fun e h ht => absurd ht (by rw [rd_throws h]; simp)) fun a b => ?_).pre fun w hw => hw.2.2
  refine Sim.fact (p := Option.map Prod.snd a = b ∧ rd plans (N.tdiv ROUNDING - 1) = .ok a) (fun w hw => ⟨hw.1, hw.2.1⟩) fun ⟨hab, hrd⟩ => ?_
  subst hab
  cases a with
  | some x =>
    obtain ⟨h, sz⟩ := x
    exact Sim.pureR fun w hw => ⟨rfl, hw.2.2.2.2⟩
  | none =>
    dsimp only [Option.map]
    refine Sim.okStep (P' := fun h w => w.c2r = plans ∧ Convolver.planSizes w.r2c = p ∧ Own (h :: base) w) (fun w hw => ?_) fun h => ?_
    · have := alloc_own hw.2.2.2.2.1
      exact ⟨w.next, rfl, hw.2.2.2.1.symm, hw.2.2.2.2.2.1, this.2⟩
    · refine Sim.bind (Sim.liftRel (wr_map_rel (Option.map Prod.snd) _ _ (some (h, N))) fun e h ht => absurd ht (by rw [wr_throws h]; simp)) fun a b => ?_
      refine Sim.okStep (P' := fun _ w => POwn base p b w) (fun w hw => ⟨(), rfl, ?_⟩) fun _ => Sim.pureR fun w hw => ⟨rfl, hw⟩
      obtain ⟨h1, h2, -, h3, h4, h5⟩ := hw
      refine ⟨⟨?_, h5.2⟩, h4, h1⟩
      have hp := handles_set hrd h2
      rw [← h3] at hp
      show w.live.Perm (base ++ (handles w.r2c ++ handles a))
      refine h5.1.trans (List.Perm.symm ?_)
      refine ((hp.append_left (handles w.r2c)).append_left base).trans ?_
      exact (List.perm_middle.append_left base).trans List.perm_middle

/-- Lifted computations inside a scope: they may throw. -/
theorem Sim.liftOwn {α : Type} {base : List Nat} {p q : List (Option Int)} {m : M α} :
    Sim (POwn base p q) (HM.lift m) m (fun a b w => a = b ∧ POwn base p q w) (Own base) :=
  (Sim.lift fun w hw => hw.1).post fun a b w h => ⟨h.1, h.2.2⟩

theorem Sim.bindOwn {α γ δ : Type} {base : List Nat} {P : HWorld → Prop} {p q : List (Option Int)} {x : HM α} {m : M α} {f : α → HM γ} {g : α → M δ}
    {R' : γ → δ → HWorld → Prop} {S : HWorld → Prop} (h : Sim P x m (fun a b w => a = b ∧ POwn base p q w) S)
    (hf : ∀ a, Sim (POwn base p q) (f a) (g a) R' S) : Sim P (x >>= f) (m >>= g) R' S := by
  refine Sim.bind h fun a b => ?_
  refine Sim.fact (p := a = b) (fun w hw => hw.1) fun hab => ?_
  subst hab
  exact (hf a).pre fun w hw => hw.2

theorem convolve_sim (env : Env F) (base : List Nat) (cv : Convolver F) (size : Int) (inputA : List F) (oa : Int)
    (inputB : List F) (ob : Int) (output : List F) (oo : Int) :
    Sim (CInv base cv) (cv.convolveH env size inputA oa inputB ob output oo) (cv.convolve env size inputA oa inputB ob output oo)
      (fun a b w => a = b ∧ CInv base a.1 w) (Own base) := by
  unfold Convolver.convolveH Convolver.convolve
  refine Sim.ite (fun _ => ?_) fun _ => Sim.ite (fun _ => Sim.pureR fun w hw => ⟨rfl, hw⟩) fun _ => Sim.ite (fun _ => ?_) fun _ => ?_
  · intro w hw
    exact Or.inr ⟨_, rfl, rfl, fun _ => hw.1⟩
  · exact Sim.bindOwn Sim.liftOwn fun d => Sim.pureR fun w hw => ⟨rfl, hw⟩
  · refine Sim.bindOwn (p := cv.r2cPlans) (q := cv.c2rPlans) Sim.liftOwn fun r2cIn => ?_
    refine Sim.bind (memoizedR2C_sim env base _ _ _) fun plan b => ?_
    refine Sim.fact (p := plan = b.1) (fun w hw => hw.1) fun hab => ?_
    obtain ⟨plan', r2cPlans⟩ := b
    dsimp only at hab
    subst hab
    dsimp only
    refine (Sim.bindOwn Sim.liftOwn fun r => ?_).pre fun w hw => hw.2
    obtain ⟨r2cIn, tmpComplex⟩ := r
    dsimp only
    refine Sim.bindOwn Sim.liftOwn fun r2cIn => ?_
    refine Sim.bind (memoizedR2C_sim env base _ _ _) fun plan b => ?_
    refine Sim.fact (p := plan = b.1) (fun w hw => hw.1) fun hab => ?_
    obtain ⟨plan', r2cPlans⟩ := b
    dsimp only at hab
    subst hab
    dsimp only
    refine (Sim.bindOwn Sim.liftOwn fun r => ?_).pre fun w hw => hw.2
    obtain ⟨r2cIn, r2cOut⟩ := r
    dsimp only
    refine Sim.bindOwn Sim.liftOwn fun c2rIn => ?_
    refine Sim.bind (memoizedC2R_sim env base _ _ _) fun plan b => ?_
    refine Sim.fact (p := plan = b.1) (fun w hw => hw.1) fun hab => ?_
    obtain ⟨plan', c2rPlans⟩ := b
    dsimp only at hab
    subst hab
    dsimp only
    refine (Sim.bindOwn Sim.liftOwn fun r => ?_).pre fun w hw => hw.2
    obtain ⟨c2rIn, c2rOut⟩ := r
    dsimp only
    refine Sim.bindOwn Sim.liftOwn fun res => Sim.bindOwn Sim.liftOwn fun output => ?_
    refine Sim.okStep (P' := fun l w => Convolver.planSizes l = r2cPlans ∧ POwn base r2cPlans c2rPlans w)
      (fun w hw => ⟨w.r2c, rfl, hw.2.1, hw⟩) fun l1 => ?_
    refine Sim.okStep (P' := fun l w => Convolver.planSizes l1 = r2cPlans ∧ Convolver.planSizes l = c2rPlans ∧ POwn base r2cPlans c2rPlans w)
      (fun w hw => ⟨w.c2r, rfl, hw.1, hw.2.2.2, hw.2⟩) fun l2 => Sim.pureR fun w hw => ?_
    obtain ⟨h1, h2, h3⟩ := hw
    subst h1; subst h2
    exact ⟨rfl, h3⟩

theorem bind_ok {α β : Type} {x : HM α} {f : α → HM β} {w w' : HWorld} {a : α} (h : x w = (.ok a, w')) : (x >>= f) w = f a w' := by
  show (match x w with | (.ok a, w') => f a w' | (.error e, w') => (.error e, w')) = _
  rw [h]

/-- Freeing all plans. -/
theorem destroyPlans_own : ∀ (l : List (Option (Nat × Int))) (base : List Nat) (w : HWorld),
    w.live.Perm (handles l ++ base) → w.live.Nodup → (∀ h ∈ w.live, h < w.next) →
    (Convolver.destroyPlansH l w).1 = .ok () ∧ (Convolver.destroyPlansH l w).2.live.Perm base ∧
      (Convolver.destroyPlansH l w).2.live.Nodup ∧ (∀ h ∈ (Convolver.destroyPlansH l w).2.live, h < (Convolver.destroyPlansH l w).2.next) ∧
      (Convolver.destroyPlansH l w).2.r2c = w.r2c ∧ (Convolver.destroyPlansH l w).2.c2r = w.c2r := by
  intro l
  induction l with
  | nil => intro base w h1 h2 h3; exact ⟨rfl, h1, h2, h3, rfl, rfl⟩
  | cons o l ih =>
    intro base w h1 h2 h3
    cases o with
    | none => exact ih base w h1 h2 h3
    | some x =>
      obtain ⟨k, sz⟩ := x
      have hm : k ∈ w.live := h1.symm.subset (by simp [handles])
      have e : Convolver.destroyPlansH (some (k, sz) :: l) w = Convolver.destroyPlansH l { w with live := w.live.erase k } := by
        rw [Convolver.destroyPlansH]
        exact bind_ok (by unfold HM.free; rw [if_pos hm])
      rw [e]
      refine ih base _ ?_ (h2.erase _) fun x hx => h3 x (List.mem_of_mem_erase hx)
      have := h1.erase k
      simpa [handles] using this

/-- The live handles are those in `base`, all different. -/
def LiveIs (base : List Nat) (w : HWorld) : Prop :=
  w.live.Perm base ∧ w.live.Nodup ∧ ∀ h ∈ w.live, h < w.next

theorem clean_alloc {base : List Nat} {w : HWorld} (h : LiveIs base w) :
    (alloc w).1 = .ok w.next ∧ LiveIs (w.next :: base) (alloc w).2 := by
  refine ⟨rfl, h.1.cons _, ?_, ?_⟩
  · show (w.next :: w.live).Nodup
    exact List.nodup_cons.2 ⟨fun hm => absurd (h.2.2 _ hm) (by omega), h.2.1⟩
  · show ∀ h ∈ w.next :: w.live, h < w.next + 1
    intro k hk
    rcases List.mem_cons.1 hk with rfl | hk
    · omega
    · have := h.2.2 _ hk; omega

theorem clean_free {base : List Nat} {w : HWorld} {k : Nat} (h : LiveIs (k :: base) w) :
    ∃ w', free k w = (.ok (), w') ∧ LiveIs base w' := by
  have hm : k ∈ w.live := h.1.symm.subset (by simp)
  refine ⟨{ w with live := w.live.erase k }, by unfold HM.free; rw [if_pos hm], ?_, h.2.1.erase _,
    fun x hx => h.2.2 x (List.mem_of_mem_erase hx)⟩
  have := h.1.erase k
  simpa using this

theorem conv_delete_own {hs : ConvHandles} {base : List Nat} {w : HWorld}
    (h : Own (hs.r2cIn :: hs.r2cOut :: hs.c2rIn :: hs.c2rOut :: hs.tmpComplex :: base) w) :
    (Convolver.deleteH hs w).1 = .ok () ∧ LiveIs base (Convolver.deleteH hs w).2 := by
  unfold Convolver.deleteH
  rw [bind_ok (x := getR2C) (w' := w) (a := w.r2c) rfl]
  obtain ⟨a1, a2, a3, a4, a5, a6⟩ := destroyPlans_own w.r2c (hs.r2cIn :: hs.r2cOut :: hs.c2rIn :: hs.c2rOut :: hs.tmpComplex :: base ++ handles w.c2r) w
    (by
      refine h.1.trans ?_
      rw [← List.append_assoc]
      exact ((List.perm_append_comm.append_right _).trans (by rw [List.append_assoc])))
    h.2.1 h.2.2
  rcases hd : Convolver.destroyPlansH w.r2c w with ⟨r, w1⟩
  rw [hd] at a1 a2 a3 a4 a5 a6
  dsimp only at a1 a2 a3 a4 a5 a6
  subst a1
  rw [bind_ok hd, bind_ok (x := getC2R) (w' := w1) (a := w1.c2r) rfl]
  obtain ⟨b1, b2, b3, b4, b5, b6⟩ := destroyPlans_own w1.c2r (hs.r2cIn :: hs.r2cOut :: hs.c2rIn :: hs.c2rOut :: hs.tmpComplex :: base) w1
    (by rw [a6]; exact a2.trans List.perm_append_comm) a3 a4
  rcases hd : Convolver.destroyPlansH w1.c2r w1 with ⟨r, w2⟩
  rw [hd] at b1 b2 b3 b4 b5 b6
  dsimp only at b1 b2 b3 b4 b5 b6
  subst b1
  rw [bind_ok hd]
  obtain ⟨v1, c1, d1⟩ := clean_free (base := hs.r2cOut :: hs.c2rIn :: hs.c2rOut :: hs.tmpComplex :: base) ⟨b2, b3, b4⟩
  rw [bind_ok c1]
  obtain ⟨v2, c2, d2⟩ := clean_free d1
  rw [bind_ok c2]
  obtain ⟨v3, c3, d3⟩ := clean_free d2
  rw [bind_ok c3]
  obtain ⟨v4, c4, d4⟩ := clean_free d3
  rw [bind_ok c4]
  obtain ⟨v5, c5, d5⟩ := clean_free d4
  rw [bind_ok c5]
  exact ⟨rfl, d5⟩

/-! ## Constructors and the other destructors -/

/-- What is owned right after the convolver is built. -/
theorem conv_new {base : List Nat} (env : Env F) (m : Int) (w : HWorld) (h : LiveIs base w) :
    ∃ hs w', Convolver.newH env m w = (.ok (Convolver.new env m, hs), w') ∧
      CInv (hs.r2cIn :: hs.r2cOut :: hs.c2rIn :: hs.c2rOut :: hs.tmpComplex :: base) (Convolver.new env m) w' := by
  refine ⟨⟨w.next, w.next + 1, w.next + 2, w.next + 3, w.next + 4⟩, _, rfl, ⟨?_, ?_, ?_⟩, ?_, ?_⟩
  · have hn : ∀ k : Nat, handles (List.replicate k none) = [] := by
      intro k; induction k with
      | zero => rfl
      | succ k ih => simp [handles]
    show ((w.next + 4) :: (w.next + 3) :: (w.next + 2) :: (w.next + 1) :: w.next :: w.live).Perm
      ((w.next :: (w.next + 1) :: (w.next + 2) :: (w.next + 3) :: (w.next + 4) :: base) ++
        (handles (List.replicate _ none) ++ handles (List.replicate _ none)))
    rw [hn, List.append_nil, List.append_nil]
    refine List.Perm.trans ?_ (h.1.append_left [w.next, w.next + 1, w.next + 2, w.next + 3, w.next + 4])
    exact (List.reverse_perm [w.next, w.next + 1, w.next + 2, w.next + 3, w.next + 4]).append_right w.live
  · exact (clean_alloc (clean_alloc (clean_alloc (clean_alloc (clean_alloc h).2).2).2).2).2.2.1
  · exact (clean_alloc (clean_alloc (clean_alloc (clean_alloc (clean_alloc h).2).2).2).2).2.2.2
  · show Convolver.planSizes (List.replicate _ none) = List.replicate _ none
    simp [Convolver.planSizes]
  · show Convolver.planSizes (List.replicate _ none) = List.replicate _ none
    simp [Convolver.planSizes]

theorem pmf_delete_own {lut arr : Nat} {base : List Nat} {w : HWorld} (h : Own (arr :: lut :: base) w) :
    (PmfGen.deleteH lut arr w).1 = .ok () ∧ Own base (PmfGen.deleteH lut arr w).2 := by
  unfold PmfGen.deleteH
  obtain ⟨a1, a2, -, -⟩ := free_own h
  have e : free arr w = (.ok (), (free arr w).2) := Prod.ext a1 rfl
  rw [bind_ok e]
  obtain ⟨b1, b2, -, -⟩ := free_own a2
  exact ⟨b1, b2⟩

theorem poly_delete_clean {mult add : Nat} {base : List Nat} {w : HWorld} (h : LiveIs (mult :: add :: base) w) :
    (Poly.deleteH mult add w).1 = .ok () ∧ LiveIs base (Poly.deleteH mult add w).2 := by
  unfold Poly.deleteH
  obtain ⟨w1, a1, a2⟩ := clean_free h
  rw [bind_ok a1]
  obtain ⟨w2, b1, b2⟩ := clean_free a2
  rw [b1]
  exact ⟨rfl, b2⟩

/-! ## src/ecdf2.cc -/

/-- A lifted computation followed by a continuation, keeping an invariant of the world. -/
theorem Sim.bindInv {α γ δ : Type} {P : HWorld → Prop} {S : HWorld → Prop} {m : M α} {f : α → HM γ} {g : α → M δ}
    {R' : γ → δ → HWorld → Prop} (hS : ∀ w, P w → S w) (hf : ∀ a, Sim P (f a) (g a) R' S) :
    Sim P (HM.lift m >>= f) (m >>= g) R' S := by
  refine Sim.bind (Sim.lift hS) fun a b => ?_
  refine Sim.fact (p := a = b) (fun w hw => hw.1) fun hab => ?_
  subst hab
  exact (hf a).pre fun w hw => hw.2.2

theorem Sim.bindNT {α γ δ : Type} {P : HWorld → Prop} {S : HWorld → Prop} {m : M α} {f : α → HM γ} {g : α → M δ}
    {R' : γ → δ → HWorld → Prop} (hS : ∀ e, m = .error e → throws e = false) (hf : ∀ a, m = .ok a → Sim P (f a) (g a) R' S) :
    Sim P (HM.lift m >>= f) (m >>= g) R' S := by
  refine Sim.bind (Sim.liftNT hS) fun a b => ?_
  refine Sim.fact (p := a = b ∧ m = .ok b) (fun w hw => ⟨hw.1, hw.2.1⟩) fun ⟨hab, hm⟩ => ?_
  subst hab
  exact (hf a hm).pre fun w hw => hw.2.2

theorem Sim.bindConv {γ δ : Type} {base : List Nat} {P : HWorld → Prop} {S : HWorld → Prop}
    {x : HM (Convolver F × List F)} {m : M (Convolver F × List F)} {f : Convolver F × List F → HM γ} {g : Convolver F × List F → M δ}
    {R' : γ → δ → HWorld → Prop} (h : Sim P x m (fun a b w => a = b ∧ CInv base a.1 w) S)
    (hf : ∀ a, Sim (CInv base a.1) (f a) (g a) R' S) : Sim P (x >>= f) (m >>= g) R' S := by
  refine Sim.bind h fun a b => ?_
  refine Sim.fact (p := a = b) (fun w hw => hw.1) fun hab => ?_
  subst hab
  exact (hf a).pre fun w hw => hw.2

theorem ncConvolve_sim (env : Env F) (base : List Nat) (useFft : Bool) (cv : Convolver F) (size : Int) (pmf : List F)
    (src : List F) (oS : Int) (dest : List F) (oD : Int) :
    Sim (CInv base cv) (ncConvolveH env useFft cv size pmf src oS dest oD) (ncConvolve env useFft cv size pmf src oS dest oD)
      (fun a b w => a = b ∧ CInv base a.1 w) (Own base) := by
  unfold ncConvolveH ncConvolve
  cases useFft with
  | true => exact convolve_sim env base cv size pmf 0 src oS dest oD
  | false => exact Sim.bindInv (fun w hw => hw.1) fun d => Sim.pureR fun w hw => ⟨rfl, hw⟩

theorem ncStep_sim (env : Env F) (base : List Nat) (intensity : F) (useFft : Bool) (s : NCState F) (bd : Bound F) :
    Sim (CInv base s.conv) (ncStepH env intensity useFft s bd) (ncStep env intensity useFft s bd)
      (fun a b w => a = b ∧ CInv base a.conv w) (Own base) := by
  unfold ncStepH ncStep
  dsimp only
  split
  · refine Sim.bindInv (fun w hw => hw.1) fun g => Sim.bindInv (fun w hw => hw.1) fun oS =>
      Sim.bindInv (fun w hw => hw.1) fun oD => Sim.bindConv (ncConvolve_sim env base useFft _ _ _ _ _ _ _) fun r => ?_
    obtain ⟨cv, d⟩ := r
    refine Sim.bindInv (fun w hw => hw.1) fun r => Sim.pureR fun w hw => ⟨rfl, hw⟩
  · split
    · exact Sim.bindInv (fun w hw => hw.1) fun r => Sim.pureR fun w hw => ⟨rfl, hw⟩
    · intro w hw
      exact Or.inr ⟨_, rfl, rfl, fun _ => hw.1⟩

theorem pmfNew_throws (env : Env F) (m : Int) (e : Fault) (h : PmfGen.new env m = .error e) : throws e = false := by
  unfold PmfGen.new at h
  cases ha : assertC env.asserts (decide (0 < m)) "max_k > 0" with
  | error e' => rw [ha] at h; cases h; exact assertC_throws ha
  | ok u => rw [ha] at h; cases h

theorem cinv_alloc {base : List Nat} {cv : Convolver F} {w : HWorld} (h : CInv base cv w) :
    (alloc w).1 = .ok w.next ∧ CInv (w.next :: base) cv (alloc w).2 :=
  ⟨rfl, (alloc_own h.1).2, h.2.1, h.2.2⟩

theorem pmfNew_sim (env : Env F) (base : List Nat) (cv : Convolver F) (m : Int) :
    Sim (CInv base cv) (PmfGen.newH env m) (PmfGen.new env m)
      (fun a b w => a.1 = b ∧ CInv (a.2.2 :: a.2.1 :: base) cv w) (Own base) := by
  unfold PmfGen.newH
  intro w hw
  cases hg : PmfGen.new env m with
  | error e => exact Or.inr ⟨e, rfl, rfl, fun _ => hw.1⟩
  | ok g => exact Or.inl ⟨(g, w.next, w.next + 1), g, rfl, rfl, rfl, (cinv_alloc (cinv_alloc hw).2).2⟩

theorem ppnp_sim (env : Env F) (base : List Nat) (sort : List (Bound F) → List (Bound F)) (n : Int) (intensity : F) (b B : List F)
    (useFft : Bool) :
    Sim (LiveIs base) (poissonProcessNoncrossingProbabilityH env sort n intensity b B useFft)
      (poissonProcessNoncrossingProbability env sort n intensity b B useFft) (fun a b w => a = b ∧ LiveIs base w) (LiveIs base) := by
  unfold poissonProcessNoncrossingProbabilityH poissonProcessNoncrossingProbability
  dsimp only
  refine Sim.bindNT (fun _ => wr_throws) fun src _ => ?_
  refine Sim.okStep (P' := fun r w => r.1 = Convolver.new env (n + 1) ∧
      CInv (r.2.r2cIn :: r.2.r2cOut :: r.2.c2rIn :: r.2.c2rOut :: r.2.tmpComplex :: base) r.1 w) (fun w hw => ?_) fun r => ?_
  · obtain ⟨hs, w', e, h⟩ := conv_new env (n + 1) w hw
    exact ⟨(Convolver.new env (n + 1), hs), by rw [e], rfl, by rw [e]; exact h⟩
  obtain ⟨cv, hs⟩ := r
  refine Sim.fact (p := cv = Convolver.new env (n + 1)) (fun w hw => hw.1) fun hcv => ?_
  subst hcv
  dsimp only
  refine Sim.withDtor (Q := Own (hs.r2cIn :: hs.r2cOut :: hs.c2rIn :: hs.c2rOut :: hs.tmpComplex :: base)) (S := Own _) ?_
    (fun w hw => conv_delete_own hw) fun w hw => conv_delete_own hw
  refine (?_ : Sim (CInv (hs.r2cIn :: hs.r2cOut :: hs.c2rIn :: hs.c2rOut :: hs.tmpComplex :: base) (Convolver.new env (n + 1))) _ _ _ _).pre
    fun w hw => hw.2
  generalize hs.r2cIn :: hs.r2cOut :: hs.c2rIn :: hs.c2rOut :: hs.tmpComplex :: base = base'
  refine Sim.bind (pmfNew_sim env base' _ _) fun a g => ?_
  obtain ⟨g', lut, arr⟩ := a
  refine Sim.fact (p := g' = g) (fun w hw => hw.1) fun hg => ?_
  subst hg
  dsimp only
  refine Sim.withDtor (Q := Own (arr :: lut :: base')) (S := Own (arr :: lut :: base')) ?_
    (fun w hw => pmf_delete_own hw) fun w hw => pmf_delete_own hw
  refine (?_ : Sim (CInv (arr :: lut :: base') (Convolver.new env (n + 1))) _ _ _ _).pre fun w hw => hw.2
  generalize arr :: lut :: base' = base''
  refine Sim.bind (R := fun a b w => a = b ∧ CInv base'' a.conv w)
    ((Sim.foldlM (fun s w => CInv base'' s.conv w) (fun s x => ncStep_sim env base'' intensity useFft s x) _ _).pre (by intro w hw; exact hw))
    fun s s' => Sim.pureR fun w hw => ⟨by rw [hw.1], hw.2.1⟩

theorem ecdf2_sim (env : Env F) (base : List Nat) (sort : List (Bound F) → List (Bound F)) (b B : List F) (useFft : Bool) :
    Sim (LiveIs base) (ecdf2H env sort b B useFft) (ecdf2 env sort b B useFft) (fun a b w => a = b ∧ LiveIs base w) (LiveIs base) := by
  unfold ecdf2H ecdf2
  dsimp only
  refine Sim.bindInv (fun w hw => hw) fun _ => Sim.bindInv (fun w hw => hw) fun _ => ?_
  refine Sim.bind (ppnp_sim env base sort _ _ b B useFft) fun p p' => ?_
  refine Sim.fact (p := p = p') (fun w hw => hw.1) fun h => ?_
  subst h
  refine (?_ : Sim (LiveIs base) _ _ _ _).pre fun w hw => hw.2
  exact Sim.bindInv (fun w hw => hw) fun _ => Sim.bindInv (fun w hw => hw) fun _ => Sim.pureR fun w hw => ⟨rfl, hw⟩

/-! ## src/ecdf1_new.cc -/

theorem miniStep_sim (env : Env F) (base : List Nat) (n : Int) (intensity : F) (B : List F) (Iprev I i : Int) (s : MiniState F) :
    Sim (CInv base s.conv) (miniStepH env n intensity B Iprev I i s) (miniStep env n intensity B Iprev I i s)
      (fun a b w => a = b ∧ CInv base a.conv w) (Own base) := by
  unfold miniStepH miniStep
  dsimp only
  refine Sim.bindInv (fun w hw => hw.1) fun Bi => Sim.bindInv (fun w hw => hw.1) fun g => Sim.bindInv (fun w hw => hw.1) fun oS =>
    Sim.bindInv (fun w hw => hw.1) fun oD => Sim.bindConv (convolve_sim env base _ _ _ _ _ _ _ _) fun r => ?_
  obtain ⟨cv, md⟩ := r
  dsimp only
  refine Sim.bindInv (fun w hw => hw.1) fun pe => Sim.bindInv (fun w hw => hw.1) fun BI => Sim.bindInv (fun w hw => hw.1) fun d =>
    Sim.bindInv (fun w hw => hw.1) fun md => Sim.bindInv (fun w hw => hw.1) fun ms => Sim.pureR fun w hw => ⟨rfl, hw⟩

theorem blockStep_sim (env : Env F) (base : List Nat) (n : Int) (intensity : F) (B : List F) (I : Int) (s : BlockState F) :
    Sim (CInv base s.conv) (blockStepH env n intensity B I s) (blockStep env n intensity B I s)
      (fun a b w => a = b ∧ CInv base a.conv w) (Own base) := by
  unfold blockStepH blockStep
  dsimp only
  refine Sim.bindInv (fun w hw => hw.1) fun BI => Sim.bindInv (fun w hw => hw.1) fun g => Sim.bindInv (fun w hw => hw.1) fun oS =>
    Sim.bindConv (convolve_sim env base _ _ _ _ _ _ _ _) fun r => ?_
  obtain ⟨cv, tmp⟩ := r
  dsimp only
  refine Sim.bindInv (fun w hw => hw.1) fun _ => Sim.bindInv (fun w hw => hw.1) fun _ => Sim.bindInv (fun w hw => hw.1) fun d =>
    Sim.bindInv (fun w hw => hw.1) fun xs => Sim.bindInv (fun w hw => hw.1) fun d => Sim.bindInv (fun w hw => hw.1) fun _ =>
    Sim.bindInv (fun w hw => hw.1) fun _ => Sim.bindInv (fun w hw => hw.1) fun ys => Sim.bindInv (fun w hw => hw.1) fun ms => ?_
  refine Sim.bind (R := fun a b w => a = b ∧ CInv base a.conv w)
    ((Sim.forAux (fun m w => CInv base m.conv w) (fun j m => miniStep_sim env base n intensity B s.Iprev I j m) _ _ _).pre (by intro w hw; exact hw))
    fun m m' => ?_
  refine Sim.fact (p := m = m') (fun w hw => hw.1) fun h => ?_
  subst h
  exact Sim.pureR fun w hw => ⟨rfl, hw.2⟩

theorem blockLoop_sim (env : Env F) (base : List Nat) (n : Int) (intensity : F) (B : List F) (jumpSize nSteps : Int) :
    ∀ (fuel : Nat) (I : Int) (s : BlockState F),
      Sim (CInv base s.conv) (blockLoopH env n intensity B jumpSize nSteps fuel I s) (blockLoop env n intensity B jumpSize nSteps fuel I s)
        (fun a b w => a = b ∧ CInv base a.conv w) (Own base) := by
  intro fuel
  induction fuel with
  | zero => intro I s w hw; exact Or.inr ⟨_, rfl, rfl, fun _ => hw.1⟩
  | succ fuel ih =>
    intro I s
    unfold blockLoopH blockLoop
    refine Sim.bind (blockStep_sim env base n intensity B I s) fun m m' => ?_
    refine Sim.fact (p := m = m') (fun w hw => hw.1) fun h => ?_
    subst h
    refine (?_ : Sim (CInv base m.conv) _ _ _ _).pre fun w hw => hw.2
    exact Sim.ite (fun _ => Sim.pureR fun w hw => ⟨rfl, hw⟩) fun _ => ih _ m

/-- One more live handle than `base`, not in `base`. -/
def Leaks (base : List Nat) (w : HWorld) : Prop := ∃ id, id ∉ base ∧ LiveIs (id :: base) w

theorem pbnp_sim (env : Env F) (base : List Nat) (n : Int) (intensity : F) (B : List F) (jumpSize : Int) :
    Sim (LiveIs base) (poissonBNoncrossingProbabilityN2H env n intensity B jumpSize)
      (poissonBNoncrossingProbabilityN2 env n intensity B jumpSize) (fun a b w => a = b ∧ LiveIs base w) (Leaks base) := by
  unfold poissonBNoncrossingProbabilityN2H poissonBNoncrossingProbabilityN2
  dsimp only
  refine Sim.bindNT (fun _ => assertC_throws) fun _ _ => ?_
  refine Sim.bindNT (fun _ => wr_throws) fun src _ => ?_
  refine Sim.okStep (P' := fun r w => r.1 = Convolver.new env (n + 1) ∧
      CInv (r.2.r2cIn :: r.2.r2cOut :: r.2.c2rIn :: r.2.c2rOut :: r.2.tmpComplex :: base) r.1 w) (fun w hw => ?_) fun r => ?_
  · obtain ⟨hs, w', e, h⟩ := conv_new env (n + 1) w hw
    exact ⟨(Convolver.new env (n + 1), hs), by rw [e], rfl, by rw [e]; exact h⟩
  obtain ⟨cv, hs⟩ := r
  refine Sim.fact (p := cv = Convolver.new env (n + 1)) (fun w hw => hw.1) fun hcv => ?_
  subst hcv
  dsimp only
  refine Sim.withDtor (Q := Own (hs.r2cIn :: hs.r2cOut :: hs.c2rIn :: hs.c2rOut :: hs.tmpComplex :: base))
    (S := fun w => ∃ id, Own (id :: hs.r2cIn :: hs.r2cOut :: hs.c2rIn :: hs.c2rOut :: hs.tmpComplex :: base) w) ?_
    (fun w hw => conv_delete_own hw) fun w hw => ?_
  · refine (?_ : Sim (CInv (hs.r2cIn :: hs.r2cOut :: hs.c2rIn :: hs.c2rOut :: hs.tmpComplex :: base) (Convolver.new env (n + 1))) _ _ _ _).pre
      fun w hw => hw.2
    generalize hs.r2cIn :: hs.r2cOut :: hs.c2rIn :: hs.c2rOut :: hs.tmpComplex :: base = base'
    refine Sim.bind (R := fun a b w => a.1 = b ∧ CInv (a.2.2 :: a.2.1 :: base') (Convolver.new env (n + 1)) w) ?_ fun a g => ?_
    · intro w hw
      rcases pmfNew_sim env base' _ (n + 1) w hw with h | ⟨e, h1, h2, -⟩
      · exact Or.inl h
      · exact Or.inr ⟨e, h1, h2, fun ht => absurd ht (by rw [pmfNew_throws env _ e h2]; simp)⟩
    obtain ⟨g', lut, arr⟩ := a
    refine Sim.fact (p := g' = g) (fun w hw => hw.1) fun hg => ?_
    subst hg
    dsimp only
    refine Sim.withDtor (Q := Own (arr :: lut :: base')) (S := fun w => ∃ id, Own (id :: arr :: lut :: base') w) ?_
      (fun w hw => pmf_delete_own hw) fun w hw => ?_
    · refine (?_ : Sim (CInv (arr :: lut :: base') (Convolver.new env (n + 1))) _ _ _ _).pre fun w hw => hw.2
      generalize arr :: lut :: base' = base''
      refine Sim.okStep (P' := fun t w => CInv (t :: base'') (Convolver.new env (n + 1)) w)
        (fun w hw => ⟨w.next, cinv_alloc hw⟩) fun t => ?_
      have hS : ∀ (cv : Convolver F) (w : HWorld), CInv (t :: base'') cv w → ∃ id, Own (id :: base'') w := fun cv w hw => ⟨t, hw.1⟩
      refine Sim.bind ((blockLoop_sim env (t :: base'') n intensity B jumpSize B.length _ _ _).mono (fun w hw => hw) (fun _ _ _ h => h)
        fun w hw => ⟨t, hw⟩) fun s s' => ?_
      refine Sim.fact (p := s = s') (fun w hw => hw.1) fun h => ?_
      subst h
      refine (?_ : Sim (CInv (t :: base'') s.conv) _ _ _ _).pre fun w hw => hw.2
      refine Sim.bindInv (hS _) fun g => Sim.bindInv (hS _) fun oS => Sim.bindInv (hS _) fun oD =>
        Sim.bindConv ((convolve_sim env (t :: base'') _ _ _ _ _ _ _ _).mono (fun w hw => hw) (fun _ _ _ h => h) fun w hw => ⟨t, hw⟩)
          fun r => ?_
      obtain ⟨cv, dest⟩ := r
      dsimp only
      conv =>
        arg 3
        rw [show wrBlock dest 0 (List.replicate (B.length : Int).toNat (zero : F))
          = (wrBlock dest 0 (List.replicate (B.length : Int).toNat (zero : F)) >>= fun d => .ok d) by
            cases wrBlock dest 0 (List.replicate (B.length : Int).toNat (zero : F)) <;> rfl]
      refine Sim.bindInv (hS _) fun d => ?_
      refine Sim.okStep (P' := fun _ w => Own base'' w) (fun w hw => ?_) fun _ => Sim.pureR fun w hw => ⟨rfl, hw⟩
      have := free_own hw.1
      exact ⟨(), this.1, this.2.1⟩
    · obtain ⟨id, hid⟩ := hw
      have hid : Own (arr :: lut :: id :: base') w := hid.perm
        ((List.Perm.swap _ _ _).trans ((List.Perm.swap _ _ _).cons _))
      have := pmf_delete_own hid
      exact ⟨this.1, id, this.2⟩
  · obtain ⟨id, hid⟩ := hw
    have hid : Own (hs.r2cIn :: hs.r2cOut :: hs.c2rIn :: hs.c2rOut :: hs.tmpComplex :: id :: base) w := hid.perm
      (List.perm_middle (a := id) (l₁ := [hs.r2cIn, hs.r2cOut, hs.c2rIn, hs.c2rOut, hs.tmpComplex]) (l₂ := base)).symm
    have := conv_delete_own hid
    refine ⟨this.1, id, ?_, this.2⟩
    have hnd := (this.2.1.nodup_iff).1 this.2.2.1
    exact (List.nodup_cons.1 hnd).1

theorem poissonPmf_throws (env : Env F) (x : F) (k : Int) (e : Fault) (h : poissonPmf env x k = .error e) : throws e = false := by
  unfold poissonPmf at h
  cases ha : assertC env.asserts (decide (0 ≤ k)) "k >= 0" with
  | error e' => rw [ha] at h; cases h; exact assertC_throws ha
  | ok u =>
    rw [ha] at h
    cases hb : assertC env.asserts (ge x zero) "lambda >= 0.0" with
    | error e' => rw [hb] at h; cases h; exact assertC_throws hb
    | ok u =>
      rw [hb] at h
      change (if _ then _ else _) = _ at h
      split at h <;> cases h

/-- After validation. -/
theorem ecdf1NewB_sim (env : Env F) (base : List Nat) (isqrt : Nat → Nat) (B : List F)
    (hc : checkBoundaryVector "B" B.length B = .ok ()) :
    Sim (LiveIs base) (ecdf1NewBH env isqrt B) (ecdf1NewB env isqrt B) (fun a b w => a = b ∧ LiveIs base w) (Leaks base) := by
  unfold ecdf1NewBH ecdf1NewB
  dsimp only
  refine Sim.bindNT (fun e he => by rw [hc] at he; cases he) fun _ _ => ?_
  refine Sim.bind (pbnp_sim env base _ _ _ _) fun p p' => ?_
  refine Sim.fact (p := p = p') (fun w hw => hw.1) fun h => ?_
  subst h
  refine (?_ : Sim (LiveIs base) _ _ _ _).pre fun w hw => hw.2
  exact Sim.bindNT (fun _ => rd_throws) fun _ _ => Sim.bindNT (fun _ => poissonPmf_throws env _ _ _) fun _ _ => Sim.pureR fun w hw => ⟨rfl, hw⟩

theorem bind_lift_error {α β : Type} {m : M α} {f : α → HM β} {e : Fault} (h : m = .error e) (w : HWorld) :
    (HM.lift m >>= f) w = (.error e, w) := by
  subst h; rfl

theorem bind_lift_ok {α β : Type} {m : M α} {f : α → HM β} {a : α} (h : m = .ok a) (w : HWorld) :
    (HM.lift m >>= f) w = f a w := by
  subst h; rfl

/-! ## src/ecdf1_mns2016.cc -/

theorem polyNew_sim (env : Env F) (base : List Nat) (m : Int) :
    Sim (LiveIs base) (Poly.newH env m) (Poly.new env m) (fun a b w => a.1 = b ∧ LiveIs (a.2.1 :: a.2.2 :: base) w) (LiveIs base) := by
  unfold Poly.newH
  intro w hw
  cases hg : Poly.new env m with
  | error e => exact Or.inr ⟨e, rfl, rfl, fun _ => hw⟩
  | ok g =>
    refine Or.inl ⟨(g, w.next, w.next + 1), g, rfl, rfl, rfl, ?_⟩
    have := (clean_alloc (clean_alloc hw).2).2
    exact ⟨this.1.trans (List.Perm.swap _ _ _), this.2⟩

theorem mnsb_sim (env : Env F) (base : List Nat) (b : List F) :
    Sim (LiveIs base) (ecdf1Mns2016bH env b) (ecdf1Mns2016b env b) (fun a b w => a = b ∧ LiveIs base w) (LiveIs base) := by
  unfold ecdf1Mns2016bH ecdf1Mns2016b ecdf1Mns2016bWith
  dsimp only
  refine Sim.bindInv (fun w hw => hw) fun _ => ?_
  refine Sim.bind (polyNew_sim env base _) fun a g => ?_
  obtain ⟨g', mult, add⟩ := a
  refine Sim.fact (p := g' = g) (fun w hw => hw.1) fun hg => ?_
  subst hg
  dsimp only
  refine Sim.withDtor (Q := LiveIs (mult :: add :: base)) (S := LiveIs (mult :: add :: base)) ?_
    (fun w hw => poly_delete_clean hw) fun w hw => poly_delete_clean hw
  refine (?_ : Sim (LiveIs (mult :: add :: base)) _ _ _ _).pre fun w hw => hw.2
  exact Sim.bindInv (fun w hw => hw) fun _ => Sim.bindInv (fun w hw => hw) fun _ => Sim.bindInv (fun w hw => hw) fun _ =>
    Sim.pureR fun w hw => ⟨rfl, hw⟩

theorem mnsB_sim (env : Env F) (base : List Nat) (B : List F) :
    Sim (LiveIs base) (ecdf1Mns2016BH env B) (ecdf1Mns2016B env B) (fun a b w => a = b ∧ LiveIs base w) (LiveIs base) := by
  unfold ecdf1Mns2016BH ecdf1Mns2016B
  dsimp only
  exact Sim.bindInv (fun w hw => hw) fun _ => Sim.bindInv (fun w hw => hw) fun s => mnsb_sim env base s

end CP
