import Verif.Proofs.Threads
import Verif.ThreadsSpec
/-
Invariants of a process with several calls, under every schedule.
-/
namespace CP
variable {F : Type} [FOps F]
open FOps Thr

omit [FOps F] in
theorem Process.run_append (p : Process F) (s t : List Nat) : p.run (s ++ t) = (p.run s).run t := List.foldl_append

/-- What is known of each call, and that the calls inside the planner are those recorded. -/
structure Process.Inv (p : Process F) (sh pl : Nat → Bool) (P : Nat → M F → Prop) : Prop where
  spec : ∀ i, Spec (sh i) (pl i) (p.planning.contains i) (p.thread i) (P i)
  nodup : p.planning.Nodup
  mem : ∀ i ∈ p.planning, pl i = true

omit [FOps F] in
theorem Process.Inv.step {p : Process F} {sh pl : Nat → Bool} {P : Nat → M F → Prop} (h : p.Inv sh pl P) (i : Nat) :
    (p.step i).Inv sh pl P := by
  have hi := h.spec i
  unfold Process.step
  split
  · exact h
  · rename_i v k hk
    rw [hk] at hi
    refine ⟨fun j => ?_, h.nodup, h.mem⟩
    dsimp only [Process.set]
    by_cases hj : j = i
    · rw [if_pos hj, hj]; exact hi.2
    · rw [if_neg hj]; exact h.spec j
  · rename_i k hk
    rw [hk] at hi
    refine ⟨fun j => ?_, h.nodup, h.mem⟩
    dsimp only [Process.set]
    by_cases hj : j = i
    · rw [if_pos hj, hj]; exact hi.2 _
    · rw [if_neg hj]; exact h.spec j
  · rename_i k hk
    rw [hk] at hi
    have hni : i ∉ p.planning := by
      intro hm
      have := hi.2.1
      rw [List.contains_iff_mem.mpr hm] at this
      cases this
    refine ⟨fun j => ?_, List.nodup_cons.mpr ⟨hni, h.nodup⟩, ?_⟩
    · dsimp only [Process.set]
      by_cases hj : j = i
      · rw [if_pos hj, hj]
        have : (i :: p.planning).contains i = true := by simp
        rw [this]
        exact hi.2.2
      · rw [if_neg hj]
        have : (i :: p.planning).contains j = p.planning.contains j := by
          simp [hj]
        rw [this]
        exact h.spec j
    · intro j hj
      rcases List.mem_cons.mp hj with e | hj
      · rw [e]; exact hi.1
      · exact h.mem j hj
  · rename_i k hk
    rw [hk] at hi
    refine ⟨fun j => ?_, h.nodup.erase i, fun j hj => h.mem j (List.mem_of_mem_erase hj)⟩
    dsimp only [Process.set]
    by_cases hj : j = i
    · rw [if_pos hj, hj]
      have : (p.planning.erase i).contains i = false := by
        rw [Bool.eq_false_iff, ne_eq, List.contains_iff_mem, h.nodup.mem_erase_iff]
        exact fun h => h.1 rfl
      rw [this]
      exact hi.2
    · rw [if_neg hj]
      have : (p.planning.erase i).contains j = p.planning.contains j := by
        rw [Bool.eq_iff_iff, List.contains_iff_mem, List.contains_iff_mem, List.mem_erase_of_ne hj]
      rw [this]
      exact h.spec j

omit [FOps F] in
theorem Process.Inv.run {sh pl : Nat → Bool} {P : Nat → M F → Prop} (s : List Nat) : ∀ {p : Process F}, p.Inv sh pl P →
    (p.run s).Inv sh pl P := by
  induction s with
  | nil => intro p h; exact h
  | cons i s ih => intro p h; exact ih (h.step i)

omit [FOps F] in
theorem Process.Inv.done {p : Process F} {sh pl : Nat → Bool} {P : Nat → M F → Prop} (h : p.Inv sh pl P) {i : Nat} {r : M F}
    (hr : p.thread i = .done r) : P i r := by
  have := h.spec i
  rw [hr] at this
  exact this.2

omit [FOps F] in
/-- With at most one call that ever plans, the planner is never used twice at a time. -/
theorem Process.Inv.step_race {p : Process F} {sh pl : Nat → Bool} {P : Nat → M F → Prop} (h : p.Inv sh pl P)
    (hpl : ∀ i j, pl i = true → pl j = true → i = j) (hr : p.race = false) (i : Nat) : (p.step i).race = false := by
  have hi := h.spec i
  unfold Process.step
  split
  · exact hr
  · exact hr
  · exact hr
  · rename_i k hk
    rw [hk] at hi
    have : p.planning = [] := by
      rw [List.eq_nil_iff_forall_not_mem]
      intro j hj
      have e := hpl j i (h.mem j hj) hi.1
      have := hi.2.1
      rw [e] at hj
      rw [List.contains_iff_mem.mpr hj] at this
      cases this
    dsimp only
    rw [hr, this]
    rfl
  · exact hr

omit [FOps F] in
theorem Process.Inv.run_race {sh pl : Nat → Bool} {P : Nat → M F → Prop} (hpl : ∀ i j, pl i = true → pl j = true → i = j)
    (s : List Nat) : ∀ {p : Process F}, p.Inv sh pl P → p.race = false → (p.run s).race = false := by
  induction s with
  | nil => intro p _ h; exact h
  | cons i s ih => intro p h hr; exact ih (h.step i) (h.step_race hpl hr i)

/-! ## The beginning -/

/-- The possible results of a call. -/
def LibCall.possible (env : Env F) (sort : List (Bound F) → List (Bound F)) (isqrt : Nat → Nat) : LibCall F → M F → Prop
  | .mnsb b, r => ∃ read : Int → F → Int, r = ecdf1Mns2016bWith env read b
  | .mnsB B, r => ∃ read : Int → F → Int, r = ecdf1Mns2016BWith env read B
  | c, r => r = c.sequential env sort isqrt

/-- Whether the call uses the static variable. -/
def LibCall.mnsB? : LibCall F → Bool
  | .mnsb _ => true
  | .mnsB _ => true
  | _ => false

omit [FOps F] in
theorem LibCall.mnsB?_iff (c : LibCall F) : c.mnsB? = true ↔ c.isMns := by
  cases c <;> simp [LibCall.mnsB?, LibCall.isMns]

/-- Whether the call may use the planner. -/
def LibCall.largeB : LibCall F → Bool
  | .ecdf2 b _ useFft => useFft && decide (126 < b.length)
  | .newB B => decide (126 < B.length)
  | .newb b => decide (126 < b.length)
  | _ => false

omit [FOps F] in
theorem LibCall.largeB_iff (c : LibCall F) : c.largeB = true ↔ c.large := by
  cases c <;> simp [LibCall.largeB, LibCall.large]

theorem LibCall.spec (env : Env F) (sort : List (Bound F) → List (Bound F)) (isqrt : Nat → Nat) (c : LibCall F) :
    Spec c.mnsB? true false (c.thread env sort isqrt) (c.possible env sort isqrt) := by
  cases c with
  | ecdf2 b B u => exact ecdf2T_ends env sort true b B u fun _ => .inl rfl
  | newB B => exact ecdf1NewBT_ends env isqrt true B (.inl rfl)
  | newb B => exact ecdf1NewbT_ends env isqrt true B (.inl rfl)
  | mnsb b => exact ecdf1Mns2016bT_spec env true b
  | mnsB b => exact ecdf1Mns2016BT_spec env true b

theorem LibCall.spec_large (env : Env F) {sort : List (Bound F) → List (Bound F)} (hperm : ∀ l, (sort l).Perm l) (isqrt : Nat → Nat)
    (c : LibCall F) : Spec c.mnsB? c.largeB false (c.thread env sort isqrt) (c.possible env sort isqrt) := by
  cases c with
  | ecdf2 b B u =>
    refine ecdf2T_ends env sort _ b B u fun hu => ?_
    by_cases h : b.length ≤ 126
    · exact .inr (narrow_of_length sort hperm h)
    · left
      simp [LibCall.largeB, hu]
      omega
  | newB B =>
    refine ecdf1NewBT_ends env isqrt _ B ?_
    by_cases h : B.length ≤ 126
    · exact .inr h
    · left; simp [LibCall.largeB]; omega
  | newb B =>
    refine ecdf1NewbT_ends env isqrt _ B ?_
    by_cases h : B.length ≤ 126
    · exact .inr h
    · left; simp [LibCall.largeB]; omega
  | mnsb b => exact ecdf1Mns2016bT_spec env _ b
  | mnsB b => exact ecdf1Mns2016BT_spec env _ b

theorem Process.start_inv (env : Env F) (sort : List (Bound F) → List (Bound F)) (isqrt : Nat → Nat) (e : Int) (calls : Nat → LibCall F) :
    (Process.start env sort isqrt e calls).Inv (fun i => (calls i).mnsB?) (fun _ => true) (fun i => (calls i).possible env sort isqrt) where
  spec i := (calls i).spec env sort isqrt
  nodup := List.nodup_nil
  mem := fun _ _ => rfl

theorem Process.start_inv_large (env : Env F) {sort : List (Bound F) → List (Bound F)} (hperm : ∀ l, (sort l).Perm l)
    (isqrt : Nat → Nat) (e : Int) (calls : Nat → LibCall F) :
    (Process.start env sort isqrt e calls).Inv (fun i => (calls i).mnsB?) (fun i => (calls i).largeB)
      (fun i => (calls i).possible env sort isqrt) where
  spec i := (calls i).spec_large env hperm isqrt
  nodup := List.nodup_nil
  mem := by intro i hi; cases hi

/-! ## Every call ends if it gets its turns -/

omit [FOps F] in
theorem Process.step_other (p : Process F) {i j : Nat} (h : j ≠ i) : (p.step i).thread j = p.thread j := by
  unfold Process.step
  split <;> simp [Process.set, h]

/-- The process after the first `m` turns of an infinite schedule. -/
def Process.after (p : Process F) (turn : Nat → Nat) : Nat → Process F
  | 0 => p
  | m + 1 => (p.after turn m).step (turn m)

omit [FOps F] in
theorem Process.after_add (p : Process F) (turn : Nat → Nat) (a b : Nat) :
    p.after turn (a + b) = (p.after turn a).after (fun m => turn (a + m)) b := by
  induction b with
  | zero => rfl
  | succ b ih => rw [← Nat.add_assoc]; unfold Process.after; rw [ih]

omit [FOps F] in
theorem Process.ends_fair (i : Nat) : ∀ (t : Thr F) (p : Process F) (turn : Nat → Nat), p.thread i = t →
    (∀ N, ∃ m ≥ N, turn m = i) → ∃ m r, (p.after turn m).thread i = .done r := by
  intro t
  have first : ∀ (p : Process F) (turn : Nat → Nat), (∀ N, ∃ m ≥ N, turn m = i) →
      ∃ m, (p.after turn m).thread i = p.thread i ∧ turn m = i := by
    intro p turn h
    classical
    have hex : ∃ m, turn m = i := by obtain ⟨m, _, hm⟩ := h 0; exact ⟨m, hm⟩
    refine ⟨Nat.find hex, ?_, Nat.find_spec hex⟩
    have : ∀ m, m ≤ Nat.find hex → (p.after turn m).thread i = p.thread i := by
      intro m
      induction m with
      | zero => intro _; rfl
      | succ m ih =>
        intro hm
        unfold Process.after
        rw [Process.step_other _ (Ne.symm (Nat.find_min hex (by omega)))]
        exact ih (by omega)
    exact this _ le_rfl
  have go : ∀ (k : Thr F), (∀ (p : Process F) (turn : Nat → Nat), p.thread i = k →
      (∀ N, ∃ m ≥ N, turn m = i) → ∃ m r, (p.after turn m).thread i = .done r) → ∀ (p : Process F) (turn : Nat → Nat) (m : Nat),
      (∀ N, ∃ m ≥ N, turn m = i) → (p.after turn (m + 1)).thread i = k → ∃ m r, (p.after turn m).thread i = .done r := by
    intro k ih p turn m hfair hk
    obtain ⟨m', r, hr⟩ := ih (p.after turn (m + 1)) (fun x => turn (m + 1 + x)) hk (by
      intro N
      obtain ⟨x, hx, hx'⟩ := hfair (m + 1 + N)
      exact ⟨x - (m + 1), by omega, by rw [← hx']; congr 1; omega⟩)
    exact ⟨m + 1 + m', r, by rw [Process.after_add]; exact hr⟩
  induction t with
  | done r => intro p turn h _; exact ⟨0, r, h⟩
  | store v k ih =>
    intro p turn h hfair
    obtain ⟨m, h1, h2⟩ := first p turn hfair
    refine go k ih p turn m hfair ?_
    rw [h] at h1
    show ((p.after turn m).step (turn m)).thread i = _
    generalize p.after turn m = q at h1 ⊢
    unfold Process.step
    rw [h2, h1]
    simp [Process.set]
  | load k ih =>
    intro p turn h hfair
    obtain ⟨m, h1, h2⟩ := first p turn hfair
    refine go (k (p.after turn m).exponent) (ih _) p turn m hfair ?_
    rw [h] at h1
    show ((p.after turn m).step (turn m)).thread i = _
    generalize p.after turn m = q at h1 ⊢
    unfold Process.step
    rw [h2, h1]
    simp [Process.set]
  | enter k ih =>
    intro p turn h hfair
    obtain ⟨m, h1, h2⟩ := first p turn hfair
    refine go k ih p turn m hfair ?_
    rw [h] at h1
    show ((p.after turn m).step (turn m)).thread i = _
    generalize p.after turn m = q at h1 ⊢
    unfold Process.step
    rw [h2, h1]
    simp [Process.set]
  | leave k ih =>
    intro p turn h hfair
    obtain ⟨m, h1, h2⟩ := first p turn hfair
    refine go k ih p turn m hfair ?_
    rw [h] at h1
    show ((p.after turn m).step (turn m)).thread i = _
    generalize p.after turn m = q at h1 ⊢
    unfold Process.step
    rw [h2, h1]
    simp [Process.set]

/-! ## Calls of ecdf1_mns2016 one after the other -/

omit [FOps F] in
theorem Process.own_step {p : Process F} {i : Nat} {m : M F} (h : Own (p.thread i) p.exponent m) :
    Own ((p.step i).thread i) (p.step i).exponent m := by
  unfold Process.step
  split <;> rename_i hk <;> rw [hk] at h
  · rw [hk]; exact h
  all_goals
    dsimp only [Process.set]
    rw [if_pos rfl]
    exact h

omit [FOps F] in
theorem Process.Inv.step_exponent {p : Process F} {sh pl : Nat → Bool} {P : Nat → M F → Prop} (h : p.Inv sh pl P) {k : Nat}
    (hk : sh k = false) : (p.step k).exponent = p.exponent := by
  have hi := h.spec k
  unfold Process.step
  split <;> rename_i hk' <;> rw [hk'] at hi
  · exfalso
    have := hi.1
    rw [hk] at this
    cases this
  · rfl
  · rfl
  · rfl

/-- What is known of the calls when the remaining steps are `s`. -/
def Process.OwnInv (p : Process F) (sh : Nat → Bool) (m : Nat → M F) (s : List Nat) : Prop :=
  ∀ i, sh i = true → (∀ e, Own (p.thread i) e (m i)) ∨
    (Own (p.thread i) p.exponent (m i) ∧ ∀ j, sh j = true → j ≠ i → ∀ s2 s3 s4, s ≠ s2 ++ j :: s3 ++ i :: s4) ∨
    (i ∉ s ∧ ∀ r, p.thread i = .done r → r = m i)

omit [FOps F] in
theorem Process.OwnInv.step {p : Process F} {sh pl : Nat → Bool} {P : Nat → M F → Prop} {m : Nat → M F} {k : Nat} {s : List Nat}
    (hI : p.Inv sh pl P) (hs : Serial (fun i => sh i = true) (k :: s)) (h : p.OwnInv sh m (k :: s)) : (p.step k).OwnInv sh m s := by
  intro i hi
  by_cases hki : k = i
  · subst hki
    rcases h k hi with h | ⟨h1, h2⟩ | ⟨h, _⟩
    · refine .inr (.inl ⟨Process.own_step (h _), fun j hj hji s2 s3 s4 e => ?_⟩)
      exact hs k j hi hj hji.symm [] s2 s3 s4 (by rw [e]; simp)
    · refine .inr (.inl ⟨Process.own_step h1, fun j hj hji s2 s3 s4 e => ?_⟩)
      exact h2 j hj hji (k :: s2) s3 s4 (by rw [e]; simp)
    · exact absurd (List.mem_cons_self) h
  · have ht := Process.step_other p (Ne.symm hki)
    rcases h i hi with h | ⟨h1, h2⟩ | ⟨h1, h2⟩
    · exact .inl (by rw [ht]; exact h)
    · cases hk : sh k with
      | true =>
        refine .inr (.inr ⟨fun hmem => ?_, fun r hr => ?_⟩)
        · obtain ⟨s3, s4, e⟩ := List.append_of_mem hmem
          exact h2 k hk hki [] s3 s4 (by rw [e]; simp)
        · rw [ht] at hr
          rw [hr] at h1
          exact h1
      | false =>
        refine .inr (.inl ⟨?_, fun j hj hji s2 s3 s4 e => ?_⟩)
        · rw [ht, hI.step_exponent hk]; exact h1
        · exact h2 j hj hji (k :: s2) s3 s4 (by rw [e]; simp)
    · refine .inr (.inr ⟨fun hmem => h1 (List.mem_cons_of_mem _ hmem), ?_⟩)
      rw [ht]; exact h2

theorem Serial.tail {who : Nat → Prop} {k : Nat} {s : List Nat} (h : Serial who (k :: s)) : Serial who s :=
  fun i j hi hj hij s1 s2 s3 s4 e => h i j hi hj hij (k :: s1) s2 s3 s4 (by rw [e]; simp)

omit [FOps F] in
theorem Process.OwnInv.run {sh pl : Nat → Bool} {P : Nat → M F → Prop} {m : Nat → M F} (s : List Nat) : ∀ {p : Process F},
    p.Inv sh pl P → Serial (fun i => sh i = true) s → p.OwnInv sh m s → (p.run s).OwnInv sh m [] := by
  induction s with
  | nil => intro p _ _ h; exact h
  | cons k s ih => intro p hI hs h; exact ih (hI.step k) hs.tail (h.step hI hs)

theorem LibCall.own (env : Env F) (sort : List (Bound F) → List (Bound F)) (isqrt : Nat → Nat) (c : LibCall F) (hc : c.mnsB? = true) (e : Int) :
    Own (c.thread env sort isqrt) e (c.sequential env sort isqrt) := by
  cases c with
  | ecdf2 b B u => cases hc
  | newB B => cases hc
  | newb B => cases hc
  | mnsb b => exact ecdf1Mns2016bT_own env b e
  | mnsB b => exact ecdf1Mns2016BT_own env b e

theorem Process.serial_result (env : Env F) (sort : List (Bound F) → List (Bound F)) (isqrt : Nat → Nat) (e : Int)
    (calls : Nat → LibCall F) (s : List Nat) (hs : Serial (fun i => (calls i).isMns) s) {i : Nat} {r : M F}
    (hr : ((Process.start env sort isqrt e calls).run s).thread i = .done r) : r = (calls i).sequential env sort isqrt := by
  have hI := Process.start_inv env sort isqrt e calls
  cases hm : (calls i).mnsB? with
  | false =>
    have := (hI.run s).done hr
    generalize calls i = c at hm this ⊢
    cases c <;> first | exact this | cases hm
  | true =>
    have := Process.OwnInv.run (m := fun i => (calls i).sequential env sort isqrt) s hI
      (by simpa only [LibCall.mnsB?_iff] using hs) (fun i hi => .inl fun e => (calls i).own env sort isqrt hi e) i hm
    rw [hr] at this
    rcases this with h | h | h
    · exact h 0
    · exact h.1
    · exact h.2 r rfl

/-- A call of another function ends as if it were alone. -/
theorem Process.result (env : Env F) (sort : List (Bound F) → List (Bound F)) (isqrt : Nat → Nat) (e : Int)
    (calls : Nat → LibCall F) (s : List Nat) {i : Nat} {r : M F} (hi : ¬ (calls i).isMns)
    (hr : ((Process.start env sort isqrt e calls).run s).thread i = .done r) : r = (calls i).sequential env sort isqrt := by
  have := ((Process.start_inv env sort isqrt e calls).run s).done hr
  generalize calls i = c at hi this ⊢
  cases c <;> first | exact this | exact absurd trivial hi

end CP
