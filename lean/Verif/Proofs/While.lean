import Verif.Model.While
import Verif.Proofs.Hoare
/-
Reasoning about `whileM`.
-/
namespace CP
variable {σ : Type} {cond : σ → Bool} {body : σ → M σ}

theorem loopSteps_succ_of : ∀ (k : Nat) (s : σ) (r : M σ),
    loopSteps cond body k s = some r → loopSteps cond body (k + 1) s = some r
  | 0, s, r, h => by
    unfold loopSteps at h ⊢
    by_cases hc : cond s
    · rw [if_pos hc] at h; cases h
    · rw [if_neg hc] at h ⊢; exact h
  | k + 1, s, r, h => by
    rw [loopSteps] at h ⊢
    by_cases hc : cond s
    · rw [if_pos hc] at h ⊢
      cases hb : body s with
      | ok s' => rw [hb] at h; exact loopSteps_succ_of k s' r h
      | error e => rw [hb] at h; exact h
    · rw [if_neg hc] at h ⊢; exact h

theorem loopSteps_mono {k l : Nat} {s : σ} {r : M σ} (hkl : k ≤ l)
    (h : loopSteps cond body k s = some r) : loopSteps cond body l s = some r := by
  induction hkl with
  | refl => exact h
  | step _ ih => exact loopSteps_succ_of _ _ _ ih

theorem loopSteps_det {k l : Nat} {s : σ} {r r' : M σ}
    (h : loopSteps cond body k s = some r) (h' : loopSteps cond body l s = some r') : r = r' := by
  have h1 := loopSteps_mono (Nat.le_max_left k l) h
  have h2 := loopSteps_mono (Nat.le_max_right k l) h'
  rw [h1] at h2
  injection h2

theorem whileM_of_steps {k : Nat} {s : σ} {r : M σ} (h : loopSteps cond body k s = some r) :
    whileM cond body s = r := by
  have hex : ∃ k r, loopSteps cond body k s = some r := ⟨k, r, h⟩
  unfold whileM
  rw [dif_pos hex]
  exact loopSteps_det hex.choose_spec.choose_spec h

theorem whileM_stop {s : σ} (h : cond s = false) : whileM cond body s = .ok s :=
  whileM_of_steps (k := 0) (by simp [loopSteps, h])

theorem whileM_fault {s : σ} {e : Fault} (hc : cond s = true) (h : body s = .error e) :
    whileM cond body s = .error e :=
  whileM_of_steps (k := 1) (by simp [loopSteps, hc, h])

theorem whileM_step {s s' : σ} (hc : cond s = true) (h : body s = .ok s') :
    whileM cond body s = whileM cond body s' := by
  by_cases hex : ∃ k r, loopSteps cond body k s' = some r
  · obtain ⟨k, r, hk⟩ := hex
    rw [whileM_of_steps hk]
    exact whileM_of_steps (k := k + 1) (by simp [loopSteps, hc, h, hk])
  · have hex' : ¬ ∃ k r, loopSteps cond body k s = some r := by
      rintro ⟨k, r, hk⟩
      cases k with
      | zero => simp [loopSteps, hc] at hk
      | succ k => exact hex ⟨k, r, by simpa [loopSteps, hc, h] using hk⟩
    unfold whileM
    rw [dif_neg hex, dif_neg hex']

/-- A loop whose condition holds in every state satisfying an invariant, and whose body always
succeeds, never ends. -/
theorem whileM_diverge (I : σ → Prop) (hI : ∀ s, I s → cond s = true ∧ ∃ s', body s = .ok s' ∧ I s')
    {s : σ} (h : I s) : whileM cond body s = .error .diverge := by
  have key : ∀ k s, I s → loopSteps cond body k s = none := by
    intro k
    induction k with
    | zero => intro s hs; simp [loopSteps, (hI s hs).1]
    | succ k ih =>
      intro s hs
      obtain ⟨hc, s', hb, hs'⟩ := hI s hs
      simp [loopSteps, hc, hb, ih s' hs']
  unfold whileM
  rw [dif_neg]
  rintro ⟨k, r, hk⟩
  rw [key k s h] at hk
  cases hk

/-- A loop whose condition holds in every state satisfying an invariant never ends normally: it runs
forever, or its body faults. -/
theorem whileM_not_ok (I : σ → Prop) (E : Fault → Prop)
    (hI : ∀ s, I s → cond s = true ∧ Sat E I (body s)) {s : σ} (h : I s) :
    ∃ e, whileM cond body s = .error e ∧ (e = .diverge ∨ E e) := by
  have key : ∀ k s r, I s → loopSteps cond body k s = some r → ∃ e, r = .error e ∧ E e := by
    intro k
    induction k with
    | zero => intro s r hs hr; simp [loopSteps, (hI s hs).1] at hr
    | succ k ih =>
      intro s r hs hr
      obtain ⟨hc, hb⟩ := hI s hs
      rw [loopSteps, if_pos hc] at hr
      cases hbs : body s with
      | ok s' =>
        rw [hbs] at hr hb
        exact ih s' r hb hr
      | error e =>
        rw [hbs] at hr hb
        injection hr with hr
        exact ⟨e, hr.symm, hb⟩
  by_cases hex : ∃ k r, loopSteps cond body k s = some r
  · obtain ⟨k, r, hk⟩ := hex
    obtain ⟨e, he, hE⟩ := key k s r h hk
    exact ⟨e, by rw [whileM_of_steps hk, he], Or.inr hE⟩
  · refine ⟨.diverge, ?_, Or.inl rfl⟩
    unfold whileM
    rw [dif_neg hex]

/-- `N` successful iterations followed by a failing test of the condition. -/
theorem whileM_iterate (f : Nat → σ) (N : Nat)
    (hstep : ∀ i, i < N → cond (f i) = true ∧ body (f i) = .ok (f (i + 1)))
    (hend : cond (f N) = false) : whileM cond body (f 0) = .ok (f N) := by
  have key : ∀ j, j ≤ N → whileM cond body (f 0) = whileM cond body (f j) := by
    intro j
    induction j with
    | zero => intro _; rfl
    | succ j ih =>
      intro hj
      rw [ih (by omega)]
      exact whileM_step (hstep j (by omega)).1 (hstep j (by omega)).2
  rw [key N (Nat.le_refl N), whileM_stop hend]

end CP
