import Verif.Proofs.Ecdf2Step
/-
The order of tied boundary points is irrelevant to `ecdf2`, for any arithmetic in which the
difference of tied numbers is zero.
-/
set_option linter.unusedVariables false
namespace CP
variable {F : Type} [FOps F]
open FOps

/-- Neither number is below the other. -/
def Tied (u v : F) : Prop := lt u v = false ∧ lt v u = false

theorem Tied.symm {u v : F} (h : Tied u v) : Tied v u := ⟨h.2, h.1⟩

/-- What is needed of the arithmetic on the numbers selected by `P`: `<` is a strict weak order, the
difference of tied numbers times the intensity compares equal to zero, and tied numbers are
interchangeable in differences with other numbers.  (True for finite IEEE doubles, including
`+0.0`/`-0.0`.) -/
structure TieLaws (I : F) (P : F → Prop) : Prop where
  irrefl : ∀ u, P u → lt u u = false
  ntrans : ∀ u v w, P u → P v → P w → lt v u = false → lt w v = false → lt w u = false
  same : ∀ u v, P u → P v → Tied u v → lt zero (I *ᶠ (u -ᶠ v)) = false ∧ eq (I *ᶠ (u -ᶠ v)) zero = true
  other : ∀ u v x, P u → P v → P x → Tied u v → ¬ Tied x u → I *ᶠ (x -ᶠ u) = I *ᶠ (x -ᶠ v)
  otherL : ∀ u v x, P u → P v → P x → Tied u v → ¬ Tied u x → I *ᶠ (u -ᶠ x) = I *ᶠ (v -ᶠ x)

variable {I : F} {P : F → Prop}

theorem TieLaws.trans (L : TieLaws I P) {u v w : F} (hu : P u) (hv : P v) (hw : P w) (h1 : Tied u v) (h2 : Tied v w) :
    Tied u w :=
  ⟨L.ntrans w v u hw hv hu h2.1 h1.1, L.ntrans u v w hu hv hw h1.2 h2.2⟩

theorem wr_comm (buf : List F) (i j : Int) (x : F) :
    (wr buf i x >>= fun b => wr b j x) = (wr buf j x >>= fun b => wr b i x) := by
  unfold wr
  by_cases hi : 0 ≤ i ∧ i.toNat < buf.length
  · by_cases hj : 0 ≤ j ∧ j.toNat < buf.length
    · rw [if_pos hi, if_pos hj]
      show (if _ then _ else _) = (if _ then _ else _)
      rw [List.length_set, List.length_set, if_pos hi, if_pos hj]
      congr 1
      by_cases e : i.toNat = j.toNat
      · rw [e]
      · exact List.set_comm _ _ e
    · rw [if_pos hi, if_neg hj]
      show (if _ then _ else _) = _
      rw [List.length_set, if_neg hj]
      rfl
  · by_cases hj : 0 ≤ j ∧ j.toNat < buf.length
    · rw [if_neg hi, if_pos hj]
      show _ = (if _ then _ else _)
      rw [List.length_set, if_neg hi]
      rfl
    · rw [if_neg hi, if_neg hj]
      rfl

theorem update_comm (t t' : BoundType) (buf : List F) (c d : Int) :
    (updateDestBufferAndStepCounts t buf c d >>= fun r => updateDestBufferAndStepCounts t' r.1 r.2.1 r.2.2)
      = (updateDestBufferAndStepCounts t' buf c d >>= fun r => updateDestBufferAndStepCounts t r.1 r.2.1 r.2.2) := by
  have key : (updateDestBufferAndStepCounts .bSTEP buf c d >>= fun r => updateDestBufferAndStepCounts .BSTEP r.1 r.2.1 r.2.2)
      = (updateDestBufferAndStepCounts .BSTEP buf c d >>= fun r => updateDestBufferAndStepCounts .bSTEP r.1 r.2.1 r.2.2) := by
    have h := wr_comm buf (c + 1) d (zero : F)
    show ((wr buf (c + 1) zero >>= fun b => (.ok (b, c + 1, d) : M _)) >>= fun r => (wr r.1 r.2.2 zero >>= fun b => (.ok (b, r.2.1, r.2.2 + 1) : M _)))
      = ((wr buf d zero >>= fun b => (.ok (b, c, d + 1) : M _)) >>= fun r => (wr r.1 (r.2.1 + 1) zero >>= fun b => (.ok (b, r.2.1 + 1, r.2.2) : M _)))
    have e1 : ((wr buf (c + 1) (zero : F) >>= fun b => (.ok (b, c + 1, d) : M _)) >>= fun r => (wr r.1 r.2.2 zero >>= fun b => (.ok (b, r.2.1, r.2.2 + 1) : M _)))
        = ((wr buf (c + 1) zero >>= fun b => wr b d zero) >>= fun b => (.ok (b, c + 1, d + 1) : M _)) := by
      cases wr buf (c + 1) (zero : F) <;> rfl
    have e2 : ((wr buf d (zero : F) >>= fun b => (.ok (b, c, d + 1) : M _)) >>= fun r => (wr r.1 (r.2.1 + 1) zero >>= fun b => (.ok (b, r.2.1 + 1, r.2.2) : M _)))
        = ((wr buf d zero >>= fun b => wr b (c + 1) zero) >>= fun b => (.ok (b, c + 1, d + 1) : M _)) := by
      cases wr buf d (zero : F) <;> rfl
    rw [e1, e2, h]
  have hend : ∀ t, (updateDestBufferAndStepCounts t buf c d >>= fun r => updateDestBufferAndStepCounts .END r.1 r.2.1 r.2.2)
      = updateDestBufferAndStepCounts t buf c d := by
    intro t
    cases updateDestBufferAndStepCounts t buf c d <;> rfl
  have hend' : ∀ t, (updateDestBufferAndStepCounts .END buf c d >>= fun r => updateDestBufferAndStepCounts t r.1 r.2.1 r.2.2)
      = updateDestBufferAndStepCounts t buf c d := fun t => rfl
  cases t <;> cases t' <;> first | rfl | exact key | exact key.symm | rw [hend, hend']

/-- A step ends with `prev` at its own location. -/
theorem ncStep_prev {env : Env F} {f : Bool} {s s' : NCState F} {bd : Bound F} (h : ncStep env I f s bd = .ok s') :
    s'.prev = bd.location := by
  unfold ncStep at h
  dsimp only at h
  split at h
  · cases h1 : s.pmfgen.computeArray env (s.bStep - s.BStep + 1) (I *ᶠ (bd.location -ᶠ s.prev)) with
    | error e => rw [h1] at h; cases h
    | ok g =>
      rw [h1, M_ok_bind] at h
      cases h2 : addrOf s.buffers.src s.BStep with
      | error e => rw [h2] at h; cases h
      | ok oS =>
        rw [h2, M_ok_bind] at h
        cases h3 : addrOf s.buffers.dest s.BStep with
        | error e => rw [h3] at h; cases h
        | ok oD =>
          rw [h3, M_ok_bind] at h
          cases h4 : ncConvolve env f s.conv (s.bStep - s.BStep + 1) g.pmfArray s.buffers.src oS s.buffers.dest oD with
          | error e => rw [h4] at h; cases h
          | ok r =>
            obtain ⟨cv, dest⟩ := r
            rw [h4, M_ok_bind] at h
            dsimp only at h
            cases h5 : updateDestBufferAndStepCounts bd.tag dest s.bStep s.BStep with
            | error e => rw [h5] at h; cases h
            | ok r =>
              rw [h5] at h
              cases h
              rfl
  · split at h
    · cases h5 : updateDestBufferAndStepCounts bd.tag s.buffers.src s.bStep s.BStep with
      | error e => rw [h5] at h; cases h
      | ok r =>
        rw [h5] at h
        cases h
        rfl
    · cases h

/-- The step at `bd` once `lambda` is known. -/
def stepAt (env : Env F) (f : Bool) (lambda : F) (s : NCState F) (bd : Bound F) : M (NCState F) :=
  if lt zero lambda then do
    let pmfgen ← s.pmfgen.computeArray env (s.bStep - s.BStep + 1) lambda
    let oS ← addrOf s.buffers.src s.BStep
    let oD ← addrOf s.buffers.dest s.BStep
    let r ← ncConvolve env f s.conv (s.bStep - s.BStep + 1) pmfgen.pmfArray s.buffers.src oS s.buffers.dest oD
    let u ← updateDestBufferAndStepCounts bd.tag r.2 s.bStep s.BStep
    .ok { buffers := (s.buffers.setDest u.1).flip, conv := r.1, pmfgen := pmfgen,
          bStep := u.2.1, BStep := u.2.2, prev := bd.location }
  else if eq lambda zero then do
    let u ← updateDestBufferAndStepCounts bd.tag s.buffers.src s.bStep s.BStep
    .ok { s with buffers := s.buffers.setSrc u.1, bStep := u.2.1, BStep := u.2.2, prev := bd.location }
  else
    .error (.runtimeError negLambdaMsg)

theorem ncStep_eq (env : Env F) (f : Bool) (s : NCState F) (bd : Bound F) :
    ncStep env I f s bd = stepAt env f (I *ᶠ (bd.location -ᶠ s.prev)) s bd := rfl

theorem stepAt_tie (env : Env F) (f : Bool) {lambda : F} (h1 : lt zero lambda = false) (h2 : eq lambda zero = true)
    (s : NCState F) (bd : Bound F) :
    stepAt env f lambda s bd = (updateDestBufferAndStepCounts bd.tag s.buffers.src s.bStep s.BStep >>= fun u =>
      .ok { s with buffers := s.buffers.setSrc u.1, bStep := u.2.1, BStep := u.2.2, prev := bd.location }) := by
  unfold stepAt
  rw [h1, h2]
  rfl

/-- The previous location matters only up to ties. -/
theorem ncStep_congr_prev (L : TieLaws I P) (env : Env F) (f : Bool) (s : NCState F) (q : F) (bd : Bound F)
    (hs : P s.prev) (hq : P q) (hb : P bd.location) (ht : Tied s.prev q) :
    ncStep env I f { s with prev := q } bd = ncStep env I f s bd := by
  rw [ncStep_eq, ncStep_eq]
  dsimp only
  by_cases h : Tied bd.location s.prev
  · obtain ⟨h1, h2⟩ := L.same _ _ hb hs h
    obtain ⟨h3, h4⟩ := L.same _ _ hb hq (L.trans hb hs hq h ht)
    rw [stepAt_tie env f h1 h2, stepAt_tie env f h3 h4]
  · rw [← L.other s.prev q bd.location hs hq hb ht h]
    rfl

theorem setSrc_setSrc (b : DoubleBuffer F) (x y : List F) : (b.setSrc x).setSrc y = b.setSrc y := by
  cases h : b.buf0IsSrc <;> simp [DoubleBuffer.setSrc, h]
theorem setDest_flip_setSrc (b : DoubleBuffer F) (x y : List F) : ((b.setDest x).flip).setSrc y = (b.setDest y).flip := by
  cases h : b.buf0IsSrc <;> simp [DoubleBuffer.setSrc, DoubleBuffer.setDest, DoubleBuffer.flip, h]

/-- Two tied steps in a row, as one update by both tags. -/
theorem two_steps (L : TieLaws I P) (env : Env F) (f : Bool) (s : NCState F) (x y : Bound F)
    (hx : P x.location) (hy : P y.location) (ht : Tied y.location x.location) (lambda : F) :
    (stepAt env f lambda s x >>= fun s1 => ncStep env I f s1 y)
      = if lt zero lambda then do
          let pmfgen ← s.pmfgen.computeArray env (s.bStep - s.BStep + 1) lambda
          let oS ← addrOf s.buffers.src s.BStep
          let oD ← addrOf s.buffers.dest s.BStep
          let r ← ncConvolve env f s.conv (s.bStep - s.BStep + 1) pmfgen.pmfArray s.buffers.src oS s.buffers.dest oD
          let u ← (updateDestBufferAndStepCounts x.tag r.2 s.bStep s.BStep >>= fun u =>
            updateDestBufferAndStepCounts y.tag u.1 u.2.1 u.2.2)
          .ok (NCState.mk (s.buffers.setDest u.1).flip r.1 pmfgen u.2.1 u.2.2 y.location)
        else if eq lambda zero then do
          let u ← (updateDestBufferAndStepCounts x.tag s.buffers.src s.bStep s.BStep >>= fun u =>
            updateDestBufferAndStepCounts y.tag u.1 u.2.1 u.2.2)
          .ok (NCState.mk (s.buffers.setSrc u.1) s.conv s.pmfgen u.2.1 u.2.2 y.location)
        else .error (.runtimeError negLambdaMsg) := by
  obtain ⟨h1, h2⟩ := L.same _ _ hy hx ht
  unfold stepAt
  split
  · cases s.pmfgen.computeArray env (s.bStep - s.BStep + 1) lambda with
    | error e => rfl
    | ok g =>
      simp only [M_ok_bind]
      cases addrOf s.buffers.src s.BStep with
      | error e => rfl
      | ok oS =>
        simp only [M_ok_bind]
        cases addrOf s.buffers.dest s.BStep with
        | error e => rfl
        | ok oD =>
          simp only [M_ok_bind]
          cases ncConvolve env f s.conv (s.bStep - s.BStep + 1) g.pmfArray s.buffers.src oS s.buffers.dest oD with
          | error e => rfl
          | ok r =>
            simp only [M_ok_bind]
            cases updateDestBufferAndStepCounts x.tag r.2 s.bStep s.BStep with
            | error e => rfl
            | ok u =>
              simp only [M_ok_bind]
              rw [ncStep_eq, stepAt_tie env f h1 h2]
              dsimp only
              rw [DoubleBuffer.src_setDest_flip]
              cases updateDestBufferAndStepCounts y.tag u.1 u.2.1 u.2.2 with
              | error e => rfl
              | ok v =>
                simp only [M_ok_bind]
                rw [setDest_flip_setSrc]
  · split
    · cases updateDestBufferAndStepCounts x.tag s.buffers.src s.bStep s.BStep with
      | error e => rfl
      | ok u =>
        simp only [M_ok_bind]
        rw [ncStep_eq, stepAt_tie env f h1 h2]
        dsimp only
        rw [DoubleBuffer.src_setSrc]
        cases updateDestBufferAndStepCounts y.tag u.1 u.2.1 u.2.2 with
        | error e => rfl
        | ok v =>
          simp only [M_ok_bind]
          rw [setSrc_setSrc]
    · rfl

/-- Swapping two tied neighbours changes only `prev`. -/
theorem swap_prev (L : TieLaws I P) (env : Env F) (f : Bool) (s : NCState F) (x y : Bound F)
    (hs : P s.prev) (hx : P x.location) (hy : P y.location) (ht : Tied x.location y.location) :
    (ncStep env I f s x >>= fun s1 => ncStep env I f s1 y)
      = ((ncStep env I f s y >>= fun s1 => ncStep env I f s1 x) >>= fun s2 => .ok { s2 with prev := y.location }) := by
  have hmain : ∀ l l', (lt zero l = lt zero l') → (eq l zero = eq l' zero) → (lt zero l = true → l = l') →
      (stepAt env f l s x >>= fun s1 => ncStep env I f s1 y)
        = ((stepAt env f l' s y >>= fun s1 => ncStep env I f s1 x) >>= fun s2 => .ok { s2 with prev := y.location }) := by
    intro l l' h1 h2 h3
    rw [two_steps L env f s x y hx hy ht.symm, two_steps L env f s y x hy hx ht]
    by_cases hp : lt zero l = true
    · have := h3 hp
      subst this
      rw [if_pos hp, if_pos hp]
      cases s.pmfgen.computeArray env (s.bStep - s.BStep + 1) l with
      | error e => rfl
      | ok g =>
        simp only [M_ok_bind]
        cases addrOf s.buffers.src s.BStep with
        | error e => rfl
        | ok oS =>
          simp only [M_ok_bind]
          cases addrOf s.buffers.dest s.BStep with
          | error e => rfl
          | ok oD =>
            simp only [M_ok_bind]
            cases ncConvolve env f s.conv (s.bStep - s.BStep + 1) g.pmfArray s.buffers.src oS s.buffers.dest oD with
            | error e => rfl
            | ok r =>
              simp only [M_ok_bind]
              rw [update_comm]
              generalize (updateDestBufferAndStepCounts y.tag r.2 s.bStep s.BStep >>= fun u =>
                updateDestBufferAndStepCounts x.tag u.1 u.2.1 u.2.2) = m
              cases m <;> rfl
    · have hp' : ¬ lt zero l' = true := by rw [← h1]; exact hp
      rw [if_neg hp, if_neg hp', ← h2]
      by_cases hz : eq l zero = true
      · rw [if_pos hz, if_pos hz, update_comm]
        generalize (updateDestBufferAndStepCounts y.tag s.buffers.src s.bStep s.BStep >>= fun u =>
          updateDestBufferAndStepCounts x.tag u.1 u.2.1 u.2.2) = m
        cases m <;> rfl
      · rw [if_neg hz, if_neg hz]
        rfl
  rw [ncStep_eq, ncStep_eq]
  by_cases h : Tied x.location s.prev
  · obtain ⟨a1, a2⟩ := L.same _ _ hx hs h
    obtain ⟨b1, b2⟩ := L.same _ _ hy hs (L.trans hy hx hs ht.symm h)
    exact hmain _ _ (a1.trans b1.symm) (a2.trans b2.symm) (fun hh => by rw [a1] at hh; cases hh)
  · have := L.otherL x.location y.location s.prev hx hy hs ht h
    exact hmain _ _ (by rw [this]) (by rw [this]) (fun _ => this)

/-- Swapping two tied neighbours that are followed by another point changes nothing. -/
theorem swap_head (L : TieLaws I P) (env : Env F) (f : Bool) (x y z : Bound F) (rest : List (Bound F)) (s : NCState F)
    (hs : P s.prev) (hx : P x.location) (hy : P y.location) (hz : P z.location) (ht : Tied x.location y.location) :
    (x :: y :: z :: rest).foldlM (ncStep env I f) s = (y :: x :: z :: rest).foldlM (ncStep env I f) s := by
  have e : ∀ a b : Bound F, (a :: b :: z :: rest).foldlM (ncStep env I f) s
      = (ncStep env I f s a >>= fun s1 => ncStep env I f s1 b) >>= fun s2 => (z :: rest).foldlM (ncStep env I f) s2 := by
    intro a b
    rw [List.foldlM_cons]
    cases ncStep env I f s a with
    | error e => rfl
    | ok s1 =>
      rw [M_ok_bind, M_ok_bind, List.foldlM_cons]
  rw [e, e, swap_prev L env f s x y hs hx hy ht]
  cases h1 : ncStep env I f s y with
  | error e => rfl
  | ok s1 =>
    rw [M_ok_bind]
    cases h2 : ncStep env I f s1 x with
    | error e => rfl
    | ok s2 =>
      rw [M_ok_bind, M_ok_bind, M_ok_bind, List.foldlM_cons, List.foldlM_cons]
      have hp := ncStep_prev h2
      rw [ncStep_congr_prev L env f s2 y.location z (by rw [hp]; exact hx) hy hz (by rw [hp]; exact ht)]

/-- A point can be moved forward past tied points. -/
theorem move_front (L : TieLaws I P) (env : Env F) (f : Bool) (x : Bound F) (rest : List (Bound F)) (hx : P x.location)
    (hr : rest ≠ []) (hrP : ∀ z ∈ rest, P z.location) (pre : List (Bound F)) :
    (∀ p ∈ pre, P p.location ∧ Tied p.location x.location) → ∀ s : NCState F, P s.prev →
    (pre ++ x :: rest).foldlM (ncStep env I f) s = (x :: (pre ++ rest)).foldlM (ncStep env I f) s := by
  induction pre with
  | nil => intro _ s _; rfl
  | cons p pre ih =>
    intro h s hs
    obtain ⟨hp, hpt⟩ := h p (by simp)
    have e : (p :: pre ++ x :: rest).foldlM (ncStep env I f) s = (p :: x :: (pre ++ rest)).foldlM (ncStep env I f) s := by
      rw [List.cons_append, List.foldlM_cons, List.foldlM_cons]
      cases hq : ncStep env I f s p with
      | error e => rfl
      | ok s1 =>
        rw [M_ok_bind, M_ok_bind]
        exact ih (fun q hq => h q (by simp [hq])) s1 (by rw [ncStep_prev hq]; exact hp)
    rw [e]
    cases hpr : pre ++ rest with
    | nil =>
      rw [List.append_eq_nil_iff] at hpr
      exact absurd hpr.2 hr
    | cons z tl =>
      rw [List.cons_append, hpr]
      refine swap_head L env f p x z tl s hs hp hx ?_ hpt
      have : z ∈ pre ++ rest := by rw [hpr]; simp
      rcases List.mem_append.mp this with h1 | h1
      · exact (h z (by simp [h1])).1
      · exact hrP z h1

/-- Two sorted arrangements of the same points lead to the same outcome. -/
theorem fold_ties (L : TieLaws I P) (env : Env F) (f : Bool) (e : Bound F) (he : P e.location) (l1 : List (Bound F)) :
    ∀ (l2 : List (Bound F)), l1.Perm l2 → (∀ z ∈ l1, P z.location) →
    (l1.Pairwise fun a b => lt b.location a.location = false) →
    (l2.Pairwise fun a b => lt b.location a.location = false) → ∀ s : NCState F, P s.prev →
    (l1 ++ [e]).foldlM (ncStep env I f) s = (l2 ++ [e]).foldlM (ncStep env I f) s := by
  induction l1 with
  | nil =>
    intro l2 hp _ _ _ s _
    rw [List.nil_perm.mp hp]
  | cons x t ih =>
    intro l2 hp hP h1 h2 s hs
    have hxm : x ∈ l2 := hp.mem_iff.mp (by simp)
    obtain ⟨pre, post, rfl⟩ := List.append_of_mem hxm
    have hx : P x.location := hP x (by simp)
    have hpre : ∀ p ∈ pre, P p.location ∧ Tied p.location x.location := by
      intro p hpm
      have hm : p ∈ x :: t := hp.mem_iff.mpr (by simp [hpm])
      refine ⟨hP p hm, ?_, ?_⟩
      · rcases List.mem_cons.mp hm with rfl | hm'
        · exact L.irrefl _ hx
        · exact (List.pairwise_cons.mp h1).1 p hm'
      · rw [List.pairwise_append] at h2
        exact h2.2.2 p hpm x (by simp)
    have hperm : t.Perm (pre ++ post) := (hp.trans List.perm_middle).cons_inv
    rw [List.append_assoc, List.cons_append, List.cons_append,
      move_front L env f x (post ++ [e]) hx (by simp) ?_ pre hpre s hs,
      List.foldlM_cons, List.foldlM_cons]
    · cases hq : ncStep env I f s x with
      | error e => rfl
      | ok s1 =>
        rw [M_ok_bind, M_ok_bind, ← List.append_assoc]
        refine ih (pre ++ post) hperm (fun z hz => hP z (by simp [hz])) (List.pairwise_cons.mp h1).2 ?_ s1
          (by rw [ncStep_prev hq]; exact hx)
        rw [List.pairwise_append] at h2 ⊢
        refine ⟨h2.1, (List.pairwise_cons.mp h2.2.1).2, fun a ha b hb => h2.2.2 a ha b (by simp [hb])⟩
    · intro z hz
      rcases List.mem_append.mp hz with h | h
      · exact hP z (hp.mem_iff.mpr (by simp [h]))
      · rw [List.mem_singleton] at h; subst h; exact he

end CP
