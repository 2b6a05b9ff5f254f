import Verif.Model.Threads
import Verif.Proofs.SmallFft
/-
Calls in several threads: what a single call can do, whatever it reads from the shared variable.
-/
namespace CP
variable {F : Type} [FOps F]
open FOps Thr

namespace Thr

/-- Every possible end of the call (with any values read) satisfies `P`; the shared variable is used only if `sh`, the planner only
if `pl`, and each entrance into the planner is followed by leaving it (`ins`: the call is inside). -/
def Spec {α : Type} (sh pl : Bool) : Bool → Thr α → (M α → Prop) → Prop
  | ins, done r, P => ins = false ∧ P r
  | ins, store _ k, P => sh = true ∧ Spec sh pl ins k P
  | ins, load k, P => sh = true ∧ ∀ v, Spec sh pl ins (k v) P
  | ins, enter k, P => pl = true ∧ ins = false ∧ Spec sh pl true k P
  | ins, leave k, P => ins = true ∧ Spec sh pl false k P

/-- The call uses the shared variable not at all and ends with `m`. -/
def Ends {α : Type} (pl : Bool) (t : Thr α) (m : M α) : Prop := Spec false pl false t (· = m)

theorem Spec.mono {α : Type} {sh sh' pl pl' : Bool} {P Q : M α → Prop} (h1 : sh = true → sh' = true) (h2 : pl = true → pl' = true)
    (hPQ : ∀ r, P r → Q r) : ∀ {t : Thr α} {ins : Bool}, Spec sh pl ins t P → Spec sh' pl' ins t Q := by
  intro t
  induction t with
  | done r => intro ins h; exact ⟨h.1, hPQ _ h.2⟩
  | store v k ih => intro ins h; exact ⟨h1 h.1, ih h.2⟩
  | load k ih => intro ins h; exact ⟨h1 h.1, fun v => ih v (h.2 v)⟩
  | enter k ih => intro ins h; exact ⟨h2 h.1, h.2.1, ih h.2.2⟩
  | leave k ih => intro ins h; exact ⟨h.1, ih h.2⟩

theorem Spec.bind {α β : Type} {sh pl : Bool} {P : M α → Prop} {Q : M β → Prop} {f : α → Thr β}
    (hf : ∀ a, P (.ok a) → Spec sh pl false (f a) Q) (he : ∀ e, P (.error e) → Q (.error e)) :
    ∀ {t : Thr α} {ins : Bool}, Spec sh pl ins t P → Spec sh pl ins (t >>= f) Q := by
  intro t
  induction t with
  | done r =>
    intro ins h
    cases r with
    | ok a => cases h.1; exact hf a h.2
    | error e => exact ⟨h.1, he e h.2⟩
  | store v k ih => intro ins h; exact ⟨h.1, ih h.2⟩
  | load k ih => intro ins h; exact ⟨h.1, fun v => ih v (h.2 v)⟩
  | enter k ih => intro ins h; exact ⟨h.1, h.2.1, ih h.2.2⟩
  | leave k ih => intro ins h; exact ⟨h.1, ih h.2⟩

theorem Ends.bind {α β : Type} {pl : Bool} {t : Thr α} {m : M α} {f : α → Thr β} {g : α → M β} (ht : Ends pl t m)
    (hf : ∀ a, m = .ok a → Ends pl (f a) (g a)) : Ends pl (t >>= f) (m >>= g) := by
  refine Spec.bind ?_ ?_ ht
  · intro a ha
    have ha : Except.ok a = m := ha
    have := hf a ha.symm
    rw [← ha]
    exact this
  · intro e he
    have he : Except.error e = m := he
    rw [← he]
    rfl

theorem Ends.lift {α : Type} {pl : Bool} (m : M α) : Ends pl (Thr.lift m) m := ⟨rfl, rfl⟩

theorem Ends.pure {α : Type} {pl : Bool} (a : α) : Ends pl (pure a : Thr α) (.ok a) := ⟨rfl, rfl⟩

/-- `let x ← lift m`. -/
theorem Ends.step {α β : Type} {pl : Bool} {m : M α} {f : α → Thr β} {g : α → M β}
    (hf : ∀ a, m = .ok a → Ends pl (f a) (g a)) : Ends pl (Thr.lift m >>= f) (m >>= g) := Ends.bind (Ends.lift m) hf

theorem Ends.mono {α : Type} {pl pl' : Bool} (h : pl = true → pl' = true) {t : Thr α} {m : M α} (ht : Ends pl t m) : Ends pl' t m :=
  Spec.mono id h (fun _ => id) ht

theorem Spec.destroy {α : Type} {sh : Bool} {t : Thr α} {P : M α → Prop} (h : Spec sh true false t P) :
    ∀ n, Spec sh true false (destroy t n) P
  | 0 => h
  | n + 1 => ⟨rfl, rfl, rfl, Spec.destroy h n⟩

theorem Spec.withConvolver {α : Type} {sh pl : Bool} {P : M α → Prop} : ∀ {t : Thr α} {ins : Bool} {n : Nat},
    (pl = false → n = 0) → Spec sh pl ins t P → Spec sh pl ins (Thr.withConvolver n t) P := by
  intro t
  induction t with
  | done r =>
    intro ins n hn h
    unfold Thr.withConvolver
    split
    · cases pl with
      | false => rw [hn rfl]; exact h
      | true => cases h.1; exact Spec.destroy h n
    · exact h
  | store v k ih => intro ins n hn h; exact ⟨h.1, ih hn h.2⟩
  | load k ih => intro ins n hn h; exact ⟨h.1, fun v => ih v hn (h.2 v)⟩
  | enter k ih => intro ins n hn h; exact ⟨h.1, h.2.1, ih (fun hp => by rw [h.1] at hp; cases hp) h.2.2⟩
  | leave k ih => intro ins n hn h; exact ⟨h.1, ih hn h.2⟩

theorem Ends.withConvolver {α : Type} {pl : Bool} {t : Thr α} {m : M α} (h : Ends pl t m) : Ends pl (Thr.withConvolver 0 t) m :=
  Spec.withConvolver (fun _ => rfl) h

theorem Ends.forAux {σ : Type} {pl : Bool} {f : Int → σ → Thr σ} {g : Int → σ → M σ} (k : Nat) : ∀ (i : Int) (s : σ),
    (∀ j s, i ≤ j → j < i + k → Ends pl (f j s) (g j s)) → Ends pl (Thr.forAux f k i s) (CP.forAux g k i s) := by
  induction k with
  | zero => intro i s _; exact Ends.pure s
  | succ k ih =>
    intro i s h
    refine Ends.bind (h i s le_rfl (by push_cast; omega)) fun s' _ => ih _ _ fun j s h1 h2 => h j s (by omega) (by push_cast; omega)

theorem Ends.forRange {σ : Type} {pl : Bool} {f : Int → σ → Thr σ} {g : Int → σ → M σ} (lo hi : Int) (s : σ)
    (h : ∀ j s, lo ≤ j → j < hi → Ends pl (f j s) (g j s)) : Ends pl (Thr.forRange lo hi s f) (CP.forRange lo hi s g) :=
  Ends.forAux _ _ _ fun j s h1 h2 => h j s h1 (by omega)

end Thr

/-! ## The functions that convolve -/

omit [FOps F] in
theorem memoizedPlanT_ends (env : Env F) (plans : List (Option Int)) (sz : Int) :
    Ends true (Convolver.memoizedPlanT env plans sz) (Convolver.memoizedPlan env plans sz) := by
  unfold Convolver.memoizedPlanT Convolver.memoizedPlan
  dsimp only
  refine Ends.step fun _ _ => Ends.step fun _ _ => Ends.step fun _ _ => Ends.step fun p _ => ?_
  cases p with
  | none => exact ⟨rfl, rfl, rfl, Ends.step fun _ _ => Ends.pure _⟩
  | some s => exact Ends.pure _

theorem convolveT_ends (env : Env F) (cv : Convolver F) (pl : Bool) (size : Int) (hpl : 128 ≤ size → pl = true)
    (a : List F) (oa : Int) (b : List F) (ob : Int) (out : List F) (oo : Int) :
    Ends pl (cv.convolveT env size a oa b ob out oo) (cv.convolve env size a oa b ob out oo) := by
  unfold Convolver.convolveT Convolver.convolve MINIMUM_SIZE_FOR_FFTW_CONVOLUTION
  split
  · exact Ends.lift _
  split
  · exact Ends.pure _
  split
  · exact Ends.step fun _ _ => Ends.pure _
  · have := hpl (by omega)
    subst this
    dsimp only
    refine Ends.step fun _ _ => Ends.bind (memoizedPlanT_ends _ _ _) fun r1 _ => ?_
    obtain ⟨p1, ps1⟩ := r1
    refine Ends.step fun r2 _ => ?_
    obtain ⟨x1, x2⟩ := r2
    refine Ends.step fun _ _ => Ends.bind (memoizedPlanT_ends _ _ _) fun r3 _ => ?_
    obtain ⟨p1, ps1⟩ := r3
    refine Ends.step fun r4 _ => ?_
    obtain ⟨x1, x2⟩ := r4
    refine Ends.step fun _ _ => Ends.bind (memoizedPlanT_ends _ _ _) fun r5 _ => ?_
    obtain ⟨p1, ps1⟩ := r5
    refine Ends.step fun r6 _ => ?_
    obtain ⟨x1, x2⟩ := r6
    exact Ends.step fun _ _ => Ends.step fun _ _ => Ends.pure _

theorem ncConvolveT_ends (env : Env F) (pl useFft : Bool) (cv : Convolver F) (size : Int)
    (hpl : useFft = true → 128 ≤ size → pl = true) (pmf : List F)
    (src : List F) (oS : Int) (dest : List F) (oD : Int) :
    Ends pl (ncConvolveT env useFft cv size pmf src oS dest oD) (ncConvolve env useFft cv size pmf src oS dest oD) := by
  unfold ncConvolveT ncConvolve
  split
  · exact convolveT_ends _ _ _ _ (hpl ‹_›) _ _ _ _ _ _
  · exact Ends.step fun _ _ => Ends.pure _

theorem ncStepT_ends (env : Env F) (I : F) (pl useFft : Bool) (s : NCState F) (bd : Bound F)
    (hpl : useFft = true → 128 ≤ s.bStep - s.BStep + 1 → pl = true) :
    Ends pl (ncStepT env I useFft s bd) (ncStep env I useFft s bd) := by
  unfold ncStepT ncStep
  dsimp only
  split
  · refine Ends.step fun _ _ => Ends.step fun _ _ => Ends.step fun _ _ => Ends.bind (ncConvolveT_ends _ _ _ _ _ hpl _ _ _ _ _) fun r _ => ?_
    obtain ⟨cv, d⟩ := r
    refine Ends.step fun r _ => ?_
    obtain ⟨d, b, B⟩ := r
    exact Ends.pure _
  · split
    · refine Ends.step fun r _ => ?_
      obtain ⟨d, b, B⟩ := r
      exact Ends.pure _
    · exact Ends.lift _

/-- The widths that occur in the loop, when all are less than 128. -/
def Narrow (l : List (Bound F)) (s : NCState F) : Prop :=
  127 ≤ s.conv.maximumInputSize ∧
  ∀ p bd q, l = p ++ bd :: q → s.bStep + (tagCount .bSTEP p : Int) - (s.BStep + (tagCount .BSTEP p : Int)) + 1 < 128

theorem ncFoldT_ends (env : Env F) (I : F) (pl useFft : Bool) (l : List (Bound F)) : ∀ (s : NCState F),
    (useFft = true → pl = true ∨ Narrow l s) →
    Ends pl (l.foldlM (ncStepT env I useFft) s) (l.foldlM (ncStep env I useFft) s) := by
  induction l with
  | nil => intro s _; exact Ends.pure s
  | cons bd l ih =>
    intro s h
    rw [List.foldlM_cons, List.foldlM_cons]
    refine Ends.bind (ncStepT_ends env I pl useFft s bd ?_) fun s' hs' => ih s' fun hu => ?_
    · intro hu hsz
      rcases h hu with h | ⟨_, h⟩
      · exact h
      · have h0 := h [] bd l rfl
        simp only [tagCount_nil, Nat.cast_zero, add_zero] at h0
        omega
    · rcases h hu with h | ⟨hm, h⟩
      · exact .inl h
      · right
        have h0 := h [] bd l rfl
        simp only [tagCount_nil, Nat.cast_zero, add_zero] at h0
        rw [hu, ncStep_small env I s bd (by omega) (by omega)] at hs'
        obtain ⟨e1, e2, e3⟩ := ncStep_maxSize hs'
        refine ⟨by rw [e1]; exact hm, fun p bd' q hl => ?_⟩
        have := h (bd :: p) bd' q (by rw [hl]; rfl)
        rw [tagCount_cons, tagCount_cons] at this
        rw [e2, e3]
        push_cast at this
        split_ifs at this ⊢ <;> omega

theorem ecdf2T_ends (env : Env F) (sort : List (Bound F) → List (Bound F)) (pl : Bool) (b B : List F) (useFft : Bool)
    (h : useFft = true → pl = true ∨ ∀ p, p <+: sort (unsortedBounds b B) → tagCount .bSTEP p ≤ tagCount .BSTEP p + 126) :
    Ends pl (ecdf2T env sort b B useFft) (ecdf2 env sort b B useFft) := by
  unfold ecdf2T ecdf2
  dsimp only
  refine Ends.step fun _ _ => Ends.step fun _ _ => Ends.bind ?_ fun _ _ => Ends.step fun _ _ => Ends.step fun _ _ => Ends.pure _
  unfold poissonProcessNoncrossingProbabilityT poissonProcessNoncrossingProbability
  dsimp only
  refine Ends.step fun _ _ => Ends.withConvolver (Ends.step fun _ _ => Ends.bind (ncFoldT_ends _ _ _ _ _ _ fun hu => ?_) fun _ _ => Ends.pure _)
  rcases h hu with h | h
  · exact .inl h
  · right
    constructor
    · dsimp only [Convolver.new]
      unfold ROUNDING
      omega
    · intro p bd q hl
      have hp : p <+: sort (unsortedBounds b B) := by
        unfold joinAllBounds at hl
        rcases List.append_eq_append_iff.mp hl with ⟨as, h1, h2⟩ | ⟨bs, h1, h2⟩
        · have : as = [] := by
            rcases as with _ | ⟨a, as⟩
            · rfl
            · have := congrArg List.length h2
              simp at this
          subst this
          simp only [List.append_nil] at h1
          rw [← h1]
        · exact ⟨bs, h1.symm⟩
      have := h p hp
      dsimp only
      omega

/-! ## ecdf1_new -/

theorem miniStepT_ends (env : Env F) (pl : Bool) (n : Int) (x : F) (B : List F) (Iprev I i : Int) (s : MiniState F)
    (hpl : 128 ≤ I - i + 1 → pl = true) :
    Ends pl (miniStepT env n x B Iprev I i s) (miniStep env n x B Iprev I i s) := by
  unfold miniStepT miniStep
  dsimp only
  refine Ends.step fun _ _ => Ends.step fun _ _ => Ends.step fun _ _ => Ends.step fun _ _ =>
    Ends.bind (convolveT_ends _ _ _ _ hpl _ _ _ _ _ _) fun r _ => ?_
  obtain ⟨cv, md⟩ := r
  exact Ends.step fun _ _ => Ends.step fun _ _ => Ends.step fun _ _ => Ends.step fun _ _ => Ends.step fun _ _ => Ends.pure _

theorem blockStepT_ends (env : Env F) (pl : Bool) (n : Int) (x : F) (B : List F) (I : Int) (s : BlockState F)
    (h1 : 128 ≤ n - s.Iprev → pl = true) (h2 : 128 ≤ I - s.Iprev → pl = true) :
    Ends pl (blockStepT env n x B I s) (blockStep env n x B I s) := by
  unfold blockStepT blockStep
  dsimp only
  refine Ends.step fun _ _ => Ends.step fun _ _ => Ends.step fun _ _ =>
    Ends.bind (convolveT_ends _ _ _ _ h1 _ _ _ _ _ _) fun r _ => ?_
  obtain ⟨cv, md⟩ := r
  refine Ends.step fun _ _ => Ends.step fun _ _ => Ends.step fun _ _ => Ends.step fun _ _ => Ends.step fun _ _ => Ends.step fun _ _ =>
    Ends.step fun _ _ => Ends.step fun _ _ => Ends.step fun _ _ => Ends.bind (Ends.forRange _ _ _ fun j s' hj _ => ?_) fun _ _ => Ends.pure _
  exact miniStepT_ends _ _ _ _ _ _ _ _ _ fun h => h2 (by omega)

theorem blockLoopT_ends (env : Env F) (pl : Bool) (n : Int) (x : F) (B : List F) (k nSteps : Int) (hk : 0 ≤ k)
    (hn : pl = true ∨ n < 127) (h0 : 0 ≤ nSteps) (hs : nSteps ≤ n) (fuel : Nat) : ∀ (I : Int) (s : BlockState F),
    -1 ≤ s.Iprev → -1 ≤ I → I ≤ n →
    Ends pl (blockLoopT env n x B k nSteps fuel I s) (blockLoop env n x B k nSteps fuel I s) := by
  induction fuel with
  | zero => intro I s _ _ _; exact Ends.lift _
  | succ fuel ih =>
    intro I s h1 h2 h3
    unfold blockLoopT blockLoop
    refine Ends.bind (blockStepT_ends env pl n x B I s (fun h => hn.resolve_right (by omega)) fun h => hn.resolve_right (by omega)) fun s' hs' => ?_
    have := blockStep_Iprev hs'
    split
    · exact Ends.pure _
    · exact ih _ s' (by omega) (by omega) (by omega)

theorem ecdf1NewBT_ends (env : Env F) (isqrt : Nat → Nat) (pl : Bool) (B : List F) (h : pl = true ∨ B.length ≤ 126) :
    Ends pl (ecdf1NewBT env isqrt B) (ecdf1NewB env isqrt B) := by
  unfold ecdf1NewBT ecdf1NewB
  dsimp only
  refine Ends.step fun _ _ => Ends.bind ?_ fun _ _ => Ends.step fun _ _ => Ends.step fun _ _ => Ends.pure _
  unfold poissonBNoncrossingProbabilityN2T poissonBNoncrossingProbabilityN2
  dsimp only
  have h' : pl = true ∨ (B.length : Int) < 127 := h.imp id fun h => by omega
  refine Ends.step fun _ _ => Ends.step fun _ _ => Ends.withConvolver (Ends.step fun _ _ =>
    Ends.bind (blockLoopT_ends env pl _ _ B _ _ (by omega) h' (by omega) le_rfl _ _ _ (by dsimp only; omega) (by omega) (by omega)) fun s _ => ?_)
  refine Ends.step fun _ _ => Ends.step fun _ _ => Ends.step fun _ _ =>
    Ends.bind (convolveT_ends _ _ _ _ (fun h => h'.resolve_right (by omega)) _ _ _ _ _ _) fun r _ => ?_
  obtain ⟨cv, d⟩ := r
  exact Ends.lift _

theorem ecdf1NewbT_ends (env : Env F) (isqrt : Nat → Nat) (pl : Bool) (b : List F) (h : pl = true ∨ b.length ≤ 126) :
    Ends pl (ecdf1NewbT env isqrt b) (ecdf1Newb env isqrt b) := by
  unfold ecdf1NewbT ecdf1Newb
  dsimp only
  refine Ends.step fun _ _ => Ends.step fun r hr => ?_
  obtain ⟨r', h1, h2, -⟩ := (symmetricSteps_sat (E := NoFault) b).exists_ok
  rw [hr] at h1
  cases h1
  exact ecdf1NewBT_ends env isqrt pl r (by rw [h2]; exact h)

/-! ## ecdf1_mns2016: whatever is read -/

theorem Thr.Spec.lift {α : Type} {sh pl : Bool} {m : M α} {P : M α → Prop} (h : P m) : Spec sh pl false (Thr.lift m) P := ⟨rfl, h⟩

/-- A lifted statement, then anything. -/
theorem Thr.Spec.step {α β : Type} {sh pl : Bool} {m : M α} {f : α → Thr β} {Q : M β → Prop}
    (hf : ∀ a, m = .ok a → Spec sh pl false (f a) Q) (he : ∀ e, m = .error e → Q (.error e)) :
    Spec sh pl false (Thr.lift m >>= f) Q :=
  Spec.bind (P := (· = m)) (fun a h => hf a h.symm) (fun e h => he e h.symm) (Spec.lift rfl)

/-- One iteration gives what it gives with some value `v` in place of the exponent. -/
theorem mnsStepT_spec (env : Env F) (pl : Bool) (b : List F) (i : Int) (s : Poly F × Int) :
    Spec true pl false (mnsStepT env b i s) (fun r => ∃ v : Int, r = mnsStep env (fun _ _ => v) b i s) := by
  unfold mnsStepT mnsStep
  refine Spec.step (fun p hp => ?_) fun e he => ⟨0, by rw [he]; rfl⟩
  simp only [hp, M_ok_bind]
  refine Spec.step (fun bi hbi => ?_) fun e he => ⟨0, by rw [he]; rfl⟩
  simp only [hbi, M_ok_bind]
  refine Spec.step (fun p hp => ?_) fun e he => ⟨0, by rw [he]; rfl⟩
  simp only [hp, M_ok_bind]
  refine Spec.step (fun v hv => ?_) fun e he => ⟨0, by rw [he]; rfl⟩
  simp only [hv, M_ok_bind]
  refine Spec.step (fun p hp => ?_) fun e he => ⟨0, by rw [he]; rfl⟩
  simp only [hp, M_ok_bind]
  split
  · refine Spec.step (fun v hv => ?_) fun e he => ⟨0, by rw [he]; rfl⟩
    simp only [hv, M_ok_bind]
    unfold extractExponent
    refine ⟨rfl, rfl, fun v => ?_⟩
    show Spec true pl false (if v < 0 then _ else _) _
    split
    · rename_i hneg
      refine Spec.step (fun p hp => ⟨rfl, v, ?_⟩) fun e he => ⟨v, ?_⟩
      · rw [if_pos hneg, hp]; rfl
      · rw [if_pos hneg, he]; rfl
    · rename_i hneg
      exact ⟨rfl, v, by rw [if_neg hneg]⟩
  · exact ⟨rfl, 0, rfl⟩

theorem mnsStep_read_congr (env : Env F) (b : List F) {r1 r2 : Int → F → Int} (i : Int) (h : ∀ x, r1 i x = r2 i x)
    (s : Poly F × Int) : mnsStep env r1 b i s = mnsStep env r2 b i s := by
  unfold mnsStep
  simp only [h]

theorem mnsLoopT_spec (env : Env F) (pl : Bool) (b : List F) (k : Nat) : ∀ (i : Int) (s : Poly F × Int),
    Spec true pl false (Thr.forAux (mnsStepT env b) k i s)
      (fun r => ∃ read : Int → F → Int, r = CP.forAux (mnsStep env read b) k i s) := by
  induction k with
  | zero => intro i s; exact ⟨rfl, fun _ _ => 0, rfl⟩
  | succ k ih =>
    intro i s
    refine Spec.bind (P := fun r => ∃ v : Int, r = mnsStep env (fun _ _ => v) b i s) ?_ ?_ (mnsStepT_spec env pl b i s)
    · rintro s' ⟨v, hv⟩
      refine Spec.mono id id ?_ (ih (i + 1) s')
      rintro r ⟨read, rfl⟩
      refine ⟨fun j x => if j = i then v else read j x, ?_⟩
      rw [show ∀ g : Int → Poly F × Int → M (Poly F × Int), CP.forAux g (k + 1) i s = (g i s >>= fun s' => CP.forAux g k (i + 1) s')
        from fun _ => rfl]
      rw [mnsStep_read_congr env b (r2 := fun _ _ => v) i (fun x => if_pos rfl), ← hv]
      show CP.forAux _ _ _ _ = CP.forAux _ k (i + 1) s'
      refine (forAux_congr _ _ _ fun j s h1 _ => mnsStep_read_congr env b j (fun x => if_neg (by omega)) s).symm
    · rintro e ⟨v, hv⟩
      refine ⟨fun _ _ => v, ?_⟩
      unfold CP.forAux
      rw [← hv]
      rfl

theorem ecdf1Mns2016bT_spec (env : Env F) (pl : Bool) (b : List F) :
    Spec true pl false (ecdf1Mns2016bT env b) (fun r => ∃ read : Int → F → Int, r = ecdf1Mns2016bWith env read b) := by
  unfold ecdf1Mns2016bT ecdf1Mns2016bWith
  dsimp only
  refine Spec.step (fun _ h => ?_) fun e he => ⟨fun _ _ => 0, by rw [he]; rfl⟩
  simp only [h, M_ok_bind]
  refine Spec.step (fun p hp => ?_) fun e he => ⟨fun _ _ => 0, by rw [he]; rfl⟩
  simp only [hp, M_ok_bind]
  refine Spec.step (fun p hp => ?_) fun e he => ⟨fun _ _ => 0, by rw [he]; rfl⟩
  simp only [hp, M_ok_bind]
  refine Spec.bind (P := fun r => ∃ read : Int → F → Int, r = CP.forRange 0 (b.length : Int) (p, (0 : Int)) (mnsStep env read b)) ?_ ?_
    (mnsLoopT_spec env pl b _ _ _)
  · rintro ⟨p', d⟩ ⟨read, hr⟩
    refine Spec.step (fun v hv => ⟨rfl, read, ?_⟩) fun e he => ⟨read, ?_⟩
    · rw [← hr]; simp only [M_ok_bind, hv]
    · rw [← hr]; simp only [M_ok_bind, he, M_error_bind]
  · rintro e ⟨read, hr⟩
    exact ⟨read, by rw [← hr]; rfl⟩

/-- `ecdf1_mns2016_B` with the exponent reads given by `readExponent`. -/
def ecdf1Mns2016BWith (env : Env F) (readExponent : Int → F → Int) (B : List F) : M F := do
  let n : Int := B.length
  checkBoundaryVector "B" n B
  let steps ← symmetricSteps B
  ecdf1Mns2016bWith env readExponent steps

theorem ecdf1Mns2016BT_spec (env : Env F) (pl : Bool) (B : List F) :
    Spec true pl false (ecdf1Mns2016BT env B) (fun r => ∃ read : Int → F → Int, r = ecdf1Mns2016BWith env read B) := by
  unfold ecdf1Mns2016BT ecdf1Mns2016BWith
  dsimp only
  refine Spec.step (fun _ h => ?_) fun e he => ⟨fun _ _ => 0, by rw [he]; rfl⟩
  simp only [h, M_ok_bind]
  refine Spec.step (fun p hp => ?_) fun e he => ⟨fun _ _ => 0, by rw [he]; rfl⟩
  simp only [hp, M_ok_bind]
  exact ecdf1Mns2016bT_spec env pl p

/-! ## A call alone with the shared variable -/

namespace Thr

/-- If nobody else assigns to the shared variable, which is now `e`, the call ends with `m`. -/
def Own {α : Type} : Thr α → Int → M α → Prop
  | done r, _, m => r = m
  | store v k, _, m => Own k v m
  | load k, e, m => Own (k e) e m
  | enter k, e, m => Own k e m
  | leave k, e, m => Own k e m

theorem Own.bind {α β : Type} {m : M α} {f : α → Thr β} {g : α → M β} (hf : ∀ a e, m = .ok a → Own (f a) e (g a)) :
    ∀ {t : Thr α} {e : Int}, Own t e m → Own (t >>= f) e (m >>= g) := by
  intro t
  induction t with
  | done r =>
    intro e h
    have h : r = m := h
    cases r with
    | ok a => have := hf a e h.symm; rw [← h]; exact this
    | error x => rw [← h]; rfl
  | store v k ih => intro e h; exact ih (e := v) h
  | load k ih => intro e h; exact ih e (e := e) h
  | enter k ih => intro e h; exact ih (e := e) h
  | leave k ih => intro e h; exact ih (e := e) h

theorem Own.step {α β : Type} {m : M α} {f : α → Thr β} {g : α → M β} {e : Int} (hf : ∀ a e, m = .ok a → Own (f a) e (g a)) :
    Own (Thr.lift m >>= f) e (m >>= g) := Own.bind hf (show m = m from rfl)

theorem Own.forAux {σ : Type} {f : Int → σ → Thr σ} {g : Int → σ → M σ} (h : ∀ j s e, Own (f j s) e (g j s)) (k : Nat) :
    ∀ (i : Int) (s : σ) (e : Int), Own (Thr.forAux f k i s) e (CP.forAux g k i s) := by
  induction k with
  | zero => intro i s e; exact rfl
  | succ k ih => intro i s e; exact Own.bind (fun s' e' _ => ih _ s' e') (h i s e)

end Thr

theorem mnsStepT_own (env : Env F) (b : List F) (i : Int) (s : Poly F × Int) (e : Int) :
    Own (mnsStepT env b i s) e (mnsStep env (fun _ x => frexpExp x) b i s) := by
  unfold mnsStepT mnsStep
  refine Own.step fun _ _ _ => Own.step fun _ _ _ => Own.step fun _ _ _ => Own.step fun _ _ _ => Own.step fun _ _ _ => ?_
  split
  · refine Own.step fun v _ _ => ?_
    show Own (if frexpExp v < 0 then _ else _) _ (if frexpExp v < 0 then _ else _)
    split
    · exact Own.step fun _ _ _ => rfl
    · exact rfl
  · exact rfl

theorem ecdf1Mns2016bT_own (env : Env F) (b : List F) (e : Int) : Own (ecdf1Mns2016bT env b) e (ecdf1Mns2016b env b) := by
  unfold ecdf1Mns2016bT ecdf1Mns2016b ecdf1Mns2016bWith
  dsimp only
  refine Own.step fun _ _ _ => Own.step fun _ _ _ => Own.step fun _ _ _ => Own.bind (fun r _ _ => ?_) (Own.forAux (mnsStepT_own env b) _ _ _ _)
  obtain ⟨p, d⟩ := r
  exact Own.step fun _ _ _ => rfl

theorem ecdf1Mns2016BT_own (env : Env F) (B : List F) (e : Int) : Own (ecdf1Mns2016BT env B) e (ecdf1Mns2016B env B) := by
  unfold ecdf1Mns2016BT ecdf1Mns2016B
  dsimp only
  exact Own.step fun _ _ _ => Own.step fun _ _ _ => ecdf1Mns2016bT_own env _ _
end CP
