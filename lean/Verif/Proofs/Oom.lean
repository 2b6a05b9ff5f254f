import Verif.Model.Oom
import Mathlib.Tactic
/-
Two runs of the same code, the second one with some blocks missing: step by step, the second run has either crashed or does the
same as the first.
-/
namespace CP.OomP
open CP FOps
variable {F : Type} [FOps F]

/-- The outcomes of a run that noticed, in its own way, that memory is missing. -/
def Crash {α : Type} (m : M α) : Prop := (∃ w, m = .error (.ub w)) ∨ m = .error badAlloc

/-- `m'` crashes or does what `m` does, up to `R` on results. -/
def CrashOr {α β : Type} (R : α → β → Prop) (m : M α) (m' : M β) : Prop :=
  Crash m' ∨ (∃ a b, m = .ok a ∧ m' = .ok b ∧ R a b) ∨ (∃ e, m = .error e ∧ m' = .error e)

/-- The same array, or (if `t`) no array at all. -/
def Nul {α : Type} (t : Bool) (a a' : List α) : Prop := a' = a ∨ (t = true ∧ a' = [])

theorem crashOr_ok {α β : Type} {R : α → β → Prop} {a : α} {b : β} (h : R a b) : CrashOr R (.ok a) (.ok b) :=
  Or.inr (Or.inl ⟨a, b, rfl, rfl, h⟩)

theorem crashOr_err {α β : Type} {R : α → β → Prop} (e : Fault) : CrashOr R (.error e) (.error e : M β) :=
  Or.inr (Or.inr ⟨e, rfl, rfl⟩)

theorem crashOr_ub {α β : Type} {R : α → β → Prop} {m : M α} (w : String) : CrashOr R m (.error (.ub w) : M β) :=
  Or.inl (Or.inl ⟨w, rfl⟩)

theorem crashOr_refl {α : Type} (m : M α) : CrashOr (fun a b => b = a) m m := by
  cases m with
  | ok a => exact crashOr_ok rfl
  | error e => exact crashOr_err e

theorem crashOr_refl' {α : Type} {m m' : M α} (h : m' = m) : CrashOr (fun a b => b = a) m m' := h ▸ crashOr_refl m

theorem crashOr_bind {α β γ δ : Type} {R : α → β → Prop} {S : γ → δ → Prop} {m : M α} {m' : M β} {f : α → M γ} {g : β → M δ}
    (h : CrashOr R m m') (hf : ∀ a b, R a b → CrashOr S (f a) (g b)) : CrashOr S (m >>= f) (m' >>= g) := by
  rcases h with (⟨w, rfl⟩ | rfl) | ⟨a, b, rfl, rfl, hr⟩ | ⟨e, rfl, rfl⟩
  · exact crashOr_ub w
  · exact Or.inl (Or.inr rfl)
  · exact hf a b hr
  · exact crashOr_err e

theorem crashOr_bind_right {α β δ : Type} {R : α → β → Prop} {S : α → δ → Prop} {m : M α} {m' : M β} {g : β → M δ}
    (h : CrashOr R m m') (hf : ∀ a b, R a b → CrashOr S (.ok a) (g b)) : CrashOr S m (m' >>= g) := by
  rcases h with (⟨w, rfl⟩ | rfl) | ⟨a, b, rfl, rfl, hr⟩ | ⟨e, rfl, rfl⟩
  · exact crashOr_ub w
  · exact Or.inl (Or.inr rfl)
  · exact hf a b hr
  · exact crashOr_err e

theorem crashOr_mono {α β : Type} {R S : α → β → Prop} {m : M α} {m' : M β} (h : CrashOr R m m')
    (hRS : ∀ a b, R a b → S a b) : CrashOr S m m' := by
  rcases h with h | ⟨a, b, h1, h2, hr⟩ | h
  · exact Or.inl h
  · exact Or.inr (Or.inl ⟨a, b, h1, h2, hRS a b hr⟩)
  · exact Or.inr (Or.inr h)

theorem crashOr_forAux {σ τ : Type} {R : σ → τ → Prop} {f : Int → σ → M σ} {g : Int → τ → M τ}
    (h : ∀ i s t, R s t → CrashOr R (f i s) (g i t)) :
    ∀ (k : Nat) (i : Int) (s : σ) (t : τ), R s t → CrashOr R (forAux f k i s) (forAux g k i t)
  | 0, _, _, _, hr => crashOr_ok hr
  | k + 1, i, s, t, hr => crashOr_bind (h i s t hr) fun a b hab => crashOr_forAux h k (i + 1) a b hab

theorem crashOr_forRange {σ τ : Type} {R : σ → τ → Prop} {f : Int → σ → M σ} {g : Int → τ → M τ} {lo hi : Int} {s : σ} {t : τ}
    (hr : R s t) (h : ∀ i s t, R s t → CrashOr R (f i s) (g i t)) :
    CrashOr R (forRange lo hi s f) (forRange lo hi t g) := crashOr_forAux h _ _ _ _ hr

theorem crashOr_foldlM {α σ τ : Type} {R : σ → τ → Prop} {f : σ → α → M σ} {g : τ → α → M τ}
    (h : ∀ x s t, R s t → CrashOr R (f s x) (g t x)) :
    ∀ (l : List α) (s : σ) (t : τ), R s t → CrashOr R (l.foldlM f s) (l.foldlM g t)
  | [], s, t, hr => crashOr_ok hr
  | x :: l, s, t, hr => by
    rw [List.foldlM_cons, List.foldlM_cons]
    exact crashOr_bind (h x s t hr) fun a b hab => crashOr_foldlM h l a b hab

/-! ### Array accesses -/

theorem rd_nil {α : Type} (i : Int) : ∃ w, rd ([] : List α) i = .error (.ub w) := by
  unfold rd
  split
  · simp
  · simp

theorem wr_nil {α : Type} (i : Int) (x : α) : wr ([] : List α) i x = .error (.ub "write out of bounds") := by
  simp [wr]

theorem nul_rd {α : Type} {t : Bool} {a a' : List α} (h : Nul t a a') (i : Int) :
    CrashOr (fun x y => y = x) (rd a i) (rd a' i) := by
  rcases h with rfl | ⟨_, rfl⟩
  · exact crashOr_refl _
  · obtain ⟨w, hw⟩ := rd_nil (α := α) i
    rw [hw]; exact crashOr_ub w

theorem nul_wr {α : Type} {t : Bool} {a a' : List α} (h : Nul t a a') (i : Int) (x : α) :
    CrashOr (Nul t) (wr a i x) (wr a' i x) := by
  rcases h with rfl | ⟨_, rfl⟩
  · exact crashOr_mono (crashOr_refl _) fun _ _ h => Or.inl h
  · rw [wr_nil]; exact crashOr_ub _

theorem nul_rdBlock {α : Type} {t : Bool} {a a' : List α} (h : Nul t a a') (off cnt : Int) :
    CrashOr (fun x y => y = x) (rdBlock a off cnt) (rdBlock a' off cnt) := by
  rcases h with rfl | ⟨_, rfl⟩
  · exact crashOr_refl _
  · by_cases hc : 0 ≤ off ∧ 0 ≤ cnt ∧ (off + cnt).toNat ≤ ([] : List α).length
    · have h0 : off = 0 ∧ cnt = 0 := by simp at hc; omega
      obtain ⟨rfl, rfl⟩ := h0
      simp only [rdBlock]
      simp
      exact crashOr_ok rfl
    · have : rdBlock ([] : List α) off cnt = .error (.ub "block read out of bounds") := by
        unfold rdBlock; rw [if_neg hc]
      rw [this]; exact crashOr_ub _

theorem nul_wrBlock {α : Type} {t : Bool} {a a' : List α} (h : Nul t a a') (off : Int) (xs : List α) :
    CrashOr (Nul t) (wrBlock a off xs) (wrBlock a' off xs) := by
  rcases h with rfl | ⟨ht, rfl⟩
  · exact crashOr_mono (crashOr_refl _) fun _ _ h => Or.inl h
  · by_cases hc : 0 ≤ off ∧ off.toNat + xs.length ≤ ([] : List α).length
    · have h0 : off = 0 ∧ xs = [] := by
        obtain ⟨h1, h2⟩ := hc
        simp at h2
        exact ⟨by omega, h2.2⟩
      obtain ⟨rfl, rfl⟩ := h0
      simp only [wrBlock]
      simp
      exact crashOr_ok (Or.inr ⟨ht, rfl⟩)
    · have : wrBlock ([] : List α) off xs = .error (.ub "block write out of bounds") := by
        unfold wrBlock; rw [if_neg hc]
      rw [this]; exact crashOr_ub _

/-! ### The convolver -/

/-- The same convolver except for missing buffers. -/
structure CR (cv cv' : Convolver F) : Prop where
  hmax : cv'.maximumInputSize = cv.maximumInputSize
  hp : cv'.r2cPlans = cv.r2cPlans
  hq : cv'.c2rPlans = cv.c2rPlans
  h1 : Nul true cv.r2cIn cv'.r2cIn
  h2 : Nul true cv.r2cOut cv'.r2cOut
  h3 : Nul true cv.c2rIn cv'.c2rIn
  h4 : Nul true cv.c2rOut cv'.c2rOut
  h5 : Nul true cv.tmpComplex cv'.tmpComplex

theorem convolveSameSize_crash {t : Bool} (size : Int) (a : List F) (oa : Int) (b : List F) (ob : Int) {d d' : List F}
    (h : Nul t d d') (od : Int) :
    CrashOr (Nul t) (convolveSameSize size a oa b ob d od) (convolveSameSize size a oa b ob d' od) :=
  crashOr_forRange h fun _ _ _ hr => crashOr_bind (crashOr_refl _) fun _ y hxy => by
    subst hxy; exact nul_wr hr _ y

theorem copyZeroPadded_crash {t : Bool} (src : List F) (o : Int) {d d' : List F} (h : Nul t d d') (m k : Int) :
    CrashOr (Nul t) (Convolver.copyZeroPadded src o d m k) (Convolver.copyZeroPadded src o d' m k) :=
  crashOr_bind (crashOr_refl _) fun _ y hxy => by
    subst hxy
    exact crashOr_bind (nul_wrBlock h 0 y) fun _ _ hr => nul_wrBlock hr _ _

omit [FOps F] in
theorem execR2C_crash {s t : Bool} (env : Env F) (N : Int) {a a' : List F} {b b' : List (F × F)} (ha : Nul s a a')
    (hb : Nul t b b') :
    CrashOr (fun p q => Nul s p.1 q.1 ∧ Nul t p.2 q.2) (Convolver.execR2C env N a b) (Convolver.execR2C env N a' b') :=
  crashOr_bind (nul_rdBlock ha 0 N) fun x _ hxy => by
    subst hxy
    exact crashOr_bind (nul_wrBlock hb 0 _) fun o o' ho => crashOr_bind (nul_wrBlock ha 0 _) fun i i' hi =>
      crashOr_ok ⟨hi, ho⟩

omit [FOps F] in
theorem execC2R_crash {s t : Bool} (env : Env F) (N : Int) {a a' : List (F × F)} {b b' : List F} (ha : Nul s a a')
    (hb : Nul t b b') :
    CrashOr (fun p q => Nul s p.1 q.1 ∧ Nul t p.2 q.2) (Convolver.execC2R env N a b) (Convolver.execC2R env N a' b') :=
  crashOr_bind (nul_rdBlock ha 0 _) fun x _ hxy => by
    subst hxy
    exact crashOr_bind (nul_wrBlock hb 0 _) fun o o' ho => crashOr_bind (nul_wrBlock ha 0 _) fun i i' hi =>
      crashOr_ok ⟨hi, ho⟩

theorem product_crash {r s t : Bool} (size : Int) {a a' b b' d d' : List (F × F)} (ha : Nul r a a') (hb : Nul s b b')
    (hd : Nul t d d') (c : F) :
    CrashOr (Nul t) (Convolver.elementwiseComplexProduct size a b d c) (Convolver.elementwiseComplexProduct size a' b' d' c) :=
  crashOr_forRange hd fun i _ _ hr => crashOr_bind (nul_rd ha i) fun x _ hx => crashOr_bind (nul_rd hb i) fun y _ hy => by
    subst hx hy; exact nul_wr hr i _

set_option maxHeartbeats 1000000 in
theorem convolve_crash {t : Bool} (env : Env F) {cv cv' : Convolver F} (hcv : CR cv cv') (size : Int) (a : List F) (oa : Int)
    (b : List F) (ob : Int) {d d' : List F} (hd : Nul t d d') (od : Int) :
    CrashOr (fun p q => CR p.1 q.1 ∧ Nul t p.2 q.2) (cv.convolve env size a oa b ob d od)
      (cv'.convolve env size a oa b ob d' od) := by
  unfold Convolver.convolve
  rw [hcv.hmax]
  split
  · exact crashOr_err _
  split
  · exact crashOr_ok ⟨hcv, hd⟩
  split
  · exact crashOr_bind (convolveSameSize_crash size a oa b ob hd od) fun _ _ h => crashOr_ok ⟨hcv, h⟩
  dsimp only
  refine crashOr_bind (copyZeroPadded_crash a oa hcv.h1 size _) fun i1 i1' hi1 => ?_
  rw [hcv.hp]
  refine crashOr_bind (crashOr_refl _) fun pl pl' hpl => ?_
  subst hpl
  refine crashOr_bind (execR2C_crash env pl'.1 hi1 hcv.h5) fun e1 e1' he1 => ?_
  refine crashOr_bind (copyZeroPadded_crash b ob he1.1 size _) fun i2 i2' hi2 => ?_
  refine crashOr_bind (crashOr_refl _) fun pm pm' hpm => ?_
  subst hpm
  refine crashOr_bind (execR2C_crash env pm'.1 hi2 hcv.h2) fun e2 e2' he2 => ?_
  refine crashOr_bind (product_crash _ he1.2 he2.2 hcv.h3 _) fun c c' hc => ?_
  rw [hcv.hq]
  refine crashOr_bind (crashOr_refl _) fun pn pn' hpn => ?_
  subst hpn
  refine crashOr_bind (execC2R_crash env pn'.1 hc hcv.h4) fun e3 e3' he3 => ?_
  refine crashOr_bind (nul_rdBlock he3.2 0 size) fun r r' hr => ?_
  subst hr
  refine crashOr_bind (nul_wrBlock hd od _) fun q q' hq => ?_
  exact crashOr_ok ⟨⟨rfl, rfl, rfl, he2.1, he2.2, he3.1, he3.2, he1.2⟩, hq⟩

/-! ### ecdf2 -/

/-- The same state except for missing buffers of the convolver. -/
structure NCR (s s' : NCState F) : Prop where
  hb : s'.buffers = s.buffers
  hc : CR s.conv s'.conv
  hg : s'.pmfgen = s.pmfgen
  h1 : s'.bStep = s.bStep
  h2 : s'.BStep = s.BStep
  hp : s'.prev = s.prev

theorem nul_false {α : Type} {a a' : List α} (h : Nul false a a') : a' = a := by
  rcases h with h | ⟨h, _⟩
  · exact h
  · cases h

theorem ncConvolve_crash (env : Env F) (useFft : Bool) {cv cv' : Convolver F} (hc : CR cv cv') (size : Int) (pmf src : List F)
    (oS : Int) (dest : List F) (oD : Int) :
    CrashOr (fun p q => CR p.1 q.1 ∧ q.2 = p.2) (ncConvolve env useFft cv size pmf src oS dest oD)
      (ncConvolve env useFft cv' size pmf src oS dest oD) := by
  unfold ncConvolve
  split
  · exact crashOr_mono (convolve_crash (t := false) env hc _ _ _ _ _ (Or.inl rfl) _) fun _ _ h => ⟨h.1, nul_false h.2⟩
  · exact crashOr_bind (crashOr_refl _) fun d _ e => by subst e; exact crashOr_ok ⟨hc, rfl⟩

theorem ncStep_crash (env : Env F) (intensity : F) (useFft : Bool) {s s' : NCState F} (h : NCR s s') (bd : Bound F) :
    CrashOr NCR (ncStep env intensity useFft s bd) (ncStep env intensity useFft s' bd) := by
  obtain ⟨bu, cv, g, x, y, p⟩ := s
  obtain ⟨bu', cv', g', x', y', p'⟩ := s'
  obtain ⟨hb, hc, hg, h1, h2, hp⟩ := h
  dsimp only at hb hc hg h1 h2 hp
  subst hb hg h1 h2 hp
  unfold ncStep
  dsimp only
  split
  · refine crashOr_bind (crashOr_refl _) fun g1 _ e => ?_
    subst e
    refine crashOr_bind (crashOr_refl _) fun o1 _ e => ?_
    subst e
    refine crashOr_bind (crashOr_refl _) fun o2 _ e => ?_
    subst e
    refine crashOr_bind (ncConvolve_crash env useFft hc _ _ _ _ _ _) fun a b hab => ?_
    obtain ⟨a1, a2⟩ := a
    obtain ⟨b1, b2⟩ := b
    obtain ⟨hab1, hab2⟩ := hab
    dsimp only at hab1 hab2
    subst hab2
    refine crashOr_bind (crashOr_refl _) fun u _ e => ?_
    subst e
    exact crashOr_ok ⟨rfl, hab1, rfl, rfl, rfl, rfl⟩
  split
  · refine crashOr_bind (crashOr_refl _) fun u _ e => ?_
    subst e
    exact crashOr_ok ⟨rfl, hc, rfl, rfl, rfl, rfl⟩
  · exact crashOr_err _

/-! ### Constructors -/

omit [FOps F] in
theorem nul_allocDoubles (o : Oom) (env : Env F) (id : Nat) (n : Int) :
    Nul true (allocDoubles env id n) (allocDoublesO o env id n) := by
  unfold allocDoublesO
  split
  · exact Or.inr ⟨rfl, rfl⟩
  · exact Or.inl rfl

omit [FOps F] in
theorem nul_allocComplexes (o : Oom) (env : Env F) (id : Nat) (n : Int) :
    Nul true (allocComplexes env id n) (allocComplexesO o env id n) := by
  unfold allocComplexesO
  split
  · exact Or.inr ⟨rfl, rfl⟩
  · exact Or.inl rfl

/-- An allocation of a vector that is not in the first run. -/
theorem crashOr_vector {α β : Type} {R : α → β → Prop} (o : Oom) (i : Nat) {m : M α} {m' : Unit → M β}
    (h : CrashOr R m (m' ())) : CrashOr R m (o.vector i >>= m') := by
  unfold Oom.vector
  split
  · exact Or.inl (Or.inr rfl)
  · exact h

omit [FOps F] in
theorem forAux_fill {f : Int → F} : ∀ (k : Nat) (i : Nat) (a : List F), a.length = i + k →
    forAux (fun j a => wr a j (f j)) k (i : Int) a = .ok (a.take i ++ (List.range k).map fun j : Nat => f ((i + j : Nat) : Int))
  | 0, i, a, h => by
    simp only [forAux, List.range_zero, List.map_nil, List.append_nil]
    rw [List.take_of_length_le (by omega)]
  | k + 1, i, a, h => by
    have hw : wr a (i : Int) (f (i : Int)) = .ok (a.set i (f (i : Int))) := by
      unfold wr
      rw [if_pos (by constructor <;> omega)]
      simp
    simp only [forAux]
    rw [hw]
    have h2 := forAux_fill (f := f) k (i + 1) (a.set i (f (i : Int))) (by rw [List.length_set]; omega)
    have e1 : ((i + 1 : Nat) : Int) = (i : Int) + 1 := by push_cast; ring
    rw [e1] at h2
    show forAux _ k ((i : Int) + 1) _ = _
    rw [h2]
    congr 1
    rw [List.take_add_one, List.take_set_of_le (le_refl i), List.getElem?_set_self (by omega), List.append_assoc,
      List.range_succ_eq_map, List.map_cons, List.map_map]
    simp only [Option.toList_some, List.singleton_append, Nat.add_zero]
    congr 2
    apply List.map_congr_left
    intro j _
    simp only [Function.comp]
    congr 2
    omega

omit [FOps F] in
theorem fill_eq {f : Int → F} (n : Int) (a : List F) (ha : a.length = n.toNat) :
    forRange 0 n a (fun i a => wr a i (f i)) = .ok ((List.range n.toNat).map fun i : Nat => f (i : Int)) := by
  unfold forRange
  have := forAux_fill (f := f) n.toNat 0 a (by omega)
  simpa using this

omit [FOps F] in
theorem fill_crash (o : Oom) (env : Env F) (id : Nat) (n : Int) {f : Int → F} (hn : 0 < n) :
    CrashOr (fun x y => y = x) (.ok ((List.range n.toNat).map fun i : Nat => f (i : Int)))
      (forRange 0 n (allocDoublesO o env id n) (fun i a => wr a i (f i))) := by
  unfold allocDoublesO
  split
  · have h1 : (n - 0).toNat = (n - 0).toNat - 1 + 1 := by omega
    unfold forRange
    rw [h1]
    simp only [forAux]
    rw [wr_nil]
    exact crashOr_ub _
  · rw [fill_eq n _ (by simp [allocDoubles])]
    exact crashOr_ok rfl

theorem pmfNew_crash (o : Oom) (env : Env F) (m : Int) (hm : 0 ≤ m) :
    CrashOr (fun x y => y = x) (PmfGen.new env (m + 1)) (PmfGen.newO o env (m + 1)) := by
  unfold PmfGen.new PmfGen.newO
  refine crashOr_bind (crashOr_refl _) fun _ _ _ => ?_
  have h1 := fill_crash o env 1 (m + 1 + 2) (f := fun i => lgamma (ofInt i)) (by omega)
  have h2 := fill_crash o env 2 (m + 1 + 1) (f := fun _ => (ofInt 0 : F)) (by omega)
  have h3 : CrashOr (fun x y => y = x)
      ((Except.ok ((List.range (m + 1 + 2).toNat).map fun i : Nat => lgamma (ofInt (i : Int))) : M (List F)) >>= fun lut =>
        (Except.ok ((List.range (m + 1 + 1).toNat).map fun _ : Nat => (ofInt 0 : F)) : M (List F)) >>= fun arr =>
          (Except.ok { maxK := m + 1, logGammaLUT := lut, pmfArray := arr } : M (PmfGen F)))
      (forRange 0 (m + 1 + 2) (allocDoublesO o env 1 (m + 1 + 2)) (fun i a => wr a i (lgamma (ofInt i))) >>= fun lut =>
        forRange 0 (m + 1 + 1) (allocDoublesO o env 2 (m + 1 + 1)) (fun i a => wr a i (ofInt 0)) >>= fun arr =>
          (Except.ok { maxK := m + 1, logGammaLUT := lut, pmfArray := arr } : M (PmfGen F))) :=
    crashOr_bind h1 fun a _ e => by
      subst e
      exact crashOr_bind h2 fun a _ e => by subst e; exact crashOr_ok rfl
  have e : (List.range (m + 1 + 1).toNat).map (fun _ : Nat => (ofInt 0 : F)) = List.replicate (m + 1 + 1).toNat (ofInt 0) := by
    rw [List.map_const', List.length_range]
  rw [e] at h3
  exact h3

omit [FOps F] in
theorem convNew_crash {α β : Type} {R : α → β → Prop} (o : Oom) (env : Env F) (n : Int) {m : M α} {k : Convolver F → M β}
    (h : ∀ cv', CR (Convolver.new env n) cv' → CrashOr R m (k cv')) : CrashOr R m (Convolver.newO o env n >>= k) := by
  unfold Convolver.newO
  dsimp only
  unfold Oom.vector
  split
  · exact Or.inl (Or.inr rfl)
  split
  · exact Or.inl (Or.inr rfl)
  · exact h _ ⟨rfl, rfl, rfl, nul_allocDoubles o env 10 _, nul_allocComplexes o env 11 _, nul_allocComplexes o env 12 _,
      nul_allocDoubles o env 13 _, nul_allocComplexes o env 14 _⟩

omit [FOps F] in
theorem bufNew_crash {α β : Type} {R : α → β → Prop} (o : Oom) (i : Nat) (n : Int) (v : F) {m : M α}
    {k : DoubleBuffer F → M β} (h : CrashOr R m (k (DoubleBuffer.new n v))) :
    CrashOr R m (DoubleBuffer.newO o i n v >>= k) := by
  unfold DoubleBuffer.newO Oom.vector
  split
  · exact Or.inl (Or.inr rfl)
  split
  · exact Or.inl (Or.inr rfl)
  · exact h

theorem nc_crash (o : Oom) (env : Env F) (sort : List (Bound F) → List (Bound F)) (n : Int) (hn : 0 ≤ n) (intensity : F)
    (b B : List F) (useFft : Bool) :
    CrashOr (fun x y => y = x) (poissonProcessNoncrossingProbability env sort n intensity b B useFft)
      (poissonProcessNoncrossingProbabilityO o env sort n intensity b B useFft) := by
  unfold poissonProcessNoncrossingProbability poissonProcessNoncrossingProbabilityO
  refine crashOr_vector o 1 ?_
  dsimp only
  refine bufNew_crash o 2 _ _ ?_
  refine crashOr_bind (crashOr_refl _) fun src _ e => ?_
  subst e
  refine convNew_crash o env _ fun cv' hcv => ?_
  refine crashOr_bind (pmfNew_crash o env n hn) fun g _ e => ?_
  subst e
  refine crashOr_bind (crashOr_foldlM (R := NCR) (fun bd s s' h => ncStep_crash env intensity useFft h bd) _ _ _
    ⟨rfl, hcv, rfl, rfl, rfl, rfl⟩) fun s s' h => ?_
  refine crashOr_vector o 6 ?_
  rw [h.hb]
  exact crashOr_ok rfl

theorem ecdf2_crash (o : Oom) (env : Env F) (sort : List (Bound F) → List (Bound F)) (b B : List F) (useFft : Bool) :
    CrashOr (fun x y => y = x) (ecdf2 env sort b B useFft) (ecdf2O o env sort b B useFft) := by
  unfold ecdf2 ecdf2O
  dsimp only
  refine crashOr_bind (crashOr_refl _) fun _ _ _ => ?_
  refine crashOr_bind (crashOr_refl _) fun _ _ _ => ?_
  refine crashOr_bind (nc_crash o env sort _ (by omega) _ b B useFft) fun s _ e => ?_
  subst e
  exact crashOr_refl _

/-! ### ecdf1_new -/

/-- The same state except for missing buffers of the convolver. -/
structure MR (s s' : MiniState F) : Prop where
  hd : s'.dest = s.dest
  hb : s'.minibuffers = s.minibuffers
  hc : CR s.conv s'.conv
  hg : s'.pmfgen = s.pmfgen
  hp : s'.iPrevLocation = s.iPrevLocation

/-- The same state except for missing buffers of the convolver and a missing `tmp`. -/
structure BR (s s' : BlockState F) : Prop where
  hb : s'.buffers = s.buffers
  hm : s'.minibuffers = s.minibuffers
  hc : CR s.conv s'.conv
  hg : s'.pmfgen = s.pmfgen
  ht : Nul true s.tmp s'.tmp
  hp : s'.IprevLocation = s.IprevLocation
  hi : s'.Iprev = s.Iprev

theorem miniStep_crash (env : Env F) (n : Int) (intensity : F) (B : List F) (Iprev I i : Int) {s s' : MiniState F}
    (h : MR s s') :
    CrashOr MR (miniStep env n intensity B Iprev I i s) (miniStep env n intensity B Iprev I i s') := by
  obtain ⟨d, mb, cv, g, p⟩ := s
  obtain ⟨d', mb', cv', g', p'⟩ := s'
  obtain ⟨hd, hb, hc, hg, hp⟩ := h
  dsimp only at hd hb hc hg hp
  subst hd hb hg hp
  unfold miniStep
  dsimp only
  refine crashOr_bind (crashOr_refl _) fun Bi _ e => ?_
  subst e
  refine crashOr_bind (crashOr_refl _) fun g1 _ e => ?_
  subst e
  refine crashOr_bind (crashOr_refl _) fun o1 _ e => ?_
  subst e
  refine crashOr_bind (crashOr_refl _) fun o2 _ e => ?_
  subst e
  refine crashOr_bind (convolve_crash (t := false) env hc _ _ _ _ _ (Or.inl rfl) _) fun a b hab => ?_
  obtain ⟨a1, a2⟩ := a
  obtain ⟨b1, b2⟩ := b
  obtain ⟨hab1, hab2⟩ := hab
  dsimp only at hab1 hab2
  have hab3 := nul_false hab2
  subst hab3
  refine crashOr_bind (crashOr_refl _) fun x1 _ e => ?_
  subst e
  refine crashOr_bind (crashOr_refl _) fun x2 _ e => ?_
  subst e
  refine crashOr_bind (crashOr_refl _) fun x3 _ e => ?_
  subst e
  refine crashOr_bind (crashOr_refl _) fun x4 _ e => ?_
  subst e
  refine crashOr_bind (crashOr_refl _) fun x5 _ e => ?_
  subst e
  exact crashOr_ok ⟨rfl, rfl, hab1, rfl, rfl⟩

theorem blockStep_crash (env : Env F) (n : Int) (intensity : F) (B : List F) (I : Int) {s s' : BlockState F} (h : BR s s') :
    CrashOr BR (blockStep env n intensity B I s) (blockStep env n intensity B I s') := by
  obtain ⟨bu, mb, cv, g, t, p, q⟩ := s
  obtain ⟨bu', mb', cv', g', t', p', q'⟩ := s'
  obtain ⟨hb, hm, hc, hg, ht, hp, hi⟩ := h
  dsimp only at hb hm hc hg ht hp hi
  subst hb hm hg hp hi
  unfold blockStep
  dsimp only
  refine crashOr_bind (crashOr_refl _) fun BI _ e => ?_
  subst e
  refine crashOr_bind (crashOr_refl _) fun g1 _ e => ?_
  subst e
  refine crashOr_bind (crashOr_refl _) fun o1 _ e => ?_
  subst e
  refine crashOr_bind (convolve_crash (t := true) env hc _ _ _ _ _ ht _) fun a b hab => ?_
  obtain ⟨a1, a2⟩ := a
  obtain ⟨b1, b2⟩ := b
  obtain ⟨hab1, hab2⟩ := hab
  dsimp only at hab1 hab2
  refine crashOr_bind (crashOr_refl _) fun x1 _ e => ?_
  subst e
  refine crashOr_bind (crashOr_refl _) fun x2 _ e => ?_
  subst e
  refine crashOr_bind (crashOr_refl _) fun x3 _ e => ?_
  subst e
  refine crashOr_bind (nul_rdBlock hab2 _ _) fun x4 _ e => ?_
  subst e
  refine crashOr_bind (crashOr_refl _) fun x5 _ e => ?_
  subst e
  refine crashOr_bind (crashOr_refl _) fun x6 _ e => ?_
  subst e
  refine crashOr_bind (crashOr_refl _) fun x7 _ e => ?_
  subst e
  refine crashOr_bind (crashOr_refl _) fun x8 _ e => ?_
  subst e
  refine crashOr_bind (crashOr_refl _) fun x9 _ e => ?_
  subst e
  refine crashOr_bind (crashOr_forRange (R := MR) ⟨rfl, rfl, hab1, rfl, rfl⟩ fun i s s' h =>
    miniStep_crash env n intensity B _ I i h) fun m m' h => ?_
  exact crashOr_ok ⟨by dsimp only; rw [h.hd], h.hb, h.hc, h.hg, hab2, rfl, rfl⟩

theorem blockLoop_crash (env : Env F) (n : Int) (intensity : F) (B : List F) (jumpSize nSteps : Int) :
    ∀ (fuel : Nat) (I : Int) {s s' : BlockState F}, BR s s' →
      CrashOr BR (blockLoop env n intensity B jumpSize nSteps fuel I s) (blockLoop env n intensity B jumpSize nSteps fuel I s')
  | 0, _, _, _, _ => crashOr_err _
  | fuel + 1, I, s, s', h => by
    unfold blockLoop
    refine crashOr_bind (blockStep_crash env n intensity B I h) fun a b hab => ?_
    split
    · exact crashOr_ok hab
    · exact blockLoop_crash env n intensity B jumpSize nSteps fuel _ hab

theorem n2_crash (o : Oom) (env : Env F) (n : Int) (hn : 0 ≤ n) (intensity : F) (B : List F) (k : Int) :
    CrashOr (fun x y => y = x) (poissonBNoncrossingProbabilityN2 env n intensity B k)
      (poissonBNoncrossingProbabilityN2O o env n intensity B k) := by
  unfold poissonBNoncrossingProbabilityN2 poissonBNoncrossingProbabilityN2O
  dsimp only
  refine crashOr_bind (crashOr_refl _) fun _ _ _ => ?_
  refine bufNew_crash o 2 _ _ ?_
  refine bufNew_crash o 4 _ _ ?_
  refine crashOr_bind (crashOr_refl _) fun src _ e => ?_
  subst e
  refine convNew_crash o env _ fun cv' hcv => ?_
  refine crashOr_bind (pmfNew_crash o env n hn) fun g _ e => ?_
  subst e
  refine crashOr_bind (blockLoop_crash env n intensity B k _ _ _
    ⟨rfl, rfl, hcv, rfl, nul_allocDoubles o env 20 _, rfl, rfl⟩) fun s s' h => ?_
  obtain ⟨bu, mb, cv, g, t, p, q⟩ := s
  obtain ⟨bu', mb', cv', g', t', p', q'⟩ := s'
  obtain ⟨hb, hm, hc, hg, ht, hp, hi⟩ := h
  dsimp only at hb hm hc hg ht hp hi
  subst hb hm hg hp hi
  dsimp only
  refine crashOr_bind (crashOr_refl _) fun x1 _ e => ?_
  subst e
  refine crashOr_bind (crashOr_refl _) fun x2 _ e => ?_
  subst e
  refine crashOr_bind (crashOr_refl _) fun x3 _ e => ?_
  subst e
  refine crashOr_bind (convolve_crash (t := false) env hc _ _ _ _ _ (Or.inl rfl) _) fun a b hab => ?_
  obtain ⟨a1, a2⟩ := a
  obtain ⟨b1, b2⟩ := b
  have hab3 := nul_false hab.2
  dsimp only at hab3
  subst hab3
  dsimp only
  refine crashOr_bind_right (crashOr_refl _) fun x4 _ e => ?_
  subst e
  refine crashOr_vector o 6 ?_
  exact crashOr_ok rfl

theorem newB_crash (o : Oom) (env : Env F) (isqrt : Nat → Nat) (B : List F) :
    CrashOr (fun x y => y = x) (ecdf1NewB env isqrt B) (ecdf1NewBO o env isqrt B) := by
  unfold ecdf1NewB ecdf1NewBO
  dsimp only
  refine crashOr_bind (crashOr_refl _) fun _ _ _ => ?_
  refine crashOr_bind (n2_crash o env _ (by omega) _ B _) fun s _ e => ?_
  subst e
  exact crashOr_refl _

theorem newb_crash (o : Oom) (env : Env F) (isqrt : Nat → Nat) (b : List F) :
    CrashOr (fun x y => y = x) (ecdf1Newb env isqrt b) (ecdf1NewbO o env isqrt b) := by
  unfold ecdf1Newb ecdf1NewbO
  dsimp only
  refine crashOr_bind (crashOr_refl _) fun _ _ _ => ?_
  refine crashOr_vector o 20 ?_
  refine crashOr_bind (crashOr_refl _) fun s _ e => ?_
  subst e
  exact newB_crash o env isqrt _

/-! ### ecdf1_mns2016 -/

omit [FOps F] in
theorem memset_crash (o : Oom) (env : Env F) (id : Nat) (n : Int) (hn : 0 < n) (v : F) :
    CrashOr (fun x y => y = x) (.ok (List.replicate n.toNat v))
      (wrBlock (allocDoublesO o env id n) 0 (List.replicate n.toNat v)) := by
  unfold allocDoublesO
  split
  · have h : ¬((0 : Int) ≤ 0 ∧ (0 : Int).toNat + (List.replicate n.toNat v).length ≤ ([] : List F).length) := by
      simp only [List.length_replicate, List.length_nil]
      omega
    unfold wrBlock
    rw [if_neg h]
    exact crashOr_ub _
  · unfold wrBlock
    rw [if_pos (by simp [allocDoubles])]
    refine crashOr_ok ?_
    simp [allocDoubles]

theorem polyNew_crash (o : Oom) (env : Env F) (m : Int) (hm : 0 ≤ m) :
    CrashOr (fun x y => y = x) (Poly.new env m) (Poly.newO o env m) := by
  unfold Poly.new Poly.newO
  refine crashOr_bind (crashOr_refl _) fun _ _ _ => ?_
  have h1 := memset_crash o env 30 (m + 1) (by omega) (zero : F)
  have h2 := memset_crash o env 31 (m + 1) (by omega) (zero : F)
  have h3 : CrashOr (fun x y => y = x)
      ((Except.ok (List.replicate (m + 1).toNat zero) : M (List F)) >>= fun a =>
        (Except.ok (List.replicate (m + 1).toNat zero) : M (List F)) >>= fun c =>
          (Except.ok { degree := 0, mult := a, add := c } : M (Poly F)))
      (wrBlock (allocDoublesO o env 30 (m + 1)) 0 (List.replicate (m + 1).toNat zero) >>= fun a =>
        wrBlock (allocDoublesO o env 31 (m + 1)) 0 (List.replicate (m + 1).toNat zero) >>= fun c =>
          (Except.ok { degree := 0, mult := a, add := c } : M (Poly F))) :=
    crashOr_bind h1 fun a _ e => by
      subst e
      exact crashOr_bind h2 fun a _ e => by subst e; exact crashOr_ok rfl
  exact h3

theorem mnsb_crash (o : Oom) (env : Env F) (b : List F) :
    CrashOr (fun x y => y = x) (ecdf1Mns2016b env b) (ecdf1Mns2016bO o env b) := by
  unfold ecdf1Mns2016b ecdf1Mns2016bWith ecdf1Mns2016bO
  dsimp only
  refine crashOr_bind (crashOr_refl _) fun _ _ _ => ?_
  refine crashOr_bind (polyNew_crash o env _ (by omega)) fun p _ e => ?_
  subst e
  exact crashOr_refl _

theorem mnsB_crash (o : Oom) (env : Env F) (B : List F) :
    CrashOr (fun x y => y = x) (ecdf1Mns2016B env B) (ecdf1Mns2016BO o env B) := by
  unfold ecdf1Mns2016B ecdf1Mns2016BO
  dsimp only
  refine crashOr_bind (crashOr_refl _) fun _ _ _ => ?_
  refine crashOr_vector o 20 ?_
  refine crashOr_bind (crashOr_refl _) fun s _ e => ?_
  subst e
  exact mnsb_crash o env _

/-! ### The program -/

theorem ecdf2Cmd_crash (o : Oom) (w : World F) (useFft : Bool) (b B : List F) :
    CrashOr (fun x y => y = x) (if useFft then calculateEcdf2Mn2017 w b B else calculateEcdf2Ks2001 w b B)
      (calculateEcdf2O o w useFft b B) := by
  have e : (if useFft then calculateEcdf2Mn2017 w b B else calculateEcdf2Ks2001 w b B) =
      (if b.length = max b.length B.length ∧ B.length = max b.length B.length then ecdf2 w.env w.sort b B useFft
        else if b.length = 0 ∧ B.length = max b.length B.length then
          ecdf2 w.env w.sort (List.replicate (max b.length B.length) zero) B useFft
        else if b.length = max b.length B.length ∧ B.length = 0 then
          ecdf2 w.env w.sort b (List.replicate (max b.length B.length) one) useFft
        else .error (.runtimeError ecdf2LengthsMsg)) := by
    cases useFft <;> rfl
  rw [e]
  unfold calculateEcdf2O
  dsimp only
  split
  · exact ecdf2_crash o _ _ _ _ _
  split
  · exact crashOr_vector o 21 (ecdf2_crash o _ _ _ _ _)
  split
  · exact crashOr_vector o 21 (ecdf2_crash o _ _ _ _ _)
  · exact crashOr_err _

theorem handle_crash (o : Oom) (w : World F) (command filename : Str) :
    CrashOr (fun x y => y = x) (handleCommandLineArguments w command filename)
      (handleCommandLineArgumentsO o w command filename) := by
  unfold handleCommandLineArguments handleCommandLineArgumentsO
  refine crashOr_vector o 23 (crashOr_vector o 22 ?_)
  refine crashOr_bind (crashOr_refl _) fun bs _ e => ?_
  subst e
  dsimp only
  split
  · unfold calculateEcdf1Mns2016 calculateEcdf1Mns2016O
    split
    · exact mnsb_crash o _ _
    split
    · exact mnsB_crash o _ _
    · exact crashOr_err _
  split
  · unfold calculateEcdf1New calculateEcdf1NewO
    split
    · exact newb_crash o _ _ _
    split
    · exact newB_crash o _ _ _
    · exact crashOr_err _
  split
  · exact ecdf2Cmd_crash o w false _ _
  split
  · exact ecdf2Cmd_crash o w true _ _
  · exact crashOr_err _

end CP.OomP
