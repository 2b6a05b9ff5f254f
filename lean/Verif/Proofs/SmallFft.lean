import Verif.Model.Ecdf1New
import Verif.Proofs.Counted2
import Verif.Proofs.Ecdf2Step
import Verif.Proofs.Reflect
import Mathlib.Data.Multiset.Count
import Mathlib.Data.Multiset.Basic
/-
The FFT is only used for convolutions of size at least 128.
-/
namespace CP
variable {F : Type} [FOps F]
open FOps

theorem convolve_small (env : Env F) (cv : Convolver F) {size : Int} (h : size < 128) (hm : size ≤ cv.maximumInputSize)
    (a : List F) (oa : Int) (b : List F) (ob : Int) (out : List F) (oo : Int) :
    cv.convolve env size a oa b ob out oo = (convolveSameSize size a oa b ob out oo >>= fun d => .ok (cv, d)) := by
  unfold Convolver.convolve MINIMUM_SIZE_FOR_FFTW_CONVOLUTION
  rw [if_neg (by omega)]
  by_cases h0 : size ≤ 0
  · rw [if_pos h0]
    have : convolveSameSize size a oa b ob out oo = .ok out := by
      unfold convolveSameSize forRange
      rw [show (size - 0).toNat = 0 by omega]
      rfl
    rw [this]; rfl
  · rw [if_neg h0, if_pos h]

theorem ncStep_maxSize {env : Env F} {I : F} {s s' : NCState F} {bd : Bound F} (h : ncStep env I false s bd = .ok s') :
    s'.conv = s.conv ∧ s'.bStep = s.bStep + (if bd.tag = .bSTEP then 1 else 0) ∧
      s'.BStep = s.BStep + (if bd.tag = .BSTEP then 1 else 0) := by
  have upd : ∀ {tag : BoundType} {buf : List F} {bc Bc : Int} {r : List F × Int × Int},
      updateDestBufferAndStepCounts tag buf bc Bc = .ok r →
      r.2.1 = bc + (if tag = .bSTEP then 1 else 0) ∧ r.2.2 = Bc + (if tag = .BSTEP then 1 else 0) := by
    intro tag buf bc Bc r h
    cases tag with
    | bSTEP =>
      unfold updateDestBufferAndStepCounts at h
      dsimp only at h
      cases h1 : wr buf (bc + 1) zero with
      | error e => rw [h1] at h; cases h
      | ok a => rw [h1] at h; cases h; simp
    | BSTEP =>
      unfold updateDestBufferAndStepCounts at h
      dsimp only at h
      cases h1 : wr buf Bc zero with
      | error e => rw [h1] at h; cases h
      | ok a => rw [h1] at h; cases h; simp
    | END => cases h; simp
  unfold ncStep at h
  dsimp only at h
  split at h
  · cases h1 : s.pmfgen.computeArray env (s.bStep - s.BStep + 1) (I *ᶠ (bd.location -ᶠ s.prev)) with
    | error e => rw [h1] at h; cases h
    | ok g =>
      rw [h1] at h
      cases h2 : addrOf s.buffers.src s.BStep with
      | error e => simp [h2, bind, Except.bind] at h
      | ok oS =>
        cases h3 : addrOf s.buffers.dest s.BStep with
        | error e => simp [h2, h3, bind, Except.bind] at h
        | ok oD =>
          cases h4 : ncConvolve env false s.conv (s.bStep - s.BStep + 1) g.pmfArray s.buffers.src oS s.buffers.dest oD with
          | error e => simp [h2, h3, bind, Except.bind, h4] at h
          | ok r =>
            obtain ⟨cv, dest⟩ := r
            have hcv : cv = s.conv := by
              unfold ncConvolve at h4
              simp only [Bool.false_eq_true, if_false] at h4
              cases h6 : convolveSameSize (s.bStep - s.BStep + 1) g.pmfArray 0 s.buffers.src oS s.buffers.dest oD with
              | error e => rw [h6] at h4; cases h4
              | ok d => rw [h6] at h4; cases h4; rfl
            cases h5 : updateDestBufferAndStepCounts bd.tag dest s.bStep s.BStep with
            | error e => simp [h2, h3, bind, Except.bind, h4, h5] at h
            | ok r =>
              simp [h2, h3, bind, Except.bind, h4, h5] at h
              subst h
              exact ⟨hcv, upd h5⟩
  · split at h
    · cases h5 : updateDestBufferAndStepCounts bd.tag s.buffers.src s.bStep s.BStep with
      | error e => rw [h5] at h; cases h
      | ok r =>
        rw [h5] at h
        cases h
        exact ⟨rfl, upd h5⟩
    · cases h

theorem ncStep_small (env : Env F) (I : F) (s : NCState F) (bd : Bound F) (h : s.bStep - s.BStep + 1 < 128)
    (hm : s.bStep - s.BStep + 1 ≤ s.conv.maximumInputSize) :
    ncStep env I true s bd = ncStep env I false s bd := by
  have e : ∀ (pmf src : List F) oS (dest : List F) oD, ncConvolve env true s.conv (s.bStep - s.BStep + 1) pmf src oS dest oD
      = ncConvolve env false s.conv (s.bStep - s.BStep + 1) pmf src oS dest oD := by
    intro pmf src oS dest oD
    unfold ncConvolve
    simp only [if_true, Bool.false_eq_true, if_false]
    exact convolve_small env _ h hm _ _ _ _ _ _
  unfold ncStep
  simp only [e]

theorem foldl_small (env : Env F) (I : F) (l : List (Bound F)) : ∀ (s : NCState F),
    127 ≤ s.conv.maximumInputSize →
    (∀ p bd q, l = p ++ bd :: q → s.bStep + (tagCount .bSTEP p : Int) - (s.BStep + (tagCount .BSTEP p : Int)) + 1 < 128) →
    l.foldlM (ncStep env I true) s = l.foldlM (ncStep env I false) s := by
  induction l with
  | nil => intro s _ _; rfl
  | cons bd l ih =>
    intro s hm h
    have h0 := h [] bd l rfl
    simp only [tagCount_nil, Nat.cast_zero, add_zero] at h0
    rw [List.foldlM_cons, List.foldlM_cons, ncStep_small env I s bd (by omega) (by omega)]
    cases h1 : ncStep env I false s bd with
    | error e => rfl
    | ok s' =>
      obtain ⟨e1, e2, e3⟩ := ncStep_maxSize h1
      refine ih s' (by rw [e1]; exact hm) fun p bd' q hl => ?_
      have := h (bd :: p) bd' q (by rw [hl]; rfl)
      rw [tagCount_cons, tagCount_cons] at this
      rw [e2, e3]
      push_cast at this
      split_ifs at this ⊢ <;> omega

/-- If no prefix of the sorted points contains 127 more points of the lower boundary than of the
upper boundary, the two variants of `ecdf2` are the same function. -/
theorem ecdf2_narrow (env : Env F) (sort : List (Bound F) → List (Bound F)) (b B : List F)
    (h : ∀ p, p <+: sort (unsortedBounds b B) → tagCount .bSTEP p ≤ tagCount .BSTEP p + 126) :
    ecdf2 env sort b B true = ecdf2 env sort b B false := by
  unfold ecdf2
  have key : poissonProcessNoncrossingProbability env sort b.length (ofInt b.length) b B true
      = poissonProcessNoncrossingProbability env sort b.length (ofInt b.length) b B false := by
    unfold poissonProcessNoncrossingProbability
    dsimp only
    congr 1
    funext src
    congr 1
    funext g
    rw [foldl_small]
    · dsimp only [Convolver.new]
      unfold ROUNDING
      omega
    · intro p bd q hl
      have hp : p <+: sort (unsortedBounds b B) := by
        unfold joinAllBounds at hl
        rcases List.append_eq_append_iff.mp hl with ⟨as, h1, h2⟩ | ⟨bs, h1, h2⟩
        · have : as = [] := by
            rcases as with _ | ⟨a, as⟩
            · rfl
            · have := congrArg List.length h2
              simp at this
          subst this
          simp only [List.append_nil] at h1
          rw [← h1]
        · exact ⟨bs, h1.symm⟩
      have := h p hp
      dsimp only
      omega
  dsimp only
  rw [key]

theorem tagCount_unsorted (b B : List F) : tagCount .bSTEP (unsortedBounds b B) = b.length ∧
    tagCount .BSTEP (unsortedBounds b B) = B.length := by
  unfold unsortedBounds
  rw [tagCount_append, tagCount_append, filter_map_tag, filter_map_tag, filter_map_tag, filter_map_tag]
  simp


theorem narrow_of_length (sort : List (Bound F) → List (Bound F)) (hperm : ∀ l, (sort l).Perm l) {b B : List F}
    (hn : b.length ≤ 126) (p : List (Bound F)) (hp : p <+: sort (unsortedBounds b B)) :
    tagCount .bSTEP p ≤ tagCount .BSTEP p + 126 := by
  obtain ⟨q, hq⟩ := hp
  have h1 := (tagCount_unsorted b B).1
  rw [← tagCount_perm (hperm (unsortedBounds b B)), ← hq, tagCount_append] at h1
  omega

/-- If every point of the upper boundary is smaller than the points of the lower boundary 126 or
more places later, no prefix of the sorted points is too wide. -/
theorem narrow_of_band (sort : List (Bound F) → List (Bound F)) (hperm : ∀ l, (sort l).Perm l) {b B : List F}
    (hsorted : (sort (unsortedBounds b B)).Pairwise fun x y => lt y.location x.location = false)
    (hlen : b.length = B.length)
    (hband : ∀ (i j : Nat) x y, B[i]? = some x → b[j]? = some y → i + 126 ≤ j → lt x y = true)
    (p : List (Bound F)) (hp : p <+: sort (unsortedBounds b B)) :
    tagCount .bSTEP p ≤ tagCount .BSTEP p + 126 := by
  classical
  obtain ⟨q, hq⟩ := hp
  by_contra hlt
  push Not at hlt
  -- the points of the lower boundary in the prefix
  obtain ⟨m, hm⟩ : ∃ m, m = tagCount .bSTEP p := ⟨_, rfl⟩
  have hm0 : 126 < m := by omega
  -- one of them has index at least `m - 1`
  obtain ⟨j, y, hj, hy, hyp⟩ : ∃ (j : Nat) (y : F), m - 1 ≤ j ∧ b[j]? = some y ∧ (⟨y, .bSTEP⟩ : Bound F) ∈ p := by
    by_contra hno
    push Not at hno
    let pb := (p.filter fun x => decide (x.tag = .bSTEP)).map Bound.location
    have hsub : (pb : Multiset F) ≤ (b.take (m - 1) : List F) := by
      rw [Multiset.le_iff_count]
      intro a
      by_cases ha : (⟨a, .bSTEP⟩ : Bound F) ∈ p
      · have hdrop : (b.drop (m - 1)).count a = 0 := by
          rw [List.count_eq_zero]
          intro hmem
          obtain ⟨k, hk⟩ := List.mem_iff_getElem?.mp hmem
          rw [List.getElem?_drop] at hk
          exact hno _ a (by omega) hk ha
        have hall : pb.count a ≤ b.count a := by
          have e : b.Perm (((sort (unsortedBounds b B)).filter fun x => decide (x.tag = .bSTEP)).map Bound.location) := by
            have h1 := (((hperm (unsortedBounds b B)).filter fun x => decide (x.tag = .bSTEP)).map Bound.location).symm
            refine List.Perm.trans (List.Perm.of_eq ?_) h1
            unfold unsortedBounds
            rw [List.filter_append, List.filter_map, List.filter_map]
            simp [Function.comp_def]
          rw [e.count_eq, ← hq, List.filter_append, List.map_append, List.count_append]
          exact Nat.le_add_right _ _
        have hsplit : b.count a = (b.take (m - 1)).count a + (b.drop (m - 1)).count a := by
          rw [← List.count_append, List.take_append_drop]
        simp only [Multiset.coe_count]
        omega
      · have : pb.count a = 0 := by
          rw [List.count_eq_zero]
          intro hmem
          obtain ⟨x, hx, hxa⟩ := List.mem_map.mp hmem
          rw [List.mem_filter] at hx
          obtain ⟨loc, tag⟩ := x
          simp only [decide_eq_true_eq] at hx hxa
          apply ha
          rw [← hxa, ← hx.2]
          exact hx.1
        simp only [Multiset.coe_count, this]
        exact Nat.zero_le _
    have hc := Multiset.card_le_card hsub
    simp only [Multiset.coe_card, List.length_take] at hc
    have hl : pb.length = m := by rw [hm]; simp only [pb, List.length_map]; rfl
    omega
  -- everything below it in the upper boundary is in the prefix
  let f : Bound F → Bool := fun x => decide (x.tag = .BSTEP) && lt x.location y
  have hq0 : q.countP f = 0 := by
    rw [List.countP_eq_zero]
    intro x hx
    rw [← hq, List.pairwise_append] at hsorted
    have := hsorted.2.2 _ hyp x hx
    simp only [f, this, Bool.and_false]
    simp
  have h1 : (sort (unsortedBounds b B)).countP f = (unsortedBounds b B).countP f := (hperm _).countP_eq f
  rw [← hq, List.countP_append, hq0] at h1
  have h2 : p.countP f ≤ tagCount .BSTEP p := by
    unfold tagCount
    rw [← List.countP_eq_length_filter]
    apply List.countP_mono_left
    intro x _ hx
    simp only [f, Bool.and_eq_true] at hx
    exact hx.1
  have h3 : (B.take (j - 125)).length ≤ (unsortedBounds b B).countP f := by
    unfold unsortedBounds
    rw [List.countP_append, List.countP_map, List.countP_map]
    refine le_trans ?_ (Nat.le_add_left _ _)
    rw [show (B.take (j - 125)).length = (B.take (j - 125)).countP (f ∘ fun x => ⟨x, .BSTEP⟩) from ?_]
    · exact (List.take_sublist _ _).countP_le
    · symm
      rw [List.countP_eq_length]
      intro x hx
      obtain ⟨i, hi⟩ := List.mem_iff_getElem?.mp hx
      rw [List.getElem?_take] at hi
      split at hi
      · have := hband i j x y hi hy (by omega)
        simp [f, this]
      · cases hi
  have hjb : j < b.length := (List.getElem?_eq_some_iff.mp hy).1
  rw [List.length_take] at h3
  omega

/-! ## ecdf1_new -/

theorem convolve_fft_irrel (env : Env F) (fft' : FFTW F) (cv : Convolver F) {size : Int} (h : size < 128)
    (a : List F) (oa : Int) (b : List F) (ob : Int) (out : List F) (oo : Int) :
    cv.convolve { env with fft := fft' } size a oa b ob out oo = cv.convolve env size a oa b ob out oo := by
  unfold Convolver.convolve MINIMUM_SIZE_FOR_FFTW_CONVOLUTION
  by_cases h1 : size > cv.maximumInputSize
  · rw [if_pos h1, if_pos h1]
  · by_cases h2 : size ≤ 0
    · rw [if_neg h1, if_neg h1, if_pos h2, if_pos h2]
    · rw [if_neg h1, if_neg h1, if_neg h2, if_neg h2, if_pos h, if_pos h]

theorem forAux_congr {σ : Type} {f g : Int → σ → M σ} (k : Nat) : ∀ (i : Int) (s : σ),
    (∀ j s, i ≤ j → j < i + k → f j s = g j s) → forAux f k i s = forAux g k i s := by
  induction k with
  | zero => intro i s _; rfl
  | succ k ih =>
    intro i s h
    unfold forAux
    rw [h i s le_rfl (by omega)]
    congr 1
    funext s'
    exact ih (i + 1) s' fun j s h1 h2 => h j s (by omega) (by push_cast; omega)

theorem forRange_congr {σ : Type} {f g : Int → σ → M σ} (lo hi : Int) (s : σ)
    (h : ∀ j s, lo ≤ j → j < hi → f j s = g j s) : forRange lo hi s f = forRange lo hi s g := by
  unfold forRange
  refine forAux_congr _ _ _ fun j s h1 h2 => h j s h1 (by omega)

theorem miniStep_fft_irrel (env : Env F) (fft' : FFTW F) (n : Int) (x : F) (B : List F) (Iprev I i : Int) (s : MiniState F)
    (h : I - i + 1 < 128) : miniStep { env with fft := fft' } n x B Iprev I i s = miniStep env n x B Iprev I i s := by
  unfold miniStep
  simp only [convolve_fft_irrel env fft' _ h]
  rfl

theorem blockStep_fft_irrel (env : Env F) (fft' : FFTW F) (n : Int) (x : F) (B : List F) (I : Int) (s : BlockState F)
    (h : n - s.Iprev < 128) (hI : I ≤ n) : blockStep { env with fft := fft' } n x B I s = blockStep env n x B I s := by
  unfold blockStep
  simp only [convolve_fft_irrel env fft' _ h]
  have e : ∀ m0, forRange (s.Iprev + 1) I m0 (miniStep { env with fft := fft' } n x B s.Iprev I)
      = forRange (s.Iprev + 1) I m0 (miniStep env n x B s.Iprev I) := fun m0 =>
    forRange_congr _ _ _ fun j s' h1 h2 => miniStep_fft_irrel env fft' n x B _ _ _ _ (by omega)
  simp only [e]
  rfl

theorem bind_ok_inv {α β : Type} {x : M α} {f : α → M β} {y : β} (h : (x >>= f) = .ok y) : ∃ a, f a = .ok y := by
  cases x with
  | error e => cases h
  | ok a => exact ⟨a, h⟩

theorem blockStep_Iprev {env : Env F} {n : Int} {x : F} {B : List F} {I : Int} {s s' : BlockState F}
    (h : blockStep env n x B I s = .ok s') : s'.Iprev = I := by
  unfold blockStep at h
  obtain ⟨_, h⟩ := bind_ok_inv h
  obtain ⟨_, h⟩ := bind_ok_inv h
  obtain ⟨_, h⟩ := bind_ok_inv h
  obtain ⟨_, h⟩ := bind_ok_inv h
  dsimp only at h
  obtain ⟨_, h⟩ := bind_ok_inv h
  obtain ⟨_, h⟩ := bind_ok_inv h
  obtain ⟨_, h⟩ := bind_ok_inv h
  obtain ⟨_, h⟩ := bind_ok_inv h
  obtain ⟨_, h⟩ := bind_ok_inv h
  obtain ⟨_, h⟩ := bind_ok_inv h
  obtain ⟨_, h⟩ := bind_ok_inv h
  obtain ⟨_, h⟩ := bind_ok_inv h
  obtain ⟨_, h⟩ := bind_ok_inv h
  obtain ⟨_, h⟩ := bind_ok_inv h
  cases h
  rfl

theorem M_bind_congr {α β : Type} {x y : M α} {f g : α → M β} (hx : x = y) (h : ∀ a, f a = g a) : (x >>= f) = (y >>= g) := by
  rw [hx, funext h]

theorem blockLoop_fft_irrel (env : Env F) (fft' : FFTW F) (n : Int) (x : F) (B : List F) (k nSteps : Int) (hk : 0 ≤ k)
    (hn : n < 127) (h0 : 0 ≤ nSteps) (hs : nSteps ≤ n) (fuel : Nat) : ∀ (I : Int) (s : BlockState F), -1 ≤ s.Iprev → -1 ≤ I → I ≤ n →
    blockLoop { env with fft := fft' } n x B k nSteps fuel I s = blockLoop env n x B k nSteps fuel I s := by
  induction fuel with
  | zero => intro I s _ _ _; rfl
  | succ fuel ih =>
    intro I s h1 h2 h3
    unfold blockLoop
    rw [blockStep_fft_irrel env fft' n x B I s (by omega) h3]
    cases h4 : blockStep env n x B I s with
    | error e => simp only [bind, Except.bind]
    | ok s' =>
      have := blockStep_Iprev h4
      simp only [bind, Except.bind]
      split
      · rfl
      · exact ih _ s' (by omega) (by omega) (by omega)

/-- `ecdf1_new_B` on at most 126 points never executes an FFT plan: any FFT library gives the same
result. -/
theorem ecdf1NewB_fft_irrel (env : Env F) (fft' : FFTW F) (isqrt : Nat → Nat) (B : List F) (hn : B.length ≤ 126) :
    ecdf1NewB { env with fft := fft' } isqrt B = ecdf1NewB env isqrt B := by
  unfold ecdf1NewB poissonBNoncrossingProbabilityN2
  dsimp only
  have e1 : ∀ s : BlockState F, -1 ≤ s.Iprev →
      blockLoop { env with fft := fft' } B.length (ofInt B.length) B ((isqrt B.length : Int) + 1) B.length (B.length + 1)
        (min (-1 + ((isqrt B.length : Int) + 1)) ((B.length : Int) - 1)) s
      = blockLoop env B.length (ofInt B.length) B ((isqrt B.length : Int) + 1) B.length (B.length + 1)
        (min (-1 + ((isqrt B.length : Int) + 1)) ((B.length : Int) - 1)) s := fun s hs =>
    blockLoop_fft_irrel env fft' _ _ B _ _ (by omega) (by omega) (by omega) le_rfl _ _ s hs (by omega) (by omega)
  refine M_bind_congr rfl fun _ => M_bind_congr ?_ fun probs => rfl
  refine M_bind_congr rfl fun _ => M_bind_congr rfl fun src => M_bind_congr rfl fun g => M_bind_congr (e1 _ le_rfl) fun s => ?_
  refine M_bind_congr rfl fun g => M_bind_congr rfl fun oS => M_bind_congr rfl fun oD => ?_
  rw [convolve_fft_irrel env fft' _ (by omega)]

theorem ecdf1Newb_fft_irrel (env : Env F) (fft' : FFTW F) (isqrt : Nat → Nat) (b : List F) (hn : b.length ≤ 126) :
    ecdf1Newb { env with fft := fft' } isqrt b = ecdf1Newb env isqrt b := by
  unfold ecdf1Newb
  dsimp only
  refine M_bind_congr rfl fun _ => ?_
  obtain ⟨r, h1, h2, -⟩ := (symmetricSteps_sat (E := NoFault) b).exists_ok
  rw [h1]
  exact ecdf1NewB_fft_irrel env fft' isqrt r (by rw [h2]; exact hn)

end CP
