import Verif.Proofs.Pmf
import Verif.Proofs.Convolve
import Verif.Model.Ecdf2
/-
One step of `ecdf2`'s loop and memory safety of the whole function, for any arithmetic.
-/
set_option linter.unusedSectionVars false
set_option linter.unusedVariables false
namespace CP
variable {F : Type} [FOps F] {E : Fault → Prop}
open FOps

theorem exists_fun {a : List F} : ∃ f : Nat → F, ∀ m : Nat, m < a.length → Has a m (f m) := by
  refine ⟨fun m => a.getD m zero, fun m hm => ⟨by omega, ?_⟩⟩
  simp [List.getD, hm]

/-- Effect of a tag on the number of lower steps passed. -/
def bNext (tag : BoundType) (c : Int) : Int := if tag = .bSTEP then c + 1 else c
/-- Effect of a tag on the number of upper steps passed. -/
def BNext (tag : BoundType) (d : Int) : Int := if tag = .BSTEP then d + 1 else d

/-- Invariant of the loop state. -/
structure NCInv (n : Int) (s : NCState F) : Prop where
  len0 : (s.buffers.buf0.length : Int) = n + 1
  len1 : (s.buffers.buf1.length : Int) = n + 1
  conv : ConvInv (n + 1) s.conv
  pmf : PmfInv (n + 1) s.pmfgen
  b0 : 0 ≤ s.bStep
  bn : s.bStep ≤ n
  B0 : 0 ≤ s.BStep
  Bn : s.BStep ≤ n

theorem DoubleBuffer.len_src {n : Int} {b : DoubleBuffer F} (h0 : (b.buf0.length : Int) = n)
    (h1 : (b.buf1.length : Int) = n) : (b.src.length : Int) = n := by
  unfold DoubleBuffer.src; split <;> assumption
theorem DoubleBuffer.len_dest {n : Int} {b : DoubleBuffer F} (h0 : (b.buf0.length : Int) = n)
    (h1 : (b.buf1.length : Int) = n) : (b.dest.length : Int) = n := by
  unfold DoubleBuffer.dest; split <;> assumption
theorem DoubleBuffer.src_setDest_flip (b : DoubleBuffer F) (a : List F) : ((b.setDest a).flip).src = a := by
  cases h : b.buf0IsSrc <;> simp [DoubleBuffer.setDest, DoubleBuffer.flip, DoubleBuffer.src, h]
theorem DoubleBuffer.src_setSrc (b : DoubleBuffer F) (a : List F) : (b.setSrc a).src = a := by
  cases h : b.buf0IsSrc <;> simp [DoubleBuffer.setSrc, DoubleBuffer.src, h]
theorem DoubleBuffer.len_setDest {n : Int} {b : DoubleBuffer F} {a : List F} (h0 : (b.buf0.length : Int) = n)
    (h1 : (b.buf1.length : Int) = n) (ha : (a.length : Int) = n) :
    ((b.setDest a).buf0.length : Int) = n ∧ ((b.setDest a).buf1.length : Int) = n := by
  unfold DoubleBuffer.setDest; split <;> exact ⟨by assumption, by assumption⟩
theorem DoubleBuffer.len_setSrc {n : Int} {b : DoubleBuffer F} {a : List F} (h0 : (b.buf0.length : Int) = n)
    (h1 : (b.buf1.length : Int) = n) (ha : (a.length : Int) = n) :
    ((b.setSrc a).buf0.length : Int) = n ∧ ((b.setSrc a).buf1.length : Int) = n := by
  unfold DoubleBuffer.setSrc; split <;> exact ⟨by assumption, by assumption⟩

theorem update_sat {tag : BoundType} {buf : List F} {c d n : Int} (hl : (buf.length : Int) = n + 1)
    (hc0 : 0 ≤ c) (hd0 : 0 ≤ d) (hcn : c ≤ n) (hdn : d ≤ n)
    (hc : tag = .bSTEP → c < n) (hd : tag = .BSTEP → d < n) :
    Sat E (fun r => (r.1.length : Int) = n + 1 ∧ r.2.1 = bNext tag c ∧ r.2.2 = BNext tag d ∧
      ∀ m w, BNext tag d ≤ m → m ≤ bNext tag c →
        ((tag = .bSTEP ∧ m = c + 1 → w = zero) ∧ (¬ (tag = .bSTEP ∧ m = c + 1) → Has buf m w)) →
        Has r.1 m w)
      (updateDestBufferAndStepCounts tag buf c d) := by
  cases tag with
  | bSTEP =>
    have := hc rfl
    unfold updateDestBufferAndStepCounts
    refine Sat.bind (wr_sat _ (by omega) (by omega)) ?_
    intro a ⟨hal, ha⟩
    refine ⟨by show (a.length : Int) = _; omega, rfl, rfl, ?_⟩
    intro m w _ _ hw
    show Has a m w
    rw [ha]
    by_cases e : m = c + 1
    · exact Or.inl ⟨e, hw.1 ⟨rfl, e⟩⟩
    · exact Or.inr ⟨e, hw.2 (fun h => e h.2)⟩
  | BSTEP =>
    have := hd rfl
    unfold updateDestBufferAndStepCounts
    refine Sat.bind (wr_sat _ (by omega) (by omega)) ?_
    intro a ⟨hal, ha⟩
    refine ⟨by show (a.length : Int) = _; omega, rfl, rfl, ?_⟩
    intro m w hm _ hw
    show Has a m w
    rw [ha]
    simp only [BNext, if_true] at hm
    exact Or.inr ⟨by omega, hw.2 (by simp)⟩
  | END =>
    refine ⟨hl, rfl, rfl, ?_⟩
    intro m w _ _ hw
    exact hw.2 (by simp)

/-- The convolution used by a step, as a function. -/
def convFn (env : Env F) (useFft : Bool) (size : Nat) (a b : Nat → F) (j : Nat) : F :=
  if useFft then convVal env.fft size a b j else naiveConv a b j

/-- Value at index `m` after a step from window `[d,c]` with contents `f`. -/
def stepVal (env : Env F) (useFft : Bool) (lambda : F) (tag : BoundType) (c d : Nat) (f : Nat → F)
    (m : Nat) : F :=
  if tag = .bSTEP ∧ m = c + 1 then zero
  else if lt zero lambda then
    convFn env useFft (c + 1 - d) (pmfVal lambda) (fun k => f (d + k)) (m - d)
  else f m

/-- One iteration: what it computes, and when it can fail. -/
theorem ncStep_sat (env : Env F) {n : Int} {intensity : F} {useFft : Bool} {s : NCState F}
    (hs : NCInv n s) {bd : Bound F} {f : Nat → F} {lambda : F}
    (hlam : lambda = intensity *ᶠ (bd.location -ᶠ s.prev))
    (hf : ∀ m : Nat, s.BStep ≤ m → (m : Int) ≤ s.bStep → Has s.buffers.src m (f m))
    (hc : bd.tag = .bSTEP → s.bStep < n) (hd : bd.tag = .BSTEP → s.BStep < n)
    (ha : env.asserts = false ∨ lt zero lambda = false ∨ 0 ≤ s.bStep - s.BStep + 1)
    (h1 : lt zero lambda = true → lt lambda zero = true → ∀ msg, E (.runtimeError msg))
    (h2 : lt zero lambda = false → eq lambda zero = false → E (.runtimeError negLambdaMsg)) :
    Sat E (fun s' => NCInv n s' ∧ s'.bStep = bNext bd.tag s.bStep ∧ s'.BStep = BNext bd.tag s.BStep ∧
      s'.prev = bd.location ∧
      ∀ m : Nat, s'.BStep ≤ m → (m : Int) ≤ s'.bStep →
        Has s'.buffers.src m (stepVal env useFft lambda bd.tag s.bStep.toNat s.BStep.toNat f m))
      (ncStep env intensity useFft s bd) := by
  unfold ncStep
  have hsl := DoubleBuffer.len_src hs.len0 hs.len1
  have hdl := DoubleBuffer.len_dest hs.len0 hs.len1
  have b0 := hs.b0; have bn := hs.bn; have B0 := hs.B0; have Bn := hs.Bn
  simp only [← hlam]
  have hbn' : 0 ≤ bNext bd.tag s.bStep ∧ bNext bd.tag s.bStep ≤ n := by
    unfold bNext; split
    · rename_i h; have := hc h; omega
    · omega
  have hBn' : 0 ≤ BNext bd.tag s.BStep ∧ BNext bd.tag s.BStep ≤ n := by
    unfold BNext; split
    · rename_i h; have := hd h; omega
    · omega
  by_cases hpos : lt zero lambda = true
  · rw [if_pos hpos]
    by_cases hneg : lt lambda zero = true
    · -- inconsistent comparison: `compute_array` throws
      have he := h1 hpos hneg
      unfold PmfGen.computeArray
      have ha' : env.asserts = false ∨ 0 ≤ s.bStep - s.BStep + 1 := by
        rcases ha with h | h | h
        · exact Or.inl h
        · rw [hpos] at h; cases h
        · exact Or.inr h
      have e1 : assertC env.asserts (decide (0 ≤ s.bStep - s.BStep + 1)) "k >= 0" = .ok () := by
        rcases ha' with h | h
        · rw [h]; exact assertC_off _
        · exact assertC_true _ (by simpa using h) _
      have e2 : assertC env.asserts (decide (s.bStep - s.BStep + 1 ≤ s.pmfgen.maxK)) "k <= max_k" = .ok () :=
        assertC_true _ (by have := hs.pmf.max; simp; omega) _
      rw [e1, e2]
      simp only [M_ok_bind, hneg, if_true, M_error_bind]
      exact he _
    have hneg' : lt lambda zero = false := by simpa using hneg
    refine Sat.bind (computeArray_sat env hs.pmf (by omega) (by omega) ?_ hneg') ?_
    · rcases ha with h | h | h
      · exact Or.inl h
      · rw [hpos] at h; cases h
      · exact Or.inr h
    intro g ⟨hg, hgv⟩
    rw [addrOf_eq (by omega) (by omega)]
    simp only [M_ok_bind]
    rw [addrOf_eq (by omega) (by omega)]
    simp only [M_ok_bind]
    have hconv : Sat E (fun r : Convolver F × List F => ConvInv (n + 1) r.1 ∧ (r.2.length : Int) = n + 1 ∧
        ∀ m : Nat, s.BStep ≤ m → (m : Int) ≤ s.bStep →
          Has r.2 m (convFn env useFft (s.bStep.toNat + 1 - s.BStep.toNat) (pmfVal lambda)
            (fun k => f (s.BStep.toNat + k)) (m - s.BStep.toNat)))
        (ncConvolve env useFft s.conv (s.bStep - s.BStep + 1) g.pmfArray s.buffers.src s.BStep
            s.buffers.dest s.BStep) := by
      unfold ncConvolve
      have ha : ∀ k : Nat, (k : Int) < s.bStep - s.BStep + 1 → Has g.pmfArray (0 + k) (pmfVal lambda k) := by
        intro k hk
        rw [Int.zero_add]
        exact hgv k (by omega)
      have hb : ∀ k : Nat, (k : Int) < s.bStep - s.BStep + 1 →
          Has s.buffers.src (s.BStep + k) (f (s.BStep.toNat + k)) := by
        intro k hk
        have := hf (s.BStep.toNat + k) (by omega) (by omega)
        have e : ((s.BStep.toNat + k : Nat) : Int) = s.BStep + k := by omega
        rwa [e] at this
      cases useFft with
      | true =>
        simp only [if_true]
        refine (convolve_sat env hs.conv (by omega) ha hb (by omega) (by omega)).mono ?_
        rintro ⟨cv, out⟩ ⟨h1, h2, h3⟩
        dsimp only at h1 h2 h3 ⊢
        refine ⟨h1, by omega, ?_⟩
        intro m hm0 hm1
        rw [h3]
        refine Or.inl ⟨hm0, by omega, ?_⟩
        unfold convFn
        rw [if_pos rfl]
        congr 1 <;> omega
      | false =>
        simp only [Bool.false_eq_true, if_false]
        refine Sat.bind (convolveSameSize_sat ha hb (by omega) (by omega)) ?_
        intro out ⟨h2, h3⟩
        refine ⟨hs.conv, by show (out.length : Int) = _; omega, ?_⟩
        intro m hm0 hm1
        show Has out _ _
        rw [h3]
        refine Or.inl ⟨hm0, by omega, ?_⟩
        unfold convFn
        rw [if_neg (by simp)]
        congr 1; omega
    refine Sat.bind hconv ?_
    rintro ⟨cv, dest⟩ ⟨hcv, hdl', hdv⟩
    dsimp only at hcv hdl' hdv ⊢
    refine Sat.bind (update_sat hdl' b0 B0 bn Bn hc hd) ?_
    rintro ⟨dest2, c', d'⟩ ⟨hl2, hc', hd', hv2⟩
    dsimp only at hl2 hc' hd' hv2 ⊢
    subst hc' hd'
    obtain ⟨l0, l1⟩ := DoubleBuffer.len_setDest hs.len0 hs.len1 hl2
    refine ⟨⟨l0, l1, hcv, hg, hbn'.1, hbn'.2, hBn'.1, hBn'.2⟩, rfl, rfl, rfl, ?_⟩
    intro m hm0 hm1
    dsimp only at hm0 hm1 ⊢
    rw [DoubleBuffer.src_setDest_flip]
    refine hv2 _ _ hm0 hm1 ⟨?_, ?_⟩
    · rintro ⟨e1, e2⟩
      unfold stepVal
      rw [if_pos ⟨e1, by omega⟩]
    · intro hn
      unfold stepVal
      rw [if_neg (fun h => hn ⟨h.1, by omega⟩), if_pos hpos]
      apply hdv
      · unfold BNext at hm0; split at hm0 <;> omega
      · unfold bNext at hm1
        split at hm1
        · rename_i h
          have : (m : Int) ≠ s.bStep + 1 := fun e => hn ⟨h, e⟩
          omega
        · omega
  · rw [if_neg hpos]
    have hpos' : lt zero lambda = false := by simpa using hpos
    by_cases heq : eq lambda zero = true
    · rw [if_pos heq]
      refine Sat.bind (update_sat hsl b0 B0 bn Bn hc hd) ?_
      rintro ⟨src2, c', d'⟩ ⟨hl2, hc', hd', hv2⟩
      dsimp only at hl2 hc' hd' hv2 ⊢
      subst hc' hd'
      obtain ⟨l0, l1⟩ := DoubleBuffer.len_setSrc hs.len0 hs.len1 hl2
      refine ⟨⟨l0, l1, hs.conv, hs.pmf, hbn'.1, hbn'.2, hBn'.1, hBn'.2⟩, rfl, rfl, rfl, ?_⟩
      intro m hm0 hm1
      dsimp only at hm0 hm1 ⊢
      rw [DoubleBuffer.src_setSrc]
      refine hv2 _ _ hm0 hm1 ⟨?_, ?_⟩
      · rintro ⟨e1, e2⟩
        unfold stepVal
        rw [if_pos ⟨e1, by omega⟩]
      · intro hn
        unfold stepVal
        rw [if_neg (fun h => hn ⟨h.1, by omega⟩), if_neg hpos]
        apply hf
        · unfold BNext at hm0; split at hm0 <;> omega
        · unfold bNext at hm1
          split at hm1
          · rename_i h
            have : (m : Int) ≠ s.bStep + 1 := fun e => hn ⟨h, e⟩
            omega
          · omega
    · rw [if_neg heq]
      exact h2 hpos' (by simpa using heq)

/-- Number of elements with a given tag. -/
def tagCount (tag : BoundType) (l : List (Bound F)) : Nat := (l.filter fun x => x.tag = tag).length

@[simp] theorem tagCount_nil (tag : BoundType) : tagCount tag ([] : List (Bound F)) = 0 := rfl
theorem tagCount_cons (tag : BoundType) (x : Bound F) (l : List (Bound F)) :
    tagCount tag (x :: l) = (if x.tag = tag then 1 else 0) + tagCount tag l := by
  unfold tagCount
  by_cases h : x.tag = tag <;> simp [h, Nat.add_comm]
theorem tagCount_append (tag : BoundType) (l l' : List (Bound F)) :
    tagCount tag (l ++ l') = tagCount tag l + tagCount tag l' := by
  simp [tagCount]
theorem tagCount_perm {tag : BoundType} {l l' : List (Bound F)} (h : l.Perm l') :
    tagCount tag l = tagCount tag l' := (h.filter _).length_eq

theorem filter_map_tag (tag t : BoundType) (v : List F) :
    tagCount tag (v.map fun x => (⟨x, t⟩ : Bound F)) = if t = tag then v.length else 0 := by
  induction v with
  | nil => simp
  | cons x v ih =>
    rw [List.map_cons, tagCount_cons, ih]
    split <;> simp [*, Nat.add_comm]

theorem tagCount_joined {sort : List (Bound F) → List (Bound F)} (hperm : ∀ l, (sort l).Perm l)
    (b B : List F) : tagCount .bSTEP (joinAllBounds sort b B) = b.length ∧
      tagCount .BSTEP (joinAllBounds sort b B) = B.length := by
  unfold joinAllBounds unsortedBounds
  rw [tagCount_append, tagCount_append, tagCount_perm (hperm _), tagCount_perm (hperm _),
    tagCount_append, tagCount_append, filter_map_tag, filter_map_tag, filter_map_tag, filter_map_tag]
  simp [tagCount_cons]

/-- The loop is memory safe: any arithmetic, any list of bounds with at most `n` steps of a kind. -/
theorem ncFold_safe (env : Env F) (hE : ∀ msg, E (.runtimeError msg)) (ha : env.asserts = false)
    {n : Int} {intensity : F} {useFft : Bool} (l : List (Bound F)) :
    ∀ s : NCState F, NCInv n s → s.bStep + tagCount .bSTEP l ≤ n → s.BStep + tagCount .BSTEP l ≤ n →
    Sat E (NCInv n) (l.foldlM (ncStep env intensity useFft) s) := by
  induction l with
  | nil => intro s hs _ _; exact hs
  | cons x l ih =>
    intro s hs hb hB
    rw [List.foldlM_cons]
    rw [tagCount_cons] at hb hB
    obtain ⟨f, hf⟩ := exists_fun (a := s.buffers.src)
    have hsl := DoubleBuffer.len_src hs.len0 hs.len1
    refine Sat.bind (ncStep_sat env hs rfl (f := f) ?_ ?_ ?_ (Or.inl ha) (fun _ _ => hE) (fun _ _ => hE _)) ?_
    · intro m _ hm; exact hf m (by have := hs.bn; omega)
    · intro h; rw [if_pos h] at hb; omega
    · intro h; rw [if_pos h] at hB; omega
    · intro s' ⟨hs', hb', hB', _⟩
      apply ih s' hs'
      · rw [hb']; unfold bNext; split
        · rename_i h; rw [if_pos h] at hb; push_cast at hb; omega
        · rename_i h; rw [if_neg h] at hb; push_cast at hb; omega
      · rw [hB']; unfold BNext; split
        · rename_i h; rw [if_pos h] at hB; push_cast at hB; omega
        · rename_i h; rw [if_neg h] at hB; push_cast at hB; omega

/-- The initial state of the loop. -/
theorem ncInit (env : Env F) {n : Int} (hn : 0 ≤ n) {g : PmfGen F} (hg : PmfInv (n + 1) g) {src : List F}
    (hsrc : (src.length : Int) = n + 1) :
    NCInv n { buffers := (DoubleBuffer.new (n + 1) (zero : F)).setSrc src, conv := Convolver.new env (n + 1),
              pmfgen := g, bStep := 0, BStep := 0, prev := zero } := by
  have l0 : ((DoubleBuffer.new (n + 1) (zero : F)).buf0.length : Int) = n + 1 := by
    simp [DoubleBuffer.new]; omega
  have l1 : ((DoubleBuffer.new (n + 1) (zero : F)).buf1.length : Int) = n + 1 := by
    simp [DoubleBuffer.new]; omega
  obtain ⟨h0, h1⟩ := DoubleBuffer.len_setSrc l0 l1 hsrc
  exact ⟨h0, h1, convInv_new env (by omega), hg, by simp, hn, by simp, hn⟩

theorem checkBoundaryVector_sat (hE : ∀ msg, E (.runtimeError msg)) {name : String} {n : Int} {v : List F} :
    Sat E (fun _ => (v.length : Int) = n) (checkBoundaryVector name n v) := by
  unfold checkBoundaryVector
  by_cases h : (v.length : Int) = n
  · rw [if_neg (by simpa using h)]
    split
    · exact hE _
    · split
      · exact hE _
      · exact h
  · rw [if_pos h]; exact hE _

/-- Memory safety of `ecdf2` (assertions compiled out). -/
theorem ecdf2_safe (env : Env F) (hE : ∀ msg, E (.runtimeError msg)) (ha : env.asserts = false)
    {sort : List (Bound F) → List (Bound F)} (hperm : ∀ l, (sort l).Perm l) (b B : List F) (useFft : Bool) :
    Sat E (fun _ => True) (ecdf2 env sort b B useFft) := by
  unfold ecdf2
  refine Sat.bind (checkBoundaryVector_sat hE) fun _ _ => ?_
  refine Sat.bind (checkBoundaryVector_sat hE) fun _ hB => ?_
  have hr : Sat E (fun probs => (probs.length : Int) = b.length + 1)
      (poissonProcessNoncrossingProbability env sort b.length (ofInt b.length) b B useFft) := by
    unfold poissonProcessNoncrossingProbability
    have hl0 : ((DoubleBuffer.new ((b.length : Int) + 1) (zero : F)).src.length : Int) = b.length + 1 := by
      simp [DoubleBuffer.new, DoubleBuffer.src]
    refine Sat.bind (wr_sat _ (by omega) (by omega)) fun src hsrc => ?_
    refine Sat.bind (pmfGen_new_sat env (by omega)) fun g hg => ?_
    have htc := tagCount_joined hperm b B
    refine Sat.bind (ncFold_safe env hE ha (joinAllBounds sort b B) _
      (ncInit env (by omega) hg (by omega)) ?_ ?_) ?_
    · show (0 : Int) + _ ≤ _; rw [htc.1]; omega
    · show (0 : Int) + _ ≤ _; rw [htc.2]; omega
    · intro s hs
      exact DoubleBuffer.len_src hs.len0 hs.len1
  refine Sat.bind hr fun probs hp => ?_
  refine Sat.bind (rd_sat (by omega) (by omega)) fun x _ => ?_
  refine Sat.bind (poissonPmf_sat env (by omega) (Or.inl ha)) fun p _ => ?_
  trivial

end CP
