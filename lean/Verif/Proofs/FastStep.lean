import Verif.Model.FastMath
import Verif.Proofs.Ecdf2Step
/-
One step of `ecdf2`'s loop as compiled, for any arithmetic and any compiled code.
-/
set_option linter.unusedSectionVars false
set_option linter.unusedVariables false
namespace CP
variable {F : Type} [FOps F] {E : Fault → Prop}
open FOps

/-- What the compiled code computes for `Pr[Poisson(lambda) = i]`. -/
def fastPmfVal (c : FastCode F) (site : Nat) (lambda : F) (i : Nat) : F :=
  if eq lambda zero then (if i = 0 then one else zero)
  else c.exp site i ((c.exponent site i).eval c.fma lambda (ofInt (i : Int)) (log lambda) (lgamma (ofInt ((i : Int) + 1))))

/-- Value computed by the compiled direct convolution at index `j`. -/
def fastConv (c : FastCode F) (site : Nat) (a b : Nat → F) (j : Nat) : F :=
  (c.sum site j).eval c.fma (fun k => if k ≤ j then a k else zero) (fun k => b (j - k))

/-- Value at index `m` after a step from window `[d,c]` with contents `f`. -/
def stepValFast (co : FastCode F) (site : Nat) (lambda : F) (tag : BoundType) (c d : Nat) (f : Nat → F)
    (m : Nat) : F :=
  if tag = .bSTEP ∧ m = c + 1 then zero
  else if lt zero lambda then fastConv co site (fastPmfVal co site lambda) (fun k => f (d + k)) (m - d)
  else f m

theorem computeArrayFast_sat (c : FastCode F) (site : Nat) (env : Env F) {m : Int} {g : PmfGen F} (hg : PmfInv m g) {lambda : F} {k : Int}
    (hk : k ≤ m) (hm : 0 ≤ m) (ha : env.asserts = false ∨ 0 ≤ k) (hl : lt lambda zero = false) :
    Sat E (fun g' => PmfInv m g' ∧ ∀ i : Nat, (i : Int) ≤ k → Has g'.pmfArray i (fastPmfVal c site lambda i))
      (computeArrayFast c site env g k lambda) := by
  unfold computeArrayFast
  refine Sat.bind (assertC_sat (by simpa using ha)) fun _ _ => ?_
  refine Sat.bind (assertC_sat (Or.inr (by have := hg.max; simp; omega))) fun _ _ => ?_
  rw [hl]
  have hlen := hg.len
  simp only [Bool.false_eq_true, if_false]
  by_cases hz : eq lambda (zero : F) = true
  · rw [if_pos hz]
    refine Sat.bind (wr_sat _ (by omega) (by omega)) ?_
    intro a1 ⟨hl1, h1⟩
    by_cases hk0 : k < 0
    · rw [forRange_empty (by omega)]
      refine ⟨⟨hg.max, hg.lut, by show (a1.length : Int) = _; omega⟩, fun i hi => by omega⟩
    refine Sat.bind (Sat.forRange (fun j (a : List F) => a.length = a1.length ∧
      ∀ i : Nat, (i : Int) < j → Has a i (fastPmfVal c site lambda i)) (by omega) ⟨rfl, ?_⟩ ?_) ?_
    · intro i hi
      have : i = 0 := by omega
      subst this
      rw [h1]
      refine Or.inl ⟨rfl, ?_⟩
      simp [fastPmfVal, hz, one]
    · intro j a hj0 hj1 ⟨hal, hai⟩
      refine (wr_sat _ (by omega) (by omega)).mono ?_
      intro a' ⟨hl', h'⟩
      refine ⟨by omega, fun i hi => ?_⟩
      rw [h']
      by_cases e : (i : Int) = j
      · refine Or.inl ⟨e, ?_⟩
        have : i ≠ 0 := by omega
        unfold fastPmfVal
        rw [if_pos hz, if_neg this]; rfl
      · exact Or.inr ⟨e, hai i (by omega)⟩
    · intro a ⟨hal, hai⟩
      exact ⟨⟨hg.max, hg.lut, by show (a.length : Int) = _; omega⟩, fun i hi => hai i (by omega)⟩
  · rw [if_neg hz]
    by_cases hk0 : k < 0
    · rw [forRange_empty (by omega)]
      exact ⟨⟨hg.max, hg.lut, hg.len⟩, fun i hi => by omega⟩
    refine Sat.bind (Sat.forRange (fun j (a : List F) => a.length = g.pmfArray.length ∧
      ∀ i : Nat, (i : Int) < j → Has a i (fastPmfVal c site lambda i)) (by omega) ⟨rfl, fun i hi => by omega⟩ ?_) ?_
    · intro j a hj0 hj1 ⟨hal, hai⟩
      have := hg.lut (j.toNat + 1) (by omega)
      have e : ((j.toNat + 1 : Nat) : Int) = j + 1 := by omega
      rw [e] at this
      rw [rd_eq this]
      refine (wr_sat _ (by omega) (by omega)).mono ?_
      intro a' ⟨hl', h'⟩
      refine ⟨by omega, fun i hi => ?_⟩
      rw [h']
      by_cases e : (i : Int) = j
      · refine Or.inl ⟨e, ?_⟩
        unfold fastPmfVal
        rw [if_neg hz, e, show j.toNat = i by omega]
      · exact Or.inr ⟨e, hai i (by omega)⟩
    · intro a ⟨hal, hai⟩
      exact ⟨⟨hg.max, hg.lut, by show (a.length : Int) = _; omega⟩, fun i hi => hai i (by omega)⟩

theorem convolveSameSizeFast_sat (c : FastCode F) (site : Nat) {size : Int} {src0 src1 dest : List F} {o0 o1 od : Int}
    {a b : Nat → F} (ho0 : 0 ≤ o0) (ho1 : 0 ≤ o1)
    (ha : ∀ k : Nat, (k : Int) < size → Has src0 (o0 + k) (a k))
    (hb : ∀ k : Nat, (k : Int) < size → Has src1 (o1 + k) (b k))
    (hod : 0 ≤ od) (hlen : od + size ≤ dest.length) :
    Sat E (fun d => d.length = dest.length ∧ ∀ j w, Has d j w ↔
      (od ≤ j ∧ j < od + size ∧ w = fastConv c site a b (j - od).toNat) ∨
      ((j < od ∨ od + size ≤ j) ∧ Has dest j w))
      (convolveSameSizeFast c site size src0 o0 src1 o1 dest od) := by
  unfold convolveSameSizeFast
  by_cases hs : 0 ≤ size
  · refine Sat.forRange (fun (i : Int) d => d.length = dest.length ∧ ∀ j w, Has d j w ↔
      (od ≤ j ∧ j < od + i ∧ w = fastConv c site a b (j - od).toNat) ∨
      ((j < od ∨ od + i ≤ j) ∧ Has dest j w)) hs ⟨rfl, ?_⟩ ?_
    · intro j w
      constructor
      · intro h; exact Or.inr ⟨by omega, h⟩
      · rintro (h | h)
        · omega
        · exact h.2
    · intro j d hj0 hj1 ⟨hl, hd⟩
      have hA : o0 + (j + 1) ≤ src0.length := by
        have := (ha j.toNat (by omega)).lt
        omega
      have hB : o1 + (j + 1) ≤ src1.length := by
        have := (hb j.toNat (by omega)).lt
        omega
      refine Sat.bind (rdBlock_sat ho0 (by omega) hA) ?_
      intro xs ⟨hxl, hxs⟩
      refine Sat.bind (rdBlock_sat ho1 (by omega) hB) ?_
      intro ys ⟨hyl, hys⟩
      have hget : ∀ {zs : List F} {k : Nat} {w : F}, Has zs k w → zs.getD k zero = w := by
        intro zs k w h
        have := h.2
        simp at this
        simp [List.getD, this]
      have hacc : (c.sum site j.toNat).eval c.fma (fun k => xs.getD k zero) (fun k => ys.getD (j.toNat - k) zero)
          = fastConv c site a b j.toNat := by
        unfold fastConv
        congr 1
        · funext k
          by_cases hk : k ≤ j.toNat
          · rw [if_pos hk]
            exact hget ((hxs k _).2 ⟨by omega, by omega, ha k (by omega)⟩)
          · rw [if_neg hk]
            have : xs.length ≤ k := by omega
            simp [List.getD, this]
        · funext k
          exact hget ((hys _ _).2 ⟨by omega, by omega, hb _ (by omega)⟩)
      rw [hacc]
      · refine Sat.mono (wr_sat _ (by omega) (by omega)) ?_
        intro d' ⟨hl', hd'⟩
        refine ⟨by omega, ?_⟩
        intro i w
        rw [hd', hd]
        constructor
        · rintro (⟨h1, h2⟩ | ⟨h1, h2⟩)
          · left
            refine ⟨by omega, by omega, ?_⟩
            rw [h2, h1]
            congr 1; omega
          · rcases h2 with h2 | h2
            · left; exact ⟨h2.1, by omega, h2.2.2⟩
            · right; exact ⟨by omega, h2.2⟩
        · rintro (⟨h1, h2, h3⟩ | ⟨h1, h2⟩)
          · by_cases e : i = od + j
            · left
              refine ⟨e, ?_⟩
              rw [h3]; congr 1; omega
            · right; exact ⟨e, Or.inl ⟨h1, by omega, h3⟩⟩
          · right; exact ⟨by omega, Or.inr ⟨by omega, h2⟩⟩
  · rw [forRange_empty (by omega)]
    refine ⟨rfl, fun j w => ⟨fun h => Or.inr ⟨by omega, h⟩, ?_⟩⟩
    rintro (h | h)
    · omega
    · exact h.2


/-- Below size 128, and without FFT, the direct loop is used. -/
theorem ncConvolveFast_direct (c : FastCode F) (site : Nat) (env : Env F) {useFft : Bool} {conv : Convolver F} {size : Int}
    (h : useFft = false ∨ (size < 128 ∧ size ≤ conv.maximumInputSize)) (pmf src : List F) (oS : Int) (dest : List F) (oD : Int) :
    ncConvolveFast c site env useFft conv size pmf src oS dest oD
      = (convolveSameSizeFast c site size pmf 0 src oS dest oD >>= fun d => .ok (conv, d)) := by
  unfold ncConvolveFast convolveFast MINIMUM_SIZE_FOR_FFTW_CONVOLUTION
  rcases h with h | ⟨h1, h2⟩
  · rw [h]; rfl
  · cases useFft with
    | false => rfl
    | true =>
      rw [if_pos rfl, if_neg (by omega)]
      by_cases h0 : size ≤ 0
      · rw [if_pos h0]
        have : convolveSameSizeFast c site size pmf 0 src oS dest oD = .ok dest := by
          unfold convolveSameSizeFast
          rw [forRange_empty h0]
        rw [this]; rfl
      · rw [if_neg h0, if_pos h1]

/-- One iteration: what it computes, and when it can fail. -/
theorem ncStepFast_sat (c : FastCode F) (env : Env F) {n : Int} {intensity : F} {useFft : Bool} {s : NCState F}
    (hs : NCInv n s) (hsm : useFft = false ∨ n + 1 < 128) {bd : Bound F} (site : Nat) {f : Nat → F} {lambda : F}
    (hlam : lambda = intensity *ᶠ (bd.location -ᶠ s.prev))
    (hf : ∀ m : Nat, s.BStep ≤ m → (m : Int) ≤ s.bStep → Has s.buffers.src m (f m))
    (hc : bd.tag = .bSTEP → s.bStep < n) (hd : bd.tag = .BSTEP → s.BStep < n)
    (ha : env.asserts = false ∨ lt zero lambda = false ∨ 0 ≤ s.bStep - s.BStep + 1)
    (h1 : lt zero lambda = true → lt lambda zero = true → ∀ msg, E (.runtimeError msg))
    (h2 : lt zero lambda = false → eq lambda zero = false → E (.runtimeError negLambdaMsg)) :
    Sat E (fun s' => NCInv n s' ∧ s'.bStep = bNext bd.tag s.bStep ∧ s'.BStep = BNext bd.tag s.BStep ∧
      s'.prev = bd.location ∧
      ∀ m : Nat, s'.BStep ≤ m → (m : Int) ≤ s'.bStep →
        Has s'.buffers.src m (stepValFast c site lambda bd.tag s.bStep.toNat s.BStep.toNat f m))
      (ncStepFast c env intensity useFft s (bd, site)) := by
  unfold ncStepFast
  have hsl := DoubleBuffer.len_src hs.len0 hs.len1
  have hdl := DoubleBuffer.len_dest hs.len0 hs.len1
  have b0 := hs.b0; have bn := hs.bn; have B0 := hs.B0; have Bn := hs.Bn
  simp only [← hlam]
  have hbn' : 0 ≤ bNext bd.tag s.bStep ∧ bNext bd.tag s.bStep ≤ n := by
    unfold bNext; split
    · rename_i h; have := hc h; omega
    · omega
  have hBn' : 0 ≤ BNext bd.tag s.BStep ∧ BNext bd.tag s.BStep ≤ n := by
    unfold BNext; split
    · rename_i h; have := hd h; omega
    · omega
  by_cases hpos : lt zero lambda = true
  · rw [if_pos hpos]
    by_cases hneg : lt lambda zero = true
    · -- inconsistent comparison: `compute_array` throws
      have he := h1 hpos hneg
      unfold computeArrayFast
      have ha' : env.asserts = false ∨ 0 ≤ s.bStep - s.BStep + 1 := by
        rcases ha with h | h | h
        · exact Or.inl h
        · rw [hpos] at h; cases h
        · exact Or.inr h
      have e1 : assertC env.asserts (decide (0 ≤ s.bStep - s.BStep + 1)) "k >= 0" = .ok () := by
        rcases ha' with h | h
        · rw [h]; exact assertC_off _
        · exact assertC_true _ (by simpa using h) _
      have e2 : assertC env.asserts (decide (s.bStep - s.BStep + 1 ≤ s.pmfgen.maxK)) "k <= max_k" = .ok () :=
        assertC_true _ (by have := hs.pmf.max; simp; omega) _
      rw [e1, e2]
      simp only [M_ok_bind, hneg, if_true, M_error_bind]
      exact he _
    have hneg' : lt lambda zero = false := by simpa using hneg
    refine Sat.bind (computeArrayFast_sat c site env hs.pmf (by omega) (by omega) ?_ hneg') ?_
    · rcases ha with h | h | h
      · exact Or.inl h
      · rw [hpos] at h; cases h
      · exact Or.inr h
    intro g ⟨hg, hgv⟩
    rw [addrOf_eq (by omega) (by omega)]
    simp only [M_ok_bind]
    rw [addrOf_eq (by omega) (by omega)]
    simp only [M_ok_bind]
    have hconv : Sat E (fun r : Convolver F × List F => ConvInv (n + 1) r.1 ∧ (r.2.length : Int) = n + 1 ∧
        ∀ m : Nat, s.BStep ≤ m → (m : Int) ≤ s.bStep →
          Has r.2 m (fastConv c site (fastPmfVal c site lambda)
            (fun k => f (s.BStep.toNat + k)) (m - s.BStep.toNat)))
        (ncConvolveFast c site env useFft s.conv (s.bStep - s.BStep + 1) g.pmfArray s.buffers.src s.BStep
            s.buffers.dest s.BStep) := by
      have ha : ∀ k : Nat, (k : Int) < s.bStep - s.BStep + 1 → Has g.pmfArray (0 + k) (fastPmfVal c site lambda k) := by
        intro k hk
        rw [Int.zero_add]
        exact hgv k (by omega)
      have hb : ∀ k : Nat, (k : Int) < s.bStep - s.BStep + 1 →
          Has s.buffers.src (s.BStep + k) (f (s.BStep.toNat + k)) := by
        intro k hk
        have := hf (s.BStep.toNat + k) (by omega) (by omega)
        have e : ((s.BStep.toNat + k : Nat) : Int) = s.BStep + k := by omega
        rwa [e] at this
      rw [ncConvolveFast_direct c site env (by
        rcases hsm with h | h
        · exact Or.inl h
        · exact Or.inr ⟨by omega, by rw [hs.conv.max]; omega⟩)]
      refine Sat.bind (convolveSameSizeFast_sat c site (by omega) (by omega) ha hb (by omega) (by omega)) ?_
      intro out ⟨h2, h3⟩
      refine ⟨hs.conv, by show (out.length : Int) = _; omega, ?_⟩
      intro m hm0 hm1
      show Has out _ _
      rw [h3]
      refine Or.inl ⟨hm0, by omega, ?_⟩
      congr 1; omega
    refine Sat.bind hconv ?_
    rintro ⟨cv, dest⟩ ⟨hcv, hdl', hdv⟩
    dsimp only at hcv hdl' hdv ⊢
    refine Sat.bind (update_sat hdl' b0 B0 bn Bn hc hd) ?_
    rintro ⟨dest2, c', d'⟩ ⟨hl2, hc', hd', hv2⟩
    dsimp only at hl2 hc' hd' hv2 ⊢
    subst hc' hd'
    obtain ⟨l0, l1⟩ := DoubleBuffer.len_setDest hs.len0 hs.len1 hl2
    refine ⟨⟨l0, l1, hcv, hg, hbn'.1, hbn'.2, hBn'.1, hBn'.2⟩, rfl, rfl, rfl, ?_⟩
    intro m hm0 hm1
    dsimp only at hm0 hm1 ⊢
    rw [DoubleBuffer.src_setDest_flip]
    refine hv2 _ _ hm0 hm1 ⟨?_, ?_⟩
    · rintro ⟨e1, e2⟩
      unfold stepValFast
      rw [if_pos ⟨e1, by omega⟩]
    · intro hn
      unfold stepValFast
      rw [if_neg (fun h => hn ⟨h.1, by omega⟩), if_pos hpos]
      apply hdv
      · unfold BNext at hm0; split at hm0 <;> omega
      · unfold bNext at hm1
        split at hm1
        · rename_i h
          have : (m : Int) ≠ s.bStep + 1 := fun e => hn ⟨h, e⟩
          omega
        · omega
  · rw [if_neg hpos]
    have hpos' : lt zero lambda = false := by simpa using hpos
    by_cases heq : eq lambda zero = true
    · rw [if_pos heq]
      refine Sat.bind (update_sat hsl b0 B0 bn Bn hc hd) ?_
      rintro ⟨src2, c', d'⟩ ⟨hl2, hc', hd', hv2⟩
      dsimp only at hl2 hc' hd' hv2 ⊢
      subst hc' hd'
      obtain ⟨l0, l1⟩ := DoubleBuffer.len_setSrc hs.len0 hs.len1 hl2
      refine ⟨⟨l0, l1, hs.conv, hs.pmf, hbn'.1, hbn'.2, hBn'.1, hBn'.2⟩, rfl, rfl, rfl, ?_⟩
      intro m hm0 hm1
      dsimp only at hm0 hm1 ⊢
      rw [DoubleBuffer.src_setSrc]
      refine hv2 _ _ hm0 hm1 ⟨?_, ?_⟩
      · rintro ⟨e1, e2⟩
        unfold stepValFast
        rw [if_pos ⟨e1, by omega⟩]
      · intro hn
        unfold stepValFast
        rw [if_neg (fun h => hn ⟨h.1, by omega⟩), if_neg hpos]
        apply hf
        · unfold BNext at hm0; split at hm0 <;> omega
        · unfold bNext at hm1
          split at hm1
          · rename_i h
            have : (m : Int) ≠ s.bStep + 1 := fun e => hn ⟨h, e⟩
            omega
          · omega
    · rw [if_neg heq]
      exact h2 hpos' (by simpa using heq)


end CP
