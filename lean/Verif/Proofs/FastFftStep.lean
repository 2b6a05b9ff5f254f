import Verif.Proofs.FastNewStep
/-
One step of the loop of `ecdf2` with FFT, as compiled, for any arithmetic and any compiled code (cf. `Proofs/FastStep.lean`).
-/
set_option linter.unusedSectionVars false
set_option linter.unusedVariables false
namespace CP
variable {F : Type} [FOps F] {E : Fault → Prop}
open FOps

/-- Value at index `m` after a step from window `[d,c]` with contents `f`. -/
def stepValFft (co : FastCode F) (fft : FFTW F) (site : Nat) (lambda : F) (tag : BoundType) (c d : Nat) (f : Nat → F)
    (m : Nat) : F :=
  if tag = .bSTEP ∧ m = c + 1 then zero
  else if lt zero lambda then fastConvVal co fft site (c + 1 - d) (fastPmfVal co site lambda) (fun k => f (d + k)) (m - d)
  else f m

/-- One iteration: what it computes, and when it can fail. -/
theorem ncStepFast_fft_sat (c : FastCode F) (env : Env F) {n : Int} {intensity : F} {s : NCState F}
    (hs : NCInv n s) {bd : Bound F} (site : Nat) {f : Nat → F} {lambda : F}
    (hlam : lambda = intensity *ᶠ (bd.location -ᶠ s.prev))
    (hf : ∀ m : Nat, s.BStep ≤ m → (m : Int) ≤ s.bStep → Has s.buffers.src m (f m))
    (hc : bd.tag = .bSTEP → s.bStep < n) (hd : bd.tag = .BSTEP → s.BStep < n)
    (ha : env.asserts = false ∨ lt zero lambda = false ∨ 0 ≤ s.bStep - s.BStep + 1)
    (h1 : lt zero lambda = true → lt lambda zero = true → ∀ msg, E (.runtimeError msg))
    (h2 : lt zero lambda = false → eq lambda zero = false → E (.runtimeError negLambdaMsg)) :
    Sat E (fun s' => NCInv n s' ∧ s'.bStep = bNext bd.tag s.bStep ∧ s'.BStep = BNext bd.tag s.BStep ∧
      s'.prev = bd.location ∧
      ∀ m : Nat, s'.BStep ≤ m → (m : Int) ≤ s'.bStep →
        Has s'.buffers.src m (stepValFft c env.fft site lambda bd.tag s.bStep.toNat s.BStep.toNat f m))
      (ncStepFast c env intensity true s (bd, site)) := by
  unfold ncStepFast
  have hsl := DoubleBuffer.len_src hs.len0 hs.len1
  have hdl := DoubleBuffer.len_dest hs.len0 hs.len1
  have b0 := hs.b0; have bn := hs.bn; have B0 := hs.B0; have Bn := hs.Bn
  simp only [← hlam]
  have hbn' : 0 ≤ bNext bd.tag s.bStep ∧ bNext bd.tag s.bStep ≤ n := by
    unfold bNext; split
    · rename_i h; have := hc h; omega
    · omega
  have hBn' : 0 ≤ BNext bd.tag s.BStep ∧ BNext bd.tag s.BStep ≤ n := by
    unfold BNext; split
    · rename_i h; have := hd h; omega
    · omega
  by_cases hpos : lt zero lambda = true
  · rw [if_pos hpos]
    by_cases hneg : lt lambda zero = true
    · -- inconsistent comparison: `compute_array` throws
      have he := h1 hpos hneg
      unfold computeArrayFast
      have ha' : env.asserts = false ∨ 0 ≤ s.bStep - s.BStep + 1 := by
        rcases ha with h | h | h
        · exact Or.inl h
        · rw [hpos] at h; cases h
        · exact Or.inr h
      have e1 : assertC env.asserts (decide (0 ≤ s.bStep - s.BStep + 1)) "k >= 0" = .ok () := by
        rcases ha' with h | h
        · rw [h]; exact assertC_off _
        · exact assertC_true _ (by simpa using h) _
      have e2 : assertC env.asserts (decide (s.bStep - s.BStep + 1 ≤ s.pmfgen.maxK)) "k <= max_k" = .ok () :=
        assertC_true _ (by have := hs.pmf.max; simp; omega) _
      rw [e1, e2]
      simp only [M_ok_bind, hneg, if_true, M_error_bind]
      exact he _
    have hneg' : lt lambda zero = false := by simpa using hneg
    refine Sat.bind (computeArrayFast_sat c site env hs.pmf (by omega) (by omega) ?_ hneg') ?_
    · rcases ha with h | h | h
      · exact Or.inl h
      · rw [hpos] at h; cases h
      · exact Or.inr h
    intro g ⟨hg, hgv⟩
    rw [addrOf_eq (by omega) (by omega)]
    simp only [M_ok_bind]
    rw [addrOf_eq (by omega) (by omega)]
    simp only [M_ok_bind]
    have hconv : Sat E (fun r : Convolver F × List F => ConvInv (n + 1) r.1 ∧ (r.2.length : Int) = n + 1 ∧
        ∀ m : Nat, s.BStep ≤ m → (m : Int) ≤ s.bStep →
          Has r.2 m (fastConvVal c env.fft site (s.bStep.toNat + 1 - s.BStep.toNat) (fastPmfVal c site lambda)
            (fun k => f (s.BStep.toNat + k)) (m - s.BStep.toNat)))
        (ncConvolveFast c site env true s.conv (s.bStep - s.BStep + 1) g.pmfArray s.buffers.src s.BStep
            s.buffers.dest s.BStep) := by
      have ha : ∀ k : Nat, (k : Int) < s.bStep - s.BStep + 1 → Has g.pmfArray (0 + k) (fastPmfVal c site lambda k) := by
        intro k hk
        rw [Int.zero_add]
        exact hgv k (by omega)
      have hb : ∀ k : Nat, (k : Int) < s.bStep - s.BStep + 1 →
          Has s.buffers.src (s.BStep + k) (f (s.BStep.toNat + k)) := by
        intro k hk
        have := hf (s.BStep.toNat + k) (by omega) (by omega)
        have e : ((s.BStep.toNat + k : Nat) : Int) = s.BStep + k := by omega
        rwa [e] at this
      refine (ncConvolveFast_sat c site env hs.conv (by omega) (by omega) ha hb (by omega) (by omega)).mono ?_
      intro r ⟨h1, h2, h3⟩
      refine ⟨h1, by omega, ?_⟩
      intro m hm0 hm1
      rw [h3]
      refine Or.inl ⟨hm0, by omega, ?_⟩
      have e1 : (s.bStep - s.BStep + 1).toNat = s.bStep.toNat + 1 - s.BStep.toNat := by omega
      rw [e1]
      congr 1; omega
    refine Sat.bind hconv ?_
    rintro ⟨cv, dest⟩ ⟨hcv, hdl', hdv⟩
    dsimp only at hcv hdl' hdv ⊢
    refine Sat.bind (update_sat hdl' b0 B0 bn Bn hc hd) ?_
    rintro ⟨dest2, c', d'⟩ ⟨hl2, hc', hd', hv2⟩
    dsimp only at hl2 hc' hd' hv2 ⊢
    subst hc' hd'
    obtain ⟨l0, l1⟩ := DoubleBuffer.len_setDest hs.len0 hs.len1 hl2
    refine ⟨⟨l0, l1, hcv, hg, hbn'.1, hbn'.2, hBn'.1, hBn'.2⟩, rfl, rfl, rfl, ?_⟩
    intro m hm0 hm1
    dsimp only at hm0 hm1 ⊢
    rw [DoubleBuffer.src_setDest_flip]
    refine hv2 _ _ hm0 hm1 ⟨?_, ?_⟩
    · rintro ⟨e1, e2⟩
      unfold stepValFft
      rw [if_pos ⟨e1, by omega⟩]
    · intro hn
      unfold stepValFft
      rw [if_neg (fun h => hn ⟨h.1, by omega⟩), if_pos hpos]
      apply hdv
      · unfold BNext at hm0; split at hm0 <;> omega
      · unfold bNext at hm1
        split at hm1
        · rename_i h
          have : (m : Int) ≠ s.bStep + 1 := fun e => hn ⟨h, e⟩
          omega
        · omega
  · rw [if_neg hpos]
    have hpos' : lt zero lambda = false := by simpa using hpos
    by_cases heq : eq lambda zero = true
    · rw [if_pos heq]
      refine Sat.bind (update_sat hsl b0 B0 bn Bn hc hd) ?_
      rintro ⟨src2, c', d'⟩ ⟨hl2, hc', hd', hv2⟩
      dsimp only at hl2 hc' hd' hv2 ⊢
      subst hc' hd'
      obtain ⟨l0, l1⟩ := DoubleBuffer.len_setSrc hs.len0 hs.len1 hl2
      refine ⟨⟨l0, l1, hs.conv, hs.pmf, hbn'.1, hbn'.2, hBn'.1, hBn'.2⟩, rfl, rfl, rfl, ?_⟩
      intro m hm0 hm1
      dsimp only at hm0 hm1 ⊢
      rw [DoubleBuffer.src_setSrc]
      refine hv2 _ _ hm0 hm1 ⟨?_, ?_⟩
      · rintro ⟨e1, e2⟩
        unfold stepValFft
        rw [if_pos ⟨e1, by omega⟩]
      · intro hn
        unfold stepValFft
        rw [if_neg (fun h => hn ⟨h.1, by omega⟩), if_neg hpos]
        apply hf
        · unfold BNext at hm0; split at hm0 <;> omega
        · unfold bNext at hm1
          split at hm1
          · rename_i h
            have : (m : Int) ≠ s.bStep + 1 := fun e => hn ⟨h, e⟩
            omega
          · omega
    · rw [if_neg heq]
      exact h2 hpos' (by simpa using heq)


end CP
