import Verif.Proofs.Ecdf2Step
import Verif.Proofs.FftExact
import Verif.Proofs.PmfExact
import Verif.Proofs.Events
/-
Exact value of `ecdf2`'s loop: it computes the law of the counting process under the window
constraints.
-/
set_option linter.unusedVariables false
open Finset MeasureTheory
namespace CP.Spec
noncomputable section
variable {E : Fault → Prop}

/-- A boundary point with a real location. -/
abbrev RBound := ℝ × BoundType

/-- The corresponding element of the program's list. -/
def toB (y : RBound) : Bound XR := ⟨XR.fin y.1, y.2⟩

/-- New number of lower steps. -/
def cN (tag : BoundType) (c : ℕ) : ℕ := if tag = .bSTEP then c + 1 else c
/-- New number of upper steps. -/
def dN (tag : BoundType) (d : ℕ) : ℕ := if tag = .BSTEP then d + 1 else d

/-- The event checked by processing the points of `L` with initial step counts `c`, `d`. -/
def win (n : ℕ) : ℕ → ℕ → List RBound → Set (Fin n → ℝ)
  | _, _, [] => Set.univ
  | c, d, y :: l => {x | dN y.2 d ≤ count y.1 x ∧ count y.1 x ≤ c} ∩ win n (cN y.2 c) (dN y.2 d) l

/-- The assertion `cur_size >= 0` holds at every convolution. -/
def noAbort : ℝ → ℕ → ℕ → List RBound → Prop
  | _, _, _, [] => True
  | t, c, d, y :: l => (t < y.1 → d ≤ c + 1) ∧ noAbort y.1 (cN y.2 c) (dN y.2 d) l

/-- The loop state represents the law `v` at time `t` with step counts `c`, `d`. -/
structure Rep (n : ℕ) (s : NCState XR) (t : ℝ) (v : ℕ → ℝ) (c d : ℕ) : Prop where
  inv : NCInv n s
  b : s.bStep = c
  B : s.BStep = d
  prev : s.prev = XR.fin t
  supp : ∀ m, (m < d ∨ c < m) → v m = 0
  val : ∀ m : ℕ, d ≤ m → m ≤ c → Has s.buffers.src m (XR.fin (pw n t v m))

theorem convFn_fin {env : Env XR} (hf : ExactFFT env.fft) {useFft : Bool} {size : ℕ} (a b : ℕ → ℝ)
    {j : ℕ} (hj : j < size) :
    convFn env useFft size (fun k => XR.fin (a k)) (fun k => XR.fin (b k)) j
      = XR.fin (∑ k ∈ range (j + 1), a k * b (j - k)) := by
  unfold convFn
  by_cases h : useFft = true
  · rw [if_pos h]; exact convVal_fin hf a b hj
  · rw [if_neg h]; exact naiveConv_fin a b j

theorem shift_sum {f g : ℕ → ℝ} {d m : ℕ} (hd : d ≤ m) (hz : ∀ l, l < d → f l = 0) :
    ∑ k ∈ range (m - d + 1), g k * f (d + (m - d - k)) = ∑ l ∈ range (m + 1), f l * g (m - l) := by
  have hs := Finset.sum_range_add (fun l => f l * g (m - l)) d (m - d + 1)
  have e : d + (m - d + 1) = m + 1 := by omega
  rw [e] at hs
  rw [hs, Finset.sum_eq_zero (s := range d), zero_add]
  · rw [← Finset.sum_range_reflect]
    refine Finset.sum_congr rfl fun k hk => ?_
    have : k < m - d + 1 := Finset.mem_range.mp hk
    have e1 : m - d + 1 - 1 - k = m - (d + k) := by omega
    have e2 : d + (m - d - (m - (d + k))) = d + k := by omega
    rw [e1, e2]; ring
  · intro l hl
    rw [hz l (Finset.mem_range.mp hl), zero_mul]

theorem pw_same {n : ℕ} {t t' : ℝ} {v : ℕ → ℝ} (W : ℕ → Prop) [DecidablePred W] {m : ℕ} (hW : W m)
    (hz : (n : ℝ) * (t' - t) = 0) : pw n t' (vstep (t' - t) W v) m = pw n t v m := by
  rw [pw_step, if_pos hW, hz, Finset.sum_eq_single m]
  · simp [pois_zero]
  · intro l hl hne
    have : l < m + 1 := Finset.mem_range.mp hl
    rw [pois_zero, if_neg (by omega), mul_zero]
  · intro h; exact absurd (Finset.mem_range.mpr (by omega)) h

/-- One step of the loop in exact arithmetic. -/
theorem ncStep_exact (env : Env XR) (hf : ExactFFT env.fft) {n : ℕ} {useFft : Bool} {s : NCState XR}
    {t : ℝ} {v : ℕ → ℝ} {c d : ℕ} (hr : Rep n s t v c d) (y : RBound) (ht : t ≤ y.1)
    (hc : y.2 = .bSTEP → c < n) (hd : y.2 = .BSTEP → d < n)
    (ha : env.asserts = false ∨ (t < y.1 → d ≤ c + 1)) :
    Sat E (fun s' => Rep n s' y.1 (vstep (y.1 - t) (fun m => dN y.2 d ≤ m ∧ m ≤ c) v) (cN y.2 c) (dN y.2 d))
      (ncStep env (XR.fin n) useFft s (toB y)) := by
  have hb := hr.b; have hB := hr.B
  have hlam : (XR.fin ((n : ℝ) * (y.1 - t)) : XR) = FOps.mul (XR.fin (n : ℝ)) (FOps.sub (toB y).location s.prev) := by
    rw [hr.prev]; simp [toB]
  have hnn : 0 ≤ (n : ℝ) * (y.1 - t) := mul_nonneg (Nat.cast_nonneg _) (by linarith)
  refine (ncStep_sat env hr.inv hlam (f := fun m => XR.fin (pw n t v m)) ?_ ?_ ?_ ?_ ?_ ?_).mono ?_
  · intro m h1 h2; exact hr.val m (by omega) (by omega)
  · intro h; have := hc h; omega
  · intro h; have := hd h; omega
  · rcases ha with ha | ha
    · exact Or.inl ha
    · right
      by_cases htt : t < y.1
      · right; have := ha htt; omega
      · left
        have : y.1 = t := le_antisymm (not_lt.mp htt) ht
        simp [this]
  · intro _ h
    simp only [XR.zero_eq, XR.lt_fin, decide_eq_true_eq] at h
    exact absurd hnn (not_le.mpr h)
  · intro h1 h2
    simp only [XR.zero_eq, XR.lt_fin, XR.eq_fin, decide_eq_false_iff_not] at h1 h2
    exact absurd (le_antisymm (not_lt.mp h1) hnn) h2
  · intro s' ⟨hinv, hb', hB', hprev, hval⟩
    have hb'' : s'.bStep = (cN y.2 c : ℕ) := by
      rw [hb', hb]; by_cases h : y.2 = .bSTEP <;> simp [bNext, cN, toB, h]
    have hB'' : s'.BStep = (dN y.2 d : ℕ) := by
      rw [hB', hB]; by_cases h : y.2 = .BSTEP <;> simp [BNext, dN, toB, h]
    refine ⟨hinv, hb'', hB'', by rw [hprev]; rfl, ?_, ?_⟩
    · intro m hm
      unfold vstep
      rw [if_neg]
      rintro ⟨h1, h2⟩
      rcases hm with hm | hm
      · omega
      · unfold cN at hm; split at hm <;> omega
    · intro m hm1 hm2
      have hv := hval m (by omega) (by omega)
      rw [hb, hB] at hv
      simp only [Int.toNat_natCast] at hv
      convert hv using 1
      unfold stepVal
      by_cases h1 : (toB y).tag = .bSTEP ∧ m = c + 1
      · rw [if_pos h1, pw_step, if_neg (by omega), XR.zero_eq]
      · rw [if_neg h1]
        have hmc : m ≤ c := by
          unfold cN at hm2
          split at hm2
          · rename_i h
            by_contra hh
            exact h1 ⟨h, by omega⟩
          · exact hm2
        have hdm : d ≤ m := by
          unfold dN at hm1; split at hm1 <;> omega
        by_cases hpos : 0 < (n : ℝ) * (y.1 - t)
        · rw [if_pos (by simpa using hpos), pw_step, if_pos ⟨hm1, hmc⟩]
          have e : pmfVal (XR.fin ((n : ℝ) * (y.1 - t))) = fun k => XR.fin (pois ((n : ℝ) * (y.1 - t)) k) := by
            funext k; exact pmfVal_fin hnn k
          rw [e, convFn_fin hf _ (fun k => pw n t v (d + k)) (by omega), XR.fin_inj]
          rw [shift_sum hdm]
          intro l hl
          unfold pw
          rw [hr.supp l (Or.inl hl), mul_zero]
        · rw [if_neg (by simpa using hpos), pw_same _ ⟨hm1, hmc⟩ (le_antisymm (not_lt.mp hpos) hnn)]

/-- Number of points with a given tag. -/
def tc (tag : BoundType) (l : List RBound) : ℕ := (l.filter fun x => x.2 = tag).length

theorem tc_cons (tag : BoundType) (x : RBound) (l : List RBound) :
    tc tag (x :: l) = (if x.2 = tag then 1 else 0) + tc tag l := by
  unfold tc
  by_cases h : x.2 = tag <;> simp [h, Nat.add_comm]

theorem cN_tc (y : RBound) (c : ℕ) (l : List RBound) : cN y.2 c + tc .bSTEP l = c + tc .bSTEP (y :: l) := by
  rw [tc_cons]; unfold cN; split <;> omega
theorem dN_tc (y : RBound) (d : ℕ) (l : List RBound) : dN y.2 d + tc .BSTEP l = d + tc .BSTEP (y :: l) := by
  rw [tc_cons]; unfold dN; split <;> omega

/-- The whole loop in exact arithmetic. -/
theorem ncFold_exact (env : Env XR) (hf : ExactFFT env.fft) {n : ℕ} {useFft : Bool} (L : List RBound) :
    ∀ (s : NCState XR) (t : ℝ) (v : ℕ → ℝ) (c d : ℕ) (C : Set (Fin n → ℝ)), Rep n s t v c d →
    CountLaw n t v C → 0 ≤ t → (∀ y ∈ L, t ≤ y.1) → (∀ y ∈ L, y.1 ≤ 1) → L.Pairwise (fun x y => x.1 ≤ y.1) →
    c + tc .bSTEP L ≤ n → d + tc .BSTEP L ≤ n →
    (env.asserts = false ∨ noAbort t c d L) →
    Sat E (fun s' => ∃ v', Rep n s' ((L.getLast?.map Prod.fst).getD t) v' (c + tc .bSTEP L) (d + tc .BSTEP L) ∧
        CountLaw n ((L.getLast?.map Prod.fst).getD t) v' (C ∩ win n c d L))
      ((L.map toB).foldlM (ncStep env (XR.fin n) useFft) s) := by
  induction L with
  | nil =>
    intro s t v c d C hr hC _ _ _ _ _ _ _
    refine ⟨v, hr, ?_⟩
    simpa [win] using hC
  | cons y L ih =>
    intro s t v c d C hr hC h0 hge h1 hp hc hd ha
    rw [List.map_cons, List.foldlM_cons]
    have hty := hge y (by simp)
    have hy1 := h1 y (by simp)
    rw [List.pairwise_cons] at hp
    have hcc := cN_tc y c L
    have hdd := dN_tc y d L
    refine Sat.bind (ncStep_exact env hf hr y hty ?_ ?_ ?_) ?_
    · intro h; rw [tc_cons, if_pos h] at hc; omega
    · intro h; rw [tc_cons, if_pos h] at hd; omega
    · rcases ha with ha | ha
      · exact Or.inl ha
      · exact Or.inr ha.1
    · intro s' hr'
      have hC' := hC.step h0 hty hy1 (fun m => dN y.2 d ≤ m ∧ m ≤ c)
      have := ih s' y.1 _ _ _ _ hr' hC' (h0.trans hty) hp.1 (fun z hz => h1 z (by simp [hz])) hp.2
        (by omega) (by omega) (by
          rcases ha with ha | ha
          · exact Or.inl ha
          · exact Or.inr ha.2)
      refine this.mono ?_
      rintro s'' ⟨v', hr'', hC''⟩
      have e : ((y :: L).getLast?.map Prod.fst).getD t = (L.getLast?.map Prod.fst).getD y.1 := by
        cases L with
        | nil => simp
        | cons z L => simp [List.getLast?_cons]
      rw [e, ← hcc, ← hdd]
      refine ⟨v', hr'', ?_⟩
      convert hC'' using 1
      simp only [win]
      rw [Set.inter_assoc]

end
end CP.Spec
