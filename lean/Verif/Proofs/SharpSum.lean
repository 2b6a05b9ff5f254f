import Verif.Proofs.FastSum
/-
Forward error of a sum of products evaluated in any order, with or without fused multiply-add, when the factors of different terms
have different accuracies.
-/
set_option linter.unusedVariables false
open Finset
namespace CP.Spec
noncomputable section
variable {F : Type} [FOps F] {R : FloatModel F} {c : FastCode F} {n : ℕ} {etaE expMin : ℝ}
open FOps

/-- A sum of products in any order. -/
theorem sumTree_sharp (hc : FastOps R c n etaE expMin) {a b : ℕ → F} {α β : ℕ → ℝ} {W H J : ℕ} {A A' D : ℝ}
    (hα : ∀ k, 0 ≤ α k) (hβ : ∀ k, 0 ≤ β k) (hβ1 : ∀ k, β k ≤ 1) (hA : 0 ≤ A) (hA' : 0 ≤ A')
    (hD : D = A' + A' * A + R.eta) (hO : (1 + (A + J * D)) * R.g ^ (W + H) ≤ R.Omega) :
    ∀ t : SumTree, (∀ k ∈ t.terms, ∃ P K : ℕ, P + K ≤ W ∧ Approx R P A' (a k) (α k) ∧ Approx R K A (b k) (β k)) →
      (t.terms.map α).sum ≤ 1 → t.terms.length ≤ J → t.height ≤ H →
      Approx R (W + t.height) ((t.terms.map α).sum * A + t.terms.length * D) (t.eval c.fma a b)
        (t.terms.map fun k => α k * β k).sum := by
  have heta := R.eta_nonneg
  have hD0 : 0 ≤ D := by rw [hD]; positivity
  have hs0 : ∀ l : List ℕ, 0 ≤ (l.map α).sum := fun l => List.sum_nonneg (by simpa using fun k _ => hα k)
  have hp0 : ∀ l : List ℕ, 0 ≤ (l.map fun k => α k * β k).sum :=
    fun l => List.sum_nonneg (by simpa using fun k _ => mul_nonneg (hα k) (hβ k))
  have hple : ∀ l : List ℕ, (l.map fun k => α k * β k).sum ≤ (l.map α).sum :=
    fun l => List.sum_le_sum fun k _ => mul_le_of_le_one_right (hα k) (hβ1 k)
  have hOm : ∀ (l : List ℕ) (m : ℕ) (E : ℝ), (l.map α).sum ≤ 1 → l.length ≤ J → m ≤ W + H →
      E ≤ (l.map α).sum * A + l.length * D →
      0 ≤ (l.map fun k => α k * β k).sum + E →
      ((l.map fun k => α k * β k).sum + E) * R.g ^ m ≤ R.Omega := by
    intro l m E h1 h2 h3 h4 h5
    refine le_trans (mul_le_mul ?_ (R.pow_le h3) (R.pow_pos' _).le ?_) hO
    · have e1 : (l.map α).sum * A ≤ A := mul_le_of_le_one_left hA h1
      have e2 : (l.length : ℝ) * D ≤ J * D := mul_le_mul_of_nonneg_right (by exact_mod_cast h2) hD0
      linarith [hple l]
    · positivity
  intro t
  induction t with
  | zero =>
    intro _ _ _ _
    simp only [SumTree.terms, SumTree.eval, SumTree.height, List.map_nil, List.sum_nil, List.length_nil, Nat.cast_zero, zero_mul, add_zero]
    exact Approx.zero.mono le_rfl le_rfl (by omega) le_rfl
  | prod k =>
    intro ha h1 h2 h3
    obtain ⟨P, K, hPK, hak, hbk⟩ := ha k (by simp [SumTree.terms])
    have e : α k * A + A' + A' * A + R.eta = ((SumTree.prod k).terms.map α).sum * A + (SumTree.prod k).terms.length * D := by
      simp [SumTree.terms, hD]; ring
    have := hak.mul hbk (hα k) (hβ k) (hβ1 k) hA' hA (by
      have := hOm (SumTree.prod k).terms (P + K + 1) (α k * A + A' + A' * A + R.eta) h1 h2
        (by simp only [SumTree.height] at h3; omega) e.le (by
          have := hα k
          simp only [SumTree.terms, List.map_cons, List.map_nil, List.sum_cons, List.sum_nil, add_zero]
          have := mul_nonneg (hα k) (hβ k)
          positivity)
      simpa [SumTree.terms] using this)
    have this := this.mono (mul_nonneg (hα k) (hβ k)) (by have := hα k; positivity) (L := W + 1) (by omega) le_rfl
    rw [e] at this
    simpa [SumTree.terms, SumTree.eval, SumTree.height] using this
  | fma k t ih =>
    intro ha h1 h2 h3
    simp only [SumTree.terms, List.map_cons, List.sum_cons, List.length_cons, SumTree.height] at h1 h2 h3
    obtain ⟨P, K, hPK, hak, hbk⟩ := ha k (by simp [SumTree.terms])
    have h0 := hs0 t.terms
    have ht := ih (fun k' hk' => ha k' (by simp [SumTree.terms, hk']))
      (by linarith [hα k]) (by omega) (by omega)
    have e : α k * A + A' + A' * A + R.eta + ((t.terms.map α).sum * A + t.terms.length * D)
        = ((SumTree.fma k t).terms.map α).sum * A + (SumTree.fma k t).terms.length * D := by
      simp [SumTree.terms, hD]; ring
    have htA : 0 ≤ (t.terms.map α).sum * A + t.terms.length * D := by positivity
    have hkk := mul_nonneg (hα k) (hβ k)
    have hαk := hα k
    have hpt := hp0 t.terms
    have := Approx.fma hc hak hbk ht (hα k) (hβ k) (hp0 _) (hβ1 k) hA' hA htA (by omega) (by
      have := hOm (SumTree.fma k t).terms (W + t.height + 1) _ (by simpa [SumTree.terms] using h1)
        (by simpa [SumTree.terms] using h2) (by omega) e.le (by
          simp only [SumTree.terms, List.map_cons, List.sum_cons]
          positivity)
      simpa [SumTree.terms] using this)
    rw [e] at this
    simpa [SumTree.terms, SumTree.eval, SumTree.height, Nat.add_assoc] using this
  | add t u iht ihu =>
    intro ha h1 h2 h3
    simp only [SumTree.terms, List.map_append, List.sum_append, List.length_append, SumTree.height] at h1 h2 h3
    have h0t := hs0 t.terms
    have h0u := hs0 u.terms
    have hpt := hp0 t.terms
    have hpu := hp0 u.terms
    have hmt : t.height ≤ max t.height u.height := le_max_left _ _
    have hmu : u.height ≤ max t.height u.height := le_max_right _ _
    have ht := iht (fun k' hk' => ha k' (by simp [SumTree.terms, hk']))
      (by linarith) (by omega) (by omega)
    have hu := ihu (fun k' hk' => ha k' (by simp [SumTree.terms, hk']))
      (by linarith) (by omega) (by omega)
    have hA1 : 0 ≤ (t.terms.map α).sum * A + t.terms.length * D := by positivity
    have hA2 : 0 ≤ (u.terms.map α).sum * A + u.terms.length * D := by positivity
    have ht' := ht.mono hpt hA1 (L := W + max t.height u.height) (by omega) le_rfl
    have hu' := hu.mono hpu hA2 (L := W + max t.height u.height) (by omega) le_rfl
    have e : (t.terms.map α).sum * A + t.terms.length * D + ((u.terms.map α).sum * A + u.terms.length * D)
        = ((SumTree.add t u).terms.map α).sum * A + (SumTree.add t u).terms.length * D := by
      simp [SumTree.terms]; ring
    have := ht'.add hu' hpt hpu hA1 hA2 (by
      have := hOm (SumTree.add t u).terms (W + max t.height u.height) _ (by simpa [SumTree.terms] using h1)
        (by simpa [SumTree.terms] using h2) (by omega) e.le (by
          simp only [SumTree.terms, List.map_append, List.sum_append]
          positivity)
      simpa [SumTree.terms] using this)
    rw [e] at this
    simpa [SumTree.terms, SumTree.eval, SumTree.height, Nat.add_assoc] using this

/-- The compiled inner loop. -/
theorem fastConv_sharp (hc : FastOps R c n etaE expMin) {t : SumTree} {a b : ℕ → F} {α β : ℕ → ℝ} {j W e : ℕ} {A A' : ℝ}
    (hterms : t.terms.Perm (List.range (j + 1))) (hh : t.height ≤ j + 2 + e)
    (ha : ∀ k ≤ j, ∃ P K : ℕ, P + K ≤ W ∧ Approx R P A' (a k) (α k) ∧ Approx R K A (b (j - k)) (β (j - k)))
    (hα : ∀ k, 0 ≤ α k) (hα1 : ∑ k ∈ range (j + 1), α k ≤ 1) (hβ : ∀ k, 0 ≤ β k) (hβ1 : ∀ k, β k ≤ 1)
    (hA : 0 ≤ A) (hA' : 0 ≤ A')
    (hO : (1 + (A + (j + 1 : ℕ) * (A' + A' * A + R.eta))) * R.g ^ (W + (j + 2 + e)) ≤ R.Omega) :
    Approx R (W + (j + 2 + e)) (A + (j + 1 : ℕ) * (A' + A' * A + R.eta)) (t.eval c.fma a (fun k => b (j - k)))
      (∑ k ∈ range (j + 1), α k * β (j - k)) := by
  have heta := R.eta_nonneg
  have hmem : ∀ k ∈ t.terms, k ≤ j := by
    intro k hk
    have := hterms.mem_iff.mp hk
    rw [List.mem_range] at this; omega
  have hsum : ∀ f : ℕ → ℝ, (t.terms.map f).sum = ∑ k ∈ range (j + 1), f k := by
    intro f
    rw [(hterms.map f).sum_eq]
    rfl
  have hlen : t.terms.length = j + 1 := by rw [hterms.length_eq, List.length_range]
  have := sumTree_sharp hc (a := a) (b := fun k => b (j - k)) (α := α) (β := fun k => β (j - k)) (W := W) (H := j + 2 + e)
    (J := j + 1) (A := A) (A' := A') (D := A' + A' * A + R.eta) hα (fun k => hβ _) (fun k => hβ1 _) hA hA' rfl hO t
    (fun k hk => ha k (hmem k hk)) (by rw [hsum]; exact hα1) hlen.le hh
  rw [hsum, hsum, hlen] at this
  refine this.mono (Finset.sum_nonneg fun k _ => mul_nonneg (hα k) (hβ _)) ?_ (by omega) ?_
  · have := Finset.sum_nonneg fun k (_ : k ∈ range (j + 1)) => hα k
    positivity
  · have := mul_le_mul_of_nonneg_right hα1 hA
    linarith
end
end CP.Spec
