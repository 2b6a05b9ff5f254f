import Verif.FastMathSpec
import Verif.Proofs.Rounding
/-
Forward error of a sum of products evaluated in any order, with or without fused multiply-add.
-/
set_option linter.unusedVariables false
open Finset
namespace CP.Spec
noncomputable section
variable {F : Type} [FOps F] {R : FloatModel F} {c : FastCode F} {n : ℕ} {etaE expMin : ℝ}
open FOps

/-- A fused multiply-add. -/
theorem Approx.fma (hc : FastOps R c n etaE expMin) {K L N : ℕ} {A A' A'' : ℝ} {x y z : F} {r s t : ℝ} (hx : Approx R K A x r)
    (hy : Approx R L A' y s) (hz : Approx R N A'' z t) (hr : 0 ≤ r) (hs : 0 ≤ s) (ht : 0 ≤ t) (hs1 : s ≤ 1) (hA : 0 ≤ A)
    (hA' : 0 ≤ A') (hA'' : 0 ≤ A'') (hKN : K + L ≤ N)
    (hO : (r * s + t + (r * A' + A + A * A' + R.eta + A'')) * R.g ^ (N + 1) ≤ R.Omega) :
    Approx R (N + 1) (r * A' + A + A * A' + R.eta + A'') (c.fma x y z) (r * s + t) := by
  have gK := R.pow_pos' K
  have gL := R.pow_pos' L
  have gN := R.pow_pos' N
  have g0 := R.g_pos
  have g1 := R.one_le_g
  have heta := R.eta_nonneg
  have hgKN := R.pow_le hKN
  have hup : R.val x * R.val y ≤ (r * s + (r * A' + A + A * A')) * R.g ^ N := by
    calc R.val x * R.val y ≤ ((r + A) * R.g ^ K) * ((s + A') * R.g ^ L) :=
          mul_le_mul hx.upper hy.upper hy.nonneg (by positivity)
      _ = (r * s + (r * A' + A * s + A * A')) * R.g ^ (K + L) := by rw [pow_add]; ring
      _ ≤ _ := by
        have : A * s ≤ A := mul_le_of_le_one_right hA hs1
        refine mul_le_mul ?_ hgKN (R.pow_pos' _).le (by positivity)
        linarith
  have hlow : r * s / R.g ^ N - (r * A' + A) ≤ R.val x * R.val y := by
    have hX := hx.lower
    have hY := hy.lower
    have e0 : r * s / R.g ^ N ≤ r * s / R.g ^ (K + L) := div_le_div_of_nonneg_left (by positivity) (R.pow_pos' _) hgKN
    set X := r / R.g ^ K with hXd
    set Y := s / R.g ^ L with hYd
    have hX0 : 0 ≤ X := by positivity
    have hY0 : 0 ≤ Y := by positivity
    have hXr : X ≤ r := div_le_self hr (R.one_le_pow K)
    have hYs : Y ≤ 1 := (div_le_self hs (R.one_le_pow L)).trans hs1
    have e : r * s / R.g ^ (K + L) = X * Y := by rw [hXd, hYd, pow_add]; field_simp
    rw [e] at e0
    have h1 : X * A' ≤ r * A' := mul_le_mul_of_nonneg_right hXr hA'
    have h2 : A * Y ≤ A := mul_le_of_le_one_right hA hYs
    have h3 : X * Y - X * A' - A * Y ≤ R.val x * R.val y := by
      by_cases ha : A ≤ X
      · by_cases hb : A' ≤ Y
        · have := mul_le_mul hX hY (by linarith) hx.nonneg
          have h4 : 0 ≤ A * A' := mul_nonneg hA hA'
          nlinarith
        · have : 0 ≤ R.val x * R.val y := mul_nonneg hx.nonneg hy.nonneg
          have h5 : X * Y ≤ X * A' := mul_le_mul_of_nonneg_left (not_le.mp hb).le hX0
          have h6 : 0 ≤ A * Y := mul_nonneg hA hY0
          linarith
      · have : 0 ≤ R.val x * R.val y := mul_nonneg hx.nonneg hy.nonneg
        have h5 : X * Y ≤ A * Y := mul_le_mul_of_nonneg_right (not_le.mp ha).le hY0
        have h6 : 0 ≤ X * A' := mul_nonneg hX0 hA'
        linarith
    linarith
  have hsup : R.val x * R.val y + R.val z ≤ (r * s + t + (r * A' + A + A * A' + A'')) * R.g ^ N := by
    have := add_le_add hup hz.upper
    refine this.trans (le_of_eq (by ring))
  have hslow : (r * s + t) / R.g ^ N - (r * A' + A + A'') ≤ R.val x * R.val y + R.val z := by
    have := add_le_add hlow hz.lower
    rw [add_div]
    linarith
  have hsum0 : 0 ≤ r * s + t + (r * A' + A + A * A' + A'') := by positivity
  have hOm : R.val x * R.val y + R.val z ≤ R.Omega := by
    refine hsup.trans (le_trans ?_ hO)
    exact mul_le_mul (by linarith) (R.pow_le (by omega)) (R.pow_pos' _).le (by linarith)
  obtain ⟨hf, h0, hl, hu⟩ := hc.fma x y z hx.fin hy.fin hz.fin hx.nonneg hy.nonneg hz.nonneg hOm
  have h10 : 0 ≤ A * A' := mul_nonneg hA hA'
  refine ⟨hf, h0, le_trans ?_ hl, hu.trans ?_, fun Z h => hc.fmaZero x y z hx.fin hy.fin hz.fin
    ((mul_eq_zero.mp (by nlinarith [mul_nonneg hr hs])).imp (hx.exact0 Z) (hy.exact0 Z))
    (hz.exact0 Z (by nlinarith [mul_nonneg hr hs]))⟩
  · have h7 : ((r * s + t) / R.g ^ N - (r * A' + A + A'')) / R.g ≤ (R.val x * R.val y + R.val z) / R.g :=
      div_le_div_of_nonneg_right hslow g0.le
    have h8 : ((r * s + t) / R.g ^ N - (r * A' + A + A'')) / R.g = (r * s + t) / R.g ^ (N + 1) - (r * A' + A + A'') / R.g := by
      rw [pow_succ, sub_div, div_div]
    have h9 : (r * A' + A + A'') / R.g ≤ r * A' + A + A'' := div_le_self (by positivity) g1
    linarith
  · calc (R.val x * R.val y + R.val z) * R.g + R.eta
        ≤ (r * s + t + (r * A' + A + A * A' + A'')) * R.g ^ N * R.g + R.eta * R.g ^ (N + 1) := by
          refine add_le_add (mul_le_mul_of_nonneg_right hsup g0.le) ?_
          exact le_mul_of_one_le_right R.eta_nonneg (R.one_le_pow _)
      _ = (r * s + t + (r * A' + A + A * A' + R.eta + A'')) * R.g ^ (N + 1) := by rw [pow_succ]; ring

/-- A sum of products in any order. -/
theorem sumTree_approx (hc : FastOps R c n etaE expMin) {a b : ℕ → F} {α β : ℕ → ℝ} {P K H J : ℕ} {A A' D : ℝ}
    (hα : ∀ k, 0 ≤ α k) (hβ : ∀ k, 0 ≤ β k) (hβ1 : ∀ k, β k ≤ 1) (hA : 0 ≤ A) (hA' : 0 ≤ A')
    (hD : D = A' + A' * A + R.eta) (hO : (1 + (A + J * D)) * R.g ^ (P + K + H) ≤ R.Omega) :
    ∀ t : SumTree, (∀ k ∈ t.terms, Approx R P A' (a k) (α k)) → (∀ k ∈ t.terms, Approx R K A (b k) (β k)) →
      (t.terms.map α).sum ≤ 1 → t.terms.length ≤ J → t.height ≤ H →
      Approx R (P + K + t.height) ((t.terms.map α).sum * A + t.terms.length * D) (t.eval c.fma a b)
        (t.terms.map fun k => α k * β k).sum := by
  have heta := R.eta_nonneg
  have hD0 : 0 ≤ D := by rw [hD]; positivity
  have hs0 : ∀ l : List ℕ, 0 ≤ (l.map α).sum := fun l => List.sum_nonneg (by simpa using fun k _ => hα k)
  have hp0 : ∀ l : List ℕ, 0 ≤ (l.map fun k => α k * β k).sum :=
    fun l => List.sum_nonneg (by simpa using fun k _ => mul_nonneg (hα k) (hβ k))
  have hple : ∀ l : List ℕ, (l.map fun k => α k * β k).sum ≤ (l.map α).sum :=
    fun l => List.sum_le_sum fun k _ => mul_le_of_le_one_right (hα k) (hβ1 k)
  have hOm : ∀ (l : List ℕ) (m : ℕ) (E : ℝ), (l.map α).sum ≤ 1 → l.length ≤ J → m ≤ P + K + H →
      E ≤ (l.map α).sum * A + l.length * D →
      0 ≤ (l.map fun k => α k * β k).sum + E →
      ((l.map fun k => α k * β k).sum + E) * R.g ^ m ≤ R.Omega := by
    intro l m E h1 h2 h3 h4 h5
    refine le_trans (mul_le_mul ?_ (R.pow_le h3) (R.pow_pos' _).le ?_) hO
    · have e1 : (l.map α).sum * A ≤ A := mul_le_of_le_one_left hA h1
      have e2 : (l.length : ℝ) * D ≤ J * D := mul_le_mul_of_nonneg_right (by exact_mod_cast h2) hD0
      linarith [hple l]
    · positivity
  intro t
  induction t with
  | zero =>
    intro _ _ _ _ _
    simp only [SumTree.terms, SumTree.eval, SumTree.height, List.map_nil, List.sum_nil, List.length_nil, Nat.cast_zero, zero_mul, add_zero]
    exact Approx.zero.mono le_rfl le_rfl (by omega) le_rfl
  | prod k =>
    intro ha hb h1 h2 h3
    have hak := ha k (by simp [SumTree.terms])
    have hbk := hb k (by simp [SumTree.terms])
    have e : α k * A + A' + A' * A + R.eta = ((SumTree.prod k).terms.map α).sum * A + (SumTree.prod k).terms.length * D := by
      simp [SumTree.terms, hD]; ring
    have := hak.mul hbk (hα k) (hβ k) (hβ1 k) hA' hA (by
      have := hOm (SumTree.prod k).terms (P + K + 1) (α k * A + A' + A' * A + R.eta) h1 h2
        (by simp only [SumTree.height] at h3; omega) e.le (by
          have := hα k
          simp only [SumTree.terms, List.map_cons, List.map_nil, List.sum_cons, List.sum_nil, add_zero]
          have := mul_nonneg (hα k) (hβ k)
          positivity)
      simpa [SumTree.terms] using this)
    rw [e] at this
    simpa [SumTree.terms, SumTree.eval, SumTree.height] using this
  | fma k t ih =>
    intro ha hb h1 h2 h3
    simp only [SumTree.terms, List.map_cons, List.sum_cons, List.length_cons, SumTree.height] at h1 h2 h3
    have hak := ha k (by simp [SumTree.terms])
    have hbk := hb k (by simp [SumTree.terms])
    have h0 := hs0 t.terms
    have ht := ih (fun k' hk' => ha k' (by simp [SumTree.terms, hk'])) (fun k' hk' => hb k' (by simp [SumTree.terms, hk']))
      (by linarith [hα k]) (by omega) (by omega)
    have e : α k * A + A' + A' * A + R.eta + ((t.terms.map α).sum * A + t.terms.length * D)
        = ((SumTree.fma k t).terms.map α).sum * A + (SumTree.fma k t).terms.length * D := by
      simp [SumTree.terms, hD]; ring
    have htA : 0 ≤ (t.terms.map α).sum * A + t.terms.length * D := by positivity
    have hkk := mul_nonneg (hα k) (hβ k)
    have hαk := hα k
    have hpt := hp0 t.terms
    have := Approx.fma hc hak hbk ht (hα k) (hβ k) (hp0 _) (hβ1 k) hA' hA htA (by omega) (by
      have := hOm (SumTree.fma k t).terms (P + K + t.height + 1) _ (by simpa [SumTree.terms] using h1)
        (by simpa [SumTree.terms] using h2) (by omega) e.le (by
          simp only [SumTree.terms, List.map_cons, List.sum_cons]
          positivity)
      simpa [SumTree.terms] using this)
    rw [e] at this
    simpa [SumTree.terms, SumTree.eval, SumTree.height, Nat.add_assoc] using this
  | add t u iht ihu =>
    intro ha hb h1 h2 h3
    simp only [SumTree.terms, List.map_append, List.sum_append, List.length_append, SumTree.height] at h1 h2 h3
    have h0t := hs0 t.terms
    have h0u := hs0 u.terms
    have hpt := hp0 t.terms
    have hpu := hp0 u.terms
    have hmt : t.height ≤ max t.height u.height := le_max_left _ _
    have hmu : u.height ≤ max t.height u.height := le_max_right _ _
    have ht := iht (fun k' hk' => ha k' (by simp [SumTree.terms, hk'])) (fun k' hk' => hb k' (by simp [SumTree.terms, hk']))
      (by linarith) (by omega) (by omega)
    have hu := ihu (fun k' hk' => ha k' (by simp [SumTree.terms, hk'])) (fun k' hk' => hb k' (by simp [SumTree.terms, hk']))
      (by linarith) (by omega) (by omega)
    have hA1 : 0 ≤ (t.terms.map α).sum * A + t.terms.length * D := by positivity
    have hA2 : 0 ≤ (u.terms.map α).sum * A + u.terms.length * D := by positivity
    have ht' := ht.mono hpt hA1 (L := P + K + max t.height u.height) (by omega) le_rfl
    have hu' := hu.mono hpu hA2 (L := P + K + max t.height u.height) (by omega) le_rfl
    have e : (t.terms.map α).sum * A + t.terms.length * D + ((u.terms.map α).sum * A + u.terms.length * D)
        = ((SumTree.add t u).terms.map α).sum * A + (SumTree.add t u).terms.length * D := by
      simp [SumTree.terms]; ring
    have := ht'.add hu' hpt hpu hA1 hA2 (by
      have := hOm (SumTree.add t u).terms (P + K + max t.height u.height) _ (by simpa [SumTree.terms] using h1)
        (by simpa [SumTree.terms] using h2) (by omega) e.le (by
          simp only [SumTree.terms, List.map_append, List.sum_append]
          positivity)
      simpa [SumTree.terms] using this)
    rw [e] at this
    simpa [SumTree.terms, SumTree.eval, SumTree.height, Nat.add_assoc] using this

/-- The compiled inner loop. -/
theorem fastConv_approx (hc : FastOps R c n etaE expMin) {t : SumTree} {a b : ℕ → F} {α β : ℕ → ℝ} {j P K e : ℕ} {A A' : ℝ}
    (hterms : t.terms.Perm (List.range (j + 1))) (hh : t.height ≤ j + 2 + e)
    (ha : ∀ k ≤ j, Approx R P A' (a k) (α k)) (hb : ∀ k ≤ j, Approx R K A (b k) (β k))
    (hα : ∀ k, 0 ≤ α k) (hα1 : ∑ k ∈ range (j + 1), α k ≤ 1) (hβ : ∀ k, 0 ≤ β k) (hβ1 : ∀ k, β k ≤ 1)
    (hA : 0 ≤ A) (hA' : 0 ≤ A')
    (hO : (1 + (A + (j + 1 : ℕ) * (A' + A' * A + R.eta))) * R.g ^ (P + K + (j + 2 + e)) ≤ R.Omega) :
    Approx R (P + K + (j + 2 + e)) (A + (j + 1 : ℕ) * (A' + A' * A + R.eta)) (t.eval c.fma a (fun k => b (j - k)))
      (∑ k ∈ range (j + 1), α k * β (j - k)) := by
  have heta := R.eta_nonneg
  have hmem : ∀ k ∈ t.terms, k ≤ j := by
    intro k hk
    have := hterms.mem_iff.mp hk
    rw [List.mem_range] at this; omega
  have hsum : ∀ f : ℕ → ℝ, (t.terms.map f).sum = ∑ k ∈ range (j + 1), f k := by
    intro f
    rw [(hterms.map f).sum_eq]
    rfl
  have hlen : t.terms.length = j + 1 := by rw [hterms.length_eq, List.length_range]
  have := sumTree_approx hc (a := a) (b := fun k => b (j - k)) (α := α) (β := fun k => β (j - k)) (P := P) (K := K) (H := j + 2 + e)
    (J := j + 1) (A := A) (A' := A') (D := A' + A' * A + R.eta) hα (fun k => hβ _) (fun k => hβ1 _) hA hA' rfl hO t
    (fun k hk => ha k (hmem k hk)) (fun k hk => hb _ (by have := hmem k hk; omega)) (by rw [hsum]; exact hα1) hlen.le hh
  rw [hsum, hsum, hlen] at this
  refine this.mono (Finset.sum_nonneg fun k _ => mul_nonneg (hα k) (hβ _)) ?_ (by omega) ?_
  · have := Finset.sum_nonneg fun k (_ : k ∈ range (j + 1)) => hα k
    positivity
  · have := mul_le_mul_of_nonneg_right hα1 hA
    linarith
end
end CP.Spec
