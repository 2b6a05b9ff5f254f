import Verif.Proofs.MnsFinal
/-! Rounding error of `ecdf1_mns2016_b` with bounded exponent range: approximations whose majorants also absorb underflow, and
bounds on all intermediate results that exclude overflow. -/
set_option linter.unusedVariables false
open Finset Polynomial
namespace CP.Spec
noncomputable section
open FOps

variable {F : Type} [FOps F]

/-- Operations with relative error `u`, absolute underflow error `u * th`, as long as the exact result is at most `Om`; `pow` may
lose `q` roundings; integers up to `n^2 + 2` are exact. -/
structure BndOps (R : FloatModel F) (u th Om : ℝ) (q n : ℕ) : Prop where
  u_nonneg : 0 ≤ u
  th_nonneg : 0 ≤ th
  add : ∀ x y : F, R.finite x → R.finite y → |R.val x + R.val y| ≤ Om →
    R.finite (x +ᶠ y) ∧ |R.val (x +ᶠ y) - (R.val x + R.val y)| ≤ u * (|R.val x + R.val y| + th)
  sub : ∀ x y : F, R.finite x → R.finite y → |R.val x - R.val y| ≤ Om →
    R.finite (x -ᶠ y) ∧ |R.val (x -ᶠ y) - (R.val x - R.val y)| ≤ u * (|R.val x - R.val y| + th)
  mul : ∀ x y : F, R.finite x → R.finite y → |R.val x * R.val y| ≤ Om →
    R.finite (x *ᶠ y) ∧ |R.val (x *ᶠ y) - R.val x * R.val y| ≤ u * (|R.val x * R.val y| + th)
  div : ∀ x y : F, R.finite x → R.finite y → R.val y ≠ 0 → |R.val x / R.val y| ≤ Om →
    R.finite (x /ᶠ y) ∧ |R.val (x /ᶠ y) - R.val x / R.val y| ≤ u * (|R.val x / R.val y| + th)
  neg : ∀ x : F, R.finite x → R.finite (neg x) ∧ R.val (neg x) = - R.val x
  ofInt : ∀ k : ℤ, |k| ≤ (n : ℤ) ^ 2 + 2 → R.finite (ofInt k) ∧ R.val (ofInt k) = k
  powi : ∀ (x : F) (k : ℕ), k ≤ n → R.finite x → |R.val x ^ k| ≤ Om →
    R.finite (powi x (k : ℤ)) ∧ |R.val (powi x (k : ℤ)) - R.val x ^ k| ≤ ((1 + u) ^ q - 1) * (|R.val x ^ k| + th)
  ldexp : ∀ (x : F) (e : ℤ), 0 ≤ e → R.finite x → |R.val x * (2 : ℝ) ^ e| ≤ Om →
    R.finite (ldexp x e) ∧ R.val (ldexp x e) = R.val x * (2 : ℝ) ^ e
  frexp : ∀ x : F, R.finite x → R.val x ≠ 0 → |R.val x| < (2 : ℝ) ^ frexpExp x
  log : ∀ x : F, R.finite x → 0 < R.val x →
    R.finite (log x) ∧ |R.val (log x) - Real.log (R.val x)| ≤ u * (|Real.log (R.val x)| + th)
  lgamma : R.finite (lgamma (FOps.ofInt ((n : ℤ) + 1)) : F) ∧
    |R.val (lgamma (FOps.ofInt ((n : ℤ) + 1)) : F) - Real.log n.factorial| ≤ u * (|Real.log n.factorial| + th)
  exp : ∀ x : F, R.finite x → Real.exp (R.val x) ≤ Om →
    R.finite (exp x) ∧ |R.val (exp x) - Real.exp (R.val x)| ≤ u * (|Real.exp (R.val x)| + th)

theorem MApprox.roundq {G : ℝ} {m : ℕ} {xh x a : ℝ} (h : MApprox G m xh x a) (hG : 1 ≤ G) (q : ℕ) {th : ℝ} (hth : 0 ≤ th) {z : ℝ}
    (hz : |z - xh| ≤ (G ^ q - 1) * (|xh| + th)) : MApprox G (m + q) z x (a + th) := by
  refine ⟨?_, h.le.trans (by linarith)⟩
  have h1 : |z - x| ≤ |z - xh| + |xh - x| := by
    have := abs_add_le (z - xh) (xh - x)
    rwa [sub_add_sub_cancel] at this
  have g1 := one_le_pow₀ hG (n := q)
  have g2 := one_le_pow₀ hG (n := m)
  have h2 : (G ^ q - 1) * (|xh| + th) ≤ (G ^ q - 1) * (G ^ m * a + th) :=
    mul_le_mul_of_nonneg_left (by linarith [h.abs_le]) (by linarith)
  have h3 := h.err
  have h4 : (G ^ q - 1) * th ≤ (G ^ (m + q) - 1) * th := by
    refine mul_le_mul_of_nonneg_right ?_ hth
    have := pow_le_pow_right₀ hG (show q ≤ m + q by omega)
    linarith
  calc |z - x| ≤ (G ^ q - 1) * (G ^ m * a + th) + (G ^ m - 1) * a := by linarith
    _ = (G ^ (m + q) - 1) * a + (G ^ q - 1) * th := by rw [pow_add]; ring
    _ ≤ (G ^ (m + q) - 1) * (a + th) := by linarith

theorem MApprox.round1 {G : ℝ} {m : ℕ} {xh x a : ℝ} (h : MApprox G m xh x a) (hG : 1 ≤ G) {th : ℝ} (hth : 0 ≤ th) {z : ℝ}
    (hz : |z - xh| ≤ (G - 1) * (|xh| + th)) : MApprox G (m + 1) z x (a + th) :=
  h.roundq hG 1 hth (by rwa [pow_one])

variable {R : FloatModel F} {u th Om : ℝ} {q n : ℕ}

/-- Majorant of the evaluated sum, with all the roundings. -/
def sumMaj (th : ℝ) (d : ℕ) (amu : ℕ → ℝ) (c : ℕ → ℝ) : ℝ := ∑ i ∈ range (d + 1), (amu i * ((c i + th) ^ i + th) + 2 * th)

/-- Error of `evaluate`, without overflow. -/
theorem evalF_bnd (ops : BndOps R u th Om q n) {d M : ℕ} {mu al : ℕ → F} {x : F} {rmu amu : ℕ → ℝ} {e : ℕ → ℕ} (hd : d ≤ n)
    (hx : R.finite x) (hmu : ∀ i ≤ d, R.finite (mu i)) (hal : ∀ i ≤ d, R.finite (al i))
    (hap : ∀ i ≤ d, MApprox (1 + u) (e i) (R.val (mu i)) (rmu i) (amu i))
    (hM : ∀ i ≤ d, e i + (i + q) + 1 + (d + 1 - i) ≤ M + 1)
    (hG2 : (1 + u) ^ (M + 1) ≤ 3 / 2) (h3 : 3 ≤ Om) (hc1 : ∀ i ≤ d, |R.val x + R.val (al i)| ≤ 1)
    (hc2 : ∀ i ≤ d, (|R.val x + R.val (al i)| + th) ^ i ≤ 2)
    (hTot : 3 / 2 * sumMaj th d amu (fun i => |R.val x + R.val (al i)|) ≤ Om) :
    R.finite (evalF d mu al x) ∧
    MApprox (1 + u) (M + 1) (R.val (evalF d mu al x)) (∑ i ∈ range (d + 1), rmu i * (R.val x + R.val (al i)) ^ i)
      (sumMaj th d amu (fun i => |R.val x + R.val (al i)|)) := by
  have hG : (1 : ℝ) ≤ 1 + u := by linarith [ops.u_nonneg]
  have hth := ops.th_nonneg
  have hMd : d ≤ M := by have := hM 0 (Nat.zero_le _); omega
  have hu1 : (1 + u - 1 : ℝ) = u := by ring
  have ha0 : ∀ i ≤ d, 0 ≤ amu i := fun i hi => (hap i hi).nonneg
  set c : ℕ → ℝ := fun i => |R.val x + R.val (al i)| with hc
  have hc0 : ∀ i, 0 ≤ c i := fun i => abs_nonneg _
  have hterm0 : ∀ i ≤ d, 0 ≤ amu i * ((c i + th) ^ i + th) + 2 * th := fun i hi => by
    have := ha0 i hi
    have := hc0 i
    positivity
  have hpart : ∀ k ≤ d + 1, ∑ i ∈ range k, (amu i * ((c i + th) ^ i + th) + 2 * th) ≤ sumMaj th d amu c := by
    intro k hk
    unfold sumMaj
    exact Finset.sum_le_sum_of_subset_of_nonneg (Finset.range_subset_range.mpr hk) fun i hi _ => hterm0 i (by have := Finset.mem_range.mp hi; omega)
  have hle : ∀ {m : ℕ} {xh x a : ℝ}, MApprox (1 + u) m xh x a → m ≤ M + 1 → a ≤ sumMaj th d amu c → |xh| ≤ Om := by
    intro m xh x a h hm ha
    have h1 := h.abs_le
    have h2 := (pow_le_pow_right₀ hG hm).trans hG2
    have h3 : (1 + u) ^ m * a ≤ 3 / 2 * sumMaj th d amu c := mul_le_mul h2 ha h.nonneg (by norm_num)
    linarith
  have key : ∀ k, k ≤ d + 1 →
      R.finite ((List.range k).foldl (fun r i => r +ᶠ mu i *ᶠ powi (x +ᶠ al i) (i : Int)) zero) ∧
      MApprox (1 + u) (M + 1 - (d + 1 - k)) (R.val ((List.range k).foldl (fun r i => r +ᶠ mu i *ᶠ powi (x +ᶠ al i) (i : Int)) zero))
        (∑ i ∈ range k, rmu i * (R.val x + R.val (al i)) ^ i) (∑ i ∈ range k, (amu i * ((c i + th) ^ i + th) + 2 * th)) := by
    intro k
    induction k with
    | zero =>
      intro _
      refine ⟨R.zero_finite, ?_⟩
      have := MApprox.exact (1 + u) (M + 1 - (d + 1 - 0)) hG 0
      simpa [R.val_zero] using this
    | succ k ih =>
      intro hk
      obtain ⟨f1, a1⟩ := ih (by omega)
      have hsum := hpart (k + 1) hk
      rw [Finset.sum_range_succ] at hsum
      have hS0 : 0 ≤ ∑ i ∈ range k, (amu i * ((c i + th) ^ i + th) + 2 * th) := a1.nonneg
      rw [List.range_succ, List.foldl_append, Finset.sum_range_succ, Finset.sum_range_succ]
      simp only [List.foldl_cons, List.foldl_nil]
      generalize (List.range k).foldl (fun r i => r +ᶠ mu i *ᶠ powi (x +ᶠ al i) (i : Int)) zero = r at f1 a1 ⊢
      have hkd : k ≤ d := by omega
      have hMk := hM k hkd
      obtain ⟨f2, a2⟩ := ops.add x (al k) hx (hal k hkd) ((hc1 k hkd).trans (by linarith))
      have b2 : MApprox (1 + u) 1 (R.val (x +ᶠ al k)) (R.val x + R.val (al k)) (c k + th) :=
        (MApprox.exact (1 + u) 0 hG _).round1 hG hth (by rw [hu1]; exact a2)
      have b2p := b2.pow hG k
      obtain ⟨f3, a3⟩ := ops.powi _ k (hkd.trans hd) f2 (by
        refine b2p.abs_le.trans ?_
        have h1 : (1 + u) ^ (1 * k) ≤ 3 / 2 := (pow_le_pow_right₀ hG (by omega)).trans hG2
        have h2 := hc2 k hkd
        have := mul_le_mul h1 h2 (pow_nonneg (by have := hc0 k; linarith) _) (by norm_num)
        linarith)
      have b3 := b2p.roundq hG q hth a3
      have b4m := (hap k hkd).mul hG b3
      have hge : amu k * ((c k + th) ^ k + th) ≤ sumMaj th d amu c := by linarith
      obtain ⟨f4, a4⟩ := ops.mul _ _ (hmu k hkd) f3 (hle b4m (by omega) hge)
      have b4 := b4m.round1 hG hth (z := R.val (mu k *ᶠ powi (x +ᶠ al k) (k : ℤ))) (by rw [hu1]; exact a4)
      have b4' := b4.mono hG (k := M + 1 - (d + 1 - k)) (by omega)
      have b5s := a1.add b4'
      obtain ⟨f5, a5⟩ := ops.add _ _ f1 f4 (hle b5s (by omega) (by linarith))
      refine ⟨f5, ?_⟩
      have b5 := b5s.round1 hG hth (z := R.val (r +ᶠ mu k *ᶠ powi (x +ᶠ al k) (k : ℤ))) (by rw [hu1]; exact a5)
      exact (b5.mono hG (by omega)).weaken hG (by linarith)
  have := key (d + 1) le_rfl
  rw [show M + 1 - (d + 1 - (d + 1)) = M + 1 by omega] at this
  exact this

/-- Number of roundings in the `k`-th integration constant, when `pow` counts for `q`. -/
def Exq (q : ℕ) : ℕ → ℕ
  | 0 => 0
  | k + 1 => Exq q k + (k + 4 + q)

theorem exq_closed (q k : ℕ) : 2 * Exq q k = k * (k + 7 + 2 * q) := by
  induction k with
  | zero => simp [Exq]
  | succ k ih => rw [Exq, Nat.mul_add, ih]; ring

theorem exq_mono (q : ℕ) {k l : ℕ} (h : k ≤ l) : Exq q k ≤ Exq q l := by
  induction h with
  | refl => exact le_rfl
  | step _ ih => rw [Exq]; omega

theorem exq_step {q D : ℕ} : ∀ i, 1 ≤ i → i ≤ D → Exq q (D - i) + i + D + q + 2 ≤ Exq q D := by
  intro i
  induction i with
  | zero => omega
  | succ i ih =>
    intro _ h2
    by_cases h0 : i = 0
    · subst h0
      obtain ⟨E, rfl⟩ : ∃ E, D = E + 1 := ⟨D - 1, by omega⟩
      rw [show E + 1 - (0 + 1) = E by omega, Exq]; omega
    · have h := ih (by omega) (by omega)
      have e : Exq q (D - i) = Exq q (D - (i + 1)) + ((D - (i + 1)) + 4 + q) := by
        obtain ⟨E, hE⟩ : ∃ E, D - i = E + 1 := ⟨D - i - 1, by omega⟩
        rw [hE, show D - (i + 1) = E by omega, Exq]
      omega

/-! ### The underflow part of the majorants -/

theorem absCoef_nonneg {bv : ℕ → ℝ} (hm : Monotone bv) (D : ℕ) : 0 ≤ absCoef bv D := (abs_nonneg _).trans (sgn_abs hm D)

theorem absCoef_le_two {bv : ℕ → ℝ} (hm : Monotone bv) (h0 : 0 ≤ bv 0) (h1 : ∀ i, bv i ≤ 1) (D : ℕ) : absCoef bv D ≤ 2 := by
  refine (absCoef_le hm h0 D).trans ?_
  have hφ := Real.goldenRatio_pos
  have hφ2 : Real.goldenRatio < 2 := Real.goldenRatio_lt_two
  have hr0 : rloc bv 0 = 0 := by simp [rloc]
  have hr : 0 ≤ rloc bv D := by rw [← hr0]; exact rloc_mono hm h0 (Nat.zero_le D)
  have hr1 : rloc bv D ≤ 1 := by
    unfold rloc; split
    · exact zero_le_one
    · exact h1 _
  have hf : ∀ D : ℕ, Real.goldenRatio ^ D / (D.factorial : ℝ) ≤ 2 := by
    intro D
    induction D with
    | zero => norm_num
    | succ D ih =>
      rcases Nat.eq_zero_or_pos D with rfl | hD
      · simpa using hφ2.le
      · rw [Nat.factorial_succ, pow_succ]
        push_cast
        have hD' : (1 : ℝ) ≤ D := by exact_mod_cast hD
        have e : Real.goldenRatio ^ D * Real.goldenRatio / (((D : ℝ) + 1) * (D.factorial : ℝ))
            = Real.goldenRatio ^ D / (D.factorial : ℝ) * (Real.goldenRatio / (D + 1)) := by
          field_simp
        rw [e]
        have h2 : Real.goldenRatio / ((D : ℝ) + 1) ≤ 1 := by rw [div_le_one (by linarith)]; linarith
        have h3 : 0 ≤ Real.goldenRatio / ((D : ℝ) + 1) := by positivity
        calc _ ≤ 2 * 1 := mul_le_mul ih h2 h3 (by norm_num)
          _ = 2 := by norm_num
  have hDf : (0 : ℝ) < (D.factorial : ℝ) := by exact_mod_cast Nat.factorial_pos _
  calc _ ≤ Real.goldenRatio ^ D * (1 / (D.factorial : ℝ)) :=
        mul_le_mul_of_nonneg_left (div_le_div_of_nonneg_right (pow_le_one₀ hr hr1) hDf.le) (by positivity)
    _ = Real.goldenRatio ^ D / (D.factorial : ℝ) := by ring
    _ ≤ 2 := hf D

/-- The underflow part of the majorant of coefficient `i` after `d` steps, in units of `th`. -/
def undMaj (d i : ℕ) : ℝ := 14 * 4 ^ (d - i) / (i.factorial : ℝ) + (if i = 0 then 0 else 2)

theorem undMaj_nonneg (d i : ℕ) : 0 ≤ undMaj d i := by
  unfold undMaj; split <;> positivity

theorem undMaj_succ {d i : ℕ} (hi : i ≠ 0) : undMaj d (i - 1) / i + 1 ≤ undMaj (d + 1) i := by
  unfold undMaj
  have hi0 : (1 : ℝ) ≤ i := by exact_mod_cast Nat.pos_of_ne_zero hi
  rw [if_neg hi, show d + 1 - i = d - (i - 1) by omega, ← fact_pred hi, add_div, div_div]
  have : (if i - 1 = 0 then (0 : ℝ) else 2) / i ≤ 1 := by
    split
    · simp
    · next h =>
      have : (2 : ℝ) ≤ i := by exact_mod_cast (show 2 ≤ i by omega)
      rw [div_le_one (by linarith)]; exact this
  linarith

theorem und_geom (D : ℕ) : ∑ i ∈ range (D + 1), 2 * (4 : ℝ) ^ (D + 1 - (i + 1)) / ((i + 1).factorial : ℝ)
    + 2 / (7 * ((D + 1).factorial : ℝ)) ≤ 4 / 7 * 4 ^ (D + 1) := by
  induction D with
  | zero => norm_num
  | succ D ih =>
    rw [Finset.sum_range_succ]
    have e : ∑ i ∈ range (D + 1), 2 * (4 : ℝ) ^ (D + 1 + 1 - (i + 1)) / ((i + 1).factorial : ℝ)
        = 4 * ∑ i ∈ range (D + 1), 2 * (4 : ℝ) ^ (D + 1 - (i + 1)) / ((i + 1).factorial : ℝ) := by
      rw [Finset.mul_sum]
      refine Finset.sum_congr rfl fun i hi => ?_
      have : D + 1 + 1 - (i + 1) = D + 1 - (i + 1) + 1 := by have := Finset.mem_range.mp hi; omega
      rw [this, pow_succ]; ring
    have hf : (((D + 1 + 1).factorial : ℕ) : ℝ) = ((D : ℝ) + 2) * ((D + 1).factorial : ℝ) := by
      rw [Nat.factorial_succ]; push_cast; ring
    have hf0 : (0 : ℝ) < ((D + 1).factorial : ℝ) := by exact_mod_cast Nat.factorial_pos _
    rw [e, hf, Nat.sub_self, pow_zero]
    have h2 : 2 * 1 / (((D : ℝ) + 2) * ((D + 1).factorial : ℝ)) + 2 / (7 * (((D : ℝ) + 2) * ((D + 1).factorial : ℝ)))
        ≤ 4 * (2 / (7 * ((D + 1).factorial : ℝ))) := by
      have hD : (0 : ℝ) ≤ D := Nat.cast_nonneg D
      rw [show 2 * 1 / (((D : ℝ) + 2) * ((D + 1).factorial : ℝ)) + 2 / (7 * (((D : ℝ) + 2) * ((D + 1).factorial : ℝ)))
        = 16 / (7 * (((D : ℝ) + 2) * ((D + 1).factorial : ℝ))) by field_simp; norm_num,
        show 4 * (2 / (7 * ((D + 1).factorial : ℝ))) = 8 / (7 * ((D + 1).factorial : ℝ)) by ring,
        div_le_div_iff₀ (by positivity) (by positivity)]
      nlinarith
    have h3 : (4 : ℝ) ^ (D + 1 + 1) = 4 * 4 ^ (D + 1) := by ring
    rw [h3]
    linarith

theorem two_fact_le (i : ℕ) : (2 * (i : ℝ) + 1) / (i.factorial : ℝ) ≤ 3 := by
  have hf0 : (0 : ℝ) < (i.factorial : ℝ) := by exact_mod_cast Nat.factorial_pos _
  rw [div_le_iff₀ hf0]
  rcases Nat.eq_zero_or_pos i with rfl | hi
  · norm_num
  · have h : (i : ℝ) ≤ i.factorial := by exact_mod_cast Nat.self_le_factorial i
    have h1 : (1 : ℝ) ≤ i.factorial := by exact_mod_cast Nat.factorial_pos _
    linarith

theorem pow_add_le {c th : ℝ} (hc : 0 ≤ c) (hc1 : c ≤ 1) (hth : 0 ≤ th) {i : ℕ} (hi : (2 * (i : ℝ) + 1) * th ≤ 1) :
    (c + th) ^ i ≤ c ^ i + 2 * i * th := by
  induction i with
  | zero => simp
  | succ i ih =>
    push_cast at hi ⊢
    have hi' : (2 * (i : ℝ) + 1) * th ≤ 1 := by linarith
    have h := ih hi'
    have hp : c ^ i ≤ 1 := pow_le_one₀ hc hc1
    have hp0 : 0 ≤ c ^ i := pow_nonneg hc i
    have hc2 : 0 ≤ c + th := by linarith
    calc (c + th) ^ (i + 1) = (c + th) ^ i * (c + th) := pow_succ _ _
      _ ≤ (c ^ i + 2 * i * th) * (c + th) := mul_le_mul_of_nonneg_right h hc2
      _ = c ^ i * c + 2 * i * th * c + (c ^ i + 2 * i * th) * th := by ring
      _ ≤ c ^ (i + 1) + 2 * i * th * 1 + 2 * th := by
          have hi0 : (0 : ℝ) ≤ i := Nat.cast_nonneg i
          have a1 : 2 * i * th * c ≤ 2 * i * th * 1 := mul_le_mul_of_nonneg_left hc1 (by positivity)
          have a2 : c ^ i + 2 * i * th ≤ 2 := by linarith
          have a3 := mul_le_mul_of_nonneg_right a2 hth
          rw [pow_succ]; linarith
      _ = _ := by ring

/-- One term of the evaluated sum. -/
theorem term_maj {bv : ℕ → ℝ} (hm : Monotone bv) (h0 : 0 ≤ bv 0) (h1 : ∀ i, bv i ≤ 1) {d i : ℕ} (hi : i ≤ d) {c th : ℝ}
    (hc : 0 ≤ c) (hc1 : c ≤ 1) (hth : 0 ≤ th) (hs : (2 * (d : ℝ) + 1) * th ≤ 1) :
    (exMaj bv d i + th * undMaj d i) * ((c + th) ^ i + th) + 2 * th
      ≤ exMaj bv d i * c ^ i + th * (2 * (14 * 4 ^ (d - i) / (i.factorial : ℝ)) + 12) := by
  have hf0 : (0 : ℝ) < (i.factorial : ℝ) := by exact_mod_cast Nat.factorial_pos _
  have hir : (i : ℝ) ≤ d := by exact_mod_cast hi
  have hi0 : (0 : ℝ) ≤ i := Nat.cast_nonneg i
  have hs' : (2 * (i : ℝ) + 1) * th ≤ 1 := (mul_le_mul_of_nonneg_right (by linarith) hth).trans hs
  have hp := pow_add_le hc hc1 hth hs'
  have hA0 := absCoef_nonneg hm (d - i)
  have hA2 := absCoef_le_two hm h0 h1 (d - i)
  have hE0 : 0 ≤ exMaj bv d i := by unfold exMaj; positivity
  have hE : exMaj bv d i * (2 * i + 1) ≤ 6 := by
    unfold exMaj
    have := mul_le_mul hA2 (two_fact_le i) (by positivity) (by norm_num)
    calc absCoef bv (d - i) / (i.factorial : ℝ) * (2 * i + 1) = absCoef bv (d - i) * ((2 * (i : ℝ) + 1) / (i.factorial : ℝ)) := by ring
      _ ≤ 2 * 3 := this
      _ = 6 := by norm_num
  have hU0 := undMaj_nonneg d i
  have hU : undMaj d i ≤ 14 * 4 ^ (d - i) / (i.factorial : ℝ) + 2 := by
    unfold undMaj; split <;> linarith
  have hc0 : c ^ i ≤ 1 := pow_le_one₀ hc hc1
  have hq : (c + th) ^ i + th ≤ c ^ i + (2 * i + 1) * th := by linarith
  have hq2 : (c + th) ^ i + th ≤ 2 := by linarith
  have x1 : exMaj bv d i * ((c + th) ^ i + th) ≤ exMaj bv d i * c ^ i + th * 6 := by
    have y1 := mul_le_mul_of_nonneg_left hq hE0
    have y2 := mul_le_mul_of_nonneg_right hE hth
    linarith
  have x2 : th * undMaj d i * ((c + th) ^ i + th) ≤ th * (14 * 4 ^ (d - i) / (i.factorial : ℝ) + 2) * 2 :=
    mul_le_mul (mul_le_mul_of_nonneg_left hU hth) hq2 (by have := pow_nonneg (show 0 ≤ c + th by linarith) i; linarith) (by positivity)
  have e : (exMaj bv d i + th * undMaj d i) * ((c + th) ^ i + th)
      = exMaj bv d i * ((c + th) ^ i + th) + th * undMaj d i * ((c + th) ^ i + th) := by ring
  rw [e]
  linarith

theorem four_pow_ge (D : ℕ) : 2 * ((D : ℝ) + 1 + 1) ≤ 4 ^ (D + 1) := by
  induction D with
  | zero => norm_num
  | succ D ih =>
    rw [pow_succ]; push_cast
    have : (0 : ℝ) ≤ D := Nat.cast_nonneg D
    linarith

/-- Majorant of the new integration constant. -/
theorem step_maj {bv : ℕ → ℝ} (hm : Monotone bv) (h0 : 0 ≤ bv 0) (h1 : ∀ i, bv i ≤ 1) {d : ℕ} {th : ℝ}
    {c : ℕ → ℝ} (hc : ∀ i ≤ d + 1, 0 ≤ c i) (hc1 : ∀ i ≤ d + 1, c i ≤ 1) (hth : 0 ≤ th) (hs : (2 * ((d + 1 : ℕ) : ℝ) + 1) * th ≤ 1) :
    sumMaj th (d + 1) (fun i => if i = 0 then 0 else exMaj bv (d + 1) i + th * undMaj (d + 1) i) c
      ≤ (∑ i ∈ range (d + 1 + 1), (if i = 0 then 0 else exMaj bv (d + 1) i) * c i ^ i) + th * undMaj (d + 1) 0 := by
  unfold sumMaj
  rw [Finset.sum_range_succ', Finset.sum_range_succ' (n := d + 1)]
  simp only [Nat.add_eq_zero_iff, one_ne_zero, and_false, if_false, if_true, zero_mul, add_zero, zero_add]
  have hterm : ∀ i ∈ range (d + 1), (exMaj bv (d + 1) (i + 1) + th * undMaj (d + 1) (i + 1)) * ((c (i + 1) + th) ^ (i + 1) + th) + 2 * th
      ≤ exMaj bv (d + 1) (i + 1) * c (i + 1) ^ (i + 1)
        + th * (14 * (2 * 4 ^ (d + 1 - (i + 1)) / ((i + 1).factorial : ℝ)) + 12) := by
    intro i hi
    have hi' := Finset.mem_range.mp hi
    have := term_maj hm h0 h1 (d := d + 1) (i := i + 1) (by omega) (hc (i + 1) (by omega)) (hc1 (i + 1) (by omega)) hth hs
    refine this.trans (le_of_eq ?_)
    ring
  have hsum := Finset.sum_le_sum hterm
  have e2 : ∑ i ∈ range (d + 1), (exMaj bv (d + 1) (i + 1) * c (i + 1) ^ (i + 1)
        + th * (14 * (2 * 4 ^ (d + 1 - (i + 1)) / ((i + 1).factorial : ℝ)) + 12))
      = ∑ i ∈ range (d + 1), exMaj bv (d + 1) (i + 1) * c (i + 1) ^ (i + 1)
        + th * (14 * ∑ i ∈ range (d + 1), 2 * (4 : ℝ) ^ (d + 1 - (i + 1)) / ((i + 1).factorial : ℝ) + (d + 1) * 12) := by
    rw [Finset.sum_add_distrib, ← Finset.mul_sum, Finset.sum_add_distrib, ← Finset.mul_sum, Finset.sum_const, Finset.card_range,
      nsmul_eq_mul]
    push_cast; rfl
  rw [e2] at hsum
  have hg := und_geom d
  have hg2 := four_pow_ge d
  have hpos : 0 ≤ 2 / (7 * ((d + 1).factorial : ℝ)) := by positivity
  have hu : undMaj (d + 1) 0 = 14 * 4 ^ (d + 1) := by simp [undMaj]
  rw [hu]
  have hin : 14 * ∑ i ∈ range (d + 1), 2 * (4 : ℝ) ^ (d + 1 - (i + 1)) / ((i + 1).factorial : ℝ) + (d + 1) * 12 + 2 ≤ 14 * 4 ^ (d + 1) := by
    linarith
  have := mul_le_mul_of_nonneg_left hin hth
  linarith

/-- Majorant of the final integral. -/
theorem final_maj {bv : ℕ → ℝ} (hm : Monotone bv) (h0 : 0 ≤ bv 0) (h1 : ∀ i, bv i ≤ 1) {d : ℕ} {th : ℝ}
    {c : ℕ → ℝ} (hc : ∀ i ≤ d, 0 ≤ c i) (hc1 : ∀ i ≤ d, c i ≤ 1) (hth : 0 ≤ th) (hs : (2 * (d : ℝ) + 1) * th ≤ 1) :
    sumMaj th d (fun i => exMaj bv d i + th * undMaj d i) c
      ≤ (∑ i ∈ range (d + 1), exMaj bv d i * c i ^ i) + th * (42 * 4 ^ d) := by
  unfold sumMaj
  have hterm : ∀ i ∈ range (d + 1), (exMaj bv d i + th * undMaj d i) * ((c i + th) ^ i + th) + 2 * th
      ≤ exMaj bv d i * c i ^ i + th * (14 * (2 * 4 ^ (d - i) / (i.factorial : ℝ)) + 12) := by
    intro i hi
    have hi' := Finset.mem_range.mp hi
    refine (term_maj hm h0 h1 (by omega) (hc i (by omega)) (hc1 i (by omega)) hth hs).trans (le_of_eq ?_)
    ring
  have hsum := Finset.sum_le_sum hterm
  have e2 : ∑ i ∈ range (d + 1), (exMaj bv d i * c i ^ i + th * (14 * (2 * 4 ^ (d - i) / (i.factorial : ℝ)) + 12))
      = ∑ i ∈ range (d + 1), exMaj bv d i * c i ^ i
        + th * (14 * ∑ i ∈ range (d + 1), 2 * (4 : ℝ) ^ (d - i) / (i.factorial : ℝ) + (d + 1) * 12) := by
    rw [Finset.sum_add_distrib, ← Finset.mul_sum, Finset.sum_add_distrib, ← Finset.mul_sum, Finset.sum_const, Finset.card_range,
      nsmul_eq_mul]
    push_cast; rfl
  rw [e2] at hsum
  have hin : 14 * ∑ i ∈ range (d + 1), 2 * (4 : ℝ) ^ (d - i) / (i.factorial : ℝ) + (d + 1) * 12 ≤ 42 * 4 ^ d := by
    rw [Finset.sum_range_succ']
    simp only [Nat.factorial_zero, Nat.cast_one, div_one, Nat.sub_zero]
    rcases Nat.eq_zero_or_pos d with rfl | hd
    · norm_num
    · obtain ⟨D, rfl⟩ : ∃ D, d = D + 1 := ⟨d - 1, by omega⟩
      have hg := und_geom D
      have hg2 := four_pow_ge D
      have hpos : 0 ≤ 2 / (7 * ((D + 1).factorial : ℝ)) := by positivity
      have e3 : ((D + 1 : ℕ) : ℝ) = D + 1 := by push_cast; rfl
      rw [e3]
      linarith
  have := mul_le_mul_of_nonneg_left hin hth
  linarith

end
end CP.Spec
