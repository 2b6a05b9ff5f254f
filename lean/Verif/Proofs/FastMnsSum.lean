import Verif.FastMnsSpec
import Verif.Proofs.FastMnsStep
import Verif.Proofs.MnsIeeeStep
/-! Forward error of the sums and of the exponent in `ecdf1_mns2016` as compiled, with bounded exponent range. -/
set_option linter.unusedVariables false
open Finset Polynomial
namespace CP.Spec
noncomputable section
open FOps

variable {G : Type} [FOps G]

/-- Like `BndOps`, for compiled code: additions have no underflow error; fused multiply-add, compiled `pow`, division and `exp`. -/
structure MnsOps (R : FloatModel G) (c : MnsCode G) (u th Om : ℝ) (q n : ℕ) : Prop where
  u_nonneg : 0 ≤ u
  th_nonneg : 0 ≤ th
  add : ∀ x y : G, R.finite x → R.finite y → |R.val x + R.val y| ≤ Om →
    R.finite (x +ᶠ y) ∧ |R.val (x +ᶠ y) - (R.val x + R.val y)| ≤ u * |R.val x + R.val y|
  sub : ∀ x y : G, R.finite x → R.finite y → |R.val x - R.val y| ≤ Om →
    R.finite (x -ᶠ y) ∧ |R.val (x -ᶠ y) - (R.val x - R.val y)| ≤ u * |R.val x - R.val y|
  mul : ∀ x y : G, R.finite x → R.finite y → |R.val x * R.val y| ≤ Om →
    R.finite (x *ᶠ y) ∧ |R.val (x *ᶠ y) - R.val x * R.val y| ≤ u * (|R.val x * R.val y| + th)
  fma : ∀ x y z : G, R.finite x → R.finite y → R.finite z → |R.val x * R.val y + R.val z| ≤ Om →
    R.finite (c.fma x y z) ∧ |R.val (c.fma x y z) - (R.val x * R.val y + R.val z)| ≤ u * (|R.val x * R.val y + R.val z| + th)
  divide : ∀ (site i : ℕ) (x : G), 1 ≤ i → i ≤ n → R.finite x → |R.val x / i| ≤ Om →
    R.finite (c.divide site i x) ∧ |R.val (c.divide site i x) - R.val x / i| ≤ u * (|R.val x / i| + th)
  neg : ∀ x : G, R.finite x → R.finite (neg x) ∧ R.val (neg x) = - R.val x
  ofInt : ∀ k : ℤ, |k| ≤ (n : ℤ) ^ 2 + 2 → R.finite (ofInt k) ∧ R.val (ofInt k) = k
  powi : ∀ (site : ℕ) (x : G) (k : ℕ), k ≤ n → R.finite x → |R.val x ^ k| ≤ Om →
    R.finite (c.powi site k x) ∧ |R.val (c.powi site k x) - R.val x ^ k| ≤ ((1 + u) ^ q - 1) * (|R.val x ^ k| + th)
  ldexp : ∀ (x : G) (e : ℤ), 0 ≤ e → R.finite x → |R.val x * (2 : ℝ) ^ e| ≤ Om →
    R.finite (ldexp x e) ∧ R.val (ldexp x e) = R.val x * (2 : ℝ) ^ e
  frexp : ∀ x : G, R.finite x → R.val x ≠ 0 → |R.val x| < (2 : ℝ) ^ frexpExp x
  log : ∀ x : G, R.finite x → 0 < R.val x →
    R.finite (log x) ∧ |R.val (log x) - Real.log (R.val x)| ≤ u * (|Real.log (R.val x)| + th)
  lgamma : R.finite (lgamma (FOps.ofInt ((n : ℤ) + 1)) : G) ∧
    |R.val (lgamma (FOps.ofInt ((n : ℤ) + 1)) : G) - Real.log n.factorial| ≤ u * (|Real.log n.factorial| + th)
  exp : ∀ x : G, R.finite x → Real.exp (R.val x) ≤ Om →
    R.finite (c.exp x) ∧ |R.val (c.exp x) - Real.exp (R.val x)| ≤ u * (|Real.exp (R.val x)| + th)

variable {R : FloatModel G} {c : MnsCode G} {u th Om : ℝ} {q n : ℕ}

/-- A sum of products in any order. -/
theorem sumTree_bnd (ops : MnsOps R c u th Om q n) {x y : ℕ → G} {r a : ℕ → ℝ} {m H : ℕ} {T : ℝ} (hT : (1 + u) ^ (m + H) * T ≤ Om) :
    ∀ t : SumTree, (∀ k ∈ t.terms, R.finite (x k) ∧ R.finite (y k) ∧ MApprox (1 + u) m (R.val (x k) * R.val (y k)) (r k) (a k)) →
      (t.terms.map fun k => a k + th).sum ≤ T → t.height ≤ H →
      R.finite (t.eval c.fma x y) ∧
        MApprox (1 + u) (m + t.height) (R.val (t.eval c.fma x y)) (t.terms.map r).sum (t.terms.map fun k => a k + th).sum := by
  have hG : (1 : ℝ) ≤ 1 + u := by linarith [ops.u_nonneg]
  have hth := ops.th_nonneg
  have hu1 : (1 + u - 1 : ℝ) = u := by ring
  have hle : ∀ {l : ℕ} {xh x a : ℝ}, MApprox (1 + u) l xh x a → l ≤ m + H → a ≤ T → |xh| ≤ Om := by
    intro l xh x a h hm ha
    refine (h.abs_le.trans (mul_le_mul (pow_le_pow_right₀ hG hm) ha h.nonneg (by positivity))).trans hT
  have hs0 : ∀ t : SumTree, (∀ k ∈ t.terms, R.finite (x k) ∧ R.finite (y k) ∧ MApprox (1 + u) m (R.val (x k) * R.val (y k)) (r k) (a k)) →
      0 ≤ (t.terms.map fun k => a k + th).sum := by
    intro t h
    refine List.sum_nonneg ?_
    intro z hz
    obtain ⟨k, hk, rfl⟩ := List.mem_map.mp hz
    have := (h k hk).2.2.nonneg
    linarith
  intro t
  induction t with
  | zero =>
    intro _ _ _
    refine ⟨R.zero_finite, ?_⟩
    simp only [SumTree.terms, SumTree.eval, SumTree.height, List.map_nil, List.sum_nil, R.val_zero]
    have := MApprox.exact (1 + u) (m + 0) hG 0
    simpa using this
  | prod k =>
    intro h h1 h2
    obtain ⟨f1, f2, a1⟩ := h k (by simp [SumTree.terms])
    simp only [SumTree.terms, List.map_cons, List.map_nil, List.sum_cons, List.sum_nil, add_zero, SumTree.height] at h1 h2
    obtain ⟨f3, a3⟩ := ops.mul _ _ f1 f2 (hle a1 (by omega) (by linarith))
    refine ⟨f3, ?_⟩
    have := a1.round1 hG hth (z := R.val (x k *ᶠ y k)) (by rw [hu1]; exact a3)
    simpa [SumTree.terms, SumTree.eval, SumTree.height] using this
  | fma k t ih =>
    intro h h1 h2
    obtain ⟨f1, f2, a1⟩ := h k (by simp [SumTree.terms])
    have ht : ∀ k ∈ t.terms, _ := fun k' hk' => h k' (by simp [SumTree.terms, hk'])
    have h0 := hs0 t ht
    have ha0 := a1.nonneg
    simp only [SumTree.terms, List.map_cons, List.sum_cons, SumTree.height] at h1 h2
    obtain ⟨f3, a3⟩ := ih ht (by linarith) (by omega)
    have a4 := (a1.mono hG (k := m + t.height) (by omega)).add a3
    obtain ⟨f5, a5⟩ := ops.fma _ _ _ f1 f2 f3 (hle a4 (by omega) (by linarith))
    refine ⟨f5, ?_⟩
    have := a4.round1 hG hth (z := R.val (c.fma (x k) (y k) (t.eval c.fma x y))) (by rw [hu1]; exact a5)
    have e : a k + (t.terms.map fun k => a k + th).sum + th = a k + th + (t.terms.map fun k => a k + th).sum := by ring
    rw [e] at this
    simpa [SumTree.terms, SumTree.eval, SumTree.height, Nat.add_assoc] using this
  | add t v iht ihv =>
    intro h h1 h2
    have ht : ∀ k ∈ t.terms, _ := fun k' hk' => h k' (by simp [SumTree.terms, hk'])
    have hv : ∀ k ∈ v.terms, _ := fun k' hk' => h k' (by simp [SumTree.terms, hk'])
    have h0 := hs0 t ht
    have h0' := hs0 v hv
    simp only [SumTree.terms, List.map_append, List.sum_append, SumTree.height] at h1 h2
    have m1 : t.height ≤ max t.height v.height := le_max_left _ _
    have m2 : v.height ≤ max t.height v.height := le_max_right _ _
    obtain ⟨f1, a1⟩ := iht ht (by linarith) (by omega)
    obtain ⟨f2, a2⟩ := ihv hv (by linarith) (by omega)
    have a3 := (a1.mono hG (k := m + max t.height v.height) (by omega)).add (a2.mono hG (k := m + max t.height v.height) (by omega))
    obtain ⟨f4, a4⟩ := ops.add _ _ f1 f2 (hle a3 (by omega) (by linarith))
    refine ⟨f4, ?_⟩
    have := a3.round hG (z := R.val (t.eval c.fma x y +ᶠ v.eval c.fma x y)) (by rw [hu1]; exact a4)
    simpa [SumTree.terms, SumTree.eval, SumTree.height, Nat.add_assoc] using this

/-- Error of `evaluate` as compiled, without overflow. -/
theorem evalT_bnd (ops : MnsOps R c u th Om q n) {ex site : ℕ} (hc : MnsCode.Legal c ex) {d M : ℕ} {mu al : ℕ → G} {x : G} {rmu amu : ℕ → ℝ}
    {e : ℕ → ℕ} (hd : d ≤ n) (hx : R.finite x) (hmu : ∀ i ≤ d, R.finite (mu i)) (hal : ∀ i ≤ d, R.finite (al i))
    (hap : ∀ i ≤ d, MApprox (1 + u) (e i) (R.val (mu i)) (rmu i) (amu i))
    (hM : ∀ i ≤ d, e i + (i + q) + (d + 2 + ex) ≤ M + 1)
    (hG2 : (1 + u) ^ (M + 1) ≤ 3 / 2) (h3 : 3 ≤ Om) (hc1 : ∀ i ≤ d, |R.val x + R.val (al i)| ≤ 1)
    (hc2 : ∀ i ≤ d, (|R.val x + R.val (al i)| + th) ^ i ≤ 2)
    (hTot : 3 / 2 * sumMaj th d amu (fun i => |R.val x + R.val (al i)|) ≤ Om) :
    R.finite (evalT c site d mu al x) ∧
    MApprox (1 + u) (M + 1) (R.val (evalT c site d mu al x)) (∑ i ∈ range (d + 1), rmu i * (R.val x + R.val (al i)) ^ i)
      (sumMaj th d amu (fun i => |R.val x + R.val (al i)|)) := by
  have hG : (1 : ℝ) ≤ 1 + u := by linarith [ops.u_nonneg]
  have hth := ops.th_nonneg
  have hu1 : (1 + u - 1 : ℝ) = u := by ring
  set cc : ℕ → ℝ := fun i => |R.val x + R.val (al i)| with hcc
  have hc0 : ∀ i, 0 ≤ cc i := fun i => abs_nonneg _
  have hpow : ∀ k ≤ d, R.finite (c.powi site k (x +ᶠ al k)) ∧
      MApprox (1 + u) (k + q) (R.val (c.powi site k (x +ᶠ al k))) ((R.val x + R.val (al k)) ^ k) ((cc k + th) ^ k + th) := by
    intro k hk
    obtain ⟨f2, a2⟩ := ops.add x (al k) hx (hal k hk) ((hc1 k hk).trans (by linarith))
    have b2 : MApprox (1 + u) 1 (R.val (x +ᶠ al k)) (R.val x + R.val (al k)) (cc k + th) :=
      ((MApprox.exact (1 + u) 0 hG _).round hG (by rw [hu1]; exact a2)).weaken hG (by show cc k ≤ _; linarith)
    have b2p := b2.pow hG k
    obtain ⟨f3, a3⟩ := ops.powi site _ k (hk.trans hd) f2 (by
      refine b2p.abs_le.trans ?_
      have h1 : (1 + u) ^ (1 * k) ≤ 3 / 2 := (pow_le_pow_right₀ hG (by have := hM k hk; omega)).trans hG2
      have h2 := hc2 k hk
      have := mul_le_mul h1 h2 (pow_nonneg (by have := hc0 k; linarith) _) (by norm_num)
      linarith)
    refine ⟨f3, ?_⟩
    have := b2p.roundq hG q hth a3
    rwa [one_mul] at this
  have hmem : ∀ k ∈ (c.sum site d).terms, k ≤ d := by
    intro k hk
    have := (hc.sum site d).mem_iff.mp hk
    rw [List.mem_range] at this; omega
  have hsum : ∀ f : ℕ → ℝ, ((c.sum site d).terms.map f).sum = ∑ k ∈ range (d + 1), f k := by
    intro f
    rw [((hc.sum site d).map f).sum_eq]
    rfl
  have hh := hc.height site d
  have hmaj : ((c.sum site d).terms.map fun k => amu k * ((cc k + th) ^ k + th) + th).sum ≤ sumMaj th d amu cc := by
    rw [hsum]
    unfold sumMaj
    exact Finset.sum_le_sum fun i _ => by linarith
  have hM0 : d + 2 + ex ≤ M + 1 := by have := hM 0 (Nat.zero_le _); omega
  obtain ⟨f, a⟩ := sumTree_bnd ops (x := mu) (y := fun i => c.powi site i (x +ᶠ al i)) (r := fun i => rmu i * (R.val x + R.val (al i)) ^ i)
    (a := fun k => amu k * ((cc k + th) ^ k + th)) (m := M + 1 - (d + 2 + ex)) (H := d + 2 + ex) (T := sumMaj th d amu cc)
    (by
      rw [show M + 1 - (d + 2 + ex) + (d + 2 + ex) = M + 1 by omega]
      refine le_trans (mul_le_mul_of_nonneg_right hG2 ?_) hTot
      unfold sumMaj
      refine Finset.sum_nonneg fun i hi => ?_
      have h1 := (hap i (by have := Finset.mem_range.mp hi; omega)).nonneg
      have := hc0 i
      positivity)
    (c.sum site d) (fun k hk => by
      obtain ⟨f1, a1⟩ := hpow k (hmem k hk)
      exact ⟨hmu k (hmem k hk), f1, ((hap k (hmem k hk)).mul hG a1).mono hG (by have := hM k (hmem k hk); omega)⟩) hmaj hh
  refine ⟨f, ?_⟩
  rw [hsum] at a
  exact (a.mono hG (by omega)).weaken hG hmaj

/-- How many times each of the three terms is used. -/
def ExpTree.counts : ExpTree → ℕ × ℕ × ℕ
  | .lambda => (1, 0, 0)
  | .lgamma => (0, 0, 1)
  | .klog => (0, 1, 0)
  | .neg t => ExpTree.counts t
  | .add t u => ExpTree.counts t + ExpTree.counts u
  | .sub t u => ExpTree.counts t + ExpTree.counts u
  | .fma t => ExpTree.counts t + (0, 1, 0)
  | .fnma t => ExpTree.counts t + (0, 1, 0)

theorem counts_sum (t : ExpTree) : (ExpTree.counts t).1 + (ExpTree.counts t).2.1 + (ExpTree.counts t).2.2 = t.uses := by
  induction t <;> simp only [ExpTree.counts, ExpTree.uses, Prod.fst_add, Prod.snd_add] <;> omega

theorem counts_coeffs_mns (t : ExpTree) : |t.coeffs.1| ≤ (ExpTree.counts t).1 ∧ |t.coeffs.2.1| ≤ (ExpTree.counts t).2.1 ∧
    |t.coeffs.2.2| ≤ (ExpTree.counts t).2.2 := by
  induction t with
  | lambda => simp [ExpTree.counts, ExpTree.coeffs]
  | lgamma => simp [ExpTree.counts, ExpTree.coeffs]
  | klog => simp [ExpTree.counts, ExpTree.coeffs]
  | _ =>
    simp only [ExpTree.counts, ExpTree.coeffs, Prod.fst_add, Prod.snd_add, Prod.fst_sub, Prod.snd_sub, Prod.fst_neg,
      Prod.snd_neg]
    simp only [abs_le] at *
    push_cast
    omega

theorem counts_one {t : ExpTree} (h1 : t.coeffs = (1, -1, 1)) (h2 : t.uses = 3) : ExpTree.counts t = (1, 1, 1) := by
  have h3 := counts_sum t
  have h4 := counts_coeffs_mns t
  rw [h1] at h4
  obtain ⟨h5, h6, h7⟩ := h4
  norm_num at h5 h6 h7
  refine Prod.ext ?_ (Prod.ext ?_ ?_) <;> dsimp only <;> omega

theorem uses_pos_mns (t : ExpTree) : 1 ≤ t.uses := by
  induction t <;> simp only [ExpTree.uses] <;> omega

/-- The exponent in any order. -/
theorem expTree_bnd (ops : MnsOps R c u th Om q n) {lam k l g : G} (fl : R.finite lam) (fk : R.finite k) (fll : R.finite l) (fg : R.finite g)
    {rl rk rll rg al all ag : ℝ} (hl : MApprox (1 + u) 1 (R.val lam) rl al) (hk : R.val k = rk) (hk0 : 0 ≤ rk)
    (hll : MApprox (1 + u) 1 (R.val l) rll all) (hg : MApprox (1 + u) 1 (R.val g) rg ag) {H : ℕ} {T : ℝ} (hT : (1 + u) ^ (1 + H) * T ≤ Om) :
    ∀ t : ExpTree, t.uses ≤ H →
      (ExpTree.counts t).1 * al + (ExpTree.counts t).2.1 * (rk * all + th) + (ExpTree.counts t).2.2 * ag ≤ T →
      R.finite (t.eval c.fma lam k l g) ∧ MApprox (1 + u) (1 + t.uses) (R.val (t.eval c.fma lam k l g))
        (t.coeffs.1 * rl + t.coeffs.2.1 * (rk * rll) + t.coeffs.2.2 * rg)
        ((ExpTree.counts t).1 * al + (ExpTree.counts t).2.1 * (rk * all + th) + (ExpTree.counts t).2.2 * ag) := by
  have hG : (1 : ℝ) ≤ 1 + u := by linarith [ops.u_nonneg]
  have hth := ops.th_nonneg
  have hu1 : (1 + u - 1 : ℝ) = u := by ring
  have hal := hl.nonneg
  have hall := hll.nonneg
  have hag := hg.nonneg
  have hK0 : 0 ≤ rk * all + th := add_nonneg (mul_nonneg hk0 hall) hth
  have hle : ∀ {l : ℕ} {xh x a : ℝ}, MApprox (1 + u) l xh x a → l ≤ 1 + H → a ≤ T → |xh| ≤ Om := by
    intro l xh x a h hm ha
    refine (h.abs_le.trans (mul_le_mul (pow_le_pow_right₀ hG hm) ha h.nonneg (by positivity))).trans hT
  have hkl : MApprox (1 + u) 1 (R.val k * R.val l) (rk * rll) (rk * all) := by
    rw [hk]
    have := hll.scale hk0
    rwa [mul_comm (R.val l), mul_comm rll, mul_comm all] at this
  have hc0 : ∀ t : ExpTree, 0 ≤ ((ExpTree.counts t).1 : ℝ) * al + (ExpTree.counts t).2.1 * (rk * all + th) + (ExpTree.counts t).2.2 * ag :=
    fun t => by positivity
  intro t
  induction t with
  | lambda =>
    intro _ _
    refine ⟨fl, ?_⟩
    simp only [ExpTree.eval, ExpTree.coeffs, ExpTree.counts, ExpTree.uses]
    simpa using hl.mono hG (k := 1 + 1) (by omega)
  | lgamma =>
    intro _ _
    refine ⟨fg, ?_⟩
    simp only [ExpTree.eval, ExpTree.coeffs, ExpTree.counts, ExpTree.uses]
    simpa using hg.mono hG (k := 1 + 1) (by omega)
  | klog =>
    intro h1 h2
    simp only [ExpTree.counts, ExpTree.uses] at h1 h2
    obtain ⟨f, a⟩ := ops.mul _ _ fk fll (hle hkl (by omega) (by push_cast at h2; linarith))
    refine ⟨f, ?_⟩
    simp only [ExpTree.eval, ExpTree.coeffs, ExpTree.counts, ExpTree.uses]
    have := hkl.round1 hG hth (z := R.val (k *ᶠ l)) (by rw [hu1]; exact a)
    simpa using this
  | neg t ih =>
    intro h1 h2
    obtain ⟨f, a⟩ := ih h1 h2
    obtain ⟨f', v⟩ := ops.neg _ f
    refine ⟨f', ?_⟩
    simp only [ExpTree.eval, ExpTree.coeffs, ExpTree.counts, ExpTree.uses] at v ⊢
    rw [v]
    have := a.neg
    refine cast ?_ this
    congr 1
    simp only [Prod.fst_neg, Prod.snd_neg]; push_cast; ring
  | add t v iht ihv =>
    intro h1 h2
    have ht := hc0 t
    have hv := hc0 v
    have pt := uses_pos_mns t
    have pv := uses_pos_mns v
    simp only [ExpTree.counts, ExpTree.uses, Prod.fst_add, Prod.snd_add] at h1 h2
    push_cast at h2
    obtain ⟨f1, a1⟩ := iht (by omega) (by linarith)
    obtain ⟨f2, a2⟩ := ihv (by omega) (by linarith)
    have a3 := (a1.mono hG (k := t.uses + v.uses) (by omega)).add (a2.mono hG (k := t.uses + v.uses) (by omega))
    obtain ⟨f4, a4⟩ := ops.add _ _ f1 f2 (hle a3 (by omega) (by linarith))
    refine ⟨f4, ?_⟩
    have := a3.round hG (z := R.val (t.eval c.fma lam k l g +ᶠ v.eval c.fma lam k l g)) (by rw [hu1]; exact a4)
    simp only [ExpTree.eval, ExpTree.coeffs, ExpTree.counts, ExpTree.uses, Prod.fst_add, Prod.snd_add]
    rw [show 1 + (t.uses + v.uses) = t.uses + v.uses + 1 by omega]
    refine cast ?_ this
    congr 1 <;> push_cast <;> ring
  | sub t v iht ihv =>
    intro h1 h2
    have ht := hc0 t
    have hv := hc0 v
    have pt := uses_pos_mns t
    have pv := uses_pos_mns v
    simp only [ExpTree.counts, ExpTree.uses, Prod.fst_add, Prod.snd_add] at h1 h2
    push_cast at h2
    obtain ⟨f1, a1⟩ := iht (by omega) (by linarith)
    obtain ⟨f2, a2⟩ := ihv (by omega) (by linarith)
    have a3 := (a1.mono hG (k := t.uses + v.uses) (by omega)).sub (a2.mono hG (k := t.uses + v.uses) (by omega))
    obtain ⟨f4, a4⟩ := ops.sub _ _ f1 f2 (hle a3 (by omega) (by linarith))
    refine ⟨f4, ?_⟩
    have := a3.round hG (z := R.val (t.eval c.fma lam k l g -ᶠ v.eval c.fma lam k l g)) (by rw [hu1]; exact a4)
    simp only [ExpTree.eval, ExpTree.coeffs, ExpTree.counts, ExpTree.uses, Prod.fst_add, Prod.snd_add, Prod.fst_sub, Prod.snd_sub]
    rw [show 1 + (t.uses + v.uses) = t.uses + v.uses + 1 by omega]
    refine cast ?_ this
    congr 1 <;> push_cast <;> ring
  | fma t ih =>
    intro h1 h2
    have ht := hc0 t
    have pt := uses_pos_mns t
    simp only [ExpTree.counts, ExpTree.uses, Prod.fst_add, Prod.snd_add] at h1 h2
    push_cast at h2
    obtain ⟨f1, a1⟩ := ih (by omega) (by linarith)
    have a3 := (hkl.mono hG (k := 1 + t.uses) (by omega)).add a1
    obtain ⟨f4, a4⟩ := ops.fma _ _ _ fk fll f1 (hle a3 (by omega) (by linarith))
    refine ⟨f4, ?_⟩
    have := a3.round1 hG hth (z := R.val (c.fma k l (t.eval c.fma lam k l g))) (by rw [hu1]; exact a4)
    simp only [ExpTree.eval, ExpTree.coeffs, ExpTree.counts, ExpTree.uses, Prod.fst_add, Prod.snd_add]
    rw [show 1 + (t.uses + 1) = 1 + t.uses + 1 by omega]
    refine cast ?_ this
    congr 1 <;> push_cast <;> ring
  | fnma t ih =>
    intro h1 h2
    have ht := hc0 t
    have pt := uses_pos_mns t
    simp only [ExpTree.counts, ExpTree.uses, Prod.fst_add, Prod.snd_add] at h1 h2
    push_cast at h2
    obtain ⟨f1, a1⟩ := ih (by omega) (by linarith)
    obtain ⟨fn, vn⟩ := ops.neg _ fk
    have hkl' : MApprox (1 + u) 1 (R.val (neg k) * R.val l) (-(rk * rll)) (rk * all) := by
      rw [vn, neg_mul]; exact hkl.neg
    have a3 := (hkl'.mono hG (k := 1 + t.uses) (by omega)).add a1
    obtain ⟨f4, a4⟩ := ops.fma _ _ _ fn fll f1 (hle a3 (by omega) (by linarith))
    refine ⟨f4, ?_⟩
    have := a3.round1 hG hth (z := R.val (c.fma (neg k) l (t.eval c.fma lam k l g))) (by rw [hu1]; exact a4)
    simp only [ExpTree.eval, ExpTree.coeffs, ExpTree.counts, ExpTree.uses, Prod.fst_add, Prod.snd_add, Prod.fst_sub, Prod.snd_sub]
    rw [show 1 + (t.uses + 1) = 1 + t.uses + 1 by omega]
    refine cast ?_ this
    congr 1 <;> push_cast <;> ring

end
end CP.Spec
