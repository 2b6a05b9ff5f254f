import Verif.RoundSpec
import Verif.Proofs.Ecdf2Final
/-
Forward error analysis of `ecdf2` with direct convolution.
-/
set_option linter.unusedVariables false
open Finset
namespace CP.Spec
noncomputable section
variable {F : Type} [FOps F] {E : Fault → Prop} {R : FloatModel F} {S : Set F}
open FOps

theorem poissonProb_eq : poissonProb = pois := rfl

/-- `x` is a finite non-negative number that equals `r` up to a factor `g^K` and an absolute error `A`, and 0 exactly if `r` is. -/
structure Approx (R : FloatModel F) (K : ℕ) (A : ℝ) (x : F) (r : ℝ) : Prop where
  fin : R.finite x
  nonneg : 0 ≤ R.val x
  lower : r / R.g ^ K - A ≤ R.val x
  upper : R.val x ≤ (r + A) * R.g ^ K
  exact0 : R.ZeroExact → r = 0 → R.val x = 0

theorem FloatModel.g_pos (R : FloatModel F) : 0 < R.g := lt_of_lt_of_le one_pos R.one_le_g
theorem FloatModel.one_le_pow (R : FloatModel F) (K : ℕ) : 1 ≤ R.g ^ K := one_le_pow₀ R.one_le_g
theorem FloatModel.pow_pos' (R : FloatModel F) (K : ℕ) : 0 < R.g ^ K := pow_pos R.g_pos K
theorem FloatModel.pow_le (R : FloatModel F) {K L : ℕ} (h : K ≤ L) : R.g ^ K ≤ R.g ^ L := pow_le_pow_right₀ R.one_le_g h

theorem Approx.mono {K L : ℕ} {A A' : ℝ} {x : F} {r : ℝ} (h : Approx R K A x r) (hr : 0 ≤ r) (hA : 0 ≤ A) (hK : K ≤ L)
    (hAA : A ≤ A') : Approx R L A' x r := by
  refine ⟨h.fin, h.nonneg, ?_, ?_, h.exact0⟩
  · have : r / R.g ^ L ≤ r / R.g ^ K := div_le_div_of_nonneg_left hr (R.pow_pos' K) (R.pow_le hK)
    linarith [h.lower]
  · refine h.upper.trans ?_
    exact mul_le_mul (by linarith) (R.pow_le hK) (R.pow_pos' K).le (by linarith)

theorem Approx.zero : Approx R 0 0 (zero : F) 0 :=
  ⟨R.zero_finite, R.val_zero.ge, by rw [R.val_zero]; simp, by rw [R.val_zero]; simp, fun _ _ => R.val_zero⟩
theorem Approx.one : Approx R 0 0 (one : F) 1 :=
  ⟨R.one_finite, by rw [R.val_one]; exact zero_le_one, by rw [R.val_one]; simp, by rw [R.val_one]; simp, fun _ h => absurd h one_ne_zero⟩

/-- A rounded product. -/
theorem Approx.mul {K L : ℕ} {A A' : ℝ} {x y : F} {r s : ℝ} (hx : Approx R K A x r) (hy : Approx R L A' y s)
    (hr : 0 ≤ r) (hs : 0 ≤ s) (hs1 : s ≤ 1) (hA : 0 ≤ A) (hA' : 0 ≤ A')
    (hO : (r * s + (r * A' + A + A * A' + R.eta)) * R.g ^ (K + L + 1) ≤ R.Omega) :
    Approx R (K + L + 1) (r * A' + A + A * A' + R.eta) (x *ᶠ y) (r * s) := by
  have gK := R.pow_pos' K
  have gL := R.pow_pos' L
  have g0 := R.g_pos
  have g1 := R.one_le_g
  have hup : R.val x * R.val y ≤ (r * s + (r * A' + A + A * A')) * R.g ^ (K + L) := by
    calc R.val x * R.val y ≤ ((r + A) * R.g ^ K) * ((s + A') * R.g ^ L) :=
          mul_le_mul hx.upper hy.upper hy.nonneg (by positivity)
      _ = (r * s + (r * A' + A * s + A * A')) * R.g ^ (K + L) := by rw [pow_add]; ring
      _ ≤ _ := by
        refine mul_le_mul_of_nonneg_right ?_ (R.pow_pos' _).le
        have : A * s ≤ A := mul_le_of_le_one_right hA hs1
        linarith
  have hlow : r * s / R.g ^ (K + L) - (r * A' + A) ≤ R.val x * R.val y := by
    have hX := hx.lower
    have hY := hy.lower
    set X := r / R.g ^ K with hXd
    set Y := s / R.g ^ L with hYd
    have hX0 : 0 ≤ X := by positivity
    have hY0 : 0 ≤ Y := by positivity
    have hXr : X ≤ r := div_le_self hr (R.one_le_pow K)
    have hYs : Y ≤ 1 := (div_le_self hs (R.one_le_pow L)).trans hs1
    have e : r * s / R.g ^ (K + L) = X * Y := by rw [hXd, hYd, pow_add]; field_simp
    rw [e]
    have h1 : X * A' ≤ r * A' := mul_le_mul_of_nonneg_right hXr hA'
    have h2 : A * Y ≤ A := mul_le_of_le_one_right hA hYs
    have h3 : X * Y - X * A' - A * Y ≤ R.val x * R.val y := by
      by_cases ha : A ≤ X
      · by_cases hb : A' ≤ Y
        · have := mul_le_mul hX hY (by linarith) hx.nonneg
          have h4 : 0 ≤ A * A' := mul_nonneg hA hA'
          nlinarith
        · have : 0 ≤ R.val x * R.val y := mul_nonneg hx.nonneg hy.nonneg
          have h5 : X * Y ≤ X * A' := mul_le_mul_of_nonneg_left (not_le.mp hb).le hX0
          have h6 : 0 ≤ A * Y := mul_nonneg hA hY0
          linarith
      · have : 0 ≤ R.val x * R.val y := mul_nonneg hx.nonneg hy.nonneg
        have h5 : X * Y ≤ A * Y := mul_le_mul_of_nonneg_right (not_le.mp ha).le hY0
        have h6 : 0 ≤ X * A' := mul_nonneg hX0 hA'
        linarith
    linarith
  have hsum0 : 0 ≤ r * s + (r * A' + A + A * A') := by positivity
  have hOm : R.val x * R.val y ≤ R.Omega := by
    refine hup.trans (le_trans ?_ hO)
    exact mul_le_mul (by linarith [R.eta_nonneg]) (R.pow_le (by omega)) (R.pow_pos' _).le
      (by linarith [R.eta_nonneg])
  obtain ⟨hf, h0, hl, hu⟩ := R.mul x y hx.fin hy.fin hx.nonneg hy.nonneg hOm
  refine ⟨hf, h0, le_trans ?_ hl, hu.trans ?_, fun Z h => Z.mul x y hx.fin hy.fin
    ((mul_eq_zero.mp h).imp (hx.exact0 Z) (hy.exact0 Z))⟩
  · have h7 : (r * s / R.g ^ (K + L) - (r * A' + A)) / R.g ≤ R.val x * R.val y / R.g :=
      div_le_div_of_nonneg_right hlow g0.le
    have h8 : (r * s / R.g ^ (K + L) - (r * A' + A)) / R.g = r * s / R.g ^ (K + L + 1) - (r * A' + A) / R.g := by
      rw [pow_succ, sub_div, div_div]
    have h9 : (r * A' + A) / R.g ≤ r * A' + A := div_le_self (by positivity) g1
    have h10 : 0 ≤ A * A' := mul_nonneg hA hA'
    linarith
  · calc R.val x * R.val y * R.g + R.eta
        ≤ (r * s + (r * A' + A + A * A')) * R.g ^ (K + L) * R.g + R.eta * R.g ^ (K + L + 1) := by
          refine add_le_add (mul_le_mul_of_nonneg_right hup g0.le) ?_
          exact le_mul_of_one_le_right R.eta_nonneg (R.one_le_pow _)
      _ = (r * s + (r * A' + A + A * A' + R.eta)) * R.g ^ (K + L + 1) := by rw [pow_succ]; ring

/-- A rounded sum. -/
theorem Approx.add {K : ℕ} {A A' : ℝ} {x y : F} {r s : ℝ} (hx : Approx R K A x r) (hy : Approx R K A' y s)
    (hr : 0 ≤ r) (hs : 0 ≤ s) (hA : 0 ≤ A) (hA' : 0 ≤ A') (hO : (r + s + (A + A')) * R.g ^ K ≤ R.Omega) :
    Approx R (K + 1) (A + A') (x +ᶠ y) (r + s) := by
  have g0 := R.g_pos
  have g1 := R.one_le_g
  have hup : R.val x + R.val y ≤ (r + s + (A + A')) * R.g ^ K := by
    have h1 := hx.upper; have h2 := hy.upper; nlinarith
  obtain ⟨hf, hl, hu⟩ := R.add x y hx.fin hy.fin hx.nonneg hy.nonneg (hup.trans hO)
  refine ⟨hf, le_trans ?_ hl, le_trans ?_ hl, hu.trans ?_, fun Z h => ?_⟩
  · exact div_nonneg (add_nonneg hx.nonneg hy.nonneg) g0.le
  · have h1 := hx.lower; have h2 := hy.lower
    have h7 : ((r + s) / R.g ^ K - (A + A')) / R.g ≤ (R.val x + R.val y) / R.g := by
      refine div_le_div_of_nonneg_right ?_ g0.le
      rw [add_div]; linarith
    have h8 : ((r + s) / R.g ^ K - (A + A')) / R.g = (r + s) / R.g ^ (K + 1) - (A + A') / R.g := by
      rw [pow_succ, sub_div, div_div]
    have h9 : (A + A') / R.g ≤ A + A' := div_le_self (by positivity) g1
    linarith
  · rw [pow_succ, ← mul_assoc]
    exact mul_le_mul_of_nonneg_right hup g0.le
  · rw [hx.exact0 Z (by linarith), hy.exact0 Z (by linarith), add_zero] at hl hu
    rw [zero_div] at hl
    rw [zero_mul] at hu
    exact le_antisymm hu hl

theorem sum_pois_le {lam : ℝ} (h : 0 ≤ lam) (N : ℕ) : ∑ k ∈ range N, pois lam k ≤ 1 := by
  have h1 := Real.sum_le_exp_of_nonneg h N
  unfold pois
  have : ∑ k ∈ range N, Real.exp (-lam) * lam ^ k / (k.factorial : ℝ)
      = Real.exp (-lam) * ∑ k ∈ range N, lam ^ k / (k.factorial : ℝ) := by
    rw [Finset.mul_sum]; exact Finset.sum_congr rfl fun k _ => by ring
  rw [this]
  calc Real.exp (-lam) * ∑ k ∈ range N, lam ^ k / (k.factorial : ℝ) ≤ Real.exp (-lam) * Real.exp lam :=
        mul_le_mul_of_nonneg_left h1 (Real.exp_pos _).le
    _ = 1 := by rw [← Real.exp_add]; simp

/-- Direct convolution of approximate values. -/
theorem naiveConv_approx {a b : ℕ → F} {α β : ℕ → ℝ} {j P K : ℕ} {A A' : ℝ}
    (ha : ∀ k ≤ j, Approx R P A' (a k) (α k)) (hb : ∀ k ≤ j, Approx R K A (b k) (β k))
    (hα : ∀ k, 0 ≤ α k) (hα1 : ∑ k ∈ range (j + 1), α k ≤ 1) (hβ : ∀ k, 0 ≤ β k) (hβ1 : ∀ k, β k ≤ 1)
    (hA : 0 ≤ A) (hA' : 0 ≤ A')
    (hO : (1 + (A + (j + 1 : ℕ) * (A' + A' * A + R.eta))) * R.g ^ (P + K + 1 + (j + 1)) ≤ R.Omega) :
    Approx R (P + K + 1 + (j + 1)) (A + (j + 1 : ℕ) * (A' + A' * A + R.eta)) (naiveConv a b j)
      (∑ k ∈ range (j + 1), α k * β (j - k)) := by
  set D := A' + A' * A + R.eta with hD
  have hD0 : 0 ≤ D := by have := R.eta_nonneg; positivity
  have hαle : ∀ i ≤ j + 1, ∑ k ∈ range i, α k ≤ 1 := fun i hi =>
    (Finset.sum_le_sum_of_subset_of_nonneg (Finset.range_mono hi) (fun k _ _ => hα k)).trans hα1
  have hSle : ∀ i ≤ j + 1, ∑ k ∈ range i, α k * β (j - k) ≤ 1 := fun i hi =>
    (Finset.sum_le_sum fun k _ => mul_le_of_le_one_right (hα k) (hβ1 _)).trans (hαle i hi)
  have hS0 : ∀ i, 0 ≤ ∑ k ∈ range i, α k * β (j - k) := fun i =>
    Finset.sum_nonneg fun k _ => mul_nonneg (hα k) (hβ _)
  have main : ∀ i ≤ j + 1, Approx R (P + K + 1 + i) ((∑ k ∈ range i, α k) * A + i * D)
      ((List.range i).foldl (fun acc k => acc +ᶠ a k *ᶠ b (j - k)) zero) (∑ k ∈ range i, α k * β (j - k)) := by
    intro i
    induction i with
    | zero =>
      intro _
      simp only [List.range_zero, List.foldl_nil, Finset.range_zero, Finset.sum_empty, zero_mul, Nat.cast_zero, add_zero]
      exact Approx.zero.mono le_rfl le_rfl (by omega) le_rfl
    | succ i ih =>
      intro hi
      rw [List.range_succ, List.foldl_append, List.foldl_cons, List.foldl_nil]
      have hEi : (∑ k ∈ range (i + 1), α k) * A + (i + 1 : ℕ) * D ≤ A + (j + 1 : ℕ) * D := by
        have h1 := mul_le_mul_of_nonneg_right (hαle (i + 1) hi) hA
        have h2 : ((i + 1 : ℕ) : ℝ) * D ≤ (j + 1 : ℕ) * D := mul_le_mul_of_nonneg_right (by exact_mod_cast hi) hD0
        linarith
      have hsumi : 0 ≤ ∑ k ∈ range i, α k := Finset.sum_nonneg fun k _ => hα k
      have hterm_le : α i * β (j - i) ≤ 1 := by
        have := hSle (i + 1) hi
        rw [Finset.sum_range_succ] at this
        linarith [hS0 i]
      have hαi : α i * A ≤ A := by
        refine mul_le_of_le_one_left hA ?_
        have := hαle (i + 1) hi
        rw [Finset.sum_range_succ] at this
        linarith
      have hjD : D ≤ (j + 1 : ℕ) * D := by
        refine le_mul_of_one_le_left hD0 ?_
        exact_mod_cast Nat.succ_le_succ (Nat.zero_le j)
      have hm := (ha i (by omega)).mul (hb (j - i) (by omega)) (hα i) (hβ _) (hβ1 _) hA' hA (by
        refine le_trans (mul_le_mul ?_ (R.pow_le (by omega)) (R.pow_pos' _).le ?_) hO
        · have : α i * A + A' + A' * A + R.eta = α i * A + D := by rw [hD]; ring
          rw [this]; linarith
        · positivity)
      have hm' : Approx R (P + K + 1 + i) (α i * A + D) (a i *ᶠ b (j - i)) (α i * β (j - i)) := by
        refine hm.mono (mul_nonneg (hα i) (hβ _)) ?_ (by omega) ?_
        · have := R.eta_nonneg; have := hα i; positivity
        · rw [hD]; linarith
      have hadd := (ih (by omega)).add hm' (hS0 i) (mul_nonneg (hα i) (hβ _)) (by positivity) (by have := hα i; positivity) (by
        rw [← Finset.sum_range_succ (fun k => α k * β (j - k))]
        refine le_trans (mul_le_mul ?_ (R.pow_le (by omega)) (R.pow_pos' _).le ?_) hO
        · have e : (∑ k ∈ range i, α k) * A + i * D + (α i * A + D) = (∑ k ∈ range (i + 1), α k) * A + (i + 1 : ℕ) * D := by
            rw [Finset.sum_range_succ]; push_cast; ring
          rw [e]; linarith [hSle (i + 1) hi]
        · positivity)
      have e : (∑ k ∈ range i, α k) * A + i * D + (α i * A + D) = (∑ k ∈ range (i + 1), α k) * A + (i + 1 : ℕ) * D := by
        rw [Finset.sum_range_succ]; push_cast; ring
      rw [e, ← Finset.sum_range_succ (fun k => α k * β (j - k))] at hadd
      exact hadd
  refine (main (j + 1) le_rfl).mono (hS0 _) ?_ le_rfl ?_
  · have : 0 ≤ ∑ k ∈ range (j + 1), α k := Finset.sum_nonneg fun k _ => hα k
    positivity
  · have := mul_le_mul_of_nonneg_right hα1 hA
    linarith

/-- Real value of a boundary point. -/
def rb (R : FloatModel F) (x : Bound F) : RBound := (R.val x.location, x.tag)

/-- Absolute error after `i` steps. -/
def errA (rho : ℝ) (i : ℕ) : ℝ := (1 + rho) ^ i - 1

theorem errA_nonneg {rho : ℝ} (h : 0 ≤ rho) (i : ℕ) : 0 ≤ errA rho i := by
  have : 1 ≤ (1 + rho) ^ i := one_le_pow₀ (by linarith)
  unfold errA; linarith
theorem errA_succ (rho : ℝ) (i : ℕ) : errA rho (i + 1) = errA rho i * (1 + rho) + rho := by
  unfold errA; rw [pow_succ]; ring
theorem errA_mono {rho : ℝ} (h : 0 ≤ rho) {i j : ℕ} (hij : i ≤ j) : errA rho i ≤ errA rho j := by
  have : (1 + rho) ^ i ≤ (1 + rho) ^ j := pow_le_pow_right₀ (by linarith) hij
  unfold errA; linarith

/-- The loop state approximates the law `v` at time `t` with step counts `c`, `d`. -/
structure FRep (R : FloatModel F) (S : Set F) (n : ℕ) (s : NCState F) (t : ℝ) (v : ℕ → ℝ) (c d K : ℕ) (A : ℝ) : Prop where
  inv : NCInv n s
  b : s.bStep = c
  B : s.BStep = d
  prevFin : R.finite s.prev
  prevS : s.prev ∈ S
  prev : R.val s.prev = t
  supp : ∀ m, (m < d ∨ c < m) → v m = 0
  nonneg : ∀ m, 0 ≤ pw n t v m
  le_one : ∀ m, pw n t v m ≤ 1
  val : ∀ m : ℕ, d ≤ m → m ≤ c → ∃ w, Has s.buffers.src m w ∧ Approx R K A w (pw n t v m)

theorem pw_step_bounds {n : ℕ} {t t' : ℝ} (htt : t ≤ t') {v : ℕ → ℝ} (h0 : ∀ m, 0 ≤ pw n t v m) (h1 : ∀ m, pw n t v m ≤ 1)
    (W : ℕ → Prop) [DecidablePred W] (m : ℕ) :
    0 ≤ pw n t' (vstep (t' - t) W v) m ∧ pw n t' (vstep (t' - t) W v) m ≤ 1 := by
  have hl : 0 ≤ (n : ℝ) * (t' - t) := mul_nonneg (Nat.cast_nonneg _) (by linarith)
  rw [pw_step]
  split
  · refine ⟨Finset.sum_nonneg fun l _ => mul_nonneg (h0 l) (pois_nonneg hl _), ?_⟩
    refine (Finset.sum_le_sum fun l _ => mul_le_of_le_one_left (pois_nonneg hl _) (h1 l)).trans ?_
    rw [← Finset.sum_range_reflect]
    refine le_trans (le_of_eq ?_) (sum_pois_le hl (m + 1))
    refine Finset.sum_congr rfl fun k hk => ?_
    have : k < m + 1 := Finset.mem_range.mp hk
    congr 1; omega
  · exact ⟨le_rfl, zero_le_one⟩

/-- One step of the loop. -/
theorem ncStep_round (env : Env F) {n P : ℕ} {etaP : ℝ} (hpmf : PmfAccurate R S n P etaP) {rho : ℝ}
    (hrho : rho = (n + 1) * (etaP + R.eta)) {s : NCState F}
    {t : ℝ} {v : ℕ → ℝ} {c d i N : ℕ} (hr : FRep R S n s t v c d (i * (P + n + 2)) (errA rho i)) (ht0 : 0 ≤ t)
    (y : Bound F) (hyf : R.finite y.location) (hyS : y.location ∈ S) (ht : t ≤ R.val y.location) (hy1 : R.val y.location ≤ 1)
    (hc : y.tag = .bSTEP → c < n) (hd : y.tag = .BSTEP → d < n)
    (ha : env.asserts = false ∨ (t < R.val y.location → d ≤ c + 1))
    (hiN : i + 1 ≤ N) (hO : (1 + errA rho N) * R.g ^ (N * (P + n + 2)) ≤ R.Omega) :
    Sat E (fun s' => FRep R S n s' (R.val y.location)
        (vstep (R.val y.location - t) (fun m => dN y.tag d ≤ m ∧ m ≤ c) v) (cN y.tag c) (dN y.tag d)
        ((i + 1) * (P + n + 2)) (errA rho (i + 1)))
      (ncStep env (ofInt n) false s y) := by
  have hb := hr.b; have hB := hr.B
  have hbn := hr.inv.bn
  have heta := R.eta_nonneg
  have hetaP := hpmf.etaP_nonneg
  have hrho0 : 0 ≤ rho := by rw [hrho]; positivity
  have hA0 := errA_nonneg hrho0 i
  have hAs := errA_succ rho i
  have hAle : errA rho i ≤ errA rho (i + 1) := errA_mono hrho0 (by omega)
  obtain ⟨hs1, hs2, hs3⟩ := hpmf.sign s.prev hr.prevS y.location hyS hr.prevFin hyf (by rw [hr.prev]; exact ht0)
    (by rw [hr.prev]; exact ht) hy1
  rw [hr.prev] at hs2 hs3
  set lam : F := ofInt n *ᶠ (y.location -ᶠ s.prev) with hlam
  have hnn : 0 ≤ (n : ℝ) * (R.val y.location - t) := mul_nonneg (Nat.cast_nonneg _) (by linarith)
  obtain ⟨f, hf⟩ := exists_fun (a := s.buffers.src)
  have hsl := DoubleBuffer.len_src hr.inv.len0 hr.inv.len1
  have hfa : ∀ m : ℕ, d ≤ m → m ≤ c → Approx R (i * (P + n + 2)) (errA rho i) (f m) (pw n t v m) := by
    intro m h1 h2
    obtain ⟨w, hw, hap⟩ := hr.val m h1 h2
    rw [(hf m (by omega)).unique hw]
    exact hap
  refine (ncStep_sat env hr.inv hlam (f := f) ?_ ?_ ?_ ?_ ?_ ?_).mono ?_
  · intro m h1 h2; exact hf m (by omega)
  · intro h; have := hc h; omega
  · intro h; have := hd h; omega
  · rcases ha with ha | ha
    · exact Or.inl ha
    · right
      by_cases htt : t < R.val y.location
      · right; have := ha htt; omega
      · left
        rw [← Bool.not_eq_true]
        exact fun h => htt (hs2.mp h)
  · intro _ h; rw [hs1] at h; cases h
  · intro h1 h2
    have h1' : ¬ t < R.val y.location := fun h => by rw [hs2.mpr h] at h1; cases h1
    have : FOps.eq lam zero = true := hs3.mpr (le_antisymm ht (not_lt.mp h1'))
    rw [this] at h2; cases h2
  · intro s' ⟨hinv, hb', hB', hprev, hval⟩
    have hb'' : s'.bStep = (cN y.tag c : ℕ) := by
      rw [hb', hb]; by_cases h : y.tag = .bSTEP <;> simp [bNext, cN, h]
    have hB'' : s'.BStep = (dN y.tag d : ℕ) := by
      rw [hB', hB]; by_cases h : y.tag = .BSTEP <;> simp [BNext, dN, h]
    refine ⟨hinv, hb'', hB'', by rw [hprev]; exact hyf, by rw [hprev]; exact hyS, by rw [hprev], ?_,
      fun m => (pw_step_bounds ht hr.nonneg hr.le_one _ m).1, fun m => (pw_step_bounds ht hr.nonneg hr.le_one _ m).2, ?_⟩
    · intro m hm
      unfold vstep
      rw [if_neg]
      rintro ⟨h1, h2⟩
      rcases hm with hm | hm
      · omega
      · unfold cN at hm; split at hm <;> omega
    · intro m hm1 hm2
      have hv := hval m (by omega) (by omega)
      rw [hb, hB] at hv
      simp only [Int.toNat_natCast] at hv
      refine ⟨_, hv, ?_⟩
      unfold stepVal
      by_cases h1 : y.tag = .bSTEP ∧ m = c + 1
      · rw [if_pos h1, pw_step, if_neg (by omega)]
        exact Approx.zero.mono le_rfl le_rfl (by omega) (errA_nonneg hrho0 _)
      · rw [if_neg h1]
        have hmc : m ≤ c := by
          unfold cN at hm2
          split at hm2
          · rename_i h
            by_contra hh
            exact h1 ⟨h, by omega⟩
          · exact hm2
        have hdm : d ≤ m := by
          unfold dN at hm1; split at hm1 <;> omega
        by_cases hpos : t < R.val y.location
        · rw [if_pos (hs2.mpr hpos), pw_step, if_pos ⟨hm1, hmc⟩]
          unfold convFn
          rw [if_neg (by simp)]
          have hne : FOps.eq lam zero = false := by
            rw [← Bool.not_eq_true]
            exact fun h => hpos.ne (hs3.mp h)
          have hpne : ∀ k ≤ m - d, pois ((n : ℝ) * (R.val y.location - t)) k ≠ 0 := by
            intro k hk
            rcases Nat.eq_zero_or_pos n with hn0 | hn0
            · have : k = 0 := by omega
              subst this
              unfold pois
              positivity
            · exact (pois_pos (mul_pos (by exact_mod_cast hn0) (by linarith)) k).ne'
          have hp : ∀ k ≤ m - d, Approx R P etaP (pmfVal lam k) (pois ((n : ℝ) * (R.val y.location - t)) k) := by
            intro k hk
            have := hpmf.pmf s.prev hr.prevS y.location hyS hr.prevFin hyf (by rw [hr.prev]; exact ht0) (by rw [hr.prev]; exact hpos)
              hy1 k (by omega) (pmfVal lam k) (by
                unfold pmfVal
                rw [hne]
                simp only [Bool.false_eq_true, if_false]
                rw [hlam])
            rw [hr.prev] at this
            exact ⟨this.1, this.2.1, this.2.2.1, this.2.2.2, fun _ h => absurd h (hpne k hk)⟩
          have hAbound : errA rho i + ((m - d + 1 : ℕ) : ℝ) * (etaP + etaP * errA rho i + R.eta) ≤ errA rho (i + 1) := by
            have hle : ((m - d + 1 : ℕ) : ℝ) ≤ (n : ℝ) + 1 := by
              have : m - d + 1 ≤ n + 1 := by omega
              exact_mod_cast this
            have h2 : ((m - d + 1 : ℕ) : ℝ) * (etaP + etaP * errA rho i + R.eta)
                ≤ ((n : ℝ) + 1) * (etaP + etaP * errA rho i + R.eta) :=
              mul_le_mul_of_nonneg_right hle (by positivity)
            have h3 : ((n : ℝ) + 1) * (etaP + etaP * errA rho i + R.eta) ≤ errA rho i * rho + rho := by
              rw [hrho]
              have : 0 ≤ ((n : ℝ) + 1) * (errA rho i * R.eta) := by positivity
              rw [← hrho]
              nlinarith
            rw [hAs]; linarith
          have hKb : P + i * (P + n + 2) + 1 + (m - d + 1) ≤ (i + 1) * (P + n + 2) := by
            rw [Nat.add_mul, Nat.one_mul]; omega
          have hKN : (i + 1) * (P + n + 2) ≤ N * (P + n + 2) := Nat.mul_le_mul_right _ hiN
          have hconv := naiveConv_approx (R := R) (a := pmfVal lam) (b := fun k => f (d + k))
            (α := pois ((n : ℝ) * (R.val y.location - t))) (β := fun k => pw n t v (d + k)) (j := m - d) (P := P)
            (K := i * (P + n + 2)) (A := errA rho i) (A' := etaP) hp
            (fun k hk => hfa (d + k) (by omega) (by omega)) (pois_nonneg hnn) (sum_pois_le hnn _)
            (fun k => hr.nonneg _) (fun k => hr.le_one _) hA0 hetaP (by
              refine le_trans (mul_le_mul ?_ (R.pow_le (hKb.trans hKN)) (R.pow_pos' _).le ?_) hO
              · linarith [errA_mono hrho0 hiN]
              · linarith [errA_nonneg hrho0 N])
          rw [shift_sum hdm] at hconv
          · refine hconv.mono ?_ ?_ hKb hAbound
            · exact Finset.sum_nonneg fun l _ => mul_nonneg (hr.nonneg l) (pois_nonneg hnn _)
            · positivity
          · intro l hl
            unfold pw
            rw [hr.supp l (Or.inl hl), mul_zero]
        · have hz : R.val y.location = t := le_antisymm (not_lt.mp hpos) ht
          rw [if_neg (fun h => hpos (hs2.mp h)), pw_same _ ⟨hm1, hmc⟩ (by rw [hz]; ring)]
          exact (hfa m hdm hmc).mono (hr.nonneg m) hA0 (Nat.mul_le_mul_right _ (by omega)) hAle

/-- The whole loop. -/
theorem ncFold_round (env : Env F) {n P : ℕ} {etaP : ℝ} (hpmf : PmfAccurate R S n P etaP) {rho : ℝ}
    (hrho : rho = (n + 1) * (etaP + R.eta)) {N : ℕ} (hO : (1 + errA rho N) * R.g ^ (N * (P + n + 2)) ≤ R.Omega)
    (L : List (Bound F)) :
    ∀ (s : NCState F) (t : ℝ) (v : ℕ → ℝ) (c d i : ℕ) (C : Set (Fin n → ℝ)),
    FRep R S n s t v c d (i * (P + n + 2)) (errA rho i) → i + L.length ≤ N →
    CountLaw n t v C → 0 ≤ t → (∀ y ∈ L, R.finite y.location) → (∀ y ∈ L, y.location ∈ S) → (∀ y ∈ L, t ≤ R.val y.location) →
    (∀ y ∈ L, R.val y.location ≤ 1) → L.Pairwise (fun x y => R.val x.location ≤ R.val y.location) →
    c + tc .bSTEP (L.map (rb R)) ≤ n → d + tc .BSTEP (L.map (rb R)) ≤ n →
    (env.asserts = false ∨ noAbort t c d (L.map (rb R))) →
    Sat E (fun s' => ∃ v', FRep R S n s' (lastLoc t (L.map (rb R))) v' (c + tc .bSTEP (L.map (rb R)))
          (d + tc .BSTEP (L.map (rb R))) ((i + L.length) * (P + n + 2)) (errA rho (i + L.length)) ∧
        CountLaw n (lastLoc t (L.map (rb R))) v' (C ∩ win n c d (L.map (rb R))))
      (L.foldlM (ncStep env (ofInt n) false) s) := by
  induction L with
  | nil =>
    intro s t v c d i C hr _ hC _ _ _ _ _ _ _ _ _
    refine ⟨v, hr, ?_⟩
    simpa [win, lastLoc] using hC
  | cons y L ih =>
    intro s t v c d i C hr hN hC h0 hfin hSS hge h1 hp hc hd ha
    rw [List.foldlM_cons]
    rw [List.map_cons] at hc hd ha ⊢
    have hty := hge y (by simp)
    have hy1 := h1 y (by simp)
    rw [List.length_cons] at hN ⊢
    rw [List.pairwise_cons] at hp
    have hcc := cN_tc (rb R y) c (L.map (rb R))
    have hdd := dN_tc (rb R y) d (L.map (rb R))
    refine Sat.bind (ncStep_round env hpmf hrho hr h0 y (hfin y (by simp)) (hSS y (by simp)) hty hy1 ?_ ?_ ?_ (by omega) hO) ?_
    · intro h
      rw [tc_cons, if_pos (show (rb R y).2 = _ from h)] at hc; omega
    · intro h
      rw [tc_cons, if_pos (show (rb R y).2 = _ from h)] at hd; omega
    · rcases ha with ha | ha
      · exact Or.inl ha
      · exact Or.inr ha.1
    · intro s' hr'
      have hC' := hC.step h0 hty hy1 (fun m => dN y.tag d ≤ m ∧ m ≤ c)
      have hcd1 : cN (rb R y).2 c = cN y.tag c := rfl
      have hcd2 : dN (rb R y).2 d = dN y.tag d := rfl
      have := ih s' (R.val y.location) _ _ _ (i + 1) _ hr' (by omega) hC' (h0.trans hty)
        (fun z hz => hfin z (by simp [hz])) (fun z hz => hSS z (by simp [hz])) hp.1 (fun z hz => h1 z (by simp [hz])) hp.2
        (by omega) (by omega) (by
          rcases ha with ha | ha
          · exact Or.inl ha
          · exact Or.inr ha.2)
      refine this.mono ?_
      rintro s'' ⟨v', hr'', hC''⟩
      rw [lastLoc_cons, ← hcc, ← hdd]
      have e : i + (L.length + 1) = i + 1 + L.length := by omega
      rw [e]
      refine ⟨v', hr'', ?_⟩
      have e3 : win n c d (rb R y :: L.map (rb R)) = {x | dN y.tag d ≤ count (R.val y.location) x ∧
          count (R.val y.location) x ≤ c} ∩ win n (cN y.tag c) (dN y.tag d) (L.map (rb R)) := rfl
      rw [e3, ← Set.inter_assoc]
      exact hC''

end
end CP.Spec
