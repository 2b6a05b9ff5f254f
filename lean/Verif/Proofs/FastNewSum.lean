import Verif.Proofs.FastCmul
import Verif.FastNewSpec
import Verif.Proofs.ConvAcc
import Verif.Proofs.FastNewStep
/-
Sums of products of any sign, evaluated in any order, and the accuracy of the compiled convolution.
-/
set_option linter.unusedVariables false
open Finset
namespace CP.Spec
noncomputable section
variable {F : Type} [FOps F] {R : FloatModel F}
open FOps

/-- One rounding on top of an error. -/
theorem round_once {q u eta T J e s v x : ℝ} (hu : 0 ≤ u) (heta : 0 ≤ eta) (hq : 1 ≤ q) (hT : 0 ≤ T) (hJ : 0 ≤ J)
    (hsx : |x - s| ≤ e) (hs : |s| ≤ T) (hv : |v - x| ≤ u * |x| + eta) (he : e ≤ (q - 1) * T + J * eta * q) :
    |v - s| ≤ (q * (1 + u) - 1) * T + (J + 1) * eta * (q * (1 + u)) := by
  have h1 : |x| ≤ T + e := by
    have := abs_add_le (x - s) s
    rw [sub_add_cancel] at this
    linarith
  have h2 := abs_sub_le v x s
  have h3 := mul_le_mul_of_nonneg_left h1 hu
  have h4 := mul_le_mul_of_nonneg_left he (by linarith : 0 ≤ 1 + u)
  have h5 : 0 ≤ eta * (q * (1 + u) - 1) := mul_nonneg heta (by nlinarith)
  have e1 : (q * (1 + u) - 1) * T + (J + 1) * eta * (q * (1 + u))
      = u * T + (1 + u) * ((q - 1) * T + J * eta * q) + eta + eta * (q * (1 + u) - 1) := by ring
  rw [e1]
  have e2 : (1 + u) * e = e + u * e := by ring
  have e3 : u * (T + e) = u * T + u * e := by ring
  linarith

theorem sumTree_signed {u : ℝ} {Nmax : ℕ} (so : SignedOps R u Nmax) {c : FastCode F} (hc : SignedFma R c u) {a b : ℕ → F} {H J : ℕ} {W : ℝ}
    (hO : (1 + u) ^ H * (W + J * R.eta) ≤ R.Omega) :
    ∀ t : SumTree, (∀ k ∈ t.terms, R.finite (a k)) → (∀ k ∈ t.terms, R.finite (b k)) →
      (t.terms.map fun k => |R.val (a k) * R.val (b k)|).sum ≤ W → t.terms.length ≤ J → t.height ≤ H →
      R.finite (t.eval c.fma a b) ∧
      |R.val (t.eval c.fma a b) - (t.terms.map fun k => R.val (a k) * R.val (b k)).sum|
        ≤ ((1 + u) ^ t.height - 1) * (t.terms.map fun k => |R.val (a k) * R.val (b k)|).sum
          + t.terms.length * R.eta * (1 + u) ^ t.height := by
  have hu := so.u_nonneg
  have heta := R.eta_nonneg
  have hu1 : 1 ≤ 1 + u := by linarith
  set P : ℕ → ℝ := fun k => R.val (a k) * R.val (b k) with hP
  have hT0 : ∀ l : List ℕ, 0 ≤ (l.map fun k => |P k|).sum := fun l => List.sum_nonneg (by simpa using fun k _ => abs_nonneg _)
  have hST : ∀ l : List ℕ, |(l.map P).sum| ≤ (l.map fun k => |P k|).sum := by
    intro l
    induction l with
    | nil => simp
    | cons x l ih => simp only [List.map_cons, List.sum_cons]; exact (abs_add_le _ _).trans (by linarith)
  -- no overflow
  have hOv : ∀ (T j x s e : ℝ) (h : ℕ), 0 ≤ T → T ≤ W → 0 ≤ j → j ≤ J → h ≤ H → |x - s| ≤ e → |s| ≤ T →
      e ≤ ((1 + u) ^ h - 1) * T + j * R.eta * (1 + u) ^ h → |x| ≤ R.Omega := by
    intro T j x s e h hT hTW hj hjJ hh hxs hs he
    have h1 : |x| ≤ T + e := by
      have := abs_add_le (x - s) s
      rw [sub_add_cancel] at this
      linarith
    have h2 : T + (((1 + u) ^ h - 1) * T + j * R.eta * (1 + u) ^ h) = (1 + u) ^ h * (T + j * R.eta) := by ring
    have h3 : (1 + u) ^ h * (T + j * R.eta) ≤ (1 + u) ^ H * (W + J * R.eta) :=
      mul_le_mul (pow_le_pow_right₀ hu1 hh) (add_le_add hTW (mul_le_mul_of_nonneg_right hjJ heta)) (by positivity) (by positivity)
    linarith
  intro t
  induction t with
  | zero =>
    intro _ _ _ _ _
    simp [SumTree.terms, SumTree.eval, SumTree.height, R.zero_finite, R.val_zero]
  | prod k =>
    intro ha hb hW hJ hH
    simp only [SumTree.terms, SumTree.eval, SumTree.height, List.map_cons, List.map_nil, List.sum_cons, List.sum_nil, add_zero,
      List.length_cons, List.length_nil, zero_add, Nat.cast_one, pow_one, one_mul] at *
    have hJ1 : (1 : ℝ) ≤ J := by exact_mod_cast hJ
    have hov := hOv |P k| 1 (P k) (P k) 0 1 (abs_nonneg _) hW zero_le_one hJ1 hH (by simp) le_rfl (by
      have : 0 ≤ u * |P k| := mul_nonneg hu (abs_nonneg _)
      rw [pow_one]
      have : 0 ≤ 1 * R.eta * (1 + u) := by positivity
      linarith)
    obtain ⟨hf, he⟩ := so.mul (a k) (b k) (ha k (by simp)) (hb k (by simp)) hov
    refine ⟨hf, he.trans ?_⟩
    have : R.eta ≤ R.eta * (1 + u) := le_mul_of_one_le_right heta hu1
    show u * |P k| + R.eta ≤ _
    linarith
  | fma k t ih =>
    intro ha hb hW hJ hH
    simp only [SumTree.terms, SumTree.eval, SumTree.height, List.map_cons, List.sum_cons, List.length_cons] at *
    have h0 := hT0 t.terms
    have hPk := abs_nonneg (P k)
    obtain ⟨hf, he⟩ := ih (fun k' hk' => ha k' (by simp [hk'])) (fun k' hk' => hb k' (by simp [hk'])) (by linarith) (by omega) (by omega)
    set q := (1 + u) ^ t.height with hq
    have hq1 : 1 ≤ q := one_le_pow₀ hu1
    have he' : |(P k + R.val (t.eval c.fma a b)) - (P k + (t.terms.map P).sum)|
        ≤ (q - 1) * (|P k| + (t.terms.map fun k => |P k|).sum) + t.terms.length * R.eta * q := by
      have e : (P k + R.val (t.eval c.fma a b)) - (P k + (t.terms.map P).sum) = R.val (t.eval c.fma a b) - (t.terms.map P).sum := by ring
      rw [e]
      refine he.trans (add_le_add (mul_le_mul_of_nonneg_left (by linarith) (by linarith)) le_rfl)
    have hs : |P k + (t.terms.map P).sum| ≤ |P k| + (t.terms.map fun k => |P k|).sum := (abs_add_le _ _).trans (by linarith [hST t.terms])
    have hJ' : ((t.terms.length : ℕ) : ℝ) ≤ J := by exact_mod_cast (by omega : t.terms.length ≤ J)
    have hov := hOv _ (t.terms.length : ℝ) _ _ _ t.height (by linarith) hW (Nat.cast_nonneg _) hJ' (by omega) he' hs le_rfl
    obtain ⟨gf, ge⟩ := hc.fma (a k) (b k) _ (ha k (by simp)) (hb k (by simp)) hf hov
    refine ⟨gf, ?_⟩
    have := round_once hu heta hq1 (by linarith) (Nat.cast_nonneg t.terms.length) he' hs ge le_rfl
    rw [pow_succ]
    push_cast
    exact this
  | add t v iht ihv =>
    intro ha hb hW hJ hH
    simp only [SumTree.terms, SumTree.eval, SumTree.height, List.map_append, List.sum_append, List.length_append, List.mem_append] at *
    have h0 := hT0 t.terms
    have h0v := hT0 v.terms
    have hmt : t.height ≤ max t.height v.height := le_max_left _ _
    have hmv : v.height ≤ max t.height v.height := le_max_right _ _
    obtain ⟨hf, he⟩ := iht (fun k' hk' => ha k' (Or.inl hk')) (fun k' hk' => hb k' (Or.inl hk')) (by linarith) (by omega) (by omega)
    obtain ⟨gf, ge⟩ := ihv (fun k' hk' => ha k' (Or.inr hk')) (fun k' hk' => hb k' (Or.inr hk')) (by linarith) (by omega) (by omega)
    set q := (1 + u) ^ (max t.height v.height) with hq
    have hq1 : 1 ≤ q := one_le_pow₀ hu1
    have hqt : (1 + u) ^ t.height ≤ q := pow_le_pow_right₀ hu1 hmt
    have hqv : (1 + u) ^ v.height ≤ q := pow_le_pow_right₀ hu1 hmv
    have mono : ∀ (l : List ℕ) (p : ℝ), p ≤ q →
        (p - 1) * (l.map fun k => |P k|).sum + l.length * R.eta * p ≤ (q - 1) * (l.map fun k => |P k|).sum + l.length * R.eta * q := by
      intro l p hp
      refine add_le_add (mul_le_mul_of_nonneg_right (by linarith) (hT0 l)) (mul_le_mul_of_nonneg_left hp (by positivity))
    have he' := he.trans (mono _ _ hqt)
    have ge' := ge.trans (mono _ _ hqv)
    have hx : |(R.val (t.eval c.fma a b) + R.val (v.eval c.fma a b)) - ((t.terms.map P).sum + (v.terms.map P).sum)|
        ≤ (q - 1) * ((t.terms.map fun k => |P k|).sum + (v.terms.map fun k => |P k|).sum)
          + ((t.terms.length + v.terms.length : ℕ) : ℝ) * R.eta * q := by
      have e : (R.val (t.eval c.fma a b) + R.val (v.eval c.fma a b)) - ((t.terms.map P).sum + (v.terms.map P).sum)
          = (R.val (t.eval c.fma a b) - (t.terms.map P).sum) + (R.val (v.eval c.fma a b) - (v.terms.map P).sum) := by ring
      rw [e]
      refine (abs_add_le _ _).trans ((add_le_add he' ge').trans (le_of_eq ?_))
      push_cast; ring
    have hs : |(t.terms.map P).sum + (v.terms.map P).sum| ≤ (t.terms.map fun k => |P k|).sum + (v.terms.map fun k => |P k|).sum :=
      (abs_add_le _ _).trans (add_le_add (hST _) (hST _))
    have hJ' : ((t.terms.length + v.terms.length : ℕ) : ℝ) ≤ J := by exact_mod_cast hJ
    have hov := hOv _ _ _ _ _ (max t.height v.height) (by linarith) hW (Nat.cast_nonneg _) hJ' (by omega) hx hs le_rfl
    obtain ⟨kf, ke⟩ := so.add _ _ hf gf hov
    refine ⟨kf, ?_⟩
    rw [pow_succ]
    have hT : 0 ≤ (t.terms.map fun k => |P k|).sum + (v.terms.map fun k => |P k|).sum := by linarith
    -- an addition has no underflow error
    have h1 : |R.val (t.eval c.fma a b) + R.val (v.eval c.fma a b)|
        ≤ ((t.terms.map fun k => |P k|).sum + (v.terms.map fun k => |P k|).sum) + ((q - 1) * ((t.terms.map fun k => |P k|).sum + (v.terms.map fun k => |P k|).sum)
          + ((t.terms.length + v.terms.length : ℕ) : ℝ) * R.eta * q) := by
      have := abs_add_le ((R.val (t.eval c.fma a b) + R.val (v.eval c.fma a b)) - ((t.terms.map P).sum + (v.terms.map P).sum))
        ((t.terms.map P).sum + (v.terms.map P).sum)
      rw [sub_add_cancel] at this
      linarith
    have h2 := abs_sub_le (R.val (t.eval c.fma a b +ᶠ v.eval c.fma a b)) (R.val (t.eval c.fma a b) + R.val (v.eval c.fma a b))
      ((t.terms.map P).sum + (v.terms.map P).sum)
    have h3 := mul_le_mul_of_nonneg_left h1 hu
    generalize (t.terms.map fun k => |P k|).sum + (v.terms.map fun k => |P k|).sum = T at *
    generalize ((t.terms.length + v.terms.length : ℕ) : ℝ) = L at *
    have e : (q * (1 + u) - 1) * T + L * R.eta * (q * (1 + u))
        = u * (T + ((q - 1) * T + L * R.eta * q)) + ((q - 1) * T + L * R.eta * q) := by ring
    rw [e]
    linarith

/-- The compiled direct convolution. -/
theorem fast_naive_acc {u : ℝ} {Nmax : ℕ} (so : SignedOps R u Nmax) {c : FastCode F} (hc : SignedFma R c u) {ex : ℕ}
    (hleg : FastCode.Legal c ex) (site : ℕ) {m : ℕ} {a b : ℕ → F} (ha : ∀ k < m, R.finite (a k))
    (hb : ∀ k < m, R.finite (b k)) {W : ℝ} (haW : l1 m (fun k => R.val (a k)) ≤ W) (hbW : l1 m (fun k => R.val (b k)) ≤ W)
    (hO : (1 + u) ^ (m + 1 + ex) * (W ^ 2 + m * R.eta) ≤ R.Omega) :
    (∀ j < m, R.finite (fastConv c site a b j)) ∧
    l1 m (fun j => R.val (fastConv c site a b j) - cnv (fun k => R.val (a k)) (fun k => R.val (b k)) j)
      ≤ ((1 + u) ^ (m + 1 + ex) - 1) * (l1 m (fun k => R.val (a k)) * l1 m (fun k => R.val (b k)))
        + (m : ℝ) ^ 2 * (1 + u) ^ (m + 1 + ex) * R.eta := by
  set α : ℕ → ℝ := fun k => R.val (a k) with hα
  set β : ℕ → ℝ := fun k => R.val (b k) with hβ
  have hu := so.u_nonneg
  have heta := R.eta_nonneg
  have hu1 : 1 ≤ 1 + u := by linarith
  have hW0 : 0 ≤ W := (l1_nonneg _ _).trans haW
  set T : ℕ → ℝ := cnv (fun k => |α k|) (fun k => |β k|) with hT
  have hTsum : l1 m T ≤ l1 m α * l1 m β := by
    refine (l1_cnv _ _ m).trans (le_of_eq ?_)
    congr 1 <;> (unfold l1; simp)
  have hT0 : ∀ j, 0 ≤ T j := fun j => Finset.sum_nonneg fun k _ => mul_nonneg (abs_nonneg _) (abs_nonneg _)
  have hTW : ∀ j < m, T j ≤ W ^ 2 := by
    intro j hj
    have h1 := abs_le_l1 T hj
    rw [abs_of_nonneg (hT0 j)] at h1
    refine (h1.trans hTsum).trans ?_
    rw [sq]
    exact mul_le_mul haW hbW (l1_nonneg _ _) hW0
  have main : ∀ j < m, R.finite (fastConv c site a b j) ∧
      |R.val (fastConv c site a b j) - cnv α β j| ≤ ((1 + u) ^ (m + 1 + ex) - 1) * T j + m * (1 + u) ^ (m + 1 + ex) * R.eta := by
    intro j hj
    have hterms := hleg.sum site j
    have hmem : ∀ k ∈ (c.sum site j).terms, k ≤ j := by
      intro k hk
      have := hterms.mem_iff.mp hk
      rw [List.mem_range] at this; omega
    have hsum : ∀ f : ℕ → ℝ, ((c.sum site j).terms.map f).sum = ∑ k ∈ range (j + 1), f k := by
      intro f
      rw [(hterms.map f).sum_eq]
      rfl
    have hlen : (c.sum site j).terms.length = j + 1 := by rw [hterms.length_eq, List.length_range]
    have hh := hleg.height site j
    have hval : ∀ k ∈ range (j + 1), R.val ((fun k => if k ≤ j then a k else zero) k) * R.val (b (j - k)) = α k * β (j - k) := by
      intro k hk
      have := Finset.mem_range.mp hk
      beta_reduce
      rw [if_pos (by omega)]
    have hvala : ∑ k ∈ range (j + 1), |R.val ((fun k => if k ≤ j then a k else zero) k) * R.val (b (j - k))| = T j := by
      rw [hT]; unfold cnv
      exact Finset.sum_congr rfl fun k hk => by rw [hval k hk, abs_mul]
    obtain ⟨hf, he⟩ := sumTree_signed so hc (a := fun k => if k ≤ j then a k else zero) (b := fun k => b (j - k)) (H := m + 1 + ex) (J := m)
      (W := W ^ 2) hO (c.sum site j) (fun k hk => by
        have := hmem k hk
        beta_reduce
        rw [if_pos this]; exact ha k (by omega))
      (fun k hk => hb _ (by omega)) (by
        rw [hsum]; beta_reduce at hvala ⊢; rw [hvala]; exact hTW j hj) (by omega) (by omega)
    refine ⟨hf, ?_⟩
    rw [hsum, hsum, Finset.sum_congr rfl hval, hvala, hlen] at he
    refine he.trans ?_
    have hqm : (1 + u) ^ (c.sum site j).height ≤ (1 + u) ^ (m + 1 + ex) := pow_le_pow_right₀ hu1 (by omega)
    have hq0 : 0 ≤ (1 + u) ^ (c.sum site j).height := by positivity
    refine add_le_add (mul_le_mul_of_nonneg_right (by linarith) (hT0 j)) ?_
    have h1 : ((j + 1 : ℕ) : ℝ) ≤ m := by exact_mod_cast hj
    calc ((j + 1 : ℕ) : ℝ) * R.eta * (1 + u) ^ (c.sum site j).height ≤ m * R.eta * (1 + u) ^ (m + 1 + ex) :=
          mul_le_mul (mul_le_mul_of_nonneg_right h1 heta) hqm (by positivity) (by positivity)
      _ = _ := by ring
  refine ⟨fun j hj => (main j hj).1, ?_⟩
  have hG1 : 1 ≤ (1 + u) ^ (m + 1 + ex) := one_le_pow₀ hu1
  have h5 : l1 m (fun j => R.val (fastConv c site a b j) - cnv α β j)
      ≤ ∑ j ∈ range m, (((1 + u) ^ (m + 1 + ex) - 1) * |T j| + m * (1 + u) ^ (m + 1 + ex) * R.eta) :=
    Finset.sum_le_sum fun j hj => by
      rw [abs_of_nonneg (hT0 j)]; exact (main j (Finset.mem_range.mp hj)).2
  refine h5.trans ?_
  rw [Finset.sum_add_distrib, ← Finset.mul_sum, Finset.sum_const, Finset.card_range, nsmul_eq_mul]
  exact add_le_add (mul_le_mul_of_nonneg_left hTsum (by linarith)) (le_of_eq (by ring))

/-- Both branches of the compiled convolution. -/
theorem fastConvVal_acc {u : ℝ} {Nmax M : ℕ} (so : SignedOps R u Nmax) {c : FastCode F} (hc : SignedFma R c u) {ex : ℕ}
    (hleg : FastCode.Legal c ex) (site : ℕ) {fft : FFTW F} {delta etaF Wf : ℝ}
    (hfft : FFTAccurate R fft Nmax delta etaF Wf) (hNm : (roundUp (2 * (M : ℤ)) ROUNDING).toNat ≤ Nmax)
    (hδ : delta * √Nmax ≤ 1 / 8) (hF1 : etaF ≤ 1)
    (hη1 : Nmax * R.eta ≤ 1) {W : ℝ} (hW : 1 ≤ W) (hO : 128 * W ^ 2 ≤ R.Omega) (hWf : 64 * W ^ 2 ≤ Wf)
    (hO' : (1 + u) ^ (128 + ex) * (W ^ 2 + 128 * R.eta) ≤ R.Omega) :
    ConvAccurate R (fastConvVal c fft site) M (√Nmax * (13 * u + 4 * delta) + ((1 + u) ^ (128 + ex) - 1))
      (√Nmax * W * (12 * etaF + 34 * (Nmax * R.eta)) + 128 ^ 2 * (1 + u) ^ (128 + ex) * R.eta) W := by
  intro m hm a b ha hb haW hbW
  have hu := so.u_nonneg
  have heta := R.eta_nonneg
  have hδ0 := hfft.delta_nonneg
  have hF0 := hfft.etaF_nonneg
  have hG : 1 ≤ (1 + u) ^ (128 + ex) := one_le_pow₀ (by linarith)
  have hαβ : 0 ≤ l1 m (fun k => R.val (a k)) * l1 m (fun k => R.val (b k)) := mul_nonneg (l1_nonneg _ _) (l1_nonneg _ _)
  unfold fastConvVal
  by_cases hsz : (m : ℤ) < MINIMUM_SIZE_FOR_FFTW_CONVOLUTION
  · simp only [if_pos hsz]
    have hm127 : m + 1 ≤ 128 := by
      have : MINIMUM_SIZE_FOR_FFTW_CONVOLUTION = 128 := rfl
      omega
    have hpow : (1 + u) ^ (m + 1 + ex) ≤ (1 + u) ^ (128 + ex) := pow_le_pow_right₀ (by linarith) (by omega)
    have hmr : (m : ℝ) ≤ 128 := by exact_mod_cast (by omega : m ≤ 128)
    obtain ⟨hf, he⟩ := fast_naive_acc so hc hleg site ha hb haW hbW (by
      refine le_trans (mul_le_mul hpow ?_ (by positivity) (by positivity)) hO'
      have := mul_le_mul_of_nonneg_right hmr heta
      linarith)
    refine ⟨hf, he.trans (add_le_add (mul_le_mul_of_nonneg_right ?_ hαβ) ?_)⟩
    · have : 0 ≤ √(Nmax : ℝ) * (13 * u + 4 * delta) := by positivity
      linarith
    · have h1 : (m : ℝ) ^ 2 * (1 + u) ^ (m + 1 + ex) * R.eta ≤ 128 ^ 2 * (1 + u) ^ (128 + ex) * R.eta :=
        mul_le_mul_of_nonneg_right (mul_le_mul (pow_le_pow_left₀ (by positivity) hmr 2) hpow (by positivity) (by positivity)) heta
      have h2 : 0 ≤ √(Nmax : ℝ) * W * (12 * etaF + 34 * (Nmax * R.eta)) := by positivity
      linarith
  · simp only [if_neg hsz]
    have hm128 : 128 ≤ m := by
      have : MINIMUM_SIZE_FOR_FFTW_CONVOLUTION = 128 := rfl
      omega
    have hNm' : (roundUp (2 * (m : ℤ)) ROUNDING).toNat ≤ Nmax := by
      have := (roundUp_mono (m := 2 * (m : ℤ)) (n := 2 * (M : ℤ)) (by omega) (by omega)).1
      omega
    obtain ⟨hf, he⟩ := fft_acc_gen so hfft (by omega : 0 < m) hNm' hδ hF1 hη1 hW hO hWf ha hb (complexProductFast_accurate so hc site) haW hbW
    refine ⟨hf, he.trans (add_le_add (mul_le_mul_of_nonneg_right (by linarith) hαβ) ?_)⟩
    have : 0 ≤ 128 ^ 2 * (1 + u) ^ (128 + ex) * R.eta := by positivity
    linarith

end
end CP.Spec
