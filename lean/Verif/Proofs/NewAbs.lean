import Verif.Proofs.NewExact
import Verif.Proofs.RoundingAbs
/-
Forward error analysis of `ecdf1_new`: absolute errors.  A block of steps maps the current law to the next one by a linear map
that does not increase the sum of absolute values, so only the rounding errors made inside a block have to be bounded.
-/
set_option linter.unusedVariables false
open Finset
namespace CP.Spec
noncomputable section
variable {F : Type} [FOps F] {E : Fault → Prop} {R : FloatModel F} {S : Set F}
open FOps

/-! ### Exact laws -/

theorem pconv_eq_cnv (lam : ℝ) (q : ℕ → ℝ) : pconv lam q = cnv q (pois lam) := rfl

theorem l1_pconv {lam : ℝ} (h : 0 ≤ lam) (q : ℕ → ℝ) (m : ℕ) : l1 m (pconv lam q) ≤ l1 m q := by
  rw [pconv_eq_cnv]
  refine (l1_cnv _ _ m).trans ?_
  rw [l1_of_nonneg (pois_nonneg h)]
  exact mul_le_of_le_one_right (l1_nonneg _ _) (sum_pois_le h m)

theorem pconv_sub (lam : ℝ) (q r : ℕ → ℝ) (m : ℕ) : pconv lam (fun k => q k - r k) m = pconv lam q m - pconv lam r m := by
  unfold pconv
  rw [← Finset.sum_sub_distrib]
  exact Finset.sum_congr rfl fun l _ => by ring

/-- The next law: Poisson increments with parameter `lam`, then the restriction to `m > i`. -/
def nextLaw (lam : ℝ) (i : ℕ) (q : ℕ → ℝ) (m : ℕ) : ℝ := if i + 1 ≤ m then pconv lam q m else 0

theorem l1_nextLaw {lam : ℝ} (h : 0 ≤ lam) (i : ℕ) (q : ℕ → ℝ) (m : ℕ) : l1 m (nextLaw lam i q) ≤ l1 m q := by
  refine (l1_mono fun k _ => ?_).trans (l1_pconv h q m)
  unfold nextLaw
  split
  · exact le_rfl
  · rw [abs_zero]; exact abs_nonneg _

theorem nextLaw_sub (lam : ℝ) (i : ℕ) (q r : ℕ → ℝ) (m : ℕ) :
    nextLaw lam i (fun k => q k - r k) m = nextLaw lam i q m - nextLaw lam i r m := by
  unfold nextLaw
  split
  · exact pconv_sub _ _ _ _
  · simp

theorem qlaw_next (n : ℕ) (Bv : ℕ → ℝ) (k : ℕ) :
    qlaw n Bv (k + 1) = nextLaw ((n : ℝ) * (rloc Bv (k + 1) - rloc Bv k)) k (qlaw n Bv k) := by
  funext m; exact qlaw_succ n Bv k m

theorem l1_qlaw (n : ℕ) {Bv : ℕ → ℝ} (hm : Monotone (rloc Bv)) (k M : ℕ) : l1 M (qlaw n Bv k) ≤ 1 := by
  induction k with
  | zero =>
    have : ∀ i < M, |qlaw n Bv 0 i| ≤ |pois 0 i| := fun i _ => by rw [qlaw_zero, pois_zero]
    refine (l1_mono this).trans ?_
    rw [l1_of_nonneg (pois_nonneg le_rfl)]
    exact sum_pois_le le_rfl M
  | succ k ih =>
    rw [qlaw_next]
    exact (l1_nextLaw (mul_nonneg (Nat.cast_nonneg _) (sub_nonneg.mpr (hm (Nat.le_succ k)))) k _ M).trans ih

/-- Subtracting the paths that exit at step `i`. -/
theorem nextLaw_exit {lam mu : ℝ} {r : ℕ → ℝ} {i j : ℕ} (hij : i < j) (hr : ∀ l < i, r l = 0) :
    pconv (lam + mu) r j - pconv lam r i * pois mu (j - i) = pconv mu (nextLaw lam i r) j := by
  rw [← pconv_pconv]
  set w := pconv lam r with hw
  have h : ∀ l, w l = nextLaw lam i r l + if l = i then w i else 0 := by
    intro l
    unfold nextLaw
    by_cases h1 : i + 1 ≤ l
    · rw [if_pos h1, if_neg (by omega), add_zero]
    · rw [if_neg h1]
      by_cases h2 : l = i
      · rw [if_pos h2, h2, zero_add]
      · rw [if_neg h2, hw, pconv_supp (k := i) hr (by omega), add_zero]
  have : pconv mu w j = pconv mu (nextLaw lam i r) j + w i * pois mu (j - i) := by
    unfold pconv at *
    rw [Finset.sum_congr rfl fun l _ => by rw [h l, add_mul], Finset.sum_add_distrib]
    congr 1
    rw [Finset.sum_eq_single i]
    · rw [if_pos rfl]
    · intro l _ hl; rw [if_neg hl, zero_mul]
    · intro hi; exact absurd (Finset.mem_range.mpr (by omega)) hi
  rw [this]; ring

/-! ### Poisson probabilities -/

/-- What is needed of the probabilities of one parameter. -/
structure PmfOk (R : FloatModel F) (env : Env F) (n : ℕ) (rho : ℝ) (lam : F) (lamR : ℝ) : Prop where
  ok : LamOk NoFault env lam
  nonneg : 0 ≤ lamR
  fin : ∀ k ≤ n, R.finite (pmfVal lam k)
  diff : ∀ m ≤ n + 1, l1 m (fun k => R.val (pmfVal lam k) - pois lamR k) ≤ rho
  norm : ∀ m ≤ n + 1, l1 m (fun k => R.val (pmfVal lam k)) ≤ 1 + rho

theorem pmfOk (env : Env F) {n P : ℕ} {etaP : ℝ} (hpmf : PmfAccurate R S n P etaP) {rho : ℝ}
    (hrho : rho = R.g ^ P - 1 + (n + 1) * etaP * R.g ^ P) {x y : F} (hx : x ∈ S) (hy : y ∈ S) (hxf : R.finite x)
    (hyf : R.finite y) (h0 : 0 ≤ R.val x) (hxy : R.val x ≤ R.val y) (h1 : R.val y ≤ 1) :
    PmfOk R env n rho (ofInt n *ᶠ (y -ᶠ x)) (n * (R.val y - R.val x)) := by
  obtain ⟨hs1, hs2, hs3⟩ := hpmf.sign x hx y hy hxf hyf h0 hxy h1
  have hetaP := hpmf.etaP_nonneg
  have hG := R.one_le_pow P
  have hrho0 : 0 ≤ rho := by
    have : 0 ≤ ((n : ℝ) + 1) * etaP * R.g ^ P := by have := R.pow_pos' P; positivity
    linarith
  have hnn : 0 ≤ (n : ℝ) * (R.val y - R.val x) := mul_nonneg (Nat.cast_nonneg _) (by linarith)
  have hok : LamOk NoFault env (ofInt n *ᶠ (y -ᶠ x)) := by
    refine ⟨Or.inl hs1, Or.inr (Or.inl ?_)⟩
    unfold FOps.ge
    rcases hxy.eq_or_lt with h | h
    · rw [hs3.mpr h, Bool.or_true]
    · rw [hs2.mpr h, Bool.true_or]
  rcases hxy.eq_or_lt with h | h
  · have he := hs3.mpr h
    have hz : (n : ℝ) * (R.val y - R.val x) = 0 := by rw [h]; ring
    rw [hz]
    have hv : ∀ k, R.finite (pmfVal (ofInt n *ᶠ (y -ᶠ x)) k) ∧ R.val (pmfVal (ofInt n *ᶠ (y -ᶠ x)) k) = pois 0 k := by
      intro k
      unfold pmfVal
      rw [he, pois_zero]
      simp only [if_true]
      split
      · exact ⟨R.one_finite, R.val_one⟩
      · exact ⟨R.zero_finite, R.val_zero⟩
    have hd : ∀ m, l1 m (fun k => R.val (pmfVal (ofInt n *ᶠ (y -ᶠ x)) k) - pois 0 k) = 0 := by
      intro m
      unfold l1
      refine Finset.sum_eq_zero fun k _ => ?_
      beta_reduce
      rw [(hv k).2, sub_self, abs_zero]
    refine ⟨hok, le_rfl, fun k _ => (hv k).1, fun m _ => by rw [hd m]; exact hrho0, fun m _ => ?_⟩
    rw [l1_congr (g := pois 0) fun k _ => (hv k).2, l1_of_nonneg (pois_nonneg le_rfl)]
    linarith [sum_pois_le (le_refl (0 : ℝ)) m]
  · have hne : FOps.eq (ofInt n *ᶠ (y -ᶠ x)) (zero : F) = false := by
      rw [← Bool.not_eq_true]
      exact fun h' => h.ne (hs3.mp h')
    have hpa : ∀ k ≤ n, R.finite (pmfVal (ofInt n *ᶠ (y -ᶠ x)) k) ∧ 0 ≤ R.val (pmfVal (ofInt n *ᶠ (y -ᶠ x)) k) ∧
        pois ((n : ℝ) * (R.val y - R.val x)) k / R.g ^ P - etaP ≤ R.val (pmfVal (ofInt n *ᶠ (y -ᶠ x)) k) ∧
        R.val (pmfVal (ofInt n *ᶠ (y -ᶠ x)) k) ≤ (pois ((n : ℝ) * (R.val y - R.val x)) k + etaP) * R.g ^ P := by
      intro k hk
      exact hpmf.pmf x hx y hy hxf hyf h0 h h1 k hk _ (by
        unfold pmfVal
        rw [hne]
        simp only [Bool.false_eq_true, if_false])
    have hl := fun m (hm : m ≤ n + 1) => pmf_l1 hetaP hnn (p := pmfVal (ofInt n *ᶠ (y -ᶠ x))) hm
      (fun k hk => hpa k (by omega)) hrho
    exact ⟨hok, hnn, fun k hk => (hpa k hk).1, fun m hm => (hl m hm).1, fun m hm => (hl m hm).2⟩

/-! ### One convolution -/

/-- Sum of the absolute errors over a window. -/
def errOn (R : FloatModel F) (a b : ℕ) (f : ℕ → F) (r : ℕ → ℝ) : ℝ := ∑ m ∈ Ico a b, |R.val (f m) - r m|

theorem errOn_nonneg (a b : ℕ) (f : ℕ → F) (r : ℕ → ℝ) : 0 ≤ errOn R a b f r := Finset.sum_nonneg fun _ _ => abs_nonneg _

theorem sum_Ico_le_l1 (a b : ℕ) (f : ℕ → ℝ) : ∑ m ∈ Ico a b, |f m| ≤ l1 b f :=
  Finset.sum_le_sum_of_subset_of_nonneg (fun x hx => by
    rw [Finset.mem_Ico] at hx; exact Finset.mem_range.mpr hx.2) fun _ _ _ => abs_nonneg _

theorem conv_local {conv : ℕ → (ℕ → F) → (ℕ → F) → ℕ → F} {n : ℕ} {env : Env F} {rho eps om W : ℝ}
    (heps : 0 ≤ eps) (hrho : 0 ≤ rho)
    (hconv : ConvAccurate R conv (n + 1) eps om W) {lam : F} {lamR : ℝ} (hl : PmfOk R env n rho lam lamR)
    {i s : ℕ} (hs : s ≤ n + 1) {f : ℕ → F} {r : ℕ → ℝ} (hf : ∀ m, i ≤ m → m < i + s → R.finite (f m))
    (hr : ∀ l < i, r l = 0) (hW1 : 1 + rho ≤ W) (hW2 : l1 (i + s) r + errOn R i (i + s) f r ≤ W) :
    (∀ m, i ≤ m → m < i + s → R.finite (conv s (pmfVal lam) (fun j => f (i + j)) (m - i))) ∧
    errOn R i (i + s) (fun m => conv s (pmfVal lam) (fun j => f (i + j)) (m - i)) (pconv lamR r)
      ≤ errOn R i (i + s) f r
        + ((1 + rho) * (1 + eps) - 1) * (l1 (i + s) r + errOn R i (i + s) f r) + om := by
  set p := pmfVal lam with hp
  set e := errOn R i (i + s) f r with he
  set q : ℕ → ℝ := fun k => r (i + k) with hq
  set fb : ℕ → F := fun j => f (i + j) with hfb
  have heq : l1 s (fun k => R.val (fb k) - q k) = e := by
    rw [he]
    unfold errOn
    rw [Finset.sum_Ico_eq_sum_range, Nat.add_sub_cancel_left]
    rfl
  have hq1 : l1 s q ≤ l1 (i + s) r := by
    refine le_trans (le_of_eq ?_) (sum_Ico_le_l1 i (i + s) r)
    rw [Finset.sum_Ico_eq_sum_range, Nat.add_sub_cancel_left]
    rfl
  have hb1 : l1 s (fun k => R.val (fb k)) ≤ l1 (i + s) r + e := by
    have h3 := l1_add s (fun k => R.val (fb k) - q k) q
    simp only [sub_add_cancel] at h3
    linarith
  have hpd := hl.diff s hs
  have hpn := hl.norm s hs
  obtain ⟨hcf, hce⟩ := hconv s hs p fb (fun k hk => hl.fin k (by omega))
    (fun k hk => hf (i + k) (by omega) (by omega)) (hpn.trans hW1) (hb1.trans hW2)
  refine ⟨fun m h1 h2 => hcf (m - i) (by omega), ?_⟩
  unfold errOn
  rw [Finset.sum_Ico_eq_sum_range, Nat.add_sub_cancel_left]
  have h4 : ∀ k ∈ range s, |R.val (conv s p fb (i + k - i)) - pconv lamR r (i + k)|
      = |(R.val (conv s p fb k) - cnv (fun k => R.val (p k)) (fun k => R.val (fb k)) k)
        + (cnv (fun k => R.val (p k)) (fun k => R.val (fb k)) k - cnv (pois lamR) q k)| := by
    intro k _
    rw [Nat.add_sub_cancel_left]
    have h5 := shift_sum (f := r) (g := pois lamR) (d := i) (m := i + k) (by omega) hr
    unfold pconv
    rw [← h5, Nat.add_sub_cancel_left]
    congr 1
    unfold cnv
    ring
  rw [Finset.sum_congr rfl h4]
  have h6 : l1 s (fun k => cnv (fun k => R.val (p k)) (fun k => R.val (fb k)) k - cnv (pois lamR) q k)
      ≤ 1 * e + rho * (l1 (i + s) r + e) := by
    have h7 := cnv_diff (pois lamR) q (fun k => R.val (p k)) (fun k => R.val (fb k)) s
    have e1 : ∀ (a b : ℕ → ℝ), l1 s (fun k => a k - b k) = l1 s (fun k => b k - a k) := fun a b => by
      unfold l1; exact Finset.sum_congr rfl fun k _ => abs_sub_comm _ _
    rw [e1, e1 q, e1 (pois lamR)] at h7
    refine h7.trans (add_le_add ?_ ?_)
    · rw [heq]
      refine mul_le_mul_of_nonneg_right ?_ (errOn_nonneg _ _ _ _)
      rw [l1_of_nonneg (pois_nonneg hl.nonneg)]
      exact sum_pois_le hl.nonneg s
    · exact mul_le_mul hpd hb1 (l1_nonneg _ _) hrho
  have h8 : eps * (l1 s (fun k => R.val (p k)) * l1 s (fun k => R.val (fb k))) ≤ eps * ((1 + rho) * (l1 (i + s) r + e)) :=
    mul_le_mul_of_nonneg_left (mul_le_mul hpn hb1 (l1_nonneg _ _) (by linarith)) heps
  refine (l1_add s _ _).trans ((add_le_add hce h6).trans ?_)
  have e9 : ((1 + rho) * (1 + eps) - 1) * (l1 (i + s) r + e)
      = rho * (l1 (i + s) r + e) + eps * ((1 + rho) * (l1 (i + s) r + e)) := by ring
  rw [e9]
  linarith

/-! ### Subtracting the exits -/

theorem abs_le_errOn {a b m : ℕ} (f : ℕ → F) (r : ℕ → ℝ) (h1 : a ≤ m) (h2 : m < b) : |R.val (f m) - r m| ≤ errOn R a b f r :=
  Finset.single_le_sum (f := fun m => |R.val (f m) - r m|) (fun _ _ => abs_nonneg _) (Finset.mem_Ico.mpr ⟨h1, h2⟩)

theorem sum_shift_le {i K n : ℕ} (hi : i ≤ K) (h : ℕ → ℝ) (h0 : ∀ k, 0 ≤ h k) :
    ∑ m ∈ Ico K (n + 1), h (m - i) ≤ ∑ k ∈ range (n + 1), h k := by
  have e : ∑ m ∈ Ico K (n + 1), h (m - i) = ∑ k ∈ (Ico K (n + 1)).image (fun m => m - i), h k := by
    rw [Finset.sum_image]
    intro a ha b hb hab
    simp only [Finset.coe_Ico, Set.mem_Ico] at ha hb
    simp only at hab
    omega
  rw [e]
  refine Finset.sum_le_sum_of_subset_of_nonneg ?_ fun _ _ _ => h0 _
  intro k hk
  obtain ⟨m, hm, rfl⟩ := Finset.mem_image.mp hk
  rw [Finset.mem_Ico] at hm
  rw [Finset.mem_range]
  omega

theorem dest_local {u : ℝ} {Nmax : ℕ} (so : SignedOps R u Nmax) {n : ℕ} {env : Env F} {rho W : ℝ} (hrho : 0 ≤ rho)
    {lam : F} {lamR : ℝ} (hl : PmfOk R env n rho lam lamR) {i K : ℕ} (hiK : i ≤ K) {xt : F} (hxf : R.finite xt) {x : ℝ}
    {g : ℕ → F} {G : ℕ → ℝ} (hg : ∀ m, K ≤ m → m ≤ n → R.finite (g m)) (hxW : |R.val xt| ≤ W)
    (hgW : ∀ m, K ≤ m → m ≤ n → |R.val (g m)| ≤ W) (hpW : 1 + rho ≤ W)
    (hO : W + ((1 + u) * W ^ 2 + R.eta) ≤ R.Omega) :
    (∀ m, K ≤ m → m ≤ n → R.finite (g m -ᶠ xt *ᶠ pmfVal lam (m - i))) ∧
    errOn R K (n + 1) (fun m => g m -ᶠ xt *ᶠ pmfVal lam (m - i)) (fun m => G m - x * pois lamR (m - i))
      ≤ (1 + u) * (errOn R K (n + 1) g G + |R.val xt - x| * ((1 + rho) * (1 + u)) + |x| * ((1 + rho) * (1 + u) - 1)
          + (n + 1) * R.eta) + u * ∑ m ∈ Ico K (n + 1), |G m - x * pois lamR (m - i)| := by
  have hu := so.u_nonneg
  have heta := R.eta_nonneg
  have hW0 : 0 ≤ W := (abs_nonneg _).trans hxW
  set p : ℕ → ℝ := fun k => R.val (pmfVal lam k) with hp
  have hpk : ∀ k ≤ n, |p k| ≤ W := fun k hk => (abs_le_l1 p (by omega : k < n + 1)).trans ((hl.norm (n + 1) le_rfl).trans hpW)
  have hmul : ∀ m, K ≤ m → m ≤ n → R.finite (xt *ᶠ pmfVal lam (m - i)) ∧
      |R.val (xt *ᶠ pmfVal lam (m - i)) - R.val xt * p (m - i)| ≤ u * |R.val xt * p (m - i)| + R.eta ∧
      |R.val (xt *ᶠ pmfVal lam (m - i))| ≤ (1 + u) * W ^ 2 + R.eta := by
    intro m h1 h2
    have hprod : |R.val xt * p (m - i)| ≤ W ^ 2 := by
      rw [abs_mul, sq]
      exact mul_le_mul hxW (hpk _ (by omega)) (abs_nonneg _) hW0
    have hW2 : W ^ 2 ≤ R.Omega := by
      have : 0 ≤ u * W ^ 2 := by positivity
      linarith
    obtain ⟨hf, he⟩ := so.mul xt (pmfVal lam (m - i)) hxf (hl.fin _ (by omega)) (hprod.trans hW2)
    refine ⟨hf, he, ?_⟩
    have h3 := abs_add_le (R.val (xt *ᶠ pmfVal lam (m - i)) - R.val xt * p (m - i)) (R.val xt * p (m - i))
    rw [sub_add_cancel] at h3
    have h4 := mul_le_mul_of_nonneg_left hprod hu
    have e : (1 + u) * W ^ 2 = W ^ 2 + u * W ^ 2 := by ring
    rw [e]
    linarith
  have hsub : ∀ m, K ≤ m → m ≤ n → R.finite (g m -ᶠ xt *ᶠ pmfVal lam (m - i)) ∧
      |R.val (g m -ᶠ xt *ᶠ pmfVal lam (m - i)) - (G m - x * pois lamR (m - i))|
        ≤ (1 + u) * (|R.val (g m) - G m| + (|R.val xt - x| * |p (m - i)| + |x| * |p (m - i) - pois lamR (m - i)|
            + u * ((|x| + |R.val xt - x|) * |p (m - i)|) + R.eta)) + u * |G m - x * pois lamR (m - i)| := by
    intro m h1 h2
    obtain ⟨hmf, hme, hmb⟩ := hmul m h1 h2
    have hab : |R.val (g m) - R.val (xt *ᶠ pmfVal lam (m - i))| ≤ R.Omega :=
      (abs_sub _ _).trans ((add_le_add (hgW m h1 h2) hmb).trans hO)
    obtain ⟨hf, he⟩ := so.sub _ _ (hg m h1 h2) hmf hab
    refine ⟨hf, ?_⟩
    have hx1 : |R.val xt| ≤ |x| + |R.val xt - x| := by
      have := abs_add_le x (R.val xt - x)
      rwa [add_sub_cancel] at this
    have h5 : |R.val xt * p (m - i)| ≤ (|x| + |R.val xt - x|) * |p (m - i)| := by
      rw [abs_mul]; exact mul_le_mul_of_nonneg_right hx1 (abs_nonneg _)
    have h6 : |R.val xt * p (m - i) - x * pois lamR (m - i)|
        ≤ |R.val xt - x| * |p (m - i)| + |x| * |p (m - i) - pois lamR (m - i)| := by
      have e : R.val xt * p (m - i) - x * pois lamR (m - i)
          = (R.val xt - x) * p (m - i) + x * (p (m - i) - pois lamR (m - i)) := by ring
      rw [e]
      refine (abs_add_le _ _).trans (le_of_eq ?_)
      rw [abs_mul, abs_mul]
    set D := |R.val (g m) - G m| + (|R.val xt - x| * |p (m - i)| + |x| * |p (m - i) - pois lamR (m - i)|
            + u * ((|x| + |R.val xt - x|) * |p (m - i)|) + R.eta) with hD
    have h7 : |R.val (xt *ᶠ pmfVal lam (m - i)) - x * pois lamR (m - i)|
        ≤ |R.val xt - x| * |p (m - i)| + |x| * |p (m - i) - pois lamR (m - i)|
            + u * ((|x| + |R.val xt - x|) * |p (m - i)|) + R.eta := by
      have h8 := abs_sub_le (R.val (xt *ᶠ pmfVal lam (m - i))) (R.val xt * p (m - i)) (x * pois lamR (m - i))
      have h9 := mul_le_mul_of_nonneg_left h5 hu
      linarith
    have h10 : |(R.val (g m) - R.val (xt *ᶠ pmfVal lam (m - i))) - (G m - x * pois lamR (m - i))| ≤ D := by
      have e : (R.val (g m) - R.val (xt *ᶠ pmfVal lam (m - i))) - (G m - x * pois lamR (m - i))
          = (R.val (g m) - G m) - (R.val (xt *ᶠ pmfVal lam (m - i)) - x * pois lamR (m - i)) := by ring
      rw [e]
      exact (abs_sub _ _).trans (add_le_add_right h7 _)
    have h11 : |R.val (g m) - R.val (xt *ᶠ pmfVal lam (m - i))| ≤ |G m - x * pois lamR (m - i)| + D := by
      have h12 := abs_add_le ((R.val (g m) - R.val (xt *ᶠ pmfVal lam (m - i))) - (G m - x * pois lamR (m - i)))
        (G m - x * pois lamR (m - i))
      rw [sub_add_cancel] at h12
      linarith
    have h13 := abs_sub_le (R.val (g m -ᶠ xt *ᶠ pmfVal lam (m - i))) (R.val (g m) - R.val (xt *ᶠ pmfVal lam (m - i)))
      (G m - x * pois lamR (m - i))
    have h14 := mul_le_mul_of_nonneg_left h11 hu
    have e : (1 + u) * D + u * |G m - x * pois lamR (m - i)| = D + u * (|G m - x * pois lamR (m - i)| + D) := by ring
    rw [e]
    linarith
  refine ⟨fun m h1 h2 => (hsub m h1 h2).1, ?_⟩
  unfold errOn
  refine (Finset.sum_le_sum fun m hm => (hsub m (Finset.mem_Ico.mp hm).1 (by have := (Finset.mem_Ico.mp hm).2; omega)).2).trans ?_
  rw [Finset.sum_add_distrib, ← Finset.mul_sum, ← Finset.mul_sum]
  refine add_le_add_left (mul_le_mul_of_nonneg_left ?_ (by linarith)) _
  rw [Finset.sum_add_distrib, Finset.sum_add_distrib, Finset.sum_add_distrib, Finset.sum_add_distrib, ← Finset.mul_sum,
    ← Finset.mul_sum, ← Finset.mul_sum, ← Finset.mul_sum, Finset.sum_const, nsmul_eq_mul]
  have s1 : ∑ m ∈ Ico K (n + 1), |p (m - i)| ≤ 1 + rho :=
    (sum_shift_le hiK (fun k => |p k|) fun _ => abs_nonneg _).trans (hl.norm (n + 1) le_rfl)
  have s2 : ∑ m ∈ Ico K (n + 1), |p (m - i) - pois lamR (m - i)| ≤ rho :=
    (sum_shift_le hiK (fun k => |p k - pois lamR k|) fun _ => abs_nonneg _).trans (hl.diff (n + 1) le_rfl)
  have s3 : (((Ico K (n + 1)).card : ℕ) : ℝ) * R.eta ≤ (n + 1) * R.eta := by
    refine mul_le_mul_of_nonneg_right ?_ heta
    rw [Nat.card_Ico]
    have : n + 1 - K ≤ n + 1 := by omega
    exact_mod_cast this
  have t1 := mul_le_mul_of_nonneg_left s1 (abs_nonneg (R.val xt - x))
  have t2 := mul_le_mul_of_nonneg_left s2 (abs_nonneg x)
  have t3 := mul_le_mul_of_nonneg_left (mul_le_mul_of_nonneg_left s1 (add_nonneg (abs_nonneg x) (abs_nonneg (R.val xt - x)))) hu
  have e : |R.val xt - x| * ((1 + rho) * (1 + u)) + |x| * ((1 + rho) * (1 + u) - 1)
      = |R.val xt - x| * (1 + rho) + |x| * rho + u * ((|x| + |R.val xt - x|) * (1 + rho)) := by ring
  linarith

/-! ### Blocks -/

/-- The constants of the analysis. -/
structure NewErr (R : FloatModel F) (env : Env F) (n Nmax : ℕ) (u rho eps om tau : ℝ) : Prop where
  so : SignedOps R u Nmax
  rho0 : 0 ≤ rho
  om0 : 0 ≤ om
  conv : ConvAccurate R (convVal env.fft) (n + 1) eps om 2
  htau : tau = (1 + rho) * (1 + eps) - 1 + om + (n + 1) * R.eta
  ueps : (1 + u) ^ 2 ≤ 1 + eps
  small : (1 + tau) ^ (3 * n + 1) ≤ 2
  omega : 2 + ((1 + u) * 4 + R.eta) ≤ R.Omega

section block
variable {env : Env F} {n Nmax : ℕ} {u rho eps om tau : ℝ}

theorem NewErr.eps0 (h : NewErr R env n Nmax u rho eps om tau) : 0 ≤ eps := by
  have := h.so.u_nonneg
  nlinarith [h.ueps]

theorem NewErr.mu0 (h : NewErr R env n Nmax u rho eps om tau) : 0 ≤ (1 + rho) * (1 + eps) - 1 := by
  have := mul_nonneg h.rho0 h.eps0
  have e : (1 + rho) * (1 + eps) - 1 = rho + eps + rho * eps := by ring
  rw [e]
  linarith [h.rho0, h.eps0]

theorem NewErr.eta0 (h : NewErr R env n Nmax u rho eps om tau) : 0 ≤ ((n : ℝ) + 1) * R.eta :=
  mul_nonneg (by positivity) R.eta_nonneg

theorem NewErr.tau0 (h : NewErr R env n Nmax u rho eps om tau) : 0 ≤ tau := by
  rw [h.htau]; linarith [h.mu0, h.eta0, h.om0]

theorem NewErr.pow_le (h : NewErr R env n Nmax u rho eps om tau) {d : ℕ} (hd : d ≤ 3 * n + 1) : (1 + tau) ^ d ≤ 2 :=
  (pow_le_pow_right₀ (by linarith [h.tau0]) hd).trans h.small

theorem NewErr.tau1 (h : NewErr R env n Nmax u rho eps om tau) : tau ≤ 1 := by
  have := h.pow_le (d := 1) (by omega)
  rw [pow_one] at this
  linarith

theorem NewErr.rhoTau (h : NewErr R env n Nmax u rho eps om tau) : rho ≤ tau := by
  have := mul_nonneg h.rho0 h.eps0
  have e : (1 + rho) * (1 + eps) - 1 = rho + eps + rho * eps := by ring
  rw [h.htau, e]
  linarith [h.eps0, h.eta0, h.om0]

theorem cube_bound {y : ℝ} (hy : 1 ≤ y) : 3 * y ≤ y ^ 3 + 2 := by
  nlinarith [mul_nonneg (sq_nonneg (y - 1)) (by linarith : 0 ≤ y + 2)]

/-- The accumulated bound stays below 2. -/
theorem NewErr.level (h : NewErr R env n Nmax u rho eps om tau) {k d : ℕ} (hd : k + d ≤ n) {V : ℝ} (hV : V = (1 + tau) ^ (3 * k)) :
    V + (3 * V * (1 + tau) ^ d - 3 * V) ≤ (1 + tau) ^ (3 * (k + d)) ∧ (1 + tau) ^ (3 * (k + d)) ≤ 2 := by
  have hy : 1 ≤ (1 + tau) ^ d := one_le_pow₀ (by linarith [h.tau0])
  have hV0 : 0 ≤ V := by rw [hV]; have := h.tau0; positivity
  refine ⟨?_, h.pow_le (by omega)⟩
  have e : (1 + tau) ^ (3 * (k + d)) = V * ((1 + tau) ^ d) ^ 3 := by
    rw [hV, ← pow_mul, ← pow_add]; congr 1; ring
  rw [e]
  have := mul_le_mul_of_nonneg_left (cube_bound hy) hV0
  linarith

/-- What holds before step `i` of the block `k..K`: `r` is the exact image of the values at the start of the block. -/
def NewP (R : FloatModel F) (n k K : ℕ) (Bv : ℕ → ℝ) (tau V : ℝ) (i : ℕ) (f g : ℕ → F) : Prop :=
  ∃ r : ℕ → ℝ, (∀ l < i, r l = 0) ∧ l1 (n + 1) r ≤ V ∧ l1 (n + 1) (fun m => r m - qlaw n Bv i m) ≤ V - 1 ∧
    (∀ m, i ≤ m → m < K → R.finite (f m)) ∧ (∀ m, K ≤ m → m ≤ n → R.finite (g m)) ∧
    errOn R K (n + 1) g (pconv ((n : ℝ) * (rloc Bv K - rloc Bv i)) r) + 2 * errOn R i K f r + 3 * V
      ≤ 3 * V * (1 + tau) ^ (i + 1 - k)

/-- The accounting of one inner step. -/
theorem mini_account {E0 e0 E1 e1 dx V u c mu om et tau : ℝ} (hE : 0 ≤ E0) (he : 0 ≤ e0) (hdx : 0 ≤ dx) (he1 : 0 ≤ e1) (hV : 1 ≤ V)
    (hu : 0 ≤ u) (hc : 1 ≤ c) (hcu : (1 + u) * c ≤ 1 + mu) (hmu1 : mu ≤ 1) (hom : 0 ≤ om) (het : 0 ≤ et)
    (htau : tau = mu + om + et)
    (h1 : dx + e1 ≤ e0 + mu * (V + e0) + om)
    (h2 : E1 ≤ (1 + u) * (E0 + dx * c + V * (c - 1) + et) + u * V) :
    E1 + 2 * e1 ≤ (1 + tau) * (E0 + 2 * e0) + 3 * tau * V ∧ dx ≤ (1 + tau) * (E0 + 2 * e0) + 3 * tau * V := by
  have hmu0 : 0 ≤ mu := by nlinarith
  have hum : u ≤ mu := by nlinarith
  have a1 : (1 + u) * (dx * c) ≤ 2 * dx := by
    have := mul_le_mul_of_nonneg_right hcu hdx
    nlinarith
  have a2 : (1 + u) * (V * (c - 1)) + u * V ≤ mu * V := by
    have : (1 + u) * (V * (c - 1)) + u * V = V * ((1 + u) * c - 1) := by ring
    rw [this, mul_comm]
    exact mul_le_mul_of_nonneg_right (by linarith) (by linarith)
  have a3 : (1 + u) * E0 ≤ (1 + tau) * E0 := mul_le_mul_of_nonneg_right (by linarith) hE
  have a4 : (1 + u) * et ≤ 2 * et := mul_le_mul_of_nonneg_right (by linarith) het
  have e5 : (1 + u) * (E0 + dx * c + V * (c - 1) + et) = (1 + u) * E0 + (1 + u) * (dx * c) + (1 + u) * (V * (c - 1)) + (1 + u) * et := by
    ring
  rw [e5] at h2
  have a6 : mu * e0 ≤ tau * e0 := mul_le_mul_of_nonneg_right (by linarith) he
  have a7 : om ≤ om * V := le_mul_of_one_le_right hom hV
  have a8 : et ≤ et * V := le_mul_of_one_le_right het hV
  have e9 : tau * V = mu * V + om * V + et * V := by rw [htau]; ring
  have e10 : mu * (V + e0) = mu * V + mu * e0 := by ring
  rw [e10] at h1
  have e11 : (1 + tau) * (E0 + 2 * e0) + 3 * tau * V = (1 + tau) * E0 + 2 * e0 + 2 * (tau * e0) + 3 * (tau * V) := by ring
  rw [e11]
  have b1 : 0 ≤ (1 + tau) * E0 := mul_nonneg (by linarith) hE
  have b2 : 0 ≤ mu * V := mul_nonneg hmu0 (by linarith)
  have b3 : 0 ≤ tau * e0 := mul_nonneg (by linarith) he
  constructor <;> linarith

theorem new_mini (h : NewErr R env n Nmax u rho eps om tau) {k K : ℕ} {Bv : ℕ → F} {Br : ℕ → ℝ} {V : ℝ}
    (hV : V = (1 + tau) ^ (3 * k)) (hKn : K ≤ n)
    (hpm : ∀ a b, a ≤ b → b ≤ n → PmfOk R env n rho (ofInt n *ᶠ (locv Bv b -ᶠ locv Bv a)) (n * (rloc Br b - rloc Br a)))
    {i : ℕ} {f g : ℕ → F} (hki : k ≤ i) (hiK : i + 1 < K) (hP : NewP R n k K Br tau V i f g) :
    NewP R n k K Br tau V (i + 1) (miniNext env (ofInt n *ᶠ (locv Bv (i + 1) -ᶠ locv Bv i)) K i f)
        (destNext env (ofInt n *ᶠ (locv Bv (i + 1) -ᶠ locv Bv i)) (ofInt n *ᶠ (locv Bv K -ᶠ locv Bv (i + 1))) K i f g) := by
  obtain ⟨r, hr0, hrV, hrq, hff, hgf, hacc⟩ := hP
  have hl1 := hpm i (i + 1) (by omega) (by omega)
  have hl2 := hpm (i + 1) K (by omega) (by omega)
  have hu := h.so.u_nonneg
  have htau0 := h.tau0
  have hrho0 := h.rho0
  have heps0 := h.eps0
  have hV1 : 1 ≤ V := by rw [hV]; exact one_le_pow₀ (by linarith)
  set e0 := errOn R i K f r with he0
  set G0 := pconv ((n : ℝ) * (rloc Br K - rloc Br i)) r with hG0
  set E0 := errOn R K (n + 1) g G0 with hE0
  have he0n : 0 ≤ e0 := errOn_nonneg _ _ _ _
  have hE0n : 0 ≤ E0 := errOn_nonneg _ _ _ _
  have hlev := h.level (k := k) (d := i + 1 - k) (by omega) hV
  have hW0 : V + (E0 + 2 * e0) ≤ 2 := by linarith [hlev.1, hlev.2]
  have hW1 : 1 + rho ≤ 2 := by linarith [h.rhoTau, h.tau1]
  set lam := ofInt n *ᶠ (locv Bv (i + 1) -ᶠ locv Bv i) with hlam
  set lam2 := ofInt n *ᶠ (locv Bv K -ᶠ locv Bv (i + 1)) with hlam2
  set lamR : ℝ := n * (rloc Br (i + 1) - rloc Br i) with hlamR
  set mu2 : ℝ := n * (rloc Br K - rloc Br (i + 1)) with hmu2
  have hiKs : i + (K - i) = K := by omega
  have hrK : l1 K r ≤ V := (l1_ge_part (by omega) r).trans hrV
  obtain ⟨hcf, hce⟩ := conv_local h.eps0 hrho0 h.conv hl1 (i := i) (s := K - i) (by omega) (f := f) (r := r)
    (by rw [hiKs]; exact hff) hr0 hW1 (by rw [hiKs]; linarith)
  rw [hiKs] at hcf hce
  set mn := miniNext env lam K i f with hmn
  have hmnf : ∀ m, i ≤ m → m < K → R.finite (mn m) := hcf
  have hmne : errOn R i K mn (pconv lamR r) ≤ e0 + ((1 + rho) * (1 + eps) - 1) * (V + e0) + om := by
    refine hce.trans ?_
    have := mul_le_mul_of_nonneg_left (add_le_add_left hrK e0) h.mu0
    linarith
  set e1 := errOn R (i + 1) K mn (pconv lamR r) with he1
  set x := pconv lamR r i with hx
  have hsplit : errOn R i K mn (pconv lamR r) = |R.val (mn i) - x| + e1 := by
    rw [he1]
    unfold errOn
    rw [Finset.sum_eq_sum_Ico_succ_bot (by omega : i < K)]
  rw [hsplit] at hmne
  have he1n : 0 ≤ e1 := errOn_nonneg _ _ _ _
  have hpc : l1 (n + 1) (pconv lamR r) ≤ V := (l1_pconv hl1.nonneg r (n + 1)).trans hrV
  have hxV : |x| ≤ V := (abs_le_l1 (pconv lamR r) (by omega : i < n + 1)).trans hpc
  -- the accounting, first for the exit
  have hc1 : 1 ≤ (1 + rho) * (1 + u) := by nlinarith
  have hcu : (1 + u) * ((1 + rho) * (1 + u)) ≤ 1 + ((1 + rho) * (1 + eps) - 1) := by
    have e : (1 + u) * ((1 + rho) * (1 + u)) = (1 + rho) * (1 + u) ^ 2 := by ring
    rw [e]
    have := mul_le_mul_of_nonneg_left h.ueps (by linarith : 0 ≤ 1 + rho)
    linarith
  have hmu1 : (1 + rho) * (1 + eps) - 1 ≤ 1 := by
    have := h.tau1
    rw [h.htau] at this
    linarith [h.eta0, h.om0]
  have hacc0 := mini_account (E1 := 0) hE0n he0n (abs_nonneg (R.val (mn i) - x)) he1n hV1 hu hc1 hcu hmu1 h.om0 h.eta0 h.htau hmne
    (by have := h.eta0
        have : 0 ≤ |R.val (mn i) - x| * ((1 + rho) * (1 + u)) := by positivity
        have : 0 ≤ V * ((1 + rho) * (1 + u) - 1) := mul_nonneg (by linarith) (by linarith)
        have : 0 ≤ u * V := mul_nonneg hu (by linarith)
        have : 0 ≤ (1 + u) * (E0 + |R.val (mn i) - x| * ((1 + rho) * (1 + u)) + V * ((1 + rho) * (1 + u) - 1) + (n + 1) * R.eta) :=
          mul_nonneg (by linarith) (by linarith)
        linarith)
  have hnext : (1 + tau) * (E0 + 2 * e0) + 3 * tau * V + 3 * V ≤ 3 * V * (1 + tau) ^ (i + 1 + 1 - k) := by
    have e : i + 1 + 1 - k = (i + 1 - k) + 1 := by omega
    rw [e, pow_succ]
    have := mul_le_mul_of_nonneg_right hacc (by linarith : 0 ≤ 1 + tau)
    have e2 : (E0 + 2 * e0 + 3 * V) * (1 + tau) = (1 + tau) * (E0 + 2 * e0) + 3 * tau * V + 3 * V := by ring
    have e3 : 3 * V * (1 + tau) ^ (i + 1 - k) * (1 + tau) = 3 * V * ((1 + tau) ^ (i + 1 - k) * (1 + tau)) := by ring
    rw [← e2, ← e3]
    exact this
  have hlev2 := h.level (k := k) (d := i + 1 + 1 - k) (by omega) hV
  have hxW : |R.val (mn i)| ≤ 2 := by
    have h3 := abs_add_le (R.val (mn i) - x) x
    rw [sub_add_cancel] at h3
    linarith [hlev2.1, hlev2.2, hacc0.2]
  have hgW : ∀ m, K ≤ m → m ≤ n → |R.val (g m)| ≤ 2 := by
    intro m h1 h2
    have h3 := abs_add_le (R.val (g m) - G0 m) (G0 m)
    rw [sub_add_cancel] at h3
    have h4 := abs_le_errOn (R := R) g G0 h1 (by omega : m < n + 1)
    have h5 : |G0 m| ≤ V := (abs_le_l1 G0 (by omega : m < n + 1)).trans
      ((l1_pconv (hpm i K (by omega) (by omega)).nonneg r (n + 1)).trans hrV)
    linarith
  obtain ⟨hdf, hde⟩ := dest_local h.so hrho0 hl2 (i := i) (K := K) (by omega) (hmnf i le_rfl (by omega)) (x := x) (G := G0)
    hgf hxW hgW hW1 (by norm_num; exact h.omega)
  -- the exact laws
  have hGnext : ∀ m, K ≤ m → G0 m - x * pois mu2 (m - i) = pconv mu2 (nextLaw lamR i r) m := by
    intro m hm
    have e : (n : ℝ) * (rloc Br K - rloc Br i) = lamR + mu2 := by rw [hlamR, hmu2]; ring
    rw [hG0, e, hx]
    exact nextLaw_exit (by omega) hr0
  have hnV : l1 (n + 1) (nextLaw lamR i r) ≤ V := (l1_nextLaw hl1.nonneg i r (n + 1)).trans hrV
  have hsumG : ∑ m ∈ Ico K (n + 1), |G0 m - x * pois mu2 (m - i)| ≤ V := by
    rw [Finset.sum_congr rfl fun m hm => by rw [hGnext m (Finset.mem_Ico.mp hm).1]]
    exact (sum_Ico_le_l1 K (n + 1) _).trans ((l1_pconv hl2.nonneg _ _).trans hnV)
  set dn := destNext env lam lam2 K i f g with hdn
  have hdne : errOn R K (n + 1) dn (pconv mu2 (nextLaw lamR i r))
      ≤ (1 + u) * (E0 + |R.val (mn i) - x| * ((1 + rho) * (1 + u)) + V * ((1 + rho) * (1 + u) - 1) + (n + 1) * R.eta) + u * V := by
    have e : errOn R K (n + 1) dn (pconv mu2 (nextLaw lamR i r))
        = errOn R K (n + 1) (fun m => g m -ᶠ mn i *ᶠ pmfVal lam2 (m - i)) (fun m => G0 m - x * pois mu2 (m - i)) := by
      unfold errOn
      refine Finset.sum_congr rfl fun m hm => ?_
      beta_reduce
      rw [hGnext m (Finset.mem_Ico.mp hm).1]
      rfl
    rw [e]
    refine hde.trans (add_le_add (mul_le_mul_of_nonneg_left ?_ (by linarith)) (mul_le_mul_of_nonneg_left hsumG hu))
    have := mul_le_mul_of_nonneg_right hxV (by linarith : 0 ≤ (1 + rho) * (1 + u) - 1)
    linarith
  have hacc1 := mini_account hE0n he0n (abs_nonneg (R.val (mn i) - x)) he1n hV1 hu hc1 hcu hmu1 h.om0 h.eta0 h.htau hmne hdne
  refine ⟨nextLaw lamR i r, ?_, hnV, ?_, ?_, hdf, ?_⟩
  · intro l hl
    unfold nextLaw
    rw [if_neg (by omega)]
  · have e : (fun m => nextLaw lamR i r m - qlaw n Br (i + 1) m) = nextLaw lamR i (fun m => r m - qlaw n Br i m) := by
      funext m
      rw [nextLaw_sub, qlaw_next]
    rw [e]
    exact (l1_nextLaw hl1.nonneg i _ _).trans hrq
  · intro m h1 h2; exact hmnf m (by omega) h2
  · have e : errOn R (i + 1) K mn (nextLaw lamR i r) = e1 := by
      rw [he1]
      unfold errOn
      refine Finset.sum_congr rfl fun m hm => ?_
      unfold nextLaw
      rw [if_pos (Finset.mem_Ico.mp hm).1]
    rw [e]
    linarith [hacc1.1]

/-- Between blocks. -/
def NewR (R : FloatModel F) (n : ℕ) (Br : ℕ → ℝ) (tau : ℝ) (k : ℕ) (f : ℕ → F) : Prop :=
  (∀ m, k ≤ m → m ≤ n → R.finite (f m)) ∧ errOn R k (n + 1) f (qlaw n Br k) ≤ (1 + tau) ^ (3 * k) - 1

theorem locv_succ (Bv : ℕ → F) (i : ℕ) : locv Bv (i + 1) = Bv i := by simp [locv]

/-- One block. -/
theorem blockStep_abs (h : NewErr R env n Nmax u rho eps om tau) {k K jump : ℕ} {B : List F} {Bv : ℕ → F} {Br : ℕ → ℝ}
    (hm : Monotone (rloc Br))
    (hpm : ∀ a b, a ≤ b → b ≤ n → PmfOk R env n rho (ofInt n *ᶠ (locv Bv b -ᶠ locv Bv a)) (n * (rloc Br b - rloc Br a)))
    (hB : ∀ i : ℕ, i < n → Has B i (Bv i)) {s : BlockState F} (hs : BInv (n : Int) jump k Bv s) {f : ℕ → F}
    (hR : NewR R n Br tau k f) (hfs : ∀ m : ℕ, k ≤ m → m ≤ n → Has s.buffers.src m (f m)) (hkK : k < K) (hKn : K ≤ n)
    (hj : K - k ≤ jump) :
    Sat NoFault (fun s' => BInv (n : Int) jump K Bv s' ∧ ∃ f' : ℕ → F, NewR R n Br tau K f' ∧
        ∀ m : ℕ, K ≤ m → m ≤ n → Has s'.buffers.src m (f' m))
      (blockStep env n (ofInt n) B ((K : Int) - 1) s) := by
  obtain ⟨hff, hfe⟩ := hR
  obtain ⟨V, hV⟩ : ∃ V, V = (1 + tau) ^ (3 * k) := ⟨_, rfl⟩
  rw [← hV] at hfe
  have htau0 := h.tau0
  have hV1 : 1 ≤ V := by rw [hV]; exact one_le_pow₀ (by linarith)
  have hK1 : Bv (K - 1) = locv Bv K := by
    rw [← locv_succ Bv (K - 1)]; congr 1; omega
  have hpk := hpm k K hkK.le hKn
  refine (blockStep_sat (E := NoFault) env (intensity := ofInt n) (Bv := Bv) hs
    (fun i hi => hB i (by omega)) hkK (by omega) (by omega) (fun m h1 h2 => hfs m h1 (by omega)) ?_ ?_ ?_
    (NewP R n k K Br tau V) ?_ ?_).mono ?_
  · rw [hK1]; exact hpk.ok
  · intro i h1 h2
    rw [← locv_succ Bv i]; exact (hpm i (i + 1) (by omega) (by omega)).ok
  · intro i h1 h2
    rw [← locv_succ Bv i, hK1]; exact (hpm (i + 1) K (by omega) (by omega)).ok
  · -- the first convolution
    set r : ℕ → ℝ := fun m => if k ≤ m then R.val (f m) else 0 with hr
    have hr0 : ∀ l < k, r l = 0 := fun l hl => by rw [hr]; simp only; rw [if_neg (by omega)]
    have hrf : ∀ m, k ≤ m → r m = R.val (f m) := fun m hm => by rw [hr]; simp only; rw [if_pos hm]
    have hrd : l1 (n + 1) (fun m => r m - qlaw n Br k m) ≤ V - 1 := by
      refine le_trans (le_of_eq ?_) hfe
      unfold errOn l1
      symm
      rw [Finset.range_eq_Ico]
      refine Finset.sum_subset_zero_on_sdiff (Finset.Ico_subset_Ico_left (Nat.zero_le _)) ?_ ?_
      · intro m hm
        rw [Finset.mem_sdiff, Finset.mem_Ico, Finset.mem_Ico] at hm
        beta_reduce
        rw [hr0 m (by omega), qlaw_supp n Br k m (by omega), sub_zero, abs_zero]
      · intro m hm
        beta_reduce
        rw [hrf m (Finset.mem_Ico.mp hm).1]
    have hrV : l1 (n + 1) r ≤ V := by
      have h3 := l1_add (n + 1) (fun m => r m - qlaw n Br k m) (qlaw n Br k)
      simp only [sub_add_cancel] at h3
      linarith [l1_qlaw n hm k (n + 1)]
    have hez : ∀ b, errOn R k b f r = 0 := by
      intro b
      unfold errOn
      refine Finset.sum_eq_zero fun m hm => ?_
      rw [hrf m (Finset.mem_Ico.mp hm).1, sub_self, abs_zero]
    have hks : k + (n + 1 - k) = n + 1 := by omega
    have hV2 : V ≤ 2 := by rw [hV]; exact h.pow_le (by omega)
    obtain ⟨hcf, hce⟩ := conv_local h.eps0 h.rho0 h.conv hpk (i := k) (s := n + 1 - k) (by omega) (f := f) (r := r)
      (by rw [hks]; intro m h1 h2; exact hff m h1 (by omega)) hr0 (by linarith [h.rhoTau, h.tau1])
      (by rw [hks, hez]; linarith)
    rw [hks] at hcf hce
    rw [hez, zero_add, add_zero] at hce
    have hsz : ((n : Int) + 1 - k).toNat = n + 1 - k := by omega
    rw [hsz, hK1]
    refine ⟨r, hr0, hrV, hrd, fun m h1 h2 => hff m h1 (by omega), fun m h1 h2 => hcf m (by omega) (by omega), ?_⟩
    rw [hez, mul_zero, add_zero]
    have e1 : k + 1 - k = 1 := by omega
    rw [e1, pow_one]
    have h4 : errOn R K (n + 1) (fun m => convVal env.fft (n + 1 - k) (pmfVal (ofInt n *ᶠ (locv Bv K -ᶠ locv Bv k)))
          (fun j => f (k + j)) (m - k)) (pconv ((n : ℝ) * (rloc Br K - rloc Br k)) r)
        ≤ ((1 + rho) * (1 + eps) - 1) * V + om := by
      refine le_trans ?_ (hce.trans (add_le_add_left (mul_le_mul_of_nonneg_left hrV h.mu0) _))
      exact Finset.sum_le_sum_of_subset_of_nonneg (Finset.Ico_subset_Ico_left hkK.le) fun _ _ _ => abs_nonneg _
    have h5 : om ≤ om * V := le_mul_of_one_le_right h.om0 hV1
    have h6 : ((1 + rho) * (1 + eps) - 1) * V + om * V ≤ tau * V := by
      have e : tau * V = ((1 + rho) * (1 + eps) - 1) * V + om * V + ((n + 1) * R.eta) * V := by rw [h.htau]; ring
      have := mul_nonneg h.eta0 (by linarith : 0 ≤ V)
      linarith
    have h7 : 0 ≤ tau * V := mul_nonneg htau0 (by linarith)
    have e8 : 3 * V * (1 + tau) = 3 * V + 3 * (tau * V) := by ring
    rw [e8]
    linarith
  · intro i f g h1 h2 hP
    have e : Bv i = locv Bv (i + 1) := (locv_succ Bv i).symm
    rw [hK1, e]
    exact new_mini h hV hKn hpm h1 h2 hP
  · rintro s' ⟨hinv, f', g, ⟨r, hr0, hrV, hrq, -, hgf, hacc⟩, hsrc⟩
    refine ⟨hinv, g, ⟨hgf, ?_⟩, fun m h1 h2 => hsrc m h1 (by omega)⟩
    have eK : K - 1 + 1 = K := by omega
    rw [eK] at hacc
    set mu : ℝ := n * (rloc Br K - rloc Br (K - 1)) with hmu
    have hmu0 : 0 ≤ mu := (hpm (K - 1) K (by omega) hKn).nonneg
    have hq : ∀ m, K ≤ m → pconv mu r m - qlaw n Br K m = pconv mu (fun m => r m - qlaw n Br (K - 1) m) m := by
      intro m hm
      have h8 := qlaw_succ n Br (K - 1) m
      rw [eK, if_pos hm] at h8
      rw [h8, pconv_sub]
    have h9 : ∑ m ∈ Ico K (n + 1), |pconv mu r m - qlaw n Br K m| ≤ V - 1 := by
      rw [Finset.sum_congr rfl fun m hm => by rw [hq m (Finset.mem_Ico.mp hm).1]]
      exact (sum_Ico_le_l1 K (n + 1) _).trans ((l1_pconv hmu0 _ _).trans hrq)
    have h10 : errOn R K (n + 1) g (qlaw n Br K) ≤ errOn R K (n + 1) g (pconv mu r)
        + ∑ m ∈ Ico K (n + 1), |pconv mu r m - qlaw n Br K m| := by
      unfold errOn
      rw [← Finset.sum_add_distrib]
      exact Finset.sum_le_sum fun m _ => abs_sub_le _ _ _
    have h11 := (h.level (k := k) (d := K - k) (by omega) hV).1
    have e12 : k + (K - k) = K := by omega
    rw [e12] at h11
    have h13 : 0 ≤ errOn R (K - 1) K f' r := errOn_nonneg _ _ _ _
    linarith

/-- The non-crossing vector's entry `n`. -/
theorem newN2_abs (h : NewErr R env n Nmax u rho eps om tau) (hn : 0 < n) {jump : ℕ} (hj : 0 < jump) {B : List F}
    (hlen : B.length = n) {Bv : ℕ → F} {Br : ℕ → ℝ} (hm : Monotone (rloc Br))
    (hpm : ∀ a b, a ≤ b → b ≤ n → PmfOk R env n rho (ofInt n *ᶠ (locv Bv b -ᶠ locv Bv a)) (n * (rloc Br b - rloc Br a)))
    (hlast : PmfOk R env n rho (ofInt n *ᶠ (one -ᶠ locv Bv n)) (n * (1 - rloc Br n)))
    (hB : ∀ i : ℕ, i < n → Has B i (Bv i)) (ha : env.asserts = false ∨ jump ≤ n) :
    Sat NoFault (fun probs => ∃ w, Has probs n w ∧ R.finite w ∧
        |R.val w - pconv ((n : ℝ) * (1 - rloc Br n)) (qlaw n Br n) n| ≤ (1 + tau) ^ (3 * n + 1) - 1)
      (poissonBNoncrossingProbabilityN2 env n (ofInt n) B jump) := by
  have htau0 := h.tau0
  refine (newN2_sat (E := NoFault) env hn (Bv := Bv) hlen hj ?_ (NewR R n Br tau) ?_ ?_ hlast.ok).mono ?_
  · rcases ha with ha | ha
    · exact Or.inl ha
    · exact Or.inr (Or.inl ha)
  · refine ⟨fun m _ _ => ?_, ?_⟩
    · beta_reduce
      split
      · exact R.one_finite
      · exact R.zero_finite
    · have : errOn R 0 (n + 1) (fun m => if m = 0 then (one : F) else zero) (qlaw n Br 0) = 0 := by
        unfold errOn
        refine Finset.sum_eq_zero fun m _ => ?_
        rw [qlaw_zero]
        beta_reduce
        split
        · rw [R.val_one, sub_self, abs_zero]
        · rw [R.val_zero, sub_self, abs_zero]
      rw [this]; simp
  · intro k K f s hs hR hfs hk hK hKj
    exact blockStep_abs h hm hpm hB hs hR hfs hk hK hKj
  · rintro probs ⟨f, ⟨hff, hfe⟩, hp⟩
    obtain ⟨V, hV⟩ : ∃ V, V = (1 + tau) ^ (3 * n) := ⟨_, rfl⟩
    have hV1 : 1 ≤ V := by rw [hV]; exact one_le_pow₀ (by linarith)
    have hV2 : V ≤ 2 := by rw [hV]; exact h.pow_le (by omega)
    rw [← hV] at hfe
    have hq1 := l1_qlaw n hm n (n + 1)
    obtain ⟨hcf, hce⟩ := conv_local h.eps0 h.rho0 h.conv hlast (i := n) (s := 1) (by omega) (f := f) (r := qlaw n Br n)
      (fun m h1 h2 => hff m h1 (by omega)) (fun l hl => qlaw_supp n Br n l hl) (by linarith [h.rhoTau, h.tau1])
      (by linarith)
    refine ⟨_, hp, ?_, ?_⟩
    · have := hcf n le_rfl (by omega)
      rwa [Nat.sub_self] at this
    · have h3 := abs_le_errOn (R := R) (fun m => convVal env.fft 1 (pmfVal (ofInt n *ᶠ (one -ᶠ locv Bv n)))
        (fun j => f (n + j)) (m - n)) (pconv ((n : ℝ) * (1 - rloc Br n)) (qlaw n Br n)) (le_refl n) (by omega : n < n + 1)
      beta_reduce at h3
      rw [Nat.sub_self] at h3
      refine h3.trans (hce.trans ?_)
      have h4 : l1 (n + 1) (qlaw n Br n) + errOn R n (n + 1) f (qlaw n Br n) ≤ V := by linarith
      have h5 := mul_le_mul_of_nonneg_left h4 h.mu0
      have h6 : om ≤ om * V := le_mul_of_one_le_right h.om0 hV1
      have h7 : ((1 + rho) * (1 + eps) - 1) * V + om * V ≤ tau * V := by
        have e : tau * V = ((1 + rho) * (1 + eps) - 1) * V + om * V + ((n + 1) * R.eta) * V := by rw [h.htau]; ring
        have := mul_nonneg h.eta0 (by linarith : 0 ≤ V)
        linarith
      have e8 : (1 + tau) ^ (3 * n + 1) = V + tau * V := by rw [pow_succ, ← hV]; ring
      rw [e8]
      linarith

end block

/-- Extension of a boundary to all natural numbers. -/
def extF {n : ℕ} (B : Fin n → F) (i : ℕ) : F := if h : i < n then B ⟨i, h⟩ else one

theorem extF_val {n : ℕ} (B : Fin n → F) (i : ℕ) : R.val (extF B i) = extB (fun i => R.val (B i)) i := by
  unfold extF extB
  split
  · rfl
  · exact R.val_one

theorem locv_val {n : ℕ} (B : Fin n → F) (k : ℕ) : R.val (locv (extF B) k) = rloc (extB fun i => R.val (B i)) k := by
  unfold locv rloc
  split
  · exact R.val_zero
  · exact extF_val B _

/-- `ecdf1_new_B`: absolute error. -/
theorem ecdf1NewB_abs (env : Env F) {n P : ℕ} (hn : 1 ≤ n) {etaP : ℝ} (hpmf : PmfAccurate R S n P etaP) {u : ℝ} {Nmax : ℕ}
    {rho eps om tau : ℝ} (hrho : rho = R.g ^ P - 1 + (n + 1) * etaP * R.g ^ P) (h : NewErr R env n Nmax u rho eps om tau)
    {B : Fin n → F} (hz : zero ∈ S) (ho : one ∈ S) (hBS : ∀ i, B i ∈ S) (hBf : ∀ i, R.finite (B i))
    (hB : ValidBound fun i => R.val (B i)) (isqrt : ℕ → ℕ) (ha : env.asserts = false ∨ isqrt n + 1 ≤ n)
    {A : ℝ} (hA : A = (1 + u) * (((1 + tau) ^ (3 * n + 1) - 1) * R.g ^ P / pois n n + (R.g ^ P - 1)) + u + R.eta)
    (hO : 1 + A ≤ R.Omega) :
    ∃ x, ecdf1NewB env isqrt (List.ofFn B) = .ok x ∧ R.finite x ∧ |R.val x - upperProb fun i => R.val (B i)| ≤ A := by
  have hpr0 : 0 ≤ upperProb fun i => R.val (B i) := MeasureTheory.measureReal_nonneg
  have hpr1 : (upperProb fun i => R.val (B i)) ≤ 1 := by
    have : MeasureTheory.IsProbabilityMeasure ((MeasureTheory.volume : MeasureTheory.Measure ℝ).restrict (Set.Icc 0 1)) :=
      ⟨by simp⟩
    have : MeasureTheory.IsProbabilityMeasure (iidUniform n) := by
      unfold iidUniform
      infer_instance
    exact MeasureTheory.measureReal_le_one
  have hpi : 0 < pois n n := pois_pos (by exact_mod_cast hn) n
  set Br := extB fun i => R.val (B i) with hBr
  have hmono := extB_mono hB
  have hrange := extB_range hB
  have hrm : Monotone (rloc Br) := rloc_mono hmono (hrange 0).1
  have hr0 : rloc Br 0 = 0 := by simp [rloc]
  have hrr : ∀ k, 0 ≤ rloc Br k ∧ rloc Br k ≤ 1 := by
    intro k
    refine ⟨by rw [← hr0]; exact hrm (Nat.zero_le _), ?_⟩
    unfold rloc; split
    · exact zero_le_one
    · exact (hrange _).2
  have hlf : ∀ k, R.finite (locv (extF B) k) ∧ locv (extF B) k ∈ S := by
    intro k
    unfold locv extF
    split
    · exact ⟨R.zero_finite, hz⟩
    · split
      · exact ⟨hBf _, hBS _⟩
      · exact ⟨R.one_finite, ho⟩
  have hpm : ∀ a b, a ≤ b → b ≤ n →
      PmfOk R env n rho (ofInt n *ᶠ (locv (extF B) b -ᶠ locv (extF B) a)) (n * (rloc Br b - rloc Br a)) := by
    intro a b hab _
    have := pmfOk env hpmf hrho (hlf a).2 (hlf b).2 (hlf a).1 (hlf b).1 (by rw [locv_val]; exact (hrr a).1)
      (by rw [locv_val, locv_val]; exact hrm hab) (by rw [locv_val]; exact (hrr b).2)
    rw [locv_val, locv_val] at this
    exact this
  have hlast : PmfOk R env n rho (ofInt n *ᶠ (one -ᶠ locv (extF B) n)) (n * (1 - rloc Br n)) := by
    have := pmfOk env hpmf hrho (hlf n).2 ho (hlf n).1 R.one_finite (by rw [locv_val]; exact (hrr n).1)
      (by rw [locv_val, R.val_one]; exact (hrr n).2) (by rw [R.val_one])
    rw [locv_val, R.val_one] at this
    exact this
  have key : Sat NoFault (fun x => R.finite x ∧ |R.val x - upperProb fun i => R.val (B i)| ≤ A)
      (ecdf1NewB env isqrt (List.ofFn B)) := by
    unfold ecdf1NewB
    dsimp only
    rw [check_valid_float hBf hB "B" _ (by simp), M_ok_bind]
    simp only [List.length_ofFn]
    have e : ((isqrt n : ℕ) : Int) + 1 = ((isqrt n + 1 : ℕ) : Int) := by omega
    rw [e]
    refine Sat.bind (newN2_abs h hn (by omega) (by simp) (Bv := extF B) (Br := Br) hrm hpm hlast ?_ ha) ?_
    · intro i hi
      unfold Has extF
      rw [dif_pos hi]
      simp [hi]
    · rintro probs ⟨w, hw, hwf, hwe⟩
      rw [rd_eq hw, M_ok_bind]
      refine Sat.bind (poissonPmf_sat env (by omega) (Or.inr hpmf.n_pos.1)) ?_
      intro p hp
      rw [Int.toNat_natCast] at hp
      obtain ⟨hpf, hpl, hpu⟩ := hpmf.last p (by
        rw [hp]; unfold pmfVal; rw [hpmf.n_pos.2]; simp)
      rw [poissonProb_eq] at hpl hpu
      have hq := qlaw_prob hB
      rw [div_eq_iff hpi.ne'] at hq
      rw [hq, mul_comm] at hwe
      exact final_div h.so hwf hpf hpi hpr0 hpr1 (R.one_le_pow P) hwe hpl hpu hA hO
  exact key.exists_ok

end
end CP.Spec
