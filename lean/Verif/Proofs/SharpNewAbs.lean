import Verif.Proofs.FastNewAbs
import Verif.Proofs.SharpAbs
/-
Sharper forward error analysis of `ecdf1_new` as compiled with `-ffast-math`: the error of the Poisson probabilities of a step is
proportional to the length of the step (cf. `Proofs/FastNewAbs.lean`, `Proofs/SharpAbs.lean`).
-/
set_option linter.unusedVariables false
open Finset
namespace CP.Spec
noncomputable section
variable {F : Type} [FOps F] {E : Fault → Prop} {R : FloatModel F} {S : Set F}
open FOps

theorem pmfOkS (env : Env F) {co : FastCode F} {n P : ℕ} {etaP : ℝ} (hpmf : SharpPmf R co S n P etaP) (site : ℕ) {th sg : ℝ}
    (hth : th = 8 * Real.log R.g + (R.g ^ P - 1)) (hsg : sg = R.g ^ 2 + (n + 1) * etaP * R.g ^ (8 * n + n * P + 1)) {x y : F} (hx : x ∈ S) (hy : y ∈ S) (hxf : R.finite x)
    (hyf : R.finite y) (h0 : 0 ≤ R.val x) (hxy : R.val x ≤ R.val y) (h1 : R.val y ≤ 1) :
    PmfOkF R env n (sg * Real.exp (n * (R.val y - R.val x) * th) - 1) (ofInt n *ᶠ (y -ᶠ x)) (n * (R.val y - R.val x)) (fastPmfVal co site (ofInt n *ᶠ (y -ᶠ x))) := by
  obtain ⟨hs1, hs2, hs3⟩ := hpmf.sign x hx y hy hxf hyf h0 hxy h1
  have hetaP := hpmf.etaP_nonneg
  have hnn : 0 ≤ (n : ℝ) * (R.val y - R.val x) := mul_nonneg (Nat.cast_nonneg _) (by linarith)
  have hth0 : 0 ≤ th := by
    have := Real.log_nonneg R.one_le_g
    have := R.one_le_pow P
    linarith
  have hsg1 : 1 ≤ sg := by
    have h1 : 0 ≤ ((n : ℝ) + 1) * etaP * R.g ^ (8 * n + n * P + 1) := by
      have := R.pow_pos' (8 * n + n * P + 1); positivity
    have h2 := R.one_le_pow 2
    linarith
  obtain ⟨rho, hrho⟩ : ∃ rho, rho = sg * Real.exp (n * (R.val y - R.val x) * th) - 1 := ⟨_, rfl⟩
  have hrho0 : 0 ≤ rho := by
    have := Real.one_le_exp (mul_nonneg hnn hth0)
    rw [hrho]
    nlinarith
  rw [← hrho]
  have hok : LamOk NoFault env (ofInt n *ᶠ (y -ᶠ x)) := by
    refine ⟨Or.inl hs1, Or.inr (Or.inl ?_)⟩
    unfold FOps.ge
    rcases hxy.eq_or_lt with h | h
    · rw [hs3.mpr h, Bool.or_true]
    · rw [hs2.mpr h, Bool.true_or]
  rcases hxy.eq_or_lt with h | h
  · have he := hs3.mpr h
    have hz : (n : ℝ) * (R.val y - R.val x) = 0 := by rw [h]; ring
    rw [hz]
    have hv : ∀ k, R.finite (fastPmfVal co site (ofInt n *ᶠ (y -ᶠ x)) k) ∧ R.val (fastPmfVal co site (ofInt n *ᶠ (y -ᶠ x)) k) = pois 0 k := by
      intro k
      unfold fastPmfVal
      rw [he, pois_zero]
      simp only [if_true]
      split
      · exact ⟨R.one_finite, R.val_one⟩
      · exact ⟨R.zero_finite, R.val_zero⟩
    have hd : ∀ m, l1 m (fun k => R.val (fastPmfVal co site (ofInt n *ᶠ (y -ᶠ x)) k) - pois 0 k) = 0 := by
      intro m
      unfold l1
      refine Finset.sum_eq_zero fun k _ => ?_
      beta_reduce
      rw [(hv k).2, sub_self, abs_zero]
    refine ⟨hok, le_rfl, fun k _ => (hv k).1, fun m _ => by rw [hd m]; exact hrho0, fun m _ => ?_⟩
    rw [l1_congr (g := pois 0) fun k _ => (hv k).2, l1_of_nonneg (pois_nonneg le_rfl)]
    linarith [sum_pois_le (le_refl (0 : ℝ)) m]
  · have hne : FOps.eq (ofInt n *ᶠ (y -ᶠ x)) (zero : F) = false := by
      rw [← Bool.not_eq_true]
      exact fun h' => h.ne (hs3.mp h')
    have hpa : ∀ k ≤ n, R.finite (fastPmfVal co site (ofInt n *ᶠ (y -ᶠ x)) k) ∧ 0 ≤ R.val (fastPmfVal co site (ofInt n *ᶠ (y -ᶠ x)) k) ∧
        pois ((n : ℝ) * (R.val y - R.val x)) k / R.g ^ (⌈8 * ((n : ℝ) * (R.val y - R.val x))⌉₊ + k * P + 1) - etaP ≤ R.val (fastPmfVal co site (ofInt n *ᶠ (y -ᶠ x)) k) ∧
        R.val (fastPmfVal co site (ofInt n *ᶠ (y -ᶠ x)) k) ≤ (pois ((n : ℝ) * (R.val y - R.val x)) k + etaP) * R.g ^ (⌈8 * ((n : ℝ) * (R.val y - R.val x))⌉₊ + k * P + 1) := by
      intro k hk
      exact hpmf.pmf site x hx y hy hxf hyf h0 h h1 k hk _ (by
        unfold fastPmfVal
        rw [hne]
        simp only [Bool.false_eq_true, if_false])
    have hlamn : (n : ℝ) * (R.val y - R.val x) ≤ n := mul_le_of_le_one_right (Nat.cast_nonneg _) (by linarith)
    have hl := fun m (hm : m ≤ n + 1) => sharp_pmf_l1 hetaP hnn hlamn (p := fastPmfVal co site (ofInt n *ᶠ (y -ᶠ x))) hm
      (fun k hk => hpa k (by omega)) hth hsg hrho
    exact ⟨hok, hnn, fun k hk => (hpa k hk).1, fun m hm => (hl m hm).1, fun m hm => (hl m hm).2⟩


/-- A weaker bound. -/
theorem PmfOkF.mono {env : Env F} {n : ℕ} {rho rho' : ℝ} {lam : F} {lamR : ℝ} {p : ℕ → F} (h : PmfOkF R env n rho lam lamR p)
    (hr : rho ≤ rho') : PmfOkF R env n rho' lam lamR p :=
  ⟨h.ok, h.nonneg, h.fin, fun m hm => (h.diff m hm).trans hr, fun m hm => (h.norm m hm).trans (by linarith)⟩

/-- The mass removed at a step leaves the next law. -/
theorem l1_nextLaw_sub {lam : ℝ} (h : 0 ≤ lam) {i m : ℕ} (hi : i < m) (q : ℕ → ℝ) :
    l1 m (nextLaw lam i q) + |pconv lam q i| ≤ l1 m q := by
  refine le_trans ?_ (l1_pconv h q m)
  have h1 : l1 m (nextLaw lam i q) = ∑ k ∈ range m, if i + 1 ≤ k then |pconv lam q k| else 0 := by
    unfold l1
    refine Finset.sum_congr rfl fun k _ => ?_
    unfold nextLaw
    split
    · rfl
    · exact abs_zero
  have h2 : |pconv lam q i| = ∑ k ∈ range m, if k = i then |pconv lam q k| else 0 := by
    rw [Finset.sum_ite_eq' (range m) i, if_pos (Finset.mem_range.mpr hi)]
  rw [h1, h2, ← Finset.sum_add_distrib]
  unfold l1
  refine Finset.sum_le_sum fun k _ => ?_
  rcases Nat.lt_trichotomy k i with hk | hk | hk
  · rw [if_neg (by omega), if_neg (by omega)]; simp
  · rw [if_neg (by omega), if_pos hk]; simp
  · rw [if_pos (by omega), if_neg (by omega)]; simp

/-- The accounting of one inner step. -/
theorem mini_accountS {E0 e0 E1 e1 dx x l l' V u c A be om et a tau sg eps : ℝ} (hE : 0 ≤ E0) (he : 0 ≤ e0) (hdx : 0 ≤ dx) (he1 : 0 ≤ e1)
    (hx : 0 ≤ x) (hV : 1 ≤ V) (hl0 : 0 ≤ l) (hl' : 0 ≤ l') (hlV : l ≤ V) (hll : l' + x ≤ l) (hu : 0 ≤ u) (hu1 : u ≤ 1) (huA : u ≤ A)
    (hcu : (1 + u) * c ≤ 1 + be) (hbe : be ≤ 1) (hbe0 : 0 ≤ be) (hom : 0 ≤ om) (het : 0 ≤ et) (ha : 1 ≤ a)
    (hA : A = sg * a * (1 + eps) - 1) (htau : tau = sg * (1 + eps) - 1 + om + et)
    (h1 : dx + e1 ≤ e0 + A * (V + e0) + om)
    (h2 : E1 ≤ (1 + u) * (E0 + dx * c + x * (c - 1) + et) + u * l') :
    E1 + 2 * e1 + be * l' + 3 * V ≤ (1 + tau) * a * (E0 + 2 * e0 + be * l + 3 * V) ∧
    dx + 3 * V ≤ (1 + tau) * a * (E0 + 2 * e0 + be * l + 3 * V) := by
  have hA0 : 0 ≤ A := hu.trans huA
  have hP0 : 0 ≤ E0 + 2 * e0 + be * l + 3 * V := by positivity
  have key : (1 + A + om + et) * (E0 + 2 * e0 + be * l + 3 * V) ≤ (1 + tau) * a * (E0 + 2 * e0 + be * l + 3 * V) := by
    refine mul_le_mul_of_nonneg_right ?_ hP0
    have t1 : om ≤ om * a := le_mul_of_one_le_right hom ha
    have t2 : et ≤ et * a := le_mul_of_one_le_right het ha
    have e : (1 + tau) * a = sg * a * (1 + eps) + om * a + et * a := by rw [htau]; ring
    rw [e, hA]
    linarith
  have k1 : 0 ≤ (A - u) * E0 := mul_nonneg (by linarith) hE
  have k2 : 0 ≤ A * e0 := mul_nonneg hA0 he
  have k3 : 0 ≤ (A - u) * V := mul_nonneg (by linarith) (by linarith)
  have k4 : 0 ≤ om * (V - 1) := mul_nonneg hom (by linarith)
  have k5 : 0 ≤ et * (V - 1) := mul_nonneg het (by linarith)
  have k6 : 0 ≤ (om + et) * (E0 + 2 * e0 + be * l) := by positivity
  have k7 : 0 ≤ A * (be * l) := by positivity
  have k8 : 0 ≤ et * (1 - u) := mul_nonneg het (by linarith)
  have k9 : 0 ≤ A * E0 := mul_nonneg hA0 hE
  have k10 : 0 ≤ A * V := mul_nonneg hA0 (by linarith)
  have k11 : 0 ≤ be * l := by positivity
  have expand : (1 + A + om + et) * (E0 + 2 * e0 + be * l + 3 * V)
      = (E0 + 2 * e0 + be * l + 3 * V) + A * E0 + 2 * (A * e0) + A * (be * l) + 3 * (A * V)
        + (om + et) * (E0 + 2 * e0 + be * l) + 3 * (om * (V - 1)) + 3 * om + 3 * (et * (V - 1)) + 3 * et := by ring
  constructor
  · refine le_trans ?_ key
    rw [expand]
    have d1 : (1 + u) * (dx * c) ≤ (1 + be) * dx := by
      have := mul_le_mul_of_nonneg_right hcu hdx
      have e : (1 + u) * (dx * c) = (1 + u) * c * dx := by ring
      rw [e]; exact this
    have d2 : (1 + u) * (x * (c - 1)) ≤ (be - u) * x := by
      have := mul_le_mul_of_nonneg_right hcu hx
      have e : (1 + u) * (x * (c - 1)) = (1 + u) * c * x - (1 + u) * x := by ring
      have e2 : (be - u) * x = (1 + be) * x - (1 + u) * x := by ring
      rw [e, e2]; linarith
    have d3 : be * dx ≤ dx := mul_le_of_le_one_left hdx hbe
    have d4 : be * l' + be * x ≤ be * l := by
      have := mul_le_mul_of_nonneg_left hll hbe0
      have e : be * (l' + x) = be * l' + be * x := by ring
      linarith
    have d5 : u * l' ≤ u * V := mul_le_mul_of_nonneg_left (by linarith) hu
    have d6 : 0 ≤ u * x := mul_nonneg hu hx
    have e1' : (1 + u) * (E0 + dx * c + x * (c - 1) + et) = E0 + u * E0 + (1 + u) * (dx * c) + (1 + u) * (x * (c - 1)) + et + u * et := by ring
    have e2' : (1 + be) * dx = dx + be * dx := by ring
    have e3' : (be - u) * x = be * x - u * x := by ring
    have e4' : A * (V + e0) = A * V + A * e0 := by ring
    have e5' : (A - u) * E0 = A * E0 - u * E0 := by ring
    have e6' : (A - u) * V = A * V - u * V := by ring
    have e7' : et * (1 - u) = et - u * et := by ring
    linarith
  · refine le_trans ?_ key
    rw [expand]
    have e4' : A * (V + e0) = A * V + A * e0 := by ring
    linarith

/-- The constants of the analysis. -/
structure NewErrS (R : FloatModel F) (c : FastCodeNew F) (env : Env F) (n Nmax : ℕ) (u sg th eps om tau : ℝ) : Prop where
  so : SignedOps R u Nmax
  sf : SignedFma R c.toFastCode u
  sg1 : 1 ≤ sg
  th0 : 0 ≤ th
  om0 : 0 ≤ om
  conv : ∀ site, ConvAccurate R (fastConvVal c.toFastCode env.fft site) (n + 1) eps om 2
  htau : tau = sg * (1 + eps) - 1 + om + (n + 1) * R.eta
  ueps : (1 + u) ^ 2 ≤ 1 + eps
  small : (1 + tau) ^ (5 * n + 1) * Real.exp (5 * (n * th)) ≤ 2
  omega : 2 + ((1 + u) * 4 + R.eta) ≤ R.Omega

/-- The growth of the error from step `a` to step `b`. -/
def growS (n : ℕ) (Br : ℕ → ℝ) (th : ℝ) (a b : ℕ) : ℝ := Real.exp (n * (rloc Br b - rloc Br a) * th)

theorem growS_mul (n : ℕ) (Br : ℕ → ℝ) (th : ℝ) (a b c : ℕ) : growS n Br th a b * growS n Br th b c = growS n Br th a c := by
  unfold growS
  rw [← Real.exp_add]
  congr 1
  ring

theorem growS_self (n : ℕ) (Br : ℕ → ℝ) (th : ℝ) (a : ℕ) : growS n Br th a a = 1 := by
  unfold growS; simp

theorem growS_pos (n : ℕ) (Br : ℕ → ℝ) (th : ℝ) (a b : ℕ) : 0 < growS n Br th a b := Real.exp_pos _

theorem one_le_growS {n : ℕ} {Br : ℕ → ℝ} (hm : Monotone (rloc Br)) {th : ℝ} (hth : 0 ≤ th) {a b : ℕ} (hab : a ≤ b) : 1 ≤ growS n Br th a b := by
  unfold growS
  refine Real.one_le_exp (mul_nonneg (mul_nonneg (Nat.cast_nonneg _) ?_) hth)
  have := hm hab
  linarith

theorem growS_mono {n : ℕ} {Br : ℕ → ℝ} (hm : Monotone (rloc Br)) {th : ℝ} (hth : 0 ≤ th) {a a' b b' : ℕ} (ha : a' ≤ a) (hb : b ≤ b') :
    growS n Br th a b ≤ growS n Br th a' b' := by
  unfold growS
  refine Real.exp_le_exp.mpr (mul_le_mul_of_nonneg_right (mul_le_mul_of_nonneg_left ?_ (Nat.cast_nonneg _)) hth)
  have := hm ha
  have := hm hb
  linarith

/-- The accumulated error of the first `k` steps, plus one. -/
def levS (n : ℕ) (Br : ℕ → ℝ) (tau th : ℝ) (k : ℕ) : ℝ := ((1 + tau) ^ k * growS n Br th 0 k) ^ 5

/-- The error within a block. -/
def NewPS (R : FloatModel F) (n k K : ℕ) (Br : ℕ → ℝ) (tau th V C be : ℝ) (i : ℕ) (f g : ℕ → F) : Prop :=
  ∃ r : ℕ → ℝ, (∀ l < i, r l = 0) ∧ l1 (n + 1) r ≤ V ∧ l1 (n + 1) (fun m => r m - qlaw n Br i m) ≤ V - 1 ∧
    (∀ m, i ≤ m → m < K → R.finite (f m)) ∧ (∀ m, K ≤ m → m ≤ n → R.finite (g m)) ∧
    errOn R K (n + 1) g (pconv ((n : ℝ) * (rloc Br K - rloc Br i)) r) + 2 * errOn R i K f r + be * l1 (n + 1) r + 3 * V
      ≤ C * V * ((1 + tau) ^ (i - k) * growS n Br th k i)

/-- The error between blocks. -/
def NewRS (R : FloatModel F) (n : ℕ) (Br : ℕ → ℝ) (tau th : ℝ) (k : ℕ) (f : ℕ → F) : Prop :=
  (∀ m, k ≤ m → m ≤ n → R.finite (f m)) ∧ errOn R k (n + 1) f (qlaw n Br k) ≤ levS n Br tau th k - 1

section block
variable {c : FastCodeNew F} {env : Env F} {n Nmax : ℕ} {u sg th eps om tau : ℝ}

theorem NewErrS.eps0 (h : NewErrS R c env n Nmax u sg th eps om tau) : 0 ≤ eps := by
  have := h.so.u_nonneg
  nlinarith [h.ueps]

theorem NewErrS.eta0 (h : NewErrS R c env n Nmax u sg th eps om tau) : 0 ≤ ((n : ℝ) + 1) * R.eta :=
  mul_nonneg (by positivity) R.eta_nonneg

theorem NewErrS.sgeps (h : NewErrS R c env n Nmax u sg th eps om tau) : sg ≤ sg * (1 + eps) ∧ 1 + eps ≤ sg * (1 + eps) := by
  have h0 := h.eps0
  have h1 := h.sg1
  constructor <;> nlinarith

theorem NewErrS.tau0 (h : NewErrS R c env n Nmax u sg th eps om tau) : 0 ≤ tau := by
  rw [h.htau]; linarith [h.sgeps.1, h.sg1, h.eta0, h.om0]

theorem NewErrS.u1 (h : NewErrS R c env n Nmax u sg th eps om tau) : (1 + u) ^ 2 ≤ sg * (1 + eps) := h.ueps.trans h.sgeps.2

theorem NewErrS.level_le (h : NewErrS R c env n Nmax u sg th eps om tau) {Br : ℕ → ℝ} (hm : Monotone (rloc Br)) (h1 : ∀ k, rloc Br k ≤ 1)
    {d a b : ℕ} (hd : d ≤ n) (ha : a ≤ b) : ((1 + tau) ^ d * growS n Br th a b) ^ 5 ≤ 2 := by
  have ht := h.tau0
  refine le_trans ?_ h.small
  have e : Real.exp (5 * (n * th)) = Real.exp (n * th) ^ 5 := by
    rw [← Real.exp_nat_mul]; norm_num
  have h2 : growS n Br th a b ≤ Real.exp (n * th) := by
    unfold growS
    refine Real.exp_le_exp.mpr (mul_le_mul_of_nonneg_right (mul_le_of_le_one_right (Nat.cast_nonneg _) ?_) h.th0)
    have h3 : 0 ≤ rloc Br a := by
      have := hm (Nat.zero_le a)
      simpa [rloc] using this
    linarith [h1 b]
  rw [mul_pow, e]
  refine mul_le_mul ?_ (pow_le_pow_left₀ (growS_pos _ _ _ _ _).le h2 5) (by have := growS_pos n Br th a b; positivity) (by positivity)
  rw [← pow_mul]
  exact pow_le_pow_right₀ (by linarith) (by omega)

theorem NewErrS.one_level (h : NewErrS R c env n Nmax u sg th eps om tau) {Br : ℕ → ℝ} (hm : Monotone (rloc Br)) (h1 : ∀ k, rloc Br k ≤ 1)
    {a b : ℕ} (hn : 1 ≤ n) (ha : a ≤ b) : (1 + tau) * growS n Br th a b ≤ 2 := by
  have ht := h.tau0
  have h2 := h.level_le hm h1 (d := 1) (a := a) (b := b) hn ha
  rw [pow_one] at h2
  have h3 : 1 ≤ (1 + tau) * growS n Br th a b := by
    have := one_le_growS (n := n) hm h.th0 ha
    nlinarith
  exact (le_self_pow₀ h3 (by norm_num)).trans h2

theorem poly_bound {z : ℝ} (hz : 1 ≤ z) : (1 + 2 * z) * z - 2 ≤ z ^ 5 := by
  have e : z ^ 5 - ((1 + 2 * z) * z - 2) = (z - 1) ^ 2 * (z ^ 3 + 2 * z ^ 2 + 3 * z + 2) := by ring
  have : 0 ≤ (z - 1) ^ 2 * (z ^ 3 + 2 * z ^ 2 + 3 * z + 2) := by positivity
  linarith

/-- The accumulated bound stays below 2. -/
theorem NewErrS.level (h : NewErrS R c env n Nmax u sg th eps om tau) {Br : ℕ → ℝ} (hm : Monotone (rloc Br)) (h1 : ∀ k, rloc Br k ≤ 1)
    {k i K : ℕ} (hki : k ≤ i) (hiK : i ≤ K) (hkK : k < K) (hK : K ≤ n) :
    (1 + 2 * ((1 + tau) * growS n Br th k K)) * levS n Br tau th k * ((1 + tau) ^ (i - k) * growS n Br th k i)
      ≤ levS n Br tau th K + 2 * levS n Br tau th k ∧ levS n Br tau th K ≤ 2 ∧ 1 ≤ levS n Br tau th k := by
  have ht := h.tau0
  have hth := h.th0
  have hV1 : 1 ≤ levS n Br tau th k := by
    unfold levS
    have h2 := one_le_growS (n := n) hm hth (Nat.zero_le k)
    have h3 : 1 ≤ (1 + tau) ^ k := one_le_pow₀ (by linarith)
    exact one_le_pow₀ (by nlinarith)
  refine ⟨?_, h.level_le hm h1 hK (Nat.zero_le _), hV1⟩
  obtain ⟨V, hV⟩ : ∃ V, V = levS n Br tau th k := ⟨_, rfl⟩
  rw [← hV] at hV1 ⊢
  obtain ⟨Z, hZ⟩ : ∃ Z, Z = (1 + tau) ^ (K - k) * growS n Br th k K := ⟨_, rfl⟩
  have hg := growS_pos n Br th k K
  have hZ1 : 1 ≤ Z := by
    rw [hZ]
    have h2 := one_le_growS (n := n) hm hth hkK.le
    have h3 : 1 ≤ (1 + tau) ^ (K - k) := one_le_pow₀ (by linarith)
    nlinarith
  have hY : (1 + tau) * growS n Br th k K ≤ Z := by
    rw [hZ]
    refine mul_le_mul_of_nonneg_right ?_ hg.le
    exact le_self_pow₀ (by linarith) (by omega)
  have hP : (1 + tau) ^ (i - k) * growS n Br th k i ≤ Z := by
    rw [hZ]
    refine mul_le_mul (pow_le_pow_right₀ (by linarith) (by omega)) (growS_mono hm hth le_rfl hiK) (growS_pos _ _ _ _ _).le (by positivity)
  have hVK : levS n Br tau th K = V * Z ^ 5 := by
    rw [hV, hZ]
    unfold levS
    rw [← mul_pow]
    congr 1
    have e1 : (1 + tau) ^ K = (1 + tau) ^ k * (1 + tau) ^ (K - k) := by rw [← pow_add]; congr 1; omega
    rw [e1, ← growS_mul n Br th 0 k K]
    ring
  have hb := mul_le_mul_of_nonneg_left (poly_bound hZ1) (by linarith : 0 ≤ V)
  rw [hVK]
  have hP0 : 0 ≤ (1 + tau) ^ (i - k) * growS n Br th k i := by
    have := growS_pos n Br th k i; positivity
  have h4 : (1 + 2 * ((1 + tau) * growS n Br th k K)) * V * ((1 + tau) ^ (i - k) * growS n Br th k i) ≤ (1 + 2 * Z) * V * Z := by
    refine mul_le_mul (mul_le_mul_of_nonneg_right (by linarith) (by linarith)) hP hP0 ?_
    have : 0 ≤ 1 + 2 * Z := by linarith
    positivity
  have e5 : (1 + 2 * Z) * V * Z = V * ((1 + 2 * Z) * Z - 2) + 2 * V := by ring
  linarith

set_option maxHeartbeats 1600000 in
theorem new_miniS (h : NewErrS R c env n Nmax u sg th eps om tau) {k K : ℕ} {Bv : ℕ → F} {Br : ℕ → ℝ} (hm : Monotone (rloc Br)) (h1' : ∀ k, rloc Br k ≤ 1) {V be : ℝ}
    (hV : V = levS n Br tau th k) (hbe : be = sg * growS n Br th k K * (1 + eps) - 1) (hKn : K ≤ n)
    (hpm : ∀ site a b, a ≤ b → b ≤ n → PmfOkF R env n (sg * growS n Br th a b - 1) (ofInt n *ᶠ (locv Bv b -ᶠ locv Bv a)) (n * (rloc Br b - rloc Br a))
      (fastPmfVal c.toFastCode site (ofInt n *ᶠ (locv Bv b -ᶠ locv Bv a))))
    {i : ℕ} {f g : ℕ → F} (hki : k ≤ i) (hiK : i + 1 < K) (hP : NewPS R n k K Br tau th V (1 + 2 * ((1 + tau) * growS n Br th k K)) be i f g) :
    NewPS R n k K Br tau th V (1 + 2 * ((1 + tau) * growS n Br th k K)) be (i + 1) (miniNextFast c env (ofInt n *ᶠ (locv Bv (i + 1) -ᶠ locv Bv i)) K i f)
        (destNextFast c env (ofInt n *ᶠ (locv Bv (i + 1) -ᶠ locv Bv i)) (ofInt n *ᶠ (locv Bv K -ᶠ locv Bv (i + 1))) K i f g) := by
  obtain ⟨r, hr0, hrV, hrq, hff, hgf, hacc⟩ := hP
  have hl1 := hpm (3 * i + 1) i (i + 1) (by omega) (by omega)
  have hu := h.so.u_nonneg
  have htau0 := h.tau0
  have hsg1 := h.sg1
  have hth0 := h.th0
  have heps0 := h.eps0
  have hsge := h.sgeps
  obtain ⟨ga, hga⟩ : ∃ ga, ga = growS n Br th i (i + 1) := ⟨_, rfl⟩
  have hga1 : 1 ≤ ga := by rw [hga]; exact one_le_growS hm hth0 (by omega)
  rw [← hga] at hl1
  have hgB1 : 1 ≤ growS n Br th k K := one_le_growS hm hth0 (by omega)
  obtain ⟨rhoB, hrhoB⟩ : ∃ rhoB, rhoB = sg * growS n Br th k K - 1 := ⟨_, rfl⟩
  have hl2 := (hpm (3 * i + 2) (i + 1) K (by omega) (by omega)).mono (rho' := rhoB) (by
    rw [hrhoB]
    have := mul_le_mul_of_nonneg_left (growS_mono (n := n) hm hth0 (by omega : k ≤ i + 1) (le_refl K)) (by linarith : 0 ≤ sg)
    linarith)
  obtain ⟨rho, hrho⟩ : ∃ rho, rho = sg * ga - 1 := ⟨_, rfl⟩
  rw [← hrho] at hl1
  have hrho0 : 0 ≤ rho := by rw [hrho]; nlinarith
  have hrhoB0 : 0 ≤ rhoB := by rw [hrhoB]; nlinarith
  have hrB : rho ≤ rhoB := by
    rw [hrho, hrhoB, hga]
    have := mul_le_mul_of_nonneg_left (growS_mono (n := n) hm hth0 hki (by omega : i + 1 ≤ K)) (by linarith : 0 ≤ sg)
    linarith
  have hbe1 : be ≤ 1 := by
    have h2 := h.one_level hm h1' (a := k) (b := K) (by omega) (by omega)
    have h3 : sg * (1 + eps) ≤ 1 + tau := by rw [h.htau]; linarith [h.eta0, h.om0]
    have h4 := mul_le_mul_of_nonneg_right h3 (by linarith : 0 ≤ growS n Br th k K)
    have e : sg * growS n Br th k K * (1 + eps) = sg * (1 + eps) * growS n Br th k K := by ring
    rw [hbe, e]
    linarith
  have hbe' : 1 + be = (1 + rhoB) * (1 + eps) := by rw [hbe, hrhoB]; ring
  have hbe0 : rhoB ≤ be := by
    have : 0 ≤ rhoB * eps := mul_nonneg hrhoB0 heps0
    have e : (1 + rhoB) * (1 + eps) = 1 + rhoB + eps + rhoB * eps := by ring
    linarith
  obtain ⟨A, hA⟩ : ∃ A, A = (1 + rho) * (1 + eps) - 1 := ⟨_, rfl⟩
  have hA' : A = sg * ga * (1 + eps) - 1 := by rw [hA, hrho]; ring
  have hmu0 : 0 ≤ (1 + rho) * (1 + eps) - 1 := by
    have : 0 ≤ rho * eps := mul_nonneg hrho0 heps0
    have e : (1 + rho) * (1 + eps) = 1 + rho + eps + rho * eps := by ring
    linarith
  have huA : u ≤ A := by
    have h3 : (1 + u) ^ 2 = 1 + u + (u + u ^ 2) := by ring
    have h4 := h.ueps
    have h5 : 0 ≤ u + u ^ 2 := by positivity
    have : 0 ≤ rho * eps := mul_nonneg hrho0 heps0
    have e : (1 + rho) * (1 + eps) = 1 + rho + eps + rho * eps := by ring
    linarith
  have hAbe : A ≤ be := by
    have := mul_le_mul_of_nonneg_right hrB (by linarith : 0 ≤ 1 + eps)
    have e : (1 + rho) * (1 + eps) = (1 + eps) + rho * (1 + eps) := by ring
    have e2 : (1 + rhoB) * (1 + eps) = (1 + eps) + rhoB * (1 + eps) := by ring
    linarith
  have hlevi := h.level hm h1' hki (by omega : i ≤ K) (by omega) hKn
  have hlev2 := h.level hm h1' (by omega : k ≤ i + 1) (by omega : i + 1 ≤ K) (by omega) hKn
  rw [← hV] at hlevi hlev2
  have hV1 : 1 ≤ V := hlevi.2.2
  set e0 := errOn R i K f r with he0
  set G0 := pconv ((n : ℝ) * (rloc Br K - rloc Br i)) r with hG0
  set E0 := errOn R K (n + 1) g G0 with hE0
  have he0n : 0 ≤ e0 := errOn_nonneg _ _ _ _
  have hE0n : 0 ≤ E0 := errOn_nonneg _ _ _ _
  set l0 := l1 (n + 1) r with hl0
  have hl0n : 0 ≤ l0 := l1_nonneg _ _
  have hW0 : V + (E0 + 2 * e0) ≤ 2 := by
    have : 0 ≤ be * l0 := mul_nonneg (by linarith) hl0n
    linarith [hlevi.1, hlevi.2.1]
  have hW1 : 1 + rhoB ≤ 2 := by linarith
  have hW1' : 1 + rho ≤ 2 := by linarith
  set lam := ofInt n *ᶠ (locv Bv (i + 1) -ᶠ locv Bv i) with hlam
  set lam2 := ofInt n *ᶠ (locv Bv K -ᶠ locv Bv (i + 1)) with hlam2
  set lamR : ℝ := n * (rloc Br (i + 1) - rloc Br i) with hlamR
  set mu2 : ℝ := n * (rloc Br K - rloc Br (i + 1)) with hmu2
  have hiKs : i + (K - i) = K := by omega
  have hrK : l1 K r ≤ V := (l1_ge_part (by omega) r).trans hrV
  obtain ⟨hcf, hce⟩ := conv_localF h.eps0 hrho0 (h.conv (3 * i + 1)) hl1 (i := i) (s := K - i) (by omega) (f := f) (r := r)
    (by rw [hiKs]; exact hff) hr0 hW1' (by rw [hiKs]; linarith)
  rw [hiKs] at hcf hce
  set mn := miniNextFast c env lam K i f with hmn
  have hmnf : ∀ m, i ≤ m → m < K → R.finite (mn m) := hcf
  have hmne : errOn R i K mn (pconv lamR r) ≤ e0 + A * (V + e0) + om := by
    refine hce.trans ?_
    have := mul_le_mul_of_nonneg_left (add_le_add_left hrK e0) hmu0
    rw [hA]
    linarith
  set e1 := errOn R (i + 1) K mn (pconv lamR r) with he1
  set x := pconv lamR r i with hx
  have hsplit : errOn R i K mn (pconv lamR r) = |R.val (mn i) - x| + e1 := by
    rw [he1]
    unfold errOn
    rw [Finset.sum_eq_sum_Ico_succ_bot (by omega : i < K)]
  rw [hsplit] at hmne
  have he1n : 0 ≤ e1 := errOn_nonneg _ _ _ _
  have hpc : l1 (n + 1) (pconv lamR r) ≤ V := (l1_pconv hl1.nonneg r (n + 1)).trans hrV
  have hxV : |x| ≤ V := (abs_le_l1 (pconv lamR r) (by omega : i < n + 1)).trans hpc
  -- the accounting, first for the exit
  have hc1 : 1 ≤ (1 + rhoB) * (1 + u) := by nlinarith
  have hcu : (1 + u) * ((1 + rhoB) * (1 + u)) ≤ 1 + be := by
    have e : (1 + u) * ((1 + rhoB) * (1 + u)) = (1 + rhoB) * (1 + u) ^ 2 := by ring
    rw [e, hbe']
    exact mul_le_mul_of_nonneg_left h.ueps (by linarith)
  have hll : l1 (n + 1) (nextLaw lamR i r) + |x| ≤ l0 := l1_nextLaw_sub hl1.nonneg (by omega) r
  have hacc0 := mini_accountS (E1 := 0) hE0n he0n (abs_nonneg (R.val (mn i) - x)) he1n (abs_nonneg x) hV1 hl0n (l1_nonneg _ _) hrV hll hu
    (by linarith) huA hcu hbe1 (by linarith) h.om0 h.eta0 hga1 hA' h.htau hmne
    (by have := h.eta0
        have : 0 ≤ |R.val (mn i) - x| * ((1 + rhoB) * (1 + u)) := by positivity
        have : 0 ≤ |x| * ((1 + rhoB) * (1 + u) - 1) := mul_nonneg (abs_nonneg _) (by linarith)
        have : 0 ≤ u * l1 (n + 1) (nextLaw lamR i r) := mul_nonneg hu (l1_nonneg _ _)
        have : 0 ≤ (1 + u) * (E0 + |R.val (mn i) - x| * ((1 + rhoB) * (1 + u)) + |x| * ((1 + rhoB) * (1 + u) - 1) + (n + 1) * R.eta) :=
          mul_nonneg (by linarith) (by linarith)
        linarith)
  have hnext : (1 + tau) * ga * (E0 + 2 * e0 + be * l0 + 3 * V)
      ≤ (1 + 2 * ((1 + tau) * growS n Br th k K)) * V * ((1 + tau) ^ (i + 1 - k) * growS n Br th k (i + 1)) := by
    have e : i + 1 - k = (i - k) + 1 := by omega
    rw [e, pow_succ, ← growS_mul n Br th k i (i + 1), ← hga]
    have := mul_le_mul_of_nonneg_left hacc (by positivity : 0 ≤ (1 + tau) * ga)
    refine this.trans (le_of_eq ?_)
    ring
  have hxW : |R.val (mn i)| ≤ 2 := by
    have h3 := abs_add_le (R.val (mn i) - x) x
    rw [sub_add_cancel] at h3
    linarith [hlev2.1, hlev2.2.1, hacc0.2]
  have hgW : ∀ m, K ≤ m → m ≤ n → |R.val (g m)| ≤ 2 := by
    intro m h1 h2
    have h3 := abs_add_le (R.val (g m) - G0 m) (G0 m)
    rw [sub_add_cancel] at h3
    have h4 := abs_le_errOn (R := R) g G0 h1 (by omega : m < n + 1)
    have h5 : |G0 m| ≤ V := (abs_le_l1 G0 (by omega : m < n + 1)).trans
      ((l1_pconv (hpm 0 i K (by omega) (by omega)).nonneg r (n + 1)).trans hrV)
    linarith
  obtain ⟨hdf, hde⟩ := dest_localF h.so h.sf hrhoB0 hl2 (i := i) (K := K) (by omega) (hmnf i le_rfl (by omega)) (x := x) (G := G0)
    hgf hxW hgW hW1 (by norm_num; exact h.omega)
  -- the exact laws
  have hGnext : ∀ m, K ≤ m → G0 m - x * pois mu2 (m - i) = pconv mu2 (nextLaw lamR i r) m := by
    intro m hm
    have e : (n : ℝ) * (rloc Br K - rloc Br i) = lamR + mu2 := by rw [hlamR, hmu2]; ring
    rw [hG0, e, hx]
    exact nextLaw_exit (by omega) hr0
  have hnV : l1 (n + 1) (nextLaw lamR i r) ≤ V := (l1_nextLaw hl1.nonneg i r (n + 1)).trans hrV
  have hsumG : ∑ m ∈ Ico K (n + 1), |G0 m - x * pois mu2 (m - i)| ≤ l1 (n + 1) (nextLaw lamR i r) := by
    rw [Finset.sum_congr rfl fun m hm => by rw [hGnext m (Finset.mem_Ico.mp hm).1]]
    exact (sum_Ico_le_l1 K (n + 1) _).trans (l1_pconv hl2.nonneg _ _)
  set dn := destNextFast c env lam lam2 K i f g with hdn
  have hdne : errOn R K (n + 1) dn (pconv mu2 (nextLaw lamR i r))
      ≤ (1 + u) * (E0 + |R.val (mn i) - x| * ((1 + rhoB) * (1 + u)) + |x| * ((1 + rhoB) * (1 + u) - 1) + (n + 1) * R.eta)
        + u * l1 (n + 1) (nextLaw lamR i r) := by
    have e : errOn R K (n + 1) dn (pconv mu2 (nextLaw lamR i r))
        = errOn R K (n + 1) (fun m => subMul c i m (g m) (mn i) (fastPmfVal c.toFastCode (3 * i + 2) lam2 (m - i))) (fun m => G0 m - x * pois mu2 (m - i)) := by
      unfold errOn
      refine Finset.sum_congr rfl fun m hm => ?_
      beta_reduce
      rw [hGnext m (Finset.mem_Ico.mp hm).1]
      rfl
    rw [e]
    refine hde.trans (add_le_add le_rfl (mul_le_mul_of_nonneg_left hsumG hu))
  have hacc1 := mini_accountS hE0n he0n (abs_nonneg (R.val (mn i) - x)) he1n (abs_nonneg x) hV1 hl0n (l1_nonneg _ _) hrV hll hu
    (by linarith) huA hcu hbe1 (by linarith) h.om0 h.eta0 hga1 hA' h.htau hmne hdne
  refine ⟨nextLaw lamR i r, ?_, hnV, ?_, ?_, hdf, ?_⟩
  · intro l hl
    unfold nextLaw
    rw [if_neg (by omega)]
  · have e : (fun m => nextLaw lamR i r m - qlaw n Br (i + 1) m) = nextLaw lamR i (fun m => r m - qlaw n Br i m) := by
      funext m
      rw [nextLaw_sub, qlaw_next]
    rw [e]
    exact (l1_nextLaw hl1.nonneg i _ _).trans hrq
  · intro m h1 h2; exact hmnf m (by omega) h2
  · have e : errOn R (i + 1) K mn (nextLaw lamR i r) = e1 := by
      rw [he1]
      unfold errOn
      refine Finset.sum_congr rfl fun m hm => ?_
      unfold nextLaw
      rw [if_pos (Finset.mem_Ico.mp hm).1]
    rw [e]
    linarith [hacc1.1]

/-- One block. -/
theorem blockStepFast_sharpAbs (h : NewErrS R c env n Nmax u sg th eps om tau) {k K jump : ℕ} {B : List F} {Bv : ℕ → F} {Br : ℕ → ℝ}
    (hm : Monotone (rloc Br)) (h1' : ∀ k, rloc Br k ≤ 1)
    (hpm : ∀ site a b, a ≤ b → b ≤ n → PmfOkF R env n (sg * growS n Br th a b - 1) (ofInt n *ᶠ (locv Bv b -ᶠ locv Bv a)) (n * (rloc Br b - rloc Br a))
      (fastPmfVal c.toFastCode site (ofInt n *ᶠ (locv Bv b -ᶠ locv Bv a))))
    (hB : ∀ i : ℕ, i < n → Has B i (Bv i)) {s : BlockState F} (hs : BInv (n : Int) jump k Bv s) {f : ℕ → F}
    (hR : NewRS R n Br tau th k f) (hfs : ∀ m : ℕ, k ≤ m → m ≤ n → Has s.buffers.src m (f m)) (hkK : k < K) (hKn : K ≤ n)
    (hj : K - k ≤ jump) :
    Sat NoFault (fun s' => BInv (n : Int) jump K Bv s' ∧ ∃ f' : ℕ → F, NewRS R n Br tau th K f' ∧
        ∀ m : ℕ, K ≤ m → m ≤ n → Has s'.buffers.src m (f' m))
      (blockStepFast c env n (ofInt n) B ((K : Int) - 1) s) := by
  obtain ⟨hff, hfe⟩ := hR
  obtain ⟨V, hV⟩ : ∃ V, V = levS n Br tau th k := ⟨_, rfl⟩
  rw [← hV] at hfe
  have htau0 := h.tau0
  have hlev := h.level hm h1' (by omega : k ≤ K - 1) (by omega : K - 1 ≤ K) hkK hKn
  rw [← hV] at hlev
  have hV1 : 1 ≤ V := hlev.2.2
  obtain ⟨be, hbe⟩ : ∃ be, be = sg * growS n Br th k K * (1 + eps) - 1 := ⟨_, rfl⟩
  have hsg1 := h.sg1
  have hgB1 : 1 ≤ growS n Br th k K := one_le_growS hm h.th0 hkK.le
  have hrho0 : 0 ≤ sg * growS n Br th k K - 1 := by nlinarith
  have hbeeq : (1 + (sg * growS n Br th k K - 1)) * (1 + eps) - 1 = be := by rw [hbe]; ring
  have hbe0 : 0 ≤ be := by
    have : 0 ≤ (sg * growS n Br th k K - 1) * eps := mul_nonneg hrho0 h.eps0
    have e : (1 + (sg * growS n Br th k K - 1)) * (1 + eps) = sg * growS n Br th k K + eps + (sg * growS n Br th k K - 1) * eps := by ring
    have := h.eps0
    linarith
  have hY : be + om ≤ (1 + tau) * growS n Br th k K - 1 := by
    have t1 : om ≤ om * growS n Br th k K := le_mul_of_one_le_right h.om0 hgB1
    have t2 : 0 ≤ ((n : ℝ) + 1) * R.eta * growS n Br th k K := mul_nonneg h.eta0 (by linarith)
    have e : (1 + tau) * growS n Br th k K = sg * growS n Br th k K * (1 + eps) + om * growS n Br th k K + ((n : ℝ) + 1) * R.eta * growS n Br th k K := by
      rw [h.htau]; ring
    rw [e, hbe]
    linarith
  have hbe1 : be ≤ 1 := by
    have h2 := h.one_level hm h1' (a := k) (b := K) (by omega) (by omega)
    linarith [h.om0]
  have hK1 : Bv (K - 1) = locv Bv K := by
    rw [← locv_succ Bv (K - 1)]; congr 1; omega
  have hpk := hpm (3 * (K - 1)) k K hkK.le hKn
  refine (blockStepFast_sat (E := NoFault) c env (intensity := ofInt n) (Bv := Bv) hs
    (fun i hi => hB i (by omega)) hkK (by omega) (by omega) (fun m h1 h2 => hfs m h1 (by omega)) ?_ ?_ ?_
    (NewPS R n k K Br tau th V (1 + 2 * ((1 + tau) * growS n Br th k K)) be) ?_ ?_).mono ?_
  · rw [hK1]; exact hpk.ok
  · intro i h1 h2
    rw [← locv_succ Bv i]; exact (hpm 0 i (i + 1) (by omega) (by omega)).ok
  · intro i h1 h2
    rw [← locv_succ Bv i, hK1]; exact (hpm 0 (i + 1) K (by omega) (by omega)).ok
  · -- the first convolution
    set r : ℕ → ℝ := fun m => if k ≤ m then R.val (f m) else 0 with hr
    have hr0 : ∀ l < k, r l = 0 := fun l hl => by rw [hr]; simp only; rw [if_neg (by omega)]
    have hrf : ∀ m, k ≤ m → r m = R.val (f m) := fun m hm => by rw [hr]; simp only; rw [if_pos hm]
    have hrd : l1 (n + 1) (fun m => r m - qlaw n Br k m) ≤ V - 1 := by
      refine le_trans (le_of_eq ?_) hfe
      unfold errOn l1
      symm
      rw [Finset.range_eq_Ico]
      refine Finset.sum_subset_zero_on_sdiff (Finset.Ico_subset_Ico_left (Nat.zero_le _)) ?_ ?_
      · intro m hm
        rw [Finset.mem_sdiff, Finset.mem_Ico, Finset.mem_Ico] at hm
        beta_reduce
        rw [hr0 m (by omega), qlaw_supp n Br k m (by omega), sub_zero, abs_zero]
      · intro m hm
        beta_reduce
        rw [hrf m (Finset.mem_Ico.mp hm).1]
    have hrV : l1 (n + 1) r ≤ V := by
      have h3 := l1_add (n + 1) (fun m => r m - qlaw n Br k m) (qlaw n Br k)
      simp only [sub_add_cancel] at h3
      linarith [l1_qlaw n hm k (n + 1)]
    have hez : ∀ b, errOn R k b f r = 0 := by
      intro b
      unfold errOn
      refine Finset.sum_eq_zero fun m hm => ?_
      rw [hrf m (Finset.mem_Ico.mp hm).1, sub_self, abs_zero]
    have hks : k + (n + 1 - k) = n + 1 := by omega
    have hV2 : V ≤ 2 := by rw [hV]; exact h.level_le hm h1' (by omega) (Nat.zero_le _)
    obtain ⟨hcf, hce⟩ := conv_localF h.eps0 hrho0 (h.conv (3 * (K - 1))) hpk (i := k) (s := n + 1 - k) (by omega) (f := f) (r := r)
      (by rw [hks]; intro m h1 h2; exact hff m h1 (by omega)) hr0 (by have := h.one_level hm h1' (a := k) (b := K) (by omega) (by omega); have := mul_le_mul_of_nonneg_right (show sg ≤ 1 + tau by rw [h.htau]; linarith [h.sgeps.1, h.eta0, h.om0]) (by linarith : 0 ≤ growS n Br th k K); linarith)
      (by rw [hks, hez]; linarith)
    rw [hks] at hcf hce
    rw [hez, zero_add, add_zero, hbeeq] at hce
    have hsz : ((n : Int) + 1 - k).toNat = n + 1 - k := by omega
    rw [hsz, hK1]
    refine ⟨r, hr0, hrV, hrd, fun m h1 h2 => hff m h1 (by omega), fun m h1 h2 => hcf m (by omega) (by omega), ?_⟩
    rw [hez, mul_zero, add_zero]
    rw [Nat.sub_self, pow_zero, growS_self, mul_one, mul_one]
    have h4 : errOn R K (n + 1) (fun m => fastConvVal c.toFastCode env.fft (3 * (K - 1)) (n + 1 - k) (fastPmfVal c.toFastCode (3 * (K - 1)) (ofInt n *ᶠ (locv Bv K -ᶠ locv Bv k)))
          (fun j => f (k + j)) (m - k)) (pconv ((n : ℝ) * (rloc Br K - rloc Br k)) r)
        ≤ be * V + om := by
      refine le_trans ?_ (hce.trans (add_le_add_left (mul_le_mul_of_nonneg_left hrV hbe0) _))
      exact Finset.sum_le_sum_of_subset_of_nonneg (Finset.Ico_subset_Ico_left hkK.le) fun _ _ _ => abs_nonneg _
    have h5 : om ≤ om * V := le_mul_of_one_le_right h.om0 hV1
    have h6 : be * l1 (n + 1) r ≤ be * V := mul_le_mul_of_nonneg_left hrV hbe0
    have h7 := mul_le_mul_of_nonneg_right hY (by linarith : 0 ≤ V)
    have h8 : 0 ≤ om * V := mul_nonneg h.om0 (by linarith)
    have e8 : (1 + 2 * ((1 + tau) * growS n Br th k K)) * V = 3 * V + 2 * (((1 + tau) * growS n Br th k K - 1) * V) := by ring
    have e9 : (be + om) * V = be * V + om * V := by ring
    rw [e8]
    linarith
  · intro i f g h1 h2 hP
    have e : Bv i = locv Bv (i + 1) := (locv_succ Bv i).symm
    rw [hK1, e]
    exact new_miniS h hm h1' hV hbe hKn hpm h1 h2 hP
  · rintro s' ⟨hinv, f', g, ⟨r, hr0, hrV, hrq, -, hgf, hacc⟩, hsrc⟩
    refine ⟨hinv, g, ⟨hgf, ?_⟩, fun m h1 h2 => hsrc m h1 (by omega)⟩
    have eK : K - 1 + 1 = K := by omega
    set mu : ℝ := n * (rloc Br K - rloc Br (K - 1)) with hmu
    have hmu0 : 0 ≤ mu := (hpm 0 (K - 1) K (by omega) hKn).nonneg
    have hq : ∀ m, K ≤ m → pconv mu r m - qlaw n Br K m = pconv mu (fun m => r m - qlaw n Br (K - 1) m) m := by
      intro m hm
      have h8 := qlaw_succ n Br (K - 1) m
      rw [eK, if_pos hm] at h8
      rw [h8, pconv_sub]
    have h9 : ∑ m ∈ Ico K (n + 1), |pconv mu r m - qlaw n Br K m| ≤ V - 1 := by
      rw [Finset.sum_congr rfl fun m hm => by rw [hq m (Finset.mem_Ico.mp hm).1]]
      exact (sum_Ico_le_l1 K (n + 1) _).trans ((l1_pconv hmu0 _ _).trans hrq)
    have h10 : errOn R K (n + 1) g (qlaw n Br K) ≤ errOn R K (n + 1) g (pconv mu r)
        + ∑ m ∈ Ico K (n + 1), |pconv mu r m - qlaw n Br K m| := by
      unfold errOn
      rw [← Finset.sum_add_distrib]
      exact Finset.sum_le_sum fun m _ => abs_sub_le _ _ _
    have h11 := hlev.1
    have h12 : 0 ≤ be * l1 (n + 1) r := mul_nonneg hbe0 (l1_nonneg _ _)
    have h13 : 0 ≤ errOn R (K - 1) K f' r := errOn_nonneg _ _ _ _
    linarith

/-- The non-crossing vector's entry `n`. -/
theorem newN2Fast_sharpAbs (h : NewErrS R c env n Nmax u sg th eps om tau) (hn : 0 < n) {jump : ℕ} (hj : 0 < jump) {B : List F}
    (hlen : B.length = n) {Bv : ℕ → F} {Br : ℕ → ℝ} (hm : Monotone (rloc Br)) (h1' : ∀ k, rloc Br k ≤ 1)
    (hpm : ∀ site a b, a ≤ b → b ≤ n → PmfOkF R env n (sg * growS n Br th a b - 1) (ofInt n *ᶠ (locv Bv b -ᶠ locv Bv a)) (n * (rloc Br b - rloc Br a))
      (fastPmfVal c.toFastCode site (ofInt n *ᶠ (locv Bv b -ᶠ locv Bv a))))
    (hlast : PmfOkF R env n (sg * Real.exp (n * (1 - rloc Br n) * th) - 1) (ofInt n *ᶠ (one -ᶠ locv Bv n)) (n * (1 - rloc Br n))
      (fastPmfVal c.toFastCode (3 * n) (ofInt n *ᶠ (one -ᶠ locv Bv n))))
    (hB : ∀ i : ℕ, i < n → Has B i (Bv i)) (ha : env.asserts = false ∨ jump ≤ n) :
    Sat NoFault (fun probs => ∃ w, Has probs n w ∧ R.finite w ∧
        |R.val w - pconv ((n : ℝ) * (1 - rloc Br n)) (qlaw n Br n) n| ≤ (1 + tau) ^ (5 * n + 1) * Real.exp (5 * (n * th)) - 1)
      (poissonBNoncrossingProbabilityN2Fast c env n (ofInt n) B jump) := by
  have htau0 := h.tau0
  refine (newN2Fast_sat (E := NoFault) c env hn (Bv := Bv) hlen hj ?_ (NewRS R n Br tau th) ?_ ?_ hlast.ok).mono ?_
  · rcases ha with ha | ha
    · exact Or.inl ha
    · exact Or.inr (Or.inl ha)
  · refine ⟨fun m _ _ => ?_, ?_⟩
    · beta_reduce
      split
      · exact R.one_finite
      · exact R.zero_finite
    · have : errOn R 0 (n + 1) (fun m => if m = 0 then (one : F) else zero) (qlaw n Br 0) = 0 := by
        unfold errOn
        refine Finset.sum_eq_zero fun m _ => ?_
        rw [qlaw_zero]
        beta_reduce
        split
        · rw [R.val_one, sub_self, abs_zero]
        · rw [R.val_zero, sub_self, abs_zero]
      rw [this]; unfold levS; rw [growS_self]; simp
  · intro k K f s hs hR hfs hk hK hKj
    exact blockStepFast_sharpAbs h hm h1' hpm hB hs hR hfs hk hK hKj
  · rintro probs ⟨f, ⟨hff, hfe⟩, hp⟩
    obtain ⟨V, hV⟩ : ∃ V, V = levS n Br tau th n := ⟨_, rfl⟩
    have hth0 := h.th0
    have hV1 : 1 ≤ V := by
      rw [hV]; unfold levS
      have h2 := one_le_growS (n := n) hm hth0 (Nat.zero_le n)
      have h3 : 1 ≤ (1 + tau) ^ n := one_le_pow₀ (by linarith)
      exact one_le_pow₀ (by nlinarith)
    have hV2 : V ≤ 2 := by rw [hV]; exact h.level_le hm h1' le_rfl (Nat.zero_le _)
    obtain ⟨ge, hge⟩ : ∃ ge, ge = Real.exp (n * (1 - rloc Br n) * th) := ⟨_, rfl⟩
    have hr1 := h1' n
    have hge1 : 1 ≤ ge := by
      rw [hge]
      exact Real.one_le_exp (mul_nonneg (mul_nonneg (Nat.cast_nonneg _) (by linarith)) hth0)
    rw [← hge] at hlast
    have hsg1 := h.sg1
    have hrho0 : 0 ≤ sg * ge - 1 := by nlinarith
    have hVge : V * ge ^ 5 = (1 + tau) ^ (5 * n) * Real.exp (5 * (n * th)) := by
      have hr0 : rloc Br 0 = 0 := by simp [rloc]
      rw [hV, hge]
      unfold levS growS
      rw [← mul_pow, mul_assoc, ← Real.exp_add, mul_pow, ← pow_mul, ← Real.exp_nat_mul, hr0]
      congr 2
      · ring
      · push_cast; ring
    have hbig : V * ((1 + tau) * ge) ≤ (1 + tau) ^ (5 * n + 1) * Real.exp (5 * (n * th)) := by
      have e : (1 + tau) ^ (5 * n + 1) * Real.exp (5 * (n * th)) = V * ge ^ 5 * (1 + tau) := by rw [hVge, pow_succ]; ring
      rw [e]
      have h4 : ge ≤ ge ^ 5 := le_self_pow₀ hge1 (by norm_num)
      have h5 := mul_le_mul_of_nonneg_left h4 (by positivity : 0 ≤ V * (1 + tau))
      linarith
    have hmu0 : 0 ≤ (1 + (sg * ge - 1)) * (1 + eps) - 1 := by
      have : 0 ≤ (sg * ge - 1) * eps := mul_nonneg hrho0 h.eps0
      have e : (1 + (sg * ge - 1)) * (1 + eps) = sg * ge + eps + (sg * ge - 1) * eps := by ring
      have := h.eps0
      linarith
    have hsge2 : sg * ge ≤ (1 + tau) * ge := mul_le_mul_of_nonneg_right (by rw [h.htau]; linarith [h.sgeps.1, h.eta0, h.om0]) (by linarith)
    have hone : (1 + tau) * ge ≤ 2 := by
      have : (1 + tau) * ge ≤ V * ((1 + tau) * ge) := le_mul_of_one_le_left (by positivity) hV1
      linarith [h.small]
    rw [← hV] at hfe
    have hq1 := l1_qlaw n hm n (n + 1)
    obtain ⟨hcf, hce⟩ := conv_localF h.eps0 hrho0 (h.conv (3 * n)) hlast (i := n) (s := 1) (by omega) (f := f) (r := qlaw n Br n)
      (fun m h1 h2 => hff m h1 (by omega)) (fun l hl => qlaw_supp n Br n l hl) (by linarith)
      (by linarith)
    refine ⟨_, hp, ?_, ?_⟩
    · have := hcf n le_rfl (by omega)
      rwa [Nat.sub_self] at this
    · have h3 := abs_le_errOn (R := R) (fun m => fastConvVal c.toFastCode env.fft (3 * n) 1 (fastPmfVal c.toFastCode (3 * n) (ofInt n *ᶠ (one -ᶠ locv Bv n)))
        (fun j => f (n + j)) (m - n)) (pconv ((n : ℝ) * (1 - rloc Br n)) (qlaw n Br n)) (le_refl n) (by omega : n < n + 1)
      beta_reduce at h3
      rw [Nat.sub_self] at h3
      refine h3.trans (hce.trans ?_)
      have h4 : l1 (n + 1) (qlaw n Br n) + errOn R n (n + 1) f (qlaw n Br n) ≤ V := by linarith
      have h5 := mul_le_mul_of_nonneg_left h4 hmu0
      have h6 : om ≤ om * V := le_mul_of_one_le_right h.om0 hV1
      have h7 : (1 + (sg * ge - 1)) * (1 + eps) + om ≤ (1 + tau) * ge := by
        have t1 : om ≤ om * ge := le_mul_of_one_le_right h.om0 hge1
        have t2 : 0 ≤ ((n : ℝ) + 1) * R.eta * ge := mul_nonneg h.eta0 (by linarith)
        have e : (1 + tau) * ge = (1 + (sg * ge - 1)) * (1 + eps) + om * ge + ((n : ℝ) + 1) * R.eta * ge := by rw [h.htau]; ring
        rw [e]; linarith
      have h8 := mul_le_mul_of_nonneg_left h7 (by linarith : 0 ≤ V)
      have e9 : V * ((1 + (sg * ge - 1)) * (1 + eps) + om) = V + ((1 + (sg * ge - 1)) * (1 + eps) - 1) * V + om * V := by ring
      linarith

end block

/-- `ecdf1_new_B`: absolute error. -/
theorem ecdf1NewBFast_sharpAbs {c : FastCodeNew F} (env : Env F) {n P0 P : ℕ} (hPP : P = 8 * n + n * P0 + 1) (hn : 1 ≤ n) {etaP : ℝ} (hpmf : SharpPmf R c.toFastCode S n P0 etaP) {u : ℝ} {Nmax : ℕ}
    {sg th eps om tau : ℝ} (hth : th = 8 * Real.log R.g + (R.g ^ P0 - 1)) (hsg : sg = R.g ^ 2 + (n + 1) * etaP * R.g ^ (8 * n + n * P0 + 1))
    (h : NewErrS R c env n Nmax u sg th eps om tau)
    {B : Fin n → F} (hz : zero ∈ S) (ho : one ∈ S) (hBS : ∀ i, B i ∈ S) (hBf : ∀ i, R.finite (B i))
    (hB : ValidBound fun i => R.val (B i)) (isqrt : ℕ → ℕ) (ha : env.asserts = false ∨ isqrt n + 1 ≤ n)
    {A : ℝ} (hA : A = (1 + u) * (((1 + tau) ^ (5 * n + 1) * Real.exp (5 * (n * th)) - 1) * (R.g ^ (P + 1) / pois n n + R.eta) + (R.g ^ (P + 1) - 1) + R.eta) + u + R.eta)
    (hO : 1 + A ≤ R.Omega) (hO2 : R.g ^ P / pois n n ≤ R.Omega) :
    ∃ x, ecdf1NewBFast c env isqrt (List.ofFn B) = .ok x ∧ R.finite x ∧ |R.val x - upperProb fun i => R.val (B i)| ≤ A := by
  have hpr0 : 0 ≤ upperProb fun i => R.val (B i) := MeasureTheory.measureReal_nonneg
  have hpr1 : (upperProb fun i => R.val (B i)) ≤ 1 := by
    have : MeasureTheory.IsProbabilityMeasure ((MeasureTheory.volume : MeasureTheory.Measure ℝ).restrict (Set.Icc 0 1)) :=
      ⟨by simp⟩
    have : MeasureTheory.IsProbabilityMeasure (iidUniform n) := by
      unfold iidUniform
      infer_instance
    exact MeasureTheory.measureReal_le_one
  have hpi : 0 < pois n n := pois_pos (by exact_mod_cast hn) n
  set Br := extB fun i => R.val (B i) with hBr
  have hmono := extB_mono hB
  have hrange := extB_range hB
  have hrm : Monotone (rloc Br) := rloc_mono hmono (hrange 0).1
  have hr0 : rloc Br 0 = 0 := by simp [rloc]
  have hrr : ∀ k, 0 ≤ rloc Br k ∧ rloc Br k ≤ 1 := by
    intro k
    refine ⟨by rw [← hr0]; exact hrm (Nat.zero_le _), ?_⟩
    unfold rloc; split
    · exact zero_le_one
    · exact (hrange _).2
  have hlf : ∀ k, R.finite (locv (extF B) k) ∧ locv (extF B) k ∈ S := by
    intro k
    unfold locv extF
    split
    · exact ⟨R.zero_finite, hz⟩
    · split
      · exact ⟨hBf _, hBS _⟩
      · exact ⟨R.one_finite, ho⟩
  have hpm : ∀ site a b, a ≤ b → b ≤ n →
      PmfOkF R env n (sg * growS n Br th a b - 1) (ofInt n *ᶠ (locv (extF B) b -ᶠ locv (extF B) a)) (n * (rloc Br b - rloc Br a))
        (fastPmfVal c.toFastCode site (ofInt n *ᶠ (locv (extF B) b -ᶠ locv (extF B) a))) := by
    intro site a b hab _
    have := pmfOkS env hpmf site hth hsg (hlf a).2 (hlf b).2 (hlf a).1 (hlf b).1 (by rw [locv_val]; exact (hrr a).1)
      (by rw [locv_val, locv_val]; exact hrm hab) (by rw [locv_val]; exact (hrr b).2)
    rw [locv_val, locv_val] at this
    exact this
  have hlast : PmfOkF R env n (sg * Real.exp (n * (1 - rloc Br n) * th) - 1) (ofInt n *ᶠ (one -ᶠ locv (extF B) n)) (n * (1 - rloc Br n))
      (fastPmfVal c.toFastCode (3 * n) (ofInt n *ᶠ (one -ᶠ locv (extF B) n))) := by
    have := pmfOkS env hpmf (3 * n) hth hsg (hlf n).2 ho (hlf n).1 R.one_finite (by rw [locv_val]; exact (hrr n).1)
      (by rw [locv_val, R.val_one]; exact (hrr n).2) (by rw [R.val_one])
    rw [locv_val, R.val_one] at this
    exact this
  have key : Sat NoFault (fun x => R.finite x ∧ |R.val x - upperProb fun i => R.val (B i)| ≤ A)
      (ecdf1NewBFast c env isqrt (List.ofFn B)) := by
    unfold ecdf1NewBFast
    dsimp only
    rw [check_valid_float hBf hB "B" _ (by simp), M_ok_bind]
    simp only [List.length_ofFn]
    have e : ((isqrt n : ℕ) : Int) + 1 = ((isqrt n + 1 : ℕ) : Int) := by omega
    rw [e]
    refine Sat.bind (newN2Fast_sharpAbs h hn (by omega) (by simp) (Bv := extF B) (Br := Br) hrm (fun k => (hrr k).2) hpm hlast ?_ ha) ?_
    · intro i hi
      unfold Has extF
      rw [dif_pos hi]
      simp [hi]
    · rintro probs ⟨w, hw, hwf, hwe⟩
      rw [rd_eq hw, M_ok_bind]
      have hq := qlaw_prob hB
      rw [div_eq_iff hpi.ne'] at hq
      rw [hq, mul_comm] at hwe
      exact sharp_quot_abs hPP hpmf env _ h.so hn hwf hpr0 hpr1 hwe hA hO hO2
  exact key.exists_ok

end
end CP.Spec
