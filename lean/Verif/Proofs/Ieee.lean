import Verif.Ieee
import Verif.FftAccSpec
import Verif.Proofs.RoundingLibm
import Mathlib.Algebra.Order.Round
import Mathlib.Tactic.Linarith
import Mathlib.Tactic.NormNum
import Mathlib.Tactic.FieldSimp
import Mathlib.Tactic.Positivity
/-! IEEE-754 arithmetic satisfies `FloatModel`, `MathLibrary`, `SignedOps`, `MonotoneReflect`. -/
namespace CP.Spec
open FOps
noncomputable section

variable {f : Format} {r : ℝ → ℝ}

/-- A format with at least three bits in which 1 is a normal number. -/
structure Format.OK (f : Format) : Prop where
  hp : 3 ≤ f.p
  hmin : f.emin + f.p ≤ 1
  hmax : 2 ≤ f.emax

theorem binary64_ok : binary64.OK := ⟨by norm_num [binary64], by norm_num [binary64], by norm_num [binary64]⟩

theorem Format.OK.emin_le (h : f.OK) : f.emin ≤ 0 := by have := h.hp; have := h.hmin; omega

theorem rep_of_le (hf : f.OK) {m e : ℤ} (hm : |m| ≤ 2 ^ f.p) (he : f.emin ≤ e) : f.Rep (m * (2 : ℝ) ^ e) := by
  have hp := hf.hp
  rcases hm.lt_or_eq with h | h
  · exact ⟨m, e, h, he, rfl⟩
  · obtain ⟨q, hq⟩ : ∃ q, f.p = q + 1 := ⟨f.p - 1, by omega⟩
    have h2 : (2 : ℝ) ^ (e + 1) = 2 ^ e * 2 := zpow_add_one₀ (by norm_num) e
    rcases abs_eq (by positivity) |>.mp h with h' | h'
    · refine ⟨2 ^ q, e + 1, ?_, by omega, ?_⟩
      · rw [abs_of_pos (by positivity), hq]; exact pow_lt_pow_right₀ (by norm_num) (by omega)
      · rw [h', h2, hq]; push_cast; ring
    · refine ⟨-2 ^ q, e + 1, ?_, by omega, ?_⟩
      · rw [abs_neg, abs_of_pos (by positivity), hq]; exact pow_lt_pow_right₀ (by norm_num) (by omega)
      · rw [h', h2, hq]; push_cast; ring

theorem rep_int (hf : f.OK) {k : ℤ} (h : |k| ≤ 2 ^ f.p) : f.Rep (k : ℝ) := by
  have := rep_of_le hf h hf.emin_le
  simpa using this

theorem rep_zero (hf : f.OK) : f.Rep 0 := by
  have := rep_int hf (k := 0) (by simp)
  simpa using this

theorem rep_one (hf : f.OK) : f.Rep 1 := by
  have := rep_int hf (k := 1) (by rw [abs_one]; exact one_le_pow₀ (by norm_num))
  simpa using this

theorem rep_pow (hf : f.OK) {e : ℤ} (he : f.emin ≤ e) : f.Rep ((2 : ℝ) ^ e) := by
  have := rep_of_le hf (m := 1) (by rw [abs_one]; exact one_le_pow₀ (by norm_num)) he
  simpa using this

/-- A number of the format is an integer multiple of the smallest positive number. -/
theorem rep_mult {x : ℝ} (h : f.Rep x) : ∃ k : ℤ, x = k * (2 : ℝ) ^ f.emin := by
  obtain ⟨m, e, -, he, rfl⟩ := h
  obtain ⟨d, hd⟩ := Int.eq_ofNat_of_zero_le (show 0 ≤ e - f.emin by omega)
  refine ⟨m * 2 ^ d, ?_⟩
  rw [show e = d + f.emin by omega, zpow_add₀ (by norm_num)]
  push_cast
  rw [zpow_natCast]; ring

theorem nearest_rep (hr : Nearest f r) {x : ℝ} (h : f.Rep x) : r x = x := by
  have := hr.near x x h
  rw [sub_self, abs_zero] at this
  exact sub_eq_zero.mp (abs_eq_zero.mp (le_antisymm this (abs_nonneg _)))

theorem nearest_mono (hr : Nearest f r) {x y : ℝ} (h : x ≤ y) : r x ≤ r y := by
  by_contra hlt
  push Not at hlt
  have h1 := hr.near x (r y) (hr.rep y)
  have h2 := hr.near y (r x) (hr.rep x)
  have h3 : (r x + r y) / 2 ≤ x := by
    by_contra h4
    push Not at h4
    have : |r y - x| < |r x - x| := by
      rw [abs_of_pos (show 0 < r x - x by linarith), abs_lt]; constructor <;> linarith
    linarith
  have h5 : y ≤ (r x + r y) / 2 := by
    by_contra h4
    push Not at h4
    have : |r x - y| < |r y - y| := by
      rw [abs_of_neg (show r y - y < 0 by linarith), abs_lt]; constructor <;> linarith
    linarith
  have : x = y := by linarith
  subst this
  exact lt_irrefl _ hlt

/-- Rounding to nearest is off by at most half a unit in the last place. -/
theorem nearest_ulp (hf : f.OK) (hr : Nearest f r) (x : ℝ) {e : ℤ} (he : f.emin ≤ e) (hx : |x| ≤ (2 : ℝ) ^ (e + f.p)) :
    |r x - x| ≤ (2 : ℝ) ^ (e - 1) := by
  have hs : (0 : ℝ) < 2 ^ e := by positivity
  have hx2 : |x / (2 : ℝ) ^ e| ≤ ((2 ^ f.p : ℤ) : ℝ) := by
    rw [abs_div, abs_of_pos hs, div_le_iff₀ hs]
    push_cast
    rw [← zpow_natCast, ← zpow_add₀ (by norm_num), add_comm]
    exact hx
  have hm : |round (x / (2 : ℝ) ^ e)| ≤ 2 ^ f.p := by
    rw [abs_le] at hx2 ⊢
    have mono : ∀ {a b : ℝ}, a ≤ b → round a ≤ round b := by
      intro a b h
      rw [round_eq, round_eq]; exact Int.floor_mono (by linarith)
    constructor
    · have := mono hx2.1
      rwa [← Int.cast_neg, round_intCast] at this
    · have := mono hx2.2
      rwa [round_intCast] at this
  refine (hr.near x _ (rep_of_le hf hm he)).trans ?_
  have h1 := abs_sub_round (x / (2 : ℝ) ^ e)
  have e1 : (round (x / (2 : ℝ) ^ e) : ℝ) * 2 ^ e - x = - (x / 2 ^ e - round (x / (2 : ℝ) ^ e)) * 2 ^ e := by
    field_simp; ring
  rw [e1, abs_mul, abs_neg, abs_of_pos hs, zpow_sub_one₀ (by norm_num)]
  calc _ ≤ 1 / 2 * (2 : ℝ) ^ e := mul_le_mul_of_nonneg_right h1 hs.le
    _ = _ := by ring

theorem log2_spec {x : ℝ} (hx : 0 < |x|) : (2 : ℝ) ^ (Int.log 2 |x|) ≤ |x| ∧ |x| < (2 : ℝ) ^ (Int.log 2 |x| + 1) := by
  constructor
  · have := Int.zpow_log_le_self (b := 2) (by norm_num) hx
    simpa using this
  · have := Int.lt_zpow_succ_log_self (b := 2) (by norm_num) |x|
    simpa using this

/-- In the normal range the rounding error is relative. -/
theorem nearest_normal (hf : f.OK) (hr : Nearest f r) {x : ℝ} (hx : f.minNormal ≤ |x|) :
    |r x - x| ≤ (2 : ℝ) ^ (-(f.p : ℤ)) * |x| := by
  have hx0 : 0 < |x| := lt_of_lt_of_le (by unfold Format.minNormal; positivity) hx
  obtain ⟨h1, h2⟩ := log2_spec hx0
  have hl : f.emin + f.p - 1 ≤ Int.log 2 |x| := by
    by_contra h
    push Not at h
    have : |x| < (2 : ℝ) ^ (f.emin + f.p - 1) :=
      lt_of_lt_of_le h2 (zpow_le_zpow_right₀ (by norm_num) (by omega))
    exact absurd hx (not_le.mpr this)
  refine (nearest_ulp hf hr x (e := Int.log 2 |x| - f.p + 1) (by omega) (h2.le.trans (le_of_eq (by congr 1; ring)))).trans ?_
  rw [show Int.log 2 |x| - (f.p : ℤ) + 1 - 1 = -(f.p : ℤ) + Int.log 2 |x| by ring, zpow_add₀ (by norm_num)]
  exact mul_le_mul_of_nonneg_left h1 (by positivity)

/-- The rounding error in general. -/
theorem nearest_err (hf : f.OK) (hr : Nearest f r) (x : ℝ) :
    |r x - x| ≤ (2 : ℝ) ^ (-(f.p : ℤ)) * |x| + (2 : ℝ) ^ (f.emin - 1) := by
  by_cases h : f.minNormal ≤ |x|
  · have h0 : (0 : ℝ) < 2 ^ (f.emin - 1) := by positivity
    linarith [nearest_normal hf hr h]
  · push Not at h
    have h1 := nearest_ulp hf hr x le_rfl (h.le.trans (by
      unfold Format.minNormal; exact zpow_le_zpow_right₀ (by norm_num) (by omega)))
    have h0 : (0 : ℝ) ≤ (2 : ℝ) ^ (-(f.p : ℤ)) * |x| := by positivity
    linarith

/-- The rounding error of a multiple of the smallest positive number is relative. -/
theorem nearest_mult (hf : f.OK) (hr : Nearest f r) {k : ℤ} {x : ℝ} (hx : x = k * (2 : ℝ) ^ f.emin) :
    |r x - x| ≤ (2 : ℝ) ^ (-(f.p : ℤ)) * |x| := by
  by_cases h : f.minNormal ≤ |x|
  · exact nearest_normal hf hr h
  · push Not at h
    have hk : |k| ≤ 2 ^ f.p := by
      have h1 : |(k : ℝ)| * (2 : ℝ) ^ f.emin < (2 : ℝ) ^ (f.p : ℤ) * 2 ^ f.emin := by
        rw [← zpow_add₀ (by norm_num)]
        have e : |x| = |(k : ℝ)| * (2 : ℝ) ^ f.emin := by
          rw [hx, abs_mul, abs_of_pos (show (0 : ℝ) < 2 ^ f.emin by positivity)]
        rw [← e]
        refine h.trans_le ?_
        unfold Format.minNormal
        exact zpow_le_zpow_right₀ (by norm_num) (by omega)
      have h2 := lt_of_mul_lt_mul_right h1 (by positivity)
      rw [zpow_natCast, ← Int.cast_abs] at h2
      exact_mod_cast h2.le
    rw [nearest_rep hr (hx ▸ rep_of_le hf hk le_rfl), sub_self, abs_zero]
    positivity

theorem nearest_zero (hf : f.OK) (hr : Nearest f r) : r 0 = 0 := nearest_rep hr (rep_zero hf)

/-- No overflow. -/
theorem nearest_bound (hf : f.OK) (hr : Nearest f r) {x : ℝ} {e : ℤ} (he : f.emin ≤ e) (hx : |x| ≤ (2 : ℝ) ^ e) :
    |r x| ≤ (2 : ℝ) ^ e := by
  rw [abs_le] at hx ⊢
  constructor
  · have := nearest_mono hr hx.1
    rwa [nearest_rep hr (rep_pow hf he).neg] at this
  · have := nearest_mono hr hx.2
    rwa [nearest_rep hr (rep_pow hf he)] at this

/-! ### The model -/

variable {A : FloatSystem}

theorem roundNum_fin (hf : A.f.OK) {x : ℝ} (hx : |x| ≤ (2 : ℝ) ^ (A.f.emax - 1)) :
    ∃ h, roundNum A x = mkNum A (A.r x) h := by
  have h1 := nearest_bound hf A.nearest (by have := hf.emin_le; have := hf.hmax; omega) hx
  have h2 : |A.r x| < (2 : ℝ) ^ A.f.emax := h1.trans_lt (zpow_lt_zpow_right₀ (by norm_num) (by omega))
  refine ⟨⟨A.nearest.rep x, h2⟩, ?_⟩
  exact dif_pos h2

theorem roundNum_finite (hf : A.f.OK) {x : ℝ} (hx : |x| ≤ (2 : ℝ) ^ (A.f.emax - 1)) :
    Num.finite (roundNum A x) ∧ Num.val (roundNum A x) = A.r x := by
  obtain ⟨h, e⟩ := roundNum_fin hf hx
  rw [e]
  exact ⟨⟨_, h, rfl⟩, rfl⟩

theorem one_le_Omega (hf : A.f.OK) : (2 : ℝ) ≤ (2 : ℝ) ^ (A.f.emax - 1) := by
  have := hf.hmax
  calc (2 : ℝ) = 2 ^ (1 : ℤ) := by norm_num
    _ ≤ _ := zpow_le_zpow_right₀ (by norm_num) (by omega)

theorem ofInt_exact (hf : A.f.OK) {k : ℤ} (hk : |k| ≤ 2 ^ A.f.p) (hk2 : (|k| : ℝ) ≤ (2 : ℝ) ^ (A.f.emax - 1)) :
    Num.finite (FOps.ofInt k : Num A) ∧ Num.val (FOps.ofInt k : Num A) = k := by
  have h := roundNum_finite hf (x := (k : ℝ)) hk2
  rw [nearest_rep A.nearest (rep_int hf hk)] at h
  exact h

/-- The factor for the relative error `u`. -/
def gU (u : ℝ) : ℝ := 1 / (1 - u)

theorem gU_u {u : ℝ} : 1 - 1 / gU u = u := by unfold gU; rw [one_div_one_div]; ring

theorem one_le_gU {u : ℝ} (h0 : 0 ≤ u) (h1 : u < 1) : 1 ≤ gU u := by
  unfold gU
  rw [le_div_iff₀ (by linarith)]; linarith

/-- The parameters of a floating-point system with error bound `u` (at least the unit roundoff). -/
structure FloatSystem.OK (A : FloatSystem) (u : ℝ) : Prop where
  fmt : A.f.OK
  u_ge : (2 : ℝ) ^ (-(A.f.p : ℤ)) ≤ u
  u_le : u ≤ 1 / 8

theorem FloatSystem.OK.u_pos {u : ℝ} (h : A.OK u) : 0 < u := lt_of_lt_of_le (by positivity) h.u_ge

theorem round_rel {u : ℝ} (h : A.OK u) {k : ℤ} {x : ℝ} (hx : x = k * (2 : ℝ) ^ A.f.emin) : |A.r x - x| ≤ u * |x| :=
  (nearest_mult h.fmt A.nearest hx).trans (mul_le_mul_of_nonneg_right h.u_ge (abs_nonneg _))

theorem round_abs {u : ℝ} (h : A.OK u) (x : ℝ) : |A.r x - x| ≤ u * |x| + (2 : ℝ) ^ (A.f.emin - 1) :=
  (nearest_err h.fmt A.nearest x).trans (add_le_add_left (mul_le_mul_of_nonneg_right h.u_ge (abs_nonneg _)) _)

theorem round_factor {u : ℝ} (h : A.OK u) {x : ℝ} (hx : 0 ≤ x) :
    0 ≤ A.r x ∧ x / gU u - (2 : ℝ) ^ (A.f.emin - 1) ≤ A.r x ∧ A.r x ≤ x * gU u + (2 : ℝ) ^ (A.f.emin - 1) := by
  have h1 := abs_le.mp (round_abs h x)
  rw [abs_of_nonneg hx] at h1
  have hu := h.u_pos
  have hu8 := h.u_le
  refine ⟨?_, ?_, ?_⟩
  · have := nearest_mono A.nearest hx
    rwa [nearest_zero h.fmt A.nearest] at this
  · have : x / gU u = x - u * x := by unfold gU; rw [div_div_eq_mul_div, div_one]; ring
    linarith [h1.1]
  · have h3 : 1 + u ≤ gU u := by
      unfold gU
      rw [le_div_iff₀ (by linarith)]; nlinarith
    have := mul_le_mul_of_nonneg_left h3 hx
    linarith [h1.2]

theorem add_fin {a b : ℝ} (ha : A.f.Fin a) (hb : A.f.Fin b) :
    (mkNum A a ha +ᶠ mkNum A b hb : Num A) = roundNum A (a + b) := rfl
theorem sub_fin {a b : ℝ} (ha : A.f.Fin a) (hb : A.f.Fin b) :
    (mkNum A a ha -ᶠ mkNum A b hb : Num A) = roundNum A (a - b) := by
  rw [sub_eq_add_neg]; rfl
theorem mul_fin {a b : ℝ} (ha : A.f.Fin a) (hb : A.f.Fin b) :
    (mkNum A a ha *ᶠ mkNum A b hb : Num A) = roundNum A (a * b) := rfl
theorem div_fin {a b : ℝ} (ha : A.f.Fin a) (hb : A.f.Fin b) (h : b ≠ 0) :
    (mkNum A a ha /ᶠ mkNum A b hb : Num A) = roundNum A (a / b) := if_neg h

/-- IEEE-754 arithmetic as a `FloatModel`. -/
def ieeeModel (A : FloatSystem) (u : ℝ) (h : A.OK u) : FloatModel (Num A) where
  finite := Num.finite
  val := Num.val
  g := gU u
  eta := (2 : ℝ) ^ (A.f.emin - 1)
  Omega := (2 : ℝ) ^ (A.f.emax - 1)
  one_le_g := one_le_gU h.u_pos.le (by linarith [h.u_le])
  eta_nonneg := by positivity
  zero_finite := (ofInt_exact h.fmt (k := 0) (by simp) (by simp; positivity)).1
  val_zero := by
    have := (ofInt_exact h.fmt (k := 0) (by simp) (by simp; positivity)).2
    rw [Int.cast_zero] at this; exact this
  one_finite := (ofInt_exact h.fmt (k := 1) (by rw [abs_one]; exact one_le_pow₀ (by norm_num))
    (by rw [Int.cast_one, abs_one]; linarith [one_le_Omega h.fmt])).1
  val_one := by
    have := (ofInt_exact h.fmt (k := 1) (by rw [abs_one]; exact one_le_pow₀ (by norm_num))
      (by rw [Int.cast_one, abs_one]; linarith [one_le_Omega h.fmt])).2
    rw [Int.cast_one] at this; exact this
  lt_iff := by
    rintro x y ⟨a, ha, rfl⟩ ⟨b, hb, rfl⟩
    show decide (a < b) = true ↔ a < b
    simp
  not_lt_negInf := by
    rintro x ⟨a, ha, rfl⟩; rfl
  add := by
    rintro x y ⟨a, ha, rfl⟩ ⟨b, hb, rfl⟩ h1 h2 h3
    change 0 ≤ a at h1
    change 0 ≤ b at h2
    change a + b ≤ _ at h3
    have h0 : 0 ≤ a + b := add_nonneg h1 h2
    obtain ⟨hfin, hval⟩ := roundNum_finite h.fmt (x := a + b) (by rwa [abs_of_nonneg h0])
    rw [← add_fin ha hb] at hfin hval
    obtain ⟨k, hk⟩ := rep_mult ha.1
    obtain ⟨l, hl⟩ := rep_mult hb.1
    have hr := round_rel h (k := k + l) (x := a + b) (by push_cast; rw [hk, hl]; ring)
    have := rel_err_factor (one_le_gU h.u_pos.le (by linarith [h.u_le])) h0 (f := A.r (a + b)) (by rw [gU_u]; exact hr)
    refine ⟨hfin, ?_⟩
    rw [hval]
    exact this
  mul := by
    rintro x y ⟨a, ha, rfl⟩ ⟨b, hb, rfl⟩ h1 h2 h3
    change 0 ≤ a at h1
    change 0 ≤ b at h2
    change a * b ≤ _ at h3
    have h0 : 0 ≤ a * b := mul_nonneg h1 h2
    obtain ⟨hfin, hval⟩ := roundNum_finite h.fmt (x := a * b) (by rwa [abs_of_nonneg h0])
    rw [← mul_fin ha hb] at hfin hval
    refine ⟨hfin, ?_⟩
    rw [hval]
    exact round_factor h h0
  div := by
    rintro x y ⟨a, ha, rfl⟩ ⟨b, hb, rfl⟩ h1 h2 h3
    change 0 ≤ a at h1
    change 0 < b at h2
    change a / b ≤ _ at h3
    have h0 : 0 ≤ a / b := div_nonneg h1 h2.le
    obtain ⟨hfin, hval⟩ := roundNum_finite h.fmt (x := a / b) (by rwa [abs_of_nonneg h0])
    rw [← div_fin ha hb h2.ne'] at hfin hval
    refine ⟨hfin, ?_⟩
    rw [hval]
    exact round_factor h h0

theorem roundNum_zero (hf : A.f.OK) : (roundNum A 0).finite ∧ (roundNum A 0).val = 0 := by
  have h := ofInt_exact (A := A) hf (k := 0) (by simp) (by simp; positivity)
  rw [Int.cast_zero] at h
  have e := roundNum_finite (A := A) hf (x := 0) (by rw [abs_zero]; positivity)
  refine ⟨e.1, ?_⟩
  rw [e.2, nearest_rep A.nearest]
  have := rep_int (f := A.f) hf (k := 0) (by simp)
  simpa using this

/-- Products with 0 and quotients of 0 are exact in IEEE-754 arithmetic. -/
theorem ieee_zeroExact (A : FloatSystem) (u : ℝ) (h : A.OK u) : (ieeeModel A u h).ZeroExact where
  mul := by
    rintro x y ⟨a, ha, rfl⟩ ⟨b, hb, rfl⟩ h0
    change a = 0 ∨ b = 0 at h0
    show Num.val (_ *ᶠ _) = 0
    rw [mul_fin ha hb, mul_eq_zero.mpr h0]
    exact (roundNum_zero h.fmt).2
  div := by
    rintro x y ⟨a, ha, rfl⟩ ⟨b, hb, rfl⟩ h0 h1
    change a = 0 at h0
    change b ≠ 0 at h1
    show Num.val (_ /ᶠ _) = 0
    rw [div_fin ha hb h1, h0, zero_div]
    exact (roundNum_zero h.fmt).2

/-! ### Signed operations and the library -/

variable {u : ℝ}

theorem roundNum_rel (h : A.OK u) {x : ℝ} {k : ℤ} (hk : x = k * (2 : ℝ) ^ A.f.emin) (hx : |x| ≤ (2 : ℝ) ^ (A.f.emax - 1)) :
    Num.finite (roundNum A x) ∧ |Num.val (roundNum A x) - x| ≤ u * |x| := by
  obtain ⟨h1, h2⟩ := roundNum_finite h.fmt hx
  exact ⟨h1, by rw [h2]; exact round_rel h hk⟩

theorem roundNum_abs (h : A.OK u) {x : ℝ} (hx : |x| ≤ (2 : ℝ) ^ (A.f.emax - 1)) :
    Num.finite (roundNum A x) ∧ |Num.val (roundNum A x) - x| ≤ u * |x| + (2 : ℝ) ^ (A.f.emin - 1) := by
  obtain ⟨h1, h2⟩ := roundNum_finite h.fmt hx
  exact ⟨h1, by rw [h2]; exact round_abs h x⟩

theorem ieee_add (h : A.OK u) : ∀ x y : Num A, x.finite → y.finite → |x.val + y.val| ≤ (2 : ℝ) ^ (A.f.emax - 1) →
    (x +ᶠ y).finite ∧ |(x +ᶠ y).val - (x.val + y.val)| ≤ u * |x.val + y.val| := by
  rintro x y ⟨a, ha, rfl⟩ ⟨b, hb, rfl⟩ h3
  rw [add_fin ha hb]
  obtain ⟨k, hk⟩ := rep_mult ha.1
  obtain ⟨l, hl⟩ := rep_mult hb.1
  exact roundNum_rel h (k := k + l) (by push_cast; rw [add_mul, ← hk, ← hl]) h3

theorem ieee_sub (h : A.OK u) : ∀ x y : Num A, x.finite → y.finite → |x.val - y.val| ≤ (2 : ℝ) ^ (A.f.emax - 1) →
    (x -ᶠ y).finite ∧ |(x -ᶠ y).val - (x.val - y.val)| ≤ u * |x.val - y.val| := by
  rintro x y ⟨a, ha, rfl⟩ ⟨b, hb, rfl⟩ h3
  rw [sub_fin ha hb]
  obtain ⟨k, hk⟩ := rep_mult ha.1
  obtain ⟨l, hl⟩ := rep_mult hb.1
  exact roundNum_rel h (k := k - l) (by push_cast; rw [sub_mul, ← hk, ← hl]) h3

/-- Signed operations. -/
theorem ieeeSigned (h : A.OK u) {Nmax : ℕ} (hN : Nmax * A.f.minNormal ≤ 1) (hNp : Nmax ≤ 2 ^ A.f.p)
    (hNmax : (Nmax : ℝ) ≤ (2 : ℝ) ^ (A.f.emax - 1)) : SignedOps (ieeeModel A u h) u Nmax where
  u_nonneg := h.u_pos.le
  u_le := h.u_le
  add := ieee_add h
  sub := ieee_sub h
  mul := by
    rintro x y ⟨a, ha, rfl⟩ ⟨b, hb, rfl⟩ h3
    rw [mul_fin ha hb]
    exact roundNum_abs h h3
  div := by
    rintro x y ⟨a, ha, rfl⟩ ⟨b, hb, rfl⟩ h2 h3
    rw [div_fin ha hb h2]
    exact roundNum_abs h h3
  inv := by
    intro N h1 h2
    have hN0 : (0 : ℝ) < N := by exact_mod_cast h1
    have hN1 : (1 : ℝ) ≤ N := by exact_mod_cast h1
    have hNr : (N : ℝ) ≤ Nmax := by exact_mod_cast h2
    obtain ⟨⟨a, ha, ea⟩, va⟩ := ofInt_exact h.fmt (A := A) (k := 1) (by rw [abs_one]; exact one_le_pow₀ (by norm_num))
      (by rw [Int.cast_one, abs_one]; linarith [one_le_Omega h.fmt])
    obtain ⟨⟨b, hb, eb⟩, vb⟩ := ofInt_exact h.fmt (A := A) (k := (N : ℤ))
      (by rw [abs_of_nonneg (by positivity)]; exact_mod_cast h2.trans hNp)
      (by rw [Int.cast_natCast, abs_of_pos hN0]; linarith)
    rw [ea] at va
    rw [eb] at vb
    have va' : a = 1 := (show a = ((1 : ℤ) : ℝ) from va).trans Int.cast_one
    have vb' : b = N := (show b = ((N : ℤ) : ℝ) from vb).trans (Int.cast_natCast N)
    subst va' vb'
    have e : (one /ᶠ FOps.ofInt (N : ℤ) : Num A) = roundNum A (1 / N) := by
      rw [← div_fin ha hb hN0.ne', ← ea, ← eb]; rfl
    rw [e]
    have hab : |(1 : ℝ) / N| = 1 / N := abs_of_nonneg (by positivity)
    obtain ⟨h3, h4⟩ := roundNum_finite h.fmt (A := A) (x := 1 / (N : ℝ)) (by
      rw [hab]
      have h6 : 1 / (N : ℝ) ≤ 1 := by rw [div_le_one hN0]; exact hN1
      linarith [one_le_Omega h.fmt])
    refine ⟨h3, ?_⟩
    show |Num.val _ - _| ≤ _
    rw [h4]
    have h5 := nearest_normal h.fmt A.nearest (x := 1 / (N : ℝ)) (by
      rw [hab, le_div_iff₀ hN0]
      have h0 : 0 < A.f.minNormal := by unfold Format.minNormal; positivity
      calc _ ≤ A.f.minNormal * Nmax := mul_le_mul_of_nonneg_left hNr h0.le
        _ ≤ 1 := by rw [mul_comm]; exact hN)
    rw [hab] at h5
    exact h5.trans (mul_le_mul_of_nonneg_right h.u_ge (by positivity))

/-- The library. -/
theorem ieeeLibrary (h : A.OK u) {n : ℕ} (hL : LibmAccurate A u n) (hn : n + 1 ≤ 2 ^ A.f.p)
    (hn2 : ((n : ℝ) + 1) ≤ (2 : ℝ) ^ (A.f.emax - 1)) :
    MathLibrary (ieeeModel A u h) n ((2 : ℝ) ^ A.f.emin) A.f.minNormal where
  etaE_nonneg := by positivity
  ofInt k hk := by
    have hkr : (k : ℝ) ≤ n + 1 := by exact_mod_cast hk
    have := ofInt_exact h.fmt (A := A) (k := (k : ℤ))
      (by rw [abs_of_nonneg (by positivity)]; exact_mod_cast hk.trans hn)
      (by rw [Int.cast_natCast, abs_of_nonneg (Nat.cast_nonneg k)]; linarith)
    rwa [Int.cast_natCast] at this
  eq_iff := by
    rintro x y ⟨a, ha, rfl⟩ ⟨b, hb, rfl⟩
    show decide (a = b) = true ↔ a = b
    simp
  neg := by
    rintro x ⟨a, ha, rfl⟩
    exact ⟨⟨-a, ⟨ha.1.neg, by rw [abs_neg]; exact ha.2⟩, rfl⟩, rfl⟩
  add x y hx hy h3 := by
    have := ieee_add h x y hx hy h3
    rw [← gU_u (u := u)] at this; exact this
  sub x y hx hy h3 := by
    have := ieee_sub h x y hx hy h3
    rw [← gU_u (u := u)] at this; exact this
  scale := by
    rintro k x hk ⟨a, ha, rfl⟩ h3
    have hkr : (k : ℝ) ≤ n := by exact_mod_cast hk
    obtain ⟨⟨b, hb, eb⟩, vb⟩ := ofInt_exact h.fmt (A := A) (k := (k : ℤ))
      (by rw [abs_of_nonneg (by positivity)]; exact_mod_cast (by omega : k ≤ n + 1).trans hn)
      (by rw [Int.cast_natCast, abs_of_nonneg (Nat.cast_nonneg k)]; linarith)
    rw [eb] at vb
    have vb' : b = k := (show b = ((k : ℤ) : ℝ) from vb).trans (Int.cast_natCast k)
    subst vb'
    rw [eb, mul_fin hb ha]
    obtain ⟨l, hl⟩ := rep_mult ha.1
    have := roundNum_rel h (x := (k : ℝ) * a) (k := k * l) (by push_cast; rw [mul_assoc, ← hl]) h3
    rw [← gU_u (u := u)] at this
    exact this
  log := by
    rintro x ⟨a, ha, rfl⟩ h3
    obtain ⟨v, hv, e, h4⟩ := hL.log a ha h3
    have e' : (FOps.log (mkNum A a ha) : Num A) = mkNum A v hv := e
    rw [e']
    rw [← gU_u (u := u)] at h4
    exact ⟨⟨v, hv, rfl⟩, h4⟩
  lgamma := by
    intro k hk
    have hkr : (k : ℝ) ≤ n := by exact_mod_cast hk
    obtain ⟨⟨b, hb, eb⟩, vb⟩ := ofInt_exact h.fmt (A := A) (k := (k : ℤ) + 1)
      (by rw [abs_of_nonneg (by positivity)]; exact_mod_cast (by omega : k + 1 ≤ n + 1).trans hn)
      (by push_cast; rw [abs_of_nonneg (by positivity)]; linarith)
    rw [eb] at vb
    have vb' : b = (k : ℝ) + 1 := by
      have : b = (((k : ℤ) + 1 : ℤ) : ℝ) := vb
      rw [this]; push_cast; ring
    subst vb'
    obtain ⟨v, hv, e, h4⟩ := hL.lgamma k hb hk
    have e' : (FOps.lgamma (mkNum A _ hb) : Num A) = mkNum A v hv := e
    rw [eb, e']
    rw [abs_of_nonneg (a := Real.log _) (Real.log_natCast_nonneg _), ← gU_u (u := u)] at h4
    exact ⟨⟨v, hv, rfl⟩, h4⟩
  exp := by
    rintro x ⟨a, ha, rfl⟩ h3
    obtain ⟨v, hv, e, h4, h5⟩ := hL.exp a ha h3
    have e' : (FOps.exp (mkNum A a ha) : Num A) = mkNum A v hv := e
    rw [e']
    have hE := Real.exp_pos a
    have hpos : (0 : ℝ) < 2 ^ A.f.emin := by positivity
    have hg := one_le_gU h.u_pos.le (by linarith [h.u_le])
    show Num.finite _ ∧ 0 ≤ v ∧ Real.exp a / gU u - _ ≤ v ∧ v ≤ Real.exp a * gU u + _ ∧
      (A.f.minNormal ≤ Real.exp a → Real.exp a / gU u ≤ v ∧ v ≤ Real.exp a * gU u)
    have hN : A.f.minNormal ≤ Real.exp a → Real.exp a / gU u ≤ v ∧ v ≤ Real.exp a * gU u := by
      intro h6
      exact rel_err_factor hg hE.le (by rw [gU_u, abs_of_pos hE]; exact h4 h6)
    by_cases h6 : A.f.minNormal ≤ Real.exp a
    · obtain ⟨h7, h8⟩ := hN h6
      exact ⟨⟨v, hv, rfl⟩, le_trans (by positivity) h7, by linarith, by linarith, hN⟩
    · obtain ⟨h7, h8⟩ := h5 (not_le.mp h6)
      have h9 := abs_le.mp h8
      have h10 : Real.exp a / gU u ≤ Real.exp a := div_le_self hE.le hg
      have h11 : Real.exp a ≤ Real.exp a * gU u := le_mul_of_one_le_right hE.le hg
      exact ⟨⟨v, hv, rfl⟩, h7, by linarith, by linarith, hN⟩

/-- `1 - x` is monotone. -/
theorem ieeeReflect (h : A.OK u) : MonotoneReflect (ieeeModel A u h) where
  anti := by
    rintro x y ⟨a, ha, rfl⟩ ⟨b, hb, rfl⟩ h0 h1 h2
    change 0 ≤ a at h0
    change a ≤ b at h1
    change b ≤ 1 at h2
    obtain ⟨c, hc, ec⟩ := (ieeeModel A u h).one_finite
    have hv := (ieeeModel A u h).val_one
    rw [ec] at hv ⊢
    have hc1 : c = 1 := hv
    subst hc1
    have hO := one_le_Omega h.fmt
    rw [sub_fin, sub_fin]
    show Num.val _ ≤ Num.val _
    rw [(roundNum_finite h.fmt (x := 1 - b) (by rw [abs_of_nonneg (by linarith)]; linarith)).2,
      (roundNum_finite h.fmt (x := 1 - a) (by rw [abs_of_nonneg (by linarith)]; linarith)).2]
    exact nearest_mono A.nearest (by linarith)
  zero := by
    obtain ⟨c, hc, ec⟩ := (ieeeModel A u h).one_finite
    have hv := (ieeeModel A u h).val_one
    obtain ⟨d, hd, ed⟩ := (ieeeModel A u h).zero_finite
    have hw := (ieeeModel A u h).val_zero
    rw [ec] at hv ⊢
    rw [ed] at hw ⊢
    have hc1 : c = 1 := hv
    have hd1 : d = 0 := hw
    subst hc1 hd1
    rw [sub_fin]
    show Num.val _ = 1
    have hO := one_le_Omega h.fmt
    rw [(roundNum_finite h.fmt (x := 1 - 0) (by rw [sub_zero, abs_one]; linarith)).2, sub_zero]
    exact nearest_rep A.nearest (rep_one h.fmt)

end
end CP.Spec
