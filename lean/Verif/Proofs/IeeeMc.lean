import Verif.Proofs.Ieee
import Verif.Model.IeeeBits
import Verif.McSpec
import Verif.Props.Rng
/-! The Monte-Carlo simulation in floating-point arithmetic. -/
namespace CP.Spec
open FOps McSpec
noncomputable section
variable {A : FloatSystem}

/-- Infinite or a nonnegative number. -/
def Num.NonNeg (x : Num A) : Prop := x = (Fl.pinf : Fl A.f) ∨ ∃ a h, 0 ≤ a ∧ x = mkNum A a h

/-- `x <= y` for nonnegative numbers and infinity. -/
def Num.LE (x y : Num A) : Prop := y = (Fl.pinf : Fl A.f) ∨ ∃ a h b h', a ≤ b ∧ x = mkNum A a h ∧ y = mkNum A b h'

theorem mkNum_congr {a b : ℝ} {h : A.f.Fin a} (e : a = b) : mkNum A a h = mkNum A b (e ▸ h) := by subst e; rfl

theorem fin_zero (hf : A.f.OK) : A.f.Fin 0 := ⟨rep_zero hf, by simp; positivity⟩

theorem fin_one (hf : A.f.OK) : A.f.Fin 1 := ⟨rep_one hf, by
  rw [abs_one]
  have := hf.hmax
  exact one_lt_zpow₀ (by norm_num) (by omega)⟩

theorem roundNum_of_fin {x : ℝ} (h : A.f.Fin x) : roundNum A x = mkNum A x h := by
  have e := nearest_rep A.nearest h.1
  have h2 : |A.r x| < (2 : ℝ) ^ A.f.emax := by rw [e]; exact h.2
  have : roundNum A x = mkNum A (A.r x) ⟨A.nearest.rep x, h2⟩ := dif_pos h2
  rw [this]
  exact mkNum_congr e

theorem num_one (hf : A.f.OK) : (one : Num A) = mkNum A 1 (fin_one hf) := by
  have : (one : Num A) = roundNum A ((1 : ℤ) : ℝ) := rfl
  rw [this, Int.cast_one]
  exact roundNum_of_fin (fin_one hf)

theorem num_zero (hf : A.f.OK) : (zero : Num A) = mkNum A 0 (fin_zero hf) := by
  have : (zero : Num A) = roundNum A ((0 : ℤ) : ℝ) := rfl
  rw [this, Int.cast_zero]
  exact roundNum_of_fin (fin_zero hf)

theorem Fin.neg {x : ℝ} (h : A.f.Fin x) : A.f.Fin (-x) := ⟨h.1.neg, by rw [abs_neg]; exact h.2⟩

/-- Multiplication by -1 is exact. -/
theorem neg_one_mul_fin (hf : A.f.OK) {v : ℝ} (h : A.f.Fin v) :
    (FOps.neg (one : Num A) *ᶠ mkNum A v h : Num A) = mkNum A (-v) (Fin.neg h) := by
  rw [num_one hf]
  have : (FOps.neg (mkNum A 1 (fin_one hf)) *ᶠ mkNum A v h : Num A) = roundNum A ((-1) * v) := rfl
  rw [this, neg_one_mul]
  exact roundNum_of_fin _

theorem neg_one_mul_ninf (hf : A.f.OK) :
    (FOps.neg (one : Num A) *ᶠ (Fl.ninf : Fl A.f) : Num A) = (Fl.pinf : Fl A.f) := by
  rw [num_one hf]
  have : (FOps.neg (mkNum A 1 (fin_one hf)) *ᶠ (Fl.ninf : Fl A.f) : Num A) = infOf A ((SignType.sign (-1 : ℝ) : ℤ) * (-1)) := rfl
  rw [this]
  have : SignType.sign (-1 : ℝ) = -1 := by simp
  rw [this]
  unfold infOf
  exact if_pos (by norm_num)

/-- The exponential random number made from a draw in `[0,1]` is not negative. -/
theorem expNum_nonneg (hf : A.f.OK) (hlog : LogSign A) {x : ℝ} (h : A.f.Fin x) (h0 : 0 ≤ x) (h1 : x ≤ 1) :
    Num.NonNeg (FOps.neg (one : Num A) *ᶠ FOps.log (mkNum A x h)) := by
  have e : FOps.log (mkNum A x h) = (A.libm.log (Fl.fin x h) : Num A) := rfl
  rw [e]
  rcases hlog x h h0 h1 with hl | ⟨v, h', hl, hv⟩
  · left
    rw [hl]
    exact neg_one_mul_ninf hf
  · right
    rw [hl]
    exact ⟨-v, Fin.neg h', by linarith, neg_one_mul_fin hf h'⟩

theorem roundNum_nonneg (hf : A.f.OK) {a b : ℝ} (h : A.f.Fin a) (h0 : 0 ≤ a) (hab : a ≤ b) :
    Num.NonNeg (roundNum A b) ∧ Num.LE (mkNum A a h) (roundNum A b) := by
  have h1 : a ≤ A.r b := by
    have := nearest_mono A.nearest hab
    rwa [nearest_rep A.nearest h.1] at this
  by_cases hb : |A.r b| < (2 : ℝ) ^ A.f.emax
  · have e : roundNum A b = mkNum A (A.r b) ⟨A.nearest.rep b, hb⟩ := dif_pos hb
    exact ⟨Or.inr ⟨_, _, h0.trans h1, e⟩, Or.inr ⟨_, _, _, _, h1, rfl, e⟩⟩
  · have hb0 : 0 < b := by
      rcases lt_or_eq_of_le (h0.trans hab) with h | h
      · exact h
      · exfalso
        rw [← h, nearest_zero hf A.nearest] at hb
        exact hb (by simp; positivity)
    have e : roundNum A b = (Fl.pinf : Fl A.f) := by
      show roundFl A.nearest b = _
      unfold roundFl
      rw [dif_neg hb, if_pos hb0]
    exact ⟨Or.inl e, Or.inl e⟩

/-- Adding a nonnegative number. -/
theorem add_nonneg_num (hf : A.f.OK) {x y : Num A} (hx : x.NonNeg) (hy : y.NonNeg) :
    Num.NonNeg (x +ᶠ y) ∧ Num.LE x (x +ᶠ y) := by
  rcases hx with rfl | ⟨a, h, ha, rfl⟩
  · rcases hy with rfl | ⟨b, h', hb, rfl⟩ <;> exact ⟨Or.inl rfl, Or.inl rfl⟩
  · rcases hy with rfl | ⟨b, h', hb, rfl⟩
    · exact ⟨Or.inl rfl, Or.inl rfl⟩
    · rw [add_fin]
      exact roundNum_nonneg hf h ha (by linarith)

theorem Num.LE.trans {x y z : Num A} (h : Num.LE x y) (h' : Num.LE y z) : Num.LE x z := by
  rcases h' with h' | ⟨a, ha, b, hb, hab, rfl, rfl⟩
  · exact Or.inl h'
  · rcases h with h | ⟨a', ha', b', hb', hab', rfl, h2⟩
    · cases h
    · right
      refine ⟨a', ha', b, hb, ?_, rfl, rfl⟩
      have : a = b' := by injection h2
      linarith

theorem Num.NonNeg.le_refl {x : Num A} (h : x.NonNeg) : Num.LE x x := by
  rcases h with h | ⟨a, h, -, rfl⟩
  · exact Or.inl h
  · exact Or.inr ⟨a, h, a, h, _root_.le_refl a, rfl, rfl⟩

/-- All draws are numbers in `[0,1]`. -/
def UnitDraws (u : ℕ → Num A) : Prop := ∀ j, ∃ x h, 0 ≤ x ∧ x ≤ 1 ∧ u j = mkNum A x h

theorem arrival_nonneg (hf : A.f.OK) (hlog : LogSign A) {u : ℕ → Num A} (hu : UnitDraws u) (k : ℕ) :
    Num.NonNeg (arrival one u k) := by
  induction k with
  | zero => exact Or.inr ⟨0, fin_zero hf, _root_.le_refl 0, num_zero hf⟩
  | succ k ih =>
    obtain ⟨x, h, h0, h1, e⟩ := hu k
    rw [arrival, e]
    exact (add_nonneg_num hf ih (expNum_nonneg hf hlog h h0 h1)).1

theorem arrival_le (hf : A.f.OK) (hlog : LogSign A) {u : ℕ → Num A} (hu : UnitDraws u) {k l : ℕ} (hkl : k ≤ l) :
    Num.LE (arrival one u k) (arrival one u l) := by
  induction l, hkl using Nat.le_induction with
  | base => exact (arrival_nonneg hf hlog hu k).le_refl
  | succ l hl ih =>
    refine ih.trans ?_
    obtain ⟨x, h, h0, h1, e⟩ := hu l
    rw [arrival, e]
    exact (add_nonneg_num hf (arrival_nonneg hf hlog hu l) (expNum_nonneg hf hlog h h0 h1)).2

theorem roundNum_unit (hf : A.f.OK) {x : ℝ} (h0 : 0 ≤ x) (h1 : x ≤ 1) :
    ∃ h, roundNum A x = mkNum A (A.r x) h ∧ 0 ≤ A.r x ∧ A.r x ≤ 1 := by
  obtain ⟨h, e⟩ := roundNum_fin (A := A) hf (x := x) (by
    rw [abs_of_nonneg h0]
    linarith [one_le_Omega (A := A) hf])
  have a := nearest_mono A.nearest h0
  have b := nearest_mono A.nearest h1
  rw [nearest_zero hf A.nearest] at a
  rw [nearest_rep A.nearest (rep_one hf)] at b
  exact ⟨h, e, a, b⟩

/-- NaN or a number in `[0,1]`. -/
def Num.UnitOrNan (x : Num A) : Prop := x = (Fl.nan : Fl A.f) ∨ ∃ y h, 0 ≤ y ∧ y ≤ 1 ∧ x = mkNum A y h

theorem div_unit (hf : A.f.OK) {x z : Num A} (hx : x.NonNeg) (h : Num.LE x z) : Num.UnitOrNan (x /ᶠ z) := by
  rcases hx with rfl | ⟨a, ha, h0, rfl⟩
  · rcases h with rfl | ⟨_, _, _, _, _, h, _⟩
    · left; rfl
    · cases h
  · rcases h with rfl | ⟨a', ha', b, hb, hab, e, rfl⟩
    · right
      obtain ⟨h, e, -, -⟩ := roundNum_unit (A := A) hf (x := 0) _root_.le_rfl zero_le_one
      exact ⟨_, h, by rw [nearest_zero hf A.nearest], by rw [nearest_zero hf A.nearest]; exact zero_le_one, e⟩
    · have : a = a' := by injection e
      subst this
      by_cases hb0 : b = 0
      · subst hb0
        have : a = 0 := le_antisymm hab h0
        subst this
        left
        have e : (mkNum A 0 ha /ᶠ mkNum A 0 hb : Num A) = infOf A (SignType.sign (0 : ℝ)) := if_pos rfl
        rw [e]
        simp only [sign_zero, infOf]
        rfl
      · right
        have hbp : 0 < b := lt_of_le_of_ne (h0.trans hab) (Ne.symm hb0)
        rw [div_fin ha hb hb0]
        obtain ⟨h, e, h1, h2⟩ := roundNum_unit (A := A) hf (x := a / b) (div_nonneg h0 hbp.le) ((div_le_one hbp).mpr hab)
        exact ⟨_, h, h1, h2, e⟩

/-- Two quotients by the same number keep their order. -/
theorem div_mono (hf : A.f.OK) {x y z : Num A} (hx : x.NonNeg) (hxy : Num.LE x y) (hyz : Num.LE y z) {a b : ℝ} {h h'}
    (e1 : (x /ᶠ z : Num A) = mkNum A a h) (e2 : (y /ᶠ z : Num A) = mkNum A b h') : a ≤ b := by
  rcases hyz with rfl | ⟨b', hb', c, hc, hbc, rfl, rfl⟩
  · have z0 : ∀ (v : ℝ) (hv : A.f.Fin v), (mkNum A v hv /ᶠ (Fl.pinf : Fl A.f) : Num A) = roundNum A 0 := fun _ _ => rfl
    rcases hx with rfl | ⟨a', ha', h0, rfl⟩
    · cases e1
    · rcases hxy with rfl | ⟨_, _, b', hb', _, _, rfl⟩
      · cases e2
      · rw [z0] at e1 e2
        have e := e1.symm.trans e2
        have : a = b := by injection e
        exact this.le
  · rcases hxy with h | ⟨a', ha', b'', hb'', hab, rfl, e⟩
    · cases h
    · have : b' = b'' := by injection e
      subst this
      rcases hx with h | ⟨a'', ha'', h0, e⟩
      · cases h
      · have : a' = a'' := by injection e
        subst this
        by_cases hc0 : c = 0
        · subst hc0
          have h1 : b' = 0 := le_antisymm hbc (h0.trans hab)
          subst h1
          have h2 : a' = 0 := le_antisymm hab h0
          subst h2
          have e := e1.symm.trans e2
          have : a = b := by injection e
          exact this.le
        · have hcp : 0 < c := lt_of_le_of_ne (h0.trans (hab.trans hbc)) (Ne.symm hc0)
          rw [div_fin _ _ hc0] at e1 e2
          obtain ⟨k1, f1, -, -⟩ := roundNum_unit (A := A) hf (x := a' / c) (div_nonneg h0 hcp.le) ((div_le_one hcp).mpr (hab.trans hbc))
          obtain ⟨k2, f2, -, -⟩ := roundNum_unit (A := A) hf (x := b' / c) (div_nonneg (h0.trans hab) hcp.le) ((div_le_one hcp).mpr hbc)
          have g1 : a = A.r (a' / c) := by injection e1.symm.trans f1
          have g2 : b = A.r (b' / c) := by injection e2.symm.trans f2
          rw [g1, g2]
          exact nearest_mono A.nearest (div_le_div_of_nonneg_right hab hcp.le)

theorem sample_get {F : Type} [FOps F] (u : ℕ → F) (n i : ℕ) :
    (sample u n)[i]? = if i < n then some (arrival one u (i + 1) /ᶠ arrival one u (n + 1)) else none := by
  unfold sample
  by_cases h : i < n
  · rw [if_pos h]; simp [h]
  · rw [if_neg h]; simp [h]

theorem sample_unit (hf : A.f.OK) (hlog : LogSign A) {u : ℕ → Num A} (hu : UnitDraws u) (n : ℕ) :
    ∀ x ∈ sample u n, Num.UnitOrNan x := by
  intro x hx
  unfold sample at hx
  rw [List.mem_map] at hx
  obtain ⟨i, hi, rfl⟩ := hx
  rw [List.mem_range] at hi
  exact div_unit hf (arrival_nonneg hf hlog hu _) (arrival_le hf hlog hu (by omega))

theorem sample_sorted (hf : A.f.OK) (hlog : LogSign A) {u : ℕ → Num A} (hu : UnitDraws u) {n i j : ℕ} (hij : i ≤ j) {a b : ℝ} {h h'}
    (h1 : (sample u n)[i]? = some (mkNum A a h)) (h2 : (sample u n)[j]? = some (mkNum A b h')) : a ≤ b := by
  rw [sample_get] at h1 h2
  split at h1
  · split at h2
    · exact div_mono hf (arrival_nonneg hf hlog hu _) (arrival_le hf hlog hu (by omega)) (arrival_le hf hlog hu (by omega))
        (Option.some.inj h1) (Option.some.inj h2)
    · cases h2
  · cases h1

/-! ### The generator -/

theorem grid_fin (hA : A.f = binary64) {k : ℕ} (hk : k < 2 ^ 53) : A.f.Fin ((k : ℝ) / 2 ^ 52) := by
  rw [hA]
  refine ⟨⟨k, -52, ?_, by norm_num [binary64], ?_⟩, ?_⟩
  · rw [abs_of_nonneg (by positivity)]
    show (k : ℤ) < 2 ^ 53
    exact_mod_cast hk
  · rw [zpow_neg, div_eq_mul_inv]; norm_num
  · rw [abs_of_nonneg (by positivity)]
    have h1 : (k : ℝ) / 2 ^ 52 < 2 := by
      rw [div_lt_iff₀ (by positivity)]
      have : (k : ℝ) < 2 ^ 53 := by exact_mod_cast hk
      linarith
    exact h1.trans_le (by
      show (2 : ℝ) ≤ 2 ^ (1024 : ℤ)
      calc (2 : ℝ) = 2 ^ (1 : ℤ) := by norm_num
        _ ≤ _ := zpow_le_zpow_right₀ (by norm_num) (by norm_num))

/-- Every draw is `k / 2^52` with `0 <= k < 2^52`, exactly. -/
theorem grid_draw (hA : A.f = binary64) (r : TinyMT) :
    ∃ (k : ℕ) (hk : k < 2 ^ 52), (r.generateDouble01 (F := Num A)).1 = mkNum A ((k : ℝ) / 2 ^ 52) (grid_fin hA (by omega)) := by
  have hf : A.f.OK := hA ▸ binary64_ok
  obtain ⟨m, hm, hw⟩ := Props.temperConvBits_mantissa r.nextState
  refine ⟨m, hm, ?_⟩
  unfold TinyMT.generateDouble01
  dsimp only
  have h1 : (FBits.ofBits r.nextState.temperConvBits : Num A) = mkNum A ((((2 ^ 52 + m : ℕ)) : ℝ) / 2 ^ 52) (grid_fin hA (by omega)) := by
    have e : (FBits.ofBits r.nextState.temperConvBits : Num A) = ofXR A (FBits.ofBits r.nextState.temperConvBits) := rfl
    rw [e, Props.ofBits_one_plus _ m hm hw]
    show roundNum A _ = _
    have e2 : (1 + (m : ℝ) / 2 ^ 52) = ((2 ^ 52 + m : ℕ) : ℝ) / 2 ^ 52 := by push_cast; field_simp; norm_num
    rw [e2]
    exact roundNum_of_fin _
  rw [h1, num_one hf, sub_fin]
  have e3 : (((2 ^ 52 + m : ℕ) : ℝ) / 2 ^ 52) - 1 = (m : ℝ) / 2 ^ 52 := by push_cast; field_simp; ring
  rw [e3]
  exact roundNum_of_fin _

theorem unitDraws_tinymt (hA : A.f = binary64) (r : TinyMT) (s : ℕ) :
    UnitDraws (fun j => draw (TinyMT.generateDouble01 (F := Num A)) r (s + j)) := by
  intro j
  obtain ⟨k, hk, e⟩ := grid_draw hA (stateAt (TinyMT.generateDouble01 (F := Num A)) r (s + j))
  refine ⟨_, _, by positivity, ?_, e⟩
  rw [div_le_one (by positivity)]
  exact_mod_cast hk.le

end
end CP.Spec
