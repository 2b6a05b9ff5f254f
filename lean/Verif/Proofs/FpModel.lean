import Verif.Proofs.RoundingLibm
import Verif.RoundedReal
/-! `p`-bit floating point satisfies `FloatModel` and `MathLibrary`. -/
namespace CP.Spec
open FOps
variable {p : ℕ}

/-- The real value of a `p`-bit number. -/
noncomputable def Fp.val (x : Fp p) : ℝ := Option.getD (α := ℝ) x 0
/-- Neither an infinity nor NaN. -/
def Fp.finite (x : Fp p) : Prop := ∃ r : ℝ, x = some r

theorem fp_round {p : ℕ} (z : ℝ) : |roundTo p z - z| ≤ (1 - 1 / gOf p) * |z| := by
  rw [gOf_u]; exact roundTo_err p z

theorem fp_factor {p : ℕ} (hp : 1 ≤ p) {z : ℝ} (hz : 0 ≤ z) : z / gOf p ≤ roundTo p z ∧ roundTo p z ≤ z * gOf p :=
  rel_err_factor (one_le_gOf hp) hz (fp_round z)

/-- `p`-bit floating point as a `FloatModel`; there is no overflow, so any threshold will do. -/
noncomputable def fpModel (p : ℕ) (hp : 1 ≤ p) (Omega : ℝ) : FloatModel (Fp p) where
  finite := Fp.finite
  val := Fp.val
  g := gOf p
  eta := 0
  Omega := Omega
  one_le_g := one_le_gOf hp
  eta_nonneg := le_rfl
  zero_finite := ⟨_, rfl⟩
  val_zero := by show ((0 : ℤ) : ℝ) = 0; simp
  one_finite := ⟨_, rfl⟩
  val_one := by show ((1 : ℤ) : ℝ) = 1; simp
  lt_iff := by
    rintro x y ⟨a, rfl⟩ ⟨b, rfl⟩
    show decide (a < b) = true ↔ a < b
    simp
  not_lt_negInf := by
    rintro x ⟨a, rfl⟩; rfl
  add := by
    rintro x y ⟨a, rfl⟩ ⟨b, rfl⟩ h1 h2 -
    exact ⟨⟨_, rfl⟩, fp_factor hp (add_nonneg h1 h2)⟩
  mul := by
    rintro x y ⟨a, rfl⟩ ⟨b, rfl⟩ h1 h2 -
    have h := fp_factor hp (mul_nonneg h1 h2)
    have g0 := gOf_pos hp
    refine ⟨⟨_, rfl⟩, le_trans (div_nonneg (mul_nonneg h1 h2) g0.le) h.1, ?_, ?_⟩
    · rw [sub_zero]; exact h.1
    · rw [add_zero]; exact h.2
  div := by
    rintro x y ⟨a, rfl⟩ ⟨b, rfl⟩ h1 h2 -
    have h := fp_factor hp (div_nonneg h1 h2.le)
    have g0 := gOf_pos hp
    have h3 : b ≠ 0 := ne_of_gt h2
    rw [Fp.div_some h3]
    refine ⟨⟨_, rfl⟩, le_trans (div_nonneg (div_nonneg h1 h2.le) g0.le) h.1, ?_, ?_⟩
    · rw [sub_zero]; exact h.1
    · rw [add_zero]; exact h.2

theorem fpLibrary (p : ℕ) (hp : 1 ≤ p) (Omega : ℝ) (n : ℕ) : MathLibrary (fpModel p hp Omega) n 0 0 where
  etaE_nonneg := le_rfl
  ofInt k _ := ⟨⟨_, rfl⟩, by show (((k : ℕ) : ℤ) : ℝ) = k; simp⟩
  eq_iff := by
    rintro x y ⟨a, rfl⟩ ⟨b, rfl⟩
    show decide (a = b) = true ↔ a = b
    simp
  neg := by
    rintro x ⟨a, rfl⟩; exact ⟨⟨_, rfl⟩, rfl⟩
  add := by
    rintro x y ⟨a, rfl⟩ ⟨b, rfl⟩ -; exact ⟨⟨_, rfl⟩, fp_round _⟩
  sub := by
    rintro x y ⟨a, rfl⟩ ⟨b, rfl⟩ -; exact ⟨⟨_, rfl⟩, fp_round _⟩
  scale := by
    rintro k x - ⟨a, rfl⟩ -
    refine ⟨⟨_, rfl⟩, ?_⟩
    have h := fp_round (p := p) ((((k : ℕ) : ℤ) : ℝ) * a)
    rw [Int.cast_natCast] at h
    exact h
  log := by
    rintro x ⟨a, rfl⟩ h; have h' : 0 < a := h; rw [Fp.log_some h']; exact ⟨⟨_, rfl⟩, fp_round _⟩
  lgamma := by
    intro k _
    refine ⟨⟨_, rfl⟩, ?_⟩
    have e : (⌊(((k : ℤ) + 1 : ℤ) : ℝ)⌋₊ - 1).factorial = k.factorial := by
      have : (((k : ℤ) + 1 : ℤ) : ℝ) = ((k + 1 : ℕ) : ℝ) := by push_cast; ring
      rw [this, Nat.floor_natCast]; simp
    have h := fp_round (p := p) (Real.log k.factorial)
    rw [abs_of_nonneg (a := Real.log k.factorial) (Real.log_natCast_nonneg _)] at h
    show |roundTo p (Real.log ((⌊(((k : ℤ) + 1 : ℤ) : ℝ)⌋₊ - 1).factorial : ℕ)) - _| ≤ _
    rw [e]
    exact h
  exp := by
    rintro x ⟨a, rfl⟩ -
    have h := fp_factor hp (Real.exp_pos a).le
    have g0 := gOf_pos hp
    refine ⟨⟨_, rfl⟩, le_trans (div_nonneg (Real.exp_pos a).le g0.le) h.1, ?_, ?_, fun _ => h⟩
    · rw [sub_zero]; exact h.1
    · rw [add_zero]; exact h.2

/-- `std::sort` on `p`-bit numbers, as a merge sort. -/
noncomputable def fpSort (l : List (Bound (Fp p))) : List (Bound (Fp p)) :=
  l.mergeSort fun x y => decide (Fp.val x.location ≤ Fp.val y.location)

theorem fpSort_contract (hp : 1 ≤ p) (Omega : ℝ) : SortContractF (fpModel p hp Omega) fpSort where
  perm l := List.mergeSort_perm l _
  sorted l hfin := by
    have h := List.pairwise_mergeSort (le := fun x y : Bound (Fp p) => decide (Fp.val x.location ≤ Fp.val y.location))
      (fun a b c => by simpa using le_trans) (fun a b => by simpa using le_total _ _) l
    refine h.imp_of_mem ?_
    intro x y hx hy hxy
    rw [Bool.eq_false_iff, Ne, (fpModel p hp Omega).lt_iff _ _ (hfin y (List.mem_mergeSort.mp hy))
      (hfin x (List.mem_mergeSort.mp hx))]
    exact not_lt.mpr (of_decide_eq_true hxy)

end CP.Spec
