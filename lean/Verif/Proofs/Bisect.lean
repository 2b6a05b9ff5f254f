import Verif.Model.ExactBj
import Verif.Proofs.FpMono
import Verif.Model.XR
/-! The bisection loop of benchmarks/exactbj.py in `p`-bit floating point and in exact arithmetic. -/
namespace CP.Spec
open FOps Set

theorem int_log_eq {x : ℝ} {z : ℤ} (h1 : (2 : ℝ) ^ z ≤ x) (h2 : x < (2 : ℝ) ^ (z + 1)) : Int.log 2 x = z := by
  have hx : 0 < x := lt_of_lt_of_le (by positivity) h1
  have a1 : z ≤ Int.log 2 x := (Int.zpow_le_iff_le_log (b := 2) (by norm_num) hx).mp (by exact_mod_cast h1)
  have a2 : Int.log 2 x < z + 1 := (Int.lt_zpow_iff_log_lt (b := 2) (by norm_num) hx).mp (by exact_mod_cast h2)
  omega

/-- A `p`-bit integer times a power of two is not changed by rounding. -/
theorem roundTo_nat_lt {p m : ℕ} (hm : m < 2 ^ p) (e : ℤ) : roundTo p (m * (2 : ℝ) ^ e) = m * (2 : ℝ) ^ e := by
  rcases Nat.eq_zero_or_pos m with rfl | hm0
  · simp [roundTo_zero]
  · have hL1 := Nat.pow_log_le_self 2 (x := m) (by omega)
    have hL2 := Nat.lt_pow_succ_log_self (b := 2) (by norm_num) m
    set L := Nat.log 2 m with hL
    have hLp : L < p := by
      rw [hL]; exact Nat.log_lt_of_lt_pow (by omega) hm
    have hpos : 0 < (m : ℝ) * (2 : ℝ) ^ e := by positivity
    have hlog : Int.log 2 |(m : ℝ) * (2 : ℝ) ^ e| = L + e := by
      rw [abs_of_pos hpos]
      apply int_log_eq
      · rw [zpow_add₀ (by norm_num), zpow_natCast]
        exact mul_le_mul_of_nonneg_right (by exact_mod_cast hL1) (by positivity)
      · rw [show (L : ℤ) + e + 1 = ((L + 1 : ℕ) : ℤ) + e by push_cast; ring, zpow_add₀ (by norm_num), zpow_natCast]
        exact mul_lt_mul_of_pos_right (by exact_mod_cast hL2) (by positivity)
    unfold roundTo
    rw [hlog]
    have e1 : (m : ℝ) * (2 : ℝ) ^ e / (2 : ℝ) ^ ((L : ℤ) + e - p + 1) = ((m * 2 ^ (p - 1 - L) : ℤ) : ℝ) := by
      rw [div_eq_iff (by positivity)]
      push_cast
      rw [mul_assoc, ← zpow_natCast, ← zpow_add₀ (by norm_num)]
      congr 2
      omega
    rw [round_of_eq_int e1, ← e1, div_mul_cancel₀ _ (by positivity)]

theorem roundTo_nat {p m : ℕ} (hp : 1 ≤ p) (hm : m ≤ 2 ^ p) (e : ℤ) : roundTo p (m * (2 : ℝ) ^ e) = m * (2 : ℝ) ^ e := by
  rcases hm.lt_or_eq with h | h
  · exact roundTo_nat_lt h e
  · have := roundTo_nat_lt (p := p) (m := 1) (Nat.one_lt_two_pow (by omega)) (p + e)
    rw [Nat.cast_one, one_mul, zpow_add₀ (by norm_num), zpow_natCast] at this
    rw [h]; push_cast; exact this

/-- A number halfway between two neighbours is rounded up. -/
theorem roundTo_odd {p m : ℕ} (hp : 1 ≤ p) (h1 : 2 ^ (p - 1) ≤ m) (h2 : m < 2 ^ p) (e : ℤ) :
    roundTo p ((2 * m + 1) * (2 : ℝ) ^ e) = (m + 1 : ℕ) * (2 : ℝ) ^ (e + 1) := by
  have hpp : 2 ^ p = 2 * 2 ^ (p - 1) := by rw [← pow_succ']; congr 1; omega
  have hpos : 0 < (2 * (m : ℝ) + 1) * (2 : ℝ) ^ e := by positivity
  have hlog : Int.log 2 |(2 * (m : ℝ) + 1) * (2 : ℝ) ^ e| = p + e := by
    rw [abs_of_pos hpos]
    apply int_log_eq
    · rw [zpow_add₀ (by norm_num), zpow_natCast]
      refine mul_le_mul_of_nonneg_right ?_ (by positivity)
      have : 2 ^ p ≤ 2 * m + 1 := by omega
      exact_mod_cast this
    · rw [show (p : ℤ) + e + 1 = ((p + 1 : ℕ) : ℤ) + e by push_cast; ring, zpow_add₀ (by norm_num), zpow_natCast]
      refine mul_lt_mul_of_pos_right ?_ (by positivity)
      have : 2 * m + 1 < 2 ^ (p + 1) := by rw [pow_succ]; omega
      exact_mod_cast this
  unfold roundTo
  rw [hlog, show (p : ℤ) + e - p + 1 = e + 1 by ring]
  have e1 : (2 * (m : ℝ) + 1) * (2 : ℝ) ^ e / (2 : ℝ) ^ (e + 1) = ((m : ℤ) : ℝ) + 1 / 2 := by
    rw [div_eq_iff (by positivity), zpow_add₀ (by norm_num)]
    push_cast; ring
  rw [e1]
  have e2 : round (((m : ℤ) : ℝ) + 1 / 2) = (m : ℤ) + 1 := by
    rw [round_eq, add_assoc, Int.floor_intCast_add]; norm_num
  rw [e2]
  push_cast
  rfl

/-- The test at the head of the loop. -/
def sameRange {F : Type} [FOps F] (last : Option (F × F)) (low high : F) : Prop :=
  ∃ l h : F, last = some (l, h) ∧ FOps.eq l low = true ∧ FOps.eq h high = true

theorem bisectLoop_zero {F : Type} [FOps F] (dist : F → M F) (alpha : F) (i : Nat) (low high : F) (last : Option (F × F)) (mid : F) :
    bisectLoop dist alpha 0 i low high last mid = .ok (i - 1, mid) := by
  rw [bisectLoop.eq_def]

/-- One iteration. -/
theorem bisectLoop_go {F : Type} [FOps F] {dist : F → M F} {alpha : F} (rem i : Nat) {low high m v : F} {last : Option (F × F)}
    (mid : F) (hl : ¬ sameRange last low high) (hm : (low +ᶠ high) /ᶠ ofInt 2 = m) (hd : dist m = .ok v) :
    bisectLoop dist alpha (rem + 1) i low high last mid =
      if ge (if lt v alpha then m else low) (if lt v alpha then high else m) then .ok (i, m)
      else bisectLoop dist alpha rem (i + 1) (if lt v alpha then m else low) (if lt v alpha then high else m)
        (some (low, high)) m := by
  rw [bisectLoop.eq_def]
  dsimp only
  rw [if_neg, hm, hd]
  · rfl
  · intro h
    cases last with
    | none => cases h
    | some q =>
      obtain ⟨l, hh⟩ := q
      simp only [Bool.and_eq_true] at h
      exact hl ⟨l, hh, rfl, h.1, h.2⟩

/-- Leaving the loop because the range did not change. -/
theorem bisectLoop_same {F : Type} [FOps F] (dist : F → M F) (alpha : F) (rem i : Nat) {low high : F} (mid : F)
    {last : Option (F × F)} (hl : sameRange last low high) :
    bisectLoop dist alpha (rem + 1) i low high last mid = .ok (i, mid) := by
  obtain ⟨l, h, rfl, h1, h2⟩ := hl
  rw [bisectLoop.eq_def]
  dsimp only
  rw [if_pos (by rw [h1, h2]; rfl)]

variable {p : ℕ}

/-- A finite `p`-bit number. -/
def fpR (p : ℕ) (a : ℝ) : Fp p := (some a : Option ℝ)

/-- The midpoint as computed. -/
theorem fp_mid (a b : ℝ) : (fpR p a +ᶠ fpR p b) /ᶠ ofInt 2 = fpR p (roundTo p (roundTo p (a + b) / 2)) := by
  have h := Fp.div_some (p := p) (a := roundTo p (a + b)) (b := ((2 : ℤ) : ℝ)) (by norm_num)
  rw [Int.cast_ofNat] at h
  exact h

theorem fp_lt (a b : ℝ) : (FOps.lt (fpR p a) (fpR p b) = true) = (a < b) := by
  show (decide (a < b) = true) = _
  exact propext decide_eq_true_iff

theorem fp_eq (a b : ℝ) : (FOps.eq (fpR p a) (fpR p b) = true) = (a = b) := by
  show (decide (a = b) = true) = _
  exact propext decide_eq_true_iff

theorem fp_ge (a b : ℝ) : (FOps.ge (fpR p a) (fpR p b) = true) = (b ≤ a) := by
  unfold FOps.ge
  rw [Bool.or_eq_true, fp_lt, fp_eq, le_iff_lt_or_eq]
  exact propext (or_congr Iff.rfl eq_comm)

theorem sameRange_self (a b : ℝ) : sameRange (some (fpR p a, fpR p b)) (fpR p a) (fpR p b) :=
  ⟨_, _, rfl, by rw [fp_eq], by rw [fp_eq]⟩

theorem not_sameRange {a b c d : ℝ} (h : a ≠ c ∨ b ≠ d) : ¬ sameRange (some (fpR p a, fpR p b)) (fpR p c) (fpR p d) := by
  rintro ⟨l, hh, e, h1, h2⟩
  cases e
  rw [fp_eq] at h1 h2
  rcases h with h | h
  · exact h h1
  · exact h h2

/-- The points at which the bisection may evaluate the distribution function: multiples `m/2^j` in (0,1] with `m <= 2^p`. -/
def bisectGrid (p : ℕ) : Set ℝ := {x | ∃ m j : ℕ, 1 ≤ m ∧ m ≤ 2 ^ p ∧ j ≤ 110 ∧ x = m * (2 : ℝ) ^ (-(j : ℤ)) ∧ x ≤ 1}

theorem grid_pow {p j : ℕ} (h : j ≤ 110) : (2 : ℝ) ^ (-(j : ℤ)) ∈ bisectGrid p := by
  refine ⟨1, j, le_rfl, Nat.one_le_two_pow, h, by simp, ?_⟩
  have : (2 : ℝ) ^ (-(j : ℤ)) ≤ (2 : ℝ) ^ (0 : ℤ) := zpow_le_zpow_right₀ (by norm_num) (by omega)
  simpa using this

theorem grid_range {p : ℕ} {x : ℝ} (h : x ∈ bisectGrid p) : x ∈ Icc (0 : ℝ) 1 := by
  obtain ⟨m, j, -, -, -, e, h1⟩ := h
  exact ⟨by rw [e]; positivity, h1⟩

/-- One iteration in `p`-bit arithmetic. -/
theorem bisect_step {dist : Fp p → M (Fp p)} {D : ℝ → ℝ} (hD : ∀ x ∈ bisectGrid p, dist (fpR p x) = .ok (fpR p (D x))) (a : ℝ)
    {rem i : ℕ} {low high m : ℝ} {last : Option (Fp p × Fp p)} (mid : Fp p) (hl : ¬ sameRange last (fpR p low) (fpR p high))
    (hmid : roundTo p (roundTo p (low + high) / 2) = m) (hm : m ∈ bisectGrid p) :
    (D m < a → bisectLoop dist (fpR p a) (rem + 1) i (fpR p low) (fpR p high) last mid =
      if high ≤ m then .ok (i, fpR p m)
      else bisectLoop dist (fpR p a) rem (i + 1) (fpR p m) (fpR p high) (some (fpR p low, fpR p high)) (fpR p m)) ∧
    (a ≤ D m → bisectLoop dist (fpR p a) (rem + 1) i (fpR p low) (fpR p high) last mid =
      if m ≤ low then .ok (i, fpR p m)
      else bisectLoop dist (fpR p a) rem (i + 1) (fpR p low) (fpR p m) (some (fpR p low, fpR p high)) (fpR p m)) := by
  have e := bisectLoop_go (alpha := fpR p a) rem i mid hl (by rw [fp_mid, hmid]) (hD m hm)
  constructor
  · intro h
    rw [e]
    simp only [fp_lt, h, if_true, fp_ge]
  · intro h
    rw [e]
    simp only [fp_lt, not_lt.mpr h, if_false, fp_ge]

/-- What the loop has found when it stops: two neighbouring `p`-bit numbers. -/
structure Bracket (p : ℕ) (D : ℝ → ℝ) (a : ℝ) (k : ℕ) (r low high : ℝ) : Prop where
  res : r = low ∨ r = high
  low_ge : (2 : ℝ) ^ (-(k : ℤ)) ≤ low
  high_le : high ≤ (2 : ℝ) ^ (1 - (k : ℤ))
  width : high = low + (2 : ℝ) ^ (1 - (k : ℤ) - p)
  below : D low < a
  above : a ≤ D high ∨ high = 1
  on_grid : low ∈ bisectGrid p ∧ high ∈ bisectGrid p

/-- How the loop ends when the level is first passed at `2^-k`. -/
def Ends (p : ℕ) (D : ℝ → ℝ) (a : ℝ) (k : ℕ) (res : M (ℕ × Fp p)) : Prop :=
  ∃ i r, res = .ok (i, r) ∧ (i < 109 ↔ k + p ≤ 108) ∧
    (k + p ≤ 108 → ∃ r' low high : ℝ, r = fpR p r' ∧ Bracket p D a k r' low high)

theorem bisect_fine (hp : 1 ≤ p) (hp2 : p ≤ 107) {dist : Fp p → M (Fp p)} {D : ℝ → ℝ}
    (hD : ∀ x ∈ bisectGrid p, dist (fpR p x) = .ok (fpR p (D x))) (a : ℝ) {k : ℕ} (hk : 1 ≤ k) (s : ℕ) :
    ∀ (t m rem : ℕ) (last : Option (Fp p × Fp p)) (mid : Fp p), t + s + 1 = p → 2 ^ t ≤ m → m < 2 ^ (t + 1) → rem + (k + t) = 110 →
      ∀ low high : ℝ, low = m * (2 : ℝ) ^ (-((k + t : ℕ) : ℤ)) → high = (m + 1 : ℕ) * (2 : ℝ) ^ (-((k + t : ℕ) : ℤ)) →
      ¬ sameRange last (fpR p low) (fpR p high) → D low < a → (a ≤ D high ∨ high = 1) →
      Ends p D a k (bisectLoop dist (fpR p a) rem (k + t) (fpR p low) (fpR p high) last mid) := by
  induction s with
  | zero =>
    intro t m rem last mid hts hm1 hm2 hrem low high hlow hhigh hl hbl hab
    obtain rfl : t = p - 1 := by omega
    cases rem with
    | zero => exact ⟨_, _, bisectLoop_zero .., by omega, fun h => by omega⟩
    | succ rem =>
      have hpp : p - 1 + 1 = p := by omega
      rw [hpp] at hm2
      have e : low + high = (2 * m + 1) * (2 : ℝ) ^ (-((k + (p - 1) : ℕ) : ℤ)) := by rw [hlow, hhigh]; push_cast; ring
      have hmid : roundTo p (roundTo p (low + high) / 2) = high := by
        rw [e, roundTo_odd hp hm1 hm2, zpow_add₀ (by norm_num), zpow_one, ← mul_assoc, mul_div_cancel_right₀ _ (by norm_num),
          roundTo_nat hp (by omega), hhigh]
      have hpow : (2 : ℝ) ^ (-((k + (p - 1) : ℕ) : ℤ)) = (2 : ℝ) ^ (1 - (k : ℤ) - p) := by congr 1; omega
      have hz : (0 : ℝ) < (2 : ℝ) ^ (-((k + (p - 1) : ℕ) : ℤ)) := by positivity
      have hw : high = low + (2 : ℝ) ^ (-((k + (p - 1) : ℕ) : ℤ)) := by rw [hlow, hhigh]; push_cast; ring
      have hhk : high ≤ (2 : ℝ) ^ (1 - (k : ℤ)) := by
        have : ((m + 1 : ℕ) : ℝ) ≤ 2 ^ p := by exact_mod_cast hm2
        rw [hhigh, hpow]
        refine (mul_le_mul_of_nonneg_right this (by positivity)).trans (le_of_eq ?_)
        rw [← zpow_natCast, ← zpow_add₀ (by norm_num)]
        congr 1; ring
      have hlk : (2 : ℝ) ^ (-(k : ℤ)) ≤ low := by
        have : (2 : ℝ) ^ (p - 1) ≤ (m : ℝ) := by exact_mod_cast hm1
        rw [hlow]
        refine le_trans (le_of_eq ?_) (mul_le_mul_of_nonneg_right this (by positivity))
        rw [← zpow_natCast, ← zpow_add₀ (by norm_num)]
        congr 1; omega
      have hlow0 : 0 < low := lt_of_lt_of_le (by positivity) hlk
      have hone : (2 : ℝ) ^ (1 - (k : ℤ)) ≤ 1 := by
        have : (2 : ℝ) ^ (1 - (k : ℤ)) ≤ (2 : ℝ) ^ (0 : ℤ) := zpow_le_zpow_right₀ (by norm_num) (by omega)
        simpa using this
      have hbr : Bracket p D a k high low high :=
        ⟨Or.inr rfl, hlk, hhk, by rw [← hpow]; exact hw, hbl, hab,
          ⟨m, k + (p - 1), by have := Nat.one_le_two_pow (n := p - 1); omega, by omega, by omega, hlow, by linarith⟩,
          ⟨m + 1, k + (p - 1), by omega, by omega, by omega, hhigh, hhk.trans hone⟩⟩
      obtain ⟨s1, s2⟩ := bisect_step hD a (rem := rem) (i := k + (p - 1)) mid hl hmid
        ⟨m + 1, k + (p - 1), by omega, by omega, by omega, hhigh, hhk.trans hone⟩
      by_cases hlast : D high < a
      · -- only possible at the right end 1: low becomes high, and the loop ends at once
        rw [s1 hlast, if_pos le_rfl]
        have h1 : high = 1 := by
          rcases hab with h | h
          · exact absurd hlast (not_lt.mpr h)
          · exact h
        have hk1 : k = 1 := by
          by_contra hne
          have : (2 : ℝ) ^ (1 - (k : ℤ)) ≤ (2 : ℝ) ^ (-1 : ℤ) := zpow_le_zpow_right₀ (by norm_num) (by omega)
          rw [h1] at hhk
          norm_num at this
          linarith
        exact ⟨_, _, rfl, by omega, fun _ => ⟨high, low, high, rfl, hbr⟩⟩
      · rw [s2 (not_lt.mp hlast), if_neg (by linarith)]
        cases rem with
        | zero => exact ⟨_, _, bisectLoop_zero .., by omega, fun h => by omega⟩
        | succ rem =>
          exact ⟨_, _, bisectLoop_same _ _ _ _ _ (sameRange_self low high), by omega, fun _ => ⟨high, low, high, rfl, hbr⟩⟩
  | succ s ih =>
    intro t m rem last mid hts hm1 hm2 hrem low high hlow hhigh hl hbl hab
    cases rem with
    | zero => exact ⟨_, _, bisectLoop_zero .., by omega, fun h => by omega⟩
    | succ rem =>
      have hz : (0 : ℝ) < (2 : ℝ) ^ (-((k + (t + 1) : ℕ) : ℤ)) := by positivity
      have hpow : (2 : ℝ) ^ (-((k + t : ℕ) : ℤ)) = 2 * (2 : ℝ) ^ (-((k + (t + 1) : ℕ) : ℤ)) := by
        rw [show (-((k + t : ℕ) : ℤ)) = 1 + (-((k + (t + 1) : ℕ) : ℤ)) by push_cast; ring, zpow_add₀ (by norm_num), zpow_one]
      set z := (2 : ℝ) ^ (-((k + (t + 1) : ℕ) : ℤ)) with hzdef
      have hlow' : low = (2 * m : ℕ) * z := by rw [hlow, hpow]; push_cast; ring
      have hhigh' : high = (2 * m + 1 + 1 : ℕ) * z := by rw [hhigh, hpow]; push_cast; ring
      have e : low + high = (2 * m + 1 : ℕ) * (2 : ℝ) ^ (-((k + t : ℕ) : ℤ)) := by rw [hlow, hhigh]; push_cast; ring
      have h2 : 2 ^ (t + 2) ≤ 2 ^ p := Nat.pow_le_pow_right (by norm_num) (by omega)
      have h3 : 2 ^ (t + 2) = 2 * 2 ^ (t + 1) := by rw [pow_succ']
      have h4 : 2 ^ (t + 1) = 2 * 2 ^ t := by rw [pow_succ']
      have hmid : roundTo p (roundTo p (low + high) / 2) = (2 * m + 1 : ℕ) * z := by
        rw [e, roundTo_nat hp (by omega), hpow, show ((2 * m + 1 : ℕ) : ℝ) * (2 * z) / 2 = (2 * m + 1 : ℕ) * z by ring, hzdef,
          roundTo_nat hp (by omega)]
      have hle1 : (2 : ℝ) ^ (t + 1) * (2 : ℝ) ^ (-((k + t : ℕ) : ℤ)) ≤ 1 := by
        rw [← zpow_natCast, ← zpow_add₀ (by norm_num)]
        have : (2 : ℝ) ^ (((t + 1 : ℕ) : ℤ) + -((k + t : ℕ) : ℤ)) ≤ (2 : ℝ) ^ (0 : ℤ) := zpow_le_zpow_right₀ (by norm_num) (by push_cast; omega)
        simpa using this
      have hh1 : high ≤ 1 := by
        refine le_trans ?_ hle1
        rw [hhigh]
        exact mul_le_mul_of_nonneg_right (by exact_mod_cast hm2) (by positivity)
      have hlm : low < (2 * m + 1 : ℕ) * z := by rw [hlow']; exact mul_lt_mul_of_pos_right (by exact_mod_cast (by omega)) hz
      have hmh : (2 * m + 1 : ℕ) * z < high := by rw [hhigh']; exact mul_lt_mul_of_pos_right (by exact_mod_cast (by omega)) hz
      have hlow0 : 0 ≤ low := by rw [hlow']; positivity
      obtain ⟨s1, s2⟩ := bisect_step hD a (rem := rem) (i := k + t) mid hl hmid
        ⟨2 * m + 1, k + (t + 1), by omega, by omega, by omega, rfl, by linarith⟩
      by_cases hlast : D ((2 * m + 1 : ℕ) * z) < a
      · rw [s1 hlast, if_neg (by linarith)]
        exact ih (t + 1) (2 * m + 1) rem _ _ (by omega) (by omega) (by omega) (by omega) _ _ rfl hhigh'
          (not_sameRange (Or.inl hlm.ne)) hlast hab
      · rw [s2 (not_lt.mp hlast), if_neg (by linarith)]
        exact ih (t + 1) (2 * m) rem _ _ (by omega) (by omega) (by omega) (by omega) _ _ hlow' rfl
          (not_sameRange (Or.inr hmh.ne')) hbl (Or.inl (not_lt.mp hlast))

/-- The first phase: the left end is still 0. -/
theorem bisect_coarse (hp : 1 ≤ p) (hp2 : p ≤ 107) {dist : Fp p → M (Fp p)} {D : ℝ → ℝ}
    (hD : ∀ x ∈ bisectGrid p, dist (fpR p x) = .ok (fpR p (D x))) (a : ℝ) {k : ℕ}
    (hk : D ((2 : ℝ) ^ (-(k : ℤ))) < a) (hmin : ∀ j : ℕ, 1 ≤ j → j < k → a ≤ D ((2 : ℝ) ^ (-(j : ℤ)))) (s : ℕ) :
    ∀ (j rem : ℕ) (last : Option (Fp p × Fp p)) (mid : Fp p), j + s + 1 = k → rem + j = 110 → ∀ high : ℝ,
      high = (2 : ℝ) ^ (-(j : ℤ)) → ¬ sameRange last (fpR p 0) (fpR p high) →
      Ends p D a k (bisectLoop dist (fpR p a) rem j (fpR p 0) (fpR p high) last mid) := by
  induction s with
  | zero =>
    intro j rem last mid hjs hrem high hhigh hl
    obtain rfl : k = j + 1 := by omega
    cases rem with
    | zero => exact ⟨_, _, bisectLoop_zero .., by omega, fun h => by omega⟩
    | succ rem =>
      have hhalf : high = 2 * (2 : ℝ) ^ (-((j + 1 : ℕ) : ℤ)) := by
        rw [hhigh, show (-(j : ℤ)) = 1 + (-((j + 1 : ℕ) : ℤ)) by push_cast; ring, zpow_add₀ (by norm_num), zpow_one]
      have hz : (0 : ℝ) < (2 : ℝ) ^ (-((j + 1 : ℕ) : ℤ)) := by positivity
      have hmid : roundTo p (roundTo p (0 + high) / 2) = (2 : ℝ) ^ (-((j + 1 : ℕ) : ℤ)) := by
        have h1 := roundTo_nat (m := 1) hp (Nat.one_le_two_pow) (-(j : ℤ))
        have h2 := roundTo_nat (m := 1) hp (Nat.one_le_two_pow) (-((j + 1 : ℕ) : ℤ))
        rw [Nat.cast_one, one_mul] at h1 h2
        rw [zero_add, hhigh, h1, ← hhigh, hhalf, mul_div_cancel_left₀ _ (by norm_num), h2]
      have hh1 : high ≤ 1 := by
        rw [hhigh]
        have : (2 : ℝ) ^ (-(j : ℤ)) ≤ (2 : ℝ) ^ (0 : ℤ) := zpow_le_zpow_right₀ (by norm_num) (by omega)
        simpa using this
      obtain ⟨s1, -⟩ := bisect_step hD a (rem := rem) (i := j) mid hl hmid (grid_pow (by omega))
      rw [s1 hk, if_neg (by linarith)]
      refine bisect_fine hp hp2 hD a (k := j + 1) (by omega) (p - 1) 0 1 rem _ _ (by omega) (by norm_num) (by norm_num) (by omega) _ _ ?_ ?_
        (not_sameRange (Or.inl hz.ne)) hk ?_
      · rw [Nat.cast_one, one_mul]
      · rw [hhalf]; norm_num
      · rcases Nat.eq_zero_or_pos j with rfl | hj
        · right; rw [hhigh]; norm_num
        · left; rw [hhigh]; exact hmin j hj (by omega)
  | succ s ih =>
    intro j rem last mid hjs hrem high hhigh hl
    cases rem with
    | zero => exact ⟨_, _, bisectLoop_zero .., by omega, fun h => by omega⟩
    | succ rem =>
      have hhalf : high = 2 * (2 : ℝ) ^ (-((j + 1 : ℕ) : ℤ)) := by
        rw [hhigh, show (-(j : ℤ)) = 1 + (-((j + 1 : ℕ) : ℤ)) by push_cast; ring, zpow_add₀ (by norm_num), zpow_one]
      have hz : (0 : ℝ) < (2 : ℝ) ^ (-((j + 1 : ℕ) : ℤ)) := by positivity
      have hmid : roundTo p (roundTo p (0 + high) / 2) = (2 : ℝ) ^ (-((j + 1 : ℕ) : ℤ)) := by
        have h1 := roundTo_nat (m := 1) hp (Nat.one_le_two_pow) (-(j : ℤ))
        have h2 := roundTo_nat (m := 1) hp (Nat.one_le_two_pow) (-((j + 1 : ℕ) : ℤ))
        rw [Nat.cast_one, one_mul] at h1 h2
        rw [zero_add, hhigh, h1, ← hhigh, hhalf, mul_div_cancel_left₀ _ (by norm_num), h2]
      have hh1 : high ≤ 1 := by
        rw [hhigh]
        have : (2 : ℝ) ^ (-(j : ℤ)) ≤ (2 : ℝ) ^ (0 : ℤ) := zpow_le_zpow_right₀ (by norm_num) (by omega)
        simpa using this
      obtain ⟨-, s2⟩ := bisect_step hD a (rem := rem) (i := j) mid hl hmid (grid_pow (by omega))
      rw [s2 (hmin (j + 1) (by omega) (by omega)), if_neg (by linarith)]
      exact ih (j + 1) rem _ _ (by omega) (by omega) _ rfl (not_sameRange (Or.inr (by linarith)))

/-- `inverse_Mn_plus` in `p`-bit arithmetic when the level is first passed at `2^-k`. -/
theorem bisect_found (hp : 1 ≤ p) (hp2 : p ≤ 107) {dist : Fp p → M (Fp p)} {D : ℝ → ℝ}
    (hD : ∀ x ∈ bisectGrid p, dist (fpR p x) = .ok (fpR p (D x))) (a : ℝ) {k : ℕ} (hk1 : 1 ≤ k)
    (hk : D ((2 : ℝ) ^ (-(k : ℤ))) < a) (hmin : ∀ j : ℕ, 1 ≤ j → j < k → a ≤ D ((2 : ℝ) ^ (-(j : ℤ)))) :
    (k + p ≤ 108 → ∃ r low high : ℝ, bisect dist (fpR p a) = .ok (fpR p r) ∧ Bracket p D a k r low high) ∧
    (109 ≤ k + p → bisect dist (fpR p a)
      = .error (.uncaught "AssertionError: Reached N_BINARY_SEARCH_STEPS_MAX => did not converge!")) := by
  have h := bisect_coarse hp hp2 hD a hk hmin (k - 1) 0 110 none (fpR p 0) (by omega) rfl 1 (by norm_num) (by rintro ⟨l, h, e, -⟩; cases e)
  obtain ⟨i, r, e, h1, h2⟩ := h
  have e0 : (zero : Fp p) = fpR p 0 := by show (some ((0 : ℤ) : ℝ) : Option ℝ) = some 0; simp
  have e1 : (one : Fp p) = fpR p 1 := by show (some ((1 : ℤ) : ℝ) : Option ℝ) = some 1; simp
  have e' : bisectLoop dist (fpR p a) bisectStepsMax 0 zero one none zero = .ok (i, r) := by rw [e0, e1]; exact e
  constructor
  · intro hkp
    obtain ⟨r', low, high, rfl, hb⟩ := h2 hkp
    refine ⟨r', low, high, ?_, hb⟩
    have hr : r' ∈ bisectGrid p := by
      rcases hb.res with h | h
      · rw [h]; exact hb.on_grid.1
      · rw [h]; exact hb.on_grid.2
    unfold bisect
    rw [e', M_ok_bind]
    dsimp only
    rw [if_pos (by unfold bisectStepsMax; exact h1.mpr hkp), hD r' hr, M_ok_bind]
  · intro hkp
    unfold bisect
    rw [e', M_ok_bind]
    dsimp only
    rw [if_neg (by unfold bisectStepsMax; omega)]

/-- When no power of two down to `2^-110` passes the level, it fails. -/
theorem bisect_none (hp : 1 ≤ p) {dist : Fp p → M (Fp p)} {D : ℝ → ℝ}
    (hD : ∀ x ∈ bisectGrid p, dist (fpR p x) = .ok (fpR p (D x))) (a : ℝ)
    (hmin : ∀ j : ℕ, 1 ≤ j → j ≤ 110 → a ≤ D ((2 : ℝ) ^ (-(j : ℤ)))) :
    bisect dist (fpR p a) = .error (.uncaught "AssertionError: Reached N_BINARY_SEARCH_STEPS_MAX => did not converge!") := by
  have key : ∀ (rem j : ℕ) (last : Option (Fp p × Fp p)) (mid : Fp p), rem + j = 110 → ∀ high : ℝ,
      high = (2 : ℝ) ^ (-(j : ℤ)) → ¬ sameRange last (fpR p 0) (fpR p high) →
      ∃ r, bisectLoop dist (fpR p a) rem j (fpR p 0) (fpR p high) last mid = .ok (109, r) := by
    intro rem
    induction rem with
    | zero =>
      intro j last mid hrem high _ _
      obtain rfl : j = 110 := by omega
      exact ⟨_, bisectLoop_zero ..⟩
    | succ rem ih =>
      intro j last mid hrem high hhigh hl
      have hhalf : high = 2 * (2 : ℝ) ^ (-((j + 1 : ℕ) : ℤ)) := by
        rw [hhigh, show (-(j : ℤ)) = 1 + (-((j + 1 : ℕ) : ℤ)) by push_cast; ring, zpow_add₀ (by norm_num), zpow_one]
      have hz : (0 : ℝ) < (2 : ℝ) ^ (-((j + 1 : ℕ) : ℤ)) := by positivity
      have hmid : roundTo p (roundTo p (0 + high) / 2) = (2 : ℝ) ^ (-((j + 1 : ℕ) : ℤ)) := by
        have h1 := roundTo_nat (m := 1) hp (Nat.one_le_two_pow) (-(j : ℤ))
        have h2 := roundTo_nat (m := 1) hp (Nat.one_le_two_pow) (-((j + 1 : ℕ) : ℤ))
        rw [Nat.cast_one, one_mul] at h1 h2
        rw [zero_add, hhigh, h1, ← hhigh, hhalf, mul_div_cancel_left₀ _ (by norm_num), h2]
      have hh1 : high ≤ 1 := by
        rw [hhigh]
        have : (2 : ℝ) ^ (-(j : ℤ)) ≤ (2 : ℝ) ^ (0 : ℤ) := zpow_le_zpow_right₀ (by norm_num) (by omega)
        simpa using this
      obtain ⟨-, s2⟩ := bisect_step hD a (rem := rem) (i := j) mid hl hmid (grid_pow (by omega))
      rw [s2 (hmin (j + 1) (by omega) (by omega)), if_neg (by linarith)]
      exact ih (j + 1) _ _ (by omega) _ rfl (not_sameRange (Or.inr (by linarith)))
  obtain ⟨r, e⟩ := key 110 0 none (fpR p 0) rfl 1 (by norm_num) (by rintro ⟨l, h, e, -⟩; cases e)
  have e0 : (zero : Fp p) = fpR p 0 := by show (some ((0 : ℤ) : ℝ) : Option ℝ) = some 0; simp
  have e1 : (one : Fp p) = fpR p 1 := by show (some ((1 : ℤ) : ℝ) : Option ℝ) = some 1; simp
  have e' : bisectLoop dist (fpR p a) bisectStepsMax 0 zero one none zero = .ok (109, r) := by rw [e0, e1]; exact e
  unfold bisect
  rw [e', M_ok_bind]
  dsimp only
  rw [if_neg (by unfold bisectStepsMax; omega)]

/-- In exact arithmetic the range is halved in every iteration and the loop never stops early. -/
theorem bisect_exact {dist : XR → M XR} {D : ℝ → XR} (hD : ∀ x ∈ Icc (0 : ℝ) 1, dist (XR.fin x) = .ok (D x)) (a : XR) :
    bisect dist a = .error (.uncaught "AssertionError: Reached N_BINARY_SEARCH_STEPS_MAX => did not converge!") := by
  have hmidX : ∀ x y : ℝ, (XR.fin x +ᶠ XR.fin y) /ᶠ ofInt 2 = XR.fin ((x + y) / 2) := by
    intro x y
    rw [XR.add_fin, XR.ofInt_eq, XR.div_fin _ (by norm_num)]; norm_num
  have hge : ∀ x y : ℝ, x < y → ¬ FOps.ge (XR.fin x) (XR.fin y) = true := by
    intro x y h
    simp only [FOps.ge, XR.lt_fin, XR.eq_fin, Bool.or_eq_true, decide_eq_true_eq, not_or, not_lt]
    exact ⟨h.le, h.ne⟩
  have key : ∀ (rem j : ℕ) (last : Option (XR × XR)) (mid : XR), rem + j = 110 → ∀ low high : ℝ, 0 ≤ low → low < high → high ≤ 1 →
      ¬ sameRange last (XR.fin low) (XR.fin high) →
      ∃ r, bisectLoop dist a rem j (XR.fin low) (XR.fin high) last mid = .ok (109, r) := by
    intro rem
    induction rem with
    | zero =>
      intro j last mid hrem low high _ _ _ _
      obtain rfl : j = 110 := by omega
      exact ⟨_, bisectLoop_zero ..⟩
    | succ rem ih =>
      intro j last mid hrem low high h0 hlt h1 hl
      rw [bisectLoop_go rem j mid hl (hmidX low high) (hD _ ⟨by linarith, by linarith⟩)]
      have hns : ∀ x y : ℝ, low ≠ x ∨ high ≠ y → ¬ sameRange (some (XR.fin low, XR.fin high)) (XR.fin x) (XR.fin y) := by
        rintro x y h ⟨l, hh, e, h1, h2⟩
        cases e
        simp only [XR.eq_fin, decide_eq_true_eq] at h1 h2
        rcases h with h | h
        · exact h h1
        · exact h h2
      by_cases h : lt (D ((low + high) / 2)) a = true
      · simp only [h, if_true]
        rw [if_neg (hge _ _ (by linarith))]
        exact ih (j + 1) _ _ (by omega) _ _ (by linarith) (by linarith) (by linarith) (hns _ _ (Or.inl (by linarith)))
      · simp only [h, Bool.false_eq_true, if_false]
        rw [if_neg (hge _ _ (by linarith))]
        exact ih (j + 1) _ _ (by omega) _ _ (by linarith) (by linarith) (by linarith) (hns _ _ (Or.inr (by linarith)))
  obtain ⟨r, e⟩ := key 110 0 none (XR.fin 0) rfl 0 1 le_rfl one_pos le_rfl (by rintro ⟨l, h, e, -⟩; cases e)
  have e' : bisectLoop dist a bisectStepsMax 0 zero one none zero = .ok (109, r) := by rw [XR.zero_eq, XR.one_eq]; exact e
  unfold bisect
  rw [e', M_ok_bind]
  dsimp only
  rw [if_neg (by unfold bisectStepsMax; omega)]

end CP.Spec
