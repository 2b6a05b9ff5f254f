import Verif.OutputSpec
import Verif.Props.Strings
import Mathlib.Data.Int.Log
/-! Facts about `%.6g`. -/
namespace CP.Spec
open CP.Props

theorem natOf_append (a b : Str) : natOf (a ++ b) = natOf a * 10 ^ b.length + natOf b := by
  unfold natOf
  rw [List.foldl_append]
  generalize a.foldl (fun a c => 10 * a + (c.toNat - '0'.toNat)) 0 = r
  induction b generalizing r with
  | nil => simp
  | cons c b ih =>
    rw [List.foldl_cons, List.foldl_cons, ih, ih (10 * 0 + _), List.length_cons, pow_succ]
    ring

theorem natOf_zeros (k : ℕ) : natOf (List.replicate k '0') = 0 := by
  induction k with
  | zero => rfl
  | succ k ih =>
    rw [List.replicate_succ', natOf_append, ih]
    rfl

theorem strip0_spec (l : Str) : ∃ k, l = strip0 l ++ List.replicate k '0' := by
  unfold strip0
  refine ⟨(l.reverse.takeWhile fun c => c = '0').length, ?_⟩
  have h := List.takeWhile_append_dropWhile (p := fun c => decide (c = '0')) (l := l.reverse)
  have h2 : (l.reverse.takeWhile fun c => decide (c = '0')) = List.replicate (l.reverse.takeWhile fun c => decide (c = '0')).length '0' := by
    rw [List.eq_replicate_iff]
    refine ⟨rfl, fun c hc => ?_⟩
    have := List.all_eq_true.mp (List.all_takeWhile (p := fun c => decide (c = '0')) (l := l.reverse)) c hc
    simpa using this
  have h3 := congrArg List.reverse h
  rw [List.reverse_append, List.reverse_reverse] at h3
  conv_lhs => rw [← h3, h2, List.reverse_replicate]

/-- Removing trailing zeros after the point does not change the value. -/
theorem frac_value (int l : Str) (e : ℤ) :
    (natOf (int ++ (fracPart l).getD []) : ℝ) * (10 : ℝ) ^ (e - ((fracPart l).getD []).length)
      = (natOf (int ++ l) : ℝ) * (10 : ℝ) ^ (e - l.length) := by
  have hf : (fracPart l).getD [] = strip0 l := by
    unfold fracPart
    split
    · rename_i h; rw [h]; rfl
    · rfl
  rw [hf]
  obtain ⟨k, hk⟩ := strip0_spec l
  generalize strip0 l = s at hk ⊢
  subst hk
  rw [← List.append_assoc, natOf_append (int ++ s), natOf_zeros, List.length_append, List.length_replicate]
  push_cast
  rw [show e - ((s.length : ℤ) + k) = (e - s.length) - k by ring, zpow_sub₀ (by norm_num) (e - (s.length : ℤ)) k, zpow_natCast]
  field_simp
  ring

theorem toString_length {m : ℕ} (h1 : 100000 ≤ m) (h2 : m < 1000000) : (toString m).toList.length = 6 := by
  have e : (toString m).toList = Nat.toDigits 10 m := by
    show (Nat.repr m).toList = _
    rw [Nat.toList_repr]
  rw [e]
  have ha := (Nat.length_toDigits_le_iff (b := 10) (k := 6) (n := m) (by norm_num) (by norm_num)).mpr (by omega)
  have hb : ¬ (Nat.toDigits 10 m).length ≤ 5 := by
    intro h
    have := (Nat.length_toDigits_le_iff (b := 10) (k := 5) (n := m) (by norm_num) (by norm_num)).mp h
    omega
  omega

theorem allDigits_append {a b : Str} (ha : AllDigits a) (hb : AllDigits b) : AllDigits (a ++ b) := by
  intro c hc
  rcases List.mem_append.mp hc with h | h
  · exact ha c h
  · exact hb c h

theorem allDigits_of_sub {a b : Str} (ha : AllDigits a) (h : ∀ c ∈ b, c ∈ a) : AllDigits b := fun c hc => ha c (h c hc)

theorem allDigits_frac {l : Str} (h : AllDigits l) : AllDigits ((fracPart l).getD []) := by
  unfold fracPart
  split
  · intro c hc; cases hc
  · obtain ⟨k, hk⟩ := strip0_spec l
    exact allDigits_of_sub h fun c hc => by rw [hk]; exact List.mem_append_left _ hc

theorem expDigits_spec (k : ℕ) : AllDigits (expDigits k) ∧ expDigits k ≠ [] ∧ natOf (expDigits k) = k := by
  obtain ⟨h1, h2, h3⟩ := allDigits_repr k
  unfold expDigits
  split
  · refine ⟨?_, by simp, ?_⟩
    · intro c hc
      rcases List.mem_cons.mp hc with rfl | hc
      · decide
      · exact h1 c hc
    · rw [show '0' :: (toString k).toList = ['0'] ++ (toString k).toList from rfl, natOf_append, h3]
      simp [natOf]
  · exact ⟨h1, h2, h3⟩

/-- `%.6g` writes a decimal number. -/
theorem g6_wf (sg : Sign) {m : ℕ} (X : ℤ) (h1 : 100000 ≤ m) (h2 : m < 1000000) : (g6 sg m X).WF := by
  obtain ⟨d1, d2, -⟩ := allDigits_repr m
  have hlen := toString_length h1 h2
  unfold g6
  dsimp only
  split
  · refine ⟨allDigits_of_sub d1 fun c hc => List.mem_of_mem_take hc, allDigits_frac (allDigits_of_sub d1 fun c hc => List.mem_of_mem_drop hc), ?_, by simp⟩
    intro h
    have := congrArg List.length (List.append_eq_nil_iff.mp h).1
    simp at this
  · split
    · refine ⟨fun c hc => ?_, allDigits_frac (allDigits_append (fun c hc => ?_) d1), by simp, by simp⟩
      · rw [List.mem_singleton] at hc; subst hc; decide
      · rw [List.eq_of_mem_replicate hc]; decide
    · refine ⟨allDigits_of_sub d1 fun c hc => List.mem_of_mem_take hc, allDigits_frac (allDigits_of_sub d1 fun c hc => List.mem_of_mem_drop hc), ?_, ?_⟩
      · intro h
        have := congrArg List.length (List.append_eq_nil_iff.mp h).1
        simp at this
      · rintro c s ds h
        simp only [Option.some.injEq, Prod.mk.injEq] at h
        obtain ⟨rfl, -, rfl⟩ := h
        exact ⟨Or.inl rfl, (expDigits_spec _).1, (expDigits_spec _).2.1⟩

/-- The number `%.6g` writes. -/
theorem g6_value (sg : Sign) {m : ℕ} (X : ℤ) (h1 : 100000 ≤ m) (h2 : m < 1000000) :
    (g6 sg m X).value = sg.unit * (m * (10 : ℝ) ^ (X - 5)) := by
  obtain ⟨-, -, d3⟩ := allDigits_repr m
  have hlen := toString_length h1 h2
  unfold Dec.value Dec.fracDigits g6 Dec.expVal
  dsimp only
  split
  · rename_i h
    dsimp only
    rw [mul_assoc, frac_value, List.take_append_drop, d3, List.length_drop, hlen]
    congr 3
    have : X.toNat + 1 ≤ 6 := by omega
    push_cast [this]
    omega
  · split
    · rename_i h
      dsimp only
      rw [mul_assoc, frac_value, natOf_append, natOf_append, natOf_zeros, d3, List.length_append, List.length_replicate, hlen]
      rw [show natOf ['0'] = 0 from rfl]
      congr 1
      rw [Nat.zero_mul, Nat.zero_mul, Nat.zero_add, Nat.zero_add]
      congr 2
      omega
    · rename_i h h'
      dsimp only
      rw [mul_assoc, frac_value, List.take_append_drop, d3, List.length_drop, hlen, (expDigits_spec _).2.2]
      congr 3
      split <;> simp only [Sign.unit] <;> omega

/-- The rounding of `SixDigits`. -/
theorem sixDigits_spec {a : ℝ} {m : ℕ} {X : ℤ} (h : SixDigits a m X) :
    100000 ≤ m ∧ m < 1000000 ∧ |m * (10 : ℝ) ^ (X - 5) - a| ≤ 5 / 10 ^ 6 * a := by
  obtain ⟨e, m0, h1, h2, h3, hc⟩ := h
  have s0 : (0 : ℝ) < (10 : ℝ) ^ (e - 5) := by positivity
  have e1 : (10 : ℝ) ^ e = 100000 * (10 : ℝ) ^ (e - 5) := by
    rw [show e = 5 + (e - 5) by ring, zpow_add₀ (by norm_num)]; norm_num
  have e2 : (10 : ℝ) ^ (e + 1) = 1000000 * (10 : ℝ) ^ (e - 5) := by
    rw [show e + 1 = 6 + (e - 5) by ring, zpow_add₀ (by norm_num)]; norm_num
  rw [e1] at h1
  rw [e2] at h2
  obtain ⟨q1, q2⟩ := abs_le.mp h3
  have r1 : 100000 ≤ a / (10 : ℝ) ^ (e - 5) := by rw [le_div_iff₀ s0]; exact h1
  have r2 : a / (10 : ℝ) ^ (e - 5) < 1000000 := by rw [div_lt_iff₀ s0]; exact h2
  have l1 : 100000 ≤ m0 := by
    by_contra hlt
    have : (m0 : ℝ) ≤ 99999 := by exact_mod_cast (by omega : m0 ≤ 99999)
    linarith
  have key : |m0 * (10 : ℝ) ^ (e - 5) - a| ≤ 5 / 10 ^ 6 * a := by
    have : m0 * (10 : ℝ) ^ (e - 5) - a = -(a / (10 : ℝ) ^ (e - 5) - m0) * (10 : ℝ) ^ (e - 5) := by field_simp; ring
    rw [this, abs_mul, abs_neg, abs_of_pos s0]
    calc _ ≤ 1 / 2 * (10 : ℝ) ^ (e - 5) := mul_le_mul_of_nonneg_right h3 s0.le
      _ ≤ _ := by linarith
  rcases hc with ⟨c1, rfl, rfl⟩ | ⟨rfl, rfl, rfl⟩
  · exact ⟨l1, c1, key⟩
  · refine ⟨le_rfl, by norm_num, ?_⟩
    rw [show e + 1 - 5 = 1 + (e - 5) by ring, zpow_add₀ (by norm_num)]
    push_cast at key
    rw [show ((100000 : ℕ) : ℝ) * ((10 : ℝ) ^ (1 : ℤ) * (10 : ℝ) ^ (e - 5)) = 1000000 * (10 : ℝ) ^ (e - 5) by push_cast; ring]
    exact key

/-- Every positive number has such a rounding. -/
theorem sixDigits_exists {a : ℝ} (ha : 0 < a) : ∃ m X, SixDigits a m X := by
  set e := Int.log 10 a with he
  have h1 := Int.zpow_log_le_self (b := 10) (by norm_num) ha
  have h2 := Int.lt_zpow_succ_log_self (b := 10) (by norm_num) a
  rw [← he] at h1 h2
  push_cast at h1 h2
  have s0 : (0 : ℝ) < (10 : ℝ) ^ (e - 5) := by positivity
  have e2 : (10 : ℝ) ^ (e + 1) = 1000000 * (10 : ℝ) ^ (e - 5) := by
    rw [show e + 1 = 6 + (e - 5) by ring, zpow_add₀ (by norm_num)]; norm_num
  have hr := abs_sub_round (a / (10 : ℝ) ^ (e - 5))
  have q0 : 0 ≤ a / (10 : ℝ) ^ (e - 5) := by positivity
  have q1 : a / (10 : ℝ) ^ (e - 5) < 1000000 := by rw [div_lt_iff₀ s0, ← e2]; exact h2
  obtain ⟨m0, hm⟩ : ∃ m0 : ℕ, round (a / (10 : ℝ) ^ (e - 5)) = m0 := by
    refine Int.eq_ofNat_of_zero_le ?_
    rw [round_eq]
    exact Int.floor_nonneg.mpr (by linarith)
  rw [hm] at hr
  have hle : m0 ≤ 1000000 := by
    by_contra hlt
    have h3 : ((1000001 : ℕ) : ℝ) ≤ m0 := by exact_mod_cast (by omega : 1000001 ≤ m0)
    push_cast at h3 hr
    have := (abs_le.mp hr).1
    linarith
  push_cast at hr
  by_cases h6 : m0 < 1000000
  · exact ⟨m0, e, e, m0, h1, h2, hr, Or.inl ⟨h6, rfl, rfl⟩⟩
  · exact ⟨100000, e + 1, e, m0, h1, h2, hr, Or.inr ⟨by omega, rfl, rfl⟩⟩

/-- Printing is monotone. -/
theorem sixDigits_mono {a a' : ℝ} {m m' : ℕ} {X X' : ℤ} (h : SixDigits a m X) (h' : SixDigits a' m' X') (hlt : a < a') :
    m * (10 : ℝ) ^ (X - 5) ≤ m' * (10 : ℝ) ^ (X' - 5) := by
  have norm : ∀ {a : ℝ} {m : ℕ} {X : ℤ}, SixDigits a m X → ∃ (e : ℤ) (m0 : ℕ), (10 : ℝ) ^ e ≤ a ∧ a < (10 : ℝ) ^ (e + 1) ∧
      |a / (10 : ℝ) ^ (e - 5) - m0| ≤ 1 / 2 ∧ m * (10 : ℝ) ^ (X - 5) = m0 * (10 : ℝ) ^ (e - 5) ∧
      (10 : ℝ) ^ e ≤ m0 * (10 : ℝ) ^ (e - 5) ∧ m0 * (10 : ℝ) ^ (e - 5) ≤ (10 : ℝ) ^ (e + 1) := by
    intro a m X h
    have hs := sixDigits_spec h
    obtain ⟨e, m0, h1, h2, h3, hc⟩ := h
    have s0 : (0 : ℝ) < (10 : ℝ) ^ (e - 5) := by positivity
    have e1 : (10 : ℝ) ^ e = 100000 * (10 : ℝ) ^ (e - 5) := by
      rw [show e = 5 + (e - 5) by ring, zpow_add₀ (by norm_num)]; norm_num
    have e2 : (10 : ℝ) ^ (e + 1) = 1000000 * (10 : ℝ) ^ (e - 5) := by
      rw [show e + 1 = 6 + (e - 5) by ring, zpow_add₀ (by norm_num)]; norm_num
    refine ⟨e, m0, h1, h2, h3, ?_, ?_, ?_⟩
    · rcases hc with ⟨c1, rfl, rfl⟩ | ⟨rfl, rfl, rfl⟩
      · rfl
      · rw [show e + 1 - 5 = 1 + (e - 5) by ring, zpow_add₀ (by norm_num)]; push_cast; ring
    · rw [e1]
      refine mul_le_mul_of_nonneg_right ?_ s0.le
      rcases hc with ⟨c1, rfl, rfl⟩ | ⟨rfl, rfl, rfl⟩
      · exact_mod_cast hs.1
      · norm_num
    · rw [e2]
      refine mul_le_mul_of_nonneg_right ?_ s0.le
      rcases hc with ⟨c1, rfl, rfl⟩ | ⟨rfl, rfl, rfl⟩
      · exact_mod_cast c1.le
      · norm_num
  obtain ⟨e, k, h1, h2, h3, h4, h5, h6⟩ := norm h
  obtain ⟨e', k', g1, g2, g3, g4, g5, g6⟩ := norm h'
  rw [h4, g4]
  rcases lt_trichotomy e e' with hl | rfl | hl
  · calc _ ≤ (10 : ℝ) ^ (e + 1) := h6
      _ ≤ (10 : ℝ) ^ e' := zpow_le_zpow_right₀ (by norm_num) (by omega)
      _ ≤ _ := g5
  · have s0 : (0 : ℝ) < (10 : ℝ) ^ (e - 5) := by positivity
    refine mul_le_mul_of_nonneg_right ?_ s0.le
    have : a / (10 : ℝ) ^ (e - 5) < a' / (10 : ℝ) ^ (e - 5) := div_lt_div_of_pos_right hlt s0
    have hk : (k : ℝ) < k' + 1 := by linarith [(abs_le.mp h3).1, (abs_le.mp g3).2]
    have : k < k' + 1 := by exact_mod_cast hk
    exact_mod_cast (by omega : k ≤ k')
  · exfalso
    have := zpow_le_zpow_right₀ (show (1 : ℝ) ≤ 10 by norm_num) (show e' + 1 ≤ e by omega)
    linarith

end CP.Spec
