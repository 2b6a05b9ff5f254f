import Verif.Props.RoundingMns
import Verif.Proofs.Bisect
/-! A run of `ecdf1_mns2016_b` in 64-bit (x87) precision that ends in the logarithm of a negative number. -/
set_option maxRecDepth 4000
namespace CP.Spec
open FOps CP.Props

/-- `|z|` is rounded to `w = m s`, `s = 2^e`. -/
theorem roundTo_of_grid {p : ℕ} {z w s : ℝ} (m : ℕ) (e : ℤ) (hs : (2 : ℝ) ^ e = s) (hw : w = m * s)
    (h1 : 2 ^ (p - 1 : ℤ) * s ≤ z) (h2 : z < 2 ^ (p : ℤ) * s) (h3 : z - w < s / 2) (h4 : w - z < s / 2) :
    roundTo p z = w ∧ roundTo p (-z) = -w := by
  have s0 : 0 < s := by rw [← hs]; positivity
  have z0 : 0 < z := lt_of_lt_of_le (by positivity) h1
  have hlog : Int.log 2 z = e + p - 1 := by
    refine int_log_eq ?_ ?_
    · rw [show e + (p : ℤ) - 1 = (p - 1 : ℤ) + e by ring, zpow_add₀ (by norm_num), hs]; exact h1
    · rw [show e + (p : ℤ) - 1 + 1 = (p : ℤ) + e by ring, zpow_add₀ (by norm_num), hs]; exact h2
  have he : Int.log 2 z - (p : ℤ) + 1 = e := by rw [hlog]; ring
  have q1 : z / s - 1 / 2 < m := by rw [sub_lt_iff_lt_add, div_lt_iff₀ s0]; nlinarith
  have q2 : (m : ℝ) < z / s + 1 / 2 := by rw [← sub_lt_iff_lt_add, lt_div_iff₀ s0]; nlinarith
  constructor
  · unfold roundTo
    rw [abs_of_pos z0, he, hs, hw]
    congr 1
    have : round (z / s) = (m : ℤ) := by
      rw [round_eq, Int.floor_eq_iff]
      push_cast
      constructor <;> linarith
    rw [this]; simp
  · unfold roundTo
    rw [abs_neg, abs_of_pos z0, he, hs, hw, ← neg_mul]
    congr 1
    have : round (-z / s) = -(m : ℤ) := by
      rw [round_eq, Int.floor_eq_iff, neg_div]
      push_cast
      constructor <;> linarith
    rw [this]; simp

theorem rp {z z' w s : ℝ} (m : ℕ) (e : ℤ) (hs : (2 : ℝ) ^ e = s) (hz : z' = z) (hw : w = m * s)
    (h1 : 9223372036854775808 * s ≤ z) (h2 : z < 18446744073709551616 * s) (h3 : z - w < s / 2) (h4 : w - z < s / 2) :
    roundTo 64 z' = w := by
  subst hz
  exact (roundTo_of_grid m e hs hw (by norm_num; exact h1) (by norm_num; exact h2) h3 h4).1

theorem rn {z z' w s : ℝ} (m : ℕ) (e : ℤ) (hs : (2 : ℝ) ^ e = s) (hz : z' = -z) (hw : w = -(m * s))
    (h1 : 9223372036854775808 * s ≤ z) (h2 : z < 18446744073709551616 * s) (h3 : z + w < s / 2) (h4 : -w - z < s / 2) :
    roundTo 64 z' = w := by
  subst hz
  have := (roundTo_of_grid (p := 64) (w := -w) m e hs (by rw [hw, neg_neg]) (by norm_num; exact h1) (by norm_num; exact h2)
    (by linarith) h4).2
  rwa [neg_neg] at this

theorem rz {p : ℕ} {z : ℝ} (hz : z = 0) : roundTo p z = 0 := by subst hz; exact roundTo_zero p

/-- A run of `evaluate` from its table of intermediate results. -/
theorem eval_chain {p : ℕ} (d : ℕ) {mu al : ℕ → Fp p} {x : ℝ} {m a t q pr s : ℕ → ℝ}
    (hm : ∀ i ≤ d, mu i = fpR p (m i)) (ha : ∀ i ≤ d, al i = fpR p (a i)) (hs0 : s 0 = 0)
    (h : ∀ i ≤ d, roundTo p (x + a i) = t i ∧ roundTo p (t i ^ i) = q i ∧ roundTo p (m i * q i) = pr i ∧
      roundTo p (s i + pr i) = s (i + 1)) :
    evalF d mu al (fpR p x) = fpR p (s (d + 1)) := by
  unfold evalF
  have key : ∀ k, k ≤ d + 1 → (List.range k).foldl (fun r i => r +ᶠ mu i *ᶠ powi (fpR p x +ᶠ al i) (i : Int)) zero
      = fpR p (s k) := by
    intro k
    induction k with
    | zero => intro _; rw [hs0]; show (some ((0 : ℤ) : ℝ) : Option ℝ) = some 0; simp
    | succ k ih =>
      intro hk
      obtain ⟨h1, h2, h3, h4⟩ := h k (by omega)
      rw [List.range_succ, List.foldl_append, ih (by omega)]
      simp only [List.foldl_cons, List.foldl_nil]
      rw [hm k (by omega), ha k (by omega)]
      show (some (roundTo p (s k + roundTo p (m k * roundTo p (roundTo p (x + a k) ^ ((k : ℕ) : ℤ))))) : Option ℝ) = some (s (k + 1))
      rw [h1, zpow_natCast, h2, h3, h4]
  exact key (d + 1) le_rfl

/-- The multiplicative coefficients after each step of the NaN example. -/
noncomputable def nanMu : ℕ → List ℝ
  | 0 => [1]
  | 1 => [0, 1]
  | 2 => [-(72057578468672329 / 144115188075855872), 0, 1 / 2]
  | 3 => [-(12297825396743814315 / 73786976294838206464), -(72057578468672329 / 144115188075855872), 0, 12297829382473034411 / 73786976294838206464]
  | _ => [-(6148912034083847339 / 147573952589676412928), -(12297825396743814315 / 73786976294838206464), -(72057578468672329 / 288230376151711744), 0, 12297829382473034411 / 295147905179352825856]
/-- The additive coefficients after each step of the NaN example. -/
noncomputable def nanAl : ℕ → List ℝ
  | 0 => [0]
  | 1 => [0, 0]
  | 2 => [0, -(268435427 / 268435456), 0]
  | 3 => [0, -(268435427 / 268435456), -(268435427 / 268435456), 0]
  | _ => [0, -(268435427 / 268435456), -(268435427 / 268435456), -(268435427 / 268435456), 0]
theorem nanEval0 {mu al : ℕ → Fp 64} (hm : ∀ i ≤ 1, mu i = fpR 64 (([0, 1] : List ℝ).getD i 0))
    (ha : ∀ i ≤ 1, al i = fpR 64 (([0, 0] : List ℝ).getD i 0)) : evalF 1 mu al (fpR 64 (0)) = fpR 64 (0) := by
  have h := eval_chain 1 (x := 0) (t := fun i => ([0, 0] : List ℝ).getD i 0) (q := fun i => ([1, 0] : List ℝ).getD i 0)
    (pr := fun i => ([0, 0] : List ℝ).getD i 0) (s := fun i => ([0, 0, 0] : List ℝ).getD i 0) hm ha rfl ?_
  · exact h
  · intro i hi
    interval_cases i
    · exact ⟨rz (by norm_num),
        rp 9223372036854775808 (-63) (s := 1 / 9223372036854775808) (z := 1) (by norm_num) (by norm_num) (by norm_num) (by norm_num) (by norm_num) (by norm_num) (by norm_num),
        rz (by norm_num),
        rz (by norm_num)⟩
    · exact ⟨rz (by norm_num),
        rz (by norm_num),
        rz (by norm_num),
        rz (by norm_num)⟩
theorem nanEval1 {mu al : ℕ → Fp 64} (hm : ∀ i ≤ 2, mu i = fpR 64 (([0, 0, 1 / 2] : List ℝ).getD i 0))
    (ha : ∀ i ≤ 2, al i = fpR 64 (([0, -(268435427 / 268435456), 0] : List ℝ).getD i 0)) : evalF 2 mu al (fpR 64 (268435427 / 268435456)) = fpR 64 (72057578468672329 / 144115188075855872) := by
  have h := eval_chain 2 (x := 268435427 / 268435456) (t := fun i => ([268435427 / 268435456, 0, 268435427 / 268435456] : List ℝ).getD i 0) (q := fun i => ([1, 0, 72057578468672329 / 72057594037927936] : List ℝ).getD i 0)
    (pr := fun i => ([0, 0, 72057578468672329 / 144115188075855872] : List ℝ).getD i 0) (s := fun i => ([0, 0, 0, 72057578468672329 / 144115188075855872] : List ℝ).getD i 0) hm ha rfl ?_
  · exact h
  · intro i hi
    interval_cases i
    · exact ⟨rp 18446742080844726272 (-64) (s := 1 / 18446744073709551616) (z := 268435427 / 268435456) (by norm_num) (by norm_num) (by norm_num) (by norm_num) (by norm_num) (by norm_num) (by norm_num),
        rp 9223372036854775808 (-63) (s := 1 / 9223372036854775808) (z := 1) (by norm_num) (by norm_num) (by norm_num) (by norm_num) (by norm_num) (by norm_num) (by norm_num),
        rz (by norm_num),
        rz (by norm_num)⟩
    · exact ⟨rz (by norm_num),
        rz (by norm_num),
        rz (by norm_num),
        rz (by norm_num)⟩
    · exact ⟨rp 18446742080844726272 (-64) (s := 1 / 18446744073709551616) (z := 268435427 / 268435456) (by norm_num) (by norm_num) (by norm_num) (by norm_num) (by norm_num) (by norm_num) (by norm_num),
        rp 18446740087980116224 (-64) (s := 1 / 18446744073709551616) (z := 72057578468672329 / 72057594037927936) (by norm_num) (by norm_num) (by norm_num) (by norm_num) (by norm_num) (by norm_num) (by norm_num),
        rp 18446740087980116224 (-65) (s := 1 / 36893488147419103232) (z := 72057578468672329 / 144115188075855872) (by norm_num) (by norm_num) (by norm_num) (by norm_num) (by norm_num) (by norm_num) (by norm_num),
        rp 18446740087980116224 (-65) (s := 1 / 36893488147419103232) (z := 72057578468672329 / 144115188075855872) (by norm_num) (by norm_num) (by norm_num) (by norm_num) (by norm_num) (by norm_num) (by norm_num)⟩
theorem nanEval2 {mu al : ℕ → Fp 64} (hm : ∀ i ≤ 3, mu i = fpR 64 (([0, -(72057578468672329 / 144115188075855872), 0, 12297829382473034411 / 73786976294838206464] : List ℝ).getD i 0))
    (ha : ∀ i ≤ 3, al i = fpR 64 (([0, -(268435427 / 268435456), -(268435427 / 268435456), 0] : List ℝ).getD i 0)) : evalF 3 mu al (fpR 64 (268435427 / 268435456)) = fpR 64 (12297825396743814315 / 73786976294838206464) := by
  have h := eval_chain 3 (x := 268435427 / 268435456) (t := fun i => ([268435427 / 268435456, 0, 0, 268435427 / 268435456] : List ℝ).getD i 0) (q := fun i => ([1, 0, 0, 72057570684045787 / 72057594037927936] : List ℝ).getD i 0)
    (pr := fun i => ([0, 0, 0, 12297825396743814315 / 73786976294838206464] : List ℝ).getD i 0) (s := fun i => ([0, 0, 0, 0, 12297825396743814315 / 73786976294838206464] : List ℝ).getD i 0) hm ha rfl ?_
  · exact h
  · intro i hi
    interval_cases i
    · exact ⟨rp 18446742080844726272 (-64) (s := 1 / 18446744073709551616) (z := 268435427 / 268435456) (by norm_num) (by norm_num) (by norm_num) (by norm_num) (by norm_num) (by norm_num) (by norm_num),
        rp 9223372036854775808 (-63) (s := 1 / 9223372036854775808) (z := 1) (by norm_num) (by norm_num) (by norm_num) (by norm_num) (by norm_num) (by norm_num) (by norm_num),
        rz (by norm_num),
        rz (by norm_num)⟩
    · exact ⟨rz (by norm_num),
        rz (by norm_num),
        rz (by norm_num),
        rz (by norm_num)⟩
    · exact ⟨rz (by norm_num),
        rz (by norm_num),
        rz (by norm_num),
        rz (by norm_num)⟩
    · exact ⟨rp 18446742080844726272 (-64) (s := 1 / 18446744073709551616) (z := 268435427 / 268435456) (by norm_num) (by norm_num) (by norm_num) (by norm_num) (by norm_num) (by norm_num) (by norm_num),
        rp 18446738095115721472 (-64) (s := 1 / 18446744073709551616) (z := 19342806844824062758199483 / 19342813113834066795298816) (by norm_num) (by norm_num) (by norm_num) (by norm_num) (by norm_num) (by norm_num) (by norm_num),
        rp 12297825396743814315 (-66) (s := 1 / 73786976294838206464) (z := 886151709987885828508532099950576457 / 5316911983139663491615228241121378304) (by norm_num) (by norm_num) (by norm_num) (by norm_num) (by norm_num) (by norm_num) (by norm_num),
        rp 12297825396743814315 (-66) (s := 1 / 73786976294838206464) (z := 12297825396743814315 / 73786976294838206464) (by norm_num) (by norm_num) (by norm_num) (by norm_num) (by norm_num) (by norm_num) (by norm_num)⟩
theorem nanEval3 {mu al : ℕ → Fp 64} (hm : ∀ i ≤ 4, mu i = fpR 64 (([0, -(12297825396743814315 / 73786976294838206464), -(72057578468672329 / 288230376151711744), 0, 12297829382473034411 / 295147905179352825856] : List ℝ).getD i 0))
    (ha : ∀ i ≤ 4, al i = fpR 64 (([0, -(268435427 / 268435456), -(268435427 / 268435456), -(268435427 / 268435456), 0] : List ℝ).getD i 0)) : evalF 4 mu al (fpR 64 (268435427 / 268435456)) = fpR 64 (6148912034083847339 / 147573952589676412928) := by
  have h := eval_chain 4 (x := 268435427 / 268435456) (t := fun i => ([268435427 / 268435456, 0, 0, 0, 268435427 / 268435456] : List ℝ).getD i 0) (q := fun i => ([1, 0, 0, 0, 36028781449710043 / 36028797018963968] : List ℝ).getD i 0)
    (pr := fun i => ([0, 0, 0, 0, 6148912034083847339 / 147573952589676412928] : List ℝ).getD i 0) (s := fun i => ([0, 0, 0, 0, 0, 6148912034083847339 / 147573952589676412928] : List ℝ).getD i 0) hm ha rfl ?_
  · exact h
  · intro i hi
    interval_cases i
    · exact ⟨rp 18446742080844726272 (-64) (s := 1 / 18446744073709551616) (z := 268435427 / 268435456) (by norm_num) (by norm_num) (by norm_num) (by norm_num) (by norm_num) (by norm_num) (by norm_num),
        rp 9223372036854775808 (-63) (s := 1 / 9223372036854775808) (z := 1) (by norm_num) (by norm_num) (by norm_num) (by norm_num) (by norm_num) (by norm_num) (by norm_num),
        rz (by norm_num),
        rz (by norm_num)⟩
    · exact ⟨rz (by norm_num),
        rz (by norm_num),
        rz (by norm_num),
        rz (by norm_num)⟩
    · exact ⟨rz (by norm_num),
        rz (by norm_num),
        rz (by norm_num),
        rz (by norm_num)⟩
    · exact ⟨rz (by norm_num),
        rz (by norm_num),
        rz (by norm_num),
        rz (by norm_num)⟩
    · exact ⟨rp 18446742080844726272 (-64) (s := 1 / 18446744073709551616) (z := 268435427 / 268435456) (by norm_num) (by norm_num) (by norm_num) (by norm_num) (by norm_num) (by norm_num) (by norm_num),
        rp 18446736102251542016 (-64) (s := 1 / 18446744073709551616) (z := 5192294614768870026372075970284241 / 5192296858534827628530496329220096) (by norm_num) (by norm_num) (by norm_num) (by norm_num) (by norm_num) (by norm_num) (by norm_num),
        rp 12297824068167694678 (-68) (s := 1 / 295147905179352825856) (z := 443075807126943575597994742311289673 / 10633823966279326983230456482242756608) (by norm_num) (by norm_num) (by norm_num) (by norm_num) (by norm_num) (by norm_num) (by norm_num),
        rp 12297824068167694678 (-68) (s := 1 / 295147905179352825856) (z := 6148912034083847339 / 147573952589676412928) (by norm_num) (by norm_num) (by norm_num) (by norm_num) (by norm_num) (by norm_num) (by norm_num)⟩
theorem nanEval4 {mu al : ℕ → Fp 64} (hm : ∀ i ≤ 4, mu i = fpR 64 (([-(6148912034083847339 / 147573952589676412928), -(12297825396743814315 / 73786976294838206464), -(72057578468672329 / 288230376151711744), 0, 12297829382473034411 / 295147905179352825856] : List ℝ).getD i 0))
    (ha : ∀ i ≤ 4, al i = fpR 64 (([0, -(268435427 / 268435456), -(268435427 / 268435456), -(268435427 / 268435456), 0] : List ℝ).getD i 0)) : evalF 4 mu al (fpR 64 (1)) = fpR 64 (-(1 / 295147905179352825856)) := by
  have h := eval_chain 4 (x := 1) (t := fun i => ([1, 29 / 268435456, 29 / 268435456, 29 / 268435456, 1] : List ℝ).getD i 0) (q := fun i => ([1, 29 / 268435456, 841 / 72057594037927936, 24389 / 19342813113834066795298816, 1] : List ℝ).getD i 0)
    (pr := fun i => ([-(6148912034083847339 / 147573952589676412928), -(11144904265799081723 / 618970019642690137449562112), -(3787526468259589293 / 1298074214633706907132624082305024), 0, 12297829382473034411 / 295147905179352825856] : List ℝ).getD i 0) (s := fun i => ([0, -(6148912034083847339 / 147573952589676412928), -(3074457345618043307 / 73786976294838206464), -(3074457345618258603 / 73786976294838206464), -(3074457345618258603 / 73786976294838206464), -(1 / 295147905179352825856)] : List ℝ).getD i 0) hm ha rfl ?_
  · exact h
  · intro i hi
    interval_cases i
    · exact ⟨rp 9223372036854775808 (-63) (s := 1 / 9223372036854775808) (z := 1) (by norm_num) (by norm_num) (by norm_num) (by norm_num) (by norm_num) (by norm_num) (by norm_num),
        rp 9223372036854775808 (-63) (s := 1 / 9223372036854775808) (z := 1) (by norm_num) (by norm_num) (by norm_num) (by norm_num) (by norm_num) (by norm_num) (by norm_num),
        rn 12297824068167694678 (-68) (s := 1 / 295147905179352825856) (z := 6148912034083847339 / 147573952589676412928) (by norm_num) (by norm_num) (by norm_num) (by norm_num) (by norm_num) (by norm_num) (by norm_num),
        rn 12297824068167694678 (-68) (s := 1 / 295147905179352825856) (z := 6148912034083847339 / 147573952589676412928) (by norm_num) (by norm_num) (by norm_num) (by norm_num) (by norm_num) (by norm_num) (by norm_num)⟩
    · exact ⟨rp 16717361816799281152 (-87) (s := 1 / 154742504910672534362390528) (z := 29 / 268435456) (by norm_num) (by norm_num) (by norm_num) (by norm_num) (by norm_num) (by norm_num) (by norm_num),
        rp 16717361816799281152 (-87) (s := 1 / 154742504910672534362390528) (z := 29 / 268435456) (by norm_num) (by norm_num) (by norm_num) (by norm_num) (by norm_num) (by norm_num) (by norm_num),
        rn 11144904265799081723 (-89) (s := 1 / 618970019642690137449562112) (z := 356636936505570615135 / 19807040628566084398385987584) (by norm_num) (by norm_num) (by norm_num) (by norm_num) (by norm_num) (by norm_num) (by norm_num),
        rn 12297829382472173228 (-68) (s := 1 / 295147905179352825856) (z := 25790417485110283028438779 / 618970019642690137449562112) (by norm_num) (by norm_num) (by norm_num) (by norm_num) (by norm_num) (by norm_num) (by norm_num)⟩
    · exact ⟨rp 16717361816799281152 (-87) (s := 1 / 154742504910672534362390528) (z := 29 / 268435456) (by norm_num) (by norm_num) (by norm_num) (by norm_num) (by norm_num) (by norm_num) (by norm_num),
        rp 15150109146474348544 (-110) (s := 1 / 1298074214633706907132624082305024) (z := 841 / 72057594037927936) (by norm_num) (by norm_num) (by norm_num) (by norm_num) (by norm_num) (by norm_num) (by norm_num),
        rn 15150105873038357172 (-112) (s := 1 / 5192296858534827628530496329220096) (z := 60600423492153428689 / 20769187434139310514121985316880384) (by norm_num) (by norm_num) (by norm_num) (by norm_num) (by norm_num) (by norm_num) (by norm_num),
        rn 12297829382473034412 (-68) (s := 1 / 295147905179352825856) (z := 54086425609737787802238373113005 / 1298074214633706907132624082305024) (by norm_num) (by norm_num) (by norm_num) (by norm_num) (by norm_num) (by norm_num) (by norm_num)⟩
    · exact ⟨rp 16717361816799281152 (-87) (s := 1 / 154742504910672534362390528) (z := 29 / 268435456) (by norm_num) (by norm_num) (by norm_num) (by norm_num) (by norm_num) (by norm_num) (by norm_num),
        rp 13729786413992378368 (-133) (s := 1 / 10889035741470030830827987437816582766592) (z := 24389 / 19342813113834066795298816) (by norm_num) (by norm_num) (by norm_num) (by norm_num) (by norm_num) (by norm_num) (by norm_num),
        rz (by norm_num),
        rn 12297829382473034412 (-68) (s := 1 / 295147905179352825856) (z := 3074457345618258603 / 73786976294838206464) (by norm_num) (by norm_num) (by norm_num) (by norm_num) (by norm_num) (by norm_num) (by norm_num)⟩
    · exact ⟨rp 9223372036854775808 (-63) (s := 1 / 9223372036854775808) (z := 1) (by norm_num) (by norm_num) (by norm_num) (by norm_num) (by norm_num) (by norm_num) (by norm_num),
        rp 9223372036854775808 (-63) (s := 1 / 9223372036854775808) (z := 1) (by norm_num) (by norm_num) (by norm_num) (by norm_num) (by norm_num) (by norm_num) (by norm_num),
        rp 12297829382473034411 (-68) (s := 1 / 295147905179352825856) (z := 12297829382473034411 / 295147905179352825856) (by norm_num) (by norm_num) (by norm_num) (by norm_num) (by norm_num) (by norm_num) (by norm_num),
        rn 9223372036854775808 (-131) (s := 1 / 2722258935367507707706996859454145691648) (z := 1 / 295147905179352825856) (by norm_num) (by norm_num) (by norm_num) (by norm_num) (by norm_num) (by norm_num) (by norm_num)⟩
theorem nanDiv0_1 : roundTo 64 ((1 : ℝ) / 1) = 1 :=
  rp 9223372036854775808 (-63) (s := 1 / 9223372036854775808) (z := 1) (by norm_num) (by norm_num) (by norm_num) (by norm_num) (by norm_num) (by norm_num) (by norm_num)
theorem nanDiv1_1 : roundTo 64 ((0 : ℝ) / 1) = 0 :=
  rz (by norm_num)
theorem nanDiv1_2 : roundTo 64 ((1 : ℝ) / 2) = 1 / 2 :=
  rp 9223372036854775808 (-64) (s := 1 / 18446744073709551616) (z := 1 / 2) (by norm_num) (by norm_num) (by norm_num) (by norm_num) (by norm_num) (by norm_num) (by norm_num)
theorem nanDiv2_1 : roundTo 64 ((-(72057578468672329 / 144115188075855872) : ℝ) / 1) = -(72057578468672329 / 144115188075855872) :=
  rn 18446740087980116224 (-65) (s := 1 / 36893488147419103232) (z := 72057578468672329 / 144115188075855872) (by norm_num) (by norm_num) (by norm_num) (by norm_num) (by norm_num) (by norm_num) (by norm_num)
theorem nanDiv2_2 : roundTo 64 ((0 : ℝ) / 2) = 0 :=
  rz (by norm_num)
theorem nanDiv2_3 : roundTo 64 ((1 / 2 : ℝ) / 3) = 12297829382473034411 / 73786976294838206464 :=
  rp 12297829382473034411 (-66) (s := 1 / 73786976294838206464) (z := 1 / 6) (by norm_num) (by norm_num) (by norm_num) (by norm_num) (by norm_num) (by norm_num) (by norm_num)
theorem nanDiv3_1 : roundTo 64 ((-(12297825396743814315 / 73786976294838206464) : ℝ) / 1) = -(12297825396743814315 / 73786976294838206464) :=
  rn 12297825396743814315 (-66) (s := 1 / 73786976294838206464) (z := 12297825396743814315 / 73786976294838206464) (by norm_num) (by norm_num) (by norm_num) (by norm_num) (by norm_num) (by norm_num) (by norm_num)
theorem nanDiv3_2 : roundTo 64 ((-(72057578468672329 / 144115188075855872) : ℝ) / 2) = -(72057578468672329 / 288230376151711744) :=
  rn 18446740087980116224 (-66) (s := 1 / 73786976294838206464) (z := 72057578468672329 / 288230376151711744) (by norm_num) (by norm_num) (by norm_num) (by norm_num) (by norm_num) (by norm_num) (by norm_num)
theorem nanDiv3_3 : roundTo 64 ((0 : ℝ) / 3) = 0 :=
  rz (by norm_num)
theorem nanDiv3_4 : roundTo 64 ((12297829382473034411 / 73786976294838206464 : ℝ) / 4) = 12297829382473034411 / 295147905179352825856 :=
  rp 12297829382473034411 (-68) (s := 1 / 295147905179352825856) (z := 12297829382473034411 / 295147905179352825856) (by norm_num) (by norm_num) (by norm_num) (by norm_num) (by norm_num) (by norm_num) (by norm_num)


/-- State of the run after `d` steps. -/
def NanInv (d : ℕ) (mu al : ℕ → Fp 64) (delta : ℤ) : Prop :=
  delta = 0 ∧ (∀ i ≤ d, mu i = fpR 64 ((nanMu d).getD i 0)) ∧ ∀ i ≤ d, al i = fpR 64 ((nanAl d).getD i 0)

/-- The boundary: 0 and three times `1 - 29/2^28`. -/
noncomputable def nanB : Fin 4 → ℝ := ![0, 268435427 / 268435456, 268435427 / 268435456, 268435427 / 268435456]

theorem fpzero : (zero : Fp 64) = fpR 64 0 := by show (some ((0 : ℤ) : ℝ) : Option ℝ) = some 0; simp
theorem fpneg (a : ℝ) : neg (fpR 64 a) = fpR 64 (-a) := rfl
theorem fpdiv {a c : ℝ} {k : ℕ} (hk : k ≠ 0) (h : roundTo 64 (a / k) = c) : fpR 64 a /ᶠ ofInt ((k : ℕ) : ℤ) = fpR 64 c := by
  show FOps.div (F := Fp 64) (some a : Option ℝ) (some (((k : ℕ) : ℤ) : ℝ) : Option ℝ) = (some c : Option ℝ)
  rw [Fp.div_some (by rw [Int.cast_natCast]; exact_mod_cast hk), Int.cast_natCast, h]

theorem nan_int {d : ℕ} {mu : ℕ → Fp 64} {l l' : List ℝ} (hm : ∀ i ≤ d, mu i = fpR 64 (l.getD i 0))
    (h0 : l'.getD 0 0 = 0) (h : ∀ i ≤ d, roundTo 64 (l.getD i 0 / ((i + 1 : ℕ) : ℝ)) = l'.getD (i + 1) 0) :
    ∀ i ≤ d + 1, intMu mu i = fpR 64 (l'.getD i 0) := by
  intro i hi
  unfold intMu
  by_cases e : i = 0
  · subst e; rw [if_pos rfl, h0]; exact fpzero
  · obtain ⟨j, rfl⟩ : ∃ j, i = j + 1 := ⟨i - 1, by omega⟩
    rw [if_neg e, Nat.add_sub_cancel, hm j (by omega)]
    exact fpdiv (by omega) (h j (by omega))

theorem nan_al {d : ℕ} {al : ℕ → Fp 64} {l l' : List ℝ} {x : ℝ} (ha : ∀ i ≤ d, al i = fpR 64 (l.getD i 0))
    (h0 : l'.getD 0 0 = 0) (h1 : l'.getD 1 0 = -x) (h : ∀ i, 1 ≤ i → i ≤ d → l.getD i 0 = l'.getD (i + 1) 0) :
    ∀ i ≤ d + 1, intAl al (neg (fpR 64 x)) i = fpR 64 (l'.getD i 0) := by
  intro i hi
  unfold intAl
  by_cases e : i = 0
  · subst e; rw [if_pos rfl, h0]; exact fpzero
  · rw [if_neg e]
    by_cases e1 : i = 1
    · subst e1; rw [if_pos rfl, h1]; rfl
    · obtain ⟨j, rfl⟩ : ∃ j, i = j + 1 := ⟨i - 1, by omega⟩
      rw [if_neg e1, Nat.add_sub_cancel, ha j (by omega), h j (by omega) (by omega)]

theorem nan_step {d : ℕ} {mu al : ℕ → Fp 64} {x v : ℝ} {l' l'' : List ℝ}
    (hint : ∀ i ≤ d + 1, intMu mu i = fpR 64 (l'.getD i 0))
    (hev : evalF (d + 1) (intMu mu) (intAl al (neg (fpR 64 x))) (fpR 64 x) = fpR 64 v)
    (h0 : l''.getD 0 0 = -v) (h : ∀ i, 1 ≤ i → i ≤ d + 1 → l''.getD i 0 = l'.getD i 0) :
    ∀ i ≤ d + 1, stepMu d mu al (fpR 64 x) i = fpR 64 (l''.getD i 0) := by
  intro i hi
  unfold stepMu setC
  by_cases e : i = 0
  · subst e; rw [if_pos rfl, hev, h0]; rfl
  · rw [if_neg e, hint i hi, h i (by omega) hi]

theorem nan_inv_zero : NanInv 0 (setC (fun _ => zero) one) (fun _ => zero) 0 := by
  refine ⟨rfl, ?_, ?_⟩
  · intro i hi
    obtain rfl : i = 0 := by omega
    show (some ((1 : ℤ) : ℝ) : Option ℝ) = some 1
    simp
  · intro i hi
    obtain rfl : i = 0 := by omega
    exact fpzero

/-- The entries of the boundary as numbers of the arithmetic. -/
noncomputable def nanBv (i : ℕ) : Fp 64 := if h : i < 4 then fpVec nanB ⟨i, h⟩ else zero

theorem nan_inv_step {d : ℕ} {mu al : ℕ → Fp 64} {delta : ℤ} (hd : d < 4) (hR : NanInv d mu al delta) :
    NanInv (d + 1) (stepMu d mu al (nanBv d)) (intAl al (neg (nanBv d))) delta := by
  obtain ⟨h0, hm, ha⟩ := hR
  refine ⟨h0, ?_⟩
  interval_cases d
  · have e : nanBv 0 = fpR 64 0 := rfl
    rw [e]
    have hi := nan_int (l' := [0, 1]) hm rfl (by
      intro i hi; interval_cases i; exact (by simpa [nanMu] using nanDiv0_1))
    have hal := nan_al (x := 0) (l' := nanAl 1) ha rfl (by simp [nanAl]) (by intro i h1 h2; omega)
    exact ⟨nan_step hi (nanEval0 hi hal) (by simp [nanMu]) (by intro i h1 h2; interval_cases i; rfl), hal⟩
  · have e : nanBv 1 = fpR 64 (268435427 / 268435456) := rfl
    rw [e]
    have hi := nan_int (l' := [0, 0, 1 / 2]) hm rfl (by
      intro i hi; interval_cases i
      · exact (by simpa [nanMu] using nanDiv1_1)
      · exact (by simpa [nanMu] using nanDiv1_2))
    have hal := nan_al (x := 268435427 / 268435456) (l' := nanAl 2) ha rfl rfl (by
      intro i h1 h2; interval_cases i; rfl)
    exact ⟨nan_step hi (nanEval1 hi hal) rfl (by intro i h1 h2; interval_cases i <;> rfl), hal⟩
  · have e : nanBv 2 = fpR 64 (268435427 / 268435456) := rfl
    rw [e]
    have hi := nan_int (l' := [0, -(72057578468672329 / 144115188075855872), 0, 12297829382473034411 / 73786976294838206464]) hm rfl (by
      intro i hi; interval_cases i
      · exact (by simpa [nanMu] using nanDiv2_1)
      · exact (by simpa [nanMu] using nanDiv2_2)
      · exact (by simpa [nanMu] using nanDiv2_3))
    have hal := nan_al (x := 268435427 / 268435456) (l' := nanAl 3) ha rfl rfl (by
      intro i h1 h2; interval_cases i <;> rfl)
    exact ⟨nan_step hi (nanEval2 hi hal) rfl (by intro i h1 h2; interval_cases i <;> rfl), hal⟩
  · have e : nanBv 3 = fpR 64 (268435427 / 268435456) := rfl
    rw [e]
    have hi := nan_int (l' := [0, -(12297825396743814315 / 73786976294838206464), -(72057578468672329 / 288230376151711744), 0, 12297829382473034411 / 295147905179352825856]) hm rfl (by
      intro i hi; interval_cases i
      · exact (by simpa [nanMu] using nanDiv3_1)
      · exact (by simpa [nanMu] using nanDiv3_2)
      · exact (by simpa [nanMu] using nanDiv3_3)
      · exact (by simpa [nanMu] using nanDiv3_4))
    have hal := nan_al (x := 268435427 / 268435456) (l' := nanAl 4) ha rfl rfl (by
      intro i h1 h2; interval_cases i <;> rfl)
    exact ⟨nan_step hi (nanEval3 hi hal) rfl (by intro i h1 h2; interval_cases i <;> rfl), hal⟩

theorem nan_no_rescale {mu al : ℕ → Fp 64} {delta : ℤ} (hR : NanInv 1 mu al delta) :
    frexpExp (maxF 1 mu) = 1 := by
  obtain ⟨-, hm, -⟩ := hR
  have h0 : mu 0 = fpR 64 0 := hm 0 (by omega)
  have h1 : mu 1 = fpR 64 1 := hm 1 (by omega)
  have l0 : lt (fpR 64 0) (fpR 64 0) = false := by
    show decide ((0 : ℝ) < 0) = false
    simp
  have l1 : lt (fpR 64 0) (fpR 64 1) = true := by
    show decide ((0 : ℝ) < 1) = true
    simp
  have : maxF 1 mu = fpR 64 1 := by
    unfold maxF
    simp only [List.range_succ, List.range_zero, List.nil_append, List.cons_append, List.foldl_cons, List.foldl_nil]
    rw [h0, h1, l0]
    simp only [Bool.false_eq_true, if_false]
    rw [l1, if_pos rfl]
  rw [this]
  show (if (1 : ℝ) = 0 then 0 else Int.log 2 |(1 : ℝ)| + 1) = 1
  simp

theorem nanB_valid : ValidBound nanB := by
  constructor
  · intro i j hij; fin_cases i <;> fin_cases j <;> simp [nanB] at hij ⊢ <;> norm_num
  · intro i; fin_cases i <;> norm_num [nanB]

theorem nan_run (env : Env (Fp 64)) : ecdf1Mns2016b env (List.ofFn (fpVec nanB)) = .ok (none : Fp 64) := by
  have key : Sat NoFault (fun x : Fp 64 => x = (none : Option ℝ)) (ecdf1Mns2016b env (List.ofFn (fpVec (p := 64) nanB))) := by
    unfold ecdf1Mns2016b ecdf1Mns2016bWith
    dsimp only
    rw [check_valid_float (R := fpModel 64 (by norm_num) 0) (b := fpVec nanB) (fun i => ⟨nanB i, rfl⟩) nanB_valid "b" _ (by simp), M_ok_bind]
    have h := mns_loop_val (E := NoFault) (env := env) (readExponent := fun _ x => frexpExp x) (b := List.ofFn (fpVec (p := 64) nanB))
      (bv := nanBv) (fun i hi => by
        rw [List.length_ofFn] at hi
        unfold nanBv
        rw [dif_pos hi]; exact has_ofFn _ i hi) NanInv nan_inv_zero
      (fun d mu al delta hd hR => by
        rw [List.length_ofFn] at hd
        have hs := nan_inv_step hd hR
        refine ⟨hs, fun e he hpos h16 => ?_⟩
        obtain rfl : d = 0 := by omega
        have := nan_no_rescale hs
        rw [this] at he
        omega)
    have h' := Sat.bind (R := fun x : Fp 64 => x = (none : Option ℝ)) (f := fun s : Poly (Fp 64) × Int => do
      let integralResult ← s.1.evaluate (FOps.ofInt 1)
      .ok (FOps.exp (FOps.sub (FOps.add (FOps.lgamma (FOps.ofInt (((List.ofFn (fpVec (p := 64) nanB)).length : Int) + 1)))
        (FOps.log integralResult)) (FOps.mul (FOps.ofInt s.2) (FOps.log (FOps.ofInt 2))))))
      h (fun s hs => by
        obtain ⟨mu, al, hp, hI⟩ := hs
        refine Sat.bind (evaluate_sat hp _) fun v hval => ?_
        rw [List.length_ofFn] at hI hval ⊢
        obtain ⟨-, hm, ha⟩ := hI
        have e1 : (ofInt 1 : Fp 64) = fpR 64 1 := by show (some ((1 : ℤ) : ℝ) : Option ℝ) = some 1; simp
        rw [e1, nanEval4 hm ha] at hval
        rw [hval]
        have hl : FOps.log (fpR 64 (-(1 / 295147905179352825856))) = (none : Option ℝ) := Fp.log_nonpos (by norm_num)
        show FOps.exp _ = _
        rw [hl]
        rfl)
    simp only [bind_assoc] at h'
    exact h'
  obtain ⟨x, hx, hx2⟩ := key.exists_ok
  rw [hx, hx2]

theorem nanB_prob_pos : 0 < lowerProb nanB := by
  rw [← exact_final nanB_valid]
  simp [Finset.sum_range_succ, exMu, exAl, sgnCoef_succ, sgnCoef_zero, extB, Nat.factorial, nanB]
  norm_num
end CP.Spec
