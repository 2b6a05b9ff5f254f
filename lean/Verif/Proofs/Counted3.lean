import Verif.Proofs.Counted2
/-! Cost bounds for `ecdf1_new`, and the bounds in closed form. -/
namespace CP
set_option linter.unusedSectionVars false
variable {F : Type} [FOps F]
open FOps

theorem rdBlock_length {α : Type} {a r : List α} {off cnt : Int} (h : rdBlock a off cnt = .ok r) : r.length ≤ cnt.toNat := by
  unfold rdBlock at h
  split at h
  · cases h; simp [List.length_take]
  · cases h

theorem Cost.okBnd {α β : Type} {a : α} {k c d : Nat} {f : α → CM β} {m : M β} {R : β → Prop} (h : Cost (f a) m c R) (hd : k + c ≤ d) :
    Cost (charge k (.ok a) >>= f) m d R := by
  have := Cost.bnd (c := k) (x := charge k (.ok a)) (m := .ok a) (f := f) (g := fun _ => m) (Q := fun x => x = a)
    (Cost.charge' le_rfl fun b hb => by cases hb; rfl) (c' := c) (fun b hb => by rw [hb]; exact h) hd
  exact this

theorem miniStep_cost (pr : Prices) (env : Env F) (n k C : Nat) (intensity : F) (B : List F) (Iprev I i : Int) (s : MiniState F)
    (hC : ∀ m, m ≤ k → convCost pr m ≤ C) (h0 : -1 ≤ Iprev) (h1 : Iprev + 1 ≤ i) (h2 : i < I) (h3 : I ≤ Iprev + k)
    (hs : ConvOk s.conv) :
    Cost (miniStepC pr env n intensity B Iprev I i s) (miniStep env n intensity B Iprev I i s)
      (7 * (k + 1) + 12 * (n + 1) + C + 19) fun r => ConvOk r.conv := by
  unfold miniStepC miniStep
  refine Cost.bnd (c := 1) (c' := 7 * (k + 1) + 12 * (n + 1) + C + 18) Cost.chg (fun Bi _ => ?_) (by omega)
  refine Cost.bnd (c' := 12 * (n + 1) + C + 12) (computeArray_cost _ _ _ _) (fun pmfgen _ => ?_) (by omega)
  refine Cost.bnd (c := 1) (c' := 12 * (n + 1) + C + 11) Cost.chg (fun oS _ => ?_) (by omega)
  refine Cost.bnd (c := 1) (c' := 12 * (n + 1) + C + 10) Cost.chg (fun oD _ => ?_) (by omega)
  refine Cost.bnd (c := C) (c' := 12 * (n + 1) + 10) (Q := fun r => ConvOk r.1)
    ((convolve_cost pr env hs _ _ _ _ _ _ _).le (hC _ (by omega))) (fun r hr => ?_) (by omega)
  obtain ⟨conv, md⟩ := r
  dsimp only
  refine Cost.bnd (c := 1) (c' := 12 * (n + 1) + 9) Cost.chg (fun pen _ => ?_) (by omega)
  refine Cost.bnd (c := 1) (c' := 12 * (n + 1) + 8) Cost.chg (fun BI _ => ?_) (by omega)
  refine Cost.bnd (c := 12 * (n + 1)) (c' := 8) (Q := fun _ => True) ?_ (fun dest _ => ?_) (by omega)
  · refine (Cost.forRange (fun _ _ => True) (c := 12) trivial fun j s _ _ _ => ?_).mono (by omega) fun _ _ => trivial
    exact Cost.bnd (c' := 11) Cost.chg (fun _ _ => Cost.bnd (c' := 3) Cost.chg (fun _ _ => Cost.charge' le_rfl fun _ _ => trivial)
      (by omega)) (by omega)
  · refine Cost.bnd (c := 1) (c' := 7) Cost.chg (fun _ _ => Cost.bnd (c := 1) (c' := 6) Cost.chg (fun _ _ => Cost.charge' le_rfl fun a h => ?_)
      (by omega)) (by omega)
    cases h
    exact hr

theorem blockStep_cost (pr : Prices) (env : Env F) (n k C C' : Nat) (intensity : F) (B : List F) (I : Int) (s : BlockState F)
    (hC : ∀ m, m ≤ k → convCost pr m ≤ C) (hC' : ∀ m, m ≤ n + 1 → convCost pr m ≤ C') (h0 : -1 ≤ s.Iprev) (h1 : s.Iprev ≤ I)
    (h2 : I < n) (h3 : I ≤ s.Iprev + k) (hs : ConvOk s.conv) :
    Cost (blockStepC pr env n intensity B I s) (blockStep env n intensity B I s)
      (7 * (n + 2) + C' + 3 * (n + 1) + 19 + (I - s.Iprev).toNat * (7 * (k + 1) + 12 * (n + 1) + C + 19))
      fun r => ConvOk r.conv ∧ r.Iprev = I := by
  unfold blockStepC blockStep
  set T := (I - s.Iprev).toNat * (7 * (k + 1) + 12 * (n + 1) + C + 19) with hT
  refine Cost.bnd (c := 1) (c' := 7 * (n + 2) + C' + 3 * (n + 1) + 18 + T) Cost.chg (fun BI _ => ?_) (by omega)
  refine Cost.bnd (c' := C' + 3 * (n + 1) + 12 + T) (computeArray_cost _ _ _ _) (fun pmfgen _ => ?_) (by omega)
  refine Cost.bnd (c := 1) (c' := C' + 3 * (n + 1) + 11 + T) Cost.chg (fun oS _ => ?_) (by omega)
  refine Cost.bnd (c := C') (c' := 3 * (n + 1) + 11 + T) (Q := fun r => ConvOk r.1)
    ((convolve_cost pr env hs _ _ _ _ _ _ _).le (hC' _ (by omega))) (fun r hr => ?_) (by omega)
  obtain ⟨conv, tmp⟩ := r
  dsimp only
  refine Cost.bnd (c := 1) (c' := 3 * (n + 1) + 10 + T) Cost.chg (fun _ _ => ?_) (by omega)
  refine Cost.bnd (c := 1) (c' := 3 * (n + 1) + 9 + T) Cost.chg (fun _ _ => ?_) (by omega)
  refine Cost.bnd (c := (I + 1).toNat) (c' := 3 * (n + 1) - (I + 1).toNat + 9 + T) (Q := fun _ => True)
    (Cost.charge' (by simp) fun _ _ => trivial) (fun _ _ => ?_) (by omega)
  refine Cost.bnd (c := (n - I).toNat) (c' := 3 * (n + 1) - (I + 1).toNat - (n - I).toNat + 9 + T) (Q := fun xs => xs.length ≤ (n - I).toNat)
    (Cost.charge' (by omega) fun a h => ?_) (fun xs hxs => ?_) (by omega)
  · have := rdBlock_length h
    omega
  refine Cost.bnd (c := (n - I).toNat) (c' := 3 * (n + 1) - (I + 1).toNat - 2 * (n - I).toNat + 9 + T) (Q := fun _ => True)
    (Cost.charge' hxs fun _ _ => trivial) (fun _ _ => ?_) (by omega)
  refine Cost.bnd (c := 1) (c' := 3 * (n + 1) - (I + 1).toNat - 2 * (n - I).toNat + 8 + T) Cost.chg (fun _ _ => ?_) (by omega)
  refine Cost.bnd (c := 1) (c' := 3 * (n + 1) - (I + 1).toNat - 2 * (n - I).toNat + 7 + T) Cost.chg (fun _ _ => ?_) (by omega)
  refine Cost.bnd (c := (I - s.Iprev).toNat) (c' := (I - s.Iprev).toNat + 6 + T) (Q := fun xs => xs.length ≤ (I - s.Iprev).toNat)
    (Cost.charge' (by omega) fun a h => ?_) (fun ys hys => ?_) (by omega)
  · have := rdBlock_length h
    omega
  refine Cost.bnd (c := (I - s.Iprev).toNat) (c' := T + 6) (Q := fun _ => True)
    (Cost.charge' hys fun _ _ => trivial) (fun ms _ => ?_) (by omega)
  refine Cost.bnd (c := T) (c' := 6) (Q := fun m : MiniState F => ConvOk m.conv) ?_ (fun m hm => ?_) le_rfl
  · refine (Cost.forRange (fun _ (m : MiniState F) => ConvOk m.conv) (c := 7 * (k + 1) + 12 * (n + 1) + C + 19) hr
      fun j m hj1 hj2 hm => ?_).mono ?_ fun _ h => h
    · exact miniStep_cost pr env n k C intensity B s.Iprev I j m hC h0 hj1 hj2 h3 hm
    · exact Nat.mul_le_mul_right _ (by omega)
  · exact Cost.charge' le_rfl fun a h => by cases h; exact ⟨hm, rfl⟩

theorem blockLoop_cost (pr : Prices) (env : Env F) (n k C C' : Nat) (intensity : F) (B : List F) (hk : 0 < k)
    (hC : ∀ m, m ≤ k → convCost pr m ≤ C) (hC' : ∀ m, m ≤ n + 1 → convCost pr m ≤ C') :
    ∀ (fuel : Nat) (I : Int) (s : BlockState F), -1 ≤ s.Iprev → s.Iprev < n → I = min (s.Iprev + k) ((n : Int) - 1) → ConvOk s.conv →
    Cost (blockLoopC pr env n intensity B k n fuel I s) (blockLoop env n intensity B k n fuel I s)
      ((n - 1 - s.Iprev).toNat * (7 * (k + 1) + 12 * (n + 1) + C + 19) +
        ((n - 1 - s.Iprev).toNat / k + 1) * (7 * (n + 2) + C' + 3 * (n + 1) + 20))
      fun r => ConvOk r.conv := by
  intro fuel
  induction fuel with
  | zero => intro I s _ _ _ _; unfold blockLoopC blockLoop; exact Cost.charge' (by omega) fun a h => by cases h
  | succ fuel ih =>
    intro I s h0 h1 h2 hs
    unfold blockLoopC blockLoop
    set M := 7 * (k + 1) + 12 * (n + 1) + C + 19 with hM
    set D := 7 * (n + 2) + C' + 3 * (n + 1) with hD
    have hle : (I - s.Iprev).toNat ≤ (n - 1 - s.Iprev).toNat := by omega
    refine Cost.bnd (c := D + 19 + (I - s.Iprev).toNat * M)
      (c' := (n - 1 - I).toNat * M + 1 + (if I = n - 1 then 0 else ((n - 1 - s.Iprev).toNat / k) * (D + 20)))
      (blockStep_cost pr env n k C C' intensity B I s hC hC' h0 (by omega) (by omega) (by omega) hs) (fun r hr => ?_) ?_
    · refine Cost.ite (fun h => Cost.charge' (by omega) fun a ha => by cases ha; exact hr.1) fun h => ?_
      rw [if_neg h]
      refine (ih _ r (by rw [hr.2]; omega) (by rw [hr.2]; omega) (by rw [hr.2]) hr.1).le ?_
      rw [hr.2]
      have e : (n - 1 - s.Iprev).toNat = ((n : Int) - 1 - I).toNat + k := by omega
      rw [e, Nat.add_div_right _ hk]
      omega
    · have e : (n - 1 - s.Iprev).toNat = (I - s.Iprev).toNat + ((n : Int) - 1 - I).toNat := by omega
      rw [e, Nat.add_mul (I - s.Iprev).toNat, Nat.succ_mul]
      split <;> omega

theorem ecdf1NewB_cost (pr : Prices) (env : Env F) (isqrt : Nat → Nat) (B : List F) (C C' : Nat)
    (hC : ∀ m, m ≤ isqrt B.length + 1 → convCost pr m ≤ C) (hC' : ∀ m, m ≤ B.length + 1 → convCost pr m ≤ C') :
    Cost (ecdf1NewBC pr env isqrt B) (ecdf1NewB env isqrt B)
      (B.length * (7 * (isqrt B.length + 2) + 12 * (B.length + 1) + C + 19) +
        (B.length / (isqrt B.length + 1) + 1) * (7 * (B.length + 2) + C' + 3 * (B.length + 1) + 20) +
        C' + 9 * B.length + 2 * isqrt B.length + 80)
      fun _ => True := by
  unfold ecdf1NewBC ecdf1NewB
  set n := B.length with hn
  set q := isqrt n with hq
  set T := n * (7 * (q + 2) + 12 * (n + 1) + C + 19) +
        (n / (q + 1) + 1) * (7 * (n + 2) + C' + 3 * (n + 1) + 20) with hT
  refine Cost.bnd (c := 2 * n + 5) (c' := T + C' + 7 * n + 2 * q + 75) Cost.chg (fun _ _ => ?_) (by omega)
  refine Cost.bnd (c := T + C' + 7 * n + 2 * q + 63) (c' := 12) (Q := fun _ => True) ?_ (fun probs _ => ?_) (by omega)
  · unfold poissonBNoncrossingProbabilityN2C poissonBNoncrossingProbabilityN2
    refine Cost.bnd (c := 1) (c' := T + C' + 7 * n + 2 * q + 62) Cost.chg (fun _ _ => ?_) (by omega)
    refine Cost.okBnd (c := T + C' + 5 * n + 2 * q + 60) ?_ (by omega)
    refine Cost.okBnd (c := T + C' + 5 * n + 58) ?_ (by omega)
    refine Cost.bnd (c := 1) (c' := T + C' + 5 * n + 57) Cost.chg (fun src _ => ?_) (by omega)
    refine Cost.bnd (c := 4 * ((n : Int) + 1 + 2).toNat) (c' := T + C' + n + 45) Cost.chg (fun pmfgen _ => ?_) (by omega)
    dsimp only
    refine Cost.bnd (c := T) (c' := C' + n + 45) (Q := fun s : BlockState F => ConvOk s.conv) ?_ (fun s hs => ?_) (by omega)
    · have := blockLoop_cost pr env n (q + 1) C C' (ofInt (n : Int)) B (by omega) hC hC' (n + 1) (min (-1 + ((q + 1 : Nat) : Int)) ((n : Int) - 1))
        { buffers := (DoubleBuffer.new ((n : Int) + 1) zero).setSrc src, minibuffers := DoubleBuffer.new ((q : Int) + 1) zero, conv := Convolver.new env ((n : Int) + 1), pmfgen := pmfgen,
          tmp := allocDoubles env 20 ((n : Int) + 1), IprevLocation := zero, Iprev := -1 } (by dsimp only; omega) (by dsimp only; omega) rfl (convOk_new _ _)
      have e : ((n : Int) - 1 - (-1)).toNat = n := by omega
      dsimp only at this
      rw [e] at this
      rw [← hn]
      push_cast at this
      exact this
    · refine Cost.bnd (c' := C' + n + 2) (computeArray_cost _ _ _ _) (fun pmfgen _ => ?_) (by rw [← hn]; omega)
      refine Cost.bnd (c := 1) (c' := C' + n + 1) Cost.chg (fun oS _ => ?_) (by omega)
      refine Cost.bnd (c := 1) (c' := C' + n) Cost.chg (fun oD _ => ?_) (by omega)
      refine Cost.bnd (c := C') (c' := n) (Q := fun _ => True)
        ((convolve_cost pr env hs _ _ _ _ _ _ _).mono (hC' _ (by rw [← hn]; omega)) fun _ _ => trivial) (fun r _ => ?_) (by omega)
      exact Cost.charge' (by rw [← hn]; simp) fun _ _ => trivial
  · refine Cost.bnd (c := 1) (c' := 11) Cost.chg (fun _ _ => Cost.bnd (c' := 3) Cost.chg (fun _ _ => Cost.charge' le_rfl fun _ _ => trivial) ?_) ?_ <;> omega

theorem ecdf1Newb_cost (pr : Prices) (env : Env F) (isqrt : Nat → Nat) (b : List F) (C C' : Nat)
    (hC : ∀ m, m ≤ isqrt b.length + 1 → convCost pr m ≤ C) (hC' : ∀ m, m ≤ b.length + 1 → convCost pr m ≤ C') :
    Cost (ecdf1NewbC pr env isqrt b) (ecdf1Newb env isqrt b)
      (b.length * (7 * (isqrt b.length + 2) + 12 * (b.length + 1) + C + 19) +
        (b.length / (isqrt b.length + 1) + 1) * (7 * (b.length + 2) + C' + 3 * (b.length + 1) + 20) +
        C' + 15 * b.length + 2 * isqrt b.length + 85)
      fun _ => True := by
  unfold ecdf1NewbC ecdf1Newb
  refine Cost.bnd (c := 2 * b.length + 5) (c' := b.length * (7 * (isqrt b.length + 2) + 12 * (b.length + 1) + C + 19) +
        (b.length / (isqrt b.length + 1) + 1) * (7 * (b.length + 2) + C' + 3 * (b.length + 1) + 20) +
        C' + 13 * b.length + 2 * isqrt b.length + 80) Cost.chg (fun _ _ => ?_) (by omega)
  refine Cost.bnd (c' := b.length * (7 * (isqrt b.length + 2) + 12 * (b.length + 1) + C + 19) +
        (b.length / (isqrt b.length + 1) + 1) * (7 * (b.length + 2) + C' + 3 * (b.length + 1) + 20) +
        C' + 9 * b.length + 2 * isqrt b.length + 80) (symmetricSteps_cost b) (fun r hr => ?_) (by omega)
  have := ecdf1NewB_cost pr env isqrt r C C' (by rw [hr]; exact hC) (by rw [hr]; exact hC')
  rw [hr] at this
  exact this

/-! ## Closed forms -/

theorem log_le_of_le_two_pow {a e : Nat} (h : a ≤ 2 ^ e) : Nat.log 2 a ≤ e := by
  calc Nat.log 2 a ≤ Nat.log 2 (2 ^ e) := Nat.log_mono_right h
    _ = e := Nat.log_pow (by norm_num) e

theorem le_two_pow_pred (k : Nat) : k + 1 ≤ 2 ^ k := Nat.lt_two_pow_self

theorem log_succ_le (k : Nat) : Nat.log 2 (k + 1) + 1 ≤ k + 1 := by
  have := log_le_of_le_two_pow (le_two_pow_pred k)
  omega

theorem log_le_sqrt (n : Nat) : Nat.log 2 (n + 1) + 1 ≤ 2 * (Nat.sqrt n + 1) := by
  have h1 : n + 1 ≤ 2 ^ (Nat.sqrt n + Nat.sqrt n) := by
    calc n + 1 ≤ (Nat.sqrt n + 1) * (Nat.sqrt n + 1) := Nat.succ_le_of_lt (Nat.lt_succ_sqrt n)
      _ ≤ 2 ^ Nat.sqrt n * 2 ^ Nat.sqrt n := Nat.mul_le_mul (le_two_pow_pred _) (le_two_pow_pred _)
      _ = _ := (pow_add 2 _ _).symm
  have := log_le_of_le_two_pow h1
  omega

theorem sqrt_sq_le (n : Nat) : (Nat.sqrt n + 1) * (Nat.sqrt n + 1) ≤ 2 * (n + 1) := by
  have := Nat.sqrt_le n
  nlinarith [sq_nonneg ((Nat.sqrt n : Int) - 1), Nat.sqrt_le n, Nat.sqrt_le_self n]

/-- Transforms and plans of size `N` take `O(N log N)` steps. -/
def PricesOk (pr : Prices) (κ : Nat) : Prop :=
  ∀ N, pr.fft N ≤ κ * (N * (Nat.log 2 N + 1)) ∧ pr.plan N ≤ κ * (N * (Nat.log 2 N + 1))

theorem convCost_le {pr : Prices} {κ : Nat} (h : PricesOk pr κ) {m x : Nat} (hm : m ≤ x) (hx : 0 < x) :
    convCost pr m ≤ (648 * κ + 516) * (x * (Nat.log 2 x + 1)) := by
  unfold convCost
  dsimp only
  split
  · have h1 : m * (4 * m + 1) ≤ m * 513 := Nat.mul_le_mul_left _ (by omega)
    have h2 : x ≤ x * (Nat.log 2 x + 1) := Nat.le_mul_of_pos_right _ (by omega)
    have h3 : 516 * x ≤ (648 * κ + 516) * (x * (Nat.log 2 x + 1)) := Nat.mul_le_mul (by omega) h2
    omega
  · have hs := roundUp_spec (n := 2 * (m : Int)) (by omega)
    set N := (roundUp (2 * (m : Int)) ROUNDING).toNat with hN
    have hN18 : N ≤ 18 * x := by omega
    have hlog : Nat.log 2 N ≤ Nat.log 2 x + 5 := by
      calc Nat.log 2 N ≤ Nat.log 2 (x * 2 ^ 5) := Nat.log_mono_right (by omega)
        _ = Nat.log 2 x + 5 := by
          rw [show x * 2 ^ 5 = x * 2 * 2 * 2 * 2 * 2 by ring]
          iterate 5 rw [Nat.log_mul_base (by norm_num) (by positivity)]
    set L := Nat.log 2 x with hL
    have hNL : N * (Nat.log 2 N + 1) ≤ 108 * (x * (L + 1)) := by
      calc N * (Nat.log 2 N + 1) ≤ (18 * x) * (6 * (L + 1)) := Nat.mul_le_mul hN18 (by omega)
        _ = _ := by ring
    have h1 := (h N).1.trans (Nat.mul_le_mul_left κ hNL)
    have h2 := (h N).2.trans (Nat.mul_le_mul_left κ hNL)
    have h3 : x ≤ x * (L + 1) := Nat.le_mul_of_pos_right _ (by omega)
    set P := x * (L + 1) with hP
    have : (648 * κ + 516) * P = 6 * (κ * (108 * P)) + 516 * P := by ring
    rw [this]
    omega

/-- Direct convolutions. -/
theorem direct_bound (n s : Nat) :
    (2 * n + 1) * (7 * n + ((n + 1) * (4 * (n + 1) + 1) + 1) + 40) + 20 * n + 40 + s ≤ 100 * (n + 1) ^ 3 + s := by
  nlinarith [sq_nonneg (n : Int), Nat.zero_le n, Nat.zero_le (n * n), Nat.zero_le (n * n * n)]

/-- `ecdf2` with FFT. -/
theorem fft_bound (n κ s : Nat) :
    (2 * n + 1) * (7 * n + (648 * κ + 516) * ((n + 1) * (Nat.log 2 (n + 1) + 1)) + 40) + 20 * n + 40 + s ≤
      (1296 * κ + 1200) * ((n + 1) ^ 2 * (Nat.log 2 (n + 1) + 1)) + s := by
  set L := Nat.log 2 (n + 1) + 1 with hL
  set x := n + 1 with hx
  have h1 : (2 * n + 1) ≤ 2 * x := by omega
  have h2 : 7 * n + (648 * κ + 516) * (x * L) + 40 ≤ 47 * (x * L) + (648 * κ + 516) * (x * L) := by
    have : x ≤ x * L := Nat.le_mul_of_pos_right _ (by omega)
    omega
  have h3 : 20 * n + 40 ≤ 40 * (x ^ 2 * L) := by
    have : x ≤ x ^ 2 * L := by
      calc x = x * 1 * 1 := by ring
        _ ≤ x * x * L := Nat.mul_le_mul (Nat.mul_le_mul_left _ (by omega)) (by omega)
        _ = _ := by ring
    omega
  have h4 := Nat.mul_le_mul h1 h2
  have h5 : 2 * x * (47 * (x * L) + (648 * κ + 516) * (x * L)) = (1296 * κ + 1126) * (x ^ 2 * L) := by ring
  have h6 : (1296 * κ + 1200) * (x ^ 2 * L) = (1296 * κ + 1126) * (x ^ 2 * L) + 74 * (x ^ 2 * L) := by ring
  rw [h5] at h4
  rw [h6]
  omega

/-- `ecdf1_new`. -/
theorem new_bound (n κ : Nat) :
    n * (7 * (Nat.sqrt n + 2) + 12 * (n + 1) + (648 * κ + 516) * ((Nat.sqrt n + 1) * (Nat.log 2 (Nat.sqrt n + 1) + 1)) + 19) +
        (n / (Nat.sqrt n + 1) + 1) * (7 * (n + 2) + (648 * κ + 516) * ((n + 1) * (Nat.log 2 (n + 1) + 1)) + 3 * (n + 1) + 20) +
        (648 * κ + 516) * ((n + 1) * (Nat.log 2 (n + 1) + 1)) + 15 * n + 2 * Nat.sqrt n + 85 ≤
      (5200 * κ + 4400) * (n + 1) ^ 2 := by
  have hq := sqrt_sq_le n
  have hl := log_le_sqrt n
  have hl' := log_succ_le (Nat.sqrt n)
  have hdiv : n / (Nat.sqrt n + 1) + 1 ≤ Nat.sqrt n + 1 := by
    have : n / (Nat.sqrt n + 1) < Nat.sqrt n + 1 := Nat.div_lt_of_lt_mul (Nat.lt_succ_sqrt n)
    omega
  have hsn := Nat.sqrt_le_self n
  set q := Nat.sqrt n with hqdef
  set x := n + 1 with hx
  set A := 648 * κ + 516 with hA
  set L := Nat.log 2 x + 1 with hL
  clear_value A
  have hkk : (q + 1) * (Nat.log 2 (q + 1) + 1) ≤ 2 * x := (Nat.mul_le_mul_left _ hl').trans hq
  have hmini : 7 * (q + 2) + 12 * x + A * ((q + 1) * (Nat.log 2 (q + 1) + 1)) + 19 ≤ 45 * x + A * (2 * x) := by
    have := Nat.mul_le_mul_left A hkk
    omega
  have h1 := Nat.mul_le_mul (show n ≤ x by omega) hmini
  have hxL : (q + 1) * (x * L) ≤ 4 * (x * x) := by
    calc (q + 1) * (x * L) ≤ (q + 1) * (x * (2 * (q + 1))) := Nat.mul_le_mul_left _ (Nat.mul_le_mul_left _ hl)
      _ = 2 * x * ((q + 1) * (q + 1)) := by ring
      _ ≤ 2 * x * (2 * x) := Nat.mul_le_mul_left _ hq
      _ = _ := by ring
  have h2 : (n / (q + 1) + 1) * (7 * (n + 2) + A * (x * L) + 3 * x + 20) ≤ 37 * (x * x) + A * (4 * (x * x)) := by
    calc _ ≤ (q + 1) * (37 * x + A * (x * L)) := Nat.mul_le_mul hdiv (by omega)
      _ = 37 * ((q + 1) * x) + A * ((q + 1) * (x * L)) := by ring
      _ ≤ _ :=
        Nat.add_le_add (Nat.mul_le_mul_left _ (Nat.mul_le_mul_right _ (by omega))) (Nat.mul_le_mul_left _ hxL)
  have h3 : A * (x * L) ≤ A * (2 * (x * x)) := by
    refine Nat.mul_le_mul_left _ ?_
    calc x * L ≤ x * (2 * (q + 1)) := Nat.mul_le_mul_left _ hl
      _ ≤ x * (2 * x) := Nat.mul_le_mul_left _ (by omega)
      _ = _ := by ring
  have h4 : x ≤ x * x := Nat.le_mul_of_pos_right _ (by omega)
  have e1 : x * (45 * x + A * (2 * x)) = 45 * (x * x) + 2 * (A * (x * x)) := by ring
  have e2 : A * (4 * (x * x)) = 4 * (A * (x * x)) := by ring
  have e3 : A * (2 * (x * x)) = 2 * (A * (x * x)) := by ring
  have e4 : A * (x * x) = 648 * (κ * (x * x)) + 516 * (x * x) := by rw [hA]; ring
  have e5 : (5200 * κ + 4400) * x ^ 2 = 5200 * (κ * (x * x)) + 4400 * (x * x) := by ring
  rw [e1] at h1
  rw [e2] at h2
  rw [e3] at h3
  rw [e5]
  clear_value L q
  generalize x * x = X at *
  generalize κ * X = K at *
  omega

end CP
