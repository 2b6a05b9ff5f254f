import Verif.Proofs.IeeeMcErr
import Verif.Props.Suite
import Verif.Props.OutputMc
/-
Property C70: the Monte-Carlo program in double precision, with its own generator.
-/
namespace CP.Props
open CP.Spec CP.McSpec FOps
noncomputable section
variable {A : FloatSystem} {S : Type}

/-- NaN, as a number of the arithmetic. -/
abbrev numNaN (A : FloatSystem) : Num A := (Fl.nan : Fl A.f)

/-- C70: in double precision every draw of the generator is exactly `k / 2^52` with an integer `0 <= k < 2^52`: the
conversion of random bits to a number involves no rounding. -/
theorem C70_draws (hA : A.f = binary64) (r : TinyMT) :
    ∃ k : ℕ, k < 2 ^ 52 ∧ (r.generateDouble01 (F := Num A)).1.real? = some ((k : ℝ) / 2 ^ 52) := by
  obtain ⟨k, hk, e⟩ := grid_draw hA r
  exact ⟨k, hk, by rw [e]; rfl⟩

/-- C70: whatever numbers in `[0,1]` are drawn, in every floating-point format and with every rounding rule each simulated
point is NaN or lies in `[0,1]`, and the points that are numbers are in order.  (Rounding never moves a point out of the
unit interval or past another one.)  The math library only has to get the sign of logarithms right. -/
theorem C70_sample (hf : A.f.OK) (hlog : LogSign A) (u : ℕ → Num A)
    (hu : ∀ j, ∃ x, (u j).real? = some x ∧ 0 ≤ x ∧ x ≤ 1) (n : ℕ) :
    (∀ (i : ℕ) (x : Num A), (sample u n)[i]? = some x → x = numNaN A ∨ ∃ y, x.real? = some y ∧ 0 ≤ y ∧ y ≤ 1) ∧
    ∀ (i j : ℕ) (x y : Num A) (a b : ℝ), i ≤ j → (sample u n)[i]? = some x → (sample u n)[j]? = some y → x.real? = some a → y.real? = some b → a ≤ b := by
  have hU : UnitDraws u := by
    intro j
    obtain ⟨x, h, h0, h1⟩ := hu j
    generalize u j = z at h
    match z, h with
    | Fl.fin y hy, h =>
      have : y = x := Option.some.inj h
      subst this
      exact ⟨y, hy, h0, h1, rfl⟩
  constructor
  · intro i x hx
    rcases sample_unit hf hlog hU n x (List.mem_of_getElem? hx) with h | ⟨y, hy, h0, h1, rfl⟩
    · exact Or.inl h
    · exact Or.inr ⟨y, rfl, h0, h1⟩
  · intro i j x y a b hij hx hy ha hb
    match x, hx, ha with
    | Fl.fin a' h, hx, ha =>
      match y, hy, hb with
      | Fl.fin b' h', hy, hb =>
        have e1 : a' = a := Option.some.inj ha
        have e2 : b' = b := Option.some.inj hb
        subst e1 e2
        exact sample_sorted hf hlog hU hij hx hy

/-- C70: in double precision, if none of the `n+1` draws of a simulated sample is 0, all its points are numbers. -/
theorem C70_no_nan (hA : A.f = binary64) (hlog : LogAccurate A u50) (rng : TinyMT) (s n : ℕ) (hn : n < 2 ^ 40)
    (hd : ∀ j, j ≤ n → (draw (TinyMT.generateDouble01 (F := Num A)) rng (s + j)).real? ≠ some 0) :
    ∀ x ∈ sample (fun j => draw (TinyMT.generateDouble01 (F := Num A)) rng (s + j)) n, Num.finite x := by
  refine sample_finite hA hlog hn fun j hj => ?_
  obtain ⟨k, hk, e⟩ := grid_draw hA (stateAt (TinyMT.generateDouble01 (F := Num A)) rng (s + j))
  refine ⟨k, hk, ?_, e⟩
  rcases Nat.eq_zero_or_pos k with rfl | h
  · exfalso
    refine hd j hj ?_
    unfold draw
    rw [e]
    show some (((0 : ℕ) : ℝ) / 2 ^ 52) = some 0
    simp
  · exact h

theorem pinf_add_nonneg {x : Num A} (h : x.NonNeg) : ((Fl.pinf : Fl A.f) +ᶠ x : Num A) = (Fl.pinf : Fl A.f) := by
  rcases h with rfl | ⟨a, h, -, rfl⟩ <;> rfl

/-- C70: in double precision, if draw number `k` of the `n+1` draws of a simulated sample is 0 (and none before it), the
points before number `k` are 0 and the others are NaN. -/
theorem C70_zero_draw (hA : A.f = binary64) (hlog : LogAccurate A u50) (rng : TinyMT) (s n k : ℕ) (hn : n < 2 ^ 40) (hk : k ≤ n)
    (h0 : (draw (TinyMT.generateDouble01 (F := Num A)) rng (s + k)).real? = some 0)
    (hd : ∀ j, j < k → (draw (TinyMT.generateDouble01 (F := Num A)) rng (s + j)).real? ≠ some 0) :
    sample (fun j => draw (TinyMT.generateDouble01 (F := Num A)) rng (s + j)) n =
      List.replicate k (zero : Num A) ++ List.replicate (n - k) (numNaN A) := by
  have hf : A.f.OK := hA ▸ binary64_ok
  have hsgn := hlog.sign (by rw [u50_val]; norm_num)
  set u : ℕ → Num A := fun j => draw (TinyMT.generateDouble01 (F := Num A)) rng (s + j) with hu
  have hU : UnitDraws u := unitDraws_tinymt hA rng s
  have hinf : ∀ i, k < i → arrival one u i = (Fl.pinf : Fl A.f) := by
    intro i hi
    induction i with
    | zero => omega
    | succ i ih =>
      rw [arrival]
      obtain ⟨x, hx, hx0, hx1, e⟩ := hU i
      by_cases hik : i = k
      · subst hik
        have hx' : x = 0 := by
          rw [← hu] at *
          have h0' : (u i).real? = some 0 := h0
          rw [e] at h0'
          exact Option.some.inj h0'
        subst hx'
        have e1 : (FOps.neg (one : Num A) *ᶠ FOps.log (u i) : Num A) = (Fl.pinf : Fl A.f) := by
          rw [e]
          have e2 : FOps.log (mkNum A 0 hx) = (A.libm.log (Fl.fin 0 hx) : Num A) := rfl
          rw [e2, hlog.zero hx]
          exact neg_one_mul_ninf hf
        rw [e1]
        rcases arrival_nonneg hf hsgn hU i with h | ⟨a, ha, -, h⟩ <;> rw [h] <;> rfl
      · rw [ih (by omega), e]
        exact pinf_add_nonneg (expNum_nonneg hf hsgn hx hx0 hx1)
  have hfin : ∀ i, i ≤ k → ∃ a h, arrival one u i = mkNum A a h := by
    have hexp : ∀ j, ∃ v : ℝ, j < k → (∃ hh, (FOps.neg (one : Num A) *ᶠ FOps.log (u j) : Num A) = mkNum A v hh) ∧ 0 ≤ v ∧ v ≤ 38 := by
      intro j
      by_cases hj : j < k
      · obtain ⟨m, hm, e⟩ := grid_draw hA (stateAt (TinyMT.generateDouble01 (F := Num A)) rng (s + j))
        have hm0 : 0 < m := by
          rcases Nat.eq_zero_or_pos m with rfl | h
          · exfalso
            refine hd j hj ?_
            unfold draw
            rw [e]
            show some (((0 : ℕ) : ℝ) / 2 ^ 52) = some 0
            simp
          · exact h
        obtain ⟨g1, g2⟩ := grid_log hm0 hm
        obtain ⟨v, hh, e2, hv⟩ := expNum_err hf hlog (grid_fin hA (k := m) (by omega)) (by positivity)
        rw [abs_of_neg (show Real.log ((m : ℝ) / 2 ^ 52) < 0 by linarith), u50_val] at hv
        have := abs_le.mp hv
        refine ⟨v, fun _ => ⟨⟨hh, ?_⟩, by linarith, by linarith⟩⟩
        have : u j = mkNum A ((m : ℝ) / 2 ^ 52) (grid_fin hA (by omega)) := e
        rw [this]
        exact e2
      · exact ⟨0, fun h => absurd h hj⟩
    choose e he using hexp
    have hkr : (k : ℝ) ≤ 1099511627776 := by exact_mod_cast (show k ≤ 1099511627776 by norm_num at hn; omega)
    intro i hi
    obtain ⟨a, hh, h1, -⟩ := arrival_err (double_ok hA) (d := u) (e := e) (m := k) (M := 38) (by norm_num) he
      (by rw [u50_val]; linarith)
      (by
        have e : A.f.emax = 1024 := by rw [hA]; rfl
        rw [e]
        have : (2 : ℝ) ^ (60 : ℤ) ≤ (2 : ℝ) ^ ((1024 : ℤ) - 1) := zpow_le_zpow_right₀ (by norm_num) (by norm_num)
        refine le_trans ?_ this
        norm_num
        linarith) i hi
    exact ⟨a, hh, h1⟩
  refine List.ext_getElem? fun i => ?_
  rw [sample_get]
  by_cases hi : i < n
  · rw [if_pos hi, hinf (n + 1) (by omega)]
    by_cases hik : i < k
    · rw [List.getElem?_append_left (by simpa using hik), List.getElem?_replicate, if_pos hik]
      obtain ⟨a, ha, e⟩ := hfin (i + 1) (by omega)
      rw [e]
      congr 1
      have : (mkNum A a ha /ᶠ (Fl.pinf : Fl A.f) : Num A) = roundNum A 0 := rfl
      rw [this, roundNum_of_fin (fin_zero hf), num_zero hf]
    · rw [List.getElem?_append_right (by simpa using hik), List.length_replicate, List.getElem?_replicate,
        if_pos (show i - k < n - k by omega), hinf (i + 1) (by omega)]
      rfl
  · rw [if_neg hi, List.getElem?_eq_none (by simp; omega)]

/-- The estimate of `N` simulations with `c` crossings, in double precision. -/
theorem estimate_num (hA : A.f = binary64) {c N : ℕ} (hc : c ≤ N) (hN0 : 1 ≤ N) (hN : (N : ℤ) ≤ 2 ^ 31 - 1) :
    ∃ h, ((ofInt (c : ℤ) : Num A) /ᶠ ofInt (N : ℤ)) = mkNum A (A.r ((c : ℝ) / N)) h ∧
      0 ≤ A.r ((c : ℝ) / N) ∧ A.r ((c : ℝ) / N) ≤ 1 ∧ |A.r ((c : ℝ) / N) - (c : ℝ) / N| ≤ 1 / 2 ^ 49 := by
  have hf : A.f.OK := hA ▸ binary64_ok
  have hp : A.f.p = 53 := by rw [hA]; rfl
  have he : A.f.emax = 1024 := by rw [hA]; rfl
  have hmin : A.f.emin = -1074 := by rw [hA]; rfl
  have hbig : (2 : ℝ) ^ (31 : ℤ) ≤ (2 : ℝ) ^ (A.f.emax - 1) := by
    rw [he]; exact zpow_le_zpow_right₀ (by norm_num) (by norm_num)
  have hNr : (N : ℝ) ≤ 2 ^ (31 : ℤ) := by
    have : (N : ℝ) ≤ 2 ^ 31 - 1 := by exact_mod_cast hN
    norm_num at this ⊢
    linarith
  have hcr : (c : ℝ) ≤ N := by exact_mod_cast hc
  have ex : ∀ k : ℕ, k ≤ N → ∃ h, (ofInt (k : ℤ) : Num A) = mkNum A (k : ℝ) h := by
    intro k hk
    have hfin : A.f.Fin (k : ℝ) := by
      have hk2 : ((k : ℤ) : ℝ) = (k : ℝ) := by push_cast; rfl
      refine ⟨?_, ?_⟩
      · rw [← hk2]
        refine rep_int hf ?_
        rw [hp, abs_of_nonneg (by omega)]
        omega
      · rw [abs_of_nonneg (by positivity), he]
        have : (k : ℝ) ≤ N := by exact_mod_cast hk
        refine (this.trans hNr).trans_lt (zpow_lt_zpow_right₀ (by norm_num) (by norm_num))
    refine ⟨hfin, ?_⟩
    have : (ofInt (k : ℤ) : Num A) = roundNum A ((k : ℤ) : ℝ) := rfl
    rw [this, Int.cast_natCast]
    exact roundNum_of_fin hfin
  obtain ⟨h1, e1⟩ := ex c hc
  obtain ⟨h2, e2⟩ := ex N le_rfl
  have hN1 : (1 : ℝ) ≤ N := by exact_mod_cast hN0
  rw [e1, e2, div_fin _ _ (by positivity)]
  have hq0 : (0 : ℝ) ≤ (c : ℝ) / N := by positivity
  have hq1 : (c : ℝ) / N ≤ 1 := by rw [div_le_one (by positivity)]; exact hcr
  obtain ⟨h, e, a, b⟩ := roundNum_unit (A := A) hf hq0 hq1
  refine ⟨h, e, a, b, ?_⟩
  have := round_abs (double_ok hA) ((c : ℝ) / N)
  rw [abs_of_nonneg hq0, u50_val, hmin] at this
  have h3 : (2 : ℝ) ^ ((-1074 : ℤ) - 1) ≤ (2 : ℝ) ^ (-50 : ℤ) := zpow_le_zpow_right₀ (by norm_num) (by norm_num)
  have h4 : (2 : ℝ) ^ (-50 : ℤ) = 1 / 2 ^ 50 := by norm_num
  rw [h4] at h3
  refine this.trans ((add_le_add (mul_le_of_le_one_right (by norm_num) hq1) h3).trans ?_)
  norm_num

/-- `1 -` the estimate. -/
theorem one_sub_num (hf : A.f.OK) {p : ℝ} (h : A.f.Fin p) (h0 : 0 ≤ p) (h1 : p ≤ 1) :
    ∃ h', ((one : Num A) -ᶠ mkNum A p h) = mkNum A (A.r (1 - p)) h' ∧ 0 ≤ A.r (1 - p) ∧ A.r (1 - p) ≤ 1 := by
  rw [num_one hf, sub_fin]
  exact roundNum_unit hf (by linarith) (by linarith)

/-- C70: in double precision the printed number is in `[0,1]` and differs from one minus the fraction of crossing samples by
rounding errors only. -/
theorem C70_estimate (hA : A.f = binary64) (w : McWorld (Num A)) (file num : Str) (N : ℕ) (hN0 : 1 ≤ N)
    (hN : stringToLong w.libc num = .ok (N : ℤ)) (hNmax : (N : ℤ) ≤ 2 ^ 31 - 1) (b B : List (Num A))
    (h : readAndCheckBoundariesFile w.libc w.fs file = .ok (b, B))
    (hsz : b ≠ [] ∨ B ≠ []) (hb : b = [] ∨ B.length ≤ b.length) :
    let n := max b.length B.length
    let rng := w.junk.init (BitVec.ofInt 64 (w.time + (n : ℤ) * 2 ^ 20))
    ∃ (x : Num A) (p : ℝ), mcMain w ["ecdf".toList, file, num] = .printed x ∧ x.real? = some p ∧ 0 ≤ p ∧ p ≤ 1 ∧
      |p - (1 - (countUpTo (fun r => ¬ Inside (sample (fun j => draw TinyMT.generateDouble01 rng (r * (n + 1) + j)) n) b B) N : ℝ) / N)|
        ≤ 1 / 2 ^ 48 := by
  intro n rng
  have hf : A.f.OK := hA ▸ binary64_ok
  have key := C48_ecdf w file num N hN hNmax b B h hsz hb
  dsimp only at key
  set c := countUpTo (fun r => ¬ Inside (sample (fun j => draw TinyMT.generateDouble01 rng (r * (n + 1) + j)) n) b B) N with hc
  obtain ⟨h1, e1, p0, p1, hp⟩ := estimate_num (A := A) hA (c := c) (countUpTo_le _ N) hN0 hNmax
  obtain ⟨h2, e2, q0, q1⟩ := one_sub_num hf h1 p0 p1
  refine ⟨_, _, key, ?_, q0, q1, ?_⟩
  · show Num.real? (one -ᶠ ((ofInt (c : ℤ) : Num A) /ᶠ ofInt (N : ℤ))) = _
    rw [e1, e2]
    rfl
  · set p := A.r ((c : ℝ) / N)
    obtain ⟨k, hk⟩ := rep_mult h1.1
    obtain ⟨l, hl⟩ := rep_mult (rep_one hf)
    have h5 := round_rel (double_ok hA) (k := l - k) (x := 1 - p) (by push_cast; rw [sub_mul, ← hk, ← hl])
    rw [abs_of_nonneg (by linarith : (0 : ℝ) ≤ 1 - p), u50_val] at h5
    have h6 : |A.r (1 - p) - (1 - (c : ℝ) / N)| ≤ |A.r (1 - p) - (1 - p)| + |p - (c : ℝ) / N| := by
      have := abs_add_le (A.r (1 - p) - (1 - p)) (-(p - (c : ℝ) / N))
      rw [abs_neg] at this
      rwa [show A.r (1 - p) - (1 - p) + -(p - (c : ℝ) / N) = A.r (1 - p) - (1 - (c : ℝ) / N) by ring] at this
    refine h6.trans ((add_le_add h5 hp).trans ?_)
    have : 1 / 1125899906842624 * (1 - p) ≤ 1 / 1125899906842624 := mul_le_of_le_one_right (by norm_num) (by linarith)
    refine (add_le_add this le_rfl).trans ?_
    norm_num

theorem countUpTo_eq_zero {q : ℕ → Prop} {N : ℕ} (h : ∀ r, ¬ q r) : countUpTo q N = 0 := by
  classical
  unfold countUpTo
  rw [Finset.card_eq_zero]
  exact Finset.eq_empty_of_forall_notMem fun r hr => h r (Finset.mem_filter.mp hr).2

/-- C70: lower boundaries at or below 0 and upper boundaries at or above 1 are never crossed, by no simulated sample, in any
floating-point format: the estimated crossing probability is exactly 0. -/
theorem C70_trivial (hf : A.f.OK) (hlog : LogSign A) (uniform : S → Num A × S) (rng : S)
    (hu : ∀ s, ∃ x, (uniform s).1.real? = some x ∧ 0 ≤ x ∧ x ≤ 1) (n : ℕ) (hn : 1 ≤ n) (b B : List (Num A)) (N : ℕ)
    (hB : B.length ≤ n) (hb : b = [] ∨ n ≤ b.length) (hN : (N : ℤ) ≤ 2 ^ 31 - 1)
    (hb0 : ∀ x ∈ b, ∃ v, x.real? = some v ∧ v ≤ 0) (hB1 : ∀ x ∈ B, ∃ v, x.real? = some v ∧ 1 ≤ v) :
    ecdfMc uniform rng n b B N = .ok (ofInt 0 /ᶠ ofInt (N : ℤ)) := by
  rw [C33_any_arithmetic uniform rng n hn b B N hB hb hN, countUpTo_eq_zero]
  · rfl
  · intro r
    rw [not_not]
    have hs := C70_sample hf hlog (fun j => draw uniform rng (r * (n + 1) + j)) (fun j => hu _) n
    have hlen : (sample (fun j => draw uniform rng (r * (n + 1) + j)) n).length = n := by simp [sample]
    refine ⟨by rw [hlen]; exact hB, fun h => ?_, ?_, ?_⟩
    · rw [hlen]
      exact hb.resolve_left h
    · intro i x y hx hy
      obtain ⟨v, hv, h1⟩ := hB1 y (List.mem_of_getElem? hy)
      match y, hv with
      | Fl.fin v' h', hv =>
        have e : v' = v := Option.some.inj hv
        subst e
        rcases hs.1 i x hx with rfl | ⟨z, hz, z0, z1⟩
        · rfl
        · match x, hz with
          | Fl.fin z' hz', hz =>
            have e : z' = z := Option.some.inj hz
            subst e
            show decide (v' < z') = false
            rw [decide_eq_false_iff_not]
            linarith
    · intro i x y hx hy
      obtain ⟨v, hv, h1⟩ := hb0 y (List.mem_of_getElem? hy)
      match y, hv with
      | Fl.fin v' h', hv =>
        have e : v' = v := Option.some.inj hv
        subst e
        rcases hs.1 i x hx with rfl | ⟨z, hz, z0, z1⟩
        · rfl
        · match x, hz with
          | Fl.fin z' hz', hz =>
            have e : z' = z := Option.some.inj hz
            subst e
            show decide (z' < v') = false
            rw [decide_eq_false_iff_not]
            linarith

/-- What crossprob_mc needs of the machine: IEEE-754 doubles, a logarithm accurate to four units in the last place, and
conforming `strtol`, `strtod` and output of numbers. -/
structure McDoubleMachine (w : McWorld (Num A)) (fmt : Num A → Str) (inRange : ℝ → Prop) : Prop where
  format : A.f = binary64
  log : LogAccurate A u50
  strtol : StrtolSpec w.libc.strtol
  strtod : StrtodSpec w.libc.strtod (roundNum A) inRange
  print : PrintSpec fmt Num.real?

theorem mc_read_file {w : McWorld (Num A)} {inRange : ℝ → Prop} (hspec : StrtodSpec w.libc.strtod (roundNum A) inRange) {n m : ℕ}
    (fb : Fin n → Field) (fB : Fin m → Field) (hfb : ∀ i, (fb i).WF) (hfB : ∀ i, (fB i).WF)
    (hinb : ∀ i, inRange (fb i).num.value) (hinB : ∀ i, inRange (fB i).num.value)
    {name text : Str} (hfile : w.fs name = .contents text) (hlines : FirstTwoLines text (lineOf fb) (lineOf fB)) :
    readAndCheckBoundariesFile w.libc w.fs name
      = .ok (List.ofFn fun i => roundNum A (valuesOf fb i), List.ofFn fun i => roundNum A (valuesOf fB i)) := by
  rw [C30_two_lines w.libc w.fs name text _ _ hfile hlines, parse_line hspec fb hfb hinb, parse_line hspec fB hfB hinB]
  rfl

/-- Trivial boundaries, once read. -/
theorem mc_trivial {w : McWorld (Num A)} {fmt : Num A → Str} {inRange : ℝ → Prop} (hM : McDoubleMachine w fmt inRange) (ioWhat : Str)
    {name : Str} {b B : List (Num A)} (h : readAndCheckBoundariesFile w.libc w.fs name = .ok (b, B)) (hsz : b ≠ [] ∨ B ≠ [])
    (hb : b = [] ∨ B.length ≤ b.length) (hb0 : ∀ x ∈ b, ∃ v, x.real? = some v ∧ v ≤ 0) (hB1 : ∀ x ∈ B, ∃ v, x.real? = some v ∧ 1 ≤ v)
    (N : ℕ) (hN0 : 1 ≤ N) (hN : (N : ℤ) ≤ 2 ^ 31 - 1) :
    mcRun w fmt ioWhat ["ecdf".toList, name, (toString (N : ℤ)).toList] = .exited 0 "1\n".toList := by
  have hA := hM.format
  have hf : A.f.OK := hA ▸ binary64_ok
  have hnum := C31_roundtrip hM.strtol (N : ℤ) (by constructor <;> omega)
  have hn : 1 ≤ max b.length B.length := by
    rcases hsz with h | h
    · have := List.length_pos_iff.mpr h; omega
    · have := List.length_pos_iff.mpr h; omega
  have hmain : mcMain w ["ecdf".toList, name, (toString (N : ℤ)).toList] = .printed (one -ᶠ (ofInt 0 /ᶠ ofInt (N : ℤ))) := by
    unfold mcMain
    dsimp only
    rw [mcMain_ecdf w name _ N (by omega) hnum b B h,
      C70_trivial hf (hM.log.sign (by rw [u50_val]; norm_num)) TinyMT.generateDouble01 _ (fun s => by
        obtain ⟨k, hk, e⟩ := C70_draws hA s
        refine ⟨_, e, by positivity, ?_⟩
        rw [div_le_one (by positivity)]
        exact_mod_cast hk.le) _ hn b B N (le_max_right _ _) (by
        rcases hb with hb | hb
        · exact Or.inl hb
        · right; omega) hN hb0 hB1, M_ok_bind]
  have key := C59_mc_output w fmt ioWhat ["ecdf".toList, name, (toString (N : ℤ)).toList]
  rw [hmain] at key
  dsimp only at key
  rw [key]
  obtain ⟨h1, e1, p0, p1, -⟩ := estimate_num (A := A) hA (c := 0) (N := N) (by omega) hN0 hN
  have hz : A.r (((0 : ℕ) : ℝ) / N) = 0 := by rw [Nat.cast_zero, zero_div]; exact nearest_zero hf A.nearest
  obtain ⟨h2, e2, -, -⟩ := one_sub_num hf h1 p0 p1
  have hv : Num.real? ((one : Num A) -ᶠ (ofInt 0 /ᶠ ofInt (N : ℤ))) = some 1 := by
    have e3 : ((ofInt 0 : Num A) /ᶠ ofInt (N : ℤ)) = mkNum A (A.r (((0 : ℕ) : ℝ) / N)) h1 := e1
    rw [e3, e2]
    show some (A.r (1 - A.r (((0 : ℕ) : ℝ) / N))) = some 1
    rw [hz, sub_zero, nearest_rep A.nearest (rep_one hf)]
  obtain ⟨m, X, hX, e⟩ := hM.print.pos _ _ hv one_pos
  rw [e, (printsAs_one (tol := 0) (by norm_num) 1 (by simp)).2 m X hX]
  rfl

/-- C70, the program: for every boundary file in which all lower limits are 0 and all upper limits 1 (or one of the two lines is
empty), every positive number of simulations up to `INT_MAX`, at every time of day and with any garbage in the memory where the
generator is constructed, `crossprob_mc ecdf` prints exactly `1`. -/
theorem C70_program_trivial {w : McWorld (Num A)} {fmt : Num A → Str} {inRange : ℝ → Prop} (hM : McDoubleMachine w fmt inRange)
    (ioWhat : Str) {n m : ℕ} (fb : Fin n → Field) (fB : Fin m → Field) (hfb : ∀ i, (fb i).WF) (hfB : ∀ i, (fB i).WF)
    (hb0 : ∀ i, (fb i).num.value = 0) (hB1 : ∀ i, (fB i).num.value = 1) (hin0 : inRange 0) (hin1 : inRange 1)
    (hnm : n = 0 ∨ m ≤ n) (hsz : 1 ≤ n ∨ 1 ≤ m) {name text : Str} (hfile : w.fs name = .contents text)
    (hlines : FirstTwoLines text (lineOf fb) (lineOf fB)) (N : ℕ) (hN0 : 1 ≤ N) (hN : (N : ℤ) ≤ 2 ^ 31 - 1) :
    mcRun w fmt ioWhat ["ecdf".toList, name, (toString (N : ℤ)).toList] = .exited 0 "1\n".toList := by
  have hf : A.f.OK := hM.format ▸ binary64_ok
  refine mc_trivial hM ioWhat (mc_read_file hM.strtod fb fB hfb hfB (fun i => by rw [hb0]; exact hin0) (fun i => by rw [hB1]; exact hin1) hfile hlines)
    ?_ ?_ ?_ ?_ N hN0 hN
  · rcases hsz with h | h
    · left; rw [← List.length_pos_iff, List.length_ofFn]; omega
    · right; rw [← List.length_pos_iff, List.length_ofFn]; omega
  · rcases hnm with rfl | h
    · left; simp
    · right; simpa using h
  · rw [List.forall_mem_ofFn_iff]
    intro i
    refine ⟨0, ?_, le_rfl⟩
    show Num.real? (roundNum A (fb i).num.value) = _
    rw [hb0, roundNum_of_fin (fin_zero hf)]
    rfl
  · rw [List.forall_mem_ofFn_iff]
    intro i
    refine ⟨1, ?_, le_rfl⟩
    show Num.real? (roundNum A (fB i).num.value) = _
    rw [hB1, roundNum_of_fin (fin_one hf)]
    rfl

/-- C70, the two exact assertions of `test_crossprob_mc_binomial` (`tests/test_crossprob.py:51-54`): with the test files on disk,
`crossprob_mc ecdf tests/bounds_0.txt 1000` and `crossprob_mc ecdf tests/bounds__1.txt 1000` print `1`, always. -/
theorem C70_suite {w : McWorld (Num A)} {fmt : Num A → Str} {inRange : ℝ → Prop} (hM : McDoubleMachine w fmt inRange)
    (ioWhat : Str) (hin0 : inRange 0) (hin1 : inRange 1) (hfiles : ∀ f ∈ suiteFiles, w.fs f.1 = .contents f.2) {name : Str}
    (hname : name ∈ ["tests/bounds_0.txt".toList, "tests/bounds__1.txt".toList]) :
    mcRun w fmt ioWhat ["ecdf".toList, name, "1000".toList] = .exited 0 "1\n".toList := by
  have hf : A.f.OK := hM.format ▸ binary64_ok
  simp only [suiteFiles, List.forall_mem_cons, List.not_mem_nil, false_implies, implies_true, and_true] at hfiles
  obtain ⟨-, -, -, -, -, f0, f1⟩ := hfiles
  have he : lineOf (n := 0) Fin.elim0 = [] := by simp [lineOf, List.intercalate]
  have z0 : ∀ i, (fieldsOf line000 line000_len i).num.value = 0 := by
    intro i
    have := valuesOf_fields line000_len (by decide) i
    unfold valuesOf at this
    rw [this]
    have : (line000[i.val]'(by have := i.2; simp [line000])).num = 0 := by
      fin_cases i <;> rfl
    rw [this]; simp
  have z1 : ∀ i, (fieldsOf line111 line111_len i).num.value = 1 := by
    intro i
    have := valuesOf_fields line111_len (by decide) i
    unfold valuesOf at this
    rw [this]
    have : (line111[i.val]'(by have := i.2; simp [line111])).num = 10 ^ 13 := by
      fin_cases i <;> rfl
    rw [this]; norm_num
  have hnum : "1000".toList = (toString ((1000 : ℕ) : ℤ)).toList := by decide
  rw [hnum]
  simp only [List.mem_cons, List.not_mem_nil, or_false] at hname
  rcases hname with rfl | rfl
  · refine mc_trivial hM ioWhat (b := List.ofFn fun i => roundNum A (fieldsOf line000 line000_len i).num.value) (B := []) ?_
      (Or.inl (by rw [← List.length_pos_iff, List.length_ofFn]; norm_num)) (Or.inr (by simp)) ?_ (by simp) 1000 (by norm_num) (by norm_num)
    · rw [C30_two_lines w.libc w.fs _ _ ("0, 0, 0,".toList) [] f0 ⟨by decide, by decide, Or.inl ⟨[], by decide +kernel⟩⟩]
      have h1 := C28_trailing_comma hM.strtod (List.ofFn (fieldsOf line000 line000_len)) (by decide)
        (List.forall_mem_ofFn_iff.mpr (fieldsOf_wf _ (by decide)))
        (List.forall_mem_ofFn_iff.mpr (fun i => by rw [z0]; exact hin0))
      have e : List.intercalate [','] ((List.ofFn (fieldsOf line000 line000_len)).map Field.text) ++ [','] = "0, 0, 0,".toList := by
        have := line_fields line000 line000_len
        unfold lineOf at this
        rw [this]; decide
      rw [e] at h1
      rw [h1, C28_empty, List.map_ofFn]
      rfl
    · rw [List.forall_mem_ofFn_iff]
      intro i
      refine ⟨0, ?_, le_rfl⟩
      rw [z0, roundNum_of_fin (fin_zero hf)]
      rfl
  · refine C70_program_trivial hM ioWhat (n := 0) (m := 3) Fin.elim0 (fieldsOf line111 line111_len) (fun i => i.elim0)
      (fieldsOf_wf _ (by decide)) (fun i => i.elim0) z1 hin0 hin1 (Or.inl rfl) (Or.inr (by norm_num)) f1 ?_ 1000 (by norm_num) (by norm_num)
    rw [line_fields, he]
    exact ⟨by decide, by decide, Or.inl ⟨[], by decide +kernel⟩⟩

/-! ## The hypotheses can be met -/

theorem doubles_log : LogAccurate doubles u50 where
  log := (doubles_libm u50_ge (N := 0) (by norm_num)).log
  zero h := by
    show (if (0 : ℝ) < 0 then roundFl _ (Real.log 0) else if (0 : ℝ) = 0 then (Fl.ninf : Fl binary64) else Fl.nan) = Fl.ninf
    rw [if_neg (lt_irrefl _), if_pos rfl]

/-- crossprob_mc in double precision, with the test files. -/
def mcSuiteWorld (time : ℤ) (junk : TinyMT) : McWorld (Num doubles) :=
  { asserts := true, libc := { strtol := Witness.strtol, strtod := doubleStrtod, strerror := fun _ => [] },
    fs := suiteWorld.fs, time := time, junk := junk }

theorem mcSuiteWorld_ok (time : ℤ) (junk : TinyMT) : McDoubleMachine (mcSuiteWorld time junk) doublePrint (fun _ => True) where
  format := rfl
  log := doubles_log
  strtol := Witness.strtol_spec
  strtod := doubleStrtod_spec
  print := print6_spec Num.real?

example (time : ℤ) (junk : TinyMT) :
    mcRun (mcSuiteWorld time junk) doublePrint [] ["ecdf".toList, "tests/bounds_0.txt".toList, "1000".toList] = .exited 0 "1\n".toList := by
  refine C70_suite (mcSuiteWorld_ok time junk) [] trivial trivial ?_ (by simp)
  intro f hf
  have h : ∀ f ∈ suiteFiles, suiteFiles.lookup f.1 = some f.2 := by decide +kernel
  exact suiteWorld_file (h f hf)

/-- A sample with a draw equal to 0 exists: the first draw of this generator. -/
example : sample (fun j => draw (TinyMT.generateDouble01 (F := Num doubles))
    (TinyMT.init ⟨0, 0, 0, 0, 0xfc3ac0f3c9b98ce0⟩ 0xac95d67f9a4e10ef) (0 + j)) 2 =
    [numNaN doubles, numNaN doubles] := by
  refine C70_zero_draw (A := doubles) rfl doubles_log _ 0 2 0 (by norm_num) (by norm_num) ?_ (by simp)
  have h : ∀ r : TinyMT, r.nextState.temperConvBits = 0x3ff0000000000000 → (r.generateDouble01 (F := Num doubles)).1.real? = some 0 := by
    intro r hr
    unfold TinyMT.generateDouble01
    dsimp only
    rw [hr]
    have e : (FBits.ofBits (0x3ff0000000000000 : BitVec 64) : Num doubles) = ofXR doubles (FBits.ofBits (0x3ff0000000000000 : BitVec 64)) := rfl
    rw [e, ofBits_one_plus _ 0 (by norm_num) (by decide)]
    have hf : doubles.f.OK := binary64_ok
    have e2 : ofXR doubles (XR.fin (1 + ((0 : ℕ) : ℝ) / 2 ^ 52)) = mkNum doubles 1 (fin_one hf) := by
      show roundNum doubles _ = _
      rw [Nat.cast_zero, zero_div, add_zero]
      exact roundNum_of_fin _
    rw [e2, num_one hf, sub_fin, sub_self, roundNum_of_fin (fin_zero hf)]
    rfl
  exact h _ (by decide)

/-- A sample without such a draw. -/
example : ∀ x ∈ sample (fun j => draw (TinyMT.generateDouble01 (F := Num doubles)) (TinyMT.init ⟨0, 0, 0, 0, 0⟩ 1) (0 + j)) 2,
    Num.finite x := by
  refine C70_no_nan (A := doubles) rfl doubles_log _ 0 2 (by norm_num) ?_
  have h : ∀ r : TinyMT, r.nextState.temperConvBits ≠ 0x3ff0000000000000 → (r.generateDouble01 (F := Num doubles)).1.real? ≠ some 0 := by
    intro r hr h0
    obtain ⟨m, hm, hw⟩ := temperConvBits_mantissa r.nextState
    obtain ⟨k, hk, e⟩ := grid_draw (A := doubles) rfl r
    have hxr := C36_uniform_grid r
    unfold TinyMT.generateDouble01 at h0
    dsimp only at h0
    have hf : doubles.f.OK := binary64_ok
    have e1 : (FBits.ofBits r.nextState.temperConvBits : Num doubles) = roundNum doubles (1 + (m : ℝ) / 2 ^ 52) := by
      have e : (FBits.ofBits r.nextState.temperConvBits : Num doubles) = ofXR doubles (FBits.ofBits r.nextState.temperConvBits) := rfl
      rw [e, ofBits_one_plus _ m hm hw]
      rfl
    have e2 : (1 + (m : ℝ) / 2 ^ 52) = ((2 ^ 52 + m : ℕ) : ℝ) / 2 ^ 52 := by push_cast; field_simp; norm_num
    rw [e1, e2, roundNum_of_fin (grid_fin (A := doubles) rfl (by omega)), num_one hf, sub_fin,
      show (((2 ^ 52 + m : ℕ) : ℝ) / 2 ^ 52) - 1 = (m : ℝ) / 2 ^ 52 by push_cast; field_simp; ring,
      roundNum_of_fin (grid_fin (A := doubles) rfl (by omega))] at h0
    have h1 : (m : ℝ) / 2 ^ 52 = 0 := Option.some.inj h0
    have h2 : m = 0 := by
      have : (m : ℝ) = 0 := by
        rcases div_eq_zero_iff.mp h1 with h | h
        · exact h
        · norm_num at h
      exact_mod_cast this
    subst h2
    exact hr (BitVec.eq_of_toNat_eq (by rw [hw]; decide))
  intro j hj
  interval_cases j
  · exact h _ (by decide)
  · exact h _ (by decide)
  · exact h _ (by decide)

end
end CP.Props
