import Verif.Model.XRBits
import Verif.Proofs.TinyMTSeed
import Verif.Proofs.Hoare
import Mathlib.Tactic.Positivity
import Mathlib.Tactic.Linarith
/-
Properties C36 and C37: the random number generator.
-/
namespace CP.Props
open CP

/-- `k` calls of the generator's transition. -/
abbrev advance (k : ℕ) (r : TinyMT) : TinyMT := TinyMT.nextState^[k] r

/-- All 127 state bits that the transition looks at are zero (bit 63 of the first word is ignored). -/
def AllZero (r : TinyMT) : Prop := (∀ i, i < 63 → r.status0.getLsbD i = false) ∧ ∀ i, i < 64 → r.status1.getLsbD i = false

theorem allZero_iff (r : TinyMT) : AllZero r ↔ TinyMT.Stuck r := by
  have hmask : ∀ i, i < 63 → tinymtMask.getLsbD i = true := by decide
  constructor
  · rintro ⟨h0, h1⟩
    constructor
    · apply BitVec.eq_of_getLsbD_eq
      intro i hi
      by_cases hi' : i < 63
      · simp [BitVec.getLsbD_and, h0 i hi']
      · have : i = 63 := by omega
        subst this
        have : tinymtMask.getLsbD 63 = false := by decide
        rw [BitVec.getLsbD_and, this, Bool.and_false]; rfl
    · apply BitVec.eq_of_getLsbD_eq
      intro i hi
      simp [h1 i hi]
  · rintro ⟨h0, h1⟩
    refine ⟨fun i hi => ?_, fun i hi => by rw [h1]; simp⟩
    have := congrArg (fun w => w.getLsbD i) h0
    simpa [BitVec.getLsbD_and, hmask i hi] using this

/-- C36: after initialisation with any seed, whatever the parameters `mat1`, `mat2`, `tmat` contained, the
state is not all-zero, and stays so forever. -/
theorem C36_never_stuck (junk : TinyMT) (seed : BitVec 64) (k : ℕ) : ¬ AllZero (advance k (junk.init seed)) := by
  rw [allZero_iff]
  exact TinyMT.not_stuck_iterate (TinyMT.not_stuck_init junk seed) k

/-- The number with sign 0, exponent field 1023 and mantissa `m`. -/
theorem ofBits_one_plus (w : BitVec 64) (m : ℕ) (hm : m < 2 ^ 52) (hw : w.toNat = 1023 * 2 ^ 52 + m) :
    (FBits.ofBits w : XR) = .fin (1 + (m : ℝ) / 2 ^ 52) := by
  show XR.ofBits w = _
  unfold XR.ofBits
  have h1 : w.toNat / 2 ^ 63 = 0 := by omega
  have h2 : w.toNat / 2 ^ 52 % 2 ^ 11 = 1023 := by omega
  have h3 : w.toNat % 2 ^ 52 = m := by omega
  simp only [h1, h2, h3]
  norm_num

theorem shr_lt (w : BitVec 64) : (w >>> 12).toNat < 2 ^ 52 := by
  rw [BitVec.toNat_ushiftRight, Nat.shiftRight_eq_div_pow]
  have := w.isLt
  omega

theorem or_toNat (d : BitVec 64) (hd : d.toNat < 2 ^ 52) :
    (d ||| 0x3ff0000000000000).toNat = 1023 * 2 ^ 52 + d.toNat := by
  rw [BitVec.toNat_or, show (0x3ff0000000000000 : BitVec 64).toNat = 1023 <<< 52 by decide, Nat.or_comm,
    ← Nat.shiftLeft_add_eq_or_of_lt hd, Nat.shiftLeft_eq]

theorem temperConvBits_mantissa (r : TinyMT) :
    ∃ m, m < 2 ^ 52 ∧ r.temperConvBits.toNat = 1023 * 2 ^ 52 + m :=
  ⟨_, shr_lt _, or_toNat _ (shr_lt _)⟩

/-- Why it matters: an all-zero state would never be left, and would produce the draw 0 forever. -/
theorem C36_all_zero_is_stuck (r : TinyMT) (h : AllZero r) (k : ℕ) :
    AllZero (advance k r) ∧ ((advance k r).generateDouble01 (F := XR)).1 = .fin 0 := by
  have hnext : ∀ r : TinyMT, TinyMT.Stuck r → r.nextState.status0 = 0 ∧ r.nextState.status1 = 0 := by
    rintro r ⟨h0, h1⟩
    have hx : TinyMT.newX r = 0 := by unfold TinyMT.newX; rw [h0, h1]; decide
    rw [TinyMT.nextState_status0, TinyMT.nextState_status1, hx, h1]
    have : TinyMT.odd 0 = false := by decide
    rw [this]
    exact ⟨by simp, by simp⟩
  have hz : TinyMT.Stuck (advance k r) := by
    induction k with
    | zero => exact (allZero_iff r).mp h
    | succ k ih =>
      show TinyMT.Stuck (TinyMT.nextState^[k + 1] r)
      rw [Function.iterate_succ_apply']
      obtain ⟨a, b⟩ := hnext _ ih
      exact ⟨by rw [a]; decide, b⟩
  refine ⟨(allZero_iff _).mpr hz, ?_⟩
  obtain ⟨a, b⟩ := hnext _ hz
  unfold TinyMT.generateDouble01
  dsimp only
  have hbits : (advance k r).nextState.temperConvBits = 0x3ff0000000000000 := by
    unfold TinyMT.temperConvBits
    dsimp only
    rw [a, b]
    have h1 : ∀ w : BitVec 64, oddMask (((0 : BitVec 64) + (0 : BitVec 64)) ^^^ (0 : BitVec 64) >>> 8) &&& w = 0 := by
      intro w
      rw [show oddMask (((0 : BitVec 64) + (0 : BitVec 64)) ^^^ (0 : BitVec 64) >>> 8) = 0#64 by decide, BitVec.zero_and]
      rfl
    rw [h1]
    decide
  rw [hbits, ofBits_one_plus _ 0 (by norm_num) (by decide)]
  simp

/-- C36: every uniform draw is a multiple of `2^-52` in `[0, 1)`. -/
theorem C36_uniform_grid (r : TinyMT) :
    ∃ k : ℕ, k < 2 ^ 52 ∧ (r.generateDouble01 (F := XR)).1 = .fin ((k : ℝ) / 2 ^ 52) := by
  obtain ⟨m, hm, hw⟩ := temperConvBits_mantissa r.nextState
  refine ⟨m, hm, ?_⟩
  unfold TinyMT.generateDouble01
  dsimp only
  rw [ofBits_one_plus _ m hm hw]
  simp

/-- The other generators of the library: `[1, 2)`, `(0, 1]`, `(0, 1)` and `[0, 1)` (the last with an exact
conversion from integers; rounded to `double` it can also be 1). -/
theorem C36_other_ranges (r : TinyMT) :
    (∃ x : ℝ, (r.generateDouble12 (F := XR)).1 = .fin x ∧ 1 ≤ x ∧ x < 2) ∧
    (∃ x : ℝ, (r.generateDoubleOC (F := XR)).1 = .fin x ∧ 0 < x ∧ x ≤ 1) ∧
    (∃ x : ℝ, (r.generateDoubleOO (F := XR)).1 = .fin x ∧ 0 < x ∧ x < 1) ∧
    (∃ x : ℝ, (r.generateDouble (F := XR)).1 = .fin x ∧ 0 ≤ x ∧ x < 1) := by
  obtain ⟨m, hm, hw⟩ := temperConvBits_mantissa r.nextState
  have hm' : (m : ℝ) / 2 ^ 52 < 1 := by
    rw [div_lt_one (by positivity)]
    exact_mod_cast hm
  have hm0 : (0 : ℝ) ≤ (m : ℝ) / 2 ^ 52 := by positivity
  refine ⟨⟨_, ofBits_one_plus _ m hm hw, by linarith, by linarith⟩, ?_, ?_, ?_⟩
  · refine ⟨2 - (1 + (m : ℝ) / 2 ^ 52), ?_, by linarith, by linarith⟩
    unfold TinyMT.generateDoubleOC
    dsimp only
    rw [ofBits_one_plus _ m hm hw]
    simp
  · generalize hd : ((((r.nextState.status0 + r.nextState.status1) ^^^ r.nextState.status0 >>> 8) ^^^
      (oddMask ((r.nextState.status0 + r.nextState.status1) ^^^ r.nextState.status0 >>> 8) &&&
        r.nextState.tmat)) >>> 12) = d
    have hd52 : d.toNat < 2 ^ 52 := by rw [← hd]; exact shr_lt _
    have hd1 : (d ||| 1).toNat < 2 ^ 52 := by
      rw [BitVec.toNat_or]
      exact Nat.or_lt_two_pow hd52 (by decide)
    have hbits : r.nextState.temperConvOpenBits = (d ||| 1) ||| 0x3ff0000000000000 := by
      rw [BitVec.or_assoc, show (1 ||| 0x3ff0000000000000 : BitVec 64) = 0x3ff0000000000001 by decide, ← hd]
      rfl
    have hpos : 0 < (d ||| 1).toNat := by
      rw [BitVec.toNat_or]
      exact Nat.lt_of_lt_of_le (by decide) (Nat.right_le_or)
    refine ⟨((d ||| 1).toNat : ℝ) / 2 ^ 52, ?_, by positivity, ?_⟩
    · unfold TinyMT.generateDoubleOO
      dsimp only
      rw [hbits, ofBits_one_plus _ _ hd1 (or_toNat _ hd1)]
      simp
    · rw [div_lt_one (by positivity)]
      exact_mod_cast hd1
  · refine ⟨(r.nextState.temper.toNat : ℝ) * (1 / 2 ^ 64), ?_, by positivity, ?_⟩
    · unfold TinyMT.generateDouble
      dsimp only
      rw [XR.one_eq, XR.ofInt_eq, XR.ofInt_eq, XR.div_fin _ (by norm_num), XR.mul_fin]
      norm_num
    · rw [mul_one_div, div_lt_one (by positivity)]
      exact_mod_cast r.nextState.temper.isLt

/-- C36: the stream of draws is purely periodic, with a period of at most `2^127 - 1` draws. -/
theorem C36_periodic {F : Type} [FOps F] [FBits F] (junk : TinyMT) (seed : BitVec 64) :
    ∃ p, 0 < p ∧ p ≤ 2 ^ 127 - 1 ∧ ∀ k,
      ((advance (k + p) (junk.init seed)).generateDouble01 (F := F)).1 =
      ((advance k (junk.init seed)).generateDouble01 (F := F)).1 := by
  obtain ⟨p, h0, h1, hp⟩ := TinyMT.exists_period (TinyMT.not_stuck_init junk seed)
  refine ⟨p, h0, h1, fun k => ?_⟩
  have h := hp k
  rw [show k + 1 + p = (k + p) + 1 by omega, Function.iterate_succ_apply', Function.iterate_succ_apply'] at h
  unfold TinyMT.generateDouble01
  dsimp only
  rw [h]

/-- A draw equal to 0 (whose logarithm is minus infinity) is possible, already as the first draw of a
freshly initialised generator. -/
theorem C36_zero_draw_possible :
    ((TinyMT.init ⟨0, 0, 0, 0, 0xfc3ac0f3c9b98ce0⟩ 0xac95d67f9a4e10ef).generateDouble01 (F := XR)).1 = .fin 0 := by
  unfold TinyMT.generateDouble01
  dsimp only
  rw [show (TinyMT.init ⟨0, 0, 0, 0, 0xfc3ac0f3c9b98ce0⟩ 0xac95d67f9a4e10ef).nextState.temperConvBits =
    0x3ff0000000000000 by decide, ofBits_one_plus _ 0 (by norm_num) (by decide)]
  simp

/-- C36: initialisation from an array of any length stays inside `st[4]` and inside the array (provided the
caller passes its length or less), ends normally, and yields a generator that never gets stuck. -/
theorem C36_init_by_array (random : TinyMT) (key : List (BitVec 64)) (keyLength : ℤ)
    (h : keyLength ≤ key.length) :
    ∃ r, random.initByArray key keyLength = .ok r ∧ ∀ k, ¬ AllZero (advance k r) := by
  have round1 : ∀ (a : InitArr) (k : BitVec 64), (a.st.length = 4 ∧ 0 ≤ a.i ∧ a.i < 4) →
      Sat NoFault (fun a' : InitArr => a'.st.length = 4 ∧ 0 ≤ a'.i ∧ a'.i < 4) (a.round1 k) := by
    rintro a k ⟨hl, h0, h4⟩
    unfold InitArr.round1
    refine Sat.bind (rd_sat h0 (by omega)) fun x _ => ?_
    refine Sat.bind (rd_sat (by omega) (by omega)) fun y _ => ?_
    refine Sat.bind (rd_sat (by omega) (by omega)) fun z _ => ?_
    dsimp only
    rw [wr_eq _ (by omega) (by omega), M_ok_bind]
    refine Sat.bind (rd_sat (by omega) (by simp [hl]; omega)) fun u _ => ?_
    rw [wr_eq _ (by omega) (by simp [hl]; omega), M_ok_bind, wr_eq _ (by omega) (by simp [hl]; omega), M_ok_bind]
    exact ⟨by simp [hl], by show 0 ≤ (a.i + 1) % 4; omega, by show (a.i + 1) % 4 < 4; omega⟩
  have round2 : ∀ (a : InitArr), (a.st.length = 4 ∧ 0 ≤ a.i ∧ a.i < 4) →
      Sat NoFault (fun a' : InitArr => a'.st.length = 4 ∧ 0 ≤ a'.i ∧ a'.i < 4) a.round2 := by
    rintro a ⟨hl, h0, h4⟩
    unfold InitArr.round2
    refine Sat.bind (rd_sat h0 (by omega)) fun x _ => ?_
    refine Sat.bind (rd_sat (by omega) (by omega)) fun y _ => ?_
    refine Sat.bind (rd_sat (by omega) (by omega)) fun z _ => ?_
    dsimp only
    rw [wr_eq _ (by omega) (by omega), M_ok_bind]
    refine Sat.bind (rd_sat (by omega) (by simp [hl]; omega)) fun u _ => ?_
    rw [wr_eq _ (by omega) (by simp [hl]; omega), M_ok_bind, wr_eq _ (by omega) (by simp [hl]; omega), M_ok_bind]
    exact ⟨by simp [hl], by show 0 ≤ (a.i + 1) % 4; omega, by show (a.i + 1) % 4 < 4; omega⟩
  have key' : Sat NoFault (fun r => ¬ TinyMT.Stuck r) (random.initByArray key keyLength) := by
    unfold TinyMT.initByArray
    refine Sat.bind (rd_sat (by omega) (by simp)) fun s0 _ => ?_
    refine Sat.bind (rd_sat (by omega) (by simp)) fun s1 _ => ?_
    refine Sat.bind (rd_sat (by omega) (by simp)) fun s3 _ => ?_
    dsimp only
    rw [wr_eq _ (by omega) (by simp), M_ok_bind]
    refine Sat.bind (rd_sat (by omega) (by simp)) fun s2 _ => ?_
    rw [wr_eq _ (by omega) (by simp), M_ok_bind, wr_eq _ (by omega) (by simp), M_ok_bind]
    refine Sat.bind (Sat.forRange' (fun a : InitArr => a.st.length = 4 ∧ 0 ≤ a.i ∧ a.i < 4)
      ⟨by simp, by show (0:ℤ) ≤ 1; decide, by show (1:ℤ) < 4; decide⟩ ?_) fun a ha => ?_
    · intro j a hj1 hj2 ha
      exact Sat.bind (rd_sat hj1 (by omega)) fun k _ => round1 a k ha
    refine Sat.bind (Sat.forRange' (fun a : InitArr => a.st.length = 4 ∧ 0 ≤ a.i ∧ a.i < 4) ha
      fun _ a _ _ ha => round1 a 0 ha) fun a ha => ?_
    refine Sat.bind (Sat.forRange' (fun a : InitArr => a.st.length = 4 ∧ 0 ≤ a.i ∧ a.i < 4) ha
      fun _ a _ _ ha => round2 a ha) fun a ha => ?_
    obtain ⟨hl, -, -⟩ := ha
    refine Sat.bind (rd_sat (by omega) (by omega)) fun _ _ => ?_
    refine Sat.bind (rd_sat (by omega) (by omega)) fun _ _ => ?_
    refine Sat.bind (rd_sat (by omega) (by omega)) fun _ _ => ?_
    refine Sat.bind (rd_sat (by omega) (by omega)) fun _ _ => ?_
    exact TinyMT.not_stuck_certified _
  obtain ⟨r, hr, hq⟩ := key'.exists_ok
  exact ⟨r, hr, fun k => by rw [allZero_iff]; exact TinyMT.not_stuck_iterate hq k⟩

/-- C37: for every seed there are two contents of the uninitialised generator parameters for which
already the first uniform draws differ: the seed does not determine the stream. -/
theorem C37_seed_not_enough (seed : BitVec 64) :
    ∃ junk junk' : TinyMT,
      ((junk.init seed).generateDouble01 (F := XR)).1 ≠ ((junk'.init seed).generateDouble01 (F := XR)).1 := by
  obtain ⟨m, c, p, m', c', p', hne⟩ := TinyMT.exists_draw_ne seed
  refine ⟨TinyMT.junkOf m c p, TinyMT.junkOf m' c' p', fun h => hne ?_⟩
  have hval : ∀ r : TinyMT, (r.generateDouble01 (F := XR)).1 = .fin (((TinyMT.draw r).toNat : ℝ) / 2 ^ 52) := by
    intro r
    have hlt : (TinyMT.draw r).toNat < 2 ^ 52 := shr_lt _
    unfold TinyMT.generateDouble01
    dsimp only
    rw [TinyMT.temperConvBits_eq, ofBits_one_plus _ _ hlt (or_toNat _ hlt)]
    simp
  change ((TinyMT.gen seed m c p).generateDouble01 (F := XR)).1 =
    ((TinyMT.gen seed m' c' p').generateDouble01 (F := XR)).1 at h
  rw [hval, hval, XR.fin_inj, div_left_inj' (by norm_num)] at h
  exact BitVec.eq_of_toNat_eq (by exact_mod_cast h)

end CP.Props
