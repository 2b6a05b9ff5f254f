import Verif.Props.McMain
import Verif.Proofs.TinyMTPeriod
/-
Property C74: the period of the random number generator of crossprob_mc.
-/
namespace CP.Props
open CP CP.Spec CP.McSpec FOps

/-- The 127 bits that the transition looks at agree. -/
def SameBits (r s : TinyMT) : Prop :=
  (∀ i, i < 63 → r.status0.getLsbD i = s.status0.getLsbD i) ∧ ∀ i, i < 64 → r.status1.getLsbD i = s.status1.getLsbD i

theorem sameBits_iff (r s : TinyMT) : SameBits r s ↔ TinyMT.enc r = TinyMT.enc s := by
  have hmask : ∀ i, i < 63 → tinymtMask.getLsbD i = true := by decide
  have hmask' : tinymtMask.getLsbD 63 = false := by decide
  constructor
  · rintro ⟨h0, h1⟩
    have e0 : r.status0 &&& tinymtMask = s.status0 &&& tinymtMask := by
      apply BitVec.eq_of_getLsbD_eq
      intro i hi
      rw [BitVec.getLsbD_and, BitVec.getLsbD_and]
      by_cases hi' : i < 63
      · rw [h0 i hi']
      · have : i = 63 := by omega
        subst this
        rw [hmask', Bool.and_false, Bool.and_false]
    have e1 : r.status1 = s.status1 := BitVec.eq_of_getLsbD_eq fun i hi => h1 i hi
    unfold TinyMT.enc
    rw [e0, e1]
  · intro h
    obtain ⟨h0, h1⟩ := TinyMT.enc_inj h
    refine ⟨fun i hi => ?_, fun i _ => by rw [h1]⟩
    have := congrArg (fun w => w.getLsbD i) h0
    simpa [BitVec.getLsbD_and, hmask i hi] using this

/-- `mat1` and `mat2` hold the values of the generator's reference implementation
(`0xfa051f40`, `0xffd0fff4`). -/
def StandardParams (r : TinyMT) : Prop := r.mat1 = 0xfa051f40 ∧ r.mat2 = 0xffd0fff4

theorem StandardParams.full {r : TinyMT} (h : StandardParams r) : TinyMT.FullPeriod r.mat1 r.mat2 := by
  rw [h.1, h.2]
  exact TinyMT.std_full

/-- C74: with the reference parameters, the state returns after exactly `2^127 - 1` steps (and its multiples),
from every state but the all-zero one. -/
theorem C74_full_period (r : TinyMT) (h : StandardParams r) (h0 : ¬ AllZero r) (p : ℕ) :
    SameBits (advance p r) r ↔ 2 ^ 127 - 1 ∣ p := by
  rw [sameBits_iff]
  rw [allZero_iff] at h0
  exact h.full.period h0 p

/-- C74: with the reference parameters, each of the other states is visited exactly once in each period. -/
theorem C74_visits_all (r s : TinyMT) (h : StandardParams r) (h0 : ¬ AllZero r) (hs : ¬ AllZero s) :
    ∃! k : ℕ, k < 2 ^ 127 - 1 ∧ SameBits (advance k r) s := by
  rw [allZero_iff] at h0 hs
  obtain ⟨k, hk, he⟩ := h.full.visits h0 (TinyMT.enc_pos hs) (TinyMT.enc_lt s)
  refine ⟨k, ⟨hk, (sameBits_iff _ _).mpr he⟩, ?_⟩
  rintro j ⟨hj, hje⟩
  rw [sameBits_iff] at hje
  have key : ∀ i j : ℕ, i ≤ j → j < 2 ^ 127 - 1 → TinyMT.enc (advance i r) = TinyMT.enc (advance j r) → i = j := by
    intro i j hij hj hE
    have h1 : TinyMT.FullPeriod (advance i r).mat1 (advance i r).mat2 := by
      rw [TinyMT.iterate_mat1, TinyMT.iterate_mat2]; exact h.full
    have h2 := (h1.period (TinyMT.not_stuck_iterate h0 i) (j - i)).mp (by
      rw [← Function.iterate_add_apply, Nat.sub_add_cancel hij]; exact hE.symm)
    have := Nat.eq_zero_of_dvd_of_lt h2 (by omega)
    omega
  rcases Nat.le_total j k with hle | hle
  · exact key _ _ hle hk (hje.trans he.symm)
  · exact (key _ _ hle hj (he.trans hje.symm)).symm

theorem generateDouble01_draw (r : TinyMT) :
    (r.generateDouble01 (F := XR)).1 = .fin (((TinyMT.draw r).toNat : ℝ) / 2 ^ 52) := by
  have hlt : (TinyMT.draw r).toNat < 2 ^ 52 := shr_lt _
  unfold TinyMT.generateDouble01
  dsimp only
  rw [TinyMT.temperConvBits_eq, ofBits_one_plus _ _ hlt (or_toNat _ hlt)]
  simp

/-- C74: after seeding with any seed, with the reference parameters (and any `tmat`), the stream of uniform draws
has period `2^127 - 1` and no smaller one. -/
theorem C74_stream (junk : TinyMT) (h : StandardParams junk) (seed : BitVec 64) (p : ℕ) :
    (∀ k, ((advance (k + p) (junk.init seed)).generateDouble01 (F := XR)).1 =
      ((advance k (junk.init seed)).generateDouble01 (F := XR)).1) ↔ 2 ^ 127 - 1 ∣ p := by
  have hmats : (junk.init seed).mat1 = junk.mat1 ∧ (junk.init seed).mat2 = junk.mat2 := by
    have hc : ∀ r : TinyMT, r.periodCertification.mat1 = r.mat1 ∧ r.periodCertification.mat2 = r.mat2 := by
      intro r
      unfold TinyMT.periodCertification
      split <;> exact ⟨rfl, rfl⟩
    constructor
    · exact (hc _).1
    · exact (hc _).2
  have hfull : TinyMT.FullPeriod (junk.init seed).mat1 (junk.init seed).mat2 := by
    rw [hmats.1, hmats.2]; exact h.full
  rw [← hfull.draws (TinyMT.not_stuck_init junk seed) ?_ p]
  · simp only [generateDouble01_draw, XR.fin_inj]
    constructor
    · intro hk k
      have := hk k
      rw [div_left_inj' (by norm_num)] at this
      exact BitVec.eq_of_toNat_eq (by exact_mod_cast this)
    · intro hk k
      rw [hk k]
  · have hd : ∀ t : BitVec 64, TinyMT.draw ⟨0, 0x200, 0xfa051f40, 0xffd0fff4, t⟩ ≠
        TinyMT.draw ⟨0, 0x200000, 0xfa051f40, 0xffd0fff4, t⟩ := by
      intro t
      have h1 : TinyMT.zOf ⟨0, 0x200, 0xfa051f40, 0xffd0fff4, t⟩ = 13513002203481090 :=
        show TinyMT.zOf ⟨0, 0x200, 0xfa051f40, 0xffd0fff4, 0⟩ = _ by decide
      have h2 : TinyMT.zOf ⟨0, 0x200000, 0xfa051f40, 0xffd0fff4, t⟩ = 9007203553914882 :=
        show TinyMT.zOf ⟨0, 0x200000, 0xfa051f40, 0xffd0fff4, 0⟩ = _ by decide
      have e : ∀ r : TinyMT, TinyMT.draw r = (TinyMT.zOf r ^^^ (if TinyMT.odd (TinyMT.zOf r) then r.tmat else 0)) >>> 12 := fun _ => rfl
      rw [e, e, h1, h2, if_neg (by decide), if_neg (by decide)]
      decide
    refine ⟨⟨0, 0x200, 0xfa051f40, 0xffd0fff4, (junk.init seed).tmat⟩, ⟨0, 0x200000, 0xfa051f40, 0xffd0fff4, (junk.init seed).tmat⟩,
      by rintro ⟨-, h1⟩; exact absurd (show (0x200 : BitVec 64) = 0 from h1) (by decide),
      by rintro ⟨-, h1⟩; exact absurd (show (0x200000 : BitVec 64) = 0 from h1) (by decide),
      (hmats.1.trans h.1).symm, (hmats.2.trans h.2).symm, rfl, (hmats.1.trans h.1).symm, (hmats.2.trans h.2).symm, rfl, hd _⟩

/-- The hypotheses of C74 are met by the reference implementation's parameters and seed 1. -/
example : StandardParams (TinyMT.init ⟨0, 0, 0xfa051f40, 0xffd0fff4, 0x58d02ffeffbfffbc⟩ 1) ∧
    ¬ AllZero (TinyMT.init ⟨0, 0, 0xfa051f40, 0xffd0fff4, 0x58d02ffeffbfffbc⟩ 1) :=
  ⟨⟨by decide, by decide⟩, C36_never_stuck _ _ 0⟩

/-! ## The parameters are never set -/

/-- Contents of the uninitialised memory for which the generator repeats itself. -/
def unluckyMemory : TinyMT := ⟨0, 0, 0xfa051f4b, 0xac9117fa, 0x3b909d8d6fcd04c4⟩

theorem unlucky_next : (unluckyMemory.init 2638649703).nextState = unluckyMemory.init 2638649703 := by decide +kernel

theorem unlucky_draw (k : ℕ) :
    draw (F := XR) TinyMT.generateDouble01 (unluckyMemory.init 2638649703) k = .fin ((365027455327073 : ℝ) / 2 ^ 52) := by
  have hs : stateAt (F := XR) TinyMT.generateDouble01 (unluckyMemory.init 2638649703) k = unluckyMemory.init 2638649703 := by
    induction k with
    | zero => rfl
    | succ k ih =>
      unfold stateAt at ih ⊢
      rw [Function.iterate_succ_apply', ih]
      exact unlucky_next
  unfold draw
  rw [hs, generateDouble01_draw, show (TinyMT.draw (unluckyMemory.init 2638649703)).toNat = 365027455327073 by decide +kernel]
  norm_num

theorem countUpTo_none {p : ℕ → Prop} (h : ∀ r, ¬ p r) (N : ℕ) : countUpTo p N = 0 := by
  classical
  unfold countUpTo
  rw [Finset.card_eq_zero, Finset.filter_eq_empty_iff]
  exact fun r _ => h r

theorem countUpTo_all {p : ℕ → Prop} (h : ∀ r, p r) (N : ℕ) : countUpTo p N = N := by
  classical
  unfold countUpTo
  rw [Finset.filter_true_of_mem fun r _ => h r, Finset.card_range]

/-- The parameters matter, and crossprob_mc does not set them: for some contents of the memory it leaves
uninitialised, and for every number of points there is a starting time (within 2020..2053 for up to 1000 points) at
which the program simulates the same sample over and over -- the equally spaced points `1/(n+1), ..., n/(n+1)` -- and
prints 1 or 0, however many simulations are asked for. -/
theorem C74_repeating : ∃ junk : TinyMT, ∀ n : ℕ, 1 ≤ n → ∃ time : ℤ, (n ≤ 1000 → 1590000000 ≤ time ∧ time ≤ 2640000000) ∧
    ∀ (w : McWorld XR) (file num : Str) (N : ℕ) (b B : Fin n → ℝ), w.junk = junk → w.time = time →
      stringToLong w.libc num = .ok (N : ℤ) → 1 ≤ N → (N : ℤ) ≤ 2 ^ 31 - 1 →
      readAndCheckBoundariesFile w.libc w.fs file = .ok (toList b, toList B) →
      ((∀ i : Fin n, b i ≤ ((i : ℕ) + 1 : ℝ) / (n + 1) ∧ ((i : ℕ) + 1 : ℝ) / (n + 1) ≤ B i) →
        mcMain w ["ecdf".toList, file, num] = .printed (.fin 1)) ∧
      (¬ (∀ i : Fin n, b i ≤ ((i : ℕ) + 1 : ℝ) / (n + 1) ∧ ((i : ℕ) + 1 : ℝ) / (n + 1) ≤ B i) →
        mcMain w ["ecdf".toList, file, num] = .printed (.fin 0)) := by
  refine ⟨unluckyMemory, fun n hn => ⟨2638649703 - n * 2 ^ 20, fun h => ⟨by omega, by omega⟩, ?_⟩⟩
  intro w file num N b B hj ht hN hN0 hNmax hfile
  have hlen : max (toList b).length (toList B).length = n := by simp
  have hne : toList b ≠ [] := by
    intro h
    have := congrArg List.length h
    simp at this
    omega
  have hmain := C48_ecdf w file num N hN hNmax (toList b) (toList B) hfile (Or.inl hne) (Or.inr (by simp))
  dsimp only at hmain
  rw [hlen, hj, ht, show (2638649703 - (n : ℤ) * 2 ^ 20 + (n : ℤ) * 2 ^ 20) = 2638649703 by ring,
    show BitVec.ofInt 64 2638649703 = 2638649703 by decide] at hmain
  set v : ℝ := (365027455327073 : ℝ) / 2 ^ 52 with hv
  have hv01 : 0 < v ∧ v < 1 := by rw [hv]; norm_num
  have hlog : Real.log v < 0 := Real.log_neg hv01.1 hv01.2
  have hN' : ((N : ℤ) : ℝ) ≠ 0 := by
    have : (1 : ℝ) ≤ N := by exact_mod_cast hN0
    push_cast
    linarith
  have hreal : realSample (fun _ => v) n = fun i : Fin n => ((i : ℕ) + 1 : ℝ) / (n + 1) := by
    funext i
    have he : ∀ k, expSum (fun _ => v) k = k * -Real.log v := by
      intro k
      unfold expSum
      rw [Finset.sum_const, Finset.card_range, nsmul_eq_mul]
    unfold realSample
    rw [he, he]
    push_cast
    rw [mul_div_mul_right _ _ (by linarith)]
  have hins : ∀ r, Inside (sample (fun j => draw (F := XR) TinyMT.generateDouble01 (unluckyMemory.init 2638649703) (r * (n + 1) + j)) n)
      (toList b) (toList B) ↔ ∀ i : Fin n, b i ≤ ((i : ℕ) + 1 : ℝ) / (n + 1) ∧ ((i : ℕ) + 1 : ℝ) / (n + 1) ≤ B i := by
    intro r
    rw [sample_fin (v := fun _ => v) (fun j => unlucky_draw _) (fun _ => hv01), hreal]
    obtain ⟨c, hc, hiff⟩ := C32_exact (toList fun i : Fin n => ((i : ℕ) + 1 : ℝ) / (n + 1)) (toList b) (toList B) n
      (by simp)
    rw [List.take_of_length_le (by simp)] at hiff
    rw [C32_full_length] at hc
    injection hc with hc
    rw [← hiff, ← hc]
    simp
  simp only [hins] at hmain
  constructor
  · intro hin
    rw [hmain]
    have hz : countUpTo (fun _ => ¬ (∀ i : Fin n, b i ≤ ((i : ℕ) + 1 : ℝ) / (n + 1) ∧ ((i : ℕ) + 1 : ℝ) / (n + 1) ≤ B i)) N = 0 := by
      exact countUpTo_none (fun _ h => h hin) N
    rw [hz, XR.ofInt_eq, XR.ofInt_eq, XR.div_fin _ hN', XR.one_eq, XR.sub_fin]
    simp
  · intro hout
    rw [hmain]
    have hz : countUpTo (fun _ => ¬ (∀ i : Fin n, b i ≤ ((i : ℕ) + 1 : ℝ) / (n + 1) ∧ ((i : ℕ) + 1 : ℝ) / (n + 1) ≤ B i)) N = N := by
      exact countUpTo_all (fun _ => hout) N
    rw [hz, XR.ofInt_eq, XR.div_fin _ hN', XR.one_eq, XR.sub_fin, div_self hN', sub_self]

end CP.Props
