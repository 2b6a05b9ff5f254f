import Verif.Model.TinyMT
import Mathlib.Data.Fintype.Card
import Mathlib.Data.Fintype.EquivFin
import Mathlib.Dynamics.PeriodicPts.Defs
/-
The state transition and the initialisation of the random number generator.
-/
namespace CP
namespace TinyMT

/-- `x` is odd -/
def odd (x : BitVec 64) : Bool := x.getLsbD 0

theorem oddMask_and (x m : BitVec 64) : oddMask x &&& m = if odd x then m else 0 := by
  have h : x &&& 1 = if odd x then 1 else 0 := by
    ext i hi
    by_cases h0 : i = 0
    · subst h0
      unfold odd
      cases hx : x.getLsbD 0 <;> simp_all
    · unfold odd
      cases hx : x.getLsbD 0 <;> simp [BitVec.getElem_one, h0]
  unfold oddMask
  rw [h]
  cases odd x
  · simp
  · have : (-(1 : BitVec 64)) = BitVec.allOnes 64 := by decide
    simp only [if_true, this, BitVec.allOnes_and]

theorem xorshl_inj {k : Nat} (hk : 0 < k) {x y : BitVec 64}
    (h : x ^^^ (x <<< k) = y ^^^ (y <<< k)) : x = y := by
  have key : ∀ i, x.getLsbD i = y.getLsbD i := by
    intro i
    induction i using Nat.strong_induction_on with
    | _ i ih =>
      by_cases hi : i < 64
      · have h1 := congrArg (fun z => z.getLsbD i) h
        simp only [BitVec.getLsbD_xor, BitVec.getLsbD_shiftLeft] at h1
        by_cases hik : i < k
        · simpa [hik] using h1
        · have := ih (i - k) (by omega)
          simp only [hik, this, hi] at h1
          revert h1
          cases x.getLsbD i <;> cases y.getLsbD i <;> cases y.getLsbD (i - k) <;> simp
      · rw [BitVec.getLsbD_of_ge _ _ (by omega), BitVec.getLsbD_of_ge _ _ (by omega)]
  exact BitVec.eq_of_getLsbD_eq (fun i _ => key i)

theorem xorshr_inj {k : Nat} (hk : 0 < k) {x y : BitVec 64}
    (h : x ^^^ (x >>> k) = y ^^^ (y >>> k)) : x = y := by
  have key : ∀ j i, 64 - i = j → x.getLsbD i = y.getLsbD i := by
    intro j
    induction j using Nat.strong_induction_on with
    | _ j ih =>
      intro i hj
      by_cases hi : i < 64
      · have h1 := congrArg (fun z => z.getLsbD i) h
        simp only [BitVec.getLsbD_xor, BitVec.getLsbD_ushiftRight] at h1
        have := ih (64 - (k + i)) (by omega) (k + i) rfl
        rw [this] at h1
        revert h1
        cases x.getLsbD i <;> cases y.getLsbD i <;> cases y.getLsbD (k + i) <;> simp
      · rw [BitVec.getLsbD_of_ge _ _ (by omega), BitVec.getLsbD_of_ge _ _ (by omega)]
  exact BitVec.eq_of_getLsbD_eq (fun i _ => key _ i rfl)

/-- the linear mixing of the transition -/
def mix (x : BitVec 64) : BitVec 64 :=
  let x := x ^^^ (x <<< 12)
  let x := x ^^^ (x >>> 32)
  let x := x ^^^ (x <<< 32)
  x ^^^ (x <<< 11)

theorem mix_inj {x y : BitVec 64} (h : mix x = mix y) : x = y := by
  unfold mix at h
  exact xorshl_inj (by decide) (xorshr_inj (by decide) (xorshl_inj (by decide) (xorshl_inj (by decide) h)))

theorem mix_zero : mix 0 = 0 := by decide

/-- the number mixed into the state by the transition -/
def newX (r : TinyMT) : BitVec 64 := mix ((r.status0 &&& tinymtMask) ^^^ r.status1)

theorem nextState_status0 (r : TinyMT) :
    r.nextState.status0 = r.status1 ^^^ (if odd (newX r) then r.mat1.zeroExtend 64 else 0) := by
  rw [← oddMask_and]; rfl

theorem nextState_status1 (r : TinyMT) :
    r.nextState.status1 = newX r ^^^ (if odd (newX r) then r.mat2.zeroExtend 64 <<< 32 else 0) := by
  rw [← oddMask_and]; rfl

theorem nextState_mat1 (r : TinyMT) : r.nextState.mat1 = r.mat1 := rfl
theorem nextState_mat2 (r : TinyMT) : r.nextState.mat2 = r.mat2 := rfl
theorem nextState_tmat (r : TinyMT) : r.nextState.tmat = r.tmat := rfl

theorem odd_status1 (r : TinyMT) : odd r.nextState.status1 = odd (newX r) := by
  rw [nextState_status1]
  unfold odd
  split <;> simp

/-- The 127 effective bits of the state are all zero. -/
def Stuck (r : TinyMT) : Prop := r.status0 &&& tinymtMask = 0 ∧ r.status1 = 0

theorem not_stuck_next {r : TinyMT} (h : ¬ Stuck r) : ¬ Stuck r.nextState := by
  rintro ⟨h0, h1⟩
  apply h
  have hodd : odd (newX r) = false := by rw [← odd_status1, h1]; rfl
  rw [nextState_status0, hodd] at h0
  rw [nextState_status1, hodd] at h1
  have hx : newX r = 0 := by simpa using h1
  have h2 : (r.status0 &&& tinymtMask) ^^^ r.status1 = 0 := mix_inj (by rw [mix_zero]; exact hx)
  have h3 : r.status0 &&& tinymtMask = r.status1 := by
    exact BitVec.xor_eq_zero_iff.mp h2
  have h4 : r.status1 &&& tinymtMask = 0 := by simpa using h0
  have h5 : r.status0 &&& tinymtMask = 0 := by
    rw [← h3, BitVec.and_assoc, BitVec.and_self] at h4
    exact h4
  exact ⟨h5, by rw [← h3, h5]⟩

theorem not_stuck_certified (r : TinyMT) : ¬ Stuck r.periodCertification := by
  unfold periodCertification
  split
  · rintro ⟨_, h1⟩
    exact absurd h1 (by show ¬ (BitVec.ofNat 64 'M'.toNat = 0); decide)
  · assumption

theorem not_stuck_init (junk : TinyMT) (seed : BitVec 64) : ¬ Stuck (junk.init seed) :=
  not_stuck_certified _

theorem not_stuck_iterate {r : TinyMT} (h : ¬ Stuck r) (k : Nat) : ¬ Stuck (nextState^[k] r) := by
  induction k with
  | zero => exact h
  | succ k ih => rw [Function.iterate_succ_apply']; exact not_stuck_next ih

/-- The transition loses no information about the 127 effective bits. -/
theorem nextState_inj {r s : TinyMT} (hm1 : r.mat1 = s.mat1) (hm2 : r.mat2 = s.mat2)
    (h0 : r.nextState.status0 &&& tinymtMask = s.nextState.status0 &&& tinymtMask)
    (h1 : r.nextState.status1 = s.nextState.status1) :
    r.status0 &&& tinymtMask = s.status0 &&& tinymtMask ∧ r.status1 = s.status1 := by
  have hodd : odd (newX r) = odd (newX s) := by rw [← odd_status1, ← odd_status1, h1]
  rw [nextState_status1, nextState_status1, hodd, hm2] at h1
  have hx : newX r = newX s := by
    have := congrArg (· ^^^ (if odd (newX s) then s.mat2.zeroExtend 64 <<< 32 else 0)) h1
    simpa [BitVec.xor_assoc] using this
  have hy := mix_inj hx
  rw [nextState_status0, nextState_status0, hodd, hm1] at h0
  have hlow : ∀ i, i < 63 → r.status1.getLsbD i = s.status1.getLsbD i := by
    intro i hi
    have := congrArg (fun z => z.getLsbD i) h0
    have hmask : tinymtMask.getLsbD i = true :=
      (by decide : ∀ i, i < 63 → tinymtMask.getLsbD i = true) i hi
    simp only [BitVec.getLsbD_and, BitVec.getLsbD_xor, hmask, Bool.and_true] at this
    revert this
    generalize (BitVec.getLsbD (if odd (newX s) = true then BitVec.zeroExtend 64 s.mat1 else 0) i) = c
    cases r.status1.getLsbD i <;> cases s.status1.getLsbD i <;> cases c <;> simp
  have htop : r.status1.getLsbD 63 = s.status1.getLsbD 63 := by
    have := congrArg (fun z => z.getLsbD 63) hy
    have hmask : tinymtMask.getLsbD 63 = false := by decide
    simp only [BitVec.getLsbD_and, BitVec.getLsbD_xor, hmask, Bool.and_false, Bool.false_xor] at this
    exact this
  have hs1 : r.status1 = s.status1 := by
    apply BitVec.eq_of_getLsbD_eq
    intro i hi
    by_cases h : i < 63
    · exact hlow i h
    · have : i = 63 := by omega
      subst this; exact htop
  refine ⟨?_, hs1⟩
  rw [hs1] at hy
  have := congrArg (· ^^^ s.status1) hy
  simpa [BitVec.xor_assoc] using this

end TinyMT
end CP
