import Verif.Model.MonteCarlo
import Verif.McSpec
import Verif.Proofs.Hoare
import Verif.Proofs.While
import Mathlib.Tactic.Ring
import Mathlib.Algebra.Order.BigOperators.Group.Finset
/-
What the simulation loops of crossprob_mc compute, for any arithmetic and any generator.
-/
namespace CP
open FOps McSpec
variable {F : Type} [FOps F] {S : Type}
set_option linter.unusedSectionVars false

theorem countUpTo_zero (p : ℕ → Prop) : countUpTo p 0 = 0 := by
  classical
  unfold countUpTo; simp

open Classical in
theorem countUpTo_succ (p : ℕ → Prop) (N : ℕ) : countUpTo p (N + 1) = countUpTo p N + if p N then 1 else 0 := by
  unfold countUpTo
  rw [Finset.range_add_one, Finset.filter_insert]
  split
  · rw [Finset.card_insert_of_notMem (by simp)]
  · simp

theorem countUpTo_le (p : ℕ → Prop) (N : ℕ) : countUpTo p N ≤ N := by
  classical
  induction N with
  | zero => simp [countUpTo_zero]
  | succ N ih => rw [countUpTo_succ]; split <;> omega

theorem anyFrom_ok {test : Int → M Bool} {p : Int → Bool} : ∀ (k : Nat) (i : Int),
    (∀ j, i ≤ j → j < i + k → test j = .ok (p j)) →
    ∃ c, anyFrom test k i = .ok c ∧ (c = false ↔ ∀ j, i ≤ j → j < i + k → p j = false)
  | 0, i, _ => ⟨false, rfl, by simp; intros; omega⟩
  | k + 1, i, h => by
    rw [anyFrom, h i (by omega) (by push_cast; omega)]
    obtain ⟨c, hc, hiff⟩ := anyFrom_ok (test := test) (p := p) k (i + 1)
      (fun j h1 h2 => h j (by omega) (by push_cast; omega))
    rw [M_ok_bind]
    cases hp : p i with
    | true =>
      refine ⟨true, rfl, ?_⟩
      constructor
      · intro h; cases h
      · intro h; rw [h i (by omega) (by push_cast; omega)] at hp; cases hp
    | false =>
      refine ⟨c, by simpa using hc, hiff.trans ?_⟩
      constructor
      · intro h j h1 h2
        by_cases hj : j = i
        · rw [hj]; exact hp
        · exact h j (by omega) (by push_cast at h2; omega)
      · intro h j h1 h2
        exact h j (by omega) (by push_cast; omega)

theorem has_of_getElem? {α : Type} {a : List α} {i : Nat} {x : α} (h : a[i]? = some x) : Has a (i : Int) x :=
  ⟨by omega, by simpa using h⟩

theorem crossLower_ok (steps B : List F) (num : Nat) (h : num ≤ steps.length) :
    ∃ c, crossLower steps num B = .ok c ∧ (c = false ↔ B.length ≤ num ∧
      ∀ (i : ℕ) (x y : F), (steps.take num)[i]? = some x → B[i]? = some y → lt y x = false) := by
  unfold crossLower
  by_cases hlt : (num : Int) < B.length
  · rw [if_pos hlt]
    exact ⟨true, rfl, by constructor <;> intro h; cases h; omega⟩
  · rw [if_neg hlt]
    have hB : B.length ≤ num := by omega
    obtain ⟨c, hc, hiff⟩ := anyFrom_ok (p := fun j => match steps[j.toNat]?, B[j.toNat]? with
        | some s, some x => lt x s
        | _, _ => false) (test := fun i => do
          let s ← rd steps i
          let x ← rd B i
          .ok (lt x s)) B.length 0 (by
        intro j h0 h1
        obtain ⟨s, hs⟩ := exists_has (a := steps) h0 (by omega)
        obtain ⟨x, hx⟩ := exists_has (a := B) h0 (by omega)
        rw [rd_eq hs, M_ok_bind, rd_eq hx, M_ok_bind, hs.2, hx.2])
    refine ⟨c, hc, hiff.trans ?_⟩
    constructor
    · intro h'
      refine ⟨hB, fun i x y hx hy => ?_⟩
      have hi : i < B.length := (List.getElem?_eq_some_iff.mp hy).1
      have := h' i (by omega) (by omega)
      rw [List.getElem?_take_of_lt (by omega)] at hx
      simpa [hx, hy] using this
    · rintro ⟨-, h'⟩ j h0 h1
      obtain ⟨s, hs⟩ := exists_has (a := steps) h0 (by omega)
      obtain ⟨x, hx⟩ := exists_has (a := B) h0 (by omega)
      have := h' j.toNat s x (by rw [List.getElem?_take_of_lt (by omega)]; exact hs.2) hx.2
      simp only [hs.2, hx.2, this]

theorem crossUpper_ok (steps b : List F) (num : Nat) (h : num ≤ steps.length) :
    ∃ c, crossUpper steps num b = .ok c ∧ (c = false ↔ num ≤ b.length ∧
      ∀ (i : ℕ) (x y : F), (steps.take num)[i]? = some x → b[i]? = some y → lt x y = false) := by
  unfold crossUpper
  by_cases hlt : (num : Int) > b.length
  · rw [if_pos hlt]
    exact ⟨true, rfl, by constructor <;> intro h; cases h; omega⟩
  · rw [if_neg hlt]
    have hB : num ≤ b.length := by omega
    obtain ⟨c, hc, hiff⟩ := anyFrom_ok (p := fun j => match steps[j.toNat]?, b[j.toNat]? with
        | some s, some x => lt s x
        | _, _ => false) (test := fun i => do
          let s ← rd steps i
          let x ← rd b i
          .ok (lt s x)) (num : Int).toNat 0 (by
        intro j h0 h1
        obtain ⟨s, hs⟩ := exists_has (a := steps) h0 (by omega)
        obtain ⟨x, hx⟩ := exists_has (a := b) h0 (by omega)
        rw [rd_eq hs, M_ok_bind, rd_eq hx, M_ok_bind, hs.2, hx.2])
    refine ⟨c, hc, hiff.trans ?_⟩
    constructor
    · intro h'
      refine ⟨hB, fun i x y hx hy => ?_⟩
      have hi : i < num := by
        have := (List.getElem?_eq_some_iff.mp hx).1
        rw [List.length_take] at this
        omega
      have := h' i (by omega) (by omega)
      rw [List.getElem?_take_of_lt (by omega)] at hx
      simpa [hx, hy] using this
    · rintro ⟨-, h'⟩ j h0 h1
      obtain ⟨s, hs⟩ := exists_has (a := steps) h0 (by omega)
      obtain ⟨x, hx⟩ := exists_has (a := b) h0 (by omega)
      have := h' j.toNat s x (by rw [List.getElem?_take_of_lt (by omega)]; exact hs.2) hx.2
      simp only [hs.2, hx.2, this]

theorem stepFunctionCross_ok (steps b B : List F) (num : Nat) (h : num ≤ steps.length) :
    ∃ c, stepFunctionCross steps num b B = .ok c ∧ (c = false ↔ Inside (steps.take num) b B) := by
  have hlen : (steps.take num).length = num := by rw [List.length_take]; omega
  obtain ⟨cl, hcl, hcliff⟩ := crossLower_ok steps B num h
  obtain ⟨cu, hcu, hcuiff⟩ := crossUpper_ok steps b num h
  unfold stepFunctionCross
  by_cases hb : b.length = 0
  · rw [if_pos hb]
    have hb' : b = [] := List.length_eq_zero_iff.mp hb
    refine ⟨cl, hcl, hcliff.trans ?_⟩
    unfold Inside
    rw [hlen]
    subst hb'
    simp
  · rw [if_neg hb]
    have hb' : b ≠ [] := fun h => hb (by rw [h]; rfl)
    by_cases hn : (num : Int) < B.length ∨ (num : Int) > b.length
    · rw [if_pos hn]
      refine ⟨true, rfl, ?_⟩
      constructor
      · intro h; cases h
      · rintro ⟨h1, h2, -⟩
        have := h2 hb'
        omega
    · rw [if_neg hn, hcl, M_ok_bind]
      cases cl with
      | true =>
        refine ⟨true, rfl, ?_⟩
        constructor
        · intro h; cases h
        · rintro ⟨h1, -, h3, -⟩
          exact hcliff.mpr ⟨by omega, h3⟩
      | false =>
        refine ⟨cu, by simpa using hcu, hcuiff.trans ?_⟩
        have := hcliff.mp rfl
        unfold Inside
        rw [hlen]
        constructor
        · rintro ⟨h1, h2⟩; exact ⟨this.1, fun _ => h1, this.2, h2⟩
        · rintro ⟨_, h1, _, h2⟩; exact ⟨h1 hb', h2⟩

theorem stateAt_succ (uniform : S → F × S) (s : S) (j : ℕ) :
    stateAt uniform s (j + 1) = (uniform (stateAt uniform s j)).2 := by
  unfold stateAt; rw [Function.iterate_succ_apply']

theorem stateAt_add (uniform : S → F × S) (s : S) (i j : ℕ) :
    stateAt uniform (stateAt uniform s i) j = stateAt uniform s (i + j) := by
  unfold stateAt; rw [← Function.iterate_add_apply, Nat.add_comm]

theorem draw_stateAt (uniform : S → F × S) (s : S) (i : ℕ) :
    draw uniform (stateAt uniform s i) = fun j => draw uniform s (i + j) := by
  funext j; unfold draw; rw [stateAt_add]

theorem randomEcdfCross_ok (uniform : S → F × S) (b B : List F) (s : S) (buf : List F) (hn : 1 ≤ buf.length) :
    ∃ c, randomEcdfCross uniform b B s buf =
        .ok (c, stateAt uniform s (buf.length + 1), sample (draw uniform s) buf.length) ∧
      (c = false ↔ Inside (sample (draw uniform s) buf.length) b B) := by
  generalize hN : buf.length = n at *
  let T := arrival one (draw uniform s)
  have loop1 := Sat.forRange (E := NoFault) (lo := 0) (hi := (n : Int)) (s := (zero, s, buf))
    (body := fun i (st : F × S × List F) => do
      let e := genExp uniform one st.2.1
      let lastX := st.1 +ᶠ e.1
      let buf ← wr st.2.2 i lastX
      .ok (lastX, e.2, buf))
    (fun i st => st.1 = T i.toNat ∧ st.2.1 = stateAt uniform s i.toNat ∧ st.2.2.length = n ∧
      ∀ j : ℕ, (j : Int) < i → st.2.2[j]? = some (T (j + 1)))
    (by omega) ⟨rfl, rfl, hN, by intro j hj; omega⟩ (by
      rintro i ⟨x, q, bf⟩ h0 h1 ⟨hx, hq, hl, hb⟩
      dsimp only at hx hq hl hb ⊢
      rw [wr_eq _ h0 (by omega), M_ok_bind]
      have e : (i + 1).toNat = i.toNat + 1 := by omega
      have hval : x +ᶠ (genExp uniform one q).1 = T (i.toNat + 1) := by
        rw [hx, hq]; rfl
      refine ⟨by rw [e]; exact hval, ?_, by simp [hl], ?_⟩
      · rw [e, stateAt_succ, hq]; rfl
      · intro j hj
        dsimp only
        by_cases hji : j = i.toNat
        · subst hji
          rw [List.getElem?_set_self (by omega), hval]
        · rw [List.getElem?_set_ne (by omega)]
          exact hb j (by omega))
  obtain ⟨⟨x, q, bf⟩, h1, hx, hq, hl, hb⟩ := loop1.exists_ok
  simp only [Int.toNat_natCast] at hx hq hl hb
  have hnorm : x +ᶠ (genExp uniform one q).1 = T (n + 1) := by rw [hx, hq]; rfl
  have loop2 := Sat.forRange (E := NoFault) (lo := 0) (hi := (n : Int)) (s := bf)
    (body := fun i bf => do
      let y ← rd bf i
      wr bf i (y /ᶠ (x +ᶠ (genExp uniform one q).1)))
    (fun i bf => bf.length = n ∧ (∀ j : ℕ, (j : Int) < i → bf[j]? = some (T (j + 1) /ᶠ T (n + 1))) ∧
      ∀ j : ℕ, i ≤ j → j < n → bf[j]? = some (T (j + 1)))
    (by omega) ⟨hl, by intro j hj; omega, fun j _ hj => hb j (by omega)⟩ (by
      rintro i bf h0 h1 ⟨hl, ha, hb⟩
      have hv := hb i.toNat (by omega) (by omega)
      have hh : Has bf i (T (i.toNat + 1)) := ⟨h0, hv⟩
      rw [rd_eq hh, M_ok_bind, wr_eq _ h0 (by omega), hnorm]
      refine ⟨by simp [hl], ?_, ?_⟩
      · intro j hj
        by_cases hji : j = i.toNat
        · subst hji
          rw [List.getElem?_set_self (by omega)]
        · rw [List.getElem?_set_ne (by omega)]
          exact ha j (by omega)
      · intro j hj hjn
        rw [List.getElem?_set_ne (by omega)]
        exact hb j (by omega) hjn)
  obtain ⟨bf2, h2, hl2, hb2, -⟩ := loop2.exists_ok
  have hbf2 : bf2 = sample (draw uniform s) n := by
    apply List.ext_getElem?
    intro j
    unfold sample
    by_cases hj : j < n
    · rw [hb2 j (by omega), List.getElem?_map, List.getElem?_range hj]
      rfl
    · rw [List.getElem?_eq_none (by omega), List.getElem?_eq_none (by simp; omega)]
  obtain ⟨c, hc, hiff⟩ := stepFunctionCross_ok bf2 b B n (by omega)
  refine ⟨c, ?_, ?_⟩
  · unfold randomEcdfCross
    rw [hN]
    dsimp only at h1 ⊢
    rw [h1, M_ok_bind]
    dsimp only
    rw [hl, h2, M_ok_bind, addrOf_eq (by omega) (by omega), M_ok_bind, hl2, hc, M_ok_bind, ← hbf2]
    rw [stateAt_succ, ← hq]
    rfl
  · rw [hiff, List.take_of_length_le (by omega), hbf2]

/-- The `k`-th simulated sample of a run with sample size `n`. -/
theorem ecdfMcBody_ok (uniform : S → F × S) (b B : List F) (n : ℕ) (hn : 1 ≤ n) (st : McState F S)
    (hbuf : st.buf.length = n) :
    ∃ c buf', buf'.length = n ∧ (c = false ↔ Inside (sample (draw uniform st.rng) n) b B) ∧
      ecdfMcBody uniform b B st =
      (if st.count + (if c then 1 else 0) ≤ INT_MAX then
        .ok { reps := wrap32 (st.reps + 1), count := st.count + (if c then 1 else 0),
              rng := stateAt uniform st.rng (n + 1), buf := buf' }
      else .error (.ub "double to int conversion out of range")) := by
  obtain ⟨c, hc, hiff⟩ := randomEcdfCross_ok uniform b B st.rng st.buf (by omega)
  rw [hbuf] at hc hiff
  refine ⟨c, sample (draw uniform st.rng) n, by simp [sample], hiff, ?_⟩
  unfold ecdfMcBody
  rw [hc, M_ok_bind]

theorem wrap32_eq {x : Int} (h0 : -(2 ^ 31) ≤ x) (h1 : x ≤ INT_MAX) : wrap32 x = x := by
  unfold wrap32 INT_MAX at *
  apply Int.bmod_eq_of_le <;> omega

theorem wrap32_le (x : Int) : wrap32 x ≤ INT_MAX := by
  unfold wrap32 INT_MAX
  have := Int.bmod_lt (x := x) (m := 2 ^ 32) (by norm_num)
  norm_num at this ⊢
  omega

open Classical in
theorem ecdfMc_ok (uniform : S → F × S) (rng : S) (n : ℕ) (hn : 1 ≤ n) (b B : List F) (N : ℕ)
    (hB : B.length ≤ n) (hb : b = [] ∨ n ≤ b.length) (hN : (N : Int) ≤ INT_MAX) :
    ecdfMc uniform rng n b B N = .ok (ofInt (countUpTo (fun r => ¬ Inside
        (sample (fun j => draw uniform rng (r * (n + 1) + j)) n) b B) N : Int) /ᶠ ofInt (N : Int)) := by
  set p : ℕ → Prop := fun r => ¬ Inside (sample (fun j => draw uniform rng (r * (n + 1) + j)) n) b B with hp
  unfold ecdfMc
  rw [if_neg (by omega), if_neg (by
    rintro ⟨h1, h2⟩
    rcases hb with hb | hb
    · rw [hb] at h1; simp at h1
    · omega)]
  have key : ∀ k, k ≤ N → ∃ buf, buf.length = n ∧
      whileM (fun st : McState F S => decide (st.reps < (N : Int))) (ecdfMcBody uniform b B)
        { reps := 0, count := 0, rng := rng, buf := List.replicate (n : Int).toNat zero } =
      whileM (fun st : McState F S => decide (st.reps < (N : Int))) (ecdfMcBody uniform b B)
        { reps := k, count := (countUpTo p k : Int), rng := stateAt uniform rng (k * (n + 1)), buf := buf } := by
    intro k
    induction k with
    | zero =>
      intro _
      refine ⟨List.replicate (n : Int).toNat zero, by simp, ?_⟩
      rw [countUpTo_zero, Nat.zero_mul]
      rfl
    | succ k ih =>
      intro hk
      obtain ⟨buf, hbuf, he⟩ := ih (by omega)
      obtain ⟨c, buf', hbuf', hiff, hbody⟩ := ecdfMcBody_ok uniform b B n hn
        { reps := k, count := (countUpTo p k : Int), rng := stateAt uniform rng (k * (n + 1)), buf := buf } hbuf
      dsimp only at hiff hbody
      rw [draw_stateAt] at hiff
      have hcp : (countUpTo p k : Int) + (if c = true then (1 : Int) else 0) = (countUpTo p (k + 1) : Int) := by
        rw [countUpTo_succ]
        by_cases h : p k
        · have : c = true := by
            cases c with
            | true => rfl
            | false => exact absurd (hiff.mp rfl) h
          rw [if_pos h, if_pos this]
          push_cast
          rfl
        · have : c = false := hiff.mpr (not_not.mp h)
          rw [if_neg h, this]
          simp
      have hle := countUpTo_le p (k + 1)
      rw [hcp, if_pos (by omega)] at hbody
      refine ⟨buf', hbuf', ?_⟩
      rw [he, whileM_step (by simp; omega) hbody, wrap32_eq (by omega) (by omega), stateAt_add,
        show k * (n + 1) + (n + 1) = (k + 1) * (n + 1) by ring]
      push_cast
      rfl
  obtain ⟨buf, -, he⟩ := key N le_rfl
  rw [he, whileM_stop (by simp), M_ok_bind]

theorem ecdfMc_not_ok (uniform : S → F × S) (rng : S) (n : ℕ) (hn : 1 ≤ n) (b B : List F) (N : Int)
    (hB : B.length ≤ n) (hb : b = [] ∨ n ≤ b.length) (hN : INT_MAX < N) :
    ecdfMc uniform rng n b B N = .error .diverge ∨
    ecdfMc uniform rng n b B N = .error (.ub "double to int conversion out of range") := by
  unfold ecdfMc
  rw [if_neg (by omega), if_neg (by
    rintro ⟨h1, h2⟩
    rcases hb with hb | hb
    · rw [hb] at h1; simp at h1
    · omega)]
  obtain ⟨e, he, hE⟩ := whileM_not_ok (cond := fun st : McState F S => decide (st.reps < N))
    (body := ecdfMcBody uniform b B) (I := fun st => st.reps ≤ INT_MAX ∧ st.buf.length = n)
    (E := fun e => e = .ub "double to int conversion out of range")
    (by
      rintro st ⟨hr, hl⟩
      refine ⟨by simp; omega, ?_⟩
      obtain ⟨c, buf', hl', -, hbody⟩ := ecdfMcBody_ok uniform b B n hn st hl
      rw [hbody]
      by_cases hcnt : st.count + (if c = true then 1 else 0) ≤ INT_MAX
      · rw [if_pos hcnt]
        exact ⟨wrap32_le _, hl'⟩
      · rw [if_neg hcnt]
        exact (rfl : _ = _))
    (s := { reps := 0, count := 0, rng := rng, buf := List.replicate (n : Int).toNat zero })
    ⟨by show (0 : Int) ≤ INT_MAX; decide, by simp⟩
  rw [he]
  rcases hE with rfl | rfl
  · exact Or.inl rfl
  · exact Or.inr rfl

theorem ecdfMc_hangs (uniform : S → F × S) (rng : S) (n : ℕ) (hn : 1 ≤ n) (b B : List F) (N : Int)
    (hB : B.length ≤ n) (hb : b = [] ∨ n ≤ b.length) (hN : INT_MAX < N)
    (hin : ∀ r : ℕ, Inside (sample (fun j => draw uniform rng (r * (n + 1) + j)) n) b B) :
    ecdfMc uniform rng n b B N = .error .diverge := by
  unfold ecdfMc
  rw [if_neg (by omega), if_neg (by
    rintro ⟨h1, h2⟩
    rcases hb with hb | hb
    · rw [hb] at h1; simp at h1
    · omega)]
  rw [whileM_diverge (I := fun st : McState F S => st.reps ≤ INT_MAX ∧ st.count = 0 ∧ st.buf.length = n ∧
      ∃ k : ℕ, st.rng = stateAt uniform rng (k * (n + 1)))
    (by
      rintro st ⟨hr, hc, hl, k, hk⟩
      refine ⟨by simp; omega, ?_⟩
      obtain ⟨c, buf', hl', hiff, hbody⟩ := ecdfMcBody_ok uniform b B n hn st hl
      rw [hk, draw_stateAt] at hiff
      have hcf : c = false := hiff.mpr (hin k)
      rw [hcf, hc] at hbody
      simp only [Bool.false_eq_true, if_false, Int.add_zero] at hbody
      rw [if_pos (by decide)] at hbody
      refine ⟨_, hbody, wrap32_le _, rfl, hl', k + 1, ?_⟩
      dsimp only
      rw [hk, stateAt_add, show k * (n + 1) + (n + 1) = (k + 1) * (n + 1) by ring])
    ⟨by show (0 : Int) ≤ INT_MAX; decide, rfl, by simp, 0, by simp [stateAt]⟩]
  rfl

end CP
