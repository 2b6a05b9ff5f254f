import Verif.Proofs.MonteCarlo
/-
The Poisson simulation of crossprob_mc, for any arithmetic and any generator.
-/
namespace CP
open FOps McSpec
variable {F : Type} [FOps F] {S : Type}

theorem findIdx_range {p : ℕ → Bool} {m k : ℕ} (hk : k ≤ m) (h : ∀ j, j < k → p j = false)
    (hp : k < m → p k = true) : (List.range m).findIdx p = k := by
  by_cases hkm : k < m
  · rw [List.findIdx_eq (by simpa using hkm)]
    refine ⟨by simpa using hp hkm, ?_⟩
    intro j hj
    simpa using h j hj
  · have : k = m := by omega
    subst this
    have hnone : ∀ x ∈ List.range k, p x = false := fun x hx => h x (List.mem_range.mp hx)
    have := List.findIdx_eq_length.mpr hnone
    simpa using this

theorem poissonBody_eq (uniform : S → F × S) (beta : F) (b B : List F) (k : Int) (x : F) (q : S) (buf : List F) :
    poissonBody uniform beta b B ⟨k, x, q, buf, none⟩ =
      (if lt one (x +ᶠ (neg beta *ᶠ log (uniform q).1)) then do
        let _ ← addrOf buf 0
        let c ← stepFunctionCross buf k b B
        .ok ⟨k, x +ᶠ (neg beta *ᶠ log (uniform q).1), (uniform q).2, buf, some c⟩
      else if k ≥ b.length then
        .ok ⟨k, x +ᶠ (neg beta *ᶠ log (uniform q).1), (uniform q).2, buf, some true⟩
      else do
        let buf ← wr buf k (x +ᶠ (neg beta *ᶠ log (uniform q).1))
        .ok ⟨k + 1, x +ᶠ (neg beta *ᶠ log (uniform q).1), (uniform q).2, buf, none⟩) := rfl

theorem poissonLoop_ok (uniform : S → F × S) (beta : F) (b B : List F) (s : S) :
    ∀ (d k : ℕ) (buf : List F), k + d = b.length → buf.length = b.length + 1 →
      (∀ j, j < k → buf[j]? = some (arrival beta (draw uniform s) (j + 1))) →
      (∀ j, j < k → lt one (arrival beta (draw uniform s) (j + 1)) = false) →
      ∃ c k' x' buf', buf'.length = b.length + 1 ∧
        (c = false ↔ PoissonInside (arrival beta (draw uniform s)) b B) ∧
        whileM (fun st : PoissonState F S => st.done.isNone) (poissonBody uniform beta b B)
          ⟨k, arrival beta (draw uniform s) k, stateAt uniform s k, buf, none⟩ =
        .ok ⟨k', x', stateAt uniform s (pathDraws (arrival beta (draw uniform s)) b.length), buf', some c⟩ := by
  intro d
  induction d with
  | zero =>
    intro k buf hkd hl hb hT
    have hk : k = b.length := by omega
    have hdraws : pathDraws (arrival beta (draw uniform s)) b.length = k + 1 := by
      unfold pathDraws
      rw [findIdx_range (k := k) (by omega) hT (by omega)]
    have hbody := poissonBody_eq uniform beta b B k (arrival beta (draw uniform s) k) (stateAt uniform s k) buf
    change _ = (if lt one (arrival beta (draw uniform s) (k + 1)) then _ else _) at hbody
    by_cases hlt : lt one (arrival beta (draw uniform s) (k + 1)) = true
    · obtain ⟨c, hc, hiff⟩ := stepFunctionCross_ok buf b B k (by omega)
      rw [if_pos hlt, addrOf_eq (by omega) (by omega), M_ok_bind, hc, M_ok_bind] at hbody
      refine ⟨c, k, _, buf, hl, ?_, by
        rw [whileM_step rfl hbody, whileM_stop rfl, hdraws, stateAt_succ]⟩
      rw [hiff]
      have htake : buf.take k = (List.range k).map fun i => arrival beta (draw uniform s) (i + 1) := by
        apply List.ext_getElem?
        intro j
        by_cases hj : j < k
        · rw [List.getElem?_take_of_lt hj, hb j hj, List.getElem?_map, List.getElem?_range hj]; rfl
        · rw [List.getElem?_eq_none (by simp; omega), List.getElem?_eq_none (by simp; omega)]
      rw [htake]
      constructor
      · intro h
        exact ⟨k, by omega, hT, hlt, h⟩
      · rintro ⟨K, hK, hK1, hK2, hin⟩
        have : K = k := by
          rcases Nat.lt_trichotomy K k with h | h | h
          · rw [hT K h] at hK2; cases hK2
          · exact h
          · omega
        subst this
        exact hin
    · rw [if_neg hlt, if_pos (by omega)] at hbody
      refine ⟨true, k, _, buf, hl, ?_, by
        rw [whileM_step rfl hbody, whileM_stop rfl, hdraws, stateAt_succ]⟩
      constructor
      · intro h; cases h
      · rintro ⟨K, hK, hK1, hK2, hin⟩
        by_cases h : K < k
        · rw [hT K h] at hK2; cases hK2
        · have : K = k := by omega
          subst this
          exact absurd hK2 hlt
  | succ d ih =>
    intro k buf hkd hl hb hT
    have hbody := poissonBody_eq uniform beta b B k (arrival beta (draw uniform s) k) (stateAt uniform s k) buf
    change _ = (if lt one (arrival beta (draw uniform s) (k + 1)) then _ else _) at hbody
    by_cases hlt : lt one (arrival beta (draw uniform s) (k + 1)) = true
    · have hdraws : pathDraws (arrival beta (draw uniform s)) b.length = k + 1 := by
        unfold pathDraws
        rw [findIdx_range (k := k) (by omega) hT (fun _ => hlt)]
      obtain ⟨c, hc, hiff⟩ := stepFunctionCross_ok buf b B k (by omega)
      rw [if_pos hlt, addrOf_eq (by omega) (by omega), M_ok_bind, hc, M_ok_bind] at hbody
      refine ⟨c, k, _, buf, hl, ?_, by
        rw [whileM_step rfl hbody, whileM_stop rfl, hdraws, stateAt_succ]⟩
      rw [hiff]
      have htake : buf.take k = (List.range k).map fun i => arrival beta (draw uniform s) (i + 1) := by
        apply List.ext_getElem?
        intro j
        by_cases hj : j < k
        · rw [List.getElem?_take_of_lt hj, hb j hj, List.getElem?_map, List.getElem?_range hj]; rfl
        · rw [List.getElem?_eq_none (by simp; omega), List.getElem?_eq_none (by simp; omega)]
      rw [htake]
      constructor
      · intro h
        exact ⟨k, by omega, hT, hlt, h⟩
      · rintro ⟨K, hK, hK1, hK2, hin⟩
        have : K = k := by
          rcases Nat.lt_trichotomy K k with h | h | h
          · rw [hT K h] at hK2; cases hK2
          · exact h
          · rw [hK1 k h] at hlt; cases hlt
        subst this
        exact hin
    · rw [if_neg hlt, if_neg (by omega), wr_eq _ (by omega) (by omega), M_ok_bind] at hbody
      obtain ⟨c, k', x', buf', h1, h2, h3⟩ := ih (k + 1)
        (buf.set (k : Int).toNat (arrival beta (draw uniform s) (k + 1))) (by omega) (by simpa using hl)
        (by
          intro j hj
          by_cases hjk : j = k
          · subst hjk
            rw [Int.toNat_natCast, List.getElem?_set_self (by omega)]
          · rw [Int.toNat_natCast, List.getElem?_set_ne (by omega)]
            exact hb j (by omega))
        (by
          intro j hj
          by_cases hjk : j = k
          · subst hjk; simpa using hlt
          · exact hT j (by omega))
      refine ⟨c, k', x', buf', h1, h2, ?_⟩
      rw [whileM_step rfl hbody, ← h3, stateAt_succ]
      rfl

theorem randomPoissonCross_ok (asserts : Bool) (uniform : S → F × S) (beta : F) (b B : List F) (s : S)
    (buf : List F) (hl : buf.length = b.length + 1) :
    ∃ c buf', buf'.length = b.length + 1 ∧
      (c = false ↔ PoissonInside (arrival beta (draw uniform s)) b B) ∧
      randomPoissonCross asserts uniform beta b B s buf =
        .ok (c, stateAt uniform s (pathDraws (arrival beta (draw uniform s)) b.length), buf') := by
  obtain ⟨c, k', x', buf', h1, h2, h3⟩ := poissonLoop_ok uniform beta b B s b.length 0 buf (by omega) hl
    (by intro j hj; omega) (by intro j hj; omega)
  refine ⟨c, buf', h1, h2, ?_⟩
  unfold randomPoissonCross
  have ha : assertC asserts (decide (buf.length ≥ b.length)) "tmp_buffer.size() >= max_steps" = .ok () := by
    unfold assertC
    rw [decide_eq_true (show buf.length ≥ b.length by omega)]
    simp
  rw [ha, M_ok_bind]
  have h3' : whileM (fun st : PoissonState F S => st.done.isNone) (poissonBody uniform beta b B)
          ⟨0, zero, s, buf, none⟩ = _ := h3
  rw [h3', M_ok_bind]
  rfl

theorem poissonMcBody_ok (asserts : Bool) (uniform : S → F × S) (beta : F) (b B : List F) (st : McState F S)
    (hl : st.buf.length = b.length + 1) :
    ∃ c buf', buf'.length = b.length + 1 ∧
      (c = false ↔ PoissonInside (arrival beta (draw uniform st.rng)) b B) ∧
      poissonMcBody asserts uniform beta b B st =
        .ok { reps := wrap32 (st.reps + 1), count := wrap32 (st.count + if c then 1 else 0),
              rng := stateAt uniform st.rng (pathDraws (arrival beta (draw uniform st.rng)) b.length),
              buf := buf' } := by
  obtain ⟨c, buf', h1, h2, h3⟩ := randomPoissonCross_ok asserts uniform beta b B st.rng st.buf hl
  refine ⟨c, buf', h1, h2, ?_⟩
  unfold poissonMcBody
  rw [h3, M_ok_bind]

open Classical in
theorem poissonMc_ok (asserts : Bool) (uniform : S → F × S) (rng : S) (intensity : F) (b B : List F) (N : ℕ)
    (hb : b = [] ∨ B.length ≤ b.length) (hN : (N : Int) ≤ INT_MAX) :
    poissonMc asserts uniform (.ok rng) intensity b B N = .ok (ofInt (countUpTo (fun r => ¬ PoissonInside
        (arrival (one /ᶠ intensity) fun j =>
          draw uniform rng (pathStart (one /ᶠ intensity) (draw uniform rng) b.length r + j)) b B) N : Int) /ᶠ
      ofInt (N : Int)) := by
  set beta := one /ᶠ intensity with hbeta
  set st := pathStart beta (draw uniform rng) b.length with hst
  set p : ℕ → Prop := fun r => ¬ PoissonInside (arrival beta fun j => draw uniform rng (st r + j)) b B with hp
  unfold poissonMc
  rw [if_neg (by
    rintro ⟨h1, h2⟩
    rcases hb with hb | hb
    · rw [hb] at h1; simp at h1
    · omega), M_ok_bind]
  dsimp only
  have key : ∀ k, k ≤ N → ∃ buf, buf.length = b.length + 1 ∧
      whileM (fun st : McState F S => decide (st.reps < (N : Int))) (poissonMcBody asserts uniform beta b B)
        { reps := 0, count := 0, rng := rng, buf := List.replicate (b.length + 1) zero } =
      whileM (fun st : McState F S => decide (st.reps < (N : Int))) (poissonMcBody asserts uniform beta b B)
        { reps := k, count := (countUpTo p k : Int), rng := stateAt uniform rng (st k), buf := buf } := by
    intro k
    induction k with
    | zero =>
      intro _
      refine ⟨List.replicate (b.length + 1) zero, by simp, ?_⟩
      rw [countUpTo_zero]
      rfl
    | succ k ih =>
      intro hk
      obtain ⟨buf, hbuf, he⟩ := ih (by omega)
      obtain ⟨c, buf', hbuf', hiff, hbody⟩ := poissonMcBody_ok asserts uniform beta b B
        { reps := k, count := (countUpTo p k : Int), rng := stateAt uniform rng (st k), buf := buf } hbuf
      dsimp only at hiff hbody
      rw [draw_stateAt] at hiff hbody
      have hcp : (countUpTo p k : Int) + (if c = true then (1 : Int) else 0) = (countUpTo p (k + 1) : Int) := by
        rw [countUpTo_succ]
        by_cases h : p k
        · have : c = true := by
            cases c with
            | true => rfl
            | false => exact absurd (hiff.mp rfl) h
          rw [if_pos h, if_pos this]
          push_cast
          rfl
        · have : c = false := hiff.mpr (not_not.mp h)
          rw [if_neg h, this]
          simp
      have hle := countUpTo_le p (k + 1)
      rw [hcp] at hbody
      refine ⟨buf', hbuf', ?_⟩
      rw [he, whileM_step (by simp; omega) hbody, wrap32_eq (by omega) (by omega),
        wrap32_eq (by omega) (by omega), stateAt_add]
      push_cast
      rfl
  obtain ⟨buf, -, he⟩ := key N le_rfl
  rw [he, whileM_stop (by simp), M_ok_bind]

theorem poissonMc_hangs (asserts : Bool) (uniform : S → F × S) (rng : S) (intensity : F) (b B : List F) (N : Int)
    (hb : b = [] ∨ B.length ≤ b.length) (hN : INT_MAX < N) :
    poissonMc asserts uniform (.ok rng) intensity b B N = .error .diverge := by
  unfold poissonMc
  rw [if_neg (by
    rintro ⟨h1, h2⟩
    rcases hb with hb | hb
    · rw [hb] at h1; simp at h1
    · omega), M_ok_bind]
  dsimp only
  rw [whileM_diverge (I := fun st : McState F S => st.reps ≤ INT_MAX ∧ st.buf.length = b.length + 1)
    (by
      rintro st ⟨hr, hl⟩
      refine ⟨by simp; omega, ?_⟩
      obtain ⟨c, buf', hl', hiff, hbody⟩ := poissonMcBody_ok asserts uniform (one /ᶠ intensity) b B st hl
      exact ⟨_, hbody, wrap32_le _, hl'⟩)
    ⟨by show (0 : Int) ≤ INT_MAX; decide, by simp⟩]
  rfl

end CP
