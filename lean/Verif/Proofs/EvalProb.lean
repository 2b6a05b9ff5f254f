import Verif.Proofs.Ecdf2Final
/-! Evaluation of a non-crossing probability for boundaries with rational points, in integer arithmetic (used for the test files of
the repository). -/
open Finset MeasureTheory
namespace CP.Spec

/-- One step of the recursion on the numbers `m! D^m v(m)`. -/
def estep (n H lo hi : ℕ) (a : List ℕ) : List ℕ :=
  (List.range (n + 1)).map fun m =>
    if lo ≤ m ∧ m ≤ hi then ((List.range (m + 1)).map fun l => m.choose l * a.getD l 0 * H ^ (m - l)).sum else 0

/-- The whole recursion; the points are numerators over `D`. -/
def evalA (n D : ℕ) : ℕ → ℕ → ℕ → List (ℕ × BoundType) → List ℕ → List ℕ
  | t, _, _, [], a => estep n (D - t) 0 n a
  | t, c, d, y :: L, a => evalA n D y.1 (cN y.2 c) (dN y.2 d) L (estep n (y.1 - t) (dN y.2 d) c a)

/-- `D^n` times the probability. -/
def evalN (n D : ℕ) (L : List (ℕ × BoundType)) : ℕ := (evalA n D 0 0 0 L [1]).getD n 0

noncomputable section

/-- The list holds the numbers `m! D^m v(m)`. -/
def RepN (n D : ℕ) (v : ℕ → ℝ) (a : List ℕ) : Prop := ∀ m ≤ n, v m = (a.getD m 0 : ℝ) / ((m.factorial : ℝ) * (D : ℝ) ^ m)

theorem estep_getD (n H lo hi : ℕ) (a : List ℕ) {m : ℕ} (hm : m ≤ n) : (estep n H lo hi a).getD m 0 =
    if lo ≤ m ∧ m ≤ hi then ∑ l ∈ range (m + 1), m.choose l * a.getD l 0 * H ^ (m - l) else 0 := by
  unfold estep
  rw [List.getD_eq_getElem?_getD, List.getElem?_map, List.getElem?_range (by omega)]
  simp only [Option.map_some, Option.getD_some]
  congr 1

theorem repN_step {n D H lo hi : ℕ} {v : ℕ → ℝ} {a : List ℕ} (h : RepN n D v a) (hD : 0 < D) :
    RepN n D (vstep ((H : ℝ) / D) (fun m => lo ≤ m ∧ m ≤ hi) v) (estep n H lo hi a) := by
  intro m hm
  rw [estep_getD _ _ _ _ _ hm]
  unfold vstep
  have hDr : (D : ℝ) ≠ 0 := by exact_mod_cast hD.ne'
  split
  · push_cast
    rw [Finset.sum_div]
    refine Finset.sum_congr rfl fun l hl => ?_
    have hlm : l ≤ m := by have := Finset.mem_range.mp hl; omega
    rw [h l (by omega), div_pow]
    have hch : (m.choose l : ℝ) * (l.factorial : ℝ) * ((m - l).factorial : ℝ) = (m.factorial : ℝ) := by
      exact_mod_cast Nat.choose_mul_factorial_mul_factorial hlm
    have e1 : (D : ℝ) ^ m = (D : ℝ) ^ l * (D : ℝ) ^ (m - l) := by rw [← pow_add]; congr 1; omega
    have h1 : (l.factorial : ℝ) ≠ 0 := by exact_mod_cast (Nat.factorial_pos l).ne'
    have h2 : ((m - l).factorial : ℝ) ≠ 0 := by exact_mod_cast (Nat.factorial_pos _).ne'
    have h3 : (m.choose l : ℝ) ≠ 0 := by exact_mod_cast (Nat.choose_pos hlm).ne'
    rw [← hch, e1]
    field_simp
  · simp

/-- The points as real numbers. -/
def ratPts (D : ℕ) (L : List (ℕ × BoundType)) : List RBound := L.map fun y => ((y.1 : ℝ) / D, y.2)

theorem evalA_law {n D : ℕ} (hD : 0 < D) (L : List (ℕ × BoundType)) : ∀ (t c d : ℕ) (a : List ℕ) (v : ℕ → ℝ) (C : Set (Fin n → ℝ)),
    CountLaw n ((t : ℝ) / D) v C → RepN n D v a → t ≤ D → (∀ y ∈ L, t ≤ y.1) → (∀ y ∈ L, y.1 ≤ D) → L.Pairwise (fun x y => x.1 ≤ y.1) →
    (iidUniform n).real (C ∩ win n c d (ratPts D L)) = ((evalA n D t c d L a).getD n 0 : ℝ) / (D : ℝ) ^ n := by
  have hDr : (0 : ℝ) < D := by exact_mod_cast hD
  induction L with
  | nil =>
    intro t c d a v C hlaw hrep ht _ _ _
    have h1 : ((t : ℝ) / D) ≤ 1 := by rw [div_le_one hDr]; exact_mod_cast ht
    have hs := hlaw.step (t' := 1) (by positivity) h1 le_rfl (fun m => 0 ≤ m ∧ m ≤ n)
    have e : 1 - (t : ℝ) / D = ((D - t : ℕ) : ℝ) / D := by rw [Nat.cast_sub ht]; field_simp
    rw [e] at hs
    have hr := repN_step (H := D - t) (lo := 0) (hi := n) hrep hD
    have hp := hs.prob
    rw [hr n le_rfl] at hp
    have hw : win n c d (ratPts D []) = {x : Fin n → ℝ | 0 ≤ count 1 x ∧ count 1 x ≤ n} := by
      ext x
      simp only [ratPts, List.map_nil, win, Set.mem_univ, Set.mem_ofPred_eq, Nat.zero_le, true_and, true_iff]
      unfold count
      exact (Finset.card_le_univ _).trans (by simp)
    rw [hw, hp, evalA]
    have hf : (n.factorial : ℝ) ≠ 0 := by exact_mod_cast (Nat.factorial_pos n).ne'
    field_simp
  | cons y L ih =>
    intro t c d a v C hlaw hrep ht hlo hhi hpw
    have hty := hlo y (by simp)
    have hyD := hhi y (by simp)
    have h2 : (t : ℝ) / D ≤ (y.1 : ℝ) / D := div_le_div_of_nonneg_right (by exact_mod_cast hty) hDr.le
    have h3 : (y.1 : ℝ) / D ≤ 1 := by rw [div_le_one hDr]; exact_mod_cast hyD
    have hs := hlaw.step (by positivity) h2 h3 (fun m => dN y.2 d ≤ m ∧ m ≤ c)
    have e : (y.1 : ℝ) / D - (t : ℝ) / D = ((y.1 - t : ℕ) : ℝ) / D := by rw [Nat.cast_sub hty]; field_simp
    rw [e] at hs
    have := ih y.1 (cN y.2 c) (dN y.2 d) _ _ _ hs (repN_step hrep hD) hyD (fun z hz => (List.pairwise_cons.mp hpw).1 z hz)
      (fun z hz => hhi z (by simp [hz])) (List.pairwise_cons.mp hpw).2
    rw [evalA, ← this]
    congr 1
    show _ ∩ (_ ∩ _) = _
    rw [Set.inter_assoc]
    rfl

/-- A non-crossing probability with rational boundary points. -/
theorem eval_noncross {n D : ℕ} (hD : 0 < D) {L : List (ℕ × BoundType)} {nb nB : List ℕ} {b B : Fin n → ℝ}
    (hb : List.ofFn b = nb.map fun k : ℕ => (k : ℝ) / D) (hB : List.ofFn B = nB.map fun k : ℕ => (k : ℝ) / D)
    (hLb : (L.filter fun x => x.2 = .bSTEP).map Prod.fst = nb) (hLB : (L.filter fun x => x.2 = .BSTEP).map Prod.fst = nB)
    (hle : ∀ y ∈ L, y.1 ≤ D) (hpw : L.Pairwise fun x y => x.1 ≤ y.1) :
    noncrossProb b B = (evalN n D L : ℝ) / (D : ℝ) ^ n := by
  have hDr : (0 : ℝ) < D := by exact_mod_cast hD
  have key := evalA_law hD L 0 0 0 [1] (fun m => if m = 0 then 1 else 0) Set.univ (n := n) (by simpa using CountLaw.zero)
    (by
      intro m hm
      cases m with
      | zero => simp
      | succ m => simp) (Nat.zero_le _) (fun _ _ => Nat.zero_le _) hle hpw
  have hl : ∀ (tag : BoundType) (v : Fin n → ℝ) (nv : List ℕ), List.ofFn v = nv.map (fun k : ℕ => (k : ℝ) / D) →
      (L.filter fun x => x.2 = tag).map Prod.fst = nv → Lists tag v (ratPts D L) := by
    intro tag v nv h1 h2
    unfold Lists ratPts
    rw [h1, ← h2, List.filter_map, List.map_map, List.map_map]
    rfl
  rw [Set.univ_inter, win_eq (hl _ b nb hb hLb) (hl _ B nB hB hLB) (by
    unfold ratPts
    rw [List.pairwise_map]
    exact hpw.imp fun h => div_le_div_of_nonneg_right (by exact_mod_cast h) hDr.le)] at key
  rw [noncrossProb_eq, key]
  rfl

end
end CP.Spec
