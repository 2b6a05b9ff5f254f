import Verif.Proofs.Counted3
import Verif.Spec
import Mathlib.Algebra.BigOperators.Intervals
/-
Property C42: numbers of elementary steps.  The counted programs are in `Verif.Model.Counted`; each theorem says at the
same time that the counted program returns what the program returns, and how many steps it takes.
-/
namespace CP.Props
open FOps
variable {F : Type} [FOps F]

/-- `x`, started with counter 0, does what `m` does, and takes at most `bound` steps. -/
def Within {α : Type} (x : CM α) (m : M α) (bound : Nat) : Prop :=
  ∃ steps, steps ≤ bound ∧ x 0 = m.map fun a => (a, steps)

/-- The price assumptions on FFTW: executing or planning a transform of size `N` costs at most `κ N (log₂ N + 1)`. -/
def FftPrice (pr : Prices) (κ : Nat) : Prop :=
  ∀ N, pr.fft N ≤ κ * (N * (Nat.log 2 N + 1)) ∧ pr.plan N ≤ κ * (N * (Nat.log 2 N + 1))

/-! ## Direct convolution: exactly `m (m + 1) / 2` multiplications, in `2 m (m + 1) + m` steps -/

theorem forAuxC_exact {σ : Type} {body : Int → σ → M σ} {bodyC : Int → σ → CM σ} (f : Nat → Nat) (lo : Int) :
    ∀ (k d : Nat) (s : σ) (t : Nat),
      (∀ (j : Nat) (s : σ) (t : Nat), j < d + k → bodyC (lo + j) s t = (body (lo + j) s).map fun a => (a, t + f j)) →
      forAuxC bodyC k (lo + d) s t = (forAux body k (lo + d) s).map fun a => (a, t + ∑ j ∈ Finset.range k, f (d + j)) := by
  intro k
  induction k with
  | zero => intro d s t _; rfl
  | succ k ih =>
    intro d s t h
    unfold forAuxC forAux
    show (bodyC (lo + d) s t >>= fun p => forAuxC bodyC k (lo + d + 1) p.1 p.2) = _
    rw [h d s t (by omega)]
    cases hb : body (lo + d) s with
    | error e => rfl
    | ok s' =>
      show forAuxC bodyC k (lo + d + 1) s' (t + f d) = (forAux body k (lo + d + 1) s').map _
      have e : lo + (d : Int) + 1 = lo + ((d + 1 : Nat) : Int) := by push_cast; omega
      rw [e, ih (d + 1) s' (t + f d) fun j s t hj => h j s t (by omega)]
      congr 1
      funext a
      rw [Finset.sum_range_succ']
      have : (∑ j ∈ Finset.range k, f (d + 1 + j)) = ∑ j ∈ Finset.range k, f (d + (j + 1)) :=
        Finset.sum_congr rfl fun j _ => by congr 1; omega
      rw [this, Nat.add_zero]
      congr 1
      omega

theorem forRangeC_exact {σ : Type} {body : Int → σ → M σ} {bodyC : Int → σ → CM σ} (f : Nat → Nat) (k : Nat) (s : σ) (t : Nat)
    (h : ∀ (j : Nat) (s : σ) (t : Nat), j < k → bodyC j s t = (body j s).map fun a => (a, t + f j)) :
    forRangeC 0 k s bodyC t = (forRange 0 k s body).map fun a => (a, t + ∑ j ∈ Finset.range k, f j) := by
  unfold forRangeC forRange
  have := forAuxC_exact (body := body) (bodyC := bodyC) f 0 k 0 s t (fun j s t hj => by
    rw [Int.zero_add]; exact h j s t (by omega))
  simpa using this

/-- C42: a direct convolution of `m` elements takes exactly `2 m (m + 1) + m` steps whenever it does not fail. -/
theorem C42_direct_convolution_exact (m : Nat) (src0 : List F) (o0 : Int) (src1 : List F) (o1 : Int) (dest : List F) (od : Int) :
    convolveSameSizeC m src0 o0 src1 o1 dest od 0 =
      (convolveSameSize m src0 o0 src1 o1 dest od).map fun a => (a, 2 * m * (m + 1) + m) := by
  have inner : ∀ (j : Nat) (t : Nat),
      (forRangeC 0 ((j : Int) + 1) (zero : F) fun k acc => do
        let x ← rdC src0 (o0 + k)
        let y ← rdC src1 (o1 + ((j : Int) - k))
        charge 2 (.ok (acc +ᶠ x *ᶠ y))) t =
      (forRange 0 ((j : Int) + 1) (zero : F) fun k acc => do
        let x ← rd src0 (o0 + k)
        let y ← rd src1 (o1 + ((j : Int) - k))
        .ok (acc +ᶠ x *ᶠ y)).map fun a => (a, t + 4 * (j + 1)) := by
    intro j t
    have := forRangeC_exact (body := fun k (acc : F) => do
        let x ← rd src0 (o0 + k)
        let y ← rd src1 (o1 + ((j : Int) - k))
        (.ok (acc +ᶠ x *ᶠ y) : M F)) (bodyC := fun k (acc : F) => do
        let x ← rdC src0 (o0 + k)
        let y ← rdC src1 (o1 + ((j : Int) - k))
        charge 2 (.ok (acc +ᶠ x *ᶠ y))) (fun _ => 4) (j + 1) zero t (fun k s t _ => by
      show (charge 1 (rd src0 (o0 + k)) t >>= fun p => (charge 1 (rd src1 (o1 + ((j : Int) - k))) p.2 >>= fun q =>
        charge 2 (.ok (s +ᶠ p.1 *ᶠ q.1)) q.2)) = _
      cases rd src0 (o0 + k) with
      | error e => rfl
      | ok x =>
        show (charge 1 (rd src1 (o1 + ((j : Int) - k))) (t + 1) >>= fun q => charge 2 (.ok (s +ᶠ x *ᶠ q.1)) q.2) = _
        cases rd src1 (o1 + ((j : Int) - k)) with
        | error e => rfl
        | ok y => rfl)
    rw [Nat.cast_succ] at this
    rw [this]
    congr 1
    funext a
    simp [Nat.mul_comm]
  unfold convolveSameSizeC convolveSameSize
  have key := forRangeC_exact (body := fun (j : Int) (dest : List F) => do
    let acc ← forRange 0 (j + 1) (zero : F) fun k acc => do
      let x ← rd src0 (o0 + k)
      let y ← rd src1 (o1 + (j - k))
      .ok (acc +ᶠ x *ᶠ y)
    wr dest (od + j) acc) (bodyC := fun (j : Int) (dest : List F) => do
    let acc ← forRangeC 0 (j + 1) (zero : F) fun k acc => do
      let x ← rdC src0 (o0 + k)
      let y ← rdC src1 (o1 + (j - k))
      charge 2 (.ok (acc +ᶠ x *ᶠ y))
    wrC dest (od + j) acc) (fun j => 4 * (j + 1) + 1) m dest 0 (fun j d t hj => by
    show ((forRangeC 0 ((j : Int) + 1) (zero : F) fun k acc => do
        let x ← rdC src0 (o0 + k)
        let y ← rdC src1 (o1 + ((j : Int) - k))
        charge 2 (.ok (acc +ᶠ x *ᶠ y))) t >>= fun p => charge 1 (wr d (od + j) p.1) p.2) = _
    rw [inner]
    cases (forRange 0 ((j : Int) + 1) (zero : F) fun k acc => do
        let x ← rd src0 (o0 + k)
        let y ← rd src1 (o1 + ((j : Int) - k))
        .ok (acc +ᶠ x *ᶠ y)) with
    | error e => rfl
    | ok acc =>
      show charge 1 (wr d (od + j) acc) (t + 4 * (j + 1)) = (wr d (od + j) acc).map _
      cases wr d (od + j) acc with
      | error e => rfl
      | ok r => rfl)
  refine key.trans ?_
  congr 1
  funext a
  have : ∀ m, ∑ j ∈ Finset.range m, (4 * (j + 1) + 1) = 2 * m * (m + 1) + m := by
    intro m
    induction m with
    | zero => rfl
    | succ m ih => rw [Finset.sum_range_succ, ih]; ring
  rw [this, Nat.zero_add]

/-! ## The algorithms -/

/-- C42: `ecdf2` with direct convolutions takes `O(n³)` steps, plus sorting `2n` numbers: for all inputs, valid or not. -/
theorem C42_ecdf2_direct (pr : Prices) (env : Env F) {sort : List (Bound F) → List (Bound F)} (hperm : ∀ l, (sort l).Perm l)
    (b B : List F) :
    Within (ecdf2C pr env sort b B false) (ecdf2 env sort b B false) (100 * (b.length + 1) ^ 3 + pr.sort (2 * b.length)) := by
  refine Cost.final (Q := fun _ => True) ((ecdf2_cost pr env hperm b B false ((b.length + 1) * (4 * (b.length + 1) + 1) + 1)
    fun m hm => ?_).le (direct_bound _ _))
  rw [if_neg (by simp)]
  exact Nat.add_le_add_right (Nat.mul_le_mul hm (by omega)) 1

/-- C42: `ecdf2` with FFT takes `O(n² log n)` steps, plus sorting `2n` numbers. -/
theorem C42_ecdf2_fft (pr : Prices) {κ : Nat} (hpr : FftPrice pr κ) (env : Env F) {sort : List (Bound F) → List (Bound F)}
    (hperm : ∀ l, (sort l).Perm l) (b B : List F) :
    Within (ecdf2C pr env sort b B true) (ecdf2 env sort b B true)
      ((1296 * κ + 1200) * ((b.length + 1) ^ 2 * (Nat.log 2 (b.length + 1) + 1)) + pr.sort (2 * b.length)) := by
  refine Cost.final (Q := fun _ => True) ((ecdf2_cost pr env hperm b B true _ fun m hm => ?_).le (fft_bound b.length κ _))
  rw [if_pos rfl]
  exact convCost_le hpr hm (by omega)

/-- C42: the one-sided algorithm `ecdf1_new_B` takes `O(n²)` steps. -/
theorem C42_new_B (pr : Prices) {κ : Nat} (hpr : FftPrice pr κ) (env : Env F) (B : List F) :
    Within (ecdf1NewBC pr env Nat.sqrt B) (ecdf1NewB env Nat.sqrt B) ((5200 * κ + 4400) * (B.length + 1) ^ 2) :=
  Cost.final (Q := fun _ => True) ((ecdf1NewB_cost pr env Nat.sqrt B _ _ (fun m hm => convCost_le hpr hm (by omega))
    fun m hm => convCost_le hpr hm (by omega)).le ((by gcongr <;> omega : _ ≤ _).trans (new_bound B.length κ)))

/-- C42: `ecdf1_new_b` takes `O(n²)` steps. -/
theorem C42_new_b (pr : Prices) {κ : Nat} (hpr : FftPrice pr κ) (env : Env F) (b : List F) :
    Within (ecdf1NewbC pr env Nat.sqrt b) (ecdf1Newb env Nat.sqrt b) ((5200 * κ + 4400) * (b.length + 1) ^ 2) :=
  Cost.final (Q := fun _ => True) ((ecdf1Newb_cost pr env Nat.sqrt b _ _ (fun m hm => convCost_le hpr hm (by omega))
    fun m hm => convCost_le hpr hm (by omega)).le (new_bound b.length κ))

/-- C42: `ecdf1_mns2016_b` takes `O(n²)` steps. -/
theorem C42_mns_b (env : Env F) (b : List F) :
    Within (ecdf1Mns2016bC env b) (ecdf1Mns2016b env b) (60 * (b.length + 1) ^ 2) :=
  Cost.final (Q := fun _ => True) (mns_cost env (fun _ x => frexpExp x) b)

/-- C42: `ecdf1_mns2016_B` takes `O(n²)` steps. -/
theorem C42_mns_B (env : Env F) (B : List F) :
    Within (ecdf1Mns2016BC env B) (ecdf1Mns2016B env B) (70 * (B.length + 1) ^ 2) :=
  Cost.final (Q := fun _ => True) (mnsB_cost env B)

/-- The price assumption can be met by a transform that costs something. -/
example : FftPrice ⟨fun N => 5 * N * (Nat.log 2 N + 1), fun N => N, fun m => m * Nat.log 2 m⟩ 5 := by
  intro N
  refine ⟨le_of_eq (by ring), ?_⟩
  have : N * 1 ≤ N * (Nat.log 2 N + 1) := Nat.mul_le_mul_left _ (by omega)
  show N ≤ _
  omega

/-- A counted convolution of two elements: three products, thirteen array and arithmetic steps and one more. -/
example (a b c d : F) :
    (convolveSameSizeC 2 [a, b] 0 [c, d] 0 [zero, zero] 0) 0 =
      .ok ([zero +ᶠ a *ᶠ c, (zero +ᶠ a *ᶠ d) +ᶠ b *ᶠ c], 14) := rfl

end CP.Props
