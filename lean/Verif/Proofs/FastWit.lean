import Verif.Proofs.FastStrict
import Verif.Proofs.IeeeWit
/-! The assumptions about compiled code are satisfiable by code that differs from the source: two accumulators, fused multiply-add, a
rearranged product of spectra, a multiplication by the reciprocal. -/
namespace CP.Spec
open FOps
variable {F : Type} [FOps F]

/-- One accumulator fed by fused multiply-adds. -/
def lane (l : List ℕ) : SumTree := l.foldr SumTree.fma .zero

theorem lane_terms (l : List ℕ) : (lane l).terms = l := by
  induction l with
  | nil => rfl
  | cons k l ih => rw [← ih]; simp only [lane, List.foldr_cons, SumTree.terms] at ih ⊢; rw [ih, ih]

theorem lane_height (l : List ℕ) : (lane l).height = l.length := by
  induction l with
  | nil => rfl
  | cons k l ih => simp only [lane, List.foldr_cons, SumTree.height, List.length_cons] at ih ⊢; rw [ih]

/-- Two accumulators (even and odd terms) and fused multiply-add everywhere. -/
def twoLanes (fma : F → F → F → F) : FastCode F where
  fma := fma
  sum := fun _ j => .add (lane ((List.range (j + 1)).filter fun k => k % 2 = 0)) (lane ((List.range (j + 1)).filter fun k => ¬ k % 2 = 0))
  exponent := fun _ _ => .sub (.fma (.neg .lambda)) .lgamma
  exp := fun _ _ => FOps.exp
  product := fun _ i => if i % 2 = 0 then (.factored .snd, .terms .scaleFst .scaleFst .fst) else (.terms .scaleProd .scaleSnd .snd, .factored .none)
  quot := .recip

theorem twoLanes_legal (fma : F → F → F → F) : FastCode.Legal (twoLanes fma) 0 where
  sum := by
    intro site j
    show (SumTree.add _ _).terms.Perm _
    rw [SumTree.terms, lane_terms, lane_terms]
    have := List.filter_append_perm (fun k => decide (k % 2 = 0)) (List.range (j + 1))
    simpa only [decide_not] using this
  height := by
    intro site j
    show (SumTree.add _ _).height ≤ _
    rw [SumTree.height, lane_height, lane_height]
    have h1 := List.length_filter_le (fun k => decide (k % 2 = 0)) (List.range (j + 1))
    have h2 := List.length_filter_le (fun k => decide (¬ k % 2 = 0)) (List.range (j + 1))
    rw [List.length_range] at h1 h2
    omega
  coeffs := fun _ _ => rfl
  uses := fun _ _ => rfl

theorem strict_legal (fma : F → F → F → F) : FastCode.Legal (strictCode fma) 0 where
  sum := fun _ j => by show (strictSum j).terms.Perm _; rw [terms_strict]
  height := fun _ j => by show (strictSum j).height ≤ _; rw [height_strict]
  coeffs := fun _ _ => rfl
  uses := fun _ _ => rfl

noncomputable section

/-- A correctly rounded fused multiply-add. -/
def exactFma (A : FloatSystem) (x y z : Num A) : Num A := roundNum A (x.val * y.val + z.val)

theorem fastIeee_of {A : FloatSystem} {u : ℝ} {n : ℕ} (hL : LibmAccurate A u n) {c : FastCode (Num A)} (h1 : c.fma = exactFma A)
    (h2 : c.exp = fun _ _ => FOps.exp) : FastIeee A u c where
  fma := fun _ _ _ _ _ _ => by rw [h1]; rfl
  exp := by
    intro site k x h hx
    obtain ⟨v, h', e, h3⟩ := hL.exp x h hx
    refine ⟨v, h', ?_, h3⟩
    rw [h2]
    exact e

end
end CP.Spec
