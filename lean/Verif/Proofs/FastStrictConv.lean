import Verif.Proofs.FastStrict
/-
The model of the source returns whatever the compiled code that follows the source to the letter returns.
-/
namespace CP
open FOps Spec
variable {F : Type} [FOps F]

theorem rd_of {α : Type} {a : List α} {i : Int} (h0 : 0 ≤ i) (h1 : i.toNat < a.length) (d : α) : rd a i = .ok (a.getD i.toNat d) := by
  unfold rd
  rw [if_pos h0, List.getElem?_eq_getElem h1, List.getD_eq_getElem?_getD, List.getElem?_eq_getElem h1]
  rfl

theorem rdBlock_ok {α : Type} {a : List α} {off : Int} {j : ℕ} {l : List α} (h : rdBlock a off ((j : Int) + 1) = .ok l) :
    0 ≤ off ∧ (off + j).toNat < a.length ∧ l = (a.drop off.toNat).take (j + 1) := by
  unfold rdBlock at h
  split at h
  · rename_i hc
    cases h
    obtain ⟨h1, h2, h3⟩ := hc
    refine ⟨h1, by omega, ?_⟩
    have : ((j : Int) + 1).toNat = j + 1 := by omega
    rw [this]
  · cases h

/-- The inner loop of the source returns when all its indices are in bounds. -/
theorem inner_ok {src0 src1 : List F} {o0 o1 j : Int} (k : ℕ) : ∀ (i : ℕ) (acc : F),
    (∀ l : ℕ, i ≤ l → l < i + k → (0 ≤ o0 + l ∧ (o0 + l).toNat < src0.length ∧ 0 ≤ o1 + (j - l) ∧ (o1 + (j - l)).toNat < src1.length)) →
    ∃ r, forAux (fun k acc => do
      let x ← rd src0 (o0 + k)
      let y ← rd src1 (o1 + (j - k))
      .ok (acc +ᶠ x *ᶠ y)) k i acc = .ok r := by
  induction k with
  | zero => intro i acc _; exact ⟨acc, rfl⟩
  | succ k ih =>
    intro i acc h
    obtain ⟨a, b, c, d⟩ := h i le_rfl (by omega)
    unfold forAux
    simp only [rd_of a b (zero : F), rd_of c d (zero : F), bind, Except.bind]
    exact ih (i + 1) _ fun l h1 h2 => h l (by omega) (by omega)

theorem convolveSameSize_strict_conv (fma : F → F → F → F) (site : ℕ) (size : Int) (src0 : List F) (o0 : Int) (src1 : List F) (o1 : Int)
    (dest : List F) (od : Int) : Ret (convolveSameSizeFast (strictCode fma) site size src0 o0 src1 o1 dest od)
      (convolveSameSize size src0 o0 src1 o1 dest od) := by
  unfold convolveSameSize convolveSameSizeFast forRange
  refine Ret.forAux _ _ _ fun j dest hj r hr => ?_
  obtain ⟨j, rfl⟩ := Int.eq_ofNat_of_zero_le hj
  cases h3 : rdBlock src0 o0 ((j : Int) + 1) with
  | error e => rw [h3] at hr; cases hr
  | ok l0 =>
  cases h4 : rdBlock src1 o1 ((j : Int) + 1) with
  | error e => rw [h3, h4] at hr; cases hr
  | ok l1 =>
  obtain ⟨a0, a1, a2⟩ := rdBlock_ok h3
  obtain ⟨b0, b1, b2⟩ := rdBlock_ok h4
  obtain ⟨acc, ha⟩ := inner_ok (src0 := src0) (src1 := src1) (o0 := o0) (o1 := o1) (j := (j : Int)) (j + 1) 0 zero
    (fun l h1 h2 => ⟨by omega, by omega, by omega, by omega⟩)
  obtain ⟨-, h2⟩ := strict_inner (j + 1) 0 _ acc ha
  have e1 : ((j : Int) + 1 - 0).toNat = j + 1 := by omega
  rw [e1]
  rw [show ((0 : ℕ) : Int) = 0 from rfl] at ha
  rw [ha]
  simp only [h3, h4, bind, Except.bind] at hr ⊢
  have e2 : (strictCode fma).sum site (Int.toNat (j : Int)) = strictSum j := rfl
  rw [e2, strict_eval] at hr
  rw [show (List.range' 0 (j + 1)) = List.range (j + 1) from (List.range_eq_range' (n := j + 1)).symm] at h2
  rw [← hr, h2]
  change wr _ _ _ = wr _ _ _
  congr 1
  subst a2 b2
  refine List.foldl_ext _ _ _ fun acc l hl' => ?_
  have hl2 : l < j + 1 := List.mem_range.mp hl'
  congr 2
  · rw [List.getD_eq_getElem?_getD, List.getD_eq_getElem?_getD, List.getElem?_take, if_pos hl2, List.getElem?_drop]
    congr 2
    omega
  · rw [List.getD_eq_getElem?_getD, List.getD_eq_getElem?_getD, List.getElem?_take, if_pos (by omega), List.getElem?_drop]
    congr 2
    simp only [Int.toNat_natCast]
    omega

theorem ncConvolve_strict_conv (fma : F → F → F → F) (site : ℕ) (env : Env F) (useFft : Bool) (conv : Convolver F) (curSize : Int)
    (pmf : List F) (src : List F) (oS : Int) (dest : List F) (oD : Int) :
    Ret (ncConvolveFast (strictCode fma) site env useFft conv curSize pmf src oS dest oD)
      (ncConvolve env useFft conv curSize pmf src oS dest oD) := by
  unfold ncConvolve ncConvolveFast
  cases useFft with
  | false =>
    simp only [Bool.false_eq_true, if_false]
    exact (convolveSameSize_strict_conv fma site _ _ _ _ _ _ _).bind fun _ => Ret.refl _
  | true =>
    simp only [if_true]
    unfold Convolver.convolve convolveFast
    split
    · exact Ret.refl _
    split
    · exact Ret.refl _
    split
    · exact (convolveSameSize_strict_conv fma site _ _ _ _ _ _ _).bind fun _ => Ret.refl _
    · exact Ret.refl _

theorem ncStep_strict_conv (fma : F → F → F → F) (env : Env F) (intensity : F) (useFft : Bool) (s : NCState F) (bd : Bound F) (i : ℕ) :
    Ret (ncStepFast (strictCode fma) env intensity useFft s (bd, i)) (ncStep env intensity useFft s bd) := by
  unfold ncStep ncStepFast
  dsimp only
  split
  · refine (Ret.refl _).bind fun g => (Ret.refl _).bind fun oS => (Ret.refl _).bind fun oD =>
      (ncConvolve_strict_conv fma _ _ _ _ _ _ _ _ _ _).bind fun r => Ret.refl _
  · exact Ret.refl _

theorem ncFold_strict_conv (fma : F → F → F → F) (env : Env F) (intensity : F) (useFft : Bool) (l : List (Bound F)) :
    ∀ (i : ℕ) (s : NCState F), Ret ((l.zipIdx i).foldlM (ncStepFast (strictCode fma) env intensity useFft) s)
      (l.foldlM (ncStep env intensity useFft) s) := by
  induction l with
  | nil => intro i s; exact Ret.refl _
  | cons b l ih =>
    intro i s
    rw [List.zipIdx_cons, List.foldlM_cons, List.foldlM_cons]
    exact (ncStep_strict_conv fma env intensity useFft s b i).bind fun s' => ih (i + 1) s'

theorem ecdf2_strict_conv (fma : F → F → F → F) (env : Env F) (sort : List (Bound F) → List (Bound F)) (b B : List F) (useFft : Bool) :
    Ret (ecdf2Fast (strictCode fma) env sort b B useFft) (ecdf2 env sort b B useFft) := by
  unfold ecdf2 ecdf2Fast
  refine (Ret.refl _).bind fun _ => (Ret.refl _).bind fun _ => ?_
  refine Ret.bind ?_ fun probs => (Ret.refl _).bind fun x => ?_
  · unfold poissonProcessNoncrossingProbability noncrossingFast
    exact (Ret.refl _).bind fun src => (Ret.refl _).bind fun g => (ncFold_strict_conv fma _ _ _ _ 0 _).bind fun s => Ret.refl _
  · unfold poissonPmf quotFast
    intro y hy
    rw [← hy]
    cases assertC env.asserts (decide (0 ≤ (b.length : Int))) "k >= 0" with
    | error e => rfl
    | ok u =>
      cases assertC env.asserts (ge (ofInt (b.length : Int) : F) zero) "lambda >= 0.0" with
      | error e => rfl
      | ok u =>
        simp only [bind, Except.bind]
        symm
        split
        · rfl
        · rfl

end CP
