import Verif.FastMathSpec
/-
The compiled code that follows the source to the letter computes what the model of the source computes.
-/
namespace CP
open FOps Spec
variable {F : Type} [FOps F]

/-- Whenever `m` returns, `m'` returns the same. -/
def Ret {α : Type} (m m' : M α) : Prop := ∀ x, m = .ok x → m' = .ok x

theorem Ret.refl {α : Type} (m : M α) : Ret m m := fun _ h => h

theorem Ret.bind {α β : Type} {m m' : M α} {f g : α → M β} (h : Ret m m') (hf : ∀ x, Ret (f x) (g x)) : Ret (m >>= f) (m' >>= g) := by
  intro y hy
  cases hm : m with
  | error e => rw [hm] at hy; cases hy
  | ok x =>
    rw [hm] at hy
    rw [h x hm]
    exact hf x y hy

theorem Ret.forAux {σ : Type} {f g : Int → σ → M σ} (k : Nat) : ∀ (i : Int) (s : σ), (∀ j s, i ≤ j → Ret (f j s) (g j s)) →
    Ret (forAux f k i s) (forAux g k i s) := by
  induction k with
  | zero => intro i s _; exact Ret.refl _
  | succ k ih =>
    intro i s h
    unfold CP.forAux
    exact (h i s le_rfl).bind fun s' => ih (i + 1) s' fun j s h1 => h j s (by omega)

theorem rd_ok {α : Type} {a : List α} {i : Int} {x : α} (h : rd a i = .ok x) : 0 ≤ i ∧ a[i.toNat]? = some x := by
  unfold rd at h
  by_cases h0 : 0 ≤ i
  · rw [if_pos h0] at h
    cases e : a[i.toNat]? with
    | none => rw [e] at h; cases h
    | some y => rw [e] at h; cases h; exact ⟨h0, rfl⟩
  · rw [if_neg h0] at h; cases h

theorem terms_strict (j : ℕ) : (strictSum j).terms = List.range (j + 1) := by
  induction j with
  | zero => rfl
  | succ j ih => rw [List.range_succ, ← ih]; rfl

theorem height_strict (j : ℕ) : (strictSum j).height = j + 2 := by
  induction j with
  | zero => rfl
  | succ j ih => simp only [strictSum, SumTree.height, ih]; omega

/-- The inner loop of the source, run for `k` further iterations. -/
theorem strict_inner {src0 src1 : List F} {o0 o1 j : Int} (k : ℕ) : ∀ (i : ℕ) (acc r : F),
    forAux (fun k acc => do
      let x ← rd src0 (o0 + k)
      let y ← rd src1 (o1 + (j - k))
      .ok (acc +ᶠ x *ᶠ y)) k i acc = .ok r →
    (∀ l : ℕ, i ≤ l → l < i + k → (0 ≤ o0 + l ∧ (o0 + l).toNat < src0.length ∧ 0 ≤ o1 + (j - l) ∧ (o1 + (j - l)).toNat < src1.length)) ∧
    r = (List.range' i k).foldl (fun acc (l : ℕ) => acc +ᶠ src0.getD (o0 + l).toNat zero *ᶠ src1.getD (o1 + (j - l)).toNat zero) acc := by
  induction k with
  | zero =>
    intro i acc r h
    cases h
    exact ⟨fun l _ _ => by omega, rfl⟩
  | succ k ih =>
    intro i acc r h
    unfold forAux at h
    cases hx : rd src0 (o0 + i) with
    | error e => simp only [hx, bind, Except.bind] at h; cases h
    | ok x =>
      cases hy : rd src1 (o1 + (j - i)) with
      | error e => simp only [hx, hy, bind, Except.bind] at h; cases h
      | ok y =>
        obtain ⟨x0, x1⟩ := rd_ok hx
        obtain ⟨y0, y1⟩ := rd_ok hy
        simp only [hx, hy, bind, Except.bind] at h
        obtain ⟨h1, h2⟩ := ih (i + 1) _ r h
        refine ⟨fun l hl1 hl2 => ?_, ?_⟩
        · rcases hl1.eq_or_lt with e | e
          · subst e
            exact ⟨x0, (List.getElem?_eq_some_iff.mp x1).1, y0, (List.getElem?_eq_some_iff.mp y1).1⟩
          · exact h1 l e (by omega)
        · rw [h2, List.range'_succ, List.foldl_cons]
          rw [List.getD_eq_getElem?_getD, x1, List.getD_eq_getElem?_getD, y1]
          rfl

theorem strict_eval (fma : F → F → F → F) (x y : ℕ → F) (j : ℕ) :
    (strictSum j).eval fma x y = (List.range (j + 1)).foldl (fun acc l => acc +ᶠ x l *ᶠ y l) zero := by
  induction j with
  | zero => rfl
  | succ j ih =>
    rw [List.range_succ, List.foldl_append, ← ih]
    rfl

theorem rdBlock_of {α : Type} {a : List α} {off : Int} {j : ℕ} (h0 : 0 ≤ off) (h1 : (off + j).toNat < a.length) :
    rdBlock a off (j + 1) = .ok ((a.drop off.toNat).take (j + 1)) := by
  unfold rdBlock
  rw [if_pos ⟨h0, by omega, by omega⟩]
  have : ((j : Int) + 1).toNat = j + 1 := by omega
  rw [this]

theorem convolveSameSize_strict (fma : F → F → F → F) (site : ℕ) (size : Int) (src0 : List F) (o0 : Int) (src1 : List F) (o1 : Int)
    (dest : List F) (od : Int) : Ret (convolveSameSize size src0 o0 src1 o1 dest od)
      (convolveSameSizeFast (strictCode fma) site size src0 o0 src1 o1 dest od) := by
  unfold convolveSameSize convolveSameSizeFast forRange
  refine Ret.forAux _ _ _ fun j dest hj r hr => ?_
  obtain ⟨j, rfl⟩ := Int.eq_ofNat_of_zero_le hj
  beta_reduce at hr ⊢
  cases ha : forAux (fun k acc => do
      let x ← rd src0 (o0 + k)
      let y ← rd src1 (o1 + ((j : Int) - k))
      .ok (acc +ᶠ x *ᶠ y)) ((j : Int) + 1 - 0).toNat 0 (zero : F) with
  | error e => rw [ha] at hr; cases hr
  | ok acc =>
    rw [ha] at hr
    have e1 : ((j : Int) + 1 - 0).toNat = j + 1 := by omega
    rw [e1] at ha
    obtain ⟨h1, h2⟩ := strict_inner (j + 1) 0 _ acc ha
    have hz := h1 0 le_rfl (by omega)
    have hl := h1 j (by omega) (by omega)
    have h3 : rdBlock src0 o0 ((j : Int) + 1) = _ := rdBlock_of (by have := hz.1; push_cast at this; omega) hl.2.1
    have h4 : rdBlock src1 o1 ((j : Int) + 1) = _ := rdBlock_of (by have := hl.2.2.1; omega)
      (by have := hz.2.2.2; push_cast at this; rwa [sub_zero] at this)
    simp only [h3, h4, bind, Except.bind]
    have e2 : (strictCode fma).sum site (Int.toNat (j : Int)) = strictSum j := rfl
    rw [e2, strict_eval]
    rw [show (List.range' 0 (j + 1)) = List.range (j + 1) from (List.range_eq_range' (n := j + 1)).symm] at h2
    rw [← hr, h2]
    change wr _ _ _ = wr _ _ _
    congr 1
    refine List.foldl_ext _ _ _ fun acc l hl' => ?_
    have hl2 : l < j + 1 := List.mem_range.mp hl'
    have o0' : 0 ≤ o0 := by have := hz.1; push_cast at this; omega
    have o1' : 0 ≤ o1 := by have := hl.2.2.1; omega
    congr 2
    · rw [List.getD_eq_getElem?_getD, List.getD_eq_getElem?_getD, List.getElem?_take, if_pos hl2, List.getElem?_drop]
      congr 2
      omega
    · rw [List.getD_eq_getElem?_getD, List.getD_eq_getElem?_getD, List.getElem?_take, if_pos (by omega), List.getElem?_drop]
      congr 2
      simp only [Int.toNat_natCast]
      omega

theorem computeArray_strict (fma : F → F → F → F) (site : ℕ) (env : Env F) (g : PmfGen F) (k : Int) (lambda : F) :
    computeArrayFast (strictCode fma) site env g k lambda = g.computeArray env k lambda := rfl

theorem ncConvolve_strict (fma : F → F → F → F) (site : ℕ) (env : Env F) (useFft : Bool) (conv : Convolver F) (curSize : Int)
    (pmf : List F) (src : List F) (oS : Int) (dest : List F) (oD : Int) :
    Ret (ncConvolve env useFft conv curSize pmf src oS dest oD)
      (ncConvolveFast (strictCode fma) site env useFft conv curSize pmf src oS dest oD) := by
  unfold ncConvolve ncConvolveFast
  cases useFft with
  | false =>
    simp only [Bool.false_eq_true, if_false]
    exact (convolveSameSize_strict fma site _ _ _ _ _ _ _).bind fun _ => Ret.refl _
  | true =>
    simp only [if_true]
    unfold Convolver.convolve convolveFast
    split
    · exact Ret.refl _
    split
    · exact Ret.refl _
    split
    · exact (convolveSameSize_strict fma site _ _ _ _ _ _ _).bind fun _ => Ret.refl _
    · exact Ret.refl _

theorem ncStep_strict (fma : F → F → F → F) (env : Env F) (intensity : F) (useFft : Bool) (s : NCState F) (bd : Bound F) (i : ℕ) :
    Ret (ncStep env intensity useFft s bd) (ncStepFast (strictCode fma) env intensity useFft s (bd, i)) := by
  unfold ncStep ncStepFast
  dsimp only
  split
  · refine (Ret.refl _).bind fun g => (Ret.refl _).bind fun oS => (Ret.refl _).bind fun oD =>
      (ncConvolve_strict fma _ _ _ _ _ _ _ _ _ _).bind fun r => Ret.refl _
  · exact Ret.refl _

theorem ncFold_strict (fma : F → F → F → F) (env : Env F) (intensity : F) (useFft : Bool) (l : List (Bound F)) :
    ∀ (i : ℕ) (s : NCState F), Ret (l.foldlM (ncStep env intensity useFft) s)
      ((l.zipIdx i).foldlM (ncStepFast (strictCode fma) env intensity useFft) s) := by
  induction l with
  | nil => intro i s; exact Ret.refl _
  | cons b l ih =>
    intro i s
    rw [List.zipIdx_cons, List.foldlM_cons, List.foldlM_cons]
    exact (ncStep_strict fma env intensity useFft s b i).bind fun s' => ih (i + 1) s'

theorem ecdf2_strict (fma : F → F → F → F) (env : Env F) (sort : List (Bound F) → List (Bound F)) (b B : List F) (useFft : Bool) :
    Ret (ecdf2 env sort b B useFft) (ecdf2Fast (strictCode fma) env sort b B useFft) := by
  unfold ecdf2 ecdf2Fast
  refine (Ret.refl _).bind fun _ => (Ret.refl _).bind fun _ => ?_
  refine Ret.bind ?_ fun probs => (Ret.refl _).bind fun x => ?_
  · unfold poissonProcessNoncrossingProbability noncrossingFast
    exact (Ret.refl _).bind fun src => (Ret.refl _).bind fun g => (ncFold_strict fma _ _ _ _ 0 _).bind fun s => Ret.refl _
  · unfold poissonPmf quotFast
    intro y hy
    rw [← hy]
    cases assertC env.asserts (decide (0 ≤ (b.length : Int))) "k >= 0" with
    | error e => rfl
    | ok u =>
      cases assertC env.asserts (ge (ofInt (b.length : Int) : F) zero) "lambda >= 0.0" with
      | error e => rfl
      | ok u =>
        simp only [bind, Except.bind]
        split
        · rfl
        · rfl

end CP
