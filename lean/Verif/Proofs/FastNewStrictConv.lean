import Verif.Proofs.FastNewStrict
import Verif.Proofs.FastStrictConv
/-
`ecdf1_new`: the model of the source returns whatever the compiled code that follows the source to the letter returns.
-/
namespace CP
open FOps Spec
variable {F : Type} [FOps F]

theorem convolve_strict_conv (fma : F → F → F → F) (site : ℕ) (env : Env F) (conv : Convolver F) (size : Int)
    (pmf : List F) (src : List F) (oS : Int) (dest : List F) (oD : Int) :
    Ret (ncConvolveFast (strictCode fma) site env true conv size pmf src oS dest oD) (conv.convolve env size pmf 0 src oS dest oD) := by
  have h := ncConvolve_strict_conv fma site env true conv size pmf src oS dest oD
  unfold ncConvolve at h
  simp only [if_true] at h
  exact h

theorem miniStep_strict_conv (fma : F → F → F → F) (env : Env F) (n : Int) (intensity : F) (B : List F) (Iprev I i : Int) (s : MiniState F) :
    Ret (miniStepFast (strictCodeNew fma) env n intensity B Iprev I i s) (miniStep env n intensity B Iprev I i s) := by
  unfold miniStep miniStepFast
  refine (Ret.refl _).bind fun Bi => (Ret.refl _).bind fun g => (Ret.refl _).bind fun oS => (Ret.refl _).bind fun oD =>
    (convolve_strict_conv fma _ _ _ _ _ _ _ _ _).bind fun r => ?_
  exact Ret.refl _

theorem blockStep_strict_conv (fma : F → F → F → F) (env : Env F) (n : Int) (intensity : F) (B : List F) (I : Int) (s : BlockState F) :
    Ret (blockStepFast (strictCodeNew fma) env n intensity B I s) (blockStep env n intensity B I s) := by
  unfold blockStep blockStepFast
  refine (Ret.refl _).bind fun BI => (Ret.refl _).bind fun g => (Ret.refl _).bind fun oS =>
    (convolve_strict_conv fma _ _ _ _ _ _ _ _ _).bind fun r => ?_
  refine (Ret.refl _).bind fun _ => (Ret.refl _).bind fun _ => (Ret.refl _).bind fun dest => (Ret.refl _).bind fun xs =>
    (Ret.refl _).bind fun dest => (Ret.refl _).bind fun _ => (Ret.refl _).bind fun _ => (Ret.refl _).bind fun ys =>
    (Ret.refl _).bind fun ms => Ret.bind ?_ fun m => Ret.refl _
  exact Ret.forAux _ _ _ fun j s _ => miniStep_strict_conv fma env n intensity B _ I j s

theorem blockLoop_strict_conv (fma : F → F → F → F) (env : Env F) (n : Int) (intensity : F) (B : List F) (jumpSize nSteps : Int) (fuel : ℕ) :
    ∀ (I : Int) (s : BlockState F), Ret (blockLoopFast (strictCodeNew fma) env n intensity B jumpSize nSteps fuel I s)
      (blockLoop env n intensity B jumpSize nSteps fuel I s) := by
  induction fuel with
  | zero => intro I s; exact Ret.refl _
  | succ fuel ih =>
    intro I s
    unfold blockLoop blockLoopFast
    refine (blockStep_strict_conv fma env n intensity B I s).bind fun s' => ?_
    split
    · exact Ret.refl _
    · exact ih _ _

theorem ecdf1NewB_strict_conv (fma : F → F → F → F) (env : Env F) (isqrt : ℕ → ℕ) (B : List F) :
    Ret (ecdf1NewBFast (strictCodeNew fma) env isqrt B) (ecdf1NewB env isqrt B) := by
  unfold ecdf1NewB ecdf1NewBFast
  refine (Ret.refl _).bind fun _ => Ret.bind ?_ fun probs => (Ret.refl _).bind fun x => ?_
  · unfold poissonBNoncrossingProbabilityN2 poissonBNoncrossingProbabilityN2Fast
    refine (Ret.refl _).bind fun _ => (Ret.refl _).bind fun src => (Ret.refl _).bind fun g =>
      (blockLoop_strict_conv fma env _ _ B _ _ _ _ _).bind fun s => (Ret.refl _).bind fun g => (Ret.refl _).bind fun oS =>
      (Ret.refl _).bind fun oD => (convolve_strict_conv fma _ _ _ _ _ _ _ _ _).bind fun r => Ret.refl _
  · unfold poissonPmf quotFast
    intro y hy
    rw [← hy]
    cases assertC env.asserts (decide (0 ≤ (B.length : Int))) "k >= 0" with
    | error e => rfl
    | ok u =>
      cases assertC env.asserts (ge (ofInt (B.length : Int) : F) zero) "lambda >= 0.0" with
      | error e => rfl
      | ok u =>
        simp only [bind, Except.bind]
        symm
        split
        · rfl
        · rfl

theorem ecdf1Newb_strict_conv (fma : F → F → F → F) (env : Env F) (isqrt : ℕ → ℕ) (b : List F) :
    Ret (ecdf1NewbFast (strictCodeNew fma) env isqrt b) (ecdf1Newb env isqrt b) := by
  unfold ecdf1Newb ecdf1NewbFast
  exact (Ret.refl _).bind fun _ => (Ret.refl _).bind fun st => ecdf1NewB_strict_conv fma env isqrt st

end CP
