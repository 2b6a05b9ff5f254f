import Verif.Model.Mns2016
import Verif.Model.Ecdf2
import Verif.Model.Ecdf1New
import Verif.Proofs.Hoare
/-
Assertions are pure: compiling them in can only turn a run into an assertion failure.
-/
namespace CP
variable {F : Type} [FOps F] {α β σ : Type}

/-- `m` is the same computation as `m0`, or stops with a failed assertion. -/
def Erases (m m0 : M α) : Prop := m = m0 ∨ ∃ msg, m = .error (.assertFailed msg)

/-- The same environment with assertions compiled out (`-DNDEBUG`). -/
def Env.noAsserts (env : Env F) : Env F := { env with asserts := false }

namespace Erases

theorem refl (m : M α) : Erases m m := Or.inl rfl

theorem bnd {m m0 : M α} {f f0 : α → M β} (h : Erases m m0) (hf : ∀ a, Erases (f a) (f0 a)) :
    Erases (m >>= f) (m0 >>= f0) := by
  rcases h with rfl | ⟨msg, rfl⟩
  · cases m with
    | ok a => exact hf a
    | error e => exact Or.inl rfl
  · exact Or.inr ⟨msg, rfl⟩

theorem bnd' {m : M α} {f f0 : α → M β} (hf : ∀ a, Erases (f a) (f0 a)) :
    Erases (m >>= f) (m >>= f0) := bnd (refl m) hf

theorem asr (e c : Bool) (w : String) : Erases (CP.assertC e c w) (CP.assertC false c w) := by
  unfold CP.assertC
  by_cases h : (e && !c) = true
  · rw [if_pos h]; exact Or.inr ⟨w, rfl⟩
  · rw [if_neg h]; exact Or.inl (by simp)

theorem ite {p : Prop} [Decidable p] {a a0 b b0 : M α} (h1 : Erases a a0) (h2 : Erases b b0) :
    Erases (if p then a else b) (if p then a0 else b0) := by
  by_cases h : p
  · rw [if_pos h, if_pos h]; exact h1
  · rw [if_neg h, if_neg h]; exact h2

theorem forAux {body body0 : Int → σ → M σ} (h : ∀ i s, Erases (body i s) (body0 i s)) :
    ∀ k i s, Erases (CP.forAux body k i s) (CP.forAux body0 k i s) := by
  intro k
  induction k with
  | zero => intro i s; exact refl _
  | succ k ih => intro i s; exact bnd (h i s) fun s' => ih _ _

theorem forRange {lo hi : Int} {s : σ} {body body0 : Int → σ → M σ} (h : ∀ i s, Erases (body i s) (body0 i s)) :
    Erases (CP.forRange lo hi s body) (CP.forRange lo hi s body0) := forAux h _ _ _

theorem foldlM {γ : Type} {f f0 : σ → γ → M σ} (h : ∀ s c, Erases (f s c) (f0 s c)) (l : List γ) :
    ∀ s, Erases (l.foldlM f s) (l.foldlM f0 s) := by
  induction l with
  | nil => intro s; exact refl _
  | cons c l ih => intro s; rw [List.foldlM_cons, List.foldlM_cons]; exact bnd (h s c) fun s' => ih s'

end Erases

theorem poissonPmf_erase (env : Env F) (lambda : F) (k : Int) :
    Erases (poissonPmf env lambda k) (poissonPmf env.noAsserts lambda k) := by
  unfold poissonPmf
  exact Erases.bnd (Erases.asr _ _ _) fun _ => Erases.bnd (Erases.asr _ _ _) fun _ => Erases.refl _

theorem pmfNew_erase (env : Env F) (k : Int) : Erases (PmfGen.new env k) (PmfGen.new env.noAsserts k) := by
  unfold PmfGen.new
  exact Erases.bnd (Erases.asr _ _ _) fun _ => Erases.refl _

theorem evaluatePmf_erase (env : Env F) (g : PmfGen F) (lambda : F) (k : Int) :
    Erases (g.evaluatePmf env lambda k) (g.evaluatePmf env.noAsserts lambda k) := by
  unfold PmfGen.evaluatePmf
  exact Erases.bnd (Erases.asr _ _ _) fun _ => Erases.bnd (Erases.asr _ _ _) fun _ => Erases.refl _

theorem computeArray_erase (env : Env F) (g : PmfGen F) (k : Int) (lambda : F) :
    Erases (g.computeArray env k lambda) (g.computeArray env.noAsserts k lambda) := by
  unfold PmfGen.computeArray
  exact Erases.bnd (Erases.asr _ _ _) fun _ => Erases.bnd (Erases.asr _ _ _) fun _ => Erases.refl _

theorem memoizedPlan_erase (env : Env F) (plans : List (Option Int)) (r : Int) :
    Erases (Convolver.memoizedPlan env plans r) (Convolver.memoizedPlan env.noAsserts plans r) := by
  unfold Convolver.memoizedPlan
  exact Erases.bnd (Erases.asr _ _ _) fun _ => Erases.bnd (Erases.asr _ _ _) fun _ => Erases.bnd (Erases.asr _ _ _) fun _ => Erases.refl _

theorem convolve_erase (env : Env F) (cv : Convolver F) (size : Int) (a : List F) (oa : Int) (b : List F) (ob : Int)
    (o : List F) (oo : Int) :
    Erases (cv.convolve env size a oa b ob o oo) (cv.convolve env.noAsserts size a oa b ob o oo) := by
  unfold Convolver.convolve
  refine Erases.ite (Erases.refl _) (Erases.ite (Erases.refl _) (Erases.ite (Erases.refl _) ?_))
  refine Erases.bnd' fun _ => Erases.bnd (memoizedPlan_erase _ _ _) fun _ => Erases.bnd' fun _ => Erases.bnd' fun _ =>
    Erases.bnd (memoizedPlan_erase _ _ _) fun _ => Erases.bnd' fun _ => Erases.bnd' fun _ =>
    Erases.bnd (memoizedPlan_erase _ _ _) fun _ => Erases.refl _

theorem ncConvolve_erase (env : Env F) (useFft : Bool) (cv : Convolver F) (size : Int) (a b : List F) (ob : Int)
    (o : List F) (oo : Int) :
    Erases (ncConvolve env useFft cv size a b ob o oo) (ncConvolve env.noAsserts useFft cv size a b ob o oo) := by
  unfold ncConvolve
  exact Erases.ite (convolve_erase _ _ _ _ _ _ _ _ _) (Erases.refl _)

theorem ncStep_erase (env : Env F) (intensity : F) (useFft : Bool) (s : NCState F) (bd : Bound F) :
    Erases (ncStep env intensity useFft s bd) (ncStep env.noAsserts intensity useFft s bd) := by
  unfold ncStep
  refine Erases.ite ?_ (Erases.refl _)
  exact Erases.bnd (computeArray_erase _ _ _ _) fun _ => Erases.bnd' fun _ => Erases.bnd' fun _ =>
    Erases.bnd (ncConvolve_erase _ _ _ _ _ _ _ _ _) fun _ => Erases.refl _

/-- `ecdf2`: assertions only add aborts. -/
theorem ecdf2_erase (env : Env F) (sort : List (Bound F) → List (Bound F)) (b B : List F) (useFft : Bool) :
    Erases (ecdf2 env sort b B useFft) (ecdf2 env.noAsserts sort b B useFft) := by
  unfold ecdf2
  refine Erases.bnd' fun _ => Erases.bnd' fun _ => Erases.bnd ?_ fun _ => Erases.bnd' fun _ => Erases.bnd (poissonPmf_erase _ _ _) fun _ => Erases.refl _
  unfold poissonProcessNoncrossingProbability
  exact Erases.bnd' fun _ => Erases.bnd (pmfNew_erase _ _) fun _ => Erases.bnd (Erases.foldlM (ncStep_erase env _ _) _ _) fun _ => Erases.refl _

theorem miniStep_erase (env : Env F) (n : Int) (intensity : F) (B : List F) (Iprev I i : Int) (s : MiniState F) :
    Erases (miniStep env n intensity B Iprev I i s) (miniStep env.noAsserts n intensity B Iprev I i s) := by
  unfold miniStep
  refine Erases.bnd' fun _ => Erases.bnd (computeArray_erase _ _ _ _) fun _ => Erases.bnd' fun _ => Erases.bnd' fun _ =>
    Erases.bnd (convolve_erase _ _ _ _ _ _ _ _ _) fun _ => Erases.bnd' fun _ => Erases.bnd' fun _ =>
    Erases.bnd (Erases.forRange fun _ _ => Erases.bnd' fun _ => Erases.bnd (evaluatePmf_erase _ _ _ _) fun _ => Erases.refl _) fun _ => Erases.refl _

theorem blockStep_erase (env : Env F) (n : Int) (intensity : F) (B : List F) (I : Int) (s : BlockState F) :
    Erases (blockStep env n intensity B I s) (blockStep env.noAsserts n intensity B I s) := by
  unfold blockStep
  refine Erases.bnd' fun _ => Erases.bnd (computeArray_erase _ _ _ _) fun _ => Erases.bnd' fun _ =>
    Erases.bnd (convolve_erase _ _ _ _ _ _ _ _ _) fun _ => Erases.bnd' fun _ => Erases.bnd' fun _ => Erases.bnd' fun _ => Erases.bnd' fun _ =>
    Erases.bnd' fun _ => Erases.bnd' fun _ => Erases.bnd' fun _ => Erases.bnd' fun _ => Erases.bnd' fun _ =>
    Erases.bnd (Erases.forRange fun _ _ => miniStep_erase _ _ _ _ _ _ _ _) fun _ => Erases.refl _

theorem blockLoop_erase (env : Env F) (n : Int) (intensity : F) (B : List F) (j N : Int) :
    ∀ fuel I s, Erases (blockLoop env n intensity B j N fuel I s) (blockLoop env.noAsserts n intensity B j N fuel I s) := by
  intro fuel
  induction fuel with
  | zero => intro I s; exact Erases.refl _
  | succ fuel ih =>
    intro I s
    unfold blockLoop
    exact Erases.bnd (blockStep_erase _ _ _ _ _ _) fun _ => Erases.ite (Erases.refl _) (ih _ _)

/-- `ecdf1_new_B`: assertions only add aborts. -/
theorem ecdf1NewB_erase (env : Env F) (isqrt : Nat → Nat) (B : List F) :
    Erases (ecdf1NewB env isqrt B) (ecdf1NewB env.noAsserts isqrt B) := by
  unfold ecdf1NewB
  refine Erases.bnd' fun _ => Erases.bnd ?_ fun _ => Erases.bnd' fun _ => Erases.bnd (poissonPmf_erase _ _ _) fun _ => Erases.refl _
  unfold poissonBNoncrossingProbabilityN2
  exact Erases.bnd (Erases.asr _ _ _) fun _ => Erases.bnd' fun _ => Erases.bnd (pmfNew_erase _ _) fun _ =>
    Erases.bnd (blockLoop_erase _ _ _ _ _ _ _ _ _) fun _ => Erases.bnd (computeArray_erase _ _ _ _) fun _ => Erases.bnd' fun _ =>
    Erases.bnd' fun _ => Erases.bnd (convolve_erase _ _ _ _ _ _ _ _ _) fun _ => Erases.refl _

/-- `ecdf1_new_b`: assertions only add aborts. -/
theorem ecdf1Newb_erase (env : Env F) (isqrt : Nat → Nat) (b : List F) :
    Erases (ecdf1Newb env isqrt b) (ecdf1Newb env.noAsserts isqrt b) := by
  unfold ecdf1Newb
  exact Erases.bnd' fun _ => Erases.bnd' fun _ => ecdf1NewB_erase _ _ _

end CP
