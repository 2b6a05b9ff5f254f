import Verif.Proofs.ThreadsRun
/-
The first thing a large call of ecdf1_new does to shared things is to enter the FFTW planner.
-/
namespace CP
variable {F : Type} [FOps F]
open FOps Thr

theorem ok_inv {α β : Type} {m : M α} {g : α → M β} {y : β} (h : (m >>= g) = .ok y) : ∃ a, m = .ok a ∧ g a = .ok y := by
  cases m with
  | error e => cases h
  | ok a => exact ⟨a, rfl, h⟩

namespace Thr

/-- The next step is to enter the planner. -/
def Enters {α : Type} (t : Thr α) : Prop := ∃ k, t = .enter k

theorem Enters.step {α β : Type} {m : M α} {f : α → Thr β} {g : α → M β} {y : β} (h : (m >>= g) = .ok y)
    (hf : ∀ a, m = .ok a → g a = .ok y → Enters (f a)) : Enters (Thr.lift m >>= f) := by
  obtain ⟨a, h1, h2⟩ := ok_inv h
  rw [h1]
  exact hf a h1 h2

theorem Enters.bind {α β : Type} {t : Thr α} {f : α → Thr β} (h : Enters t) : Enters (t >>= f) := by
  obtain ⟨k, rfl⟩ := h
  exact ⟨_, rfl⟩

theorem Enters.withConvolver {α : Type} {t : Thr α} {n : Nat} (h : Enters t) : Enters (Thr.withConvolver n t) := by
  obtain ⟨k, rfl⟩ := h
  exact ⟨_, rfl⟩

end Thr

omit [FOps F] in
theorem memoizedPlanT_enters {env : Env F} {k : Nat} {sz : Int} {y : Int × List (Option Int)}
    (h : Convolver.memoizedPlan env (List.replicate k none) sz = .ok y) :
    Enters (Convolver.memoizedPlanT env (List.replicate k none) sz) := by
  unfold Convolver.memoizedPlan at h
  unfold Convolver.memoizedPlanT
  dsimp only at h ⊢
  refine Enters.step h fun _ _ h => Enters.step h fun _ _ h => Enters.step h fun _ _ h => Enters.step h fun p hp h => ?_
  have : p = none := by
    unfold rd at hp
    split at hp
    · split at hp <;> rename_i heq
      · cases hp
        rw [List.getElem?_replicate] at heq
        split at heq
        · cases heq; rfl
        · cases heq
      · cases hp
    · cases hp
  subst this
  exact ⟨_, rfl⟩

theorem convolveT_enters {env : Env F} {N : Int} {size : Int} (hs : 128 ≤ size) {a : List F} {oa : Int} {b : List F} {ob : Int}
    {out : List F} {oo : Int} {y : Convolver F × List F} (h : (Convolver.new env N).convolve env size a oa b ob out oo = .ok y) :
    Enters ((Convolver.new env N).convolveT env size a oa b ob out oo) := by
  unfold Convolver.convolve MINIMUM_SIZE_FOR_FFTW_CONVOLUTION at h
  unfold Convolver.convolveT MINIMUM_SIZE_FOR_FFTW_CONVOLUTION
  split at h
  · cases h
  rename_i h1
  rw [if_neg h1]
  rw [if_neg (by omega), if_neg (by omega)] at h ⊢
  dsimp only at h ⊢
  refine Enters.step h fun _ _ h => ?_
  obtain ⟨r, h1, h2⟩ := ok_inv h
  exact Enters.bind (memoizedPlanT_enters h1)

theorem blockStepT_enters {env : Env F} {n : Int} {x : F} {B : List F} {I : Int} {s y : BlockState F} {N : Int} (hc : s.conv = Convolver.new env N)
    (hs : 128 ≤ n - s.Iprev) (h : blockStep env n x B I s = .ok y) : Enters (blockStepT env n x B I s) := by
  unfold blockStep at h
  unfold blockStepT
  rw [hc] at h ⊢
  refine Enters.step h fun _ _ h => Enters.step h fun _ _ h => Enters.step h fun _ _ h => ?_
  obtain ⟨r, h1, -⟩ := ok_inv h
  exact Enters.bind (convolveT_enters hs h1)

/-- If `ecdf1_new_B` on 127 or more points returns a number, then it enters the planner first. -/
theorem ecdf1NewBT_enters {env : Env F} {isqrt : Nat → Nat} {B : List F} {y : F} (hn : 126 < B.length) (h : ecdf1NewB env isqrt B = .ok y) :
    Enters (ecdf1NewBT env isqrt B) := by
  unfold ecdf1NewB at h
  unfold ecdf1NewBT
  dsimp only at h ⊢
  refine Enters.step h fun _ _ h => ?_
  obtain ⟨r, h1, -⟩ := ok_inv h
  refine Enters.bind ?_
  unfold poissonBNoncrossingProbabilityN2 at h1
  unfold poissonBNoncrossingProbabilityN2T
  dsimp only at h1 ⊢
  refine Enters.step h1 fun _ _ h => Enters.step h fun _ _ h => Enters.withConvolver (Enters.step h fun _ _ h => ?_)
  obtain ⟨s, h1, -⟩ := ok_inv h
  refine Enters.bind ?_
  unfold blockLoop at h1
  unfold blockLoopT
  obtain ⟨s', h1, -⟩ := ok_inv h1
  refine Enters.bind (blockStepT_enters (N := (B.length : Int) + 1) rfl (by dsimp only; omega) h1)

theorem ecdf1NewbT_enters {env : Env F} {isqrt : Nat → Nat} {b : List F} {y : F} (hn : 126 < b.length) (h : ecdf1Newb env isqrt b = .ok y) :
    Enters (ecdf1NewbT env isqrt b) := by
  unfold ecdf1Newb at h
  unfold ecdf1NewbT
  dsimp only at h ⊢
  refine Enters.step h fun _ _ h => Enters.step h fun r hr h => ?_
  obtain ⟨r', h1, h2, -⟩ := (symmetricSteps_sat (E := NoFault) b).exists_ok
  rw [hr] at h1
  cases h1
  exact ecdf1NewBT_enters (by rw [h2]; exact hn) h

omit [FOps F] in
theorem Process.race_possible (p : Process F) {i j : Nat} (hij : i ≠ j) (hi : Enters (p.thread i)) (hj : Enters (p.thread j)) :
    (p.run [i, j]).race = true := by
  obtain ⟨k, hk⟩ := hi
  obtain ⟨k', hk'⟩ := hj
  show ((p.step i).step j).race = true
  have e1 : (p.step i).thread j = .enter k' := by rw [Process.step_other p hij.symm]; exact hk'
  have e2 : (p.step i).planning = i :: p.planning := by unfold Process.step; rw [hk]
  generalize p.step i = q at e1 e2
  unfold Process.step
  rw [e1]
  dsimp only
  rw [e2]
  simp

end CP
