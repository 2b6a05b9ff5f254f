import Verif.Props.Exact
import Verif.Proofs.Ties
/-
Property C22: the order of tied boundary points is irrelevant.
-/
namespace CP.Props
open CP.Spec

/-- C22: two sorting functions that both return ordered permutations give the same outcome of `ecdf2`
(the same result bit for bit, or the same exception), in any arithmetic satisfying `TieLaws`: `<` is
a strict weak order on the numbers involved, `intensity * (x - y)` compares equal to 0 for tied `x`,
`y`, and tied numbers are interchangeable in differences with other numbers. -/
theorem C22_ties {F : Type} [FOps F] (env : Env F) {sort sort' : List (Bound F) → List (Bound F)} (b B : List F)
    (P : F → Prop) (L : TieLaws (FOps.ofInt (b.length : Int)) P) (hP : ∀ x, x ∈ b ∨ x ∈ B → P x)
    (h0 : P FOps.zero) (h1 : P FOps.one)
    (hperm : (sort (unsortedBounds b B)).Perm (unsortedBounds b B))
    (hperm' : (sort' (unsortedBounds b B)).Perm (unsortedBounds b B))
    (hsorted : (sort (unsortedBounds b B)).Pairwise fun x y => FOps.lt y.location x.location = false)
    (hsorted' : (sort' (unsortedBounds b B)).Pairwise fun x y => FOps.lt y.location x.location = false) (useFft : Bool) :
    ecdf2 env sort b B useFft = ecdf2 env sort' b B useFft := by
  unfold ecdf2
  have key : poissonProcessNoncrossingProbability env sort b.length (FOps.ofInt b.length) b B useFft
      = poissonProcessNoncrossingProbability env sort' b.length (FOps.ofInt b.length) b B useFft := by
    unfold poissonProcessNoncrossingProbability
    dsimp only
    congr 1
    funext src
    congr 1
    funext g
    congr 1
    unfold joinAllBounds
    refine fold_ties L env useFft _ h1 _ _ (hperm.trans hperm'.symm) ?_ hsorted hsorted' _ h0
    intro z hz
    have hz' := hperm.mem_iff.mp hz
    unfold unsortedBounds at hz'
    rcases List.mem_append.mp hz' with h | h
    · obtain ⟨x, hx, rfl⟩ := List.mem_map.mp h
      exact hP x (Or.inl hx)
    · obtain ⟨x, hx, rfl⟩ := List.mem_map.mp h
      exact hP x (Or.inr hx)
  dsimp only
  rw [key]

/-- Exact arithmetic satisfies the laws on finite numbers. -/
theorem tieLaws_XR (n : Int) : TieLaws (FOps.ofInt n : XR) (fun x => ∃ r : ℝ, x = XR.fin r) where
  irrefl := by rintro _ ⟨u, rfl⟩; simp
  ntrans := by
    rintro _ _ _ ⟨u, rfl⟩ ⟨v, rfl⟩ ⟨w, rfl⟩ h1 h2
    simp only [XR.lt_fin, decide_eq_false_iff_not, not_lt] at h1 h2 ⊢
    exact h1.trans h2
  same := by
    rintro _ _ ⟨u, rfl⟩ ⟨v, rfl⟩ ⟨h1, h2⟩
    simp only [XR.lt_fin, decide_eq_false_iff_not, not_lt] at h1 h2
    have : u = v := le_antisymm h2 h1
    subst this
    simp
  other := by
    rintro _ _ _ ⟨u, rfl⟩ ⟨v, rfl⟩ ⟨w, rfl⟩ ⟨h1, h2⟩ _
    simp only [XR.lt_fin, decide_eq_false_iff_not, not_lt] at h1 h2
    have : u = v := le_antisymm h2 h1
    rw [this]
  otherL := by
    rintro _ _ _ ⟨u, rfl⟩ ⟨v, rfl⟩ ⟨w, rfl⟩ ⟨h1, h2⟩ _
    simp only [XR.lt_fin, decide_eq_false_iff_not, not_lt] at h1 h2
    have : u = v := le_antisymm h2 h1
    rw [this]

/-- C22 applies to lists with ties between the two boundaries: here two genuinely different orders. -/
example (env : Env XR) (useFft : Bool) :
    let o1 : List (Bound XR) := [⟨XR.fin (1/2), .bSTEP⟩, ⟨XR.fin (1/2), .BSTEP⟩]
    let o2 : List (Bound XR) := [⟨XR.fin (1/2), .BSTEP⟩, ⟨XR.fin (1/2), .bSTEP⟩]
    o1 ≠ o2 ∧ ecdf2 env (fun _ => o1) [XR.fin (1/2)] [XR.fin (1/2)] useFft
      = ecdf2 env (fun _ => o2) [XR.fin (1/2)] [XR.fin (1/2)] useFft := by
  intro o1 o2
  refine ⟨by simp [o1, o2], ?_⟩
  refine C22_ties env _ _ _ (tieLaws_XR _) ?_ ⟨0, by simp⟩ ⟨1, by simp⟩ (List.Perm.refl _) (List.Perm.swap _ _ _) ?_ ?_ useFft
  · intro x hx
    simp at hx
    exact ⟨_, hx⟩
  · simp [o1]
  · simp [o2]

end CP.Props
