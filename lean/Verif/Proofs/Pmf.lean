import Verif.Proofs.Hoare
import Verif.Model.Common
/-
Poisson PMF tables, for any arithmetic.
-/
namespace CP
variable {F : Type} [FOps F] {E : Fault → Prop}
open FOps

/-- What the code computes for `Pr[Poisson(lambda) = i]`. -/
def pmfVal (lambda : F) (i : Nat) : F :=
  if eq lambda zero then (if i = 0 then one else zero)
  else exp (neg lambda +ᶠ ofInt (i : Int) *ᶠ log lambda -ᶠ lgamma (ofInt ((i : Int) + 1)))

/-- Invariant of a generator constructed for `m`. -/
structure PmfInv (m : Int) (g : PmfGen F) : Prop where
  max : g.maxK = m
  lut : ∀ i : Nat, (i : Int) < m + 2 → Has g.logGammaLUT i (lgamma (ofInt (i : Int)))
  len : (g.pmfArray.length : Int) = m + 1

theorem pmfGen_new_sat (env : Env F) {m : Int} (hm : 0 < m) :
    Sat E (PmfInv m) (PmfGen.new env m) := by
  unfold PmfGen.new
  refine Sat.bind (assertC_sat (Or.inr (by simpa using hm))) fun _ _ => ?_
  refine ⟨rfl, fun i hi => ?_, ?_⟩
  · show Has ((List.range (m + 2).toNat).map fun i : Nat => lgamma (ofInt (i : Int) : F)) i _
    rw [has_map_range]
    exact ⟨by omega, by omega, by simp⟩
  · simp; omega

theorem evaluatePmf_sat (env : Env F) {m : Int} {g : PmfGen F} (hg : PmfInv m g) {lambda : F} {k : Int}
    (h0 : 0 ≤ k) (hk : k ≤ m) (ha : env.asserts = false ∨ ge lambda zero = true) :
    Sat E (fun v => v = pmfVal lambda k.toNat) (g.evaluatePmf env lambda k) := by
  unfold PmfGen.evaluatePmf
  refine Sat.bind (assertC_sat ha) fun _ _ => ?_
  refine Sat.bind (assertC_sat (Or.inr (by simpa using h0))) fun _ _ => ?_
  unfold pmfVal
  by_cases hz : eq lambda (zero : F) = true
  · rw [if_pos hz, if_pos hz]
    have : (k.toNat = 0) ↔ k = 0 := by omega
    simp only [this]
    exact rfl
  · rw [if_neg hz, if_neg hz]
    have := hg.lut (k.toNat + 1) (by omega)
    have e : ((k.toNat + 1 : Nat) : Int) = k + 1 := by omega
    have e' : ((k.toNat : Nat) : Int) = k := by omega
    rw [e] at this
    rw [rd_eq this, e']
    exact rfl

theorem computeArray_sat (env : Env F) {m : Int} {g : PmfGen F} (hg : PmfInv m g) {lambda : F} {k : Int}
    (hk : k ≤ m) (hm : 0 ≤ m) (ha : env.asserts = false ∨ 0 ≤ k) (hl : lt lambda zero = false) :
    Sat E (fun g' => PmfInv m g' ∧ ∀ i : Nat, (i : Int) ≤ k → Has g'.pmfArray i (pmfVal lambda i))
      (g.computeArray env k lambda) := by
  unfold PmfGen.computeArray
  refine Sat.bind (assertC_sat (by simpa using ha)) fun _ _ => ?_
  refine Sat.bind (assertC_sat (Or.inr (by have := hg.max; simp; omega))) fun _ _ => ?_
  rw [hl]
  have hlen := hg.len
  simp only [Bool.false_eq_true, if_false]
  by_cases hz : eq lambda (zero : F) = true
  · rw [if_pos hz]
    refine Sat.bind (wr_sat _ (by omega) (by omega)) ?_
    intro a1 ⟨hl1, h1⟩
    by_cases hk0 : k < 0
    · rw [forRange_empty (by omega)]
      refine ⟨⟨hg.max, hg.lut, by show (a1.length : Int) = _; omega⟩, fun i hi => by omega⟩
    refine Sat.bind (Sat.forRange (fun j (a : List F) => a.length = a1.length ∧
      ∀ i : Nat, (i : Int) < j → Has a i (pmfVal lambda i)) (by omega) ⟨rfl, ?_⟩ ?_) ?_
    · intro i hi
      have : i = 0 := by omega
      subst this
      rw [h1]
      refine Or.inl ⟨rfl, ?_⟩
      simp [pmfVal, hz, one]
    · intro j a hj0 hj1 ⟨hal, hai⟩
      refine (wr_sat _ (by omega) (by omega)).mono ?_
      intro a' ⟨hl', h'⟩
      refine ⟨by omega, fun i hi => ?_⟩
      rw [h']
      by_cases e : (i : Int) = j
      · refine Or.inl ⟨e, ?_⟩
        have : i ≠ 0 := by omega
        unfold pmfVal
        rw [if_pos hz, if_neg this]; rfl
      · exact Or.inr ⟨e, hai i (by omega)⟩
    · intro a ⟨hal, hai⟩
      exact ⟨⟨hg.max, hg.lut, by show (a.length : Int) = _; omega⟩, fun i hi => hai i (by omega)⟩
  · rw [if_neg hz]
    by_cases hk0 : k < 0
    · rw [forRange_empty (by omega)]
      exact ⟨⟨hg.max, hg.lut, hg.len⟩, fun i hi => by omega⟩
    refine Sat.bind (Sat.forRange (fun j (a : List F) => a.length = g.pmfArray.length ∧
      ∀ i : Nat, (i : Int) < j → Has a i (pmfVal lambda i)) (by omega) ⟨rfl, fun i hi => by omega⟩ ?_) ?_
    · intro j a hj0 hj1 ⟨hal, hai⟩
      have := hg.lut (j.toNat + 1) (by omega)
      have e : ((j.toNat + 1 : Nat) : Int) = j + 1 := by omega
      rw [e] at this
      rw [rd_eq this]
      refine (wr_sat _ (by omega) (by omega)).mono ?_
      intro a' ⟨hl', h'⟩
      refine ⟨by omega, fun i hi => ?_⟩
      rw [h']
      by_cases e : (i : Int) = j
      · refine Or.inl ⟨e, ?_⟩
        unfold pmfVal
        rw [if_neg hz, e]
      · exact Or.inr ⟨e, hai i (by omega)⟩
    · intro a ⟨hal, hai⟩
      exact ⟨⟨hg.max, hg.lut, by show (a.length : Int) = _; omega⟩, fun i hi => hai i (by omega)⟩

theorem poissonPmf_sat (env : Env F) {lambda : F} {k : Int} (h0 : 0 ≤ k)
    (ha : env.asserts = false ∨ ge lambda zero = true) :
    Sat E (fun v => v = pmfVal lambda k.toNat) (poissonPmf env lambda k) := by
  unfold poissonPmf
  refine Sat.bind (assertC_sat (Or.inr (by simpa using h0))) fun _ _ => ?_
  refine Sat.bind (assertC_sat ha) fun _ _ => ?_
  unfold pmfVal
  have e' : ((k.toNat : Nat) : Int) = k := by omega
  by_cases hz : eq lambda (zero : F) = true
  · rw [if_pos hz, if_pos hz]
    have : (k.toNat = 0) ↔ k = 0 := by omega
    simp only [this]
    exact rfl
  · rw [if_neg hz, if_neg hz, e']
    exact rfl

end CP
