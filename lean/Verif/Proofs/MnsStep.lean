import Verif.Proofs.Hoare
import Verif.Proofs.Ecdf2Step
import Verif.Model.Mns2016
/-
Step lemmas of `ecdf1_mns2016`, for any arithmetic.
-/
set_option linter.unusedVariables false
set_option linter.unusedSectionVars false
namespace CP
variable {F : Type} [FOps F] {E : Fault → Prop}
open FOps

/-- The polynomial object has `cap` allocated coefficients, degree `d`, multiplicative
coefficients `mu` and additive ones `al`. -/
structure PRep (cap d : Nat) (p : Poly F) (mu al : Nat → F) : Prop where
  lm : p.mult.length = cap
  la : p.add.length = cap
  deg : p.degree = d
  le : d < cap
  mult : ∀ i : Nat, i ≤ d → Has p.mult i (mu i)
  add : ∀ i : Nat, i ≤ d → Has p.add i (al i)

/-- Value of `evaluate`. -/
def evalF (d : Nat) (mu al : Nat → F) (x : F) : F :=
  (List.range (d + 1)).foldl (fun r i => r +ᶠ mu i *ᶠ powi (x +ᶠ al i) (i : Int)) zero

/-- Multiplicative coefficients after `integrate`. -/
def intMu (mu : Nat → F) (i : Nat) : F := if i = 0 then zero else mu (i - 1) /ᶠ ofInt (i : Int)
/-- Additive coefficients after `integrate` and setting the one of degree 1 to `x`. -/
def intAl (al : Nat → F) (x : F) (i : Nat) : F := if i = 0 then zero else if i = 1 then x else al (i - 1)
/-- Replace the constant coefficient. -/
def setC (mu : Nat → F) (c : F) (i : Nat) : F := if i = 0 then c else mu i

theorem evaluate_sat {cap d : Nat} {p : Poly F} {mu al : Nat → F} (h : PRep cap d p mu al) (x : F) :
    Sat E (fun v => v = evalF d mu al x) (p.evaluate x) := by
  unfold Poly.evaluate
  rw [h.deg]
  refine (Sat.forRange (fun j (r : F) => r = (List.range j.toNat).foldl
    (fun r i => r +ᶠ mu i *ᶠ powi (x +ᶠ al i) (i : Int)) zero) (by omega) (by simp) ?_).mono ?_
  · intro j r h0 h1 hr
    obtain ⟨j, rfl⟩ : ∃ k : Nat, j = (k : Int) := ⟨j.toNat, by omega⟩
    rw [rd_eq (h.mult j (by omega)), M_ok_bind, rd_eq (h.add j (by omega)), M_ok_bind]
    show _ = _
    have e : ((j : Int) + 1).toNat = j + 1 := by omega
    rw [e, List.range_succ, List.foldl_append, hr]
    simp
  · intro r hr
    have e : ((d : Int) + 1).toNat = d + 1 := by omega
    rw [hr, e]; rfl

theorem integrate_sat {cap d : Nat} {p : Poly F} {mu al : Nat → F} (h : PRep cap d p mu al) (hd : d + 1 < cap) :
    Sat E (fun p' => PRep cap (d + 1) p' (intMu mu) (intAl al zero)) p.integrate := by
  unfold Poly.integrate
  rw [h.deg]
  have hlm := h.lm
  have hla := h.la
  refine Sat.bind (Sat.forRange (fun j (s : List F × List F) => s.1.length = cap ∧ s.2.length = cap ∧
      (∀ i : Nat, (i : Int) ≤ d - j → Has s.1 i (mu i) ∧ Has s.2 i (al i)) ∧
      (∀ i : Nat, (d : Int) + 1 - j < i → i ≤ d + 1 →
        Has s.1 i (mu (i - 1) /ᶠ ofInt (i : Int)) ∧ Has s.2 i (al (i - 1))))
      (by omega) ⟨hlm, hla, fun i hi => ⟨h.mult i (by omega), h.add i (by omega)⟩, fun i h1 h2 => by omega⟩ ?_) ?_
  · rintro j ⟨m, a⟩ h0 h1 ⟨hm, ha, hlow, hhigh⟩
    dsimp only at hm ha hlow hhigh ⊢
    obtain ⟨i, hi⟩ : ∃ k : Nat, (d : Int) + 1 - j = (k : Int) + 1 := ⟨((d : Int) - j).toNat, by omega⟩
    have e : (i : Int) + 1 - 1 = i := by omega
    rw [hi, e, rd_eq (hlow i (by omega)).1, M_ok_bind]
    refine Sat.bind (wr_sat _ (by omega) (by omega)) fun m' ⟨hm'l, hm'⟩ => ?_
    rw [rd_eq (hlow i (by omega)).2, M_ok_bind]
    refine Sat.bind (wr_sat _ (by omega) (by omega)) fun a' ⟨ha'l, ha'⟩ => ?_
    refine ⟨by show m'.length = _; omega, by show a'.length = _; omega, ?_, ?_⟩
    · intro l hl
      refine ⟨(hm' _ _).mpr (Or.inr ⟨by omega, (hlow l (by omega)).1⟩),
        (ha' _ _).mpr (Or.inr ⟨by omega, (hlow l (by omega)).2⟩)⟩
    · intro l hl1 hl2
      by_cases e : (l : Int) = i + 1
      · have e1 : l - 1 = i := by omega
        refine ⟨(hm' _ _).mpr (Or.inl ⟨e, by rw [e1, e]⟩), (ha' _ _).mpr (Or.inl ⟨e, by rw [e1]⟩)⟩
      · refine ⟨(hm' _ _).mpr (Or.inr ⟨e, (hhigh l (by omega) hl2).1⟩),
          (ha' _ _).mpr (Or.inr ⟨e, (hhigh l (by omega) hl2).2⟩)⟩
  · rintro ⟨m, a⟩ ⟨hm, ha, _, hv⟩
    dsimp only at hm ha hv ⊢
    refine Sat.bind (wr_sat _ (by omega) (by omega)) fun a1 ⟨ha1l, ha1⟩ => ?_
    refine Sat.bind (wr_sat _ (by omega) (by omega)) fun a2 ⟨ha2l, ha2⟩ => ?_
    refine Sat.bind (wr_sat _ (by omega) (by omega)) fun m2 ⟨hm2l, hm2⟩ => ?_
    refine ⟨by show m2.length = _; omega, by show a2.length = _; omega, by show (d : Int) + 1 = _; omega, hd, ?_, ?_⟩
    · intro i hi
      rw [hm2]
      unfold intMu
      by_cases e : i = 0
      · left; rw [if_pos e]; exact ⟨by omega, rfl⟩
      · right; rw [if_neg e]; exact ⟨by omega, (hv i (by omega) hi).1⟩
    · intro i hi
      rw [ha2]
      unfold intAl
      by_cases e : i = 0
      · left; rw [if_pos e]; exact ⟨by omega, rfl⟩
      · right
        rw [if_neg e, ha1]
        refine ⟨by omega, ?_⟩
        by_cases e1 : i = 1
        · left; rw [if_pos e1]; exact ⟨by omega, rfl⟩
        · right; rw [if_neg e1]; exact ⟨by omega, (hv i (by omega) hi).2⟩

theorem setAdd1_sat {env : Env F} {cap d : Nat} {p : Poly F} {mu al : Nat → F} {y : F}
    (h : PRep cap (d + 1) p mu (intAl al y)) (x : F) :
    Sat E (fun p' => PRep cap (d + 1) p' mu (intAl al x)) (p.setAdd env 1 x) := by
  unfold Poly.setAdd
  have := h.le; have := h.la
  rw [assertC_true _ (by simp), M_ok_bind, assertC_true _ (by rw [h.deg]; simp; omega), M_ok_bind]
  refine Sat.bind (wr_sat _ (by omega) (by omega)) fun a ⟨hal, ha⟩ => ?_
  refine ⟨h.lm, by show a.length = _; omega, h.deg, h.le, h.mult, ?_⟩
  intro i hi
  show Has a _ _
  rw [ha]
  by_cases e : i = 1
  · left; refine ⟨by omega, ?_⟩; subst e; simp [intAl]
  · right
    refine ⟨by omega, ?_⟩
    have := h.add i hi
    unfold intAl at this ⊢
    simpa [e] using this

theorem setMult0_sat {env : Env F} {cap d : Nat} {p : Poly F} {mu al : Nat → F}
    (h : PRep cap d p mu al) (x : F) :
    Sat E (fun p' => PRep cap d p' (setC mu x) al) (p.setMult env 0 x) := by
  unfold Poly.setMult
  have := h.le; have := h.lm
  rw [assertC_true _ (by simp), M_ok_bind, assertC_true _ (by rw [h.deg]; simp), M_ok_bind]
  refine Sat.bind (wr_sat _ (by omega) (by omega)) fun a ⟨hal, ha⟩ => ?_
  refine ⟨by show a.length = _; omega, h.la, h.deg, h.le, ?_, h.add⟩
  intro i hi
  show Has a _ _
  rw [ha]
  unfold setC
  by_cases e : i = 0
  · left; rw [if_pos e]; exact ⟨by omega, rfl⟩
  · right; rw [if_neg e]; exact ⟨by omega, h.mult i hi⟩

theorem ldexpAll_sat {cap d : Nat} {p : Poly F} {mu al : Nat → F} (h : PRep cap d p mu al) (e : Int) :
    Sat E (fun p' => PRep cap d p' (fun i => ldexp (mu i) e) al) (p.ldexpAll e) := by
  unfold Poly.ldexpAll
  rw [h.deg]
  have hlm := h.lm
  have hle := h.le
  refine Sat.bind (Sat.forRange (fun j (m : List F) => m.length = cap ∧
      (∀ i : Nat, (i : Int) < j → Has m i (ldexp (mu i) e)) ∧ (∀ i : Nat, j ≤ i → i ≤ d → Has m i (mu i)))
      (by omega) ⟨hlm, fun i hi => by omega, fun i _ hi => h.mult i hi⟩ ?_) ?_
  · intro j m h0 h1 ⟨hm, hlow, hhigh⟩
    obtain ⟨j, rfl⟩ : ∃ k : Nat, j = (k : Int) := ⟨j.toNat, by omega⟩
    rw [rd_eq (hhigh j (by omega) (by omega)), M_ok_bind]
    refine (wr_sat _ (by omega) (by omega)).mono fun m' ⟨hm'l, hm'⟩ => ⟨by omega, ?_, ?_⟩
    · intro i hi
      rw [hm']
      by_cases he : (i : Int) = j
      · left; refine ⟨he, ?_⟩; have : i = j := by omega
        rw [this]
      · exact Or.inr ⟨he, hlow i (by omega)⟩
    · intro i h1 h2
      rw [hm']
      exact Or.inr ⟨by omega, hhigh i (by omega) h2⟩
  · intro m ⟨hm, hv, _⟩
    exact ⟨hm, h.la, rfl, h.le, fun i hi => hv i (by omega), h.add⟩

theorem maxMult_sat {env : Env F} {cap d : Nat} {p : Poly F} {mu al : Nat → F} (h : PRep cap d p mu al) (hd : 1 ≤ d) :
    Sat E (fun _ => True) (p.maxMult env) := by
  unfold Poly.maxMult
  rw [assertC_true _ (by rw [h.deg]; simp; omega), M_ok_bind]
  have hget : ∀ i : Nat, i ≤ d → p.getMult env i = .ok (mu i) := by
    intro i hi
    unfold Poly.getMult
    rw [assertC_true _ (by simp), M_ok_bind, assertC_true _ (by rw [h.deg]; simpa using hi), M_ok_bind,
      rd_eq (h.mult i hi)]
  have h0 := hget 0 (by omega)
  rw [Int.natCast_zero] at h0
  rw [h0, M_ok_bind, h.deg]
  refine Sat.forRange' (fun _ => True) trivial ?_
  intro j m h1 h2 _
  obtain ⟨j, rfl⟩ : ∃ k : Nat, j = (k : Int) := ⟨j.toNat, by omega⟩
  rw [hget j (by omega), M_ok_bind]
  trivial

/-- Coefficients after one step without rescaling. -/
def stepMu (d : Nat) (mu al : Nat → F) (b : F) : Nat → F :=
  setC (intMu mu) (neg (evalF (d + 1) (intMu mu) (intAl al (neg b)) b))

theorem mnsStep_sat {env : Env F} {readExponent : Int → F → Int} {b : List F} {d : Nat} {cap : Nat} {s : Poly F × Int}
    {mu al : Nat → F} {bd : F} (h : PRep cap d s.1 mu al) (hd : d + 1 < cap) (hb : Has b d bd) :
    Sat E (fun s' => ∃ e : Int, s'.2 = s.2 + e ∧ ((e = 0 ∧
        PRep cap (d + 1) s'.1 (stepMu d mu al bd) (intAl al (neg bd))) ∨
        PRep cap (d + 1) s'.1 (fun i => ldexp (stepMu d mu al bd i) e) (intAl al (neg bd))))
      (mnsStep env readExponent b d s) := by
  unfold mnsStep
  refine Sat.bind (integrate_sat h hd) fun p1 h1 => ?_
  rw [rd_eq hb, M_ok_bind]
  refine Sat.bind (setAdd1_sat h1 (neg bd)) fun p2 h2 => ?_
  refine Sat.bind (evaluate_sat h2 bd) fun v hv => ?_
  subst hv
  refine Sat.bind (setMult0_sat h2 _) fun p3 h3 => ?_
  by_cases hmod : (d : Int).tmod NUM_ITERATIONS_BETWEEN_EXP_FIXES = 0
  · rw [if_pos hmod]
    refine Sat.bind (maxMult_sat h3 (by omega)) fun mc _ => ?_
    dsimp only
    by_cases hneg : readExponent d mc < 0
    · rw [if_pos hneg]
      refine Sat.bind (ldexpAll_sat h3 (0 - readExponent d mc)) fun p4 h4 => ?_
      exact ⟨_, rfl, Or.inr h4⟩
    · rw [if_neg hneg]
      exact ⟨0, by simp, Or.inl ⟨rfl, h3⟩⟩
  · rw [if_neg hmod]
    exact ⟨0, by simp, Or.inl ⟨rfl, h3⟩⟩

theorem polyNew_sat (env : Env F) (n : Nat) :
    Sat E (fun p => PRep (n + 2) 0 p (fun _ => zero) (fun _ => zero)) (Poly.new env ((n : Int) + 1)) := by
  unfold Poly.new
  rw [assertC_true _ (by simp; omega), M_ok_bind]
  have e : ((n : Int) + 1 + 1).toNat = n + 2 := by omega
  refine ⟨by simp [e], by simp [e], rfl, by omega, ?_, ?_⟩
  · intro i hi
    show Has (List.replicate _ _) _ _
    rw [has_replicate, e]; exact ⟨by omega, by omega, rfl⟩
  · intro i hi
    show Has (List.replicate _ _) _ _
    rw [has_replicate, e]; exact ⟨by omega, by omega, rfl⟩

/-- The main loop with an invariant `R` on (step, coefficients, additive coefficients, exponent). -/
theorem mns_loop_sat {env : Env F} {readExponent : Int → F → Int} {b : List F} {bv : Nat → F}
    (hb : ∀ i : Nat, i < b.length → Has b i (bv i))
    (R : Nat → (Nat → F) → (Nat → F) → Int → Prop)
    (hR0 : R 0 (setC (fun _ => zero) one) (fun _ => zero) 0)
    (hRs : ∀ d mu al delta, d < b.length → R d mu al delta →
      R (d + 1) (stepMu d mu al (bv d)) (intAl al (neg (bv d))) delta ∧
      ∀ e, R (d + 1) (fun i => ldexp (stepMu d mu al (bv d) i) e) (intAl al (neg (bv d))) (delta + e)) :
    Sat E (fun s => ∃ mu al, PRep (b.length + 2) b.length s.1 mu al ∧ R b.length mu al s.2)
      (do
        let p ← Poly.new env ((b.length : Int) + 1)
        let p ← p.setMult env 0 one
        forRange 0 (b.length : Int) (p, (0 : Int)) (mnsStep env readExponent b)) := by
  refine Sat.bind (polyNew_sat env b.length) fun p hp => ?_
  refine Sat.bind (setMult0_sat hp one) fun p hp => ?_
  refine (Sat.forRange (fun j (s : Poly F × Int) => ∃ mu al, PRep (b.length + 2) j.toNat s.1 mu al ∧
    R j.toNat mu al s.2) (by omega) (by exact ⟨_, _, hp, hR0⟩) ?_).mono ?_
  · rintro j s h0 h1 ⟨mu, al, hs, hR⟩
    obtain ⟨j, rfl⟩ : ∃ k : Nat, j = (k : Int) := ⟨j.toNat, by omega⟩
    rw [Int.toNat_natCast] at hs hR
    have e : ((j : Int) + 1).toNat = j + 1 := by omega
    rw [e]
    refine (mnsStep_sat hs (by omega) (hb j (by omega))).mono ?_
    rintro s' ⟨ex, hex, h | h⟩
    · refine ⟨_, _, h.2, ?_⟩
      rw [hex, h.1, Int.add_zero]
      exact (hRs j mu al s.2 (by omega) hR).1
    · refine ⟨_, _, h, ?_⟩
      rw [hex]
      exact (hRs j mu al s.2 (by omega) hR).2 ex
  · rintro s ⟨mu, al, hs, hR⟩
    rw [Int.toNat_natCast] at hs hR
    exact ⟨mu, al, hs, hR⟩

/-- Memory safety and absence of assertion failures, in any arithmetic. -/
theorem mns_safe (env : Env F) (hE : ∀ msg, E (.runtimeError msg)) (readExponent : Int → F → Int) (b : List F) :
    Sat E (fun _ => True) (ecdf1Mns2016bWith env readExponent b) := by
  unfold ecdf1Mns2016bWith
  refine Sat.bind (checkBoundaryVector_sat hE) fun _ _ => ?_
  obtain ⟨bv, hbv⟩ := exists_fun (a := b)
  have h := mns_loop_sat (E := E) (env := env) (readExponent := readExponent) hbv (fun _ _ _ _ => True) trivial
    (fun _ _ _ _ _ _ => ⟨trivial, fun _ => trivial⟩)
  dsimp only
  have h' := Sat.bind (R := fun _ => True) (f := fun s : Poly F × Int => do
    let integralResult ← s.1.evaluate (ofInt 1)
    .ok (exp (lgamma (ofInt ((b.length : Int) + 1)) +ᶠ log integralResult -ᶠ ofInt s.2 *ᶠ log (ofInt 2))))
    h (fun s hs => by
      obtain ⟨mu, al, hp, _⟩ := hs
      refine Sat.bind (evaluate_sat hp _) fun v _ => ?_
      trivial)
  simp only [bind_assoc] at h'
  exact h'

end CP
