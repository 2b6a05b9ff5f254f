import Verif.Model.FastMns
import Verif.Proofs.MnsRound
/-! Step lemmas of `ecdf1_mns2016` as compiled, for any arithmetic. -/
set_option linter.unusedVariables false
set_option linter.unusedSectionVars false
namespace CP
variable {F G : Type} [FOps F] [FOps G] {E : Fault → Prop}
open FOps

/-- Value of `evaluate` as compiled. -/
def evalT (c : MnsCode G) (site d : Nat) (mu al : Nat → G) (x : G) : G :=
  (c.sum site d).eval c.fma mu (fun i => c.powi site i (x +ᶠ al i))

/-- Multiplicative coefficients after `integrate`. -/
def intMuT (c : MnsCode G) (site : Nat) (mu : Nat → G) (i : Nat) : G := if i = 0 then zero else c.divide site i (mu (i - 1))

theorem SumTree.eval_congr {fma : G → G → G → G} {x y x' y' : Nat → G} (t : SumTree)
    (h : ∀ k ∈ t.terms, x k = x' k ∧ y k = y' k) : t.eval fma x y = t.eval fma x' y' := by
  induction t with
  | zero => rfl
  | prod k =>
    obtain ⟨h1, h2⟩ := h k (by simp [SumTree.terms])
    simp only [SumTree.eval, h1, h2]
  | fma k t ih =>
    obtain ⟨h1, h2⟩ := h k (by simp [SumTree.terms])
    simp only [SumTree.eval, h1, h2, ih fun k' hk' => h k' (by simp [SumTree.terms, hk'])]
  | add t u iht ihu =>
    simp only [SumTree.eval, iht fun k' hk' => h k' (by simp [SumTree.terms, hk']), ihu fun k' hk' => h k' (by simp [SumTree.terms, hk'])]

theorem getD_of_has {α : Type} {a : List α} {d : Nat} {f : Nat → α} {z : α} (h : ∀ i : Nat, i ≤ d → Has a i (f i)) {i : Nat} (hi : i ≤ d) :
    ((a.drop (0 : Int).toNat).take ((d : Int) + 1).toNat).getD i z = f i := by
  have e : ((d : Int) + 1).toNat = d + 1 := by omega
  obtain ⟨-, h2⟩ := h i hi
  rw [Int.toNat_natCast] at h2
  rw [e, List.getD_eq_getElem?_getD, List.getElem?_take_of_lt (by omega), List.getElem?_drop]
  have e0 : (0 : Int).toNat + i = i := by simp
  rw [e0, h2]; rfl

theorem evaluateFast_sat {c : MnsCode G} {site cap d : Nat} {p : Poly G} {mu al : Nat → G}
    (hc : (c.sum site d).terms.Perm (List.range (d + 1))) (h : PRep cap d p mu al) (x : G) :
    Sat E (fun v => v = evalT c site d mu al x) (p.evaluateFast c site x) := by
  unfold Poly.evaluateFast
  have h1 := h.lm
  have h2 := h.la
  have h3 := h.le
  rw [h.deg, rdBlock_eq (by omega) (by omega) (by omega), M_ok_bind, rdBlock_eq (by omega) (by omega) (by omega), M_ok_bind]
  show _ = _
  rw [Int.toNat_natCast]
  unfold evalT
  refine SumTree.eval_congr _ fun k hk => ?_
  have hk' : k ≤ d := by
    have := hc.mem_iff.mp hk
    rw [List.mem_range] at this; omega
  rw [getD_of_has h.mult hk', getD_of_has h.add hk']
  exact ⟨rfl, rfl⟩

theorem integrateFast_sat {c : MnsCode G} {site cap d : Nat} {p : Poly G} {mu al : Nat → G} (h : PRep cap d p mu al) (hd : d + 1 < cap) :
    Sat E (fun p' => PRep cap (d + 1) p' (intMuT c site mu) (intAl al zero)) (p.integrateFast c site) := by
  unfold Poly.integrateFast
  rw [h.deg]
  have hlm := h.lm
  have hla := h.la
  refine Sat.bind (Sat.forRange (fun j (s : List G × List G) => s.1.length = cap ∧ s.2.length = cap ∧
      (∀ i : Nat, (i : Int) ≤ d - j → Has s.1 i (mu i) ∧ Has s.2 i (al i)) ∧
      (∀ i : Nat, (d : Int) + 1 - j < i → i ≤ d + 1 →
        Has s.1 i (c.divide site i (mu (i - 1))) ∧ Has s.2 i (al (i - 1))))
      (by omega) ⟨hlm, hla, fun i hi => ⟨h.mult i (by omega), h.add i (by omega)⟩, fun i h1 h2 => by omega⟩ ?_) ?_
  · rintro j ⟨m, a⟩ h0 h1 ⟨hm, ha, hlow, hhigh⟩
    dsimp only at hm ha hlow hhigh ⊢
    obtain ⟨i, hi⟩ : ∃ k : Nat, (d : Int) + 1 - j = (k : Int) + 1 := ⟨((d : Int) - j).toNat, by omega⟩
    have e : (i : Int) + 1 - 1 = i := by omega
    rw [hi, e, rd_eq (hlow i (by omega)).1, M_ok_bind]
    refine Sat.bind (wr_sat _ (by omega) (by omega)) fun m' ⟨hm'l, hm'⟩ => ?_
    rw [rd_eq (hlow i (by omega)).2, M_ok_bind]
    refine Sat.bind (wr_sat _ (by omega) (by omega)) fun a' ⟨ha'l, ha'⟩ => ?_
    refine ⟨by show m'.length = _; omega, by show a'.length = _; omega, ?_, ?_⟩
    · intro l hl
      refine ⟨(hm' _ _).mpr (Or.inr ⟨by omega, (hlow l (by omega)).1⟩),
        (ha' _ _).mpr (Or.inr ⟨by omega, (hlow l (by omega)).2⟩)⟩
    · intro l hl1 hl2
      by_cases e : (l : Int) = i + 1
      · have e1 : l - 1 = i := by omega
        have e2 : ((i : Int) + 1).toNat = l := by omega
        refine ⟨(hm' _ _).mpr (Or.inl ⟨e, by rw [e1, e2]⟩), (ha' _ _).mpr (Or.inl ⟨e, by rw [e1]⟩)⟩
      · refine ⟨(hm' _ _).mpr (Or.inr ⟨e, (hhigh l (by omega) hl2).1⟩),
          (ha' _ _).mpr (Or.inr ⟨e, (hhigh l (by omega) hl2).2⟩)⟩
  · rintro ⟨m, a⟩ ⟨hm, ha, _, hv⟩
    dsimp only at hm ha hv ⊢
    refine Sat.bind (wr_sat _ (by omega) (by omega)) fun a1 ⟨ha1l, ha1⟩ => ?_
    refine Sat.bind (wr_sat _ (by omega) (by omega)) fun a2 ⟨ha2l, ha2⟩ => ?_
    refine Sat.bind (wr_sat _ (by omega) (by omega)) fun m2 ⟨hm2l, hm2⟩ => ?_
    refine ⟨by show m2.length = _; omega, by show a2.length = _; omega, by show (d : Int) + 1 = _; omega, hd, ?_, ?_⟩
    · intro i hi
      rw [hm2]
      unfold intMuT
      by_cases e : i = 0
      · left; rw [if_pos e]; exact ⟨by omega, rfl⟩
      · right; rw [if_neg e]; exact ⟨by omega, (hv i (by omega) hi).1⟩
    · intro i hi
      rw [ha2]
      unfold intAl
      by_cases e : i = 0
      · left; rw [if_pos e]; exact ⟨by omega, rfl⟩
      · right
        rw [if_neg e, ha1]
        refine ⟨by omega, ?_⟩
        by_cases e1 : i = 1
        · left; rw [if_pos e1]; exact ⟨by omega, rfl⟩
        · right; rw [if_neg e1]; exact ⟨by omega, (hv i (by omega) hi).2⟩

/-- Coefficients after one step without rescaling; `x`, `nx` are the widened `b[i]` and `-b[i]`. -/
def stepMuT (c : MnsCode G) (d : Nat) (mu al : Nat → G) (x nx : G) : Nat → G :=
  setC (intMuT c d mu) (neg (evalT c d (d + 1) (intMuT c d mu) (intAl al nx) x))

theorem mnsStepFast_val {c : MnsCode G} (hc : ∀ site d, (c.sum site d).terms.Perm (List.range (d + 1))) {L : LongDouble F G} {asserts : Bool}
    {b : List F} {d : Nat} {cap : Nat} {s : Poly G × Int}
    {mu al : Nat → G} {bd : F} (h : PRep cap d s.1 mu al) (hd : d + 1 < cap) (hb : Has b d bd) :
    Sat E (fun s' => (s'.2 = s.2 ∧ PRep cap (d + 1) s'.1 (stepMuT c d mu al (L.widen bd) (L.widen (neg bd))) (intAl al (L.widen (neg bd)))) ∨
        ∃ e : Int, e = 0 - frexpExp (maxF (d + 1) (stepMuT c d mu al (L.widen bd) (L.widen (neg bd)))) ∧ 0 < e ∧ d % 16 = 0 ∧ s'.2 = s.2 + e ∧
        PRep cap (d + 1) s'.1 (fun i => ldexp (stepMuT c d mu al (L.widen bd) (L.widen (neg bd)) i) e) (intAl al (L.widen (neg bd))))
      (mnsStepXFast c L asserts b d s) := by
  unfold mnsStepXFast
  rw [Int.toNat_natCast]
  refine Sat.bind (integrateFast_sat h hd) fun p1 h1 => ?_
  rw [rd_eq hb, M_ok_bind]
  refine Sat.bind (setAdd1_sat h1 (L.widen (neg bd))) fun p2 h2 => ?_
  refine Sat.bind (evaluateFast_sat (hc _ _) h2 (L.widen bd)) fun v hv => ?_
  subst hv
  refine Sat.bind (setMult0_sat h2 _) fun p3 h3 => ?_
  by_cases hmod : (d : Int).tmod NUM_ITERATIONS_BETWEEN_EXP_FIXES = 0
  · rw [if_pos hmod]
    refine Sat.bind (maxMult_val h3 (by omega)) fun mc hmc => ?_
    dsimp only
    subst hmc
    split
    · next hneg =>
      refine Sat.bind (ldexpAll_sat h3 _) fun p4 h4 => ?_
      have h16 : d % 16 = 0 := by
        have h16' : ((d : Int)).tmod 16 = 0 := hmod
        rw [Int.tmod_eq_emod_of_nonneg (by omega)] at h16'
        omega
      exact Or.inr ⟨_, rfl, by unfold stepMuT; omega, h16, rfl, h4⟩
    · exact Or.inl ⟨rfl, h3⟩
  · rw [if_neg hmod]
    exact Or.inl ⟨rfl, h3⟩

/-- The main loop, with the rescaling exponent known. -/
theorem mnsFast_loop_val {c : MnsCode G} (hc : ∀ site d, (c.sum site d).terms.Perm (List.range (d + 1))) {L : LongDouble F G} {asserts : Bool}
    {b : List F} {bv : Nat → F}
    (hb : ∀ i : Nat, i < b.length → Has b i (bv i))
    (R : Nat → (Nat → G) → (Nat → G) → Int → Prop)
    (hR0 : R 0 (setC (fun _ => zero) one) (fun _ => zero) 0)
    (hRs : ∀ d mu al delta, d < b.length → R d mu al delta →
      R (d + 1) (stepMuT c d mu al (L.widen (bv d)) (L.widen (neg (bv d)))) (intAl al (L.widen (neg (bv d)))) delta ∧
      ∀ e, e = 0 - frexpExp (maxF (d + 1) (stepMuT c d mu al (L.widen (bv d)) (L.widen (neg (bv d))))) → 0 < e → d % 16 = 0 →
        R (d + 1) (fun i => ldexp (stepMuT c d mu al (L.widen (bv d)) (L.widen (neg (bv d))) i) e) (intAl al (L.widen (neg (bv d)))) (delta + e)) :
    Sat E (fun s => ∃ mu al, PRep (b.length + 2) b.length s.1 mu al ∧ R b.length mu al s.2)
      (do
        let p ← Poly.new (envG asserts) ((b.length : Int) + 1)
        let p ← p.setMult (envG asserts) 0 one
        forRange 0 (b.length : Int) (p, (0 : Int)) (mnsStepXFast c L asserts b)) := by
  refine Sat.bind (polyNew_sat (envG asserts) b.length) fun p hp => ?_
  refine Sat.bind (setMult0_sat hp one) fun p hp => ?_
  refine (Sat.forRange (fun j (s : Poly G × Int) => ∃ mu al, PRep (b.length + 2) j.toNat s.1 mu al ∧
    R j.toNat mu al s.2) (by omega) (by exact ⟨_, _, hp, hR0⟩) ?_).mono ?_
  · rintro j s h0 h1 ⟨mu, al, hs, hR⟩
    obtain ⟨j, rfl⟩ : ∃ k : Nat, j = (k : Int) := ⟨j.toNat, by omega⟩
    rw [Int.toNat_natCast] at hs hR
    have e : ((j : Int) + 1).toNat = j + 1 := by omega
    rw [e]
    refine (mnsStepFast_val hc hs (by omega) (hb j (by omega))).mono ?_
    rintro s' (h | ⟨ex, hex, hpos, h16, hs2, h⟩)
    · refine ⟨_, _, h.2, ?_⟩
      rw [h.1]
      exact (hRs j mu al s.2 (by omega) hR).1
    · refine ⟨_, _, h, ?_⟩
      rw [hs2]
      exact (hRs j mu al s.2 (by omega) hR).2 ex hex hpos h16
  · rintro s ⟨mu, al, hs, hR⟩
    rw [Int.toNat_natCast] at hs hR
    exact ⟨mu, al, hs, hR⟩

end CP
