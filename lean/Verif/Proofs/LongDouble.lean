import Verif.LongDoubleSpec
import Verif.Proofs.Ieee
import Verif.Proofs.SmallFft
/-! `ecdf1_mns2016` with `double` and `long double` is the one-type program on the widened boundary. -/
namespace CP.Spec
open FOps

section
variable {F G : Type} [FOps F] [FOps G] {L : LongDouble F G}

theorem rd_map {α β : Type} (f : α → β) (a : List α) (i : Int) : rd (a.map f) i = (rd a i).map f := by
  unfold rd
  split
  · rw [List.getElem?_map]
    cases a[i.toNat]? <;> rfl
  · rfl

theorem isMonotoneFrom_map (h : Widens L.widen) (x : F) (v : List F) : isMonotoneFrom (L.widen x) (v.map L.widen) = isMonotoneFrom x v := by
  induction v generalizing x with
  | nil => rfl
  | cons y v ih =>
    rw [List.map_cons]
    unfold isMonotoneFrom
    rw [h.lt, ih]

theorem outOfRange_map (h : Widens L.widen) (v : List F) : outOfRange (v.map L.widen) = outOfRange v := by
  cases v with
  | nil => rfl
  | cons y v =>
    show (lt (L.widen y) zero || lt one ((L.widen y :: v.map L.widen).getLast (by simp))) = (lt y zero || lt one ((y :: v).getLast (by simp)))
    rw [← h.zero, ← h.one, h.lt]
    congr 1
    rw [← h.lt one]
    congr 1
    have := List.getLast_map (f := L.widen) (l := y :: v) (by simp)
    simpa using this

theorem check_map (h : Widens L.widen) (name : String) (n : Int) (v : List F) :
    checkBoundaryVector name n (v.map L.widen) = checkBoundaryVector name n v := by
  unfold checkBoundaryVector isMonotoneIncreasing
  rw [List.length_map, ← h.negInf, isMonotoneFrom_map h, outOfRange_map h]

theorem mnsStepX_eq (h : Widens L.widen) (asserts : Bool) (b : List F) (i : Int) (s : Poly G × Int) :
    mnsStepX L asserts b i s = mnsStep (envG asserts) (fun _ x => frexpExp x) (b.map L.widen) i s := by
  unfold mnsStepX mnsStep
  refine M_bind_congr rfl fun p => ?_
  rw [rd_map]
  cases hb : rd b i with
  | error e => rfl
  | ok bi =>
    simp only [bind, Except.bind, Except.map]
    rw [h.neg]

/-- The program with `double` and `long double` is the one-type `long double` program on the widened boundary, with the result
converted. -/
theorem mnsX_eq (h : Widens L.widen) (env : Env F) (b : List F) :
    ecdf1Mns2016bX L env b = (ecdf1Mns2016b (envG env.asserts) (b.map L.widen)).map L.narrow := by
  unfold ecdf1Mns2016bX ecdf1Mns2016b ecdf1Mns2016bWith
  dsimp only
  rw [check_map h, List.length_map]
  have e : mnsStepX L env.asserts b = mnsStep (envG env.asserts) (fun _ x => frexpExp x) (b.map L.widen) := by
    funext i s; exact mnsStepX_eq h _ _ _ _
  rw [e]
  simp only [bind, Except.bind]
  generalize checkBoundaryVector "b" (b.length : Int) b = m1
  cases m1 with
  | error e => rfl
  | ok u =>
    dsimp only
    generalize Poly.new (F := G) (envG env.asserts) ((b.length : Int) + 1) = m2
    cases m2 with
    | error e => rfl
    | ok p =>
      dsimp only
      generalize p.setMult (envG env.asserts) 0 (one : G) = m3
      cases m3 with
      | error e => rfl
      | ok p =>
        dsimp only
        generalize forRange 0 (b.length : Int) (p, (0 : Int)) (mnsStep (envG env.asserts) (fun _ x => frexpExp x) (b.map L.widen)) = m4
        cases m4 with
        | error e => rfl
        | ok s =>
          dsimp only
          generalize s.1.evaluate (ofInt 1 : G) = m5
          cases m5 <;> rfl

theorem handleX_eq (L : LongDouble F G) (w : World F) (fmt : F → Str) {command : Str} (hc : command ≠ "ecdf1-mns2016".toList) (name : Str) :
    handleCommandLineArgumentsIOX L w fmt command name = handleCommandLineArgumentsIO w fmt command name := by
  unfold handleCommandLineArgumentsIOX handleCommandLineArgumentsIO
  simp only [if_neg hc]

theorem runX_eq (L : LongDouble F G) (w : World F) (fmt : F → Str) (ioWhat : Str) {args : List Str} (hc : args.head? ≠ some "ecdf1-mns2016".toList) :
    crossprobRunX L w fmt ioWhat args = crossprobRun w fmt ioWhat args := by
  match args, hc with
  | [], _ => rfl
  | [_], _ => rfl
  | [c, f], hc =>
    have : c ≠ "ecdf1-mns2016".toList := fun h => hc (by rw [h]; rfl)
    unfold crossprobRunX crossprobRun
    dsimp only
    rw [handleX_eq L w fmt this]
    generalize handleCommandLineArgumentsIO w fmt c f = r
    obtain ⟨t, r⟩ := r
    cases r with
    | ok a => rfl
    | error e => cases e <;> rfl
  | _ :: _ :: _ :: _, _ => rfl

end

noncomputable section
variable {D A : FloatSystem}

theorem Format.Sub.rep {f g : Format} (h : f.Sub g) {x : ℝ} (hx : f.Rep x) : g.Rep x := by
  obtain ⟨m, e, hm, he, rfl⟩ := hx
  exact ⟨m, e, hm.trans_le (pow_le_pow_right₀ (by norm_num) h.p), h.emin.trans he, rfl⟩

theorem Format.Sub.fin {f g : Format} (h : f.Sub g) {x : ℝ} (hx : f.Fin x) : g.Fin x :=
  ⟨h.rep hx.1, hx.2.trans_le (zpow_le_zpow_right₀ (by norm_num) h.emax)⟩

/-- Widening is exact. -/
theorem convert_fin (h : D.f.Sub A.f) {a : ℝ} (ha : D.f.Fin a) : convert D A (mkNum D a ha) = mkNum A a (h.fin ha) := by
  show roundNum A a = _
  have e : A.r a = a := nearest_rep A.nearest (h.rep ha.1)
  have h2 : |A.r a| < (2 : ℝ) ^ A.f.emax := by rw [e]; exact (h.fin ha).2
  have : roundNum A a = mkNum A (A.r a) ⟨A.nearest.rep a, h2⟩ := dif_pos h2
  rw [this]
  simp only [e]

theorem ofInt_fin {k : ℤ} (hD : D.f.OK) (hk : |k| ≤ 1) : ∃ h, (FOps.ofInt k : Num D) = mkNum D k h := by
  obtain ⟨⟨a, ha, ea⟩, va⟩ := ofInt_exact hD (A := D) (k := k)
    (hk.trans (one_le_pow₀ (by norm_num))) (by
      have h1 := one_le_Omega (A := D) hD
      have h2 : (|k| : ℝ) ≤ 1 := by exact_mod_cast hk
      linarith)
  rw [ea] at va
  have : a = k := va
  subst this
  exact ⟨ha, ea⟩

theorem convert_int (hD : D.f.OK) (hA : A.f.OK) (h : D.f.Sub A.f) {k : ℤ} (hk : |k| ≤ 1) :
    convert D A (FOps.ofInt k) = FOps.ofInt k := by
  obtain ⟨h1, e1⟩ := ofInt_fin hD hk
  obtain ⟨h2, e2⟩ := ofInt_fin hA hk
  rw [e1, e2, convert_fin h]

theorem convert_widens (hD : D.f.OK) (hA : A.f.OK) (h : D.f.Sub A.f) : Widens (convert D A) where
  lt := by
    intro x y
    have hc : ∀ a ha, convert D A (Fl.fin a ha) = mkNum A a (h.fin ha) := fun a ha => convert_fin h ha
    cases x <;> cases y <;> (try rw [hc]) <;> (try rw [hc]) <;> rfl
  zero := convert_int hD hA h (by simp)
  one := convert_int hD hA h (by simp)
  negInf := rfl
  neg := by
    intro x
    cases x with
    | fin a ha =>
      have h1 := convert_fin h ha
      have h2 := convert_fin h (a := -a) ⟨ha.1.neg, by rw [abs_neg]; exact ha.2⟩
      show convert D A (mkNum D (-a) _) = Num.neg (convert D A (mkNum D a ha))
      rw [h1, h2]; rfl
    | _ => rfl

end
end CP.Spec
