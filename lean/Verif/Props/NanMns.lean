import Verif.Props.Safety
import Verif.Proofs.MnsStep
/-
Property C45: NaN boundaries and `ecdf1_mns2016`.
-/
namespace CP.Props
open CP FOps

theorem XR.nan_add (x : XR) : FOps.add XR.nan x = XR.nan := by show XR.add _ _ = _; cases x <;> rfl
theorem XR.add_nan (x : XR) : FOps.add x XR.nan = XR.nan := by show XR.add _ _ = _; cases x <;> rfl
theorem XR.nan_mul (x : XR) : FOps.mul XR.nan x = XR.nan := by show XR.mul _ _ = _; cases x <;> rfl
theorem XR.mul_nan (x : XR) : FOps.mul x XR.nan = XR.nan := by show XR.mul _ _ = _; cases x <;> rfl
theorem XR.nan_div (x : XR) : FOps.div XR.nan x = XR.nan := by show XR.div _ _ = _; cases x <;> rfl
theorem XR.sub_nan (x : XR) : FOps.sub x XR.nan = XR.nan := by
  show XR.add x (XR.neg XR.nan) = _; cases x <;> rfl
theorem XR.nan_sub (x : XR) : FOps.sub XR.nan x = XR.nan := by
  show XR.add XR.nan (XR.neg x) = _; cases x <;> rfl

theorem foldl_nan (f : ℕ → XR) (l : List ℕ) : l.foldl (fun r i => r +ᶠ f i) XR.nan = XR.nan := by
  induction l with
  | nil => rfl
  | cons a l ih => rw [List.foldl_cons, XR.nan_add, ih]

theorem foldl_has_nan (f : ℕ → XR) (l : List ℕ) (i : ℕ) (hi : i ∈ l) (h : f i = XR.nan) (r : XR) :
    l.foldl (fun r i => r +ᶠ f i) r = XR.nan := by
  induction l generalizing r with
  | nil => cases hi
  | cons a l ih =>
    rw [List.foldl_cons]
    rcases List.mem_cons.mp hi with rfl | hi
    · rw [h, XR.add_nan, foldl_nan]
    · exact ih hi _

theorem evalF_nan {d : ℕ} {mu al : ℕ → XR} {x : XR} {i : ℕ} (hi : i ≤ d)
    (h : mu i *ᶠ powi (x +ᶠ al i) (i : Int) = XR.nan) : evalF d mu al x = XR.nan :=
  foldl_has_nan (fun i => mu i *ᶠ powi (x +ᶠ al i) (i : Int)) _ i (List.mem_range.mpr (by omega)) h _

/-- The constant coefficient is NaN after a step with a NaN boundary point or a NaN coefficient. -/
theorem stepMu_nan {d : ℕ} {mu al : ℕ → XR} {b : XR} (h : b = XR.nan ∨ mu 0 = XR.nan) :
    stepMu d mu al b 0 = XR.nan := by
  have e : evalF (d + 1) (intMu mu) (intAl al (neg b)) b = XR.nan := by
    apply evalF_nan (i := 1) (by omega)
    rcases h with rfl | h
    · rw [XR.nan_add]
      show _ *ᶠ (if ((1 : ℕ) : Int) = 0 then XR.fin 1 else XR.nan) = _
      rw [if_neg (by decide), XR.mul_nan]
    · have : intMu mu 1 = XR.nan := by
        unfold intMu
        rw [if_neg (by decide), h, XR.nan_div]
      rw [this, XR.nan_mul]
  unfold stepMu setC
  rw [if_pos rfl, e]
  rfl

/-- C45: a list that contains NaN and passes validation makes `ecdf1_mns2016_b` return NaN without any error
(whatever exponents are read). -/
theorem C45_b (env : Env XR) (readExponent : Int → XR → Int) (b : List XR) (hnan : XR.nan ∈ b)
    (hc : checkBoundaryVector "b" b.length b = .ok ()) : ecdf1Mns2016bWith env readExponent b = .ok XR.nan := by
  unfold ecdf1Mns2016bWith
  dsimp only
  rw [hc, M_ok_bind]
  obtain ⟨bv, hbv⟩ := exists_fun (a := b)
  obtain ⟨k, hk, hkn⟩ := List.mem_iff_getElem.mp hnan
  have hbk : bv k = XR.nan := by
    have h2 := (hbv k hk).2
    rw [Int.toNat_natCast, List.getElem?_eq_getElem hk, Option.some_inj] at h2
    rw [← h2, hkn]
  have h := mns_loop_sat (E := NoFault) (env := env) (readExponent := readExponent) hbv
    (fun d mu _ _ => k < d → mu 0 = XR.nan) (fun h => by omega)
    (fun d mu al delta hd hR => by
      have key : k < d + 1 → stepMu d mu al (bv d) 0 = XR.nan := by
        intro hkd
        by_cases e : k = d
        · subst e; exact stepMu_nan (Or.inl hbk)
        · exact stepMu_nan (Or.inr (hR (by omega)))
      refine ⟨key, fun e hkd => ?_⟩
      show ldexp (stepMu d mu al (bv d) 0) e = _
      rw [key hkd]
      rfl)
  have h' := Sat.bind (R := fun x => x = XR.nan) (f := fun s : Poly XR × Int => do
    let integralResult ← s.1.evaluate (ofInt 1)
    .ok (exp (lgamma (ofInt ((b.length : Int) + 1)) +ᶠ log integralResult -ᶠ ofInt s.2 *ᶠ log (ofInt 2))))
    h (fun s hs => by
      obtain ⟨mu, al, hp, hR⟩ := hs
      refine Sat.bind (evaluate_sat hp _) fun v hv => ?_
      have : v = XR.nan := by
        rw [hv]
        refine evalF_nan (i := 0) (by omega) ?_
        rw [hR hk, XR.nan_mul]
      rw [this]
      show exp (lgamma _ +ᶠ XR.nan -ᶠ _) = XR.nan
      rw [XR.add_nan, XR.nan_sub]
      rfl)
  simp only [bind_assoc] at h'
  obtain ⟨x, hx, rfl⟩ := h'.exists_ok
  exact hx

/-- C45: `ecdf1_mns2016_b` and `ecdf1_mns2016_B` never return a number for a list containing NaN: they return NaN
or throw. -/
theorem C45_never_a_number (env : Env XR) (v : List XR) (hnan : XR.nan ∈ v) (x : XR) :
    (ecdf1Mns2016b env v = .ok x → x = XR.nan) ∧ (ecdf1Mns2016B env v = .ok x → x = XR.nan) := by
  have hb : ∀ (v : List XR), XR.nan ∈ v → ∀ x, ecdf1Mns2016b env v = .ok x → x = XR.nan := by
    intro v hn x h
    cases hc : checkBoundaryVector "b" v.length v with
    | error e =>
      unfold ecdf1Mns2016b ecdf1Mns2016bWith at h
      dsimp only at h
      rw [hc] at h
      cases h
    | ok u =>
      unfold ecdf1Mns2016b at h
      rw [C45_b env _ v hn hc] at h
      injection h with h
      exact h.symm
  refine ⟨hb v hnan x, fun h => ?_⟩
  unfold ecdf1Mns2016B at h
  dsimp only at h
  cases hc : checkBoundaryVector "B" v.length v with
  | error e => rw [hc] at h; cases h
  | ok u =>
    rw [hc, M_ok_bind] at h
    have hs : Sat NoFault (fun s => XR.nan ∈ s) (symmetricSteps v) := by
      obtain ⟨k, hk, hkn⟩ := List.mem_iff_getElem.mp hnan
      unfold symmetricSteps
      dsimp only
      have hbk : Has v (k : Int) XR.nan := ⟨by omega, by rw [Int.toNat_natCast, List.getElem?_eq_getElem hk, hkn]⟩
      refine (Sat.forRange (fun j (s : List XR) => s.length = v.length ∧
        ((v.length - 1 - k : ℕ) < j → Has s ((v.length - 1 - k : ℕ) : Int) XR.nan)) (by omega)
        ⟨by simp, fun h => by omega⟩ ?_).mono ?_
      · intro j s h0 h1 ⟨hl, hp⟩
        obtain ⟨y, hy⟩ := exists_has (a := v) (i := v.length - 1 - j) (by omega) (by omega)
        rw [rd_eq hy, M_ok_bind]
        refine (wr_sat _ h0 (by omega)).mono fun s' ⟨hl', hs'⟩ => ⟨by omega, fun hj => ?_⟩
        rw [hs']
        by_cases e : ((v.length - 1 - k : ℕ) : Int) = j
        · refine Or.inl ⟨e, ?_⟩
          have : (v.length : Int) - 1 - j = k := by omega
          rw [this] at hy
          rw [hy.unique hbk]
          exact (XR.sub_nan _).symm
        · exact Or.inr ⟨e, hp (by omega)⟩
      · intro s ⟨hl, hp⟩
        exact List.mem_of_getElem? (hp (by omega)).2
    obtain ⟨s, hs1, hs2⟩ := hs.exists_ok
    rw [hs1, M_ok_bind] at h
    exact hb s hs2 x h

/-- The list of `C15_validation_accepts_nan`: `ecdf2` throws on it, `ecdf1_mns2016_b` silently returns NaN. -/
example : ecdf1Mns2016b relEnv [XR.fin (3/4), XR.nan, XR.fin (1/4)] = .ok XR.nan :=
  C45_b relEnv _ _ (by simp) C15_validation_accepts_nan

end CP.Props
