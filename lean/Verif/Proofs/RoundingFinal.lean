import Verif.Proofs.Rounding
/-
Forward error analysis of `ecdf2`: validation, sorting, final division.
-/
set_option linter.unusedVariables false
open Finset
namespace CP.Spec
noncomputable section
variable {F : Type} [FOps F] {E : Fault → Prop} {R : FloatModel F} {S : Set F}
open FOps

theorem FloatModel.lt_false (R : FloatModel F) {x y : F} (hx : R.finite x) (hy : R.finite y) :
    lt x y = false ↔ R.val y ≤ R.val x := by
  rw [← Bool.not_eq_true, R.lt_iff x y hx hy, not_lt]

theorem isMonotoneFrom_float {n : ℕ} (b : Fin n → F) (hfin : ∀ i, R.finite (b i)) (hm : Monotone fun i => R.val (b i)) (p : F)
    (hp : ∀ i, lt (b i) p = false) : isMonotoneFrom p (List.ofFn b) = true := by
  induction n generalizing p with
  | zero => simp [isMonotoneFrom]
  | succ n ih =>
    rw [List.ofFn_succ, isMonotoneFrom]
    rw [if_neg (by rw [hp 0]; simp)]
    refine ih (fun i => b i.succ) (fun i => hfin _) (fun i j h => hm (Fin.succ_le_succ_iff.mpr h)) _ ?_
    intro i
    rw [R.lt_false (hfin _) (hfin _)]
    exact hm (Fin.zero_le i.succ)

theorem check_valid_float {n : ℕ} {b : Fin n → F} (hfin : ∀ i, R.finite (b i)) (hb : ValidBound fun i => R.val (b i))
    (name : String) (k : Int) (hk : k = n) : checkBoundaryVector name k (List.ofFn b) = .ok () := by
  unfold checkBoundaryVector
  rw [if_neg (by simp [hk])]
  have h1 : isMonotoneIncreasing (List.ofFn b) = true :=
    isMonotoneFrom_float b hfin hb.mono _ (fun i => R.not_lt_negInf _ (hfin i))
  rw [h1]
  have h2 : outOfRange (List.ofFn b) = false := by
    cases n with
    | zero => simp [outOfRange]
    | succ n =>
      have e : List.ofFn b = b 0 :: List.ofFn (fun i : Fin n => b i.succ) := List.ofFn_succ
      have hl : ∀ (l : List F) (h : l ≠ []), l = List.ofFn b → ∃ i, l.getLast h = b i := by
        intro l h e
        have hmem : ∀ y ∈ l, ∃ i, y = b i := by
          intro y hy
          rw [e, List.mem_ofFn] at hy
          obtain ⟨i, hi⟩ := hy
          exact ⟨i, hi.symm⟩
        exact hmem _ (List.getLast_mem h)
      rw [e]
      obtain ⟨i, hi⟩ := hl _ (by simp) e.symm
      unfold outOfRange
      dsimp only
      rw [hi, Bool.or_eq_false_iff, R.lt_false (hfin _) R.zero_finite, R.lt_false R.one_finite (hfin _), R.val_zero, R.val_one]
      exact ⟨(hb.range 0).1, (hb.range i).2⟩
  simp [h2]

/-- Sorting the real points any admissible way. -/
theorem sorted_real {n : ℕ} {b B : Fin n → ℝ} (hb : ValidBound b) (hB : ValidBound B) {L0 : List RBound}
    (hperm : L0.Perm (unsortedR b B)) (hs : L0.Pairwise fun x y => x.1 ≤ y.1) :
    ∃ L : List RBound, L = L0 ++ [(1, BoundType.END)] ∧ L.Pairwise (fun x y => x.1 ≤ y.1) ∧ Lists .bSTEP b L ∧
      Lists .BSTEP B L ∧ (∀ y ∈ L, 0 ≤ y.1) ∧ (∀ y ∈ L, y.1 ≤ 1) := by
  classical
  let sort : List (Bound XR) → List (Bound XR) := fun l =>
    if l = unsortedBounds (toList b) (toList B) then L0.map toB else mergeSortBounds l
  have hsort : SortContract sort := by
    constructor
    · intro l
      show (if _ then _ else _ : List (Bound XR)).Perm l
      split
      · rename_i h
        rw [h, unsorted_eq]
        exact hperm.map _
      · exact mergeSortBounds_contract.perm l
    · intro l hl
      show (if _ then _ else _ : List (Bound XR)).Pairwise _
      split
      · rw [List.pairwise_map]
        exact hs.imp fun {x y} h => by simpa [toB] using h
      · exact mergeSortBounds_contract.sorted l hl
  obtain ⟨L, hj, _, h2, h3, h4, h5, h6⟩ := sorted_points hb hB hsort
  refine ⟨L, ?_, h2, h3, h4, h5, h6⟩
  have hinj : Function.Injective toB := by
    rintro ⟨x, s⟩ ⟨y, t⟩ h
    simp only [toB, Bound.mk.injEq, XR.fin_inj] at h
    rw [h.1, h.2]
  have e : joinAllBounds sort (toList b) (toList B) = (L0 ++ [(1, BoundType.END)]).map toB := by
    unfold joinAllBounds
    show (if _ then _ else _ : List (Bound XR)) ++ _ = _
    rw [if_pos rfl, List.map_append]
    simp [toB]
  rw [e] at hj
  exact (List.map_injective_iff.mpr hinj hj).symm

theorem unsorted_map {n : ℕ} (b B : Fin n → F) :
    (unsortedBounds (List.ofFn b) (List.ofFn B)).map (rb R) = unsortedR (fun i => R.val (b i)) (fun i => R.val (B i)) := by
  unfold unsortedBounds unsortedR
  rw [List.map_append, List.map_map, List.map_map]
  have e : ∀ (c : Fin n → F), (List.ofFn fun i => R.val (c i)) = (List.ofFn c).map R.val := by
    intro c; rw [List.map_ofFn]; rfl
  rw [e, e, List.map_map, List.map_map]
  rfl

theorem init_frep (env : Env F) {n : ℕ} {g : PmfGen F} (hg : PmfInv ((n : ℤ) + 1) g) {src : List F}
    (hl : (src.length : Int) = n + 1) (h1 : Has src 0 one) (hz : zero ∈ S) (K : ℕ) {A : ℝ} (hA : 0 ≤ A) :
    FRep R S n { buffers := (DoubleBuffer.new ((n : ℤ) + 1) (FOps.zero : F)).setSrc src,
                 conv := Convolver.new env ((n : ℤ) + 1), pmfgen := g, bStep := 0, BStep := 0,
                 prev := FOps.zero } 0 (fun m => if m = 0 then 1 else 0) 0 0 K A := by
  have hpw : ∀ m, pw n 0 (fun m => if m = 0 then (1 : ℝ) else 0) m = if m = 0 then 1 else 0 := by
    intro m
    unfold pw
    by_cases hm : m = 0 <;> simp [hm]
  refine ⟨ncInit env (n := (n : Int)) (by omega) hg hl, rfl, rfl, R.zero_finite, hz, R.val_zero, ?_, ?_, ?_, ?_⟩
  · intro m hm
    have : m ≠ 0 := by omega
    simp [this]
  · intro m; rw [hpw]; split <;> norm_num
  · intro m; rw [hpw]; split <;> norm_num
  · intro m hm1 hm2
    have : m = 0 := by omega
    subst this
    dsimp only
    rw [DoubleBuffer.src_setSrc, hpw, if_pos rfl]
    exact ⟨one, h1, Approx.one.mono zero_le_one le_rfl (Nat.zero_le _) hA⟩

/-- `ecdf2` with direct convolution. -/
theorem ecdf2_round (env : Env F) {n P : ℕ} {etaP : ℝ} (hpmf : PmfAccurate R S n P etaP) {b B : Fin n → F}
    (hz : zero ∈ S) (ho : one ∈ S) (hbS : ∀ i, b i ∈ S) (hBS : ∀ i, B i ∈ S)
    (hbf : ∀ i, R.finite (b i)) (hBf : ∀ i, R.finite (B i)) (hb : ValidBound fun i => R.val (b i))
    (hB : ValidBound fun i => R.val (B i)) {sort : List (Bound F) → List (Bound F)} (hsort : SortContractF R sort)
    (ha : env.asserts = false ∨ ¬ ∃ i j : Fin n, (j : ℕ) = i + 1 ∧ R.val (B j) < R.val (b i))
    {A : ℝ} (hA : A = errA (((n : ℝ) + 1) * (etaP + R.eta)) (2 * n + 1) / pois n n + R.eta)
    (hn : 1 ≤ n)
    (hO : (1 + A) * R.g ^ ((2 * n + 1) * (P + n + 2) + P + 1) ≤ R.Omega) :
    ∃ x, ecdf2 env sort (List.ofFn b) (List.ofFn B) false = .ok x ∧
      Approx R ((2 * n + 1) * (P + n + 2) + P + 1) A x (noncrossProb (fun i => R.val (b i)) (fun i => R.val (B i))) := by
  set pr := noncrossProb (fun i => R.val (b i)) (fun i => R.val (B i)) with hpr
  set rho := ((n : ℝ) + 1) * (etaP + R.eta) with hrho
  have heta := R.eta_nonneg
  have hetaP := hpmf.etaP_nonneg
  have hrho0 : 0 ≤ rho := by rw [hrho]; positivity
  have hpi : 0 < pois n n := pois_pos (by exact_mod_cast hn) n
  have hpi1 : pois (n : ℝ) n ≤ 1 := by
    have := sum_pois_le (Nat.cast_nonneg n) (n + 1)
    rw [Finset.sum_range_succ] at this
    have : 0 ≤ ∑ k ∈ range n, pois (n : ℝ) k := Finset.sum_nonneg fun k _ => pois_nonneg (Nat.cast_nonneg n) k
    linarith
  have hE0 := errA_nonneg hrho0 (2 * n + 1)
  have hEpi : errA rho (2 * n + 1) ≤ errA rho (2 * n + 1) / pois n n := by
    rw [le_div_iff₀ hpi]; exact mul_le_of_le_one_right hE0 hpi1
  have hA0 : 0 ≤ A := by rw [hA]; positivity
  have hO' : (1 + errA rho (2 * n + 1)) * R.g ^ ((2 * n + 1) * (P + n + 2)) ≤ R.Omega := by
    refine le_trans (mul_le_mul ?_ (R.pow_le (by omega)) (R.pow_pos' _).le (by linarith)) hO
    rw [hA]; linarith
  have hpr1 : pr ≤ 1 := by
    haveI : MeasureTheory.IsProbabilityMeasure (iidUniform n) := by
      unfold iidUniform
      haveI : MeasureTheory.IsProbabilityMeasure ((MeasureTheory.volume : MeasureTheory.Measure ℝ).restrict (Set.Icc 0 1)) :=
        ⟨by simp⟩
      infer_instance
    exact MeasureTheory.measureReal_le_one
  have hpr0 : 0 ≤ pr := MeasureTheory.measureReal_nonneg
  have key : Sat NoFault (fun x => Approx R ((2 * n + 1) * (P + n + 2) + P + 1) A x pr)
      (ecdf2 env sort (List.ofFn b) (List.ofFn B) false) := by
    unfold ecdf2
    dsimp only
    rw [check_valid_float hbf hb "b" _ (by simp), M_ok_bind, check_valid_float hBf hB "B" _ (by simp), M_ok_bind]
    simp only [List.length_ofFn]
    -- the sorted list
    set U := unsortedBounds (List.ofFn b) (List.ofFn B) with hU
    have hUfin : ∀ x ∈ U, R.finite x.location := by
      intro x hx
      rw [hU] at hx
      unfold unsortedBounds at hx
      rw [List.mem_append, List.mem_map, List.mem_map] at hx
      rcases hx with ⟨z, hz, rfl⟩ | ⟨z, hz, rfl⟩
      · rw [List.mem_ofFn] at hz; obtain ⟨i, rfl⟩ := hz; exact hbf i
      · rw [List.mem_ofFn] at hz; obtain ⟨i, rfl⟩ := hz; exact hBf i
    have hUS : ∀ x ∈ U, x.location ∈ S := by
      intro x hx
      rw [hU] at hx
      unfold unsortedBounds at hx
      rw [List.mem_append, List.mem_map, List.mem_map] at hx
      rcases hx with ⟨z, hz, rfl⟩ | ⟨z, hz, rfl⟩
      · rw [List.mem_ofFn] at hz; obtain ⟨i, rfl⟩ := hz; exact hbS i
      · rw [List.mem_ofFn] at hz; obtain ⟨i, rfl⟩ := hz; exact hBS i
    have hSperm := hsort.perm U
    have hSfin : ∀ x ∈ sort U, R.finite x.location := fun x hx => hUfin x (hSperm.mem_iff.mp hx)
    have hSsorted := hsort.sorted U hUfin
    have hL0perm : ((sort U).map (rb R)).Perm (unsortedR (fun i => R.val (b i)) (fun i => R.val (B i))) := by
      rw [← unsorted_map (R := R)]
      exact hSperm.map _
    have hL0sorted : ((sort U).map (rb R)).Pairwise fun x y => x.1 ≤ y.1 := by
      rw [List.pairwise_map]
      refine hSsorted.imp_of_mem ?_
      intro x y hx hy h
      exact (R.lt_false (hSfin y hy) (hSfin x hx)).mp h
    obtain ⟨L, hL, hLs, hLb, hLB, h0, h1⟩ := sorted_real hb hB hL0perm hL0sorted
    have hmap : (joinAllBounds sort (List.ofFn b) (List.ofFn B)).map (rb R) = L := by
      unfold joinAllBounds
      rw [← hU, List.map_append, hL]
      simp only [List.map_cons, List.map_nil, rb, R.val_one]
    set J := joinAllBounds sort (List.ofFn b) (List.ofFn B) with hJ
    have hJfin : ∀ y ∈ J, R.finite y.location := by
      intro y hy
      rw [hJ] at hy
      unfold joinAllBounds at hy
      rw [List.mem_append, List.mem_singleton] at hy
      rcases hy with hy | rfl
      · exact hSfin y hy
      · exact R.one_finite
    have hJS : ∀ y ∈ J, y.location ∈ S := by
      intro y hy
      rw [hJ] at hy
      unfold joinAllBounds at hy
      rw [List.mem_append, List.mem_singleton] at hy
      rcases hy with hy | rfl
      · exact hUS y (hSperm.mem_iff.mp hy)
      · exact ho
    have hJlen : J.length = 2 * n + 1 := by
      rw [hJ]
      unfold joinAllBounds
      rw [List.length_append, hSperm.length_eq, hU]
      unfold unsortedBounds
      simp
      omega
    have hmem : ∀ y ∈ J, (R.val y.location, y.tag) ∈ L := by
      intro y hy; rw [← hmap]; exact List.mem_map_of_mem hy
    have hr : Sat NoFault (fun probs => ∃ w, Has probs (n : ℤ) w ∧
          Approx R ((2 * n + 1) * (P + n + 2)) (errA rho (2 * n + 1)) w (pois n n * pr))
        (poissonProcessNoncrossingProbability env sort (n : ℤ) (FOps.ofInt (n : ℤ)) (List.ofFn b) (List.ofFn B) false) := by
      unfold poissonProcessNoncrossingProbability
      have hl0 : ((DoubleBuffer.new ((n : Int) + 1) (FOps.zero : F)).src.length : Int) = n + 1 := by
        simp [DoubleBuffer.new, DoubleBuffer.src]
      refine Sat.bind (wr_sat _ (by omega) (by omega)) fun src hsrc => ?_
      refine Sat.bind (pmfGen_new_sat env (by omega)) fun g hg => ?_
      rw [← hJ]
      have hrep := init_frep (R := R) (S := S) env hg (src := src) (by omega) ((hsrc.2 _ _).2 (Or.inl ⟨rfl, rfl⟩)) hz (0 * (P + n + 2)) (A := errA rho 0) (by simp [errA])
      refine Sat.bind (ncFold_round env hpmf hrho hO' J _ 0 _ 0 0 0 Set.univ hrep (by omega) CountLaw.zero le_rfl hJfin hJS
        ?_ ?_ ?_ ?_ ?_ ?_) ?_
      · intro y hy; exact h0 _ (hmem y hy)
      · intro y hy; exact h1 _ (hmem y hy)
      · have := hLs
        rw [← hmap, List.pairwise_map] at this
        exact this
      · rw [hmap, hLb.tc]; omega
      · rw [hmap, hLB.tc]; omega
      · rw [hmap, noAbort_eq hLb hLB hB.mono hLs h0]; exact ha
      · rintro s ⟨v, hrep', hlaw⟩
        have hlast : lastLoc 0 L = 1 := by rw [hL]; simp [lastLoc]
        rw [hmap, hlast] at hrep' hlaw
        rw [hLb.tc, hLB.tc, hJlen, Nat.zero_add, Nat.zero_add] at hrep'
        rw [Set.univ_inter, win_eq hLb hLB hLs] at hlaw
        have hp := hlaw.prob
        rw [← noncrossProb_eq, ← hpr] at hp
        obtain ⟨w, hw, hap⟩ := hrep'.val n (by omega) (by omega)
        refine ⟨w, hw, ?_⟩
        have hfac : (n.factorial : ℝ) ≠ 0 := by exact_mod_cast (Nat.factorial_pos n).ne'
        have e2 : pw n 1 v n = pois n n * pr := by
          unfold pw pois
          rw [hp, mul_one]
          field_simp
        rw [← e2]
        exact hap
    refine Sat.bind hr fun probs hp => ?_
    obtain ⟨w, hw, hap⟩ := hp
    rw [rd_eq hw, M_ok_bind]
    refine Sat.bind (poissonPmf_sat env (by omega) (Or.inr hpmf.n_pos.1)) ?_
    intro p hp
    rw [Int.toNat_natCast] at hp
    obtain ⟨hpf, hpl, hpu⟩ := hpmf.last p (by
      rw [hp]; unfold pmfVal; rw [hpmf.n_pos.2]; simp)
    rw [poissonProb_eq] at hpl hpu
    have gP := R.pow_pos' P
    have hp0 : 0 < R.val p := lt_of_lt_of_le (by positivity) hpl
    show Approx R _ A (w /ᶠ p) pr
    set K := (2 * n + 1) * (P + n + 2) with hK
    set Er := errA rho (2 * n + 1) with hEr
    have gK := R.pow_pos' K
    have g0 := R.g_pos
    have hup : R.val w / R.val p ≤ (pr + Er / pois n n) * R.g ^ (K + P) := by
      rw [div_le_iff₀ hp0]
      have h2 : (pr + Er / pois n n) * R.g ^ (K + P) * (pois n n / R.g ^ P)
          ≤ (pr + Er / pois n n) * R.g ^ (K + P) * R.val p :=
        mul_le_mul_of_nonneg_left hpl (by positivity)
      have h3 : (pr + Er / pois n n) * R.g ^ (K + P) * (pois n n / R.g ^ P) = (pois n n * pr + Er) * R.g ^ K := by
        rw [pow_add]; field_simp
      calc R.val w ≤ (pois n n * pr + Er) * R.g ^ K := hap.upper
        _ = _ := h3.symm
        _ ≤ _ := h2
    have hlow : pr / R.g ^ (K + P) - Er / pois n n ≤ R.val w / R.val p := by
      by_cases hneg : pois n n * pr / R.g ^ K - Er ≤ 0
      · have hw0 : 0 ≤ R.val w / R.val p := div_nonneg hap.nonneg hp0.le
        have h4 : pr / R.g ^ (K + P) ≤ pr / R.g ^ K := div_le_div_of_nonneg_left hpr0 gK (R.pow_le (by omega))
        have h5 : pr / R.g ^ K ≤ Er / pois n n := by
          rw [le_div_iff₀ hpi]
          have : pr / R.g ^ K * pois n n = pois n n * pr / R.g ^ K := by ring
          linarith
        linarith
      · have hpos := not_le.mp hneg
        have h6 : (pois n n * pr / R.g ^ K - Er) / (pois n n * R.g ^ P) ≤ R.val w / R.val p :=
          div_le_div₀ hap.nonneg hap.lower hp0 hpu
        have h7 : (pois n n * pr / R.g ^ K - Er) / (pois n n * R.g ^ P) = pr / R.g ^ (K + P) - Er / pois n n / R.g ^ P := by
          rw [pow_add]; field_simp
        have h8 : Er / pois n n / R.g ^ P ≤ Er / pois n n := div_le_self (by positivity) (R.one_le_pow P)
        linarith
    obtain ⟨hdf, hd0, hdl, hdu⟩ := R.div w p hap.fin hpf hap.nonneg hp0 (by
      refine hup.trans (le_trans (mul_le_mul ?_ (R.pow_le (by omega)) (R.pow_pos' _).le (by linarith)) hO)
      rw [hA]; linarith)
    refine ⟨hdf, hd0, le_trans ?_ hdl, hdu.trans ?_, fun Z h => Z.div w p hap.fin hpf (hap.exact0 Z (by rw [h, mul_zero])) hp0.ne'⟩
    · have h7 : (pr / R.g ^ (K + P) - Er / pois n n) / R.g ≤ R.val w / R.val p / R.g :=
        div_le_div_of_nonneg_right hlow g0.le
      have h8 : (pr / R.g ^ (K + P) - Er / pois n n) / R.g = pr / R.g ^ (K + P + 1) - Er / pois n n / R.g := by
        rw [pow_succ, sub_div, div_div]
      have h9 : Er / pois n n / R.g ≤ Er / pois n n := div_le_self (by positivity) R.one_le_g
      rw [hA]; linarith
    · calc R.val w / R.val p * R.g + R.eta
          ≤ (pr + Er / pois n n) * R.g ^ (K + P) * R.g + R.eta * R.g ^ (K + P + 1) := by
            refine add_le_add (mul_le_mul_of_nonneg_right hup g0.le) ?_
            exact le_mul_of_one_le_right R.eta_nonneg (R.one_le_pow _)
        _ = (pr + A) * R.g ^ (K + P + 1) := by rw [hA, pow_succ]; ring
  exact key.exists_ok

end
end CP.Spec
