import Verif.Proofs.RoundingAbs
import Verif.Proofs.FastFftStep
import Verif.Proofs.FastNewAbs
/-
Forward error analysis of `ecdf2` with FFT as compiled with `-ffast-math`: absolute errors (cf. `Proofs/RoundingAbs.lean`).
-/
set_option linter.unusedVariables false
open Finset
namespace CP.Spec
noncomputable section
variable {F : Type} [FOps F] {E : Fault → Prop} {R : FloatModel F} {S : Set F}
open FOps

/-- One step of the loop, as compiled. -/
theorem ncStepFast_abs {co : FastCode F} (env : Env F) {n P : ℕ} {etaP : ℝ} (hpmf : FastPmf R co S n P etaP) {rho eps om W kap : ℝ}
    (hrho : rho = R.g ^ P - 1 + (n + 1) * etaP * R.g ^ P) (heps : 0 ≤ eps) (hom : 0 ≤ om)
    (hconv : ∀ site, ConvAccurate R (fastConvVal co env.fft site) (n + 1) eps om W)
    (hkap : kap = (1 + rho) * (1 + eps) + om) {s : NCState F}
    {t : ℝ} {v : ℕ → ℝ} {c d i N : ℕ} (hr : ARep R S n s t v c d (kap ^ i - 1)) (ht0 : 0 ≤ t)
    (y : Bound F) (site : ℕ) (hyf : R.finite y.location) (hyS : y.location ∈ S) (ht : t ≤ R.val y.location) (hy1 : R.val y.location ≤ 1)
    (hc : y.tag = .bSTEP → c < n) (hd : y.tag = .BSTEP → d < n)
    (ha : env.asserts = false ∨ (t < R.val y.location → d ≤ c + 1))
    (hiN : i + 1 ≤ N) (hW : kap ^ N ≤ W) :
    Sat E (fun s' => ARep R S n s' (R.val y.location)
        (vstep (R.val y.location - t) (fun m => dN y.tag d ≤ m ∧ m ≤ c) v) (cN y.tag c) (dN y.tag d) (kap ^ (i + 1) - 1))
      (ncStepFast co env (ofInt n) true s (y, site)) := by
  have hb := hr.b; have hB := hr.B
  have hbn := hr.inv.bn
  have hetaP := hpmf.etaP_nonneg
  have hG := R.one_le_pow P
  have hrho0 : 0 ≤ rho := by
    have : 0 ≤ ((n : ℝ) + 1) * etaP * R.g ^ P := by have := R.pow_pos' P; positivity
    linarith
  have hkap1 : 1 + rho ≤ kap := by
    rw [hkap]
    have : 0 ≤ (1 + rho) * eps := by positivity
    nlinarith
  have hk1 : 1 ≤ kap := by linarith
  have hki : 1 ≤ kap ^ i := one_le_pow₀ hk1
  have hkis : kap ^ i ≤ kap ^ (i + 1) := pow_le_pow_right₀ hk1 (by omega)
  have hkiN : kap ^ (i + 1) ≤ W := (pow_le_pow_right₀ hk1 hiN).trans hW
  have hkW : 1 + rho ≤ W := hkap1.trans ((le_self_pow₀ hk1 (by omega)).trans hkiN)
  obtain ⟨hs1, hs2, hs3⟩ := hpmf.sign s.prev hr.prevS y.location hyS hr.prevFin hyf (by rw [hr.prev]; exact ht0)
    (by rw [hr.prev]; exact ht) hy1
  rw [hr.prev] at hs2 hs3
  set lam : F := ofInt n *ᶠ (y.location -ᶠ s.prev) with hlam
  have hnn : 0 ≤ (n : ℝ) * (R.val y.location - t) := mul_nonneg (Nat.cast_nonneg _) (by linarith)
  obtain ⟨f, hf, hfE⟩ := hr.val
  have hdn : d ≤ n := by have := hr.inv.Bn; omega
  have hcn : c ≤ n := by omega
  refine (ncStepFast_fft_sat co env hr.inv site hlam (f := f) ?_ ?_ ?_ ?_ ?_ ?_).mono ?_
  · intro m h1 h2; exact (hf m (by omega) (by omega)).1
  · intro h; have := hc h; omega
  · intro h; have := hd h; omega
  · rcases ha with ha | ha
    · exact Or.inl ha
    · right
      by_cases htt : t < R.val y.location
      · right; have := ha htt; omega
      · left
        rw [← Bool.not_eq_true]
        exact fun h => htt (hs2.mp h)
  · intro _ h; rw [hs1] at h; cases h
  · intro h1 h2
    have h1' : ¬ t < R.val y.location := fun h => by rw [hs2.mpr h] at h1; cases h1
    have : FOps.eq lam zero = true := hs3.mpr (le_antisymm ht (not_lt.mp h1'))
    rw [this] at h2; cases h2
  · intro s' ⟨hinv, hb', hB', hprev, hval⟩
    have hb'' : s'.bStep = (cN y.tag c : ℕ) := by
      rw [hb', hb]; by_cases h : y.tag = .bSTEP <;> simp [bNext, cN, h]
    have hB'' : s'.BStep = (dN y.tag d : ℕ) := by
      rw [hB', hB]; by_cases h : y.tag = .BSTEP <;> simp [BNext, dN, h]
    have hddN : d ≤ dN y.tag d := by unfold dN; split <;> omega
    have hccN : cN y.tag c = c ∨ (y.tag = .bSTEP ∧ cN y.tag c = c + 1) := by
      unfold cN; split
      · rename_i h; exact Or.inr ⟨h, rfl⟩
      · exact Or.inl rfl
    obtain ⟨hpn, hps⟩ := pw_step_sum ht hr.nonneg hr.sum_le (fun m => dN y.tag d ≤ m ∧ m ≤ c)
    refine ⟨hinv, hb'', hB'', by rw [hprev]; exact hyf, by rw [hprev]; exact hyS, by rw [hprev], ?_, hpn, hps, ?_⟩
    · intro m hm
      unfold vstep
      rw [if_neg]
      rintro ⟨h1, h2⟩
      rcases hm with hm | hm
      · omega
      · rcases hccN with h | h <;> omega
    · rw [hb, hB] at hval
      simp only [Int.toNat_natCast] at hval
      set f' : ℕ → F := stepValFft co env.fft site lam y.tag c d f with hf'
      -- the contents of the window before the tag is applied
      suffices hmid : ∃ h : ℕ → F, (∀ m, d ≤ m → m ≤ c → R.finite (h m)) ∧
          (∀ m, ¬ (y.tag = .bSTEP ∧ m = c + 1) → f' m = h m) ∧
          ∑ m ∈ Ico d (c + 1), |R.val (h m) - ∑ l ∈ range (m + 1), pw n t v l * pois ((n : ℝ) * (R.val y.location - t)) (m - l)|
            ≤ kap ^ (i + 1) - 1 by
        obtain ⟨h, hhf, hhe, hhs⟩ := hmid
        refine ⟨f', ?_, ?_⟩
        · intro m hm1 hm2
          refine ⟨hval m (by omega) (by omega), ?_⟩
          by_cases h1 : y.tag = .bSTEP ∧ m = c + 1
          · rw [hf']
            unfold stepValFft
            rw [if_pos h1]
            exact R.zero_finite
          · rw [hhe m h1]
            refine hhf m (by omega) ?_
            rcases hccN with h2 | h2
            · omega
            · have : m ≠ c + 1 := fun e => h1 ⟨h2.1, e⟩
              omega
        · refine le_trans ?_ hhs
          have hz : ∀ m ∈ Ico (dN y.tag d) (cN y.tag c + 1), m ∉ Ico (dN y.tag d) (c + 1) →
              |R.val (f' m) - pw n (R.val y.location)
                (vstep (R.val y.location - t) (fun m => dN y.tag d ≤ m ∧ m ≤ c) v) m| = 0 := by
            intro m hm hm'
            rw [Finset.mem_Ico] at hm hm'
            rcases hccN with h2 | h2
            · omega
            · have e : m = c + 1 := by omega
              rw [pw_step, if_neg (by omega), hf']
              unfold stepValFft
              rw [if_pos ⟨h2.1, e⟩, R.val_zero, sub_zero, abs_zero]
          rw [← Finset.sum_subset (Finset.Ico_subset_Ico_right (by rcases hccN with h2 | h2 <;> omega)) hz]
          have hsub : Ico (dN y.tag d) (c + 1) ⊆ Ico d (c + 1) := Finset.Ico_subset_Ico_left hddN
          refine le_trans (le_of_eq ?_) (Finset.sum_le_sum_of_subset_of_nonneg hsub fun _ _ _ => abs_nonneg _)
          refine Finset.sum_congr rfl fun m hm => ?_
          rw [Finset.mem_Ico] at hm
          rw [hhe m (by omega), pw_step, if_pos (by omega)]
      by_cases hpos : t < R.val y.location
      · -- a convolution
        set m0 := c + 1 - d with hm0
        set p := fastPmfVal co site lam with hp
        set q : ℕ → ℝ := fun k => pw n t v (d + k) with hq
        set fb : ℕ → F := fun k => f (d + k) with hfb
        have hne : FOps.eq lam zero = false := by
          rw [← Bool.not_eq_true]
          exact fun h => hpos.ne (hs3.mp h)
        have hpa : ∀ k < m0, R.finite (p k) ∧ 0 ≤ R.val (p k) ∧
            pois ((n : ℝ) * (R.val y.location - t)) k / R.g ^ P - etaP ≤ R.val (p k) ∧
            R.val (p k) ≤ (pois ((n : ℝ) * (R.val y.location - t)) k + etaP) * R.g ^ P := by
          intro k hk
          have := hpmf.pmf site s.prev hr.prevS y.location hyS hr.prevFin hyf (by rw [hr.prev]; exact ht0)
            (by rw [hr.prev]; exact hpos) hy1 k (by omega) (fastPmfVal co site lam k) (by
              unfold fastPmfVal
              rw [hne]
              simp only [Bool.false_eq_true, if_false]
              rw [hlam])
          rw [hr.prev] at this
          exact this
        obtain ⟨hpd, hpn1⟩ := pmf_l1 hetaP hnn (p := p) (m := m0) (by omega) hpa hrho
        have hqn : ∀ k, 0 ≤ q k := fun k => hr.nonneg _
        have hq1 : l1 m0 q ≤ 1 := by
          rw [l1_of_nonneg hqn]
          have h1 := hr.sum_le (d + m0)
          rw [Finset.sum_range_add] at h1
          have h2 : 0 ≤ ∑ m ∈ range d, pw n t v m := Finset.sum_nonneg fun m _ => hr.nonneg m
          linarith
        have hbd : l1 m0 (fun k => R.val (fb k) - q k) ≤ kap ^ i - 1 := by
          rw [Finset.sum_Ico_eq_sum_range] at hfE
          exact hfE
        have hb1 : l1 m0 (fun k => R.val (fb k)) ≤ kap ^ i := by
          have h3 := l1_add m0 (fun k => R.val (fb k) - q k) q
          simp only [sub_add_cancel] at h3
          linarith
        obtain ⟨hcf, hce⟩ := hconv site m0 (by omega) p fb (fun k hk => (hpa k hk).1)
          (fun k hk => (hf (d + k) (by omega) (by omega)).2) (by linarith) (by linarith)
        refine ⟨fun m => fastConvVal co env.fft site m0 p fb (m - d), ?_, ?_, ?_⟩
        · intro m h1 h2; exact hcf (m - d) (by omega)
        · intro m hm
          rw [hf']
          unfold stepValFft
          rw [if_neg hm, if_pos (hs2.mpr hpos)]
        · rw [Finset.sum_Ico_eq_sum_range]
          have h4 : ∀ k ∈ range (c + 1 - d), |R.val (fastConvVal co env.fft site m0 p fb (d + k - d))
                - ∑ l ∈ range (d + k + 1), pw n t v l * pois ((n : ℝ) * (R.val y.location - t)) (d + k - l)|
              = |(R.val (fastConvVal co env.fft site m0 p fb k) - cnv (fun k => R.val (p k)) (fun k => R.val (fb k)) k)
                + (cnv (fun k => R.val (p k)) (fun k => R.val (fb k)) k - cnv (pois ((n : ℝ) * (R.val y.location - t))) q k)| := by
            intro k _
            rw [Nat.add_sub_cancel_left]
            have h5 := shift_sum (f := pw n t v) (g := pois ((n : ℝ) * (R.val y.location - t))) (d := d) (m := d + k) (by omega)
              (fun l hl => by unfold pw; rw [hr.supp l (Or.inl hl), mul_zero])
            rw [← h5]
            rw [Nat.add_sub_cancel_left]
            congr 1
            unfold cnv
            ring
          rw [Finset.sum_congr rfl h4]
          refine (l1_add m0 _ _).trans ((add_le_add hce (cnv_diff _ _ _ _ m0)).trans ?_)
          have hP0 := l1_nonneg m0 (fun k => R.val (p k))
          have hB0 := l1_nonneg m0 (fun k => R.val (fb k))
          have hD0 := l1_nonneg m0 (fun k => R.val (fb k) - q k)
          have hQ0 := l1_nonneg m0 q
          have h6 : eps * (l1 m0 (fun k => R.val (p k)) * l1 m0 (fun k => R.val (fb k))) ≤ eps * ((1 + rho) * kap ^ i) :=
            mul_le_mul_of_nonneg_left (mul_le_mul hpn1 hb1 hB0 (by linarith)) heps
          have h7 : l1 m0 (fun k => R.val (p k)) * l1 m0 (fun k => R.val (fb k) - q k) ≤ (1 + rho) * (kap ^ i - 1) :=
            mul_le_mul hpn1 hbd hD0 (by linarith)
          have h8 : l1 m0 (fun k => R.val (p k) - pois ((n : ℝ) * (R.val y.location - t)) k) * l1 m0 q ≤ rho * 1 :=
            mul_le_mul hpd hq1 hQ0 hrho0
          have h9 : kap ^ (i + 1) = (1 + rho) * (kap ^ i) + eps * ((1 + rho) * kap ^ i) + om * kap ^ i := by
            calc kap ^ (i + 1) = kap * kap ^ i := pow_succ' _ _
              _ = ((1 + rho) * (1 + eps) + om) * kap ^ i := by rw [← hkap]
              _ = _ := by ring
          have h10 : om ≤ om * kap ^ i := le_mul_of_one_le_right hom hki
          rw [h9]
          linarith
      · have hz : R.val y.location = t := le_antisymm (not_lt.mp hpos) ht
        refine ⟨f, fun m h1 h2 => (hf m h1 h2).2, ?_, ?_⟩
        · intro m hm
          rw [hf']
          unfold stepValFft
          rw [if_neg hm, if_neg (fun h => hpos (hs2.mp h))]
        · refine le_trans (le_of_eq ?_) (hfE.trans (by linarith))
          refine Finset.sum_congr rfl fun m hm => ?_
          have h1 := pw_same (n := n) (t := t) (t' := R.val y.location) (v := v) (fun _ => True) (m := m) trivial (by rw [hz]; ring)
          rw [pw_step, if_pos trivial] at h1
          rw [h1]

/-- The whole loop. -/
theorem ncFoldFast_abs {co : FastCode F} (env : Env F) {n P : ℕ} {etaP : ℝ} (hpmf : FastPmf R co S n P etaP) {rho eps om W kap : ℝ}
    (hrho : rho = R.g ^ P - 1 + (n + 1) * etaP * R.g ^ P) (heps : 0 ≤ eps) (hom : 0 ≤ om)
    (hconv : ∀ site, ConvAccurate R (fastConvVal co env.fft site) (n + 1) eps om W)
    (hkap : kap = (1 + rho) * (1 + eps) + om) {N : ℕ} (hW : kap ^ N ≤ W) (L : List (Bound F)) :
    ∀ (site : ℕ) (s : NCState F) (t : ℝ) (v : ℕ → ℝ) (c d i : ℕ) (C : Set (Fin n → ℝ)),
    ARep R S n s t v c d (kap ^ i - 1) → i + L.length ≤ N →
    CountLaw n t v C → 0 ≤ t → (∀ y ∈ L, R.finite y.location) → (∀ y ∈ L, y.location ∈ S) → (∀ y ∈ L, t ≤ R.val y.location) →
    (∀ y ∈ L, R.val y.location ≤ 1) → L.Pairwise (fun x y => R.val x.location ≤ R.val y.location) →
    c + tc .bSTEP (L.map (rb R)) ≤ n → d + tc .BSTEP (L.map (rb R)) ≤ n →
    (env.asserts = false ∨ noAbort t c d (L.map (rb R))) →
    Sat E (fun s' => ∃ v', ARep R S n s' (lastLoc t (L.map (rb R))) v' (c + tc .bSTEP (L.map (rb R)))
          (d + tc .BSTEP (L.map (rb R))) (kap ^ (i + L.length) - 1) ∧
        CountLaw n (lastLoc t (L.map (rb R))) v' (C ∩ win n c d (L.map (rb R))))
      ((L.zipIdx site).foldlM (ncStepFast co env (ofInt n) true) s) := by
  induction L with
  | nil =>
    intro site s t v c d i C hr _ hC _ _ _ _ _ _ _ _ _
    refine ⟨v, hr, ?_⟩
    simpa [win, lastLoc] using hC
  | cons y L ih =>
    intro site s t v c d i C hr hN hC h0 hfin hSS hge h1 hp hc hd ha
    rw [List.zipIdx_cons, List.foldlM_cons]
    rw [List.map_cons] at hc hd ha ⊢
    have hty := hge y (by simp)
    have hy1 := h1 y (by simp)
    rw [List.length_cons] at hN ⊢
    rw [List.pairwise_cons] at hp
    have hcc := cN_tc (rb R y) c (L.map (rb R))
    have hdd := dN_tc (rb R y) d (L.map (rb R))
    refine Sat.bind (ncStepFast_abs env hpmf hrho heps hom hconv hkap hr h0 y site (hfin y (by simp)) (hSS y (by simp)) hty hy1
      ?_ ?_ ?_ (by omega) hW) ?_
    · intro h
      rw [tc_cons, if_pos (show (rb R y).2 = _ from h)] at hc; omega
    · intro h
      rw [tc_cons, if_pos (show (rb R y).2 = _ from h)] at hd; omega
    · rcases ha with ha | ha
      · exact Or.inl ha
      · exact Or.inr ha.1
    · intro s' hr'
      have hC' := hC.step h0 hty hy1 (fun m => dN y.tag d ≤ m ∧ m ≤ c)
      have hcd1 : cN (rb R y).2 c = cN y.tag c := rfl
      have hcd2 : dN (rb R y).2 d = dN y.tag d := rfl
      have := ih (site + 1) s' (R.val y.location) _ _ _ (i + 1) _ hr' (by omega) hC' (h0.trans hty)
        (fun z hz => hfin z (by simp [hz])) (fun z hz => hSS z (by simp [hz])) hp.1 (fun z hz => h1 z (by simp [hz])) hp.2
        (by omega) (by omega) (by
          rcases ha with ha | ha
          · exact Or.inl ha
          · exact Or.inr ha.2)
      refine this.mono ?_
      rintro s'' ⟨v', hr'', hC''⟩
      rw [lastLoc_cons, ← hcc, ← hdd]
      have e : i + (L.length + 1) = i + 1 + L.length := by omega
      rw [e]
      refine ⟨v', hr'', ?_⟩
      have e3 : win n c d (rb R y :: L.map (rb R)) = {x | dN y.tag d ≤ count (R.val y.location) x ∧
          count (R.val y.location) x ≤ c} ∩ win n (cN y.tag c) (dN y.tag d) (L.map (rb R)) := rfl
      rw [e3, ← Set.inter_assoc]
      exact hC''

/-- `ecdf2` with FFT, as compiled: absolute error. -/
theorem ecdf2Fast_abs {co : FastCode F} (env : Env F) {n P : ℕ} {etaP : ℝ} (hpmf : FastPmf R co S n P etaP) {u : ℝ} {Nmax : ℕ}
    (so : SignedOps R u Nmax) {rho eps om W kap : ℝ}
    (hrho : rho = R.g ^ P - 1 + (n + 1) * etaP * R.g ^ P) (heps : 0 ≤ eps) (hom : 0 ≤ om)
    (hconv : ∀ site, ConvAccurate R (fastConvVal co env.fft site) (n + 1) eps om W)
    (hkap : kap = (1 + rho) * (1 + eps) + om) (hW : kap ^ (2 * n + 1) ≤ W) {b B : Fin n → F}
    (hz : zero ∈ S) (ho : one ∈ S) (hbS : ∀ i, b i ∈ S) (hBS : ∀ i, B i ∈ S)
    (hbf : ∀ i, R.finite (b i)) (hBf : ∀ i, R.finite (B i)) (hb : ValidBound fun i => R.val (b i))
    (hB : ValidBound fun i => R.val (B i)) {sort : List (Bound F) → List (Bound F)} (hsort : SortContractF R sort)
    (ha : env.asserts = false ∨ ¬ ∃ i j : Fin n, (j : ℕ) = i + 1 ∧ R.val (B j) < R.val (b i))
    {A : ℝ} (hA : A = (1 + u) * ((kap ^ (2 * n + 1) - 1) * (R.g ^ (P + 1) / pois n n + R.eta) + (R.g ^ (P + 1) - 1) + R.eta) + u + R.eta)
    (hn : 1 ≤ n) (hO : 1 + A ≤ R.Omega) (hO2 : R.g ^ P / pois n n ≤ R.Omega) :
    ∃ x, ecdf2Fast co env sort (List.ofFn b) (List.ofFn B) true = .ok x ∧ R.finite x ∧
      |R.val x - noncrossProb (fun i => R.val (b i)) (fun i => R.val (B i))| ≤ A := by
  set pr := noncrossProb (fun i => R.val (b i)) (fun i => R.val (B i)) with hpr
  obtain ⟨hpr0, hpr1⟩ := noncrossProb_mem n (fun i => R.val (b i)) (fun i => R.val (B i))
  rw [← hpr] at hpr0 hpr1
  have hpi : 0 < pois n n := pois_pos (by exact_mod_cast hn) n
  have key : Sat NoFault (fun x => R.finite x ∧ |R.val x - pr| ≤ A) (ecdf2Fast co env sort (List.ofFn b) (List.ofFn B) true) := by
    unfold ecdf2Fast
    dsimp only
    rw [check_valid_float hbf hb "b" _ (by simp), M_ok_bind, check_valid_float hBf hB "B" _ (by simp), M_ok_bind]
    simp only [List.length_ofFn]
    -- the sorted list
    set U := unsortedBounds (List.ofFn b) (List.ofFn B) with hU
    have hUfin : ∀ x ∈ U, R.finite x.location := by
      intro x hx
      rw [hU] at hx
      unfold unsortedBounds at hx
      rw [List.mem_append, List.mem_map, List.mem_map] at hx
      rcases hx with ⟨z, hz, rfl⟩ | ⟨z, hz, rfl⟩
      · rw [List.mem_ofFn] at hz; obtain ⟨i, rfl⟩ := hz; exact hbf i
      · rw [List.mem_ofFn] at hz; obtain ⟨i, rfl⟩ := hz; exact hBf i
    have hUS : ∀ x ∈ U, x.location ∈ S := by
      intro x hx
      rw [hU] at hx
      unfold unsortedBounds at hx
      rw [List.mem_append, List.mem_map, List.mem_map] at hx
      rcases hx with ⟨z, hz, rfl⟩ | ⟨z, hz, rfl⟩
      · rw [List.mem_ofFn] at hz; obtain ⟨i, rfl⟩ := hz; exact hbS i
      · rw [List.mem_ofFn] at hz; obtain ⟨i, rfl⟩ := hz; exact hBS i
    have hSperm := hsort.perm U
    have hSfin : ∀ x ∈ sort U, R.finite x.location := fun x hx => hUfin x (hSperm.mem_iff.mp hx)
    have hSsorted := hsort.sorted U hUfin
    have hL0perm : ((sort U).map (rb R)).Perm (unsortedR (fun i => R.val (b i)) (fun i => R.val (B i))) := by
      rw [← unsorted_map (R := R)]
      exact hSperm.map _
    have hL0sorted : ((sort U).map (rb R)).Pairwise fun x y => x.1 ≤ y.1 := by
      rw [List.pairwise_map]
      refine hSsorted.imp_of_mem ?_
      intro x y hx hy h
      exact (R.lt_false (hSfin y hy) (hSfin x hx)).mp h
    obtain ⟨L, hL, hLs, hLb, hLB, h0, h1⟩ := sorted_real hb hB hL0perm hL0sorted
    have hmap : (joinAllBounds sort (List.ofFn b) (List.ofFn B)).map (rb R) = L := by
      unfold joinAllBounds
      rw [← hU, List.map_append, hL]
      simp only [List.map_cons, List.map_nil, rb, R.val_one]
    set J := joinAllBounds sort (List.ofFn b) (List.ofFn B) with hJ
    have hJfin : ∀ y ∈ J, R.finite y.location := by
      intro y hy
      rw [hJ] at hy
      unfold joinAllBounds at hy
      rw [List.mem_append, List.mem_singleton] at hy
      rcases hy with hy | rfl
      · exact hSfin y hy
      · exact R.one_finite
    have hJS : ∀ y ∈ J, y.location ∈ S := by
      intro y hy
      rw [hJ] at hy
      unfold joinAllBounds at hy
      rw [List.mem_append, List.mem_singleton] at hy
      rcases hy with hy | rfl
      · exact hUS y (hSperm.mem_iff.mp hy)
      · exact ho
    have hJlen : J.length = 2 * n + 1 := by
      rw [hJ]
      unfold joinAllBounds
      rw [List.length_append, hSperm.length_eq, hU]
      unfold unsortedBounds
      simp
      omega
    have hmem : ∀ y ∈ J, (R.val y.location, y.tag) ∈ L := by
      intro y hy; rw [← hmap]; exact List.mem_map_of_mem hy
    have hr : Sat NoFault (fun probs => ∃ w, Has probs (n : ℤ) w ∧ R.finite w ∧
          |R.val w - pois n n * pr| ≤ kap ^ (2 * n + 1) - 1)
        (noncrossingFast co env sort (n : ℤ) (FOps.ofInt (n : ℤ)) (List.ofFn b) (List.ofFn B) true) := by
      unfold noncrossingFast
      have hl0 : ((DoubleBuffer.new ((n : Int) + 1) (FOps.zero : F)).src.length : Int) = n + 1 := by
        simp [DoubleBuffer.new, DoubleBuffer.src]
      refine Sat.bind (wr_sat _ (by omega) (by omega)) fun src hsrc => ?_
      refine Sat.bind (pmfGen_new_sat env (by omega)) fun g hg => ?_
      rw [← hJ]
      have hrep := init_arep (R := R) (S := S) env hg (src := src) (by omega) ((hsrc.2 _ _).2 (Or.inl ⟨rfl, rfl⟩)) hz
        (A := kap ^ 0 - 1) (by simp)
      refine Sat.bind (ncFoldFast_abs env hpmf hrho heps hom hconv hkap hW J 0 _ 0 _ 0 0 0 Set.univ hrep (by omega) CountLaw.zero
        le_rfl hJfin hJS ?_ ?_ ?_ ?_ ?_ ?_) ?_
      · intro y hy; exact h0 _ (hmem y hy)
      · intro y hy; exact h1 _ (hmem y hy)
      · have := hLs
        rw [← hmap, List.pairwise_map] at this
        exact this
      · rw [hmap, hLb.tc]; omega
      · rw [hmap, hLB.tc]; omega
      · rw [hmap, noAbort_eq hLb hLB hB.mono hLs h0]; exact ha
      · rintro s ⟨v, hrep', hlaw⟩
        have hlast : lastLoc 0 L = 1 := by rw [hL]; simp [lastLoc]
        rw [hmap, hlast] at hrep' hlaw
        rw [hLb.tc, hLB.tc, hJlen, Nat.zero_add, Nat.zero_add] at hrep'
        rw [Set.univ_inter, win_eq hLb hLB hLs] at hlaw
        have hp := hlaw.prob
        rw [← noncrossProb_eq, ← hpr] at hp
        obtain ⟨f, hf, hfe⟩ := hrep'.val
        obtain ⟨hw, hwf⟩ := hf n (by omega) (by omega)
        refine ⟨f n, hw, hwf, ?_⟩
        have hfac : (n.factorial : ℝ) ≠ 0 := by exact_mod_cast (Nat.factorial_pos n).ne'
        have e2 : pw n 1 v n = pois n n * pr := by
          unfold pw pois
          rw [hp, mul_one]
          field_simp
        rw [← e2]
        rw [Finset.sum_Ico_eq_sum_range] at hfe
        simpa using hfe
    refine Sat.bind hr fun probs hp => ?_
    obtain ⟨w, hw, hwf, hwe⟩ := hp
    rw [rd_eq hw, M_ok_bind]
    exact quot_abs hpmf env _ so hn hwf hpr0 hpr1 hwe hA hO hO2
  exact key.exists_ok

end
end CP.Spec
