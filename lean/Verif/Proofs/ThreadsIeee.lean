import Verif.Proofs.ThreadsFloat
/-
Without rescaling the coefficient 1/n! underflows.
-/
namespace CP.Spec
open FOps CP
noncomputable section

variable {A : FloatSystem}

theorem thr_mkNum_congr {a b : ℝ} (e : a = b) (ha : A.f.Fin a) (hb : A.f.Fin b) : mkNum A a ha = mkNum A b hb := by
  subst e; rfl

theorem thr_fin_zero (hf : A.f.OK) : A.f.Fin 0 := ⟨rep_zero hf, by rw [abs_zero]; positivity⟩

theorem thr_fin_one (hf : A.f.OK) : A.f.Fin 1 := ⟨rep_one hf, by
  rw [abs_one]
  exact one_lt_zpow₀ (by norm_num) (by have := hf.hmax; omega)⟩

theorem roundNum_of_rep (hf : A.f.OK) {x : ℝ} (hx : |x| ≤ (2 : ℝ) ^ (A.f.emax - 1)) (hr : A.f.Fin x) : roundNum A x = mkNum A x hr := by
  obtain ⟨h, e⟩ := roundNum_fin hf hx
  rw [e]
  exact thr_mkNum_congr (nearest_rep A.nearest hr.1) _ _

theorem zero_eq (hf : A.f.OK) : (zero : Num A) = mkNum A 0 (thr_fin_zero hf) := by
  show roundNum A ((0 : ℤ) : ℝ) = _
  rw [Int.cast_zero]
  exact roundNum_of_rep hf (by rw [abs_zero]; positivity) _

theorem one_eq (hf : A.f.OK) : (one : Num A) = mkNum A 1 (thr_fin_one hf) := by
  show roundNum A ((1 : ℤ) : ℝ) = _
  rw [Int.cast_one]
  exact roundNum_of_rep hf (by rw [abs_one]; linarith [one_le_Omega hf]) _

theorem zero_add_zero (hf : A.f.OK) : (zero +ᶠ zero : Num A) = zero := by
  rw [zero_eq hf, add_fin, add_zero]
  exact roundNum_of_rep hf (by rw [abs_zero]; positivity) _

theorem one_add_zero (hf : A.f.OK) : (one +ᶠ zero : Num A) = one := by
  rw [zero_eq hf, one_eq hf, add_fin, add_zero]
  exact roundNum_of_rep hf (by rw [abs_one]; linarith [one_le_Omega hf]) _

theorem neg_zero_num (hf : A.f.OK) : (neg zero : Num A) = zero := by
  rw [zero_eq hf]
  exact thr_mkNum_congr neg_zero _ _

theorem zero_mul_num (hf : A.f.OK) {x : Num A} (hx : x.finite) : (zero *ᶠ x : Num A) = zero := by
  obtain ⟨a, h, rfl⟩ := hx
  rw [zero_eq hf, mul_fin, zero_mul]
  exact roundNum_of_rep hf (by rw [abs_zero]; positivity) _

theorem mul_zero_num (hf : A.f.OK) {x : Num A} (hx : x.finite) : (x *ᶠ zero : Num A) = zero := by
  obtain ⟨a, h, rfl⟩ := hx
  rw [zero_eq hf, mul_fin, mul_zero]
  exact roundNum_of_rep hf (by rw [abs_zero]; positivity) _

theorem finite_zero (hf : A.f.OK) : (zero : Num A).finite := ⟨_, _, zero_eq hf⟩
theorem finite_one (hf : A.f.OK) : (one : Num A).finite := ⟨_, _, one_eq hf⟩

/-- An integer that the format represents. -/
theorem ofInt_num (hf : A.f.OK) {k : ℕ} (hk : k ≤ 2 ^ A.f.p) (hk2 : (k : ℝ) ≤ (2 : ℝ) ^ (A.f.emax - 1)) :
    ∃ h, (ofInt (k : ℤ) : Num A) = mkNum A (k : ℝ) h := by
  have h := ofInt_exact (A := A) hf (k := (k : ℤ)) (by rw [Nat.abs_cast]; exact_mod_cast hk) (by rw [← Int.cast_abs, Nat.abs_cast]; exact_mod_cast hk2)
  obtain ⟨⟨a, ha, e⟩, h2⟩ := h
  rw [e] at h2
  have h2 : a = ((k : ℤ) : ℝ) := h2
  rw [Int.cast_natCast] at h2
  subst h2
  exact ⟨ha, e⟩

theorem div_num (hf : A.f.OK) {k : ℕ} (hk0 : 1 ≤ k) (hk : k ≤ 2 ^ A.f.p) (hk2 : (k : ℝ) ≤ (2 : ℝ) ^ (A.f.emax - 1)) {c : ℝ} (h : A.f.Fin c)
    (hc : |c| ≤ 2) : ∃ h', (mkNum A c h /ᶠ ofInt (k : ℤ) : Num A) = mkNum A (A.r (c / k)) h' := by
  obtain ⟨hk', e⟩ := ofInt_num (A := A) hf hk hk2
  have hk1 : (1 : ℝ) ≤ k := by exact_mod_cast hk0
  rw [e, div_fin _ _ (by positivity)]
  refine roundNum_fin hf ?_
  rw [abs_div, abs_of_pos (by linarith : (0 : ℝ) < k)]
  exact (div_le_self (abs_nonneg _) hk1).trans (hc.trans (one_le_Omega hf))

theorem zero_div_num (hf : A.f.OK) {k : ℕ} (hk0 : 1 ≤ k) (hk : k ≤ 2 ^ A.f.p) (hk2 : (k : ℝ) ≤ (2 : ℝ) ^ (A.f.emax - 1)) :
    (zero /ᶠ ofInt (k : ℤ) : Num A) = zero := by
  obtain ⟨h', e⟩ := div_num hf hk0 hk hk2 (thr_fin_zero hf) (by norm_num)
  rw [zero_eq hf, e]
  exact thr_mkNum_congr (by rw [zero_div, nearest_zero hf A.nearest]) _ _

theorem evalF_zero (hf : A.f.OK) (d : ℕ) (mu al : ℕ → Num A) (x : Num A)
    (h : ∀ i ≤ d, (mu i *ᶠ powi (x +ᶠ al i) (i : ℤ) : Num A) = zero) : evalF d mu al x = zero := by
  unfold evalF
  have : ∀ k ≤ d + 1, (List.range k).foldl (fun r i => r +ᶠ mu i *ᶠ powi (x +ᶠ al i) (i : Int)) zero = (zero : Num A) := by
    intro k
    induction k with
    | zero => intro _; rfl
    | succ k ih =>
      intro hk
      rw [List.range_succ, List.foldl_append, ih (by omega)]
      show zero +ᶠ mu k *ᶠ powi (x +ᶠ al k) (k : Int) = zero
      rw [h k (by omega), zero_add_zero hf]
  exact this _ le_rfl

/-- The size of the leading coefficient after `d` integrations without rescaling. -/
def Tiny (A : FloatSystem) (d : ℕ) (c : ℝ) : Prop :=
  0 ≤ c ∧ c ≤ 1 ∧ (A.f.emin ≤ 1 - (d : ℤ) → c ≤ (2 : ℝ) ^ (1 - (d : ℤ))) ∧ (1 - (d : ℤ) < A.f.emin → c = 0)

theorem Tiny.step (hf : A.f.OK) {d : ℕ} {c : ℝ} (h : Tiny A d c) : Tiny A (d + 1) (A.r (c / ((d + 1 : ℕ) : ℝ))) := by
  have hd0 : (0 : ℝ) < ((d + 1 : ℕ) : ℝ) := by positivity
  have hd1 : (1 : ℝ) ≤ ((d + 1 : ℕ) : ℝ) := by exact_mod_cast (by omega : 1 ≤ d + 1)
  obtain ⟨hc0, hc1, hc2, hc3⟩ := h
  have hx0 : 0 ≤ c / ((d + 1 : ℕ) : ℝ) := div_nonneg hc0 hd0.le
  have hx1 : c / ((d + 1 : ℕ) : ℝ) ≤ 1 := (div_le_self hc0 hd1).trans hc1
  have hr0 : 0 ≤ A.r (c / ((d + 1 : ℕ) : ℝ)) := by
    have := nearest_mono A.nearest hx0
    rwa [nearest_zero hf A.nearest] at this
  have hr1 : A.r (c / ((d + 1 : ℕ) : ℝ)) ≤ 1 := by
    have := nearest_mono A.nearest hx1
    rwa [nearest_rep A.nearest (rep_one hf)] at this
  have hmin := hf.hmin
  have hp := hf.hp
  refine ⟨hr0, hr1, fun h1 => ?_, fun h1 => ?_⟩
  · have hx : c / ((d + 1 : ℕ) : ℝ) ≤ (2 : ℝ) ^ (1 - ((d + 1 : ℕ) : ℤ)) := by
      rcases Nat.eq_zero_or_pos d with h0 | h0
      · subst h0
        norm_num
        exact hc1
      · have hc := hc2 (by push_cast at h1; omega)
        have h2 : (2 : ℝ) ≤ ((d + 1 : ℕ) : ℝ) := by exact_mod_cast (by omega : 2 ≤ d + 1)
        calc c / ((d + 1 : ℕ) : ℝ) ≤ (2 : ℝ) ^ (1 - (d : ℤ)) / 2 := div_le_div₀ (by positivity) hc (by norm_num) h2
          _ = (2 : ℝ) ^ (1 - ((d + 1 : ℕ) : ℤ)) := by
            rw [show (1 : ℤ) - (d : ℤ) = (1 - ((d + 1 : ℕ) : ℤ)) + 1 by push_cast; ring, zpow_add_one₀ (by norm_num)]
            ring
    have := nearest_bound hf A.nearest h1 (by rwa [abs_of_nonneg hx0])
    rwa [abs_of_nonneg hr0] at this
  · by_cases h2 : 1 - (d : ℤ) < A.f.emin
    · rw [hc3 h2, zero_div, nearest_zero hf A.nearest]
    · have e : 1 - (d : ℤ) = A.f.emin := by push_cast at h1; omega
      have hc := hc2 (by omega)
      rw [e] at hc
      have hd3 : (4 : ℝ) ≤ ((d + 1 : ℕ) : ℝ) := by exact_mod_cast (by omega : 4 ≤ d + 1)
      have hpos : (0 : ℝ) < (2 : ℝ) ^ A.f.emin := by positivity
      have hx : c / ((d + 1 : ℕ) : ℝ) ≤ (2 : ℝ) ^ A.f.emin / 4 := div_le_div₀ (by positivity) hc (by norm_num) hd3
      have hn := A.nearest.near (c / ((d + 1 : ℕ) : ℝ)) 0 (rep_zero hf)
      rw [zero_sub, abs_neg, abs_of_nonneg hx0] at hn
      have hn' := (abs_le.mp hn).2
      obtain ⟨k, hk⟩ := rep_mult (A.nearest.rep (c / ((d + 1 : ℕ) : ℝ)))
      have hk1 : (k : ℝ) < 1 := by
        by_contra hcon
        have := mul_le_mul_of_nonneg_right (not_lt.mp hcon) hpos.le
        linarith
      have hk2 : k ≤ 0 := by
        have : k < 1 := by exact_mod_cast hk1
        omega
      have hk3 : (k : ℝ) ≤ 0 := by exact_mod_cast hk2
      refine le_antisymm ?_ hr0
      rw [hk]
      exact mul_nonpos_of_nonpos_of_nonneg hk3 hpos.le

/-- The polynomial after `d` steps on the zero boundary. -/
def Lone (A : FloatSystem) (d : ℕ) (mu al : ℕ → Num A) : Prop :=
  (∀ i ≤ d, al i = zero) ∧ (∀ i < d, mu i = zero) ∧ ∃ c h, mu d = mkNum A c h ∧ Tiny A d c

/-- One step on the zero boundary, without rescaling: one coefficient remains. -/
theorem lone_step {n : ℕ} (hf : A.f.OK) (hF : AnnexF A n) {d : ℕ} {mu al : ℕ → Num A} (hal : ∀ i ≤ d, al i = zero) (hmu : ∀ i < d, mu i = zero)
    {c : ℝ} {hc : A.f.Fin c} (hcd : mu d = mkNum A c hc) (hc2 : |c| ≤ 2) (hk : d + 1 ≤ 2 ^ A.f.p)
    (hk2 : ((d + 1 : ℕ) : ℝ) ≤ (2 : ℝ) ^ (A.f.emax - 1)) :
    (∀ i ≤ d + 1, intAl al (neg zero) i = zero) ∧ (∀ i < d + 1, stepMu d mu al zero i = zero) ∧
      ∃ h, stepMu d mu al zero (d + 1) = mkNum A (A.r (c / ((d + 1 : ℕ) : ℝ))) h := by
  have hal' : ∀ i ≤ d + 1, intAl al (neg zero) i = zero := by
    intro i hi
    unfold intAl
    split
    · rfl
    split
    · exact neg_zero_num hf
    · exact hal _ (by omega)
  have hint : ∀ i < d + 1, intMu mu i = zero := by
    intro i hi
    unfold intMu
    split
    · rfl
    · rw [hmu _ (by omega)]
      refine zero_div_num hf (by omega) (by omega) (le_trans ?_ hk2)
      exact_mod_cast hi.le
  have htop : ∃ h', intMu mu (d + 1) = mkNum A (A.r (c / ((d + 1 : ℕ) : ℝ))) h' := by
    unfold intMu
    rw [if_neg (by omega), Nat.add_sub_cancel, hcd]
    exact div_num hf (by omega) hk hk2 hc hc2
  have hfin : ∀ i ≤ d + 1, (intMu mu i).finite := by
    intro i hi
    rcases Nat.lt_or_eq_of_le hi with h | h
    · rw [hint i h]; exact finite_zero hf
    · obtain ⟨h', e⟩ := htop
      rw [h, e]
      exact ⟨_, _, rfl⟩
  have hev : evalF (d + 1) (intMu mu) (intAl al (neg zero)) zero = zero := by
    refine evalF_zero hf _ _ _ _ fun i hi => ?_
    rw [hal' i hi, zero_add_zero hf]
    rcases Nat.eq_zero_or_pos i with h0 | h0
    · rw [h0, hint 0 (by omega)]
      show zero *ᶠ powi zero 0 = zero
      rw [hF.pow_zero_zero]
      exact zero_mul_num hf (finite_one hf)
    · rw [hF.pow_zero i h0]
      exact mul_zero_num hf (hfin i hi)
  refine ⟨hal', ?_, ?_⟩
  · intro i hi
    unfold stepMu setC
    split
    · rw [hev, neg_zero_num hf]
    · exact hint i hi
  · obtain ⟨h', e⟩ := htop
    refine ⟨h', ?_⟩
    unfold stepMu setC
    rw [if_neg (by omega), e]

theorem Lone.step {n : ℕ} (hf : A.f.OK) (hF : AnnexF A n) {d : ℕ} {mu al : ℕ → Num A} (h : Lone A d mu al) (hk : d + 1 ≤ 2 ^ A.f.p)
    (hk2 : ((d + 1 : ℕ) : ℝ) ≤ (2 : ℝ) ^ (A.f.emax - 1)) : Lone A (d + 1) (stepMu d mu al zero) (intAl al (neg zero)) := by
  obtain ⟨hal, hmu, c, hc, hcd, ht⟩ := h
  obtain ⟨h1, h2, h', h3⟩ := lone_step hf hF hal hmu hcd (by rw [abs_of_nonneg ht.1]; linarith [ht.2.1]) hk hk2
  exact ⟨h1, h2, _, h', h3, ht.step hf⟩

/-- Without rescaling, with enough points, the result for the zero boundary is 0. -/
theorem mns_underflow {u : ℝ} (h : A.OK u) {n : ℕ} (hF : AnnexF A n) (hn : 1 - (n : ℤ) < A.f.emin) (hnp : n ≤ 2 ^ A.f.p)
    (hno : (n : ℝ) ≤ (2 : ℝ) ^ (A.f.emax - 1)) (env : Env (Num A)) (read : Int → Num A → Int) (hread : ∀ i x, 0 ≤ read i x) :
    ecdf1Mns2016bWith env read (List.replicate n (zero : Num A)) = .ok zero := by
  have hf := h.fmt
  have hchk : checkBoundaryVector "b" ((List.replicate n (zero : Num A)).length : Int) (List.replicate n (zero : Num A)) = .ok () := by
    have e : List.replicate n (zero : Num A) = List.ofFn (fun _ : Fin n => (zero : Num A)) := by simp [List.ofFn_const]
    rw [e]
    have hv : (zero : Num A).val = 0 := by rw [zero_eq hf]; rfl
    refine check_valid_float (R := ieeeModel A u h) (fun _ => finite_zero hf) ?_ _ _ (by simp)
    constructor
    · intro i j _; exact le_rfl
    · intro i
      show (0 : ℝ) ≤ (zero : Num A).val ∧ (zero : Num A).val ≤ 1
      rw [hv]
      norm_num
  have key := mns_noscale (E := NoFault) env hread (b := List.replicate n (zero : Num A)) (bv := fun _ => zero)
    (fun i hi => by rw [has_replicate]; exact ⟨by omega, by simpa using hi, rfl⟩) hchk (Lone A)
    ⟨fun _ _ => rfl, fun i hi => by omega, 1, thr_fin_one hf, one_eq hf, by
      refine ⟨zero_le_one, le_rfl, fun _ => by norm_num, fun h1 => ?_⟩
      have := hf.hmin
      have := hf.hp
      omega⟩
    (by
      intro d mu al hd hL
      rw [List.length_replicate] at hd
      refine hL.step hf hF (by omega) (le_trans ?_ hno)
      exact_mod_cast hd)
  obtain ⟨x, hx, mu, al, ⟨hal, hmu, c, hc, hcd, ht⟩, e⟩ := key.exists_ok
  rw [hx, e]
  rw [List.length_replicate] at hal hmu hcd ht ⊢
  have hc0 : c = 0 := ht.2.2.2 hn
  have hmu' : ∀ i ≤ n, mu i = zero := by
    intro i hi
    rcases Nat.lt_or_eq_of_le hi with h | h
    · exact hmu i h
    · rw [h, hcd, zero_eq hf]
      exact thr_mkNum_congr hc0 _ _
  have hev : evalF n mu al (ofInt 1) = zero := by
    refine evalF_zero hf _ _ _ _ fun i hi => ?_
    rw [hal i hi, hmu' i hi]
    show zero *ᶠ powi (one +ᶠ zero) (i : ℤ) = zero
    rw [one_add_zero hf, hF.pow_one]
    exact zero_mul_num hf (finite_one hf)
  rw [hev, hF.log_zero]
  obtain ⟨g, hg, eg⟩ := hF.lgamma
  rw [eg]
  have e1 : (mkNum A g hg +ᶠ negInf : Num A) = negInf := rfl
  have e2 : (ofInt 0 *ᶠ log (ofInt 2) : Num A) = zero := zero_mul_num hf hF.log_two
  rw [e1, e2, zero_eq hf]
  have e3 : (negInf -ᶠ mkNum A 0 (thr_fin_zero hf) : Num A) = negInf := rfl
  rw [e3, hF.exp_negInf, zero_eq hf]

/-! ### A call with one point -/

theorem store_step {α β : Type} {v : Int} {m : M α} {a : α} {f : α → Thr β} (h : m = .ok a) (hf : ∃ k, f a = .store v k) :
    ∃ k, (Thr.lift m >>= f) = .store v k := by
  rw [h]; exact hf

theorem store_bind {α β : Type} {v : Int} {t : Thr α} {f : α → Thr β} (h : ∃ k, t = .store v k) : ∃ k, (t >>= f) = .store v k := by
  obtain ⟨k, rfl⟩ := h
  exact ⟨_, rfl⟩

theorem maxMult_two {F : Type} [FOps F] {env : Env F} {cap : ℕ} {p : Poly F} {mu al : ℕ → F} (h : PRep cap 1 p mu al) :
    p.maxMult env = .ok (if lt (mu 0) (mu 1) then mu 1 else mu 0) := by
  unfold Poly.maxMult
  rw [assertC_true _ (by rw [h.deg]; simp), M_ok_bind]
  have hget : ∀ i : ℕ, i ≤ 1 → p.getMult env i = .ok (mu i) := by
    intro i hi
    unfold Poly.getMult
    rw [assertC_true _ (by simp), M_ok_bind, assertC_true _ (by rw [h.deg]; simpa using hi), M_ok_bind,
      rd_eq (h.mult i hi)]
  have h0 : p.getMult env 0 = .ok (mu 0) := hget 0 (by omega)
  have h1 : p.getMult env (0 + 1) = .ok (mu 1) := hget 1 (by omega)
  rw [h0, M_ok_bind, h.deg]
  show CP.forAux _ 2 0 (mu 0) = _
  simp only [CP.forAux, h0, h1, M_ok_bind, ite_self]

theorem one_point_store {u : ℝ} (h : A.OK u) {n : ℕ} (hF : AnnexF A n) (env : Env (Num A)) :
    ∃ k, ecdf1Mns2016bT env [(zero : Num A)] = .store 1 k := by
  have hf := h.fmt
  have hchk : checkBoundaryVector "b" (([(zero : Num A)] : List (Num A)).length : Int) [(zero : Num A)] = .ok () := by
    have e : [(zero : Num A)] = List.ofFn (fun _ : Fin 1 => (zero : Num A)) := by simp
    rw [e]
    have hv : (zero : Num A).val = 0 := by rw [zero_eq hf]; rfl
    refine check_valid_float (R := ieeeModel A u h) (fun _ => finite_zero hf) ?_ _ _ (by simp)
    constructor
    · intro i j _; exact le_rfl
    · intro i
      show (0 : ℝ) ≤ (zero : Num A).val ∧ (zero : Num A).val ≤ 1
      rw [hv]
      norm_num
  obtain ⟨p0, e0, hp0⟩ := (polyNew_sat (E := NoFault) env 1).exists_ok
  obtain ⟨p1, e1, hp1⟩ := (setMult0_sat (E := NoFault) (env := env) hp0 (one : Num A)).exists_ok
  obtain ⟨p2, e2, hp2⟩ := (integrate_sat (E := NoFault) hp1 (by omega)).exists_ok
  have hrd : rd [(zero : Num A)] 0 = .ok zero := rfl
  obtain ⟨p3, e3, hp3⟩ := (setAdd1_sat (E := NoFault) (env := env) hp2 (neg zero)).exists_ok
  obtain ⟨v, e4, hv⟩ := (evaluate_sat (E := NoFault) hp3 zero).exists_ok
  subst hv
  obtain ⟨p4, e5, hp4⟩ := (setMult0_sat (E := NoFault) (env := env) hp3 (neg (evalF 1 (intMu (setC (fun _ => zero) one)) (intAl (fun _ => zero) (neg zero)) zero))).exists_ok
  have hL : Lone A (0 + 1) (stepMu 0 (setC (fun _ => zero) one) (fun _ => zero) zero) (intAl (fun _ => zero) (neg zero)) := by
    refine Lone.step (n := n) hf hF ⟨fun _ _ => rfl, fun i hi => by omega, 1, thr_fin_one hf, one_eq hf, ?_⟩ Nat.one_le_two_pow
      (by have := one_le_Omega hf; push_cast; linarith)
    refine ⟨zero_le_one, le_rfl, fun _ => by norm_num, fun h1 => ?_⟩
    have := hf.hmin
    have := hf.hp
    omega
  have m0 : stepMu 0 (setC (fun _ => zero) one) (fun _ => zero) zero 0 = (zero : Num A) := hL.2.1 0 (by omega)
  have m1 : stepMu 0 (setC (fun _ => zero) one) (fun _ => zero) zero 1 = (one : Num A) := by
    show (one /ᶠ ofInt ((1 : ℕ) : ℤ) : Num A) = one
    rw [one_eq hf]
    obtain ⟨h', e⟩ := div_num (A := A) hf le_rfl Nat.one_le_two_pow (by have := one_le_Omega hf; push_cast; linarith) (thr_fin_one hf) (by norm_num)
    rw [e]
    refine thr_mkNum_congr ?_ _ _
    rw [Nat.cast_one, div_one, nearest_rep A.nearest (rep_one hf)]
  have e6 := maxMult_two (env := env) hp4
  have m0' : setC (intMu (setC (fun _ => zero) one)) (neg (evalF 1 (intMu (setC (fun _ => zero) one)) (intAl (fun _ => zero) (neg zero)) zero)) 0
    = (zero : Num A) := m0
  have m1' : setC (intMu (setC (fun _ => zero) one)) (neg (evalF 1 (intMu (setC (fun _ => zero) one)) (intAl (fun _ => zero) (neg zero)) zero)) 1
    = (one : Num A) := m1
  have hlt : lt (zero : Num A) one = true := by
    rw [zero_eq hf, one_eq hf]
    exact decide_eq_true (by norm_num)
  rw [m0', m1', if_pos hlt] at e6
  have hexp : frexpExp (one : Num A) = 1 := by
    rw [one_eq hf]
    show (if (1 : ℝ) = 0 then (0 : ℤ) else Int.log 2 |(1 : ℝ)| + 1) = 1
    rw [if_neg one_ne_zero, abs_one, Int.log_one_right, zero_add]
  unfold ecdf1Mns2016bT
  dsimp only
  refine store_step hchk (store_step e0 (store_step e1 (store_bind ?_)))
  show ∃ k, Thr.forAux (mnsStepT env [zero]) 1 0 (p1, 0) = _
  refine store_bind ?_
  unfold mnsStepT
  refine store_step e2 (store_step hrd (store_step e3 (store_step e4 (store_step e5 ?_))))
  rw [if_pos (show Int.tmod 0 NUM_ITERATIONS_BETWEEN_EXP_FIXES = 0 by decide)]
  refine store_step e6 (store_bind ?_)
  unfold Thr.extractExponent
  rw [hexp]
  exact ⟨_, rfl⟩

/-- A schedule in which the call ends with 0. -/
theorem spoiled {u : ℝ} (h : A.OK u) {n : ℕ} (hF : AnnexF A n) (hn : 1 - (n : ℤ) < A.f.emin) (hnp : n ≤ 2 ^ A.f.p)
    (hno : (n : ℝ) ≤ (2 : ℝ) ^ (A.f.emax - 1)) (env : Env (Num A)) (sort : List (Bound (Num A)) → List (Bound (Num A))) (isqrt : ℕ → ℕ) (e : ℤ) :
    ∃ s : List ℕ, ((Process.start env sort isqrt e fun i => if i = 0 then .mnsb (List.replicate n (zero : Num A)) else .mnsb [zero]).run s).thread 0
      = .done (.ok zero) := by
  have := Process.readAll_possible 1 (ecdf1Mns2016bT env (List.replicate n (zero : Num A))) 1
    (Process.start env sort isqrt e fun i => if i = 0 then .mnsb (List.replicate n (zero : Num A)) else .mnsb [zero]) le_rfl rfl
    (fun j hj => by
      show ∃ k, LibCall.thread env sort isqrt (if j = 0 then _ else _) = _
      rw [if_neg (by omega)]
      exact one_point_store h hF env)
  rwa [ecdf1Mns2016bT_readAll, mns_underflow h hF hn hnp hno env _ (fun _ _ => by norm_num)] at this

end
end CP.Spec
