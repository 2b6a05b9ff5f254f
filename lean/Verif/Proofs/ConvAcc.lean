import Verif.Proofs.FftRound
import Verif.Proofs.Ecdf2Step
/-
Accuracy of the two convolution routines in the sense needed by the loop.
-/
open Finset
namespace CP.Spec
noncomputable section
variable {F : Type} [FOps F] {R : FloatModel F}
open FOps

/-- A convolution routine for sizes up to `M`: on finite inputs whose absolute values sum to at most `W`, the outputs are
finite and their errors sum to at most `eps * |a| * |b| + om`. -/
def ConvAccurate (R : FloatModel F) (conv : ℕ → (ℕ → F) → (ℕ → F) → ℕ → F) (M : ℕ) (eps om W : ℝ) : Prop :=
  ∀ m ≤ M, ∀ a b : ℕ → F, (∀ k < m, R.finite (a k)) → (∀ k < m, R.finite (b k)) →
    l1 m (fun k => R.val (a k)) ≤ W → l1 m (fun k => R.val (b k)) ≤ W →
    (∀ j < m, R.finite (conv m a b j)) ∧
    l1 m (fun j => R.val (conv m a b j) - cnv (fun k => R.val (a k)) (fun k => R.val (b k)) j)
      ≤ eps * (l1 m (fun k => R.val (a k)) * l1 m (fun k => R.val (b k))) + om

theorem l1_ge_part {m i : ℕ} (h : i ≤ m) (f : ℕ → ℝ) : l1 i f ≤ l1 m f :=
  Finset.sum_le_sum_of_subset_of_nonneg (Finset.range_mono h) fun _ _ _ => abs_nonneg _

/-- Direct convolution with signed rounding. -/
theorem naive_acc {u : ℝ} {Nmax : ℕ} (so : SignedOps R u Nmax) {m : ℕ} {a b : ℕ → F} (ha : ∀ k < m, R.finite (a k))
    (hb : ∀ k < m, R.finite (b k)) {W : ℝ} (haW : l1 m (fun k => R.val (a k)) ≤ W) (hbW : l1 m (fun k => R.val (b k)) ≤ W)
    (hO : (1 + u) ^ (m + 1) * (W ^ 2 + m * R.eta) ≤ R.Omega) :
    (∀ j < m, R.finite (naiveConv a b j)) ∧
    l1 m (fun j => R.val (naiveConv a b j) - cnv (fun k => R.val (a k)) (fun k => R.val (b k)) j)
      ≤ ((1 + u) ^ (m + 1) - 1) * (l1 m (fun k => R.val (a k)) * l1 m (fun k => R.val (b k)))
        + (m : ℝ) ^ 2 * (1 + u) ^ (m + 1) * R.eta := by
  set α : ℕ → ℝ := fun k => R.val (a k) with hα
  set β : ℕ → ℝ := fun k => R.val (b k) with hβ
  have hu := so.u_nonneg
  have heta := R.eta_nonneg
  have hu1 : 1 ≤ 1 + u := by linarith
  have hW0 : 0 ≤ W := (l1_nonneg _ _).trans haW
  set T : ℕ → ℝ := cnv (fun k => |α k|) (fun k => |β k|) with hT
  have hTsum : l1 m T ≤ l1 m α * l1 m β := by
    refine (l1_cnv _ _ m).trans (le_of_eq ?_)
    congr 1 <;> (unfold l1; simp)
  have hT0 : ∀ j, 0 ≤ T j := fun j => Finset.sum_nonneg fun k _ => mul_nonneg (abs_nonneg _) (abs_nonneg _)
  have hTW : ∀ j < m, T j ≤ W ^ 2 := by
    intro j hj
    have h1 := abs_le_l1 T hj
    rw [abs_of_nonneg (hT0 j)] at h1
    refine (h1.trans hTsum).trans ?_
    rw [sq]
    exact mul_le_mul haW hbW (l1_nonneg _ _) hW0
  have main : ∀ j < m, ∀ i ≤ j + 1, R.finite ((List.range i).foldl (fun acc k => acc +ᶠ a k *ᶠ b (j - k)) zero) ∧
      |R.val ((List.range i).foldl (fun acc k => acc +ᶠ a k *ᶠ b (j - k)) zero) - ∑ k ∈ range i, α k * β (j - k)|
        ≤ ((1 + u) ^ (i + 1) - 1) * (∑ k ∈ range i, |α k| * |β (j - k)|) + i * R.eta * (1 + u) ^ (i + 1) := by
    intro j hj i
    induction i with
    | zero => intro _; simp [R.zero_finite, R.val_zero]
    | succ i ih =>
      intro hi
      obtain ⟨hf, he⟩ := ih (by omega)
      rw [List.range_succ, List.foldl_append, List.foldl_cons, List.foldl_nil, Finset.sum_range_succ, Finset.sum_range_succ]
      set acc := (List.range i).foldl (fun acc k => acc +ᶠ a k *ᶠ b (j - k)) zero with hacc
      set S := ∑ k ∈ range i, α k * β (j - k) with hS
      set Ti := ∑ k ∈ range i, |α k| * |β (j - k)| with hTi
      have hTi0 : 0 ≤ Ti := Finset.sum_nonneg fun k _ => mul_nonneg (abs_nonneg _) (abs_nonneg _)
      have hSTi : |S| ≤ Ti := (Finset.abs_sum_le_sum_abs _ _).trans (le_of_eq (Finset.sum_congr rfl fun k _ => abs_mul _ _))
      set pp := |α i| * |β (j - i)| with hpp
      have hpp0 : 0 ≤ pp := mul_nonneg (abs_nonneg _) (abs_nonneg _)
      have hpa : |α i * β (j - i)| = pp := abs_mul _ _
      have hTj : Ti + pp ≤ T j := by
        rw [hTi, hpp, ← Finset.sum_range_succ (fun k => |α k| * |β (j - k)|)]
        exact Finset.sum_le_sum_of_subset_of_nonneg (Finset.range_mono (by omega))
          fun k _ _ => mul_nonneg (abs_nonneg _) (abs_nonneg _)
      have hTjW := hTj.trans (hTW j hj)
      have hq1 : 1 ≤ (1 + u) ^ (i + 1) := one_le_pow₀ hu1
      have hqm : (1 + u) ^ (i + 1 + 1) ≤ (1 + u) ^ (m + 1) := pow_le_pow_right₀ hu1 (by omega)
      have hqs : (1 + u) ^ (i + 1 + 1) = (1 + u) ^ (i + 1) * (1 + u) := pow_succ _ _
      set q := (1 + u) ^ (i + 1) with hq
      have hquu : (1 + u) ≤ q := by
        rw [hq]; exact le_self_pow₀ hu1 (by omega)
      have hbig : (q * (1 + u)) * (Ti + pp + (i + 1 : ℕ) * R.eta) ≤ R.Omega := by
        rw [← hqs]
        refine le_trans (mul_le_mul hqm ?_ (by positivity) (by positivity)) hO
        have : ((i + 1 : ℕ) : ℝ) * R.eta ≤ m * R.eta := mul_le_mul_of_nonneg_right (by exact_mod_cast (by omega)) heta
        linarith
      have hqq1 : 1 ≤ q * (1 + u) := by nlinarith
      have hsum0 : 0 ≤ Ti + pp + (i + 1 : ℕ) * R.eta := by positivity
      obtain ⟨pf, pe⟩ := so.mul (a i) (b (j - i)) (ha i (by omega)) (hb (j - i) (by omega)) (by
        show |α i * β (j - i)| ≤ _
        rw [hpa]
        have h1 : pp ≤ Ti + pp + (i + 1 : ℕ) * R.eta := by
          have : 0 ≤ ((i + 1 : ℕ) : ℝ) * R.eta := by positivity
          linarith
        exact (h1.trans (le_mul_of_one_le_left hsum0 hqq1)).trans hbig)
      have pe' : |R.val (a i *ᶠ b (j - i)) - α i * β (j - i)| ≤ u * pp + R.eta := by rw [← hpa]; exact pe
      set pr := a i *ᶠ b (j - i) with hpr
      set e1 := R.val acc - S with he1
      set e2 := R.val pr - α i * β (j - i) with he2
      have hval : R.val acc + R.val pr = (S + α i * β (j - i)) + (e1 + e2) := by rw [he1, he2]; ring
      have hSp : |S + α i * β (j - i)| ≤ Ti + pp := (abs_add_le _ _).trans (by rw [hpa]; linarith)
      have he12 : |e1 + e2| ≤ (q - 1) * Ti + i * R.eta * q + (u * pp + R.eta) := (abs_add_le _ _).trans (add_le_add he pe')
      have hsumabs : |R.val acc + R.val pr| ≤ Ti + pp + |e1 + e2| := by
        rw [hval]; exact (abs_add_le _ _).trans (by linarith)
      have hfinal : u * (Ti + pp) + (1 + u) * ((q - 1) * Ti + i * R.eta * q + (u * pp + R.eta))
          ≤ (q * (1 + u) - 1) * (Ti + pp) + (i + 1 : ℕ) * R.eta * (q * (1 + u)) := by
        push_cast
        have h1 : 0 ≤ (q - (1 + u)) * (1 + u) * pp := mul_nonneg (mul_nonneg (by linarith) (by linarith)) hpp0
        have h2 : 0 ≤ (q - 1) * (1 + u) * R.eta := mul_nonneg (mul_nonneg (by linarith) (by linarith)) heta
        have h3 : (q * (1 + u) - 1) * (Ti + pp) + (i + 1) * R.eta * (q * (1 + u))
            - (u * (Ti + pp) + (1 + u) * ((q - 1) * Ti + i * R.eta * q + (u * pp + R.eta)))
            = (q - (1 + u)) * (1 + u) * pp + (q - 1) * (1 + u) * R.eta := by ring
        linarith
      obtain ⟨sf, se⟩ := so.add acc pr hf pf (by
        refine hsumabs.trans (le_trans ?_ hbig)
        have h1 : |e1 + e2| ≤ (1 + u) * |e1 + e2| := le_mul_of_one_le_left (abs_nonneg _) hu1
        have h2 := mul_le_mul_of_nonneg_left he12 (by linarith : 0 ≤ 1 + u)
        have h3 : 0 ≤ u * (Ti + pp) := by positivity
        have h4 : (q * (1 + u)) * (Ti + pp + (i + 1 : ℕ) * R.eta)
            = Ti + pp + ((q * (1 + u) - 1) * (Ti + pp) + (i + 1 : ℕ) * R.eta * (q * (1 + u))) := by ring
        rw [h4]; linarith)
      refine ⟨sf, ?_⟩
      rw [hqs]
      refine le_trans ?_ hfinal
      have e : R.val (acc +ᶠ pr) - (S + α i * β (j - i)) = (R.val (acc +ᶠ pr) - (R.val acc + R.val pr)) + (e1 + e2) := by
        rw [hval]; ring
      rw [e]
      refine (abs_add_le _ _).trans ?_
      have h1 := mul_le_mul_of_nonneg_left hsumabs hu
      have h2 := mul_le_mul_of_nonneg_left he12 (by linarith : 0 ≤ 1 + u)
      have h3 : (1 + u) * |e1 + e2| = |e1 + e2| + u * |e1 + e2| := by ring
      have h4 : u * (Ti + pp + |e1 + e2|) = u * (Ti + pp) + u * |e1 + e2| := by ring
      linarith
  refine ⟨fun j hj => (main j hj (j + 1) le_rfl).1, ?_⟩
  have hG1 : 1 ≤ (1 + u) ^ (m + 1) := one_le_pow₀ hu1
  have hle : ∀ j < m, |R.val (naiveConv a b j) - cnv α β j|
      ≤ ((1 + u) ^ (m + 1) - 1) * |T j| + m * (1 + u) ^ (m + 1) * R.eta := by
    intro j hj
    refine (main j hj (j + 1) le_rfl).2.trans ?_
    have hqm : (1 + u) ^ (j + 1 + 1) ≤ (1 + u) ^ (m + 1) := pow_le_pow_right₀ hu1 (by omega)
    rw [abs_of_nonneg (hT0 j)]
    refine add_le_add (mul_le_mul_of_nonneg_right (by linarith) (hT0 j)) ?_
    have h1 : ((j + 1 : ℕ) : ℝ) ≤ m := by exact_mod_cast hj
    calc ((j + 1 : ℕ) : ℝ) * R.eta * (1 + u) ^ (j + 1 + 1) ≤ m * R.eta * (1 + u) ^ (m + 1) :=
          mul_le_mul (mul_le_mul_of_nonneg_right h1 heta) hqm (by positivity) (by positivity)
      _ = _ := by ring
  have h5 : l1 m (fun j => R.val (naiveConv a b j) - cnv α β j)
      ≤ ∑ j ∈ range m, (((1 + u) ^ (m + 1) - 1) * |T j| + m * (1 + u) ^ (m + 1) * R.eta) :=
    Finset.sum_le_sum fun j hj => hle j (Finset.mem_range.mp hj)
  refine h5.trans ?_
  rw [Finset.sum_add_distrib, ← Finset.mul_sum, Finset.sum_const, Finset.card_range, nsmul_eq_mul]
  refine add_le_add (mul_le_mul_of_nonneg_left hTsum (by linarith)) (le_of_eq (by ring))

theorem padded_fin {size : ℕ} {a : ℕ → F} (ha : ∀ k < size, R.finite (a k)) (k : ℕ) : R.finite (padded size a k) := by
  unfold padded; split
  · exact ha k (by assumption)
  · exact R.zero_finite

theorem padded_val {size : ℕ} {a : ℕ → F} (k : ℕ) : R.val (padded size a k) = if k < size then R.val (a k) else 0 := by
  unfold padded; split
  · rfl
  · exact R.val_zero

theorem padded_l1 {size N : ℕ} (h : size ≤ N) (a : ℕ → F) :
    l1 N (fun k => R.val (padded size a k)) = l1 size (fun k => R.val (a k)) := by
  unfold l1
  rw [← Finset.sum_subset (Finset.range_mono h)]
  · refine Finset.sum_congr rfl fun k hk => ?_
    dsimp only
    rw [padded_val, if_pos (Finset.mem_range.mp hk)]
  · intro k _ hk
    dsimp only
    rw [padded_val, if_neg (by simpa using hk), abs_zero]

/-- The product spectrum. -/
theorem prod_spec {h N : ℕ} {s α β θa θb Eab u η : ℝ} (hs1 : 1 ≤ s) (hss : s ^ 2 = N) (hh : √(h : ℝ) ≤ s) (hu : 0 ≤ u) (hη : 0 ≤ η)
    {A B A' B' Y : ℕ → ℂ} (p1 : l2 h (fun k => A k * B k) ≤ s * α * β)
    (p2 : l2 h (fun k => A' k * B' k - A k * B k) ≤ Eab) (p3 : l2 h B' ≤ s * β + θb) (p4 : l2 h A' ≤ s * α + θa)
    (hY : ∀ k < h, ‖Y k - A' k * B' k / N‖ ≤ 8 * u * (‖A' k‖ * ‖B' k‖ / N) + η * (13 + 4 * ‖A' k‖ + 4 * ‖B' k‖)) :
    l2 h (fun k => ((1 / N : ℝ) : ℂ) * A k * B k) ≤ α * β / s ∧
    l2 h (fun k => Y k - ((1 / N : ℝ) : ℂ) * A k * B k)
      ≤ 8 * u * ((s * α * β + Eab) / s ^ 2) + Eab / s ^ 2 + η * (13 * s + 4 * (s * α + θa) + 4 * (s * β + θb)) := by
  have hs0 : 0 < s := by linarith
  have hinv0 : (0 : ℝ) ≤ 1 / s ^ 2 := by positivity
  have hNs : (N : ℂ) = ((s ^ 2 : ℝ) : ℂ) := by rw [hss]; push_cast; rfl
  constructor
  · have h1 : l2 h (fun k => ((1 / N : ℝ) : ℂ) * A k * B k) = 1 / s ^ 2 * l2 h (fun k => A k * B k) := by
      rw [← l2_norm _ (fun k => A k * B k), ← l2_smul _ hinv0]
      refine l2_congr fun k _ => ?_
      rw [mul_assoc, norm_mul, Complex.norm_real, hss, norm_mul (1 / (N : ℝ)), norm_norm]
    rw [h1]
    refine (mul_le_mul_of_nonneg_left p1 hinv0).trans (le_of_eq ?_)
    field_simp
  · have hdec : l2 h (fun k => Y k - ((1 / N : ℝ) : ℂ) * A k * B k)
        ≤ l2 h (fun k => Y k - A' k * B' k / N) + l2 h (fun k => A' k * B' k / N - A k * B k / N) := by
      refine le_trans (le_of_eq ?_) (l2_add _ _ _)
      refine l2_congr fun k _ => ?_
      congr 1
      push_cast; ring
    have h2 : l2 h (fun k => A' k * B' k / N - A k * B k / N) ≤ Eab / s ^ 2 := by
      have e : l2 h (fun k => A' k * B' k / N - A k * B k / N) = 1 / s ^ 2 * l2 h (fun k => A' k * B' k - A k * B k) := by
        rw [← l2_norm _ (fun k => A' k * B' k - A k * B k), ← l2_smul _ hinv0]
        refine l2_congr fun k _ => ?_
        rw [hss, ← sub_div, norm_div, Complex.norm_natCast, norm_mul, norm_norm, Real.norm_of_nonneg (by positivity)]; ring
      rw [e]
      exact (mul_le_mul_of_nonneg_left p2 hinv0).trans (le_of_eq (by ring))
    have h3 : l2 h (fun k => Y k - A' k * B' k / N) ≤ 8 * u * ((s * α * β + Eab) / s ^ 2) + η * (13 * s + 4 * (s * α + θa) + 4 * (s * β + θb)) := by
      have h4 : l2 h (fun k => Y k - A' k * B' k / N)
          ≤ l2 h (fun k => 8 * u / s ^ 2 * ‖A' k * B' k‖ + (13 * η + (4 * η * ‖A' k‖ + 4 * η * ‖B' k‖))) := by
        refine l2_mono fun k hk => ?_
        rw [Real.norm_of_nonneg (by positivity)]
        refine (hY k hk).trans (le_of_eq ?_)
        rw [norm_mul, hss]; ring
      refine h4.trans ((l2_add _ _ _).trans (add_le_add ?_ ((l2_add _ _ _).trans ((add_le_add le_rfl (l2_add _ _ _)).trans ?_))))
      · rw [l2_smul _ (by positivity), l2_norm]
        have h5 : l2 h (fun k => A' k * B' k) ≤ s * α * β + Eab := by
          refine le_trans (le_of_eq ?_) ((l2_add _ (fun k => A k * B k)
            (fun k => A' k * B' k - A k * B k)).trans (add_le_add p1 p2))
          exact l2_congr fun k _ => by congr 1; ring
        refine (mul_le_mul_of_nonneg_left h5 (by positivity)).trans (le_of_eq ?_)
        ring
      · rw [l2_const _ (by positivity), l2_smul _ (by positivity), l2_smul _ (by positivity), l2_norm, l2_norm]
        have h6 := mul_le_mul_of_nonneg_right hh (by positivity : 0 ≤ 13 * η)
        have h8 := mul_le_mul_of_nonneg_left p4 (by positivity : 0 ≤ 4 * η)
        have h7 := mul_le_mul_of_nonneg_left p3 (by positivity : 0 ≤ 4 * η)
        refine (add_le_add h6 (add_le_add h8 h7)).trans (le_of_eq ?_)
        ring
    linarith

/-- The inverse transform. -/
theorem inv_spec {N size : ℕ} {s α β δ ηF EY : ℝ} (hN0 : N ≠ 0) (hs1 : 1 ≤ s) (hs : s = √N) (hNge : 2 * size ≤ N)
    (hδ0 : 0 ≤ δ) (hF0 : 0 ≤ ηF) (hα0 : 0 ≤ α) (hβ0 : 0 ≤ β) (hE0 : 0 ≤ EY) {Y Z : ℕ → ℂ} {out : ℕ → ℝ}
    (hZl : l2 (N / 2 + 1) Z ≤ α * β / s) (hYZ : l2 (N / 2 + 1) (fun k => Y k - Z k) ≤ EY) :
    l2 N (hermitian N Y) ≤ √2 * (α * β / s + EY) ∧
    (l2 N (fun j => out j - backward N Y j) ≤ δ * s * l2 N (hermitian N Y) + ηF →
      l1 size (fun j => out j - backward N Z j) ≤ s * (δ * (α * β) + (1 + δ) * (s * EY) + ηF)) := by
  have hs0' : 0 < s := by linarith
  have hYl : l2 (N / 2 + 1) Y ≤ α * β / s + EY := by
    refine le_trans (le_of_eq ?_) ((l2_add _ Z (fun k => Y k - Z k)).trans (add_le_add hZl hYZ))
    exact l2_congr fun k _ => by congr 1; ring
  have hherm : l2 N (hermitian N Y) ≤ √2 * (α * β / s + EY) :=
    (l2_hermitian N _).trans (mul_le_mul_of_nonneg_left hYl (Real.sqrt_nonneg _))
  refine ⟨hherm, fun eo => ?_⟩
  have h2 : l2 N (fun j => out j - backward N Z j) ≤ δ * s * (√2 * (α * β / s + EY)) + ηF + s * (√2 * EY) := by
    have e : l2 N (fun j => out j - backward N Z j)
        ≤ l2 N (fun j => out j - backward N Y j) + l2 N (backward N (fun k => Y k - Z k)) := by
      refine le_trans (le_of_eq ?_) (l2_add _ _ _)
      refine l2_congr fun j _ => ?_
      rw [backward_sub]; congr 1; ring
    refine e.trans (add_le_add (eo.trans ?_) ((l2_backward hN0 _).trans ?_))
    · exact add_le_add (mul_le_mul_of_nonneg_left hherm (by positivity)) le_rfl
    · rw [← hs]
      refine mul_le_mul_of_nonneg_left ((l2_hermitian N _).trans ?_) hs0'.le
      exact mul_le_mul_of_nonneg_left hYZ (Real.sqrt_nonneg _)
  have h3 : l1 size (fun j => out j - backward N Z j) ≤ √(size : ℝ) * l2 N (fun j => out j - backward N Z j) :=
    (l1_le_l2 _ _).trans (mul_le_mul_of_nonneg_left (l2_len (by omega) _) (Real.sqrt_nonneg _))
  have h4 : √(size : ℝ) * √2 ≤ s := by
    rw [← Real.sqrt_mul (Nat.cast_nonneg _), hs]
    refine Real.sqrt_le_sqrt ?_
    have : ((2 * size : ℕ) : ℝ) ≤ N := by exact_mod_cast hNge
    push_cast at this
    linarith
  have h5 : √(size : ℝ) ≤ s := by rw [hs]; exact Real.sqrt_le_sqrt (by exact_mod_cast (by omega : size ≤ N))
  refine h3.trans ((mul_le_mul_of_nonneg_left h2 (Real.sqrt_nonneg _)).trans ?_)
  have e : √(size : ℝ) * (δ * s * (√2 * (α * β / s + EY)) + ηF + s * (√2 * EY))
      = (√(size : ℝ) * √2) * (δ * (α * β) + (1 + δ) * (s * EY)) + √(size : ℝ) * ηF := by
    field_simp; ring
  rw [e]
  have := mul_le_mul_of_nonneg_right h4 (by positivity : 0 ≤ δ * (α * β) + (1 + δ) * (s * EY))
  have := mul_le_mul_of_nonneg_right h5 hF0
  linarith

theorem final_const {s σ u δ η ηF W M α β EY : ℝ} (hs1 : 1 ≤ s) (hσ : s ≤ σ) (hu0 : 0 ≤ u) (hδ0 : 0 ≤ δ) (hδ8 : δ ≤ 1 / 8)
    (hη : 0 ≤ η) (hF0 : 0 ≤ ηF) (hW : 1 ≤ W) (hα0 : 0 ≤ α) (hβ0 : 0 ≤ β) (hM : s ^ 2 ≤ M) (hE0 : 0 ≤ EY)
    (k1 : s * EY ≤ (11 * u + 5 / 2 * δ) * (α * β) + 9 * W * ηF + 30 * W * (s ^ 2 * η)) :
    s * (δ * (α * β) + (1 + δ) * (s * EY) + ηF)
      ≤ σ * (13 * u + 4 * δ) * (α * β) + σ * W * (12 * ηF + 34 * (M * η)) := by
  have hWη : 0 ≤ W * (s ^ 2 * η) := by positivity
  have hWF : 0 ≤ W * ηF := by positivity
  have hαβ0 : 0 ≤ α * β := mul_nonneg hα0 hβ0
  have h7 : δ * (α * β) + (1 + δ) * (s * EY) + ηF
      ≤ (13 * u + 4 * δ) * (α * β) + W * (12 * ηF + 34 * (s ^ 2 * η)) := by
    have h8 : (1 + δ) * (s * EY) ≤ 9 / 8 * ((11 * u + 5 / 2 * δ) * (α * β) + 9 * W * ηF + 30 * W * (s ^ 2 * η)) :=
      mul_le_mul (by linarith) k1 (by positivity) (by norm_num)
    have h9 : ηF ≤ W * ηF := le_mul_of_one_le_left hF0 hW
    have h10 : 0 ≤ u * (α * β) := mul_nonneg hu0 hαβ0
    have h11 : 0 ≤ δ * (α * β) := mul_nonneg hδ0 hαβ0
    have e1 : 9 / 8 * ((11 * u + 5 / 2 * δ) * (α * β) + 9 * W * ηF + 30 * W * (s ^ 2 * η))
        = 99 / 8 * (u * (α * β)) + 45 / 16 * (δ * (α * β)) + 81 / 8 * (W * ηF) + 135 / 4 * (W * (s ^ 2 * η)) := by ring
    have e2 : (13 * u + 4 * δ) * (α * β) + W * (12 * ηF + 34 * (s ^ 2 * η))
        = 13 * (u * (α * β)) + 4 * (δ * (α * β)) + 12 * (W * ηF) + 34 * (W * (s ^ 2 * η)) := by ring
    rw [e1] at h8
    rw [e2]
    linarith
  have h12 : W * (12 * ηF + 34 * (s ^ 2 * η)) ≤ W * (12 * ηF + 34 * (M * η)) := by
    refine mul_le_mul_of_nonneg_left ?_ (by linarith)
    have := mul_le_mul_of_nonneg_right hM hη
    linarith
  calc s * (δ * (α * β) + (1 + δ) * (s * EY) + ηF)
      ≤ σ * ((13 * u + 4 * δ) * (α * β) + W * (12 * ηF + 34 * (M * η))) :=
        mul_le_mul hσ (by linarith) (by positivity) (by linarith)
    _ = _ := by ring

/-- The product `c*a*b` of the FFT branch, `c = 1/N`, is evaluated with relative error at most `8u` up to underflow. -/
def ProdAccurate (R : FloatModel F) (u : ℝ) (Nmax : ℕ) (prod : ℕ → F → F × F → F × F → F × F) : Prop :=
  ∀ N k : ℕ, 1 ≤ N → N ≤ Nmax → ∀ (A B : F × F) (V : ℝ), R.finiteC A → R.finiteC B → ‖R.valC A‖ ≤ V → ‖R.valC B‖ ≤ V →
    4 * (V + R.eta + 1) ^ 2 ≤ R.Omega →
    R.finiteC (prod k (one /ᶠ ofInt (N : ℤ)) A B) ∧
    ‖R.valC (prod k (one /ᶠ ofInt (N : ℤ)) A B) - R.valC A * R.valC B / N‖
      ≤ 8 * u * (‖R.valC A‖ * ‖R.valC B‖ / N) + R.eta * (13 + 4 * ‖R.valC A‖ + 4 * ‖R.valC B‖)

theorem cmul_accurate {u : ℝ} {Nmax : ℕ} (so : SignedOps R u Nmax) :
    ProdAccurate R u Nmax fun _ c a b => Convolver.cmul (Convolver.cscale c a) b := by
  intro N k hN hNm A B V hA hB hAV hBV hO
  obtain ⟨h1, h2⟩ := cmul_err so hN hNm hA hB hAV hBV hO
  refine ⟨h1, h2.trans (add_le_add le_rfl (mul_le_mul_of_nonneg_left ?_ R.eta_nonneg))⟩
  have := norm_nonneg (R.valC A)
  linarith

set_option maxHeartbeats 1000000 in
/-- The FFT branch, for any evaluation of the products that is accurate enough. -/
theorem fft_acc_gen {u : ℝ} {Nmax : ℕ} (so : SignedOps R u Nmax) {fft : FFTW F} {delta etaF Wf : ℝ}
    (hfft : FFTAccurate R fft Nmax delta etaF Wf) {size : ℕ} (hs0 : 0 < size)
    (hNm : (roundUp (2 * (size : ℤ)) ROUNDING).toNat ≤ Nmax) (hδ : delta * √Nmax ≤ 1 / 8) (hF1 : etaF ≤ 1)
    (hη1 : Nmax * R.eta ≤ 1) {W : ℝ} (hW : 1 ≤ W) (hO : 128 * W ^ 2 ≤ R.Omega) (hWf : 64 * W ^ 2 ≤ Wf)
    {a b : ℕ → F} (ha : ∀ k < size, R.finite (a k)) (hb : ∀ k < size, R.finite (b k))
    {prod : ℕ → F → F × F → F × F → F × F} (hpr : ProdAccurate R u Nmax prod)
    (haW : l1 size (fun k => R.val (a k)) ≤ W) (hbW : l1 size (fun k => R.val (b k)) ≤ W) :
    (∀ j < size, R.finite (fftConvWith fft prod size a b j)) ∧
    l1 size (fun j => R.val (fftConvWith fft prod size a b j) - cnv (fun k => R.val (a k)) (fun k => R.val (b k)) j)
      ≤ √Nmax * (13 * u + 4 * delta) * (l1 size (fun k => R.val (a k)) * l1 size (fun k => R.val (b k)))
        + √Nmax * W * (12 * etaF + 34 * (Nmax * R.eta)) := by
  have hr := roundUp_spec (n := 2 * (size : ℤ)) (by omega)
  unfold fftConvWith
  obtain ⟨N, hN⟩ : ∃ N, N = (roundUp (2 * (size : ℤ)) ROUNDING).toNat := ⟨_, rfl⟩
  rw [← hN] at hNm ⊢
  have hNge : 2 * size ≤ N := by omega
  have hN0 : N ≠ 0 := by omega
  clear hr hN
  have hN1 : 1 ≤ N := by omega
  dsimp only
  have hδ0 := hfft.delta_nonneg
  have hF0 := hfft.etaF_nonneg
  have hu0 := so.u_nonneg
  have hu8 := so.u_le
  have heta := R.eta_nonneg
  have hNr : (1 : ℝ) ≤ N := by exact_mod_cast hN1
  have hNmr : (N : ℝ) ≤ Nmax := by exact_mod_cast hNm
  set s := √(N : ℝ) with hs
  have hs1 : 1 ≤ s := by rw [hs]; exact Real.one_le_sqrt.mpr hNr
  have hss : s ^ 2 = N := Real.sq_sqrt (by linarith)
  have hsM : s ≤ √(Nmax : ℝ) := Real.sqrt_le_sqrt hNmr
  have hδs : delta * s ≤ 1 / 8 := (mul_le_mul_of_nonneg_left hsM hδ0).trans hδ
  have hδ8 : delta ≤ 1 / 8 := by nlinarith
  have hsη : s ^ 2 * R.eta ≤ 1 := by rw [hss]; exact (mul_le_mul_of_nonneg_right hNmr heta).trans hη1
  have hηle : R.eta ≤ 1 := by nlinarith
  set α := l1 size (fun k => R.val (a k)) with hα
  set β := l1 size (fun k => R.val (b k)) with hβ
  have hα0 : 0 ≤ α := l1_nonneg _ _
  have hβ0 : 0 ≤ β := l1_nonneg _ _
  have hαp : l1 N (fun k => R.val (padded size a k)) = α := padded_l1 (by omega) a
  have hβp : l1 N (fun k => R.val (padded size b k)) = β := padded_l1 (by omega) b
  have hWWf : W ≤ Wf := by nlinarith
  obtain ⟨fA, eA⟩ := hfft.r2c N hNm (padded size a) (fun j _ => padded_fin ha j) (by rw [hαp]; linarith)
  obtain ⟨fB, eB⟩ := hfft.r2c N hNm (padded size b) (fun j _ => padded_fin hb j) (by rw [hβp]; linarith)
  set Ah := fft.r2c N ((List.range N).map (padded size a)) with hAh
  set Bh := fft.r2c N ((List.range N).map (padded size b)) with hBh
  set A := dft N (fun j => ((R.val (padded size a j) : ℝ) : ℂ)) with hA
  set B := dft N (fun j => ((R.val (padded size b j) : ℝ) : ℂ)) with hB
  set θa := delta * s * α + etaF with hθa
  set θb := delta * s * β + etaF with hθb
  have hθa0 : 0 ≤ θa := by positivity
  have hθb0 : 0 ≤ θb := by positivity
  have eA' : l2 (N / 2 + 1) (fun k => R.valC (Ah k) - A k) ≤ θa := by
    refine eA.trans ?_
    have := (l2_le_l1 N (fun k => R.val (padded size a k))).trans_eq hαp
    have := mul_le_mul_of_nonneg_left this (by positivity : 0 ≤ delta * s)
    linarith
  have eB' : l2 (N / 2 + 1) (fun k => R.valC (Bh k) - B k) ≤ θb := by
    refine eB.trans ?_
    have := (l2_le_l1 N (fun k => R.val (padded size b k))).trans_eq hβp
    have := mul_le_mul_of_nonneg_left this (by positivity : 0 ≤ delta * s)
    linarith
  have hAn : ∀ k < N / 2 + 1, ‖A k‖ ≤ α := fun k _ => by rw [← hαp]; exact dft_norm_le N _ k
  have hBn : ∀ k < N / 2 + 1, ‖B k‖ ≤ β := fun k _ => by rw [← hβp]; exact dft_norm_le N _ k
  obtain ⟨p1, p2, p3⟩ := spectra_err (A' := fun k => R.valC (Ah k)) (B' := fun k => R.valC (Bh k)) hs
    (by omega : N / 2 + 1 ≤ N) hα0 hβ0 hAn hBn eA' eB'
  have p4 : l2 (N / 2 + 1) (fun k => R.valC (Ah k)) ≤ s * α + θa := by
    have e := spectra_err (A := B) (B := A) (A' := fun k => R.valC (Bh k)) (B' := fun k => R.valC (Ah k)) hs
      (by omega : N / 2 + 1 ≤ N) hβ0 hα0 hBn hAn eB' eA'
    exact e.2.2
  set Eab := θa * β + α * θb + θa * θb with hEab
  -- sizes of the computed spectra
  have hbound : ∀ (Zh Z : ℕ → ℂ) (ζ θ : ℝ), ζ ≤ W → θ ≤ 9 / 8 * W → (∀ k < N / 2 + 1, ‖Z k‖ ≤ ζ) →
      l2 (N / 2 + 1) (fun k => Zh k - Z k) ≤ θ → ∀ k < N / 2 + 1, ‖Zh k‖ ≤ 17 / 8 * W := by
    intro Zh Z ζ θ hζ hθ hZ hl k hk
    have h1 := (norm_le_l2 (fun k => Zh k - Z k) hk).trans hl
    have h2 : ‖Zh k‖ ≤ ‖Zh k - Z k‖ + ‖Z k‖ := by
      have := norm_add_le (Zh k - Z k) (Z k)
      rwa [sub_add_cancel] at this
    have h3 := hZ k hk
    linarith
  have hθaW : θa ≤ 9 / 8 * W := by
    have : delta * s * α ≤ 1 / 8 * W := mul_le_mul hδs haW hα0 (by norm_num)
    linarith
  have hθbW : θb ≤ 9 / 8 * W := by
    have : delta * s * β ≤ 1 / 8 * W := mul_le_mul hδs hbW hβ0 (by norm_num)
    linarith
  have nA := hbound (fun k => R.valC (Ah k)) A α θa haW hθaW hAn eA'
  have nB := hbound (fun k => R.valC (Bh k)) B β θb hbW hθbW hBn eB'
  have hOm : 4 * (17 / 8 * W + R.eta + 1) ^ 2 ≤ R.Omega := by
    refine le_trans ?_ hO
    have h1 : 17 / 8 * W + R.eta + 1 ≤ 5 * W := by linarith
    have h2 : (17 / 8 * W + R.eta + 1) ^ 2 ≤ (5 * W) ^ 2 := pow_le_pow_left₀ (by positivity) h1 2
    nlinarith
  have hprod : ∀ k < N / 2 + 1, _ := fun k hk =>
    hpr N k hN1 hNm (Ah k) (Bh k) _ (fA k (by omega)) (fB k (by omega)) (nA k hk) (nB k hk) hOm
  set Y : ℕ → F × F := fun k => prod k (one /ᶠ ofInt (N : ℤ)) (Ah k) (Bh k) with hY
  have hYf : ∀ k < N / 2 + 1, R.finiteC (Y k) := fun k hk => (hprod k hk).1
  set EY := 8 * u * ((s * α * β + Eab) / s ^ 2) + Eab / s ^ 2 + R.eta * (13 * s + 4 * (s * α + θa) + 4 * (s * β + θb)) with hEY
  obtain ⟨k1, k2, k3⟩ := err_const hs1 hu0 hu8 hδ0 hδs heta hF0 hF1 hW hα0 haW hβ0 hbW hθa hθb hEab hEY
  have hhs : √((N / 2 + 1 : ℕ) : ℝ) ≤ s := Real.sqrt_le_sqrt (by exact_mod_cast (by omega : N / 2 + 1 ≤ N))
  obtain ⟨hZl, hYZ⟩ := prod_spec (Y := fun k => R.valC (Y k)) hs1 hss hhs hu0 heta p1 p2 p3 p4 (fun k hk => (hprod k hk).2)
  rw [← hEY] at hYZ
  clear_value EY Y Eab θa θb s α β A B Ah Bh
  obtain ⟨hherm, hfin⟩ := inv_spec (out := fun j => R.val (fft.c2r N ((List.range (N / 2 + 1)).map Y) j)) (δ := delta) (ηF := etaF)
    hN0 hs1 hs hNge hδ0 hF0 hα0 hβ0 k2 hZl hYZ
  have hαβW : α * β ≤ W ^ 2 := by rw [sq]; exact mul_le_mul haW hbW hβ0 (by linarith)
  have hs2 : √(2 : ℝ) ≤ 3 / 2 := by
    rw [Real.sqrt_le_left (by norm_num)]; norm_num
  have hEYle : EY ≤ s * EY := le_mul_of_one_le_left k2 hs1
  have hE41 : s * EY ≤ 41 * W ^ 2 := by
    have h1 : W * etaF ≤ W * W := mul_le_mul_of_nonneg_left (by linarith) (by linarith)
    have h2 : W * (s ^ 2 * R.eta) ≤ W * W := mul_le_mul_of_nonneg_left (by linarith) (by linarith)
    have e1 : W ^ 2 = W * W := sq W
    rw [e1] at k3 ⊢
    linarith
  have hdivs : α * β / s ≤ W ^ 2 := (div_le_self (by positivity) hs1).trans hαβW
  have hsumW : α * β / s + EY ≤ 42 * W ^ 2 := by linarith
  have hsum0 : 0 ≤ α * β / s + EY := add_nonneg (div_nonneg (mul_nonneg hα0 hβ0) (by linarith)) k2
  have hhW : l2 N (hermitian N fun k => R.valC (Y k)) ≤ Wf := by
    have h1 := mul_le_mul hs2 hsumW hsum0 (by norm_num)
    have h2 := sq_nonneg W
    linarith
  obtain ⟨fo, eo⟩ := hfft.c2r N hNm Y (fun k hk => hYf k (by omega)) hhW
  refine ⟨fun j hj => fo j (by omega), ?_⟩
  rw [← hs] at eo
  have hconv : ∀ j < size, cnv (fun k => R.val (a k)) (fun k => R.val (b k)) j
      = backward N (fun k => ((1 / N : ℝ) : ℂ) * A k * B k) j := by
    intro j hj
    have h := backward_mul hN0 hNge (fun k => R.val (padded size a k)) (fun k => R.val (padded size b k))
      (fun k hk => by rw [padded_val, if_neg (by omega)]) (fun k hk => by rw [padded_val, if_neg (by omega)]) hj
    rw [hA, hB]
    refine Eq.trans ?_ h.symm
    unfold cnv
    refine Finset.sum_congr rfl fun k hk => ?_
    have := Finset.mem_range.mp hk
    rw [padded_val, padded_val, if_pos (by omega), if_pos (by omega)]
  rw [l1_congr fun j hj => by rw [hconv j hj]]
  refine (hfin eo).trans ?_
  exact final_const hs1 hsM hu0 hδ0 hδ8 heta hF0 hW hα0 hβ0 (by rw [hss]; exact hNmr) k2 k1

/-- The FFT branch. -/
theorem fft_acc {u : ℝ} {Nmax : ℕ} (so : SignedOps R u Nmax) {fft : FFTW F} {delta etaF Wf : ℝ}
    (hfft : FFTAccurate R fft Nmax delta etaF Wf) {size : ℕ} (hs0 : 0 < size)
    (hNm : (roundUp (2 * (size : ℤ)) ROUNDING).toNat ≤ Nmax) (hδ : delta * √Nmax ≤ 1 / 8) (hF1 : etaF ≤ 1)
    (hη1 : Nmax * R.eta ≤ 1) {W : ℝ} (hW : 1 ≤ W) (hO : 128 * W ^ 2 ≤ R.Omega) (hWf : 64 * W ^ 2 ≤ Wf)
    {a b : ℕ → F} (ha : ∀ k < size, R.finite (a k)) (hb : ∀ k < size, R.finite (b k))
    (haW : l1 size (fun k => R.val (a k)) ≤ W) (hbW : l1 size (fun k => R.val (b k)) ≤ W) :
    (∀ j < size, R.finite (fftConv fft size a b j)) ∧
    l1 size (fun j => R.val (fftConv fft size a b j) - cnv (fun k => R.val (a k)) (fun k => R.val (b k)) j)
      ≤ √Nmax * (13 * u + 4 * delta) * (l1 size (fun k => R.val (a k)) * l1 size (fun k => R.val (b k)))
        + √Nmax * W * (12 * etaF + 34 * (Nmax * R.eta)) :=
  fft_acc_gen so hfft hs0 hNm hδ hF1 hη1 hW hO hWf ha hb (cmul_accurate so) haW hbW

/-- Both branches of `FFTWConvolver::convolve_same_size`. -/
theorem convVal_acc {u : ℝ} {Nmax M : ℕ} (so : SignedOps R u Nmax) {fft : FFTW F} {delta etaF Wf : ℝ}
    (hfft : FFTAccurate R fft Nmax delta etaF Wf) (hNm : (roundUp (2 * (M : ℤ)) ROUNDING).toNat ≤ Nmax)
    (hδ : delta * √Nmax ≤ 1 / 8) (hF1 : etaF ≤ 1)
    (hη1 : Nmax * R.eta ≤ 1) {W : ℝ} (hW : 1 ≤ W) (hO : 128 * W ^ 2 ≤ R.Omega) (hWf : 64 * W ^ 2 ≤ Wf)
    (hO' : (1 + u) ^ 128 * (W ^ 2 + 128 * R.eta) ≤ R.Omega) :
    ConvAccurate R (convVal fft) M (√Nmax * (13 * u + 4 * delta) + ((1 + u) ^ 128 - 1))
      (√Nmax * W * (12 * etaF + 34 * (Nmax * R.eta)) + 128 ^ 2 * (1 + u) ^ 128 * R.eta) W := by
  intro m hm a b ha hb haW hbW
  have hu := so.u_nonneg
  have heta := R.eta_nonneg
  have hδ0 := hfft.delta_nonneg
  have hF0 := hfft.etaF_nonneg
  have hG : 1 ≤ (1 + u) ^ 128 := one_le_pow₀ (by linarith)
  have hαβ : 0 ≤ l1 m (fun k => R.val (a k)) * l1 m (fun k => R.val (b k)) := mul_nonneg (l1_nonneg _ _) (l1_nonneg _ _)
  unfold convVal
  by_cases hsz : (m : ℤ) < MINIMUM_SIZE_FOR_FFTW_CONVOLUTION
  · simp only [if_pos hsz]
    have hm127 : m + 1 ≤ 128 := by
      have : MINIMUM_SIZE_FOR_FFTW_CONVOLUTION = 128 := rfl
      omega
    have hpow : (1 + u) ^ (m + 1) ≤ (1 + u) ^ 128 := pow_le_pow_right₀ (by linarith) hm127
    have hmr : (m : ℝ) ≤ 128 := by exact_mod_cast (by omega : m ≤ 128)
    obtain ⟨hf, he⟩ := naive_acc so ha hb haW hbW (by
      refine le_trans (mul_le_mul hpow ?_ (by positivity) (by positivity)) hO'
      have := mul_le_mul_of_nonneg_right hmr heta
      linarith)
    refine ⟨hf, he.trans (add_le_add (mul_le_mul_of_nonneg_right ?_ hαβ) ?_)⟩
    · have : 0 ≤ √(Nmax : ℝ) * (13 * u + 4 * delta) := by positivity
      linarith
    · have h1 : (m : ℝ) ^ 2 * (1 + u) ^ (m + 1) * R.eta ≤ 128 ^ 2 * (1 + u) ^ 128 * R.eta :=
        mul_le_mul_of_nonneg_right (mul_le_mul (pow_le_pow_left₀ (by positivity) hmr 2) hpow (by positivity) (by positivity)) heta
      have h2 : 0 ≤ √(Nmax : ℝ) * W * (12 * etaF + 34 * (Nmax * R.eta)) := by positivity
      linarith
  · simp only [if_neg hsz]
    have hm128 : 128 ≤ m := by
      have : MINIMUM_SIZE_FOR_FFTW_CONVOLUTION = 128 := rfl
      omega
    have hNm' : (roundUp (2 * (m : ℤ)) ROUNDING).toNat ≤ Nmax := by
      have := (roundUp_mono (m := 2 * (m : ℤ)) (n := 2 * (M : ℤ)) (by omega) (by omega)).1
      omega
    obtain ⟨hf, he⟩ := fft_acc so hfft (by omega : 0 < m) hNm' hδ hF1 hη1 hW hO hWf ha hb haW hbW
    refine ⟨hf, he.trans (add_le_add (mul_le_mul_of_nonneg_right (by linarith) hαβ) ?_)⟩
    have : 0 ≤ 128 ^ 2 * (1 + u) ^ 128 * R.eta := by positivity
    linarith

/-- The direct convolution. -/
theorem naiveConv_acc {u : ℝ} {Nmax M : ℕ} (so : SignedOps R u Nmax) {W : ℝ}
    (hO : (1 + u) ^ (M + 1) * (W ^ 2 + M * R.eta) ≤ R.Omega) :
    ConvAccurate R (fun _ => naiveConv) M ((1 + u) ^ (M + 1) - 1) ((M : ℝ) ^ 2 * (1 + u) ^ (M + 1) * R.eta) W := by
  intro m hm a b ha hb haW hbW
  have hu := so.u_nonneg
  have heta := R.eta_nonneg
  have hαβ : 0 ≤ l1 m (fun k => R.val (a k)) * l1 m (fun k => R.val (b k)) := mul_nonneg (l1_nonneg _ _) (l1_nonneg _ _)
  have hpow : (1 + u) ^ (m + 1) ≤ (1 + u) ^ (M + 1) := pow_le_pow_right₀ (by linarith) (by omega)
  have hmr : (m : ℝ) ≤ M := by exact_mod_cast hm
  obtain ⟨hf, he⟩ := naive_acc so ha hb haW hbW (by
    refine le_trans (mul_le_mul hpow ?_ (by positivity) (by positivity)) hO
    have := mul_le_mul_of_nonneg_right hmr heta
    linarith)
  refine ⟨hf, he.trans (add_le_add (mul_le_mul_of_nonneg_right (by linarith) hαβ) ?_)⟩
  exact mul_le_mul_of_nonneg_right (mul_le_mul (pow_le_pow_left₀ (by positivity) hmr 2) hpow (by positivity) (by positivity)) heta

end
end CP.Spec
