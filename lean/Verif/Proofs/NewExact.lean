import Verif.Proofs.NewStep
import Verif.Proofs.Ecdf2Final
import Mathlib.RingTheory.PowerSeries.Basic
/-
Exact value of `ecdf1_new`: the block recursion computes the law of the counting process under
the upper boundary constraints, for any block size.
-/
set_option linter.unusedVariables false
open Finset MeasureTheory
namespace CP.Spec
noncomputable section
variable {E : Fault → Prop}

theorem naiveConv_congr {F : Type} [FOps F] {size : ℕ} {a a' b b' : ℕ → F} (ha : ∀ k, k < size → a k = a' k)
    (hb : ∀ k, k < size → b k = b' k) {j : ℕ} (hj : j < size) : naiveConv a b j = naiveConv a' b' j := by
  unfold naiveConv
  have : ∀ l : List ℕ, (∀ k ∈ l, k ≤ j) → ∀ z : F,
      l.foldl (fun acc k => FOps.add acc (FOps.mul (a k) (b (j - k)))) z
        = l.foldl (fun acc k => FOps.add acc (FOps.mul (a' k) (b' (j - k)))) z := by
    intro l
    induction l with
    | nil => intro _ z; rfl
    | cons k l ih =>
      intro h z
      have hk := h k (by simp)
      rw [List.foldl_cons, List.foldl_cons, ha k (by omega), hb (j - k) (by omega)]
      exact ih (fun k hk => h k (by simp [hk])) _
  exact this _ (fun k hk => by have := List.mem_range.mp hk; omega) _

theorem padded_congr {F : Type} [FOps F] {size : ℕ} {a a' : ℕ → F} (ha : ∀ k, k < size → a k = a' k) :
    padded size a = padded size a' := by
  funext k
  unfold padded
  split
  · exact ha k ‹_›
  · rfl

/-- The convolution only depends on the first `size` entries. -/
theorem convVal_congr {F : Type} [FOps F] {fft : FFTW F} {size : ℕ} {a a' b b' : ℕ → F}
    (ha : ∀ k, k < size → a k = a' k) (hb : ∀ k, k < size → b k = b' k) {j : ℕ} (hj : j < size) :
    convVal fft size a b j = convVal fft size a' b' j := by
  unfold convVal
  rw [naiveConv_congr ha hb hj]
  unfold fftConv
  rw [padded_congr ha, padded_congr hb]

/-- Poisson convolution. -/
def pconv (lam : ℝ) (q : ℕ → ℝ) (m : ℕ) : ℝ := ∑ l ∈ range (m + 1), q l * pois lam (m - l)

theorem pconv_eq_coeff (lam : ℝ) (q : ℕ → ℝ) (m : ℕ) :
    pconv lam q m = PowerSeries.coeff m (PowerSeries.mk q * PowerSeries.mk (pois lam)) := by
  rw [PowerSeries.coeff_mul, Finset.Nat.sum_antidiagonal_eq_sum_range_succ_mk]
  simp [pconv]

theorem pois_add (lam mu : ℝ) : PowerSeries.mk (pois lam) * PowerSeries.mk (pois mu)
    = PowerSeries.mk (pois (lam + mu)) := by
  ext m
  rw [PowerSeries.coeff_mul, Finset.Nat.sum_antidiagonal_eq_sum_range_succ_mk, PowerSeries.coeff_mk]
  simp only [PowerSeries.coeff_mk]
  unfold pois
  rw [add_pow, Finset.mul_sum, Finset.sum_div]
  refine Finset.sum_congr rfl fun k hk => ?_
  have hk' : k ≤ m := by have := Finset.mem_range.mp hk; omega
  rw [neg_add, Real.exp_add, Nat.cast_choose ℝ hk']
  have h1 : (k.factorial : ℝ) ≠ 0 := by exact_mod_cast Nat.factorial_ne_zero k
  have h2 : ((m - k).factorial : ℝ) ≠ 0 := by exact_mod_cast Nat.factorial_ne_zero _
  have h3 : (m.factorial : ℝ) ≠ 0 := by exact_mod_cast Nat.factorial_ne_zero _
  field_simp

theorem pconv_pconv (lam mu : ℝ) (q : ℕ → ℝ) (m : ℕ) :
    pconv mu (pconv lam q) m = pconv (lam + mu) q m := by
  rw [pconv_eq_coeff, pconv_eq_coeff, ← pois_add, ← mul_assoc]
  congr 2
  ext m
  rw [PowerSeries.coeff_mk, pconv_eq_coeff]

/-- Locations `0, B_0, B_1, ...` -/
def rloc (Bv : ℕ → ℝ) (k : ℕ) : ℝ := if k = 0 then 0 else Bv (k - 1)

/-- Law of the counting process after the first `k` steps, on the event that the first `k`
constraints hold. -/
def lawV (Bv : ℕ → ℝ) : ℕ → ℕ → ℝ
  | 0 => fun m => if m = 0 then 1 else 0
  | k + 1 => vstep (rloc Bv (k + 1) - rloc Bv k) (fun m => k + 1 ≤ m) (lawV Bv k)

/-- Poisson weighted law. -/
def qlaw (n : ℕ) (Bv : ℕ → ℝ) (k : ℕ) : ℕ → ℝ := pw n (rloc Bv k) (lawV Bv k)

theorem qlaw_zero (n : ℕ) (Bv : ℕ → ℝ) (m : ℕ) : qlaw n Bv 0 m = if m = 0 then 1 else 0 := by
  unfold qlaw pw lawV rloc
  by_cases h : m = 0 <;> simp [h]

theorem qlaw_succ (n : ℕ) (Bv : ℕ → ℝ) (k m : ℕ) :
    qlaw n Bv (k + 1) m = if k + 1 ≤ m then pconv ((n : ℝ) * (rloc Bv (k + 1) - rloc Bv k)) (qlaw n Bv k) m else 0 := by
  unfold qlaw
  simp only [lawV]
  rw [pw_step]
  rfl

theorem qlaw_supp (n : ℕ) (Bv : ℕ → ℝ) (k m : ℕ) (h : m < k) : qlaw n Bv k m = 0 := by
  cases k with
  | zero => omega
  | succ k => rw [qlaw_succ, if_neg (by omega)]

theorem pconv_supp {lam : ℝ} {q : ℕ → ℝ} {k m : ℕ} (hq : ∀ l, l < k → q l = 0) (hm : m < k) : pconv lam q m = 0 := by
  unfold pconv
  refine Finset.sum_eq_zero fun l hl => ?_
  rw [hq l (by have := Finset.mem_range.mp hl; omega), zero_mul]

/-- Subtracting the paths that exit at step `i`. -/
theorem pconv_exit (n : ℕ) (Bv : ℕ → ℝ) (i j : ℕ) (hij : i < j) (mu : ℝ) :
    pconv ((n : ℝ) * (rloc Bv (i + 1) - rloc Bv i) + mu) (qlaw n Bv i) j
      - pconv ((n : ℝ) * (rloc Bv (i + 1) - rloc Bv i)) (qlaw n Bv i) i * pois mu (j - i)
      = pconv mu (qlaw n Bv (i + 1)) j := by
  rw [← pconv_pconv]
  set r := pconv ((n : ℝ) * (rloc Bv (i + 1) - rloc Bv i)) (qlaw n Bv i) with hr
  have h : ∀ l, r l = qlaw n Bv (i + 1) l + if l = i then r i else 0 := by
    intro l
    rw [qlaw_succ]
    by_cases h1 : i + 1 ≤ l
    · rw [if_pos h1, if_neg (by omega), add_zero]
    · rw [if_neg h1]
      by_cases h2 : l = i
      · rw [if_pos h2, h2, zero_add]
      · rw [if_neg h2, hr, pconv_supp (k := i) (fun l hl => qlaw_supp n Bv i l hl) (by omega), add_zero]
  have : pconv mu r j = pconv mu (qlaw n Bv (i + 1)) j + r i * pois mu (j - i) := by
    unfold pconv
    rw [Finset.sum_congr rfl fun l _ => by rw [h l, add_mul], Finset.sum_add_distrib]
    congr 1
    rw [Finset.sum_eq_single i]
    · rw [if_pos rfl]
    · intro l _ hl; rw [if_neg hl, zero_mul]
    · intro hi; exact absurd (Finset.mem_range.mpr (by omega)) hi
  rw [this]; ring

/-- Convolution of the program on entries `i..`, when the law vanishes below `i`. -/
theorem conv_shift {fft : FFTW XR} (hf : ExactFFT fft) {size i m : ℕ} (him : i ≤ m) (hm : m - i < size) {lam : ℝ}
    (hlam : 0 ≤ lam) {q : ℕ → ℝ} (hq : ∀ l, l < i → q l = 0) {f : ℕ → XR}
    (hfq : ∀ j, j < size → f (i + j) = XR.fin (q (i + j))) :
    convVal fft size (pmfVal (XR.fin lam)) (fun j => f (i + j)) (m - i) = XR.fin (pconv lam q m) := by
  rw [convVal_congr (a' := fun k => XR.fin (pois lam k)) (b' := fun j => XR.fin (q (i + j)))
    (fun k _ => pmfVal_fin hlam k) (fun j hj => hfq j hj) hm]
  rw [convVal_fin hf _ (fun j => q (i + j)) hm, shift_sum him hq]
  rfl

theorem locv_fin (Bv : ℕ → ℝ) (k : ℕ) : locv (fun i => XR.fin (Bv i)) k = XR.fin (rloc Bv k) := by
  unfold locv rloc
  split <;> simp

theorem lamOk_fin {env : Env XR} {x : ℝ} (h : 0 ≤ x) : LamOk E env (XR.fin x) := by
  refine ⟨Or.inl ?_, Or.inr (Or.inl ?_)⟩
  · simp [h]
  · have : (FOps.ge (XR.fin x) (FOps.zero : XR)) = (decide (0 < x) || decide (x = 0)) := by
      unfold FOps.ge; simp
    rw [this]
    rcases le_iff_eq_or_lt.mp h with h | h
    · simp [h.symm]
    · simp [h]

theorem rloc_mono {Bv : ℕ → ℝ} (hm : Monotone Bv) (h0 : 0 ≤ Bv 0) : Monotone (rloc Bv) := by
  intro a b hab
  unfold rloc
  split
  · split
    · exact le_rfl
    · exact h0.trans (hm (Nat.zero_le _))
  · rw [if_neg (by omega)]
    exact hm (by omega)

/-- One block in exact arithmetic. -/
theorem blockStep_exact (env : Env XR) (hf : ExactFFT env.fft) {N jump k K : ℕ} {B : List XR} {Bv : ℕ → ℝ}
    (hmono : Monotone Bv) (h0 : 0 ≤ Bv 0)
    (hB : ∀ i : ℕ, i < N → Has B i (XR.fin (Bv i))) {s : BlockState XR}
    (hs : BInv (N : Int) jump k (fun i => XR.fin (Bv i)) s) {f : ℕ → XR}
    (hfq : ∀ m, k ≤ m → m ≤ N → f m = XR.fin (qlaw N Bv k m))
    (hfs : ∀ m : ℕ, k ≤ m → m ≤ N → Has s.buffers.src m (f m)) (hkK : k < K) (hKN : K ≤ N) (hj : K - k ≤ jump) :
    Sat E (fun s' => BInv (N : Int) jump K (fun i => XR.fin (Bv i)) s' ∧ ∃ f' : ℕ → XR,
        (∀ m, K ≤ m → m ≤ N → f' m = XR.fin (qlaw N Bv K m)) ∧
        ∀ m : ℕ, K ≤ m → m ≤ N → Has s'.buffers.src m (f' m))
      (blockStep env N (XR.fin N) B ((K : Int) - 1) s) := by
  have hrm := rloc_mono hmono h0
  have hBr : ∀ i, Bv i = rloc Bv (i + 1) := fun i => by simp [rloc]
  have hK1 : Bv (K - 1) = rloc Bv K := by rw [hBr]; congr 1; omega
  have hnn : ∀ a b : ℕ, a ≤ b → 0 ≤ (N : ℝ) * (rloc Bv b - rloc Bv a) := fun a b hab =>
    mul_nonneg (Nat.cast_nonneg _) (sub_nonneg.mpr (hrm hab))
  have lam1 : ∀ a b : ℕ, FOps.mul (XR.fin (N : ℝ)) (FOps.sub (XR.fin (rloc Bv b)) (XR.fin (rloc Bv a)))
      = XR.fin ((N : ℝ) * (rloc Bv b - rloc Bv a)) := by intro a b; simp
  refine (blockStep_sat (E := E) env (intensity := XR.fin (N : ℝ)) (Bv := fun i => XR.fin (Bv i)) hs
    (fun i hi => hB i (by omega)) hkK (by omega) (by omega) (fun m h1 h2 => hfs m h1 (by omega)) ?_ ?_ ?_
    (fun i f g => (∀ m, i ≤ m → m < K → f m = XR.fin (qlaw N Bv i m)) ∧
      (∀ m, K ≤ m → m ≤ N → g m = XR.fin (pconv ((N : ℝ) * (rloc Bv K - rloc Bv i)) (qlaw N Bv i) m))) ?_ ?_).mono ?_
  · simp only [locv_fin, hK1, lam1]; exact lamOk_fin (hnn _ _ hkK.le)
  · intro i h1 h2
    simp only [locv_fin, hBr i, lam1]; exact lamOk_fin (hnn _ _ (by omega))
  · intro i h1 h2
    simp only [hBr i, hK1, lam1]; exact lamOk_fin (hnn _ _ (by omega))
  · refine ⟨fun m h1 h2 => hfq m h1 (by omega), fun m h1 h2 => ?_⟩
    simp only [locv_fin, hK1, lam1]
    rw [conv_shift hf (by omega) (by omega) (hnn _ _ hkK.le) (q := qlaw N Bv k) (qlaw_supp N Bv k)]
    intro j hj
    exact hfq _ (by omega) (by omega)
  · intro i f g h1 h2 ⟨hfi, hgi⟩
    have hmini : ∀ m, i ≤ m → m < K → miniNext env (XR.fin ((N : ℝ) * (rloc Bv (i + 1) - rloc Bv i))) K i f m
        = XR.fin (pconv ((N : ℝ) * (rloc Bv (i + 1) - rloc Bv i)) (qlaw N Bv i) m) := by
      intro m hm1 hm2
      unfold miniNext
      refine conv_shift hf (by omega) (by omega) (hnn _ _ (by omega)) (qlaw_supp N Bv i) ?_
      intro j hj
      exact hfi _ (by omega) (by omega)
    simp only [locv_fin, hBr i, hK1, lam1]
    refine ⟨fun m hm1 hm2 => ?_, fun m hm1 hm2 => ?_⟩
    · rw [hmini m (by omega) hm2, qlaw_succ, if_pos hm1]
    · unfold destNext
      rw [hmini i le_rfl (by omega), hgi m hm1 hm2, pmfVal_fin (hnn _ _ (by omega)), XR.mul_fin, XR.sub_fin,
        XR.fin_inj, ← pconv_exit N Bv i m (by omega)]
      congr 2
      ring
  · intro s' ⟨hinv, f', g, ⟨_, hg⟩, hsrc⟩
    refine ⟨hinv, g, ?_, fun m h1 h2 => hsrc m h1 (by omega)⟩
    intro m h1 h2
    rw [hg m h1 h2, XR.fin_inj]
    have := qlaw_succ N Bv (K - 1) m
    have e : K - 1 + 1 = K := by omega
    rw [e, if_pos h1] at this
    exact this.symm

/-- The non-crossing vector's entry `n` is a Poisson probability, whatever the block size. -/
theorem newN2_exact (env : Env XR) (hf : ExactFFT env.fft) {N : ℕ} (hN : 0 < N) {jump : ℕ} (hj : 0 < jump)
    {B : List XR} (hlen : B.length = N) {Bv : ℕ → ℝ}
    (hmono : Monotone Bv) (h0 : 0 ≤ Bv 0) (h1 : ∀ i, Bv i ≤ 1)
    (hB : ∀ i : ℕ, i < N → Has B i (XR.fin (Bv i)))
    (ha : env.asserts = false ∨ jump ≤ N ∨ E (.assertFailed "jump_size <= n")) :
    Sat E (fun probs => Has probs N (XR.fin (pconv ((N : ℝ) * (1 - rloc Bv N)) (qlaw N Bv N) N)))
      (poissonBNoncrossingProbabilityN2 env N (XR.fin N) B jump) := by
  have hr1 : rloc Bv N ≤ 1 := by
    unfold rloc; split
    · exact zero_le_one
    · exact h1 _
  have hnn : 0 ≤ (N : ℝ) * (1 - rloc Bv N) := mul_nonneg (Nat.cast_nonneg _) (by linarith)
  have lam : FOps.mul (XR.fin (N : ℝ)) (FOps.sub FOps.one (locv (fun i => XR.fin (Bv i)) N))
      = XR.fin ((N : ℝ) * (1 - rloc Bv N)) := by rw [locv_fin]; simp
  refine (newN2_sat (E := E) env hN (Bv := fun i => XR.fin (Bv i)) hlen hj ha
    (fun k f => ∀ m, k ≤ m → m ≤ N → f m = XR.fin (qlaw N Bv k m)) ?_ ?_ ?_).mono ?_
  · intro m _ _
    dsimp only
    rw [qlaw_zero]
    split <;> simp
  · intro k K f s hs hR hfs hk hK hKj
    exact blockStep_exact env hf hmono h0 hB hs hR hfs hk hK hKj
  · rw [lam]; exact lamOk_fin hnn
  · rintro probs ⟨f, hR, hp⟩
    rw [lam] at hp
    have := conv_shift hf (size := 1) (i := N) (m := N) le_rfl (by omega) hnn (qlaw_supp N Bv N) (f := f)
      (fun j hj => by have : j = 0 := by omega
                      subst this; exact hR N le_rfl le_rfl)
    rw [Nat.sub_self] at this
    rwa [this] at hp

theorem lawV_countLaw {n : ℕ} {Bv : ℕ → ℝ} (hmono : Monotone Bv) (h0 : 0 ≤ Bv 0) (h1 : ∀ i, Bv i ≤ 1) (k : ℕ) :
    CountLaw n (rloc Bv k) (lawV Bv k) {x | ∀ i, i < k → i < count (Bv i) x} := by
  have hrm := rloc_mono hmono h0
  induction k with
  | zero => simpa [lawV, rloc] using CountLaw.zero
  | succ k ih =>
    have hr0 : rloc Bv 0 = 0 := by simp [rloc]
    have := ih.step (by rw [← hr0]; exact hrm (Nat.zero_le _)) (hrm (Nat.le_succ k))
      (by simp [rloc, h1]) (fun m => k + 1 ≤ m)
    simp only [lawV]
    convert this using 1
    ext x
    simp only [Set.mem_ofPred_eq, Set.mem_inter_iff]
    have e : rloc Bv (k + 1) = Bv k := by simp [rloc]
    rw [e]
    constructor
    · intro h; exact ⟨fun i hi => h i (by omega), h k (by omega)⟩
    · rintro ⟨h, h'⟩ i hi
      by_cases hik : i = k
      · subst hik; exact h'
      · exact h i (by omega)

/-- Extension of a boundary to all natural numbers by its last entry (or 0). -/
def extB {n : ℕ} (B : Fin n → ℝ) (i : ℕ) : ℝ := if h : i < n then B ⟨i, h⟩ else 1

theorem extB_mono {n : ℕ} {B : Fin n → ℝ} (hB : ValidBound B) : Monotone (extB B) := by
  intro i j hij
  unfold extB
  split
  · split
    · exact hB.mono (by simpa using hij)
    · exact (hB.range _).2
  · rw [dif_neg (by omega)]

theorem extB_range {n : ℕ} {B : Fin n → ℝ} (hB : ValidBound B) (i : ℕ) : 0 ≤ extB B i ∧ extB B i ≤ 1 := by
  unfold extB
  split
  · exact hB.range _
  · exact ⟨zero_le_one, le_rfl⟩

/-- The Poisson probability divided by the Poisson weight is the probability of the event. -/
theorem qlaw_prob {n : ℕ} {B : Fin n → ℝ} (hB : ValidBound B) :
    pconv ((n : ℝ) * (1 - rloc (extB B) n)) (qlaw n (extB B) n) n / pois n n = upperProb B := by
  have hm := extB_mono hB
  have h0 := (extB_range hB 0).1
  have h1 := fun i => (extB_range hB i).2
  have hrm := rloc_mono hm h0
  have hr0 : rloc (extB B) 0 = 0 := by simp [rloc]
  have hr1 : rloc (extB B) n ≤ 1 := by
    unfold rloc; split
    · exact zero_le_one
    · exact h1 _
  have hC := (lawV_countLaw (n := n) hm h0 h1 n).step (by rw [← hr0]; exact hrm (Nat.zero_le _)) hr1 le_rfl
    (fun _ => True)
  have hp := hC.prob
  have hw := pw_step (n := n) (t := rloc (extB B) n) (t' := 1) (v := lawV (extB B) n) (fun _ => True) n
  rw [if_pos trivial] at hw
  have : pconv ((n : ℝ) * (1 - rloc (extB B) n)) (qlaw n (extB B) n) n
      = pw n 1 (vstep (1 - rloc (extB B) n) (fun _ => True) (lawV (extB B) n)) n := hw.symm
  rw [this, upperProb_eq]
  have e : {x : Fin n → ℝ | ∀ i : Fin n, (i : ℕ) < count (B i) x}
      = {x | ∀ i, i < n → i < count (extB B i) x} ∩ {x | True} := by
    ext x
    simp only [Set.mem_ofPred_eq, Set.mem_inter_iff, and_true]
    constructor
    · intro h i hi
      unfold extB; rw [dif_pos hi]; exact h ⟨i, hi⟩
    · intro h i
      have := h i i.2
      unfold extB at this; rw [dif_pos i.2] at this; exact this
  rw [e, hp]
  unfold pw pois
  have hf : (n.factorial : ℝ) ≠ 0 := by exact_mod_cast Nat.factorial_ne_zero n
  have hn : ((n : ℝ)) ^ n ≠ 0 := by
    rcases Nat.eq_zero_or_pos n with h | h
    · subst h; simp
    · positivity
  rw [mul_one]
  field_simp

theorem has_toList {n : ℕ} (B : Fin n → ℝ) (i : ℕ) (hi : i < n) : Has (toList B) i (XR.fin (extB B i)) := by
  unfold Has extB
  rw [dif_pos hi]
  simp [toList, hi]

/-- `ecdf1_new_B` with any block-size function. -/
theorem ecdf1NewB_sat (env : Env XR) (hf : ExactFFT env.fft) {n : ℕ} (hn : 0 < n) {B : Fin n → ℝ} (hB : ValidBound B)
    (isqrt : ℕ → ℕ) (ha : env.asserts = false ∨ isqrt n + 1 ≤ n) :
    ecdf1NewB env isqrt (toList B) = .ok (XR.fin (upperProb B)) := by
  have key : Sat NoFault (fun r => r = XR.fin (upperProb B)) (ecdf1NewB env isqrt (toList B)) := by
    unfold ecdf1NewB
    dsimp only
    rw [check_valid hB "B" _ (by simp), M_ok_bind]
    simp only [length_toList]
    have e : ((isqrt n : ℕ) : Int) + 1 = ((isqrt n + 1 : ℕ) : Int) := by omega
    have e2 : (FOps.ofInt (n : Int) : XR) = XR.fin (n : ℝ) := by simp
    rw [e, e2]
    refine Sat.bind (newN2_exact env hf hn (by omega) (by simp) (extB_mono hB) (extB_range hB 0).1
      (fun i => (extB_range hB i).2) (fun i hi => has_toList B i hi) (by
        rcases ha with ha | ha
        · exact Or.inl ha
        · exact Or.inr (Or.inl ha))) ?_
    intro probs hp
    rw [rd_eq hp, M_ok_bind]
    have hnn : (0 : ℝ) ≤ n := Nat.cast_nonneg n
    refine Sat.bind (poissonPmf_sat env (by omega) (Or.inr ?_)) ?_
    · have := (lamOk_fin (E := NoFault) (env := { env with asserts := true }) hnn).2
      rcases this with h | h | h
      · cases h
      · exact h
      · exact h.elim
    · intro p hpv
      show _ = _
      rw [hpv, Int.toNat_natCast, pmfVal_fin hnn]
      have hpos : pois n n ≠ 0 := (pois_pos (by exact_mod_cast hn) n).ne'
      rw [XR.div_fin _ hpos, qlaw_prob hB]
  revert key
  cases h : ecdf1NewB env isqrt (toList B) with
  | error e => intro k; exact k.elim
  | ok v => intro k; rw [show v = _ from k]

end
end CP.Spec
