import Verif.Model.Fftw
import Verif.Proofs.Hoare
/-
What the two convolution routines compute, in an arbitrary arithmetic: memory safety, functional
description of the result, independence of the convolver's history.
-/
set_option linter.unusedSectionVars false
set_option linter.unusedVariables false

namespace CP
variable {F : Type} [FOps F] {E : Fault → Prop}
open FOps

theorem list_eq_map_range {α : Type} {xs : List α} {N : Nat} {f : Nat → α} (hl : xs.length = N)
    (h : ∀ k : Nat, k < N → Has xs k (f k)) : xs = (List.range N).map f := by
  apply List.ext_getElem?
  intro i
  by_cases hi : i < N
  · have := (h i hi).2
    simp at this
    simp [this, hi]
  · have hx : xs[i]? = none := List.getElem?_eq_none (by omega)
    simp [hx, hi]

/-- Value computed by the direct convolution at index `j`. -/
def naiveConv (a b : Nat → F) (j : Nat) : F :=
  (List.range (j + 1)).foldl (fun acc k => acc +ᶠ a k *ᶠ b (j - k)) zero

theorem convolveSameSize_sat {size : Int} {src0 src1 dest : List F} {o0 o1 od : Int}
    {a b : Nat → F}
    (ha : ∀ k : Nat, (k : Int) < size → Has src0 (o0 + k) (a k))
    (hb : ∀ k : Nat, (k : Int) < size → Has src1 (o1 + k) (b k))
    (hod : 0 ≤ od) (hlen : od + size ≤ dest.length) :
    Sat E (fun d => d.length = dest.length ∧ ∀ j w, Has d j w ↔
      (od ≤ j ∧ j < od + size ∧ w = naiveConv a b (j - od).toNat) ∨
      ((j < od ∨ od + size ≤ j) ∧ Has dest j w))
      (convolveSameSize size src0 o0 src1 o1 dest od) := by
  unfold convolveSameSize
  by_cases hs : 0 ≤ size
  · refine Sat.forRange (fun (i : Int) d => d.length = dest.length ∧ ∀ j w, Has d j w ↔
      (od ≤ j ∧ j < od + i ∧ w = naiveConv a b (j - od).toNat) ∨
      ((j < od ∨ od + i ≤ j) ∧ Has dest j w)) hs ⟨rfl, ?_⟩ ?_
    · intro j w
      constructor
      · intro h; exact Or.inr ⟨by omega, h⟩
      · rintro (h | h)
        · omega
        · exact h.2
    · intro j d hj0 hj1 ⟨hl, hd⟩
      refine Sat.bind (Q := fun acc => acc = naiveConv a b j.toNat) ?_ ?_
      · have e : j + 1 = ((j.toNat + 1 : Nat) : Int) := by omega
        unfold naiveConv
        rw [e]
        have := Sat.forRange (E := E) (lo := 0) (hi := ((j.toNat + 1 : Nat) : Int)) (s := (zero : F))
          (body := fun k acc => do
            let x ← rd src0 (o0 + k)
            let y ← rd src1 (o1 + (j - k))
            .ok (acc +ᶠ x *ᶠ y))
          (fun (i : Int) acc => acc = (List.range i.toNat).foldl
            (fun acc k => acc +ᶠ a k *ᶠ b (j.toNat - k)) zero) (by omega) (by simp)
          (by
            intro k acc hk0 hk1 hacc
            have h1 := ha k.toNat (by omega)
            have h2 := hb (j.toNat - k.toNat) (by omega)
            have e1 : o0 + ((k.toNat : Nat) : Int) = o0 + k := by omega
            have e2 : o1 + ((j.toNat - k.toNat : Nat) : Int) = o1 + (j - k) := by omega
            rw [e1] at h1
            rw [e2] at h2
            rw [rd_eq h1, M_ok_bind, rd_eq h2, M_ok_bind]
            show _ = _
            have e3 : (k + 1).toNat = k.toNat + 1 := by omega
            rw [e3, List.range_succ, List.foldl_append, ← hacc]
            rfl)
        rw [Int.toNat_natCast] at this
        exact this
      · intro acc hacc
        refine Sat.mono (wr_sat acc (by omega) (by omega)) ?_
        intro d' ⟨hl', hd'⟩
        refine ⟨by omega, ?_⟩
        intro i w
        rw [hd', hd]
        constructor
        · rintro (⟨h1, h2⟩ | ⟨h1, h2⟩)
          · left
            refine ⟨by omega, by omega, ?_⟩
            rw [h2, hacc, h1]
            congr 1; omega
          · rcases h2 with h2 | h2
            · left; exact ⟨h2.1, by omega, h2.2.2⟩
            · right; exact ⟨by omega, h2.2⟩
        · rintro (⟨h1, h2, h3⟩ | ⟨h1, h2⟩)
          · by_cases e : i = od + j
            · left
              refine ⟨e, ?_⟩
              rw [h3, hacc]; congr 1; omega
            · right; exact ⟨e, Or.inl ⟨h1, by omega, h3⟩⟩
          · right; exact ⟨by omega, Or.inr ⟨by omega, h2⟩⟩
  · rw [forRange_empty (by omega)]
    refine ⟨rfl, fun j w => ⟨fun h => Or.inr ⟨by omega, h⟩, ?_⟩⟩
    rintro (h | h)
    · omega
    · exact h.2

/-! ### Size computations -/

theorem roundUp_spec {n : Int} (h : 0 ≤ n) :
    n ≤ roundUp n ROUNDING ∧ roundUp n ROUNDING < n + 2048 ∧
    roundUp n ROUNDING = (roundUp n ROUNDING).tdiv ROUNDING * ROUNDING ∧ 0 ≤ roundUp n ROUNDING := by
  unfold roundUp ROUNDING
  rw [Int.tdiv_eq_ediv_of_nonneg (by omega)]
  have h1 : (0 : Int) ≤ (n + 2048 - 1) / 2048 * 2048 := by omega
  rw [Int.tdiv_eq_ediv_of_nonneg h1]
  omega

theorem roundUp_mono {m n : Int} (hm : 0 ≤ m) (h : m ≤ n) :
    roundUp m ROUNDING ≤ roundUp n ROUNDING ∧
    (roundUp m ROUNDING).tdiv ROUNDING ≤ (roundUp n ROUNDING).tdiv ROUNDING := by
  unfold roundUp ROUNDING
  rw [Int.tdiv_eq_ediv_of_nonneg (a := m + 2048 - 1) (by omega),
    Int.tdiv_eq_ediv_of_nonneg (a := n + 2048 - 1) (by omega)]
  rw [Int.tdiv_eq_ediv_of_nonneg (by omega), Int.tdiv_eq_ediv_of_nonneg (by omega)]
  omega

/-- Invariant of a convolver constructed for maximum input size `m`: the buffers have the
allocated lengths and every memoised plan has the size its slot stands for. -/
structure ConvInv (m : Int) (cv : Convolver F) : Prop where
  max : cv.maximumInputSize = m + 2047
  lenIn : (cv.r2cIn.length : Int) = roundUp (2 * m) ROUNDING
  lenOut : (cv.r2cOut.length : Int) = roundUp (2 * m) ROUNDING
  lenCIn : (cv.c2rIn.length : Int) = roundUp (2 * m) ROUNDING
  lenCOut : (cv.c2rOut.length : Int) = roundUp (2 * m) ROUNDING
  lenTmp : (cv.tmpComplex.length : Int) = roundUp (2 * m) ROUNDING
  lenR : (cv.r2cPlans.length : Int) = (roundUp (2 * m) ROUNDING).tdiv ROUNDING
  lenC : (cv.c2rPlans.length : Int) = (roundUp (2 * m) ROUNDING).tdiv ROUNDING
  plansR : ∀ i sz, Has cv.r2cPlans i (some sz) → sz = (i + 1) * ROUNDING
  plansC : ∀ i sz, Has cv.c2rPlans i (some sz) → sz = (i + 1) * ROUNDING

theorem convInv_new (env : Env F) {m : Int} (hm : 0 ≤ m) : ConvInv m (Convolver.new env m) := by
  have h := roundUp_spec (n := 2 * m) (by omega)
  have h2 : 0 ≤ (roundUp (2 * m) ROUNDING).tdiv ROUNDING := Int.tdiv_nonneg h.2.2.2 (by decide)
  constructor
  · simp [Convolver.new, ROUNDING]; omega
  all_goals first
    | (simp [Convolver.new, allocDoubles, allocComplexes]; omega)
    | (intro i sz hh
       simp only [Convolver.new, has_replicate] at hh
       simp at hh)

theorem memoizedPlan_sat (env : Env F) {plans : List (Option Int)} {N : Int}
    (hN : 0 < N) (hdiv : N = N.tdiv ROUNDING * ROUNDING)
    (hlen : N.tdiv ROUNDING ≤ plans.length)
    (hp : ∀ i sz, Has plans i (some sz) → sz = (i + 1) * ROUNDING) :
    Sat E (fun r => r.1 = N ∧ r.2.length = plans.length ∧
      ∀ i sz, Has r.2 i (some sz) → sz = (i + 1) * ROUNDING)
      (Convolver.memoizedPlan env plans N) := by
  unfold Convolver.memoizedPlan
  have hidx : 0 ≤ N.tdiv ROUNDING - 1 := by
    have : (0:Int) < ROUNDING := by decide
    apply Decidable.byContradiction
    intro hcon
    have h1 : N.tdiv ROUNDING ≤ 0 := by omega
    have : N.tdiv ROUNDING * ROUNDING ≤ 0 := Int.mul_nonpos_of_nonpos_of_nonneg h1 (by decide)
    omega
  have hmod : N.tmod ROUNDING = 0 := by
    have := Int.tmod_add_tdiv_mul N ROUNDING
    omega
  rw [assertC_true _ (by simpa using hN), M_ok_bind, assertC_true _ (by simpa using hmod), M_ok_bind]
  dsimp only
  rw [assertC_true _ (by simp only [decide_eq_true_eq]; omega), M_ok_bind]
  refine Sat.bind (rd_sat hidx (by omega)) ?_
  intro p hpv
  cases p with
  | none =>
    refine Sat.bind (wr_sat (some N) hidx (by omega)) ?_
    intro plans' ⟨hl', hh⟩
    refine ⟨rfl, hl', ?_⟩
    intro i sz hsz
    rcases (hh i (some sz)).1 hsz with ⟨h1, h2⟩ | ⟨_, h2⟩
    · have : sz = N := by simpa using h2
      rw [this, h1]
      have : N.tdiv ROUNDING - 1 + 1 = N.tdiv ROUNDING := by omega
      rw [this]; exact hdiv
    · exact hp _ _ h2
  | some sz =>
    have := hp _ _ hpv
    refine ⟨?_, rfl, hp⟩
    show sz = N
    rw [this]
    have : N.tdiv ROUNDING - 1 + 1 = N.tdiv ROUNDING := by omega
    rw [this]; exact hdiv.symm

/-- zero padding -/
def padded (size : Nat) (a : Nat → F) (k : Nat) : F := if k < size then a k else zero

theorem copyZeroPadded_sat {src dest : List F} {o srcSize destSize : Int} {a : Nat → F}
    (hs : 0 ≤ srcSize) (hd : srcSize ≤ destSize) (hlen : destSize ≤ dest.length) (ho : 0 ≤ o)
    (hol : o + srcSize ≤ src.length)
    (ha : ∀ k : Nat, (k : Int) < srcSize → Has src (o + k) (a k)) :
    Sat E (fun d => d.length = dest.length ∧
      ∀ k : Nat, (k : Int) < destSize → Has d k (padded srcSize.toNat a k))
      (Convolver.copyZeroPadded src o dest srcSize destSize) := by
  unfold Convolver.copyZeroPadded
  refine Sat.bind (rdBlock_sat ho hs hol) ?_
  intro xs ⟨hxl, hx⟩
  refine Sat.bind (wrBlock_sat (by omega) (by omega)) ?_
  intro d ⟨hdl, hdh⟩
  refine Sat.mono (wrBlock_sat (by omega) (by simp; omega)) ?_
  intro d' ⟨hdl', hdh'⟩
  refine ⟨by omega, ?_⟩
  intro k hk
  rw [hdh']
  unfold padded
  by_cases h : k < srcSize.toNat
  · rw [if_pos h]
    right
    refine ⟨by omega, ?_⟩
    rw [hdh]
    left
    refine ⟨by omega, by omega, ?_⟩
    rw [hx]
    refine ⟨by omega, by omega, ?_⟩
    have := ha k (by omega)
    simpa using this
  · rw [if_neg h]
    left
    refine ⟨by omega, by simp; omega, ?_⟩
    rw [has_replicate]
    exact ⟨by omega, by omega, rfl⟩

theorem execR2C_sat (env : Env F) {N : Int} {inp : List F} {out : List (F × F)} {f : Nat → F}
    (hN : 2 ≤ N) (hl : N ≤ inp.length) (hlo : N ≤ out.length)
    (hin : ∀ k : Nat, (k : Int) < N → Has inp k (f k)) :
    Sat E (fun r => r.1.length = inp.length ∧ r.2.length = out.length ∧
      ∀ k : Nat, k < N.toNat / 2 + 1 →
        Has r.2 k (env.fft.r2c N.toNat ((List.range N.toNat).map f) k))
      (Convolver.execR2C env N inp out) := by
  unfold Convolver.execR2C
  refine Sat.bind (rdBlock_sat (by omega) (by omega) (by omega)) ?_
  intro xs ⟨hxl, hx⟩
  have exs : xs = (List.range N.toNat).map f := by
    apply list_eq_map_range (by omega)
    intro k hk
    rw [hx]
    exact ⟨by omega, by omega, by simpa using hin k (by omega)⟩
  subst exs
  refine Sat.bind (wrBlock_sat (by omega) (by simp; omega)) ?_
  intro out' ⟨hol, hoh⟩
  refine Sat.bind (wrBlock_sat (by omega) (by simp; omega)) ?_
  intro inp' ⟨hil, _⟩
  refine ⟨hil, hol, ?_⟩
  intro k hk
  rw [hoh]
  left
  refine ⟨by omega, by simp; omega, ?_⟩
  rw [has_map_range]
  exact ⟨by omega, by omega, by simp⟩

theorem execC2R_sat (env : Env F) {N : Int} {inp : List (F × F)} {out : List F} {f : Nat → F × F}
    (hN : 2 ≤ N) (hl : N ≤ inp.length) (hlo : N ≤ out.length)
    (hin : ∀ k : Nat, k < N.toNat / 2 + 1 → Has inp k (f k)) :
    Sat E (fun r => r.1.length = inp.length ∧ r.2.length = out.length ∧
      ∀ k : Nat, k < N.toNat →
        Has r.2 k (env.fft.c2r N.toNat ((List.range (N.toNat / 2 + 1)).map f) k))
      (Convolver.execC2R env N inp out) := by
  unfold Convolver.execC2R
  refine Sat.bind (rdBlock_sat (by omega) (by omega) (by omega)) ?_
  intro xs ⟨hxl, hx⟩
  have exs : xs = (List.range (N.toNat / 2 + 1)).map f := by
    apply list_eq_map_range (by omega)
    intro k hk
    rw [hx]
    exact ⟨by omega, by omega, by simpa using hin k (by omega)⟩
  subst exs
  refine Sat.bind (wrBlock_sat (by omega) (by simp; omega)) ?_
  intro out' ⟨hol, hoh⟩
  refine Sat.bind (wrBlock_sat (by omega) (by simp; omega)) ?_
  intro inp' ⟨hil, _⟩
  refine ⟨hil, hol, ?_⟩
  intro k hk
  rw [hoh]
  left
  refine ⟨by omega, by simp; omega, ?_⟩
  rw [has_map_range]
  exact ⟨by omega, by omega, by simp⟩

theorem elementwise_sat {size : Int} {s0 s1 dest : List (F × F)} {c : F} {f g : Nat → F × F}
    (hs : 0 ≤ size) (hl : size ≤ dest.length)
    (h0 : ∀ k : Nat, (k : Int) < size → Has s0 k (f k))
    (h1 : ∀ k : Nat, (k : Int) < size → Has s1 k (g k)) :
    Sat E (fun d => d.length = dest.length ∧ ∀ k : Nat, (k : Int) < size →
      Has d k (Convolver.cmul (Convolver.cscale c (f k)) (g k)))
      (Convolver.elementwiseComplexProduct size s0 s1 dest c) := by
  unfold Convolver.elementwiseComplexProduct
  refine Sat.forRange (fun (i : Int) d => d.length = dest.length ∧ ∀ k : Nat, (k : Int) < i →
      Has d k (Convolver.cmul (Convolver.cscale c (f k)) (g k))) hs ⟨rfl, fun k hk => by omega⟩ ?_
  intro j d hj0 hj1 ⟨hdl, hd⟩
  have e : ((j.toNat : Nat) : Int) = j := by omega
  have hx := h0 j.toNat (by omega)
  have hy := h1 j.toNat (by omega)
  rw [e] at hx hy
  rw [rd_eq hx, M_ok_bind, rd_eq hy, M_ok_bind]
  refine Sat.mono (wr_sat _ hj0 (by omega)) ?_
  intro d' ⟨hl', hd'⟩
  refine ⟨by omega, ?_⟩
  intro k hk
  rw [hd']
  by_cases hkj : (k : Int) = j
  · left
    refine ⟨hkj, ?_⟩
    have : k = j.toNat := by omega
    rw [this]
  · right
    exact ⟨hkj, hd k (by omega)⟩

/-- Value computed by the FFT branch at index `j`. -/
def fftConv (fft : FFTW F) (size : Nat) (a b : Nat → F) (j : Nat) : F :=
  let N := (roundUp (2 * (size : Int)) ROUNDING).toNat
  let A := fft.r2c N ((List.range N).map (padded size a))
  let B := fft.r2c N ((List.range N).map (padded size b))
  fft.c2r N ((List.range (N / 2 + 1)).map fun k =>
    Convolver.cmul (Convolver.cscale (one /ᶠ ofInt (N : Int)) (A k)) (B k)) j

/-- The same with another evaluation of the product of the spectra: `prod i c a b` stands for `c*a*b` at index `i`. -/
def fftConvWith (fft : FFTW F) (prod : Nat → F → F × F → F × F → F × F) (size : Nat) (a b : Nat → F) (j : Nat) : F :=
  let N := (roundUp (2 * (size : Int)) ROUNDING).toNat
  let A := fft.r2c N ((List.range N).map (padded size a))
  let B := fft.r2c N ((List.range N).map (padded size b))
  fft.c2r N ((List.range (N / 2 + 1)).map fun k => prod k (one /ᶠ ofInt (N : Int)) (A k) (B k)) j

/-- Value at index `j` of the output of `FFTWConvolver::convolve_same_size`: a function of the inputs only. -/
def convVal (fft : FFTW F) (size : Nat) (a b : Nat → F) (j : Nat) : F :=
  if (size : Int) < MINIMUM_SIZE_FOR_FFTW_CONVOLUTION then naiveConv a b j
  else fftConv fft size a b j

/-- Main lemma on the convolver: for sizes up to the constructor argument it never faults, keeps
its invariant, and writes `convVal` to the output, leaving the rest of the output array alone. -/
theorem convolve_sat (env : Env F) {m : Int} {cv : Convolver F} (hinv : ConvInv m cv) {size : Int}
    {inputA inputB output : List F} {oa ob oo : Int} {a b : Nat → F}
    (hsz : size ≤ m)
    (ha : ∀ k : Nat, (k : Int) < size → Has inputA (oa + k) (a k))
    (hb : ∀ k : Nat, (k : Int) < size → Has inputB (ob + k) (b k))
    (hoo : 0 ≤ oo) (hlen : oo + size ≤ output.length) :
    Sat E (fun r => ConvInv m r.1 ∧ r.2.length = output.length ∧ ∀ j w, Has r.2 j w ↔
      (oo ≤ j ∧ j < oo + size ∧ w = convVal env.fft size.toNat a b (j - oo).toNat) ∨
      ((j < oo ∨ oo + size ≤ j) ∧ Has output j w))
      (cv.convolve env size inputA oa inputB ob output oo) := by
  unfold Convolver.convolve
  rw [if_neg (by have := hinv.max; omega)]
  by_cases h0 : size ≤ 0
  · rw [if_pos h0]
    refine ⟨hinv, rfl, fun j w => ⟨fun h => Or.inr ⟨by omega, h⟩, ?_⟩⟩
    rintro (h | h)
    · omega
    · exact h.2
  rw [if_neg h0]
  by_cases h1 : size < MINIMUM_SIZE_FOR_FFTW_CONVOLUTION
  · rw [if_pos h1]
    refine Sat.bind (convolveSameSize_sat ha hb hoo hlen) ?_
    intro d ⟨hl, hd⟩
    refine ⟨hinv, hl, ?_⟩
    intro j w
    show Has d j w ↔ _
    rw [hd]
    have : ((size.toNat : Nat) : Int) < MINIMUM_SIZE_FOR_FFTW_CONVOLUTION := by omega
    unfold convVal
    rw [if_pos this]
  · rw [if_neg h1]
    have hbig : 128 ≤ size := by
      have : MINIMUM_SIZE_FOR_FFTW_CONVOLUTION = 128 := rfl
      omega
    dsimp only
    generalize hN : roundUp (2 * size) ROUNDING = N
    have hr := roundUp_spec (n := 2 * size) (by omega)
    have hmono := roundUp_mono (m := 2 * size) (n := 2 * m) (by omega) (by omega)
    rw [hN] at hr hmono
    have hoa : 0 ≤ oa := by have := (ha 0 (by omega)).1; omega
    have hob : 0 ≤ ob := by have := (hb 0 (by omega)).1; omega
    have hla : oa + size ≤ inputA.length := by
      have := (ha (size.toNat - 1) (by omega)).lt; omega
    have hlb : ob + size ≤ inputB.length := by
      have := (hb (size.toNat - 1) (by omega)).lt; omega
    have l1 := hinv.lenIn; have l2 := hinv.lenOut; have l3 := hinv.lenCIn
    have l4 := hinv.lenCOut; have l5 := hinv.lenTmp; have l6 := hinv.lenR; have l7 := hinv.lenC
    refine Sat.bind (copyZeroPadded_sat (a := a) (by omega) (by omega) (by omega) hoa hla ha) ?_
    intro in1 ⟨hin1l, hin1⟩
    refine Sat.bind (memoizedPlan_sat env (by omega) hr.2.2.1 (by omega) hinv.plansR) ?_
    rintro ⟨plan, plans1⟩ ⟨hplan, hp1l, hp1⟩
    dsimp only at hplan hp1l hp1 ⊢
    subst hplan
    refine Sat.bind (execR2C_sat env (by omega) (by omega) (by omega) hin1) ?_
    rintro ⟨in2, tmp⟩ ⟨hin2l, htl, ht⟩
    dsimp only at hin2l htl ht ⊢
    refine Sat.bind (copyZeroPadded_sat (a := b) (by omega) (by omega) (by omega) hob hlb hb) ?_
    intro in3 ⟨hin3l, hin3⟩
    refine Sat.bind (memoizedPlan_sat env (by omega) hr.2.2.1 (by omega) hp1) ?_
    rintro ⟨plan', plans2⟩ ⟨hplan', hp2l, hp2⟩
    dsimp only at hplan' hp2l hp2 ⊢
    rw [hplan']
    refine Sat.bind (execR2C_sat env (by omega) (by omega) (by omega) hin3) ?_
    rintro ⟨in4, out4⟩ ⟨hin4l, ho4l, ho4⟩
    dsimp only at hin4l ho4l ho4 ⊢
    have hhalf : plan.tdiv 2 + 1 = ((plan.toNat / 2 + 1 : Nat) : Int) := by
      rw [Int.tdiv_eq_ediv_of_nonneg (by omega)]; omega
    rw [hhalf]
    refine Sat.bind (elementwise_sat (by omega) (by omega)
      (fun k hk => ht k (by omega)) (fun k hk => ho4 k (by omega))) ?_
    intro cin ⟨hcl, hc⟩
    refine Sat.bind (memoizedPlan_sat env (by omega) hr.2.2.1 (by omega) hinv.plansC) ?_
    rintro ⟨plan'', plans3⟩ ⟨hplan'', hp3l, hp3⟩
    dsimp only at hplan'' hp3l hp3 ⊢
    rw [hplan'']
    refine Sat.bind (execC2R_sat env (by omega) (by omega) (by omega)
      (fun k hk => hc k (by omega))) ?_
    rintro ⟨cin', cout⟩ ⟨hcil, hcol, hco⟩
    dsimp only at hcil hcol hco ⊢
    refine Sat.bind (rdBlock_sat (by omega) (by omega) (by omega)) ?_
    intro res ⟨hresl, hres⟩
    refine Sat.bind (wrBlock_sat hoo (by omega)) ?_
    intro out ⟨houtl, hout⟩
    refine ⟨?_, houtl, ?_⟩
    · constructor <;> dsimp only <;> first | exact hinv.max | omega | exact hp2 | exact hp3
    · intro j w
      show Has out j w ↔ _
      rw [hout, hresl]
      have hnot : ¬ ((size.toNat : Nat) : Int) < MINIMUM_SIZE_FOR_FFTW_CONVOLUTION := by omega
      unfold convVal
      rw [if_neg hnot]
      have key : ∀ i : Int, 0 ≤ i → i < size →
          (Has res i w ↔ w = fftConv env.fft size.toNat a b i.toNat) := by
        intro i hi0 hi1
        rw [hres]
        have := hco i.toNat (by omega)
        have e : ((i.toNat : Nat) : Int) = i := by omega
        rw [e] at this
        have e2 : ((size.toNat : Nat) : Int) = size := by omega
        have e3 : ((plan.toNat : Nat) : Int) = plan := by omega
        have hv : env.fft.c2r plan.toNat (List.map (fun k =>
              Convolver.cmul (Convolver.cscale (one /ᶠ ofInt plan)
              (env.fft.r2c plan.toNat (List.map (padded size.toNat a) (List.range plan.toNat)) k))
              (env.fft.r2c plan.toNat (List.map (padded size.toNat b) (List.range plan.toNat)) k))
              (List.range (plan.toNat / 2 + 1))) i.toNat = fftConv env.fft size.toNat a b i.toNat := by
          unfold fftConv
          rw [e2, hN]
          dsimp only
          rw [e3]
        rw [hv] at this
        constructor
        · rintro ⟨_, _, h⟩
          rw [Int.zero_add] at h
          exact h.unique this
        · intro h
          rw [Int.zero_add, h]
          exact ⟨hi0, hi1, this⟩
      constructor
      · rintro (⟨h1, h2, h3⟩ | h)
        · exact Or.inl ⟨h1, h2, (key _ (by omega) (by omega)).1 h3⟩
        · exact Or.inr h
      · rintro (⟨h1, h2, h3⟩ | h)
        · exact Or.inl ⟨h1, h2, (key _ (by omega) (by omega)).2 h3⟩
        · exact Or.inr h

end CP
