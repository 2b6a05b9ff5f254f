import Verif.Model.FastNew
import Verif.Proofs.FastStep
import Verif.Proofs.NewStep
/-
Steps of `ecdf1_new` as compiled, for any arithmetic and any compiled code (cf. `Proofs/NewStep.lean`).
-/
set_option linter.unusedSectionVars false
set_option linter.unusedVariables false
namespace CP
variable {F : Type} [FOps F] {E : Fault → Prop}
open FOps

/-- Value at index `j` of the compiled convolution: the compiled direct loop below size 128, the FFT with the compiled
product of spectra otherwise. -/
def fastConvVal (c : FastCode F) (fft : FFTW F) (site : Nat) (size : Nat) (a b : Nat → F) (j : Nat) : F :=
  if (size : Int) < MINIMUM_SIZE_FOR_FFTW_CONVOLUTION then fastConv c site a b j
  else fftConvWith fft (complexProductFast c site) size a b j

theorem elementwiseFast_sat (cd : FastCode F) (site : Nat) {size : Int} {s0 s1 dest : List (F × F)} {c : F} {f g : Nat → F × F}
    (hs : 0 ≤ size) (hl : size ≤ dest.length)
    (h0 : ∀ k : Nat, (k : Int) < size → Has s0 k (f k))
    (h1 : ∀ k : Nat, (k : Int) < size → Has s1 k (g k)) :
    Sat E (fun d => d.length = dest.length ∧ ∀ k : Nat, (k : Int) < size →
      Has d k (complexProductFast cd site k c (f k) (g k)))
      (elementwiseComplexProductFast cd site size s0 s1 dest c) := by
  unfold elementwiseComplexProductFast
  refine Sat.forRange (fun (i : Int) d => d.length = dest.length ∧ ∀ k : Nat, (k : Int) < i →
      Has d k (complexProductFast cd site k c (f k) (g k))) hs ⟨rfl, fun k hk => by omega⟩ ?_
  intro j d hj0 hj1 ⟨hdl, hd⟩
  have e : ((j.toNat : Nat) : Int) = j := by omega
  have hx := h0 j.toNat (by omega)
  have hy := h1 j.toNat (by omega)
  rw [e] at hx hy
  rw [rd_eq hx, M_ok_bind, rd_eq hy, M_ok_bind]
  refine Sat.mono (wr_sat _ hj0 (by omega)) ?_
  intro d' ⟨hl', hd'⟩
  refine ⟨by omega, ?_⟩
  intro k hk
  rw [hd']
  by_cases hkj : (k : Int) = j
  · left
    refine ⟨hkj, ?_⟩
    have : k = j.toNat := by omega
    rw [this]
  · right
    exact ⟨hkj, hd k (by omega)⟩

theorem convolveFast_sat (c : FastCode F) (site : Nat) (env : Env F) {m : Int} {cv : Convolver F} (hinv : ConvInv m cv) {size : Int}
    {inputA inputB output : List F} {oa ob oo : Int} {a b : Nat → F}
    (hsz : size ≤ m) (hoa : 0 ≤ oa) (hob : 0 ≤ ob)
    (ha : ∀ k : Nat, (k : Int) < size → Has inputA (oa + k) (a k))
    (hb : ∀ k : Nat, (k : Int) < size → Has inputB (ob + k) (b k))
    (hoo : 0 ≤ oo) (hlen : oo + size ≤ output.length) :
    Sat E (fun r => ConvInv m r.1 ∧ r.2.length = output.length ∧ ∀ j w, Has r.2 j w ↔
      (oo ≤ j ∧ j < oo + size ∧ w = fastConvVal c env.fft site size.toNat a b (j - oo).toNat) ∨
      ((j < oo ∨ oo + size ≤ j) ∧ Has output j w))
      (convolveFast c site env cv size inputA oa inputB ob output oo) := by
  unfold convolveFast
  rw [if_neg (by have := hinv.max; omega)]
  by_cases h0 : size ≤ 0
  · rw [if_pos h0]
    refine ⟨hinv, rfl, fun j w => ⟨fun h => Or.inr ⟨by omega, h⟩, ?_⟩⟩
    rintro (h | h)
    · omega
    · exact h.2
  rw [if_neg h0]
  by_cases h1 : size < MINIMUM_SIZE_FOR_FFTW_CONVOLUTION
  · rw [if_pos h1]
    have h128 : MINIMUM_SIZE_FOR_FFTW_CONVOLUTION = 128 := rfl
    refine Sat.bind (convolveSameSizeFast_sat c site hoa hob ha hb hoo hlen) ?_
    intro d ⟨hl, hd⟩
    refine ⟨hinv, hl, ?_⟩
    intro j w
    show Has d j w ↔ _
    rw [hd]
    constructor
    · rintro (⟨h2, h3, h4⟩ | h2)
      · refine Or.inl ⟨h2, h3, ?_⟩
        unfold fastConvVal
        rw [if_pos (by omega), h4]
      · exact Or.inr h2
    · rintro (⟨h2, h3, h4⟩ | h2)
      · refine Or.inl ⟨h2, h3, ?_⟩
        unfold fastConvVal at h4
        rw [if_pos (by omega)] at h4
        exact h4
      · exact Or.inr h2
  · rw [if_neg h1]
    have hbig : 128 ≤ size := by
      have : MINIMUM_SIZE_FOR_FFTW_CONVOLUTION = 128 := rfl
      omega
    dsimp only
    generalize hN : roundUp (2 * size) ROUNDING = N
    have hr := roundUp_spec (n := 2 * size) (by omega)
    have hmono := roundUp_mono (m := 2 * size) (n := 2 * m) (by omega) (by omega)
    rw [hN] at hr hmono
    have hla : oa + size ≤ inputA.length := by
      have := (ha (size.toNat - 1) (by omega)).lt; omega
    have hlb : ob + size ≤ inputB.length := by
      have := (hb (size.toNat - 1) (by omega)).lt; omega
    have l1 := hinv.lenIn; have l2 := hinv.lenOut; have l3 := hinv.lenCIn
    have l4 := hinv.lenCOut; have l5 := hinv.lenTmp; have l6 := hinv.lenR; have l7 := hinv.lenC
    refine Sat.bind (copyZeroPadded_sat (a := a) (by omega) (by omega) (by omega) hoa hla ha) ?_
    intro in1 ⟨hin1l, hin1⟩
    refine Sat.bind (memoizedPlan_sat env (by omega) hr.2.2.1 (by omega) hinv.plansR) ?_
    rintro ⟨plan, plans1⟩ ⟨hplan, hp1l, hp1⟩
    dsimp only at hplan hp1l hp1 ⊢
    subst hplan
    refine Sat.bind (execR2C_sat env (by omega) (by omega) (by omega) hin1) ?_
    rintro ⟨in2, tmp⟩ ⟨hin2l, htl, ht⟩
    dsimp only at hin2l htl ht ⊢
    refine Sat.bind (copyZeroPadded_sat (a := b) (by omega) (by omega) (by omega) hob hlb hb) ?_
    intro in3 ⟨hin3l, hin3⟩
    refine Sat.bind (memoizedPlan_sat env (by omega) hr.2.2.1 (by omega) hp1) ?_
    rintro ⟨plan', plans2⟩ ⟨hplan', hp2l, hp2⟩
    dsimp only at hplan' hp2l hp2 ⊢
    rw [hplan']
    refine Sat.bind (execR2C_sat env (by omega) (by omega) (by omega) hin3) ?_
    rintro ⟨in4, out4⟩ ⟨hin4l, ho4l, ho4⟩
    dsimp only at hin4l ho4l ho4 ⊢
    have hhalf : plan.tdiv 2 + 1 = ((plan.toNat / 2 + 1 : Nat) : Int) := by
      rw [Int.tdiv_eq_ediv_of_nonneg (by omega)]; omega
    rw [hhalf]
    refine Sat.bind (elementwiseFast_sat c site (by omega) (by omega)
      (fun k hk => ht k (by omega)) (fun k hk => ho4 k (by omega))) ?_
    intro cin ⟨hcl, hc⟩
    refine Sat.bind (memoizedPlan_sat env (by omega) hr.2.2.1 (by omega) hinv.plansC) ?_
    rintro ⟨plan'', plans3⟩ ⟨hplan'', hp3l, hp3⟩
    dsimp only at hplan'' hp3l hp3 ⊢
    rw [hplan'']
    refine Sat.bind (execC2R_sat env (by omega) (by omega) (by omega)
      (fun k hk => hc k (by omega))) ?_
    rintro ⟨cin', cout⟩ ⟨hcil, hcol, hco⟩
    dsimp only at hcil hcol hco ⊢
    refine Sat.bind (rdBlock_sat (by omega) (by omega) (by omega)) ?_
    intro res ⟨hresl, hres⟩
    refine Sat.bind (wrBlock_sat hoo (by omega)) ?_
    intro out ⟨houtl, hout⟩
    refine ⟨?_, houtl, ?_⟩
    · constructor <;> dsimp only <;> first | exact hinv.max | omega | exact hp2 | exact hp3
    · intro j w
      show Has out j w ↔ _
      rw [hout, hresl]
      have hnot : ¬ ((size.toNat : Nat) : Int) < MINIMUM_SIZE_FOR_FFTW_CONVOLUTION := by omega
      unfold fastConvVal
      rw [if_neg hnot]
      have key : ∀ i : Int, 0 ≤ i → i < size →
          (Has res i w ↔ w = fftConvWith env.fft (complexProductFast c site) size.toNat a b i.toNat) := by
        intro i hi0 hi1
        rw [hres]
        have := hco i.toNat (by omega)
        have e : ((i.toNat : Nat) : Int) = i := by omega
        rw [e] at this
        have e2 : ((size.toNat : Nat) : Int) = size := by omega
        have e3 : ((plan.toNat : Nat) : Int) = plan := by omega
        have hv : env.fft.c2r plan.toNat (List.map (fun k =>
              complexProductFast c site k (one /ᶠ ofInt plan)
              (env.fft.r2c plan.toNat (List.map (padded size.toNat a) (List.range plan.toNat)) k)
              (env.fft.r2c plan.toNat (List.map (padded size.toNat b) (List.range plan.toNat)) k))
              (List.range (plan.toNat / 2 + 1))) i.toNat = fftConvWith env.fft (complexProductFast c site) size.toNat a b i.toNat := by
          unfold fftConvWith
          rw [e2, hN]
          dsimp only
          rw [e3]
        rw [hv] at this
        constructor
        · rintro ⟨_, _, h⟩
          rw [Int.zero_add] at h
          exact h.unique this
        · intro h
          rw [Int.zero_add, h]
          exact ⟨hi0, hi1, this⟩
      constructor
      · rintro (⟨h1, h2, h3⟩ | h)
        · exact Or.inl ⟨h1, h2, (key _ (by omega) (by omega)).1 h3⟩
        · exact Or.inr h
      · rintro (⟨h1, h2, h3⟩ | h)
        · exact Or.inl ⟨h1, h2, (key _ (by omega) (by omega)).2 h3⟩
        · exact Or.inr h

theorem ncConvolveFast_sat (c : FastCode F) (site : Nat) (env : Env F) {m : Int} {cv : Convolver F} (hinv : ConvInv m cv) {size : Int}
    {inputA inputB output : List F} {ob oo : Int} {a b : Nat → F}
    (hsz : size ≤ m) (hob : 0 ≤ ob)
    (ha : ∀ k : Nat, (k : Int) < size → Has inputA (0 + k) (a k))
    (hb : ∀ k : Nat, (k : Int) < size → Has inputB (ob + k) (b k))
    (hoo : 0 ≤ oo) (hlen : oo + size ≤ output.length) :
    Sat E (fun r => ConvInv m r.1 ∧ r.2.length = output.length ∧ ∀ j w, Has r.2 j w ↔
      (oo ≤ j ∧ j < oo + size ∧ w = fastConvVal c env.fft site size.toNat a b (j - oo).toNat) ∨
      ((j < oo ∨ oo + size ≤ j) ∧ Has output j w))
      (ncConvolveFast c site env true cv size inputA inputB ob output oo) := by
  unfold ncConvolveFast
  rw [if_pos rfl]
  exact convolveFast_sat c site env hinv hsz (Int.le_refl _) hob ha hb hoo hlen

theorem computeArrayFast_sat' (c : FastCode F) (site : Nat) (env : Env F) {m : Int} {g : PmfGen F} (hg : PmfInv m g) {lambda : F} {k : Int}
    (hk : k ≤ m) (hm : 0 ≤ m) (ha : 0 ≤ k) (hl : lt lambda zero = false ∨ ∀ msg, E (.runtimeError msg)) :
    Sat E (fun g' => PmfInv m g' ∧ ∀ i : Nat, (i : Int) ≤ k → Has g'.pmfArray i (fastPmfVal c site lambda i))
      (computeArrayFast c site env g k lambda) := by
  by_cases h : lt lambda zero = true
  · rcases hl with hl | hl
    · rw [h] at hl; cases hl
    · unfold computeArrayFast
      rw [assertC_true _ (by simpa using ha), M_ok_bind,
        assertC_true _ (by have := hg.max; simp; omega), M_ok_bind, if_pos h]
      exact hl _
  · exact computeArrayFast_sat c site env hg hk hm (Or.inr ha) (by simpa using h)

theorem evaluatePmfFast_sat' (c : FastCode F) (site : Nat) (env : Env F) {m : Int} {g : PmfGen F} (hg : PmfInv m g) {lambda : F} {k : Int}
    (h0 : 0 ≤ k) (hk : k ≤ m)
    (ha : env.asserts = false ∨ ge lambda zero = true ∨ E (.assertFailed "lambda >= 0")) :
    Sat E (fun v => v = fastPmfVal c site lambda k.toNat) (evaluatePmfFast c site env g lambda k) := by
  by_cases h : env.asserts = false ∨ ge lambda zero = true
  · unfold evaluatePmfFast
    refine Sat.bind (assertC_sat (by simpa using h)) fun _ _ => ?_
    refine Sat.bind (assertC_sat (Or.inr (by simpa using h0))) fun _ _ => ?_
    by_cases hz : eq lambda (zero : F) = true
    · rw [if_pos hz]
      show _ = _
      unfold fastPmfVal
      rw [if_pos hz]
      by_cases hk0 : k = 0
      · simp [hk0]
      · rw [if_neg hk0, if_neg (by omega)]
    · rw [if_neg hz]
      have := hg.lut (k.toNat + 1) (by omega)
      have e : ((k.toNat + 1 : Nat) : Int) = k + 1 := by omega
      rw [e] at this
      rw [rd_eq this, M_ok_bind]
      show _ = _
      unfold fastPmfVal
      rw [if_neg hz]
      have e2 : ((k.toNat : Nat) : Int) = k := by omega
      rw [e2]
  · have h1 : env.asserts = true := by
      cases hh : env.asserts
      · exact absurd (Or.inl hh) h
      · rfl
    have h2 : ge lambda zero = false := by
      cases hh : ge lambda zero
      · rfl
      · exact absurd (Or.inr hh) h
    have h3 : E (.assertFailed "lambda >= 0") := by
      rcases ha with ha | ha | ha
      · exact absurd (Or.inl ha) h
      · exact absurd (Or.inr ha) h
      · exact ha
    unfold evaluatePmfFast assertC
    rw [if_pos (by simp [h1, h2])]
    exact h3

/-- Law of the constrained process between the steps of a block, on counts. -/
def miniNextFast (c : FastCodeNew F) (env : Env F) (lambda : F) (K i : Nat) (f : Nat → F) (m : Nat) : F :=
  fastConvVal c.toFastCode env.fft (3 * i + 1) (K - i) (fastPmfVal c.toFastCode (3 * i + 1) lambda) (fun j => f (i + j)) (m - i)

/-- The block result after subtracting the paths that exit at step `i`. -/
def destNextFast (c : FastCodeNew F) (env : Env F) (lambda lambda2 : F) (K i : Nat) (f g : Nat → F) (j : Nat) : F :=
  subMul c i j (g j) (miniNextFast c env lambda K i f i) (fastPmfVal c.toFastCode (3 * i + 2) lambda2 (j - i))

theorem miniStepFast_sat (c : FastCodeNew F) (env : Env F) {n jump : Int} {intensity : F} {B : List F} {Bv : Nat → F}
    {k K i : Nat} {s : MiniState F} (hs : MInv n jump s)
    (hB : ∀ i : Nat, i < K → Has B i (Bv i)) (hki : k ≤ i) (hiK : i + 1 < K) (hKn : (K : Int) ≤ n)
    (hjump : (K : Int) - k ≤ jump) (hloc : s.iPrevLocation = locv Bv i) {f g : Nat → F}
    (hf : ∀ m : Nat, i ≤ m → m < K → Has s.minibuffers.src (m - k : Int) (f m))
    (hg : ∀ j : Nat, K ≤ j → (j : Int) ≤ n → Has s.dest j (g j))
    (h1 : LamOk E env (intensity *ᶠ (Bv i -ᶠ locv Bv i)))
    (h2 : LamOk E env (intensity *ᶠ (Bv (K - 1) -ᶠ Bv i))) :
    Sat E (fun s' => MInv n jump s' ∧ s'.iPrevLocation = locv Bv (i + 1) ∧
      (∀ m : Nat, i + 1 ≤ m → m < K → Has s'.minibuffers.src (m - k : Int)
        (miniNextFast c env (intensity *ᶠ (Bv i -ᶠ locv Bv i)) K i f m)) ∧
      (∀ j : Nat, K ≤ j → (j : Int) ≤ n → Has s'.dest j
        (destNextFast c env (intensity *ᶠ (Bv i -ᶠ locv Bv i)) (intensity *ᶠ (Bv (K - 1) -ᶠ Bv i)) K i f g j)))
      (miniStepFast c env n intensity B ((k : Int) - 1) ((K : Int) - 1) (i : Int) s) := by
  unfold miniStepFast
  rw [rd_eq (hB i (by omega)), M_ok_bind, hloc]
  refine Sat.bind (computeArrayFast_sat' _ _ env hs.pmf (by omega) (by omega) (by omega) h1.1) ?_
  intro pg ⟨hpg, hpv⟩
  have hsl := DoubleBuffer.len_src hs.m0 hs.m1
  have hdl := DoubleBuffer.len_dest hs.m0 hs.m1
  have eo : (i : Int) - ((k : Int) - 1) - 1 = i - k := by omega
  have es : (K : Int) - 1 - i + 1 = K - i := by omega
  rw [Int.toNat_natCast, eo, es, addrOf_eq (by omega) (by omega), M_ok_bind, addrOf_eq (by omega) (by omega), M_ok_bind]
  refine Sat.bind (ncConvolveFast_sat _ _ env hs.conv (a := fastPmfVal c.toFastCode (3 * i + 1) (intensity *ᶠ (Bv i -ᶠ locv Bv i)))
    (b := fun j => f (i + j)) (by omega) (by omega) ?_ ?_ (by omega) (by omega)) ?_
  · intro j hj; rw [Int.zero_add]; exact hpv j (by omega)
  · intro j hj
    have := hf (i + j) (by omega) (by omega)
    have e : ((i + j : Nat) : Int) - k = (i : Int) - k + j := by omega
    rwa [e] at this
  rintro ⟨cv, md⟩ ⟨hcv, hmdl, hmd⟩
  dsimp only at hcv hmdl hmd ⊢
  have hexit : Has md ((i : Int) - k) (miniNextFast c env (intensity *ᶠ (Bv i -ᶠ locv Bv i)) K i f i) := by
    rw [hmd]
    refine Or.inl ⟨by omega, by omega, ?_⟩
    unfold miniNextFast
    congr 1 <;> omega
  have hBK : Has B ((K : Int) - 1) (Bv (K - 1)) := by
    have := hB (K - 1) (by omega)
    have e : ((K - 1 : Nat) : Int) = (K : Int) - 1 := by omega
    rwa [e] at this
  rw [rd_eq hexit, M_ok_bind, rd_eq hBK, M_ok_bind]
  have eK : (K : Int) - 1 + 1 = K := by omega
  rw [eK]
  refine Sat.bind (Sat.forRange (fun j (d : List F) => d.length = s.dest.length ∧
      (∀ l : Nat, K ≤ l → (l : Int) < j → Has d l
        (destNextFast c env (intensity *ᶠ (Bv i -ᶠ locv Bv i)) (intensity *ᶠ (Bv (K - 1) -ᶠ Bv i)) K i f g l)) ∧
      (∀ l : Nat, j ≤ (l : Int) → (l : Int) ≤ n → Has d l (g l)))
      (by omega) ⟨rfl, fun l h1 h2 => by omega, fun l h1 h2 => hg l (by omega) h2⟩ ?_) ?_
  · intro j d hj0 hj1 ⟨hdl', hd1, hd2⟩
    have hj : Has d j (g j.toNat) := by
      have := hd2 j.toNat (by omega) (by omega)
      have e : ((j.toNat : Nat) : Int) = j := by omega
      rwa [e] at this
    rw [rd_eq hj, M_ok_bind]
    refine Sat.bind (evaluatePmfFast_sat' _ _ env hpg (by omega) (by omega) h2.2) ?_
    intro p hp
    have := hs.dest
    refine (wr_sat _ (by omega) (by omega)).mono ?_
    intro d' ⟨hl', hd'⟩
    refine ⟨by omega, ?_, ?_⟩
    · intro l hl1 hl2
      rw [hd']
      by_cases e : (l : Int) = j
      · refine Or.inl ⟨e, ?_⟩
        unfold destNextFast
        rw [hp]
        have e1 : j.toNat = l := by omega
        have e2 : (j - (i : Int)).toNat = l - i := by omega
        rw [e1, e2]
      · exact Or.inr ⟨e, hd1 l hl1 (by omega)⟩
    · intro l hl1 hl2
      rw [hd']
      exact Or.inr ⟨by omega, hd2 l (by omega) hl2⟩
  · intro d ⟨hdl', hd1, _⟩
    refine Sat.bind (wr_sat _ (by omega) (by omega)) ?_
    intro md' ⟨hl1, hmd'⟩
    refine Sat.bind (wr_sat _ (by omega) (by omega)) ?_
    intro ms' ⟨hl2, _⟩
    obtain ⟨a0, a1⟩ := DoubleBuffer.len_setDest hs.m0 hs.m1 (a := md') (by omega)
    obtain ⟨b0, b1⟩ := DoubleBuffer.len_setSrc a0 a1 (a := ms') (by omega)
    refine ⟨⟨by have := hs.dest; show (d.length : Int) = _; omega, b0, b1, hcv, hpg⟩, ?_, ?_, ?_⟩
    · simp [locv]
    · intro m hm1 hm2
      dsimp only
      rw [DoubleBuffer.src_mini, hmd']
      refine Or.inr ⟨by omega, ?_⟩
      rw [hmd]
      refine Or.inl ⟨by omega, by omega, ?_⟩
      unfold miniNextFast
      congr 1 <;> omega
    · intro j hj1 hj2
      exact hd1 j hj1 (by omega)

/-- One block.  `P i f g` is any property of the inner loop on (constrained law, block result). -/
theorem blockStepFast_sat (c : FastCodeNew F) (env : Env F) {n jump : Int} {intensity : F} {B : List F} {Bv : Nat → F}
    {k K : Nat} {s : BlockState F} (hs : BInv n jump k Bv s)
    (hB : ∀ i : Nat, i < K → Has B i (Bv i)) (hkK : k < K) (hKn : (K : Int) ≤ n)
    (hjump : (K : Int) - k ≤ jump) {f : Nat → F}
    (hf : ∀ m : Nat, k ≤ m → (m : Int) ≤ n → Has s.buffers.src m (f m))
    (hl0 : LamOk E env (intensity *ᶠ (Bv (K - 1) -ᶠ locv Bv k)))
    (hl1 : ∀ i, k ≤ i → i + 1 < K → LamOk E env (intensity *ᶠ (Bv i -ᶠ locv Bv i)))
    (hl2 : ∀ i, k ≤ i → i + 1 < K → LamOk E env (intensity *ᶠ (Bv (K - 1) -ᶠ Bv i)))
    (P : Nat → (Nat → F) → (Nat → F) → Prop)
    (hP0 : P k f (fun m => fastConvVal c.toFastCode env.fft (3 * (K - 1)) (n + 1 - k).toNat (fastPmfVal c.toFastCode (3 * (K - 1)) (intensity *ᶠ (Bv (K - 1) -ᶠ locv Bv k)))
      (fun j => f (k + j)) (m - k)))
    (hPs : ∀ i f g, k ≤ i → i + 1 < K → P i f g →
      P (i + 1) (miniNextFast c env (intensity *ᶠ (Bv i -ᶠ locv Bv i)) K i f)
        (destNextFast c env (intensity *ᶠ (Bv i -ᶠ locv Bv i)) (intensity *ᶠ (Bv (K - 1) -ᶠ Bv i)) K i f g)) :
    Sat E (fun s' => BInv n jump K Bv s' ∧ ∃ f' g, P (K - 1) f' g ∧
        ∀ m : Nat, K ≤ m → (m : Int) ≤ n → Has s'.buffers.src m (g m))
      (blockStepFast c env n intensity B ((K : Int) - 1) s) := by
  unfold blockStepFast
  have hBK : Has B ((K : Int) - 1) (Bv (K - 1)) := by
    have := hB (K - 1) (by omega)
    have e : ((K - 1 : Nat) : Int) = (K : Int) - 1 := by omega
    rwa [e] at this
  have eI : ((K : Int) - 1).toNat = K - 1 := by omega
  rw [rd_eq hBK, M_ok_bind, hs.loc, hs.prev, eI]
  have hsl := DoubleBuffer.len_src hs.b0 hs.b1
  have hdl := DoubleBuffer.len_dest hs.b0 hs.b1
  have hmsl := DoubleBuffer.len_src hs.m0 hs.m1
  have htl := hs.tmp
  have e1 : n - ((k : Int) - 1) = n + 1 - k := by omega
  have e2 : (k : Int) - 1 + 1 = k := by omega
  have e3 : (K : Int) - 1 + 1 = K := by omega
  have e4 : (K : Int) - 1 - ((k : Int) - 1) = K - k := by omega
  rw [e1, e2, e3, e4]
  refine Sat.bind (computeArrayFast_sat' _ _ env hs.pmf (by omega) (by omega) (by omega) hl0.1) ?_
  intro pg ⟨hpg, hpv⟩
  rw [addrOf_eq (by omega) (by omega), M_ok_bind]
  refine Sat.bind (ncConvolveFast_sat _ _ env hs.conv (a := fastPmfVal c.toFastCode (3 * (K - 1)) (intensity *ᶠ (Bv (K - 1) -ᶠ locv Bv k)))
    (b := fun j => f (k + j)) (by omega) (by omega) ?_ ?_ (by omega) (by omega)) ?_
  · intro j hj; rw [Int.zero_add]; exact hpv j (by omega)
  · intro j hj
    have := hf (k + j) (by omega) (by omega)
    have e : ((k + j : Nat) : Int) = (k : Int) + j := by omega
    rwa [e] at this
  rintro ⟨cv, tmp⟩ ⟨hcv, htl', htv⟩
  dsimp only at hcv htl' htv ⊢
  rw [addrOf_eq (by omega) (by omega), M_ok_bind, addrOf_eq (by omega) (by omega), M_ok_bind]
  refine Sat.bind (wrBlock_sat (by omega) (by simp; omega)) ?_
  intro d1 ⟨hd1l, hd1⟩
  refine Sat.bind (rdBlock_sat (by omega) (by omega) (by omega)) ?_
  intro xs ⟨hxl, hxs⟩
  refine Sat.bind (wrBlock_sat (by omega) (by omega)) ?_
  intro d2 ⟨hd2l, hd2⟩
  rw [addrOf_eq (by omega) (by omega), M_ok_bind, addrOf_eq (by omega) (by omega), M_ok_bind]
  refine Sat.bind (rdBlock_sat (by omega) (by omega) (by omega)) ?_
  intro ys ⟨hyl, hys⟩
  refine Sat.bind (wrBlock_sat (by omega) (by omega)) ?_
  intro ms ⟨hmsl', hms⟩
  obtain ⟨a0, a1⟩ := DoubleBuffer.len_setSrc hs.m0 hs.m1 (a := ms) (by omega)
  refine Sat.bind (Sat.forRange (fun (i : Int) (st : MiniState F) => MInv n jump st ∧
      st.iPrevLocation = locv Bv i.toNat ∧ ∃ f g, P i.toNat f g ∧
      (∀ m : Nat, i ≤ m → m < K → Has st.minibuffers.src (m - k : Int) (f m)) ∧
      (∀ j : Nat, K ≤ j → (j : Int) ≤ n → Has st.dest j (g j)))
      (by omega) ?_ ?_) ?_
  · refine ⟨⟨by show (d2.length : Int) = _; omega, a0, a1, hcv, hpg⟩, rfl, f, _, hP0, ?_, ?_⟩
    · intro m hm1 hm2
      dsimp only
      rw [DoubleBuffer.src_setSrc, hms]
      refine Or.inl ⟨by omega, by omega, ?_⟩
      rw [hys]
      refine ⟨by omega, by omega, ?_⟩
      have := hf m (by omega) (by omega)
      have e : (k : Int) + ((m : Int) - k - 0) = m := by omega
      rwa [e]
    · intro j hj1 hj2
      dsimp only
      rw [hd2]
      refine Or.inl ⟨by omega, by omega, ?_⟩
      rw [hxs]
      refine ⟨by omega, by omega, ?_⟩
      rw [htv]
      refine Or.inl ⟨by omega, by omega, ?_⟩
      congr 1; omega
  · intro i st hi0 hi1 ⟨hst, hlc, f, g, hP, hfm, hgm⟩
    obtain ⟨i, rfl⟩ : ∃ i' : Nat, i = (i' : Int) := ⟨i.toNat, by omega⟩
    simp only [Int.toNat_natCast] at hlc hP
    refine (miniStepFast_sat c env hst hB (by omega) (by omega) hKn hjump hlc
      (fun m h1 h2 => hfm m (by omega) h2) hgm (hl1 i (by omega) (by omega)) (hl2 i (by omega) (by omega))).mono ?_
    intro st' ⟨h1, h2, h3, h4⟩
    have e : ((i : Int) + 1).toNat = i + 1 := by omega
    rw [e]
    exact ⟨h1, h2, _, _, hPs i f g (by omega) (by omega) hP, fun m hm1 hm2 => h3 m (by omega) hm2, h4⟩
  · intro st ⟨hst, _, f', g, hP, _, hgm⟩
    rw [eI] at hP
    obtain ⟨c0, c1⟩ := DoubleBuffer.len_setDest hs.b0 hs.b1 hst.dest
    refine ⟨⟨c0, c1, hst.m0, hst.m1, by show (tmp.length : Int) = _; omega, hst.conv, hst.pmf, rfl, ?_⟩, f', g, hP, ?_⟩
    · have : K ≠ 0 := by omega
      simp [locv, this]
    · intro m h1 h2
      dsimp only
      rw [DoubleBuffer.src_setDest_flip]
      exact hgm m h1 h2

/-- The outer loop: blocks of at most `jump` steps until all `N` steps are done. -/
theorem blockLoopFast_sat (c : FastCodeNew F) (env : Env F) {n : Int} {intensity : F} {B : List F} {jump N : Nat} (hj : 0 < jump)
    (Q : Nat → BlockState F → Prop)
    (hQ : ∀ k K s, Q k s → k < K → K ≤ N → K - k ≤ jump →
      Sat E (Q K) (blockStepFast c env n intensity B ((K : Int) - 1) s)) :
    ∀ (fuel k : Nat) (s : BlockState F), Q k s → k < N → N - k ≤ fuel →
    Sat E (Q N) (blockLoopFast c env n intensity B jump N fuel (min ((k : Int) - 1 + jump) ((N : Int) - 1)) s) := by
  intro fuel
  induction fuel with
  | zero => intro k s _ _ _; omega
  | succ fuel ih =>
    intro k s hs hk hfuel
    unfold blockLoopFast
    have e : min ((k : Int) - 1 + jump) ((N : Int) - 1) = ((min (k + jump) N : Nat) : Int) - 1 := by omega
    rw [e]
    refine Sat.bind (hQ k (min (k + jump) N) s hs (by omega) (by omega) (by omega)) ?_
    intro s' hs'
    by_cases hlast : ((min (k + jump) N : Nat) : Int) - 1 = (N : Int) - 1
    · rw [if_pos hlast]
      have : min (k + jump) N = N := by omega
      rw [this] at hs'
      exact hs'
    · rw [if_neg hlast]
      exact ih _ s' hs' (by omega) (by omega)

/-- The whole non-crossing computation, for a block invariant `Q`. -/
theorem newN2Fast_sat (c : FastCodeNew F) (env : Env F) {N : Nat} (hN : 0 < N) {intensity : F} {B : List F} {Bv : Nat → F}
    (hlen : B.length = N) {jump : Nat} (hj : 0 < jump)
    (ha : env.asserts = false ∨ jump ≤ N ∨ E (.assertFailed "jump_size <= n"))
    (R : Nat → (Nat → F) → Prop)
    (hR0 : R 0 (fun m => if m = 0 then one else zero))
    (hRs : ∀ k K f s, BInv (N : Int) jump k Bv s → R k f →
      (∀ m : Nat, k ≤ m → m ≤ N → Has s.buffers.src m (f m)) → k < K → K ≤ N → K - k ≤ jump →
      Sat E (fun s' => BInv (N : Int) jump K Bv s' ∧ ∃ f', R K f' ∧
        ∀ m : Nat, K ≤ m → m ≤ N → Has s'.buffers.src m (f' m))
        (blockStepFast c env N intensity B ((K : Int) - 1) s))
    (hl : LamOk E env (intensity *ᶠ (one -ᶠ locv Bv N))) :
    Sat E (fun probs => ∃ f, R N f ∧
        Has probs N (fastConvVal c.toFastCode env.fft (3 * N) 1 (fastPmfVal c.toFastCode (3 * N) (intensity *ᶠ (one -ᶠ locv Bv N))) (fun j => f (N + j)) 0))
      (poissonBNoncrossingProbabilityN2Fast c env N intensity B jump) := by
  unfold poissonBNoncrossingProbabilityN2Fast
  by_cases hassert : env.asserts = false ∨ jump ≤ N
  case neg =>
    have h1 : env.asserts = true := by
      cases hh : env.asserts
      · exact absurd (Or.inl hh) hassert
      · rfl
    have h2 : ¬ jump ≤ N := fun h => hassert (Or.inr h)
    have h3 : E (.assertFailed "jump_size <= n") := by
      rcases ha with ha | ha | ha
      · exact absurd (Or.inl ha) hassert
      · exact absurd ha h2
      · exact ha
    unfold assertC
    rw [if_pos (by simp [h1, h2])]
    exact h3
  refine Sat.bind (assertC_sat (by simpa using hassert)) fun _ _ => ?_
  have hl0 : ((DoubleBuffer.new ((N : Int) + 1) (zero : F)).src.length : Int) = N + 1 := by
    simp [DoubleBuffer.new, DoubleBuffer.src]
  refine Sat.bind (wr_sat _ (by omega) (by omega)) fun src hsrc => ?_
  refine Sat.bind (pmfGen_new_sat env (by omega)) fun g hg => ?_
  have hinit := newInit env (n := (N : Int)) (jump := (jump : Int)) (by omega) (by omega) hg (src := src) (by omega) Bv
  rw [hlen]
  have e0 : (-1 : Int) + (jump : Int) = ((0 : Nat) : Int) - 1 + jump := by omega
  rw [e0]
  refine Sat.bind (blockLoopFast_sat c env (N := N) hj (fun k s => BInv (N : Int) jump k Bv s ∧ ∃ f, R k f ∧
    ∀ m : Nat, k ≤ m → m ≤ N → Has s.buffers.src m (f m)) ?_ (N + 1) 0 _ ⟨hinit, _, hR0, ?_⟩ hN (by omega)) ?_
  · intro k K s ⟨hs, f, hR, hf⟩ h1 h2 h3
    exact hRs k K f s hs hR hf h1 h2 h3
  · intro m _ hm
    dsimp only
    rw [DoubleBuffer.src_setSrc, hsrc.2]
    by_cases h : m = 0
    · left; subst h; simp
    · right
      refine ⟨by omega, ?_⟩
      simp only [h, if_false]
      unfold DoubleBuffer.new DoubleBuffer.src
      simp only [if_true]
      rw [has_replicate]
      exact ⟨by omega, by omega, rfl⟩
  · intro s ⟨hs, f, hR, hf⟩
    have hsl := DoubleBuffer.len_src hs.b0 hs.b1
    have hdl := DoubleBuffer.len_dest hs.b0 hs.b1
    rw [hs.loc]
    have e1 : (N : Int) - N + 1 = 1 := by omega
    rw [e1]
    refine Sat.bind (computeArrayFast_sat' _ _ env hs.pmf (by omega) (by omega) (by omega) hl.1) ?_
    intro pg ⟨hpg, hpv⟩
    rw [addrOf_eq (by omega) (by omega), M_ok_bind, addrOf_eq (by omega) (by omega), M_ok_bind]
    refine Sat.bind (ncConvolveFast_sat _ _ env hs.conv (a := fastPmfVal c.toFastCode (3 * N) (intensity *ᶠ (one -ᶠ locv Bv N)))
      (b := fun j => f (N + j)) (by omega) (by omega) ?_ ?_ (by omega) (by omega)) ?_
    · intro j hj; rw [Int.zero_add]; exact hpv j (by omega)
    · intro j hj
      have : j = 0 := by omega
      subst this
      exact hf N (by omega) (by omega)
    rintro ⟨cv, dest⟩ ⟨hcv, hdl', hdv⟩
    dsimp only at hcv hdl' hdv ⊢
    refine (wrBlock_sat (by omega) (by simp; omega)).mono ?_
    intro d ⟨hdl2, hd⟩
    refine ⟨f, hR, ?_⟩
    rw [hd]
    right
    refine ⟨by simp, ?_⟩
    rw [hdv]
    refine Or.inl ⟨by omega, by omega, ?_⟩
    congr 1; omega

end CP
