import Verif.Proofs.Pmf
import Verif.Proofs.Convolve
import Verif.Proofs.Ecdf2Step
import Verif.Model.Ecdf1New
/-
Steps of `ecdf1_new`, for any arithmetic.  Counts are natural numbers: `Iprev = k - 1`, `I = K - 1`.
-/
set_option linter.unusedSectionVars false
set_option linter.unusedVariables false
namespace CP
variable {F : Type} [FOps F] {E : Fault → Prop}
open FOps

theorem computeArray_sat' (env : Env F) {m : Int} {g : PmfGen F} (hg : PmfInv m g) {lambda : F} {k : Int}
    (hk : k ≤ m) (hm : 0 ≤ m) (ha : 0 ≤ k) (hl : lt lambda zero = false ∨ ∀ msg, E (.runtimeError msg)) :
    Sat E (fun g' => PmfInv m g' ∧ ∀ i : Nat, (i : Int) ≤ k → Has g'.pmfArray i (pmfVal lambda i))
      (g.computeArray env k lambda) := by
  by_cases h : lt lambda zero = true
  · rcases hl with hl | hl
    · rw [h] at hl; cases hl
    · unfold PmfGen.computeArray
      rw [assertC_true _ (by simpa using ha), M_ok_bind,
        assertC_true _ (by have := hg.max; simp; omega), M_ok_bind, if_pos h]
      exact hl _
  · exact computeArray_sat env hg hk hm (Or.inr ha) (by simpa using h)

theorem evaluatePmf_sat' (env : Env F) {m : Int} {g : PmfGen F} (hg : PmfInv m g) {lambda : F} {k : Int}
    (h0 : 0 ≤ k) (hk : k ≤ m)
    (ha : env.asserts = false ∨ ge lambda zero = true ∨ E (.assertFailed "lambda >= 0")) :
    Sat E (fun v => v = pmfVal lambda k.toNat) (g.evaluatePmf env lambda k) := by
  by_cases h : env.asserts = false ∨ ge lambda zero = true
  · exact evaluatePmf_sat env hg h0 hk h
  · have h1 : env.asserts = true := by
      cases hh : env.asserts
      · exact absurd (Or.inl hh) h
      · rfl
    have h2 : ge lambda zero = false := by
      cases hh : ge lambda zero
      · rfl
      · exact absurd (Or.inr hh) h
    have h3 : E (.assertFailed "lambda >= 0") := by
      rcases ha with ha | ha | ha
      · exact absurd (Or.inl ha) h
      · exact absurd (Or.inr ha) h
      · exact ha
    unfold PmfGen.evaluatePmf assertC
    rw [if_pos (by simp [h1, h2])]
    exact h3

/-- Locations of the steps: `0, B_0, B_1, ...`. -/
def locv (Bv : Nat → F) (k : Nat) : F := if k = 0 then zero else Bv (k - 1)

/-- The intensity parameter between two locations may be negative only if exceptions are allowed. -/
def LamOk (E : Fault → Prop) (env : Env F) (lambda : F) : Prop :=
  (lt lambda zero = false ∨ ∀ msg, E (.runtimeError msg)) ∧
  (env.asserts = false ∨ ge lambda zero = true ∨ E (.assertFailed "lambda >= 0"))

/-- Invariant of the inner loop. -/
structure MInv (n jump : Int) (s : MiniState F) : Prop where
  dest : (s.dest.length : Int) = n + 1
  m0 : (s.minibuffers.buf0.length : Int) = jump
  m1 : (s.minibuffers.buf1.length : Int) = jump
  conv : ConvInv (n + 1) s.conv
  pmf : PmfInv (n + 1) s.pmfgen

/-- Law of the constrained process between the steps of a block, on counts. -/
def miniNext (env : Env F) (lambda : F) (K i : Nat) (f : Nat → F) (m : Nat) : F :=
  convVal env.fft (K - i) (pmfVal lambda) (fun j => f (i + j)) (m - i)

/-- The block result after subtracting the paths that exit at step `i`. -/
def destNext (env : Env F) (lambda lambda2 : F) (K i : Nat) (f g : Nat → F) (j : Nat) : F :=
  g j -ᶠ miniNext env lambda K i f i *ᶠ pmfVal lambda2 (j - i)

theorem DoubleBuffer.src_mini (b : DoubleBuffer F) (a c : List F) :
    (((b.setDest a).setSrc c).flip).src = a := by
  cases h : b.buf0IsSrc <;>
    simp [DoubleBuffer.setDest, DoubleBuffer.setSrc, DoubleBuffer.flip, DoubleBuffer.src, h]

theorem miniStep_sat (env : Env F) {n jump : Int} {intensity : F} {B : List F} {Bv : Nat → F}
    {k K i : Nat} {s : MiniState F} (hs : MInv n jump s)
    (hB : ∀ i : Nat, i < K → Has B i (Bv i)) (hki : k ≤ i) (hiK : i + 1 < K) (hKn : (K : Int) ≤ n)
    (hjump : (K : Int) - k ≤ jump) (hloc : s.iPrevLocation = locv Bv i) {f g : Nat → F}
    (hf : ∀ m : Nat, i ≤ m → m < K → Has s.minibuffers.src (m - k : Int) (f m))
    (hg : ∀ j : Nat, K ≤ j → (j : Int) ≤ n → Has s.dest j (g j))
    (h1 : LamOk E env (intensity *ᶠ (Bv i -ᶠ locv Bv i)))
    (h2 : LamOk E env (intensity *ᶠ (Bv (K - 1) -ᶠ Bv i))) :
    Sat E (fun s' => MInv n jump s' ∧ s'.iPrevLocation = locv Bv (i + 1) ∧
      (∀ m : Nat, i + 1 ≤ m → m < K → Has s'.minibuffers.src (m - k : Int)
        (miniNext env (intensity *ᶠ (Bv i -ᶠ locv Bv i)) K i f m)) ∧
      (∀ j : Nat, K ≤ j → (j : Int) ≤ n → Has s'.dest j
        (destNext env (intensity *ᶠ (Bv i -ᶠ locv Bv i)) (intensity *ᶠ (Bv (K - 1) -ᶠ Bv i)) K i f g j)))
      (miniStep env n intensity B ((k : Int) - 1) ((K : Int) - 1) (i : Int) s) := by
  unfold miniStep
  rw [rd_eq (hB i (by omega)), M_ok_bind, hloc]
  refine Sat.bind (computeArray_sat' env hs.pmf (by omega) (by omega) (by omega) h1.1) ?_
  intro pg ⟨hpg, hpv⟩
  have hsl := DoubleBuffer.len_src hs.m0 hs.m1
  have hdl := DoubleBuffer.len_dest hs.m0 hs.m1
  have eo : (i : Int) - ((k : Int) - 1) - 1 = i - k := by omega
  have es : (K : Int) - 1 - i + 1 = K - i := by omega
  rw [eo, es, addrOf_eq (by omega) (by omega), M_ok_bind, addrOf_eq (by omega) (by omega), M_ok_bind]
  refine Sat.bind (convolve_sat env hs.conv (a := pmfVal (intensity *ᶠ (Bv i -ᶠ locv Bv i)))
    (b := fun j => f (i + j)) (by omega) ?_ ?_ (by omega) (by omega)) ?_
  · intro j hj; rw [Int.zero_add]; exact hpv j (by omega)
  · intro j hj
    have := hf (i + j) (by omega) (by omega)
    have e : ((i + j : Nat) : Int) - k = (i : Int) - k + j := by omega
    rwa [e] at this
  rintro ⟨cv, md⟩ ⟨hcv, hmdl, hmd⟩
  dsimp only at hcv hmdl hmd ⊢
  have hexit : Has md ((i : Int) - k) (miniNext env (intensity *ᶠ (Bv i -ᶠ locv Bv i)) K i f i) := by
    rw [hmd]
    refine Or.inl ⟨by omega, by omega, ?_⟩
    unfold miniNext
    congr 1 <;> omega
  have hBK : Has B ((K : Int) - 1) (Bv (K - 1)) := by
    have := hB (K - 1) (by omega)
    have e : ((K - 1 : Nat) : Int) = (K : Int) - 1 := by omega
    rwa [e] at this
  rw [rd_eq hexit, M_ok_bind, rd_eq hBK, M_ok_bind]
  have eK : (K : Int) - 1 + 1 = K := by omega
  rw [eK]
  refine Sat.bind (Sat.forRange (fun j (d : List F) => d.length = s.dest.length ∧
      (∀ l : Nat, K ≤ l → (l : Int) < j → Has d l
        (destNext env (intensity *ᶠ (Bv i -ᶠ locv Bv i)) (intensity *ᶠ (Bv (K - 1) -ᶠ Bv i)) K i f g l)) ∧
      (∀ l : Nat, j ≤ (l : Int) → (l : Int) ≤ n → Has d l (g l)))
      (by omega) ⟨rfl, fun l h1 h2 => by omega, fun l h1 h2 => hg l (by omega) h2⟩ ?_) ?_
  · intro j d hj0 hj1 ⟨hdl', hd1, hd2⟩
    have hj : Has d j (g j.toNat) := by
      have := hd2 j.toNat (by omega) (by omega)
      have e : ((j.toNat : Nat) : Int) = j := by omega
      rwa [e] at this
    rw [rd_eq hj, M_ok_bind]
    refine Sat.bind (evaluatePmf_sat' env hpg (by omega) (by omega) h2.2) ?_
    intro p hp
    have := hs.dest
    refine (wr_sat _ (by omega) (by omega)).mono ?_
    intro d' ⟨hl', hd'⟩
    refine ⟨by omega, ?_, ?_⟩
    · intro l hl1 hl2
      rw [hd']
      by_cases e : (l : Int) = j
      · refine Or.inl ⟨e, ?_⟩
        unfold destNext
        rw [hp]
        have e1 : j.toNat = l := by omega
        have e2 : (j - (i : Int)).toNat = l - i := by omega
        rw [e1, e2]
      · exact Or.inr ⟨e, hd1 l hl1 (by omega)⟩
    · intro l hl1 hl2
      rw [hd']
      exact Or.inr ⟨by omega, hd2 l (by omega) hl2⟩
  · intro d ⟨hdl', hd1, _⟩
    refine Sat.bind (wr_sat _ (by omega) (by omega)) ?_
    intro md' ⟨hl1, hmd'⟩
    refine Sat.bind (wr_sat _ (by omega) (by omega)) ?_
    intro ms' ⟨hl2, _⟩
    obtain ⟨a0, a1⟩ := DoubleBuffer.len_setDest hs.m0 hs.m1 (a := md') (by omega)
    obtain ⟨b0, b1⟩ := DoubleBuffer.len_setSrc a0 a1 (a := ms') (by omega)
    refine ⟨⟨by have := hs.dest; show (d.length : Int) = _; omega, b0, b1, hcv, hpg⟩, ?_, ?_, ?_⟩
    · simp [locv]
    · intro m hm1 hm2
      dsimp only
      rw [DoubleBuffer.src_mini, hmd']
      refine Or.inr ⟨by omega, ?_⟩
      rw [hmd]
      refine Or.inl ⟨by omega, by omega, ?_⟩
      unfold miniNext
      congr 1 <;> omega
    · intro j hj1 hj2
      exact hd1 j hj1 (by omega)

/-- Invariant of the outer loop, between blocks. -/
structure BInv (n jump : Int) (k : Nat) (Bv : Nat → F) (s : BlockState F) : Prop where
  b0 : (s.buffers.buf0.length : Int) = n + 1
  b1 : (s.buffers.buf1.length : Int) = n + 1
  m0 : (s.minibuffers.buf0.length : Int) = jump
  m1 : (s.minibuffers.buf1.length : Int) = jump
  tmp : (s.tmp.length : Int) = n + 1
  conv : ConvInv (n + 1) s.conv
  pmf : PmfInv (n + 1) s.pmfgen
  prev : s.Iprev = (k : Int) - 1
  loc : s.IprevLocation = locv Bv k

/-- One block.  `P i f g` is any property of the inner loop on (constrained law, block result). -/
theorem blockStep_sat (env : Env F) {n jump : Int} {intensity : F} {B : List F} {Bv : Nat → F}
    {k K : Nat} {s : BlockState F} (hs : BInv n jump k Bv s)
    (hB : ∀ i : Nat, i < K → Has B i (Bv i)) (hkK : k < K) (hKn : (K : Int) ≤ n)
    (hjump : (K : Int) - k ≤ jump) {f : Nat → F}
    (hf : ∀ m : Nat, k ≤ m → (m : Int) ≤ n → Has s.buffers.src m (f m))
    (hl0 : LamOk E env (intensity *ᶠ (Bv (K - 1) -ᶠ locv Bv k)))
    (hl1 : ∀ i, k ≤ i → i + 1 < K → LamOk E env (intensity *ᶠ (Bv i -ᶠ locv Bv i)))
    (hl2 : ∀ i, k ≤ i → i + 1 < K → LamOk E env (intensity *ᶠ (Bv (K - 1) -ᶠ Bv i)))
    (P : Nat → (Nat → F) → (Nat → F) → Prop)
    (hP0 : P k f (fun m => convVal env.fft (n + 1 - k).toNat (pmfVal (intensity *ᶠ (Bv (K - 1) -ᶠ locv Bv k)))
      (fun j => f (k + j)) (m - k)))
    (hPs : ∀ i f g, k ≤ i → i + 1 < K → P i f g →
      P (i + 1) (miniNext env (intensity *ᶠ (Bv i -ᶠ locv Bv i)) K i f)
        (destNext env (intensity *ᶠ (Bv i -ᶠ locv Bv i)) (intensity *ᶠ (Bv (K - 1) -ᶠ Bv i)) K i f g)) :
    Sat E (fun s' => BInv n jump K Bv s' ∧ ∃ f' g, P (K - 1) f' g ∧
        ∀ m : Nat, K ≤ m → (m : Int) ≤ n → Has s'.buffers.src m (g m))
      (blockStep env n intensity B ((K : Int) - 1) s) := by
  unfold blockStep
  have hBK : Has B ((K : Int) - 1) (Bv (K - 1)) := by
    have := hB (K - 1) (by omega)
    have e : ((K - 1 : Nat) : Int) = (K : Int) - 1 := by omega
    rwa [e] at this
  rw [rd_eq hBK, M_ok_bind, hs.loc, hs.prev]
  have hsl := DoubleBuffer.len_src hs.b0 hs.b1
  have hdl := DoubleBuffer.len_dest hs.b0 hs.b1
  have hmsl := DoubleBuffer.len_src hs.m0 hs.m1
  have htl := hs.tmp
  have e1 : n - ((k : Int) - 1) = n + 1 - k := by omega
  have e2 : (k : Int) - 1 + 1 = k := by omega
  have e3 : (K : Int) - 1 + 1 = K := by omega
  have e4 : (K : Int) - 1 - ((k : Int) - 1) = K - k := by omega
  rw [e1, e2, e3, e4]
  refine Sat.bind (computeArray_sat' env hs.pmf (by omega) (by omega) (by omega) hl0.1) ?_
  intro pg ⟨hpg, hpv⟩
  rw [addrOf_eq (by omega) (by omega), M_ok_bind]
  refine Sat.bind (convolve_sat env hs.conv (a := pmfVal (intensity *ᶠ (Bv (K - 1) -ᶠ locv Bv k)))
    (b := fun j => f (k + j)) (by omega) ?_ ?_ (by omega) (by omega)) ?_
  · intro j hj; rw [Int.zero_add]; exact hpv j (by omega)
  · intro j hj
    have := hf (k + j) (by omega) (by omega)
    have e : ((k + j : Nat) : Int) = (k : Int) + j := by omega
    rwa [e] at this
  rintro ⟨cv, tmp⟩ ⟨hcv, htl', htv⟩
  dsimp only at hcv htl' htv ⊢
  rw [addrOf_eq (by omega) (by omega), M_ok_bind, addrOf_eq (by omega) (by omega), M_ok_bind]
  refine Sat.bind (wrBlock_sat (by omega) (by simp; omega)) ?_
  intro d1 ⟨hd1l, hd1⟩
  refine Sat.bind (rdBlock_sat (by omega) (by omega) (by omega)) ?_
  intro xs ⟨hxl, hxs⟩
  refine Sat.bind (wrBlock_sat (by omega) (by omega)) ?_
  intro d2 ⟨hd2l, hd2⟩
  rw [addrOf_eq (by omega) (by omega), M_ok_bind, addrOf_eq (by omega) (by omega), M_ok_bind]
  refine Sat.bind (rdBlock_sat (by omega) (by omega) (by omega)) ?_
  intro ys ⟨hyl, hys⟩
  refine Sat.bind (wrBlock_sat (by omega) (by omega)) ?_
  intro ms ⟨hmsl', hms⟩
  obtain ⟨a0, a1⟩ := DoubleBuffer.len_setSrc hs.m0 hs.m1 (a := ms) (by omega)
  refine Sat.bind (Sat.forRange (fun (i : Int) (st : MiniState F) => MInv n jump st ∧
      st.iPrevLocation = locv Bv i.toNat ∧ ∃ f g, P i.toNat f g ∧
      (∀ m : Nat, i ≤ m → m < K → Has st.minibuffers.src (m - k : Int) (f m)) ∧
      (∀ j : Nat, K ≤ j → (j : Int) ≤ n → Has st.dest j (g j)))
      (by omega) ?_ ?_) ?_
  · refine ⟨⟨by show (d2.length : Int) = _; omega, a0, a1, hcv, hpg⟩, rfl, f, _, hP0, ?_, ?_⟩
    · intro m hm1 hm2
      dsimp only
      rw [DoubleBuffer.src_setSrc, hms]
      refine Or.inl ⟨by omega, by omega, ?_⟩
      rw [hys]
      refine ⟨by omega, by omega, ?_⟩
      have := hf m (by omega) (by omega)
      have e : (k : Int) + ((m : Int) - k - 0) = m := by omega
      rwa [e]
    · intro j hj1 hj2
      dsimp only
      rw [hd2]
      refine Or.inl ⟨by omega, by omega, ?_⟩
      rw [hxs]
      refine ⟨by omega, by omega, ?_⟩
      rw [htv]
      refine Or.inl ⟨by omega, by omega, ?_⟩
      congr 1; omega
  · intro i st hi0 hi1 ⟨hst, hlc, f, g, hP, hfm, hgm⟩
    obtain ⟨i, rfl⟩ : ∃ i' : Nat, i = (i' : Int) := ⟨i.toNat, by omega⟩
    simp only [Int.toNat_natCast] at hlc hP
    refine (miniStep_sat env hst hB (by omega) (by omega) hKn hjump hlc
      (fun m h1 h2 => hfm m (by omega) h2) hgm (hl1 i (by omega) (by omega)) (hl2 i (by omega) (by omega))).mono ?_
    intro st' ⟨h1, h2, h3, h4⟩
    have e : ((i : Int) + 1).toNat = i + 1 := by omega
    rw [e]
    exact ⟨h1, h2, _, _, hPs i f g (by omega) (by omega) hP, fun m hm1 hm2 => h3 m (by omega) hm2, h4⟩
  · intro st ⟨hst, _, f', g, hP, _, hgm⟩
    have e : ((K : Int) - 1).toNat = K - 1 := by omega
    rw [e] at hP
    obtain ⟨c0, c1⟩ := DoubleBuffer.len_setDest hs.b0 hs.b1 hst.dest
    refine ⟨⟨c0, c1, hst.m0, hst.m1, by show (tmp.length : Int) = _; omega, hst.conv, hst.pmf, rfl, ?_⟩, f', g, hP, ?_⟩
    · have : K ≠ 0 := by omega
      simp [locv, this]
    · intro m h1 h2
      dsimp only
      rw [DoubleBuffer.src_setDest_flip]
      exact hgm m h1 h2

/-- The outer loop: blocks of at most `jump` steps until all `N` steps are done. -/
theorem blockLoop_sat (env : Env F) {n : Int} {intensity : F} {B : List F} {jump N : Nat} (hj : 0 < jump)
    (Q : Nat → BlockState F → Prop)
    (hQ : ∀ k K s, Q k s → k < K → K ≤ N → K - k ≤ jump →
      Sat E (Q K) (blockStep env n intensity B ((K : Int) - 1) s)) :
    ∀ (fuel k : Nat) (s : BlockState F), Q k s → k < N → N - k ≤ fuel →
    Sat E (Q N) (blockLoop env n intensity B jump N fuel (min ((k : Int) - 1 + jump) ((N : Int) - 1)) s) := by
  intro fuel
  induction fuel with
  | zero => intro k s _ _ _; omega
  | succ fuel ih =>
    intro k s hs hk hfuel
    unfold blockLoop
    have e : min ((k : Int) - 1 + jump) ((N : Int) - 1) = ((min (k + jump) N : Nat) : Int) - 1 := by omega
    rw [e]
    refine Sat.bind (hQ k (min (k + jump) N) s hs (by omega) (by omega) (by omega)) ?_
    intro s' hs'
    by_cases hlast : ((min (k + jump) N : Nat) : Int) - 1 = (N : Int) - 1
    · rw [if_pos hlast]
      have : min (k + jump) N = N := by omega
      rw [this] at hs'
      exact hs'
    · rw [if_neg hlast]
      exact ih _ s' hs' (by omega) (by omega)

/-- Initial state of the outer loop. -/
theorem newInit (env : Env F) {n : Int} {jump : Int} (hn : 0 ≤ n) (hj : 0 ≤ jump) {g : PmfGen F}
    (hg : PmfInv (n + 1) g) {src : List F} (hsrc : (src.length : Int) = n + 1) (Bv : Nat → F) :
    BInv n jump 0 Bv (BlockState.mk ((DoubleBuffer.new (n + 1) (zero : F)).setSrc src)
      (DoubleBuffer.new jump (zero : F)) (Convolver.new env (n + 1))
      g (allocDoubles env 20 (n + 1)) zero (-1)) := by
  have l0 : ((DoubleBuffer.new (n + 1) (zero : F)).buf0.length : Int) = n + 1 := by
    simp [DoubleBuffer.new]; omega
  have l1 : ((DoubleBuffer.new (n + 1) (zero : F)).buf1.length : Int) = n + 1 := by
    simp [DoubleBuffer.new]; omega
  obtain ⟨h0, h1⟩ := DoubleBuffer.len_setSrc l0 l1 hsrc
  exact ⟨h0, h1, by simp [DoubleBuffer.new]; omega, by simp [DoubleBuffer.new]; omega,
    by simp [allocDoubles]; omega, convInv_new env (by omega), hg, by simp, by simp [locv]⟩

/-- The whole non-crossing computation, for a block invariant `Q`. -/
theorem newN2_sat (env : Env F) {N : Nat} (hN : 0 < N) {intensity : F} {B : List F} {Bv : Nat → F}
    (hlen : B.length = N) {jump : Nat} (hj : 0 < jump)
    (ha : env.asserts = false ∨ jump ≤ N ∨ E (.assertFailed "jump_size <= n"))
    (R : Nat → (Nat → F) → Prop)
    (hR0 : R 0 (fun m => if m = 0 then one else zero))
    (hRs : ∀ k K f s, BInv (N : Int) jump k Bv s → R k f →
      (∀ m : Nat, k ≤ m → m ≤ N → Has s.buffers.src m (f m)) → k < K → K ≤ N → K - k ≤ jump →
      Sat E (fun s' => BInv (N : Int) jump K Bv s' ∧ ∃ f', R K f' ∧
        ∀ m : Nat, K ≤ m → m ≤ N → Has s'.buffers.src m (f' m))
        (blockStep env N intensity B ((K : Int) - 1) s))
    (hl : LamOk E env (intensity *ᶠ (one -ᶠ locv Bv N))) :
    Sat E (fun probs => ∃ f, R N f ∧
        Has probs N (convVal env.fft 1 (pmfVal (intensity *ᶠ (one -ᶠ locv Bv N))) (fun j => f (N + j)) 0))
      (poissonBNoncrossingProbabilityN2 env N intensity B jump) := by
  unfold poissonBNoncrossingProbabilityN2
  by_cases hassert : env.asserts = false ∨ jump ≤ N
  case neg =>
    have h1 : env.asserts = true := by
      cases hh : env.asserts
      · exact absurd (Or.inl hh) hassert
      · rfl
    have h2 : ¬ jump ≤ N := fun h => hassert (Or.inr h)
    have h3 : E (.assertFailed "jump_size <= n") := by
      rcases ha with ha | ha | ha
      · exact absurd (Or.inl ha) hassert
      · exact absurd ha h2
      · exact ha
    unfold assertC
    rw [if_pos (by simp [h1, h2])]
    exact h3
  refine Sat.bind (assertC_sat (by simpa using hassert)) fun _ _ => ?_
  have hl0 : ((DoubleBuffer.new ((N : Int) + 1) (zero : F)).src.length : Int) = N + 1 := by
    simp [DoubleBuffer.new, DoubleBuffer.src]
  refine Sat.bind (wr_sat _ (by omega) (by omega)) fun src hsrc => ?_
  refine Sat.bind (pmfGen_new_sat env (by omega)) fun g hg => ?_
  have hinit := newInit env (n := (N : Int)) (jump := (jump : Int)) (by omega) (by omega) hg (src := src) (by omega) Bv
  rw [hlen]
  have e0 : (-1 : Int) + (jump : Int) = ((0 : Nat) : Int) - 1 + jump := by omega
  rw [e0]
  refine Sat.bind (blockLoop_sat env (N := N) hj (fun k s => BInv (N : Int) jump k Bv s ∧ ∃ f, R k f ∧
    ∀ m : Nat, k ≤ m → m ≤ N → Has s.buffers.src m (f m)) ?_ (N + 1) 0 _ ⟨hinit, _, hR0, ?_⟩ hN (by omega)) ?_
  · intro k K s ⟨hs, f, hR, hf⟩ h1 h2 h3
    exact hRs k K f s hs hR hf h1 h2 h3
  · intro m _ hm
    dsimp only
    rw [DoubleBuffer.src_setSrc, hsrc.2]
    by_cases h : m = 0
    · left; subst h; simp
    · right
      refine ⟨by omega, ?_⟩
      simp only [h, if_false]
      unfold DoubleBuffer.new DoubleBuffer.src
      simp only [if_true]
      rw [has_replicate]
      exact ⟨by omega, by omega, rfl⟩
  · intro s ⟨hs, f, hR, hf⟩
    have hsl := DoubleBuffer.len_src hs.b0 hs.b1
    have hdl := DoubleBuffer.len_dest hs.b0 hs.b1
    rw [hs.loc]
    have e1 : (N : Int) - N + 1 = 1 := by omega
    rw [e1]
    refine Sat.bind (computeArray_sat' env hs.pmf (by omega) (by omega) (by omega) hl.1) ?_
    intro pg ⟨hpg, hpv⟩
    rw [addrOf_eq (by omega) (by omega), M_ok_bind, addrOf_eq (by omega) (by omega), M_ok_bind]
    refine Sat.bind (convolve_sat env hs.conv (a := pmfVal (intensity *ᶠ (one -ᶠ locv Bv N)))
      (b := fun j => f (N + j)) (by omega) ?_ ?_ (by omega) (by omega)) ?_
    · intro j hj; rw [Int.zero_add]; exact hpv j (by omega)
    · intro j hj
      have : j = 0 := by omega
      subst this
      exact hf N (by omega) (by omega)
    rintro ⟨cv, dest⟩ ⟨hcv, hdl', hdv⟩
    dsimp only at hcv hdl' hdv ⊢
    refine (wrBlock_sat (by omega) (by simp; omega)).mono ?_
    intro d ⟨hdl2, hd⟩
    refine ⟨f, hR, ?_⟩
    rw [hd]
    right
    refine ⟨by simp, ?_⟩
    rw [hdv]
    refine Or.inl ⟨by omega, by omega, ?_⟩
    congr 1; omega

end CP
