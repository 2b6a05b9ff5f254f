import Verif.Props.Exact
import Verif.Proofs.NewExact
/-
Properties C06, C19, C20 (FFT convolver) and C21 (Poisson tables), for every history of calls.
-/
namespace CP.Props
open CP.Spec Finset

section convolver
variable {F : Type} [FOps F]

/-- Arguments of a call of `FFTWConvolver::convolve_same_size(size, input_a, input_b, output)`; each
pointer is an array with an offset.  The three arrays are distinct objects, as in all callers. -/
structure Call (F : Type) where
  size : Int
  inputA : List F
  oa : Int
  inputB : List F
  ob : Int
  output : List F
  oo : Int

/-- The caller's obligation: the pointers have `size` accessible elements. -/
structure Call.Valid (c : Call F) : Prop where
  a0 : 0 ≤ c.oa
  a1 : c.oa + c.size ≤ c.inputA.length
  b0 : 0 ≤ c.ob
  b1 : c.ob + c.size ≤ c.inputB.length
  o0 : 0 ≤ c.oo
  o1 : c.oo + c.size ≤ c.output.length

/-- Run a call on a convolver: new convolver state and new contents of the output array. -/
def Call.run (c : Call F) (env : Env F) (cv : Convolver F) : M (Convolver F × List F) :=
  cv.convolve env c.size c.inputA c.oa c.inputB c.ob c.output c.oo

/-- The states of a convolver constructed with argument `m` after any number of valid calls of sizes
up to `m`. -/
inductive Reachable (env : Env F) (m : Int) : Convolver F → Prop where
  | new : Reachable env m (Convolver.new env m)
  | call {cv cv' : Convolver F} {out : List F} (c : Call F) (hr : Reachable env m cv) (hv : c.Valid)
      (hs : c.size ≤ m) (h : c.run env cv = .ok (cv', out)) : Reachable env m cv'

theorem sub_has {a : List F} {o size : Int} (h0 : 0 ≤ o) (h1 : o + size ≤ a.length) :
    ∀ k : Nat, (k : Int) < size → Has a (o + k) (a.getD (o.toNat + k) FOps.zero) := by
  intro k hk
  refine ⟨by omega, ?_⟩
  have e : (o + k).toNat = o.toNat + k := by omega
  have : o.toNat + k < a.length := by omega
  rw [e]
  simp [List.getD, this]

/-- The elements of an input. -/
def elemsOf (a : List F) (o : Int) : ℕ → F := fun k => a.getD (o.toNat + k) FOps.zero

theorem call_sat {E : Fault → Prop} (env : Env F) {m : Int} {cv : Convolver F} (hinv : ConvInv m cv) (c : Call F) (hv : c.Valid)
    (hs : c.size ≤ m) :
    Sat E (fun r => ConvInv m r.1 ∧ r.2.length = c.output.length ∧ ∀ j w, Has r.2 j w ↔
      (c.oo ≤ j ∧ j < c.oo + c.size ∧
        w = convVal env.fft c.size.toNat (elemsOf c.inputA c.oa) (elemsOf c.inputB c.ob) (j - c.oo).toNat) ∨
      ((j < c.oo ∨ c.oo + c.size ≤ j) ∧ Has c.output j w)) (c.run env cv) :=
  convolve_sat env hinv hs (sub_has hv.a0 hv.a1) (sub_has hv.b0 hv.b1) hv.o0 hv.o1

theorem reachable_inv {env : Env F} {m : Int} (hm : 0 ≤ m) {cv : Convolver F} (h : Reachable env m cv) : ConvInv m cv := by
  induction h with
  | new => exact convInv_new env hm
  | call c hr hv hs h ih =>
    have := call_sat (E := NoFault) env ih c hv hs
    rw [h] at this
    exact this.1

/-- A constant list of `n` ones, for the examples. -/
def constList (n : ℕ) : List XR := List.replicate n (XR.fin 1)
theorem constList_length (n : ℕ) : (constList n).length = n := List.length_replicate
theorem constList_get {n k : ℕ} (h : k < n) : (constList n)[k]? = some (XR.fin 1) := by
  unfold constList
  rw [List.getElem?_replicate, if_pos h]

/-- C19: after `FFTWConvolver(m)` and any history of valid calls, a valid call of size at most `m`
returns normally: no out-of-bounds access, no exception, no failed assertion, in any arithmetic. -/
theorem C19_safe (env : Env F) {m : Int} (hm : 0 ≤ m) {cv : Convolver F} (h : Reachable env m cv) (c : Call F)
    (hv : c.Valid) (hs : c.size ≤ m) : ∃ cv' out, c.run env cv = .ok (cv', out) ∧ out.length = c.output.length := by
  obtain ⟨⟨cv', out⟩, h1, h2⟩ := (call_sat (E := NoFault) env (reachable_inv hm h) c hv hs).exists_ok
  exact ⟨cv', out, h1, h2.2.1⟩

/-- C19 (the guard that exists): sizes above `m + 2047` throw. -/
theorem C19_guard (env : Env F) {m : Int} (hm : 0 ≤ m) {cv : Convolver F} (h : Reachable env m cv) (c : Call F)
    (hs : m + 2047 < c.size) : ∃ msg, c.run env cv = .error (.runtimeError msg) := by
  have := (reachable_inv hm h).max
  unfold Call.run Convolver.convolve
  rw [if_pos (by omega)]
  exact ⟨_, rfl⟩

/-- C19 (the hole in the guard): a valid call of a size that passes the guard `size <= m + 2047` but
is in a higher bracket of 1024 than `m` (`m <= 1024 q < size`) writes out of bounds. -/
theorem C19_overflow (env : Env F) {m : Int} (hm : 0 ≤ m) {cv : Convolver F} (h : Reachable env m cv) (c : Call F)
    (hv : c.Valid) (h1 : 128 ≤ c.size) (h2 : c.size ≤ m + 2047)
    (q : Int) (hq : m ≤ 1024 * q) (hq' : 1024 * q < c.size) : ∃ w, c.run env cv = .error (.ub w) := by
  have h3 : roundUp (2 * m) 2048 < roundUp (2 * c.size) 2048 := by
    unfold roundUp
    rw [Int.tdiv_eq_ediv_of_nonneg (by omega), Int.tdiv_eq_ediv_of_nonneg (by omega)]
    omega
  have hi := reachable_inv hm h
  have hmax := hi.max
  have hlen := hi.lenIn
  unfold Call.run Convolver.convolve MINIMUM_SIZE_FOR_FFTW_CONVOLUTION
  rw [if_neg (by omega), if_neg (by omega), if_neg (by omega)]
  have hrd : rdBlock c.inputA c.oa c.size = .ok ((c.inputA.drop c.oa.toNat).take c.size.toNat) := by
    unfold rdBlock
    have a0 := hv.a0
    have a1 := hv.a1
    rw [if_pos ⟨a0, by omega, by omega⟩]
  dsimp only
  have hr := roundUp_spec (n := 2 * c.size) (by omega)
  unfold ROUNDING at hr hlen ⊢
  unfold Convolver.copyZeroPadded
  rw [hrd, M_ok_bind]
  have hlen2 : ((c.inputA.drop c.oa.toNat).take c.size.toNat).length = c.size.toNat := by
    have a0 := hv.a0
    have a1 := hv.a1
    simp
    omega
  by_cases hfit : c.size ≤ cv.r2cIn.length
  · have hw : ∃ d, wrBlock cv.r2cIn 0 ((c.inputA.drop c.oa.toNat).take c.size.toNat) = .ok d ∧ d.length = cv.r2cIn.length := by
      unfold wrBlock
      rw [if_pos ⟨le_rfl, by rw [hlen2]; simp; omega⟩]
      refine ⟨_, rfl, ?_⟩
      simp only [Int.toNat_zero, List.take_zero, List.nil_append, List.length_append, List.length_drop, Nat.zero_add]
      omega
    obtain ⟨d, hd, hdl⟩ := hw
    rw [hd, M_ok_bind]
    have : wrBlock d c.size (List.replicate (roundUp (2 * c.size) 2048 - c.size).toNat (FOps.zero : F))
        = .error (.ub "block write out of bounds") := by
      unfold wrBlock
      rw [if_neg]
      rintro ⟨_, hh⟩
      rw [List.length_replicate] at hh
      omega
    rw [this]
    exact ⟨_, rfl⟩
  · have : wrBlock cv.r2cIn 0 ((c.inputA.drop c.oa.toNat).take c.size.toNat)
        = .error (.ub "block write out of bounds") := by
      unfold wrBlock
      rw [if_neg]
      rintro ⟨_, hh⟩
      rw [hlen2] at hh
      simp at hh
      omega
    rw [this]
    exact ⟨_, rfl⟩

/-- The hole is real: a convolver made for size 100 accepts size 2000 and overflows. -/
example (env : Env XR) : ∃ w, (Call.mk 2000 (constList 2000) 0 (constList 2000) 0
    (constList 2000) 0).run env (Convolver.new env 100) = .error (.ub w) := by
  refine C19_overflow env (m := 100) (by norm_num) .new _ ⟨?_, ?_, ?_, ?_, ?_, ?_⟩ ?_ ?_ 1 ?_ ?_
  all_goals try dsimp only
  all_goals first | (rw [constList_length]; norm_num) | norm_num

/-- C20: the output of a call depends only on its inputs: two convolvers, constructed for possibly
different maximum sizes, in environments with different uninitialised memory, different assertion
settings and different contents left behind in FFTW's clobbered inputs, and with completely
different histories, give the same output. -/
theorem C20_history_independent (env env' : Env F) (hr2c : env.fft.r2c = env'.fft.r2c) (hc2r : env.fft.c2r = env'.fft.c2r)
    {m m' : Int} (hm : 0 ≤ m) (hm' : 0 ≤ m') {cv cv' : Convolver F} (h : Reachable env m cv) (h' : Reachable env' m' cv')
    (c : Call F) (hv : c.Valid) (hs : c.size ≤ m) (hs' : c.size ≤ m') :
    ∃ cv1 cv1' out, c.run env cv = .ok (cv1, out) ∧ c.run env' cv' = .ok (cv1', out) := by
  obtain ⟨⟨cv1, out⟩, h1, h2⟩ := (call_sat (E := NoFault) env (reachable_inv hm h) c hv hs).exists_ok
  obtain ⟨⟨cv1', out'⟩, h1', h2'⟩ := (call_sat (E := NoFault) env' (reachable_inv hm' h') c hv hs').exists_ok
  have e : ∀ a b j, convVal env.fft c.size.toNat a b j = convVal env'.fft c.size.toNat a b j := by
    intro a b j
    unfold convVal fftConv
    rw [hr2c, hc2r]
  have : out = out' := by
    have hl : out.length = out'.length := h2.2.1.trans h2'.2.1.symm
    apply List.ext_getElem?
    intro i
    by_cases hi : i < out.length
    · have hx : Has out i (out[i]) := ⟨by omega, by simp [hi]⟩
      have hy := (h2'.2.2 i (out[i])).mpr (by
        have := (h2.2.2 i (out[i])).mp hx
        rwa [e] at this)
      have := hy.2
      simp at this
      simp [hi, this]
    · rw [List.getElem?_eq_none (by omega), List.getElem?_eq_none (by omega)]
  subst this
  exact ⟨cv1, cv1', out, h1, h1'⟩

/-- C20 (memoisation): in every reachable state each memoised plan stored in slot `i` was created for
the length `2048 (i+1)` for which slot `i` is looked up. -/
theorem C20_plans (env : Env F) {m : Int} (hm : 0 ≤ m) {cv : Convolver F} (h : Reachable env m cv) (i : ℕ) (sz : Int) :
    (cv.r2cPlans[i]? = some (some sz) → sz = (i + 1) * 2048) ∧
    (cv.c2rPlans[i]? = some (some sz) → sz = (i + 1) * 2048) := by
  have hi := reachable_inv hm h
  constructor
  · intro hh
    exact hi.plansR i sz ⟨by omega, by simpa using hh⟩
  · intro hh
    exact hi.plansC i sz ⟨by omega, by simpa using hh⟩

end convolver

/-- C06: after any history of calls, `convolve_same_size` writes to `output[0..size)` the first `size`
coefficients of the product of the two input polynomials and nothing else, for direct and FFT
sizes alike. -/
theorem C06_convolution (env : Env XR) (hf : ExactFFT env.fft) {m : Int} (hm : 0 ≤ m) {cv : Convolver XR}
    (h : Reachable env m cv) (c : Call XR) (hv : c.Valid) (hs : c.size ≤ m) (a b : ℕ → ℝ)
    (ha : ∀ k : ℕ, (k : Int) < c.size → c.inputA[c.oa.toNat + k]? = some (XR.fin (a k)))
    (hb : ∀ k : ℕ, (k : Int) < c.size → c.inputB[c.ob.toNat + k]? = some (XR.fin (b k))) :
    ∃ cv' out, c.run env cv = .ok (cv', out) ∧ out.length = c.output.length ∧
      (∀ j : ℕ, (j : Int) < c.size → out[c.oo.toNat + j]? = some (XR.fin (∑ k ∈ range (j + 1), a k * b (j - k)))) ∧
      (∀ i : ℕ, (i : Int) < c.oo ∨ c.oo + c.size ≤ (i : Int) → out[i]? = c.output[i]?) := by
  have ha' : ∀ k : Nat, (k : Int) < c.size → Has c.inputA (c.oa + k) (XR.fin (a k)) := by
    intro k hk
    have := hv.a0
    have e : (c.oa + k).toNat = c.oa.toNat + k := by omega
    exact ⟨by omega, by rw [e]; exact ha k hk⟩
  have hb' : ∀ k : Nat, (k : Int) < c.size → Has c.inputB (c.ob + k) (XR.fin (b k)) := by
    intro k hk
    have := hv.b0
    have e : (c.ob + k).toNat = c.ob.toNat + k := by omega
    exact ⟨by omega, by rw [e]; exact hb k hk⟩
  obtain ⟨⟨cv', out⟩, h1, h2, h3, h4⟩ := (convolve_sat (E := NoFault) env (reachable_inv hm h) hs ha' hb' hv.o0 hv.o1).exists_ok
  dsimp only at h3 h4
  refine ⟨cv', out, h1, h3, ?_, ?_⟩
  · intro j hj
    have hoo := hv.o0
    have := (h4 (c.oo + j) _).mpr (Or.inl ⟨by omega, by omega, rfl⟩)
    have e : (c.oo + j).toNat = c.oo.toNat + j := by omega
    have e' : (c.oo + j - c.oo).toNat = j := by omega
    rw [e', convVal_fin hf a b (by omega)] at this
    have h5 := this.2
    rwa [e] at h5
  · intro i hi
    by_cases hlt : i < c.output.length
    · have hx : Has c.output i (c.output[i]) := ⟨by omega, by simp [hlt]⟩
      have := ((h4 i _).mpr (Or.inr ⟨hi, hx⟩)).2
      simp at this
      simp [this, hlt]
    · rw [List.getElem?_eq_none (by omega), List.getElem?_eq_none (by omega)]

/-- C06 is not vacuous: an FFT-sized call on a fresh convolver, with all coefficients 1: coefficient
`j` of the product is `j + 1`. -/
example : ∃ cv' out, (Call.mk 1000 (constList 1000) 0 (constList 1000) 0
    (constList 1000) 0).run relEnv (Convolver.new relEnv 1000) = .ok (cv', out) ∧
    out[999]? = some (XR.fin 1000) := by
  obtain ⟨cv', out, h1, _, h3, _⟩ := C06_convolution relEnv exactFFTW_exact (m := 1000) (by norm_num) .new
    (Call.mk 1000 (constList 1000) 0 (constList 1000) 0 (constList 1000) 0)
    (by constructor <;> dsimp only <;> first | (rw [constList_length]; norm_num; done) | norm_num) le_rfl
    (fun _ => 1) (fun _ => 1)
    (by intro k hk
        exact constList_get (by dsimp only at hk ⊢; omega))
    (by intro k hk
        exact constList_get (by dsimp only at hk ⊢; omega))
  refine ⟨cv', out, h1, ?_⟩
  have := h3 999 (by norm_num)
  norm_num at this
  exact this

/-! ## C21 -/

section pmf
variable {F : Type} [FOps F]

/-- The states of a `PoissonPMFGenerator(m)` after any number of `compute_array` calls with tables up
to `m` (that did not throw). -/
inductive PmfReachable (env : Env F) (m : Int) : PmfGen F → Prop where
  | new {g : PmfGen F} (h : PmfGen.new env m = .ok g) : PmfReachable env m g
  | compute {g g' : PmfGen F} (k : Int) (lambda : F) (hr : PmfReachable env m g) (h0 : 0 ≤ k) (hk : k ≤ m)
      (h : g.computeArray env k lambda = .ok g') : PmfReachable env m g'

theorem pmfReachable_inv {env : Env F} {m : Int} (hm : 0 < m) {g : PmfGen F} (h : PmfReachable env m g) : PmfInv m g := by
  induction h with
  | new h =>
    have := pmfGen_new_sat (E := NoFault) env hm
    rw [h] at this
    exact this
  | compute k lambda hr h0 hk h ih =>
    by_cases hl : FOps.lt lambda FOps.zero = false
    · have := computeArray_sat (E := NoFault) env ih hk (by omega) (Or.inr h0) hl
      rw [h] at this
      exact this.1
    · unfold PmfGen.computeArray at h
      rw [assertC_true _ (by simpa using h0), assertC_true _ (by have := ih.max; simp; omega), M_ok_bind, M_ok_bind,
        if_pos (by simpa using hl)] at h
      cases h

/-- C21 (safety): on a reachable generator `compute_array` and `evaluate_pmf` never access memory out of
bounds, in any arithmetic. -/
theorem C21_safe (env : Env F) (ha : env.asserts = false) {m : Int} (hm : 0 < m) {g : PmfGen F} (h : PmfReachable env m g)
    (lambda : F) (k : Int) (h0 : 0 ≤ k) (hk : k ≤ m) :
    ((∃ g', g.computeArray env k lambda = .ok g') ∨ ∃ msg, g.computeArray env k lambda = .error (.runtimeError msg)) ∧
    (∃ v, g.evaluatePmf env lambda k = .ok v) := by
  constructor
  · by_cases hl : FOps.lt lambda FOps.zero = false
    · obtain ⟨g', h1, _⟩ := (computeArray_sat (E := NoFault) env (pmfReachable_inv hm h) hk (by omega) (Or.inr h0) hl).exists_ok
      exact Or.inl ⟨g', h1⟩
    · right
      unfold PmfGen.computeArray
      rw [assertC_true _ (by simpa using h0), assertC_true _ (by have := (pmfReachable_inv hm h).max; simp; omega), M_ok_bind,
        M_ok_bind, if_pos (by simpa using hl)]
      exact ⟨_, rfl⟩
  · obtain ⟨v, h1, _⟩ := (evaluatePmf_sat (E := NoFault) env (pmfReachable_inv hm h) (lambda := lambda) h0 hk (Or.inl ha)).exists_ok
    exact ⟨v, h1⟩

end pmf

/-- C21: after any history, `compute_array(k, lambda)` with `lambda >= 0` fills entries `0..k` with the
Poisson probabilities `e^-lambda lambda^i / i!` (`0^0 = 1`). -/
theorem C21_table (env : Env XR) {m : Int} (hm : 0 < m) {g : PmfGen XR} (h : PmfReachable env m g) (lam : ℝ) (hlam : 0 ≤ lam)
    (k : ℕ) (hk : (k : Int) ≤ m) :
    ∃ g', g.computeArray env k (XR.fin lam) = .ok g' ∧
      ∀ i : ℕ, i ≤ k → g'.pmfArray[i]? = some (XR.fin (Real.exp (-lam) * lam ^ i / (i.factorial : ℝ))) := by
  obtain ⟨g', h1, h2, h3⟩ := (computeArray_sat (E := NoFault) env (pmfReachable_inv hm h) hk (by omega) (Or.inr (by omega))
    (lambda := XR.fin lam) (by simpa using hlam)).exists_ok
  refine ⟨g', h1, fun i hi => ?_⟩
  have := (h3 i (by omega)).2
  rw [pmfVal_fin hlam] at this
  simpa [pois] using this

/-- C21: `evaluate_pmf` and the free function `poisson_pmf` return the same probability. -/
theorem C21_evaluate (env : Env XR) {m : Int} (hm : 0 < m) {g : PmfGen XR} (h : PmfReachable env m g) (lam : ℝ)
    (hlam : 0 ≤ lam) (k : ℕ) (hk : (k : Int) ≤ m) :
    g.evaluatePmf env (XR.fin lam) k = .ok (XR.fin (Real.exp (-lam) * lam ^ k / (k.factorial : ℝ))) ∧
    poissonPmf env (XR.fin lam) k = .ok (XR.fin (Real.exp (-lam) * lam ^ k / (k.factorial : ℝ))) := by
  have hge : FOps.ge (XR.fin lam) FOps.zero = true := by
    simp [FOps.ge]
    rcases hlam.lt_or_eq with h | h
    · exact Or.inl h
    · exact Or.inr h.symm
  obtain ⟨v, h1, h2⟩ := (evaluatePmf_sat (E := NoFault) env (pmfReachable_inv hm h) (lambda := XR.fin lam) (k := k)
    (by omega) hk (Or.inr hge)).exists_ok
  obtain ⟨v', h1', h2'⟩ := (poissonPmf_sat (E := NoFault) env (lambda := XR.fin lam) (k := k) (by omega) (Or.inr hge)).exists_ok
  rw [pmfVal_fin hlam] at h2 h2'
  rw [h1, h1', h2, h2']
  simp [pois]

/-- C21: a negative `lambda` throws. -/
theorem C21_negative (env : Env XR) {m : Int} (hm : 0 < m) {g : PmfGen XR} (h : PmfReachable env m g) (lam : ℝ)
    (hlam : lam < 0) (k : ℕ) (hk : (k : Int) ≤ m) :
    ∃ msg, g.computeArray env k (XR.fin lam) = .error (.runtimeError msg) := by
  have := (pmfReachable_inv hm h).max
  unfold PmfGen.computeArray
  rw [assertC_true _ (by simp), assertC_true _ (by simp; omega), M_ok_bind, M_ok_bind, if_pos (by simpa using hlam)]
  exact ⟨_, rfl⟩

/-- C21: entry 0 of the `lgamma` table (the infinite `lgamma(0)`) is never used: replacing it by
anything changes no result. -/
theorem C21_pole_unused {F : Type} [FOps F] (env : Env F) (maxK : Int) (arr lut : List F) (x y : F) (lambda : F) (k : Int) :
    ((PmfGen.mk maxK (x :: lut) arr).computeArray env k lambda).map PmfGen.pmfArray
      = ((PmfGen.mk maxK (y :: lut) arr).computeArray env k lambda).map PmfGen.pmfArray ∧
    (0 ≤ k → (PmfGen.mk maxK (x :: lut) arr).evaluatePmf env lambda k = (PmfGen.mk maxK (y :: lut) arr).evaluatePmf env lambda k) := by
  have hrd : ∀ i : Int, 0 ≤ i → rd (x :: lut) (i + 1) = rd (y :: lut) (i + 1) := by
    intro i hi
    unfold rd
    have e : (i + 1).toNat = i.toNat + 1 := by omega
    rw [e]
    simp
  constructor
  · unfold PmfGen.computeArray
    dsimp only
    have hloop : ∀ (n : Nat) (i : Int) (a : List F), 0 ≤ i →
        forAux (fun i arr => do
          let lg ← rd (x :: lut) (i + 1)
          wr arr i (FOps.exp (FOps.neg lambda +ᶠ FOps.ofInt i *ᶠ FOps.log lambda -ᶠ lg))) n i a
        = forAux (fun i arr => do
          let lg ← rd (y :: lut) (i + 1)
          wr arr i (FOps.exp (FOps.neg lambda +ᶠ FOps.ofInt i *ᶠ FOps.log lambda -ᶠ lg))) n i a := by
      intro n
      induction n with
      | zero => intro i a _; rfl
      | succ n ih =>
        intro i a hi
        unfold forAux
        rw [hrd i hi]
        congr 1
        funext s
        exact ih (i + 1) s (by omega)
    cases assertC env.asserts (decide (0 ≤ k)) "k >= 0" with
    | error e => rfl
    | ok _ =>
      cases assertC env.asserts (decide (k ≤ maxK)) "k <= max_k" with
      | error e => rfl
      | ok _ =>
        simp only [M_ok_bind]
        split
        · rfl
        · split
          · cases wr arr 0 (FOps.ofInt 1 : F) with
            | error e => rfl
            | ok a =>
              simp only [M_ok_bind]
              cases forRange 1 (k + 1) a fun i arr => wr arr i (FOps.ofInt 0) with
              | error e => rfl
              | ok a => rfl
          · unfold forRange
            rw [hloop _ _ _ le_rfl]
            generalize forAux _ _ _ _ = r
            cases r with
            | error e => rfl
            | ok a => rfl
  · intro hk
    unfold PmfGen.evaluatePmf
    dsimp only
    rw [hrd k hk]

/-- C21 is not vacuous: a generator with a non-trivial history. -/
example : ∃ g g' : PmfGen XR, PmfReachable relEnv 10 g ∧ g.computeArray relEnv 5 (XR.fin 2) = .ok g' ∧
    g'.pmfArray[3]? = some (XR.fin (Real.exp (-2) * 2 ^ 3 / (Nat.factorial 3 : ℝ))) := by
  obtain ⟨g0, h0, _⟩ := (pmfGen_new_sat (E := NoFault) (F := XR) relEnv (m := 10) (by norm_num)).exists_ok
  obtain ⟨g1, h1, _⟩ := C21_table relEnv (by norm_num) (.new h0) 7 (by norm_num) 8 (by norm_num)
  have r1 : PmfReachable relEnv 10 g1 := .compute 8 _ (.new h0) (by norm_num) (by norm_num) h1
  obtain ⟨g2, h2, h3⟩ := C21_table relEnv (by norm_num) r1 2 (by norm_num) 5 (by norm_num)
  exact ⟨g1, g2, r1, h2, h3 3 (by norm_num)⟩

end CP.Props
