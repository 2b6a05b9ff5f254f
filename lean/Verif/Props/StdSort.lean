import Verif.Proofs.StdSort
import Verif.Props.Exact
import Verif.Props.Safety
import Verif.Props.Python
import Verif.Props.Sharp
/-
C87: `std::sort` as libstdc++ implements it, at its call in `join_all_bounds` (src/ecdf2.cc:53).
-/
namespace CP.Props
open CP.Spec CP.Std Set

/-- The precondition of `std::sort` in the C++ standard ([alg.sorting]), on the elements of a list: the comparison is irreflexive and
transitive, and so is incomparability transitive. -/
structure StrictWeakOn {α : Type} (lt : α → α → Bool) (l : List α) : Prop where
  irrefl : ∀ x ∈ l, lt x x = false
  trans : ∀ x ∈ l, ∀ y ∈ l, ∀ z ∈ l, lt x y = true → lt y z = true → lt x z = true
  incomp : ∀ x ∈ l, ∀ y ∈ l, ∀ z ∈ l, (lt x y = false ∧ lt y x = false) → (lt y z = false ∧ lt z y = false) →
    (lt x z = false ∧ lt z x = false)

theorem StrictWeakOn.asymm {α : Type} {lt : α → α → Bool} {l : List α} (h : StrictWeakOn lt l) {x y : α} (hx : x ∈ l) (hy : y ∈ l)
    (hxy : lt x y = true) : lt y x = false := by
  by_contra hc
  have := h.trans x hx y hy x hx hxy (by simpa using hc)
  rw [h.irrefl x hx] at this
  cases this

theorem StrictWeakOn.negTrans {α : Type} {lt : α → α → Bool} {l : List α} (h : StrictWeakOn lt l) :
    ∀ x ∈ l, ∀ y ∈ l, ∀ z ∈ l, lt y x = false → lt z y = false → lt z x = false := by
  intro x hx y hy z hz h1 h2
  by_contra hc
  have hc : lt z x = true := by simpa using hc
  by_cases h3 : lt x y = true
  · have := h.trans z hz x hx y hy hc h3
    rw [h2] at this; cases this
  · by_cases h4 : lt y z = true
    · have := h.trans y hy z hz x hx h4 hc
      rw [h1] at this; cases this
    · have := (h.incomp x hx y hy z hz ⟨by simpa using h3, h1⟩ ⟨by simpa using h4, h2⟩).2
      rw [hc] at this; cases this

/-- C87: for every comparison that never holds both ways, and for every vector, the sort ends, reads and writes only inside the vector, and
leaves a rearrangement of the elements, even if the comparison is not transitive. -/
theorem C87_safe {α : Type} {lt : α → α → Bool} (hlt : ∀ x y, lt x y = true → lt y x = false) (l : List α) :
    ∃ r, sort lt l = .ok r ∧ r.Perm l := by
  obtain ⟨r, h1, h2, -⟩ := sort_ok hlt l
  exact ⟨r, h1, h2⟩

/-- C87: if moreover the precondition of the standard holds on the elements, the result is sorted. -/
theorem C87_sorted {α : Type} {lt : α → α → Bool} (hlt : ∀ x y, lt x y = true → lt y x = false) (l : List α) (h : StrictWeakOn lt l) :
    ∃ r, sort lt l = .ok r ∧ r.Perm l ∧ r.Pairwise fun x y => lt y x = false := by
  obtain ⟨r, h1, h2, h3⟩ := sort_ok hlt l
  exact ⟨r, h1, h2, h3 h.negTrans⟩

example : ∃ r, sort (fun x y : ℕ => decide (x < y)) (List.range 40).reverse = .ok r ∧ r.Perm (List.range 40).reverse ∧
    r.Pairwise fun x y => decide (y < x) = false :=
  C87_sorted (fun x y h => by simp at *; omega) _
    ⟨fun x _ => by simp, fun x _ y _ z _ h1 h2 => by simp at *; omega, fun x _ y _ z _ h1 h2 => by simp at *; omega⟩

/-- C87: "never both ways" cannot be dropped: with a comparison that holds of any two elements (as a compiler may make of
comparisons with NaN under -ffinite-math-only) the sort of 17 elements leaves the vector. -/
theorem C87_asymmetry_needed : sort (fun _ _ : Unit => true) (List.replicate 17 ()) = .error .outOfRange := by decide +kernel

/-- C87: with 16 elements it does not. -/
theorem C87_sixteen : sort (fun _ _ : Unit => true) (List.replicate 16 ()) = .ok (List.replicate 16 ()) := by decide +kernel

theorem xr_asymm (x y : Bound XR) (h : boundLt x y = true) : boundLt y x = false := by
  unfold boundLt at *
  generalize x.location = a at *
  generalize y.location = b at *
  change XR.lt a b = true at h
  change XR.lt b a = false
  cases a <;> cases b <;> simp [XR.lt] at *
  linarith

theorem num_asymm {A : FloatSystem} (x y : Bound (Num A)) (h : boundLt x y = true) : boundLt y x = false := by
  unfold boundLt at *
  generalize x.location = a at *
  generalize y.location = b at *
  change Num.lt a b = true at h
  change Num.lt b a = false
  cases a <;> cases b <;> simp [Num.lt] at *
  linarith

theorem sortBounds_eq {F : Type} [FOps F] (h : ∀ x y : Bound F, boundLt x y = true → boundLt y x = false) (l : List (Bound F)) :
    sort boundLt l = .ok (sortBounds l) := by
  obtain ⟨r, h1, -⟩ := C87_safe h l
  unfold sortBounds
  rw [h1]

theorem sortBounds_perm {F : Type} [FOps F] (h : ∀ x y : Bound F, boundLt x y = true → boundLt y x = false) (l : List (Bound F)) :
    (sortBounds l).Perm l := by
  obtain ⟨r, h1, h2⟩ := C87_safe h l
  unfold sortBounds
  rw [h1]
  exact h2

/-- C87: doubles, NaN and infinities included: the sort of the bounds is memory-safe, rearranges them, and sorts them if all locations are
finite. -/
theorem C87_double {A : FloatSystem} (l : List (Bound (Num A))) :
    sort boundLt l = .ok (sortBounds l) ∧ (sortBounds l).Perm l ∧
      ((∀ x ∈ l, x.location.finite) → (sortBounds l).Pairwise fun x y => FOps.lt y.location x.location = false) := by
  refine ⟨sortBounds_eq num_asymm l, sortBounds_perm num_asymm l, fun hfin => ?_⟩
  obtain ⟨r, h1, -, h3⟩ := sort_ok (lt := boundLt) num_asymm l
  have : sortBounds l = r := by unfold sortBounds; rw [h1]
  rw [this]
  refine h3 ?_
  intro x hx y hy z hz
  obtain ⟨a, ha, ea⟩ := hfin x hx
  obtain ⟨b, hb, eb⟩ := hfin y hy
  obtain ⟨c, hc, ec⟩ := hfin z hz
  unfold boundLt
  rw [ea, eb, ec]
  change decide (b < a) = false → decide (c < b) = false → decide (c < a) = false
  simp only [decide_eq_false_iff_not, not_lt]
  intro h1 h2; exact h1.trans h2

/-- C87: the real sort meets the contract assumed of `std::sort` in C01 and elsewhere (exact arithmetic). -/
theorem C87_contract : SortContract (sortBounds (F := XR)) where
  perm l := sortBounds_perm xr_asymm l
  sorted l hfin := by
    obtain ⟨r, h1, -, h3⟩ := sort_ok (lt := boundLt) xr_asymm l
    have : sortBounds l = r := by unfold sortBounds; rw [h1]
    rw [this]
    refine h3 ?_
    intro x hx y hy z hz
    obtain ⟨a, ha⟩ := hfin x hx
    obtain ⟨b, hb⟩ := hfin y hy
    obtain ⟨c, hc⟩ := hfin z hz
    unfold boundLt
    rw [ha, hb, hc]
    simp only [XR.lt_fin, decide_eq_false_iff_not, not_lt]
    intro h1 h2; exact h1.trans h2

/-- C87: `ecdf2` with the real sort returns the non-crossing probability (exact arithmetic). -/
theorem C87_ecdf2 (env : Env XR) (hf : ExactFFT env.fft) {n : ℕ} {b B : Fin n → ℝ} (hb : ValidBound b) (hB : ValidBound B) (useFft : Bool)
    (ha : env.asserts = false ∨ ¬ StronglyCrossed b B) :
    ecdf2 env sortBounds (toList b) (toList B) useFft = .ok (XR.fin (noncrossProb b B)) :=
  C01_ecdf2 env hf C87_contract hb hB useFft ha

example (f : Bool) : ecdf2 relEnv sortBounds (toList exb) (toList exB) f = .ok (XR.fin (noncrossProb exb exB)) :=
  C87_ecdf2 relEnv exactFFTW_exact exb_valid exB_valid f (Or.inl rfl)

/-- C87: the same in double precision, with the bound of C75. -/
theorem C87_ecdf2_double {A : FloatSystem} (hf : A.f = binary64) {n : ℕ} (hn : 1 ≤ n) (hn' : n ≤ 100000) {useFft : Bool}
    (hsm : useFft = false ∨ n ≤ 126) (hL : LibmAccurate A u50 n)
    (env : Env (Num A)) {b B : Fin n → Num A} (hbf : ∀ i, (b i).finite) (hBf : ∀ i, (B i).finite)
    (hb : ValidBound fun i => (b i).val) (hB : ValidBound fun i => (B i).val)
    (ha : env.asserts = false ∨ ¬ StronglyCrossed (fun i => (b i).val) (fun i => (B i).val)) :
    ∃ x : Num A, ecdf2 env sortBounds (List.ofFn b) (List.ofFn B) useFft = .ok x ∧ x.finite ∧ 0 ≤ x.val ∧
      |x.val - noncrossProb (fun i => (b i).val) (fun i => (B i).val)|
        ≤ (2 * (n : ℝ) ^ 2 + 11000 * n) / 10 ^ 15 * noncrossProb (fun i => (b i).val) (fun i => (B i).val) + (2 : ℝ) ^ (-1000 : ℤ) ∧
      (noncrossProb (fun i => (b i).val) (fun i => (B i).val) = 0 → x.val = 0) :=
  C75_double_source hf hn hn' hsm hL env hbf hBf hb hB (fun l => (C87_double l).2.1) (fun l => (C87_double l).2.2) ha

/-- C87: `ecdf2` with the real sort never does anything undefined, whatever doubles it is given. -/
theorem C87_ecdf2_safe {A : FloatSystem} (env : Env (Num A)) (b B : List (Num A)) (useFft : Bool) :
    CleanOrAbort (ecdf2 env sortBounds b B useFft) ∧ NoUB (ecdf2 env sortBounds b B useFft) :=
  C16_ecdf2_any env (fun l => (C87_double l).2.1) b B useFft

/-- C87: neither does the Python function `ecdf2`, whatever it is called with. -/
theorem C87_python {A : FloatSystem} (env : Env (Num A)) (ha : env.asserts = false) (args : List (PyArg (Num A))) :
    Survives (pyEcdf2 env sortBounds args) :=
  C49_ecdf2_survives env ha (fun l => (C87_double l).2.1) args

/-- C87: a NaN among the boundaries ends in an exception with the real sort, too. -/
theorem C87_nan (env : Env XR) (ha : env.asserts = false) (b B : List XR) (hnan : XR.nan ∈ b ∨ XR.nan ∈ B) (useFft : Bool) :
    ∃ msg, ecdf2 env sortBounds b B useFft = .error (.runtimeError msg) :=
  C15_nan_throws env ha (fun l => sortBounds_perm xr_asymm l) b B hnan useFft

/-- C87: the precondition of the C++ standard holds exactly if no location is NaN, or no two of the locations are comparable at all.  (So a
NaN beside two different numbers violates it, and the guarantees above rest on libstdc++, not on the standard.) -/
theorem C87_precondition (l : List (Bound XR)) :
    StrictWeakOn boundLt l ↔ (∀ x ∈ l, x.location ≠ XR.nan) ∨ (∀ x ∈ l, ∀ y ∈ l, boundLt x y = false) := by
  constructor
  · intro h
    by_contra hc
    simp only [not_or, not_forall, ne_eq, not_not] at hc
    obtain ⟨⟨u, hu, hn⟩, x, hx, y, hy, hxy⟩ := hc
    have nl : ∀ a : Bound XR, boundLt a u = false := by
      intro a; unfold boundLt; rw [hn]; cases a.location <;> rfl
    have nr : ∀ a : Bound XR, boundLt u a = false := by
      intro a; unfold boundLt; rw [hn]; cases a.location <;> rfl
    exact hxy (h.incomp x hx u hu y hy ⟨nl x, nr x⟩ ⟨nr y, nl y⟩).1
  · rintro (h | h)
    · refine ⟨?_, ?_, ?_⟩
      · intro x hx
        have := h x hx
        unfold boundLt
        generalize x.location = a at *
        change XR.lt a a = false
        cases a <;> simp [XR.lt] at *
      · intro x hx y hy z hz
        have h1 := h x hx
        have h2 := h y hy
        have h3 := h z hz
        unfold boundLt
        generalize x.location = a at *
        generalize y.location = b at *
        generalize z.location = c at *
        change XR.lt a b = true → XR.lt b c = true → XR.lt a c = true
        cases a <;> cases b <;> cases c <;> simp [XR.lt] at *
        intro h1 h2; linarith
      · intro x hx y hy z hz
        have h1 := h x hx
        have h2 := h y hy
        have h3 := h z hz
        unfold boundLt
        generalize x.location = a at *
        generalize y.location = b at *
        generalize z.location = c at *
        change XR.lt a b = false ∧ XR.lt b a = false → XR.lt b c = false ∧ XR.lt c b = false → XR.lt a c = false ∧ XR.lt c a = false
        cases a <;> cases b <;> cases c <;> simp [XR.lt] at *
        intro h1 h2 h3 h4; constructor <;> linarith
    · refine ⟨fun x hx => h x hx x hx, fun x hx y hy z hz h1 => ?_, fun x hx y hy z hz _ _ => ⟨h x hx z hz, h z hz x hx⟩⟩
      rw [h x hx y hy] at h1; cases h1

example : ¬ StrictWeakOn boundLt [⟨XR.fin (1/4), .bSTEP⟩, ⟨XR.nan, .bSTEP⟩, ⟨XR.fin (3/4), .bSTEP⟩] := by
  rw [C87_precondition]
  rintro (h | h)
  · exact h ⟨XR.nan, .bSTEP⟩ (by simp) rfl
  · have := h ⟨XR.fin (1/4), .bSTEP⟩ (by simp) ⟨XR.fin (3/4), .bSTEP⟩ (by simp)
    unfold boundLt at this
    simp at this
    norm_num at this

end CP.Props
