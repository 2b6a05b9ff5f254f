import Mathlib.Logic.Equiv.Fin.Basic
import Mathlib.Logic.Equiv.Basic
import Mathlib.Tactic.Linarith
import Mathlib.Data.List.OfFn
import Mathlib.Data.List.FinRange
import Mathlib.Data.Fintype.Perm
import Verif.Model.StdSort
/-
Proofs for C87: libstdc++'s `std::sort` stays within the vector and permutes it for every asymmetric comparison, and sorts it
if the comparison is a strict weak ordering.
-/
namespace CP.Std
variable {α : Type}

/-! ### rearrangements of a range -/

/-- `a'` is `a` with the elements of `[f, l)` rearranged. -/
def PermOn (f l : ℕ) (a a' : ℕ → α) : Prop := ∃ σ : Equiv.Perm ℕ, (∀ i, ¬ (f ≤ i ∧ i < l) → σ i = i) ∧ a' = a ∘ σ

theorem PermOn.refl (f l : ℕ) (a : ℕ → α) : PermOn f l a a := ⟨1, fun _ _ => rfl, rfl⟩

theorem PermOn.trans {f l : ℕ} {a b c : ℕ → α} (h : PermOn f l a b) (h' : PermOn f l b c) : PermOn f l a c := by
  obtain ⟨σ, h1, rfl⟩ := h
  obtain ⟨τ, h2, rfl⟩ := h'
  refine ⟨τ.trans σ, fun i hi => ?_, rfl⟩
  simp [h2 i hi, h1 i hi]

theorem PermOn.mono {f l f' l' : ℕ} {a b : ℕ → α} (h : PermOn f l a b) (hf : f' ≤ f) (hl : l ≤ l') : PermOn f' l' a b := by
  obtain ⟨σ, h1, rfl⟩ := h
  exact ⟨σ, fun i hi => h1 i (by omega), rfl⟩

theorem PermOn.outside {f l : ℕ} {a b : ℕ → α} (h : PermOn f l a b) {i : ℕ} (hi : ¬ (f ≤ i ∧ i < l)) : b i = a i := by
  obtain ⟨σ, h1, rfl⟩ := h
  simp [h1 i hi]

theorem PermOn.source {f l : ℕ} {a b : ℕ → α} (h : PermOn f l a b) {i : ℕ} (hi : f ≤ i ∧ i < l) :
    ∃ j, (f ≤ j ∧ j < l) ∧ b i = a j := by
  obtain ⟨σ, h1, rfl⟩ := h
  refine ⟨σ i, ?_, rfl⟩
  by_contra hc
  have := σ.injective (h1 _ hc)
  rw [this] at hc
  exact hc hi

theorem PermOn.symm {f l : ℕ} {a b : ℕ → α} (h : PermOn f l a b) : PermOn f l b a := by
  obtain ⟨σ, h1, rfl⟩ := h
  refine ⟨σ.symm, fun i hi => ?_, ?_⟩
  · rw [Equiv.symm_apply_eq, h1 i hi]
  · funext i; simp

theorem PermOn.target {f l : ℕ} {a b : ℕ → α} (h : PermOn f l a b) {j : ℕ} (hj : f ≤ j ∧ j < l) :
    ∃ i, (f ≤ i ∧ i < l) ∧ b i = a j := by
  obtain ⟨i, hi, e⟩ := h.symm.source hj
  exact ⟨i, hi, e.symm⟩

/-- Exchanging two elements. -/
def swp (a : ℕ → α) (i j : ℕ) : ℕ → α := fun k => if k = j then a i else if k = i then a j else a k

theorem swp_perm {f l : ℕ} (a : ℕ → α) {i j : ℕ} (hi : f ≤ i ∧ i < l) (hj : f ≤ j ∧ j < l) : PermOn f l a (swp a i j) := by
  refine ⟨Equiv.swap i j, fun k hk => Equiv.swap_apply_of_ne_of_ne (by omega) (by omega), ?_⟩
  funext k
  simp only [swp, Function.comp_apply]
  by_cases h1 : k = j
  · rw [if_pos h1, h1, Equiv.swap_apply_right]
  · rw [if_neg h1]
    by_cases h2 : k = i
    · rw [if_pos h2, h2, Equiv.swap_apply_left]
    · rw [if_neg h2, Equiv.swap_apply_of_ne_of_ne h2 h1]

/-- Storing at one position. -/
def put (a : ℕ → α) (i : ℕ) (x : α) : ℕ → α := fun k => if k = i then x else a k

theorem rd_ok {n i : ℕ} (a : ℕ → α) (h : i < n) : rd n a i = .ok (a i) := by unfold rd; rw [if_pos h]
theorem wr_ok {n i : ℕ} (a : ℕ → α) (x : α) (h : i < n) : wr n a i x = .ok (put a i x) := by unfold wr; rw [if_pos h]; rfl

theorem put_put (a : ℕ → α) (i : ℕ) (x y : α) : put (put a i x) i y = put a i y := by
  funext k; simp only [put]; split_ifs <;> rfl

theorem put_self (a : ℕ → α) (i : ℕ) : put a i (a i) = a := by
  funext k; simp only [put]; split_ifs with h
  · rw [h]
  · rfl

theorem iterSwap_ok {n i j : ℕ} (a : ℕ → α) (hi : i < n) (hj : j < n) : iterSwap n a i j = .ok (swp a i j) := by
  unfold iterSwap
  rw [rd_ok a hi, rd_ok a hj]
  simp only [bind, Except.bind]
  rw [wr_ok _ _ hi]
  simp only []
  rw [wr_ok _ _ hj]
  congr 1

/-- Moving the hole from `i` to `j`: the same as an exchange, if the hole is thought to contain `x`. -/
theorem hole_move (a : ℕ → α) {i j : ℕ} (h : i ≠ j) (x : α) : put (put a i (a j)) j x = swp (put a i x) i j := by
  funext k
  simp only [put, swp]
  by_cases h1 : k = j
  · simp [h1]
  · by_cases h2 : k = i
    · simp [h2, h, Ne.symm h]
    · simp [h1, h2]

/-- Asymmetric comparisons. -/
def Asymm (lt : α → α → Bool) : Prop := ∀ x y, lt x y = true → lt y x = false

theorem Asymm.irrefl {lt : α → α → Bool} (h : Asymm lt) (x : α) : lt x x = false := by
  by_contra hc
  have h1 : lt x x = true := by simpa using hc
  exact hc (h x x h1)

/-! ### partition -/

theorem median_ok {lt : α → α → Bool} (hA : Asymm lt) {n : ℕ} (a : ℕ → α) {r x y z : ℕ} (hr : r < x) (hxy : x < y) (hyz : y < z)
    (hz : z < n) :
    ∃ a', moveMedianToFirst lt n a r x y z = .ok a' ∧ PermOn r (z + 1) a a' ∧ ∃ u, r < u ∧ u ≤ z ∧ lt (a' u) (a' r) = false := by
  unfold moveMedianToFirst
  rw [rd_ok a (by omega), rd_ok a (by omega), rd_ok a (by omega)]
  simp only [bind, Except.bind]
  have go : ∀ w u, (w = x ∨ w = y ∨ w = z) → (u = x ∨ u = y ∨ u = z) → u ≠ w → lt (a u) (a w) = false →
      ∃ a', iterSwap n a r w = .ok a' ∧ PermOn r (z + 1) a a' ∧ ∃ u, r < u ∧ u ≤ z ∧ lt (a' u) (a' r) = false := by
    intro w u hw hu hne hlt
    refine ⟨swp a r w, iterSwap_ok a (by omega) (by omega), swp_perm a (by omega) (by omega), u, by omega, by omega, ?_⟩
    have e1 : swp a r w u = a u := by
      simp only [swp]; rw [if_neg hne, if_neg (by omega)]
    have e2 : swp a r w r = a w := by
      simp only [swp]; rw [if_neg (by omega)]; simp
    rw [e1, e2]; exact hlt
  split_ifs with h1 h2 h3 h4 h5
  · exact go y z (by omega) (by omega) (by omega) (hA _ _ h2)
  · exact go z y (by omega) (by omega) (by omega) (by simpa using h2)
  · exact go x y (by omega) (by omega) (by omega) (hA _ _ h1)
  · exact go x z (by omega) (by omega) (by omega) (hA _ _ h4)
  · exact go z x (by omega) (by omega) (by omega) (by simpa using h4)
  · exact go y x (by omega) (by omega) (by omega) (by simpa using h1)

theorem scanUp_ok {lt : α → α → Bool} {n : ℕ} (a : ℕ → α) {p u : ℕ} (hp : p < n) (hu : u < n) (hs : lt (a u) (a p) = false) :
    ∀ (fuel f : ℕ), f ≤ u → u < f + fuel →
      ∃ g, scanUp lt n a p fuel f = .ok g ∧ f ≤ g ∧ g ≤ u ∧ lt (a g) (a p) = false := by
  intro fuel
  induction fuel with
  | zero => intro f h1 h2; omega
  | succ fuel ih =>
    intro f h1 h2
    rw [scanUp, rd_ok a (by omega), rd_ok a hp]
    simp only [bind, Except.bind]
    split_ifs with h
    · have hne : f ≠ u := by rintro rfl; rw [hs] at h; exact absurd h (by simp)
      obtain ⟨g, hg, h3, h4, h5⟩ := ih (f + 1) (by omega) (by omega)
      exact ⟨g, hg, by omega, h4, h5⟩
    · exact ⟨f, rfl, le_rfl, h1, by simpa using h⟩

theorem scanDown_ok {lt : α → α → Bool} (hA : Asymm lt) {n : ℕ} (a : ℕ → α) {p : ℕ} :
    ∀ (l : ℕ), p ≤ l → l < n →
      ∃ g, scanDown lt n a p l = .ok g ∧ p ≤ g ∧ g ≤ l ∧ ∀ i, g < i → i ≤ l → lt (a i) (a p) = false := by
  intro l
  induction l with
  | zero =>
    intro hp hl
    obtain rfl : p = 0 := by omega
    rw [scanDown, rd_ok a hl]
    simp only [bind, Except.bind]
    rw [if_neg (by rw [hA.irrefl]; simp)]
    exact ⟨0, rfl, le_rfl, le_rfl, fun i h1 h2 => by omega⟩
  | succ l ih =>
    intro hp hl
    rw [scanDown, rd_ok a hl, rd_ok a (by omega)]
    simp only [bind, Except.bind]
    split_ifs with h
    · have hne : p ≠ l + 1 := by rintro rfl; rw [hA.irrefl] at h; exact absurd h (by simp)
      obtain ⟨g, hg, h1, h2, h3⟩ := ih (by omega) (by omega)
      refine ⟨g, hg, h1, by omega, fun i hi1 hi2 => ?_⟩
      by_cases e : i = l + 1
      · subst e; exact hA _ _ h
      · exact h3 i hi1 (by omega)
    · exact ⟨l + 1, rfl, hp, le_rfl, fun i h1 h2 => by omega⟩

theorem partition_ok {lt : α → α → Bool} (hA : Asymm lt) {n p L : ℕ} (hL : L ≤ n) :
    ∀ (fuel : ℕ) (a : ℕ → α) (f l : ℕ), p < f → f ≤ l → l ≤ L → L < f + fuel → (∃ u, f ≤ u ∧ u < L ∧ lt (a u) (a p) = false) →
      (∀ i, l ≤ i → i < L → lt (a i) (a p) = false) →
      ∃ a' c, unguardedPartition lt n fuel a f l p = .ok (a', c) ∧ PermOn (p + 1) L a a' ∧ f ≤ c ∧ c < L ∧
        ∀ i, c ≤ i → i < L → lt (a' i) (a' p) = false := by
  intro fuel
  induction fuel with
  | zero => intro a f l h1 h2 h3 h4; omega
  | succ fuel ih =>
    intro a f l hpf hfl hlL hfuel hu hR
    obtain ⟨u, hu1, hu2, hu3⟩ := hu
    obtain ⟨g, hg, hg1, hg2, hg3⟩ := scanUp_ok (n := n) a (p := p) (u := u) (by omega) (by omega) hu3 (n + 1) f hu1 (by omega)
    obtain ⟨d, hd, hd1, hd2, hd3⟩ := scanDown_ok hA (n := n) a (p := p) (l - 1) (by omega) (by omega)
    rw [unguardedPartition, hg]
    simp only [bind, Except.bind]
    rw [if_neg (by omega), hd]
    simp only []
    split_ifs with h
    · rw [iterSwap_ok a (by omega) (by omega)]
      simp only []
      have hperm := swp_perm (f := p + 1) (l := L) a (i := g) (j := d) (by omega) (by omega)
      have hp' : swp a g d p = a p := hperm.outside (by omega)
      have hdv : swp a g d d = a g := by simp [swp]
      obtain ⟨a', c, e, hP, hc1, hc2, hc3⟩ := ih (swp a g d) (g + 1) d (by omega) (by omega) (by omega) (by omega)
        ⟨d, by omega, by omega, by rw [hp', hdv]; exact hg3⟩
        (by
          intro i hi1 hi2
          rw [hp']
          by_cases e : i = d
          · rw [e, hdv]; exact hg3
          · have : swp a g d i = a i := by simp only [swp]; rw [if_neg e, if_neg (by omega)]
            rw [this]
            by_cases h' : i ≤ l - 1
            · exact hd3 i (by omega) h'
            · exact hR i (by omega) hi2)
      exact ⟨a', c, e, hperm.trans hP, by omega, hc2, hc3⟩
    · refine ⟨a, g, rfl, PermOn.refl _ _ _, hg1, by omega, fun i hi1 hi2 => ?_⟩
      by_cases e : i = g
      · rw [e]; exact hg3
      · by_cases h' : i ≤ l - 1
        · exact hd3 i (by omega) h'
        · exact hR i (by omega) hi2

theorem partitionPivot_ok {lt : α → α → Bool} (hA : Asymm lt) {n f l : ℕ} (hl : l ≤ n) (hs : 16 < l - f) (a : ℕ → α) :
    ∃ a' c, unguardedPartitionPivot lt n a f l = .ok (a', c) ∧ PermOn f l a a' ∧ f < c ∧ c < l ∧
      ∀ i, c ≤ i → i < l → lt (a' i) (a' f) = false := by
  obtain ⟨a1, h1, hP1, u, hu1, hu2, hu3⟩ := median_ok hA (n := n) a (r := f) (x := f + 1) (y := f + (l - f) / 2) (z := l - 1)
    (by omega) (by omega) (by omega) (by omega)
  obtain ⟨a2, c, h2, hP2, hc1, hc2, hc3⟩ := partition_ok hA (n := n) (p := f) (L := l) hl (n + 1) a1 (f + 1) l (by omega) (by omega) le_rfl
    (by omega) ⟨u, by omega, by omega, hu3⟩ (fun i h1 h2 => by omega)
  refine ⟨a2, c, ?_, (hP1.mono le_rfl (by omega)).trans (hP2.mono (by omega) le_rfl), by omega, hc2, hc3⟩
  unfold unguardedPartitionPivot
  simp only [bind, Except.bind]
  rw [h1]
  exact h2

/-! ### heap -/

theorem pushHeap_ok {lt : α → α → Bool} {n f len top : ℕ} (hn : f + len ≤ n) (value : α) :
    ∀ (fuel : ℕ) (a : ℕ → α) (hole : ℕ), hole < len → hole < fuel →
      ∃ c, pushHeap lt n f top value fuel a hole = .ok c ∧ PermOn f (f + len) (put a (f + hole) value) c ∧
        (top = 0 → 0 < hole → c f = a f ∨ (c f = value ∧ lt (a f) value = true ∧ ∃ p, f < p ∧ p < f + len ∧ c p = a f)) ∧
        (top = 0 → hole = 1 → lt (a f) value = false → c (f + 1) = value ∧ c f = a f) := by
  intro fuel
  induction fuel with
  | zero => intro a hole _ h; omega
  | succ fuel ih =>
    intro a hole hl hf
    have stop : ∃ c, wr n a (f + hole) value = .ok c ∧ PermOn f (f + len) (put a (f + hole) value) c ∧
        (top = 0 → 0 < hole → c f = a f ∨ (c f = value ∧ lt (a f) value = true ∧ ∃ p, f < p ∧ p < f + len ∧ c p = a f)) ∧
        (top = 0 → hole = 1 → lt (a f) value = false → c (f + 1) = value ∧ c f = a f) := by
      refine ⟨put a (f + hole) value, wr_ok _ _ (by omega), PermOn.refl _ _ _, fun _ h => Or.inl ?_, fun _ h _ => ⟨?_, ?_⟩⟩
      · simp only [put]; rw [if_neg (by omega)]
      · subst h; simp [put]
      · subst h; simp [put]
    rw [pushHeap]
    split_ifs with h1
    · rw [rd_ok a (by omega)]
      simp only [bind, Except.bind]
      split_ifs with h2
      · rw [wr_ok _ _ (by omega)]
        simp only []
        obtain ⟨c, e, hP, hroot, hone⟩ := ih (put a (f + hole) (a (f + (hole - 1) / 2))) ((hole - 1) / 2) (by omega) (by omega)
        refine ⟨c, e, ?_, ?_, ?_⟩
        · rw [hole_move a (by omega)] at hP
          exact (swp_perm _ (by omega) (by omega)).trans hP
        · intro ht hh
          have hf0 : put a (f + hole) (a (f + (hole - 1) / 2)) f = a f := by simp only [put]; rw [if_neg (by omega)]
          by_cases hq : (hole - 1) / 2 = 0
          · rw [hq] at e h2
            rw [ht] at e
            right
            cases fuel with
            | zero => omega
            | succ fuel =>
              rw [pushHeap] at e
              simp only [Nat.lt_irrefl, if_false] at e
              rw [wr_ok _ _ (by omega)] at e
              have := Except.ok.inj e
              subst this
              refine ⟨by simp [put], by simpa using h2, f + hole, by omega, by omega, ?_⟩
              simp [put]
              omega
          · rcases hroot ht (by omega) with h3 | h3
            · left; rw [h3, hf0]
            · right; rw [hf0] at h3; exact h3
        · intro ht hh hlt
          subst hh
          simp at h2
          rw [h2] at hlt; simp at hlt
      · exact stop
    · exact stop

theorem siftDown_ok {lt : α → α → Bool} {n f len : ℕ} (hn : f + len ≤ n) (value : α) :
    ∀ (fuel : ℕ) (a : ℕ → α) (hole : ℕ), hole < len → len < hole + fuel →
      ∃ c h', siftDown lt n f len fuel a hole = .ok (c, h') ∧ hole ≤ h' ∧ h' < len ∧ (len - 1) / 2 ≤ h' ∧
        PermOn f (f + len) (put a (f + hole) value) (put c (f + h') value) ∧ (∀ i, i < f + hole → c i = a i) := by
  intro fuel
  induction fuel with
  | zero => intro a hole h1 h2; omega
  | succ fuel ih =>
    intro a hole h1 h2
    rw [siftDown]
    split_ifs with h
    · simp only [bind, Except.bind]
      rw [rd_ok a (by omega), rd_ok a (by omega)]
      simp only []
      have hs : ∃ s, (if lt (a (f + 2 * (hole + 1))) (a (f + (2 * (hole + 1) - 1))) = true then 2 * (hole + 1) - 1 else 2 * (hole + 1)) = s ∧
          hole < s ∧ s < len := by
        refine ⟨_, rfl, ?_, ?_⟩ <;> split_ifs <;> omega
      obtain ⟨s, hs1, hs2, hs3⟩ := hs
      rw [hs1, rd_ok a (by omega)]
      simp only []
      rw [wr_ok _ _ (by omega)]
      simp only []
      obtain ⟨c, h', e, g1, g2, g3, g4, g5⟩ := ih (put a (f + hole) (a (f + s))) s hs3 (by omega)
      refine ⟨c, h', e, by omega, g2, g3, ?_, ?_⟩
      · rw [hole_move a (by omega)] at g4
        exact (swp_perm _ (by omega) (by omega)).trans g4
      · intro i hi
        rw [g5 i (by omega)]
        simp only [put]; rw [if_neg (by omega)]
    · exact ⟨a, hole, rfl, le_rfl, h1, by omega, PermOn.refl _ _ _, fun _ _ => rfl⟩


/-- `__adjust_heap` up to its last call. -/
theorem descend_ok {lt : α → α → Bool} (hA : Asymm lt) {n f len hole : ℕ} (hn : f + len ≤ n) (hh : hole < len) (a : ℕ → α) (value : α) :
    ∃ a2 h2, adjustHeap lt n a f hole len value = pushHeap lt n f hole value (h2 + 1) a2 h2 ∧ h2 < len ∧
      PermOn f (f + len) (put a (f + hole) value) (put a2 (f + h2) value) ∧
      (hole = 0 → 2 ≤ len → 0 < h2 ∧ ((len = 2 ∧ h2 = 1) ∨
        ∃ s o, 0 < s ∧ s < len ∧ 0 < o ∧ o < len ∧ s ≠ o ∧ a2 f = a (f + s) ∧ lt (a (f + s)) (a (f + o)) = false)) := by
  obtain ⟨c, h', e, g1, g2, g3, g4, g5⟩ := siftDown_ok (lt := lt) (f := f) (len := len) hn value (len + 1) a hole hh (by omega)
  -- what the first step does at the root
  have hroot : hole = 0 → 3 ≤ len → 0 < h' ∧
      ∃ s o, 0 < s ∧ s < len ∧ 0 < o ∧ o < len ∧ s ≠ o ∧ c f = a (f + s) ∧ lt (a (f + s)) (a (f + o)) = false := by
    intro h0 h3
    subst h0
    rw [siftDown, if_pos (by omega)] at e
    simp only [bind, Except.bind] at e
    rw [rd_ok a (by omega), rd_ok a (by omega)] at e
    simp only [] at e
    have key : ∀ s o, 0 < s → s < len → 0 < o → o < len → s ≠ o → lt (a (f + s)) (a (f + o)) = false →
        siftDown lt n f len len (put a (f + 0) (a (f + s))) s = .ok (c, h') →
        0 < h' ∧ ∃ s o, 0 < s ∧ s < len ∧ 0 < o ∧ o < len ∧ s ≠ o ∧ c f = a (f + s) ∧ lt (a (f + s)) (a (f + o)) = false := by
      intro s o hs hs' ho ho' hne hlt he
      obtain ⟨c', h'', e', k1, k2, k3, k4, k5⟩ := siftDown_ok (lt := lt) (f := f) (len := len) hn value len (put a (f + 0) (a (f + s))) s hs' (by omega)
      rw [e'] at he
      obtain ⟨rfl, rfl⟩ := Prod.mk.inj (Except.ok.inj he)
      refine ⟨by omega, s, o, hs, hs', ho, ho', hne, ?_, hlt⟩
      rw [k5 f (by omega)]; simp [put]
    by_cases hc : lt (a (f + 2 * (0 + 1))) (a (f + (2 * (0 + 1) - 1))) = true
    · rw [if_pos hc, rd_ok a (by omega)] at e
      simp only [] at e
      rw [wr_ok _ _ (by omega)] at e
      exact key 1 2 (by omega) (by omega) (by omega) (by omega) (by omega) (hA _ _ hc) e
    · rw [if_neg hc, rd_ok a (by omega)] at e
      simp only [] at e
      rw [wr_ok _ _ (by omega)] at e
      exact key 2 1 (by omega) (by omega) (by omega) (by omega) (by omega) (by simpa using hc) e
  unfold adjustHeap
  simp only [bind, Except.bind]
  rw [e]
  simp only []
  split_ifs with h
  · rw [rd_ok c (by omega)]
    simp only []
    rw [wr_ok _ _ (by omega)]
    refine ⟨put c (f + h') (c (f + (2 * (h' + 1) - 1))), 2 * (h' + 1) - 1, rfl, by omega, ?_, ?_⟩
    · rw [hole_move c (by omega)]
      exact g4.trans (swp_perm _ (by omega) (by omega))
    · intro h0 h2
      refine ⟨by omega, ?_⟩
      by_cases h3 : 3 ≤ len
      · right
        obtain ⟨hp, s, o, q1, q2, q3, q4, q5, q6, q7⟩ := hroot h0 h3
        refine ⟨s, o, q1, q2, q3, q4, q5, ?_, q7⟩
        rw [← q6]; simp only [put]; rw [if_neg (by omega)]
      · left; omega
  · refine ⟨c, h', rfl, g2, g4, ?_⟩
    intro h0 h2
    have h3 : 3 ≤ len := by
      by_contra hc
      have hl2 : len = 2 := by omega
      subst hl2 h0
      rw [siftDown, if_neg (by omega)] at e
      have := (Prod.mk.inj (Except.ok.inj e)).2
      omega
    obtain ⟨hp, q⟩ := hroot h0 h3
    exact ⟨hp, Or.inr q⟩

theorem adjustHeap_ok {lt : α → α → Bool} (hA : Asymm lt) {n f len hole : ℕ} (hn : f + len ≤ n) (hh : hole < len) (a : ℕ → α) (value : α) :
    ∃ c, adjustHeap lt n a f hole len value = .ok c ∧ PermOn f (f + len) (put a (f + hole) value) c ∧
      (hole = 0 → 2 ≤ len → ∃ p, f < p ∧ p < f + len ∧ lt (c f) (c p) = false) := by
  obtain ⟨a2, h2, e, hlt, hP, hroot⟩ := descend_ok hA hn hh a value
  obtain ⟨c, e', hP', hr, h1⟩ := pushHeap_ok (lt := lt) (top := hole) hn value (h2 + 1) a2 h2 hlt (by omega)
  refine ⟨c, e.trans e', hP.trans hP', ?_⟩
  intro h0 hl
  obtain ⟨hpos, hcase⟩ := hroot h0 hl
  rcases hr h0 hpos with hc | ⟨hc1, hc2, p, hp1, hp2, hp3⟩
  · rcases hcase with ⟨hl2, hh2⟩ | ⟨s, o, q1, q2, q3, q4, q5, q6, q7⟩
    · by_cases hv : lt (a2 f) value = true
      · -- the value has moved up, and yet the root is unchanged
        obtain ⟨p, hp, ep⟩ := hP'.target (j := f + h2) (by omega)
        obtain ⟨p', hp', ep'⟩ := hP'.target (j := f) (by omega)
        have e1 : put a2 (f + h2) value (f + h2) = value := by simp [put]
        have e2 : put a2 (f + h2) value f = a2 f := by simp only [put]; rw [if_neg (by omega)]
        rw [e1] at ep
        rw [e2] at ep'
        by_cases hpf : p = f
        · subst hpf
          rw [← ep, ← hc] at hv
          rw [hA.irrefl] at hv; simp at hv
        · -- cannot be excluded from here; use the comparison in `pushHeap`
          exfalso
          have hpe : p = f + 1 := by omega
          rw [pushHeap, if_pos (by omega)] at e'
          subst hh2
          rw [rd_ok a2 (by omega)] at e'
          simp only [bind, Except.bind] at e'
          rw [if_pos (by simpa using hv), wr_ok _ _ (by omega)] at e'
          simp only [] at e'
          rw [pushHeap, h0, if_neg (by omega), wr_ok _ _ (by omega)] at e'
          have := Except.ok.inj e'
          have hcv : c f = value := by rw [← this]; simp [put]
          rw [hcv] at hc
          rw [← hc] at hv
          rw [hA.irrefl] at hv; simp at hv
      · obtain ⟨k1, k2⟩ := h1 h0 hh2 (by simpa using hv)
        exact ⟨f + 1, by omega, by omega, by rw [k1, k2]; simpa using hv⟩
    · subst h0
      have hPP := hP.trans hP'
      obtain ⟨i, hi, ei⟩ := hPP.target (j := f + o) (by omega)
      obtain ⟨j, hj, ej⟩ := hPP.target (j := f + s) (by omega)
      have e1 : put a (f + 0) value (f + o) = a (f + o) := by simp only [put]; rw [if_neg (by omega)]
      have e2 : put a (f + 0) value (f + s) = a (f + s) := by simp only [put]; rw [if_neg (by omega)]
      rw [e1] at ei
      rw [e2] at ej
      by_cases hif : i = f
      · by_cases hjf : j = f
        · -- both are at the root: impossible, because the rearrangement is injective
          obtain ⟨σ, hσ, rfl⟩ := hPP
          have key : σ.symm (f + o) ≠ f ∨ σ.symm (f + s) ≠ f := by
            by_cases k1 : σ.symm (f + o) = f
            · right
              intro k2
              exact q5 (Nat.add_left_cancel (σ.symm.injective (k1.trans k2.symm))).symm
            · exact Or.inl k1
          have inr : ∀ k, f ≤ k ∧ k < f + len → f ≤ σ.symm k ∧ σ.symm k < f + len := by
            intro k hk
            by_contra hcon
            have := hσ _ hcon
            rw [Equiv.apply_symm_apply] at this
            rw [← this] at hcon
            exact hcon hk
          have hcf : (put a (f + 0) value ∘ σ) f = a (f + s) := by rw [hc, q6]
          rcases key with k | k
          · have := inr (f + o) (by omega)
            refine ⟨σ.symm (f + o), by omega, by omega, ?_⟩
            rw [hcf, Function.comp_apply, Equiv.apply_symm_apply, e1]; exact q7
          · have := inr (f + s) (by omega)
            refine ⟨σ.symm (f + s), by omega, by omega, ?_⟩
            rw [hcf, Function.comp_apply, Equiv.apply_symm_apply, e2]; exact hA.irrefl _
        · exact ⟨j, by omega, by omega, by rw [hc, q6, ej]; exact hA.irrefl _⟩
      · exact ⟨i, by omega, by omega, by rw [hc, q6, ei]; exact q7⟩
  · exact ⟨p, hp1, hp2, by rw [hc1, hp3]; exact hA _ _ hc2⟩

theorem makeHeapLoop_ok {lt : α → α → Bool} (hA : Asymm lt) {n f len : ℕ} (hn : f + len ≤ n) (hl : 2 ≤ len) :
    ∀ (parent : ℕ) (a : ℕ → α), parent < len →
      ∃ c, makeHeapLoop lt n f len parent a = .ok c ∧ PermOn f (f + len) a c ∧ ∃ p, f < p ∧ p < f + len ∧ lt (c f) (c p) = false := by
  intro parent
  induction parent with
  | zero =>
    intro a h
    obtain ⟨c, e, hP, hr⟩ := adjustHeap_ok hA hn (hole := 0) (by omega) a (a (f + 0))
    rw [put_self] at hP
    refine ⟨c, ?_, hP, hr rfl hl⟩
    rw [makeHeapLoop, rd_ok a (by omega)]
    exact e
  | succ parent ih =>
    intro a h
    obtain ⟨c, e, hP, -⟩ := adjustHeap_ok hA hn (hole := parent + 1) h a (a (f + (parent + 1)))
    rw [put_self] at hP
    obtain ⟨c', e', hP', hr⟩ := ih c (by omega)
    refine ⟨c', ?_, hP.trans hP', hr⟩
    rw [makeHeapLoop, rd_ok a (by omega)]
    simp only [bind, Except.bind]
    rw [e]
    exact e'

theorem popHeap_ok {lt : α → α → Bool} (hA : Asymm lt) {n f k : ℕ} (hk : f < k) (hn : k < n) (a : ℕ → α)
    (hr : ∃ p, f < p ∧ p ≤ k ∧ lt (a f) (a p) = false) :
    ∃ c, popHeap lt n a f k k = .ok c ∧ PermOn f (k + 1) a c ∧ (∃ j, f ≤ j ∧ j < k ∧ lt (c k) (c j) = false) ∧
      (f + 1 < k → ∃ p, f < p ∧ p < k ∧ lt (c f) (c p) = false) := by
  obtain ⟨c, e, hP, hroot⟩ := adjustHeap_ok hA (n := n) (f := f) (len := k - f) (hole := 0) (by omega) (by omega) (put a k (a f)) (a k)
  rw [show f + (k - f) = k by omega] at hP hroot
  have hswap : put (put a k (a f)) (f + 0) (a k) = swp a f k := by
    funext i
    simp only [put, swp, Nat.add_zero]
    by_cases h1 : i = k
    · rw [if_pos h1, if_pos h1, if_neg (by omega)]
    · rw [if_neg h1, if_neg h1]
  rw [hswap] at hP
  have hsk : c k = a f := by
    rw [hP.outside (by omega)]; simp [swp]
  refine ⟨c, ?_, (swp_perm a (by omega) (by omega)).trans (hP.mono le_rfl (by omega)), ?_, fun h => hroot rfl (by omega)⟩
  · unfold popHeap
    rw [rd_ok a hn, rd_ok a (by omega)]
    simp only [bind, Except.bind]
    rw [wr_ok _ _ hn]
    exact e
  · obtain ⟨p, hp1, hp2, hp3⟩ := hr
    by_cases hpk : p = k
    · obtain ⟨j, hj, ej⟩ := hP.target (j := f) (by omega)
      refine ⟨j, hj.1, hj.2, ?_⟩
      rw [hsk, ej]
      have : swp a f k f = a k := by simp only [swp]; rw [if_neg (by omega)]; simp
      rw [this, ← hpk]; exact hp3
    · obtain ⟨j, hj, ej⟩ := hP.target (j := p) (by omega)
      refine ⟨j, hj.1, hj.2, ?_⟩
      rw [hsk, ej]
      have : swp a f k p = a p := by simp only [swp]; rw [if_neg hpk, if_neg (by omega)]
      rw [this]; exact hp3

theorem sortHeap_ok {lt : α → α → Bool} (hA : Asymm lt) {n f : ℕ} :
    ∀ (len : ℕ) (a : ℕ → α), f + len ≤ n → (2 ≤ len → ∃ p, f < p ∧ p < f + len ∧ lt (a f) (a p) = false) →
      ∃ c, sortHeap lt n f len a = .ok c ∧ PermOn f (f + len) a c ∧
        ∀ i, f < i → i < f + len → ∃ j, f ≤ j ∧ j < i ∧ lt (c i) (c j) = false := by
  intro len
  induction len with
  | zero => intro a _ _; exact ⟨a, rfl, PermOn.refl _ _ _, fun i h1 h2 => by omega⟩
  | succ len ih =>
    intro a hn hr
    rw [sortHeap]
    split_ifs with h
    · obtain ⟨p, hp1, hp2, hp3⟩ := hr (by omega)
      obtain ⟨b, e, hP, ⟨j, hj1, hj2, hj3⟩, hroot⟩ := popHeap_ok hA (n := n) (f := f) (k := f + len) (by omega) (by omega) a
        ⟨p, hp1, by omega, hp3⟩
      obtain ⟨c, e', hP', hc⟩ := ih b (by omega) (fun h2 => hroot (by omega))
      refine ⟨c, ?_, hP.trans (hP'.mono le_rfl (by omega)), ?_⟩
      · simp only [bind, Except.bind]
        rw [e]
        exact e'
      · intro i hi1 hi2
        by_cases hi : i = f + len
        · obtain ⟨j', hj', ej'⟩ := hP'.target (j := j) (by omega)
          refine ⟨j', hj'.1, by omega, ?_⟩
          rw [hi, hP'.outside (by omega), ej']
          exact hj3
        · exact hc i hi1 (by omega)
    · exact ⟨a, rfl, PermOn.refl _ _ _, fun i h1 h2 => by omega⟩

theorem partialSort_ok {lt : α → α → Bool} (hA : Asymm lt) {n f l : ℕ} (hs : f + 2 ≤ l) (hl : l ≤ n) (a : ℕ → α) :
    ∃ c, partialSort lt n a f l = .ok c ∧ PermOn f l a c ∧ ∀ i, f < i → i < l → ∃ j, f ≤ j ∧ j < i ∧ lt (c i) (c j) = false := by
  obtain ⟨b, e, hP, hr⟩ := makeHeapLoop_ok hA (n := n) (f := f) (len := l - f) (by omega) (by omega) ((l - f - 2) / 2) a (by omega)
  obtain ⟨c, e', hP', hc⟩ := sortHeap_ok hA (n := n) (f := f) (l - f) b (by omega) (fun _ => hr)
  rw [show f + (l - f) = l by omega] at hP hP' hc
  refine ⟨c, ?_, hP.trans hP', hc⟩
  unfold partialSort makeHeap
  rw [if_neg (by omega)]
  simp only [bind, Except.bind]
  rw [e]
  exact e'

/-- After the introsort loop every element but the first 16 has one before it that it is not below. -/
theorem introsortLoop_ok {lt : α → α → Bool} (hA : Asymm lt) {n : ℕ} :
    ∀ (fuel depth : ℕ) (a : ℕ → α) (f l : ℕ), l ≤ n → l < f + fuel → f ≤ l →
      ∃ c, introsortLoop lt n fuel depth a f l = .ok c ∧ PermOn f l a c ∧
        ∀ i, f + 16 ≤ i → i < l → ∃ j, f ≤ j ∧ j < i ∧ lt (c i) (c j) = false := by
  intro fuel
  induction fuel with
  | zero => intro depth a f l h1 h2 h3; omega
  | succ fuel ih =>
    intro depth a f l hl hf hfl
    rw [introsortLoop]
    split_ifs with h1 h2
    · obtain ⟨c, e, hP, hc⟩ := partialSort_ok hA (f := f) (l := l) (by omega) hl a
      exact ⟨c, e, hP, fun i hi1 hi2 => hc i (by omega) hi2⟩
    · obtain ⟨a1, cut, e1, hP1, hc1, hc2, hc3⟩ := partitionPivot_ok hA hl h1 a
      obtain ⟨a2, e2, hP2, -⟩ := ih (depth - 1) a1 cut l hl (by omega) (by omega)
      obtain ⟨a3, e3, hP3, hq⟩ := ih (depth - 1) a2 f cut (by omega) (by omega) (by omega)
      refine ⟨a3, ?_, (hP1.trans (hP2.mono (by omega) le_rfl)).trans (hP3.mono le_rfl (by omega)), ?_⟩
      · simp only [bind, Except.bind]
        rw [e1]
        simp only []
        rw [e2]
        exact e3
      · intro i hi1 hi2
        by_cases hi : i < cut
        · exact hq i hi1 hi
        · obtain ⟨i', hi', ei'⟩ := hP2.source (i := i) (by omega)
          obtain ⟨j, hj, ej⟩ := hP3.target (j := f) (by omega)
          refine ⟨j, hj.1, by omega, ?_⟩
          rw [hP3.outside (by omega), ei', ej, hP2.outside (by omega)]
          exact hc3 i' hi'.1 hi'.2
    · exact ⟨a, rfl, PermOn.refl _ _ _, fun i hi1 hi2 => by omega⟩


/-! ### insertion sort -/

/-- The element `val` is put at `p`, and the elements of `[p, i)` move up by one. -/
def rot (a : ℕ → α) (p i : ℕ) (val : α) : ℕ → α := fun k => if k = p then val else if p < k ∧ k ≤ i then a (k - 1) else a k

theorem rot_perm : ∀ (i p : ℕ) (a : ℕ → α), p ≤ i → PermOn p (i + 1) a (rot a p i (a i)) := by
  intro i
  induction i with
  | zero =>
    intro p a h
    obtain rfl : p = 0 := by omega
    have : rot a 0 0 (a 0) = a := by
      funext k; simp only [rot]; split_ifs with h1 h2
      · rw [h1]
      · omega
      · rfl
    rw [this]; exact PermOn.refl _ _ _
  | succ i ih =>
    intro p a h
    by_cases hp : p = i + 1
    · have : rot a p (i + 1) (a (i + 1)) = a := by
        funext k; simp only [rot]; split_ifs with h1 h2
        · rw [h1, hp]
        · omega
        · rfl
      rw [this]; exact PermOn.refl _ _ _
    · have h1 := ih p (swp a i (i + 1)) (by omega)
      have h2 : rot (swp a i (i + 1)) p i (swp a i (i + 1) i) = rot a p (i + 1) (a (i + 1)) := by
        funext k
        simp only [rot, swp]
        by_cases e1 : k = p
        · simp [e1]
        · rw [if_neg e1, if_neg e1]
          by_cases e2 : p < k ∧ k ≤ i
          · have e4 : p < k ∧ k ≤ i + 1 := by omega
            have e5 : ¬ (k - 1 = i) := by omega
            have e6 : ¬ (k - 1 = i + 1) := by omega
            simp only [e2, e4, e5, e6, and_self, if_true, if_false]
          · rw [if_neg e2]
            by_cases e3 : k = i + 1
            · have e4 : p < k ∧ k ≤ i + 1 := by omega
              have e5 : ¬ (i + 1 = i) := by omega
              rw [if_pos e4, e3]; simp
            · rw [if_neg e3, if_neg (by omega), if_neg (by omega)]
      rw [h2] at h1
      exact (swp_perm a (by omega) (by omega)).trans (h1.mono le_rfl (by omega))

theorem linearInsert_ok {lt : α → α → Bool} {n : ℕ} (val : α) :
    ∀ (last : ℕ) (a : ℕ → α), last < n → (∃ j, j < last ∧ lt val (a j) = false) →
      ∃ p, linearInsert lt n val last a = .ok (rot a p last val) ∧ 0 < p ∧ p ≤ last ∧ lt val (a (p - 1)) = false ∧
        ∀ k, p ≤ k → k < last → lt val (a k) = true := by
  intro last
  induction last with
  | zero => rintro a _ ⟨j, hj, _⟩; omega
  | succ last ih =>
    rintro a hn ⟨j, hj, hlt⟩
    rw [linearInsert, rd_ok a (by omega)]
    simp only [bind, Except.bind]
    split_ifs with h
    · rw [wr_ok _ _ hn]
      simp only []
      have hne : j ≠ last := by rintro rfl; rw [hlt] at h; simp at h
      have hput : ∀ k, k ≤ last → put a (last + 1) (a last) k = a k := by
        intro k hk; simp only [put]; rw [if_neg (by omega)]
      obtain ⟨p, e, h1, h2, h3, h4⟩ := ih (put a (last + 1) (a last)) (by omega) ⟨j, by omega, by rw [hput j (by omega)]; exact hlt⟩
      refine ⟨p, ?_, h1, by omega, by rw [← hput (p - 1) (by omega)]; exact h3, ?_⟩
      · rw [e]
        congr 1
        funext k
        simp only [rot]
        by_cases e1 : k = p
        · simp [e1]
        · rw [if_neg e1, if_neg e1]
          by_cases e2 : p < k ∧ k ≤ last
          · rw [if_pos e2, if_pos ⟨e2.1, by omega⟩, hput _ (by omega)]
          · rw [if_neg e2]
            by_cases e3 : k = last + 1
            · rw [if_pos ⟨by omega, by omega⟩, e3]; simp [put]
            · rw [if_neg (by omega)]; simp only [put]; rw [if_neg e3]
      · intro k hk1 hk2
        by_cases e : k = last
        · rw [e]; exact h
        · rw [← hput k (by omega)]; exact h4 k hk1 (by omega)
    · refine ⟨last + 1, ?_, by omega, le_rfl, by simpa using h, fun k h1 h2 => by omega⟩
      rw [wr_ok _ _ hn]
      congr 1
      funext k
      simp only [rot, put]
      split_ifs with e1 e2
      · rfl
      · omega
      · rfl

theorem moveBackward_ok {n : ℕ} : ∀ (k : ℕ) (a : ℕ → α) (last : ℕ), k ≤ last → last < n →
    moveBackward n k a last = .ok (fun j => if last - k < j ∧ j ≤ last then a (j - 1) else a j) := by
  intro k
  induction k with
  | zero =>
    intro a last _ _
    rw [moveBackward]
    congr 1
    funext j
    rw [if_neg (by omega)]
  | succ k ih =>
    intro a last h1 h2
    rw [moveBackward, rd_ok a (by omega)]
    simp only [bind, Except.bind]
    rw [wr_ok _ _ h2]
    simp only []
    rw [ih _ _ (by omega) (by omega)]
    congr 1
    funext j
    by_cases e : j = last
    · rw [if_neg (by omega), if_pos (by omega), e]; simp [put]
    · by_cases e2 : last - 1 - k < j ∧ j ≤ last - 1
      · rw [if_pos e2, if_pos (by omega)]; simp only [put]; rw [if_neg (by omega)]
      · rw [if_neg e2, if_neg (by omega)]; simp only [put]; rw [if_neg e]

/-- The order "not greater" is transitive on the first `n` elements. -/
def TransOn (lt : α → α → Bool) (n : ℕ) (a : ℕ → α) : Prop :=
  ∀ i j k, i < n → j < n → k < n → lt (a j) (a i) = false → lt (a k) (a j) = false → lt (a k) (a i) = false

theorem TransOn.perm {lt : α → α → Bool} {n m : ℕ} {a b : ℕ → α} (h : TransOn lt n a) (hP : PermOn 0 m a b) (hm : m ≤ n) :
    TransOn lt n b := by
  have src : ∀ i, i < n → ∃ j, j < n ∧ b i = a j := by
    intro i hi
    obtain ⟨j, hj, e⟩ := (hP.mono (f' := 0) le_rfl hm).source (i := i) (by omega)
    exact ⟨j, hj.2, e⟩
  intro i j k hi hj hk h1 h2
  obtain ⟨i', hi', ei⟩ := src i hi
  obtain ⟨j', hj', ej⟩ := src j hj
  obtain ⟨k', hk', ek⟩ := src k hk
  rw [ei, ej] at h1
  rw [ej, ek] at h2
  rw [ei, ek]
  exact h i' j' k' hi' hj' hk' h1 h2

/-- The first `m` elements are in order. -/
def SortedTo (lt : α → α → Bool) (a : ℕ → α) (m : ℕ) : Prop := ∀ i j, i < j → j < m → lt (a j) (a i) = false

theorem sorted_rot {lt : α → α → Bool} {n i p : ℕ} {a : ℕ → α} (hT : TransOn lt n a) (hi : i < n) (hs : SortedTo lt a i) (hp : p ≤ i)
    (h1 : p = 0 ∨ lt (a i) (a (p - 1)) = false) (h2 : ∀ k, p ≤ k → k < i → lt (a k) (a i) = false) :
    SortedTo lt (rot a p i (a i)) (i + 1) := by
  have below : ∀ k, k < p → lt (a i) (a k) = false := by
    intro k hk
    rcases h1 with h | h
    · omega
    · by_cases e : k = p - 1
      · rw [e]; exact h
      · exact hT k (p - 1) i (by omega) (by omega) hi (hs k (p - 1) (by omega) (by omega)) h
  have rlo : ∀ k, k < p → rot a p i (a i) k = a k := by
    intro k hk; simp only [rot]; rw [if_neg (by omega), if_neg (by omega)]
  have rhi : ∀ k, p < k → k ≤ i → rot a p i (a i) k = a (k - 1) := by
    intro k hk hk2; simp only [rot]; rw [if_neg (by omega), if_pos ⟨hk, hk2⟩]
  have req : rot a p i (a i) p = a i := by simp [rot]
  intro x y hxy hy
  rcases lt_trichotomy x p with x1 | x1 | x1
  · rw [rlo x x1]
    rcases lt_trichotomy y p with y1 | y1 | y1
    · rw [rlo y y1]; exact hs x y hxy (by omega)
    · rw [y1, req]; exact below x x1
    · rw [rhi y y1 (by omega)]; exact hs x (y - 1) (by omega) (by omega)
  · rw [x1, req, rhi y (by omega) (by omega)]
    exact h2 (y - 1) (by omega) (by omega)
  · rw [rhi x x1 (by omega), rhi y (by omega) (by omega)]
    exact hs (x - 1) (y - 1) (by omega) (by omega)

theorem unguardedLinearInsert_ok {lt : α → α → Bool} (hA : Asymm lt) {n i : ℕ} (hi : i < n) (a : ℕ → α)
    (h : ∃ j, j < i ∧ lt (a i) (a j) = false) :
    ∃ c, unguardedLinearInsert lt n a i = .ok c ∧ PermOn 0 (i + 1) a c ∧ (TransOn lt n a → SortedTo lt a i → SortedTo lt c (i + 1)) := by
  obtain ⟨p, e, h1, h2, h3, h4⟩ := linearInsert_ok (n := n) (a i) i a hi h
  refine ⟨_, ?_, (rot_perm i p a h2).mono (by omega) le_rfl, fun hT hs => sorted_rot hT hi hs h2 (Or.inr h3)
    (fun k hk1 hk2 => hA _ _ (h4 k hk1 hk2))⟩
  unfold unguardedLinearInsert
  rw [rd_ok a hi]
  exact e

theorem insertionLoop_ok {lt : α → α → Bool} (hA : Asymm lt) {n : ℕ} :
    ∀ (k : ℕ) (a : ℕ → α) (i : ℕ), 1 ≤ i → i + k ≤ n →
      ∃ c, insertionLoop lt n 0 k a i = .ok c ∧ PermOn 0 (i + k) a c ∧ (TransOn lt n a → SortedTo lt a i → SortedTo lt c (i + k)) := by
  intro k
  induction k with
  | zero => intro a i _ _; exact ⟨a, rfl, PermOn.refl _ _ _, fun _ h => h⟩
  | succ k ih =>
    intro a i h1 hn
    have step : ∃ b, (∀ (g : (ℕ → α) → S (ℕ → α)), (do
          let x ← rd n a i
          let y ← rd n a 0
          if lt x y then do
            let val ← rd n a i
            let a ← moveBackward n (i - 0) a i
            let a ← wr n a 0 val
            g a
          else do
            let a ← unguardedLinearInsert lt n a i
            g a) = g b) ∧ PermOn 0 (i + 1) a b ∧ (TransOn lt n a → SortedTo lt a i → SortedTo lt b (i + 1)) := by
      by_cases h : lt (a i) (a 0) = true
      · refine ⟨rot a 0 i (a i), fun g => ?_, rot_perm i 0 a (by omega), fun hT hs => sorted_rot hT (by omega) hs (by omega) (Or.inl rfl) ?_⟩
        · rw [rd_ok a (by omega), rd_ok a (by omega)]
          simp only [bind, Except.bind]
          rw [if_pos h, moveBackward_ok _ _ _ (by omega) (by omega)]
          simp only []
          rw [wr_ok _ _ (by omega)]
          simp only []
          congr 1
          funext j
          simp only [put, rot]
          split_ifs <;> first | rfl | omega
        · intro k _ hk
          by_cases e : k = 0
          · rw [e]; exact hA _ _ h
          · exact hT i 0 k (by omega) (by omega) (by omega) (hA _ _ h) (hs 0 k (by omega) hk)
      · obtain ⟨b, e, hP, hs⟩ := unguardedLinearInsert_ok hA (n := n) (i := i) (by omega) a ⟨0, by omega, by simpa using h⟩
        refine ⟨b, fun g => ?_, hP, hs⟩
        rw [rd_ok a (by omega), rd_ok a (by omega)]
        simp only [bind, Except.bind]
        rw [if_neg h, e]
    obtain ⟨b, e, hP, hs⟩ := step
    obtain ⟨c, e', hP', hs'⟩ := ih b (i + 1) (by omega) (by omega)
    refine ⟨c, ?_, (hP.mono le_rfl (by omega)).trans (by rw [show i + (k + 1) = i + 1 + k by omega]; exact hP'), ?_⟩
    · rw [insertionLoop]
      exact (e fun a => insertionLoop lt n 0 k a (i + 1)).trans e'
    · intro hT hso
      rw [show i + (k + 1) = i + 1 + k by omega]
      exact hs' (hT.perm hP (by omega)) (hs hT hso)

theorem unguardedInsertionSort_ok {lt : α → α → Bool} (hA : Asymm lt) {n : ℕ} :
    ∀ (k : ℕ) (a : ℕ → α) (i : ℕ), i + k ≤ n → (∀ x, i ≤ x → x < i + k → ∃ j, j < x ∧ lt (a x) (a j) = false) →
      ∃ c, unguardedInsertionSort lt n k a i = .ok c ∧ PermOn 0 (i + k) a c ∧ (TransOn lt n a → SortedTo lt a i → SortedTo lt c (i + k)) := by
  intro k
  induction k with
  | zero => intro a i _ _; exact ⟨a, rfl, PermOn.refl _ _ _, fun _ h => h⟩
  | succ k ih =>
    intro a i hn hq
    obtain ⟨b, e, hP, hs⟩ := unguardedLinearInsert_ok hA (n := n) (i := i) (by omega) a (hq i le_rfl (by omega))
    obtain ⟨c, e', hP', hs'⟩ := ih b (i + 1) (by omega) (by
      intro x hx1 hx2
      obtain ⟨j, hj1, hj2⟩ := hq x (by omega) (by omega)
      obtain ⟨j', hj', ej⟩ : ∃ j', j' < x ∧ b j' = a j := by
        by_cases h : j < i + 1
        · obtain ⟨j', hj', ej⟩ := hP.target (j := j) (by omega)
          exact ⟨j', by omega, ej⟩
        · exact ⟨j, hj1, hP.outside (by omega)⟩
      refine ⟨j', hj', ?_⟩
      rw [ej, hP.outside (by omega)]; exact hj2)
    refine ⟨c, ?_, (hP.mono le_rfl (by omega)).trans (by rw [show i + (k + 1) = i + 1 + k by omega]; exact hP'), ?_⟩
    · rw [unguardedInsertionSort, e]
      exact e'
    · intro hT hso
      rw [show i + (k + 1) = i + 1 + k by omega]
      exact hs' (hT.perm hP (by omega)) (hs hT hso)

theorem insertionSort_ok {lt : α → α → Bool} (hA : Asymm lt) {n m : ℕ} (hm : m ≤ n) (a : ℕ → α) :
    ∃ c, insertionSort lt n a 0 m = .ok c ∧ PermOn 0 m a c ∧ (TransOn lt n a → SortedTo lt c m) := by
  unfold insertionSort
  split_ifs with h
  · exact ⟨a, rfl, PermOn.refl _ _ _, fun _ i j _ h2 => by omega⟩
  · obtain ⟨c, e, hP, hs⟩ := insertionLoop_ok hA (n := n) (m - 0 - 1) a (0 + 1) (by omega) (by omega)
    rw [show 0 + 1 + (m - 0 - 1) = m by omega] at hP hs
    exact ⟨c, e, hP, fun hT => hs hT (fun i j h1 h2 => by omega)⟩

theorem finalInsertionSort_ok {lt : α → α → Bool} (hA : Asymm lt) {n : ℕ} (a : ℕ → α)
    (hq : ∀ x, 16 ≤ x → x < n → ∃ j, j < x ∧ lt (a x) (a j) = false) :
    ∃ c, finalInsertionSort lt n a = .ok c ∧ PermOn 0 n a c ∧ (TransOn lt n a → SortedTo lt c n) := by
  unfold finalInsertionSort
  split_ifs with h
  · obtain ⟨b, e, hP, hs⟩ := insertionSort_ok hA (n := n) (m := 16) (by omega) a
    obtain ⟨c, e', hP', hs'⟩ := unguardedInsertionSort_ok hA (n := n) (n - 16) b 16 (by omega) (by
      intro x hx1 hx2
      obtain ⟨j, hj1, hj2⟩ := hq x hx1 (by omega)
      obtain ⟨j', hj', ej⟩ : ∃ j', j' < x ∧ b j' = a j := by
        by_cases h : j < 16
        · obtain ⟨j', hj', ej⟩ := hP.target (j := j) (by omega)
          exact ⟨j', by omega, ej⟩
        · exact ⟨j, hj1, hP.outside (by omega)⟩
      refine ⟨j', hj', ?_⟩
      rw [ej, hP.outside (by omega)]; exact hj2)
    rw [show 16 + (n - 16) = n by omega] at hP' hs'
    refine ⟨c, ?_, (hP.mono le_rfl (by omega)).trans hP', fun hT => hs' (hT.perm hP (by omega)) (hs hT)⟩
    simp only [bind, Except.bind]
    rw [e]
    exact e'
  · exact insertionSort_ok hA le_rfl a

/-! ### lists -/

theorem perm_map_range {n : ℕ} {a c : ℕ → α} (h : PermOn 0 n a c) : ((List.range n).map c).Perm ((List.range n).map a) := by
  obtain ⟨σ, hσ, rfl⟩ := h
  have h1 : ((List.range n).map σ).Perm (List.range n) := by
    rw [List.perm_ext_iff_of_nodup (List.nodup_range.map σ.injective) List.nodup_range]
    intro x
    simp only [List.mem_map, List.mem_range]
    constructor
    · rintro ⟨y, hy, rfl⟩
      by_contra hc
      have := σ.injective (hσ _ (show ¬ (0 ≤ σ y ∧ σ y < n) by omega))
      omega
    · intro hx
      refine ⟨σ.symm x, ?_, by simp⟩
      by_contra hc
      have := hσ _ (show ¬ (0 ≤ σ.symm x ∧ σ.symm x < n) by omega)
      rw [Equiv.apply_symm_apply] at this
      omega
  have := h1.map a
  rwa [List.map_map] at this

theorem range_getD (l : List α) (d : α) : (List.range l.length).map (fun i => l.getD i d) = l := by
  apply List.ext_getElem
  · simp
  · intro i h1 h2
    simp [h2]

/-- `std::sort` stays within the vector and rearranges it, for every asymmetric comparison; the result is sorted if "not greater" is
transitive on the elements. -/
theorem sort_ok {lt : α → α → Bool} (hA : Asymm lt) (l : List α) :
    ∃ r, sort lt l = .ok r ∧ r.Perm l ∧
      ((∀ x ∈ l, ∀ y ∈ l, ∀ z ∈ l, lt y x = false → lt z y = false → lt z x = false) → r.Pairwise fun x y => lt y x = false) := by
  cases l with
  | nil => exact ⟨[], rfl, List.Perm.refl _, fun _ => List.Pairwise.nil⟩
  | cons d t =>
    set l := d :: t with hl
    set a : ℕ → α := fun i => l.getD i d with ha
    obtain ⟨b, e1, hP1, hq⟩ := introsortLoop_ok hA (n := l.length) (l.length + 1) (2 * Nat.log2 l.length) a 0 l.length le_rfl (by omega) (by omega)
    obtain ⟨c, e2, hP2, hs⟩ := finalInsertionSort_ok hA (n := l.length) b (fun x hx1 hx2 => by
      obtain ⟨j, _, h2, h3⟩ := hq x (by omega) hx2
      exact ⟨j, h2, h3⟩)
    have hP := hP1.trans hP2
    refine ⟨(List.range l.length).map c, ?_, ?_, ?_⟩
    · rw [hl]
      unfold sort
      simp only [bind, Except.bind]
      rw [← hl, ← ha, e1]
      simp only []
      rw [e2]
    · have := perm_map_range hP
      rwa [ha, range_getD] at this
    · intro hT
      have hTa : TransOn lt l.length a := by
        intro i j k hi hj hk
        have hm : ∀ i, i < l.length → a i ∈ l := by
          intro i hi; simp only [ha, List.getD_eq_getElem?_getD, List.getElem?_eq_getElem hi]; exact List.getElem_mem hi
        exact hT _ (hm i hi) _ (hm j hj) _ (hm k hk)
      have hso := hs (hTa.perm hP1 le_rfl)
      rw [List.pairwise_iff_getElem]
      intro i j hi hj hij
      simp only [List.getElem_map, List.getElem_range]
      exact hso i j hij (by simpa using hj)

end CP.Std
