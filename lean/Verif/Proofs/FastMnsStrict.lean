import Verif.FastMnsSpec
import Verif.Proofs.FastStrict
/-
`ecdf1_mns2016`: the compiled code that follows the source to the letter computes what the model of the source computes.
-/
namespace CP
open FOps Spec
variable {F G : Type} [FOps F] [FOps G]

/-- Whatever `m` returns satisfies `P` and is returned by `m'`. -/
def RetI {α : Type} (P : α → Prop) (m m' : M α) : Prop := ∀ x, m = .ok x → P x ∧ m' = .ok x

theorem RetI.bind {α β : Type} {P : α → Prop} {Q : β → Prop} {m m' : M α} {f g : α → M β} (h : RetI P m m')
    (hf : ∀ x, P x → RetI Q (f x) (g x)) : RetI Q (m >>= f) (m' >>= g) := by
  intro y hy
  cases hm : m with
  | error e => rw [hm] at hy; cases hy
  | ok x =>
    rw [hm] at hy
    obtain ⟨h1, h2⟩ := h x hm
    rw [h2]
    exact hf x h1 y hy

theorem RetI.same {α : Type} (m : M α) : RetI (fun _ => True) m m := fun _ h => ⟨trivial, h⟩

theorem RetI.forAux {σ : Type} {P : σ → Prop} {f g : Int → σ → M σ} (k : Nat) : ∀ (i : Int) (s : σ), P s →
    (∀ j s, i ≤ j → P s → RetI P (f j s) (g j s)) → RetI P (forAux f k i s) (forAux g k i s) := by
  induction k with
  | zero => intro i s h0 _ x hx; cases hx; exact ⟨h0, rfl⟩
  | succ k ih =>
    intro i s h0 h
    unfold CP.forAux
    exact (h i s (Int.le_refl i) h0).bind fun s' h' => ih (i + 1) s' h' fun j s hj hs => h j s (by omega) hs

theorem forAux_congr_mns {σ : Type} {f g : Int → σ → M σ} (k : Nat) : ∀ (i : Int) (s : σ),
    (∀ j s, i ≤ j → j < i + k → f j s = g j s) → CP.forAux f k i s = CP.forAux g k i s := by
  induction k with
  | zero => intro i s _; rfl
  | succ k ih =>
    intro i s h
    unfold CP.forAux
    rw [h i s (Int.le_refl i) (by omega)]
    congr 1
    funext s'
    exact ih _ _ fun j s h1 h2 => h j s (by omega) (by omega)

theorem integrate_strict (fma : G → G → G → G) (site : ℕ) (p : Poly G) : p.integrateFast (strictMns fma) site = p.integrate := by
  unfold Poly.integrateFast Poly.integrate forRange
  congr 1
  refine forAux_congr_mns _ _ _ fun j s h1 h2 => ?_
  have e : (((p.degree + 1 - j).toNat : ℕ) : Int) = p.degree + 1 - j := by omega
  have e2 : ∀ m : G, (strictMns fma).divide site (p.degree + 1 - j).toNat m = m /ᶠ ofInt (p.degree + 1 - j) := by
    intro m
    rw [← e]
    rfl
  simp only [e2]

theorem eval_inner {mult add : List G} {x : G} (k : ℕ) : ∀ (i : ℕ) (acc r : G),
    forAux (fun i result => do
      let m ← rd mult i
      let a ← rd add i
      .ok (result +ᶠ m *ᶠ powi (x +ᶠ a) i)) k (i : Int) acc = .ok r →
    (∀ l : ℕ, i ≤ l → l < i + k → l < mult.length ∧ l < add.length) ∧
    r = (List.range' i k).foldl (fun acc (l : ℕ) => acc +ᶠ mult.getD l zero *ᶠ powi (x +ᶠ add.getD l zero) (l : Int)) acc := by
  induction k with
  | zero => intro i acc r h; cases h; exact ⟨fun l h1 h2 => by omega, rfl⟩
  | succ k ih =>
    intro i acc r h
    unfold forAux at h
    cases h1 : rd mult (i : Int) with
    | error e => rw [h1] at h; cases h
    | ok m =>
      cases h2 : rd add (i : Int) with
      | error e => rw [h1, h2] at h; cases h
      | ok a =>
        rw [h1, h2] at h
        obtain ⟨_, e1⟩ := rd_ok h1
        obtain ⟨_, e2⟩ := rd_ok h2
        rw [Int.toNat_natCast] at e1 e2
        have h' : forAux (fun i result => do
            let m ← rd mult i
            let a ← rd add i
            .ok (result +ᶠ m *ᶠ powi (x +ᶠ a) i)) k ((i + 1 : ℕ) : Int) (acc +ᶠ m *ᶠ powi (x +ᶠ a) i) = .ok r := h
        obtain ⟨h3, h4⟩ := ih (i + 1) _ r h'
        refine ⟨fun l hl1 hl2 => ?_, ?_⟩
        · by_cases hl : l = i
          · subst hl
            exact ⟨(List.getElem?_eq_some_iff.mp e1).1, (List.getElem?_eq_some_iff.mp e2).1⟩
          · exact h3 l (by omega) (by omega)
        · rw [h4, List.range'_succ, List.foldl_cons]
          simp only [List.getD_eq_getElem?_getD, e1, e2, Option.getD_some]

theorem evaluate_strict (fma : G → G → G → G) (site : ℕ) {p : Poly G} (hp : 0 ≤ p.degree) (x : G) :
    RetI (fun _ => True) (p.evaluate x) (p.evaluateFast (strictMns fma) site x) := by
  intro r hr
  refine ⟨trivial, ?_⟩
  obtain ⟨d, hd⟩ := Int.eq_ofNat_of_zero_le hp
  unfold Poly.evaluate forRange at hr
  rw [hd, show ((d : Int) + 1 - 0).toNat = d + 1 by omega] at hr
  obtain ⟨h1, h2⟩ := eval_inner (d + 1) 0 _ r hr
  have hl := h1 d (by omega) (by omega)
  unfold Poly.evaluateFast
  rw [hd]
  have h3 : rdBlock p.mult 0 ((d : Int) + 1) = _ := rdBlock_of (Int.le_refl 0) (by rw [Int.zero_add, Int.toNat_natCast]; exact hl.1)
  have h4 : rdBlock p.add 0 ((d : Int) + 1) = _ := rdBlock_of (Int.le_refl 0) (by rw [Int.zero_add, Int.toNat_natCast]; exact hl.2)
  simp only [h3, h4, bind, Except.bind]
  have e2 : (strictMns fma).sum site (Int.toNat (d : Int)) = strictSum d := rfl
  rw [e2, strict_eval, h2]
  congr 1
  rw [show (List.range' 0 (d + 1)) = List.range (d + 1) from (List.range_eq_range' (n := d + 1)).symm]
  refine List.foldl_ext _ _ _ fun acc l hl' => ?_
  have hl2 : l < d + 1 := List.mem_range.mp hl'
  have e : ∀ a : List G, ((a.drop (0 : Int).toNat).take (d + 1)).getD l zero = a.getD l zero := by
    intro a
    rw [List.getD_eq_getElem?_getD, List.getD_eq_getElem?_getD, List.getElem?_take, if_pos hl2, List.getElem?_drop]
    congr 2
    exact Nat.zero_add l
  rw [e, e]
  rfl

/-- A computation that succeeds with a polynomial of degree at least 0. -/
theorem deg_setMult {env : Env G} {p : Poly G} (hp : 0 ≤ p.degree) (k : Int) (c : G) :
    RetI (fun p' => 0 ≤ p'.degree) (p.setMult env k c) (p.setMult env k c) := by
  intro x hx
  refine ⟨?_, hx⟩
  unfold Poly.setMult at hx
  cases h1 : assertC env.asserts (decide (0 ≤ k)) "degree >= 0" with
  | error e => rw [h1] at hx; cases hx
  | ok u =>
    cases h2 : assertC env.asserts (decide (k ≤ p.degree)) "degree <= this->degree" with
    | error e => rw [h1, h2] at hx; cases hx
    | ok u =>
      cases h3 : wr p.mult k c with
      | error e => rw [h1, h2, h3] at hx; cases hx
      | ok m => rw [h1, h2, h3] at hx; cases hx; exact hp

theorem deg_setAdd {env : Env G} {p : Poly G} (hp : 0 ≤ p.degree) (k : Int) (c : G) :
    RetI (fun p' => 0 ≤ p'.degree) (p.setAdd env k c) (p.setAdd env k c) := by
  intro x hx
  refine ⟨?_, hx⟩
  unfold Poly.setAdd at hx
  cases h1 : assertC env.asserts (decide (0 ≤ k)) "degree >= 0" with
  | error e => rw [h1] at hx; cases hx
  | ok u =>
    cases h2 : assertC env.asserts (decide (k ≤ p.degree)) "degree <= this->degree" with
    | error e => rw [h1, h2] at hx; cases hx
    | ok u =>
      cases h3 : wr p.add k c with
      | error e => rw [h1, h2, h3] at hx; cases hx
      | ok m => rw [h1, h2, h3] at hx; cases hx; exact hp

theorem deg_integrate {p : Poly G} (hp : 0 ≤ p.degree) : RetI (fun p' => 0 ≤ p'.degree) p.integrate p.integrate := by
  intro x hx
  refine ⟨?_, hx⟩
  unfold Poly.integrate at hx
  revert hx
  generalize forRange 0 (p.degree + 1) (p.mult, p.add) _ = r
  intro hx
  cases r with
  | error e => cases hx
  | ok s =>
    simp only [bind, Except.bind] at hx
    cases h1 : wr s.2 1 (zero : G) with
    | error e => rw [h1] at hx; cases hx
    | ok a =>
      cases h2 : wr a 0 (zero : G) with
      | error e => rw [h1] at hx; simp only [h2] at hx; cases hx
      | ok a' =>
        cases h3 : wr s.1 0 (zero : G) with
        | error e => rw [h1] at hx; simp only [h2, h3] at hx; cases hx
        | ok m =>
          rw [h1] at hx
          simp only [h2, h3] at hx
          cases hx
          show 0 ≤ p.degree + 1
          omega

theorem deg_ldexpAll {p : Poly G} (hp : 0 ≤ p.degree) (e : Int) : RetI (fun p' => 0 ≤ p'.degree) (p.ldexpAll e) (p.ldexpAll e) := by
  intro x hx
  refine ⟨?_, hx⟩
  unfold Poly.ldexpAll at hx
  revert hx
  generalize forRange 0 (p.degree + 1) p.mult _ = r
  intro hx
  cases r with
  | error e => cases hx
  | ok s => cases hx; exact hp

theorem mnsStep_strict (fma : G → G → G → G) (L : LongDouble F G) (asserts : Bool) (b : List F) (i : Int) {s : Poly G × Int} (hs : 0 ≤ s.1.degree) :
    RetI (fun s' => 0 ≤ s'.1.degree) (mnsStepX L asserts b i s) (mnsStepXFast (strictMns fma) L asserts b i s) := by
  unfold mnsStepX mnsStepXFast
  rw [integrate_strict]
  refine (deg_integrate hs).bind fun p hp => (RetI.same _).bind fun bi _ => (deg_setAdd hp _ _).bind fun p hp =>
    (evaluate_strict fma _ hp _).bind fun v _ => (deg_setMult hp _ _).bind fun p hp => ?_
  split
  · refine (RetI.same _).bind fun mc _ => ?_
    dsimp only
    split
    · refine (deg_ldexpAll hp _).bind fun p hp => ?_
      intro x hx; cases hx; exact ⟨hp, rfl⟩
    · intro x hx; cases hx; exact ⟨hp, rfl⟩
  · intro x hx; cases hx; exact ⟨hp, rfl⟩

theorem ecdf1Mns2016b_strict (fma : G → G → G → G) (L : LongDouble F G) (env : Env F) (b : List F) :
    Ret (ecdf1Mns2016bX L env b) (ecdf1Mns2016bXFast (strictMns fma) L env b) := by
  have h : RetI (fun _ => True) (ecdf1Mns2016bX L env b) (ecdf1Mns2016bXFast (strictMns fma) L env b) := by
    unfold ecdf1Mns2016bX ecdf1Mns2016bXFast
    refine (RetI.same _).bind fun _ _ => RetI.bind (P := fun p => 0 ≤ p.degree) ?_ fun p hp => (deg_setMult hp _ _).bind fun p hp =>
      RetI.bind (P := fun s => 0 ≤ s.1.degree) ?_ fun s hs => (evaluate_strict fma _ hs _).bind fun v _ => ?_
    · intro x hx
      refine ⟨?_, hx⟩
      unfold Poly.new at hx
      cases h1 : assertC (envG (G := G) env.asserts).asserts (decide (0 ≤ (b.length : Int) + 1)) "max_degree >= 0" with
      | error e => rw [h1] at hx; cases hx
      | ok u => rw [h1] at hx; cases hx; exact Int.le_refl 0
    · exact RetI.forAux _ _ _ hp fun j s _ hs => mnsStep_strict fma L env.asserts b j hs
    · exact RetI.same _
  exact fun x hx => (h x hx).2

theorem ecdf1Mns2016B_strict (fma : G → G → G → G) (L : LongDouble F G) (env : Env F) (B : List F) :
    Ret (ecdf1Mns2016BX L env B) (ecdf1Mns2016BXFast (strictMns fma) L env B) := by
  unfold ecdf1Mns2016BX ecdf1Mns2016BXFast
  exact (Ret.refl _).bind fun _ => (Ret.refl _).bind fun st => ecdf1Mns2016b_strict fma L env st

theorem strictMns_legal (fma : G → G → G → G) : MnsCode.Legal (strictMns fma) 0 where
  sum := fun _ d => by
    show (strictSum d).terms.Perm _
    rw [terms_strict]
  height := fun _ d => by
    show (strictSum d).height ≤ _
    rw [height_strict]
  coeffs := rfl
  uses := rfl

end CP
