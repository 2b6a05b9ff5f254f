import Verif.Model.Basic
/-
Proof rules for the execution model: a small Hoare logic over `M`.
-/
namespace CP

/-- `m` ends normally with a result satisfying `Q`, or with a fault satisfying `E`. -/
def Sat {α : Type} (E : Fault → Prop) (Q : α → Prop) (m : M α) : Prop :=
  match m with
  | .ok a => Q a
  | .error e => E e

/-- No fault at all is allowed. -/
def NoFault : Fault → Prop := fun _ => False

/-- Only C++ `runtime_error` exceptions are allowed. -/
def OnlyThrow : Fault → Prop := fun f => ∃ msg, f = .runtimeError msg

namespace Sat
variable {α β σ : Type} {E : Fault → Prop}

theorem ok {Q : α → Prop} {a : α} (h : Q a) : Sat E Q (.ok a) := h
theorem pure' {Q : α → Prop} {a : α} (h : Q a) : Sat E Q (pure a : M α) := h

theorem throw {Q : α → Prop} {e : Fault} (h : E e) : Sat E Q (.error e : M α) := h

theorem bind {Q : α → Prop} {R : β → Prop} {m : M α} {f : α → M β}
    (h : Sat E Q m) (hf : ∀ a, Q a → Sat E R (f a)) : Sat E R (m >>= f) := by
  cases m with
  | ok a => exact hf a h
  | error e => exact h

theorem mono {Q R : α → Prop} {m : M α} (h : Sat E Q m) (hQR : ∀ a, Q a → R a) : Sat E R m := by
  cases m with
  | ok a => exact hQR a h
  | error e => exact h

theorem monoE {E' : Fault → Prop} {Q : α → Prop} {m : M α} (h : Sat E Q m) (hE : ∀ a, E a → E' a) :
    Sat E' Q m := by
  cases m with
  | ok a => exact h
  | error e => exact hE _ h

theorem exists_ok {Q : α → Prop} {m : M α} (h : Sat NoFault Q m) : ∃ a, m = .ok a ∧ Q a := by
  cases m with
  | ok a => exact ⟨a, rfl, h⟩
  | error e => exact h.elim

theorem of_eq {Q : α → Prop} {m : M α} {a : α} (h : m = .ok a) (hq : Q a) : Sat E Q m := by
  subst h; exact hq

theorem and {Q R : α → Prop} {m : M α} (h1 : Sat E Q m) (h2 : Sat E R m) :
    Sat E (fun a => Q a ∧ R a) m := by
  cases m with
  | ok a => exact ⟨h1, h2⟩
  | error e => exact h1

theorem forAux {body : Int → σ → M σ} (Inv : Int → σ → Prop) :
    ∀ (k : Nat) (i : Int) (s : σ), Inv i s →
      (∀ j s, i ≤ j → j < i + k → Inv j s → Sat E (Inv (j + 1)) (body j s)) →
      Sat E (Inv (i + k)) (forAux body k i s) := by
  intro k
  induction k with
  | zero => intro i s h _; simpa [CP.forAux, Sat] using h
  | succ k ih =>
    intro i s h hb
    unfold CP.forAux
    refine Sat.bind (hb i s (by omega) (by omega) h) ?_
    intro s' hs'
    have := ih (i + 1) s' hs' (fun j s h1 h2 h3 => hb j s (by omega) (by push_cast; omega) h3)
    have e : i + 1 + (k : Int) = i + ((k + 1 : Nat) : Int) := by push_cast; omega
    rw [e] at this
    exact this

/-- Loop rule: an invariant established before the loop and preserved by every iteration holds
after it. -/
theorem forRange {lo hi : Int} {s : σ} {body : Int → σ → M σ} (Inv : Int → σ → Prop)
    (hlo : lo ≤ hi) (h0 : Inv lo s)
    (hb : ∀ j s, lo ≤ j → j < hi → Inv j s → Sat E (Inv (j + 1)) (body j s)) :
    Sat E (Inv hi) (forRange lo hi s body) := by
  unfold CP.forRange
  have e : lo + ((hi - lo).toNat : Int) = hi := by omega
  have := forAux (E := E) (body := body) Inv (hi - lo).toNat lo s h0
    (fun j s h1 h2 h3 => hb j s h1 (by omega) h3)
  rw [e] at this
  exact this

/-- Empty loops do nothing. -/
theorem _root_.CP.forRange_empty {lo hi : Int} (h : hi ≤ lo) (s : σ) (body : Int → σ → M σ) :
    CP.forRange lo hi s body = .ok s := by
  unfold CP.forRange
  have : (hi - lo).toNat = 0 := by omega
  rw [this]; rfl

/-- Loop rule without the assumption `lo ≤ hi`, for invariants that do not mention the index. -/
theorem forRange' {lo hi : Int} {s : σ} {body : Int → σ → M σ} (Inv : σ → Prop)
    (h0 : Inv s)
    (hb : ∀ j s, lo ≤ j → j < hi → Inv s → Sat E Inv (body j s)) :
    Sat E Inv (CP.forRange lo hi s body) := by
  by_cases h : lo ≤ hi
  · exact forRange (fun _ => Inv) h h0 hb
  · rw [CP.forRange_empty (by omega)]; exact h0

end Sat

section arrays
variable {α : Type} {E : Fault → Prop}

/-- Array `a` has value `v` at (integer) index `i`. -/
def Has (a : List α) (i : Int) (v : α) : Prop := 0 ≤ i ∧ a[i.toNat]? = some v

theorem Has.nonneg {a : List α} {i : Int} {v : α} (h : Has a i v) : 0 ≤ i := h.1

theorem Has.lt {a : List α} {i : Int} {v : α} (h : Has a i v) : i < a.length := by
  obtain ⟨h0, h1⟩ := h
  have := (List.getElem?_eq_some_iff.mp h1).1
  omega

theorem Has.unique {a : List α} {i : Int} {v w : α} (h : Has a i v) (h' : Has a i w) : v = w := by
  have := h.2.symm.trans h'.2
  simpa using this

theorem rd_eq {a : List α} {i : Int} {v : α} (h : Has a i v) : rd a i = .ok v := by
  unfold rd
  rw [if_pos h.1, h.2]

theorem rd_sat {a : List α} {i : Int} (h0 : 0 ≤ i) (h1 : i < a.length) :
    Sat E (fun v => Has a i v) (rd a i) := by
  have hl : i.toNat < a.length := by omega
  have : Has a i a[i.toNat] := ⟨h0, by simp [hl]⟩
  rw [rd_eq this]
  exact this

theorem exists_has {a : List α} {i : Int} (h0 : 0 ≤ i) (h1 : i < a.length) : ∃ v, Has a i v := by
  have hl : i.toNat < a.length := by omega
  exact ⟨a[i.toNat], h0, by simp [hl]⟩

theorem addrOf_eq {a : List α} {i : Int} (h0 : 0 ≤ i) (h1 : i < a.length) : addrOf a i = .ok i := by
  unfold addrOf
  rw [if_pos ⟨h0, by omega⟩]

theorem wr_eq {a : List α} {i : Int} (v : α) (h0 : 0 ≤ i) (h1 : i < a.length) :
    wr a i v = .ok (a.set i.toNat v) := by
  unfold wr
  rw [if_pos ⟨h0, by omega⟩]

theorem has_set {a : List α} {i j : Int} {v w : α} (h0 : 0 ≤ i) (h1 : i < a.length) :
    Has (a.set i.toNat v) j w ↔ (j = i ∧ w = v) ∨ (j ≠ i ∧ Has a j w) := by
  unfold Has
  by_cases hj : 0 ≤ j
  · by_cases e : j = i
    · subst e
      have : j.toNat < a.length := by omega
      simp [hj, this, eq_comm]
    · have : i.toNat ≠ j.toNat := by omega
      simp [hj, e, List.getElem?_set_ne this]
  · have : j ≠ i := by omega
    simp [hj, this]

/-- Complete description of `wr`. -/
theorem wr_sat {a : List α} {i : Int} (v : α) (h0 : 0 ≤ i) (h1 : i < a.length) :
    Sat E (fun a' => a'.length = a.length ∧
      ∀ j w, Has a' j w ↔ (j = i ∧ w = v) ∨ (j ≠ i ∧ Has a j w)) (wr a i v) := by
  rw [wr_eq v h0 h1]
  exact ⟨by simp, fun j w => has_set h0 h1⟩

theorem rdBlock_eq {a : List α} {off cnt : Int} (h0 : 0 ≤ off) (h1 : 0 ≤ cnt)
    (h2 : off + cnt ≤ a.length) :
    rdBlock a off cnt = .ok ((a.drop off.toNat).take cnt.toNat) := by
  unfold rdBlock
  rw [if_pos ⟨h0, h1, by omega⟩]

/-- Complete description of `rdBlock`. -/
theorem rdBlock_sat {a : List α} {off cnt : Int} (h0 : 0 ≤ off) (h1 : 0 ≤ cnt)
    (h2 : off + cnt ≤ a.length) :
    Sat E (fun xs => (xs.length : Int) = cnt ∧
      ∀ j w, Has xs j w ↔ (0 ≤ j ∧ j < cnt ∧ Has a (off + j) w)) (rdBlock a off cnt) := by
  rw [rdBlock_eq h0 h1 h2]
  refine ⟨by simp; omega, ?_⟩
  intro j w
  unfold Has
  by_cases hj : 0 ≤ j
  · by_cases hc : j < cnt
    · have e : (off + j).toNat = off.toNat + j.toNat := by omega
      have : j.toNat < cnt.toNat := by omega
      have : 0 ≤ off + j := by omega
      simp [*]
    · have : ¬ j.toNat < cnt.toNat := by omega
      simp [hj, hc, List.getElem?_take, this]
  · simp [hj]

theorem wrBlock_eq {a : List α} {off : Int} {xs : List α} (h0 : 0 ≤ off)
    (h2 : off + xs.length ≤ a.length) :
    wrBlock a off xs = .ok (a.take off.toNat ++ xs ++ a.drop (off.toNat + xs.length)) := by
  unfold wrBlock
  rw [if_pos ⟨h0, by omega⟩]

/-- Complete description of `wrBlock`. -/
theorem wrBlock_sat {a : List α} {off : Int} {xs : List α} (h0 : 0 ≤ off)
    (h2 : off + xs.length ≤ a.length) :
    Sat E (fun a' => a'.length = a.length ∧
      ∀ j w, Has a' j w ↔ (off ≤ j ∧ j < off + xs.length ∧ Has xs (j - off) w) ∨
        ((j < off ∨ off + xs.length ≤ j) ∧ Has a j w)) (wrBlock a off xs) := by
  rw [wrBlock_eq h0 h2]
  refine ⟨by simp; omega, ?_⟩
  intro j w
  unfold Has
  by_cases hj : 0 ≤ j
  · have ht : (a.take off.toNat).length = off.toNat := by simp; omega
    by_cases h1 : j < off
    · rw [List.append_assoc, List.getElem?_append_left (by omega), List.getElem?_take,
        if_pos (by omega)]
      constructor
      · intro h; exact Or.inr ⟨Or.inl h1, hj, h.2⟩
      · rintro (h | h)
        · omega
        · exact ⟨hj, h.2.2⟩
    · by_cases h3 : j < off + xs.length
      · rw [List.append_assoc, List.getElem?_append_right (by omega),
          List.getElem?_append_left (by omega), ht]
        have e : (j - off).toNat = j.toNat - off.toNat := by omega
        constructor
        · intro h; exact Or.inl ⟨by omega, h3, by omega, by rw [e]; exact h.2⟩
        · rintro (h | h)
          · exact ⟨hj, by rw [← e]; exact h.2.2.2⟩
          · omega
      · rw [List.getElem?_append_right (by simp; omega), List.getElem?_drop]
        have e : off.toNat + xs.length + (j.toNat - (List.take off.toNat a ++ xs).length) = j.toNat := by
          simp; omega
        rw [e]
        constructor
        · intro h; exact Or.inr ⟨Or.inr (by omega), hj, h.2⟩
        · rintro (h | h)
          · omega
          · exact ⟨hj, h.2.2⟩
  · constructor
    · intro h; exact absurd h.1 hj
    · rintro (⟨h, _⟩ | ⟨_, h⟩)
      · omega
      · exact absurd h.1 hj

theorem has_replicate {k : Nat} {v w : α} {j : Int} :
    Has (List.replicate k v) j w ↔ 0 ≤ j ∧ j < k ∧ w = v := by
  unfold Has
  rw [List.getElem?_replicate]
  by_cases hj : 0 ≤ j
  · by_cases h : j.toNat < k
    · rw [if_pos h]
      have : j < k := by omega
      simp [hj, this, eq_comm]
    · have : ¬ j < k := by omega
      simp [hj, this, h]
  · simp [hj]

theorem has_map_range {k : Nat} {f : Nat → α} {w : α} {j : Int} :
    Has ((List.range k).map f) j w ↔ 0 ≤ j ∧ j < k ∧ w = f j.toNat := by
  unfold Has
  rw [List.getElem?_map]
  by_cases hj : 0 ≤ j
  · by_cases h : j.toNat < k
    · have : j < k := by omega
      simp [hj, this, eq_comm]
    · have : ¬ j < k := by omega
      simp [hj, this]
  · simp [hj]

theorem assertC_true (e : Bool) {c : Bool} (h : c = true) (w : String) : assertC e c w = .ok () := by
  subst h; simp [assertC]

theorem assertC_off {c : Bool} (w : String) : assertC false c w = .ok () := by
  simp [assertC]

theorem assertC_sat {e c : Bool} {w : String} (h : e = false ∨ c = true) :
    Sat E (fun _ => True) (assertC e c w) := by
  rcases h with h | h <;> subst h <;> simp [assertC, Sat]

end arrays

@[simp] theorem M_ok_bind {α β : Type} (a : α) (f : α → M β) : ((Except.ok a : M α) >>= f) = f a := rfl
@[simp] theorem M_error_bind {α β : Type} (e : Fault) (f : α → M β) :
    ((Except.error e : M α) >>= f) = .error e := rfl

end CP
