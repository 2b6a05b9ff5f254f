import Verif.LibcSpec
import Verif.Model.XR
/-
A concrete decimal `strtod`/`strtol` satisfying the contracts of `LibcSpec`: the contracts are
consistent, and the theorems that assume them are not vacuous.
-/
namespace CP
open Spec

namespace Witness

/-- Leading digits. -/
def digits (s : Str) : Str := s.takeWhile fun c => c.isDigit
/-- What follows the leading digits. -/
def afterDigits (s : Str) : Str := s.dropWhile fun c => c.isDigit
/-- Leading white space. -/
def spaces (s : Str) : Str := s.takeWhile fun c => decide (IsSpace c)
/-- What follows the leading white space. -/
def afterSpaces (s : Str) : Str := s.dropWhile fun c => decide (IsSpace c)

/-- Optional sign. -/
def parseSign : Str → Sign × Str
  | [] => (.none, [])
  | c :: r => if c = '+' then (.plus, r) else if c = '-' then (.minus, r) else (.none, c :: r)

/-- Optional fraction. -/
def parseFrac : Str → Option Str × Str
  | [] => (none, [])
  | c :: r => if c = '.' then (some (digits r), afterDigits r) else (none, c :: r)

/-- Optional exponent. -/
def parseExp : Str → Option (Char × Sign × Str)
  | [] => none
  | c :: r => if c = 'e' ∨ c = 'E' then
      if digits (parseSign r).2 = [] then none else some (c, (parseSign r).1, digits (parseSign r).2)
    else none

/-- Decimal number at the start of the text. -/
def parseDec (s : Str) : Option Dec :=
  let sg := parseSign s
  let i := digits sg.2
  let f := parseFrac (afterDigits sg.2)
  if i ++ f.1.getD [] = [] then none else some ⟨sg.1, i, f.1, parseExp f.2⟩

/-- A decimal-only `strtod` with exact results. -/
noncomputable def strtod (s : Str) : StrtodResult XR :=
  match parseDec (afterSpaces s) with
  | none => ⟨XR.fin 0, 0, 0⟩
  | some d => ⟨XR.fin d.value, (spaces s).length + d.text.length, 0⟩

/-- A base-10 `strtol`. -/
def strtol (s : Str) : StrtolResult :=
  let sg := parseSign (afterSpaces s)
  let ds := digits sg.2
  let v : ℤ := sg.1.unit * natOf ds
  let len := (spaces s ++ sg.1.text ++ ds).length
  if ds = [] then ⟨0, 0, 0⟩
  else if 2 ^ 63 - 1 < v then ⟨LONG_MAX, len, ERANGE⟩
  else if v < -(2 ^ 63) then ⟨LONG_MIN, len, ERANGE⟩
  else ⟨v, len, 0⟩

theorem digits_append {ds rest : Str} (h : AllDigits ds) (hr : ∀ c, rest.head? = some c → c.isDigit = false) :
    digits (ds ++ rest) = ds ∧ afterDigits (ds ++ rest) = rest := by
  unfold digits afterDigits
  rw [List.takeWhile_append_of_pos h, List.dropWhile_append_of_pos h]
  cases rest with
  | nil => simp
  | cons c r => simp [hr c rfl]

theorem spaces_append {ws t : Str} (h : ∀ c ∈ ws, IsSpace c) (ht : ∀ c, t.head? = some c → ¬ IsSpace c) :
    spaces (ws ++ t) = ws ∧ afterSpaces (ws ++ t) = t := by
  unfold spaces afterSpaces
  have h' : ∀ c ∈ ws, decide (IsSpace c) = true := fun c hc => by simpa using h c hc
  rw [List.takeWhile_append_of_pos h', List.dropWhile_append_of_pos h']
  cases t with
  | nil => simp
  | cons c r => simp [ht c rfl]

theorem parseSign_append (sg : Sign) {t : Str} (ht : sg = .none → ∀ c, t.head? = some c → c ≠ '+' ∧ c ≠ '-') :
    parseSign (sg.text ++ t) = (sg, t) := by
  cases sg with
  | none =>
    cases t with
    | nil => rfl
    | cons c r =>
      obtain ⟨h1, h2⟩ := ht rfl c rfl
      simp [Sign.text, parseSign, h1, h2]
  | plus => simp [Sign.text, parseSign]
  | minus => simp [Sign.text, parseSign]

theorem isDigit_ne {c : Char} (h : c.isDigit = true) :
    c ≠ '+' ∧ c ≠ '-' ∧ c ≠ '.' ∧ ¬ IsSpace c ∧ c ∉ ['i', 'I', 'n', 'N'] ∧ c ≠ '\x00' ∧ c ≠ ',' ∧ c ≠ '\n' := by
  refine ⟨?_, ?_, ?_, ?_, ?_, ?_, ?_, ?_⟩
  · rintro rfl; simp at h
  · rintro rfl; simp at h
  · rintro rfl; simp at h
  · intro hs
    simp only [IsSpace, List.mem_cons, List.not_mem_nil, or_false] at hs
    rcases hs with rfl | rfl | rfl | rfl | rfl | rfl <;> simp at h
  · intro hs
    simp only [List.mem_cons, List.not_mem_nil, or_false] at hs
    rcases hs with rfl | rfl | rfl | rfl <;> simp at h
  · rintro rfl; simp at h
  · rintro rfl; simp at h
  · rintro rfl; simp at h

theorem head_digits {ds t : Str} (h : AllDigits ds) (hn : ds ≠ []) {c : Char} (hc : (ds ++ t).head? = some c) :
    c.isDigit = true := by
  cases ds with
  | nil => exact absurd rfl hn
  | cons x xs =>
    simp at hc
    subst hc
    exact h _ (by simp)

/-- First character after the sign. -/
theorem head_body {d : Dec} (hd : d.WF) (rest : Str) {c : Char}
    (hc : (d.int ++ (d.fracText ++ (d.expText ++ rest))).head? = some c) : c.isDigit = true ∨ c = '.' := by
  by_cases hi : d.int = []
  · rw [hi, List.nil_append] at hc
    cases hf : d.frac with
    | none =>
      exfalso
      apply hd.2.2.1
      simp [hi, Dec.fracDigits, hf]
    | some f =>
      unfold Dec.fracText at hc
      rw [hf] at hc
      simp at hc
      exact Or.inr hc.symm
  · exact Or.inl (head_digits hd.1 hi hc)

theorem parseExp_text {d : Dec} (hd : d.WF) {rest : Str} (hr : EndsNumber rest) :
    parseExp (d.expText ++ rest) = d.exp := by
  unfold Dec.expText
  cases he : d.exp with
  | none =>
    simp only [List.nil_append]
    cases rest with
    | nil => rfl
    | cons c r =>
      have := (hr c rfl).2
      simp only [List.mem_cons, List.not_mem_nil, or_false, not_or] at this
      unfold parseExp
      dsimp only
      rw [if_neg (by rintro (h | h); exacts [this.2.1 h, this.2.2.1 h])]
  | some x =>
    obtain ⟨c, s, ds⟩ := x
    obtain ⟨h1, h2, h3⟩ := hd.2.2.2 c s ds he
    simp only [List.cons_append, List.append_assoc]
    unfold parseExp
    dsimp only
    rw [if_pos h1]
    have hh : ∀ c, rest.head? = some c → c.isDigit = false := fun c hc => (hr c hc).1
    have e := parseSign_append s (t := ds ++ rest) (fun _ c hc => by
      have := isDigit_ne (head_digits h2 h3 hc)
      exact ⟨this.1, this.2.1⟩)
    rw [e]
    simp only [(digits_append h2 hh).1, h3, if_false]

theorem expText_head {d : Dec} (hd : d.WF) {rest : Str} (hr : EndsNumber rest) {c : Char}
    (hc : (d.expText ++ rest).head? = some c) : c.isDigit = false ∧ c ≠ '.' := by
  unfold Dec.expText at hc
  cases he : d.exp with
  | none =>
    rw [he] at hc
    simp only [List.nil_append] at hc
    have := hr c hc
    refine ⟨this.1, ?_⟩
    rintro rfl
    simp at this
  | some x =>
    obtain ⟨k, s, ds⟩ := x
    rw [he] at hc
    simp at hc
    subst hc
    rcases (hd.2.2.2 k s ds he).1 with rfl | rfl <;> decide

theorem parseFrac_text {d : Dec} (hd : d.WF) {rest : Str} (hr : EndsNumber rest) :
    parseFrac (d.fracText ++ (d.expText ++ rest)) = (d.frac, d.expText ++ rest) := by
  unfold Dec.fracText
  cases hf : d.frac with
  | none =>
    simp only [List.nil_append]
    cases h : d.expText ++ rest with
    | nil => rfl
    | cons c r =>
      have := (expText_head hd hr (c := c) (by rw [h]; rfl)).2
      unfold parseFrac
      dsimp only
      rw [if_neg this]
  | some f =>
    have hf' : AllDigits f := by have := hd.2.1; simpa [Dec.fracDigits, hf] using this
    have := digits_append hf' (rest := d.expText ++ rest) (fun c hc => (expText_head hd hr hc).1)
    simp only [List.cons_append]
    unfold parseFrac
    dsimp only
    rw [if_pos rfl, this.1, this.2]

theorem parseDec_text {d : Dec} (hd : d.WF) {rest : Str} (hr : EndsNumber rest) :
    parseDec (d.text ++ rest) = some d := by
  unfold parseDec Dec.text
  have e := parseSign_append d.sign (t := d.int ++ (d.fracText ++ (d.expText ++ rest))) (fun _ c hc => by
    rcases head_body hd rest hc with h | rfl
    · exact ⟨(isDigit_ne h).1, (isDigit_ne h).2.1⟩
    · decide)
  simp only [List.append_assoc] at e ⊢
  rw [e]
  have h2 : ∀ c, (d.fracText ++ (d.expText ++ rest)).head? = some c → c.isDigit = false := by
    intro c hc
    unfold Dec.fracText at hc
    cases hf : d.frac with
    | none =>
      rw [hf] at hc
      exact (expText_head hd hr (by simpa using hc)).1
    | some f =>
      rw [hf] at hc
      simp at hc
      subst hc
      rfl
  have h3 := digits_append hd.1 h2
  dsimp only
  rw [h3.1, h3.2, parseFrac_text hd hr]
  dsimp only
  have h4 : d.int ++ d.frac.getD [] ≠ [] := hd.2.2.1
  rw [if_neg h4, parseExp_text hd hr]

theorem head_text {d : Dec} (hd : d.WF) (rest : Str) {c : Char} (hc : (d.text ++ rest).head? = some c) : ¬ IsSpace c := by
  unfold Dec.text at hc
  cases hs : d.sign with
  | none =>
    rw [hs] at hc
    simp only [Sign.text, List.nil_append, List.append_assoc] at hc
    rcases head_body hd rest hc with h | rfl
    · exact (isDigit_ne h).2.2.2.1
    · decide
  | plus => rw [hs] at hc; simp [Sign.text] at hc; subst hc; decide
  | minus => rw [hs] at hc; simp [Sign.text] at hc; subst hc; decide

/-- The witness satisfies the contract of `strtod`. -/
theorem strtod_spec : StrtodSpec strtod XR.fin (fun _ => True) where
  number := by
    intro ws d rest hws hd hr _
    have h := spaces_append hws (t := d.text ++ rest) (fun c hc => head_text hd rest hc)
    unfold strtod
    rw [List.append_assoc, h.2, parseDec_text hd hr, h.1]
    simp
  outOfRange := by intro ws d rest _ _ _ h; exact absurd trivial h
  noNumber := by
    rintro s ⟨ws, sg, t, rfl, hws, h1, h2, h3⟩
    have hsp : ∀ c, (sg.text ++ t).head? = some c → ¬ IsSpace c := by
      intro c hc
      cases sg with
      | none => exact (h2 rfl c (by simpa [Sign.text] using hc)).1
      | plus => simp [Sign.text] at hc; subst hc; decide
      | minus => simp [Sign.text] at hc; subst hc; decide
    have e := spaces_append hws hsp
    have e2 := parseSign_append sg (t := t) (fun hs c hc => by
      have := (h2 hs c hc).2
      simpa using this)
    have hnone : parseDec (sg.text ++ t) = none := by
      unfold parseDec
      rw [e2]
      dsimp only
      have hd0 := digits_append (ds := []) (rest := t) (by intro c hc; cases hc) (fun c hc => (h1 c hc).1)
      rw [List.nil_append] at hd0
      rw [hd0.1, hd0.2]
      cases t with
      | nil => rfl
      | cons c r =>
        have hf : (parseFrac (c :: r)).1.getD [] = [] := by
          by_cases hdot : c = '.'
          · subst hdot
            have := digits_append (ds := []) (rest := r) (by intro c hc; cases hc) (fun c hc => h3 c rfl (by
              cases r with
              | nil => simp at hc
              | cons x r => simpa using hc))
            rw [List.nil_append] at this
            simp [parseFrac, this.1]
          · simp [parseFrac, hdot]
        rw [if_pos (by rw [hf]; rfl)]
    unfold strtod
    rw [List.append_assoc, e.2, hnone]
    exact ⟨rfl, rfl⟩

/-- The witness satisfies the contract of `strtol`. -/
theorem strtol_spec : StrtolSpec strtol := by
  have key : ∀ s ws sg ds rest, LongForm s ws sg ds rest →
      afterSpaces s = sg.text ++ (ds ++ rest) ∧ spaces s = ws ∧
      parseSign (afterSpaces s) = (sg, ds ++ rest) ∧ digits (ds ++ rest) = ds ∧ ds ≠ [] := by
    rintro s ws sg ds rest ⟨rfl, hws, hds, hne, hr⟩
    have h := spaces_append hws (t := sg.text ++ (ds ++ rest)) (fun c hc => by
      cases sg with
      | none => exact (isDigit_ne (head_digits hds hne (by simpa [Sign.text] using hc))).2.2.2.1
      | plus => simp [Sign.text] at hc; subst hc; decide
      | minus => simp [Sign.text] at hc; subst hc; decide)
    simp only [List.append_assoc]
    refine ⟨h.2, h.1, ?_, (digits_append hds hr).1, hne⟩
    rw [h.2]
    exact parseSign_append sg (fun _ c hc => by
      have := isDigit_ne (head_digits hds hne hc)
      exact ⟨this.1, this.2.1⟩)
  refine ⟨?_, ?_, ?_, ?_⟩
  · intro s ws sg ds rest h hv
    obtain ⟨h1, h2, h3, h4, h5⟩ := key _ _ _ _ _ h
    unfold strtol
    simp only [h2, h3, h4, h5, if_false]
    rw [if_neg (by have := hv.2; omega), if_neg (by have := hv.1; omega)]
  · intro s ws sg ds rest h hv
    obtain ⟨h1, h2, h3, h4, h5⟩ := key _ _ _ _ _ h
    unfold strtol
    simp only [h2, h3, h4, h5, if_false]
    rw [if_pos hv]
  · intro s ws sg ds rest h hv
    obtain ⟨h1, h2, h3, h4, h5⟩ := key _ _ _ _ _ h
    unfold strtol
    simp only [h2, h3, h4, h5, if_false]
    rw [if_neg (by omega), if_pos hv]
  · intro s h
    unfold strtol
    dsimp only
    have : digits (parseSign (afterSpaces s)).2 = [] := by
      by_contra hc
      apply h
      refine ⟨spaces s, (parseSign (afterSpaces s)).1, digits (parseSign (afterSpaces s)).2,
        afterDigits (parseSign (afterSpaces s)).2, ?_, ?_, ?_, hc, ?_⟩
      · have e1 : digits (parseSign (afterSpaces s)).2 ++ afterDigits (parseSign (afterSpaces s)).2
            = (parseSign (afterSpaces s)).2 := List.takeWhile_append_dropWhile
        have e2 : (parseSign (afterSpaces s)).1.text ++ (parseSign (afterSpaces s)).2 = afterSpaces s := by
          cases afterSpaces s with
          | nil => rfl
          | cons c r =>
            by_cases h1 : c = '+'
            · simp [parseSign, h1, Sign.text]
            · by_cases h2 : c = '-'
              · simp [parseSign, h2, Sign.text]
              · simp [parseSign, h1, h2, Sign.text]
        have e3 : spaces s ++ afterSpaces s = s := List.takeWhile_append_dropWhile
        rw [List.append_assoc, List.append_assoc, e1, e2, e3]
      · intro c hc
        have := List.all_takeWhile (l := s) (p := fun c => decide (IsSpace c))
        simpa using List.all_eq_true.mp this c hc
      · intro c hc
        have := List.all_takeWhile (l := (parseSign (afterSpaces s)).2) (p := fun c : Char => c.isDigit)
        exact List.all_eq_true.mp this c hc
      · intro c hc
        have h := List.head?_dropWhile_not (fun c : Char => c.isDigit) (parseSign (afterSpaces s)).2
        unfold afterDigits at hc
        rw [hc] at h
        simpa using h
    rw [if_pos this]
    exact ⟨rfl, rfl⟩

/-- The library built from these. -/
noncomputable def libc : Libc XR := { strtol := strtol, strtod := strtod, strerror := fun _ => [] }

end Witness
end CP
