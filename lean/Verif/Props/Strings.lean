import Verif.Props.Safety
import Verif.Model.ReadFile
import Verif.Proofs.LibcWitness
/-
Properties C27-C31: splitting, number parsing, boundary files.
-/
namespace CP.Props
open CP.Spec

/-! ## C27 -/

theorem intercalate_snoc {α : Type} (sep : List α) (l : List (List α)) (a : List α) (h : l ≠ []) :
    List.intercalate sep (l ++ [a]) = List.intercalate sep l ++ (sep ++ a) := by
  induction l with
  | nil => exact absurd rfl h
  | cons x l ih =>
    cases l with
    | nil => simp [List.intercalate]
    | cons y l =>
      have := ih (by simp)
      simp only [List.cons_append, List.intercalate_cons_cons, List.append_assoc] at this ⊢
      rw [this]

theorem intercalate_extend {α : Type} (sep : List α) (l : List (List α)) (a : List α) (c : α) :
    List.intercalate sep (l ++ [a ++ [c]]) = List.intercalate sep (l ++ [a]) ++ [c] := by
  by_cases h : l = []
  · subst h; simp [List.intercalate]
  · rw [intercalate_snoc sep l _ h, intercalate_snoc sep l _ h]; simp

theorem split_spec (s : Str) (d : Char) :
    Sat NoFault (fun P => List.intercalate [d] P = s ∧ (∀ p ∈ P, d ∉ p) ∧ P.length = s.count d + 1) (split s d) := by
  unfold split
  let piece : Int × Int → Str := fun q => (s.drop q.1.toNat).take (q.2 - q.1).toNat
  refine Sat.bind (Sat.forRange (fun i (st : List Str × Int) => 0 ≤ st.2 ∧ st.2 ≤ i ∧
      List.intercalate [d] (st.1 ++ [piece (st.2, i)]) = s.take i.toNat ∧
      (∀ p ∈ st.1 ++ [piece (st.2, i)], d ∉ p) ∧
      (st.1 ++ [piece (st.2, i)]).length = (s.take i.toNat).count d + 1) (by omega) ?_ ?_) ?_
  · simp [piece, List.intercalate]
  · rintro i ⟨subs, start⟩ hi0 hi1 ⟨h0, h1, h2, h3, h4⟩
    dsimp only at h0 h1 h2 h3 h4 ⊢
    obtain ⟨c, hc⟩ := exists_has hi0 hi1
    rw [rd_eq hc, M_ok_bind]
    have hs : s.take (i + 1).toNat = s.take i.toNat ++ [c] := by
      have e : (i + 1).toNat = i.toNat + 1 := by omega
      rw [e, List.take_add_one, hc.2]
      rfl
    by_cases hcd : c = d
    · subst hcd
      rw [if_pos rfl]
      have : substr s start (i - start) = .ok (piece (start, i)) := by
        unfold substr
        rw [if_pos ⟨h0, by omega⟩]
      rw [this, M_ok_bind]
      refine Sat.ok ⟨by dsimp only; omega, le_rfl, ?_, ?_, ?_⟩
      · have : piece (i + 1, i + 1) = [] := by simp [piece]
        dsimp only
        rw [this, intercalate_snoc _ _ _ (by simp), h2, hs]
        simp
      · have : piece (i + 1, i + 1) = [] := by simp [piece]
        dsimp only
        rw [this]
        intro p hp
        rcases List.mem_append.mp hp with hp | hp
        · exact h3 p hp
        · simp at hp; subst hp; simp
      · dsimp only
        rw [hs]
        simp at h4 ⊢
        omega
    · rw [if_neg hcd]
      have hp : piece (start, i + 1) = piece (start, i) ++ [c] := by
        show (s.drop start.toNat).take (i + 1 - start).toNat = (s.drop start.toNat).take (i - start).toNat ++ [c]
        have e : (i + 1 - start).toNat = (i - start).toNat + 1 := by omega
        rw [e, List.take_add_one, List.getElem?_drop]
        have e2 : start.toNat + (i - start).toNat = i.toNat := by omega
        rw [e2, hc.2]
        rfl
      refine Sat.ok ⟨h0, by dsimp only; omega, ?_, ?_, ?_⟩
      · dsimp only
        rw [hp, intercalate_extend, h2, hs]
      · dsimp only
        rw [hp]
        intro p hp
        rcases List.mem_append.mp hp with hp | hp
        · exact h3 p (by simp [hp])
        · have hl := h3 (piece (start, i)) (by simp)
          simp at hp
          subst hp
          simp only [List.mem_append, List.mem_singleton, not_or]
          exact ⟨hl, fun h => hcd h.symm⟩
      · dsimp only
        rw [hs, List.count_append]
        have : List.count d [c] = 0 := by simp [hcd]
        rw [this]
        simp at h4 ⊢
        omega
  · rintro ⟨subs, start⟩ ⟨h0, h1, h2, h3, h4⟩
    dsimp only at h0 h1 h2 h3 h4 ⊢
    have : substr s start (s.length - start) = .ok (piece (start, s.length)) := by
      unfold substr
      rw [if_pos ⟨h0, h1⟩]
    rw [this, M_ok_bind]
    simp only [Int.toNat_natCast, List.take_length] at h2 h4
    exact Sat.ok ⟨h2, h3, h4⟩

/-- C27: `split` returns pieces without the delimiter, which joined with the delimiter give the string
back, and there is one more piece than there are delimiters; it never throws. -/
theorem C27_split (s : Str) (d : Char) :
    ∃ P, split s d = .ok P ∧ List.intercalate [d] P = s ∧ (∀ p ∈ P, d ∉ p) ∧ P.length = s.count d + 1 :=
  (split_spec s d).exists_ok

theorem append_cons_inj {d : Char} : ∀ {a c X Y : Str}, d ∉ a → d ∉ c → a ++ d :: X = c ++ d :: Y → a = c ∧ X = Y := by
  intro a
  induction a with
  | nil =>
    intro c X Y _ hc h
    cases c with
    | nil => simpa using h
    | cons y c => simp at h hc; exact absurd h.1 hc.1
  | cons x a ih =>
    intro c X Y ha hc h
    cases c with
    | nil => simp at h ha; exact absurd h.1.symm ha.1
    | cons y c =>
      simp only [List.cons_append, List.cons.injEq] at h
      have := ih (fun hm => ha (by simp [hm])) (fun hm => hc (by simp [hm])) h.2
      rw [h.1, this.1, this.2]
      exact ⟨rfl, rfl⟩

theorem intercalate_inj {d : Char} : ∀ (P Q : List Str), P ≠ [] → Q ≠ [] → (∀ p ∈ P, d ∉ p) → (∀ p ∈ Q, d ∉ p) →
    List.intercalate [d] P = List.intercalate [d] Q → P = Q := by
  intro P
  induction P with
  | nil => intro Q h; exact absurd rfl h
  | cons a P ih =>
    intro Q _ hQ hp hq h
    cases Q with
    | nil => exact absurd rfl hQ
    | cons c Q =>
      have ha : d ∉ a := hp a (by simp)
      have hc : d ∉ c := hq c (by simp)
      cases P with
      | nil =>
        cases Q with
        | nil => simpa [List.intercalate] using h
        | cons c2 Q =>
          exfalso
          rw [List.intercalate_cons_cons] at h
          rw [List.intercalate_singleton] at h
          rw [h] at ha
          simp at ha
      | cons a2 P =>
        cases Q with
        | nil =>
          exfalso
          rw [List.intercalate_cons_cons] at h
          rw [List.intercalate_singleton] at h
          rw [← h] at hc
          simp at hc
        | cons c2 Q =>
          rw [List.intercalate_cons_cons, List.intercalate_cons_cons] at h
          simp only [List.append_assoc, List.singleton_append] at h
          have := append_cons_inj ha hc h
          rw [this.1, ih (c2 :: Q) (by simp) (by simp) (fun p hp' => hp p (by simp [hp']))
            (fun p hp' => hq p (by simp [hp'])) this.2]

/-- C27 (inverse): splitting a join of delimiter-free pieces gives the pieces back. -/
theorem C27_split_join (P : List Str) (d : Char) (hne : P ≠ []) (hP : ∀ p ∈ P, d ∉ p) :
    split (List.intercalate [d] P) d = .ok P := by
  obtain ⟨Q, h1, h2, h3, h4⟩ := C27_split (List.intercalate [d] P) d
  rw [h1, intercalate_inj Q P (by rintro rfl; simp at h4) hne h3 hP h2]

example : split "0.1,,0.2,".toList ',' = .ok ["0.1".toList, [], "0.2".toList, []] := by
  have := C27_split_join ["0.1".toList, [], "0.2".toList, []] ',' (by simp) (by decide)
  exact this

/-! ## C29 -/

variable {F : Type} [FOps F]

theorem sign_text_ne (sg : Sign) {x : Char} (hx : x ≠ '+' ∧ x ≠ '-') : x ∉ sg.text := by
  cases sg <;> simp [Sign.text, hx.1, hx.2]

theorem allDigits_ne {l : Str} (h : AllDigits l) {x : Char} (hx : x.isDigit = false) : x ∉ l := fun hm => by
  rw [h x hm] at hx; cases hx

/-- A character that is not a digit, sign, point or exponent letter does not occur in a number. -/
theorem text_ne {d : Dec} (hd : d.WF) {x : Char} (hx : x.isDigit = false) (h : x ≠ '+' ∧ x ≠ '-' ∧ x ≠ '.' ∧ x ≠ 'e' ∧ x ≠ 'E') :
    x ∉ d.text := by
  unfold Dec.text Dec.fracText Dec.expText
  simp only [List.mem_append, not_or]
  refine ⟨⟨⟨sign_text_ne _ ⟨h.1, h.2.1⟩, allDigits_ne hd.1 hx⟩, ?_⟩, ?_⟩
  · cases hf : d.frac with
    | none => simp
    | some f =>
      have : AllDigits f := by have := hd.2.1; simpa [Dec.fracDigits, hf] using this
      simp only [List.mem_cons, not_or]
      exact ⟨h.2.2.1, allDigits_ne this hx⟩
  · cases he : d.exp with
    | none => simp
    | some e =>
      obtain ⟨c, s, ds⟩ := e
      obtain ⟨h1, h2, _⟩ := hd.2.2.2 c s ds he
      simp only [List.mem_cons, List.mem_append, not_or]
      refine ⟨?_, sign_text_ne _ ⟨h.1, h.2.1⟩, allDigits_ne h2 hx⟩
      rintro rfl
      rcases h1 with h1 | h1
      · exact h.2.2.2.1 h1
      · exact h.2.2.2.2 h1

theorem space_ne {ws : Str} (h : ∀ c ∈ ws, IsSpace c) {x : Char} (hx : ¬ IsSpace x) : x ∉ ws := fun hm => hx (h x hm)

theorem text_ne_nil {d : Dec} (hd : d.WF) : d.text ≠ [] := by
  intro h
  apply hd.2.2.1
  unfold Dec.text Dec.fracText at h
  unfold Dec.fracDigits
  simp only [List.append_eq_nil_iff] at h
  obtain ⟨⟨⟨_, h1⟩, h2⟩, _⟩ := h
  rw [h1]
  cases hf : d.frac with
  | none => rfl
  | some f => rw [hf] at h2; cases h2

theorem cStr_number {ws : Str} {d : Dec} (rest : Str) (hws : ∀ c ∈ ws, IsSpace c) (hd : d.WF) :
    cStr (ws ++ d.text ++ rest) = ws ++ d.text ++ cStr rest := by
  unfold cStr
  rw [List.takeWhile_append_of_pos]
  intro c hc
  rw [decide_eq_true_iff]
  rintro rfl
  rcases List.mem_append.mp hc with hc | hc
  · exact space_ne hws (by decide) hc
  · exact text_ne hd (by decide) (by decide) hc

theorem endsNumber_cStr {rest : Str} (h : EndsNumber rest) : EndsNumber (cStr rest) := by
  intro c hc
  cases rest with
  | nil => cases hc
  | cons x r =>
    unfold cStr at hc
    rw [List.takeWhile_cons] at hc
    split at hc
    · exact h c hc
    · cases hc

/-- C29: `string_to_double` on white space, a decimal number and any text that does not continue the
number returns the number: the rest of the field is ignored without error. -/
theorem C29_prefix {libc : Libc F} {rnd : ℝ → F} {inRange : ℝ → Prop} (hspec : StrtodSpec libc.strtod rnd inRange)
    (ws : Str) (d : Dec) (rest : Str) (hws : ∀ c ∈ ws, IsSpace c) (hd : d.WF) (hr : EndsNumber rest)
    (hin : inRange d.value) : stringToDouble libc (ws ++ d.text ++ rest) = .ok (rnd d.value) := by
  unfold stringToDouble
  dsimp only
  rw [cStr_number rest hws hd, hspec.number ws d (cStr rest) hws hd (endsNumber_cStr hr) hin]
  have : (ws ++ d.text).length ≠ 0 := by
    have := text_ne_nil hd
    have : 0 < d.text.length := List.length_pos_iff.mpr this
    simp
    intro h
    omega
  rw [if_neg (by simp only [this, decide_false, Bool.and_false]; exact Bool.false_ne_true), if_neg (by simp)]

/-- C29: numbers that the floating point format cannot represent are reported as errors. -/
theorem C29_out_of_range {libc : Libc F} {rnd : ℝ → F} {inRange : ℝ → Prop} (hspec : StrtodSpec libc.strtod rnd inRange)
    (ws : Str) (d : Dec) (rest : Str) (hws : ∀ c ∈ ws, IsSpace c) (hd : d.WF) (hr : EndsNumber rest)
    (hin : ¬ inRange d.value) : ∃ msg, stringToDouble libc (ws ++ d.text ++ rest) = .error (.runtimeError msg) := by
  unfold stringToDouble
  dsimp only
  obtain ⟨h1, h2⟩ := hspec.outOfRange ws d (cStr rest) hws hd (endsNumber_cStr hr) hin
  rw [cStr_number rest hws hd]
  split
  · exact ⟨_, rfl⟩
  · rw [if_pos (by rw [h1]; decide)]
    exact ⟨_, rfl⟩

/-- The number written `0.5`. -/
def dec05 : Dec := ⟨.none, ['0'], some ['5'], none⟩
theorem dec05_wf : dec05.WF := by
  refine ⟨?_, ?_, by simp [dec05], by simp [dec05]⟩ <;> simp [AllDigits, dec05, Dec.fracDigits]
theorem dec05_value : dec05.value = 1 / 2 := by
  have h : natOf ['0', '5'] = 5 := by decide
  simp only [Dec.value, dec05, Sign.unit, Dec.fracDigits, Dec.expVal, Option.getD_some, List.cons_append, List.nil_append, h]
  norm_num
theorem dec05_text : dec05.text = "0.5".toList := by decide

/-- The field `0.5 0.6` parses as 1/2: the second number vanishes without an error. -/
example : stringToDouble Witness.libc "0.5 0.6".toList = .ok (XR.fin (1/2)) := by
  have := C29_prefix (libc := Witness.libc) Witness.strtod_spec [] dec05 " 0.6".toList (by simp) dec05_wf
    (by intro c hc; simp at hc; subst hc; decide) trivial
  rw [dec05_value] at this
  exact this

/-! ## C28 -/

/-- A field of a boundary line: white space, a decimal number, and ignored text. -/
structure Field where
  ws : Str
  num : Dec
  rest : Str

/-- Its text. -/
def Field.text (f : Field) : Str := f.ws ++ f.num.text ++ f.rest

/-- The field is well-formed and contains no comma. -/
def Field.WF (f : Field) : Prop := (∀ c ∈ f.ws, IsSpace c) ∧ f.num.WF ∧ EndsNumber f.rest ∧ ',' ∉ f.rest

theorem Field.no_comma {f : Field} (h : f.WF) : ',' ∉ f.text := by
  unfold Field.text
  simp only [List.mem_append, not_or]
  exact ⟨⟨space_ne h.1 (by decide), text_ne h.2.1 (by decide) (by decide)⟩, h.2.2.2⟩

theorem Field.text_ne_nil {f : Field} (h : f.WF) : f.text ≠ [] := by
  unfold Field.text
  simp [Props.text_ne_nil h.2.1]

theorem mapM_ok {α β : Type} (f : α → M β) (g : α → β) (l : List α) (h : ∀ x ∈ l, f x = .ok (g x)) :
    l.mapM f = .ok (l.map g) := by
  induction l with
  | nil => rfl
  | cons x l ih =>
    rw [List.mapM_cons, h x (by simp), M_ok_bind, ih (fun y hy => h y (by simp [hy])), M_ok_bind]
    rfl

theorem mapM_field {libc : Libc F} {rnd : ℝ → F} {inRange : ℝ → Prop} (hspec : StrtodSpec libc.strtod rnd inRange)
    (fs : List Field) (hf : ∀ f ∈ fs, f.WF) (hin : ∀ f ∈ fs, inRange f.num.value) :
    (fs.map Field.text).mapM (stringToDouble libc) = .ok (fs.map fun f => rnd f.num.value) := by
  rw [List.mapM_map]
  exact mapM_ok _ (fun f => rnd f.num.value) fs fun f hfm =>
    C29_prefix hspec f.ws f.num f.rest (hf f hfm).1 (hf f hfm).2.1 (hf f hfm).2.2.1 (hin f hfm)

theorem dropTrailingEmpty_snoc (P : List Str) : dropTrailingEmpty (P ++ [[]]) = P := by
  unfold dropTrailingEmpty
  rw [if_pos (by simp)]
  simp

theorem dropTrailingEmpty_keep {P : List Str} (h : P.getLast? ≠ some []) : dropTrailingEmpty P = P := by
  unfold dropTrailingEmpty
  rw [if_neg (fun hc => h hc.2)]

/-- C28: a line of comma-separated numeric fields parses into exactly one number per field, in order. -/
theorem C28_line {libc : Libc F} {rnd : ℝ → F} {inRange : ℝ → Prop} (hspec : StrtodSpec libc.strtod rnd inRange)
    (fs : List Field) (hne : fs ≠ []) (hf : ∀ f ∈ fs, f.WF) (hin : ∀ f ∈ fs, inRange f.num.value) :
    readCommaDelimitedDoubles libc (List.intercalate [','] (fs.map Field.text)) = .ok (fs.map fun f => rnd f.num.value) := by
  unfold readCommaDelimitedDoubles
  rw [C27_split_join (fs.map Field.text) ',' (by simpa using hne) (by
    intro p hp
    obtain ⟨f, hfm, rfl⟩ := List.mem_map.mp hp
    exact Field.no_comma (hf f hfm)), M_ok_bind, dropTrailingEmpty_keep, mapM_field hspec fs hf hin]
  intro h
  rw [List.getLast?_map, Option.map_eq_some_iff] at h
  obtain ⟨f, h1, h2⟩ := h
  exact Field.text_ne_nil (hf f (List.mem_of_getLast? h1)) h2

/-- C28: one trailing comma is ignored. -/
theorem C28_trailing_comma {libc : Libc F} {rnd : ℝ → F} {inRange : ℝ → Prop}
    (hspec : StrtodSpec libc.strtod rnd inRange) (fs : List Field) (hne : fs ≠ []) (hf : ∀ f ∈ fs, f.WF)
    (hin : ∀ f ∈ fs, inRange f.num.value) :
    readCommaDelimitedDoubles libc (List.intercalate [','] (fs.map Field.text) ++ [','])
      = .ok (fs.map fun f => rnd f.num.value) := by
  unfold readCommaDelimitedDoubles
  have e : List.intercalate [','] (fs.map Field.text) ++ [','] = List.intercalate [','] (fs.map Field.text ++ [[]]) := by
    rw [intercalate_snoc _ _ _ (by simpa using hne)]; rfl
  rw [e, C27_split_join _ ',' (by simp) (by
    intro p hp
    rcases List.mem_append.mp hp with hp | hp
    · obtain ⟨f, hfm, rfl⟩ := List.mem_map.mp hp
      exact Field.no_comma (hf f hfm)
    · simp at hp; subst hp; simp), M_ok_bind, dropTrailingEmpty_snoc, mapM_field hspec fs hf hin]

/-- C28: an empty line is the empty list. -/
theorem C28_empty (libc : Libc F) : readCommaDelimitedDoubles libc [] = .ok [] := by
  unfold readCommaDelimitedDoubles
  have := C27_split_join [[]] ',' (by simp) (by simp)
  rw [List.intercalate_singleton] at this
  rw [this, M_ok_bind]
  rfl

theorem mapM_error {α β : Type} (f : α → M β) (l : List α) (hc : ∀ x ∈ l, Clean (f x))
    (h : ∃ x ∈ l, ∃ msg, f x = .error (.runtimeError msg)) : ∃ msg, l.mapM f = .error (.runtimeError msg) := by
  induction l with
  | nil => obtain ⟨x, hx, _⟩ := h; cases hx
  | cons y l ih =>
    rw [List.mapM_cons]
    rcases hc y (by simp) with ⟨a, ha⟩ | ⟨msg, hm⟩
    · rw [ha, M_ok_bind]
      have : ∃ msg, l.mapM f = .error (.runtimeError msg) := by
        apply ih (fun x hx => hc x (by simp [hx]))
        obtain ⟨x, hx, msg, hm⟩ := h
        rcases List.mem_cons.mp hx with rfl | hx
        · rw [ha] at hm; cases hm
        · exact ⟨x, hx, msg, hm⟩
      obtain ⟨msg, hm⟩ := this
      rw [hm]
      exact ⟨msg, rfl⟩
    · rw [hm]; exact ⟨msg, rfl⟩


theorem mapM_clean {α β : Type} (f : α → M β) (l : List α) (hc : ∀ x ∈ l, Clean (f x)) : Clean (l.mapM f) := by
  induction l with
  | nil => exact Or.inl ⟨[], rfl⟩
  | cons y l ih =>
    rw [List.mapM_cons]
    rcases hc y (by simp) with ⟨a, ha⟩ | ⟨msg, hm⟩
    · rw [ha, M_ok_bind]
      rcases ih (fun x hx => hc x (by simp [hx])) with ⟨as, has⟩ | ⟨msg, hm⟩
      · rw [has]; exact Or.inl ⟨_, rfl⟩
      · rw [hm]; exact Or.inr ⟨msg, rfl⟩
    · rw [hm]; exact Or.inr ⟨msg, rfl⟩

theorem stringToDouble_clean (libc : Libc F) (s : Str) : Clean (stringToDouble libc s) := by
  unfold stringToDouble
  dsimp only
  split
  · exact Or.inr ⟨_, rfl⟩
  · split
    · exact Or.inr ⟨_, rfl⟩
    · exact Or.inl ⟨_, rfl⟩

/-- C28: whatever the line and whatever `strtod` does, parsing returns a list or throws `runtime_error`
(in particular `substr` never throws `out_of_range`). -/
theorem C28_outcomes (libc : Libc F) (line : Str) : Clean (readCommaDelimitedDoubles libc line) := by
  unfold readCommaDelimitedDoubles
  obtain ⟨P, hP, _⟩ := C27_split line ','
  rw [hP, M_ok_bind]
  exact mapM_clean _ _ fun x _ => stringToDouble_clean libc x

theorem stringToDouble_notNumber {libc : Libc F} {rnd : ℝ → F} {inRange : ℝ → Prop}
    (hspec : StrtodSpec libc.strtod rnd inRange) (h0 : FOps.eq (rnd 0) FOps.zero = true) (s : Str)
    (h : NotNumber (cStr s)) : ∃ msg, stringToDouble libc s = .error (.runtimeError msg) := by
  unfold stringToDouble
  dsimp only
  obtain ⟨h1, h2⟩ := hspec.noNumber _ h
  rw [h1, h2, if_pos (by rw [h0]; rfl)]
  exact ⟨_, rfl⟩

/-- C28: if any comma-separated field is empty or does not begin with a number, the line is rejected;
only an empty field after the last comma is tolerated. -/
theorem C28_bad_field {libc : Libc F} {rnd : ℝ → F} {inRange : ℝ → Prop} (hspec : StrtodSpec libc.strtod rnd inRange)
    (h0 : FOps.eq (rnd 0) FOps.zero = true) (before after : List Str) (bad : Str)
    (hc : ∀ p ∈ before ++ bad :: after, ',' ∉ p) (hbad : NotNumber (cStr bad)) (hlast : bad ≠ [] ∨ after ≠ []) :
    ∃ msg, readCommaDelimitedDoubles libc (List.intercalate [','] (before ++ bad :: after)) = .error (.runtimeError msg) := by
  unfold readCommaDelimitedDoubles
  rw [C27_split_join _ ',' (by simp) hc, M_ok_bind]
  refine mapM_error _ _ (fun x _ => stringToDouble_clean libc x) ⟨bad, ?_, stringToDouble_notNumber hspec h0 bad hbad⟩
  unfold dropTrailingEmpty
  split
  · next h =>
    have e : (before ++ bad :: after).take ((before ++ bad :: after).length - 1) = (before ++ bad :: after).dropLast :=
      List.dropLast_eq_take.symm
    rw [e]
    cases after with
    | nil =>
      rcases hlast with hl | hl
      · exfalso
        have := h.2
        simp at this
        exact hl this
      · exact absurd rfl hl
    | cons a as => simp [List.dropLast_append_cons]
  · simp

theorem notNumber_nil : NotNumber [] :=
  ⟨[], .none, [], rfl, by simp, by simp, by simp, by simp⟩

/-- `0.5,,0.5` is rejected, as is a line with only a comma. -/
example : (∃ msg, readCommaDelimitedDoubles Witness.libc "0.5,,0.5".toList = .error (.runtimeError msg)) ∧
    ∃ msg, readCommaDelimitedDoubles Witness.libc ",".toList = .error (.runtimeError msg) := by
  constructor
  · exact C28_bad_field (libc := Witness.libc) Witness.strtod_spec (by show XR.eq _ _ = _; simp [FOps.zero, FOps.ofInt, XR.eq])
      ["0.5".toList] ["0.5".toList] [] (by decide) notNumber_nil (Or.inr (by simp))
  · exact C28_bad_field (libc := Witness.libc) Witness.strtod_spec (by show XR.eq _ _ = _; simp [FOps.zero, FOps.ofInt, XR.eq])
      [] [[]] [] (by decide) notNumber_nil (Or.inr (by simp))

/-- `0.5, 0.5 ,` parses as two numbers. -/
example : readCommaDelimitedDoubles Witness.libc "0.5, 0.5 ,".toList = .ok [XR.fin (1/2), XR.fin (1/2)] := by
  have := C28_trailing_comma (libc := Witness.libc) Witness.strtod_spec [⟨[], dec05, []⟩, ⟨[' '], dec05, [' ']⟩] (by simp)
    (by
      intro f hf
      simp only [List.mem_cons, List.not_mem_nil, or_false] at hf
      rcases hf with rfl | rfl
      · exact ⟨by simp, dec05_wf, (by intro c hc; cases hc), by simp⟩
      · exact ⟨(by simp; decide), dec05_wf, (by intro c hc; simp at hc; subst hc; decide), by simp⟩)
    (fun _ _ => trivial)
  simp only [List.map_cons, List.map_nil, dec05_value] at this
  exact this

/-! ## C30 -/

theorem getline_line (l r : Str) (h : '\n' ∉ l) :
    getline { rest := l ++ '\n' :: r, eof := false } = .ok (l, { rest := r, eof := false }) := by
  have hl : ∀ c ∈ l, decide (c ≠ '\n') = true := by
    intro c hc
    rw [decide_eq_true_iff]
    rintro rfl
    exact h hc
  unfold getline
  rw [if_neg (by simp), if_neg (by simp), List.takeWhile_append_of_pos hl, List.dropWhile_append_of_pos hl]
  simp

theorem getline_last (l : Str) (h : '\n' ∉ l) (hne : l ≠ []) :
    getline { rest := l, eof := false } = .ok (l, { rest := [], eof := true }) := by
  have hl : ∀ c ∈ l, decide (c ≠ '\n') = true := by
    intro c hc
    rw [decide_eq_true_iff]
    rintro rfl
    exact h hc
  have h1 := List.takeWhile_append_of_pos (l₂ := []) hl
  have h2 := List.dropWhile_append_of_pos (l₂ := []) hl
  rw [List.append_nil] at h1 h2
  unfold getline
  rw [if_neg (by simp), if_neg (by simpa using hne), h1, h2]
  simp

/-- The text has a first and a second line, `l1` and `l2`: the second line is ended by a newline, or by the
end of the file if it is not empty. -/
def FirstTwoLines (text l1 l2 : Str) : Prop :=
  '\n' ∉ l1 ∧ '\n' ∉ l2 ∧ ((∃ rest, text = l1 ++ '\n' :: (l2 ++ '\n' :: rest)) ∨ (l2 ≠ [] ∧ text = l1 ++ '\n' :: l2))

theorem getline_second {text l1 l2 : Str} (h : FirstTwoLines text l1 l2) :
    ∃ f f', getline { rest := text, eof := false } = .ok (l1, f) ∧ getline f = .ok (l2, f') := by
  obtain ⟨h1, h2, ⟨rest, rfl⟩ | ⟨hne, rfl⟩⟩ := h
  · exact ⟨_, _, getline_line l1 _ h1, getline_line l2 rest h2⟩
  · exact ⟨_, _, getline_line l1 _ h1, getline_last l2 h2 hne⟩

/-- C30: the result is that of parsing the first two lines; nothing else in the file matters. -/
theorem C30_two_lines (libc : Libc F) (fs : Str → FileState) (name text l1 l2 : Str) (hfs : fs name = .contents text)
    (h : FirstTwoLines text l1 l2) :
    readAndCheckBoundariesFile libc fs name = (do
      let b ← readCommaDelimitedDoubles libc l1
      let B ← readCommaDelimitedDoubles libc l2
      .ok (b, B)) := by
  obtain ⟨f, f', h1, h2⟩ := getline_second h
  unfold readAndCheckBoundariesFile
  rw [hfs]
  dsimp only
  unfold readNextLine
  rw [h1, M_ok_bind]
  dsimp only
  cases readCommaDelimitedDoubles libc l1 with
  | error e => rfl
  | ok b =>
    simp only [M_ok_bind]
    rw [h2, M_ok_bind]
    dsimp only
    cases readCommaDelimitedDoubles libc l2 <;> rfl

/-- C30: two files with the same first two lines give the same result. -/
theorem C30_rest_ignored (libc : Libc F) (fs : Str → FileState) (name name' text text' l1 l2 : Str)
    (hfs : fs name = .contents text) (hfs' : fs name' = .contents text')
    (h : FirstTwoLines text l1 l2) (h' : FirstTwoLines text' l1 l2) :
    readAndCheckBoundariesFile libc fs name = readAndCheckBoundariesFile libc fs name' := by
  rw [C30_two_lines libc fs name text l1 l2 hfs h, C30_two_lines libc fs name' text' l1 l2 hfs' h']

/-- C30: a file whose first line parses but which has no second line raises `ifstream::failure`. -/
theorem C30_no_second_line (libc : Libc F) (fs : Str → FileState) (name l1 : Str) (b : List F)
    (h1 : '\n' ∉ l1) (hb : readCommaDelimitedDoubles libc l1 = .ok b)
    (hfs : fs name = .contents l1 ∨ fs name = .contents (l1 ++ ['\n'])) :
    readAndCheckBoundariesFile libc fs name = .error .ioFailure := by
  have key : ∀ text f, getline { rest := text, eof := false } = .ok (l1, f) → (f.eof = true ∨ f.rest = []) →
      fs name = .contents text → readAndCheckBoundariesFile libc fs name = .error .ioFailure := by
    intro text f hg hf hfs
    unfold readAndCheckBoundariesFile
    rw [hfs]
    dsimp only
    unfold readNextLine
    rw [hg, M_ok_bind]
    dsimp only
    rw [hb]
    simp only [M_ok_bind]
    have : getline f = .error .ioFailure := by
      unfold getline
      rcases hf with hf | hf
      · rw [if_pos hf]
      · rw [if_pos hf]; split <;> rfl
    rw [this]
    rfl
  rcases hfs with hfs | hfs
  · by_cases hne : l1 = []
    · subst hne
      unfold readAndCheckBoundariesFile
      rw [hfs]
      rfl
    · exact key _ _ (getline_last l1 h1 hne) (Or.inl rfl) hfs
  · exact key _ _ (getline_line l1 [] h1) (Or.inr rfl) hfs

/-- C30: an unreadable file raises `runtime_error` with a message naming the file. -/
theorem C30_unreadable (libc : Libc F) (fs : Str → FileState) (name : Str) (h : fs name = .unreadable) :
    readAndCheckBoundariesFile libc fs name
      = .error (.runtimeError (String.ofList ("Unable to read input file '".toList ++ name ++ ['\'']))) := by
  unfold readAndCheckBoundariesFile
  rw [h]
  rfl

theorem split_first {c : Char} {l : Str} (h : c ∈ l) : ∃ a r, l = a ++ c :: r ∧ c ∉ a := by
  induction l with
  | nil => cases h
  | cons x l ih =>
    by_cases hx : x = c
    · exact ⟨[], l, by simp [hx], by simp⟩
    · have : c ∈ l := by
        rcases List.mem_cons.mp h with h | h
        · exact absurd h.symm hx
        · exact h
      obtain ⟨a, r, rfl, ha⟩ := ih this
      refine ⟨x :: a, r, rfl, ?_⟩
      simp only [List.mem_cons, not_or]
      exact ⟨fun h => hx h.symm, ha⟩

/-- Every text has two lines, or is one line with at most a newline after it. -/
theorem lines_cases (text : Str) :
    (∃ l1 l2, FirstTwoLines text l1 l2) ∨ ∃ l1, '\n' ∉ l1 ∧ (text = l1 ∨ text = l1 ++ ['\n']) := by
  by_cases h : '\n' ∈ text
  · obtain ⟨l1, r, rfl, h1⟩ := split_first h
    by_cases h2 : '\n' ∈ r
    · obtain ⟨l2, r2, rfl, h3⟩ := split_first h2
      exact Or.inl ⟨l1, l2, h1, h3, Or.inl ⟨r2, rfl⟩⟩
    · by_cases hr : r = []
      · subst hr; exact Or.inr ⟨l1, h1, Or.inr rfl⟩
      · exact Or.inl ⟨l1, r, h1, h2, Or.inr ⟨hr, rfl⟩⟩
  · exact Or.inr ⟨text, h, Or.inl rfl⟩

/-- C30: reading succeeds exactly when the file is readable, has two lines, and both parse. -/
theorem C30_success_iff (libc : Libc F) (fs : Str → FileState) (name : Str) (b B : List F) :
    readAndCheckBoundariesFile libc fs name = .ok (b, B) ↔
      ∃ text l1 l2, fs name = .contents text ∧ FirstTwoLines text l1 l2 ∧
        readCommaDelimitedDoubles libc l1 = .ok b ∧ readCommaDelimitedDoubles libc l2 = .ok B := by
  constructor
  · intro h
    cases hfs : fs name with
    | unreadable => rw [C30_unreadable libc fs name hfs] at h; cases h
    | badRead => unfold readAndCheckBoundariesFile at h; rw [hfs] at h; cases h
    | contents text =>
      rcases lines_cases text with ⟨l1, l2, h2⟩ | ⟨l1, h1, h2⟩
      · refine ⟨text, l1, l2, rfl, h2, ?_⟩
        rw [C30_two_lines libc fs name text l1 l2 hfs h2] at h
        cases e1 : readCommaDelimitedDoubles libc l1 with
        | error e => rw [e1] at h; cases h
        | ok b' =>
          cases e2 : readCommaDelimitedDoubles libc l2 with
          | error e => rw [e1, e2] at h; cases h
          | ok B' => rw [e1, e2] at h; cases h; exact ⟨rfl, rfl⟩
      · exfalso
        rcases C28_outcomes libc l1 with ⟨b', hb'⟩ | ⟨msg, hm⟩
        · rw [C30_no_second_line libc fs name l1 b' h1 hb' (by
            rw [hfs]; exact h2.imp (congrArg _) (congrArg _))] at h
          cases h
        · by_cases hne : text = []
          · subst hne
            unfold readAndCheckBoundariesFile at h
            rw [hfs] at h
            cases h
          · have hg : ∃ f, getline { rest := text, eof := false } = .ok (l1, f) := by
              rcases h2 with rfl | rfl
              · exact ⟨_, getline_last _ h1 hne⟩
              · exact ⟨_, getline_line _ _ h1⟩
            obtain ⟨f, hg⟩ := hg
            unfold readAndCheckBoundariesFile readNextLine at h
            rw [hfs] at h
            dsimp only at h
            rw [hg, M_ok_bind] at h
            dsimp only at h
            rw [hm] at h
            cases h
  · rintro ⟨text, l1, l2, hfs, h2, hb, hB⟩
    rw [C30_two_lines libc fs name text l1 l2 hfs h2, hb, hB]
    rfl

/-- C30: the outcome is always a pair of lists, `runtime_error` or `ifstream::failure`. -/
theorem C30_outcomes (libc : Libc F) (fs : Str → FileState) (name : Str) :
    Clean (readAndCheckBoundariesFile libc fs name) ∨ readAndCheckBoundariesFile libc fs name = .error .ioFailure := by
  unfold readAndCheckBoundariesFile readNextLine
  cases fs name with
  | unreadable => exact Or.inl (Or.inr ⟨_, rfl⟩)
  | badRead => exact Or.inr rfl
  | contents text =>
    dsimp only
    have hg : ∀ f, (∃ x, getline f = .ok x) ∨ getline f = .error .ioFailure := by
      intro f
      unfold getline
      split
      · exact Or.inr rfl
      · split
        · exact Or.inr rfl
        · left; dsimp only; split <;> exact ⟨_, rfl⟩
    rcases hg { rest := text, eof := false } with ⟨⟨l, f⟩, h⟩ | h
    · rw [h, M_ok_bind]
      dsimp only
      rcases C28_outcomes libc l with ⟨b, hb⟩ | ⟨msg, hm⟩
      · rw [hb]
        simp only [M_ok_bind]
        rcases hg f with ⟨⟨l', f'⟩, h'⟩ | h'
        · rw [h', M_ok_bind]
          dsimp only
          rcases C28_outcomes libc l' with ⟨B, hB⟩ | ⟨msg, hm⟩
          · rw [hB]; exact Or.inl (Or.inl ⟨_, rfl⟩)
          · rw [hm]; exact Or.inl (Or.inr ⟨_, rfl⟩)
        · rw [h']; exact Or.inr rfl
      · rw [hm]; exact Or.inl (Or.inr ⟨_, rfl⟩)
    · rw [h]; exact Or.inr rfl

/-- A file with an empty first line and a third line of garbage. -/
example (fs : Str → FileState) (h : fs "f".toList = .contents "\n0.5\ngarbage".toList) :
    readAndCheckBoundariesFile Witness.libc fs "f".toList = .ok ([], [XR.fin (1/2)]) := by
  rw [C30_two_lines Witness.libc fs _ _ [] "0.5".toList h ⟨by simp, by decide, Or.inl ⟨"garbage".toList, rfl⟩⟩, C28_empty,
    M_ok_bind]
  have := C28_line (libc := Witness.libc) Witness.strtod_spec [⟨[], dec05, []⟩] (by simp)
    (by
      intro f hf
      simp only [List.mem_cons, List.not_mem_nil, or_false] at hf
      subst hf
      exact ⟨by simp, dec05_wf, (by intro c hc; cases hc), by simp⟩)
    (fun _ _ => trivial)
  simp only [List.map_cons, List.map_nil, dec05_value, List.intercalate_singleton] at this
  have e : Field.text ⟨[], dec05, []⟩ = "0.5".toList := by decide
  rw [e] at this
  rw [this]
  rfl

/-! ## C31 -/

omit [FOps F] in
/-- C31: `string_to_long` returns `v` exactly on strings that (up to the first NUL) consist of optional white
space, an optional sign and digits denoting `v`, with `v` a 64-bit integer. -/
theorem C31_exact {libc : Libc F} (hspec : StrtolSpec libc.strtol) (s : Str) (v : ℤ) :
    stringToLong libc s = .ok v ↔
      ∃ ws sg ds, LongForm (cStr s) ws sg ds [] ∧ v = sg.unit * natOf ds ∧ IsLong v := by
  unfold stringToLong
  dsimp only
  by_cases hf : ∃ ws sg ds rest, LongForm (cStr s) ws sg ds rest
  · obtain ⟨ws, sg, ds, rest, h⟩ := hf
    have hlen : (ws ++ sg.text ++ ds).length ≠ 0 := by
      have := List.length_pos_iff.mpr h.2.2.2.1
      simp only [List.length_append]
      omega
    have hrest : (cStr s)[(ws ++ sg.text ++ ds).length]? = rest.head? := by
      rw [h.1, List.getElem?_append_right le_rfl]
      simp [List.head?_eq_getElem?]
    have huniq : ∀ ws' sg' ds' rest', LongForm (cStr s) ws' sg' ds' rest' → IsLong (sg.unit * (natOf ds : ℤ)) →
        IsLong (sg'.unit * (natOf ds' : ℤ)) → sg'.unit * (natOf ds' : ℤ) = sg.unit * natOf ds ∧
          (ws' ++ sg'.text ++ ds').length = (ws ++ sg.text ++ ds).length := by
      intro ws' sg' ds' rest' h' hv hv'
      have e1 := hspec.number _ _ _ _ _ h hv
      have e2 := hspec.number _ _ _ _ _ h' hv'
      rw [e1] at e2
      simp only [StrtolResult.mk.injEq] at e2
      exact ⟨e2.1.symm, e2.2.1.symm⟩
    have hnot : ∀ (r : StrtolResult), libc.strtol (cStr s) = r → r.errno = ERANGE → ∀ ws' sg' ds' rest',
        LongForm (cStr s) ws' sg' ds' rest' → ¬ IsLong (sg'.unit * (natOf ds' : ℤ)) := by
      intro r hr he ws' sg' ds' rest' h' hv'
      rw [hspec.number _ _ _ _ _ h' hv'] at hr
      rw [← hr] at he
      cases he
    by_cases hbig : 2 ^ 63 - 1 < sg.unit * (natOf ds : ℤ)
    · have e := hspec.tooLarge _ _ _ _ _ h hbig
      rw [e, if_pos (Or.inl ⟨rfl, Or.inl rfl⟩)]
      constructor
      · intro hh; cases hh
      · rintro ⟨ws', sg', ds', h', rfl, hv'⟩
        exact absurd hv' (hnot _ e rfl _ _ _ _ h')
    · by_cases hsmall : sg.unit * (natOf ds : ℤ) < -(2 ^ 63)
      · have e := hspec.tooSmall _ _ _ _ _ h hsmall
        rw [e, if_pos (Or.inl ⟨rfl, Or.inr rfl⟩)]
        constructor
        · intro hh; cases hh
        · rintro ⟨ws', sg', ds', h', rfl, hv'⟩
          exact absurd hv' (hnot _ e rfl _ _ _ _ h')
      · have hv : IsLong (sg.unit * (natOf ds : ℤ)) := ⟨by omega, by omega⟩
        rw [hspec.number _ _ _ _ _ h hv, if_neg (by simp [ERANGE]), if_neg hlen]
        dsimp only
        rw [hrest]
        cases rest with
        | nil =>
          rw [if_neg (by simp)]
          constructor
          · intro hh
            cases hh
            exact ⟨ws, sg, ds, h, rfl, hv⟩
          · rintro ⟨ws', sg', ds', h', rfl, hv'⟩
            rw [(huniq _ _ _ _ h' hv hv').1]
        | cons c r =>
          rw [if_pos (by simp)]
          constructor
          · intro hh; cases hh
          · rintro ⟨ws', sg', ds', h', rfl, hv'⟩
            exfalso
            have hl := (huniq _ _ _ _ h' hv hv').2
            have e1 := congrArg List.length h.1
            have e2 := congrArg List.length h'.1
            simp only [List.length_append, List.length_cons, List.length_nil] at e1 e2 hl
            omega
  · obtain ⟨h1, h2⟩ := hspec.noNumber _ hf
    rw [h1, h2]
    constructor
    · intro hh
      split at hh
      · cases hh
      · rw [if_pos rfl] at hh; cases hh
    · rintro ⟨ws, sg, ds, h, _⟩
      exact absurd ⟨ws, sg, ds, [], h⟩ hf

omit [FOps F] in
/-- C31: every other string throws `runtime_error`. -/
theorem C31_otherwise (libc : Libc F) (s : Str) : Clean (stringToLong libc s) := by
  unfold stringToLong
  dsimp only
  split
  · exact Or.inr ⟨_, rfl⟩
  · split
    · exact Or.inr ⟨_, rfl⟩
    · split
      · exact Or.inr ⟨_, rfl⟩
      · exact Or.inl ⟨_, rfl⟩

theorem natOf_eq (l : Str) : natOf l = Nat.ofDigitChars 10 l 0 := rfl

theorem allDigits_repr (n : ℕ) : AllDigits (toString n).toList ∧ (toString n).toList ≠ [] ∧ natOf (toString n).toList = n := by
  have e : (toString n).toList = Nat.toDigits 10 n := by
    show (Nat.repr n).toList = _
    rw [Nat.toList_repr]
  rw [e]
  refine ⟨fun c hc => Nat.isDigit_of_mem_toDigits (by norm_num) (by norm_num) hc, Nat.toDigits_ne_nil, ?_⟩
  rw [natOf_eq, Nat.ofDigitChars_ten_toDigits]

theorem cStr_noNul (s : Str) (h : '\x00' ∉ s) : cStr s = s := by
  unfold cStr
  have hl : ∀ c ∈ s, decide (c ≠ '\x00') = true := by
    intro c hc
    rw [decide_eq_true_iff]
    rintro rfl
    exact h hc
  have := List.takeWhile_append_of_pos (l₂ := []) hl
  simpa using this

omit [FOps F] in
/-- C31 (round trip): the decimal representation of every 64-bit integer parses as that integer. -/
theorem C31_roundtrip {libc : Libc F} (hspec : StrtolSpec libc.strtol) (v : ℤ) (hv : IsLong v) :
    stringToLong libc (toString v).toList = .ok v := by
  rw [C31_exact hspec]
  cases v with
  | ofNat n =>
    obtain ⟨h1, h2, h3⟩ := allDigits_repr n
    have e : (toString (Int.ofNat n)).toList = (toString n).toList := rfl
    rw [e, cStr_noNul _ (fun hm => by have := h1 _ hm; cases this)]
    refine ⟨[], .none, (toString n).toList, ⟨by simp [Sign.text], by simp, h1, h2, by simp⟩, ?_, hv⟩
    rw [h3]
    simp [Sign.unit]
  | negSucc n =>
    obtain ⟨h1, h2, h3⟩ := allDigits_repr (n + 1)
    have e : (toString (Int.negSucc n)).toList = '-' :: (toString (n + 1)).toList := by
      show (Int.repr (Int.negSucc n)).toList = _
      simp [Int.repr]
    rw [e, cStr_noNul _ (fun hm => by
      rcases List.mem_cons.mp hm with h | hm
      · cases h
      · have := h1 _ hm; cases this)]
    refine ⟨[], .minus, (toString (n + 1)).toList, ⟨by simp [Sign.text], by simp, h1, h2, by simp⟩, ?_, hv⟩
    rw [h3]
    simp [Sign.unit, Int.negSucc_eq]

example : stringToLong Witness.libc (toString (-(2 ^ 63) : ℤ)).toList = .ok (-(2 ^ 63)) :=
  C31_roundtrip (libc := Witness.libc) Witness.strtol_spec (-(2 ^ 63)) ⟨le_rfl, by norm_num⟩

end CP.Props
