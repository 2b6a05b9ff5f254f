import Verif.Model.LongLines
import Verif.Props.Strings
import Verif.Props.Crlf
import Verif.Props.Cli
import Verif.Props.Int32
import Verif.Proofs.SmallFft
/-
Property C91: lines of 2^31 characters or more.
-/
namespace CP.Props
open CP CP.Spec
variable {F : Type} [FOps F]

/-! ## Specification -/

/-- How many characters of a line (elements of a list) of length `L` the program looks at one by one. -/
def seenLength (L : ℕ) : ℕ := if L % 2 ^ 32 < 2 ^ 31 then L % 2 ^ 32 else 0

/-- The commas it sees. -/
def commasSeen (line : Str) : ℕ := (line.take (seenLength line.length)).count ','

/-- A line of numbers: the fields with commas between them, perhaps with one more comma at the end; or an empty line. -/
def NumberLine (line : Str) (fs : List Field) : Prop :=
  (∀ f ∈ fs, f.WF) ∧ (fs = [] ∧ line = [] ∨
    fs ≠ [] ∧ (line = List.intercalate [','] (fs.map Field.text) ∨ line = List.intercalate [','] (fs.map Field.text) ++ [',']))

/-- The fields whose numbers the program takes. -/
def keptFields (line : Str) (fs : List Field) : List Field :=
  if line.length < 2 ^ 31 then fs else fs.take (commasSeen line + 1)

/-! ## `(int)s.size()` -/

theorem wrap32_toNat (L : ℕ) : (wrap32 (L : ℤ)).toNat = seenLength L := by
  rw [bmod_cases]
  unfold seenLength
  split <;> omega

theorem wrap32_short {L : ℕ} (h : L < 2 ^ 31) : wrap32 (L : ℤ) = L := by
  rw [bmod_cases]; omega

theorem seenLength_le (L : ℕ) : seenLength L ≤ L := by
  unfold seenLength
  split
  · exact Nat.mod_le _ _
  · omega

theorem seenLength_lt (L : ℕ) : seenLength L < 2 ^ 31 := by
  unfold seenLength
  split <;> omega

theorem forRange_wrap {σ : Type} (L : ℕ) (s : σ) (body : Int → σ → M σ) :
    forRange 0 (wrap32 (L : ℤ)) s body = forRange 0 (seenLength L : ℕ) s body := by
  unfold forRange
  have : (wrap32 (L : ℤ) - 0).toNat = (((seenLength L : ℕ) : ℤ) - 0).toNat := by
    rw [Int.sub_zero, Int.sub_zero, wrap32_toNat, Int.toNat_natCast]
  rw [this]

attribute [local irreducible] wrap32

/-! ## `split` -/

/-- The result: pieces of the part that is looked at, the last one continued by the part that is not. -/
def Split32Result (s : Str) (d : Char) (R : List Str) : Prop :=
  ∃ P q, R = P ++ [q ++ s.drop (seenLength s.length)] ∧
    List.intercalate [d] (P ++ [q]) = s.take (seenLength s.length) ∧ (∀ p ∈ P ++ [q], d ∉ p) ∧
    P.length = (s.take (seenLength s.length)).count d

theorem split32_spec (s : Str) (d : Char) :
    Sat NoFault (Split32Result s d) (split32 s d) := by
  unfold split32
  rw [forRange_wrap]
  have hm := seenLength_le s.length
  let piece : Int × Int → Str := fun q => (s.drop q.1.toNat).take (q.2 - q.1).toNat
  refine Sat.bind (Sat.forRange (fun i (st : List Str × Int) => 0 ≤ st.2 ∧ st.2 ≤ i ∧
      List.intercalate [d] (st.1 ++ [piece (st.2, i)]) = s.take i.toNat ∧
      (∀ p ∈ st.1 ++ [piece (st.2, i)], d ∉ p) ∧
      (st.1 ++ [piece (st.2, i)]).length = (s.take i.toNat).count d + 1) (by omega) ?_ ?_) ?_
  · simp [piece, List.intercalate]
  · rintro i ⟨subs, start⟩ hi0 hi1 ⟨h0, h1, h2, h3, h4⟩
    dsimp only at h0 h1 h2 h3 h4 ⊢
    obtain ⟨c, hc⟩ := exists_has (a := s) hi0 (by omega)
    rw [rd_eq hc, M_ok_bind]
    have hs : s.take (i + 1).toNat = s.take i.toNat ++ [c] := by
      have e : (i + 1).toNat = i.toNat + 1 := by omega
      rw [e, List.take_add_one, hc.2]
      rfl
    by_cases hcd : c = d
    · subst hcd
      rw [if_pos rfl]
      have : substr s start (i - start) = .ok (piece (start, i)) := by
        unfold substr
        rw [if_pos ⟨h0, by omega⟩]
      rw [this, M_ok_bind]
      refine Sat.ok ⟨by dsimp only; omega, le_rfl, ?_, ?_, ?_⟩
      · have : piece (i + 1, i + 1) = [] := by simp [piece]
        dsimp only
        rw [this, intercalate_snoc _ _ _ (by simp), h2, hs]
        simp
      · have : piece (i + 1, i + 1) = [] := by simp [piece]
        dsimp only
        rw [this]
        intro p hp
        rcases List.mem_append.mp hp with hp | hp
        · exact h3 p hp
        · simp at hp; subst hp; simp
      · dsimp only
        rw [hs]
        simp at h4 ⊢
        omega
    · rw [if_neg hcd]
      have hp : piece (start, i + 1) = piece (start, i) ++ [c] := by
        show (s.drop start.toNat).take (i + 1 - start).toNat = (s.drop start.toNat).take (i - start).toNat ++ [c]
        have e : (i + 1 - start).toNat = (i - start).toNat + 1 := by omega
        rw [e, List.take_add_one, List.getElem?_drop]
        have e2 : start.toNat + (i - start).toNat = i.toNat := by omega
        rw [e2, hc.2]
        rfl
      refine Sat.ok ⟨h0, by dsimp only; omega, ?_, ?_, ?_⟩
      · dsimp only
        rw [hp, intercalate_extend, h2, hs]
      · dsimp only
        rw [hp]
        intro p hp
        rcases List.mem_append.mp hp with hp | hp
        · exact h3 p (by simp [hp])
        · have hl := h3 (piece (start, i)) (by simp)
          simp at hp
          subst hp
          simp only [List.mem_append, List.mem_singleton, not_or]
          exact ⟨hl, fun h => hcd h.symm⟩
      · dsimp only
        rw [hs, List.count_append]
        have : List.count d [c] = 0 := by simp [hcd]
        rw [this]
        simp at h4 ⊢
        omega
  · rintro ⟨subs, start⟩ ⟨h0, h1, h2, h3, h4⟩
    dsimp only at h0 h1 h2 h3 h4 ⊢
    have : substr s start (s.length - start) = .ok (piece (start, (seenLength s.length : ℕ)) ++ s.drop (seenLength s.length)) := by
      unfold substr
      rw [if_pos ⟨h0, by omega⟩]
      have e1 : (s.drop start.toNat).take ((s.length : ℤ) - start).toNat = s.drop start.toNat := by
        rw [List.take_of_length_le]
        rw [List.length_drop]; omega
      have e2 : s.drop (seenLength s.length) = (s.drop start.toNat).drop (((seenLength s.length : ℕ) : ℤ) - start).toNat := by
        rw [List.drop_drop]
        congr 1
        omega
      rw [e1, e2, List.take_append_drop]
    rw [this, M_ok_bind]
    rw [Int.toNat_natCast] at h2 h4
    refine Sat.ok ⟨subs, piece (start, (seenLength s.length : ℕ)), rfl, h2, h3, ?_⟩
    simpa using h4

theorem split32_short {s : Str} (d : Char) (h : s.length < 2 ^ 31) : split32 s d = split s d := by
  unfold split32 split
  rw [wrap32_short h]

theorem intercalate_glue (d : Char) (q r : Str) (R : List Str) : ∀ P : List Str,
    List.intercalate [d] (P ++ [q]) ++ List.intercalate [d] (r :: R) = List.intercalate [d] (P ++ (q ++ r) :: R)
  | [] => by cases R <;> simp [List.intercalate]
  | p :: P => by
    have ih := intercalate_glue d q r R P
    have step : ∀ X : List Str, X ≠ [] → List.intercalate [d] (p :: X) = p ++ d :: List.intercalate [d] X := by
      intro X hX
      cases X with
      | nil => exact absurd rfl hX
      | cons y Y => simp [List.intercalate]
    rw [List.cons_append, List.cons_append, step (P ++ [q]) (by simp), step (P ++ (q ++ r) :: R) (by simp), ← ih]
    simp

/-- What `split32` returns on text that is `T` joined by the delimiter. -/
theorem split32_join (T : List Str) (d : Char) (hne : T ≠ []) (hT : ∀ p ∈ T, d ∉ p) {s : Str} (hs : List.intercalate [d] T = s) :
    ∃ P x R rest, T = P ++ x :: R ∧ P.length = (s.take (seenLength s.length)).count d ∧
      split32 s d = .ok (P ++ [x ++ rest]) ∧ (rest = [] ∧ R = [] ∨ rest = d :: List.intercalate [d] R ∧ R ≠ []) ∧
      (∃ q, x ++ rest = q ++ s.drop (seenLength s.length)) := by
  have h0 := Sat.exists_ok (split32_spec s d)
  obtain ⟨S, e, h0⟩ := h0
  obtain ⟨P, q, rfl, h1, h2, h3⟩ := h0
  obtain ⟨R', -, g1, g2, g3⟩ := C27_split (s.drop (seenLength s.length)) d
  cases R' with
  | nil => simp at g3
  | cons r R =>
    have key : T = P ++ (q ++ r) :: R := by
      refine intercalate_inj T _ hne (by simp) hT ?_ ?_
      · intro p hp
        rcases List.mem_append.1 hp with hp | hp
        · exact h2 p (by simp [hp])
        · rcases List.mem_cons.1 hp with rfl | hp
          · rw [List.mem_append, not_or]
            exact ⟨h2 q (by simp), g2 r (by simp)⟩
          · exact g2 p (by simp [hp])
      · rw [hs, ← intercalate_glue, h1, g1, List.take_append_drop]
    cases R with
    | nil =>
      refine ⟨P, q ++ r, [], [], key, h3, ?_, Or.inl ⟨rfl, rfl⟩, q, ?_⟩
      · rw [e, ← g1]; simp [List.intercalate]
      · rw [← g1]; simp [List.intercalate]
    | cons y R =>
      refine ⟨P, q ++ r, y :: R, d :: List.intercalate [d] (y :: R), key, h3, ?_, Or.inr ⟨rfl, by simp⟩, q, ?_⟩
      · rw [e, ← g1]; simp [List.intercalate]
      · rw [← g1]; simp [List.intercalate]

/-! ## C91 -/

/-- C91: for lines of fewer than 2^31 characters the casts change nothing. -/
theorem C91_short_line (libc : Libc F) {line : Str} (h : line.length < 2 ^ 31) :
    readCommaDelimitedDoubles32 libc line = readCommaDelimitedDoubles libc line := by
  unfold readCommaDelimitedDoubles32 readCommaDelimitedDoubles
  rw [split32_short _ h]

theorem mem_keep {α : Type} {P R : List α} {f g : α} (h : g ∈ P ++ [f]) : g ∈ P ++ f :: R := by
  simp only [List.mem_append, List.mem_cons, List.not_mem_nil, or_false] at h ⊢
  tauto

theorem read32_aux {libc : Libc F} {rnd : ℝ → F} {inRange : ℝ → Prop} (hspec : StrtodSpec libc.strtod rnd inRange)
    {line : Str} (P : List Field) (f : Field) (rest : Str) (hP : ∀ g ∈ P ++ [f], g.WF) (hin : ∀ g ∈ P ++ [f], inRange g.num.value)
    (hr : EndsNumber rest) (h : split32 line ',' = .ok (P.map Field.text ++ [f.text ++ rest])) :
    readCommaDelimitedDoubles32 libc line = .ok ((P ++ [f]).map fun g => rnd g.num.value) := by
  unfold readCommaDelimitedDoubles32
  rw [h, M_ok_bind, dropTrailingEmpty_keep]
  · have e : P.map Field.text ++ [f.text ++ rest] = (P ++ [{ f with rest := f.rest ++ rest }]).map Field.text := by
      simp [Field.text]
    rw [e, List.mapM_map]
    have e2 : ((P ++ [f]).map fun g => rnd g.num.value)
        = (P ++ [{ f with rest := f.rest ++ rest }]).map fun g : Field => rnd g.num.value := by simp
    rw [e2]
    refine mapM_ok _ (fun g : Field => rnd g.num.value) _ fun g hg => ?_
    rcases List.mem_append.1 hg with hg | hg
    · obtain ⟨a, b, c, -⟩ := hP g (by simp [hg])
      exact C29_prefix hspec _ _ _ a b c (hin g (by simp [hg]))
    · rw [List.mem_singleton] at hg
      subst hg
      obtain ⟨a, b, c, -⟩ := hP f (by simp)
      exact C29_prefix hspec _ _ _ a b (endsNumber_append c hr) (hin f (by simp))
  · rw [List.getLast?_concat]
    intro hc
    rw [Option.some.injEq, List.append_eq_nil_iff] at hc
    exact Field.text_ne_nil (hP f (by simp)) hc.1

theorem endsNumber_comma (t : Str) : EndsNumber (',' :: t) := by
  intro c hc
  simp at hc
  subst hc
  decide

/-- C91: a line of 2^31 characters or more loses, without an error, all numbers after the comma count it sees: the numbers that are
read are those of the first `commasSeen + 1` fields. -/
theorem C91_long_line {libc : Libc F} {rnd : ℝ → F} {inRange : ℝ → Prop} (hspec : StrtodSpec libc.strtod rnd inRange)
    {line : Str} {fs : List Field} (hl : NumberLine line fs) (hin : ∀ f ∈ fs, inRange f.num.value) (hlong : 2 ^ 31 ≤ line.length) :
    readCommaDelimitedDoubles32 libc line = .ok ((fs.take (commasSeen line + 1)).map fun f => rnd f.num.value) := by
  obtain ⟨hf, ⟨rfl, rfl⟩ | ⟨hne, hl⟩⟩ := hl
  · norm_num at hlong
  have hm : seenLength line.length < line.length := lt_of_lt_of_le (seenLength_lt _) hlong
  have hc : ∀ p ∈ fs.map Field.text, ',' ∉ p := by
    intro p hp
    obtain ⟨f, hfm, rfl⟩ := List.mem_map.mp hp
    exact Field.no_comma (hf f hfm)
  have fin : ∀ (P : List Str) (x : Str) (R : List Str) (rest : Str), fs.map Field.text = P ++ x :: R → P.length = commasSeen line →
      split32 line ',' = .ok (P ++ [x ++ rest]) → EndsNumber rest →
      readCommaDelimitedDoubles32 libc line = .ok ((fs.take (commasSeen line + 1)).map fun f => rnd f.num.value) := by
    intro P x R rest e hk hsp hr
    obtain ⟨P', Y, rfl, hP', hY⟩ := List.map_eq_append_iff.1 e
    obtain ⟨f, R', rfl, hx, -⟩ := List.map_eq_cons_iff.1 hY
    subst hP' hx
    rw [List.length_map] at hk
    have e3 : (P' ++ f :: R').take (commasSeen line + 1) = P' ++ [f] := by
      rw [← hk, List.take_append]
      simp
    rw [e3]
    exact read32_aux hspec P' f rest (fun g hg => hf g (mem_keep hg)) (fun g hg => hin g (mem_keep hg)) hr hsp
  rcases hl with hl | hl
  · obtain ⟨P, x, R, rest, h1, h2, h3, h4, -⟩ := split32_join (fs.map Field.text) ',' (by simpa using hne) hc hl.symm
    refine fin P x R rest h1 h2 h3 ?_
    rcases h4 with ⟨rfl, -⟩ | ⟨rfl, -⟩
    · intro c hc; simp at hc
    · exact endsNumber_comma _
  · have e : List.intercalate [','] (fs.map Field.text ++ [[]]) = line := by
      rw [hl, intercalate_snoc _ _ _ (by simpa using hne)]; rfl
    obtain ⟨P, x, R, rest, h1, h2, h3, h4, q, h5⟩ := split32_join (fs.map Field.text ++ [[]]) ',' (by simp) (by
      intro p hp
      rcases List.mem_append.mp hp with hp | hp
      · exact hc p hp
      · simp at hp; subst hp; simp) e
    have hcomma : ',' ∈ line.drop (seenLength line.length) := by
      rw [hl] at hm ⊢
      rw [List.drop_append_of_le_length (by simp at hm ⊢; omega)]
      simp
    rcases h4 with ⟨rfl, rfl⟩ | ⟨rfl, hR⟩
    · exfalso
      have hx : x = [] := by
        have := congrArg List.getLast? h1
        simpa using this.symm
      rw [hx] at h5
      have := congrArg (fun z => ',' ∈ z) h5
      simp [hcomma] at this
    · obtain ⟨R0, z, rfl⟩ : ∃ R0 z, R = R0 ++ [z] := ⟨_, _, (List.dropLast_append_getLast hR).symm⟩
      have h1' : fs.map Field.text ++ [[]] = (P ++ x :: R0) ++ [z] := by rw [h1]; simp
      have := (List.append_inj' h1' rfl).1
      exact fin P x R0 _ this h2 h3 (endsNumber_comma _)

/-- C91: in particular, of a line of 2^31 to 2^32 - 1 characters only the first number is read. -/
theorem C91_first_only {libc : Libc F} {rnd : ℝ → F} {inRange : ℝ → Prop} (hspec : StrtodSpec libc.strtod rnd inRange)
    {line : Str} {f : Field} {fs : List Field} (hl : NumberLine line (f :: fs)) (hin : ∀ g ∈ f :: fs, inRange g.num.value)
    (hlong : 2 ^ 31 ≤ line.length) (hlong' : line.length < 2 ^ 32) :
    readCommaDelimitedDoubles32 libc line = .ok [rnd f.num.value] := by
  rw [C91_long_line hspec hl hin hlong]
  have : seenLength line.length = 0 := by
    unfold seenLength
    rw [if_neg]
    omega
  unfold commasSeen
  rw [this]
  simp

/-- C91: reading a number line, long or short. -/
theorem C91_line {libc : Libc F} {rnd : ℝ → F} {inRange : ℝ → Prop} (hspec : StrtodSpec libc.strtod rnd inRange)
    {line : Str} {fs : List Field} (hl : NumberLine line fs) (hin : ∀ f ∈ fs, inRange f.num.value) :
    readCommaDelimitedDoubles32 libc line = .ok ((keptFields line fs).map fun f => rnd f.num.value) := by
  unfold keptFields
  by_cases h : line.length < 2 ^ 31
  · rw [if_pos h, C91_short_line libc h]
    obtain ⟨hf, ⟨rfl, rfl⟩ | ⟨hne, rfl | rfl⟩⟩ := hl
    · exact C28_empty libc
    · exact C28_line hspec fs hne hf hin
    · exact C28_trailing_comma hspec fs hne hf hin
  · rw [if_neg h]
    exact C91_long_line hspec hl hin (by omega)

/-- C91: a case: spaces, as many as make the line 2^31 characters or longer, before `0.1,0.2`: the second number is lost. -/
theorem C91_spaces {libc : Libc F} {rnd : ℝ → F} (hspec : StrtodSpec libc.strtod rnd fun _ => True) (N : ℕ)
    (h1 : 2 ^ 31 ≤ N) (h2 : N < 2 ^ 32 - 7) :
    readCommaDelimitedDoubles32 libc (List.replicate N ' ' ++ "0.1,0.2".toList) = .ok [rnd (1 / 10)] := by
  have key := C91_first_only (line := List.replicate N ' ' ++ "0.1,0.2".toList) (f := ⟨List.replicate N ' ', ⟨.none, ['0'], some ['1'], none⟩, []⟩)
    (fs := [⟨[], ⟨.none, ['0'], some ['2'], none⟩, []⟩]) hspec ?_ (fun _ _ => trivial) (by rw [List.length_append, List.length_replicate]; omega)
    (by rw [List.length_append, List.length_replicate]; show N + 7 < 2 ^ 32; omega)
  · rw [key]
    simp [Dec.value, Sign.unit, Dec.fracDigits, Dec.expVal, natOf]
  · refine ⟨?_, Or.inr ⟨by simp, Or.inl ?_⟩⟩
    · intro f hf
      simp only [List.mem_cons, List.not_mem_nil, or_false] at hf
      rcases hf with rfl | rfl
      · refine ⟨?_, ?_, ?_, by simp⟩
        · intro c hc
          rw [List.eq_of_mem_replicate hc]
          decide
        · simp [Dec.WF, AllDigits, Dec.fracDigits]
        · intro c hc; simp at hc
      · refine ⟨by simp, ?_, ?_, by simp⟩
        · simp [Dec.WF, AllDigits, Dec.fracDigits]
        · intro c hc; simp at hc
    · simp [List.intercalate, Field.text, Dec.text, Sign.text, Dec.fracText, Dec.expText]

/-! ### Sizes -/

theorem mapM_length {α β : Type} (f : α → M β) : ∀ (l : List α) (r : List β), l.mapM f = .ok r → r.length = l.length
  | [], r, h => by cases h; rfl
  | x :: l, r, h => by
    rw [List.mapM_cons] at h
    cases hx : f x with
    | error e => rw [hx] at h; cases h
    | ok y =>
      rw [hx, M_ok_bind] at h
      cases hl : l.mapM f with
      | error e => rw [hl] at h; cases h
      | ok ys =>
        rw [hl] at h
        cases h
        simp [mapM_length f l ys hl]

theorem mapM_ok_each {α β : Type} (f : α → M β) : ∀ (l : List α) (r : List β), l.mapM f = .ok r → ∀ x ∈ l, ∃ y, f x = .ok y
  | [], r, h => by simp
  | x :: l, r, h => by
    rw [List.mapM_cons] at h
    cases hx : f x with
    | error e => rw [hx] at h; cases h
    | ok y =>
      rw [hx, M_ok_bind] at h
      cases hl : l.mapM f with
      | error e => rw [hl] at h; cases h
      | ok ys =>
        intro z hz
        rcases List.mem_cons.1 hz with rfl | hz
        · exact ⟨y, hx⟩
        · exact mapM_ok_each f l ys hl z hz

theorem intercalate_length_ge (d : Char) (q : Str) : ∀ P : List Str, (∀ p ∈ P, p ≠ []) →
    2 * P.length ≤ (List.intercalate [d] (P ++ [q])).length
  | [], _ => by simp
  | p :: P, h => by
    have ih := intercalate_length_ge d q P (fun x hx => h x (by simp [hx]))
    have hp : 1 ≤ p.length := List.length_pos_iff.2 (h p (by simp))
    have e : List.intercalate [d] (p :: P ++ [q]) = p ++ d :: List.intercalate [d] (P ++ [q]) := by
      cases P <;> simp [List.intercalate]
    rw [e, List.length_append, List.length_cons, List.length_cons]
    omega

/-- C91: whatever the line, a list that is read has at most 2^30 elements; so `int n` holds its size. -/
theorem C91_sizes {libc : Libc F} {rnd : ℝ → F} {inRange : ℝ → Prop} (hspec : StrtodSpec libc.strtod rnd inRange)
    (h0 : FOps.eq (rnd 0) FOps.zero = true) {line : Str} {v : List F} (h : readCommaDelimitedDoubles32 libc line = .ok v) :
    v.length ≤ 2 ^ 30 := by
  unfold readCommaDelimitedDoubles32 at h
  obtain ⟨S, e, P, q, rfl, h1, h2, h3⟩ := Sat.exists_ok (split32_spec line ',')
  rw [e, M_ok_bind] at h
  have hsub : P ⊆ dropTrailingEmpty (P ++ [q ++ line.drop (seenLength line.length)]) := by
    intro x hx
    unfold dropTrailingEmpty
    split
    · simp [hx]
    · simp [hx]
  have hle : (dropTrailingEmpty (P ++ [q ++ line.drop (seenLength line.length)])).length ≤ P.length + 1 := by
    unfold dropTrailingEmpty
    split <;> simp
  have hne : ∀ p ∈ P, p ≠ [] := by
    rintro p hp rfl
    obtain ⟨y, hy⟩ := mapM_ok_each _ _ _ h [] (hsub hp)
    obtain ⟨msg, hm⟩ := stringToDouble_notNumber hspec h0 [] ⟨[], .none, [], by simp [cStr, Sign.text], by simp, by simp, by simp, by simp⟩
    rw [hm] at hy
    cases hy
  have hlen := intercalate_length_ge ',' q P hne
  rw [h1, List.length_take] at hlen
  rw [mapM_length _ _ _ h]
  have := seenLength_lt line.length
  omega

/-! ### Files and the program -/

/-- C91: the boundaries that are read from a file with two number lines. -/
theorem C91_file {libc : Libc F} {rnd : ℝ → F} {inRange : ℝ → Prop} (hspec : StrtodSpec libc.strtod rnd inRange)
    {fs : Str → FileState} {name text l1 l2 : Str} (hfs : fs name = .contents text) (h : FirstTwoLines text l1 l2)
    {f1 f2 : List Field} (h1 : NumberLine l1 f1) (h2 : NumberLine l2 f2)
    (i1 : ∀ f ∈ f1, inRange f.num.value) (i2 : ∀ f ∈ f2, inRange f.num.value) :
    readAndCheckBoundariesFile32 libc fs name
      = .ok ((keptFields l1 f1).map fun f => rnd f.num.value, (keptFields l2 f2).map fun f => rnd f.num.value) := by
  obtain ⟨f, f', g1, g2⟩ := getline_second h
  unfold readAndCheckBoundariesFile32
  rw [hfs]
  dsimp only
  unfold readNextLine32
  rw [g1, M_ok_bind]
  dsimp only
  rw [C91_line hspec h1 i1]
  simp only [M_ok_bind]
  rw [g2, M_ok_bind]
  dsimp only
  rw [C91_line hspec h2 i2]
  rfl

theorem toSizeT_wrap {L : ℕ} (h : L ≤ 2 ^ 30) : toSizeT (wrap32 (L : ℤ)) = L := by
  rw [wrap32_short (by omega)]
  unfold toSizeT
  omega

theorem calculate32_false (w : World F) {b B : List F} (hb : b.length ≤ 2 ^ 30) (hB : B.length ≤ 2 ^ 30) :
    calculateEcdf2With32 w false b B = calculateEcdf2Ks2001 w b B := by
  unfold calculateEcdf2With32 calculateEcdf2Ks2001
  dsimp only
  rw [toSizeT_wrap (show max b.length B.length ≤ 2 ^ 30 by omega)]

theorem calculate32_true (w : World F) {b B : List F} (hb : b.length ≤ 2 ^ 30) (hB : B.length ≤ 2 ^ 30) :
    calculateEcdf2With32 w true b B = calculateEcdf2Mn2017 w b B := by
  unfold calculateEcdf2With32 calculateEcdf2Mn2017
  dsimp only
  rw [toSizeT_wrap (show max b.length B.length ≤ 2 ^ 30 by omega)]

theorem main32_eq {w w' : World F} (hw : w' = { w with fs := w'.fs }) {cmd name : Str} {b B : List F}
    (h : readAndCheckBoundariesFile32 w.libc w.fs name = .ok (b, B)) (h' : readAndCheckBoundariesFile w'.libc w'.fs name = .ok (b, B))
    (hb : b.length ≤ 2 ^ 30) (hB : B.length ≤ 2 ^ 30) : crossprobMain32 w [cmd, name] = crossprobMain w' [cmd, name] := by
  have e : handleCommandLineArguments32 w cmd name = handleCommandLineArguments w' cmd name := by
    unfold handleCommandLineArguments32 handleCommandLineArguments
    rw [h, h', M_ok_bind, M_ok_bind]
    simp only
    rw [calculate32_false w hb hB, calculate32_true w hb hB, hw]
    rfl
  unfold crossprobMain32 crossprobMain
  simp only
  rw [e]
  cases handleCommandLineArguments w' cmd name with
  | ok r => rfl
  | error err => cases err <;> rfl

/-- The text of fields. -/
def numberText (fs : List Field) : Str := List.intercalate [','] (fs.map Field.text)

/-- C91: on a file with two number lines of any length the program does what it would do, if it had no 32-bit sizes, on a file with
only the kept fields; no error shows that the others were lost. -/
theorem C91_program {w : World F} {rnd : ℝ → F} {inRange : ℝ → Prop} (hspec : StrtodSpec w.libc.strtod rnd inRange)
    (h0 : FOps.eq (rnd 0) FOps.zero = true)
    {cmd name text l1 l2 : Str} (hfs : w.fs name = .contents text) (h : FirstTwoLines text l1 l2)
    {f1 f2 : List Field} (h1 : NumberLine l1 f1) (h2 : NumberLine l2 f2)
    (i1 : ∀ f ∈ f1, inRange f.num.value) (i2 : ∀ f ∈ f2, inRange f.num.value) :
    crossprobMain32 w [cmd, name] = crossprobMain
      { w with fs := fun _ => .contents (numberText (keptFields l1 f1) ++ '\n' :: (numberText (keptFields l2 f2) ++ ['\n'])) }
      [cmd, name] := by
  have sub : ∀ (l : Str) (f : List Field) (g : Field), g ∈ keptFields l f → g ∈ f := by
    intro l f g hg
    unfold keptFields at hg
    split at hg
    · exact hg
    · exact List.mem_of_mem_take hg
  have nl : ∀ (l : Str) (f : List Field), '\n' ∉ l → NumberLine l f → '\n' ∉ numberText (keptFields l f) := by
    intro l f hn hl hc
    have mem : ∀ fs : List Field, '\n' ∈ List.intercalate [','] (fs.map Field.text) ↔ ∃ g ∈ fs, '\n' ∈ g.text := by
      intro fs
      induction fs with
      | nil => simp [List.intercalate]
      | cons a fs ih =>
        cases fs with
        | nil => simp [List.intercalate]
        | cons c fs =>
          have e : List.intercalate [','] ((a :: c :: fs).map Field.text)
              = a.text ++ ',' :: List.intercalate [','] ((c :: fs).map Field.text) := by simp [List.intercalate]
          rw [e]
          simp only [List.mem_append, List.mem_cons (a := '\n'), ih, List.mem_cons, exists_eq_or_imp]
          simp
    obtain ⟨g, hg, hgn⟩ := (mem _).1 hc
    have : '\n' ∈ List.intercalate [','] (f.map Field.text) := (mem f).2 ⟨g, sub _ _ g hg, hgn⟩
    obtain ⟨-, ⟨rfl, rfl⟩ | ⟨-, rfl | rfl⟩⟩ := hl
    · simp [List.intercalate] at this
    · exact hn this
    · exact hn (by simp [this])
  have rd : ∀ (l : Str) (f : List Field), NumberLine l f → (∀ g ∈ f, inRange g.num.value) →
      readCommaDelimitedDoubles w.libc (numberText (keptFields l f)) = .ok ((keptFields l f).map fun f => rnd f.num.value) := by
    intro l f hl hi
    by_cases hk : keptFields l f = []
    · rw [hk]; exact C28_empty w.libc
    · exact C28_line hspec _ hk (fun g hg => hl.1 g (sub _ _ g hg)) (fun g hg => hi g (sub _ _ g hg))
  have e := C91_file hspec hfs h h1 h2 i1 i2
  have k1 := C91_sizes hspec h0 (C91_line hspec h1 i1)
  have k2 := C91_sizes hspec h0 (C91_line hspec h2 i2)
  refine main32_eq (by rfl) e ?_ k1 k2
  dsimp only
  rw [C30_two_lines w.libc (fun _ => .contents (numberText (keptFields l1 f1) ++ '\n' :: (numberText (keptFields l2 f2) ++ ['\n']))) name
    _ (numberText (keptFields l1 f1)) (numberText (keptFields l2 f2)) rfl
    ⟨nl _ _ h.1 h1, nl _ _ h.2.1 h2, Or.inl ⟨[], rfl⟩⟩, rd _ _ h1 i1, rd _ _ h2 i2]
  rfl

/-- C91: the consequence, in exact arithmetic: a file with an empty first line and a second line of 2^31 to 2^32 - 1 characters with
any numbers `B_1, ..., B_n`; whatever `n` is, the program prints, with exit code 0, the probability for one observation and the
bound `B_1`. -/
theorem C91_wrong_number (w : World XR) (hf : ExactFFT w.env.fft) (hsort : SortContract w.sort) (hsq : w.isqrt = Nat.sqrt)
    (hspec : StrtodSpec w.libc.strtod XR.fin fun _ => True) {f : Field} {fs : List Field} {line : Str}
    (hl : NumberLine line (f :: fs)) (hlong : 2 ^ 31 ≤ line.length) (hlong' : line.length < 2 ^ 32)
    (hB : 0 ≤ f.num.value ∧ f.num.value ≤ 1) {name text : Str} (hfile : w.fs name = .contents text)
    (hlines : FirstTwoLines text [] line) (command : String) (hc : command ∈ ["ecdf1-mns2016", "ecdf2-ks2001", "ecdf2-mn2017"]) :
    crossprobMain32 w [command.toList, name] = .printed (XR.fin (upperProb ![f.num.value])) := by
  have hk : keptFields line (f :: fs) = [f] := by
    have : seenLength line.length = 0 := by
      unfold seenLength
      rw [if_neg]
      omega
    unfold keptFields commasSeen
    rw [if_neg (by omega), this]
    simp
  have h0 : FOps.eq (XR.fin 0) (FOps.zero : XR) = true := by show XR.eq _ _ = _; simp [FOps.zero, FOps.ofInt, XR.eq]
  have hk0 : keptFields [] [] = [] := by simp [keptFields]
  have hl0 : NumberLine [] [] := ⟨by simp, Or.inl ⟨rfl, rfl⟩⟩
  have hnl : '\n' ∉ f.text := by
    intro hc
    obtain ⟨-, ⟨h, -⟩ | ⟨-, h⟩⟩ := hl
    · cases h
    · refine hlines.2.1 ?_
      have : '\n' ∈ List.intercalate [','] ((f :: fs).map Field.text) := by
        cases fs <;> simp [List.intercalate, hc]
      rcases h with h | h <;> rw [h]
      · exact this
      · simp only [List.mem_append]; exact Or.inl this
  rw [C91_program hspec h0 hfile hlines hl0 hl (by simp) (fun _ _ => trivial), hk, hk0]
  have e : valuesOf ![f] = ![f.num.value] := by
    funext i
    fin_cases i
    rfl
  rw [← e]
  generalize hw : ({ w with fs := fun _ => .contents (numberText [] ++ '\n' :: (numberText [f] ++ ['\n'])) } : World XR) = w'
  refine C41_upper w' (by rw [← hw]; exact hf) (by rw [← hw]; exact hsort) (by rw [← hw]; exact hsq) (by rw [← hw]; exact hspec)
    (by norm_num) ![f] ?_ ?_ name (numberText [] ++ '\n' :: (numberText [f] ++ ['\n'])) (by rw [← hw]) ?_ command ?_ ?_
  · intro i
    fin_cases i
    exact hl.1 f (by simp)
  · rw [e]
    refine ⟨?_, ?_⟩
    · intro i j _
      fin_cases i; fin_cases j
      exact le_rfl
    · intro i
      fin_cases i
      exact hB
  · have e2 : lineOf ![f] = f.text := by simp [lineOf, List.intercalate]
    rw [e2]
    refine ⟨by simp, hnl, Or.inl ⟨[], ?_⟩⟩
    simp [numberText, List.intercalate]
  · simp only [List.mem_cons, List.not_mem_nil, or_false] at hc ⊢
    tauto
  · rintro rfl
    simp at hc

/-! ### Lists -/

omit [FOps F] in
/-- C91: `vector_to_string` writes the elements it looks at. -/
theorem C91_vector_to_string (fmt : F → Str) (v : List F) :
    vectorToString32 fmt v = vectorToString fmt (v.take (seenLength v.length)) := by
  unfold vectorToString32 vectorToString
  rw [forRange_wrap, List.length_take, Nat.min_eq_left (seenLength_le _)]
  congr 1
  refine forRange_congr _ _ _ fun j s hj0 hj1 => ?_
  have hw : wrap32 (v.length : ℤ) = (seenLength v.length : ℕ) := by
    have := wrap32_toNat v.length
    omega
  have hle := seenLength_le v.length
  obtain ⟨c, hc⟩ := exists_has (a := v) hj0 (by omega)
  have hc' : Has (v.take (seenLength v.length)) j c := ⟨hj0, by rw [List.getElem?_take_of_lt (by omega)]; exact hc.2⟩
  rw [rd_eq hc, rd_eq hc', M_ok_bind, M_ok_bind, hw]
  have : wrap32 (((seenLength v.length : ℕ) : ℤ) - 1) = ((seenLength v.length : ℕ) : ℤ) - 1 := by
    have := seenLength_lt v.length
    rw [bmod_cases]
    omega
  rw [this]

/-- C91: below 2^31 elements the validation of C14 is the one with exact sizes. -/
theorem C91_check_short (name : String) (n : ℤ) {v : List F} (h : v.length < 2 ^ 31) :
    checkBoundaryVector32 name n v = checkBoundaryVector name n v := by
  unfold checkBoundaryVector32 checkBoundaryVector isMonotoneIncreasing32
  rw [wrap32_short h, Int.toNat_natCast, List.take_length]

/-- C91: from 2^31 elements on (a caller of the Python module or the C++ functions can pass them) only a part is checked for
monotonicity; between 2^31 and 2^32 - 1 nothing is: every list whose first and last elements are in [0, 1] is accepted. -/
theorem C91_check_long (name : String) {v : List F} (h : 2 ^ 31 ≤ v.length) (h' : v.length < 2 ^ 32) :
    checkBoundaryVector32 name (wrap32 v.length) v = .ok () ↔ outOfRange v = false := by
  unfold checkBoundaryVector32 isMonotoneIncreasing32
  have : seenLength v.length = 0 := by
    unfold seenLength
    rw [if_neg]
    omega
  rw [if_neg (by simp), wrap32_toNat, this, List.take_zero]
  have e : isMonotoneIncreasing ([] : List F) = true := rfl
  rw [e]
  cases outOfRange v <;> simp

/-- The hypotheses can be met: 2^31 spaces before the number. -/
example : readCommaDelimitedDoubles32 Witness.libc (List.replicate (2 ^ 31) ' ' ++ "0.1,0.2".toList) = .ok [XR.fin (1 / 10)] :=
  C91_spaces (libc := Witness.libc) Witness.strtod_spec _ (by norm_num) (by norm_num)

/-- Of a line of 2^32 + 11 characters the first eleven are looked at. -/
example : seenLength (2 ^ 32 + 11) = 11 := by norm_num [seenLength]

end CP.Props
