import Verif.Props.OutputFp
/-
Property C60: `vector_to_string` writes what the boundary file reader reads.
-/
open MeasureTheory Set
namespace CP.Props
open CP.Spec FOps

variable {F : Type}

theorem intercalate_flatMap (sep : Str) (l : List Str) (x : Str) :
    List.intercalate sep (l ++ [x]) = (l.flatMap fun y => y ++ sep) ++ x := by
  induction l with
  | nil => simp
  | cons y l ih =>
    rw [List.cons_append, List.intercalate_cons_of_ne_nil (by simp), ih]
    simp

/-- C60: the text is the printed numbers, separated by a comma and a blank, and a newline; every list, no faults. -/
theorem C60_text (fmt : F → Str) (v : List F) :
    vectorToString fmt v = .ok (List.intercalate [',', ' '] (v.map fmt) ++ ['\n']) := by
  unfold vectorToString
  obtain ⟨ss, h1, h2⟩ := Sat.exists_ok (Sat.forRange (E := NoFault) (lo := 0) (hi := v.length) (s := ([] : Str))
    (body := fun i ss => do
      let x ← rd v i
      let ss := ss ++ fmt x
      if i ≠ (v.length : Int) - 1 then .ok (ss ++ [',', ' ']) else .ok ss)
    (fun i ss => if i < v.length then ss = ((v.take i.toNat).map fmt).flatMap (fun y => y ++ [',', ' '])
      else ss = List.intercalate [',', ' '] (v.map fmt)) (by omega) (by
        split
        · simp
        · have : v = [] := List.eq_nil_of_length_eq_zero (by omega)
          subst this; rfl) (by
        intro j s hj1 hj2 hs
        rw [if_pos hj2] at hs
        refine Sat.bind (rd_sat hj1 hj2) fun x hx => ?_
        have htake : v.take (j.toNat + 1) = v.take j.toNat ++ [x] := by
          rw [List.take_add_one, hx.2]; rfl
        dsimp only
        by_cases hne : j ≠ (v.length : Int) - 1
        · rw [if_pos hne]
          refine Sat.ok ?_
          rw [if_pos (by omega), show (j + 1).toNat = j.toNat + 1 by omega, htake, hs]
          simp
        · rw [if_neg hne]
          refine Sat.ok ?_
          have hv : v = v.take j.toNat ++ [x] := by
            rw [← htake, List.take_of_length_le (by omega)]
          rw [if_neg (by omega), hs]
          conv_rhs => rw [hv, List.map_append, List.map_singleton, intercalate_flatMap]))
  rw [if_neg (by omega)] at h2
  rw [h1, M_ok_bind, h2]

/-- The fields of a line written by `vector_to_string`: the first has no blank in front, the last may be followed by `rest`. -/
def flds (ws : Str) : List Dec → Str → List Field
  | [], _ => []
  | [d], rest => [⟨ws, d, rest⟩]
  | d :: e :: l, rest => ⟨ws, d, []⟩ :: flds [' '] (e :: l) rest

theorem flds_text (ws rest : Str) (ds : List Dec) (hne : ds ≠ []) :
    List.intercalate [','] ((flds ws ds rest).map Field.text) = ws ++ List.intercalate [',', ' '] (ds.map Dec.text) ++ rest := by
  induction ds generalizing ws with
  | nil => exact absurd rfl hne
  | cons d l ih =>
    cases l with
    | nil => simp [flds, Field.text]
    | cons e l =>
      have h := ih [' '] (by simp)
      have h' : List.intercalate [',', ' '] ((d :: e :: l).map Dec.text)
          = d.text ++ [',', ' '] ++ List.intercalate [',', ' '] ((e :: l).map Dec.text) := by
        rw [List.map_cons, List.intercalate_cons_of_ne_nil (by simp)]
      rw [flds, List.map_cons, List.intercalate_cons_of_ne_nil, h, h']
      · simp [Field.text]
      · cases l <;> simp [flds]

theorem flds_values {β : Type} (f : ℝ → β) (ws rest : Str) (ds : List Dec) :
    ((flds ws ds rest).map fun x => f x.num.value) = ds.map fun d => f d.value := by
  induction ds generalizing ws with
  | nil => rfl
  | cons d l ih =>
    cases l with
    | nil => rfl
    | cons e l => rw [flds, List.map_cons, ih [' ']]; rfl

theorem flds_mem (ws rest : Str) (ds : List Dec) : ∀ f ∈ flds ws ds rest,
    f.num ∈ ds ∧ (f.ws = ws ∨ f.ws = [' ']) ∧ (f.rest = [] ∨ f.rest = rest) := by
  induction ds generalizing ws with
  | nil => intro f hf; cases hf
  | cons d l ih =>
    cases l with
    | nil =>
      intro f hf
      simp only [flds, List.mem_singleton] at hf
      subst hf
      exact ⟨by simp, Or.inl rfl, Or.inr rfl⟩
    | cons e l =>
      intro f hf
      rw [flds, List.mem_cons] at hf
      rcases hf with rfl | hf
      · exact ⟨by simp, Or.inl rfl, Or.inl rfl⟩
      · obtain ⟨h1, h2, h3⟩ := ih [' '] f hf
        exact ⟨List.mem_cons_of_mem _ h1, Or.inr (by tauto), h3⟩

variable [FOps F]

/-- A list of decimal numbers separated by a comma and a blank, followed by a newline or nothing, is read back. -/
theorem read_decs {libc : Libc F} {rnd : ℝ → F} {inRange : ℝ → Prop} (hspec : StrtodSpec libc.strtod rnd inRange)
    (ds : List Dec) (hwf : ∀ d ∈ ds, d.WF) (hin : ∀ d ∈ ds, inRange d.value) (hne : ds ≠ []) (rest : Str)
    (hr : rest = [] ∨ rest = ['\n']) :
    readCommaDelimitedDoubles libc (List.intercalate [',', ' '] (ds.map Dec.text) ++ rest) = .ok (ds.map fun d => rnd d.value) := by
  have h := C28_line hspec (flds [] ds rest) (by
    cases ds with
    | nil => exact absurd rfl hne
    | cons d l => cases l <;> simp [flds]) (by
      intro f hf
      obtain ⟨h1, h2, h3⟩ := flds_mem _ _ _ f hf
      refine ⟨?_, hwf _ h1, ?_, ?_⟩
      · rcases h2 with h2 | h2 <;> rw [h2] <;> simp [IsSpace]
      · rcases h3 with h3 | h3 <;> rw [h3]
        · intro c hc; cases hc
        · rcases hr with rfl | rfl
          · intro c hc; cases hc
          · intro c hc
            cases hc
            decide
      · rcases h3 with h3 | h3 <;> rw [h3]
        · simp
        · rcases hr with rfl | rfl <;> simp) (by
      intro f hf
      exact hin _ (flds_mem _ _ _ f hf).1)
  rw [flds_text [] rest ds hne, flds_values] at h
  exact h

/-- `d` is how the number `x` is printed: a decimal number, correct to six digits. -/
def PrintedAs (fmt : F → Str) (val : F → Option ℝ) (x : F) (d : Dec) : Prop :=
  d.WF ∧ fmt x = d.text ∧ ∃ v, val x = some v ∧ |d.value - v| ≤ 5 / 10 ^ 6 * |v|

omit [FOps F] in
theorem printed_choice {fmt : F → Str} {val : F → Option ℝ} (hp : PrintSpec fmt val) (v : List F)
    (hfin : ∀ x ∈ v, ∃ r, val x = some r) : ∃ g : F → Dec, ∀ x ∈ v, PrintedAs fmt val x (g x) := by
  have : ∀ x : F, ∃ d, x ∈ v → PrintedAs fmt val x d := by
    intro x
    by_cases hx : x ∈ v
    · obtain ⟨r, hr⟩ := hfin x hx
      obtain ⟨d, h1, h2, h3⟩ := C59_number hp hr
      exact ⟨d, fun _ => ⟨h1, h2, r, hr, h3⟩⟩
    · exact ⟨⟨.none, [], none, none⟩, fun h => absurd h hx⟩
  choose g hg using this
  exact ⟨g, hg⟩

/-- C60: a nonempty list of finite numbers, written by `vector_to_string` and read by `read_comma_delimited_doubles`, comes back
with the same length and order, each number replaced by the six-digit decimal that is printed for it. -/
theorem C60_roundtrip {fmt : F → Str} {val : F → Option ℝ} (hp : PrintSpec fmt val)
    {libc : Libc F} {rnd : ℝ → F} {inRange : ℝ → Prop} (hspec : StrtodSpec libc.strtod rnd inRange)
    (v : List F) (hne : v ≠ []) (hfin : ∀ x ∈ v, ∃ r, val x = some r)
    (hin : ∀ x ∈ v, ∀ d, PrintedAs fmt val x d → inRange d.value) :
    ∃ (text : Str) (g : F → Dec), vectorToString fmt v = .ok text ∧ (∀ x ∈ v, PrintedAs fmt val x (g x)) ∧
      readCommaDelimitedDoubles libc text = .ok (v.map fun x => rnd (g x).value) := by
  obtain ⟨g, hg⟩ := printed_choice hp v hfin
  refine ⟨_, g, C60_text fmt v, hg, ?_⟩
  have h := read_decs hspec (v.map g) (by
    intro d hd
    obtain ⟨x, hx, rfl⟩ := List.mem_map.mp hd
    exact (hg x hx).1) (by
    intro d hd
    obtain ⟨x, hx, rfl⟩ := List.mem_map.mp hd
    exact hin x hx _ (hg x hx)) (by simpa using hne) ['\n'] (Or.inr rfl)
  rw [List.map_map, List.map_map] at h
  have e : v.map (Dec.text ∘ g) = v.map fmt := List.map_congr_left fun x hx => (hg x hx).2.1.symm
  rw [e] at h
  exact h

/-- C60: the empty list is written as a lone newline, which is not read back: the result is a `runtime_error`. -/
theorem C60_empty {libc : Libc F} {rnd : ℝ → F} {inRange : ℝ → Prop} (hspec : StrtodSpec libc.strtod rnd inRange)
    (h0 : FOps.eq (rnd 0) FOps.zero = true) (fmt : F → Str) :
    vectorToString fmt [] = .ok ['\n'] ∧ ∃ msg, readCommaDelimitedDoubles libc ['\n'] = .error (.runtimeError msg) := by
  refine ⟨C60_text fmt [], ?_⟩
  exact C28_bad_field hspec h0 [] [] ['\n'] (by simp) ⟨['\n'], .none, [], by decide, by simp [IsSpace], by simp, by simp, by simp⟩
    (Or.inl (by simp))

/-- C60: two lists of finite numbers (possibly empty), written with `vector_to_string` to a file one after the other, are read
back by the boundary file reader, each number replaced by its printed decimal. -/
theorem C60_file {fmt : F → Str} {val : F → Option ℝ} (hp : PrintSpec fmt val)
    {libc : Libc F} {rnd : ℝ → F} {inRange : ℝ → Prop} (hspec : StrtodSpec libc.strtod rnd inRange)
    (b B : List F) (hfin : ∀ x ∈ b ++ B, ∃ r, val x = some r)
    (hin : ∀ x ∈ b ++ B, ∀ d, PrintedAs fmt val x d → inRange d.value)
    (fs : Str → FileState) (name text1 text2 rest : Str) (h1 : vectorToString fmt b = .ok text1)
    (h2 : vectorToString fmt B = .ok text2) (hfile : fs name = .contents (text1 ++ text2 ++ rest)) :
    ∃ g : F → Dec, (∀ x ∈ b ++ B, PrintedAs fmt val x (g x)) ∧
      readAndCheckBoundariesFile libc fs name = .ok (b.map (fun x => rnd (g x).value), B.map fun x => rnd (g x).value) := by
  obtain ⟨g, hg⟩ := printed_choice hp (b ++ B) hfin
  refine ⟨g, hg, ?_⟩
  have hread : ∀ v : List F, (∀ x ∈ v, x ∈ b ++ B) →
      readCommaDelimitedDoubles libc (List.intercalate [',', ' '] (v.map fmt)) = .ok (v.map fun x => rnd (g x).value) := by
    intro v hv
    by_cases hne : v = []
    · subst hne; exact C28_empty libc
    · have h := read_decs hspec (v.map g) (by
        intro d hd
        obtain ⟨x, hx, rfl⟩ := List.mem_map.mp hd
        exact (hg x (hv x hx)).1) (by
        intro d hd
        obtain ⟨x, hx, rfl⟩ := List.mem_map.mp hd
        exact hin x (hv x hx) _ (hg x (hv x hx))) (by simpa using hne) [] (Or.inl rfl)
      rw [List.map_map, List.map_map, List.append_nil] at h
      have e : v.map (Dec.text ∘ g) = v.map fmt := List.map_congr_left fun x hx => (hg x (hv x hx)).2.1.symm
      rw [e] at h
      exact h
  have hnl : ∀ v : List F, (∀ x ∈ v, x ∈ b ++ B) → '\n' ∉ List.intercalate [',', ' '] (v.map fmt) := by
    intro v hv hc
    induction v with
    | nil => simp [List.intercalate] at hc
    | cons x l ih =>
      have hx : '\n' ∉ fmt x := by
        rw [(hg x (hv x (by simp))).2.1]
        exact text_ne (hg x (hv x (by simp))).1 (by decide) (by decide)
      by_cases hl : l = []
      · subst hl
        simp at hc
        exact hx hc
      · rw [List.map_cons, List.intercalate_cons_of_ne_nil (by simpa using hl)] at hc
        simp only [List.mem_append] at hc
        rcases hc with hc | hc
        · rcases hc with hc | hc
          · exact hx hc
          · simp at hc
        · exact ih (fun y hy => hv y (by simp [hy])) hc
  rw [C60_text] at h1 h2
  cases h1
  cases h2
  rw [C30_two_lines libc fs name _ (List.intercalate [',', ' '] (b.map fmt)) (List.intercalate [',', ' '] (B.map fmt)) hfile
    ⟨hnl b (by simp +contextual), hnl B (by simp +contextual), Or.inl ⟨rest, by simp⟩⟩, hread b (by simp +contextual), hread B (by simp +contextual)]
  rfl

/-! ### Boundaries stay valid boundaries -/

/-- The value of a decimal number depends only on its text. -/
theorem value_of_text {d e : Dec} (hd : d.WF) (he : e.WF) (h : d.text = e.text) : d.value = e.value := by
  have hn : EndsNumber [] := by intro c hc; cases hc
  have h1 := Witness.strtod_spec.number [] d [] (by simp) hd hn trivial
  have h2 := Witness.strtod_spec.number [] e [] (by simp) he hn trivial
  simp only [List.nil_append, List.append_nil] at h1 h2
  rw [h, h2] at h1
  have := congrArg StrtodResult.value h1
  simpa using this.symm

omit [FOps F] in
theorem printed_zero {fmt : F → Str} {val : F → Option ℝ} {x : F} {d : Dec} (h : PrintedAs fmt val x d) (hx : val x = some 0) :
    d.value = 0 := by
  obtain ⟨-, -, v, h1, h2⟩ := h
  rw [hx] at h1
  cases h1
  simpa using h2

omit [FOps F] in
theorem printed_pos {fmt : F → Str} {val : F → Option ℝ} (hp : PrintSpec fmt val) {x : F} {a : ℝ} (hx : val x = some a) (ha : 0 < a)
    {d : Dec} (h : PrintedAs fmt val x d) : ∃ m X, SixDigits a m X ∧ d.value = m * (10 : ℝ) ^ (X - 5) := by
  obtain ⟨m, X, h1, h2⟩ := hp.pos x a hx ha
  obtain ⟨s1, s2, -⟩ := sixDigits_spec h1
  refine ⟨m, X, h1, ?_⟩
  rw [value_of_text h.1 (g6_wf .none X s1 s2) (h.2.1.symm.trans h2), g6_value .none X s1 s2]
  simp [Sign.unit]

omit [FOps F] in
/-- C60: printing keeps the order of numbers that are not negative. -/
theorem C60_monotone {fmt : F → Str} {val : F → Option ℝ} (hp : PrintSpec fmt val) {x y : F} {a c : ℝ} (hx : val x = some a)
    (hy : val y = some c) (ha : 0 ≤ a) (hac : a < c) {d e : Dec} (hd : PrintedAs fmt val x d) (he : PrintedAs fmt val y e) :
    d.value ≤ e.value := by
  obtain ⟨m', X', s', v'⟩ := printed_pos hp hy (ha.trans_lt hac) he
  rcases ha.eq_or_lt with rfl | ha
  · rw [printed_zero hd hx, v']; positivity
  · obtain ⟨m, X, s, v⟩ := printed_pos hp hx ha hd
    rw [v, v']
    exact sixDigits_mono s s' hac

theorem six_one {m : ℕ} {X : ℤ} (h : SixDigits 1 m X) : m * (10 : ℝ) ^ (X - 5) = 1 := by
  obtain ⟨e, m0, h1, h2, h3, hc⟩ := h
  have he : e = 0 := by
    have a : e < 1 := by
      by_contra hn
      have : (10 : ℝ) ^ (1 : ℤ) ≤ (10 : ℝ) ^ e := zpow_le_zpow_right₀ (by norm_num) (by omega)
      norm_num at this
      linarith
    have b : -1 < e := by
      by_contra hn
      have : (10 : ℝ) ^ (e + 1) ≤ (10 : ℝ) ^ (0 : ℤ) := zpow_le_zpow_right₀ (by norm_num) (by omega)
      rw [zpow_zero] at this
      linarith
    omega
  subst he
  have e6 : (1 : ℝ) / (10 : ℝ) ^ (0 - 5 : ℤ) = 100000 := by norm_num [zpow_neg]
  rw [e6, abs_le] at h3
  have hm : m0 = 100000 := by
    have a : (m0 : ℝ) < (100001 : ℕ) := by push_cast; linarith [h3.1]
    have b : ((99999 : ℕ) : ℝ) < m0 := by push_cast; linarith [h3.2]
    have := Nat.cast_lt.mp a
    have := Nat.cast_lt.mp b
    omega
  subst hm
  rcases hc with ⟨-, rfl, rfl⟩ | ⟨h, -⟩
  · norm_num [zpow_neg]
  · omega

omit [FOps F] in
/-- C60: numbers in `[0,1]` are printed as numbers in `[0,1]`; 0 and 1 are printed exactly. -/
theorem C60_unit {fmt : F → Str} {val : F → Option ℝ} (hp : PrintSpec fmt val) {x : F} {a : ℝ} (hx : val x = some a)
    (ha : a ∈ Icc (0 : ℝ) 1) {d : Dec} (hd : PrintedAs fmt val x d) :
    d.value ∈ Icc (0 : ℝ) 1 ∧ (a = 0 → d.value = 0) ∧ (a = 1 → d.value = 1) := by
  obtain ⟨h0, h1⟩ := ha
  rcases h0.eq_or_lt with rfl | h0
  · rw [printed_zero hd hx]; norm_num
  · obtain ⟨m, X, s, v⟩ := printed_pos hp hx h0 hd
    have one : SixDigits 1 100000 0 := ⟨0, 100000, by norm_num, by norm_num, by norm_num [zpow_neg], Or.inl ⟨by norm_num, rfl, rfl⟩⟩
    rw [v]
    refine ⟨⟨by positivity, ?_⟩, fun h => absurd h h0.ne', fun h => six_one (h ▸ s)⟩
    rcases h1.eq_or_lt with rfl | h1
    · exact (six_one s).le
    · exact (sixDigits_mono s one h1).trans (six_one one).le

/-- C60: two valid boundaries, written to a file with `vector_to_string`, are valid boundaries when they are read back (they are
still non-decreasing and in `[0,1]`, and the assertion that they are not strongly crossed is not affected), and in exact
arithmetic the program prints for this file, up to six-digit output, a number within `n` times the total six-digit rounding
error of the probability for the original boundaries. -/
theorem C60_probability {fmt : XR → Str} (hp : PrintSpec fmt XR.value?)
    (w : World XR) (hf : ExactFFT w.env.fft) (hsort : SortContract w.sort)
    (hspec : StrtodSpec w.libc.strtod XR.fin fun _ => True) {n : ℕ} {b B : Fin n → ℝ} (hb : ValidBound b) (hB : ValidBound B)
    (name text1 text2 : Str) (h1 : vectorToString fmt (toList b) = .ok text1) (h2 : vectorToString fmt (toList B) = .ok text2)
    (hfile : w.fs name = .contents (text1 ++ text2))
    (command : String) (hc : command = "ecdf2-ks2001" ∨ command = "ecdf2-mn2017")
    (ha : w.env.asserts = false ∨ ¬ StronglyCrossed b B) :
    ∃ b' B' : Fin n → ℝ, ValidBound b' ∧ ValidBound B' ∧ (∀ i, |b' i - b i| ≤ 5 / 10 ^ 6 * b i) ∧
      (∀ i, |B' i - B i| ≤ 5 / 10 ^ 6 * B i) ∧
      |noncrossProb b' B' - noncrossProb b B| ≤ n * ∑ i, 5 / 10 ^ 6 * (b i + B i) ∧
      crossprobMain w [command.toList, name] = .printed (XR.fin (noncrossProb b' B')) := by
  have hmem : ∀ x ∈ toList b ++ toList B, ∃ r, XR.value? x = some r ∧ r ∈ Icc (0 : ℝ) 1 ∧ x = XR.fin r := by
    intro x hx
    rcases List.mem_append.mp hx with hx | hx
    · obtain ⟨i, rfl⟩ := (List.mem_ofFn' _ x).mp hx
      exact ⟨b i, rfl, hb.range i, rfl⟩
    · obtain ⟨i, rfl⟩ := (List.mem_ofFn' _ x).mp hx
      exact ⟨B i, rfl, hB.range i, rfl⟩
  obtain ⟨g, hg, hread⟩ := C60_file hp hspec (toList b) (toList B) (fun x hx => let ⟨r, h, _⟩ := hmem x hx; ⟨r, h⟩)
    (fun _ _ _ _ => trivial) w.fs name text1 text2 [] h1 h2 (by rw [List.append_nil]; exact hfile)
  have mb : ∀ i, XR.fin (b i) ∈ toList b ++ toList B := fun i => List.mem_append_left _ ((List.mem_ofFn' _ _).mpr ⟨i, rfl⟩)
  have mB : ∀ i, XR.fin (B i) ∈ toList b ++ toList B := fun i => List.mem_append_right _ ((List.mem_ofFn' _ _).mpr ⟨i, rfl⟩)
  have mono : ∀ a c : ℝ, XR.fin a ∈ toList b ++ toList B → XR.fin c ∈ toList b ++ toList B → a ≤ c →
      (g (XR.fin a)).value ≤ (g (XR.fin c)).value := by
    intro a c ma mc hac
    rcases hac.eq_or_lt with rfl | hac
    · exact le_rfl
    · obtain ⟨r, hr, hr2, -⟩ := hmem _ ma
      cases hr
      exact C60_monotone hp (a := a) (c := c) rfl rfl hr2.1 hac (hg _ ma) (hg _ mc)
  have close : ∀ a : ℝ, XR.fin a ∈ toList b ++ toList B → |(g (XR.fin a)).value - a| ≤ 5 / 10 ^ 6 * a := by
    intro a ma
    obtain ⟨-, -, v, hv, hc⟩ := hg _ ma
    cases hv
    obtain ⟨r, hr, hr2, -⟩ := hmem _ ma
    cases hr
    rwa [abs_of_nonneg hr2.1] at hc
  have unit : ∀ a : ℝ, XR.fin a ∈ toList b ++ toList B → (g (XR.fin a)).value ∈ Icc (0 : ℝ) 1 := by
    intro a ma
    obtain ⟨r, hr, hr2, -⟩ := hmem _ ma
    cases hr
    exact (C60_unit hp (a := a) rfl hr2 (hg _ ma)).1
  have vb : ValidBound fun i => (g (XR.fin (b i))).value := ⟨fun i j h => mono _ _ (mb i) (mb j) (hb.mono h), fun i => unit _ (mb i)⟩
  have vB : ValidBound fun i => (g (XR.fin (B i))).value := ⟨fun i j h => mono _ _ (mB i) (mB j) (hB.mono h), fun i => unit _ (mB i)⟩
  refine ⟨fun i => (g (XR.fin (b i))).value, fun i => (g (XR.fin (B i))).value, vb, vB, fun i => close _ (mb i), fun i => close _ (mB i),
    ?_, ?_⟩
  · refine (noncross_lipschitz _ _ _ _).trans (mul_le_mul_of_nonneg_left (Finset.sum_le_sum fun i _ => ?_) (Nat.cast_nonneg n))
    linarith [close _ (mb i), close _ (mB i)]
  · have ha' : w.env.asserts = false ∨ ¬ StronglyCrossed (fun i => (g (XR.fin (b i))).value) fun i => (g (XR.fin (B i))).value := by
      refine ha.imp_right fun hn => ?_
      rintro ⟨i, j, hij, h⟩
      refine hn ⟨i, j, hij, ?_⟩
      by_contra hcon
      exact absurd (mono _ _ (mb i) (mB j) (not_lt.mp hcon)) (not_le.mpr h)
    have hread' : readAndCheckBoundariesFile w.libc w.fs name
        = .ok (toList (fun i => (g (XR.fin (b i))).value), toList fun i => (g (XR.fin (B i))).value) := by
      rw [hread]
      simp only [toList, List.map_ofFn]
      rfl
    have hpad : Computes.Padded (toList (fun i => (g (XR.fin (b i))).value)) (toList fun i => (g (XR.fin (B i))).value)
        (toList (fun i => (g (XR.fin (b i))).value)) (toList fun i => (g (XR.fin (B i))).value) :=
      Or.inl ⟨by simp [toList], rfl, rfl⟩
    rw [C26_printed]
    refine ⟨command.toList, name, _, _, rfl, hread', ?_⟩
    rw [String.ofList_toList]
    rcases hc with rfl | rfl
    · exact Or.inr (Or.inr (Or.inl ⟨rfl, _, _, hpad, (C01_ecdf2 w.env hf hsort vb vB false ha').symm⟩))
    · exact Or.inr (Or.inr (Or.inr ⟨rfl, _, _, hpad, (C01_ecdf2 w.env hf hsort vb vB true ha').symm⟩))

/-- C60 is about something: the hypotheses are met for `1/10, 3/10` and `1/2, 9/10`. -/
example : ∃ (text1 text2 : Str) (x : ℝ), vectorToString (fun x => print6 (XR.value? x)) (toList exb) = .ok text1 ∧
    vectorToString (fun x => print6 (XR.value? x)) (toList exB) = .ok text2 ∧
    crossprobMain (exWorld true (text1 ++ text2)) ["ecdf2-mn2017".toList, "bounds.txt".toList] = .printed (XR.fin x) ∧
    |x - noncrossProb exb exB| ≤ 18 / 10 ^ 6 := by
  have h1 := C60_text (fun x => print6 (XR.value? x)) (toList exb)
  have h2 := C60_text (fun x => print6 (XR.value? x)) (toList exB)
  obtain ⟨b', B', -, -, -, -, h, hr⟩ := C60_probability (print6_spec XR.value?) (exWorld true _) exactFFTW_exact mergeSortBounds_contract
    Witness.strtod_spec exb_valid exB_valid "bounds.txt".toList _ _ h1 h2 (exWorld_fs _ _) "ecdf2-mn2017" (Or.inr rfl)
    (Or.inr (by
      rintro ⟨i, j, hij, h⟩
      fin_cases i <;> fin_cases j <;> simp [exb, exB] at hij h
      norm_num at h))
  refine ⟨_, _, _, h1, h2, hr, h.trans ?_⟩
  simp [Fin.sum_univ_two, exb, exB]
  norm_num

end CP.Props
