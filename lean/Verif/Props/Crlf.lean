import Verif.Props.Strings
/-
Property C44: files with Windows line ends ("\r\n").  `getline` keeps the "\r".
-/
namespace CP.Props
open CP.Spec
variable {F : Type} [FOps F]

/-- A comma-separated line of numeric fields. -/
abbrev lineText (fs : List Field) : Str := List.intercalate [','] (fs.map Field.text)

theorem endsNumber_append {r t : Str} (hr : EndsNumber r) (ht : EndsNumber t) : EndsNumber (r ++ t) := by
  intro c hc
  cases r with
  | nil => exact ht c hc
  | cons x r => exact hr c (by simpa using hc)

theorem endsNumber_cr : EndsNumber ['\r'] := by
  intro c hc
  simp at hc
  subst hc
  decide

/-- C44: a carriage return after the last field of a line changes nothing. -/
theorem C44_numbers {libc : Libc F} {rnd : ℝ → F} {inRange : ℝ → Prop} (hspec : StrtodSpec libc.strtod rnd inRange)
    (fs : List Field) (hne : fs ≠ []) (hf : ∀ f ∈ fs, f.WF) (hin : ∀ f ∈ fs, inRange f.num.value) :
    readCommaDelimitedDoubles libc (lineText fs ++ ['\r']) = .ok (fs.map fun f => rnd f.num.value) := by
  obtain ⟨fs', f, rfl⟩ : ∃ fs' f, fs = fs' ++ [f] := ⟨_, _, (List.dropLast_append_getLast hne).symm⟩
  have hff := hf f (by simp)
  let g : Field := { f with rest := f.rest ++ ['\r'] }
  have hg : g.WF := ⟨hff.1, hff.2.1, endsNumber_append hff.2.2.1 endsNumber_cr, by
    show ',' ∉ f.rest ++ ['\r']
    simpa using hff.2.2.2⟩
  have e : lineText (fs' ++ [f]) ++ ['\r'] = lineText (fs' ++ [g]) := by
    have hgt : g.text = f.text ++ ['\r'] := by simp [Field.text, g]
    unfold lineText
    rw [List.map_append, List.map_append, List.map_singleton, List.map_singleton, hgt]
    by_cases h : fs'.map Field.text = []
    · rw [h]
      simp [List.intercalate]
    · rw [intercalate_snoc _ _ _ h, intercalate_snoc _ _ _ h]
      simp
  rw [e, C28_line hspec (fs' ++ [g]) (by simp) (by
    intro x hx
    rcases List.mem_append.mp hx with hx | hx
    · exact hf x (by simp [hx])
    · simp at hx; subst hx; exact hg) (by
    intro x hx
    rcases List.mem_append.mp hx with hx | hx
    · exact hin x (by simp [hx])
    · simp at hx; subst hx; exact hin f (by simp))]
  simp [g]

theorem notNumber_cr : NotNumber (cStr ['\r']) := by
  refine ⟨['\r'], .none, [], by decide, ?_, ?_, ?_, ?_⟩
  · intro c hc; simp at hc; subst hc; decide
  · intro c hc; cases hc
  · intro _ c hc; cases hc
  · intro c hc; cases hc

/-- C44: but a line that is empty except for a carriage return is an error, not the empty list ... -/
theorem C44_empty_line {libc : Libc F} {rnd : ℝ → F} {inRange : ℝ → Prop} (hspec : StrtodSpec libc.strtod rnd inRange)
    (h0 : FOps.eq (rnd 0) FOps.zero = true) :
    ∃ msg, readCommaDelimitedDoubles libc ['\r'] = .error (.runtimeError msg) := by
  have := C28_bad_field hspec h0 [] [] ['\r'] (by decide) notNumber_cr (Or.inl (by simp))
  simpa [List.intercalate] using this

/-- C44: ... and the optional trailing comma is no longer optional before a carriage return. -/
theorem C44_trailing_comma {libc : Libc F} {rnd : ℝ → F} {inRange : ℝ → Prop} (hspec : StrtodSpec libc.strtod rnd inRange)
    (h0 : FOps.eq (rnd 0) FOps.zero = true) (fs : List Field) (hne : fs ≠ []) (hf : ∀ f ∈ fs, f.WF) :
    ∃ msg, readCommaDelimitedDoubles libc (lineText fs ++ [',', '\r']) = .error (.runtimeError msg) := by
  have := C28_bad_field hspec h0 (fs.map Field.text) [] ['\r'] (by
    intro p hp
    rcases List.mem_append.mp hp with hp | hp
    · obtain ⟨f, hfm, rfl⟩ := List.mem_map.mp hp
      exact Field.no_comma (hf f hfm)
    · simp at hp; subst hp; decide) notNumber_cr (Or.inl (by simp))
  rw [intercalate_snoc _ _ _ (by simpa using hne)] at this
  exact this

/-- No field contains a newline. -/
def OneLine (fs : List Field) : Prop := '\n' ∉ lineText fs

/-- C44: a two-sided boundary file means the same with Unix and Windows line ends. -/
theorem C44_file {libc : Libc F} {rnd : ℝ → F} {inRange : ℝ → Prop} (hspec : StrtodSpec libc.strtod rnd inRange)
    (fs1 fs2 : List Field) (hne1 : fs1 ≠ []) (hne2 : fs2 ≠ []) (hf : ∀ f ∈ fs1 ++ fs2, f.WF)
    (hin : ∀ f ∈ fs1 ++ fs2, inRange f.num.value) (ho1 : OneLine fs1) (ho2 : OneLine fs2)
    (fs : Str → FileState) (unix dos rest rest' : Str)
    (hu : fs unix = .contents (lineText fs1 ++ '\n' :: (lineText fs2 ++ '\n' :: rest)))
    (hd : fs dos = .contents (lineText fs1 ++ ['\r'] ++ '\n' :: (lineText fs2 ++ ['\r'] ++ '\n' :: rest'))) :
    readAndCheckBoundariesFile libc fs dos = readAndCheckBoundariesFile libc fs unix ∧
    readAndCheckBoundariesFile libc fs dos
      = .ok (fs1.map (fun f => rnd f.num.value), fs2.map (fun f => rnd f.num.value)) := by
  have w1 : ∀ f ∈ fs1, f.WF := fun f h => hf f (by simp [h])
  have w2 : ∀ f ∈ fs2, f.WF := fun f h => hf f (by simp [h])
  have i1 : ∀ f ∈ fs1, inRange f.num.value := fun f h => hin f (by simp [h])
  have i2 : ∀ f ∈ fs2, inRange f.num.value := fun f h => hin f (by simp [h])
  rw [C30_two_lines libc fs dos _ (lineText fs1 ++ ['\r']) (lineText fs2 ++ ['\r']) hd
      ⟨by simpa [OneLine] using ho1, by simpa [OneLine] using ho2, Or.inl ⟨rest', rfl⟩⟩,
    C30_two_lines libc fs unix _ (lineText fs1) (lineText fs2) hu ⟨ho1, ho2, Or.inl ⟨rest, rfl⟩⟩,
    C44_numbers hspec fs1 hne1 w1 i1, C44_numbers hspec fs2 hne2 w2 i2, C28_line hspec fs1 hne1 w1 i1,
    C28_line hspec fs2 hne2 w2 i2]
  exact ⟨rfl, rfl⟩

/-- C44: a one-sided boundary file (first or second line empty) with Windows line ends is rejected. -/
theorem C44_one_sided_file {libc : Libc F} {rnd : ℝ → F} {inRange : ℝ → Prop}
    (hspec : StrtodSpec libc.strtod rnd inRange) (h0 : FOps.eq (rnd 0) FOps.zero = true)
    (fs1 : List Field) (hne : fs1 ≠ []) (hf : ∀ f ∈ fs1, f.WF) (hin : ∀ f ∈ fs1, inRange f.num.value) (ho : OneLine fs1)
    (fs : Str → FileState) (name rest : Str)
    (h : fs name = .contents (['\r'] ++ '\n' :: (lineText fs1 ++ ['\r'] ++ '\n' :: rest)) ∨
      fs name = .contents (lineText fs1 ++ ['\r'] ++ '\n' :: (['\r'] ++ '\n' :: rest))) :
    ∃ msg, readAndCheckBoundariesFile libc fs name = .error (.runtimeError msg) := by
  obtain ⟨msg, hm⟩ := C44_empty_line hspec h0
  refine ⟨msg, ?_⟩
  rcases h with h | h
  · rw [C30_two_lines libc fs name _ ['\r'] (lineText fs1 ++ ['\r']) h
      ⟨by decide, by simpa [OneLine] using ho, Or.inl ⟨rest, rfl⟩⟩, hm]
    rfl
  · rw [C30_two_lines libc fs name _ (lineText fs1 ++ ['\r']) ['\r'] h
      ⟨by simpa [OneLine] using ho, by decide, Or.inl ⟨rest, rfl⟩⟩, C44_numbers hspec fs1 hne hf hin, M_ok_bind, hm]
    rfl

/-- The file "\r\n0.5\r\n" is rejected, although "\n0.5\n" is the one-sided boundary [0.5]. -/
example (fs : Str → FileState) (h : fs "f".toList = .contents "\r\n0.5\r\n".toList) :
    ∃ msg, readAndCheckBoundariesFile Witness.libc fs "f".toList = .error (.runtimeError msg) :=
  C44_one_sided_file (libc := Witness.libc) Witness.strtod_spec
    (by show XR.eq _ _ = _; simp [FOps.zero, FOps.ofInt, XR.eq]) [⟨[], dec05, []⟩] (by simp)
    (by
      intro f hf
      simp only [List.mem_singleton] at hf
      subst hf
      exact ⟨by simp, dec05_wf, (by intro c hc; cases hc), by simp⟩)
    (by intro f hf; trivial) (by unfold OneLine; decide) fs _ [] (Or.inl h)

end CP.Props
