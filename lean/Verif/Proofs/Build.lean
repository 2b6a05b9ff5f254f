import Verif.BuildSpec
import Mathlib.Tactic
namespace CP.Build
open CP.Spec
variable {C E O X : Type} {T : Tools C E O X}

theorem objects_eq (e : Exe) : objects e = modules e := by cases e <;> rfl

theorem prereqs_obj (m : Src) : prereqs (.obj m) = [.src m] := by cases m <;> rfl

theorem prereqs_exe (e : Exe) : prereqs (.exe e) = (modules e).map .obj := by cases e <;> rfl

theorem outdated_obj (s : State C E O X) (m : Src) :
    outdated s (.obj m) = false ↔ ∃ o t, s.obj m = some (o, t) ∧ s.srcTime m ≤ t := by
  unfold outdated
  rw [prereqs_obj]
  cases h : s.obj m with
  | none => simp [mtime, h]
  | some p => obtain ⟨o, t⟩ := p; simp [mtime, h]

theorem outdated_exe (s : State C E O X) (e : Exe) :
    outdated s (.exe e) = false ↔ ∃ x t, s.exe e = some (x, t) ∧ ∀ m ∈ modules e, ∃ o t', s.obj m = some (o, t') ∧ t' ≤ t := by
  unfold outdated
  rw [prereqs_exe]
  cases h : s.exe e with
  | none => simp [mtime, h]
  | some p =>
    obtain ⟨x, t⟩ := p
    simp only [mtime, h, Option.map_some, List.any_map, List.any_eq_false, Option.some.injEq, Prod.mk.injEq]
    constructor
    · intro ha
      refine ⟨x, t, ⟨rfl, rfl⟩, fun m hm => ?_⟩
      have := ha m hm
      cases h2 : s.obj m with
      | none => simp [h2] at this
      | some q =>
        obtain ⟨o, t'⟩ := q
        simp [h2] at this
        exact ⟨o, t', rfl, this⟩
    · rintro ⟨x', t', ⟨rfl, rfl⟩, ha⟩ m hm
      obtain ⟨o, t', h2, h3⟩ := ha m hm
      simp [h2, h3]

theorem mapM_some {α β : Type} (f : α → Option β) : ∀ (l : List α) (os : List β), l.mapM f = some os ↔ l.map f = os.map some := by
  intro l
  induction l with
  | nil => intro os; cases os <;> simp
  | cons a l ih =>
    intro os
    rw [List.mapM_cons]
    cases h : f a with
    | none => cases os <;> simp [h]
    | some b =>
      cases h2 : l.mapM f with
      | none =>
        cases os with
        | nil => simp [h]
        | cons o os =>
          simp only [Option.bind_eq_bind, Option.bind_some, Option.bind_none, List.map_cons, h]
          constructor
          · intro h3; cases h3
          · intro h3
            have := (ih os).mpr (List.cons.inj h3).2
            rw [h2] at this; cases this
      | some bs =>
        have h3 := (ih bs).mp h2
        cases os with
        | nil => simp [h]
        | cons o os =>
          simp only [Option.bind_eq_bind, Option.bind_some, List.map_cons, h, h3, List.cons.injEq, Option.some.injEq, pure]
          refine and_congr Iff.rfl ?_
          exact ((Option.some_injective _).list_map.eq_iff).symm

theorem mapM_isSome {α β : Type} (f : α → Option β) (l : List α) (h : ∀ a ∈ l, ∃ b, f a = some b) : ∃ os, l.mapM f = some os := by
  induction l with
  | nil => exact ⟨[], rfl⟩
  | cons a l ih =>
    obtain ⟨b, hb⟩ := h a (by simp)
    obtain ⟨os, hos⟩ := ih fun a' ha' => h a' (by simp [ha'])
    exact ⟨b :: os, by rw [List.mapM_cons, hb, hos]; rfl⟩

theorem mapM_mem {α β : Type} {f : α → Option β} {l : List α} {os : List β} (h : l.mapM f = some os) {a : α} (ha : a ∈ l) :
    ∃ b, f a = some b := by
  have h1 := (mapM_some f l os).mp h
  have h2 : f a ∈ os.map some := by rw [← h1]; exact List.mem_map_of_mem ha
  obtain ⟨b, -, hb⟩ := List.mem_map.mp h2
  exact ⟨b, hb.symm⟩

theorem mapM_cong {α β : Type} {f g : α → Option β} {l : List α} (h : ∀ a ∈ l, f a = g a) : l.mapM f = l.mapM g := by
  induction l with
  | nil => rfl
  | cons a l ih => rw [List.mapM_cons, List.mapM_cons, h a (by simp), ih fun a' ha' => h a' (by simp [ha'])]

/-- Nothing on disk is newer than the clock, and what make takes to be up to date is. -/
structure Good (T : Tools C E O X) (s : State C E O X) : Prop where
  src : ∀ m, s.srcTime m ≤ s.now
  obj : ∀ m o t, s.obj m = some (o, t) → t ≤ s.now ∧ (s.srcTime m ≤ t → T.compile m (s.src m) s.hdr s.env = some o)
  exe : ∀ e x t, s.exe e = some (x, t) → t ≤ s.now ∧
    ∀ os, (modules e).mapM (fun m => (s.obj m).map Prod.fst) = some os → (∀ m ∈ modules e, ∀ o t', s.obj m = some (o, t') → t' ≤ t) →
      T.link e s.env os = some x

theorem Good.setObj {s : State C E O X} (h : Good T s) {m : Src} {o : Option (O × ℕ)}
    (ho : ∀ o' t, o = some (o', t) → t = s.now + 1 ∧ T.compile m (s.src m) s.hdr s.env = some o') : Good T (setObj s m o) := by
  refine ⟨fun k => (h.src k).trans (Nat.le_succ _), fun k o' t hk => ?_, fun e x t hx => ?_⟩
  · simp only [CP.Build.setObj] at hk ⊢
    split_ifs at hk with hm
    · subst hm
      obtain ⟨h1, h2⟩ := ho _ _ hk
      exact ⟨h1.le, fun _ => h2⟩
    · obtain ⟨h1, h2⟩ := h.obj k o' t hk
      exact ⟨by omega, h2⟩
  · simp only [CP.Build.setObj] at hx ⊢
    obtain ⟨h1, h2⟩ := h.exe e x t hx
    refine ⟨by omega, fun os hos ht => ?_⟩
    by_cases hm : m ∈ modules e
    · cases ho' : o with
      | none =>
        exfalso
        obtain ⟨v, hv⟩ := mapM_mem hos hm
        simp [ho'] at hv
      | some p =>
        obtain ⟨o', t'⟩ := p
        have := ht m hm o' t' (by simp [ho'])
        have := (ho o' t' ho').1
        omega
    · have e1 : ∀ k ∈ modules e, (if k = m then o else s.obj k) = s.obj k := by
        intro k hk; rw [if_neg]; rintro rfl; exact hm hk
      refine h2 os ?_ (fun k hk o' t' hk' => ht k hk o' t' (by rw [e1 k hk]; exact hk'))
      rw [← hos]
      refine mapM_cong ?_
      intro k hk
      rw [e1 k hk]

/-- Make takes the object file to be up to date. -/
def UpObj (s : State C E O X) (m : Src) : Prop := ∃ o t, s.obj m = some (o, t) ∧ s.srcTime m ≤ t

/-- The program is not older than its object files. -/
def UpExe (s : State C E O X) (e : Exe) : Prop :=
  ∃ x t, s.exe e = some (x, t) ∧ ∀ m ∈ modules e, ∃ o t', s.obj m = some (o, t') ∧ t' ≤ t

/-- The program and its object files are up to date. -/
def Done (s : State C E O X) (e : Exe) : Prop := UpExe s e ∧ ∀ m ∈ modules e, UpObj s m

/-- The same inputs. -/
structure Same (s s' : State C E O X) : Prop where
  src : s'.src = s.src
  srcTime : s'.srcTime = s.srcTime
  hdr : s'.hdr = s.hdr
  env : s'.env = s.env
  iface : s'.iface = s.iface

theorem Same.refl (s : State C E O X) : Same s s := ⟨rfl, rfl, rfl, rfl, rfl⟩
theorem Same.trans {s s' s'' : State C E O X} (h : Same s s') (h' : Same s' s'') : Same s s'' :=
  ⟨h'.1.trans h.1, h'.2.trans h.2, h'.3.trans h.3, h'.4.trans h.4, h'.5.trans h.5⟩
theorem Same.fresh {s s' : State C E O X} (h : Same s s') (e : Exe) : freshBuild T s' e = freshBuild T s e := by
  unfold freshBuild; rw [h.src, h.hdr, h.env]

theorem Good.fresh {s : State C E O X} (h : Good T s) {e : Exe} (hd : Done s e) :
    ∃ x, (s.exe e).map Prod.fst = some x ∧ freshBuild T s e = some x := by
  obtain ⟨⟨x, t, hx, hm⟩, hu⟩ := hd
  have h1 : ∀ m ∈ modules e, ∃ o, (fun m => (s.obj m).map Prod.fst) m = some o := by
    intro m hm'
    obtain ⟨o, t', h2, -⟩ := hm m hm'
    exact ⟨o, by simp [h2]⟩
  obtain ⟨os, hos⟩ := mapM_isSome _ _ h1
  refine ⟨x, by simp [hx], ?_⟩
  have h2 : (modules e).mapM (fun m => T.compile m (s.src m) s.hdr s.env) = some os := by
    rw [← hos]
    refine mapM_cong fun m hm' => ?_
    obtain ⟨o, t', h3, h4⟩ := hu m hm'
    rw [(h.obj m o t' h3).2 h4, h3]; rfl
  unfold freshBuild
  rw [h2]
  refine (h.exe e x t hx).2 os hos fun m hm' o t' h3 => ?_
  obtain ⟨o', t'', h4, h5⟩ := hm m hm'
  rw [h3] at h4
  simp only [Option.some.injEq, Prod.mk.injEq] at h4
  omega

theorem makeObj_up {s : State C E O X} {m : Src} (h : UpObj s m) : makeObj T m s = ⟨s, [], true⟩ := by
  unfold makeObj
  rw [(outdated_obj s m).mpr h]
  rfl

theorem not_up {s : State C E O X} {m : Src} (h : ¬ UpObj s m) : outdated s (.obj m) = true := by
  by_contra hc
  exact h ((outdated_obj s m).mp (by simpa using hc))

theorem linkExe_up {s : State C E O X} {e : Exe} (h : UpExe s e) : linkExe T e s = ⟨s, [], true⟩ := by
  unfold linkExe
  rw [(outdated_exe s e).mpr h]
  rfl

theorem not_upExe {s : State C E O X} {e : Exe} (h : ¬ UpExe s e) : outdated s (.exe e) = true := by
  by_contra hc
  exact h ((outdated_exe s e).mp (by simpa using hc))

/-- What compiling a module does. -/
theorem makeObj_cases (T : Tools C E O X) (m : Src) (s : State C E O X) :
    (UpObj s m ∧ makeObj T m s = ⟨s, [], true⟩) ∨
    (¬ UpObj s m ∧ s.buildDir = true ∧ ∃ o, T.compile m (s.src m) s.hdr s.env = some o ∧
      makeObj T m s = ⟨setObj s m (some (o, s.now + 1)), [.compiled m], true⟩) ∨
    (¬ UpObj s m ∧ s.buildDir = true ∧ T.compile m (s.src m) s.hdr s.env = none ∧ makeObj T m s = ⟨setObj s m none, [], false⟩) ∨
    (¬ UpObj s m ∧ s.buildDir = false ∧ makeObj T m s = ⟨s, [], false⟩) := by
  by_cases h : UpObj s m
  · exact Or.inl ⟨h, makeObj_up h⟩
  · right
    have ho := not_up h
    cases hb : s.buildDir with
    | false =>
      right; right
      refine ⟨h, rfl, ?_⟩
      unfold makeObj; rw [if_pos ho, hb]; rfl
    | true =>
      cases hc : T.compile m (s.src m) s.hdr s.env with
      | some o =>
        left
        refine ⟨h, rfl, o, rfl, ?_⟩
        unfold makeObj; rw [if_pos ho, hb, hc]; rfl
      | none =>
        right; left
        refine ⟨h, rfl, rfl, ?_⟩
        unfold makeObj; rw [if_pos ho, hb, hc]; rfl

/-- What linking does. -/
theorem linkExe_cases (T : Tools C E O X) (e : Exe) (s : State C E O X) :
    (UpExe s e ∧ linkExe T e s = ⟨s, [], true⟩) ∨
    (¬ UpExe s e ∧ s.binDir = true ∧ ∃ os x, (modules e).mapM (fun m => (s.obj m).map Prod.fst) = some os ∧ T.link e s.env os = some x ∧
      linkExe T e s = ⟨setExe s e (some (x, s.now + 1)), [.linked e], true⟩) ∨
    (¬ UpExe s e ∧ s.binDir = true ∧ ∃ os, (modules e).mapM (fun m => (s.obj m).map Prod.fst) = some os ∧ T.link e s.env os = none ∧
      linkExe T e s = ⟨setExe s e none, [], false⟩) ∨
    (¬ UpExe s e ∧ (s.binDir = false ∨ (modules e).mapM (fun m => (s.obj m).map Prod.fst) = none) ∧ linkExe T e s = ⟨s, [], false⟩) := by
  by_cases h : UpExe s e
  · exact Or.inl ⟨h, linkExe_up h⟩
  · right
    have ho := not_upExe h
    unfold linkExe
    rw [if_pos ho, objects_eq]
    cases hb : s.binDir with
    | false => right; right; exact ⟨h, Or.inl rfl, rfl⟩
    | true =>
      cases hm : (modules e).mapM (fun m => (s.obj m).map Prod.fst) with
      | none => right; right; exact ⟨h, Or.inr rfl, rfl⟩
      | some os =>
        cases hc : T.link e s.env os with
        | some x => left; exact ⟨h, rfl, os, x, rfl, hc, by simp [hc]⟩
        | none => right; left; exact ⟨h, rfl, os, rfl, hc, by simp [hc]⟩

theorem Good.setExe {s : State C E O X} (h : Good T s) {e : Exe} {x : Option (X × ℕ)}
    (hx : ∀ x' t, x = some (x', t) → t = s.now + 1 ∧
      ∃ os, (modules e).mapM (fun m => (s.obj m).map Prod.fst) = some os ∧ T.link e s.env os = some x') : Good T (setExe s e x) := by
  refine ⟨fun k => (h.src k).trans (Nat.le_succ _), fun k o' t hk => ?_, fun e' x' t hx' => ?_⟩
  · obtain ⟨h1, h2⟩ := h.obj k o' t hk
    exact ⟨h1.trans (Nat.le_succ _), h2⟩
  · simp only [CP.Build.setExe] at hx' ⊢
    split_ifs at hx' with hm
    · subst hm
      obtain ⟨h1, os, h2, h3⟩ := hx _ _ hx'
      refine ⟨h1.le, fun os' h4 _ => ?_⟩
      rw [h2] at h4
      cases h4
      exact h3
    · obtain ⟨h1, h2⟩ := h.exe e' x' t hx'
      exact ⟨by omega, h2⟩

theorem doJob_good {s : State C E O X} (h : Good T s) (j : Job) : Good T (doJob T s j).state ∧ Same s (doJob T s j).state := by
  cases j with
  | mkBuild => exact ⟨⟨h.src, h.obj, h.exe⟩, ⟨rfl, rfl, rfl, rfl, rfl⟩⟩
  | mkBin => exact ⟨⟨h.src, h.obj, h.exe⟩, ⟨rfl, rfl, rfl, rfl, rfl⟩⟩
  | obj m =>
    change Good T (makeObj T m s).state ∧ Same s (makeObj T m s).state
    rcases makeObj_cases T m s with ⟨-, e⟩ | ⟨-, -, o, ho, e⟩ | ⟨-, -, -, e⟩ | ⟨-, -, e⟩ <;> rw [e]
    · exact ⟨h, Same.refl s⟩
    · exact ⟨h.setObj fun o' t he => by cases he; exact ⟨rfl, ho⟩, ⟨rfl, rfl, rfl, rfl, rfl⟩⟩
    · exact ⟨h.setObj fun o' t he => (by cases he), ⟨rfl, rfl, rfl, rfl, rfl⟩⟩
    · exact ⟨h, Same.refl s⟩
  | exe k =>
    change Good T (linkExe T k s).state ∧ Same s (linkExe T k s).state
    rcases linkExe_cases T k s with ⟨-, e⟩ | ⟨-, -, os, x, h1, h2, e⟩ | ⟨-, -, os, -, -, e⟩ | ⟨-, -, e⟩ <;> rw [e]
    · exact ⟨h, Same.refl s⟩
    · exact ⟨h.setExe fun o' t he => by cases he; exact ⟨rfl, os, h1, h2⟩, ⟨rfl, rfl, rfl, rfl, rfl⟩⟩
    · exact ⟨h.setExe fun o' t he => (by cases he), ⟨rfl, rfl, rfl, rfl, rfl⟩⟩
    · exact ⟨h, Same.refl s⟩

/-- A successful job keeps object files up to date. -/
theorem doJob_upObj {s : State C E O X} {k : Src} (hk : UpObj s k) (j : Job) : UpObj (doJob T s j).state k := by
  cases j with
  | mkBuild => exact hk
  | mkBin => exact hk
  | obj m =>
    change UpObj (makeObj T m s).state k
    rcases makeObj_cases T m s with ⟨-, e⟩ | ⟨hm, -, o, ho, e⟩ | ⟨hm, -, -, e⟩ | ⟨-, -, e⟩ <;> rw [e]
    · exact hk
    · obtain ⟨o', t, h1, h2⟩ := hk
      refine ⟨o', t, ?_, h2⟩
      simp only [setObj]; rw [if_neg (by rintro rfl; exact hm ⟨o', t, h1, h2⟩)]; exact h1
    · obtain ⟨o', t, h1, h2⟩ := hk
      refine ⟨o', t, ?_, h2⟩
      simp only [setObj]; rw [if_neg (by rintro rfl; exact hm ⟨o', t, h1, h2⟩)]; exact h1
    · exact hk
  | exe e' =>
    change UpObj (linkExe T e' s).state k
    rcases linkExe_cases T e' s with ⟨-, e⟩ | ⟨-, -, os, x, h1, h2, e⟩ | ⟨-, -, os, -, -, e⟩ | ⟨-, -, e⟩ <;> rw [e] <;> exact hk

/-- Jobs keep a finished program finished. -/
theorem doJob_done {s : State C E O X} {e : Exe} (hd : Done s e) (j : Job) : Done (doJob T s j).state e := by
  refine ⟨?_, fun m hm => doJob_upObj (hd.2 m hm) j⟩
  cases j with
  | mkBuild => exact hd.1
  | mkBin => exact hd.1
  | obj k =>
    change UpExe (makeObj T k s).state e
    rcases makeObj_cases T k s with ⟨-, e1⟩ | ⟨hm, -, o, ho, e1⟩ | ⟨hm, -, -, e1⟩ | ⟨-, -, e1⟩ <;> rw [e1]
    · exact hd.1
    · obtain ⟨x, t, h1, h2⟩ := hd.1
      refine ⟨x, t, h1, fun m hm' => ?_⟩
      obtain ⟨o', t', h3, h4⟩ := h2 m hm'
      refine ⟨o', t', ?_, h4⟩
      simp only [setObj]; rw [if_neg (by rintro rfl; exact hm (hd.2 _ hm'))]; exact h3
    · obtain ⟨x, t, h1, h2⟩ := hd.1
      refine ⟨x, t, h1, fun m hm' => ?_⟩
      obtain ⟨o', t', h3, h4⟩ := h2 m hm'
      refine ⟨o', t', ?_, h4⟩
      simp only [setObj]; rw [if_neg (by rintro rfl; exact hm (hd.2 _ hm'))]; exact h3
    · exact hd.1
  | exe e' =>
    change UpExe (linkExe T e' s).state e
    have key : ∀ x, ¬ UpExe s e' → UpExe (setExe s e' x) e := by
      intro x' hn
      obtain ⟨x, t, h1, h2⟩ := hd.1
      refine ⟨x, t, ?_, h2⟩
      simp only [setExe]; rw [if_neg (by rintro rfl; exact hn hd.1)]; exact h1
    rcases linkExe_cases T e' s with ⟨-, e1⟩ | ⟨hn, -, os, x, h1, h2, e1⟩ | ⟨hn, -, os, -, -, e1⟩ | ⟨-, -, e1⟩ <;> rw [e1]
    · exact hd.1
    · exact key _ hn
    · exact key _ hn
    · exact hd.1

/-- A successful job does what it is for. -/
theorem doJob_does_obj {s : State C E O X} (h : Good T s) {m : Src} (hok : (doJob T s (.obj m)).ok = true) :
    UpObj (doJob T s (.obj m)).state m := by
  change UpObj (makeObj T m s).state m
  change (makeObj T m s).ok = true at hok
  rcases makeObj_cases T m s with ⟨h1, e⟩ | ⟨-, -, o, ho, e⟩ | ⟨-, -, -, e⟩ | ⟨-, -, e⟩ <;> rw [e] at hok ⊢
  · exact h1
  · exact ⟨o, s.now + 1, by simp [setObj], (h.src m).trans (Nat.le_succ _)⟩
  · cases hok
  · cases hok

theorem doJob_does_exe {s : State C E O X} (h : Good T s) {e : Exe} (hok : (doJob T s (.exe e)).ok = true)
    (hm : ∀ m ∈ modules e, UpObj s m) : Done (doJob T s (.exe e)).state e := by
  refine ⟨?_, fun m hm' => doJob_upObj (hm m hm') _⟩
  change UpExe (linkExe T e s).state e
  change (linkExe T e s).ok = true at hok
  rcases linkExe_cases T e s with ⟨h1, e1⟩ | ⟨-, -, os, x, h1, h2, e1⟩ | ⟨-, -, os, -, -, e1⟩ | ⟨-, -, e1⟩ <;> rw [e1] at hok ⊢
  · exact h1
  · refine ⟨x, s.now + 1, by simp [setExe], fun m hm' => ?_⟩
    obtain ⟨o, t, h3, -⟩ := hm m hm'
    exact ⟨o, t, h3, ((h.obj m o t h3).1).trans (Nat.le_succ _)⟩
  · cases hok
  · cases hok

theorem parallel_cons (T : Tools C E O X) (j : Job) (js : List Job) (s : State C E O X) :
    parallel T (j :: js) s = if (doJob T s j).ok then
      ⟨(parallel T js (doJob T s j).state).state, (doJob T s j).log ++ (parallel T js (doJob T s j).state).log,
        (parallel T js (doJob T s j).state).ok⟩ else doJob T s j := rfl

theorem parallel_good : ∀ (js : List Job) (s : State C E O X), Good T s →
    Good T (parallel T js s).state ∧ Same s (parallel T js s).state := by
  intro js
  induction js with
  | nil => intro s h; exact ⟨h, Same.refl s⟩
  | cons j js ih =>
    intro s h
    obtain ⟨h1, h2⟩ := doJob_good h j
    rw [parallel_cons]
    split_ifs
    · exact ⟨(ih _ h1).1, h2.trans (ih _ h1).2⟩
    · exact ⟨h1, h2⟩

theorem parallel_done : ∀ (js pre : List Job) (s : State C E O X), Good T s → (∀ m, .obj m ∈ pre → UpObj s m) →
    (∀ e, .exe e ∈ pre → Done s e) → Ordered (pre ++ js) → (parallel T js s).ok = true →
    ∀ e, .exe e ∈ pre ++ js → Done (parallel T js s).state e := by
  intro js
  induction js with
  | nil => intro pre s h _ h2 _ _ e he; exact h2 e (by simpa using he)
  | cons j js ih =>
    intro pre s h h1 h2 ho hok e he
    rw [parallel_cons] at hok ⊢
    split_ifs at hok ⊢ with hj
    · refine ih (pre ++ [j]) (doJob T s j).state (doJob_good h j).1 ?_ ?_ (by simpa using ho) hok e (by simpa using he)
      · intro m hm
        rcases List.mem_append.mp hm with hm | hm
        · exact doJob_upObj (h1 m hm) j
        · obtain rfl : Job.obj m = j := by simpa using hm
          exact doJob_does_obj h hj
      · intro e' he'
        rcases List.mem_append.mp he' with he' | he'
        · exact doJob_done (h2 e' he') j
        · obtain rfl : Job.exe e' = j := by simpa using he'
          exact doJob_does_exe h hj fun m hm => h1 m (ho pre e' js rfl m hm)
    · exact absurd hok hj

theorem inOrder_append (fs gs : List (State C E O X → Out C E O X)) (s : State C E O X) :
    inOrder (fs ++ gs) s = if (inOrder fs s).ok then
      ⟨(inOrder gs (inOrder fs s).state).state, (inOrder fs s).log ++ (inOrder gs (inOrder fs s).state).log,
        (inOrder gs (inOrder fs s).state).ok⟩ else inOrder fs s := by
  induction fs generalizing s with
  | nil => simp [inOrder]
  | cons f fs ih =>
    simp only [List.cons_append, inOrder]
    by_cases hf : (f s).ok
    · simp only [hf, if_true]
      rw [ih]
      by_cases hg : (inOrder fs (f s).state).ok
      · simp [hg]
      · simp [hg]
    · simp [hf]

/-- The jobs of `make all` in the order in which a sequential make does them. -/
def allJobs : List Job :=
  [.mkBuild, .mkBin] ++ ((modules .crossprob).map .obj ++ [.exe .crossprob]) ++ ((modules .crossprobMc).map .obj ++ [.exe .crossprobMc])

theorem makeAll_eq (T : Tools C E O X) (s : State C E O X) : makeAll T s = parallel T allJobs s := by
  have hx : ∀ e : Exe, makeExe T e = inOrder (((modules e).map Job.obj ++ [Job.exe e]).map fun j s => doJob T s j) := by
    intro e
    funext s
    unfold makeExe
    rw [objects_eq, List.map_append, List.map_map]
    rfl
  have single : ∀ (f : State C E O X → Out C E O X) s, inOrder [f] s = f s := by
    intro f s
    simp only [inOrder]
    split_ifs with h
    · cases hf : f s; rw [hf] at h; simp only at h; simp [h]
    · rfl
  unfold makeAll parallel allJobs
  rw [show [mkBuild, mkBin, makeExe T .crossprob, makeExe T .crossprobMc]
      = ([mkBuild, mkBin] ++ [makeExe T .crossprob]) ++ [makeExe T .crossprobMc] from rfl]
  rw [List.map_append, List.map_append, inOrder_append, inOrder_append _ (List.map _ _), inOrder_append _ [makeExe T .crossprob],
    inOrder_append _ (List.map _ _)]
  simp only [single, hx]
  rfl

theorem allJobs_ordered : Ordered allJobs := by
  have key : ∀ i : Fin allJobs.length, ∀ e, allJobs[i] = .exe e → ∀ m ∈ modules e, Job.obj m ∈ allJobs.take i := by
    intro i e
    revert i
    cases e <;> decide +kernel
  intro pre e post h m hm
  have hl : pre.length < allJobs.length := by rw [h]; simp
  have := key ⟨pre.length, hl⟩ e (by simp [h]) m hm
  simpa [h] using this

theorem makeExe_eq (T : Tools C E O X) (e : Exe) (s : State C E O X) :
    makeExe T e s = parallel T ((modules e).map Job.obj ++ [Job.exe e]) s := by
  unfold makeExe parallel
  rw [objects_eq, List.map_append, List.map_map]
  rfl

/-- Nothing on disk is from the future. -/
structure Clock (s : State C E O X) : Prop where
  src : ∀ m, s.srcTime m ≤ s.now
  module : ∀ x t, s.pyModule = some (x, t) → t ≤ s.now
  wrapper : ∀ w t, s.wrapper = some (w, t) → t ≤ s.now

/-- Jobs leave the inputs alone. -/
structure Frame (s s' : State C E O X) : Prop where
  now : s.now ≤ s'.now
  same : Same s s'
  hdrTime : s'.hdrTime = s.hdrTime
  module : s'.pyModule = s.pyModule
  wrapper : s'.wrapper = s.wrapper

theorem Frame.refl (s : State C E O X) : Frame s s := ⟨le_rfl, Same.refl s, rfl, rfl, rfl⟩
theorem Frame.trans {s s' s'' : State C E O X} (h : Frame s s') (h' : Frame s' s'') : Frame s s'' :=
  ⟨h.now.trans h'.now, h.same.trans h'.same, h'.hdrTime.trans h.hdrTime, h'.module.trans h.module, h'.wrapper.trans h.wrapper⟩
theorem Frame.clock {s s' : State C E O X} (h : Frame s s') (hc : Clock s) : Clock s' :=
  ⟨fun m => by rw [h.same.srcTime]; exact (hc.src m).trans h.now, fun x t hx => (hc.module x t (h.module ▸ hx)).trans h.now,
    fun x t hx => (hc.wrapper x t (h.wrapper ▸ hx)).trans h.now⟩

theorem doJob_frame (T : Tools C E O X) (s : State C E O X) (j : Job) : Frame s (doJob T s j).state := by
  have ho : ∀ m o, Frame s (setObj s m o) := fun m o => ⟨Nat.le_succ _, ⟨rfl, rfl, rfl, rfl, rfl⟩, rfl, rfl, rfl⟩
  have hx : ∀ m o, Frame s (setExe s m o) := fun m o => ⟨Nat.le_succ _, ⟨rfl, rfl, rfl, rfl, rfl⟩, rfl, rfl, rfl⟩
  cases j with
  | mkBuild => exact ⟨le_rfl, ⟨rfl, rfl, rfl, rfl, rfl⟩, rfl, rfl, rfl⟩
  | mkBin => exact ⟨le_rfl, ⟨rfl, rfl, rfl, rfl, rfl⟩, rfl, rfl, rfl⟩
  | obj m =>
    change Frame s (makeObj T m s).state
    rcases makeObj_cases T m s with ⟨-, e⟩ | ⟨-, -, o, -, e⟩ | ⟨-, -, -, e⟩ | ⟨-, -, e⟩ <;> rw [e]
    exacts [Frame.refl s, ho _ _, ho _ _, Frame.refl s]
  | exe k =>
    change Frame s (linkExe T k s).state
    rcases linkExe_cases T k s with ⟨-, e⟩ | ⟨-, -, os, x, -, -, e⟩ | ⟨-, -, os, -, -, e⟩ | ⟨-, -, e⟩ <;> rw [e]
    exacts [Frame.refl s, hx _ _, hx _ _, Frame.refl s]

theorem parallel_frame (T : Tools C E O X) : ∀ (js : List Job) (s : State C E O X), Frame s (parallel T js s).state := by
  intro js
  induction js with
  | nil => intro s; exact Frame.refl s
  | cons j js ih =>
    intro s
    rw [parallel_cons]
    split_ifs
    · exact (doJob_frame T s j).trans (ih _)
    · exact doJob_frame T s j

theorem setupBuild_eq (T : Tools C E O X) (s : State C E O X) : ∃ n b p, s.now ≤ n ∧
    (∀ x t, p = some (x, t) → s.pyModule = some (x, t) ∨ t = n) ∧
    (setupBuild T s).1 = { s with now := n, buildDir := b, pyModule := p } := by
  have triv : ∃ n b p, s.now ≤ n ∧ (∀ x t, p = some (x, t) → s.pyModule = some (x, t) ∨ t = n) ∧
      s = { s with now := n, buildDir := b, pyModule := p } := ⟨s.now, s.buildDir, s.pyModule, le_rfl, fun x t h => Or.inl h, rfl⟩
  have triv' : ∃ n b p, s.now ≤ n ∧ (∀ x t, p = some (x, t) → s.pyModule = some (x, t) ∨ t = n) ∧
      { s with buildDir := true } = { s with now := n, buildDir := b, pyModule := p } :=
    ⟨s.now, true, s.pyModule, le_rfl, fun x t h => Or.inl h, rfl⟩
  unfold setupBuild
  cases hw : s.wrapper with
  | none => rw [hw] at triv; exact triv
  | some p =>
    obtain ⟨w, tw⟩ := p
    rw [hw] at triv triv'
    simp only []
    split_ifs
    · cases pySources.mapM fun m => T.compile m (s.src m) s.hdr s.env with
      | none => exact triv'
      | some os =>
        cases T.compileWrapper w s.hdr s.env with
        | none => exact triv'
        | some o =>
          simp only []
          cases T.linkModule s.env (os ++ [o]) with
          | none => exact triv'
          | some x =>
            refine ⟨s.now + 1, true, some (x, s.now + 1), Nat.le_succ _, fun x' t h => ?_, rfl⟩
            cases h; exact Or.inr rfl
    · exact triv

theorem setupBuild_clock {s : State C E O X} (h : Clock s) : Clock (setupBuild T s).1 := by
  obtain ⟨n, b, p, h1, h2, e⟩ := setupBuild_eq T s
  rw [e]
  refine ⟨fun m => (h.src m).trans h1, fun x t hx => ?_, fun w t hw => (h.wrapper w t hw).trans h1⟩
  rcases h2 x t hx with h3 | h3
  · exact (h.module x t h3).trans h1
  · exact h3.le

theorem step_clock {s : State C E O X} (h : Clock s) (ev : Event C E O) : Clock (step T s ev) := by
  cases ev with
  | editSrc m c =>
    refine ⟨fun k => ?_, fun x t hx => (h.module x t hx).trans (Nat.le_succ _), fun x t hx => (h.wrapper x t hx).trans (Nat.le_succ _)⟩
    simp only [step]
    split_ifs
    · exact le_rfl
    · exact (h.src k).trans (Nat.le_succ _)
  | editHdr m c =>
    exact ⟨fun k => (h.src k).trans (Nat.le_succ _), fun x t hx => (h.module x t hx).trans (Nat.le_succ _),
      fun x t hx => (h.wrapper x t hx).trans (Nat.le_succ _)⟩
  | editEnv e => exact ⟨h.src, h.module, h.wrapper⟩
  | editIface c => exact ⟨h.src, h.module, h.wrapper⟩
  | make => simp only [step]; rw [makeAll_eq]; exact (parallel_frame T _ s).clock h
  | makeExe e => simp only [step]; rw [makeExe_eq]; exact (parallel_frame T _ s).clock h
  | makeObj m => exact (doJob_frame T s (.obj m)).clock h
  | clean => exact ⟨h.src, fun x t hx => (by cases hx), fun x t hx => (by cases hx)⟩
  | rmObj m =>
    exact ⟨fun k => (h.src k).trans (Nat.le_succ _), fun x t hx => (h.module x t hx).trans (Nat.le_succ _),
      fun x t hx => (h.wrapper x t hx).trans (Nat.le_succ _)⟩
  | rmExe m =>
    exact ⟨fun k => (h.src k).trans (Nat.le_succ _), fun x t hx => (h.module x t hx).trans (Nat.le_succ _),
      fun x t hx => (h.wrapper x t hx).trans (Nat.le_succ _)⟩
  | makePython =>
    simp only [step]
    unfold makePython
    cases T.swig s.iface with
    | none => exact h
    | some w =>
      refine setupBuild_clock ⟨fun k => (h.src k).trans (Nat.le_succ _), fun x t hx => (h.module x t hx).trans (Nat.le_succ _),
        fun x t hx => ?_⟩
      cases hx; exact le_rfl
  | setupBuild => exact setupBuild_clock h
  | killed m junk =>
    exact ⟨fun k => (h.src k).trans (Nat.le_succ _), fun x t hx => (h.module x t hx).trans (Nat.le_succ _),
      fun x t hx => (h.wrapper x t hx).trans (Nat.le_succ _)⟩

theorem run_clock : ∀ (h : List (Event C E O)) (s : State C E O X), Clock s → Clock (run T s h) := by
  intro h
  induction h with
  | nil => intro s hs; exact hs
  | cons ev h ih => intro s hs; exact ih _ (step_clock hs ev)

theorem setupBuild_good {s : State C E O X} (h : Good T s) : Good T (setupBuild T s).1 := by
  obtain ⟨n, b, p, h1, h2, e⟩ := setupBuild_eq T s
  rw [e]
  exact ⟨fun m => (h.src m).trans h1, fun m o t hm => ⟨(h.obj m o t hm).1.trans h1, (h.obj m o t hm).2⟩,
    fun k x t hx => ⟨(h.exe k x t hx).1.trans h1, (h.exe k x t hx).2⟩⟩

theorem step_good {s : State C E O X} (h : Good T s) (ev : Event C E O) (hev : ¬ Unnoticed ev) : Good T (step T s ev) := by
  cases ev with
  | editSrc m c =>
    refine ⟨fun k => ?_, fun k o t hk => ?_, fun e x t hx => ⟨(h.exe e x t hx).1.trans (Nat.le_succ _), (h.exe e x t hx).2⟩⟩
    · simp only [step]
      split_ifs
      · exact le_rfl
      · exact (h.src k).trans (Nat.le_succ _)
    · obtain ⟨h1, h2⟩ := h.obj k o t hk
      refine ⟨h1.trans (Nat.le_succ _), ?_⟩
      simp only [step]
      split_ifs
      · intro h3; omega
      · exact h2
  | editHdr m c => exact absurd trivial hev
  | editEnv e => exact absurd trivial hev
  | editIface c => exact ⟨h.src, h.obj, h.exe⟩
  | make => simp only [step]; rw [makeAll_eq]; exact (parallel_good _ s h).1
  | makeExe e => simp only [step]; rw [makeExe_eq]; exact (parallel_good _ s h).1
  | makeObj m => exact (doJob_good h (.obj m)).1
  | clean => exact ⟨h.src, fun m o t hm => (by cases hm), fun e x t hx => (by cases hx)⟩
  | rmObj m => exact h.setObj fun o t ho => (by cases ho)
  | rmExe e => exact h.setExe fun o t ho => (by cases ho)
  | makePython =>
    simp only [step]
    unfold makePython
    cases T.swig s.iface with
    | none => exact h
    | some w =>
      exact setupBuild_good ⟨fun m => (h.src m).trans (Nat.le_succ _),
        fun m o t hm => ⟨(h.obj m o t hm).1.trans (Nat.le_succ _), (h.obj m o t hm).2⟩,
        fun k x t hx => ⟨(h.exe k x t hx).1.trans (Nat.le_succ _), (h.exe k x t hx).2⟩⟩
  | setupBuild => exact setupBuild_good h
  | killed m junk => exact absurd trivial hev

theorem run_good : ∀ (h : List (Event C E O)) (s : State C E O X), Good T s → (∀ ev ∈ h, ¬ Unnoticed ev) → Good T (run T s h) := by
  intro h
  induction h with
  | nil => intro s hs _; exact hs
  | cons ev h ih => intro s hs hh; exact ih _ (step_good hs ev (hh ev (by simp))) fun ev' h' => hh ev' (by simp [h'])

theorem clean_good {s : State C E O X} (h : Clock s) : Good T (clean s) :=
  ⟨h.src, fun m o t hm => (by cases hm), fun e x t hx => (by cases hx)⟩

theorem checkout_clock (src : Src → C) (hdr : Hdr → C) (iface : C) (env : E) : Clock (checkout src hdr iface env : State C E O X) :=
  ⟨fun _ => le_rfl, fun x t hx => (by cases hx), fun x t hx => (by cases hx)⟩

theorem module_mem (m : Src) : ∃ e, m ∈ modules e := by
  cases m
  case crossprobMc => exact ⟨.crossprobMc, by decide⟩
  case tinymt64 => exact ⟨.crossprobMc, by decide⟩
  all_goals exact ⟨.crossprob, by decide⟩

/-- With directories and compilable sources every job succeeds. -/
theorem parallel_succ : ∀ (js pre : List Job) (s : State C E O X), Good T s → (∀ m, .obj m ∈ pre → UpObj s m) →
    Ordered (pre ++ js) → s.buildDir = true → s.binDir = true → (∀ e, ∃ x, freshBuild T s e = some x) → (parallel T js s).ok = true := by
  intro js
  induction js with
  | nil => intros; rfl
  | cons j js ih =>
    intro pre s h h1 ho hb hb' hf
    have hcomp : ∀ m, ∃ o, T.compile m (s.src m) s.hdr s.env = some o := by
      intro m
      obtain ⟨e, he⟩ := module_mem m
      obtain ⟨x, hx⟩ := hf e
      unfold freshBuild at hx
      cases hm : (modules e).mapM fun m => T.compile m (s.src m) s.hdr s.env with
      | none => rw [hm] at hx; cases hx
      | some os => exact mapM_mem hm he
    have hlink : ∀ e, (∀ m ∈ modules e, UpObj s m) → ∀ os, (modules e).mapM (fun m => (s.obj m).map Prod.fst) = some os →
        ∃ x, T.link e s.env os = some x := by
      intro e hu os hos
      obtain ⟨x, hx⟩ := hf e
      have h2 : (modules e).mapM (fun m => T.compile m (s.src m) s.hdr s.env) = some os := by
        rw [← hos]
        refine mapM_cong fun m hm' => ?_
        obtain ⟨o, t', h3, h4⟩ := hu m hm'
        rw [(h.obj m o t' h3).2 h4, h3]; rfl
      unfold freshBuild at hx
      rw [h2] at hx
      exact ⟨x, hx⟩
    have hj : (doJob T s j).ok = true ∧ (doJob T s j).state.buildDir = true ∧ (doJob T s j).state.binDir = true := by
      cases j with
      | mkBuild => exact ⟨rfl, rfl, hb'⟩
      | mkBin => exact ⟨rfl, hb, rfl⟩
      | obj m =>
        change (makeObj T m s).ok = true ∧ (makeObj T m s).state.buildDir = true ∧ (makeObj T m s).state.binDir = true
        rcases makeObj_cases T m s with ⟨-, e⟩ | ⟨-, -, o, -, e⟩ | ⟨-, -, hn, e⟩ | ⟨-, hn, e⟩
        · rw [e]; exact ⟨rfl, hb, hb'⟩
        · rw [e]; exact ⟨rfl, hb, hb'⟩
        · obtain ⟨o, ho'⟩ := hcomp m; rw [hn] at ho'; cases ho'
        · rw [hb] at hn; cases hn
      | exe k =>
        change (linkExe T k s).ok = true ∧ (linkExe T k s).state.buildDir = true ∧ (linkExe T k s).state.binDir = true
        have hu : ∀ m ∈ modules k, UpObj s m := fun m hm => h1 m (ho pre k js rfl m hm)
        rcases linkExe_cases T k s with ⟨-, e⟩ | ⟨-, -, os, x, -, -, e⟩ | ⟨-, -, os, h3, hn, e⟩ | ⟨-, hn, e⟩
        · rw [e]; exact ⟨rfl, hb, hb'⟩
        · rw [e]; exact ⟨rfl, hb, hb'⟩
        · obtain ⟨x, hx⟩ := hlink k hu os h3; rw [hn] at hx; cases hx
        · rcases hn with hn | hn
          · rw [hb'] at hn; cases hn
          · obtain ⟨os, hos⟩ := mapM_isSome (fun m => (s.obj m).map Prod.fst) (modules k) fun m hm => by
              obtain ⟨o, t, h3, -⟩ := hu m hm; exact ⟨o, by simp [h3]⟩
            rw [hos] at hn; cases hn
    rw [parallel_cons, if_pos hj.1]
    refine ih (pre ++ [j]) _ (doJob_good h j).1 ?_ (by simpa using ho) hj.2.1 hj.2.2 fun e => ?_
    · intro m hm
      rcases List.mem_append.mp hm with hm | hm
      · exact doJob_upObj (h1 m hm) j
      · obtain rfl : Job.obj m = j := by simpa using hm
        exact doJob_does_obj h hj.1
    · rw [(doJob_good h j).2.fresh]; exact hf e

theorem parallel_noop : ∀ (js : List Job) (s : State C E O X), (∀ j ∈ js, j ≠ .mkBuild ∧ j ≠ .mkBin) →
    (∀ m, .obj m ∈ js → UpObj s m) → (∀ e, .exe e ∈ js → UpExe s e) → parallel T js s = ⟨s, [], true⟩ := by
  intro js
  induction js with
  | nil => intros; rfl
  | cons j js ih =>
    intro s h0 h1 h2
    have hj : doJob T s j = ⟨s, [], true⟩ := by
      cases j with
      | mkBuild => exact absurd rfl (h0 _ (by simp)).1
      | mkBin => exact absurd rfl (h0 _ (by simp)).2
      | obj m => exact makeObj_up (h1 m (by simp))
      | exe e => exact linkExe_up (h2 e (by simp))
    rw [parallel_cons, hj]
    simp only [if_true, List.nil_append]
    rw [ih s (fun j hj => h0 j (by simp [hj])) (fun m hm => h1 m (by simp [hm])) (fun m hm => h2 m (by simp [hm]))]

theorem makeAll_noop {s : State C E O X} (h : ∀ e, Done s e) :
    makeAll T s = ⟨{ s with buildDir := true, binDir := true }, [.mkdir, .mkdir], true⟩ := by
  rw [makeAll_eq]
  unfold allJobs
  have hu : ∀ m, UpObj s m := by
    intro m
    obtain ⟨e, he⟩ := module_mem m
    exact (h e).2 m he
  rw [List.append_assoc]
  simp only [List.cons_append, List.nil_append]
  rw [parallel_cons, parallel_cons]
  have := parallel_noop (T := T) (modules Exe.crossprob |>.map Job.obj |>.append ([.exe .crossprob] ++ ((modules .crossprobMc).map .obj ++ [.exe .crossprobMc])))
    { s with buildDir := true, binDir := true } (by intro j; revert j; decide) (fun m _ => hu m) (fun e _ => (h e).1)
  simp only [List.append_eq, ← List.append_assoc] at this
  simp only [doJob, mkBuild, mkBin, if_true, ← List.append_assoc]
  rw [this]
  rfl

theorem log_cons {T : Tools C E O X} {j : Job} {js : List Job} {s : State C E O X} {a : Action} :
    a ∈ (parallel T (j :: js) s).log ↔ a ∈ (doJob T s j).log ∨ ((doJob T s j).ok = true ∧ a ∈ (parallel T js (doJob T s j).state).log) := by
  rw [parallel_cons]
  split_ifs with h <;> simp [h]

theorem job_log_compiled {T : Tools C E O X} {j : Job} {s : State C E O X} {m : Src} (h : .compiled m ∈ (doJob T s j).log) :
    j = .obj m ∧ ¬ UpObj s m := by
  cases j with
  | mkBuild => simp [doJob, mkBuild] at h
  | mkBin => simp [doJob, mkBin] at h
  | obj k =>
    change .compiled m ∈ (makeObj T k s).log at h
    rcases makeObj_cases T k s with ⟨-, e⟩ | ⟨hn, -, o, -, e⟩ | ⟨-, -, -, e⟩ | ⟨-, -, e⟩ <;> rw [e] at h
    · simp at h
    · obtain rfl : m = k := by simpa using h
      exact ⟨rfl, hn⟩
    · simp at h
    · simp at h
  | exe k =>
    change .compiled m ∈ (linkExe T k s).log at h
    rcases linkExe_cases T k s with ⟨-, e⟩ | ⟨-, -, os, x, -, -, e⟩ | ⟨-, -, os, -, -, e⟩ | ⟨-, -, e⟩ <;> rw [e] at h <;> simp at h

theorem job_log_linked {T : Tools C E O X} {j : Job} {s : State C E O X} {e : Exe} (h : .linked e ∈ (doJob T s j).log) :
    j = .exe e ∧ ¬ UpExe s e := by
  cases j with
  | mkBuild => simp [doJob, mkBuild] at h
  | mkBin => simp [doJob, mkBin] at h
  | obj k =>
    change .linked e ∈ (makeObj T k s).log at h
    rcases makeObj_cases T k s with ⟨-, e⟩ | ⟨hn, -, o, -, e⟩ | ⟨-, -, -, e⟩ | ⟨-, -, e⟩ <;> rw [e] at h <;> simp at h
  | exe k =>
    change .linked e ∈ (linkExe T k s).log at h
    rcases linkExe_cases T k s with ⟨-, e1⟩ | ⟨hn, -, os, x, -, -, e1⟩ | ⟨-, -, os, -, -, e1⟩ | ⟨-, -, e1⟩ <;> rw [e1] at h
    · simp at h
    · obtain rfl : e = k := by simpa using h
      exact ⟨rfl, hn⟩
    · simp at h
    · simp at h

theorem log_up : ∀ (js : List Job) (s : State C E O X) (m : Src), UpObj s m → .compiled m ∉ (parallel T js s).log := by
  intro js
  induction js with
  | nil => intro s m _ h; simp [parallel, inOrder] at h
  | cons j js ih =>
    intro s m hm h
    rcases log_cons.mp h with h | ⟨-, h⟩
    · exact (job_log_compiled h).2 hm
    · exact ih _ m (doJob_upObj hm j) h

theorem log_done : ∀ (js : List Job) (s : State C E O X) (e : Exe), Done s e → .linked e ∉ (parallel T js s).log := by
  intro js
  induction js with
  | nil => intro s m _ h; simp [parallel, inOrder] at h
  | cons j js ih =>
    intro s m hm h
    rcases log_cons.mp h with h | ⟨-, h⟩
    · exact (job_log_linked h).2 hm.1
    · exact ih _ m (doJob_done hm j) h

/-- Other jobs do not touch an object file. -/
theorem doJob_obj_ne (T : Tools C E O X) (s : State C E O X) {j : Job} {m : Src} (h : j ≠ .obj m) : (doJob T s j).state.obj m = s.obj m := by
  cases j with
  | mkBuild => rfl
  | mkBin => rfl
  | obj k =>
    have hk : m ≠ k := by rintro rfl; exact h rfl
    change (makeObj T k s).state.obj m = s.obj m
    rcases makeObj_cases T k s with ⟨-, e⟩ | ⟨hn, -, o, -, e⟩ | ⟨-, -, -, e⟩ | ⟨-, -, e⟩ <;> rw [e] <;> simp [setObj, hk]
  | exe k =>
    change (linkExe T k s).state.obj m = s.obj m
    rcases linkExe_cases T k s with ⟨-, e⟩ | ⟨-, -, os, x, -, -, e⟩ | ⟨-, -, os, -, -, e⟩ | ⟨-, -, e⟩ <;> rw [e] <;> rfl

theorem doJob_exe_ne (T : Tools C E O X) (s : State C E O X) {j : Job} {e : Exe} (h : j ≠ .exe e) : (doJob T s j).state.exe e = s.exe e := by
  cases j with
  | mkBuild => rfl
  | mkBin => rfl
  | obj k =>
    change (makeObj T k s).state.exe e = s.exe e
    rcases makeObj_cases T k s with ⟨-, e⟩ | ⟨hn, -, o, -, e⟩ | ⟨-, -, -, e⟩ | ⟨-, -, e⟩ <;> rw [e] <;> rfl
  | exe k =>
    have hk : e ≠ k := by rintro rfl; exact h rfl
    change (linkExe T k s).state.exe e = s.exe e
    rcases linkExe_cases T k s with ⟨-, e1⟩ | ⟨-, -, os, x, -, -, e1⟩ | ⟨-, -, os, -, -, e1⟩ | ⟨-, -, e1⟩ <;> rw [e1] <;> simp [setExe, hk]

theorem log_compiled : ∀ (js : List Job) (s : State C E O X) (m : Src), ¬ UpObj s m → .obj m ∈ js → (parallel T js s).ok = true →
    .compiled m ∈ (parallel T js s).log := by
  intro js
  induction js with
  | nil => intro s m _ h; simp at h
  | cons j js ih =>
    intro s m hm hj hok
    rw [log_cons]
    have hok' : (doJob T s j).ok = true ∧ (parallel T js (doJob T s j).state).ok = true := by
      rw [parallel_cons] at hok
      split_ifs at hok with h
      · exact ⟨h, hok⟩
      · exact absurd hok h
    by_cases he : j = .obj m
    · left
      subst he
      have h1 := hok'.1
      change (makeObj T m s).ok = true at h1
      change .compiled m ∈ (makeObj T m s).log
      rcases makeObj_cases T m s with ⟨hu, e⟩ | ⟨hn, -, o, -, e⟩ | ⟨-, -, -, e⟩ | ⟨-, -, e⟩
      · exact absurd hu hm
      · rw [e]; simp
      · rw [e] at h1; cases h1
      · rw [e] at h1; cases h1
    · right
      refine ⟨hok'.1, ih _ m ?_ (by rcases List.mem_cons.mp hj with h | h; exact absurd h.symm he; exact h) hok'.2⟩
      rintro ⟨o, t, h1, h2⟩
      rw [doJob_obj_ne T s he] at h1
      rw [(doJob_frame T s j).same.srcTime] at h2
      exact hm ⟨o, t, h1, h2⟩

/-- A program older than one of its object files stays so until it is linked. -/
theorem doJob_notUpExe {s : State C E O X} (h : Good T s) {e : Exe} (hn : ¬ UpExe s e) {j : Job} (hj : j ≠ .exe e) :
    ¬ UpExe (doJob T s j).state e := by
  rintro ⟨x, t, h1, h2⟩
  rw [doJob_exe_ne T s hj] at h1
  refine hn ⟨x, t, h1, fun k hk => ?_⟩
  by_cases hjk : j = .obj k
  · obtain ⟨o, t', h3, h4⟩ := h2 k hk
    subst hjk
    change (makeObj T k s).state.obj k = _ at h3
    rcases makeObj_cases T k s with ⟨hu, e1⟩ | ⟨-, -, o', -, e1⟩ | ⟨-, -, -, e1⟩ | ⟨-, -, e1⟩ <;> rw [e1] at h3
    · exact ⟨o, t', h3, h4⟩
    · simp [setObj] at h3
      have := (h.exe e x t h1).1
      omega
    · simp [setObj] at h3
    · exact ⟨o, t', h3, h4⟩
  · obtain ⟨o, t', h3, h4⟩ := h2 k hk
    rw [doJob_obj_ne T s hjk] at h3
    exact ⟨o, t', h3, h4⟩

theorem log_linked0 : ∀ (js : List Job) (s : State C E O X) (e : Exe), Good T s → ¬ UpExe s e → .exe e ∈ js → (parallel T js s).ok = true →
    .linked e ∈ (parallel T js s).log := by
  intro js
  induction js with
  | nil => intro s m _ _ h; simp at h
  | cons j js ih =>
    intro s e hg hm hj hok
    rw [log_cons]
    have hok' : (doJob T s j).ok = true ∧ (parallel T js (doJob T s j).state).ok = true := by
      rw [parallel_cons] at hok
      split_ifs at hok with h
      · exact ⟨h, hok⟩
      · exact absurd hok h
    by_cases he : j = .exe e
    · left
      subst he
      have h1 := hok'.1
      change (linkExe T e s).ok = true at h1
      change .linked e ∈ (linkExe T e s).log
      rcases linkExe_cases T e s with ⟨hu, e1⟩ | ⟨-, -, os, x, -, -, e1⟩ | ⟨-, -, os, -, -, e1⟩ | ⟨-, -, e1⟩
      · exact absurd hu hm
      · rw [e1]; simp
      · rw [e1] at h1; cases h1
      · rw [e1] at h1; cases h1
    · right
      exact ⟨hok'.1, ih _ e (doJob_good hg j).1 (doJob_notUpExe hg hm he)
        (by rcases List.mem_cons.mp hj with h | h; exact absurd h.symm he; exact h) hok'.2⟩

theorem log_linked : ∀ (a b : List Job) (s : State C E O X) (e : Exe) (m : Src), Good T s → m ∈ modules e → ¬ UpObj s m → .obj m ∈ a →
    (parallel T (a ++ .exe e :: b) s).ok = true → .linked e ∈ (parallel T (a ++ .exe e :: b) s).log := by
  intro a
  induction a with
  | nil => intro b s e m _ _ _ h; simp at h
  | cons j a ih =>
    intro b s e m hg hme hm hj hok
    rw [List.cons_append] at hok ⊢
    have hok' : (doJob T s j).ok = true ∧ (parallel T (a ++ .exe e :: b) (doJob T s j).state).ok = true := by
      rw [parallel_cons] at hok
      split_ifs at hok with h
      · exact ⟨h, hok⟩
      · exact absurd hok h
    rw [log_cons]
    right
    refine ⟨hok'.1, ?_⟩
    by_cases he : j = .obj m
    · refine log_linked0 _ _ e (doJob_good hg j).1 ?_ (by simp) hok'.2
      rintro ⟨x, t, h1, h2⟩
      obtain ⟨o, t', h3, h4⟩ := h2 m hme
      rw [doJob_exe_ne T s (by rw [he]; simp)] at h1
      have h5 := (hg.exe e x t h1).1
      have h6 := hok'.1
      subst he
      change (makeObj T m s).state.obj m = _ at h3
      change (makeObj T m s).ok = true at h6
      rcases makeObj_cases T m s with ⟨hu, e1⟩ | ⟨-, -, o', -, e1⟩ | ⟨-, -, -, e1⟩ | ⟨-, -, e1⟩
      · exact hm hu
      · rw [e1] at h3; simp [setObj] at h3; omega
      · rw [e1] at h6; cases h6
      · rw [e1] at h6; cases h6
    · refine ih b _ e m (doJob_good hg j).1 hme ?_ (by rcases List.mem_cons.mp hj with h | h; exact absurd h.symm he; exact h) hok'.2
      rintro ⟨o, t, h1, h2⟩
      rw [doJob_obj_ne T s he] at h1
      rw [(doJob_frame T s j).same.srcTime] at h2
      exact hm ⟨o, t, h1, h2⟩

theorem doJob_withJunk {s : State C E O X} {m : Src} (junk : O) (h : UpObj s m) (j : Job) : doJob (withJunk T m junk) s j = doJob T s j := by
  cases j with
  | mkBuild => rfl
  | mkBin => rfl
  | obj k =>
    by_cases hk : k = m
    · subst hk
      exact (makeObj_up h).trans (makeObj_up h).symm
    · change makeObj _ k s = makeObj _ k s
      unfold makeObj withJunk
      simp [hk]
  | exe e => rfl

theorem parallel_withJunk (junk : O) {m : Src} : ∀ (js : List Job) (s : State C E O X), UpObj s m →
    parallel (withJunk T m junk) js s = parallel T js s := by
  intro js
  induction js with
  | nil => intros; rfl
  | cons j js ih =>
    intro s h
    rw [parallel_cons, parallel_cons, doJob_withJunk junk h j, ih _ (doJob_upObj h j)]

theorem killed_good {s : State C E O X} (h : Good T s) (m : Src) (junk : O) : Good (withJunk T m junk) (step T s (.killed m junk)) := by
  refine ⟨fun k => (h.src k).trans (Nat.le_succ _), fun k o t hk => ?_, fun e x t hx => ?_⟩
  · simp only [step, setObj] at hk
    split_ifs at hk with hm
    · cases hk
      exact ⟨le_rfl, fun _ => by simp [withJunk, hm]⟩
    · obtain ⟨h1, h2⟩ := h.obj k o t hk
      refine ⟨h1.trans (Nat.le_succ _), fun h3 => ?_⟩
      simp only [withJunk, if_neg hm]
      exact h2 h3
  · obtain ⟨h2, h3⟩ := h.exe e x t hx
    refine ⟨h2.trans (Nat.le_succ _), fun os hos ht => ?_⟩
    simp only [step, setObj] at hos ht
    have hm : m ∉ modules e := by
      intro hm
      have := ht m hm junk (s.now + 1) (by simp)
      omega
    have e1 : ∀ k ∈ modules e, (if k = m then some (junk, s.now + 1) else s.obj k) = s.obj k := by
      intro k hk; rw [if_neg]; rintro rfl; exact hm hk
    refine h3 os ?_ (fun k hk o' t' hk' => ht k hk o' t' (by rw [e1 k hk]; exact hk'))
    rw [← hos]
    refine mapM_cong ?_
    intro k hk
    rw [e1 k hk]

theorem parallel_keepObj : ∀ (js : List Job) (s : State C E O X) (m : Src), UpObj s m → (parallel T js s).state.obj m = s.obj m := by
  intro js
  induction js with
  | nil => intros; rfl
  | cons j js ih =>
    intro s m h
    have hj : (doJob T s j).state.obj m = s.obj m := by
      by_cases he : j = .obj m
      · subst he
        have : doJob T s (.obj m) = ⟨s, [], true⟩ := makeObj_up h
        rw [this]
      · exact doJob_obj_ne T s he
    rw [parallel_cons]
    split_ifs
    · rw [ih _ m (doJob_upObj h j), hj]
    · exact hj

end CP.Build
