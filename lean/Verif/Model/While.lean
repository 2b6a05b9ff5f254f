import Verif.Model.Basic
/-
`while` loops that may run forever.
-/
namespace CP

/-- Outcome of `while (cond) body` if it ends within `k` iterations; `none` otherwise. -/
def loopSteps {σ : Type} (cond : σ → Bool) (body : σ → M σ) : Nat → σ → Option (M σ)
  | 0, s => if cond s then none else some (.ok s)
  | k + 1, s =>
    if cond s then
      match body s with
      | .ok s' => loopSteps cond body k s'
      | .error e => some (.error e)
    else some (.ok s)

open Classical in
/-- `while (cond) body` started in state `s`: the outcome after however many iterations it takes, or
`Fault.diverge` if it never ends. -/
noncomputable def whileM {σ : Type} (cond : σ → Bool) (body : σ → M σ) (s : σ) : M σ :=
  if h : ∃ k r, loopSteps cond body k s = some r then h.choose_spec.choose else .error .diverge

end CP
