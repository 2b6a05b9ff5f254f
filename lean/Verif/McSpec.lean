import Verif.Model.Basic
import Mathlib.Data.Finset.Card
import Mathlib.Data.Finset.Filter
/-
Specification of the Monte-Carlo simulation, in terms of the stream of uniform draws only.
-/
namespace CP.McSpec
open CP FOps
variable {F : Type} [FOps F] {S : Type}

/-- The generator state after `j` draws. -/
def stateAt (uniform : S → F × S) (s : S) (j : ℕ) : S := (fun s => (uniform s).2)^[j] s

/-- The `j`-th draw (counting from 0) of a generator started in state `s`. -/
def draw (uniform : S → F × S) (s : S) (j : ℕ) : F := (uniform (stateAt uniform s j)).1

/-- `E_0 + ... + E_{k-1}` with `E_j = -beta * log(u_j)`, added up from left to right. -/
def arrival (beta : F) (u : ℕ → F) : ℕ → F
  | 0 => zero
  | k + 1 => arrival beta u k +ᶠ (neg beta *ᶠ log (u k))

/-- The simulated sorted sample: the first `n` of `n+1` partial sums of exponential random numbers, divided
by the last. -/
def sample (u : ℕ → F) (n : ℕ) : List F :=
  (List.range n).map fun i => arrival one u (i + 1) /ᶠ arrival one u (n + 1)

/-- A step function with steps of height 1 at `xs` stays inside the boundaries: at least `|B|` steps, at most
`|b|` steps unless `b` is empty (no upper limit), no step `i` to the right of `B[i]`, none to the left of
`b[i]`.  Comparisons are those of the machine: `not (x > B[i])`, `not (x < b[i])`. -/
def Inside (xs b B : List F) : Prop :=
  B.length ≤ xs.length ∧ (b ≠ [] → xs.length ≤ b.length) ∧
  (∀ (i : ℕ) (x y : F), xs[i]? = some x → B[i]? = some y → lt y x = false) ∧
  (∀ (i : ℕ) (x y : F), xs[i]? = some x → b[i]? = some y → lt x y = false)

/-- A Poisson process with arrivals `T 1, T 2, ...` stays inside on `[0, 1]`: for some `K ≤ |b|`, arrivals
`1..K` are the ones before time 1, and they stay inside. -/
def PoissonInside (T : ℕ → F) (b B : List F) : Prop :=
  ∃ K, K ≤ b.length ∧ (∀ k, k < K → lt one (T (k + 1)) = false) ∧ lt one (T (K + 1)) = true ∧
    Inside ((List.range K).map fun i => T (i + 1)) b B

/-- Number of draws consumed by a simulated Poisson path: up to the first arrival after time 1, but at most
`m + 1`. -/
def pathDraws (T : ℕ → F) (m : ℕ) : ℕ := (List.range m).findIdx (fun k => lt one (T (k + 1))) + 1

/-- Number of draws used by the first `r` simulated Poisson paths. -/
def pathStart (beta : F) (u : ℕ → F) (m : ℕ) : ℕ → ℕ
  | 0 => 0
  | r + 1 => pathStart beta u m r + pathDraws (arrival beta fun j => u (pathStart beta u m r + j)) m

open Classical in
/-- How many of the numbers `0..N-1` satisfy `p`. -/
noncomputable def countUpTo (p : ℕ → Prop) (N : ℕ) : ℕ := ((Finset.range N).filter p).card

end CP.McSpec
