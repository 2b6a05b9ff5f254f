import Verif.Model.Threads
import Verif.Ieee
/-
What calls in several threads are compared with.
-/
namespace CP
variable {F : Type} [FOps F]

/-- The result of the call when nothing else runs. -/
def LibCall.sequential (env : Env F) (sort : List (Bound F) → List (Bound F)) (isqrt : Nat → Nat) : LibCall F → M F
  | .ecdf2 b B useFft => CP.ecdf2 env sort b B useFft
  | .newB B => ecdf1NewB env isqrt B
  | .newb b => ecdf1Newb env isqrt b
  | .mnsb b => ecdf1Mns2016b env b
  | .mnsB B => ecdf1Mns2016B env B

/-- A call of one of the two functions of src/ecdf1_mns2016.cc. -/
def LibCall.isMns : LibCall F → Prop
  | .mnsb _ => True
  | .mnsB _ => True
  | _ => False

/-- A call that may use FFTW: `ecdf2` with `use_fft` or `ecdf1_new`, with more than 126 points. -/
def LibCall.large : LibCall F → Prop
  | .ecdf2 b _ useFft => useFft = true ∧ 126 < b.length
  | .newB B => 126 < B.length
  | .newb b => 126 < b.length
  | _ => False

/-- The steps of the calls in `who` are not interleaved: between two steps of one there is no step of another. -/
def Serial (who : Nat → Prop) (schedule : List Nat) : Prop :=
  ∀ i j, who i → who j → i ≠ j → ∀ s1 s2 s3 s4, schedule ≠ s1 ++ i :: s2 ++ j :: s3 ++ i :: s4

namespace Spec

/-- What the C standard (Annex F) says of the math functions at special arguments: `pow(0, k)` is 0 for `k > 0`, `pow(x, 0)` and
`pow(1, k)` are 1, `log(0)` is minus infinity, `exp` of minus infinity is 0, and `log(2)` and the values of `lgamma` up to `n+1` are
finite. -/
structure AnnexF (A : FloatSystem) (n : ℕ) : Prop where
  pow_zero : ∀ k : ℕ, 1 ≤ k → (FOps.powi (FOps.zero : Num A) (k : ℤ) : Num A) = FOps.zero
  pow_zero_zero : (FOps.powi (FOps.zero : Num A) 0 : Num A) = FOps.one
  pow_one : ∀ k : ℕ, (FOps.powi (FOps.one : Num A) (k : ℤ) : Num A) = FOps.one
  log_zero : (FOps.log (FOps.zero : Num A) : Num A) = FOps.negInf
  exp_negInf : (FOps.exp (FOps.negInf : Num A) : Num A) = FOps.zero
  log_two : Num.finite (FOps.log (FOps.ofInt 2 : Num A) : Num A)
  lgamma : Num.finite (FOps.lgamma (FOps.ofInt ((n : ℤ) + 1) : Num A) : Num A)

end Spec
end CP
