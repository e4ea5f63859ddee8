import Verif.Spec
import Mathlib.Data.Real.Basic
import Mathlib.NumberTheory.Real.Irrational

/-!
# Specification over the real numbers

The protocol of `src/protocol.rs` speaks about real numbers.  The same definitions as in
`Verif/Spec.lean`, over the reals.
-/

namespace Clarith.Spec

noncomputable section

/-- The answers of `k` successive `egest` calls on a real number `x` in (0,1)
(src/protocol.rs:29-50). -/
def symbolsR : Nat → ℝ → List (Option Reduction)
  | 0, _ => []
  | k + 1, x =>
    if x < 1 / 2 then some .Amplify :: symbolsR k (2 * x)
    else if 1 / 2 < x then some .Uncover :: symbolsR k (1 / x - 1)
    else none :: symbolsR k x

/-- The value obtained from a real `x` in (0,1) by a primer (src/protocol.rs:63-71). -/
def applyPrimerR : Option Primer → ℝ → ℝ
  | none, x => x
  | some .Turn, x => 1 / x
  | some .Reflect, x => -x
  | some .Ground, x => -(1 / x)

/-- The value of a special (src/protocol.rs:76-84). -/
def specialValueR : Special → ℝ
  | .NegOne => -1
  | .Zero => 0
  | .PosOne => 1

/-- The infinite sequence `s` is the symbol sequence of `x`. -/
def SequenceOf (x : ℝ) (s : Nat → Reduction) : Prop :=
  ∀ k, symbolsR k x = (List.range k).map fun i => some (s i)

end

end Clarith.Spec
