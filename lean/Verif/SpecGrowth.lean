import Verif.Spec

/-! # How far a number pushes the coefficients when it is read to its end -/

namespace Clarith.Spec

/-- The product of a factor 2 for each `Amplify` of the expansion and of a factor `1/x` for each
`Uncover`, where `x` is what is left of the number before the symbol. -/
def growth : ℚ → List Reduction → ℚ
  | _, [] => 1
  | x, .Amplify :: l => 2 * growth (2 * x) l
  | x, .Uncover :: l => 1 / x * growth (1 / x - 1) l

/-- The representation of `q` grows at most by `g` after the primer. -/
def GrowthAtMost (q g : ℚ) : Prop :=
  (∃ s, q = specialValue s) ∨
  (∃ p x l, q = applyPrimer p x ∧ Expands x l ∧ growth x l ≤ g)

end Clarith.Spec
