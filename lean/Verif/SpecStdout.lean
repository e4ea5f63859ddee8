import Verif.SpecFailStop
import Verif.Model.Stdout

/-! # Notions for standard output that cannot always be written (C71) -/

namespace Clarith.Spec

open Steps

/-- `m'` is `m` on a standard output where the line with the number `i` can be written iff `ok i`.
`lines` are the lines so far, `new` those that `m` adds when everything can be written.  If all of
them can be written, `m'` ends like `m`, in the same state.  If `new[i]` is the first that cannot be
written, then `m'` ends with the panic of a `println!`, and this was its last line. -/
def UpToFailure {σ α γ : Type} (lines : σ → List γ) (ok : Nat → Bool) (m : Mut σ α)
    (m' : Stdout.Prog σ α) : Prop :=
  ∀ s, ∃ new, lines (m s).2 = lines s ++ new ∧
    ((∀ i, i < new.length → ok ((lines s).length + i) = true) → m' s = (some (m s).1, (m s).2)) ∧
    ∀ i, i < new.length → ok ((lines s).length + i) = false →
      (∀ j, j < i → ok ((lines s).length + j) = true) →
        (m' s).1 = none ∧ lines (m' s).2 = lines s ++ new.take (i + 1)

/-- An object made of `Ratio` and `Homographic` alone. -/
def NoCombine : Obj → Prop
  | .ratio _ => True
  | .homographic x _ => NoCombine x
  | .combine _ _ _ => False

/-- A number whose clog is made of `Ratio` and `Homographic` alone. -/
def NoCombineNumber : Steps.Number → Prop
  | .Special _ => True
  | .Other _ o => NoCombine o

/-- The answers of `m` calls of `egest` on `o`, each inside `catch_unwind`, when some lines cannot be
written; `none` is the panic of a `println!`. -/
def caughtOn (cfg : Cfg) (ok : Nat → Bool) (f : Nat) :
    Nat → Obj → World → List (Option (Res (Option Reduction)))
  | 0, _, _ => []
  | m + 1, o, w =>
    (Stdout.egest cfg ok f (o, w)).1 :: caughtOn cfg ok f m (Stdout.egest cfg ok f (o, w)).2.1
      (Stdout.egest cfg ok f (o, w)).2.2

end Clarith.Spec
