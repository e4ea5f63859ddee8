import Verif.Spec
import Verif.Model.Steps

/-! # What fail-stop means (C70)

A number is fail-stop if `egest` on it answers rightly until it panics with integer overflow, and
from then on does nothing but panic in this way, however often the caller catches the panic and
calls `egest` again. -/

namespace Clarith.Spec

open Steps

/-- `egest` on `o` ends with `a` and leaves `o'` behind, whatever else exists. -/
def AnswersWith (cfg : Cfg) (o : Obj) (a : Res (Option Reduction)) (o' : Obj) : Prop :=
  ∃ F, ∀ f, F ≤ f → ∀ w, ∃ w', Steps.egest cfg f (o, w) = (a, (o', w'))

/-- `egest` on `o` panics with integer overflow, now and ever after. -/
def Dead (cfg : Cfg) (o : Obj) : Prop :=
  ∃ D : Obj → Prop, D o ∧ ∀ o, D o → ∃ o', AnswersWith cfg o (.panic .unwrapNone) o' ∧ D o'

/-- `egest` on `o` gives the symbols of `x`, one after the other, unless it panics with integer
overflow; then it is dead. -/
def FailStop (cfg : Cfg) (o : Obj) (x : ℚ) : Prop :=
  ∃ D : Obj → ℚ → Prop, D o x ∧ ∀ o x, D o x →
    (∃ o', AnswersWith cfg o (.panic .unwrapNone) o' ∧ Dead cfg o') ∨
    (x < 1 / 2 ∧ ∃ o', AnswersWith cfg o (.ok (some .Amplify)) o' ∧ D o' (2 * x)) ∨
    (1 / 2 < x ∧ ∃ o', AnswersWith cfg o (.ok (some .Uncover)) o' ∧ D o' (1 / x - 1)) ∨
    (x = 1 / 2 ∧ ∃ o', AnswersWith cfg o (.ok none) o' ∧ D o' x)

/-- The answers of `m` calls of `egest` on `o`, each inside `catch_unwind`. -/
def caught (cfg : Cfg) (f : Nat) : Nat → Obj → World → List (Res (Option Reduction))
  | 0, _, _ => []
  | m + 1, o, w =>
    (Steps.egest cfg f (o, w)).1 ::
      caught cfg f m (Steps.egest cfg f (o, w)).2.1 (Steps.egest cfg f (o, w)).2.2

/-- A number with the value `q` whose clog is fail-stop. -/
def FailStopNumber (cfg : Cfg) (x : Steps.Number) (q : ℚ) : Prop :=
  match x with
  | .Special s => q = specialValue s
  | .Other p o => ∃ v, 0 < v ∧ v < 1 ∧ FailStop cfg o v ∧ q = applyPrimer p v

end Clarith.Spec
