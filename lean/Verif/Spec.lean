import Verif.Model.Compare
import Verif.Model.Main
import Mathlib.Algebra.Order.Field.Rat
import Mathlib.Tactic.NormNum

/-!
# Specification

What the documentation of clarith promises, written without reference to how the
code computes: only rational numbers, the symbols of `src/protocol.rs`, and the
outcomes of calls to the public API.
-/

namespace Clarith

/-! ## Outcomes of a call

The model of a recursive or looping function takes fuel.  A call *returns* `a` when
its outcome is `ok a` for all large enough fuel, *panics* with `p` likewise, and
*diverges* when no amount of fuel is enough. -/

/-- The call returns `a`. -/
def Returns {α : Type} (m : Nat → Out α) (a : α) : Prop := ∃ f₀, ∀ f ≥ f₀, m f = .ok a

/-- The call panics with `p`. -/
def Panics {α : Type} (m : Nat → Out α) (p : Panic) : Prop := ∃ f₀, ∀ f ≥ f₀, m f = .panic p

/-- The call never ends. -/
def Diverges {α : Type} (m : Nat → Out α) : Prop := ∀ f, m f = .timeout

/-- The call ends: it returns a value satisfying `P`, or panics with a panic in `A`. -/
def Ends {α : Type} (A : Panic → Prop) (m : Nat → Out α) (P : α → Prop) : Prop :=
  (∃ a, Returns m a ∧ P a) ∨ (∃ p, Panics m p ∧ A p)

/-- No panic at all. -/
def NoPanic : Panic → Prop := fun _ => False

/-- Integer overflow: a failed `checked_*` operation that is unwrapped, or an
unchecked operator in a build with overflow checks. -/
def Overflow : Panic → Prop := fun p => p = .unwrapNone ∨ p = .arithOverflow

/-! ## The symbols of a number in (0,1)  (doc comments of src/protocol.rs:29-50) -/

namespace Spec

/-- The answers of `k` successive `egest` calls on a number `x` in (0,1): below one
half the value is doubled (`Amplify`); above one half it is reciprocated and has one
subtracted (`Uncover`); one half has no symbol, and stays one half. -/
def symbols : Nat → ℚ → List (Option Reduction)
  | 0, _ => []
  | k + 1, x =>
    if x < 1 / 2 then some .Amplify :: symbols k (2 * x)
    else if 1 / 2 < x then some .Uncover :: symbols k (1 / x - 1)
    else none :: symbols k x

/-- `Expands x l`: the complete symbol sequence of `x` is the finite list `l`. -/
inductive Expands : ℚ → List Reduction → Prop
  | half : Expands (1 / 2) []
  | amplify {x l} (h0 : 0 < x) (h1 : x < 1 / 2) (h : Expands (2 * x) l) :
      Expands x (.Amplify :: l)
  | uncover {x l} (h0 : 1 / 2 < x) (h1 : x < 1) (h : Expands (1 / x - 1) l) :
      Expands x (.Uncover :: l)

/-- src/protocol.rs:76-84: the value of a `Special`. -/
def specialValue : Special → ℚ
  | .NegOne => -1
  | .Zero => 0
  | .PosOne => 1

/-- src/protocol.rs:63-71: the value obtained from `x` in (0,1) by a primer.
(The documentation describes the way from the value to `x`; each primer is its own
inverse.) -/
def applyPrimer : Option Primer → ℚ → ℚ
  | none, x => x
  | some .Turn, x => 1 / x
  | some .Reflect, x => -x
  | some .Ground, x => -(1 / x)

/-- The representation of `q` has at most `L` symbols after the primer. -/
def SymbolCount (q : ℚ) (L : Nat) : Prop :=
  (∃ s, q = specialValue s) ∨
  (∃ p x l, q = applyPrimer p x ∧ Expands x l ∧ l.length ≤ L)

end Spec

/-! ## What it means for a `Clog` or a `Number` to denote a rational -/

/-- The answers of `k` successive calls of `Clog::egest`, and the clog left. -/
def Clog.egests (cfg : Cfg) (f : Nat) : Nat → Clog → Out (List (Option Reduction) × Clog)
  | 0, c => pure ([], c)
  | k + 1, c => do
    let (r, c) ← Clog.egest cfg f c
    let (rs, c) ← Clog.egests cfg f k c
    pure (r :: rs, c)

/-- `c` denotes `x`: `x` is in (0,1) and for every `k` the first `k` calls of `egest`
terminate and answer exactly the symbols of `x`, or one of them panics with a panic in
`A`.  With `A = NoPanic` this is full correctness; with `A = Overflow` the clog is never
wrong but may give up with an integer overflow. -/
def Clog.Denotes (cfg : Cfg) (A : Panic → Prop) (c : Clog) (x : ℚ) : Prop :=
  0 < x ∧ x < 1 ∧
    ∀ k, Ends A (fun f => Clog.egests cfg f k c) (fun r => r.1 = Spec.symbols k x)

/-- `n` denotes the rational `q`. -/
def Number.Denotes (cfg : Cfg) (A : Panic → Prop) : Number → ℚ → Prop
  | .Special s, q => q = Spec.specialValue s
  | .Other p c, q => ∃ x, Clog.Denotes cfg A c x ∧ q = Spec.applyPrimer p x

/-- What a user sees of a `Number`: the special value, or the primer and the answers of `k`
successive calls of `egest`. -/
def Number.observe (cfg : Cfg) (f k : Nat) :
    Number → Out (Option Clarith.Special × Option Primer × List (Option Reduction))
  | .Special s => pure (some s, none, [])
  | .Other p c => do
    let (rs, _) ← Clog.egests cfg f k c
    pure (none, p, rs)

/-- `c` never ends: for every `k` the first `k` calls of `egest` all answer `Amplify`, or
one of them panics with a panic in `A`.  No number in (0,1) behaves like that. -/
def Clog.AmplifiesForever (cfg : Cfg) (A : Panic → Prop) (c : Clog) : Prop :=
  ∀ k, Ends A (fun f => Clog.egests cfg f k c)
    (fun r => r.1 = List.replicate k (some .Amplify))

/-- An ordinary 64-bit debug build, for examples. -/
def debug64 : Cfg := ⟨64, by decide, true⟩

/-- An ordinary 64-bit release build, for examples. -/
def release64 : Cfg := ⟨64, by decide, false⟩

end Clarith
