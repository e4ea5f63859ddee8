import Verif.Spec
import Mathlib.Algebra.Order.Field.Basic

/-! # Numbers that are not fractions

A number need not be a fraction: what `combine` returns for a division by zero answers `Amplify`
for ever, and can be used as an operand like any other number.  Its symbols are those of an
infinitesimal, in any ordered field that has one.  Here it is said what it means that a number
behaves like an element of an ordered field. -/

namespace Clarith

namespace Spec

variable {K : Type*} [Field K] [LinearOrder K]

/-- The answers of `k` successive `egest` calls on a number `x` in (0,1)
(doc comments of src/protocol.rs:29-50). -/
def symbolsIn : Nat → K → List (Option Reduction)
  | 0, _ => []
  | k + 1, x =>
    if x < 1 / 2 then some .Amplify :: symbolsIn k (2 * x)
    else if 1 / 2 < x then some .Uncover :: symbolsIn k (1 / x - 1)
    else none :: symbolsIn k x

/-- src/protocol.rs:76-84: the value of a `Special`. -/
def specialIn (K : Type*) [Field K] : Special → K
  | .NegOne => -1
  | .Zero => 0
  | .PosOne => 1

/-- src/protocol.rs:63-71: the value obtained from `x` in (0,1) by a primer. -/
def primerIn {K : Type*} [Field K] : Option Primer → K → K
  | none, x => x
  | some .Turn, x => 1 / x
  | some .Reflect, x => -x
  | some .Ground, x => -(1 / x)

/-- `x` is positive and smaller than every fraction. -/
def Infinitesimal (x : K) : Prop := 0 < x ∧ ∀ n : Nat, n * x < 1

/-- `x` is greater than every fraction. -/
def Infinite (x : K) : Prop := ∀ n : Nat, (n : K) < x

end Spec

/-- `x` is a fraction. -/
def IsFraction {K : Type*} [Field K] (x : K) : Prop := ∃ p : ℚ, x = p

/-- `x` is not a fraction. -/
def NotFraction {K : Type*} [Field K] (x : K) : Prop := ¬IsFraction x

variable {K : Type*} [Field K] [LinearOrder K]

/-- What a call that may never return does when it does return: it returns a value satisfying `P`,
or panics with a panic in `A`. -/
def May {α : Type} (A : Panic → Prop) (m : Nat → Out α) (P : α → Prop) : Prop :=
  ∀ f, (∀ a, m f = .ok a → P a) ∧ (∀ p, m f = .panic p → A p)

/-- `c` follows `x`: `x` is in (0,1), and the answers of `egest`, as long as there are any, are the
symbols of `x`; a panic is one in `A`. -/
def Clog.Follows (cfg : Cfg) (A : Panic → Prop) (c : Clog) (x : K) : Prop :=
  0 < x ∧ x < 1 ∧ ∀ k, May A (fun f => Clog.egests cfg f k c) (fun r => r.1 = Spec.symbolsIn k x)

/-- `n` follows `q`. -/
def Number.Follows (cfg : Cfg) (A : Panic → Prop) : Number → K → Prop
  | .Special s, q => q = Spec.specialIn K s
  | .Other p c, q => ∃ x, Clog.Follows cfg A c x ∧ q = Spec.primerIn p x

/-- `c` tracks `x`: `x` is in (0,1), and the answers of `egest` are the symbols of `x`, up to panics
in `A`. -/
def Clog.Tracks (cfg : Cfg) (A : Panic → Prop) (c : Clog) (x : K) : Prop :=
  0 < x ∧ x < 1 ∧ ∀ k, Ends A (fun f => Clog.egests cfg f k c) (fun r => r.1 = Spec.symbolsIn k x)

/-- `n` tracks `q`. -/
def Number.Tracks (cfg : Cfg) (A : Panic → Prop) : Number → K → Prop
  | .Special s, q => q = Spec.specialIn K s
  | .Other p c, q => ∃ x, Clog.Tracks cfg A c x ∧ q = Spec.primerIn p x

end Clarith
