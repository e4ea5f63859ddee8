import Verif.SpecSession
import Verif.SpecGrowth

/-! # Specification of a session on words of any length

What a session would answer if integers never overflowed.  No word size and no build enters. -/

namespace Clarith.Spec

open Steps

/-- The call makes a number with this value. -/
def Table.made (t : Table) (q : ℚ) : (Res Answer → Prop) × Table :=
  (fun r => r = .ok (.made (faceOf q)), t.push (some ⟨q, true⟩))

/-- What a call answers in exact arithmetic, and the table that it leaves.  Nothing is said when
there is no number in an operand, when a denominator vanishes, or when the same variable is named
twice. -/
def ideal (t : Table) : Call → Option ((Res Answer → Prop) × Table)
  | .ratio num den =>
    if den = 0 then some (fun r => r = .panic .divisionByZero, t)
    else some (t.made ((num : ℚ) / den))
  | .ratioU positive num den =>
    if den = 0 then some (fun r => r = .panic .divisionByZero, t)
    else some (t.made ((if positive then 1 else -1) * ((num : ℚ) / den)))
  | .homographic x nx n dx d => do
    let q ← t.var x
    if (dx : ℚ) * q.value + d = 0 then none
    else some ((t.set x none).made ((nx * q.value + n) / (dx * q.value + d)))
  | .combine x y nxy nx ny n dxy dx dy d => do
    let q ← t.var x
    let r ← t.var y
    if x = y ∨ (dxy : ℚ) * q.value * r.value + dx * q.value + dy * r.value + d = 0 then none
    else some (((t.set x none).set y none).made
      ((nxy * q.value * r.value + nx * q.value + ny * r.value + n) /
        (dxy * q.value * r.value + dx * q.value + dy * r.value + d)))
  | .egest x => do
    let q ← t.var x
    match shape q.value with
    | .inl _ => some (fun r => r = .ok .refused, t)
    | .inr (p, v) => some (fun r => r = .ok (.symbol (firstSymbol v)),
        t.set x (some ⟨applyPrimer p (afterSymbol v), true⟩))
  | .consume x => do
    let q ← t.var x
    some (fun r => ∃ k : Coef4, r = .ok (.consumed none k) ∧ (k.dx : ℚ) / 2 + k.d ≠ 0 ∧
      ((k.nx : ℚ) / 2 + k.n) / (k.dx / 2 + k.d) = q.value, t.set x none)
  | .compare x y => do
    let q ← t.var x
    let r ← t.var y
    if x = y then none
    else some (fun a => a = .ok (.order (order q.value r.value)), (t.set x none).set y none)
  | .special s => some (t.made (specialValue s))
  | .reprime x p => do
    let q ← t.var x
    match shape q.value with
    | .inl _ => some (fun r => r = .panic .notOther, t.set x none)
    | .inr (_, v) => some ((t.set x none).made (applyPrimer p v))
  | .unwrapSpecial x => do
    let q ← t.var x
    match shape q.value with
    | .inl s => some (fun r => r = .ok (.fixed s), t.set x none)
    | .inr _ => some (fun r => r = .panic .notSpecial, t.set x none)

/-- The answers to the calls are those of exact arithmetic, up to the first call about which nothing
is said. -/
def Ideals : Table → List Call → List (Res Answer) → Prop
  | _, [], l => l = []
  | t, a :: calls, l =>
    match ideal t a with
    | none => True
    | some (P, t') => ∃ r l', l = r :: l' ∧ P r ∧ Ideals t' calls l'

/-- Words of this many bits have room for the call: its arguments are machine integers other than
`isize::MIN`, the forms of `homographic` and `combine` are small for the growth of the operands, and
`consume` reads few symbols. -/
def Room (bits : Nat) (t : Table) : Call → Prop
  | .ratio num den => |num| < 2 ^ (bits - 1) ∧ |den| < 2 ^ (bits - 1)
  | .ratioU _ num den => num < 2 ^ bits ∧ den < 2 ^ bits
  | .homographic x nx n dx d => ∀ q, t.var x = some q → ∃ (S : Int) (g : ℚ), 1 ≤ g ∧
      |nx| + |n| ≤ S ∧ |dx| + |d| ≤ S ∧ GrowthAtMost q.value g ∧ (2 * S * g) ^ 2 + 1 ≤ 2 ^ (bits - 1)
  | .combine x y nxy nx ny n dxy dx dy d => ∀ q r, t.var x = some q → t.var y = some r →
      ∃ (S : Int) (g g' : ℚ), 1 ≤ g ∧ 1 ≤ g' ∧ |nxy| + |nx| + |ny| + |n| ≤ S ∧
        |dxy| + |dx| + |dy| + |d| ≤ S ∧ GrowthAtMost q.value g ∧ GrowthAtMost r.value g' ∧
        (4 * S * g * g') ^ 2 + 1 ≤ 2 ^ (bits - 1)
  | .consume x => ∀ q, t.var x = some q → ∃ L, SymbolCount q.value L ∧ L + 5 ≤ bits
  | _ => True

/-- There is room for all the calls up to the first about which nothing is said. -/
def Rooms (bits : Nat) : Table → List Call → Prop
  | _, [] => True
  | t, a :: calls =>
    match ideal t a with
    | none => True
    | some (_, t') => Room bits t a ∧ Rooms bits t' calls

end Clarith.Spec
