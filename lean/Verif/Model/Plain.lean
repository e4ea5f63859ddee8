import Verif.Model.Steps

/-! # A caller in the first model

The caller of `Verif.Model.Steps` that catches panics, with the numbers of the first model
(`Verif.Model.Number`): no heap, no reference counts, no printed lines, and no half-done updates.
The calls and answers are those of `/repo/src/lib.rs:47-192`. -/

namespace Clarith.Steps

open Mut


/-- The face of a number of the first model (src/lib.rs:59-62). -/
def face : Clarith.Number → Face
  | .Special s => .special s
  | .Other p _ => .other p

/-- The variables of a caller in the first model: values of type `Number`, src/lib.rs:59-62. -/
structure Plain where
  held : Nat → Option Clarith.Number
  next : Nat

namespace Plain

/-- No numbers: before any call of src/lib.rs:82-192. -/
def start : Plain := ⟨fun _ => none, 0⟩

/-- Change a variable that holds a `Number` (src/lib.rs:59-62). -/
def set (c : Plain) (i : Nat) (v : Option Clarith.Number) : Plain :=
  { c with held := fun j => if j = i then v else c.held j }

/-- Move a number out of its variable: `Number` is passed by value and is not `Copy`
(src/lib.rs:58-62, 82, 112, 136, 189). -/
def move (i : Nat) : Mut Plain (Option Clarith.Number) := fun c => (.ok (c.held i), c.set i none)

/-- Keep a number returned by src/lib.rs:87-192 in a new variable. -/
def keep (v : Clarith.Number) : Mut Plain Unit :=
  modify fun c => { c.set c.next (some v) with next := c.next + 1 }

/-- A call that makes a number: src/lib.rs:87-174. -/
def make (o : Out Clarith.Number) : Mut Plain Answer := do
  let v ← eval o
  keep v
  pure (.made (face v))

/-- `Clog::egest` (src/lib.rs:47-55) on the number in a variable.  The first model does not say what a panic leaves
of the number, so the variable is emptied then. -/
def egestAt (cfg : Cfg) (f : Nat) (x : Nat) : Mut Plain Answer := fun c =>
  match c.held x with
  | some (.Other p s) =>
    match Clog.egest cfg f s with
    | .ok (r, s) => (.ok (.symbol r), c.set x (some (.Other p s)))
    | .panic q => (.panic q, c.set x none)
    | .timeout => (.timeout, c.set x none)
  | _ => (.ok .refused, c)

/-- A call: src/lib.rs `ratio` 87-93, `ratio_u` 96-107, `homographic` 112-131, `combine` 136-174,
`Clog::egest` 47-55, `consume` 189-192, `compare` 82-84, the constructors of `Number` 59-62,
`unwrap_special` 66-71, `unwrap_other` 74-79. -/
def call (cfg : Cfg) (f : Nat) : Call → Mut Plain Answer
  | .ratio num den => make (Clarith.Number.ratio cfg num den)
  | .ratioU positive num den => make (Clarith.Number.ratioU positive num den)
  | .homographic x nx n dx d => do
    match ← move x with
    | none => pure .refused
    | some x => make (Clarith.Number.homographic cfg f x nx n dx d)
  | .combine x y nxy nx ny n dxy dx dy d => do
    match ← move x with
    | none => pure .refused
    | some x => do
      match ← move y with
      | none => pure .refused
      | some y => make (Clarith.Number.combine cfg f x y nxy nx ny n dxy dx dy d)
  | .egest x => egestAt cfg f x
  | .consume x => do
    match ← move x with
    | none => pure .refused
    | some x => do
      let (y, k) ← eval (Clarith.Number.consume cfg f x)
      match y with
      | none => pure (.consumed none k)
      | some y => do
        keep y
        pure (.consumed (some (face y)) k)
  | .compare x y => do
    match ← move x with
    | none => pure .refused
    | some x => do
      match ← move y with
      | none => pure .refused
      | some y => do
        let o ← eval (Clarith.Number.compare cfg f x y)
        pure (.order o)
  | .special s => make (pure (.Special s))
  | .reprime x p => do
    match ← move x with
    | none => pure .refused
    | some x => make do
      let (_, c) ← x.unwrapOther
      pure (.Other p c)
  | .unwrapSpecial x => do
    match ← move x with
    | none => pure .refused
    | some x => do
      let s ← eval x.unwrapSpecial
      pure (.fixed s)

/-- One call of src/lib.rs:47-192 after the other, as in `Caller.session`. -/
def session (cfg : Cfg) (f : Nat) : List Call → Plain → List (Res Answer)
  | [], _ => []
  | a :: calls, c =>
    match call cfg f a c with
    | (.timeout, _) => [.timeout]
    | (r, c) => r :: session cfg f calls c

end Plain

end Clarith.Steps
