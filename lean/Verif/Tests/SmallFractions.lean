import Verif.Properties.History
/-! # Where small fractions overflow on a 16 bit machine

Tests, not proofs: each `example` evaluates the model for one fraction and all second operands with
small parts.  Together they pin down which of these calls panic, and after how many symbols. -/

namespace Clarith.Tests.SmallFractions
open Spec

/-- A 16 bit machine with overflow checks. -/
def cfg : Cfg := ⟨16, by decide, true⟩

/-- The symbols up to `None`, or up to a panic (`false`). -/
def symbolsOf : Nat → Clog → List Reduction × Bool
  | 0, _ => ([], false)
  | m + 1, c =>
    match Clog.egest cfg 40 c with
    | .ok (some r, c) => let l := symbolsOf m c; (r :: l.1, l.2)
    | .ok (none, _) => ([], true)
    | _ => ([], false)

/-- What a caller sees of a number, and whether there was a panic (`false`). -/
def seen : Out Number → (Option Special × Option Primer × List Reduction) × Bool
  | .ok (.Special s) => ((some s, none, []), true)
  | .ok (.Other p c) => let l := symbolsOf 60 c; ((none, p, l.1), l.2)
  | _ => ((none, none, []), false)

/-- The fractions in lowest terms with parts up to `N`. -/
def fractions (N : Nat) : List (Nat × Nat) :=
  (List.range N).flatMap fun a => (List.range N).filterMap fun b =>
    if Nat.gcd (a + 1) (b + 1) = 1 then some (a + 1, b + 1) else none

/-- A number made by `Number::ratio`. -/
def num (a b : Int) : Number :=
  match Number.ratio cfg a b with
  | .ok x => x
  | _ => .Special .Zero

/-- The second operands with parts up to `N` for which the operation panics: with `a/b` as first
operand, and after how many symbols of the result.  For the others the result must be read as the
exact value is (`isize::MAX` is listed if it is not). -/
def fails (op : Cfg → Nat → Number → Number → Out Number)
    (exact : Int → Int → Int → Int → Int × Int) (a b N : Nat) : List (Nat × Nat × Nat) :=
  (fractions N).filterMap fun v =>
    let e := exact a b v.1 v.2
    let got := seen (op cfg 60 (num a b) (num v.1 v.2))
    if got.2 then
      if got = seen (Number.ratio cfg e.1 e.2) then none else some (v.1, v.2, 32767)
    else some (v.1, v.2, got.1.2.2.length)

set_option maxRecDepth 10000

/-- `1/7 + y` -/
example : fails plus (fun a b c d => (a * d + b * c, b * d)) 1 7 8 =
    [(6, 7, 0), (7, 1, 2), (7, 2, 1), (7, 8, 0)] := by decide +kernel

/-- `7/8 - y` -/
example : fails minus (fun a b c d => (a * d - b * c, b * d)) 7 8 10 =
    [(1, 7, 3), (7, 9, 3), (8, 7, 1), (8, 9, 5), (9, 1, 3), (9, 10, 3)] := by decide +kernel

/-- `1/11 * y` -/
example : fails times (fun a b c d => (a * c, b * d)) 1 11 12 = [(11, 12, 4)] := by
  decide +kernel

/-- `14/13 / y` -/
example : fails over (fun a b c d => (a * d, b * c)) 14 13 12 =
    [(2, 11, 3), (3, 11, 1), (6, 11, 0), (7, 8, 7), (8, 7, 4), (9, 5, 3), (9, 10, 0), (10, 9, 0),
      (10, 11, 0), (11, 1, 5), (11, 5, 0), (11, 9, 3), (11, 10, 6), (11, 12, 0), (12, 11, 0)] := by
  decide +kernel

/-- `3 * y` -/
example : fails (fun cfg f _ y => Number.homographic cfg f y 3 0 0 1)
    (fun _ _ c d => (3 * c, d)) 1 1 16 = [(16, 15, 4)] := by decide +kernel

/-- `y / 3` -/
example : fails (fun cfg f _ y => Number.homographic cfg f y 1 0 0 3)
    (fun _ _ c d => (c, 3 * d)) 1 1 16 = [(15, 16, 4)] := by decide +kernel

/-- `(5 * y - 7) / (3 * y + 5)` -/
example : fails (fun cfg f _ y => Number.homographic cfg f y 5 (-7) 3 5)
    (fun _ _ c d => (5 * c - 7 * d, 3 * c + 5 * d)) 1 1 16 =
    [(1, 11, 3), (1, 15, 5), (2, 15, 4), (4, 15, 6), (15, 16, 4), (16, 15, 9)] := by decide +kernel

end Clarith.Tests.SmallFractions
