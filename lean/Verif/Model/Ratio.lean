import Verif.Model.Machine
import Verif.Model.Protocol

/-! # Model of `src/strategy/ratio.rs` -/

namespace Clarith

/-- src/strategy/ratio.rs:185-188, `struct Ratio`. -/
structure Ratio where
  num : Nat
  den : Nat
deriving DecidableEq, Repr

namespace Ratio

/-- src/strategy/ratio.rs:190-231, `fn new(positive, num, den)`. -/
def new (positive : Bool) (num den : Nat) :
    Out (Option Special × Option Primer × Option Ratio) :=
  if den = 0 then .panic .divisionByZero
  else if num = 0 then .ok (some .Zero, none, none)
  else if num = den then
    if positive then .ok (some .PosOne, none, none)
    else .ok (some .NegOne, none, none)
  else if num > den then
    .ok (none, (if positive then some .Turn else some .Ground), some ⟨den, num⟩)
  else
    .ok (none, (if positive then none else some .Reflect), some ⟨num, den⟩)

/-- The expression `if z >= 0 { z } else { -z } as usize` used at
src/strategy/ratio.rs:243-244 and src/lib.rs:90-91: the cast applies to the whole
`if`, the negation is the unchecked one. -/
def magnitude (cfg : Cfg) (z : Int) : Out Nat := do
  let a ← if z ≥ 0 then pure z else cfg.neg z
  pure (cfg.asUsize a)

/-- The expression `(num >= 0 && den >= 0) || (num < 0 && den < 0)` at
src/strategy/ratio.rs:242 and src/lib.rs:89. -/
def sameSign (num den : Int) : Bool :=
  (decide (num ≥ 0) && decide (den ≥ 0)) || (decide (num < 0) && decide (den < 0))

/-- src/strategy/ratio.rs:233-246, `fn new_i(num, den)`. -/
def newI (cfg : Cfg) (num den : Int) :
    Out (Option Special × Option Primer × Option Ratio) := do
  let n ← magnitude cfg num
  let d ← magnitude cfg den
  new (sameSign num den) n d

/-- src/strategy/ratio.rs:249-265, `Ratio::egest`.  It always answers `Ok`, so only
the symbol and the mutated struct are returned. -/
def egest (cfg : Cfg) (r : Ratio) : Out (Option Reduction × Ratio) :=
  if r.num > r.den / 2 then do
    -- swap, then `self.num -= self.den`
    let num ← cfg.usub r.den r.num
    pure (some .Uncover, ⟨num, r.num⟩)
  else if r.den % 2 = 0 then
    let den := r.den / 2
    if r.num = den then do
      let den ← cfg.umul den 2
      pure (none, ⟨r.num, den⟩)
    else
      pure (some .Amplify, ⟨r.num, den⟩)
  else do
    let num ← cfg.umul r.num 2
    pure (some .Amplify, ⟨num, r.den⟩)

end Ratio

end Clarith
