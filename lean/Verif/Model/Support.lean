import Verif.Model.Machine

/-! # Model of `src/strategy/support.rs`

Predicates on a fraction `n/d` of `isize`s and the image-range update.  Functions
that negate or multiply can panic, so they return `Out`. -/

namespace Clarith.Support

/-- support.rs:21-29 -/
def greaterThanOne (n d : Int) : Bool :=
  if d > 0 then n > d else if d < 0 then n < d else n > 0

/-- support.rs:31-39 -/
def lessThanOne (n d : Int) : Bool :=
  if d > 0 then n < d else if d < 0 then n > d else n < 0

/-- support.rs:41-47 -/
def greaterThanZero (n d : Int) : Bool :=
  if d ≥ 0 then n > 0 else n < 0

/-- support.rs:49-55 -/
def lessThanZero (n d : Int) : Bool :=
  if d ≥ 0 then n < 0 else n > 0

/-- support.rs:57-65 -/
def greaterThanMinusOne (cfg : Cfg) (n d : Int) : Out Bool :=
  if d > 0 then do
    let m ← cfg.neg d
    pure (n > m)
  else if d < 0 then do
    let m ← cfg.neg d
    pure (n < m)
  else pure (n > 0)

/-- support.rs:67-75 -/
def lessThanMinusOne (cfg : Cfg) (n d : Int) : Out Bool :=
  if d > 0 then do
    let m ← cfg.neg d
    pure (n < m)
  else if d < 0 then do
    let m ← cfg.neg d
    pure (n > m)
  else pure (n < 0)

/-- The first five lines shared by support.rs:77-83, 86-91 and 101-106: halve an even
denominator, or double the numerator. -/
def doubled (cfg : Cfg) (n d : Int) : Out (Int × Int) :=
  if d.tmod 2 = 0 then pure (n, half d)
  else do
    let n ← cfg.cmul n 2
    pure (n, d)

/-- support.rs:77-84 -/
def equalToOneHalf (cfg : Cfg) (n d : Int) : Out Bool := do
  let (n, d) ← doubled cfg n d
  pure (n == d)

/-- support.rs:86-99 -/
def greaterThanOneHalf (cfg : Cfg) (n d : Int) : Out Bool := do
  let (n, d) ← doubled cfg n d
  pure (if d > 0 then n > d else if d < 0 then n < d else n > 0)

/-- support.rs:101-114 -/
def lessThanOneHalf (cfg : Cfg) (n d : Int) : Out Bool := do
  let (n, d) ← doubled cfg n d
  pure (if d > 0 then n < d else if d < 0 then n > d else n < 0)

/-- support.rs:117-125 -/
def notLessThanOne (n d : Int) : Bool :=
  if d > 0 then n ≥ d else if d < 0 then n ≤ d else n > 0

/-- support.rs:128-136 -/
def notGreaterThanZero (n d : Int) : Bool :=
  if d > 0 then n ≤ 0 else if d < 0 then n ≥ 0 else n < 0

/-- support.rs:200-207, `compare_reduce` -/
def compareReduce (cfg : Cfg) (n0 d0 n1 d1 : Int) : Out (Int × Int) := do
  let ad ← cfg.cmul n0 d1
  let bc ← cfg.cmul n1 d0
  pure (ad, bc)

/-- support.rs:190-193 -/
def lessThan (cfg : Cfg) (n0 d0 n1 d1 : Int) : Out Bool := do
  let (ad, bc) ← compareReduce cfg n0 d0 n1 d1
  pure (ad < bc)

/-- support.rs:195-198 -/
def greaterThan (cfg : Cfg) (n0 d0 n1 d1 : Int) : Out Bool := do
  let (ad, bc) ← compareReduce cfg n0 d0 n1 d1
  pure (ad > bc)

/-- support.rs:147-178, restricted to one of the three fractions: an infinite
fraction gets numerator -1, 0 or 1 (147-155), a negative denominator is made
positive (157-168), a zero numerator gets denominator 1 (170-178).  The Rust code
interleaves the three fractions step by step; the steps of different fractions are
independent and can only panic with the same panic, so handling the fractions one
after the other gives the same outcome. -/
def normalise (cfg : Cfg) (n d : Int) : Out (Int × Int) := do
  let n := if d = 0 then n.sign else n
  let (n, d) ← if d < 0 then do
      let n ← cfg.mul n (-1)
      let d ← cfg.mul d (-1)
      pure (n, d)
    else pure (n, d)
  let d := if n = 0 then 1 else d
  pure (n, d)

/-- support.rs:138-188, `updated_range` -/
def updatedRange (cfg : Cfg) (nmin dmin nmax dmax nnew dnew : Int) :
    Out (Int × Int × Int × Int) := do
  let (nmin, dmin) ← normalise cfg nmin dmin
  let (nmax, dmax) ← normalise cfg nmax dmax
  let (nnew, dnew) ← normalise cfg nnew dnew
  if ← lessThan cfg nnew dnew nmin dmin then
    pure (nnew, dnew, nmax, dmax)
  else do
    if ← greaterThan cfg nnew dnew nmax dmax then
      pure (nmin, dmin, nnew, dnew)
    else
      pure (nmin, dmin, nmax, dmax)

/-- support.rs:209-211 -/
def isEven (n : Int) : Bool := n.tmod 2 == 0

/-- support.rs:213-215 -/
def areSame (n1 d1 n2 d2 : Int) : Bool := n1 == n2 && d1 == d2

/-- support.rs:221-223 -/
def equalToZero (n d : Int) : Bool := d != 0 && n == 0

/-- support.rs:225-227 -/
def equalToOne (n d : Int) : Bool := d != 0 && n == d

/-- support.rs:229-231 (`&&` short-circuits: the negation runs only when `d != 0`) -/
def equalToMinusOne (cfg : Cfg) (n d : Int) : Out Bool :=
  if d ≠ 0 then do
    let m ← cfg.neg d
    pure (n == m)
  else pure false

/-- support.rs:217-219 (`||` short-circuits) -/
def isSpecial (cfg : Cfg) (n d : Int) : Out Bool :=
  if equalToZero n d then pure true
  else do
    if ← equalToMinusOne cfg n d then pure true
    else pure (equalToOne n d)

end Clarith.Support
