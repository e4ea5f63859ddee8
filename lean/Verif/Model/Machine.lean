/-!
# Machine integers, panics and outcomes

Shared machinery of the model.  It models no single file of `/repo`; it gives the
meaning of the Rust primitives the code uses: `isize`/`usize` arithmetic in a
build with or without overflow checks, `checked_*().unwrap()`, and `panic!`.
-/

namespace Clarith

/-- The ways the code can panic.
* `divisionByZero`: `panic!("division by zero")` (src/strategy/ratio.rs:200);
* `logicError`: `panic!("logic error")` (homographic.rs:1065,1104,1106; combine.rs:1165,1168,1243,1262);
* `notSpecial`, `notOther`: src/lib.rs:69, src/lib.rs:77;
* `unwrapNone`: `.unwrap()` of the `None` returned by an overflowing `checked_*` operation;
* `arithOverflow`: overflow of an unchecked operator in a build with overflow checks;
* `unwrapMissing`: `.unwrap()` of an absent strategy (src/lib.rs:104,127,170; combine.rs:1214). -/
inductive Panic where
  | divisionByZero
  | logicError
  | notSpecial
  | notOther
  | unwrapNone
  | arithOverflow
  | unwrapMissing
deriving DecidableEq, Repr

/-- The outcome of running a piece of the code with some amount of fuel:
a value, a panic, or not finished within the fuel. -/
inductive Out (α : Type) where
  | ok (a : α)
  | panic (p : Panic)
  | timeout
deriving DecidableEq, Repr

namespace Out

/-- Sequencing: a panic or a timeout stops the computation. -/
protected def bind {α β : Type} (m : Out α) (g : α → Out β) : Out β :=
  match m with
  | .ok a => g a
  | .panic p => .panic p
  | .timeout => .timeout

instance : Monad Out where
  pure := .ok
  bind := Out.bind

/-- Rust's short-circuiting `a && b`: `b` runs only if `a` is true. -/
protected def and (a b : Out Bool) : Out Bool := do
  if ← a then b else pure false

/-- Rust's `!a`. -/
protected def not (a : Out Bool) : Out Bool := do
  let a ← a
  pure (!a)

end Out

/-- The target machine and build profile: word size of `isize`/`usize` (Rust
guarantees at least 16 bits) and whether unchecked operators panic on overflow
(`overflow-checks`, on in debug builds, off in release builds). -/
structure Cfg where
  bits : Nat
  hbits : 16 ≤ bits
  overflowChecks : Bool

namespace Cfg

/-- `isize::max_value()`. -/
def imax (cfg : Cfg) : Int := 2 ^ (cfg.bits - 1) - 1

/-- `isize::min_value()`. -/
def imin (cfg : Cfg) : Int := -2 ^ (cfg.bits - 1)

/-- `usize::max_value()`. -/
def umax (cfg : Cfg) : Nat := 2 ^ cfg.bits - 1

/-- The integer is representable as an `isize`. -/
def Fits (cfg : Cfg) (z : Int) : Prop := cfg.imin ≤ z ∧ z ≤ cfg.imax

instance (cfg : Cfg) (z : Int) : Decidable (cfg.Fits z) :=
  inferInstanceAs (Decidable (_ ∧ _))

/-- Two's complement wrap-around into `isize`. -/
def wrap (cfg : Cfg) (z : Int) : Int := z.bmod (2 ^ cfg.bits)

/-- Result `z` of a checked `isize` operation followed by `.unwrap()`. -/
def checked (cfg : Cfg) (z : Int) : Out Int :=
  if cfg.Fits z then .ok z else .panic .unwrapNone

/-- Result `z` of an unchecked `isize` operator. -/
def unchecked (cfg : Cfg) (z : Int) : Out Int :=
  if cfg.Fits z then .ok z
  else if cfg.overflowChecks then .panic .arithOverflow
  else .ok (cfg.wrap z)

/-- `x.checked_add(y).unwrap()` -/
def cadd (cfg : Cfg) (x y : Int) : Out Int := cfg.checked (x + y)
/-- `x.checked_sub(y).unwrap()` -/
def csub (cfg : Cfg) (x y : Int) : Out Int := cfg.checked (x - y)
/-- `x.checked_mul(y).unwrap()` -/
def cmul (cfg : Cfg) (x y : Int) : Out Int := cfg.checked (x * y)
/-- `-x` -/
def neg (cfg : Cfg) (x : Int) : Out Int := cfg.unchecked (-x)
/-- `x + y` -/
def add (cfg : Cfg) (x y : Int) : Out Int := cfg.unchecked (x + y)
/-- `x * y` -/
def mul (cfg : Cfg) (x y : Int) : Out Int := cfg.unchecked (x * y)

/-- Result `z` of an unchecked `usize` operator. -/
def uunchecked (cfg : Cfg) (z : Int) : Out Nat :=
  if 0 ≤ z ∧ z ≤ cfg.umax then .ok z.toNat
  else if cfg.overflowChecks then .panic .arithOverflow
  else .ok (z.emod (2 ^ cfg.bits)).toNat

/-- `x * y` on `usize` -/
def umul (cfg : Cfg) (x y : Nat) : Out Nat := cfg.uunchecked (x * y)
/-- `x - y` on `usize` -/
def usub (cfg : Cfg) (x y : Nat) : Out Nat := cfg.uunchecked (x - y)

/-- `x as usize` for `x: isize` -/
def asUsize (cfg : Cfg) (x : Int) : Nat := (x.emod (2 ^ cfg.bits)).toNat

end Cfg

/-- `x % 2 != 0` on `isize` (Rust's remainder truncates toward zero). -/
def isOdd (x : Int) : Bool := x.tmod 2 != 0

/-- `x / 2` on `isize` (Rust's division truncates toward zero). -/
def half (x : Int) : Int := x.tdiv 2

end Clarith
