import Verif.Model.Ratio

/-! # The strategy types (`src/strategy.rs`, `struct Homographic`, `struct Combine`, `struct Clog`)

`Box<dyn Strategy>` can only ever hold a `Ratio`, a `Homographic` or a `Combine`
(src/lib.rs:104,120,127,156,163,170; homographic.rs:1148; combine.rs:1214,1285,1286).
`Strategy` is the inductive type of those, nested to any depth. -/

namespace Clarith

/-- The coefficient fields of src/strategy/homographic.rs:832-838 `struct Homographic`
(and of src/strategy/consume.rs:76-82 `struct Consume`). -/
structure Coef4 where
  nx : Int
  n : Int
  dx : Int
  d : Int
deriving DecidableEq, Repr

/-- The coefficient fields of src/strategy/combine.rs:619-630 `struct Combine`. -/
structure Coef8 where
  a : Int
  b : Int
  c : Int
  d : Int
  e : Int
  f : Int
  g : Int
  h : Int
deriving DecidableEq, Repr

/-- `Box<dyn Strategy>` (src/strategy.rs:29-31). -/
inductive Strategy where
  | ratio (r : Ratio)
  | homographic (x : Strategy) (k : Coef4)
  | combine (x y : Strategy) (k : Coef8)
deriving DecidableEq, Repr

/-- src/lib.rs:38-40, `struct Clog { strategy: Box<dyn Strategy> }`. -/
abbrev Clog := Strategy

/-- src/strategy/homographic.rs:832-838, `struct Homographic`. -/
structure Homographic where
  x : Clog
  k : Coef4
deriving DecidableEq, Repr

/-- src/strategy/combine.rs:619-630, `struct Combine`.  The `Rc` around each clog is
dropped: the reference count is 1 whenever `Rc::get_mut` or `Rc::try_unwrap` runs
(`shutdown_x`/`shutdown_y` overwrite the field, dropping the other reference, before
unwrapping); `Model/Steps.lean` has the `Rc`s. -/
structure Combine where
  x : Clog
  y : Clog
  k : Coef8
deriving DecidableEq, Repr

/-- `Box::new(homographic)` -/
def Homographic.box (h : Homographic) : Strategy := .homographic h.x h.k

/-- `Box::new(combine)` -/
def Combine.box (c : Combine) : Strategy := .combine c.x c.y c.k

/-- src/lib.rs:59-62, `enum Number`. -/
inductive Number where
  | Special (s : Special)
  | Other (p : Option Primer) (c : Clog)
deriving DecidableEq, Repr

/-- `Result<Option<protocol::Reduction>, Box<dyn Strategy>>` (src/strategy.rs:30). -/
inductive Egested where
  | ok (r : Option Reduction)
  | err (s : Strategy)
deriving DecidableEq, Repr

/-- The type of `Clog::egest` (src/lib.rs:47): the symbol and the mutated clog. -/
abbrev EgestFn := Clog → Out (Option Reduction × Clog)

end Clarith
