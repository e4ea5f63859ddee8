import Verif.Model.Combine

/-! # Model of `src/lib.rs` and `src/strategy/consume.rs` -/

namespace Clarith

/-- Dispatch of `Strategy::egest` (src/strategy.rs:29-31) over the boxed strategies:
the `Result` and the mutated strategy. -/
def Strategy.egest (cfg : Cfg) (eg : EgestFn) (f : Nat) : Strategy → Out (Egested × Strategy)
  | .ratio r => do
    let (red, r) ← r.egest cfg
    pure (.ok red, .ratio r)
  | .homographic x k => do
    let (res, h) ← Homographic.egest cfg eg f ⟨x, k⟩
    pure (res, h.box)
  | .combine x y k => do
    let (res, c) ← Combine.egest cfg eg f ⟨x, y, k⟩
    pure (res, c.box)

/-- src/lib.rs:47-55, `Clog::egest`: on `Err(new_strategy)` the strategy is replaced and
egest is called again. -/
def Clog.egest (cfg : Cfg) : Nat → Clog → Out (Option Reduction × Clog)
  | 0, _ => .timeout
  | f + 1, s => do
    match ← Strategy.egest cfg (Clog.egest cfg f) f s with
    | (.ok reduction, s) => pure (reduction, s)
    | (.err newStrategy, _) => Clog.egest cfg f newStrategy

namespace Number

/-- src/lib.rs:66-71, `unwrap_special` -/
def unwrapSpecial : Number → Out Clarith.Special
  | .Special s => pure s
  | .Other _ _ => .panic .notSpecial

/-- src/lib.rs:74-79, `unwrap_other` -/
def unwrapOther : Number → Out (Option Primer × Clog)
  | .Other p c => pure (p, c)
  | .Special _ => .panic .notOther

/-- src/lib.rs:96-107, `ratio_u` -/
def ratioU (positive : Bool) (num den : Nat) : Out Number := do
  let (special, primer, ratio) ← Ratio.new positive num den
  match special with
  | some fixed => pure (.Special fixed)
  | none =>
    match ratio with
    | some r => pure (.Other primer (.ratio r))
    | none => .panic .unwrapMissing

/-- src/lib.rs:87-93, `ratio` -/
def ratio (cfg : Cfg) (num den : Int) : Out Number := do
  let n ← Ratio.magnitude cfg num
  let d ← Ratio.magnitude cfg den
  ratioU (Ratio.sameSign num den) n d

/-- src/lib.rs:112-131, `homographic` -/
def homographic (cfg : Cfg) (f : Nat) (x : Number) (nx n dx d : Int) : Out Number := do
  let (special, primer, ratio, homographic) ←
    Homographic.new cfg (Clog.egest cfg f) f x nx n dx d
  match special with
  | some fixed => pure (.Special fixed)
  | none =>
    match ratio with
    | some ratio => pure (.Other primer (.ratio ratio))
    | none =>
      match homographic with
      | some h => pure (.Other primer h.box)
      | none => .panic .unwrapMissing

/-- src/lib.rs:136-174, `combine`; the Rust parameter order
`nxy, nx, ny, n, dxy, dx, dy, d` is the field order `a .. h` of `Coef8`. -/
def combine (cfg : Cfg) (f : Nat) (x y : Number) (nxy nx ny n dxy dx dy d : Int) :
    Out Number := do
  let (special, primer, ratio, homographic, combine) ←
    Combine.new cfg (Clog.egest cfg f) f x y ⟨nxy, nx, ny, n, dxy, dx, dy, d⟩
  match special with
  | some fixed => pure (.Special fixed)
  | none =>
    match ratio with
    | some ratio => pure (.Other primer (.ratio ratio))
    | none =>
      match homographic with
      | some h => pure (.Other primer h.box)
      | none =>
        match combine with
        | some c => pure (.Other primer c.box)
        | none => .panic .unwrapMissing

end Number

namespace Consume

/-- consume.rs:147-155, `amplify_x` (unchecked arithmetic) -/
def amplifyX (cfg : Cfg) (k : Coef4) : Out Coef4 :=
  if isOdd k.nx || isOdd k.dx then do
    let n ← cfg.mul k.n 2
    let d ← cfg.mul k.d 2
    pure { k with n := n, d := d }
  else
    pure { k with nx := half k.nx, dx := half k.dx }

/-- consume.rs:157-162, `uncover_x` (unchecked arithmetic) -/
def uncoverX (cfg : Cfg) (k : Coef4) : Out Coef4 := do
  let nx ← cfg.add k.nx k.n
  let dx ← cfg.add k.dx k.d
  pure { nx := k.n, n := nx, dx := k.d, d := dx }

/-- consume.rs:131-136: the coefficients after a symbol -/
def ingest (cfg : Cfg) (r : Reduction) (k : Coef4) : Out Coef4 :=
  match r with
  | .Amplify => amplifyX cfg k
  | .Uncover => uncoverX cfg k

/-- `x.abs()` (unchecked) -/
def abs (cfg : Cfg) (x : Int) : Out Int := if x < 0 then cfg.neg x else pure x

/-- consume.rs:164-167, `is_state_unsafe` (`||` short-circuits) -/
def isStateUnsafe (cfg : Cfg) (k : Coef4) : Out Bool := do
  let lim := cfg.imax.tdiv 4
  if (← abs cfg k.nx) ≥ lim then pure true
  else do
    if (← abs cfg k.n) ≥ lim then pure true
    else do
      if (← abs cfg k.dx) ≥ lim then pure true
      else do
        let a ← abs cfg k.d
        pure (a ≥ lim)

/-- consume.rs:128-145, `consume` -/
def consume (cfg : Cfg) (eg : EgestFn) : Nat → Clog → Coef4 → Out (Option Clog × Coef4)
  | 0, _, _ => .timeout
  | f + 1, x, k => do
    let (r, x) ← eg x
    match r with
    | none => pure (none, k)
    | some red => do
      let k ← ingest cfg red k
      if ← isStateUnsafe cfg k then pure (some x, k)
      else consume cfg eg f x k

/-- consume.rs:92-113: the coefficients that stand for the primer -/
def start (cfg : Cfg) (p : Option Primer) : Out Coef4 :=
  match p with
  | some .Turn => pure ⟨0, 1, 1, 0⟩
  | some .Reflect => do
    let nx ← cfg.neg 1
    let dx ← cfg.neg 0
    pure ⟨nx, 0, dx, 1⟩
  | some .Ground => do
    let nx ← cfg.neg 1
    let dx ← cfg.neg 0
    pure ⟨0, nx, 1, dx⟩
  | none => pure ⟨1, 0, 0, 1⟩

/-- consume.rs:84-115, `fn new` -/
def new (cfg : Cfg) (eg : EgestFn) (f : Nat) (x : Number) : Out (Option Clog × Coef4) :=
  match x with
  | .Special .NegOne => pure (none, ⟨0, -1, 0, 1⟩)
  | .Special .Zero => pure (none, ⟨0, 0, 0, 1⟩)
  | .Special .PosOne => pure (none, ⟨0, 1, 0, 1⟩)
  | .Other p c => do
    let k ← start cfg p
    consume cfg eg f c k

end Consume

/-- src/lib.rs:189-192, `Number::consume`: `(y, ny, n, dy, d)` with the four
coefficients grouped in a `Coef4` -/
def Number.consume (cfg : Cfg) (f : Nat) (x : Number) : Out (Option Number × Coef4) := do
  let (co, k) ← Consume.new cfg (Clog.egest cfg f) f x
  pure (co.map (Number.Other none), k)

end Clarith
