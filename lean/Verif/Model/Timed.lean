import Verif.Model.Compare

/-! # The model with a count of rounds

The functions of the crate that recurse or loop, once more, counting how often they are entered:
each call of a `Strategy::egest` (src/strategy.rs:29-31; ratio.rs:249-266, homographic.rs:1138-1152,
combine.rs:1277-1289, with their recursive calls) and of a `prime` (homographic.rs:1079-1099,
combine.rs:863-883), and each turn of the loops of `consume` (consume.rs:128-145) and `compare_clogs`
(compare.rs:329-361).  Everything else in the library is free of loops and recursion, so that a round
takes a bounded number of machine operations.  A run that panics has the count of the rounds up to the
panic. -/

namespace Clarith

/-- An outcome together with the rounds that led to it. -/
structure Timed (α : Type) where
  rounds : Nat
  out : Out α

namespace Timed

/-- Sequencing: the rounds add up; a panic or a timeout stops the computation. -/
protected def bind {α β : Type} (m : Timed α) (g : α → Timed β) : Timed β :=
  match m.out with
  | .ok a => ⟨m.rounds + (g a).rounds, (g a).out⟩
  | .panic p => ⟨m.rounds, .panic p⟩
  | .timeout => ⟨m.rounds, .timeout⟩

instance : Monad Timed where
  pure a := ⟨0, .ok a⟩
  bind := Timed.bind

/-- What takes no round. -/
instance : MonadLift Out Timed where
  monadLift m := ⟨0, m⟩

/-- Out of fuel. -/
def timeout {α : Type} : Timed α := ⟨0, .timeout⟩

/-- One round. -/
def round : Timed Unit := ⟨1, .ok ()⟩

/-- The type of `Clog::egest` (src/lib.rs:47) with a count. -/
abbrev EgestFn := Clog → Timed (Option Reduction × Clog)

namespace Homographic

/-- homographic.rs:918-939, `prime_ingest` -/
def primeIngest (cfg : Cfg) (eg : EgestFn) (h : Homographic) :
    Timed (Option (Option Special × Option Primer × Option Ratio) × Homographic) := do
  let (r, x) ← eg h.x
  match r with
  | none => do
    let (num, den) ← h.k.valueAtOneHalf cfg
    let res ← Ratio.newI cfg num den
    pure (some res, { h with x := x })
  | some .Amplify => do
    let k ← h.k.ingestAmplify cfg
    pure (none, ⟨x, k⟩)
  | some .Uncover => do
    let k ← h.k.ingestUncover cfg
    pure (none, ⟨x, k⟩)

/-- homographic.rs:1059-1077, `reduction_ingest` -/
def reductionIngest (cfg : Cfg) (eg : EgestFn) (h : Homographic) :
    Timed (Option Ratio × Homographic) := do
  let (r, x) ← eg h.x
  match r with
  | none => do
    let (num, den) ← h.k.valueAtOneHalf cfg
    match ← (Ratio.newI cfg num den : Timed _) with
    | (none, none, some ratio) => pure (some ratio, { h with x := x })
    | _ => (Out.panic .logicError : Out _)
  | some .Amplify => do
    let k ← h.k.ingestAmplify cfg
    pure (none, ⟨x, k⟩)
  | some .Uncover => do
    let k ← h.k.ingestUncover cfg
    pure (none, ⟨x, k⟩)

/-- homographic.rs:1079-1099, `prime`: one round for each call -/
def prime (cfg : Cfg) (eg : EgestFn) : Nat → Homographic → Timed Homographic.Primed
  | 0, _ => timeout
  | f + 1, h => do
    round
    match ← (h.k.primerAttempt cfg : Timed _) with
    | some (primer, k) => pure (none, primer, none, some { h with k := k })
    | none => do
      match ← primeIngest cfg eg h with
      | (some (special, primer, ratio), _) => pure (special, primer, ratio, none)
      | (none, h) => prime cfg eg f h

/-- homographic.rs:1138-1152, `Strategy::egest`: one round for each call -/
def egest (cfg : Cfg) (eg : EgestFn) : Nat → Homographic → Timed (Egested × Homographic)
  | 0, _ => timeout
  | f + 1, h => do
    round
    match ← (h.k.reductionAttempt cfg : Timed _) with
    | some (reduction, k) => pure (.ok reduction, { h with k := k })
    | none => do
      match ← reductionIngest cfg eg h with
      | (some ratio, h) => pure (.err (.ratio ratio), h)
      | (none, h) => egest cfg eg f h

/-- homographic.rs:840-900, `fn new` -/
def new (cfg : Cfg) (eg : EgestFn) (f : Nat) (x : Number) (nx n dx d : Int) :
    Timed Homographic.Primed :=
  if nx = 0 ∧ dx = 0 then Homographic.asRatio cfg n d
  else
    match x with
    | .Special .NegOne => do
      let n ← cfg.csub n nx
      let d ← cfg.csub d dx
      Homographic.asRatio cfg n d
    | .Special .Zero => Homographic.asRatio cfg n d
    | .Special .PosOne => do
      let n ← cfg.cadd n nx
      let d ← cfg.cadd d dx
      Homographic.asRatio cfg n d
    | .Other p c => do
      let k ← Homographic.absorbPrimer cfg p ⟨nx, n, dx, d⟩
      prime cfg eg f ⟨c, k⟩

end Homographic

namespace Combine

/-- combine.rs:924-972, `prime_ingest` -/
def primeIngest (cfg : Cfg) (eg : EgestFn) (f : Nat) (s : Combine) :
    Timed (Homographic.Primed ⊕ Combine) := do
  let (r, x) ← eg s.x
  match r with
  | none => do
    let k ← s.k.valueAtEndOfX cfg
    let res ← Homographic.new cfg eg f (.Other none s.y) k.nx k.n k.dx k.d
    pure (.inl res)
  | some rx => do
    let k ← s.k.ingestX cfg rx
    let (r, y) ← eg s.y
    match r with
    | none => do
      let k ← k.valueAtEndOfY cfg
      let res ← Homographic.new cfg eg f (.Other none x) k.nx k.n k.dx k.d
      pure (.inl res)
    | some ry => do
      let k ← k.ingestY cfg ry
      pure (.inr ⟨x, y, k⟩)

/-- combine.rs:863-883, `prime`: one round for each call -/
def prime (cfg : Cfg) (eg : EgestFn) : Nat → Combine → Timed Combine.Primed
  | 0, _ => timeout
  | f + 1, s => do
    round
    match ← (s.k.primerAttempt cfg : Timed _) with
    | some (primer, k) => pure (none, primer, none, none, some { s with k := k })
    | none => do
      match ← primeIngest cfg eg f s with
      | .inl (special, primer, ratio, homographic) =>
        pure (special, primer, ratio, homographic, none)
      | .inr s => prime cfg eg f s

/-- combine.rs:1234-1274, `reduction_ingest` -/
def reductionIngest (cfg : Cfg) (eg : EgestFn) (f : Nat) (s : Combine) :
    Timed ((Option Ratio × Option Homographic) × Combine) := do
  let (r, x) ← eg s.x
  match r with
  | none => do
    let k ← s.k.valueAtEndOfX cfg
    match ← Homographic.new cfg eg f (.Other none s.y) k.nx k.n k.dx k.d with
    | (none, none, ratio, homographic) =>
      pure ((ratio, homographic), { s with x := x, y := Combine.simpleClog })
    | _ => (Out.panic .logicError : Out _)
  | some rx => do
    let k ← s.k.ingestX cfg rx
    let (r, y) ← eg s.y
    match r with
    | none => do
      let k4 ← k.valueAtEndOfY cfg
      match ← Homographic.new cfg eg f (.Other none x) k4.nx k4.n k4.dx k4.d with
      | (none, none, ratio, homographic) =>
        pure ((ratio, homographic), ⟨Combine.simpleClog, y, k⟩)
      | _ => (Out.panic .logicError : Out _)
    | some ry => do
      let k ← k.ingestY cfg ry
      pure ((none, none), ⟨x, y, k⟩)

/-- combine.rs:1277-1289, `Strategy::egest`: one round for each call -/
def egest (cfg : Cfg) (eg : EgestFn) : Nat → Combine → Timed (Egested × Combine)
  | 0, _ => timeout
  | f + 1, s => do
    round
    match ← (s.k.reductionAttempt cfg : Timed _) with
    | some (reduction, k) => pure (.ok reduction, { s with k := k })
    | none => do
      match ← reductionIngest cfg eg f s with
      | ((_, some homographic), s) => pure (.err homographic.box, s)
      | ((some ratio, none), s) => pure (.err (.ratio ratio), s)
      | ((none, none), s) => egest cfg eg f s

/-- combine.rs:693-708, `as_homographic` -/
def asHomographic (cfg : Cfg) (eg : EgestFn) (f : Nat) (x : Number) (nx n dx d : Int) :
    Timed Combine.Primed := do
  let (special, primer, ratio, homographic) ← Homographic.new cfg eg f x nx n dx d
  pure (special, primer, ratio, homographic, none)

/-- combine.rs:675-827, `fn new` -/
def new (cfg : Cfg) (eg : EgestFn) (fuel : Nat) (x y : Number) (k : Coef8) : Timed Combine.Primed :=
  match x with
  | .Special .NegOne => do
    let nx ← cfg.csub k.c k.a
    let n ← cfg.csub k.d k.b
    let dx ← cfg.csub k.g k.e
    let d ← cfg.csub k.h k.f
    asHomographic cfg eg fuel y nx n dx d
  | .Special .Zero => asHomographic cfg eg fuel y k.c k.d k.g k.h
  | .Special .PosOne => do
    let nx ← cfg.cadd k.c k.a
    let n ← cfg.cadd k.d k.b
    let dx ← cfg.cadd k.g k.e
    let d ← cfg.cadd k.h k.f
    asHomographic cfg eg fuel y nx n dx d
  | .Other px cx =>
    match y with
    | .Special .NegOne => do
      let nx ← cfg.csub k.b k.a
      let n ← cfg.csub k.d k.c
      let dx ← cfg.csub k.f k.e
      let d ← cfg.csub k.h k.g
      asHomographic cfg eg fuel x nx n dx d
    | .Special .Zero => asHomographic cfg eg fuel x k.b k.d k.f k.h
    | .Special .PosOne => do
      let nx ← cfg.cadd k.b k.a
      let n ← cfg.cadd k.d k.c
      let dx ← cfg.cadd k.f k.e
      let d ← cfg.cadd k.h k.g
      asHomographic cfg eg fuel x nx n dx d
    | .Other py cy => do
      let k ← k.absorbPrimerX cfg px
      let k ← k.absorbPrimerY cfg py
      prime cfg eg fuel ⟨cx, cy, k⟩

end Combine

/-- Dispatch of `Strategy::egest` (src/strategy.rs:29-31); `Ratio`'s takes one round. -/
def Strategy.egest (cfg : Cfg) (eg : EgestFn) (f : Nat) : Strategy → Timed (Egested × Strategy)
  | .ratio r => do
    round
    let (red, r) ← r.egest cfg
    pure (.ok red, .ratio r)
  | .homographic x k => do
    let (res, h) ← Homographic.egest cfg eg f ⟨x, k⟩
    pure (res, h.box)
  | .combine x y k => do
    let (res, c) ← Combine.egest cfg eg f ⟨x, y, k⟩
    pure (res, c.box)

/-- src/lib.rs:47-55, `Clog::egest` -/
def Clog.egest (cfg : Cfg) : Nat → Clog → Timed (Option Reduction × Clog)
  | 0, _ => timeout
  | f + 1, s => do
    match ← Strategy.egest cfg (Clog.egest cfg f) f s with
    | (.ok reduction, s) => pure (reduction, s)
    | (.err newStrategy, _) => Clog.egest cfg f newStrategy

namespace Number

/-- src/lib.rs:112-131, `homographic` -/
def homographic (cfg : Cfg) (f : Nat) (x : Number) (nx n dx d : Int) : Timed Number := do
  let (special, primer, ratio, homographic) ←
    Homographic.new cfg (Clog.egest cfg f) f x nx n dx d
  match special with
  | some fixed => pure (.Special fixed)
  | none =>
    match ratio with
    | some ratio => pure (.Other primer (.ratio ratio))
    | none =>
      match homographic with
      | some h => pure (.Other primer h.box)
      | none => (Out.panic .unwrapMissing : Out _)

/-- src/lib.rs:136-174, `combine` -/
def combine (cfg : Cfg) (f : Nat) (x y : Number) (nxy nx ny n dxy dx dy d : Int) :
    Timed Number := do
  let (special, primer, ratio, homographic, combine) ←
    Combine.new cfg (Clog.egest cfg f) f x y ⟨nxy, nx, ny, n, dxy, dx, dy, d⟩
  match special with
  | some fixed => pure (.Special fixed)
  | none =>
    match ratio with
    | some ratio => pure (.Other primer (.ratio ratio))
    | none =>
      match homographic with
      | some h => pure (.Other primer h.box)
      | none =>
        match combine with
        | some c => pure (.Other primer c.box)
        | none => (Out.panic .unwrapMissing : Out _)

end Number

namespace Consume

/-- consume.rs:128-145, `consume`: one round for each turn of the loop -/
def consume (cfg : Cfg) (eg : EgestFn) : Nat → Clog → Coef4 → Timed (Option Clog × Coef4)
  | 0, _, _ => timeout
  | f + 1, x, k => do
    round
    let (r, x) ← eg x
    match r with
    | none => pure (none, k)
    | some red => do
      let k ← Consume.ingest cfg red k
      if ← (Consume.isStateUnsafe cfg k : Timed _) then pure (some x, k)
      else consume cfg eg f x k

/-- consume.rs:84-115, `fn new` -/
def new (cfg : Cfg) (eg : EgestFn) (f : Nat) (x : Number) : Timed (Option Clog × Coef4) :=
  match x with
  | .Special .NegOne => pure (none, ⟨0, -1, 0, 1⟩)
  | .Special .Zero => pure (none, ⟨0, 0, 0, 1⟩)
  | .Special .PosOne => pure (none, ⟨0, 1, 0, 1⟩)
  | .Other p c => do
    let k ← Consume.start cfg p
    consume cfg eg f c k

end Consume

/-- src/lib.rs:189-192, `Number::consume` -/
def Number.consume (cfg : Cfg) (f : Nat) (x : Number) : Timed (Option Number × Coef4) := do
  let (co, k) ← Consume.new cfg (Clog.egest cfg f) f x
  pure (co.map (Number.Other none), k)

namespace Compare

/-- compare.rs:329-361, `compare_clogs`: one round for each turn of the loop -/
def compareClogs (cfg : Cfg) (eg : EgestFn) : Nat → Clog → Clog → Bool → Timed Ordering
  | 0, _, _, _ => timeout
  | f + 1, c1, c2, polarity => do
    round
    let (e1, c1) ← eg c1
    let (e2, c2) ← eg c2
    if e1 ≠ e2 then
      let answer := Compare.symbolAnswer e1 e2
      pure (if polarity then answer else answer.swap)
    else
      match e1 with
      | none => pure .eq
      | some .Uncover => compareClogs cfg eg f c1 c2 (!polarity)
      | some .Amplify => compareClogs cfg eg f c1 c2 polarity

/-- compare.rs:294-305, `compare_others` -/
def compareOthers (cfg : Cfg) (eg : EgestFn) (f : Nat) (p1 : Option Primer) (c1 : Clog)
    (p2 : Option Primer) (c2 : Clog) : Timed Ordering := do
  let o ← compareClogs cfg eg f c1 c2 (p1 != some .Reflect && p1 != some .Turn)
  pure ((Compare.comparePrimers p1 p2).then o)

end Compare

/-- compare.rs:246-257, `compare`, called by src/lib.rs:82-84 `Number::compare` -/
def Number.compare (cfg : Cfg) (f : Nat) (n1 n2 : Number) : Timed Ordering :=
  match n1, n2 with
  | .Special s1, .Special s2 => pure (Compare.compareSpecials s1 s2)
  | .Special s1, .Other p2 _ => pure (Compare.compareHybrid s1 p2)
  | .Other p1 _, .Special s2 => pure (Compare.compareHybrid s2 p1).swap
  | .Other p1 c1, .Other p2 c2 =>
    Compare.compareOthers cfg (Clog.egest cfg f) f p1 c1 p2 c2

end Timed

end Clarith
