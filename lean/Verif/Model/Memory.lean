import Verif.Model.Steps

/-! # What is dropped, and which allocations are freed

`Model/Steps.lean` frees the allocation behind an `Rc` where the code says so (`Rc::try_unwrap`, the
assignment in `shutdown_x` and `shutdown_y`), but forgets an object that goes out of scope.  Here the
functions in which a clog goes out of scope are repeated with what Rust does then: the clog is
dropped, with all the `Rc`s in it, and the allocation behind an `Rc` is freed with its last pointer.
This happens at the end of a function that owns the clog, when another strategy is assigned to
`Clog::strategy`, and when a panic unwinds through a function that owns the clog: also the panic of a
`println!` whose line cannot be written (see `Model/Stdout.lean`).  Everything else is shared with
`Model/Steps.lean`.

A function that takes `self` by value (`prime`, `prime_ingest`) works on its own copy, so the fields
that have been moved out of it can be told from those that are still to be dropped. -/

namespace Clarith.Steps.Memory

open Mut

/-! ## Dropping -/

/-- Dropping an `Rc<Clog>` (combine.rs:619-630): one pointer less; the last one frees the allocation
and drops the clog in it by `inner`. -/
def releaseRc (inner : Obj → World → World) (i : Nat) (w : World) : World :=
  match w.cells i with
  | some c =>
    if c.count ≤ 1 then inner c.val (w.put i none)
    else w.put i (some { c with count := c.count - 1 })
  | none => w

/-- Dropping a boxed strategy: homographic.rs:832-838 owns a clog, combine.rs:619-630 two `Rc`s. -/
def releaseObj (inner : Obj → World → World) : Obj → World → World
  | .ratio _, w => w
  | .homographic x _, w => releaseObj inner x w
  | .combine i j _, w => releaseRc inner j (releaseRc inner i w)

/-- Dropping a boxed strategy, through at most `f + 1` `Rc`s one inside the other.  What is deeper is
not freed; `release` makes sure that there is nothing. -/
def releaseUpTo : Nat → Obj → World → World
  | 0 => releaseObj fun _ w => w
  | f + 1 => releaseObj (releaseUpTo f)

/-- Dropping a boxed strategy.  No more `Rc`s can be inside each other than were ever made. -/
def release (o : Obj) (w : World) : World := releaseUpTo w.fresh o w

/-- Dropping a number (src/lib.rs:59-62). -/
def releaseNumber : Number → World → World
  | .Special _, w => w
  | .Other _ c, w => release c w

/-- The end of the scope of `drop`'s subject: it is dropped by a return and by a panic. -/
def scope {α : Type} (drop : World → World) (m : Mut World α) : Mut World α := fun w =>
  match m w with
  | (.timeout, w) => (.timeout, w)
  | (r, w) => (r, drop w)

/-- A panic unwinds through the scope of `drop`'s subject.  A return moves it somewhere else. -/
def unwind {α : Type} (drop : World → World) (m : Mut World α) : Mut World α := fun w =>
  match m w with
  | (.panic p, w) => (.panic p, drop w)
  | (.shared, w) => (.shared, drop w)
  | r => r

/-- Run a method on an object that is owned: it is moved into the result if `moved`, otherwise, and
by a panic, it is dropped as the method has left it. -/
def owned {σ α : Type} (drop : σ → World → World) (moved : α → Bool) (s : σ)
    (m : Mut (σ × World) α) : Mut World α := fun w =>
  match m (s, w) with
  | (.ok a, (s, w)) => (.ok a, if moved a then w else drop s w)
  | (.panic p, (s, w)) => (.panic p, drop s w)
  | (.shared, (s, w)) => (.shared, drop s w)
  | (.timeout, (_, w)) => (.timeout, w)

/-! ## `Homographic` -/

/-- Standard output that can always be written. -/
def fine : Nat → Option Panic := fun _ => none

namespace Homographic

/-- `println!("{} {} {} {}", self.nx, self.n, self.dx, self.d)` (homographic.rs:1088, 1141).
`World.printed` are the lines that were to be printed; `out i` is `none` if the line with the number
`i` can be written, otherwise it is the panic of the `println!`.  (Which panic that is does not matter
here: it can be any.) -/
def println (out : Nat → Option Panic) : Mut (Homographic × World) Unit := fun s =>
  (match out s.2.printed.length with
    | none => .ok ()
    | some p => .panic p,
    (s.1, { s.2 with printed := s.2.printed ++ [s.1.k] }))

/-- homographic.rs:1079-1099, `prime` -/
def prime (cfg : Cfg) (out : Nat → Option Panic) (eg : EgestFn) :
    Nat → Mut (Homographic × World) Homographic.Primed
  | 0 => timeout
  | f + 1 => do
    println out
    match ← Homographic.onK (Coef4.primerAttempt cfg) with
    | some primer => do
      let s ← get
      pure (none, primer, none, some s.1)
    | none => do
      match ← Homographic.primeIngest cfg eg with
      | some (special, primer, ratio) => pure (special, primer, ratio, none)
      | none => prime cfg out eg f

/-- homographic.rs:1138-1152, `Strategy::egest`: `Err` is `.inr` -/
def egest (cfg : Cfg) (out : Nat → Option Panic) (eg : EgestFn) :
    Nat → Mut (Homographic × World) (Option Reduction ⊕ Obj)
  | 0 => timeout
  | f + 1 => do
    println out
    match ← Homographic.onK (Coef4.reductionAttempt cfg) with
    | some reduction => pure (.inl reduction)
    | none => do
      match ← Homographic.reductionIngest cfg eg with
      | some ratio => pure (.inr (.ratio ratio))
      | none => egest cfg out eg f

/-- homographic.rs:840-900, `fn new`.  `x` is dropped by 865-867 if it is not used, its clog by a panic
in 882-898; `prime` (1079-1099) takes `self` by value and drops it unless it returns it. -/
def new (cfg : Cfg) (out : Nat → Option Panic) (eg : EgestFn) (f : Nat) (x : Number)
    (nx n dx d : Int) :
    Mut World Homographic.Primed :=
  if nx = 0 ∧ dx = 0 then scope (releaseNumber x) (Homographic.asRatio cfg n d)
  else
    match x with
    | .Special .NegOne => do
      let n ← eval (cfg.csub n nx)
      let d ← eval (cfg.csub d dx)
      Homographic.asRatio cfg n d
    | .Special .Zero => Homographic.asRatio cfg n d
    | .Special .PosOne => do
      let n ← eval (cfg.cadd n nx)
      let d ← eval (cfg.cadd d dx)
      Homographic.asRatio cfg n d
    | .Other p c => do
      let k ← unwind (release c) (eval (Clarith.Homographic.absorbPrimer cfg p ⟨nx, n, dx, d⟩))
      owned (fun h => release h.x) (fun r => r.2.2.2.isSome) ⟨c, k⟩ (Homographic.prime cfg out eg f)

/-- Dropping an `Option<Homographic>`. -/
def discard : Option Homographic → World → World
  | none, w => w
  | some h, w => release h.x w

end Homographic

/-! ## `Combine` -/

namespace Combine

/-- Work on a copy of the coefficients. -/
def onCopy {α : Type} (k : Coef8) (m : Mut Coef8 α) : Mut World (α × Coef8) := fun w =>
  match m k with
  | (.ok a, k) => (.ok (a, k), w)
  | (.panic p, _) => (.panic p, w)
  | (.shared, _) => (.shared, w)
  | (.timeout, _) => (.timeout, w)

/-- combine.rs:924-972, `prime_ingest`: `Ok` is `.inl`, `Err(self)` is `.inr`.  The clog that
`Rc::try_unwrap` has moved out of `self` is passed on; the other field is dropped at the end. -/
def primeIngest (cfg : Cfg) (out : Nat → Option Panic) (eg : EgestFn) (f : Nat) (s : Combine) :
    Mut World (Homographic.Primed ⊕ Combine) := do
  match ← unwind (release s.box) (rcGetMut s.x eg) with
  | none => do
    let k ← unwind (release s.box) (eval (s.k.valueAtEndOfX cfg))
    let y ← unwind (fun w => releaseRc release s.x w) (rcTryUnwrap s.y)
    let res ← scope (fun w => releaseRc release s.x w)
      (Homographic.new cfg out eg f (.Other none y) k.nx k.n k.dx k.d)
    pure (.inl res)
  | some rx => do
    let ((), k) ← unwind (release s.box) (onCopy s.k (Coef8.ingestX cfg rx))
    match ← unwind (release s.box) (rcGetMut s.y eg) with
    | none => do
      let k ← unwind (release s.box) (eval (k.valueAtEndOfY cfg))
      let x ← unwind (fun w => releaseRc release s.y w) (rcTryUnwrap s.x)
      let res ← scope (fun w => releaseRc release s.y w)
        (Homographic.new cfg out eg f (.Other none x) k.nx k.n k.dx k.d)
      pure (.inl res)
    | some ry => do
      let ((), k) ← unwind (release s.box) (onCopy k (Coef8.ingestY cfg ry))
      pure (.inr { s with k := k })

/-- combine.rs:863-883, `prime` -/
def prime (cfg : Cfg) (out : Nat → Option Panic)
    (eg : EgestFn) : Nat → Combine → Mut World Combine.Primed
  | 0, _ => timeout
  | f + 1, s => do
    match ← unwind (release s.box) (onCopy s.k (Coef8.primerAttempt cfg)) with
    | (some primer, k) => pure (none, primer, none, none, some { s with k := k })
    | (none, k) => do
      match ← primeIngest cfg out eg f { s with k := k } with
      | .inl (special, primer, ratio, homographic) =>
        pure (special, primer, ratio, homographic, none)
      | .inr s => prime cfg out eg f s

/-- combine.rs:1234-1274, `reduction_ingest`.  A panic at 1243 or 1262 drops the tuple. -/
def reductionIngest (cfg : Cfg) (out : Nat → Option Panic) (eg : EgestFn) (f : Nat) :
    Mut (Combine × World) (Option Ratio × Option Homographic) := do
  let s ← get
  match ← Combine.onW (rcGetMut s.1.x eg) with
  | none => do
    let s ← get
    let k ← eval (s.1.k.valueAtEndOfX cfg)
    let y ← Combine.shutdownY
    match ← Combine.onW (Homographic.new cfg out eg f y k.nx k.n k.dx k.d) with
    | (none, none, ratio, homographic) => pure (ratio, homographic)
    | (_, _, _, homographic) => do
      Combine.onW (modify (Homographic.discard homographic))
      panic .logicError
  | some rx => do
    Combine.onK (Coef8.ingestX cfg rx)
    let s ← get
    match ← Combine.onW (rcGetMut s.1.y eg) with
    | none => do
      let s ← get
      let k ← eval (s.1.k.valueAtEndOfY cfg)
      let x ← Combine.shutdownX
      match ← Combine.onW (Homographic.new cfg out eg f x k.nx k.n k.dx k.d) with
      | (none, none, ratio, homographic) => pure (ratio, homographic)
      | (_, _, _, homographic) => do
        Combine.onW (modify (Homographic.discard homographic))
        panic .logicError
    | some ry => do
      Combine.onK (Coef8.ingestY cfg ry)
      pure (none, none)

/-- combine.rs:1277-1289, `Strategy::egest`: `Err` is `.inr` -/
def egest (cfg : Cfg) (out : Nat → Option Panic) (eg : EgestFn) : Nat → Mut (Combine × World)
    (Option Reduction ⊕ Obj)
  | 0 => timeout
  | f + 1 => do
    match ← Combine.onK (Coef8.reductionAttempt cfg) with
    | some reduction => pure (.inl reduction)
    | none => do
      match ← reductionIngest cfg out eg f with
      | (_, some homographic) => pure (.inr homographic.box)
      | (some ratio, none) => pure (.inr (.ratio ratio))
      | (none, none) => egest cfg out eg f

/-- combine.rs:693-708, `as_homographic` -/
def asHomographic (cfg : Cfg) (out : Nat → Option Panic) (eg : EgestFn) (f : Nat) (x : Number)
    (nx n dx d : Int) :
    Mut World Combine.Primed := do
  let (special, primer, ratio, homographic) ← Homographic.new cfg out eg f x nx n dx d
  pure (special, primer, ratio, homographic, none)

/-- combine.rs:675-827, `fn new`.  A panic before `Combine::new` drops the clogs of the operands. -/
def new (cfg : Cfg) (out : Nat → Option Panic) (eg : EgestFn) (fuel : Nat) (x y : Number)
    (k : Coef8) :
    Mut World Combine.Primed :=
  match x with
  | .Special .NegOne => do
    let nx ← unwind (releaseNumber y) (eval (cfg.csub k.c k.a))
    let n ← unwind (releaseNumber y) (eval (cfg.csub k.d k.b))
    let dx ← unwind (releaseNumber y) (eval (cfg.csub k.g k.e))
    let d ← unwind (releaseNumber y) (eval (cfg.csub k.h k.f))
    asHomographic cfg out eg fuel y nx n dx d
  | .Special .Zero => asHomographic cfg out eg fuel y k.c k.d k.g k.h
  | .Special .PosOne => do
    let nx ← unwind (releaseNumber y) (eval (cfg.cadd k.c k.a))
    let n ← unwind (releaseNumber y) (eval (cfg.cadd k.d k.b))
    let dx ← unwind (releaseNumber y) (eval (cfg.cadd k.g k.e))
    let d ← unwind (releaseNumber y) (eval (cfg.cadd k.h k.f))
    asHomographic cfg out eg fuel y nx n dx d
  | .Other px cx =>
    match y with
    | .Special .NegOne => do
      let nx ← unwind (release cx) (eval (cfg.csub k.b k.a))
      let n ← unwind (release cx) (eval (cfg.csub k.d k.c))
      let dx ← unwind (release cx) (eval (cfg.csub k.f k.e))
      let d ← unwind (release cx) (eval (cfg.csub k.h k.g))
      asHomographic cfg out eg fuel x nx n dx d
    | .Special .Zero => asHomographic cfg out eg fuel x k.b k.d k.f k.h
    | .Special .PosOne => do
      let nx ← unwind (release cx) (eval (cfg.cadd k.b k.a))
      let n ← unwind (release cx) (eval (cfg.cadd k.d k.c))
      let dx ← unwind (release cx) (eval (cfg.cadd k.f k.e))
      let d ← unwind (release cx) (eval (cfg.cadd k.h k.g))
      asHomographic cfg out eg fuel x nx n dx d
    | .Other py cy => do
      let k ← unwind (fun w => release cx (release cy w)) (eval (k.absorbPrimerX cfg px))
      let k ← unwind (fun w => release cx (release cy w)) (eval (k.absorbPrimerY cfg py))
      let i ← rcNew cx
      let j ← rcNew cy
      prime cfg out eg fuel ⟨i, j, k⟩

end Combine

/-! ## `Clog` and `Number` -/

/-- Dispatch of `Strategy::egest` (src/strategy.rs:29-31) over the boxed strategies. -/
def strategyEgest (cfg : Cfg) (out : Nat → Option Panic) (eg : EgestFn) (f : Nat) :
    Mut (Obj × World) (Option Reduction ⊕ Obj) := fun s =>
  match s with
  | (.homographic x k, w) =>
    let r := Homographic.egest cfg out eg f (⟨x, k⟩, w)
    (r.1, (r.2.1.box, r.2.2))
  | (.combine x y k, w) =>
    let r := Combine.egest cfg out eg f (⟨x, y, k⟩, w)
    (r.1, (r.2.1.box, r.2.2))
  | s => Steps.strategyEgest cfg eg f s

/-- src/lib.rs:47-55, `Clog::egest`: the assignment drops the old strategy. -/
def egest (cfg : Cfg) (out : Nat → Option Panic) : Nat → EgestFn
  | 0 => timeout
  | f + 1 => do
    match ← strategyEgest cfg out (egest cfg out f) f with
    | .inl reduction => pure reduction
    | .inr strategy => do
      modify fun s => (strategy, release s.1 s.2)
      egest cfg out f

namespace Number

/-- src/lib.rs:112-131, `homographic`: what is not used of the tuple is dropped. -/
def homographic (cfg : Cfg) (out : Nat → Option Panic) (f : Nat) (x : Number)
    (nx n dx d : Int) : Mut World Number := do
  let (special, primer, ratio, homographic) ← Homographic.new cfg out (egest cfg out f) f x nx n dx d
  match special with
  | some fixed => do
    modify (Homographic.discard homographic)
    pure (.Special fixed)
  | none =>
    match ratio with
    | some ratio => do
      modify (Homographic.discard homographic)
      pure (.Other primer (.ratio ratio))
    | none =>
      match homographic with
      | some h => pure (.Other primer h.box)
      | none => panic .unwrapMissing

/-- Dropping an `Option<Combine>`. -/
def discard : Option Combine → World → World
  | none, w => w
  | some c, w => release c.box w

/-- src/lib.rs:136-174, `combine`: what is not used of the tuple is dropped. -/
def combine (cfg : Cfg) (out : Nat → Option Panic) (f : Nat) (x y : Number)
    (nxy nx ny n dxy dx dy d : Int) :
    Mut World Number := do
  let (special, primer, ratio, homographic, combine) ←
    Combine.new cfg out (egest cfg out f) f x y ⟨nxy, nx, ny, n, dxy, dx, dy, d⟩
  match special with
  | some fixed => do
    modify (Homographic.discard homographic)
    modify (discard combine)
    pure (.Special fixed)
  | none =>
    match ratio with
    | some ratio => do
      modify (Homographic.discard homographic)
      modify (discard combine)
      pure (.Other primer (.ratio ratio))
    | none =>
      match homographic with
      | some h => do
        modify (discard combine)
        pure (.Other primer h.box)
      | none =>
        match combine with
        | some c => pure (.Other primer c.box)
        | none => panic .unwrapMissing

/-- src/lib.rs:189-192, `Number::consume`, with consume.rs:84-115, `fn new`.  `consume`
(consume.rs:128-145) takes `self` by value and drops the clog unless it returns it. -/
def consume (cfg : Cfg) (out : Nat → Option Panic) (f : Nat) (x : Number) : Mut World
    (Option Number × Coef4) := do
  let (co, k) ←
    match x with
    | .Special .NegOne => pure (none, ⟨0, -1, 0, 1⟩)
    | .Special .Zero => pure (none, ⟨0, 0, 0, 1⟩)
    | .Special .PosOne => pure (none, ⟨0, 1, 0, 1⟩)
    | .Other p c => do
      let k ← unwind (release c) (eval (Clarith.Consume.start cfg p))
      owned release (fun r => r.1.isSome) c (Consume.consume cfg (egest cfg out f) f k)
  pure (co.map (Number.Other none), k)

/-- compare.rs:246-257, `compare`, called by src/lib.rs:82-84 `Number::compare`, with compare.rs:294-305,
`compare_others`: both numbers are dropped at the end. -/
def compare (cfg : Cfg) (out : Nat → Option Panic) (f : Nat) (n1 n2 : Number) : Mut World Ordering :=
  match n1, n2 with
  | .Special s1, .Special s2 => pure (Clarith.Compare.compareSpecials s1 s2)
  | .Special s1, .Other p2 c2 =>
    scope (release c2) (pure (Clarith.Compare.compareHybrid s1 p2))
  | .Other p1 c1, .Special s2 =>
    scope (release c1) (pure (Clarith.Compare.compareHybrid s2 p1).swap)
  | .Other p1 c1, .Other p2 c2 => do
    let o ← owned (fun s w => release s.1 (release s.2 w)) (fun _ => false) (c1, c2)
      (Compare.compareClogs cfg (egest cfg out f) f (p1 != some .Reflect && p1 != some .Turn))
    pure ((Clarith.Compare.comparePrimers p1 p2).then o)

/-- src/lib.rs:66-71, `unwrap_special`: the panic drops the number. -/
def unwrapSpecial (x : Number) : Mut World Clarith.Special :=
  unwind (releaseNumber x) (Steps.Number.unwrapSpecial x)

end Number

/-! ## A caller that catches panics and drops numbers -/

namespace Caller

/-- `Clog::egest` (src/lib.rs:47-55) on the number in a variable, in place. -/
def egestAt (cfg : Cfg) (out : Nat → Option Panic) (f : Nat)
    (x : Nat) : Mut Caller Answer := fun c =>
  match c.held x with
  | some (.Other p o) =>
    let r := egest cfg out f (o, c.world)
    let c := { c.set x (some (.Other p r.2.1)) with world := r.2.2 }
    match r.1 with
    | .ok s => (.ok (.symbol s), c)
    | .panic p => (.panic p, c)
    | .shared => (.shared, c)
    | .timeout => (.timeout, c)
  | _ => (.ok .refused, c)

/-- A call: see `Steps.Caller.call`.  (The Rust compiler refuses a call that names a variable without a
number; here the other operand of such a call is dropped.) -/
def call (cfg : Cfg) (out : Nat → Option Panic) (f : Nat) : Call → Mut Caller Answer
  | .ratio num den => Caller.make (Steps.Number.ratio cfg num den)
  | .ratioU positive num den => Caller.make (Steps.Number.ratioU positive num den)
  | .homographic x nx n dx d => do
    match ← Caller.move x with
    | none => pure .refused
    | some x => Caller.make (Number.homographic cfg out f x nx n dx d)
  | .combine x y nxy nx ny n dxy dx dy d => do
    match ← Caller.move x with
    | none => pure .refused
    | some x => do
      match ← Caller.move y with
      | none => do
        Caller.onWorld (modify (releaseNumber x))
        pure .refused
      | some y => Caller.make (Number.combine cfg out f x y nxy nx ny n dxy dx dy d)
  | .egest x => egestAt cfg out f x
  | .consume x => do
    match ← Caller.move x with
    | none => pure .refused
    | some x => do
      let (y, k) ← Caller.onWorld (Number.consume cfg out f x)
      match y with
      | none => pure (.consumed none k)
      | some y => do
        Caller.keep y
        pure (.consumed (some y.face) k)
  | .compare x y => do
    match ← Caller.move x with
    | none => pure .refused
    | some x => do
      match ← Caller.move y with
      | none => do
        Caller.onWorld (modify (releaseNumber x))
        pure .refused
      | some y => do
        let o ← Caller.onWorld (Number.compare cfg out f x y)
        pure (.order o)
  | .special s => Caller.make (pure (.Special s))
  | .reprime x p => do
    match ← Caller.move x with
    | none => pure .refused
    | some x => Caller.make do
      let (_, c) ← Steps.Number.unwrapOther x
      pure (.Other p c)
  | .unwrapSpecial x => do
    match ← Caller.move x with
    | none => pure .refused
    | some x => do
      let s ← Caller.onWorld (Number.unwrapSpecial x)
      pure (.fixed s)

/-- A call, or a variable goes out of scope. -/
inductive Event where
  | call (a : Call)
  | drop (x : Nat)
deriving DecidableEq, Repr

/-- A variable goes out of scope: its number, if it holds one, is dropped (src/lib.rs:59-62). -/
def drop (x : Nat) (c : Caller) : Caller :=
  match c.held x with
  | none => c
  | some v => { c.set x none with world := releaseNumber v c.world }

/-- One event after the other: the answers of the calls, and the caller at the end.  A panic is caught
and the next event follows; a call that does not return is the last. -/
def run (cfg : Cfg) (out : Nat → Option Panic) (f : Nat) : List Event → Caller → List
    (Res Answer) × Caller
  | [], c => ([], c)
  | .drop x :: events, c => run cfg out f events (drop x c)
  | .call a :: events, c =>
    match call cfg out f a c with
    | (.timeout, c) => ([.timeout], c)
    | (r, c) =>
      let rest := run cfg out f events c
      (r :: rest.1, rest.2)

end Caller

end Clarith.Steps.Memory
