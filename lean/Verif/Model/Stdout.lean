import Verif.Model.Steps

/-! # Standard output that cannot always be written

`println!` panics when standard output cannot be written (a closed pipe, a full disk; Rust
standard library, `std::io::stdio::print_to`).  `Model/Steps.lean` takes every line as written.
Here the functions that reach one of the two `println!`s of homographic.rs are repeated over an
arbitrary standard output.  Everything else is shared with `Model/Steps.lean`.

Not modelled: what becomes of the text of a line that could not be written (it may stay in the
buffer of `Stdout` and come out later). -/

namespace Clarith.Steps.Stdout

/-- A piece of code whose `println!`s may panic: `none` is the panic of a `println!`. -/
def Prog (σ α : Type) := σ → Option (Res α) × σ

namespace Prog

/-- Sequencing. -/
protected def bind {σ α β : Type} (m : Prog σ α) (g : α → Prog σ β) : Prog σ β := fun s =>
  match m s with
  | (some (.ok a), s) => g a s
  | (some (.panic p), s) => (some (.panic p), s)
  | (some .shared, s) => (some .shared, s)
  | (some .timeout, s) => (some .timeout, s)
  | (none, s) => (none, s)

instance {σ : Type} : Monad (Prog σ) where
  pure a := fun s => (some (.ok a), s)
  bind := Prog.bind

/-- A piece of code that does not print. -/
def quiet {σ α : Type} (m : Mut σ α) : Prog σ α := fun s => (some (m s).1, (m s).2)

/-- Work on a part of the state. -/
def part {σ τ α : Type} (get : σ → τ) (put : τ → σ → σ) (m : Prog τ α) : Prog σ α := fun s =>
  let r := m (get s)
  (r.1, put r.2 s)

end Prog

open Prog

/-- `Rc::get_mut(..).unwrap().f()`: see `Steps.rcGetMut`. -/
def rcGetMut {α : Type} (i : Nat) (m : Prog (Obj × World) α) : Prog World α := fun w =>
  match w.cells i with
  | some ⟨1, o⟩ =>
    let r := m (o, w)
    (r.1, r.2.2.put i (some ⟨1, r.2.1⟩))
  | _ => (some .shared, w)

/-- Run a method on an object that is owned by the caller and dropped afterwards. -/
def owned {σ α : Type} (s : σ) (m : Prog (σ × World) α) : Prog World α := fun w =>
  let r := m (s, w)
  (r.1, r.2.2)

/-- The type of `Clog::egest`. -/
abbrev EgestFn := Prog (Obj × World) (Option Reduction)

/-! ## `Homographic` -/

namespace Homographic

/-- Work on the input clog. -/
def onX {α : Type} (m : Prog (Obj × World) α) : Prog (Homographic × World) α :=
  part (fun s => (s.1.x, s.2)) (fun t s => ({ s.1 with x := t.1 }, t.2)) m

/-- `println!("{} {} {} {}", self.nx, self.n, self.dx, self.d)` (homographic.rs:1088, 1141).
`World.printed` are the lines that were to be printed, `ok i` says whether the line with the number
`i` can be written.  If not, the `println!` panics. -/
def println (ok : Nat → Bool) : Prog (Homographic × World) Unit := fun s =>
  (if ok s.2.printed.length then some (.ok ()) else none,
    (s.1, { s.2 with printed := s.2.printed ++ [s.1.k] }))

/-- homographic.rs:918-939, `prime_ingest` -/
def primeIngest (cfg : Cfg) (eg : EgestFn) :
    Prog (Homographic × World) (Option (Option Special × Option Primer × Option Ratio)) := do
  match ← onX eg with
  | none => do
    let s ← quiet Mut.get
    let (num, den) ← quiet (Mut.eval (s.1.k.valueAtOneHalf cfg))
    let res ← quiet (Mut.eval (Clarith.Ratio.newI cfg num den))
    pure (some res)
  | some .Amplify => do
    quiet (Homographic.onK (Coef4.ingestAmplify cfg))
    pure none
  | some .Uncover => do
    quiet (Homographic.onK (Coef4.ingestUncover cfg))
    pure none

/-- homographic.rs:1059-1077, `reduction_ingest` -/
def reductionIngest (cfg : Cfg) (eg : EgestFn) : Prog (Homographic × World) (Option Ratio) := do
  match ← onX eg with
  | none => do
    let s ← quiet Mut.get
    let (num, den) ← quiet (Mut.eval (s.1.k.valueAtOneHalf cfg))
    match ← quiet (Mut.eval (Clarith.Ratio.newI cfg num den)) with
    | (none, none, some ratio) => pure (some ratio)
    | _ => quiet (Mut.panic .logicError)
  | some .Amplify => do
    quiet (Homographic.onK (Coef4.ingestAmplify cfg))
    pure none
  | some .Uncover => do
    quiet (Homographic.onK (Coef4.ingestUncover cfg))
    pure none

/-- homographic.rs:1079-1099, `prime` -/
def prime (cfg : Cfg) (ok : Nat → Bool) (eg : EgestFn) :
    Nat → Prog (Homographic × World) Homographic.Primed
  | 0 => quiet Mut.timeout
  | f + 1 => do
    println ok
    match ← quiet (Homographic.onK (Coef4.primerAttempt cfg)) with
    | some primer => do
      let s ← quiet Mut.get
      pure (none, primer, none, some s.1)
    | none => do
      match ← primeIngest cfg eg with
      | some (special, primer, ratio) => pure (special, primer, ratio, none)
      | none => prime cfg ok eg f

/-- homographic.rs:1138-1152, `Strategy::egest`: `Err` is `.inr` -/
def egest (cfg : Cfg) (ok : Nat → Bool) (eg : EgestFn) :
    Nat → Prog (Homographic × World) (Option Reduction ⊕ Obj)
  | 0 => quiet Mut.timeout
  | f + 1 => do
    println ok
    match ← quiet (Homographic.onK (Coef4.reductionAttempt cfg)) with
    | some reduction => pure (.inl reduction)
    | none => do
      match ← reductionIngest cfg eg with
      | some ratio => pure (.inr (.ratio ratio))
      | none => egest cfg ok eg f

/-- homographic.rs:840-900, `fn new` -/
def new (cfg : Cfg) (ok : Nat → Bool) (eg : EgestFn) (f : Nat) (x : Number) (nx n dx d : Int) :
    Prog World Homographic.Primed :=
  if nx = 0 ∧ dx = 0 then quiet (Homographic.asRatio cfg n d)
  else
    match x with
    | .Special .NegOne => do
      let n ← quiet (Mut.eval (cfg.csub n nx))
      let d ← quiet (Mut.eval (cfg.csub d dx))
      quiet (Homographic.asRatio cfg n d)
    | .Special .Zero => quiet (Homographic.asRatio cfg n d)
    | .Special .PosOne => do
      let n ← quiet (Mut.eval (cfg.cadd n nx))
      let d ← quiet (Mut.eval (cfg.cadd d dx))
      quiet (Homographic.asRatio cfg n d)
    | .Other p c => do
      let k ← quiet (Mut.eval (Clarith.Homographic.absorbPrimer cfg p ⟨nx, n, dx, d⟩))
      owned ⟨c, k⟩ (prime cfg ok eg f)

end Homographic

/-! ## `Combine` -/

namespace Combine

/-- Work on the world. -/
def onW {α : Type} (m : Prog World α) : Prog (Combine × World) α :=
  part (fun s => s.2) (fun w s => (s.1, w)) m

/-- combine.rs:924-972, `prime_ingest` -/
def primeIngest (cfg : Cfg) (ok : Nat → Bool) (eg : EgestFn) (f : Nat) :
    Prog (Combine × World) (Option Homographic.Primed) := do
  let s ← quiet Mut.get
  match ← onW (rcGetMut s.1.x eg) with
  | none => do
    let s ← quiet Mut.get
    let k ← quiet (Mut.eval (s.1.k.valueAtEndOfX cfg))
    let y ← onW (quiet (rcTryUnwrap s.1.y))
    let res ← onW (Homographic.new cfg ok eg f (.Other none y) k.nx k.n k.dx k.d)
    pure (some res)
  | some rx => do
    quiet (Combine.onK (Coef8.ingestX cfg rx))
    let s ← quiet Mut.get
    match ← onW (rcGetMut s.1.y eg) with
    | none => do
      let s ← quiet Mut.get
      let k ← quiet (Mut.eval (s.1.k.valueAtEndOfY cfg))
      let x ← onW (quiet (rcTryUnwrap s.1.x))
      let res ← onW (Homographic.new cfg ok eg f (.Other none x) k.nx k.n k.dx k.d)
      pure (some res)
    | some ry => do
      quiet (Combine.onK (Coef8.ingestY cfg ry))
      pure none

/-- combine.rs:863-883, `prime` -/
def prime (cfg : Cfg) (ok : Nat → Bool) (eg : EgestFn) : Nat → Prog (Combine × World) Combine.Primed
  | 0 => quiet Mut.timeout
  | f + 1 => do
    match ← quiet (Combine.onK (Coef8.primerAttempt cfg)) with
    | some primer => do
      let s ← quiet Mut.get
      pure (none, primer, none, none, some s.1)
    | none => do
      match ← primeIngest cfg ok eg f with
      | some (special, primer, ratio, homographic) =>
        pure (special, primer, ratio, homographic, none)
      | none => prime cfg ok eg f

/-- combine.rs:1234-1274, `reduction_ingest` -/
def reductionIngest (cfg : Cfg) (ok : Nat → Bool) (eg : EgestFn) (f : Nat) :
    Prog (Combine × World) (Option Ratio × Option Homographic) := do
  let s ← quiet Mut.get
  match ← onW (rcGetMut s.1.x eg) with
  | none => do
    let s ← quiet Mut.get
    let k ← quiet (Mut.eval (s.1.k.valueAtEndOfX cfg))
    let y ← quiet Combine.shutdownY
    match ← onW (Homographic.new cfg ok eg f y k.nx k.n k.dx k.d) with
    | (none, none, ratio, homographic) => pure (ratio, homographic)
    | _ => quiet (Mut.panic .logicError)
  | some rx => do
    quiet (Combine.onK (Coef8.ingestX cfg rx))
    let s ← quiet Mut.get
    match ← onW (rcGetMut s.1.y eg) with
    | none => do
      let s ← quiet Mut.get
      let k ← quiet (Mut.eval (s.1.k.valueAtEndOfY cfg))
      let x ← quiet Combine.shutdownX
      match ← onW (Homographic.new cfg ok eg f x k.nx k.n k.dx k.d) with
      | (none, none, ratio, homographic) => pure (ratio, homographic)
      | _ => quiet (Mut.panic .logicError)
    | some ry => do
      quiet (Combine.onK (Coef8.ingestY cfg ry))
      pure (none, none)

/-- combine.rs:1277-1289, `Strategy::egest`: `Err` is `.inr` -/
def egest (cfg : Cfg) (ok : Nat → Bool) (eg : EgestFn) :
    Nat → Prog (Combine × World) (Option Reduction ⊕ Obj)
  | 0 => quiet Mut.timeout
  | f + 1 => do
    match ← quiet (Combine.onK (Coef8.reductionAttempt cfg)) with
    | some reduction => pure (.inl reduction)
    | none => do
      match ← reductionIngest cfg ok eg f with
      | (_, some homographic) => pure (.inr homographic.box)
      | (some ratio, none) => pure (.inr (.ratio ratio))
      | (none, none) => egest cfg ok eg f

/-- combine.rs:693-708, `as_homographic` -/
def asHomographic (cfg : Cfg) (ok : Nat → Bool) (eg : EgestFn) (f : Nat) (x : Number)
    (nx n dx d : Int) : Prog World Combine.Primed := do
  let (special, primer, ratio, homographic) ← Homographic.new cfg ok eg f x nx n dx d
  pure (special, primer, ratio, homographic, none)

/-- combine.rs:675-827, `fn new` -/
def new (cfg : Cfg) (ok : Nat → Bool) (eg : EgestFn) (fuel : Nat) (x y : Number) (k : Coef8) :
    Prog World Combine.Primed :=
  match x with
  | .Special .NegOne => do
    let nx ← quiet (Mut.eval (cfg.csub k.c k.a))
    let n ← quiet (Mut.eval (cfg.csub k.d k.b))
    let dx ← quiet (Mut.eval (cfg.csub k.g k.e))
    let d ← quiet (Mut.eval (cfg.csub k.h k.f))
    asHomographic cfg ok eg fuel y nx n dx d
  | .Special .Zero => asHomographic cfg ok eg fuel y k.c k.d k.g k.h
  | .Special .PosOne => do
    let nx ← quiet (Mut.eval (cfg.cadd k.c k.a))
    let n ← quiet (Mut.eval (cfg.cadd k.d k.b))
    let dx ← quiet (Mut.eval (cfg.cadd k.g k.e))
    let d ← quiet (Mut.eval (cfg.cadd k.h k.f))
    asHomographic cfg ok eg fuel y nx n dx d
  | .Other px cx =>
    match y with
    | .Special .NegOne => do
      let nx ← quiet (Mut.eval (cfg.csub k.b k.a))
      let n ← quiet (Mut.eval (cfg.csub k.d k.c))
      let dx ← quiet (Mut.eval (cfg.csub k.f k.e))
      let d ← quiet (Mut.eval (cfg.csub k.h k.g))
      asHomographic cfg ok eg fuel x nx n dx d
    | .Special .Zero => asHomographic cfg ok eg fuel x k.b k.d k.f k.h
    | .Special .PosOne => do
      let nx ← quiet (Mut.eval (cfg.cadd k.b k.a))
      let n ← quiet (Mut.eval (cfg.cadd k.d k.c))
      let dx ← quiet (Mut.eval (cfg.cadd k.f k.e))
      let d ← quiet (Mut.eval (cfg.cadd k.h k.g))
      asHomographic cfg ok eg fuel x nx n dx d
    | .Other py cy => do
      let k ← quiet (Mut.eval (k.absorbPrimerX cfg px))
      let k ← quiet (Mut.eval (k.absorbPrimerY cfg py))
      let i ← quiet (rcNew cx)
      let j ← quiet (rcNew cy)
      owned ⟨i, j, k⟩ (prime cfg ok eg fuel)

end Combine

/-! ## `Clog` and `Number` -/

/-- Dispatch of `Strategy::egest` over the boxed strategies: see `Steps.strategyEgest`. -/
def strategyEgest (cfg : Cfg) (ok : Nat → Bool) (eg : EgestFn) (f : Nat) :
    Prog (Obj × World) (Option Reduction ⊕ Obj) := fun s =>
  match s with
  | (.ratio r, w) =>
    match Ratio.egest cfg r with
    | (.ok red, r) => (some (.ok (.inl red)), (.ratio r, w))
    | (.panic p, r) => (some (.panic p), (.ratio r, w))
    | (.shared, r) => (some .shared, (.ratio r, w))
    | (.timeout, r) => (some .timeout, (.ratio r, w))
  | (.homographic x k, w) =>
    let r := Homographic.egest cfg ok eg f (⟨x, k⟩, w)
    (r.1, (r.2.1.box, r.2.2))
  | (.combine x y k, w) =>
    let r := Combine.egest cfg ok eg f (⟨x, y, k⟩, w)
    (r.1, (r.2.1.box, r.2.2))

/-- src/lib.rs:47-55, `Clog::egest` -/
def egest (cfg : Cfg) (ok : Nat → Bool) : Nat → EgestFn
  | 0 => quiet Mut.timeout
  | f + 1 => do
    match ← strategyEgest cfg ok (egest cfg ok f) f with
    | .inl reduction => pure reduction
    | .inr strategy => do
      quiet (Mut.modify fun s => (strategy, s.2))
      egest cfg ok f

namespace Number

/-- src/lib.rs:112-131, `homographic` -/
def homographic (cfg : Cfg) (ok : Nat → Bool) (f : Nat) (x : Number) (nx n dx d : Int) :
    Prog World Number := do
  let (special, primer, ratio, homographic) ←
    Homographic.new cfg ok (egest cfg ok f) f x nx n dx d
  match special with
  | some fixed => pure (.Special fixed)
  | none =>
    match ratio with
    | some ratio => pure (.Other primer (.ratio ratio))
    | none =>
      match homographic with
      | some h => pure (.Other primer h.box)
      | none => quiet (Mut.panic .unwrapMissing)

/-- src/lib.rs:136-174, `combine` -/
def combine (cfg : Cfg) (ok : Nat → Bool) (f : Nat) (x y : Number)
    (nxy nx ny n dxy dx dy d : Int) : Prog World Number := do
  let (special, primer, ratio, homographic, combine) ←
    Combine.new cfg ok (egest cfg ok f) f x y ⟨nxy, nx, ny, n, dxy, dx, dy, d⟩
  match special with
  | some fixed => pure (.Special fixed)
  | none =>
    match ratio with
    | some ratio => pure (.Other primer (.ratio ratio))
    | none =>
      match homographic with
      | some h => pure (.Other primer h.box)
      | none =>
        match combine with
        | some c => pure (.Other primer c.box)
        | none => quiet (Mut.panic .unwrapMissing)

end Number

/-! ## `Consume` and `compare` -/

/-- consume.rs:128-145, `consume` -/
def Consume.consume (cfg : Cfg) (eg : EgestFn) :
    Nat → Coef4 → Prog (Obj × World) (Option Obj × Coef4)
  | 0, _ => quiet Mut.timeout
  | f + 1, k => do
    match ← eg with
    | none => pure (none, k)
    | some red => do
      let k ← quiet (Mut.eval (Clarith.Consume.ingest cfg red k))
      let unsafeState ← quiet (Mut.eval (Clarith.Consume.isStateUnsafe cfg k))
      if unsafeState then do
        let s ← quiet Mut.get
        pure (some s.1, k)
      else Consume.consume cfg eg f k

/-- consume.rs:84-115, `fn new` -/
def Consume.new (cfg : Cfg) (eg : EgestFn) (f : Nat) (x : Number) :
    Prog World (Option Obj × Coef4) :=
  match x with
  | .Special .NegOne => pure (none, ⟨0, -1, 0, 1⟩)
  | .Special .Zero => pure (none, ⟨0, 0, 0, 1⟩)
  | .Special .PosOne => pure (none, ⟨0, 1, 0, 1⟩)
  | .Other p c => do
    let k ← quiet (Mut.eval (Clarith.Consume.start cfg p))
    owned c (Consume.consume cfg eg f k)

/-- src/lib.rs:189-192, `Number::consume` -/
def Number.consume (cfg : Cfg) (ok : Nat → Bool) (f : Nat) (x : Number) :
    Prog World (Option Number × Coef4) := do
  let (co, k) ← Consume.new cfg (egest cfg ok f) f x
  pure (co.map (Number.Other none), k)

namespace Compare

/-- `c1.egest()` (compare.rs:333) -/
def first (eg : EgestFn) : Prog ((Obj × Obj) × World) (Option Reduction) :=
  part (fun s => (s.1.1, s.2)) (fun t s => ((t.1, s.1.2), t.2)) eg

/-- `c2.egest()` (compare.rs:334) -/
def second (eg : EgestFn) : Prog ((Obj × Obj) × World) (Option Reduction) :=
  part (fun s => (s.1.2, s.2)) (fun t s => ((s.1.1, t.1), t.2)) eg

/-- compare.rs:329-361, `compare_clogs` -/
def compareClogs (cfg : Cfg) (eg : EgestFn) : Nat → Bool → Prog ((Obj × Obj) × World) Ordering
  | 0, _ => quiet Mut.timeout
  | f + 1, polarity => do
    let e1 ← first eg
    let e2 ← second eg
    if e1 ≠ e2 then
      let answer := Clarith.Compare.symbolAnswer e1 e2
      pure (if polarity then answer else answer.swap)
    else
      match e1 with
      | none => pure .eq
      | some .Uncover => compareClogs cfg eg f (!polarity)
      | some .Amplify => compareClogs cfg eg f polarity

/-- compare.rs:294-305, `compare_others` -/
def compareOthers (cfg : Cfg) (eg : EgestFn) (f : Nat) (p1 : Option Primer) (c1 : Obj)
    (p2 : Option Primer) (c2 : Obj) : Prog World Ordering := do
  let o ← owned (c1, c2)
    (compareClogs cfg eg f (p1 != some .Reflect && p1 != some .Turn))
  pure ((Clarith.Compare.comparePrimers p1 p2).then o)

end Compare

/-- compare.rs:246-257, `compare`, called by src/lib.rs:82-84 `Number::compare` -/
def Number.compare (cfg : Cfg) (ok : Nat → Bool) (f : Nat) (n1 n2 : Number) :
    Prog World Ordering :=
  match n1, n2 with
  | .Special s1, .Special s2 => pure (Clarith.Compare.compareSpecials s1 s2)
  | .Special s1, .Other p2 _ => pure (Clarith.Compare.compareHybrid s1 p2)
  | .Other p1 _, .Special s2 => pure (Clarith.Compare.compareHybrid s2 p1).swap
  | .Other p1 c1, .Other p2 c2 => Compare.compareOthers cfg (egest cfg ok f) f p1 c1 p2 c2

end Clarith.Steps.Stdout
