import Verif.Model.Compare

/-! # The strategies statement by statement

A second, finer model of the same code.  `Model/Homographic.lean`, `Combine.lean` and
`Number.lean` describe a method by its result and the new value of `self`.  Here every
assignment is a step of its own, so that three things can be seen that the first model
leaves out:

* what is left of `self` when a method panics half way (`&mut self` keeps the assignments made
  so far; a caller can get at it again with `catch_unwind`);
* the reference counts of the `Rc`s in `Combine`, and the `unwrap`s of `Rc::get_mut` and
  `Rc::try_unwrap`;
* the lines printed by the debugging `println!`s of `Homographic`.

Functions that do not change `self` (`&self`) are shared with the first model.
`Proofs/Steps.lean` proves that the two models agree. -/

namespace Clarith.Steps

/-! ## Programs with a state -/

/-- The end of a piece of code: a value, a panic, the panic of an `unwrap` after a failed
`Rc::get_mut` or `Rc::try_unwrap`, or out of fuel. -/
inductive Res (α : Type) where
  | ok (a : α)
  | panic (p : Panic)
  | shared
  | timeout
deriving DecidableEq, Repr

/-- A piece of code that may change a state of type `σ`.  The state is kept whatever the end. -/
def Mut (σ α : Type) := σ → Res α × σ

namespace Mut

/-- Sequencing. -/
protected def bind {σ α β : Type} (m : Mut σ α) (g : α → Mut σ β) : Mut σ β := fun s =>
  match m s with
  | (.ok a, s) => g a s
  | (.panic p, s) => (.panic p, s)
  | (.shared, s) => (.shared, s)
  | (.timeout, s) => (.timeout, s)

instance {σ : Type} : Monad (Mut σ) where
  pure a := fun s => (.ok a, s)
  bind := Mut.bind

/-- Read the state. -/
def get {σ : Type} : Mut σ σ := fun s => (.ok s, s)

/-- Change the state. -/
def modify {σ : Type} (f : σ → σ) : Mut σ Unit := fun s => (.ok (), f s)

/-- Panic. -/
def panic {σ α : Type} (p : Panic) : Mut σ α := fun s => (.panic p, s)

/-- Out of fuel. -/
def timeout {σ α : Type} : Mut σ α := fun s => (.timeout, s)

/-- An expression that does not change the state. -/
def eval {σ α : Type} (o : Out α) : Mut σ α := fun s =>
  match o with
  | .ok a => (.ok a, s)
  | .panic p => (.panic p, s)
  | .timeout => (.timeout, s)

/-- Work on a part of the state. -/
def part {σ τ α : Type} (get : σ → τ) (put : τ → σ → σ) (m : Mut τ α) : Mut σ α := fun s =>
  let r := m (get s)
  (r.1, put r.2 s)

end Mut

open Mut

/-! ## `Ratio` -/

/-- src/strategy/ratio.rs:249-265, `Ratio::egest` -/
def Ratio.egest (cfg : Cfg) : Mut Ratio (Option Reduction) := do
  let r ← get
  if r.num > r.den / 2 then do
    modify fun r => ⟨r.den, r.num⟩
    let r ← get
    let num ← eval (cfg.usub r.num r.den)
    modify fun r => { r with num := num }
    pure (some .Uncover)
  else if r.den % 2 = 0 then do
    modify fun r => { r with den := r.den / 2 }
    let r ← get
    if r.num = r.den then do
      let den ← eval (cfg.umul r.den 2)
      modify fun r => { r with den := den }
      pure none
    else pure (some .Amplify)
  else do
    let num ← eval (cfg.umul r.num 2)
    modify fun r => { r with num := num }
    pure (some .Amplify)

/-! ## The coefficients of `Homographic` -/

namespace Coef4

/-- homographic.rs:1042-1050, `ingest_amplify` -/
def ingestAmplify (cfg : Cfg) : Mut Coef4 Unit := do
  let k ← get
  if isOdd k.nx || isOdd k.dx then do
    let n ← eval (cfg.cmul k.n 2)
    modify fun k => { k with n := n }
    let d ← eval (cfg.cmul k.d 2)
    modify fun k => { k with d := d }
  else do
    modify fun k => { k with nx := half k.nx }
    modify fun k => { k with dx := half k.dx }

/-- homographic.rs:1052-1057, `ingest_uncover` -/
def ingestUncover (cfg : Cfg) : Mut Coef4 Unit := do
  let k ← get
  let nx ← eval (cfg.cadd k.nx k.n)
  modify fun k => { k with nx := nx }
  let dx ← eval (cfg.cadd k.dx k.d)
  modify fun k => { k with dx := dx }
  modify fun k => { k with nx := k.n, n := k.nx }
  modify fun k => { k with dx := k.d, d := k.dx }

/-- homographic.rs:966-972, `ground` -/
def ground (cfg : Cfg) : Mut Coef4 Unit := do
  let k ← get
  let dx ← eval (cfg.neg k.dx)
  modify fun k => { k with dx := dx }
  let d ← eval (cfg.neg k.d)
  modify fun k => { k with d := d }
  modify fun k => { k with nx := k.dx, dx := k.nx }
  modify fun k => { k with n := k.d, d := k.n }

/-- homographic.rs:974-978, `reflect` -/
def reflect (cfg : Cfg) : Mut Coef4 Unit := do
  let k ← get
  let nx ← eval (cfg.neg k.nx)
  modify fun k => { k with nx := nx }
  let n ← eval (cfg.neg k.n)
  modify fun k => { k with n := n }

/-- homographic.rs:980-984, `turn` -/
def turn : Mut Coef4 Unit := do
  modify fun k => { k with nx := k.dx, dx := k.nx }
  modify fun k => { k with n := k.d, d := k.n }

open Support in
/-- homographic.rs:941-964, `primer_egest`: `Err(0)` is `none` -/
def primerEgest (cfg : Cfg) : Mut Coef4 (Option (Option Primer)) := do
  let k ← get
  let (nmin, dmin, nmax, dmax) ← eval (k.imageExtremes cfg)
  if nmin = 0 ∧ dmin = 0 then pure none
  else do
    let same ← eval (Out.and (pure (areSame nmin dmin nmax dmax)) (isSpecial cfg nmin dmin))
    if same then pure none
    else do
      let above ← eval (greaterThanMinusOne cfg nmax dmax)
      if !above then do
        ground cfg
        pure (some (some .Ground))
      else if !(lessThanOne nmin dmin) then do
        turn
        pure (some (some .Turn))
      else do
        let negative ← eval (Out.and (Out.not (lessThanMinusOne cfg nmin dmin))
          (pure (!(greaterThanZero nmax dmax))))
        if negative then do
          reflect cfg
          pure (some (some .Reflect))
        else if !(lessThanZero nmin dmin) && !(greaterThanOne nmax dmax) then
          pure (some none)
        else
          pure none

/-- homographic.rs:1118-1124, `uncover` -/
def uncover (cfg : Cfg) : Mut Coef4 Unit := do
  let k ← get
  let dx ← eval (cfg.csub k.dx k.nx)
  modify fun k => { k with dx := dx }
  let d ← eval (cfg.csub k.d k.n)
  modify fun k => { k with d := d }
  modify fun k => { k with nx := k.dx, dx := k.nx }
  modify fun k => { k with n := k.d, d := k.n }

/-- homographic.rs:1126-1135, `amplify` -/
def amplify (cfg : Cfg) : Mut Coef4 Unit := do
  let k ← get
  if isOdd k.dx || isOdd k.d then do
    let nx ← eval (cfg.cmul k.nx 2)
    modify fun k => { k with nx := nx }
    let n ← eval (cfg.cmul k.n 2)
    modify fun k => { k with n := n }
  else do
    modify fun k => { k with dx := half k.dx }
    modify fun k => { k with d := half k.d }

open Support in
/-- homographic.rs:1101-1116, `reduction_egest`: `Err(0)` is `none` -/
def reductionEgest (cfg : Cfg) : Mut Coef4 (Option (Option Reduction)) := do
  let k ← get
  let (nmin, dmin, nmax, dmax) ← eval (k.imageExtremes cfg)
  if lessThanZero nmin dmin then panic .logicError
  else if greaterThanOne nmax dmax then panic .logicError
  else do
    let bothHalf ← eval (Out.and (equalToOneHalf cfg nmin dmin) (equalToOneHalf cfg nmax dmax))
    if bothHalf then pure (some none)
    else do
      let above ← eval (greaterThanOneHalf cfg nmax dmax)
      if !above then do
        amplify cfg
        pure (some (some .Amplify))
      else do
        let below ← eval (lessThanOneHalf cfg nmin dmin)
        if !below then do
          uncover cfg
          pure (some (some .Uncover))
        else
          pure none

/-- homographic.rs:1089-1093 -/
def primerAttempt (cfg : Cfg) : Mut Coef4 (Option (Option Primer)) := do
  let k ← get
  let b ← eval (k.areSingularitiesOutsideDomain cfg)
  if b then primerEgest cfg else pure none

/-- homographic.rs:1142-1146 -/
def reductionAttempt (cfg : Cfg) : Mut Coef4 (Option (Option Reduction)) := do
  let k ← get
  let b ← eval (k.areSingularitiesOutsideDomain cfg)
  if b then reductionEgest cfg else pure none

end Coef4

/-! ## The coefficients of `Combine` -/

namespace Coef8

open Support

/-- combine.rs:1116-1122, `turn` -/
def turn : Mut Coef8 Unit := do
  modify fun k => { k with a := k.e, e := k.a }
  modify fun k => { k with b := k.f, f := k.b }
  modify fun k => { k with c := k.g, g := k.c }
  modify fun k => { k with d := k.h, h := k.d }

/-- combine.rs:1108-1114, `reflect` -/
def reflect (cfg : Cfg) : Mut Coef8 Unit := do
  let k ← get
  let a ← eval (cfg.neg k.a)
  modify fun k => { k with a := a }
  let b ← eval (cfg.neg k.b)
  modify fun k => { k with b := b }
  let c ← eval (cfg.neg k.c)
  modify fun k => { k with c := c }
  let d ← eval (cfg.neg k.d)
  modify fun k => { k with d := d }

/-- combine.rs:1102-1106, `ground` -/
def ground (cfg : Cfg) : Mut Coef8 Unit := do
  turn
  reflect cfg

/-- combine.rs:908-922, `primer_egest`: `Err(0)` is `none` -/
def primerEgest (cfg : Cfg) : Mut Coef8 (Option (Option Primer)) := do
  let k ← get
  let (nmin, dmin, nmax, dmax) ← eval (k.imageExtremes cfg)
  let below ← eval (lessThanMinusOne cfg nmax dmax)
  if below then do
    ground cfg
    pure (some (some .Ground))
  else do
    let negative ← eval (Out.and (greaterThanMinusOne cfg nmin dmin)
      (pure (lessThanZero nmax dmax)))
    if negative then do
      reflect cfg
      pure (some (some .Reflect))
    else if greaterThanZero nmin dmin && lessThanOne nmax dmax then
      pure (some none)
    else if greaterThanOne nmin dmin then do
      turn
      pure (some (some .Turn))
    else
      pure none

/-- combine.rs:1018-1034, `amplify_x` -/
def amplifyX (cfg : Cfg) : Mut Coef8 Unit := do
  let k ← get
  if isEven k.a && isEven k.b && isEven k.e && isEven k.f then do
    modify fun k => { k with a := half k.a }
    modify fun k => { k with b := half k.b }
    modify fun k => { k with e := half k.e }
    modify fun k => { k with f := half k.f }
  else do
    let c ← eval (cfg.cmul k.c 2)
    modify fun k => { k with c := c }
    let d ← eval (cfg.cmul k.d 2)
    modify fun k => { k with d := d }
    let g ← eval (cfg.cmul k.g 2)
    modify fun k => { k with g := g }
    let h ← eval (cfg.cmul k.h 2)
    modify fun k => { k with h := h }

/-- combine.rs:1036-1052, `amplify_y` -/
def amplifyY (cfg : Cfg) : Mut Coef8 Unit := do
  let k ← get
  if isEven k.a && isEven k.c && isEven k.e && isEven k.g then do
    modify fun k => { k with a := half k.a }
    modify fun k => { k with c := half k.c }
    modify fun k => { k with e := half k.e }
    modify fun k => { k with g := half k.g }
  else do
    let b ← eval (cfg.cmul k.b 2)
    modify fun k => { k with b := b }
    let d ← eval (cfg.cmul k.d 2)
    modify fun k => { k with d := d }
    let f ← eval (cfg.cmul k.f 2)
    modify fun k => { k with f := f }
    let h ← eval (cfg.cmul k.h 2)
    modify fun k => { k with h := h }

/-- combine.rs:1064-1069, `turn_x` -/
def turnX : Mut Coef8 Unit := do
  modify fun k => { k with a := k.c, c := k.a }
  modify fun k => { k with b := k.d, d := k.b }
  modify fun k => { k with e := k.g, g := k.e }
  modify fun k => { k with f := k.h, h := k.f }

/-- combine.rs:1071-1076, `turn_y` -/
def turnY : Mut Coef8 Unit := do
  modify fun k => { k with a := k.b, b := k.a }
  modify fun k => { k with c := k.d, d := k.c }
  modify fun k => { k with e := k.f, f := k.e }
  modify fun k => { k with g := k.h, h := k.g }

/-- combine.rs:1078-1083, `shift_x` -/
def shiftX (cfg : Cfg) : Mut Coef8 Unit := do
  let k ← get
  let c ← eval (cfg.cadd k.c k.a)
  modify fun k => { k with c := c }
  let d ← eval (cfg.cadd k.d k.b)
  modify fun k => { k with d := d }
  let g ← eval (cfg.cadd k.g k.e)
  modify fun k => { k with g := g }
  let h ← eval (cfg.cadd k.h k.f)
  modify fun k => { k with h := h }

/-- combine.rs:1085-1090, `shift_y` -/
def shiftY (cfg : Cfg) : Mut Coef8 Unit := do
  let k ← get
  let b ← eval (cfg.cadd k.b k.a)
  modify fun k => { k with b := b }
  let d ← eval (cfg.cadd k.d k.c)
  modify fun k => { k with d := d }
  let f ← eval (cfg.cadd k.f k.e)
  modify fun k => { k with f := f }
  let h ← eval (cfg.cadd k.h k.g)
  modify fun k => { k with h := h }

/-- combine.rs:1204-1209, `shift` -/
def shift (cfg : Cfg) : Mut Coef8 Unit := do
  let k ← get
  let a ← eval (cfg.csub k.a k.e)
  modify fun k => { k with a := a }
  let b ← eval (cfg.csub k.b k.f)
  modify fun k => { k with b := b }
  let c ← eval (cfg.csub k.c k.g)
  modify fun k => { k with c := c }
  let d ← eval (cfg.csub k.d k.h)
  modify fun k => { k with d := d }

/-- combine.rs:1198-1202, `uncover` -/
def uncover (cfg : Cfg) : Mut Coef8 Unit := do
  turn
  shift cfg

/-- combine.rs:1179-1196, `amplify` -/
def amplify (cfg : Cfg) : Mut Coef8 Unit := do
  let k ← get
  if isEven k.e && isEven k.f && isEven k.g && isEven k.h then do
    modify fun k => { k with e := half k.e }
    modify fun k => { k with f := half k.f }
    modify fun k => { k with g := half k.g }
    modify fun k => { k with h := half k.h }
  else do
    let a ← eval (cfg.cmul k.a 2)
    modify fun k => { k with a := a }
    let b ← eval (cfg.cmul k.b 2)
    modify fun k => { k with b := b }
    let c ← eval (cfg.cmul k.c 2)
    modify fun k => { k with c := c }
    let d ← eval (cfg.cmul k.d 2)
    modify fun k => { k with d := d }

/-- combine.rs:1161-1177, `reduction_egest`: `Err(0)` is `none` -/
def reductionEgest (cfg : Cfg) : Mut Coef8 (Option (Option Reduction)) := do
  let k ← get
  let (nmin, dmin, nmax, dmax) ← eval (k.imageExtremes cfg)
  if notGreaterThanZero nmin dmin then panic .logicError
  else if notLessThanOne nmax dmax then panic .logicError
  else do
    let below ← eval (lessThanOneHalf cfg nmax dmax)
    if below then do
      amplify cfg
      pure (some (some .Amplify))
    else do
      let above ← eval (greaterThanOneHalf cfg nmin dmin)
      if above then do
        uncover cfg
        pure (some (some .Uncover))
      else
        pure none

/-- combine.rs:872-876 -/
def primerAttempt (cfg : Cfg) : Mut Coef8 (Option (Option Primer)) := do
  let k ← get
  let b ← eval (k.areSingularitiesOutsideDomain cfg)
  if b then primerEgest cfg else pure none

/-- combine.rs:1279-1283 -/
def reductionAttempt (cfg : Cfg) : Mut Coef8 (Option (Option Reduction)) := do
  let k ← get
  let b ← eval (k.areSingularitiesOutsideDomain cfg)
  if b then reductionEgest cfg else pure none

/-- combine.rs:946-951 and 1246-1251 (`uncover_x` is `turn_x`, `shift_x`: 1054-1057) -/
def ingestX (cfg : Cfg) (r : Reduction) : Mut Coef8 Unit :=
  match r with
  | .Amplify => amplifyX cfg
  | .Uncover => do
    turnX
    shiftX cfg

/-- combine.rs:964-969 and 1266-1271 (`uncover_y` is `turn_y`, `shift_y`: 1059-1062) -/
def ingestY (cfg : Cfg) (r : Reduction) : Mut Coef8 Unit :=
  match r with
  | .Amplify => amplifyY cfg
  | .Uncover => do
    turnY
    shiftY cfg

end Coef8

/-! ## Objects and the heap of `Rc`s -/

/-- A boxed strategy (src/strategy.rs:29-31).  The `Rc`s of a `Combine` are addresses. -/
inductive Obj where
  | ratio (r : Ratio)
  | homographic (x : Obj) (k : Coef4)
  | combine (x y : Nat) (k : Coef8)
deriving DecidableEq, Repr

/-- The allocation behind an `Rc<Clog>`: the strong count and the clog. -/
structure Cell where
  count : Nat
  val : Obj
deriving DecidableEq, Repr

/-- What is outside of the object at hand: the allocations (`none`: free), the next free
address, and the lines printed, in order; a line `nx n dx d` is given by the four numbers. -/
structure World where
  cells : Nat → Option Cell
  fresh : Nat
  printed : List Coef4

namespace World

/-- Change one allocation. -/
def put (w : World) (i : Nat) (c : Option Cell) : World :=
  { w with cells := fun j => if j = i then c else w.cells j }

end World

/-- `Rc::new` -/
def rcNew (o : Obj) : Mut World Nat := fun w =>
  (.ok w.fresh, { w.put w.fresh (some ⟨1, o⟩) with fresh := w.fresh + 1 })

/-- `Rc::clone`: one more pointer to the allocation -/
def rcClone (i : Nat) : Mut World Nat := fun w =>
  match w.cells i with
  | some c => (.ok i, w.put i (some { c with count := c.count + 1 }))
  | none => (.shared, w)

/-- Dropping an `Rc`: one pointer less; the last one frees the allocation.  (What the freed clog
itself points to is not freed in the model.  Nothing else points to that.) -/
def rcDrop (i : Nat) : Mut World Unit := fun w =>
  match w.cells i with
  | some c => (.ok (), w.put i (if c.count ≤ 1 then none else some { c with count := c.count - 1 }))
  | none => (.shared, w)

/-- `Rc::try_unwrap(..).ok().unwrap()`: moves the clog out of the allocation if this is the only
pointer, otherwise panics. -/
def rcTryUnwrap (i : Nat) : Mut World Obj := fun w =>
  match w.cells i with
  | some ⟨1, o⟩ => (.ok o, w.put i none)
  | _ => (.shared, w)

/-- `Rc::get_mut(..).unwrap().f()`: runs `f` on the clog in the allocation if this is the only
pointer, otherwise panics. -/
def rcGetMut {α : Type} (i : Nat) (m : Mut (Obj × World) α) : Mut World α := fun w =>
  match w.cells i with
  | some ⟨1, o⟩ =>
    let r := m (o, w)
    (r.1, r.2.2.put i (some ⟨1, r.2.1⟩))
  | _ => (.shared, w)

/-- The type of `Clog::egest`. -/
abbrev EgestFn := Mut (Obj × World) (Option Reduction)

/-- src/lib.rs:59-62, `enum Number` -/
inductive Number where
  | Special (s : Special)
  | Other (p : Option Primer) (c : Obj)
deriving DecidableEq, Repr

/-! ## `Homographic` -/

/-- homographic.rs:832-838, `struct Homographic` -/
structure Homographic where
  x : Obj
  k : Coef4
deriving DecidableEq, Repr

namespace Homographic

/-- `Box::new` -/
def box (h : Homographic) : Obj := .homographic h.x h.k

/-- Work on the coefficients. -/
def onK {α : Type} (m : Mut Coef4 α) : Mut (Homographic × World) α :=
  part (fun s => s.1.k) (fun k s => ({ s.1 with k := k }, s.2)) m

/-- Work on the input clog. -/
def onX {α : Type} (m : Mut (Obj × World) α) : Mut (Homographic × World) α :=
  part (fun s => (s.1.x, s.2)) (fun t s => ({ s.1 with x := t.1 }, t.2)) m

/-- `println!("{} {} {} {}", self.nx, self.n, self.dx, self.d)` (homographic.rs:1088, 1141) -/
def println : Mut (Homographic × World) Unit :=
  modify fun s => (s.1, { s.2 with printed := s.2.printed ++ [s.1.k] })

/-- homographic.rs:918-939, `prime_ingest` -/
def primeIngest (cfg : Cfg) (eg : EgestFn) :
    Mut (Homographic × World) (Option (Option Special × Option Primer × Option Ratio)) := do
  match ← onX eg with
  | none => do
    let s ← get
    let (num, den) ← eval (s.1.k.valueAtOneHalf cfg)
    let res ← eval (Clarith.Ratio.newI cfg num den)
    pure (some res)
  | some .Amplify => do
    onK (Coef4.ingestAmplify cfg)
    pure none
  | some .Uncover => do
    onK (Coef4.ingestUncover cfg)
    pure none

/-- homographic.rs:1059-1077, `reduction_ingest` -/
def reductionIngest (cfg : Cfg) (eg : EgestFn) : Mut (Homographic × World) (Option Ratio) := do
  match ← onX eg with
  | none => do
    let s ← get
    let (num, den) ← eval (s.1.k.valueAtOneHalf cfg)
    match ← eval (Clarith.Ratio.newI cfg num den) with
    | (none, none, some ratio) => pure (some ratio)
    | _ => panic .logicError
  | some .Amplify => do
    onK (Coef4.ingestAmplify cfg)
    pure none
  | some .Uncover => do
    onK (Coef4.ingestUncover cfg)
    pure none

/-- The result tuple of homographic.rs:1079-1086. -/
abbrev Primed := Option Special × Option Primer × Option Ratio × Option Homographic

/-- homographic.rs:1079-1099, `prime`.  It takes `self` by value; the state is what is in `self`
so far, and is dropped by the caller. -/
def prime (cfg : Cfg) (eg : EgestFn) : Nat → Mut (Homographic × World) Primed
  | 0 => timeout
  | f + 1 => do
    println
    match ← onK (Coef4.primerAttempt cfg) with
    | some primer => do
      let s ← get
      pure (none, primer, none, some s.1)
    | none => do
      match ← primeIngest cfg eg with
      | some (special, primer, ratio) => pure (special, primer, ratio, none)
      | none => prime cfg eg f

/-- homographic.rs:1138-1152, `Strategy::egest`: `Err` is `.inr` -/
def egest (cfg : Cfg) (eg : EgestFn) : Nat → Mut (Homographic × World) (Option Reduction ⊕ Obj)
  | 0 => timeout
  | f + 1 => do
    println
    match ← onK (Coef4.reductionAttempt cfg) with
    | some reduction => pure (.inl reduction)
    | none => do
      match ← reductionIngest cfg eg with
      | some ratio => pure (.inr (.ratio ratio))
      | none => egest cfg eg f

/-- homographic.rs:852-863, `as_ratio` -/
def asRatio (cfg : Cfg) (n d : Int) : Mut World Primed := do
  let (special, primer, ratio) ← eval (Clarith.Ratio.newI cfg n d)
  pure (special, primer, ratio, none)

/-- Run a method on an object that is owned by the caller and dropped afterwards. -/
def owned {σ α : Type} (s : σ) (m : Mut (σ × World) α) : Mut World α := fun w =>
  let r := m (s, w)
  (r.1, r.2.2)

/-- homographic.rs:840-900, `fn new`.  (The primer is pulled into local copies of the coefficients,
which a panic drops; that is shared with the first model.) -/
def new (cfg : Cfg) (eg : EgestFn) (f : Nat) (x : Number) (nx n dx d : Int) : Mut World Primed :=
  if nx = 0 ∧ dx = 0 then asRatio cfg n d
  else
    match x with
    | .Special .NegOne => do
      let n ← eval (cfg.csub n nx)
      let d ← eval (cfg.csub d dx)
      asRatio cfg n d
    | .Special .Zero => asRatio cfg n d
    | .Special .PosOne => do
      let n ← eval (cfg.cadd n nx)
      let d ← eval (cfg.cadd d dx)
      asRatio cfg n d
    | .Other p c => do
      let k ← eval (Clarith.Homographic.absorbPrimer cfg p ⟨nx, n, dx, d⟩)
      owned ⟨c, k⟩ (prime cfg eg f)

end Homographic

/-! ## `Combine` -/

/-- combine.rs:619-630, `struct Combine`; `x` and `y` are addresses -/
structure Combine where
  x : Nat
  y : Nat
  k : Coef8
deriving DecidableEq, Repr

namespace Combine

/-- `Box::new` -/
def box (c : Combine) : Obj := .combine c.x c.y c.k

/-- Work on the coefficients. -/
def onK {α : Type} (m : Mut Coef8 α) : Mut (Combine × World) α :=
  part (fun s => s.1.k) (fun k s => ({ s.1 with k := k }, s.2)) m

/-- Work on the world. -/
def onW {α : Type} (m : Mut World α) : Mut (Combine × World) α :=
  part (fun s => s.2) (fun w s => (s.1, w)) m

/-- The result tuple of combine.rs:863-871. -/
abbrev Primed :=
  Option Special × Option Primer × Option Ratio × Option Homographic × Option Combine

/-- combine.rs:924-972, `prime_ingest`: `Ok` is `some`, `Err(self)` is `none` (and `self` is the
state) -/
def primeIngest (cfg : Cfg) (eg : EgestFn) (f : Nat) :
    Mut (Combine × World) (Option Homographic.Primed) := do
  let s ← get
  match ← onW (rcGetMut s.1.x eg) with
  | none => do
    let s ← get
    let k ← eval (s.1.k.valueAtEndOfX cfg)
    let y ← onW (rcTryUnwrap s.1.y)
    let res ← onW (Homographic.new cfg eg f (.Other none y) k.nx k.n k.dx k.d)
    pure (some res)
  | some rx => do
    onK (Coef8.ingestX cfg rx)
    let s ← get
    match ← onW (rcGetMut s.1.y eg) with
    | none => do
      let s ← get
      let k ← eval (s.1.k.valueAtEndOfY cfg)
      let x ← onW (rcTryUnwrap s.1.x)
      let res ← onW (Homographic.new cfg eg f (.Other none x) k.nx k.n k.dx k.d)
      pure (some res)
    | some ry => do
      onK (Coef8.ingestY cfg ry)
      pure none

/-- combine.rs:863-883, `prime` -/
def prime (cfg : Cfg) (eg : EgestFn) : Nat → Mut (Combine × World) Primed
  | 0 => timeout
  | f + 1 => do
    match ← onK (Coef8.primerAttempt cfg) with
    | some primer => do
      let s ← get
      pure (none, primer, none, none, some s.1)
    | none => do
      match ← primeIngest cfg eg f with
      | some (special, primer, ratio, homographic) =>
        pure (special, primer, ratio, homographic, none)
      | none => prime cfg eg f

/-- combine.rs:1211-1216, `simple_clog` -/
def simpleClog : Mut World Nat := rcNew (.ratio ⟨1, 2⟩)

/-- combine.rs:1222-1226, `shutdown_x`, with `promote_clog` (1218-1220) -/
def shutdownX : Mut (Combine × World) Number := do
  let s ← get
  let moved ← onW (rcClone s.1.x)
  let new ← onW simpleClog
  -- the assignment `self.x = new` drops the old value of the field
  let s ← get
  onW (rcDrop s.1.x)
  modify fun s => ({ s.1 with x := new }, s.2)
  let c ← onW (rcTryUnwrap moved)
  pure (.Other none c)

/-- combine.rs:1228-1232, `shutdown_y` -/
def shutdownY : Mut (Combine × World) Number := do
  let s ← get
  let moved ← onW (rcClone s.1.y)
  let new ← onW simpleClog
  let s ← get
  onW (rcDrop s.1.y)
  modify fun s => ({ s.1 with y := new }, s.2)
  let c ← onW (rcTryUnwrap moved)
  pure (.Other none c)

/-- combine.rs:1234-1274, `reduction_ingest` -/
def reductionIngest (cfg : Cfg) (eg : EgestFn) (f : Nat) :
    Mut (Combine × World) (Option Ratio × Option Homographic) := do
  let s ← get
  match ← onW (rcGetMut s.1.x eg) with
  | none => do
    let s ← get
    let k ← eval (s.1.k.valueAtEndOfX cfg)
    let y ← shutdownY
    match ← onW (Homographic.new cfg eg f y k.nx k.n k.dx k.d) with
    | (none, none, ratio, homographic) => pure (ratio, homographic)
    | _ => panic .logicError
  | some rx => do
    onK (Coef8.ingestX cfg rx)
    let s ← get
    match ← onW (rcGetMut s.1.y eg) with
    | none => do
      let s ← get
      let k ← eval (s.1.k.valueAtEndOfY cfg)
      let x ← shutdownX
      match ← onW (Homographic.new cfg eg f x k.nx k.n k.dx k.d) with
      | (none, none, ratio, homographic) => pure (ratio, homographic)
      | _ => panic .logicError
    | some ry => do
      onK (Coef8.ingestY cfg ry)
      pure (none, none)

/-- combine.rs:1277-1289, `Strategy::egest`: `Err` is `.inr` -/
def egest (cfg : Cfg) (eg : EgestFn) : Nat → Mut (Combine × World) (Option Reduction ⊕ Obj)
  | 0 => timeout
  | f + 1 => do
    match ← onK (Coef8.reductionAttempt cfg) with
    | some reduction => pure (.inl reduction)
    | none => do
      match ← reductionIngest cfg eg f with
      | (_, some homographic) => pure (.inr homographic.box)
      | (some ratio, none) => pure (.inr (.ratio ratio))
      | (none, none) => egest cfg eg f

/-- combine.rs:693-708, `as_homographic` -/
def asHomographic (cfg : Cfg) (eg : EgestFn) (f : Nat) (x : Number) (nx n dx d : Int) :
    Mut World Primed := do
  let (special, primer, ratio, homographic) ← Homographic.new cfg eg f x nx n dx d
  pure (special, primer, ratio, homographic, none)

/-- combine.rs:675-827, `fn new` (the coefficients are local copies until `Combine::new`) -/
def new (cfg : Cfg) (eg : EgestFn) (fuel : Nat) (x y : Number) (k : Coef8) : Mut World Primed :=
  match x with
  | .Special .NegOne => do
    let nx ← eval (cfg.csub k.c k.a)
    let n ← eval (cfg.csub k.d k.b)
    let dx ← eval (cfg.csub k.g k.e)
    let d ← eval (cfg.csub k.h k.f)
    asHomographic cfg eg fuel y nx n dx d
  | .Special .Zero => asHomographic cfg eg fuel y k.c k.d k.g k.h
  | .Special .PosOne => do
    let nx ← eval (cfg.cadd k.c k.a)
    let n ← eval (cfg.cadd k.d k.b)
    let dx ← eval (cfg.cadd k.g k.e)
    let d ← eval (cfg.cadd k.h k.f)
    asHomographic cfg eg fuel y nx n dx d
  | .Other px cx =>
    match y with
    | .Special .NegOne => do
      let nx ← eval (cfg.csub k.b k.a)
      let n ← eval (cfg.csub k.d k.c)
      let dx ← eval (cfg.csub k.f k.e)
      let d ← eval (cfg.csub k.h k.g)
      asHomographic cfg eg fuel x nx n dx d
    | .Special .Zero => asHomographic cfg eg fuel x k.b k.d k.f k.h
    | .Special .PosOne => do
      let nx ← eval (cfg.cadd k.b k.a)
      let n ← eval (cfg.cadd k.d k.c)
      let dx ← eval (cfg.cadd k.f k.e)
      let d ← eval (cfg.cadd k.h k.g)
      asHomographic cfg eg fuel x nx n dx d
    | .Other py cy => do
      let k ← eval (k.absorbPrimerX cfg px)
      let k ← eval (k.absorbPrimerY cfg py)
      let i ← rcNew cx
      let j ← rcNew cy
      Homographic.owned ⟨i, j, k⟩ (prime cfg eg fuel)

end Combine

/-! ## `Clog` and `Number` -/

/-- Dispatch of `Strategy::egest` over the boxed strategies.  The three pieces of state are written
back into the box. -/
def strategyEgest (cfg : Cfg) (eg : EgestFn) (f : Nat) :
    Mut (Obj × World) (Option Reduction ⊕ Obj) := fun s =>
  match s with
  | (.ratio r, w) =>
    match Ratio.egest cfg r with
    | (.ok red, r) => (.ok (.inl red), (.ratio r, w))
    | (.panic p, r) => (.panic p, (.ratio r, w))
    | (.shared, r) => (.shared, (.ratio r, w))
    | (.timeout, r) => (.timeout, (.ratio r, w))
  | (.homographic x k, w) =>
    let r := Homographic.egest cfg eg f (⟨x, k⟩, w)
    (r.1, (r.2.1.box, r.2.2))
  | (.combine x y k, w) =>
    let r := Combine.egest cfg eg f (⟨x, y, k⟩, w)
    (r.1, (r.2.1.box, r.2.2))

/-- src/lib.rs:47-55, `Clog::egest` -/
def egest (cfg : Cfg) : Nat → EgestFn
  | 0 => timeout
  | f + 1 => do
    match ← strategyEgest cfg (egest cfg f) f with
    | .inl reduction => pure reduction
    | .inr strategy => do
      -- the assignment drops the old strategy
      modify fun s => (strategy, s.2)
      egest cfg f

namespace Number

/-- src/lib.rs:96-107, `ratio_u` -/
def ratioU (positive : Bool) (num den : Nat) : Mut World Number := do
  let (special, primer, ratio) ← eval (Clarith.Ratio.new positive num den)
  match special with
  | some fixed => pure (.Special fixed)
  | none =>
    match ratio with
    | some r => pure (.Other primer (.ratio r))
    | none => panic .unwrapMissing

/-- src/lib.rs:87-93, `ratio` -/
def ratio (cfg : Cfg) (num den : Int) : Mut World Number := do
  let n ← eval (Clarith.Ratio.magnitude cfg num)
  let d ← eval (Clarith.Ratio.magnitude cfg den)
  ratioU (Clarith.Ratio.sameSign num den) n d

/-- src/lib.rs:112-131, `homographic` -/
def homographic (cfg : Cfg) (f : Nat) (x : Number) (nx n dx d : Int) : Mut World Number := do
  let (special, primer, ratio, homographic) ← Homographic.new cfg (egest cfg f) f x nx n dx d
  match special with
  | some fixed => pure (.Special fixed)
  | none =>
    match ratio with
    | some ratio => pure (.Other primer (.ratio ratio))
    | none =>
      match homographic with
      | some h => pure (.Other primer h.box)
      | none => panic .unwrapMissing

/-- src/lib.rs:136-174, `combine` -/
def combine (cfg : Cfg) (f : Nat) (x y : Number) (nxy nx ny n dxy dx dy d : Int) :
    Mut World Number := do
  let (special, primer, ratio, homographic, combine) ←
    Combine.new cfg (egest cfg f) f x y ⟨nxy, nx, ny, n, dxy, dx, dy, d⟩
  match special with
  | some fixed => pure (.Special fixed)
  | none =>
    match ratio with
    | some ratio => pure (.Other primer (.ratio ratio))
    | none =>
      match homographic with
      | some h => pure (.Other primer h.box)
      | none =>
        match combine with
        | some c => pure (.Other primer c.box)
        | none => panic .unwrapMissing

end Number

/-! ## `Consume` and `compare` -/

/-- consume.rs:128-145, `consume`: `self` is dropped or returned, so the coefficients are local -/
def Consume.consume (cfg : Cfg) (eg : EgestFn) :
    Nat → Coef4 → Mut (Obj × World) (Option Obj × Coef4)
  | 0, _ => timeout
  | f + 1, k => do
    match ← eg with
    | none => pure (none, k)
    | some red => do
      let k ← eval (Clarith.Consume.ingest cfg red k)
      let unsafeState ← eval (Clarith.Consume.isStateUnsafe cfg k)
      if unsafeState then do
        let s ← get
        pure (some s.1, k)
      else Consume.consume cfg eg f k

/-- consume.rs:84-115, `fn new` -/
def Consume.new (cfg : Cfg) (eg : EgestFn) (f : Nat) (x : Number) :
    Mut World (Option Obj × Coef4) :=
  match x with
  | .Special .NegOne => pure (none, ⟨0, -1, 0, 1⟩)
  | .Special .Zero => pure (none, ⟨0, 0, 0, 1⟩)
  | .Special .PosOne => pure (none, ⟨0, 1, 0, 1⟩)
  | .Other p c => do
    let k ← eval (Clarith.Consume.start cfg p)
    Homographic.owned c (Consume.consume cfg eg f k)

/-- src/lib.rs:189-192, `Number::consume` -/
def Number.consume (cfg : Cfg) (f : Nat) (x : Number) : Mut World (Option Number × Coef4) := do
  let (co, k) ← Consume.new cfg (egest cfg f) f x
  pure (co.map (Number.Other none), k)

namespace Compare

/-- `c1.egest()` (compare.rs:333) -/
def first (eg : EgestFn) : Mut ((Obj × Obj) × World) (Option Reduction) :=
  part (fun s => (s.1.1, s.2)) (fun t s => ((t.1, s.1.2), t.2)) eg

/-- `c2.egest()` (compare.rs:334) -/
def second (eg : EgestFn) : Mut ((Obj × Obj) × World) (Option Reduction) :=
  part (fun s => (s.1.2, s.2)) (fun t s => ((s.1.1, t.1), t.2)) eg

/-- compare.rs:329-361, `compare_clogs` -/
def compareClogs (cfg : Cfg) (eg : EgestFn) : Nat → Bool → Mut ((Obj × Obj) × World) Ordering
  | 0, _ => timeout
  | f + 1, polarity => do
    let e1 ← first eg
    let e2 ← second eg
    if e1 ≠ e2 then
      let answer := Clarith.Compare.symbolAnswer e1 e2
      pure (if polarity then answer else answer.swap)
    else
      match e1 with
      | none => pure .eq
      | some .Uncover => compareClogs cfg eg f (!polarity)
      | some .Amplify => compareClogs cfg eg f polarity

/-- compare.rs:294-305, `compare_others` -/
def compareOthers (cfg : Cfg) (eg : EgestFn) (f : Nat) (p1 : Option Primer) (c1 : Obj)
    (p2 : Option Primer) (c2 : Obj) : Mut World Ordering := do
  let o ← Homographic.owned (c1, c2)
    (compareClogs cfg eg f (p1 != some .Reflect && p1 != some .Turn))
  pure ((Clarith.Compare.comparePrimers p1 p2).then o)

end Compare

/-- compare.rs:246-257, `compare`, called by src/lib.rs:82-84 `Number::compare` -/
def Number.compare (cfg : Cfg) (f : Nat) (n1 n2 : Number) : Mut World Ordering :=
  match n1, n2 with
  | .Special s1, .Special s2 => pure (Clarith.Compare.compareSpecials s1 s2)
  | .Special s1, .Other p2 _ => pure (Clarith.Compare.compareHybrid s1 p2)
  | .Other p1 _, .Special s2 => pure (Clarith.Compare.compareHybrid s2 p1).swap
  | .Other p1 c1, .Other p2 c2 => Compare.compareOthers cfg (egest cfg f) f p1 c1 p2 c2

/-! ## A caller that catches panics

The public functions as they can be called one after the other, each inside `catch_unwind`.  The
caller keeps its numbers in numbered variables; a number passed by value is moved out of its
variable. -/

/-- A call of a public function (src/lib.rs); variables are given by their number.  `special s` is
the constructor `Number::Special(s)`.  `reprime x p` takes the clog out of the number with
`unwrap_other` and puts it into a new number with the constructor `Number::Other(p, clog)`
(src/lib.rs:59-62: the constructors are public; the field of `Clog` is not). -/
inductive Call where
  | ratio (num den : Int)
  | ratioU (positive : Bool) (num den : Nat)
  | homographic (x : Nat) (nx n dx d : Int)
  | combine (x y : Nat) (nxy nx ny n dxy dx dy d : Int)
  | egest (x : Nat)
  | consume (x : Nat)
  | compare (x y : Nat)
  | special (s : Special)
  | reprime (x : Nat) (p : Option Primer)
  | unwrapSpecial (x : Nat)
deriving DecidableEq, Repr

/-- What can be seen of a number by matching on it (src/lib.rs:59-62). -/
inductive Face where
  | special (s : Special)
  | other (p : Option Primer)
deriving DecidableEq, Repr

/-- What a call tells the caller.  `refused`: a variable named in the call does not hold a number
(or, for `egest`, does not hold an `Other`); the Rust compiler does not let such a call through. -/
inductive Answer where
  | refused
  | made (v : Face)
  | symbol (r : Option Reduction)
  | consumed (y : Option Face) (k : Coef4)
  | order (o : Ordering)
  | fixed (s : Special)
deriving DecidableEq, Repr

/-- src/lib.rs:66-71, `unwrap_special` -/
def Number.unwrapSpecial : Number → Mut World Clarith.Special
  | .Special s => pure s
  | .Other _ _ => panic .notSpecial

/-- src/lib.rs:74-79, `unwrap_other` -/
def Number.unwrapOther : Number → Mut World (Option Primer × Obj)
  | .Other p c => pure (p, c)
  | .Special _ => panic .notOther

/-- The face of a number (src/lib.rs:59-62). -/
def Number.face : Number → Face
  | .Special s => .special s
  | .Other p _ => .other p

/-- The variables of the caller (of type `Number`, src/lib.rs:59-62), the next unused variable, and
the world. -/
structure Caller where
  held : Nat → Option Number
  next : Nat
  world : World

namespace Caller

/-- Nothing allocated, nothing printed, no numbers: before any call of src/lib.rs:82-192. -/
def start : Caller := ⟨fun _ => none, 0, ⟨fun _ => none, 0, []⟩⟩

/-- Change a variable that holds a `Number` (src/lib.rs:59-62). -/
def set (c : Caller) (i : Nat) (v : Option Number) : Caller :=
  { c with held := fun j => if j = i then v else c.held j }

/-- Move a number out of its variable: `Number` is passed by value and is not `Copy`
(src/lib.rs:58-62, 82, 112, 136, 189). -/
def move (i : Nat) : Mut Caller (Option Number) := fun c => (.ok (c.held i), c.set i none)

/-- Keep a number returned by src/lib.rs:87-192 in a new variable. -/
def keep (v : Number) : Mut Caller Unit :=
  modify fun c => { c.set c.next (some v) with next := c.next + 1 }

/-- Work on the world, for the calls of src/lib.rs:82-192. -/
def onWorld {α : Type} (m : Mut World α) : Mut Caller α :=
  part Caller.world (fun w c => { c with world := w }) m

/-- A call that makes a number: src/lib.rs:87-174. -/
def make (m : Mut World Number) : Mut Caller Answer := do
  let v ← onWorld m
  keep v
  pure (.made v.face)

/-- `Clog::egest` (src/lib.rs:47-55) on the number in a variable, in place. -/
def egestAt (cfg : Cfg) (f : Nat) (x : Nat) : Mut Caller Answer := fun c =>
  match c.held x with
  | some (.Other p o) =>
    let r := Steps.egest cfg f (o, c.world)
    let c := { c.set x (some (.Other p r.2.1)) with world := r.2.2 }
    match r.1 with
    | .ok s => (.ok (.symbol s), c)
    | .panic p => (.panic p, c)
    | .shared => (.shared, c)
    | .timeout => (.timeout, c)
  | _ => (.ok .refused, c)

/-- A call: src/lib.rs `ratio` 87-93, `ratio_u` 96-107, `homographic` 112-131, `combine` 136-174,
`Clog::egest` 47-55, `consume` 189-192, `compare` 82-84, the constructors of `Number` 59-62,
`unwrap_special` 66-71, `unwrap_other` 74-79. -/
def call (cfg : Cfg) (f : Nat) : Call → Mut Caller Answer
  | .ratio num den => make (Number.ratio cfg num den)
  | .ratioU positive num den => make (Number.ratioU positive num den)
  | .homographic x nx n dx d => do
    match ← move x with
    | none => pure .refused
    | some x => make (Number.homographic cfg f x nx n dx d)
  | .combine x y nxy nx ny n dxy dx dy d => do
    match ← move x with
    | none => pure .refused
    | some x => do
      match ← move y with
      | none => pure .refused
      | some y => make (Number.combine cfg f x y nxy nx ny n dxy dx dy d)
  | .egest x => egestAt cfg f x
  | .consume x => do
    match ← move x with
    | none => pure .refused
    | some x => do
      let (y, k) ← onWorld (Number.consume cfg f x)
      match y with
      | none => pure (.consumed none k)
      | some y => do
        keep y
        pure (.consumed (some y.face) k)
  | .compare x y => do
    match ← move x with
    | none => pure .refused
    | some x => do
      match ← move y with
      | none => pure .refused
      | some y => do
        let o ← onWorld (Number.compare cfg f x y)
        pure (.order o)
  | .special s => make (pure (.Special s))
  | .reprime x p => do
    match ← move x with
    | none => pure .refused
    | some x => make do
      let (_, c) ← Number.unwrapOther x
      pure (.Other p c)
  | .unwrapSpecial x => do
    match ← move x with
    | none => pure .refused
    | some x => do
      let s ← onWorld (Number.unwrapSpecial x)
      pure (.fixed s)

/-- One call of src/lib.rs:47-192 after the other.  A panic is caught and the next call is made; a
call that does not return is the last. -/
def session (cfg : Cfg) (f : Nat) : List Call → Caller → List (Res Answer)
  | [], _ => []
  | a :: calls, c =>
    match call cfg f a c with
    | (.timeout, _) => [.timeout]
    | (r, c) => r :: session cfg f calls c

/-- The caller after calls of src/lib.rs:47-192. -/
def after (cfg : Cfg) (f : Nat) : List Call → Caller → Caller
  | [], c => c
  | a :: calls, c =>
    match call cfg f a c with
    | (.timeout, c) => c
    | (_, c) => after cfg f calls c

end Caller

end Clarith.Steps
