import Verif.Model.Homographic

/-! # Model of `src/strategy/combine.rs` -/

namespace Clarith

open Support

namespace Coef8

/-- combine.rs:897-906, `is_domain_amenable` (`&&` short-circuits) -/
def isDomainAmenable (cfg : Cfg) (mxy mx my m : Int) : Out Bool :=
  let s := m.sign
  if s = 0 then pure false
  else do
    let t ← cfg.cadd m mx
    if s ≠ t.sign then pure false
    else do
      let t ← cfg.cadd m my
      if s ≠ t.sign then pure false
      else do
        let t ← cfg.cadd mx my
        let t ← cfg.cadd mxy t
        let t ← cfg.cadd m t
        pure (s == t.sign)

/-- combine.rs:889-891 -/
def isZeroOutsideDomain (cfg : Cfg) (k : Coef8) : Out Bool :=
  isDomainAmenable cfg k.a k.b k.c k.d

/-- combine.rs:893-895 -/
def isPoleOutsideDomain (cfg : Cfg) (k : Coef8) : Out Bool :=
  isDomainAmenable cfg k.e k.f k.g k.h

/-- combine.rs:885-887 (`&&` short-circuits) -/
def areSingularitiesOutsideDomain (cfg : Cfg) (k : Coef8) : Out Bool :=
  Out.and (isZeroOutsideDomain cfg k) (isPoleOutsideDomain cfg k)

/-- combine.rs:1124-1126 -/
def valueAt00 (k : Coef8) : Int × Int := (k.d, k.h)

/-- combine.rs:1128-1133 -/
def valueAt01 (cfg : Cfg) (k : Coef8) : Out (Int × Int) := do
  let n ← cfg.cadd k.c k.d
  let d ← cfg.cadd k.g k.h
  pure (n, d)

/-- combine.rs:1135-1140 -/
def valueAt10 (cfg : Cfg) (k : Coef8) : Out (Int × Int) := do
  let n ← cfg.cadd k.b k.d
  let d ← cfg.cadd k.f k.h
  pure (n, d)

/-- combine.rs:1142-1159 -/
def valueAt11 (cfg : Cfg) (k : Coef8) : Out (Int × Int) := do
  let n ← cfg.cadd k.c k.d
  let n ← cfg.cadd k.b n
  let n ← cfg.cadd k.a n
  let d ← cfg.cadd k.g k.h
  let d ← cfg.cadd k.f d
  let d ← cfg.cadd k.e d
  pure (n, d)

/-- combine.rs:1092-1100, `image_extremes` -/
def imageExtremes (cfg : Cfg) (k : Coef8) : Out (Int × Int × Int × Int) := do
  let (nmin, dmin) := k.valueAt00
  let (n, d) ← k.valueAt01 cfg
  let (nmin, dmin, nmax, dmax) ← updatedRange cfg nmin dmin nmin dmin n d
  let (n, d) ← k.valueAt10 cfg
  let (nmin, dmin, nmax, dmax) ← updatedRange cfg nmin dmin nmax dmax n d
  let (n, d) ← k.valueAt11 cfg
  updatedRange cfg nmin dmin nmax dmax n d

/-- combine.rs:1116-1122, `turn` -/
def turn (k : Coef8) : Coef8 :=
  { a := k.e, b := k.f, c := k.g, d := k.h, e := k.a, f := k.b, g := k.c, h := k.d }

/-- combine.rs:1108-1114, `reflect` -/
def reflect (cfg : Cfg) (k : Coef8) : Out Coef8 := do
  let a ← cfg.neg k.a
  let b ← cfg.neg k.b
  let c ← cfg.neg k.c
  let d ← cfg.neg k.d
  pure { k with a := a, b := b, c := c, d := d }

/-- combine.rs:1102-1106, `ground`: turn, then reflect -/
def ground (cfg : Cfg) (k : Coef8) : Out Coef8 := k.turn.reflect cfg

/-- combine.rs:908-922, `primer_egest`: `Err(0)` is `none` (`&&` short-circuits) -/
def primerEgest (cfg : Cfg) (k : Coef8) : Out (Option (Option Primer × Coef8)) := do
  let (nmin, dmin, nmax, dmax) ← k.imageExtremes cfg
  if ← lessThanMinusOne cfg nmax dmax then do
    let k ← k.ground cfg
    pure (some (some .Ground, k))
  else do
    let negative ← Out.and (greaterThanMinusOne cfg nmin dmin) (pure (lessThanZero nmax dmax))
    if negative then do
      let k ← k.reflect cfg
      pure (some (some .Reflect, k))
    else if greaterThanZero nmin dmin && lessThanOne nmax dmax then
      pure (some (none, k))
    else if greaterThanOne nmin dmin then
      pure (some (some .Turn, k.turn))
    else
      pure none

/-- combine.rs:974-994, `value_at_end_of_x`: coefficients in `y` at `x = 1/2` -/
def valueAtEndOfX (cfg : Cfg) (k : Coef8) : Out Coef4 :=
  if isEven k.a && isEven k.b && isEven k.e && isEven k.f then do
    let ny ← cfg.cadd k.c (half k.a)
    let n ← cfg.cadd k.d (half k.b)
    let dy ← cfg.cadd k.g (half k.e)
    let d ← cfg.cadd k.h (half k.f)
    pure ⟨ny, n, dy, d⟩
  else do
    let t ← cfg.cmul k.c 2
    let ny ← cfg.cadd k.a t
    let t ← cfg.cmul k.d 2
    let n ← cfg.cadd k.b t
    let t ← cfg.cmul k.g 2
    let dy ← cfg.cadd k.e t
    let t ← cfg.cmul k.h 2
    let d ← cfg.cadd k.f t
    pure ⟨ny, n, dy, d⟩

/-- combine.rs:996-1016, `value_at_end_of_y`: coefficients in `x` at `y = 1/2` -/
def valueAtEndOfY (cfg : Cfg) (k : Coef8) : Out Coef4 :=
  if isEven k.a && isEven k.c && isEven k.e && isEven k.g then do
    let nx ← cfg.cadd k.b (half k.a)
    let n ← cfg.cadd k.d (half k.c)
    let dx ← cfg.cadd k.f (half k.e)
    let d ← cfg.cadd k.h (half k.g)
    pure ⟨nx, n, dx, d⟩
  else do
    let t ← cfg.cmul k.b 2
    let nx ← cfg.cadd k.a t
    let t ← cfg.cmul k.d 2
    let n ← cfg.cadd k.c t
    let t ← cfg.cmul k.f 2
    let dx ← cfg.cadd k.e t
    let t ← cfg.cmul k.h 2
    let d ← cfg.cadd k.g t
    pure ⟨nx, n, dx, d⟩

/-- combine.rs:1018-1034, `amplify_x` -/
def amplifyX (cfg : Cfg) (k : Coef8) : Out Coef8 :=
  if isEven k.a && isEven k.b && isEven k.e && isEven k.f then
    pure { k with a := half k.a, b := half k.b, e := half k.e, f := half k.f }
  else do
    let c ← cfg.cmul k.c 2
    let d ← cfg.cmul k.d 2
    let g ← cfg.cmul k.g 2
    let h ← cfg.cmul k.h 2
    pure { k with c := c, d := d, g := g, h := h }

/-- combine.rs:1036-1052, `amplify_y` -/
def amplifyY (cfg : Cfg) (k : Coef8) : Out Coef8 :=
  if isEven k.a && isEven k.c && isEven k.e && isEven k.g then
    pure { k with a := half k.a, c := half k.c, e := half k.e, g := half k.g }
  else do
    let b ← cfg.cmul k.b 2
    let d ← cfg.cmul k.d 2
    let f ← cfg.cmul k.f 2
    let h ← cfg.cmul k.h 2
    pure { k with b := b, d := d, f := f, h := h }

/-- combine.rs:1064-1069, `turn_x` (also the macro at 710-717) -/
def turnX (k : Coef8) : Coef8 :=
  { a := k.c, b := k.d, c := k.a, d := k.b, e := k.g, f := k.h, g := k.e, h := k.f }

/-- combine.rs:1071-1076, `turn_y` (also the macro at 719-726) -/
def turnY (k : Coef8) : Coef8 :=
  { a := k.b, b := k.a, c := k.d, d := k.c, e := k.f, f := k.e, g := k.h, h := k.g }

/-- combine.rs:1078-1083, `shift_x` -/
def shiftX (cfg : Cfg) (k : Coef8) : Out Coef8 := do
  let c ← cfg.cadd k.c k.a
  let d ← cfg.cadd k.d k.b
  let g ← cfg.cadd k.g k.e
  let h ← cfg.cadd k.h k.f
  pure { k with c := c, d := d, g := g, h := h }

/-- combine.rs:1085-1090, `shift_y` -/
def shiftY (cfg : Cfg) (k : Coef8) : Out Coef8 := do
  let b ← cfg.cadd k.b k.a
  let d ← cfg.cadd k.d k.c
  let f ← cfg.cadd k.f k.e
  let h ← cfg.cadd k.h k.g
  pure { k with b := b, d := d, f := f, h := h }

/-- combine.rs:1054-1057, `uncover_x` -/
def uncoverX (cfg : Cfg) (k : Coef8) : Out Coef8 := k.turnX.shiftX cfg

/-- combine.rs:1059-1062, `uncover_y` -/
def uncoverY (cfg : Cfg) (k : Coef8) : Out Coef8 := k.turnY.shiftY cfg

/-- the macro `reflect_x` at combine.rs:728-735 -/
def reflectX (cfg : Cfg) (k : Coef8) : Out Coef8 := do
  let a ← cfg.mul k.a (-1)
  let b ← cfg.mul k.b (-1)
  let e ← cfg.mul k.e (-1)
  let f ← cfg.mul k.f (-1)
  pure { k with a := a, b := b, e := e, f := f }

/-- the macro `reflect_y` at combine.rs:737-744 -/
def reflectY (cfg : Cfg) (k : Coef8) : Out Coef8 := do
  let a ← cfg.mul k.a (-1)
  let c ← cfg.mul k.c (-1)
  let e ← cfg.mul k.e (-1)
  let g ← cfg.mul k.g (-1)
  pure { k with a := a, c := c, e := e, g := g }

/-- combine.rs:797-809: pull the primer of `x` into the coefficients -/
def absorbPrimerX (cfg : Cfg) (p : Option Primer) (k : Coef8) : Out Coef8 :=
  match p with
  | some .Turn => pure k.turnX
  | some .Reflect => k.reflectX cfg
  | some .Ground => k.turnX.reflectX cfg
  | none => pure k

/-- combine.rs:811-823: pull the primer of `y` into the coefficients -/
def absorbPrimerY (cfg : Cfg) (p : Option Primer) (k : Coef8) : Out Coef8 :=
  match p with
  | some .Turn => pure k.turnY
  | some .Reflect => k.reflectY cfg
  | some .Ground => k.turnY.reflectY cfg
  | none => pure k

/-- combine.rs:1204-1209, `shift` -/
def shift (cfg : Cfg) (k : Coef8) : Out Coef8 := do
  let a ← cfg.csub k.a k.e
  let b ← cfg.csub k.b k.f
  let c ← cfg.csub k.c k.g
  let d ← cfg.csub k.d k.h
  pure { k with a := a, b := b, c := c, d := d }

/-- combine.rs:1198-1202, `uncover` -/
def uncover (cfg : Cfg) (k : Coef8) : Out Coef8 := k.turn.shift cfg

/-- combine.rs:1179-1196, `amplify` -/
def amplify (cfg : Cfg) (k : Coef8) : Out Coef8 :=
  if isEven k.e && isEven k.f && isEven k.g && isEven k.h then
    pure { k with e := half k.e, f := half k.f, g := half k.g, h := half k.h }
  else do
    let a ← cfg.cmul k.a 2
    let b ← cfg.cmul k.b 2
    let c ← cfg.cmul k.c 2
    let d ← cfg.cmul k.d 2
    pure { k with a := a, b := b, c := c, d := d }

/-- combine.rs:1161-1177, `reduction_egest`: `Err(0)` is `none` -/
def reductionEgest (cfg : Cfg) (k : Coef8) : Out (Option (Option Reduction × Coef8)) := do
  let (nmin, dmin, nmax, dmax) ← k.imageExtremes cfg
  if notGreaterThanZero nmin dmin then .panic .logicError
  else if notLessThanOne nmax dmax then .panic .logicError
  else do
    if ← lessThanOneHalf cfg nmax dmax then do
      let k ← k.amplify cfg
      pure (some (some .Amplify, k))
    else do
      if ← greaterThanOneHalf cfg nmin dmin then do
        let k ← k.uncover cfg
        pure (some (some .Uncover, k))
      else
        pure none

/-- combine.rs:872-876, the guarded `primer_egest` at the start of `prime` -/
def primerAttempt (cfg : Cfg) (k : Coef8) : Out (Option (Option Primer × Coef8)) := do
  if ← k.areSingularitiesOutsideDomain cfg then k.primerEgest cfg else pure none

/-- combine.rs:1279-1283, the guarded `reduction_egest` at the start of `egest` -/
def reductionAttempt (cfg : Cfg) (k : Coef8) : Out (Option (Option Reduction × Coef8)) := do
  if ← k.areSingularitiesOutsideDomain cfg then k.reductionEgest cfg else pure none

/-- combine.rs:946-951 and 1246-1251: the coefficients after a symbol of `x` -/
def ingestX (cfg : Cfg) (r : Reduction) (k : Coef8) : Out Coef8 :=
  match r with
  | .Amplify => k.amplifyX cfg
  | .Uncover => k.uncoverX cfg

/-- combine.rs:964-969 and 1266-1271: the coefficients after a symbol of `y` -/
def ingestY (cfg : Cfg) (r : Reduction) (k : Coef8) : Out Coef8 :=
  match r with
  | .Amplify => k.amplifyY cfg
  | .Uncover => k.uncoverY cfg

end Coef8

namespace Combine

/-- The result tuple of combine.rs:863-871. -/
abbrev Primed :=
  Option Special × Option Primer × Option Ratio × Option Homographic × Option Combine

/-- combine.rs:924-972, `prime_ingest`: `Ok` is `.inl`, `Err(self)` is `.inr` -/
def primeIngest (cfg : Cfg) (eg : EgestFn) (f : Nat) (s : Combine) :
    Out (Homographic.Primed ⊕ Combine) := do
  let (r, x) ← eg s.x
  match r with
  | none => do
    let k ← s.k.valueAtEndOfX cfg
    let res ← Homographic.new cfg eg f (.Other none s.y) k.nx k.n k.dx k.d
    pure (.inl res)
  | some rx => do
    let k ← s.k.ingestX cfg rx
    let (r, y) ← eg s.y
    match r with
    | none => do
      let k ← k.valueAtEndOfY cfg
      let res ← Homographic.new cfg eg f (.Other none x) k.nx k.n k.dx k.d
      pure (.inl res)
    | some ry => do
      let k ← k.ingestY cfg ry
      pure (.inr ⟨x, y, k⟩)

/-- combine.rs:863-883, `prime` -/
def prime (cfg : Cfg) (eg : EgestFn) : Nat → Combine → Out Primed
  | 0, _ => .timeout
  | f + 1, s => do
    match ← s.k.primerAttempt cfg with
    | some (primer, k) => pure (none, primer, none, none, some { s with k := k })
    | none => do
      match ← primeIngest cfg eg f s with
      | .inl (special, primer, ratio, homographic) =>
        pure (special, primer, ratio, homographic, none)
      | .inr s => prime cfg eg f s

/-- combine.rs:1211-1216, `simple_clog`: the clog that replaces a shut down input.
(`new_i(1, 2)` is the `Ratio` 1/2.) -/
def simpleClog : Clog := .ratio ⟨1, 2⟩

/-- combine.rs:1234-1274, `reduction_ingest`, with `shutdown_x`/`shutdown_y`
(1222-1232) inlined: the two optional results and the mutated struct -/
def reductionIngest (cfg : Cfg) (eg : EgestFn) (f : Nat) (s : Combine) :
    Out ((Option Ratio × Option Homographic) × Combine) := do
  let (r, x) ← eg s.x
  match r with
  | none => do
    let k ← s.k.valueAtEndOfX cfg
    match ← Homographic.new cfg eg f (.Other none s.y) k.nx k.n k.dx k.d with
    | (none, none, ratio, homographic) =>
      pure ((ratio, homographic), { s with x := x, y := simpleClog })
    | _ => .panic .logicError
  | some rx => do
    let k ← s.k.ingestX cfg rx
    let (r, y) ← eg s.y
    match r with
    | none => do
      let k4 ← k.valueAtEndOfY cfg
      match ← Homographic.new cfg eg f (.Other none x) k4.nx k4.n k4.dx k4.d with
      | (none, none, ratio, homographic) =>
        pure ((ratio, homographic), ⟨simpleClog, y, k⟩)
      | _ => .panic .logicError
    | some ry => do
      let k ← k.ingestY cfg ry
      pure ((none, none), ⟨x, y, k⟩)

/-- combine.rs:1277-1289, `Strategy::egest` -/
def egest (cfg : Cfg) (eg : EgestFn) : Nat → Combine → Out (Egested × Combine)
  | 0, _ => .timeout
  | f + 1, s => do
    match ← s.k.reductionAttempt cfg with
    | some (reduction, k) => pure (.ok reduction, { s with k := k })
    | none => do
      match ← reductionIngest cfg eg f s with
      | ((_, some homographic), s) => pure (.err homographic.box, s)
      | ((some ratio, none), s) => pure (.err (.ratio ratio), s)
      | ((none, none), s) => egest cfg eg f s

/-- combine.rs:693-708, `as_homographic` -/
def asHomographic (cfg : Cfg) (eg : EgestFn) (f : Nat) (x : Number) (nx n dx d : Int) :
    Out Primed := do
  let (special, primer, ratio, homographic) ← Homographic.new cfg eg f x nx n dx d
  pure (special, primer, ratio, homographic, none)

/-- combine.rs:675-827, `fn new` -/
def new (cfg : Cfg) (eg : EgestFn) (fuel : Nat) (x y : Number) (k : Coef8) : Out Primed :=
  match x with
  | .Special .NegOne => do
    let nx ← cfg.csub k.c k.a
    let n ← cfg.csub k.d k.b
    let dx ← cfg.csub k.g k.e
    let d ← cfg.csub k.h k.f
    asHomographic cfg eg fuel y nx n dx d
  | .Special .Zero => asHomographic cfg eg fuel y k.c k.d k.g k.h
  | .Special .PosOne => do
    let nx ← cfg.cadd k.c k.a
    let n ← cfg.cadd k.d k.b
    let dx ← cfg.cadd k.g k.e
    let d ← cfg.cadd k.h k.f
    asHomographic cfg eg fuel y nx n dx d
  | .Other px cx =>
    match y with
    | .Special .NegOne => do
      let nx ← cfg.csub k.b k.a
      let n ← cfg.csub k.d k.c
      let dx ← cfg.csub k.f k.e
      let d ← cfg.csub k.h k.g
      asHomographic cfg eg fuel x nx n dx d
    | .Special .Zero => asHomographic cfg eg fuel x k.b k.d k.f k.h
    | .Special .PosOne => do
      let nx ← cfg.cadd k.b k.a
      let n ← cfg.cadd k.d k.c
      let dx ← cfg.cadd k.f k.e
      let d ← cfg.cadd k.h k.g
      asHomographic cfg eg fuel x nx n dx d
    | .Other py cy => do
      let k ← k.absorbPrimerX cfg px
      let k ← k.absorbPrimerY cfg py
      prime cfg eg fuel ⟨cx, cy, k⟩

end Combine

end Clarith
