import Verif.Model.Strategy
import Verif.Model.Support

/-! # Model of `src/strategy/homographic.rs`

The functions that read the input clog take `eg`, the model of `Clog::egest`, as a
parameter; the knot is tied in `Verif/Model/Number.lean`.  The two recursive
functions `prime` and `egest` take fuel. -/

namespace Clarith

open Support

namespace Coef4

/-- homographic.rs:1017-1022, `value_at_one` -/
def valueAtOne (cfg : Cfg) (k : Coef4) : Out (Int × Int) := do
  let n ← cfg.cadd k.n k.nx
  let d ← cfg.cadd k.d k.dx
  pure (n, d)

/-- homographic.rs:1024-1026, `value_at_zero` -/
def valueAtZero (k : Coef4) : Int × Int := (k.n, k.d)

/-- homographic.rs:1028-1040, `value_at_one_half` -/
def valueAtOneHalf (cfg : Cfg) (k : Coef4) : Out (Int × Int) :=
  if isOdd k.nx || isOdd k.dx then do
    let n2 ← cfg.cmul k.n 2
    let n ← cfg.cadd k.nx n2
    let d2 ← cfg.cmul k.d 2
    let d ← cfg.cadd k.dx d2
    pure (n, d)
  else do
    let n ← cfg.cadd k.n (half k.nx)
    let d ← cfg.cadd k.d (half k.dx)
    pure (n, d)

/-- homographic.rs:1042-1050, `ingest_amplify` -/
def ingestAmplify (cfg : Cfg) (k : Coef4) : Out Coef4 :=
  if isOdd k.nx || isOdd k.dx then do
    let n ← cfg.cmul k.n 2
    let d ← cfg.cmul k.d 2
    pure { k with n := n, d := d }
  else
    pure { k with nx := half k.nx, dx := half k.dx }

/-- homographic.rs:1052-1057, `ingest_uncover`: add, then swap -/
def ingestUncover (cfg : Cfg) (k : Coef4) : Out Coef4 := do
  let nx ← cfg.cadd k.nx k.n
  let dx ← cfg.cadd k.dx k.d
  pure { nx := k.n, n := nx, dx := k.d, d := dx }

/-- homographic.rs:1002-1007, `is_domain_amenable` (`||` short-circuits) -/
def isDomainAmenable (cfg : Cfg) (mx m : Int) : Out Bool :=
  let s := m.sign
  if s = 0 then pure true
  else do
    let t ← cfg.cadd mx m
    if s = t.sign then pure true
    else do
      let t ← cfg.cadd mx m
      pure (t.sign == 0)

/-- homographic.rs:1009-1011 -/
def isPoleOutsideDomain (cfg : Cfg) (k : Coef4) : Out Bool :=
  isDomainAmenable cfg k.dx k.d

/-- homographic.rs:1013-1015 -/
def isZeroOutsideDomain (cfg : Cfg) (k : Coef4) : Out Bool :=
  isDomainAmenable cfg k.nx k.n

/-- homographic.rs:998-1000 (`&&` short-circuits) -/
def areSingularitiesOutsideDomain (cfg : Cfg) (k : Coef4) : Out Bool :=
  Out.and (isZeroOutsideDomain cfg k) (isPoleOutsideDomain cfg k)

/-- homographic.rs:986-996, `image_extremes` -/
def imageExtremes (cfg : Cfg) (k : Coef4) : Out (Int × Int × Int × Int) :=
  let (n0, d0) := k.valueAtZero
  if n0 = 0 ∧ d0 = 0 then pure (0, 0, 0, 0)
  else do
    let (n1, d1) ← k.valueAtOne cfg
    if n1 = 0 ∧ d1 = 0 then pure (0, 0, 0, 0)
    else updatedRange cfg n0 d0 n0 d0 n1 d1

/-- homographic.rs:966-972, `ground` -/
def ground (cfg : Cfg) (k : Coef4) : Out Coef4 := do
  let dx ← cfg.neg k.dx
  let d ← cfg.neg k.d
  pure { nx := dx, n := d, dx := k.nx, d := k.n }

/-- homographic.rs:974-978, `reflect` -/
def reflect (cfg : Cfg) (k : Coef4) : Out Coef4 := do
  let nx ← cfg.neg k.nx
  let n ← cfg.neg k.n
  pure { k with nx := nx, n := n }

/-- homographic.rs:980-984, `turn` -/
def turn (k : Coef4) : Coef4 := { nx := k.dx, n := k.d, dx := k.nx, d := k.n }

/-- homographic.rs:941-964, `primer_egest`: `Err(0)` is `none`; otherwise the primer
and the mutated coefficients. -/
def primerEgest (cfg : Cfg) (k : Coef4) : Out (Option (Option Primer × Coef4)) := do
  let (nmin, dmin, nmax, dmax) ← k.imageExtremes cfg
  if nmin = 0 ∧ dmin = 0 then pure none
  else do
    let same ← Out.and (pure (areSame nmin dmin nmax dmax)) (isSpecial cfg nmin dmin)
    if same then pure none
    else do
      -- max <= -1
      if !(← greaterThanMinusOne cfg nmax dmax) then do
        let k ← k.ground cfg
        pure (some (some .Ground, k))
      -- min >= 1
      else if !(lessThanOne nmin dmin) then
        pure (some (some .Turn, k.turn))
      else do
        -- min >= -1 && max <= 0
        let negative ← Out.and (Out.not (lessThanMinusOne cfg nmin dmin))
          (pure (!(greaterThanZero nmax dmax)))
        if negative then do
          let k ← k.reflect cfg
          pure (some (some .Reflect, k))
        -- min >= 0 && max <= 1
        else if !(lessThanZero nmin dmin) && !(greaterThanOne nmax dmax) then
          pure (some (none, k))
        else
          pure none

/-- homographic.rs:1118-1124, `uncover`: subtract, then swap -/
def uncover (cfg : Cfg) (k : Coef4) : Out Coef4 := do
  let dx ← cfg.csub k.dx k.nx
  let d ← cfg.csub k.d k.n
  pure { nx := dx, n := d, dx := k.nx, d := k.n }

/-- homographic.rs:1126-1135, `amplify` -/
def amplify (cfg : Cfg) (k : Coef4) : Out Coef4 :=
  if isOdd k.dx || isOdd k.d then do
    let nx ← cfg.cmul k.nx 2
    let n ← cfg.cmul k.n 2
    pure { k with nx := nx, n := n }
  else
    pure { k with dx := half k.dx, d := half k.d }

/-- homographic.rs:1101-1116, `reduction_egest`: `Err(0)` is `none`; otherwise the
symbol and the mutated coefficients. -/
def reductionEgest (cfg : Cfg) (k : Coef4) : Out (Option (Option Reduction × Coef4)) := do
  let (nmin, dmin, nmax, dmax) ← k.imageExtremes cfg
  if lessThanZero nmin dmin then .panic .logicError
  else if greaterThanOne nmax dmax then .panic .logicError
  else do
    let bothHalf ← Out.and (equalToOneHalf cfg nmin dmin) (equalToOneHalf cfg nmax dmax)
    if bothHalf then pure (some (none, k))
    else do
      if !(← greaterThanOneHalf cfg nmax dmax) then do
        let k ← k.amplify cfg
        pure (some (some .Amplify, k))
      else do
        if !(← lessThanOneHalf cfg nmin dmin) then do
          let k ← k.uncover cfg
          pure (some (some .Uncover, k))
        else
          pure none

/-- homographic.rs:1089-1093, the guarded `primer_egest` at the start of `prime`: `none`
when it is not attempted or fails -/
def primerAttempt (cfg : Cfg) (k : Coef4) : Out (Option (Option Primer × Coef4)) := do
  if ← k.areSingularitiesOutsideDomain cfg then k.primerEgest cfg else pure none

/-- homographic.rs:1142-1146, the guarded `reduction_egest` at the start of `egest` -/
def reductionAttempt (cfg : Cfg) (k : Coef4) : Out (Option (Option Reduction × Coef4)) := do
  if ← k.areSingularitiesOutsideDomain cfg then k.reductionEgest cfg else pure none

end Coef4

namespace Homographic

/-- homographic.rs:918-939, `prime_ingest` -/
def primeIngest (cfg : Cfg) (eg : EgestFn) (h : Homographic) :
    Out (Option (Option Special × Option Primer × Option Ratio) × Homographic) := do
  let (r, x) ← eg h.x
  match r with
  | none => do
    let (num, den) ← h.k.valueAtOneHalf cfg
    let res ← Ratio.newI cfg num den
    pure (some res, { h with x := x })
  | some .Amplify => do
    let k ← h.k.ingestAmplify cfg
    pure (none, ⟨x, k⟩)
  | some .Uncover => do
    let k ← h.k.ingestUncover cfg
    pure (none, ⟨x, k⟩)

/-- homographic.rs:1059-1077, `reduction_ingest` -/
def reductionIngest (cfg : Cfg) (eg : EgestFn) (h : Homographic) :
    Out (Option Ratio × Homographic) := do
  let (r, x) ← eg h.x
  match r with
  | none => do
    let (num, den) ← h.k.valueAtOneHalf cfg
    match ← Ratio.newI cfg num den with
    | (none, none, some ratio) => pure (some ratio, { h with x := x })
    | _ => .panic .logicError
  | some .Amplify => do
    let k ← h.k.ingestAmplify cfg
    pure (none, ⟨x, k⟩)
  | some .Uncover => do
    let k ← h.k.ingestUncover cfg
    pure (none, ⟨x, k⟩)

/-- The result tuple of homographic.rs:1079-1086. -/
abbrev Primed := Option Special × Option Primer × Option Ratio × Option Homographic

/-- homographic.rs:1079-1099, `prime` (the debugging `println!` is in `Model/Steps.lean`) -/
def prime (cfg : Cfg) (eg : EgestFn) : Nat → Homographic → Out Primed
  | 0, _ => .timeout
  | f + 1, h => do
    match ← h.k.primerAttempt cfg with
    | some (primer, k) => pure (none, primer, none, some { h with k := k })
    | none => do
      match ← primeIngest cfg eg h with
      | (some (special, primer, ratio), _) => pure (special, primer, ratio, none)
      | (none, h) => prime cfg eg f h

/-- homographic.rs:1138-1152, `Strategy::egest` (the debugging `println!` is in
`Model/Steps.lean`): the `Result` and the mutated struct -/
def egest (cfg : Cfg) (eg : EgestFn) : Nat → Homographic → Out (Egested × Homographic)
  | 0, _ => .timeout
  | f + 1, h => do
    match ← h.k.reductionAttempt cfg with
    | some (reduction, k) => pure (.ok reduction, { h with k := k })
    | none => do
      match ← reductionIngest cfg eg h with
      | (some ratio, h) => pure (.err (.ratio ratio), h)
      | (none, h) => egest cfg eg f h

/-- homographic.rs:852-863, `as_ratio` -/
def asRatio (cfg : Cfg) (n d : Int) : Out Primed := do
  let (special, primer, ratio) ← Ratio.newI cfg n d
  pure (special, primer, ratio, none)

/-- homographic.rs:882-898: pull the primer of the input into the coefficients -/
def absorbPrimer (cfg : Cfg) (p : Option Primer) (k : Coef4) : Out Coef4 :=
  match p with
  | some .Turn => pure { nx := k.n, n := k.nx, dx := k.d, d := k.dx }
  | some .Reflect => do
    let nx ← cfg.neg k.nx
    let dx ← cfg.neg k.dx
    pure { k with nx := nx, dx := dx }
  | some .Ground => do
    let nx ← cfg.neg k.nx
    let dx ← cfg.neg k.dx
    pure { nx := k.n, n := nx, dx := k.d, d := dx }
  | none => pure k

/-- homographic.rs:840-900, `fn new` -/
def new (cfg : Cfg) (eg : EgestFn) (f : Nat) (x : Number) (nx n dx d : Int) : Out Primed :=
  if nx = 0 ∧ dx = 0 then asRatio cfg n d
  else
    match x with
    | .Special .NegOne => do
      let n ← cfg.csub n nx
      let d ← cfg.csub d dx
      asRatio cfg n d
    | .Special .Zero => asRatio cfg n d
    | .Special .PosOne => do
      let n ← cfg.cadd n nx
      let d ← cfg.cadd d dx
      asRatio cfg n d
    | .Other p c => do
      let k ← absorbPrimer cfg p ⟨nx, n, dx, d⟩
      prime cfg eg f ⟨c, k⟩

end Homographic

end Clarith
