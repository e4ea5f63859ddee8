import Verif.Spec

/-! # Running the project's own tests on the model

The unit tests in `/repo` are evaluated by the kernel on the model.  They are tests of the model's
faithfulness, not proofs: a model that disagreed with the code the tests were written for would
fail here. -/

namespace Clarith.Tests

/-- A 64 bit debug build and a 32 bit release build. -/
def bothBuilds (p : Cfg → Bool) : Bool := p debug64 && p ⟨32, by decide, false⟩

/-- 16 bit, debug and release: for the tests that read a hundred symbols (thousands on 64 bit; for
those see also C30). -/
def both16 (p : Cfg → Bool) : Bool := p ⟨16, by decide, true⟩ && p ⟨16, by decide, false⟩

/-- Enough fuel for every test below. -/
def fuel : Nat := 150

/-- `Number::compare(Number::ratio(n, d), Number::ratio(n', d')) == o` -/
def compares (cfg : Cfg) (n d n' d' : Int) (o : Ordering) : Bool :=
  (do let x ← Number.ratio cfg n d
      let y ← Number.ratio cfg n' d'
      Number.compare cfg fuel x y) == .ok o

/-- `compare(Number::homographic(Number::ratio(n, d), ..), Number::ratio(n', d'))` is `Equal` -/
def maps (cfg : Cfg) (n d nx n0 dx d0 n' d' : Int) : Bool :=
  (do let x ← Number.ratio cfg n d
      let z ← Number.homographic cfg fuel x nx n0 dx d0
      let y ← Number.ratio cfg n' d'
      Number.compare cfg fuel z y) == .ok .eq

/-- `Number::homographic(Number::ratio(n, d), ..)` panics with "division by zero" -/
def divides (cfg : Cfg) (n d nx n0 dx d0 : Int) : Bool :=
  match (do let x ← Number.ratio cfg n d
            Number.homographic cfg fuel x nx n0 dx d0) with
  | .panic .divisionByZero => true
  | _ => false

/-- homographic.rs:640-650 `consume`: read a clog until `None` -/
def readAll (cfg : Cfg) : Nat → Clog → Out Unit
  | 0, _ => .timeout
  | f + 1, c => do
    let (r, c) ← Clog.egest cfg fuel c
    match r with
    | none => pure ()
    | some _ => readAll cfg f c

/-- `consume(Number::homographic(Number::ratio(n, d), ..))` -/
def consumed (cfg : Cfg) (n d nx n0 dx d0 : Int) : Out Unit := do
  let x ← Number.ratio cfg n d
  let z ← Number.homographic cfg fuel x nx n0 dx d0
  let (_, c) ← z.unwrapOther
  readAll cfg 1000 c

/-- `compare(Number::combine(Number::ratio(n, d), Number::ratio(n', d'), ..),
Number::ratio(n'', d''))` is `Equal` -/
def combines (cfg : Cfg) (n d n' d' : Int) (nxy nx ny n0 dxy dx dy d0 : Int) (n'' d'' : Int) :
    Bool :=
  (do let x ← Number.ratio cfg n d
      let y ← Number.ratio cfg n' d'
      let z ← Number.combine cfg fuel x y nxy nx ny n0 dxy dx dy d0
      let r ← Number.ratio cfg n'' d''
      Number.compare cfg fuel z r) == .ok .eq

end Clarith.Tests
