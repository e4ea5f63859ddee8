import Verif.Model.Number

/-! # Model of `src/main.rs`: the text printed for a number, and the demonstration program

The outcome of a printing function is the text it prints.  Text printed before a panic is not
modelled. -/

namespace Clarith.Main

/-- src/main.rs:42-54, `logs` -/
def logs : Special → List Char
  | .Zero => ['Z']
  | .PosOne => ['P']
  | .NegOne => ['N']

/-- src/main.rs:56-68, `logp` -/
def logp : Primer → List Char
  | .Turn => ['T']
  | .Reflect => ['R']
  | .Ground => ['G']

/-- src/main.rs:84-93, `logr` -/
def logr : Reduction → List Char
  | .Amplify => ['A']
  | .Uncover => ['U']

/-- src/main.rs:70-82, `logc` (the loop takes fuel) -/
def logc (cfg : Cfg) (eg : EgestFn) : Nat → Clog → Out (List Char)
  | 0, _ => .timeout
  | f + 1, c => do
    let (r, c) ← eg c
    match r with
    | none => pure ['H']
    | some r => do
      let rest ← logc cfg eg f c
      pure (logr r ++ rest)

/-- src/main.rs:28-40, `logn` -/
def logn (cfg : Cfg) (f : Nat) : Number → Out (List Char)
  | .Special s => pure (logs s)
  | .Other op c => do
    let rest ← logc cfg (Clog.egest cfg f) f c
    pure ((match op with | some p => logp p | none => []) ++ rest)

/-- Decimal digits of an `isize`, as printed by `{}`. -/
def digits (n : Int) : List Char := (toString n).toList

/-- The format `{: >2}`: right aligned in two columns. -/
def pad2 (n : Int) : List Char :=
  List.replicate (2 - (digits n).length) ' ' ++ digits n

/-- The three statements repeated in src/main.rs:5-26: `print!` a label, `logn` a ratio,
`println!("")`. -/
def line (cfg : Cfg) (f : Nat) (label : List Char) (num den : Int) : Out (List Char) := do
  let x ← Number.ratio cfg num den
  let t ← logn cfg f x
  pure (label ++ t ++ ['\n'])

/-- src/main.rs:7-12, the body of the loop (`n` is an `isize`; `n * 10 + 5` is unchecked) -/
def body (cfg : Cfg) (f : Nat) (n : Int) : Out (List Char) := do
  let a ← line cfg f (pad2 n ++ ".0: ".toList) n 1
  let m ← cfg.mul n 10
  let m ← cfg.add m 5
  let b ← line cfg f (pad2 n ++ ".5: ".toList) m 10
  pure (a ++ b)

/-- src/main.rs:6-13, the loop over the integers in the list -/
def loop (cfg : Cfg) (f : Nat) : List Int → Out (List Char)
  | [] => pure []
  | n :: ns => do
    let a ← body cfg f n
    let b ← loop cfg f ns
    pure (a ++ b)

/-- src/main.rs:5-26, `main`: what the program prints -/
def main (cfg : Cfg) (f : Nat) : Out (List Char) := do
  let a ← loop cfg f [0, 1, 2, 3, 4, 5, 6, 7, 8, 9, 10, 11, 12, 13, 14, 15, 16]
  let b ← line cfg f (digits cfg.imax ++ ": ".toList) cfg.imax 1
  let c ← line cfg f ("1/".toList ++ digits cfg.imax ++ ": ".toList) 1 cfg.imax
  let d ← line cfg f "-2: ".toList (-2) 1
  pure (a ++ b ++ c ++ d)

end Clarith.Main
