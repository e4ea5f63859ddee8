import Verif.Model.Stdout
import Verif.Model.Main

/-! # `src/main.rs` once more: the stream of its standard output

`Model/Main.lean` has the text of a call that ends.  Here every `print!` is a step, the debugging
lines of homographic.rs go to the same stream, and what was printed before a panic is kept.  The
namespace `Screen` takes every piece as written; `Screen.Failing` has `print!`s that panic.

Not modelled: what becomes of the text of a piece that could not be written. -/

namespace Clarith.Steps

/-- A piece of text handed to standard output: by a `print!` of main.rs, or a line
`println!("{} {} {} {}", ..)` of homographic.rs -/
inductive Piece where
  | text (t : List Char)
  | line (k : Coef4)
deriving DecidableEq, Repr

namespace Screen

/-- `print!` and `println!` in main.rs -/
def print (t : List Char) : Mut (World × List Piece) Unit := fun s =>
  (.ok (), (s.1, s.2 ++ [.text t]))

/-- `c.egest()` in main.rs:73.  The lines it prints follow what has been printed. -/
def egest (cfg : Cfg) (f : Nat) : Mut (Obj × World × List Piece) (Option Reduction) := fun s =>
  let r := Steps.egest cfg f (s.1, s.2.1)
  (r.1, (r.2.1, r.2.2, s.2.2 ++ (r.2.2.printed.drop s.2.1.printed.length).map .line))

/-- Print, with a clog at hand. -/
def beside (m : Mut (World × List Piece) Unit) : Mut (Obj × World × List Piece) Unit :=
  Mut.part (fun s => s.2) (fun t s => (s.1, t)) m

/-- src/main.rs:70-82, `logc` (the loop takes fuel) -/
def logc (cfg : Cfg) (f : Nat) : Nat → Mut (Obj × World × List Piece) Unit
  | 0 => Mut.timeout
  | j + 1 => do
    match ← egest cfg f with
    | none => beside (print ['H'])
    | some r => do
      beside (print (Clarith.Main.logr r))
      logc cfg f j

/-- src/main.rs:28-40, `logn` (the clog is dropped at the end) -/
def logn (cfg : Cfg) (f : Nat) : Number → Mut (World × List Piece) Unit
  | .Special s => print (Clarith.Main.logs s)
  | .Other op c => do
    (match op with
      | some p => print (Clarith.Main.logp p)
      | none => pure ())
    fun s =>
      let r := logc cfg f f (c, s)
      (r.1, r.2.2)

/-- The three statements repeated in src/main.rs:5-26: `print!` a label, `logn` a ratio,
`println!("")`. -/
def line (cfg : Cfg) (f : Nat) (label : List Char) (num den : Int) :
    Mut (World × List Piece) Unit := do
  print label
  let x ← Mut.part (fun s => s.1) (fun w s => (w, s.2)) (Number.ratio cfg num den)
  logn cfg f x
  print ['\n']

/-- src/main.rs:7-12, the body of the loop.  (The argument `n * 10 + 5` of `ratio` is evaluated after
the label has been printed.) -/
def body (cfg : Cfg) (f : Nat) (n : Int) : Mut (World × List Piece) Unit := do
  line cfg f (Clarith.Main.pad2 n ++ ".0: ".toList) n 1
  print (Clarith.Main.pad2 n ++ ".5: ".toList)
  let m ← Mut.eval (cfg.mul n 10)
  let m ← Mut.eval (cfg.add m 5)
  let x ← Mut.part (fun s => s.1) (fun w s => (w, s.2)) (Number.ratio cfg m 10)
  logn cfg f x
  print ['\n']

/-- src/main.rs:6-13, the loop over the integers in the list -/
def loop (cfg : Cfg) (f : Nat) : List Int → Mut (World × List Piece) Unit
  | [] => pure ()
  | n :: ns => do
    body cfg f n
    loop cfg f ns

/-- src/main.rs:5-26, `main` -/
def main (cfg : Cfg) (f : Nat) : Mut (World × List Piece) Unit := do
  loop cfg f [0, 1, 2, 3, 4, 5, 6, 7, 8, 9, 10, 11, 12, 13, 14, 15, 16]
  line cfg f (Clarith.Main.digits cfg.imax ++ ": ".toList) cfg.imax 1
  line cfg f ("1/".toList ++ Clarith.Main.digits cfg.imax ++ ": ".toList) 1 cfg.imax
  line cfg f "-2: ".toList (-2) 1

/-! ## The same with `print!`s that may panic: `ok i` says whether piece `i` can be written -/

namespace Failing

open Stdout Stdout.Prog

/-- `print!` and `println!` in main.rs -/
def print (ok : Nat → Bool) (t : List Char) : Prog (World × List Piece) Unit := fun s =>
  (if ok s.2.length then some (.ok ()) else none, (s.1, s.2 ++ [.text t]))

/-- `c.egest()` in main.rs:73.  Its next line is the next piece. -/
def egest (cfg : Cfg) (ok : Nat → Bool) (f : Nat) :
    Prog (Obj × World × List Piece) (Option Reduction) := fun s =>
  let r := Stdout.egest cfg (fun i => ok (s.2.2.length + (i - s.2.1.printed.length))) f (s.1, s.2.1)
  (r.1, (r.2.1, r.2.2, s.2.2 ++ (r.2.2.printed.drop s.2.1.printed.length).map .line))

/-- Print, with a clog at hand. -/
def beside (m : Prog (World × List Piece) Unit) : Prog (Obj × World × List Piece) Unit :=
  part (fun s => s.2) (fun t s => (s.1, t)) m

/-- src/main.rs:70-82, `logc` -/
def logc (cfg : Cfg) (ok : Nat → Bool) (f : Nat) : Nat → Prog (Obj × World × List Piece) Unit
  | 0 => quiet Mut.timeout
  | j + 1 => do
    match ← egest cfg ok f with
    | none => beside (print ok ['H'])
    | some r => do
      beside (print ok (Clarith.Main.logr r))
      logc cfg ok f j

/-- src/main.rs:28-40, `logn` -/
def logn (cfg : Cfg) (ok : Nat → Bool) (f : Nat) : Number → Prog (World × List Piece) Unit
  | .Special s => print ok (Clarith.Main.logs s)
  | .Other op c => do
    (match op with
      | some p => print ok (Clarith.Main.logp p)
      | none => quiet (pure ()))
    fun s =>
      let r := logc cfg ok f f (c, s)
      (r.1, r.2.2)

/-- See `Screen.line`. -/
def line (cfg : Cfg) (ok : Nat → Bool) (f : Nat) (label : List Char) (num den : Int) :
    Prog (World × List Piece) Unit := do
  print ok label
  let x ← quiet (Mut.part (fun s => s.1) (fun w s => (w, s.2)) (Number.ratio cfg num den))
  logn cfg ok f x
  print ok ['\n']

/-- src/main.rs:7-12 -/
def body (cfg : Cfg) (ok : Nat → Bool) (f : Nat) (n : Int) : Prog (World × List Piece) Unit := do
  line cfg ok f (Clarith.Main.pad2 n ++ ".0: ".toList) n 1
  print ok (Clarith.Main.pad2 n ++ ".5: ".toList)
  let m ← quiet (Mut.eval (cfg.mul n 10))
  let m ← quiet (Mut.eval (cfg.add m 5))
  let x ← quiet (Mut.part (fun s => s.1) (fun w s => (w, s.2)) (Number.ratio cfg m 10))
  logn cfg ok f x
  print ok ['\n']

/-- src/main.rs:6-13 -/
def loop (cfg : Cfg) (ok : Nat → Bool) (f : Nat) : List Int → Prog (World × List Piece) Unit
  | [] => quiet (pure ())
  | n :: ns => do
    body cfg ok f n
    loop cfg ok f ns

/-- src/main.rs:5-26, `main` -/
def main (cfg : Cfg) (ok : Nat → Bool) (f : Nat) : Prog (World × List Piece) Unit := do
  loop cfg ok f [0, 1, 2, 3, 4, 5, 6, 7, 8, 9, 10, 11, 12, 13, 14, 15, 16]
  line cfg ok f (Clarith.Main.digits cfg.imax ++ ": ".toList) cfg.imax 1
  line cfg ok f ("1/".toList ++ Clarith.Main.digits cfg.imax ++ ": ".toList) 1 cfg.imax
  line cfg ok f "-2: ".toList (-2) 1

end Failing

end Screen

end Clarith.Steps
