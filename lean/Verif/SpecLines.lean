import Verif.SpecSession

/-! # Specification of how much is printed

src/strategy/homographic.rs:1088 and 1141 print a line to standard output in every round of `prime`
and of `egest`.  Here is how many lines a caller has to expect: every call is charged a number of
lines, which depends only on the values of the numbers in its table (`Verif/SpecSession.lean`). -/

namespace Clarith.Spec

open Steps

/-- The number of symbols of a rational: none for the special values. -/
def Symbols (q : ℚ) (L : Nat) : Prop :=
  match shape q with
  | .inl _ => L = 0
  | .inr (_, x) => ∃ l, Expands x l ∧ l.length = L

/-- What is charged for reading one symbol, or the end, of a number: a line, if the number is the
result of `homographic` or `combine` (or is made from such a result). -/
def rate (q : Known) : Nat := if q.exact then 0 else 1

/-- What is charged for a number with `L` symbols when it is the only operand: every symbol and the
end are read, with a line before each. -/
def alone (q : Known) (L : Nat) : Nat :=
  match shape q.value with
  | .inl _ => 0
  | .inr _ => rate q * (L + 1) + (L + 1)

/-- What is charged for two operands with `L` and `L'` symbols.  As long as both have symbols left
no line is printed.  The symbols of the longer one beyond that are printed like those of a single
operand (the first operand is the first to be read). -/
def both (q q' : Known) (L L' : Nat) : Nat :=
  match shape q.value, shape q'.value with
  | .inl _, _ => alone q' L'
  | .inr _, .inl _ => alone q L
  | .inr _, .inr _ =>
    rate q * (L + 1) + rate q' * (L' + 1) + (if L ≤ L' then L' - L + 1 else L - L')

/-- The lines that a call is charged. -/
def Charge (t : Table) : Call → Nat → Prop
  | .homographic x _ _ _ _, n => ∃ q L, t.var x = some q ∧ Symbols q.value L ∧ n = alone q L
  | .combine x y _ _ _ _ _ _ _ _, n => ∃ q q' L L', t.var x = some q ∧ t.var y = some q' ∧
      Symbols q.value L ∧ Symbols q'.value L' ∧ n = both q q' L L'
  | .egest x, n => ∃ q, t.var x = some q ∧ n = rate q
  | .consume x, n => ∃ q L, t.var x = some q ∧ Symbols q.value L ∧ n = rate q * (L + 1)
  | .compare x y, n => ∃ q q' L L', t.var x = some q ∧ t.var y = some q' ∧
      Symbols q.value L ∧ Symbols q'.value L' ∧ n = (rate q + rate q') * (min L L' + 1)
  | _, n => n = 0

/-- The number of lines printed so far. -/
def linesOf (c : Caller) : Nat := c.world.printed.length

/-- At all times at most as many lines have been printed as have been charged.  `N` has been charged
before.  A call about which nothing is promised is charged what it prints. -/
def Accounts (cfg : Cfg) (f : Nat) : Table → List Call → Caller → Nat → Prop
  | _, [], c, N => linesOf c ≤ N
  | t, a :: calls, c, N => linesOf c ≤ N ∧ ∃ n,
    (outcome cfg t a ≠ .free → Charge t a n) ∧
    (outcome cfg t a = .free → n = linesOf (Caller.call cfg f a c).2 - linesOf c) ∧
    (((Caller.call cfg f a c).1 = .timeout ∧ linesOf (Caller.call cfg f a c).2 ≤ N + n) ∨
    ((Caller.call cfg f a c).1 ≠ .timeout ∧ ∃ t', Right cfg t a (Caller.call cfg f a c).1 t' ∧
      Accounts cfg f t' calls (Caller.call cfg f a c).2 (N + n)))

end Clarith.Spec
