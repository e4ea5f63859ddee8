import Verif.SpecSession
import Verif.SpecField

/-! # Specification of a whole session, division by zero included

As in `Verif.SpecSession`, but the values are elements of an ordered field `K`, so that the numbers
returned for a division by zero have values too.  The caller may take the number returned in place
of a new variable `i` for any infinite element they like, here `ω i` or `-ω i`. -/

namespace Clarith.SpecK

open Steps Spec

/-- What is known about the number in a variable: its value, whether reading it can give up with an
integer overflow (`exact`: it cannot), and whether reading it is known to end. -/
structure Known (K : Type*) where
  value : K
  exact : Bool
  ends : Prop

/-- The table: what is known about the number in each variable (`none`: nothing, or there is no
number), and the variable for the next new number. -/
structure Table (K : Type*) where
  var : Nat → Option (Known K)
  next : Nat

namespace Table

/-- No numbers. -/
def start (K : Type*) : Table K := ⟨fun _ => none, 0⟩

variable {K : Type*}

/-- Write an entry. -/
def set (t : Table K) (i : Nat) (v : Option (Known K)) : Table K :=
  { t with var := fun j => if j = i then v else t.var j }

/-- An entry for a new number. -/
def push (t : Table K) (v : Option (Known K)) : Table K :=
  { t.set t.next v with next := t.next + 1 }

/-- Strike out the entries of some variables. -/
def forget (t : Table K) : List Nat → Table K
  | [] => t
  | i :: l => (t.set i none).forget l

end Table

variable {K : Type*} [Field K] [LinearOrder K]

/-- How a number is represented (doc comments of src/protocol.rs:63-84): as one of the three
special values, or as a primer and a number in (0,1). -/
def shape (q : K) : Special ⊕ (Option Primer × K) :=
  if q = 0 then .inl .Zero
  else if q = 1 then .inl .PosOne
  else if q = -1 then .inl .NegOne
  else if 1 < q then .inr (some .Turn, 1 / q)
  else if 0 < q then .inr (none, q)
  else if -1 < q then .inr (some .Reflect, -q)
  else .inr (some .Ground, -(1 / q))

/-- What is seen of a number with this value. -/
def faceOf (q : K) : Face :=
  match shape q with
  | .inl s => .special s
  | .inr (p, _) => .other p

/-- The order of two values. -/
def order (q r : K) : Ordering := if q < r then .lt else if q = r then .eq else .gt

/-- The first symbol of a number in (0,1). -/
def firstSymbol (x : K) : Option Reduction :=
  if x < 1 / 2 then some .Amplify else if 1 / 2 < x then some .Uncover else none

/-- The number in (0,1) left after the first symbol. -/
def afterSymbol (x : K) : K :=
  if x < 1 / 2 then 2 * x else if 1 / 2 < x then 1 / x - 1 else x

/-- The symbols of two numbers differ, or end. -/
def Tell (q r : K) : Prop :=
  match shape q, shape r with
  | .inr (_, x), .inr (_, y) => ∃ k, symbolsIn k x ≠ symbolsIn k y ∨ none ∈ symbolsIn k x
  | _, _ => True

/-- Is one of them a special value? -/
def OneSpecial (q r : K) : Prop :=
  match shape q, shape r with
  | .inr _, .inr _ => False
  | _, _ => True

/-- The calls that are sure to return or to panic: only operands that are not fractions can make a
call go on forever. -/
def Sure (t : Table K) : Call → Prop
  | .homographic x nx n dx d =>
    match t.var x with
    | some q => (nx = 0 ∧ dx = 0) ∨ (q.ends ∧ (IsFraction q.value ∨
        ((dx : K) * q.value + d ≠ 0 ∧ nx * d ≠ n * dx)))
    | none => False
  | .combine x y nxy nx ny n dxy dx dy d =>
    x ≠ y ∧ match t.var x, t.var y with
      | some q, some r => q.ends ∧ r.ends ∧ ((IsFraction q.value ∧ IsFraction r.value) ∨
        ((IsFraction q.value ∨ IsFraction r.value) ∧
          (dxy : K) * q.value * r.value + dx * q.value + dy * r.value + d ≠ 0 ∧
          NotFraction ((nxy * q.value * r.value + nx * q.value + ny * r.value + n) /
            (dxy * q.value * r.value + dx * q.value + dy * r.value + d))))
      | _, _ => False
  | .egest x | .consume x =>
    match t.var x with
    | some q => q.ends ∨ ∃ s, shape q.value = .inl s
    | none => False
  | .compare x y =>
    x ≠ y ∧ match t.var x, t.var y with
      | some q, some r => OneSpecial q.value r.value ∨ (q.ends ∧ r.ends ∧ Tell q.value r.value)
      | _, _ => False
  | .reprime x _ | .unwrapSpecial x => t.var x ≠ none
  | .ratio _ _ | .ratioU _ _ _ | .special _ => True

/-- What a call should do. -/
inductive Outcome (K : Type*) where
  /-- Nothing is promised. -/
  | free
  /-- The compiler does not let the call through: `egest` on a special value. -/
  | refuse
  /-- The call panics. -/
  | reject (p : Panic)
  /-- The call makes a number with this value; `sure`: without panic. -/
  | makes (v : Known K) (sure : Bool)
  /-- The call divides by zero: it panics, or, if `possible`, it makes an infinite number. -/
  | pole (possible : Prop)
  /-- The call answers the first symbol of the number `x` in (0,1), after primer `p`. -/
  | reads (i : Nat) (p : Option Primer) (x : K) (v : Known K)
  /-- The call reads some of the symbols of a number with this value. -/
  | consumes (v : Known K)
  /-- The call answers the order of two numbers. -/
  | orders (o : Ordering) (exact : Bool)
  /-- The call answers a special value. -/
  | fixes (s : Special)

/-- What a call should do, from the values of the numbers.  Nothing is promised when the value of
an operand is not known or when the same variable is named twice. -/
def outcome (cfg : Cfg) (t : Table K) : Call → Outcome K
  | .ratio num den =>
    if num = cfg.imin ∨ den = cfg.imin then .reject .arithOverflow
    else if den = 0 then .reject .divisionByZero
    else .makes ⟨(num : K) / den, true, True⟩ true
  | .ratioU positive num den =>
    if den = 0 then .reject .divisionByZero
    else .makes ⟨(if positive then 1 else -1) * ((num : K) / den), true, True⟩ true
  | .homographic x nx n dx d =>
    match t.var x with
    | some q =>
      if (dx : K) * q.value + d = 0 then .pole (dx = 0 ∧ d = 0)
      else .makes ⟨(nx * q.value + n) / (dx * q.value + d), false,
        Sure t (.homographic x nx n dx d)⟩ false
    | none => .free
  | .combine x y nxy nx ny n dxy dx dy d =>
    if x = y then .free
    else match t.var x, t.var y with
      | some q, some r =>
        if (dxy : K) * q.value * r.value + dx * q.value + dy * r.value + d = 0 then .pole True
        else .makes ⟨(nxy * q.value * r.value + nx * q.value + ny * r.value + n) /
          (dxy * q.value * r.value + dx * q.value + dy * r.value + d), false,
          Sure t (.combine x y nxy nx ny n dxy dx dy d)⟩ false
      | _, _ => .free
  | .egest x =>
    match t.var x with
    | some q =>
      match shape q.value with
      | .inl _ => .refuse
      | .inr (p, v) => .reads x p v q
    | none => .free
  | .consume x =>
    match t.var x with
    | some q => .consumes q
    | none => .free
  | .compare x y =>
    if x = y then .free
    else match t.var x, t.var y with
      | some q, some r => .orders (order q.value r.value) (q.exact && r.exact)
      | _, _ => .free
  | .special s => .makes ⟨specialIn K s, true, True⟩ true
  | .reprime x p =>
    match t.var x with
    | some q =>
      match shape q.value with
      | .inl _ => .reject .notOther
      | .inr (_, v) => .makes ⟨primerIn p v, q.exact, q.ends⟩ true
    | none => .free
  | .unwrapSpecial x =>
    match t.var x with
    | some q =>
      match shape q.value with
      | .inl s => .fixes s
      | .inr _ => .reject .notSpecial
    | none => .free

/-- The call `a` made with table `t` is right to answer `r`, and leaves the table `t'`.  A call
that gives up with a panic uses its operands up. -/
def Right (cfg : Cfg) (ω : Nat → K) (t : Table K) (a : Call) (r : Res Answer) (t' : Table K) :
    Prop :=
  match outcome cfg t a with
  | .free => r ≠ .shared ∧
      t' = if bears r then (t.forget (operands a)).push none else t.forget (operands a)
  | .refuse => r = .ok .refused ∧ t' = t
  | .reject p => r = .panic p ∧ t' = t.forget (operands a)
  | .makes v sure =>
      (r = .ok (.made (faceOf v.value)) ∧ t' = (t.forget (operands a)).push (some v)) ∨
      (givesUp sure r ∧ t' = t.forget (operands a))
  | .pole possible =>
      (possible ∧ ∃ w, (w = ω t.next ∨ w = -ω t.next) ∧ r = .ok (.made (faceOf w)) ∧
        t' = (t.forget (operands a)).push (some ⟨w, false, True⟩)) ∨
      ((∃ p, r = .panic p ∧ OverflowOrDivision p) ∧ t' = t.forget (operands a))
  | .reads i p x v =>
      (r = .ok (.symbol (firstSymbol x)) ∧
        t' = t.set i (some ⟨primerIn p (afterSymbol x), v.exact, v.ends⟩)) ∨
      (givesUp v.exact r ∧ t' = t.forget (operands a))
  | .consumes v =>
      (∃ k : Coef4, r = .ok (.consumed none k) ∧ (k.dx : K) / 2 + k.d ≠ 0 ∧
        ((k.nx : K) / 2 + k.n) / (k.dx / 2 + k.d) = v.value ∧ t' = t.forget (operands a)) ∨
      (∃ (k : Coef4) (x : K), r = .ok (.consumed (some (.other none)) k) ∧ 0 < x ∧ x < 1 ∧
        (k.dx : K) * x + k.d ≠ 0 ∧ (k.nx * x + k.n) / (k.dx * x + k.d) = v.value ∧
        t' = (t.forget (operands a)).push (some ⟨x, v.exact, v.ends⟩)) ∨
      (givesUp v.exact r ∧ t' = t.forget (operands a))
  | .orders o exact =>
      (r = .ok (.order o) ∧ t' = t.forget (operands a)) ∨
      (givesUp exact r ∧ t' = t.forget (operands a))
  | .fixes s => r = .ok (.fixed s) ∧ t' = t.forget (operands a)

/-- The answers to the calls are right, one after the other.  A call that does not return is the
last one; `patient`: it is not one that is sure to end. -/
def Rights (cfg : Cfg) (ω : Nat → K) (patient : Bool) :
    Table K → List Call → List (Res Answer) → Prop
  | _, [], l => l = []
  | t, a :: calls, l =>
    (l = [.timeout] ∧ (patient = true → ¬Sure t a)) ∨
    (∃ r t' l', l = r :: l' ∧ r ≠ .timeout ∧ Right cfg ω t a r t' ∧
      Rights cfg ω patient t' calls l')

end Clarith.SpecK
