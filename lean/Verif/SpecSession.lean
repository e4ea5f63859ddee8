import Verif.Spec
import Verif.Model.Steps
import Verif.Properties.Compare
import Verif.Properties.Combine

/-! # Specification of a whole session

What a caller who makes any calls of the public functions one after the other, each inside
`catch_unwind`, may count on.  Only rational numbers are used: the caller keeps a table with the
values of the numbers in its variables, as far as they are known. -/

namespace Clarith.Spec

open Steps

/-- How a rational is represented (doc comments of src/protocol.rs:63-84): as one of the three
special values, or as a primer and a number in (0,1). -/
def shape (q : ℚ) : Special ⊕ (Option Primer × ℚ) :=
  if q = 0 then .inl .Zero
  else if q = 1 then .inl .PosOne
  else if q = -1 then .inl .NegOne
  else if 1 < q then .inr (some .Turn, 1 / q)
  else if 0 < q then .inr (none, q)
  else if -1 < q then .inr (some .Reflect, -q)
  else .inr (some .Ground, -(1 / q))

/-- What is seen of a number with this value. -/
def faceOf (q : ℚ) : Face :=
  match shape q with
  | .inl s => .special s
  | .inr (p, _) => .other p

/-- What is known about the number in a variable: its value, and whether reading it can give up
with an integer overflow. -/
structure Known where
  value : ℚ
  exact : Bool

/-- The table: what is known about the number in each variable (`none`: nothing, or there is no
number), and the variable for the next new number. -/
structure Table where
  var : Nat → Option Known
  next : Nat

namespace Table

/-- No numbers. -/
def start : Table := ⟨fun _ => none, 0⟩

/-- Write an entry. -/
def set (t : Table) (i : Nat) (v : Option Known) : Table :=
  { t with var := fun j => if j = i then v else t.var j }

/-- An entry for a new number. -/
def push (t : Table) (v : Option Known) : Table := { t.set t.next v with next := t.next + 1 }

/-- Strike out the entries of some variables. -/
def forget (t : Table) : List Nat → Table
  | [] => t
  | i :: l => (t.set i none).forget l

end Table

/-- The variables named in a call. -/
def operands : Call → List Nat
  | .ratio _ _ | .ratioU _ _ _ => []
  | .homographic x _ _ _ _ => [x]
  | .combine x y _ _ _ _ _ _ _ _ => [x, y]
  | .egest x => [x]
  | .consume x => [x]
  | .compare x y => [x, y]
  | .special _ => []
  | .reprime x _ => [x]
  | .unwrapSpecial x => [x]

/-- What a call should do. -/
inductive Outcome where
  /-- Nothing is promised. -/
  | free
  /-- The compiler does not let the call through: `egest` on a special value. -/
  | refuse
  /-- The call panics. -/
  | reject (p : Panic)
  /-- The call makes a number with this value; `sure`: without panic. -/
  | makes (v : Known) (sure : Bool)
  /-- The call answers the first symbol of the number `x` in (0,1), after primer `p`. -/
  | reads (i : Nat) (p : Option Primer) (x : ℚ) (exact : Bool)
  /-- The call reads some of the symbols of a number with this value. -/
  | consumes (v : Known)
  /-- The call answers the order of two numbers. -/
  | orders (o : Ordering) (exact : Bool)
  /-- The call answers a special value. -/
  | fixes (s : Special)

/-- What a call should do, from the values of the numbers.  Nothing is promised when the value of
an operand is not known, when a denominator vanishes, or when the same variable is named twice. -/
def outcome (cfg : Cfg) (t : Table) : Call → Outcome
  | .ratio num den =>
    if num = cfg.imin ∨ den = cfg.imin then .reject .arithOverflow
    else if den = 0 then .reject .divisionByZero
    else .makes ⟨(num : ℚ) / den, true⟩ true
  | .ratioU positive num den =>
    if den = 0 then .reject .divisionByZero
    else .makes ⟨(if positive then 1 else -1) * ((num : ℚ) / den), true⟩ true
  | .homographic x nx n dx d =>
    match t.var x with
    | some q =>
      if (dx : ℚ) * q.value + d = 0 then .free
      else .makes ⟨(nx * q.value + n) / (dx * q.value + d), false⟩ false
    | none => .free
  | .combine x y nxy nx ny n dxy dx dy d =>
    if x = y then .free
    else match t.var x, t.var y with
      | some q, some r =>
        if (dxy : ℚ) * q.value * r.value + dx * q.value + dy * r.value + d = 0 then .free
        else .makes ⟨(nxy * q.value * r.value + nx * q.value + ny * r.value + n) /
          (dxy * q.value * r.value + dx * q.value + dy * r.value + d), false⟩ false
      | _, _ => .free
  | .egest x =>
    match t.var x with
    | some q =>
      match shape q.value with
      | .inl _ => .refuse
      | .inr (p, v) => .reads x p v q.exact
    | none => .free
  | .consume x =>
    match t.var x with
    | some q => .consumes q
    | none => .free
  | .compare x y =>
    if x = y then .free
    else match t.var x, t.var y with
      | some q, some r => .orders (order q.value r.value) (q.exact && r.exact)
      | _, _ => .free
  | .special s => .makes ⟨specialValue s, true⟩ true
  | .reprime x p =>
    match t.var x with
    | some q =>
      match shape q.value with
      | .inl _ => .reject .notOther
      | .inr (_, v) => .makes ⟨applyPrimer p v, q.exact⟩ true
    | none => .free
  | .unwrapSpecial x =>
    match t.var x with
    | some q =>
      match shape q.value with
      | .inl s => .fixes s
      | .inr _ => .reject .notSpecial
    | none => .free

/-- The first symbol of a number in (0,1). -/
def firstSymbol (x : ℚ) : Option Reduction :=
  if x < 1 / 2 then some .Amplify else if 1 / 2 < x then some .Uncover else none

/-- The number in (0,1) left after the first symbol. -/
def afterSymbol (x : ℚ) : ℚ :=
  if x < 1 / 2 then 2 * x else if 1 / 2 < x then 1 / x - 1 else x

/-- Does this answer come with a new number? -/
def bears : Res Answer → Bool
  | .ok (.made _) | .ok (.consumed (some _) _) => true
  | _ => false

/-- The call gives up with an integer overflow; never if it is `sure` not to. -/
def givesUp (sure : Bool) (r : Res Answer) : Prop :=
  sure = false ∧ ∃ p, r = .panic p ∧ Overflow p

/-- The call `a` made with table `t` is right to answer `r`, and leaves the table `t'`.  A call
that gives up with a panic uses its operands up. -/
def Right (cfg : Cfg) (t : Table) (a : Call) (r : Res Answer) (t' : Table) : Prop :=
  match outcome cfg t a with
  | .free => r ≠ .shared ∧
      t' = if bears r then (t.forget (operands a)).push none else t.forget (operands a)
  | .refuse => r = .ok .refused ∧ t' = t
  | .reject p => r = .panic p ∧ t' = t.forget (operands a)
  | .makes v sure =>
      (r = .ok (.made (faceOf v.value)) ∧ t' = (t.forget (operands a)).push (some v)) ∨
      (givesUp sure r ∧ t' = t.forget (operands a))
  | .reads i p x exact =>
      (r = .ok (.symbol (firstSymbol x)) ∧
        t' = t.set i (some ⟨applyPrimer p (afterSymbol x), exact⟩)) ∨
      (givesUp exact r ∧ t' = t.forget (operands a))
  | .consumes v =>
      (∃ k : Coef4, r = .ok (.consumed none k) ∧ (k.dx : ℚ) / 2 + k.d ≠ 0 ∧
        ((k.nx : ℚ) / 2 + k.n) / (k.dx / 2 + k.d) = v.value ∧ t' = t.forget (operands a)) ∨
      (∃ (k : Coef4) (x : ℚ), r = .ok (.consumed (some (.other none)) k) ∧ 0 < x ∧ x < 1 ∧
        (k.dx : ℚ) * x + k.d ≠ 0 ∧ (k.nx * x + k.n) / (k.dx * x + k.d) = v.value ∧
        t' = (t.forget (operands a)).push (some ⟨x, v.exact⟩)) ∨
      (givesUp v.exact r ∧ t' = t.forget (operands a))
  | .orders o exact =>
      (r = .ok (.order o) ∧ t' = t.forget (operands a)) ∨
      (givesUp exact r ∧ t' = t.forget (operands a))
  | .fixes s => r = .ok (.fixed s) ∧ t' = t.forget (operands a)

/-- The answers to the calls are right, one after the other.  A call that does not return is the
last one; `patient`: it is a call about which nothing is promised. -/
def Rights (cfg : Cfg) (patient : Bool) : Table → List Call → List (Res Answer) → Prop
  | _, [], l => l = []
  | t, a :: calls, l =>
    (l = [.timeout] ∧ (patient = true → outcome cfg t a = .free)) ∨
    (∃ r t' l', l = r :: l' ∧ r ≠ .timeout ∧ Right cfg t a r t' ∧ Rights cfg patient t' calls l')

/-- The integers in a call are machine integers. -/
def MachineCall (cfg : Cfg) : Call → Prop
  | .ratio num den => MachineInts cfg [num, den]
  | .ratioU _ num den => num ≤ cfg.umax ∧ den ≤ cfg.umax
  | .homographic _ nx n dx d => MachineInts cfg [nx, n, dx, d]
  | .combine _ _ nxy nx ny n dxy dx dy d => MachineInts cfg [nxy, nx, ny, n, dxy, dx, dy, d]
  | _ => True

end Clarith.Spec
