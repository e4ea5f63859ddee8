import Verif.Model.Number

/-! # Model of `src/compare.rs` -/

namespace Clarith

namespace Compare

/-- compare.rs:259-273, `compare_specials` -/
def compareSpecials (s1 s2 : Special) : Ordering :=
  if s1 = s2 then .eq
  else if s1 = .NegOne then .lt
  else if s2 = .NegOne then .gt
  else if s1 = .Zero then .lt
  else .gt

/-- compare.rs:275-292, `compare_hybrid` -/
def compareHybrid (s : Special) (p : Option Primer) : Ordering :=
  if p = some .Ground then .gt
  else if s = .NegOne then .lt
  else if p = some .Reflect then .gt
  else if s = .Zero then .lt
  else if p = none then .gt
  else .lt

/-- compare.rs:307-327, `compare_primers` -/
def comparePrimers (p1 p2 : Option Primer) : Ordering :=
  if p1 = p2 then .eq
  else if p1 = some .Ground then .lt
  else if p2 = some .Ground then .gt
  else if p1 = some .Reflect then .lt
  else if p2 = some .Reflect then .gt
  else if p1 = none then .lt
  else .gt

/-- compare.rs:348-355: the answer for two different symbols -/
def symbolAnswer (e1 e2 : Option Reduction) : Ordering :=
  match e1 with
  | none =>
    match e2 with
    | some .Amplify => .gt
    | _ => .lt
  | some .Amplify => .lt
  | some .Uncover => .gt

/-- compare.rs:329-361, `compare_clogs` (the loop takes fuel) -/
def compareClogs (cfg : Cfg) (eg : EgestFn) : Nat → Clog → Clog → Bool → Out Ordering
  | 0, _, _, _ => .timeout
  | f + 1, c1, c2, polarity => do
    let (e1, c1) ← eg c1
    let (e2, c2) ← eg c2
    if e1 ≠ e2 then
      let answer := symbolAnswer e1 e2
      pure (if polarity then answer else answer.swap)
    else
      match e1 with
      | none => pure .eq
      | some .Uncover => compareClogs cfg eg f c1 c2 (!polarity)
      | some .Amplify => compareClogs cfg eg f c1 c2 polarity

/-- compare.rs:294-305, `compare_others`.  `Ordering::then` takes its argument by
value, so `compare_clogs` runs whether or not the primers decide. -/
def compareOthers (cfg : Cfg) (eg : EgestFn) (f : Nat) (p1 : Option Primer) (c1 : Clog)
    (p2 : Option Primer) (c2 : Clog) : Out Ordering := do
  let o ← compareClogs cfg eg f c1 c2 (p1 != some .Reflect && p1 != some .Turn)
  pure ((comparePrimers p1 p2).then o)

end Compare

/-- compare.rs:246-257, `compare`, called by src/lib.rs:82-84 `Number::compare` -/
def Number.compare (cfg : Cfg) (f : Nat) (n1 n2 : Number) : Out Ordering :=
  match n1, n2 with
  | .Special s1, .Special s2 => pure (Compare.compareSpecials s1 s2)
  | .Special s1, .Other p2 _ => pure (Compare.compareHybrid s1 p2)
  | .Other p1 _, .Special s2 => pure (Compare.compareHybrid s2 p1).swap
  | .Other p1 c1, .Other p2 c2 =>
    Compare.compareOthers cfg (Clog.egest cfg f) f p1 c1 p2 c2

end Clarith
