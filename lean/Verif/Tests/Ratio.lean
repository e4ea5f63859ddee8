import Verif.Tests.Support

/-! # The unit tests of `src/strategy/ratio.rs` and `src/strategy/consume.rs`, run on the model

These are tests, not proofs. -/

namespace Clarith.Tests

/-- The answers of `k` calls of `Ratio::egest`. -/
def answers (cfg : Cfg) : Nat → Ratio → Out (List (Option Reduction))
  | 0, _ => pure []
  | k + 1, r => do
    let (a, r) ← r.egest cfg
    let l ← answers cfg k r
    pure (a :: l)

/-- `new(..)` is special -/
def isSpecial (positive : Bool) (n d : Nat) (s : Special) : Bool :=
  Ratio.new positive n d == .ok (some s, none, none)

/-- `new(..)` has the primer, and a ratio that gives the answers -/
def isOther (cfg : Cfg) (positive : Bool) (n d : Nat) (p : Option Primer)
    (l : List (Option Reduction)) : Bool :=
  match Ratio.new positive n d with
  | .ok (none, p', some r) => p == p' && answers cfg l.length r == .ok l
  | _ => false

/-- `new(..)` panics with "division by zero" -/
def forbids (positive : Bool) (n d : Nat) : Bool := Ratio.new positive n d == .panic .divisionByZero

/-- ratio.rs:29-45 `forbids_undefined_ratio`, `forbids_negative_infinity`,
`forbids_positive_infinity` -/
example : forbids true 0 0 && forbids false 1 0 && forbids true 1 0 := by decide +kernel

/-- ratio.rs:47-55 `supports_negative_two` -/
example : bothBuilds fun cfg => isOther cfg false 2 1 (some .Ground) [none] := by decide +kernel

/-- ratio.rs:57-63 `supports_negative_one` -/
example : isSpecial false 1 1 .NegOne := by decide +kernel

/-- ratio.rs:65-75 `supports_negative_two_thirds` -/
example : bothBuilds fun cfg => isOther cfg false 2 3 (some .Reflect) [some .Uncover, none] := by
  decide +kernel

/-- ratio.rs:77-85 `supports_negative_one_half` -/
example : bothBuilds fun cfg => isOther cfg false 1 2 (some .Reflect) [none] := by decide +kernel

/-- ratio.rs:87-97 `supports_negative_one_fourth` -/
example : bothBuilds fun cfg => isOther cfg false 1 4 (some .Reflect) [some .Amplify, none] := by
  decide +kernel

/-- ratio.rs:99-105 `supports_zero` -/
example : isSpecial true 0 1 .Zero := by decide +kernel

/-- ratio.rs:107-117 `supports_one_fourth` -/
example : bothBuilds fun cfg => isOther cfg true 1 4 none [some .Amplify, none] := by
  decide +kernel

/-- ratio.rs:119-127 `supports_one_half` -/
example : bothBuilds fun cfg => isOther cfg true 1 2 none [none] := by decide +kernel

/-- ratio.rs:129-139 `supports_two_thirds` -/
example : bothBuilds fun cfg => isOther cfg true 2 3 none [some .Uncover, none] := by
  decide +kernel

/-- ratio.rs:141-147 `supports_one` -/
example : isSpecial true 1 1 .PosOne := by decide +kernel

/-- ratio.rs:149-157 `supports_two` -/
example : bothBuilds fun cfg => isOther cfg true 2 1 (some .Turn) [none] := by decide +kernel

/-- ratio.rs:159-171 `one_half_is_final` -/
example : bothBuilds fun cfg => isOther cfg true 3 6 none (List.replicate 9 none) := by
  decide +kernel

/-- ratio.rs:173-182 `does_not_overflow` -/
example : bothBuilds fun cfg => isOther cfg true (cfg.umax - 1) cfg.umax none [some .Uncover] := by
  decide +kernel

/-- consume.rs:36-47 `t_none` -/
example : bothBuilds fun cfg =>
    (do let x ← Number.ratio cfg 2953 7829
        let (xo, k) ← Number.consume cfg fuel x
        let n2 ← cfg.mul 2 k.n
        let num ← cfg.add k.nx n2
        let d2 ← cfg.mul 2 k.d
        let den ← cfg.add k.dx d2
        let y ← Number.ratio cfg num den
        let z ← Number.ratio cfg 2953 7829
        let o ← Number.compare cfg fuel y z
        pure (xo.isNone, o)) == .ok (true, .eq) := by
  decide +kernel

/-- consume.rs:49-73 `t_some`, ignored by the project ("issue #2"): the model overflows, as the
issue says -/
example : bothBuilds fun cfg =>
    (do let x ← Number.ratio cfg cfg.imax 1
        let z ← Number.homographic cfg fuel x cfg.imax cfg.imax 0 1
        let (xo, _) ← Number.consume cfg fuel z
        pure xo.isSome) == .panic .unwrapNone := by
  decide +kernel

end Clarith.Tests
