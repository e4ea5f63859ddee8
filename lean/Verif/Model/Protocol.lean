/-! # Model of `src/protocol.rs` -/

namespace Clarith

/-- src/protocol.rs:44-50, `enum Reduction`. -/
inductive Reduction where
  | Amplify
  | Uncover
deriving DecidableEq, Repr

/-- src/protocol.rs:63-71, `enum Primer`. -/
inductive Primer where
  | Turn
  | Reflect
  | Ground
deriving DecidableEq, Repr

/-- src/protocol.rs:76-84, `enum Special`. -/
inductive Special where
  | NegOne
  | Zero
  | PosOne
deriving DecidableEq, Repr

end Clarith
