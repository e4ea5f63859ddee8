import Verif.Tests.Support
import Verif.Model.Main

/-! # The examples in the documentation of `src/protocol.rs`, run on the model

What main.rs would print for them, without the final `H`.  These are tests, not proofs. -/

namespace Clarith.Tests

/-- `Number::ratio(num, den)` is printed as `text`, on 64 and 32 bit machines and on 16 bits. -/
def documented (num den : Int) (text : String) : Bool :=
  let check := fun cfg : Cfg => (do Main.logn cfg 40 (← Number.ratio cfg num den)) ==
    .ok (text.toList ++ ['H'])
  bothBuilds check && check ⟨16, by decide, true⟩

/-- src/protocol.rs:39, 0.5 -/
example : documented 1 2 "" := by decide +kernel
/-- src/protocol.rs:40, 0.1 -/
example : documented 1 10 "AAAUA" := by decide +kernel
/-- src/protocol.rs:41, 0.567 -/
example : documented 567 1000 "UUAUUUUUUUAAAAUA" := by decide +kernel
/-- src/protocol.rs:42, 0.888... -/
example : documented 8 9 "UAA" := by decide +kernel
/-- src/protocol.rs:59, -0.5 -/
example : documented (-1) 2 "R" := by decide +kernel
/-- src/protocol.rs:60, 5 -/
example : documented 5 1 "TAAUA" := by decide +kernel
/-- src/protocol.rs:61, -3.14 -/
example : documented (-314) 100 "GAUUUAUUUAAUUUU" := by decide +kernel

end Clarith.Tests
