import Verif.Proofs.Session

/-! # Whole sessions (C52)

Any calls of the public functions one after the other, with caught panics, in the
statement-by-statement model.  The specification is `Verif.SpecSession`. -/

namespace Clarith

open Spec Steps

/-- In a build with overflow checks every answer of every session is right: each number made,
symbol read, order found and consumed part agrees with the values of the numbers as rationals, or
the call gives up with an integer overflow where that can happen.  A caught panic does no harm to
the other numbers. -/
theorem C52_session_right (cfg : Cfg) (hc : cfg.overflowChecks = true) (f : Nat)
    (calls : List Call) (hm : ∀ a ∈ calls, MachineCall cfg a) :
    Rights cfg false Table.start calls (Caller.session cfg f calls Caller.start) :=
  session_rights hc f calls hm (At.start cfg)

/-- And every call of every session returns, as long as no denominator vanishes and the operands
are known. -/
theorem C52_session_returns (cfg : Cfg) (hc : cfg.overflowChecks = true)
    (calls : List Call) (hm : ∀ a ∈ calls, MachineCall cfg a) :
    ∃ f₀, ∀ f ≥ f₀,
      Rights cfg true Table.start calls (Caller.session cfg f calls Caller.start) := by
  obtain ⟨f₀, h⟩ := session_patient hc calls hm Table.start Plain.start
  exact ⟨f₀, fun f hf => h f hf _ (At.start cfg)⟩

/-- 3/5 + 2/7 compared with 31/35, after a call that panics. -/
def exactSum : List Call :=
  [.ratio 3 5, .ratio 2 7, .ratio 1 0, .combine 0 1 0 1 1 0 0 0 0 1, .ratio 31 35, .compare 2 3]

theorem exactSum_machine : ∀ a ∈ exactSum, MachineCall debug64 a := by
  intro a ha
  simp only [exactSum, List.mem_cons, List.not_mem_nil, or_false] at ha
  rcases ha with rfl | rfl | rfl | rfl | rfl | rfl <;>
    first
    | trivial
    | (intro z hz
       simp only [List.mem_cons, List.not_mem_nil, or_false] at hz
       rcases hz with rfl | rfl | rfl | rfl | rfl | rfl | rfl | rfl <;> decide)

example := C52_session_right debug64 rfl 40 exactSum exactSum_machine
example := C52_session_returns debug64 rfl exactSum exactSum_machine

/-- The constructors: 7/2 turned into 2/7 by taking its primer away, and the special value 1
subtracted from it; what is left is compared with -5/7, and 0 is taken apart. -/
def rebuilt : List Call :=
  [.ratio 7 2, .reprime 0 none, .special .PosOne, .combine 1 2 0 1 (-1) 0 0 0 0 1, .ratio (-5) 7,
    .compare 3 4, .special .Zero, .unwrapSpecial 5, .ratio 5 3, .unwrapSpecial 6]

theorem rebuilt_machine : ∀ a ∈ rebuilt, MachineCall debug64 a := by
  intro a ha
  simp only [rebuilt, List.mem_cons, List.not_mem_nil, or_false] at ha
  rcases ha with rfl | rfl | rfl | rfl | rfl | rfl | rfl | rfl | rfl | rfl <;>
    first
    | trivial
    | (intro z hz
       simp only [List.mem_cons, List.not_mem_nil, or_false] at hz
       rcases hz with rfl | rfl | rfl | rfl | rfl | rfl | rfl | rfl <;> decide)

example := C52_session_right debug64 rfl 40 rebuilt rebuilt_machine

/-- Test: the answers. -/
example : Caller.session debug64 60 rebuilt Caller.start =
    [.ok (.made (.other (some .Turn))), .ok (.made (.other none)), .ok (.made (.special .PosOne)),
      .ok (.made (.other (some .Reflect))), .ok (.made (.other (some .Reflect))), .ok (.order .eq),
      .ok (.made (.special .Zero)), .ok (.fixed .Zero), .ok (.made (.other (some .Turn))),
      .panic .notSpecial] := by
  decide +kernel

/-- Test: the answers. -/
example : Caller.session debug64 60 exactSum Caller.start =
    [.ok (.made (.other none)), .ok (.made (.other none)), .panic .divisionByZero,
      .ok (.made (.other none)), .ok (.made (.other none)), .ok (.order .eq)] := by
  decide +kernel

/-- The specification can be violated: 1/2 does not look like a special value, … -/
example : ¬ Rights debug64 false Table.start [.ratio 1 2] [.ok (.made (.special .Zero))] := by
  rintro (⟨h, -⟩ | ⟨r, t', l', h, -, hR, -⟩)
  · cases h
  · cases h
    rcases hR with ⟨h, -⟩ | ⟨⟨h, -⟩, -⟩
    · rw [Res.ok.injEq, Answer.made.injEq, faceOf, shape_unit (by norm_num) (by norm_num)] at h
      cases h
    · cases h

/-- … nor does making it panic, … -/
example : ¬ Rights debug64 false Table.start [.ratio 1 2] [.panic .unwrapNone] := by
  rintro (⟨h, -⟩ | ⟨r, t', l', h, -, hR, -⟩)
  · cases h
  · cases h
    rcases hR with ⟨h, -⟩ | ⟨⟨h, -⟩, -⟩
    · cases h
    · cases h

/-- … nor does it take forever. -/
example : ¬ Rights debug64 true Table.start [.ratio 1 2] [.timeout] := by
  rintro (⟨-, h⟩ | ⟨r, t', l', h, hr, -⟩)
  · cases h rfl
  · cases h
    exact hr rfl

end Clarith
