import Verif.Proofs.SessionField
import Verif.Properties.Session

/-! # Whole sessions, division by zero included (C58)

Any calls of the public functions one after the other, with caught panics, in the
statement-by-statement model.  The specification is `Verif.SpecSessionField`: unlike C52 it also
says what calls do that divide by zero, and what happens to the infinite numbers made in this
way. -/

namespace Clarith

open Spec Steps

section

variable {K : Type*} [Field K] [LinearOrder K] [IsStrictOrderedRing K]

/-- In a build with overflow checks every answer of every session is right in every ordered field
with infinite elements, whichever infinite elements are taken for the results of divisions by
zero. -/
theorem C58_session_right (cfg : Cfg) (hc : cfg.overflowChecks = true) (ω : Nat → K)
    (hω : ∀ i, Infinite (ω i)) (f : Nat) (calls : List Call)
    (hm : ∀ a ∈ calls, MachineCall cfg a) :
    SpecK.Rights cfg ω false (SpecK.Table.start K) calls
      (Caller.session cfg f calls Caller.start) :=
  SpecK.session_rights hc hω f calls hm (SpecK.At.start cfg)

/-- And every call of every session returns or panics that is sure to: only operands that are not
fractions can make a call go on forever. -/
theorem C58_session_returns (cfg : Cfg) (hc : cfg.overflowChecks = true) (ω : Nat → K)
    (hω : ∀ i, Infinite (ω i)) (calls : List Call) (hm : ∀ a ∈ calls, MachineCall cfg a) :
    ∃ f₀, ∀ f ≥ f₀, SpecK.Rights cfg ω true (SpecK.Table.start K) calls
      (Caller.session cfg f calls Caller.start) := by
  obtain ⟨f₀, h⟩ := SpecK.session_patient hc hω calls hm (SpecK.Table.start K) Plain.start
  exact ⟨f₀, fun f hf => h f hf _ (SpecK.At.start cfg)⟩

end

/-- Divide by zero, add 2/7 to the infinite number, read a symbol, compare it with 100; and divide
100 by what is left of it. -/
def beyondAll : List Call :=
  [.ratio 3 5, .homographic 0 1 1 0 0, .ratio 2 7, .combine 1 2 0 1 1 0 0 0 0 1, .egest 3,
    .ratio 100 1, .compare 4 3, .ratio 3 5, .homographic 5 1 1 0 0, .homographic 6 0 100 1 0,
    .ratio 1 100, .compare 8 7]

theorem beyondAll_machine : ∀ a ∈ beyondAll, MachineCall debug64 a := by
  intro a ha
  simp only [beyondAll, List.mem_cons, List.not_mem_nil, or_false] at ha
  rcases ha with rfl | rfl | rfl | rfl | rfl | rfl | rfl | rfl | rfl | rfl | rfl | rfl <;>
    first
    | trivial
    | (intro z hz
       simp only [List.mem_cons, List.not_mem_nil, or_false] at hz
       rcases hz with rfl | rfl | rfl | rfl | rfl | rfl | rfl | rfl <;> decide)

example := C58_session_right debug64 rfl (fun _ => Hyperreal.omega) (fun _ => infinite_omega) 60
  beyondAll beyondAll_machine
example := C58_session_returns debug64 rfl (fun _ => Hyperreal.omega) (fun _ => infinite_omega)
  beyondAll beyondAll_machine

/-- Test: the answers. -/
example : Caller.session debug64 60 beyondAll Caller.start =
    [.ok (.made (.other none)), .ok (.made (.other (some .Turn))), .ok (.made (.other none)),
      .ok (.made (.other (some .Turn))), .ok (.symbol (some .Amplify)),
      .ok (.made (.other (some .Turn))), .ok (.order .lt), .ok (.made (.other none)),
      .ok (.made (.other (some .Turn))), .ok (.made (.other none)), .ok (.made (.other none)),
      .ok (.order .gt)] := by
  decide +kernel

/-- The specification can be violated: a division by zero does not make a number between -1
and 1, … -/
example (t t' : SpecK.Table Hyperreal) (q : SpecK.Known Hyperreal) (ht : t.var 0 = some q) :
    ¬ SpecK.Right debug64 (fun _ => Hyperreal.omega) t (.homographic 0 1 1 0 0)
      (.ok (.made (.other none))) t' := by
  have hω := infinite_omega 1
  have e : SpecK.outcome debug64 t (.homographic 0 1 1 0 0) =
      .pole ((0 : Int) = 0 ∧ (0 : Int) = 0) := by
    simp [SpecK.outcome, ht]
  rw [SpecK.Right, e]
  rintro (⟨-, w, hw, h, -⟩ | ⟨⟨p, h, -⟩, -⟩)
  · rw [Res.ok.injEq, Answer.made.injEq] at h
    push_cast at hω
    rcases hw with rfl | rfl
    · rw [SpecK.faceOf, SpecK.shape_gt hω] at h
      cases h
    · rw [SpecK.faceOf, SpecK.shape_lt (by linarith)] at h
      cases h
  · cases h

/-- … an infinite number is not less than 100, … -/
example (t t' : SpecK.Table Hyperreal) (h0 : t.var 0 = some ⟨Hyperreal.omega, false, True⟩)
    (h1 : t.var 1 = some ⟨100, true, True⟩) :
    ¬ SpecK.Right debug64 (fun _ => Hyperreal.omega) t (.compare 0 1) (.ok (.order .lt)) t' := by
  have hω := infinite_omega 100
  push_cast at hω
  have e : SpecK.outcome debug64 t (.compare 0 1) = .orders .gt false := by
    simp [SpecK.outcome, h0, h1, SpecK.order, hω.not_gt, hω.ne']
  rw [SpecK.Right, e]
  rintro (⟨h, -⟩ | ⟨⟨-, p, h, -⟩, -⟩)
  · cases h
  · cases h

/-- … and adding a fraction to it is sure to end. -/
example (t : SpecK.Table Hyperreal) (h0 : t.var 0 = some ⟨Hyperreal.omega, false, True⟩)
    (h1 : t.var 1 = some ⟨100, true, True⟩) :
    ¬ SpecK.Rights debug64 (fun _ => Hyperreal.omega) true t [.combine 0 1 0 1 1 0 0 0 0 1]
      [.timeout] := by
  rintro (⟨-, h⟩ | ⟨r, t', l', h, hr, -⟩)
  · refine h rfl ?_
    simp only [SpecK.Sure, h0, h1]
    refine ⟨by decide, trivial, trivial, .inr ⟨.inr ⟨100, by simp⟩, by simp, ?_⟩⟩
    rintro ⟨p, hp⟩
    refine notFraction_omega ⟨p - 100, ?_⟩
    push_cast at hp ⊢
    rw [← hp]
    ring
  · cases h
    exact hr rfl

end Clarith
