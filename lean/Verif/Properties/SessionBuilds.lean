import Verif.Properties.Session
import Verif.Properties.Release
import Verif.Properties.Wider
import Verif.Proofs.StepsAgree

/-! # Whole sessions in two builds (C53) -/

namespace Clarith

open Spec Steps

/-- A session with the build without overflow checks gives the same answers, and prints the same
lines, as the same session with the build with overflow checks, if none of the checks fails
there. -/
theorem C53_release_session {debug release : Cfg} (h : Builds debug release) (f : Nat)
    (calls : List Call) (hm : ∀ a ∈ calls, MachineCall debug a)
    (hp : .panic .arithOverflow ∉ Caller.session debug f calls Caller.start) :
    Caller.session release f calls Caller.start = Caller.session debug f calls Caller.start ∧
      (Caller.after release f calls Caller.start).world.printed =
        (Caller.after debug f calls Caller.start).world.printed := by
  obtain ⟨h1, h2⟩ := Caller.session_agrees (cfg' := release)
    (by rw [h.eq_release]; exact debug.near_release) f calls hm
    (fun _ => by rw [h.eq_release]; exact debug.nearConsume_release) Caller.start
    (by rintro p rfl; exact hp)
  exact ⟨h1, by rw [h2]⟩

/-- So such a session is right in the build without overflow checks too. -/
theorem C53_release_right {debug release : Cfg} (h : Builds debug release) (f : Nat)
    (calls : List Call) (hm : ∀ a ∈ calls, MachineCall debug a)
    (hp : .panic .arithOverflow ∉ Caller.session debug f calls Caller.start) :
    Rights debug false Table.start calls (Caller.session release f calls Caller.start) := by
  rw [(C53_release_session h f calls hm hp).1]
  exact C52_session_right debug h.debugChecks f calls hm

/-- A session without `consume` gives the same answers, and prints the same lines, on a machine with
wider words, if no integer overflow happens on the machine with narrower words (in a build with
overflow checks). -/
theorem C53_wider_session {narrow wide : Cfg} (h : Widening narrow wide) (f : Nat)
    (calls : List Call) (hm : ∀ a ∈ calls, MachineCall narrow a)
    (hc : ∀ x, .consume x ∉ calls)
    (hp : ∀ p, Overflow p → .panic p ∉ Caller.session narrow f calls Caller.start) :
    Caller.session wide f calls Caller.start = Caller.session narrow f calls Caller.start ∧
      (Caller.after wide f calls Caller.start).world.printed =
        (Caller.after narrow f calls Caller.start).world.printed := by
  obtain ⟨h1, h2⟩ := Caller.session_agrees h.wider.near f calls hm
    (fun ⟨x, hx⟩ => absurd hx (hc x)) Caller.start hp
  exact ⟨h1, by rw [h2]⟩

example := C53_release_session (debug := debug64) (release := release64) ⟨rfl, rfl, rfl⟩ 60 exactSum
  exactSum_machine (by decide +kernel)

example := C53_release_right (debug := debug64) (release := release64) ⟨rfl, rfl, rfl⟩ 60 exactSum
  exactSum_machine (by decide +kernel)

theorem exactSum_machine16 : ∀ a ∈ exactSum, MachineCall ⟨16, by decide, true⟩ a := by
  intro a ha
  simp only [exactSum, List.mem_cons, List.not_mem_nil, or_false] at ha
  rcases ha with rfl | rfl | rfl | rfl | rfl | rfl <;>
    first
    | trivial
    | (intro z hz
       simp only [List.mem_cons, List.not_mem_nil, or_false] at hz
       rcases hz with rfl | rfl | rfl | rfl | rfl | rfl | rfl | rfl <;> decide)

example := C53_wider_session (narrow := ⟨16, by decide, true⟩) (wide := release64)
  ⟨by decide, rfl⟩ 60 exactSum exactSum_machine16
  (by intro x hx
      simp only [exactSum, List.mem_cons, List.not_mem_nil, or_false] at hx
      rcases hx with h | h | h | h | h | h <;> cases h)
  (by rintro p (rfl | rfl) <;> decide +kernel)

/-- `isize::MIN` times -1/2. -/
def negated : List Call := [.ratio (-1) 2, .homographic 0 release64.imin 0 0 1]

/-- The restriction to sessions without failing checks is needed: there the build without overflow
checks can answer wrongly.  (`isize::MIN` times -1/2 is above 1, not below -1.) -/
theorem C53_release_not_right :
    .panic .arithOverflow ∈ Caller.session debug64 20 negated Caller.start ∧
      ¬Rights release64 false Table.start negated
        (Caller.session release64 20 negated Caller.start) := by
  refine ⟨by decide +kernel, ?_⟩
  have e : Caller.session release64 20 negated Caller.start =
      [.ok (.made (.other (some .Reflect))), .ok (.made (.other (some .Ground)))] := by
    decide +kernel
  rw [e]
  have hi : release64.imin = -9223372036854775808 := by decide
  have h1 : outcome release64 Table.start (.ratio (-1) 2) =
      .makes ⟨((-1 : Int) : ℚ) / (2 : Int), true⟩ true := by
    have n1 : ¬((-1 : Int) = release64.imin ∨ (2 : Int) = release64.imin) := by decide
    simp only [outcome, if_neg n1]
    exact if_neg (by decide)
  rintro (⟨h, -⟩ | ⟨r, t, l, h, -, hR, hl⟩)
  · cases h
  · cases h
    unfold Right at hR
    rw [h1] at hR
    rcases hR with ⟨-, rfl⟩ | ⟨⟨h, -⟩, -⟩
    · rcases hl with ⟨h, -⟩ | ⟨r, t', l, h, -, hR, -⟩
      · cases h
      · cases h
        unfold Right at hR
        have h2 : outcome release64 ((Table.start.forget (operands (.ratio (-1) 2))).push
            (some ⟨((-1 : Int) : ℚ) / (2 : Int), true⟩)) (.homographic 0 release64.imin 0 0 1) =
            .makes ⟨2 ^ 62, false⟩ false := by
          show (if _ then _ else _) = _
          rw [if_neg (by norm_num), hi]
          norm_num
        rw [h2] at hR
        rcases hR with ⟨h, -⟩ | ⟨⟨-, p, h, -⟩, -⟩
        · rw [Res.ok.injEq, Answer.made.injEq, faceOf, shape_gt (by norm_num)] at h
          cases h
        · cases h
    · cases h

/-- The restriction to sessions without `consume` is needed: how far `consume` goes depends on the
word size. -/
theorem C53_consume_differs :
    let calls : List Call := [.ratio 355 113, .consume 0]
    let narrow : Cfg := ⟨16, by decide, true⟩
    Caller.session narrow 100 calls Caller.start ≠ Caller.session debug64 100 calls Caller.start ∧
      ∀ p, .panic p ∉ Caller.session narrow 100 calls Caller.start := by
  refine ⟨by decide +kernel, fun p => ?_⟩
  cases p <;> decide +kernel

end Clarith
