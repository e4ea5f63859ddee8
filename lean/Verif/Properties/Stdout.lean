import Verif.Proofs.StdoutResume
import Verif.Properties.FailStop

/-! # When standard output cannot be written (C71)

`Homographic` prints a line on each round of its loops, and `println!` panics when the line cannot be
written.  Which lines can be written is arbitrary here (`ok`).  First: such a panic is all that
happens; nothing is hidden and nothing else changes up to there.  Second: what is left behind when
the caller catches the panic and calls `egest` again. -/

namespace Clarith

open Out Spec Steps

/-- `egest` on any object. -/
theorem C71_egest (cfg : Cfg) (ok : Nat → Bool) (f : Nat) :
    UpToFailure (fun s => s.2.printed) ok (Steps.egest cfg f) (Stdout.egest cfg ok f) :=
  Stdout.egest_tracks cfg ok f

/-- The functions that make numbers, `consume` and `compare`. -/
theorem C71_calls (cfg : Cfg) (ok : Nat → Bool) (f : Nat) (x y : Steps.Number) (k : Coef4)
    (l : Coef8) :
    UpToFailure World.printed ok (Steps.Number.homographic cfg f x k.nx k.n k.dx k.d)
      (Stdout.Number.homographic cfg ok f x k.nx k.n k.dx k.d) ∧
    UpToFailure World.printed ok (Steps.Number.combine cfg f x y l.a l.b l.c l.d l.e l.f l.g l.h)
      (Stdout.Number.combine cfg ok f x y l.a l.b l.c l.d l.e l.f l.g l.h) ∧
    UpToFailure World.printed ok (Steps.Number.consume cfg f x) (Stdout.Number.consume cfg ok f x) ∧
    UpToFailure World.printed ok (Steps.Number.compare cfg f x y)
      (Stdout.Number.compare cfg ok f x y) :=
  ⟨Stdout.Number.homographic_tracks cfg ok f x _ _ _ _,
    Stdout.Number.combine_tracks cfg ok f x y _ _ _ _ _ _ _ _,
    Stdout.Number.consume_tracks cfg ok f x, Stdout.Number.compare_tracks cfg ok f x y⟩

/-- (2x + 1)/(x + 3) for what is left of 3/5. -/
def failingObj : Obj := .homographic (.ratio ⟨3, 5⟩) ⟨2, 1, 1, 3⟩

/-- Nothing allocated, nothing printed. -/
def emptyWorld : World := ⟨fun _ => none, 0, []⟩

/-- Test: a call that prints two lines, neither of which can be written at first.  Two panics, with
one line and the next attempt at it. -/
example :
    ((Steps.egest debug64 20 (failingObj, emptyWorld)).1,
      (Steps.egest debug64 20 (failingObj, emptyWorld)).2.2.printed) =
      (.ok (some .Uncover), [⟨2, 1, 1, 3⟩, ⟨1, 3, 3, 4⟩]) ∧
    ((Stdout.egest debug64 (fun i => i ≠ 1) 20 (failingObj, emptyWorld)).1,
      (Stdout.egest debug64 (fun i => i ≠ 1) 20 (failingObj, emptyWorld)).2.2.printed) =
      (none, [⟨2, 1, 1, 3⟩, ⟨1, 3, 3, 4⟩]) := by
  decide +kernel

/-! ## Calling `egest` again -/

/-- An object made of `Ratio` and `Homographic`, on which `egest` panicked because a line could not
be written: `egest` called again (and able to write) does what the first call would have done.  This
includes overflow panics, and what they leave behind, and not returning. -/
theorem C71_resume (cfg : Cfg) (ok : Nat → Bool) (f : Nat) (o o₁ : Obj) (w w₁ : World)
    (ho : NoCombine o) (h : Stdout.egest cfg ok f (o, w) = (none, (o₁, w₁))) :
    NoCombine o₁ ∧ ∀ a o', a ≠ .timeout → (AnswersWith cfg o a o' ↔ AnswersWith cfg o₁ a o') :=
  Stdout.egest_resumes cfg ok f o w o₁ w₁ ho h

/-- Such an object, and the failure of its second line. -/
example := C71_resume debug64 (fun i => i ≠ 1) 20 failingObj _ emptyWorld _ trivial
  (Prod.ext (by decide +kernel) (Prod.ext rfl rfl))

/-- Any number of calls, any lines that cannot be written: without the panics of `println!`, the
answers are those of a caller who can write everything. -/
theorem C71_answers (cfg : Cfg) (ok : Nat → Bool) (f m : Nat) (o : Obj) (w : World)
    (ho : NoCombine o) (hend : some .timeout ∉ caughtOn cfg ok f m o w) :
    ∃ F, ∀ f', F ≤ f' → ∀ w', caught cfg f' (caughtOn cfg ok f m o w).reduceOption.length o w' =
      (caughtOn cfg ok f m o w).reduceOption :=
  (Stdout.Trace.of_caughtOn m ho hend).caught

/-- Every third line cannot be written. -/
example := C71_answers debug64 (fun i => i % 3 ≠ 1) 20 6 failingObj emptyWorld trivial
  (by decide +kernel)

/-- For a number that is fail-stop (C70) the calls all end, and the answers are right symbols up to
some point, overflow panics from there on, and panics of `println!` anywhere between. -/
theorem C71_symbols (cfg : Cfg) (ok : Nat → Bool) (p : Option Primer) (o : Obj) (q : ℚ) (w : World)
    (m : Nat) (ho : NoCombineNumber (.Other p o)) (h : FailStopNumber cfg (.Other p o) q) :
    ∃ v, 0 < v ∧ v < 1 ∧ q = applyPrimer p v ∧ ∃ F, ∀ f, F ≤ f → ∃ r,
      (caughtOn cfg ok f m o w).reduceOption = (symbols r v).map .ok ++
        List.replicate ((caughtOn cfg ok f m o w).reduceOption.length - r) (.panic .unwrapNone) := by
  obtain ⟨v, h0, h1, hv, rfl⟩ := h
  refine ⟨v, h0, h1, rfl, ?_⟩
  have hD : ∀ o, (NoCombine o ∧ ((∃ v, FailStop cfg o v) ∨ Dead cfg o)) →
      NoCombine o ∧ ∃ a o', a ≠ .timeout ∧ AnswersWith cfg o a o' ∧
        (NoCombine o' ∧ ((∃ v, FailStop cfg o' v) ∨ Dead cfg o')) := by
    rintro o ⟨ho, h⟩
    refine ⟨ho, ?_⟩
    have hk : ∀ {a o'}, AnswersWith cfg o a o' → a ≠ .timeout → NoCombine o' := by
      rintro a o' ⟨F, hF⟩ ha
      obtain ⟨w', e⟩ := hF F le_rfl emptyWorld
      exact (answersWith_of_run ho e ha).2
    rcases h with ⟨v, h⟩ | h
    · rcases h.step with ⟨o', h1, h2⟩ | ⟨o', h1, h2⟩
      · exact ⟨.panic .unwrapNone, o', nofun, h1, hk h1 nofun, .inr h2⟩
      · exact ⟨.ok (sym v), o', nofun, h1, hk h1 nofun, .inl ⟨_, h2⟩⟩
    · obtain ⟨o', h1, h2⟩ := h.step
      exact ⟨.panic .unwrapNone, o', nofun, h1, hk h1 nofun, .inr h2⟩
  obtain ⟨F, hF⟩ := Stdout.caughtOn_ends (cfg := cfg) (ok := ok) hD m w
    ⟨ho, o, ⟨ho, .inl ⟨v, hv⟩⟩, .refl _ _⟩
  refine ⟨F, fun f hf => ?_⟩
  obtain ⟨F1, h1⟩ := C71_answers cfg ok f m o w ho (hF f hf)
  obtain ⟨r, hr, F2, h2⟩ := hv.caught (caughtOn cfg ok f m o w).reduceOption.length
  refine ⟨r, ?_⟩
  have e1 := h1 (F1 + F2) (by omega) w
  have e2 := h2 (F1 + F2) (by omega) w
  rw [e1] at e2
  exact e2

/-- Fractions, and results of `homographic` on numbers without `Combine`, have no `Combine`. -/
theorem C71_no_combine (cfg : Cfg) (f : Nat) (w w' : World) (y : Steps.Number) :
    (∀ num den, Steps.Number.ratio cfg num den w = (.ok y, w') → NoCombineNumber y) ∧
    ∀ x nx n dx d, NoCombineNumber x →
      Steps.Number.homographic cfg f x nx n dx d w = (.ok y, w') → NoCombineNumber y :=
  ⟨fun num den h => Stdout.Number.ratio_noCombine cfg num den w y (congrArg Prod.fst h),
    fun _ nx n dx d hx h => Stdout.Number.homographic_noCombine cfg f nx n dx d hx w y
      (congrArg Prod.fst h)⟩

/-- 3/5. -/
example := C71_symbols debug64 (fun i => i % 2 = 0) none _ _ emptyWorld 7
  (show NoCombineNumber (.Other none (.ratio ⟨3, 5⟩)) from trivial) (failStop_three_fifths debug64)

/-- 512·(3/5) + 1. -/
example : NoCombineNumber (.Other (some .Turn) (.homographic (.ratio ⟨3, 5⟩) ⟨0, 1, 512, 1⟩)) :=
  (C71_no_combine debug64 60 emptyWorld _ _).2 (.Other none (.ratio ⟨3, 5⟩)) 512 1 0 1 trivial
    (Prod.ext (by decide +kernel) rfl)

/-! ## `combine` -/

/-- A clog made by `combine` and the world, or nothing. -/
def made (m : Mut World Steps.Number) : Option (Obj × World) :=
  match m emptyWorld with
  | (.ok (.Other _ o), w) => some (o, w)
  | _ => none

/-- 1/3 + 1/5. -/
def thirdPlusFifth : Mut World Steps.Number := do
  let x ← Steps.Number.ratio debug64 1 3
  let y ← Steps.Number.ratio debug64 1 5
  Steps.Number.combine debug64 100 x y 0 1 1 0 0 0 0 1

/-- (x + 1)/4 for x = 3/11, with 1/4 as second operand. -/
def quarterOf : Mut World Steps.Number := do
  let x ← Steps.Number.ratio debug64 3 11
  let y ← Steps.Number.ratio debug64 1 4
  Steps.Number.combine debug64 100 x y 0 1 0 1 0 0 0 4

/-- For `combine` none of this holds: before the first line is printed, the operand has been moved
out of the object and 1/2 put in its place.  1/3 + 1/5 = 8/15 is above one half, its first symbol is
`Uncover`.  If one line cannot be written, the first call panics and the second answers `Amplify`. -/
theorem C71_not_combine :
    (made thirdPlusFifth).map (fun s => (caught debug64 100 1 s.1 s.2,
      caughtOn debug64 (fun i => i ≠ 0) 100 2 s.1 s.2)) =
    some ([.ok (some .Uncover)], [none, some (.ok (some .Amplify))]) := by
  decide +kernel

/-- It takes no line that can be written.  The symbols of 7/22 go on after `Amplify`, `Uncover`; the
object says that they end there. -/
theorem C71_not_combine_ever :
    (made quarterOf).map (fun s => (caught debug64 100 4 s.1 s.2,
      caughtOn debug64 (fun _ => false) 100 4 s.1 s.2)) =
    some ([.ok (some .Amplify), .ok (some .Uncover), .ok (some .Uncover), .ok (some .Uncover)],
      [some (.ok (some .Amplify)), none, some (.ok (some .Uncover)), some (.ok none)]) := by
  decide +kernel

end Clarith
