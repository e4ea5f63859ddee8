import Verif.Proofs.StepsPrintedCombine

/-! # Reference counts, printed lines and caught panics (C49, C50, C51)

The statement-by-statement model `Verif.Model.Steps`, driven by a caller that makes any calls of the
public functions one after the other and catches every panic (`std::panic::catch_unwind` with
`AssertUnwindSafe`). -/

namespace Clarith

open Spec Steps

/-! ## C49: the `unwrap`s of `Rc::get_mut` and `Rc::try_unwrap` never fail -/

/-- Whatever calls are made, and also after caught panics, no `unwrap` of an `Rc::get_mut` or
`Rc::try_unwrap` fails: each `Rc` in a `Combine` has one owner whenever it is used. -/
theorem C49_rc_unique (cfg : Cfg) (f : Nat) (calls : List Call) :
    Res.shared ∉ Caller.session cfg f calls Caller.start :=
  session_owned cfg f calls Inv.start

/-- 3/5 + 2/7 = 31/35, read to its end; `reduction_ingest` replaces the shut down operand. -/
def sumSession : List Call :=
  [.ratio 3 5, .ratio 2 7, .combine 0 1 0 1 1 0 0 0 0 1] ++ List.replicate 18 (.egest 2)

/-- Test. -/
example : Caller.session debug64 40 sumSession Caller.start =
    [.ok (.made (.other none)), .ok (.made (.other none)), .ok (.made (.other none))] ++
    [some .Uncover, some .Amplify, some .Amplify, some .Uncover, some .Uncover, some .Amplify,
      some .Amplify, some .Amplify, some .Uncover, some .Uncover, some .Amplify, some .Amplify,
      some .Uncover, some .Uncover, some .Amplify, some .Uncover, none, none].map
        fun s => .ok (.symbol s) := by
  decide +kernel

/-- An `Rc` that is shared makes the `unwrap` fail: the model can tell. -/
example : (rcTryUnwrap 0 (rcClone 0 (rcNew (.ratio ⟨1, 2⟩) Caller.start.world).2).2).1 =
    .shared := by
  decide +kernel

/-- The claim above is about something: on an allocation that has not exactly one pointer, both
`unwrap`s fail, and nothing is changed before they do. -/
theorem C49_shared_fails (i : Nat) (w : World) (hi : ∀ o, w.cells i ≠ some ⟨1, o⟩) :
    rcTryUnwrap i w = (.shared, w) ∧
    ∀ (α : Type) (m : Mut (Obj × World) α), rcGetMut i m w = (.shared, w) := by
  have key : ∀ {β : Type} (g : Obj → β) (b : β), (match w.cells i with
      | some ⟨1, o⟩ => g o
      | _ => b) = b := by
    intro β g b
    split
    · exact absurd ‹_› (hi _)
    · rfl
  exact ⟨key _ _, fun α m => key _ _⟩

/-- After `Rc::clone` there are two pointers. -/
example := C49_shared_fails 0 (rcClone 0 (rcNew (.ratio ⟨1, 2⟩) Caller.start.world).2).2
  (by intro o; simp [rcNew, rcClone, World.put, Caller.start])

/-- A session without panics gets the same answers as in the first model, which has no heap, no
reference counts, and updates all the fields of a strategy at once. -/
theorem C49_same_answers (cfg : Cfg) (f : Nat) (calls : List Call)
    (h : ∀ p, Res.panic p ∉ Plain.session cfg f calls Plain.start) :
    Caller.session cfg f calls Caller.start = Plain.session cfg f calls Plain.start :=
  session_same_of_no_panic cfg f calls Inv.start h

example := C49_same_answers debug64 40 sumSession (by
  have e : Plain.session debug64 40 sumSession Plain.start =
    [.ok (.made (.other none)), .ok (.made (.other none)), .ok (.made (.other none))] ++
    [some .Uncover, some .Amplify, some .Amplify, some .Uncover, some .Uncover, some .Amplify,
      some .Amplify, some .Amplify, some .Uncover, some .Uncover, some .Amplify, some .Amplify,
      some .Uncover, some .Uncover, some .Amplify, some .Uncover, none, none].map
        (fun s => Res.ok (Answer.symbol s)) := by decide +kernel
  rw [e]
  intro p hp
  simp at hp)

/-! ## C50: what is printed -/

/-- Fractions are silent: a session without `homographic` and `combine` prints nothing. -/
theorem C50_silent (cfg : Cfg) (f : Nat) (calls : List Call)
    (h : ∀ a ∈ calls, (∀ x nx n dx d, a ≠ .homographic x nx n dx d) ∧
      ∀ x y nxy nx ny n dxy dx dy d, a ≠ .combine x y nxy nx ny n dxy dx dy d) :
    (Caller.after cfg f calls Caller.start).world.printed = [] := by
  refine (Caller.after_calm cfg f (calls := calls) (fun a ha => ?_)
    ⟨rfl, fun i v e => by cases e⟩).1
  obtain ⟨h1, h2⟩ := h a ha
  cases a with
  | homographic x nx n dx d => exact h1 _ _ _ _ _ rfl
  | combine x y nxy nx ny n dxy dx dy d => exact h2 _ _ _ _ _ _ _ _ _ _ rfl
  | _ => trivial

example := C50_silent debug64 40 [.ratio 3 5, .ratio 2 7, .egest 0, .egest 1, .compare 0 1] (by
  simp)

/-- The premises on the integers, so that taking the opposite of one does not wrap around: overflow
checks are on, or the integers are not the least one. -/
def CanNegate (cfg : Cfg) (z : Int) : Prop :=
  cfg.overflowChecks = true ∨ (-cfg.imax ≤ z ∧ z ≤ cfg.imax)

theorem CanNegate.safe {cfg : Cfg} {z : Int} (h : CanNegate cfg z) :
    cfg.Safe (fun _ => True) (-z) := by
  rcases h with h | ⟨h1, h2⟩
  · exact .inr ⟨trivial, trivial, h⟩
  · refine .inl ⟨?_, ?_⟩
    · have := cfg.imin_eq
      omega
    · omega

/-- The lines printed by `homographic` for a fraction `num/den` in (0,1) behind a primer: one line
`nx n dx d` before each symbol read and one at the end.  Line `i`, applied to what is left of the
fraction after `i` symbols, is the same fraction as the map applied to the number: numerator and
denominator are both scaled by one factor.  This is so for the lines printed before a panic, too.
The result reads on where the last line stands. -/
theorem C50_homographic_lines (cfg : Cfg) (f : Nat) (p : Option Primer) (num den : Nat)
    (h0 : 0 < num) (h1 : num < den) (h2 : den ≤ cfg.umax) (nx n dx d : Int)
    (hx : CanNegate cfg nx) (hd : CanNegate cfg dx) (hc : ¬ (nx = 0 ∧ dx = 0)) (w w' : World)
    (res : Res Steps.Number)
    (hr : Steps.Number.homographic cfg f (.Other p (.ratio ⟨num, den⟩)) nx n dx d w = (res, w')) :
    ∃ lines : List Coef4, w'.printed = w.printed ++ lines ∧
      (∀ i line, lines[i]? = some line → ∃ c : ℚ, c ≠ 0 ∧
        line.nx * rest i (num / den) + line.n = c * (nx * applyPrimer p (num / den) + n) ∧
        line.dx * rest i (num / den) + line.d = c * (dx * applyPrimer p (num / den) + d)) ∧
      ∀ v, res = .ok v → lines ≠ [] ∧ ∀ p' x k, v = .Other p' (.homographic x k) →
        ∃ r : Ratio, x = .ratio r ∧ (r.num : ℚ) / r.den = rest (lines.length - 1) (num / den) := by
  have h := Steps.Number.homographic_post f p (r := ⟨num, den⟩) ⟨h0, h1, h2⟩ nx n dx d hx.safe
    hd.safe hc w
  unfold Post at h
  rw [hr] at h
  cases res with
  | ok v =>
    obtain ⟨lines, e1, e2, e3, e4⟩ := h
    refine ⟨lines, e1, e2, fun v' e => ⟨e3, ?_⟩⟩
    injection e with e
    subst e
    exact e4
  | panic p =>
    obtain ⟨lines, e1, e2⟩ := h
    exact ⟨lines, e1, e2, fun v e => by cases e⟩
  | shared =>
    obtain ⟨lines, e1, e2⟩ := h
    exact ⟨lines, e1, e2, fun v e => by cases e⟩
  | timeout =>
    obtain ⟨lines, e1, e2⟩ := h
    exact ⟨lines, e1, e2, fun v e => by cases e⟩

/-- (2·(-5/3) + 1)/(-5/3 + 3). -/
example := C50_homographic_lines debug64 40 (some .Ground) 3 5 (by decide) (by decide) (by decide)
  2 1 1 3 (.inl rfl) (.inl rfl) (by decide) Caller.start.world _ _ rfl

/-- Test: its lines. -/
example : (Steps.Number.homographic debug64 40 (.Other (some .Ground) (.ratio ⟨3, 5⟩)) 2 1 1 3
    Caller.start.world).2.printed = [⟨1, -2, 3, -1⟩, ⟨-2, -1, -1, 2⟩, ⟨-1, -3, 2, 1⟩] := by
  decide +kernel

/-- A constant map prints nothing, whatever the operand. -/
theorem C50_constant_silent (cfg : Cfg) (f : Nat) (x : Steps.Number) (n d : Int) (w : World) :
    (Steps.Number.homographic cfg f x 0 n 0 d w).2 = w := by
  have h := Steps.Number.homographic_constant_post cfg f x n d w
  unfold Post at h
  revert h
  generalize Steps.Number.homographic cfg f x 0 n 0 d w = r
  obtain ⟨r, t⟩ := r
  cases r <;> exact id

/-- 3/5 ↦ 7/2. -/
example := C50_constant_silent debug64 40 (.Other none (.ratio ⟨3, 5⟩)) 7 2 Caller.start.world

/-- The lines printed by one `egest` of a map of a fraction: likewise. -/
theorem C50_egest_lines (cfg : Cfg) (f : Nat) (num den : Nat) (h0 : 0 < num) (h1 : num < den)
    (h2 : den ≤ cfg.umax) (nx n dx d : Int) (w w' : World) (o' : Obj)
    (res : Res (Option Reduction))
    (hr : Steps.egest cfg f (.homographic (.ratio ⟨num, den⟩) ⟨nx, n, dx, d⟩, w) =
      (res, (o', w'))) :
    ∃ lines : List Coef4, w'.printed = w.printed ++ lines ∧
      (∀ i line, lines[i]? = some line → ∃ c : ℚ, c ≠ 0 ∧
        line.nx * rest i (num / den) + line.n = c * (nx * (num / den) + n) ∧
        line.dx * rest i (num / den) + line.d = c * (dx * (num / den) + d)) ∧
      ∀ s, res = .ok s → lines ≠ [] ∧ ∀ x k, o' = .homographic x k →
        ∃ r : Ratio, x = .ratio r ∧ (r.num : ℚ) / r.den = rest (lines.length - 1) (num / den) := by
  have h := Steps.egest_homographic_post cfg f (r := ⟨num, den⟩) ⟨h0, h1, h2⟩ ⟨nx, n, dx, d⟩ w
  unfold Post at h
  rw [hr] at h
  cases res with
  | ok v =>
    obtain ⟨⟨lines, ⟨e1, e2⟩, e3, e4⟩, -⟩ := h
    exact ⟨lines, e1, e2, fun v' e => ⟨e3, e4⟩⟩
  | panic p =>
    obtain ⟨lines, e1, e2⟩ := h
    exact ⟨lines, e1, e2, fun v e => by cases e⟩
  | shared =>
    obtain ⟨lines, e1, e2⟩ := h
    exact ⟨lines, e1, e2, fun v e => by cases e⟩
  | timeout =>
    obtain ⟨lines, e1, e2⟩ := h
    exact ⟨lines, e1, e2, fun v e => by cases e⟩

/-- (x + 1)/(2 x + 3) at x = 3/7. -/
example := C50_egest_lines debug64 40 3 7 (by decide) (by decide) (by decide) 1 1 2 3
  Caller.start.world _ _ _ rfl

/-- The line, at what is left of `u` or of `v` after some symbols, is the fraction `num/den` up to
one factor for numerator and denominator. -/
def LineFor (u v num den : ℚ) (line : Coef4) : Prop :=
  ∃ i : Nat, ∃ z ∈ [rest i u, rest i v], ∃ c : ℚ, c ≠ 0 ∧
    line.nx * z + line.n = c * num ∧ line.dx * z + line.d = c * den

/-- The lines printed by `combine` for two fractions in (0,1) behind primers.  While both operands
last nothing is printed: if the result still reads both operands then there is no line.  When one
operand has ended the other goes on as a map of one number, and every line, applied to what is left
of that operand after some symbols, is the same fraction as the map applied to the two numbers.
This is so for the lines printed before a panic, too. -/
theorem C50_combine_lines (cfg : Cfg) (f : Nat) (p q : Option Primer) (num den num' den' : Nat)
    (h0 : 0 < num) (h1 : num < den) (h2 : den ≤ cfg.umax)
    (h0' : 0 < num') (h1' : num' < den') (h2' : den' ≤ cfg.umax)
    (nxy nx ny n dxy dx dy d : Int)
    (hn : ∀ z ∈ [nxy, nx, ny, n, dxy, dx, dy, d], CanNegate cfg z) (w w' : World)
    (res : Res Steps.Number)
    (hr : Steps.Number.combine cfg f (.Other p (.ratio ⟨num, den⟩))
      (.Other q (.ratio ⟨num', den'⟩)) nxy nx ny n dxy dx dy d w = (res, w'))
    (x y : ℚ) (hx : x = applyPrimer p (num / den)) (hy : y = applyPrimer q (num' / den')) :
    ∃ lines : List Coef4, w'.printed = w.printed ++ lines ∧
      (∀ line ∈ lines, LineFor (num / den) (num' / den')
        (nxy * x * y + nx * x + ny * y + n) (dxy * x * y + dx * x + dy * y + d) line) ∧
      ∀ r i j k, res = .ok (.Other r (.combine i j k)) → lines = [] := by
  have hk : Coef8.Opposable cfg ⟨nxy, nx, ny, n, dxy, dx, dy, d⟩ := by
    by_cases ho : cfg.overflowChecks = true
    · exact .inl ho
    · have h1 : (0 : Int) < cfg.imax := by have := cfg.imax_ge; omega
      have hb : ∀ z ∈ [nxy, nx, ny, n, dxy, dx, dy, d], -cfg.imax ≤ z ∧ z ≤ cfg.imax :=
        fun z hz => (hn z hz).resolve_left ho
      simp only [List.mem_cons, List.not_mem_nil, or_false, forall_eq_or_imp, forall_eq] at hb
      obtain ⟨a1, a2, a3, a4, a5, a6, a7, a8⟩ := hb
      exact .inr ⟨by omega, a1.1, a1.2, a2.1, a2.2, a3.1, a3.2, a4.1, a4.2, a5.1, a5.2, a6.1, a6.2,
        a7.1, a7.2, a8.1, a8.2⟩
  have h := Steps.Number.combine_post f p q (rx := ⟨num, den⟩) (ry := ⟨num', den'⟩) ⟨h0, h1, h2⟩
    ⟨h0', h1', h2'⟩ ⟨nxy, nx, ny, n, dxy, dx, dy, d⟩ hk w
  have key : ToldOf ⟨nxy, nx, ny, n, dxy, dx, dy, d⟩ (applyPrimer p (num / den))
      (applyPrimer q (num' / den')) (num / den) (num' / den') w.printed w' ∧
      ∀ r i j k, res = .ok (.Other r (.combine i j k)) → w'.printed = w.printed := by
    unfold Post at h
    rw [hr] at h
    cases res with
    | ok v => exact ⟨h.1, fun r i j k e => h.2 r i j k (by injection e)⟩
    | panic p => exact ⟨h, fun r i j k e => by cases e⟩
    | shared => exact ⟨h, fun r i j k e => by cases e⟩
    | timeout => exact ⟨h, fun r i j k e => by cases e⟩
  obtain ⟨⟨lines, e, hl⟩, hc⟩ := key
  refine ⟨lines, e, fun line hm => ?_, fun r i j k he => ?_⟩
  · subst hx hy
    obtain ⟨i, h | h⟩ := hl line hm
    · exact ⟨i, _, List.mem_cons_self, h⟩
    · exact ⟨i, _, List.mem_cons_of_mem _ List.mem_cons_self, h⟩
  · have := hc r i j k he
    rw [e] at this
    simpa using this

/-- -3/5 · 7/4 + 1, which reads both operands before it answers. -/
example := C50_combine_lines debug64 40 (some .Reflect) (some .Turn) 3 5 4 7 (by decide) (by decide)
  (by decide) (by decide) (by decide) (by decide) 1 0 0 1 0 0 0 1 (fun _ _ => .inl rfl)
  Caller.start.world _ _ Prod.mk.eta.symm _ _ rfl rfl

/-- Test: 1/2 + 2/7 ends its first operand at once and prints. -/
example : (Steps.Number.combine debug64 40 (.Other none (.ratio ⟨1, 2⟩)) (.Other none (.ratio ⟨2, 7⟩))
    0 1 1 0 0 0 0 1 Caller.start.world).2.printed = [⟨2, 1, 0, 2⟩, ⟨1, 1, 0, 2⟩] := by
  decide +kernel

/-- The lines printed by one `egest` of a map of two fractions: likewise. -/
theorem C50_combine_egest_lines (cfg : Cfg) (f : Nat) (num den num' den' : Nat)
    (h0 : 0 < num) (h1 : num < den) (h2 : den ≤ cfg.umax)
    (h0' : 0 < num') (h1' : num' < den') (h2' : den' ≤ cfg.umax)
    (nxy nx ny n dxy dx dy d : Int) (w w' : World) (i j : Nat) (hij : i ≠ j) (hi : i < w.fresh)
    (hj : j < w.fresh) (ci : w.cells i = some ⟨1, .ratio ⟨num, den⟩⟩)
    (cj : w.cells j = some ⟨1, .ratio ⟨num', den'⟩⟩) (o' : Obj) (res : Res (Option Reduction))
    (hr : Steps.egest cfg f (.combine i j ⟨nxy, nx, ny, n, dxy, dx, dy, d⟩, w) = (res, (o', w')))
    (x y : ℚ) (hx : x = num / den) (hy : y = num' / den') :
    ∃ lines : List Coef4, w'.printed = w.printed ++ lines ∧
      (∀ line ∈ lines, LineFor x y
        (nxy * x * y + nx * x + ny * y + n) (dxy * x * y + dx * x + dy * y + d) line) ∧
      ∀ s, res = .ok s → ∀ i j k, o' = .combine i j k → lines = [] := by
  have h := Steps.egest_combine_post (cfg := cfg) f
    (c := ⟨i, j, ⟨nxy, nx, ny, n, dxy, dx, dy, d⟩⟩) (w := w) (u := x) (v := y)
    (rx := ⟨num, den⟩) (ry := ⟨num', den'⟩)
    ⟨hij, hi, hj, ci, cj, ⟨h0, h1, h2⟩, ⟨h0', h1', h2'⟩, hx.symm, hy.symm⟩
  have key : Told ⟨nxy, nx, ny, n, dxy, dx, dy, d⟩ x y w.printed w' ∧
      ∀ s, res = .ok s → ∀ i j k, o' = .combine i j k → w'.printed = w.printed := by
    unfold Post at h
    rw [show egest cfg f (Steps.Combine.box ⟨i, j, ⟨nxy, nx, ny, n, dxy, dx, dy, d⟩⟩, w) = _ from hr]
      at h
    cases res with
    | ok v => exact ⟨h.1, fun _ _ => h.2⟩
    | panic p => exact ⟨h, fun _ e => by cases e⟩
    | shared => exact ⟨h, fun _ e => by cases e⟩
    | timeout => exact ⟨h, fun _ e => by cases e⟩
  obtain ⟨⟨lines, e, hl⟩, hc⟩ := key
  refine ⟨lines, e, fun line hm => ?_, fun s hs i j k he => ?_⟩
  · obtain ⟨i, h | h⟩ := hl line hm
    · exact ⟨i, _, List.mem_cons_self, h⟩
    · exact ⟨i, _, List.mem_cons_of_mem _ List.mem_cons_self, h⟩
  · have := hc s hs i j k he
    rw [e] at this
    simpa using this

/-- Two allocations with 3/5 and 2/7. -/
def twoCells : World :=
  { cells := fun i => if i = 0 then some ⟨1, .ratio ⟨3, 5⟩⟩ else
      if i = 1 then some ⟨1, .ratio ⟨2, 7⟩⟩ else none, fresh := 2, printed := [] }

/-- x y at 3/5 and 2/7. -/
example := C50_combine_egest_lines debug64 40 3 5 2 7 (by decide) (by decide) (by decide) (by decide)
  (by decide) (by decide) 1 0 0 0 0 0 0 1 twoCells _ 0 1 (by decide) (by decide) (by decide) rfl rfl
  _ _ (Prod.ext rfl Prod.mk.eta.symm) _ _ rfl rfl

/-- Test: `Rc::get_mut` and `Rc::try_unwrap` panic on an allocation with two pointers, and give
the clog after one of them has been dropped. -/
example : (twoCells |> (do let j ← rcClone 0; rcGetMut j (Steps.egest debug64 9) : Mut World _)).1 = .shared := by
  decide +kernel
example : (twoCells |> (do let j ← rcClone 0; rcTryUnwrap j : Mut World _)).1 = .shared := by decide +kernel
example : (twoCells |> (do let j ← rcClone 0; rcDrop j; rcTryUnwrap 0 : Mut World _)).1 = .ok (.ratio ⟨3, 5⟩) := by
  decide +kernel
example : (twoCells |> (do rcDrop 0; rcTryUnwrap 0 : Mut World _)).1 = .shared := by decide +kernel

/-! ## C51: what a caught panic leaves behind -/

/-- A caught panic does no harm to the other numbers.  The first model forgets the numbers that take
part in a call that panics (`Plain.egestAt`; the other functions take their numbers by value).  A
caller that does not use such a number again gets the answers of the first model. -/
theorem C51_panics_isolated (cfg : Cfg) (f : Nat) (calls : List Call)
    (h : Res.ok .refused ∉ Plain.session cfg f calls Plain.start) :
    Caller.session cfg f calls Caller.start = Plain.session cfg f calls Plain.start :=
  session_same cfg f calls Inv.start (.refl _) h

/-- A number below one half on which `egest` panics with integer overflow: `x / (d - (d - 1) x)`
with `d = 2^62` at `x = (2^63 - 3)/(2^64 - 4)`. -/
def afterPanic : List Call :=
  [.ratioU true (2 ^ 63 - 3) (2 ^ 64 - 4), .homographic 0 1 0 (1 - 2 ^ 62) (2 ^ 62), .egest 1]

/-- A panic in `egest`, caught, and then 3/5 + 2/7. -/
example := C51_panics_isolated debug64 100
  (afterPanic ++ [.ratio 3 5, .ratio 2 7, .combine 2 3 0 1 1 0 0 0 0 1, .egest 4]) (by
  have e : Plain.session debug64 100 (afterPanic ++
      [.ratio 3 5, .ratio 2 7, .combine 2 3 0 1 1 0 0 0 0 1, .egest 4]) Plain.start =
    [.ok (.made (.other none)), .ok (.made (.other none)), .panic .unwrapNone,
      .ok (.made (.other none)), .ok (.made (.other none)), .ok (.made (.other none)),
      .ok (.symbol (some .Uncover))] := by decide +kernel
  rw [e]
  simp)

/-- Without that restriction it fails: after a caught panic `egest` goes on and may answer wrongly.
`Homographic::reduction_ingest` has taken a symbol off its operand before it doubles the
coefficients, and the doubling panics.  The next `egest` misses that symbol.  Here a number below
one half answers `Uncover`, in a debug build and in a release build. -/
theorem C51_not_without_restriction (cfg : Cfg) (h : cfg = debug64 ∨ cfg = release64) :
    Caller.session cfg 100 (afterPanic ++ [.egest 1]) Caller.start =
      [.ok (.made (.other none)), .ok (.made (.other none)), .panic .unwrapNone,
        .ok (.symbol (some .Uncover))] ∧
    ∀ x : ℚ, x = (2 ^ 63 - 3) / (2 ^ 64 - 4) → x / (2 ^ 62 - (2 ^ 62 - 1) * x) < 1 / 2 := by
  refine ⟨?_, by rintro _ rfl; norm_num⟩
  rcases h with rfl | rfl <;> decide +kernel

end Clarith
