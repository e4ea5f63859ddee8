import Verif.Properties.History
import Verif.Properties.Limits
import Verif.Proofs.Release

/-! # The build without overflow checks agrees with the build with them (C33) -/

namespace Clarith

open Out Spec

/-- Two builds of the library for the same machine, with and without overflow checks. -/
structure Spec.Builds (debug release : Cfg) : Prop where
  sameWord : release.bits = debug.bits
  debugChecks : debug.overflowChecks = true
  releaseChecks : release.overflowChecks = false

theorem Spec.Builds.eq_release {debug release : Cfg} (h : Builds debug release) :
    release = debug.release := by
  obtain ⟨h1, _, h3⟩ := h
  cases release; cases debug
  cases h1; cases h3; rfl

/-- A call in the build without overflow checks does what the same call does in the build with
them: it returns the same result, or panics in the same way, unless the panic was the overflow
check itself. -/
def Spec.SameAs {α : Type} (debug release : Nat → Out α) : Prop :=
  (∀ a, Returns debug a → Returns release a) ∧
  (∀ p, p ≠ .arithOverflow → Panics debug p → Panics release p)

theorem Spec.SameAs.of_follows {α : Type} {m m' : Nat → Out α} (h : ∀ f, Follows (m f) (m' f)) :
    SameAs m m' :=
  ⟨fun _ => Follows.returns h, fun _ hp => Follows.panics h hp⟩

theorem Number.ratioU_same (positive : Bool) (num den : Nat) :
    Follows (Number.ratioU positive num den) (Number.ratioU positive num den) := .refl _

theorem Spec.rebuild_follows {cfg : Cfg} (f : Nat) (r : Option Number × Coef4) :
    Follows (rebuild cfg f r) (rebuild cfg.release f r) := by
  obtain ⟨_ | y, k⟩ := r
  · exact Follows.bind (cfg.mul_follows _ _) fun _ => Follows.bind (cfg.add_follows _ _) fun _ =>
      Follows.bind (cfg.mul_follows _ _) fun _ => Follows.bind (cfg.add_follows _ _) fun _ =>
        Number.ratio_follows _ _
  · exact Number.homographic_follows ..

theorem Spec.Expr.run_follows {cfg : Cfg} (f : Nat) (env : Nat → Number) (e : Expr) :
    Follows (e.run cfg f env) (e.run cfg.release f env) := by
  induction e with
  | given i => exact .refl _
  | ratio n d => exact Number.ratio_follows n d
  | ratioU b n d => exact .refl _
  | homographic e nx n dx d ih => exact Follows.bind ih fun _ => Number.homographic_follows ..
  | combine e e' nxy nx ny n dxy dx dy d ih ih' =>
    exact Follows.bind ih fun _ => Follows.bind ih' fun _ => Number.combine_follows ..
  | rebuild e ih =>
    exact Follows.bind ih fun _ => Follows.bind (Number.consume_follows ..) fun _ =>
      rebuild_follows ..
  | reread p m e ih =>
    refine Follows.bind ih fun x => Follows.bind (.refl _) ?_
    rintro ⟨_, c⟩
    exact Follows.bind (Clog.egests_follows ..) fun _ => .refl _

theorem Spec.Expr.run_mono (cfg : Cfg) (env : Nat → Number) (e : Expr) :
    FuelMono fun f => e.run cfg f env := by
  intro f f' hf
  induction e with
  | given i => exact .refl _
  | ratio n d => exact .refl _
  | ratioU b n d => exact .refl _
  | homographic e nx n dx d ih => exact Out.Le.bind ih fun _ => Number.homographic_le hf ..
  | combine e e' nxy nx ny n dxy dx dy d ih ih' =>
    exact Out.Le.bind ih fun _ => Out.Le.bind ih' fun _ => Number.combine_le hf ..
  | rebuild e ih =>
    refine Out.Le.bind ih fun _ => Out.Le.bind (Number.consume_le hf _) ?_
    rintro ⟨_ | y, k⟩
    · exact .refl _
    · exact Number.homographic_le hf ..
  | reread p m e ih =>
    refine Out.Le.bind ih fun x => Out.Le.bind_right ?_
    rintro ⟨_, c⟩
    exact Out.Le.bind (Clog.egests_le hf ..) fun _ => .refl _

/-- Every history of API calls: the build without overflow checks gives the same number. -/
theorem C33_release_agrees {debug release : Cfg} (h : Builds debug release) (env : Nat → Number)
    (e : Expr) : SameAs (fun f => e.run debug f env) (fun f => e.run release f env) := by
  rw [h.eq_release]; exact .of_follows fun f => Expr.run_follows f env e

example := C33_release_agrees (debug := debug64) (release := release64) ⟨rfl, rfl, rfl⟩
  (fun _ => .Special .Zero) (.rebuild (.homographic (.ratio 1 3) 2 1 0 2))

/-- Reading any number of symbols of any clog: the same symbols, and the same clog left. -/
theorem C33_symbols_agree {debug release : Cfg} (h : Builds debug release) (k : Nat) (c : Clog) :
    SameAs (fun f => Clog.egests debug f k c) (fun f => Clog.egests release f k c) := by
  rw [h.eq_release]; exact .of_follows fun f => Clog.egests_follows f k c

example := C33_symbols_agree (debug := debug64) (release := release64) ⟨rfl, rfl, rfl⟩ 4
  (.ratio ⟨3, 5⟩)

/-- `compare`: the same answer. -/
theorem C33_compare_agrees {debug release : Cfg} (h : Builds debug release) (x y : Number) :
    SameAs (fun f => Number.compare debug f x y) (fun f => Number.compare release f x y) := by
  rw [h.eq_release]; exact .of_follows fun f => Number.compare_follows f x y

example := C33_compare_agrees (debug := debug64) (release := release64) ⟨rfl, rfl, rfl⟩
  (.Other none (.ratio ⟨3, 5⟩)) (.Other (some .Ground) (.ratio ⟨2, 7⟩))

/-- `consume`: the same coefficients and remaining number. -/
theorem C33_consume_agrees {debug release : Cfg} (h : Builds debug release) (x : Number) :
    SameAs (fun f => Number.consume debug f x) (fun f => Number.consume release f x) := by
  rw [h.eq_release]; exact .of_follows fun f => Number.consume_follows f x

example := C33_consume_agrees (debug := debug64) (release := release64) ⟨rfl, rfl, rfl⟩
  (.Other (some .Ground) (.ratio ⟨2, 7⟩))

/-- The program's printed text is the same. -/
theorem C33_text_agrees {debug release : Cfg} (h : Builds debug release) (x : Number) :
    SameAs (fun f => Main.logn debug f x) (fun f => Main.logn release f x) := by
  rw [h.eq_release]; exact .of_follows fun f => Main.logn_follows f x

example := C33_text_agrees (debug := debug64) (release := release64) ⟨rfl, rfl, rfl⟩
  (.Other (some .Ground) (.ratio ⟨2, 7⟩))

/-- What a number denotes without panics in the checked build, it denotes in the release build. -/
theorem C33_denotes_agrees {debug release : Cfg} (h : Builds debug release) (x : Number) (q : ℚ)
    (hx : Number.Denotes debug NoPanic x q) : Number.Denotes release NoPanic x q := by
  cases x with
  | Special s => exact hx
  | Other p c =>
    obtain ⟨v, ⟨h0, h1, hk⟩, rfl⟩ := hx
    refine ⟨v, ⟨h0, h1, fun k => ?_⟩, rfl⟩
    rcases hk k with ⟨a, hr, ha⟩ | ⟨p, _, hp⟩
    · exact .inl ⟨a, (C33_symbols_agree h k c).1 a hr, ha⟩
    · exact hp.elim

example := C33_denotes_agrees (debug := debug64) (release := release64) ⟨rfl, rfl, rfl⟩ _ _
  (denotes_three_fifths _ _)

/-- The ordinary 64-bit builds are such a pair, and a checked build does return: `1/3 + 1/2`,
consumed and rebuilt. -/
example : Builds debug64 release64 := ⟨rfl, rfl, rfl⟩

example : ∃ x, Returns
    (fun f => (Expr.rebuild (.homographic (.ratio 1 3) 2 1 0 2)).run debug64 f fun _ => .Special .Zero)
    x := by
  have h : FuelMono fun f =>
      (Expr.rebuild (.homographic (.ratio 1 3) 2 1 0 2)).run debug64 f fun _ => .Special .Zero :=
    Expr.run_mono _ _ _
  exact ⟨.Other none (.ratio ⟨10, 12⟩), FuelMono.returns h 20 (by decide +kernel)⟩

/-- The exception is needed: the two builds differ where the check fires. -/
example : ∃ x, Panics (fun f => Number.homographic debug64 f x debug64.imin 0 0 1) .arithOverflow ∧
    ∃ r, Returns (fun f => Number.homographic release64 f x release64.imin 0 0 1) r := by
  obtain ⟨x, r, _, _, h, _, _, _, h'⟩ := C34_release_wrong
  exact ⟨x, h', r, h⟩

end Clarith
