import Verif.Properties.Release
import Verif.Properties.Unity

/-! # A machine with wider words gives the same results (C44) -/

namespace Clarith

open Out Spec

/-- A build with overflow checks, and a build of any kind for a machine whose words are at least as
wide. -/
structure Spec.Widening (narrow wide : Cfg) : Prop where
  widerWord : narrow.bits ≤ wide.bits
  narrowChecks : narrow.overflowChecks = true

theorem Spec.Widening.wider {narrow wide : Cfg} (h : Widening narrow wide) : narrow.Wider wide :=
  ⟨h.1, h.2⟩

/-- A call on the wide machine does what the same call does on the narrow one: it returns the same
result, or panics in the same way, unless the panic was an integer overflow. -/
def Spec.SameUnlessOverflow {α : Type} (narrow wide : Nat → Out α) : Prop :=
  (∀ a, Returns narrow a → Returns wide a) ∧
  (∀ p, ¬Overflow p → Panics narrow p → Panics wide p)

theorem Spec.SameUnlessOverflow.of_widens {α : Type} {m m' : Nat → Out α}
    (h : ∀ f, Widens (m f) (m' f)) : SameUnlessOverflow m m' :=
  ⟨fun _ => Widens.returns h, fun _ hp => Widens.panics h hp⟩

/-- The history has no call of `consume`, whose limit depends on the word size. -/
def Spec.Expr.NoConsume : Expr → Prop
  | given _ | ratio _ _ | ratioU _ _ _ => True
  | homographic e _ _ _ _ => e.NoConsume
  | combine e e' _ _ _ _ _ _ _ _ => e.NoConsume ∧ e'.NoConsume
  | rebuild _ => False
  | reread _ _ e => e.NoConsume

theorem Spec.Expr.run_widens {cfg cfg' : Cfg} (w : cfg.Wider cfg') (f : Nat) (env : Nat → Number)
    (e : Expr) (hm : e.Machine cfg) (hc : e.NoConsume) :
    Widens (e.run cfg f env) (e.run cfg' f env) := by
  induction e with
  | given i => exact .refl _
  | ratio n d => exact Number.ratio_widens w (hm n (by simp)) (hm d (by simp))
  | ratioU b n d => exact .refl _
  | homographic e nx n dx d ih =>
    exact Widens.bind (ih hm.1 hc) fun _ =>
      Number.homographic_widens w _ _ _ _ (hm.2 n (by simp)) (hm.2 d (by simp))
  | combine e e' nxy nx ny n dxy dx dy d ih ih' =>
    exact Widens.bind (ih hm.1 hc.1) fun _ => Widens.bind (ih' hm.2.1 hc.2) fun _ =>
      Number.combine_widens w _ _ _ _ _ _ _ _ _ (hm.2.2 n (by simp)) (hm.2.2 d (by simp))
  | rebuild e ih => exact hc.elim
  | reread p m e ih =>
    refine Widens.bind (ih hm hc) fun x => Widens.bind (.refl _) ?_
    rintro ⟨_, c⟩
    exact Widens.bind (Clog.egests_widens w ..) fun _ => .refl _

/-- Every history of API calls, on integers of the narrow machine and without `consume`: the wide
machine gives the same number. -/
theorem C44_history_agrees {narrow wide : Cfg} (h : Widening narrow wide) (env : Nat → Number)
    (e : Expr) (hm : e.Machine narrow) (hc : e.NoConsume) :
    SameUnlessOverflow (fun f => e.run narrow f env) (fun f => e.run wide f env) :=
  .of_widens fun f => Expr.run_widens h.wider f env e hm hc

example := C44_history_agrees (narrow := ⟨16, by decide, true⟩) (wide := release64) ⟨by decide, rfl⟩
  (fun _ => .Special .Zero)
  (.combine (.homographic (.ratio 1 3) 2 1 0 2) (.ratio 3 4) 0 1 (-1) 0 0 0 0 1)
  (by simp only [Expr.Machine, MachineInts]; decide) ⟨trivial, trivial⟩

/-- Reading any number of symbols of any clog: the same symbols, and the same clog left. -/
theorem C44_symbols_agree {narrow wide : Cfg} (h : Widening narrow wide) (k : Nat) (c : Clog) :
    SameUnlessOverflow (fun f => Clog.egests narrow f k c) (fun f => Clog.egests wide f k c) :=
  .of_widens fun f => Clog.egests_widens h.wider f k c

example := C44_symbols_agree (narrow := ⟨16, by decide, true⟩) (wide := release64) ⟨by decide, rfl⟩ 4
  (.ratio ⟨3, 5⟩)

/-- `compare`: the same answer. -/
theorem C44_compare_agrees {narrow wide : Cfg} (h : Widening narrow wide) (x y : Number) :
    SameUnlessOverflow (fun f => Number.compare narrow f x y)
      (fun f => Number.compare wide f x y) :=
  .of_widens fun f => Number.compare_widens h.wider f x y

example := C44_compare_agrees (narrow := ⟨16, by decide, true⟩) (wide := release64) ⟨by decide, rfl⟩
  (.Other none (.ratio ⟨3, 5⟩)) (.Other (some .Ground) (.ratio ⟨2, 7⟩))

/-- The program's printed text is the same. -/
theorem C44_text_agrees {narrow wide : Cfg} (h : Widening narrow wide) (x : Number) :
    SameUnlessOverflow (fun f => Main.logn narrow f x) (fun f => Main.logn wide f x) :=
  .of_widens fun f => Main.logn_widens h.wider f x

example := C44_text_agrees (narrow := ⟨16, by decide, true⟩) (wide := release64) ⟨by decide, rfl⟩
  (.Other (some .Ground) (.ratio ⟨2, 7⟩))

/-- What a number denotes without panics on the narrow machine, it denotes on the wide one. -/
theorem C44_denotes_agrees {narrow wide : Cfg} (h : Widening narrow wide) (x : Number) (q : ℚ)
    (hx : Number.Denotes narrow NoPanic x q) : Number.Denotes wide NoPanic x q := by
  cases x with
  | Special s => exact hx
  | Other p c =>
    obtain ⟨v, ⟨h0, h1, hk⟩, rfl⟩ := hx
    refine ⟨v, ⟨h0, h1, fun k => ?_⟩, rfl⟩
    rcases hk k with ⟨a, hr, ha⟩ | ⟨p, _, hp⟩
    · exact .inl ⟨a, (C44_symbols_agree h k c).1 a hr, ha⟩
    · exact hp.elim

example := C44_denotes_agrees (narrow := ⟨16, by decide, true⟩) (wide := release64)
  ⟨by decide, rfl⟩ _ _ (denotes_three_fifths _ _)

/-- A 16 bit checked build and the ordinary 64 bit builds are such pairs. -/
example : Widening ⟨16, by decide, true⟩ debug64 ∧ Widening ⟨16, by decide, true⟩ release64 :=
  ⟨⟨by decide, rfl⟩, ⟨by decide, rfl⟩⟩

/-- `(2 * (1/3) + 1) / 2 - 3/4`, on a 16 bit machine: the call does return. -/
example : ∃ e : Expr, e.Machine ⟨16, by decide, true⟩ ∧ e.NoConsume ∧ ∃ x, Returns
    (fun f => e.run ⟨16, by decide, true⟩ f fun _ => .Special .Zero) x := by
  refine ⟨.combine (.homographic (.ratio 1 3) 2 1 0 2) (.ratio 3 4) 0 1 (-1) 0 0 0 0 1, ?_, ?_,
    .Other none (.homographic (.ratio ⟨1, 4⟩) ⟨4, 1, 16, 20⟩),
    FuelMono.returns (Expr.run_mono _ _ _) 40 (by decide +kernel)⟩
  · refine ⟨⟨?_, ?_⟩, ?_, ?_⟩ <;> simp only [Expr.Machine, MachineInts] <;> decide
  · exact ⟨trivial, trivial⟩

/-- The exception is needed: on a 16 bit machine the reciprocal of `-1/32767` overflows, on a 64 bit
machine it is `-32767`. -/
example : ∃ x, Panics (fun f => Number.homographic ⟨16, by decide, true⟩ f x 0 1 1 0) .unwrapNone ∧
    ∃ r, Returns (fun f => Number.homographic debug64 f x 0 1 1 0) r ∧
      Number.Denotes debug64 NoPanic r (-32767) := by
  have hx : ∀ cfg : Cfg, Number.Denotes cfg NoPanic
      (.Other (some .Reflect) (.ratio ⟨1, 32767⟩)) (-(1 / 32767)) := by
    intro cfg
    have hu := cfg.umax_eq
    have hm := cfg.imax_ge
    have := Ratio.denotes (cfg := cfg) (A := NoPanic) (r := ⟨1, 32767⟩)
      ⟨by decide, by decide, by show 32767 ≤ cfg.umax; omega⟩
    exact ⟨_, this, by norm_num [applyPrimer, Ratio.val]⟩
  refine ⟨_, C30_reciprocal_overflow (hx _) (by norm_num) (by norm_num), ?_⟩
  rcases C30_reciprocal (hx debug64) (.inr (by norm_num [debug64])) with ⟨r, hr, hd⟩ | ⟨_, _, h⟩
  · exact ⟨r, hr, by norm_num at hd; exact hd⟩
  · exact h.elim

end Clarith
