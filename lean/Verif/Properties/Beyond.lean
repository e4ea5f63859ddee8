import Verif.Proofs.FieldPole
import Verif.Proofs.FieldCompare
import Verif.Properties.Combine
import Verif.Properties.Consume
import Mathlib.Analysis.Real.Hyperreal

/-! # Numbers that are not fractions as operands (C54)

`combine` returns a number for some divisions by zero, and nothing keeps the user from passing it
to another call.  All theorems here are about the elements of an arbitrary ordered field `K`; the
examples take the hyperreals, with the infinite number `ω`. -/

namespace Clarith

open Spec Out

section

variable {K : Type*} [Field K] [LinearOrder K] [IsStrictOrderedRing K]

theorem safeUpTo_of_overflow {cfg : Cfg} (hc : cfg.overflowChecks = true) {A : Panic → Prop}
    (hA : ∀ p, Overflow p → A p) (M : Int) : cfg.SafeUpTo A M :=
  ⟨fun _ _ => .inr ⟨hA _ (.inl rfl), hA _ (.inr rfl), hc⟩, fun _ _ => .inr (hA _ (.inl rfl))⟩

/-! ## Examples used below -/

/-- What `homographic` returns for (x+1)/(0x+0) at 3/5 with machine integers of any size. -/
def boundless : Number := .Other (some .Turn) (.homographic (.ratio ⟨3, 5⟩) ⟨0, 0, 1, 1⟩)

theorem boundless_returned :
    Returns (fun f => Number.homographic debug64 f (.Other none (.ratio ⟨3, 5⟩)) 1 1 0 0)
      boundless := ⟨1, fun f hf => by
  obtain ⟨f, rfl⟩ : ∃ i, f = i + 1 := ⟨f - 1, by omega⟩
  rfl⟩

theorem boundless_amplifies : Clog.AmplifiesForever debug64 OverflowOrDivision
    (.homographic (.ratio ⟨3, 5⟩) ⟨0, 0, 1, 1⟩) := by
  obtain ⟨_, _, p, c, e, _, h⟩ :=
    (C17_homographic_pole debug64 rfl _ _ (denotes_three_fifths _ _) 1 1 0 0 (by decide)
      (by decide) (by decide) (by decide) (by norm_num)).of_returns boundless_returned
  cases e
  exact h

theorem Spec.infinite_omega : Infinite Hyperreal.omega := fun n => by
  have e : (((n : ℝ) : Hyperreal)) = (n : Hyperreal) := rfl
  exact e ▸ Hyperreal.coe_lt_omega n

/-! ## C54 Values in any ordered field -/

/-- A number denoting a fraction follows that fraction in every ordered field. -/
theorem C54_fractions (cfg : Cfg) (A : Panic → Prop) (n : Number) (q : ℚ)
    (hn : Number.Denotes cfg A n q) : Number.Follows cfg A n (q : K) := hn.follows

example := C54_fractions (K := ℝ) debug64 Overflow _ _ (denotes_three_fifths _ _)

theorem Spec.Infinite.inv {w : K} (hw : Infinite w) : Infinitesimal (1 / w) := by
  have h0 : 0 < w := by simpa using hw 0
  refine ⟨by positivity, fun n => ?_⟩
  rw [mul_one_div, div_lt_one h0]
  exact hw n

/-- A number that answers `Amplify` forever follows, depending on its primer, every infinite
positive number, every infinite negative one, every positive infinitesimal, or every negative
one.  So it follows no element of the reals. -/
theorem C54_infinity (cfg : Cfg) (A : Panic → Prop) (c : Clog)
    (hc : Clog.AmplifiesForever cfg A c) (w : K) :
    (Infinite w → Number.Follows cfg A (.Other (some .Turn) c) w) ∧
    (Infinite (-w) → Number.Follows cfg A (.Other (some .Ground) c) w) ∧
    (Infinitesimal w → Number.Follows cfg A (.Other none c) w) ∧
    (Infinitesimal (-w) → Number.Follows cfg A (.Other (some .Reflect) c) w) := by
  refine ⟨fun h => ⟨1 / w, hc.follows h.inv, ?_⟩, fun h => ⟨1 / (-w), hc.follows h.inv, ?_⟩,
    fun h => ⟨w, hc.follows h, rfl⟩, fun h => ⟨-w, hc.follows h, ?_⟩⟩
  · simp [primerIn]
  · simp [primerIn]
  · simp [primerIn]

theorem boundless_follows : Number.Follows debug64 OverflowOrDivision boundless Hyperreal.omega :=
  (C54_infinity _ _ _ boundless_amplifies _).1 infinite_omega

/-- What a number that follows an infinite number looks like: the primer is `Turn`, and every
symbol that comes is `Amplify`. -/
theorem C54_infinite_looks (cfg : Cfg) (A : Panic → Prop) (n : Number) (w : K) (hw : Infinite w)
    (hn : Number.Follows cfg A n w) :
    ∃ c, n = .Other (some .Turn) c ∧
      ∀ k, May A (fun f => Clog.egests cfg f k c)
        (fun r => r.1 = List.replicate k (some .Amplify)) := by
  have h1 : (1 : K) < w := by simpa using hw 1
  cases n with
  | Special s =>
    have : w = specialIn K s := hn
    cases s <;> simp only [specialIn] at this <;> linarith
  | Other p c =>
    obtain ⟨x, hx, e⟩ := hn
    obtain ⟨h0, h2, hk⟩ := hx
    have hi : 0 < 1 / x := by positivity
    rcases p with _ | (_ | _ | _)
    · simp only [primerIn] at e; linarith
    · simp only [primerIn] at e
      refine ⟨c, rfl, ?_⟩
      have : x = 1 / w := by rw [e]; simp
      subst this
      intro k
      have := hk k
      rwa [hw.inv.symbols] at this
    · simp only [primerIn] at e; linarith
    · simp only [primerIn] at e; linarith

example := C54_infinite_looks _ _ _ _ infinite_omega boundless_follows

/-- `homographic` at any value, fraction or not: if it returns, it returns a number that follows
`(nx*q+n)/(dx*q+d)`, and if it panics, it is an overflow or a panic of the operand. -/
theorem C54_homographic (cfg : Cfg) (hc : cfg.overflowChecks = true) (A : Panic → Prop)
    (hA : ∀ p, Overflow p → A p) (x : Number) (q : K) (hx : Number.Follows cfg A x q)
    (nx n dx d : Int) (h1 : cfg.Fits nx) (h2 : cfg.Fits n) (h3 : cfg.Fits dx) (h4 : cfg.Fits d)
    (hD : (dx : K) * q + d ≠ 0) :
    May A (fun f => Number.homographic cfg f x nx n dx d)
      (fun t => Number.Follows cfg A t ((nx * q + n) / (dx * q + d))) :=
  Number.homographic_maybe (safeUpTo_of_overflow hc hA) hx h1 h2 h3 h4 hD

/-- (ω + 3) / (2 ω + 5) -/
example := C54_homographic debug64 rfl OverflowOrDivision Overflow.or_division _ _
  boundless_follows 1 3 2 5 (by decide) (by decide) (by decide) (by decide)
  (by have := Hyperreal.omega_pos; push_cast; positivity)

/-- At a pole `homographic` only returns for a zero denominator. -/
theorem C54_homographic_pole (cfg : Cfg) (hc : cfg.overflowChecks = true) (A : Panic → Prop)
    (hA : ∀ p, OverflowOrDivision p → A p) (x : Number) (q : K) (hx : Number.Follows cfg A x q)
    (nx n dx d : Int) (h2 : cfg.Fits n) (hD : (dx : K) * q + d = 0) :
    May A (fun f => Number.homographic cfg f x nx n dx d)
      (fun t => dx = 0 ∧ d = 0 ∧ ∃ p c, t = .Other p c ∧ (p = some .Turn ∨ p = some .Ground) ∧
        Clog.AmplifiesForever cfg Overflow c) := by
  have := Number.homographic_pole_maybe (nx := nx) (n := n) (dx := dx) (d := d)
    (hA _ (.inr rfl)) (safeUpTo_of_overflow hc fun p hp => hA p (.inl hp))
    (safeUpTo_of_overflow hc fun _ hp => hp) hx h2 hD
  exact fun f => ⟨fun a ha => by
    obtain ⟨z1, z2, z⟩ := (this f).1 a ha
    exact ⟨z2, z1, z⟩, (this f).2⟩

/-- (2 ω + 3) / (0 ω + 0) -/
example := C54_homographic_pole debug64 rfl OverflowOrDivision (fun _ h => h) _ _
  boundless_follows 2 3 0 0 (by decide) (by simp)

/-- `combine` at any two values. -/
theorem C54_combine (cfg : Cfg) (hc : cfg.overflowChecks = true) (A : Panic → Prop)
    (hA : ∀ p, Overflow p → A p) (x y : Number) (q r : K) (hx : Number.Follows cfg A x q)
    (hy : Number.Follows cfg A y r) (nxy nx ny n dxy dx dy d : Int)
    (H : MachineInts cfg [nxy, nx, ny, n, dxy, dx, dy, d])
    (hD : (dxy : K) * q * r + dx * q + dy * r + d ≠ 0) :
    May A (fun f => Number.combine cfg f x y nxy nx ny n dxy dx dy d)
      (fun t => Number.Follows cfg A t
        ((nxy * q * r + nx * q + ny * r + n) / (dxy * q * r + dx * q + dy * r + d))) :=
  Number.combine_maybe (safeUpTo_of_overflow hc hA) hx hy (Coef8.Fits.of_list H) hD

/-- ω - 7/2 -/
example := C54_combine debug64 rfl OverflowOrDivision Overflow.or_division _ _ _ _
  boundless_follows (denotes_minus_seven_halves _ _).follows 0 1 1 0 0 0 0 1
  (by unfold MachineInts; decide) (by simp)

/-- At a pole `combine` returns nothing but a number that answers `Amplify` forever. -/
theorem C54_combine_pole (cfg : Cfg) (hc : cfg.overflowChecks = true) (A : Panic → Prop)
    (hA : ∀ p, OverflowOrDivision p → A p) (x y : Number) (q r : K)
    (hx : Number.Follows cfg A x q) (hy : Number.Follows cfg A y r)
    (nxy nx ny n dxy dx dy d : Int) (H : MachineInts cfg [nxy, nx, ny, n, dxy, dx, dy, d])
    (hD : (dxy : K) * q * r + dx * q + dy * r + d = 0) :
    May A (fun f => Number.combine cfg f x y nxy nx ny n dxy dx dy d)
      (fun t => ∃ p c, t = .Other p c ∧ (p = some .Turn ∨ p = some .Ground) ∧
        Clog.AmplifiesForever cfg Overflow c) :=
  Number.combine_pole_maybe (hA _ (.inr rfl))
    (safeUpTo_of_overflow hc fun p hp => hA p (.inl hp))
    (safeUpTo_of_overflow hc fun _ hp => hp) hx hy (Coef8.Fits.of_list H) hD

/-- ω / (ω - ω), the operands being different calls. -/
example := C54_combine_pole debug64 rfl OverflowOrDivision (fun _ h => h) _ _ _ _
  boundless_follows boundless_follows 0 1 0 0 0 1 (-1) 0
  (by unfold MachineInts; decide) (by simp)

/-- `compare` at any two values: if it answers, it answers the order of the values. -/
theorem C54_compare (cfg : Cfg) (A : Panic → Prop) (n1 n2 : Number) (p q : K)
    (h1 : Number.Follows cfg A n1 p) (h2 : Number.Follows cfg A n2 q) :
    May A (fun f => Number.compare cfg f n1 n2)
      (fun o => (o = .lt ↔ p < q) ∧ (o = .eq ↔ p = q) ∧ (o = .gt ↔ q < p)) := by
  have := Number.compare_maybe h1 h2
  refine fun f => ⟨fun o ho => ?_, (this f).2⟩
  have ho := (this f).1 o ho
  cases o <;> simp only [Ordering.Compares] at ho <;>
    simp only [true_iff, reduceCtorEq, false_iff, not_lt] <;>
    refine ⟨?_, ?_, ?_⟩ <;>
    first | exact ho | exact ho.le | exact ho.ne | exact ho.ne' | exact ho.symm.le

/-- ω and -7/2 -/
example := C54_compare _ _ _ _ _ _ boundless_follows (denotes_minus_seven_halves _ _).follows

/-- The value of `(ny*y+n)/(dy*y+d)`, where a missing `y` counts as one half, is `q`. -/
def Spec.StandsIn (cfg : Cfg) (A : Panic → Prop) (y : Option Number) (k : Coef4) (q : K) : Prop :=
  ∃ v : K, (match y with
    | none => v = 1 / 2
    | some y => Number.Follows cfg A y v) ∧
    (k.dx : K) * v + k.d ≠ 0 ∧ (k.nx * v + k.n) / (k.dx * v + k.d) = q

/-- `consume` at any value: if it returns, the result stands for the value; it does not panic
itself. -/
theorem C54_consume (cfg : Cfg) (A : Panic → Prop) (x : Number) (q : K)
    (hx : Number.Follows cfg A x q) :
    May A (fun f => Number.consume cfg f x) (fun r => StandsIn cfg A r.1 r.2 q) := by
  have hlim := Consume.lim_bounds cfg
  refine may_iff.2 fun f => ?_
  cases x with
  | Special s =>
    have e : q = specialIn K s := hx
    subst e
    cases s <;> exact ⟨1 / 2, rfl, by simp, by simp [specialIn]⟩
  | Other p c =>
    obtain ⟨v, hv, rfl⟩ := hx
    simp only [Number.consume, Consume.new]
    refine Maybe.bind (Q := fun r => Consume.PostIn cfg A (primerIn p v) r) ?_ ?_
    · refine Maybe.bind_sat (Consume.start_sat_in hv.1) ?_
      rintro k ⟨⟨b1, b2, b3, b4⟩, hD, hw⟩
      exact Consume.consume_maybe f f hv ⟨by omega, by omega, by omega, by omega⟩ hD hw
    · rintro ⟨_ | y, k⟩ hp
      · obtain ⟨_, p2, p3⟩ := hp
        exact Maybe.pure ⟨1 / 2, rfl, p2, p3⟩
      · obtain ⟨_, _, v, p3, p4, p5⟩ := hp
        exact Maybe.pure ⟨v, ⟨v, p3, rfl⟩, p4, p5⟩

example := C54_consume _ _ _ _ boundless_follows

end

end Clarith
