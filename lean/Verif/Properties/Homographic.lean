import Verif.Proofs.HomographicNew
import Verif.Properties.Ratio

/-! # Properties of `Number::homographic` (C16-C19, C29, C31) -/

namespace Clarith

open Spec

/-- Machine integers have a common bound. -/
theorem Homographic.Args.of_fits {cfg : Cfg} {nx n dx d : Int} (h1 : cfg.Fits nx)
    (h2 : cfg.Fits n) (h3 : cfg.Fits dx) (h4 : cfg.Fits d) :
    Homographic.Args cfg (cfg.imax + 1) nx n dx d := by
  have := cfg.imax_ge; have := cfg.imin_eq
  have a1 := h1; have a2 := h2; have a3 := h3; have a4 := h4
  unfold Cfg.Fits at a1 a2 a3 a4
  constructor <;> first | assumption | omega

/-- Overflow, or the "division by zero" panic. -/
def OverflowOrDivision : Panic → Prop := fun p => Overflow p ∨ p = .divisionByZero

theorem Overflow.or_division : ∀ p, Overflow p → OverflowOrDivision p := fun _ h => .inl h

theorem safeUpTo_overflowOrDivision {cfg : Cfg} (hc : cfg.overflowChecks = true) (M : Int) :
    cfg.SafeUpTo OverflowOrDivision M :=
  ⟨fun _ _ => .inr ⟨.inl (.inl rfl), .inl (.inr rfl), hc⟩, fun _ _ => .inr (.inl (.inl rfl))⟩

/-! ## C16 `homographic` computes (nx*x+n)/(dx*x+d) -/

/-- With overflow checks, for every number denoting a rational `q` and all machine integers
with `dx*q + d ≠ 0`: the call ends; it returns a number denoting `(nx*q+n)/(dx*q+d)` or panics
with an integer overflow, and the same holds for every later `egest` on the result. -/
theorem C16_homographic (cfg : Cfg) (hc : cfg.overflowChecks = true) (x : Number) (q : ℚ)
    (hx : Number.Denotes cfg Overflow x q) (nx n dx d : Int) (h1 : cfg.Fits nx)
    (h2 : cfg.Fits n) (h3 : cfg.Fits dx) (h4 : cfg.Fits d) (hD : (dx : ℚ) * q + d ≠ 0) :
    Ends Overflow (fun f => Number.homographic cfg f x nx n dx d)
      (fun r => Number.Denotes cfg Overflow r ((nx * q + n) / (dx * q + d))) := by
  obtain ⟨L, hL⟩ := hx.inL
  exact Number.homographic_ends hL (.of_fits h1 h2 h3 h4) (safeUpTo_overflow hc _) hD

/-- The operand of the examples: 3/5 as built by `Number::ratio`. -/
theorem denotes_three_fifths (cfg : Cfg) (A : Panic → Prop) :
    Number.Denotes cfg A (.Other none (.ratio ⟨3, 5⟩)) (3 / 5) := by
  refine ⟨3 / 5, ?_, rfl⟩
  have := Ratio.denotes (cfg := cfg) (A := A) (r := ⟨3, 5⟩) ⟨by decide, by decide, ?_⟩
  · simpa [Ratio.val] using this
  · have h1 := cfg.umax_eq
    have h2 := cfg.imax_ge
    simp only
    omega

example : debug64.overflowChecks = true ∧
    Number.Denotes debug64 Overflow (.Other none (.ratio ⟨3, 5⟩)) (3 / 5) ∧
    debug64.Fits 7 ∧ debug64.Fits (-2) ∧ debug64.Fits 4 ∧ debug64.Fits 1 ∧
    ((4 : Int) : ℚ) * (3 / 5) + (1 : Int) ≠ 0 :=
  ⟨rfl, denotes_three_fifths _ _, by decide, by decide, by decide, by decide, by norm_num⟩

/-! ## C17, C18 Poles -/

/-- At a pole, the call ends with a panic ("division by zero" or an overflow) or, only when
`dx = d = 0`, returns a number whose clog answers `Amplify` forever.  In particular it never
returns a special value or a number with a finite expansion. -/
theorem C17_homographic_pole (cfg : Cfg) (hc : cfg.overflowChecks = true) (x : Number) (q : ℚ)
    (hx : Number.Denotes cfg Overflow x q) (nx n dx d : Int) (h1 : cfg.Fits nx)
    (h2 : cfg.Fits n) (h3 : cfg.Fits dx) (h4 : cfg.Fits d) (hD : (dx : ℚ) * q + d = 0) :
    Ends OverflowOrDivision (fun f => Number.homographic cfg f x nx n dx d)
      (fun r => dx = 0 ∧ d = 0 ∧ ∃ p c, r = .Other p c ∧ (p = some .Turn ∨ p = some .Ground) ∧
        Clog.AmplifiesForever cfg OverflowOrDivision c) := by
  obtain ⟨L, hL⟩ := (hx.weaken Overflow.or_division).inL
  refine (Number.homographic_pole_ends (.inr rfl) hL (.of_fits h1 h2 h3 h4)
    (safeUpTo_overflowOrDivision hc _) hD).mono ?_
  rintro r ⟨a, b, h⟩
  exact ⟨b, a, h⟩

example : ((5 : Int) : ℚ) * (3 / 5) + (-3 : Int) = 0 := by norm_num

/-- A clog that answers `Amplify` forever denotes no number. -/
theorem Clog.AmplifiesForever.not_denotes {cfg : Cfg} {A : Panic → Prop} {c : Clog}
    (h : Clog.AmplifiesForever cfg A c) (x : ℚ) : ¬Clog.Denotes cfg NoPanic c x := by
  intro hd
  obtain ⟨l, hl⟩ := exists_expands x hd.1 hd.2.1
  obtain ⟨c', hr⟩ := hd.returns (l.length + 1)
  have := (h (l.length + 1)).of_returns hr
  simp only at this
  rw [hl.symbols 1] at this
  have hm : none ∈ List.replicate (l.length + 1) (some Reduction.Amplify) := by
    rw [← this]; simp
  have := List.eq_of_mem_replicate hm
  cases this

/-- At a pole no number is returned that denotes a rational. -/
theorem C17_homographic_pole_no_value (cfg : Cfg) (hc : cfg.overflowChecks = true) (x : Number)
    (q : ℚ) (hx : Number.Denotes cfg Overflow x q) (nx n dx d : Int) (h1 : cfg.Fits nx)
    (h2 : cfg.Fits n) (h3 : cfg.Fits dx) (h4 : cfg.Fits d) (hD : (dx : ℚ) * q + d = 0) (t : Number)
    (w : ℚ) (ht : Returns (fun f => Number.homographic cfg f x nx n dx d) t) :
    ¬Number.Denotes cfg NoPanic t w := by
  obtain ⟨_, _, p, c, rfl, _, ha⟩ :=
    (C17_homographic_pole cfg hc x q hx nx n dx d h1 h2 h3 h4 hD).of_returns ht
  rintro ⟨v, hv, _⟩
  exact ha.not_denotes v hv

/-- The zero denominator at 3/5: `homographic` does return a number. -/
example := C17_homographic_pole_no_value debug64 rfl _ _ (denotes_three_fifths _ _) 1 1 0 0 (by decide) (by decide)
  (by decide) (by decide) (by norm_num) (.Other (some .Turn) (.homographic (.ratio ⟨3, 5⟩) ⟨0, 0, 1, 1⟩))
  7 ⟨1, fun f hf => by
    obtain ⟨f, rfl⟩ : ∃ i, f = i + 1 := ⟨f - 1, by omega⟩
    rfl⟩

/-- At a pole of a non-zero denominator polynomial the call always panics. -/
theorem C18_homographic_pole_panics (cfg : Cfg) (hc : cfg.overflowChecks = true) (x : Number)
    (q : ℚ) (hx : Number.Denotes cfg Overflow x q) (nx n dx d : Int) (h1 : cfg.Fits nx)
    (h2 : cfg.Fits n) (h3 : cfg.Fits dx) (h4 : cfg.Fits d) (hD : (dx : ℚ) * q + d = 0)
    (hne : ¬(dx = 0 ∧ d = 0)) :
    ∃ p, Panics (fun f => Number.homographic cfg f x nx n dx d) p ∧ OverflowOrDivision p := by
  rcases C17_homographic_pole cfg hc x q hx nx n dx d h1 h2 h3 h4 hD with ⟨r, _, a, b, _⟩ | h
  · exact absurd ⟨a, b⟩ hne
  · exact h

example : ((5 : Int) : ℚ) * (3 / 5) + (-3 : Int) = 0 ∧ ¬((5 : Int) = 0 ∧ (-3 : Int) = 0) := by
  norm_num

theorem Cfg.small {cfg : Cfg} {z : Int} (h : -4 ≤ z) (h' : z ≤ 4) : cfg.Fits z := by
  have := cfg.imax_ge; have := cfg.imin_eq
  constructor <;> omega

/-! ## C19 No logic error -/

/-- The panics that would reveal a broken internal invariant. -/
def Internal : Panic → Prop := fun p =>
  p = .logicError ∨ p = .unwrapMissing ∨ p = .notSpecial ∨ p = .notOther

theorem OverflowOrDivision.not_internal {p : Panic} (h : OverflowOrDivision p) : ¬Internal p := by
  rcases h with (rfl | rfl) | rfl <;> simp [Internal]

theorem Number.Denotes.not_internal {cfg : Cfg} {p : Option Primer} {c : Clog} {q : ℚ}
    (h : Number.Denotes cfg Overflow (.Other p c) q) (k : Nat) (pn : Panic)
    (hp : Panics (fun f => Clog.egests cfg f k c) pn) : ¬Internal pn := by
  obtain ⟨x, hx, _⟩ := h
  exact OverflowOrDivision.not_internal (.inl ((hx.2.2 k).of_panic hp))

/-- Whatever the coefficients (pole or not), neither the call nor any number of later `egest`
calls on the returned clog panics with "logic error" or unwraps a missing value. -/
theorem C19_no_logic_error (cfg : Cfg) (hc : cfg.overflowChecks = true) (x : Number) (q : ℚ)
    (hx : Number.Denotes cfg Overflow x q) (nx n dx d : Int) (h1 : cfg.Fits nx)
    (h2 : cfg.Fits n) (h3 : cfg.Fits dx) (h4 : cfg.Fits d) :
    (∀ pn, Panics (fun f => Number.homographic cfg f x nx n dx d) pn → ¬Internal pn) ∧
    (∀ p c, Returns (fun f => Number.homographic cfg f x nx n dx d) (.Other p c) →
      ∀ k pn, Panics (fun f => Clog.egests cfg f k c) pn → ¬Internal pn) := by
  by_cases hD : (dx : ℚ) * q + d = 0
  · have h := C17_homographic_pole cfg hc x q hx nx n dx d h1 h2 h3 h4 hD
    refine ⟨fun pn hp => OverflowOrDivision.not_internal (h.of_panic hp), fun p c hr k pn hp => ?_⟩
    obtain ⟨_, _, p', c', e, _, ha⟩ := h.of_returns hr
    simp only [Number.Other.injEq] at e
    obtain ⟨rfl, rfl⟩ := e
    exact OverflowOrDivision.not_internal ((ha k).of_panic hp)
  · have h := C16_homographic cfg hc x q hx nx n dx d h1 h2 h3 h4 hD
    refine ⟨fun pn hp => OverflowOrDivision.not_internal (.inl (h.of_panic hp)),
      fun p c hr k pn hp => ?_⟩
    exact (h.of_returns hr).not_internal k pn hp

example : Number.Denotes debug64 Overflow (.Other none (.ratio ⟨3, 5⟩)) (3 / 5) :=
  denotes_three_fifths _ _

/-! ## C29 Composition -/

/-- Applying two transformations one after the other denotes the value of the transformation
whose coefficients are the matrix product; so does applying the product at once when its
coefficients are machine integers. -/
theorem C29_composition (cfg : Cfg) (hc : cfg.overflowChecks = true) (x : Number) (q : ℚ)
    (hx : Number.Denotes cfg Overflow x q) (nx n dx d nx' n' dx' d' : Int) (h1 : cfg.Fits nx)
    (h2 : cfg.Fits n) (h3 : cfg.Fits dx) (h4 : cfg.Fits d) (h1' : cfg.Fits nx')
    (h2' : cfg.Fits n') (h3' : cfg.Fits dx') (h4' : cfg.Fits d')
    (hD : (dx : ℚ) * q + d ≠ 0) (hD' : (dx' : ℚ) * ((nx * q + n) / (dx * q + d)) + d' ≠ 0) :
    ∃ w : ℚ, w = (nx' * ((nx * q + n) / (dx * q + d)) + n') /
        (dx' * ((nx * q + n) / (dx * q + d)) + d') ∧
      Ends Overflow (fun f => do
          let y ← Number.homographic cfg f x nx n dx d
          Number.homographic cfg f y nx' n' dx' d')
        (fun r => Number.Denotes cfg Overflow r w) ∧
      (cfg.Fits (nx' * nx + n' * dx) → cfg.Fits (nx' * n + n' * d) →
        cfg.Fits (dx' * nx + d' * dx) → cfg.Fits (dx' * n + d' * d) →
        Ends Overflow (fun f => Number.homographic cfg f x (nx' * nx + n' * dx) (nx' * n + n' * d)
            (dx' * nx + d' * dx) (dx' * n + d' * d))
          (fun r => Number.Denotes cfg Overflow r w)) := by
  refine ⟨_, rfl, ?_, fun g1 g2 g3 g4 => ?_⟩
  · refine Ends.bind (C16_homographic cfg hc x q hx nx n dx d h1 h2 h3 h4 hD) ?_
    intro y hy
    exact C16_homographic cfg hc y _ hy nx' n' dx' d' h1' h2' h3' h4' hD'
  · have e : ((dx' * nx + d' * dx : Int) : ℚ) * q + (dx' * n + d' * d : Int) =
        (dx * q + d) * (dx' * ((nx * q + n) / (dx * q + d)) + d') := by
      push_cast; field_simp; ring
    have e' : ((nx' * nx + n' * dx : Int) : ℚ) * q + (nx' * n + n' * d : Int) =
        (dx * q + d) * (nx' * ((nx * q + n) / (dx * q + d)) + n') := by
      push_cast; field_simp; ring
    have := C16_homographic cfg hc x q hx _ _ _ _ g1 g2 g3 g4 (by rw [e]; exact mul_ne_zero hD hD')
    rwa [e, e', mul_div_mul_left _ _ hD] at this

example : ((2 : Int) : ℚ) * (3 / 5) + (1 : Int) ≠ 0 ∧
    ((-3 : Int) : ℚ) * (((1 : Int) * (3 / 5) + (4 : Int)) / ((2 : Int) * (3 / 5) + (1 : Int))) + (1 : Int) ≠ 0 := by
  norm_num

/-! ## C31 A safe size -/

theorem safeUpTo_of_sq_le {cfg : Cfg} {A : Panic → Prop} {M : Int} (hM : 0 ≤ M)
    (h : M * M ≤ cfg.imax) : cfg.SafeUpTo A M := by
  have hm := cfg.imax_ge
  have hi := cfg.imin_eq
  have h4 : 4 * M ≤ cfg.imax := by
    by_cases h4 : 4 ≤ M
    · nlinarith
    · omega
  have key : ∀ z : Int, |z| ≤ cfg.imax → cfg.Fits z := fun z hz => by
    obtain ⟨a, b⟩ := abs_le.1 hz
    exact ⟨by omega, b⟩
  exact ⟨fun z hz => .inl (key z (by omega)), fun z hz => .inl (key z (by omega))⟩

theorem Number.Denotes.in_count {cfg : Cfg} {A : Panic → Prop} {x : Number} {q : ℚ} {L : Nat}
    (h : Number.Denotes cfg A x q) (hL : SymbolCount q L) : Number.DenotesIn cfg A x q L := by
  cases x with
  | Special s => exact h
  | Other p c =>
    obtain ⟨v, hv, rfl⟩ := h
    rcases hL with ⟨s, hs⟩ | ⟨p', v', l, hq, hl, hlen⟩
    · exact (applyPrimer_ne_special hv.1 hv.2.1 hs).elim
    · obtain ⟨_, rfl⟩ := applyPrimer_inj hv.1 hv.2.1 hl.mem.1 hl.mem.2 hq
      exact ⟨v, l, hv, hl, hlen, rfl⟩

/-- If the coefficients are at most `M` in magnitude, `x` has at most `L` symbols and no panics,
and `(M * 2^(L+1))^2` is a machine integer, then in every build `homographic` returns a number
that denotes the exact value, and no later `egest` panics. -/
theorem C31_safe_size (cfg : Cfg) (x : Number) (q : ℚ) (hx : Number.Denotes cfg NoPanic x q)
    (L : Nat) (hL : SymbolCount q L) (M nx n dx d : Int) (h1 : |nx| ≤ M) (h2 : |n| ≤ M)
    (h3 : |dx| ≤ M) (h4 : |d| ≤ M) (hM : (M * 2 ^ (L + 1)) ^ 2 ≤ cfg.imax)
    (hD : (dx : ℚ) * q + d ≠ 0) :
    ∃ r, Returns (fun f => Number.homographic cfg f x nx n dx d) r ∧
      Number.Denotes cfg NoPanic r ((nx * q + n) / (dx * q + d)) := by
  have hM1 : 1 ≤ M := by
    by_contra h
    have h0 : M ≤ 0 := by omega
    have e3 : dx = 0 := by have := abs_nonneg dx; exact abs_eq_zero.1 (by omega)
    have e4 : d = 0 := by have := abs_nonneg d; exact abs_eq_zero.1 (by omega)
    simp [e3, e4] at hD
  have e : M * 2 ^ (L + 1) = 2 * M * 2 ^ L := by rw [pow_succ]; ring
  have hle : M ≤ 2 * M * 2 ^ L := by
    have : (1 : Int) ≤ 2 ^ L := one_le_pow₀ (by norm_num)
    nlinarith
  have hs : cfg.SafeUpTo NoPanic (2 * M * 2 ^ L) :=
    safeUpTo_of_sq_le (by omega) (by rw [← e, ← sq]; exact hM)
  have hfit : ∀ z : Int, |z| ≤ M → cfg.Fits z := by
    intro z hz
    rcases hs.1 z (by omega) with h | h
    · exact h
    · exact h.1.elim
  have ha : Homographic.Args cfg M nx n dx d := by
    have a1 := abs_le.1 h1; have a2 := abs_le.1 h2; have a3 := abs_le.1 h3; have a4 := abs_le.1 h4
    exact ⟨hM1, hfit _ h1, hfit _ h2, hfit _ h3, hfit _ h4, a1.1, a1.2, a2.1, a2.2, a3.1, a3.2,
      a4.1, a4.2⟩
  rcases Number.homographic_ends (hx.in_count hL) ha hs hD with ⟨r, h⟩ | ⟨p, _, hp⟩
  · exact ⟨r, h⟩
  · exact hp.elim

/-- 3/5 has two symbols; coefficients up to 200 million are safe on 64 bits. -/
example : SymbolCount (3 / 5) 2 ∧ ((200000000 : Int) * 2 ^ (2 + 1)) ^ 2 ≤ debug64.imax ∧
    Number.Denotes debug64 NoPanic (.Other none (.ratio ⟨3, 5⟩)) (3 / 5) := by
  refine ⟨.inr ⟨none, 3 / 5, [.Uncover, .Uncover], rfl, ?_, le_rfl⟩, by decide,
    denotes_three_fifths _ _⟩
  refine .uncover (by norm_num) (by norm_num) (.uncover (by norm_num) (by norm_num) ?_)
  have : (1 : ℚ) / (1 / (3 / 5) - 1) - 1 = 1 / 2 := by norm_num
  rw [this]; exact .half

/-! ## C18, continued -/

/-- The side condition is needed: with `dx = d = 0` the code does not reject
`homographic(x, 1, 1, 0, 0)`, in any build and for any `x` in (0,1), but returns a number that
amplifies forever. -/
theorem C18_zero_denominator_accepted (cfg : Cfg) (c : Clog) :
    ∃ p c', Returns (fun f => Number.homographic cfg f (.Other none c) 1 1 0 0) (.Other p c') ∧
      Clog.AmplifiesForever cfg NoPanic c' := by
  have f0 : cfg.Fits 0 := Cfg.small (by norm_num) (by norm_num)
  have f2 : cfg.Fits 2 := Cfg.small (by norm_num) (by norm_num)
  have hs : cfg.SafeUpTo NoPanic 2 :=
    safeUpTo_of_sq_le (by norm_num) (by have := cfg.imax_ge; omega)
  refine ⟨some .Turn, .homographic c ⟨0, 0, 1, 1⟩, ⟨1, fun f hf => ?_⟩, fun m => ?_⟩
  · obtain ⟨f, rfl⟩ : ∃ i, f = i + 1 := ⟨f - 1, by omega⟩
    simp [Number.homographic, Homographic.new, Homographic.absorbPrimer, Homographic.prime,
      Homographic.box, Coef4.primerAttempt, Coef4.areSingularitiesOutsideDomain,
      Coef4.isZeroOutsideDomain, Out.and, Coef4.isPoleOutsideDomain, Coef4.isDomainAmenable,
      Coef4.primerEgest, Coef4.imageExtremes, Coef4.valueAtZero, Coef4.valueAtOne,
      Support.updatedRange, Support.normalise, Support.lessThan, Support.greaterThan,
      Support.compareReduce, Coef4.ground, Coef4.turn, Support.areSame, Support.isSpecial,
      Support.equalToZero, Support.equalToOne, Support.equalToMinusOne,
      Support.greaterThanMinusOne, Support.lessThanOne, Cfg.cadd, Cfg.cmul,
      Cfg.neg, Cfg.checked, Cfg.unchecked, f0, f2,
      show Int.sign 2 = 1 from rfl]
  · refine Homographic.amplifies (h := ⟨c, ⟨0, 0, 1, 1⟩⟩) hs m ?_ ?_ rfl rfl
    · constructor <;> simp
    · exact .inl (by simp [Coef4.PosW])

example := C18_zero_denominator_accepted debug64 (.ratio ⟨3, 5⟩)

end Clarith
