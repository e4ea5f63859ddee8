import Verif.Proofs.CombineNew
import Verif.Proofs.Compare
import Verif.Proofs.Fuel
import Verif.Properties.Homographic

/-! # Properties of `Number::combine` (C20-C23, C28) -/

namespace Clarith

open Spec

/-- The eight coefficients are machine integers. -/
def Spec.MachineInts (cfg : Cfg) (l : List Int) : Prop := ∀ z ∈ l, cfg.Fits z

theorem Coef8.Fits.of_list {cfg : Cfg} {a b c d e f g h : Int}
    (H : MachineInts cfg [a, b, c, d, e, f, g, h]) :
    (⟨a, b, c, d, e, f, g, h⟩ : Coef8).Fits cfg := by
  constructor <;> exact H _ (by simp)

theorem Coef8.Within.of_fits {cfg : Cfg} {k : Coef8} (hk : k.Fits cfg) :
    k.Within (cfg.imax + 1) := by
  have := cfg.imax_ge; have := cfg.imin_eq
  obtain ⟨h1, h2, h3, h4, h5, h6, h7, h8⟩ := hk
  unfold Cfg.Fits at *
  constructor <;> omega

/-! ## C20 `combine` computes the bilinear quotient -/

/-- With overflow checks, for all numbers denoting rationals `q` and `r` and all machine integers
for which the denominator is not zero: the call ends; it returns a number denoting the exact
quotient or panics with an integer overflow, and the same holds for every later `egest`. -/
theorem C20_combine (cfg : Cfg) (hc : cfg.overflowChecks = true) (x y : Number) (q r : ℚ)
    (hx : Number.Denotes cfg Overflow x q) (hy : Number.Denotes cfg Overflow y r)
    (nxy nx ny n dxy dx dy d : Int) (H : MachineInts cfg [nxy, nx, ny, n, dxy, dx, dy, d])
    (hD : (dxy : ℚ) * q * r + dx * q + dy * r + d ≠ 0) :
    Ends Overflow (fun f => Number.combine cfg f x y nxy nx ny n dxy dx dy d)
      (fun t => Number.Denotes cfg Overflow t
        ((nxy * q * r + nx * q + ny * r + n) / (dxy * q * r + dx * q + dy * r + d))) := by
  obtain ⟨Lx, hLx⟩ := hx.inL
  obtain ⟨Ly, hLy⟩ := hy.inL
  have hf := Coef8.Fits.of_list H
  exact Number.combine_ends hLx hLy (.of_fits hf) hf (safeUpTo_overflow hc _) hD

/-- Another operand of the examples: -7/2, with primer. -/
theorem denotes_minus_seven_halves (cfg : Cfg) (A : Panic → Prop) :
    Number.Denotes cfg A (.Other (some .Ground) (.ratio ⟨2, 7⟩)) (-7 / 2) := by
  refine ⟨2 / 7, ?_, by norm_num [applyPrimer]⟩
  have := Ratio.denotes (cfg := cfg) (A := A) (r := ⟨2, 7⟩) ⟨by decide, by decide, ?_⟩
  · simpa [Ratio.val] using this
  · have h1 := cfg.umax_eq
    have h2 := cfg.imax_ge
    simp only
    omega

example : Number.Denotes debug64 Overflow (.Other none (.ratio ⟨3, 5⟩)) (3 / 5) ∧
    Number.Denotes debug64 Overflow (.Other (some .Ground) (.ratio ⟨2, 7⟩)) (-7 / 2) ∧
    MachineInts debug64 [1, -2, 3, 4, 5, 6, -7, 8] ∧
    ((5 : Int) : ℚ) * (3 / 5) * (-7 / 2) + (6 : Int) * (3 / 5) + (-7 : Int) * (-7 / 2) + (8 : Int)
      ≠ 0 :=
  ⟨denotes_three_fifths _ _, denotes_minus_seven_halves _ _, by unfold MachineInts; decide,
    by norm_num⟩

/-! ## C21 Poles -/

/-- At a pole, the call ends with a panic ("division by zero" or an overflow) or returns a
number with a clog that answers `Amplify` forever. -/
theorem C21_combine_pole (cfg : Cfg) (hc : cfg.overflowChecks = true) (x y : Number) (q r : ℚ)
    (hx : Number.Denotes cfg Overflow x q) (hy : Number.Denotes cfg Overflow y r)
    (nxy nx ny n dxy dx dy d : Int) (H : MachineInts cfg [nxy, nx, ny, n, dxy, dx, dy, d])
    (hD : (dxy : ℚ) * q * r + dx * q + dy * r + d = 0) :
    Ends OverflowOrDivision (fun f => Number.combine cfg f x y nxy nx ny n dxy dx dy d)
      (fun t => ∃ p c, t = .Other p c ∧ (p = some .Turn ∨ p = some .Ground) ∧
        Clog.AmplifiesForever cfg OverflowOrDivision c) := by
  obtain ⟨Lx, hLx⟩ := (hx.weaken Overflow.or_division).inL
  obtain ⟨Ly, hLy⟩ := (hy.weaken Overflow.or_division).inL
  have hf := Coef8.Fits.of_list H
  exact Number.combine_pole_ends (.inr rfl) hLx hLy (.of_fits hf) hf
    (safeUpTo_overflowOrDivision hc _) hD

/-- The pole 10 x y + 21 = 0 at x = 3/5 and y = -7/2. -/
example := C21_combine_pole debug64 rfl _ _ _ _ (denotes_three_fifths _ _)
  (denotes_minus_seven_halves _ _) 1 2 3 4 10 0 0 21 (by unfold MachineInts; decide) (by norm_num)

/-- At a pole no number is returned that denotes a rational. -/
theorem C21_combine_pole_no_value (cfg : Cfg) (hc : cfg.overflowChecks = true) (x y : Number)
    (q r : ℚ) (hx : Number.Denotes cfg Overflow x q) (hy : Number.Denotes cfg Overflow y r)
    (nxy nx ny n dxy dx dy d : Int) (H : MachineInts cfg [nxy, nx, ny, n, dxy, dx, dy, d])
    (hD : (dxy : ℚ) * q * r + dx * q + dy * r + d = 0) (t : Number) (w : ℚ)
    (ht : Returns (fun f => Number.combine cfg f x y nxy nx ny n dxy dx dy d) t) :
    ¬Number.Denotes cfg NoPanic t w := by
  obtain ⟨p, c, rfl, _, ha⟩ :=
    (C21_combine_pole cfg hc x y q r hx hy nxy nx ny n dxy dx dy d H hD).of_returns ht
  rintro ⟨v, hv, _⟩
  exact ha.not_denotes v hv

example : MachineInts debug64 [1, 2, 3, 4, 10, 0, 0, 21] ∧
    ((10 : Int) : ℚ) * (3 / 5) * (-7 / 2) + (0 : Int) * (3 / 5) + (0 : Int) * (-7 / 2) + (21 : Int)
      = 0 := ⟨by unfold MachineInts; decide, by norm_num⟩

/-! ## C22 Division by zero -/

/-- The expectation that `x / 0` is rejected with a panic is false of the code, in every build:
for every number with `|x| > 1`, `combine` returns a number that amplifies forever. -/
theorem C22_division_by_zero_accepted (cfg : Cfg) (A : Panic → Prop) (x : Number) (q : ℚ)
    (hx : Number.Denotes cfg A x q) (hq : 1 < |q|) :
    ∃ p c, Returns (fun f => Number.combine cfg f x (.Special .Zero) 0 1 0 0 0 0 1 0) (.Other p c) ∧
      (p = some .Turn ∨ p = some .Ground) ∧ Clog.AmplifiesForever cfg NoPanic c := by
  have hs : cfg.SafeUpTo NoPanic 1 := safeUpTo_of_sq_le (by norm_num) (by have := cfg.imax_ge; omega)
  have f0 : cfg.Fits 0 := Cfg.small (by norm_num) (by norm_num)
  have f1 : cfg.Fits 1 := Cfg.small (by norm_num) (by norm_num)
  have f1' : cfg.Fits (-1) := Cfg.small (by norm_num) (by norm_num)
  have key : ∀ (p : Primer) (c : Clog), p = .Turn ∨ p = .Ground →
      ∃ k : Coef4, ∃ p', (∀ f, Number.combine cfg (f + 1) (.Other (some p) c) (.Special .Zero)
        0 1 0 0 0 0 1 0 = .ok (.Other p' (.homographic c k))) ∧
        (p' = some .Turn ∨ p' = some .Ground) ∧ k.Bounded 1 ∧ k.InvW ∧ k.n = 0 ∧ k.nx = 0 := by
    intro p c hp
    refine ⟨⟨0, 0, 0, if p = .Turn then 1 else -1⟩, some (if p = .Turn then .Turn else .Ground),
      fun f => ?_, ?_, ?_, ?_, rfl, rfl⟩
    · rcases hp with rfl | rfl <;>
      simp [Number.combine, Combine.new, Combine.asHomographic, Homographic.new,
        Homographic.absorbPrimer, Homographic.prime, Coef4.primerAttempt, Homographic.box,
        Coef4.areSingularitiesOutsideDomain, Coef4.isZeroOutsideDomain, Out.and,
        Coef4.isPoleOutsideDomain, Coef4.isDomainAmenable, Coef4.primerEgest,
        Coef4.imageExtremes, Coef4.valueAtZero, Coef4.valueAtOne, Support.updatedRange,
        Support.normalise, Support.lessThan, Support.greaterThan, Support.compareReduce,
        Coef4.ground, Coef4.turn, Coef4.reflect, Support.areSame,
        Support.isSpecial, Support.equalToZero, Support.equalToOne, Support.equalToMinusOne,
        Support.greaterThanMinusOne, Support.lessThanOne, Cfg.cadd, Cfg.cmul, Cfg.neg, Cfg.mul, Cfg.checked, Cfg.unchecked, f0, f1, f1']
    · rcases hp with rfl | rfl <;> simp
    · rcases hp with rfl | rfl <;> constructor <;> simp
    · rcases hp with rfl | rfl
      · exact .inl (by simp [Coef4.PosW])
      · exact .inr (by simp [Coef4.PosW, Coef4.opp])
  cases x with
  | Special s =>
    have : q = specialValue s := hx
    subst this
    cases s <;> norm_num [specialValue] at hq
  | Other p c =>
    obtain ⟨v, hv, rfl⟩ := hx
    have hp : ∃ p', p = some p' ∧ (p' = .Turn ∨ p' = .Ground) := by
      have h0 := hv.1
      have h1 := hv.2.1
      rcases p with _ | p
      · simp only [applyPrimer] at hq
        rw [abs_of_pos h0] at hq; linarith
      · cases p
        · exact ⟨_, rfl, .inl rfl⟩
        · simp only [applyPrimer] at hq
          rw [abs_neg, abs_of_pos h0] at hq; linarith
        · exact ⟨_, rfl, .inr rfl⟩
    obtain ⟨p, rfl, hp⟩ := hp
    obtain ⟨k, p', h1, h2, h3, h4, h5, h6⟩ := key p c hp
    refine ⟨p', .homographic c k, ⟨1, fun f hf => ?_⟩, h2, fun m => ?_⟩
    · obtain ⟨f, rfl⟩ : ∃ i, f = i + 1 := ⟨f - 1, by omega⟩
      exact h1 f
    · exact Homographic.amplifies (h := ⟨c, k⟩) hs m h3 h4 h5 h6

example : Number.Denotes debug64 Overflow (.Other (some .Ground) (.ratio ⟨2, 7⟩)) (-7 / 2) ∧
    1 < |(-7 / 2 : ℚ)| := ⟨denotes_minus_seven_halves _ _, by norm_num [abs_of_neg]⟩

/-- With a special dividend, division by zero is rejected. -/
theorem C22_division_by_zero_special (cfg : Cfg) (s : Clarith.Special) :
    Panics (fun f => Number.combine cfg f (.Special s) (.Special .Zero) 0 1 0 0 0 0 1 0)
      .divisionByZero := by
  have f0 : cfg.Fits 0 := Cfg.small (by norm_num) (by norm_num)
  have f1 : cfg.Fits 1 := Cfg.small (by norm_num) (by norm_num)
  have f1' : cfg.Fits (-1) := Cfg.small (by norm_num) (by norm_num)
  have u0 : cfg.asUsize 0 = 0 := by
    show ((0 : Int) % _).toNat = 0
    rw [Int.zero_emod]; rfl
  refine ⟨0, fun f _ => ?_⟩
  cases s <;>
  simp [Number.combine, Combine.new, Combine.asHomographic, Homographic.new, Homographic.asRatio,
    Cfg.cadd, Cfg.csub, Cfg.checked, f0, f1, f1', Ratio.newI, Ratio.magnitude, Ratio.new, Cfg.neg,
    Cfg.unchecked, u0]

example := C22_division_by_zero_special debug64 .NegOne

theorem Coef4.primerAttempt_zero {cfg : Cfg} {s : Int} (hs : s = 1 ∨ s = -1) :
    (⟨s, 0, 0, 0⟩ : Coef4).primerAttempt cfg = .ok none := by
  rcases hs with rfl | rfl <;>
  simp [Coef4.primerAttempt, Coef4.areSingularitiesOutsideDomain, Coef4.isZeroOutsideDomain,
    Out.and, Coef4.isPoleOutsideDomain, Coef4.isDomainAmenable, Coef4.primerEgest,
    Coef4.imageExtremes, Coef4.valueAtZero]

theorem Coef4.primerAttempt_inf {cfg : Cfg} {s : Int} (hs : s = 1 ∨ s = -1) :
    (⟨0, s, 0, 0⟩ : Coef4).primerAttempt cfg =
      .ok (some (some (if s = 1 then .Turn else .Ground), ⟨0, 0, 0, s⟩)) := by
  have f0 : cfg.Fits 0 := Cfg.small (by norm_num) (by norm_num)
  have f1 : cfg.Fits 1 := Cfg.small (by norm_num) (by norm_num)
  have f1' : cfg.Fits (-1) := Cfg.small (by norm_num) (by norm_num)
  rcases hs with rfl | rfl <;>
  simp [Coef4.primerAttempt, Coef4.areSingularitiesOutsideDomain, Coef4.isZeroOutsideDomain,
    Out.and, Coef4.isPoleOutsideDomain, Coef4.isDomainAmenable, Coef4.primerEgest,
    Coef4.imageExtremes, Coef4.valueAtZero, Coef4.valueAtOne, Support.updatedRange,
    Support.normalise, Support.lessThan, Support.greaterThan, Support.compareReduce, Coef4.ground,
    Coef4.turn, Support.areSame, Support.isSpecial, Support.equalToZero, Support.equalToOne,
    Support.equalToMinusOne, Support.greaterThanMinusOne, Support.lessThanOne, Cfg.cadd, Cfg.cmul,
    Cfg.neg, Cfg.checked, Cfg.unchecked, f0, f1, f1']

theorem Clog.Denotes.step_returns {cfg : Cfg} {c : Clog} {x : ℚ}
    (h : Clog.Denotes cfg NoPanic c x) :
    ∃ c' f₀, (∀ f ≥ f₀, Clog.egest cfg f c = .ok (sym x, c')) ∧
      Clog.Denotes cfg NoPanic c' (next x) := by
  rcases h.step with ⟨⟨r, c'⟩, ⟨f₀, hr⟩, h1, h2⟩ | ⟨p, _, hp⟩
  · exact ⟨c', f₀, by simp only at h1; rwa [← h1], h2⟩
  · exact hp.elim

/-- The state of `x / 0` for `x` in (-1,1): nothing can be decided before an `Uncover`. -/
theorem Homographic.prime_zero_den {cfg : Cfg} {s : Int} (hs : s = 1 ∨ s = -1) {l : List Reduction}
    {x : ℚ} (hl : Expands x l) {c : Clog} (hc : Clog.Denotes cfg NoPanic c x) :
    ((∃ j : Nat, x = 1 / 2 ^ j) → ∃ f₀, ∀ f ≥ f₀, ∀ g ≥ f₀,
      Homographic.prime cfg (Clog.egest cfg f) g ⟨c, ⟨s, 0, 0, 0⟩⟩ = .panic .divisionByZero) ∧
    ((¬∃ j : Nat, x = 1 / 2 ^ j) → ∃ f₀ p c' t, (∀ f ≥ f₀, ∀ g ≥ f₀,
      Homographic.prime cfg (Clog.egest cfg f) g ⟨c, ⟨s, 0, 0, 0⟩⟩ =
        .ok (none, p, none, some ⟨c', ⟨0, 0, 0, t⟩⟩)) ∧ (p = some .Turn ∨ p = some .Ground) ∧
        (t = 1 ∨ t = -1)) := by
  have f0 : cfg.Fits 0 := Cfg.small (by norm_num) (by norm_num)
  have f1 : cfg.Fits 1 := Cfg.small (by norm_num) (by norm_num)
  have f1' : cfg.Fits (-1) := Cfg.small (by norm_num) (by norm_num)
  have u0 : cfg.asUsize 0 = 0 := by
    show ((0 : Int) % _).toNat = 0
    rw [Int.zero_emod]; rfl
  have hodd : isOdd s = true := by rcases hs with rfl | rfl <;> rfl
  have hfs : cfg.Fits s := by rcases hs with rfl | rfl <;> assumption
  have hfns : cfg.Fits (-s) := by rcases hs with rfl | rfl <;> simpa
  induction hl generalizing c with
  | half =>
    refine ⟨fun _ => ?_, fun h => absurd ⟨1, by norm_num⟩ h⟩
    obtain ⟨c', f₀, he, -⟩ := hc.step_returns
    refine ⟨f₀ + 1, fun f hf g hg => ?_⟩
    obtain ⟨g, rfl⟩ : ∃ i, g = i + 1 := ⟨g - 1, by omega⟩
    have he := he f (by omega)
    rw [sym_half] at he
    simp only [Homographic.prime, Coef4.primerAttempt_zero hs, Out.ok_bind, primeIngest, he]
    by_cases h0 : 0 ≤ s <;>
    simp [Coef4.valueAtOneHalf, hodd, Cfg.cadd, Cfg.cmul, Cfg.checked, f0, hfs, Ratio.newI,
      Ratio.magnitude, Ratio.new, u0, Cfg.neg, Cfg.unchecked, hfns, h0]
  | @amplify x l h0 h1 h ih =>
    obtain ⟨c', f₀, he, hc'⟩ := hc.step_returns
    rw [next_lt h1] at hc'
    rw [sym_lt h1] at he
    have hp : ∀ f ≥ f₀, ∀ g, Homographic.prime cfg (Clog.egest cfg f) (g + 1) ⟨c, ⟨s, 0, 0, 0⟩⟩ =
        Homographic.prime cfg (Clog.egest cfg f) g ⟨c', ⟨s, 0, 0, 0⟩⟩ := by
      intro f hf g
      simp [Homographic.prime, Coef4.primerAttempt_zero hs, primeIngest, he f hf,
        Coef4.ingestAmplify, hodd, Cfg.cmul, Cfg.checked, f0]
    have hj : (∃ j : Nat, x = 1 / 2 ^ j) ↔ ∃ j : Nat, 2 * x = 1 / 2 ^ j := by
      constructor
      · rintro ⟨j, rfl⟩
        cases j with
        | zero => norm_num at h1
        | succ j => exact ⟨j, by rw [pow_succ]; field_simp⟩
      · rintro ⟨j, hj⟩
        exact ⟨j + 1, by rw [pow_succ, ← mul_one_div, mul_comm] at *; field_simp at *; linarith⟩
    rw [hj]
    obtain ⟨i1, i2⟩ := ih hc'
    constructor
    · intro hx
      obtain ⟨f₁, hf₁⟩ := i1 hx
      refine ⟨max f₀ f₁ + 1, fun f hf g hg => ?_⟩
      obtain ⟨g, rfl⟩ : ∃ i, g = i + 1 := ⟨g - 1, by omega⟩
      rw [hp f (by omega), hf₁ f (by omega) g (by omega)]
    · intro hx
      obtain ⟨f₁, p, c'', t, hf₁, ht⟩ := i2 hx
      refine ⟨max f₀ f₁ + 1, p, c'', t, fun f hf g hg => ?_, ht⟩
      obtain ⟨g, rfl⟩ : ∃ i, g = i + 1 := ⟨g - 1, by omega⟩
      rw [hp f (by omega), hf₁ f (by omega) g (by omega)]
  | @uncover x l h0 h1 h ih =>
    obtain ⟨c', f₀, he, hc'⟩ := hc.step_returns
    rw [sym_gt h0] at he
    refine ⟨fun ⟨j, hj⟩ => ?_, fun _ => ⟨f₀ + 2, some (if s = 1 then .Turn else .Ground), c', s,
      fun f hf g hg => ?_, ?_, hs⟩⟩
    · subst hj
      cases j with
      | zero => norm_num at h1
      | succ j =>
        have : (1 : ℚ) ≤ 2 ^ j := one_le_pow₀ (by norm_num)
        rw [pow_succ, one_div_lt_one_div (by norm_num) (by positivity)] at h0
        linarith
    · obtain ⟨g, rfl⟩ : ∃ i, g = i + 2 := ⟨g - 2, by omega⟩
      simp [Homographic.prime, Coef4.primerAttempt_zero hs, primeIngest, he f (by omega),
        Coef4.ingestUncover, Cfg.cadd, Cfg.checked, f0, hfs, Coef4.primerAttempt_inf hs]
    · split <;> simp

/-- Exactly which quotients `x / 0` are rejected, in every build: those with `x` zero or a power
of one half up to sign (one included).  For every other `x` a number is returned that amplifies
forever. -/
theorem C22_division_by_zero (cfg : Cfg) (x : Number) (q : ℚ)
    (hx : Number.Denotes cfg NoPanic x q) :
    ((q = 0 ∨ ∃ j : Nat, |q| = 1 / 2 ^ j) →
      Panics (fun f => Number.combine cfg f x (.Special .Zero) 0 1 0 0 0 0 1 0) .divisionByZero) ∧
    (¬(q = 0 ∨ ∃ j : Nat, |q| = 1 / 2 ^ j) →
      ∃ p c, Returns (fun f => Number.combine cfg f x (.Special .Zero) 0 1 0 0 0 0 1 0)
        (.Other p c) ∧ Clog.AmplifiesForever cfg NoPanic c) := by
  have hs : cfg.SafeUpTo NoPanic 1 := safeUpTo_of_sq_le (by norm_num) (by have := cfg.imax_ge; omega)
  have f1' : cfg.Fits (-1) := Cfg.small (by norm_num) (by norm_num)
  have f0 : cfg.Fits 0 := Cfg.small (by norm_num) (by norm_num)
  cases x with
  | Special s =>
    refine ⟨fun _ => C22_division_by_zero_special cfg s, fun h => absurd ?_ h⟩
    have : q = specialValue s := hx
    subst this
    cases s
    · exact .inr ⟨0, by norm_num [specialValue]⟩
    · exact .inl rfl
    · exact .inr ⟨0, by norm_num [specialValue]⟩
  | Other p c =>
    have hx' := hx
    obtain ⟨v, hv, rfl⟩ := hx
    have h0 := hv.1
    have h1 := hv.2.1
    by_cases hq : 1 < |applyPrimer p v|
    · refine ⟨fun h => ?_, fun _ => ?_⟩
      · rcases h with h | ⟨j, hj⟩
        · rw [h] at hq; norm_num at hq
        · rw [hj, lt_one_div (by norm_num) (by positivity)] at hq
          have : (1 : ℚ) ≤ 2 ^ j := one_le_pow₀ (by norm_num)
          norm_num at hq
          linarith
      · obtain ⟨p, c', hr, _, ha⟩ := C22_division_by_zero_accepted cfg NoPanic _ _ hx' hq
        exact ⟨p, c', hr, ha⟩
    · have hp : p = none ∨ p = some .Reflect := by
        have h2 : 1 < 1 / v := by rw [lt_div_iff₀ h0]; linarith
        rcases p with _ | p
        · exact .inl rfl
        · cases p
          · simp only [applyPrimer] at hq
            rw [abs_of_pos (by positivity)] at hq; exact absurd h2 hq
          · exact .inr rfl
          · simp only [applyPrimer] at hq
            rw [abs_neg, abs_of_pos (by positivity)] at hq; exact absurd h2 hq
      obtain ⟨l, hl⟩ := exists_expands v h0 h1
      have key := Homographic.prime_zero_den (s := if p = none then 1 else -1)
        (by split <;> simp) hl hv
      have hab : |applyPrimer p v| = v := by
        rcases hp with rfl | rfl <;> simp [applyPrimer, abs_of_pos h0]
      have hne : applyPrimer p v ≠ 0 := by
        rcases hp with rfl | rfl <;> simp [applyPrimer, h0.ne']
      have hcomb : ∀ f, Number.combine cfg f (.Other p c) (.Special .Zero) 0 1 0 0 0 0 1 0 =
          (do
            let (special, primer, ratio, homographic) ← Homographic.prime cfg (Clog.egest cfg f) f
              ⟨c, ⟨if p = none then 1 else -1, 0, 0, 0⟩⟩
            match special with
            | some fixed => pure (.Special fixed)
            | none =>
              match ratio with
              | some ratio => pure (.Other primer (.ratio ratio))
              | none =>
                match homographic with
                | some h => pure (.Other primer h.box)
                | none => .panic .unwrapMissing) := by
        intro f
        rcases hp with rfl | rfl <;>
          simp [Number.combine, Combine.new, Combine.asHomographic, Homographic.new,
            Homographic.absorbPrimer, Cfg.neg, Cfg.unchecked, f1', f0]
        all_goals
          cases Homographic.prime cfg (Clog.egest cfg f) f _ with
          | ok a => rfl
          | panic p => rfl
          | timeout => rfl
      rw [hab]
      constructor
      · rintro (h | h)
        · exact absurd h hne
        · obtain ⟨f₀, hf⟩ := key.1 h
          refine ⟨f₀, fun f hge => ?_⟩
          simp only [hcomb, hf f hge f hge, Out.panic_bind]
      · intro h
        obtain ⟨f₀, p', c', t, hf, -, ht⟩ := key.2 fun h' => h (.inr h')
        refine ⟨p', .homographic c' ⟨0, 0, 0, t⟩, ⟨f₀, fun f hge => ?_⟩, fun m => ?_⟩
        · simp only [hcomb, hf f hge f hge, Out.ok_bind]
          rfl
        · refine Homographic.amplifies (h := ⟨c', ⟨0, 0, 0, t⟩⟩) hs m ?_ ?_ rfl rfl
          · rcases ht with rfl | rfl <;> constructor <;> simp
          · rcases ht with rfl | rfl
            · exact .inl (by simp [Coef4.PosW])
            · exact .inr (by simp [Coef4.PosW, Coef4.opp])

/-- 1/4 is rejected, 2/3 is not. -/
example : (∃ j : Nat, |(1 / 4 : ℚ)| = 1 / 2 ^ j) ∧ ¬∃ j : Nat, |(2 / 3 : ℚ)| = 1 / 2 ^ j := by
  refine ⟨⟨2, by norm_num⟩, ?_⟩
  rintro ⟨j, hj⟩
  rw [abs_of_pos (by norm_num)] at hj
  rcases j with _ | j
  · norm_num at hj
  · have : (1 : ℚ) ≤ 2 ^ j := one_le_pow₀ (by norm_num)
    rw [pow_succ, div_eq_div_iff (by norm_num) (by positivity)] at hj
    linarith

/-! ## C23 No logic error -/

/-- Whatever the coefficients (pole or not), neither the call nor any number of later `egest`
calls on the returned clog panics with "logic error" or unwraps a missing value. -/
theorem C23_no_logic_error (cfg : Cfg) (hc : cfg.overflowChecks = true) (x y : Number) (q r : ℚ)
    (hx : Number.Denotes cfg Overflow x q) (hy : Number.Denotes cfg Overflow y r)
    (nxy nx ny n dxy dx dy d : Int) (H : MachineInts cfg [nxy, nx, ny, n, dxy, dx, dy, d]) :
    (∀ pn, Panics (fun f => Number.combine cfg f x y nxy nx ny n dxy dx dy d) pn →
      ¬Internal pn) ∧
    (∀ p c, Returns (fun f => Number.combine cfg f x y nxy nx ny n dxy dx dy d) (.Other p c) →
      ∀ k pn, Panics (fun f => Clog.egests cfg f k c) pn → ¬Internal pn) := by
  by_cases hD : (dxy : ℚ) * q * r + dx * q + dy * r + d = 0
  · have h := C21_combine_pole cfg hc x y q r hx hy nxy nx ny n dxy dx dy d H hD
    refine ⟨fun pn hp => OverflowOrDivision.not_internal (h.of_panic hp), fun p c hr k pn hp => ?_⟩
    obtain ⟨p', c', e, _, ha⟩ := h.of_returns hr
    simp only [Number.Other.injEq] at e
    obtain ⟨rfl, rfl⟩ := e
    exact OverflowOrDivision.not_internal ((ha k).of_panic hp)
  · have h := C20_combine cfg hc x y q r hx hy nxy nx ny n dxy dx dy d H hD
    refine ⟨fun pn hp => OverflowOrDivision.not_internal (.inl (h.of_panic hp)),
      fun p c hr k pn hp => ?_⟩
    exact (h.of_returns hr).not_internal k pn hp

/-- At x = 3/5 and y = -7/2, with the largest and smallest coefficients. -/
example := C23_no_logic_error debug64 rfl _ _ _ _ (denotes_three_fifths _ _)
  (denotes_minus_seven_halves _ _) debug64.imin debug64.imax 3 4 debug64.imin 0 debug64.imax 21 (by unfold MachineInts; decide)

/-! ## C42 A safe size -/

/-- If the coefficients are at most `M` in magnitude, `x` and `y` have at most `Lx` and `Ly` symbols
and no panics, and `(M * 2^(Lx+Ly+3))^2` is a machine integer, then in every build `combine`
returns a number that denotes the exact value, and no later `egest` panics. -/
theorem C42_safe_size (cfg : Cfg) (x y : Number) (q r : ℚ) (hx : Number.Denotes cfg NoPanic x q)
    (hy : Number.Denotes cfg NoPanic y r) (Lx Ly : Nat) (hLx : SymbolCount q Lx)
    (hLy : SymbolCount r Ly) (M nxy nx ny n dxy dx dy d : Int)
    (hk : ∀ z ∈ [nxy, nx, ny, n, dxy, dx, dy, d], |z| ≤ M)
    (hM : (M * 2 ^ (Lx + Ly + 3)) ^ 2 ≤ cfg.imax)
    (hD : (dxy : ℚ) * q * r + dx * q + dy * r + d ≠ 0) :
    ∃ t, Returns (fun f => Number.combine cfg f x y nxy nx ny n dxy dx dy d) t ∧
      Number.Denotes cfg NoPanic t
        ((nxy * q * r + nx * q + ny * r + n) / (dxy * q * r + dx * q + dy * r + d)) := by
  have hM1 : 1 ≤ M := by
    by_contra h
    have h0 : ∀ z ∈ [nxy, nx, ny, n, dxy, dx, dy, d], z = 0 := fun z hz => by
      have := hk z hz
      have := abs_nonneg z
      exact abs_eq_zero.1 (by omega)
    simp [h0 dxy (by simp), h0 dx (by simp), h0 dy (by simp), h0 d (by simp)] at hD
  have e : M * 2 ^ (Lx + Ly + 3) = 4 * M * 2 ^ (Lx + Ly + 1) := by
    rw [show Lx + Ly + 3 = Lx + Ly + 1 + 2 by omega, pow_add]; ring
  have hle : M ≤ 4 * M * 2 ^ (Lx + Ly + 1) := by
    have : (1 : Int) ≤ 2 ^ (Lx + Ly + 1) := one_le_pow₀ (by norm_num)
    nlinarith
  have hs : cfg.SafeUpTo NoPanic (4 * M * 2 ^ (Lx + Ly + 1)) :=
    safeUpTo_of_sq_le (by omega) (by rw [← e, ← sq]; exact hM)
  have hfit : ∀ z : Int, |z| ≤ M → cfg.Fits z := by
    intro z hz
    rcases hs.1 z (by omega) with h | h
    · exact h
    · exact h.1.elim
  have hf : (⟨nxy, nx, ny, n, dxy, dx, dy, d⟩ : Coef8).Fits cfg :=
    .of_list fun z hz => hfit z (hk z hz)
  have hw : (⟨nxy, nx, ny, n, dxy, dx, dy, d⟩ : Coef8).Within M := by
    have h := fun z hz => abs_le.1 (hk z hz)
    constructor <;> first | exact hM1 | exact (h _ (by simp)).1 | exact (h _ (by simp)).2
  rcases Number.combine_ends (hx.in_count hLx) (hy.in_count hLy) hw hf hs hD with
    ⟨t, h⟩ | ⟨p, _, hp⟩
  · exact ⟨t, h⟩
  · exact hp.elim

/-- 3/5 has two symbols; coefficients up to 20 million are safe on 64 bits for two such operands. -/
example : SymbolCount (3 / 5) 2 ∧ ((20000000 : Int) * 2 ^ (2 + 2 + 3)) ^ 2 ≤ debug64.imax := by
  refine ⟨.inr ⟨none, 3 / 5, [.Uncover, .Uncover], rfl, ?_, le_rfl⟩, by decide⟩
  refine .uncover (by norm_num) (by norm_num) (.uncover (by norm_num) (by norm_num) ?_)
  have : (1 : ℚ) / (1 / (3 / 5) - 1) - 1 = 1 / 2 := by norm_num
  rw [this]; exact .half

end Clarith
