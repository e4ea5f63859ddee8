import Verif.Proofs.Minus
import Verif.Properties.Front
import Verif.Properties.Length
import Verif.Properties.Neutral

/-! # Zero divided by a number (C93)

`0 / x` by `combine` is the map `0/x`, whose value is 0 whatever `x` is.  The code does not see this: a
constant map with a special value is not answered before the operand has ended
(homographic.rs:945-947), and all that time the denominator grows. -/

namespace Clarith

open Out Spec

variable {cfg : Cfg}

/-- The clog gives the symbols `l` and then ends. -/
def Spec.Stops (cfg : Cfg) (c : Clog) (l : List Reduction) : Prop :=
  ∃ c1 c2, Gives cfg c l c1 ∧ Returns (fun f => Clog.egest cfg f c1) (none, c2)

namespace ZeroOver

/-- `primer_egest` never answers for a zero numerator. -/
theorem attempt (dx d : Int) :
    (⟨0, 0, dx, d⟩ : Coef4).primerAttempt cfg = .ok none ∨
      ∃ p, (⟨0, 0, dx, d⟩ : Coef4).primerAttempt cfg = .panic p ∧ Overflow p := by
  have f0 : cfg.Fits 0 := Neutral.fits1 (by decide) (by decide)
  have hn : ∀ d, d ≠ 0 → Support.normalise cfg 0 d = .ok (0, 1) ∨
      ∃ p, Support.normalise cfg 0 d = .panic p ∧ Overflow p := by
    intro d h
    unfold Support.normalise
    rw [if_neg h]
    by_cases h' : d < 0
    · simp only [h', if_true, Cfg.mul, Cfg.unchecked, zero_mul, f0, ok_bind]
      by_cases h1 : cfg.Fits (-d)
      · simp [h1]
      · by_cases h2 : cfg.overflowChecks
        · exact .inr ⟨.arithOverflow, by simp [h1, h2], .inr rfl⟩
        · simp [h1, h2]
    · simp [h']
  have hp : ∀ mx m, (∃ b, Coef4.isDomainAmenable cfg mx m = .ok b) ∨
      ∃ p, Coef4.isDomainAmenable cfg mx m = .panic p ∧ Overflow p := by
    intro mx m
    unfold Coef4.isDomainAmenable
    simp only [Cfg.cadd, Cfg.checked]
    by_cases h : m.sign = 0
    · simp [h]
    · by_cases h1 : cfg.Fits (mx + m)
      · simp only [h, if_false, h1, if_true, ok_bind]
        left
        split <;> exact ⟨_, rfl⟩
      · exact .inr ⟨.unwrapNone, by simp [h, h1], .inl rfl⟩
  have hi : (⟨0, 0, dx, d⟩ : Coef4).imageExtremes cfg = .ok (0, 0, 0, 0) ∨
      (⟨0, 0, dx, d⟩ : Coef4).imageExtremes cfg = .ok (0, 1, 0, 1) ∨
      ∃ p, (⟨0, 0, dx, d⟩ : Coef4).imageExtremes cfg = .panic p ∧ Overflow p := by
    unfold Coef4.imageExtremes
    simp only [Coef4.valueAtZero, Coef4.valueAtOne, Cfg.cadd, Cfg.checked, add_zero, f0, if_true,
      ok_bind, true_and]
    by_cases h0 : d = 0
    · simp [h0]
    · by_cases h1 : cfg.Fits (d + dx)
      · by_cases h2 : d + dx = 0
        · simp [h0, h2, f0]
        · simp only [h0, if_false, h1, if_true, ok_bind, pure_eq, h2]
          right
          unfold Support.updatedRange
          rcases hn d h0 with e | ⟨p, e, hp⟩
          · rcases hn (d + dx) h2 with e' | ⟨p, e', hp⟩
            · left
              simp [e, e', Support.lessThan, Support.greaterThan, Support.compareReduce, Cfg.cmul,
                Cfg.checked, f0]
            · exact .inr ⟨p, by simp [e, e'], hp⟩
          · exact .inr ⟨p, by simp [e], hp⟩
      · exact .inr (.inr ⟨.unwrapNone, by simp [h0, h1], .inl rfl⟩)
  unfold Coef4.primerAttempt Coef4.areSingularitiesOutsideDomain Coef4.isZeroOutsideDomain
    Coef4.isPoleOutsideDomain
  have hz : Coef4.isDomainAmenable cfg 0 0 = .ok true := by simp [Coef4.isDomainAmenable]
  rcases hp dx d with ⟨b, e⟩ | ⟨p, e, h⟩
  · cases b
    · left; simp [Out.and, hz, e]
    · rcases hi with e' | e' | ⟨p, e', h⟩
      · left; simp [Out.and, hz, e, Coef4.primerEgest, e']
      · left
        simp [Out.and, hz, e, Coef4.primerEgest, e', Support.areSame, Support.isSpecial,
          Support.equalToZero]
      · exact .inr ⟨p, by simp [Out.and, hz, e, Coef4.primerEgest, e'], h⟩
  · exact .inr ⟨p, by simp [Out.and, hz, e], h⟩

/-- A fraction with zero numerator can only be made as zero. -/
theorem newI_zero {d : Int} {r} (h : Ratio.newI cfg 0 d = .ok r) : r = (some .Zero, none, none) := by
  unfold Ratio.newI at h
  have e : Ratio.magnitude cfg 0 = .ok 0 := by
    have : cfg.asUsize 0 = 0 := by
      show ((0 : Int) % _).toNat = 0
      rw [Int.zero_emod]; rfl
    simp [Ratio.magnitude, this]
  rw [e] at h
  cases e' : Ratio.magnitude cfg d with
  | timeout => simp [e'] at h
  | panic p => simp [e'] at h
  | ok m =>
    simp only [e', ok_bind, Ratio.new] at h
    split at h
    · cases h
    · simpa using h.symm

/-- What the value at one half is when the numerator is zero. -/
theorem half_zero {dx d : Int} {r : Int × Int}
    (h : (⟨0, 0, dx, d⟩ : Coef4).valueAtOneHalf cfg = .ok r) : r.1 = 0 := by
  have f0 : cfg.Fits 0 := Neutral.fits1 (by decide) (by decide)
  unfold Coef4.valueAtOneHalf at h
  simp only [Cfg.cadd, Cfg.cmul, Cfg.checked, zero_mul, add_zero, f0, if_true, ok_bind] at h
  have hh : half 0 = 0 := rfl
  rw [hh] at h
  simp only [add_zero, f0, if_true, ok_bind] at h
  split at h
  · by_cases h1 : cfg.Fits (d * 2)
    · by_cases h2 : cfg.Fits (dx + d * 2)
      · simp [h1, h2] at h; rw [← h]
      · simp [h1, h2] at h
    · simp [h1] at h
  · by_cases h2 : cfg.Fits (d + half dx)
    · simp [h2] at h; rw [← h]
    · simp [h2] at h

/-- The same without overflow, for small coefficients. -/
theorem attempt_ok {dx d : Int} (h : -cfg.imax ≤ d + dx ∧ d + dx ≤ cfg.imax)
    (h' : -cfg.imax ≤ d ∧ d ≤ cfg.imax) : (⟨0, 0, dx, d⟩ : Coef4).primerAttempt cfg = .ok none := by
  have hi := cfg.imin_eq
  have f0 : cfg.Fits 0 := Neutral.fits1 (by decide) (by decide)
  have hn : ∀ d, d ≠ 0 → -cfg.imax ≤ d ∧ d ≤ cfg.imax → Support.normalise cfg 0 d = .ok (0, 1) := by
    intro d h hd
    have : cfg.Fits (-d) := ⟨by omega, by omega⟩
    unfold Support.normalise
    rw [if_neg h]
    by_cases h' : d < 0
    · simp [h', Cfg.mul, Cfg.unchecked, f0, this]
    · simp [h']
  have f1 : cfg.Fits (d + dx) := ⟨by omega, by omega⟩
  have hp : ∃ b, Coef4.isDomainAmenable cfg dx d = .ok b := by
    unfold Coef4.isDomainAmenable
    simp only [Cfg.cadd, Cfg.checked]
    by_cases h : d.sign = 0
    · simp [h]
    · rw [add_comm] at f1
      simp only [h, if_false, f1, if_true, ok_bind]
      split <;> exact ⟨_, rfl⟩
  have hz : Coef4.isDomainAmenable cfg 0 0 = .ok true := by simp [Coef4.isDomainAmenable]
  have hi : (⟨0, 0, dx, d⟩ : Coef4).imageExtremes cfg = .ok (0, 0, 0, 0) ∨
      (⟨0, 0, dx, d⟩ : Coef4).imageExtremes cfg = .ok (0, 1, 0, 1) := by
    unfold Coef4.imageExtremes
    simp only [Coef4.valueAtZero, Coef4.valueAtOne, Cfg.cadd, Cfg.checked, add_zero, f0, if_true,
      ok_bind, true_and]
    by_cases h0 : d = 0
    · simp [h0]
    · by_cases h2 : d + dx = 0
      · simp [h0, h2, f0]
      · simp only [h0, if_false, f1, if_true, ok_bind, pure_eq, h2]
        right
        simp [Support.updatedRange, hn d h0 h', hn (d + dx) h2 h, Support.lessThan,
          Support.greaterThan, Support.compareReduce, Cfg.cmul, Cfg.checked, f0]
  unfold Coef4.primerAttempt Coef4.areSingularitiesOutsideDomain Coef4.isZeroOutsideDomain
    Coef4.isPoleOutsideDomain
  obtain ⟨b, e⟩ := hp
  cases b
  · simp [Out.and, hz, e]
  · rcases hi with e' | e'
    · simp [Out.and, hz, e, Coef4.primerEgest, e']
    · simp [Out.and, hz, e, Coef4.primerEgest, e', Support.areSame, Support.isSpecial,
        Support.equalToZero]

/-- If `prime` returns, the operand has ended, and it returns zero. -/
theorem prime_zero (F g : Nat) : ∀ (c : Clog) (dx d : Int) (r : Homographic.Primed),
    Homographic.prime cfg (Clog.egest cfg F) g ⟨c, ⟨0, 0, dx, d⟩⟩ = .ok r →
    r = (some .Zero, none, none, none) ∧ ∃ l, Stops cfg c l := by
  induction g with
  | zero => intro c dx d r h; cases h
  | succ g ih =>
    intro c dx d r h
    have f0 : cfg.Fits 0 := Neutral.fits1 (by decide) (by decide)
    rcases attempt (cfg := cfg) dx d with e | ⟨p, e, -⟩
    · simp only [Homographic.prime, e, ok_bind, Homographic.primeIngest] at h
      cases eg : Clog.egest cfg F c with
      | timeout => simp [eg] at h
      | panic p => simp [eg] at h
      | ok t =>
        obtain ⟨s, c'⟩ := t
        have hr : Returns (fun f => Clog.egest cfg f c) (s, c') :=
          FuelMono.returns (Clog.egest_mono cfg c) F eg
        simp only [eg, ok_bind] at h
        rcases s with _ | s
        · cases ev : (⟨0, 0, dx, d⟩ : Coef4).valueAtOneHalf cfg with
          | timeout => simp [ev] at h
          | panic p => simp [ev] at h
          | ok v =>
            obtain ⟨v, w⟩ := v
            obtain rfl : v = 0 := half_zero ev
            cases en : Ratio.newI cfg 0 w with
            | timeout => simp [ev, en] at h
            | panic p => simp [ev, en] at h
            | ok t =>
              obtain rfl := newI_zero en
              simp only [ev, ok_bind, en, pure_eq] at h
              cases h
              exact ⟨rfl, [], c, c', Gives.nil c, hr⟩
        · have key : ∃ dx' d', Homographic.prime cfg (Clog.egest cfg F) g ⟨c', ⟨0, 0, dx', d'⟩⟩ = .ok r := by
            cases s with
            | Amplify =>
              simp only [Coef4.ingestAmplify, show isOdd 0 = false from rfl, Bool.false_or] at h
              by_cases ho : isOdd dx
              · by_cases h1 : cfg.Fits (d * 2)
                · simp [ho, Cfg.cmul, Cfg.checked, f0, h1] at h
                  exact ⟨_, _, h⟩
                · simp [ho, Cfg.cmul, Cfg.checked, f0, h1] at h
              · simp [ho, show half 0 = 0 from rfl] at h
                exact ⟨_, _, h⟩
            | Uncover =>
              by_cases h1 : cfg.Fits (dx + d)
              · simp [Coef4.ingestUncover, Cfg.cadd, Cfg.checked, f0, h1] at h
                exact ⟨_, _, h⟩
              · simp [Coef4.ingestUncover, Cfg.cadd, Cfg.checked, f0, h1] at h
          obtain ⟨dx', d', h⟩ := key
          obtain ⟨h1, l, c1, c2, h2, h3⟩ := ih _ _ _ _ h
          exact ⟨h1, s :: l, c1, c2, Gives.cons hr h2, h3⟩
    · simp [Homographic.prime, e] at h

/-- Coefficients of one sign, not both zero. -/
def OneSign (dx d : Int) : Prop := (0 ≤ dx ∧ 0 ≤ d ∨ dx ≤ 0 ∧ d ≤ 0) ∧ (dx ≠ 0 ∨ d ≠ 0)

theorem halves {z : Int} (h : isOdd z = false) : z = half z * 2 := by
  have : z.tmod 2 = 0 := by
    simpa [isOdd] using h
  have := Int.mul_tdiv_add_tmod z 2
  show z = z.tdiv 2 * 2
  omega

/-- Few symbols: nothing overflows. -/
theorem prime_short (l : List Reduction) : ∀ (i : Nat) (c c1 c2 : Clog) (dx d : Int),
    i + l.length + 3 ≤ cfg.bits → OneSign dx d → -2 ^ i ≤ dx → dx ≤ 2 ^ i → -2 ^ i ≤ d → d ≤ 2 ^ i →
    Gives cfg c l c1 → Returns (fun f => Clog.egest cfg f c1) (none, c2) →
    ∃ f₀, ∀ f ≥ f₀, ∀ g ≥ f₀,
      Homographic.prime cfg (Clog.egest cfg f) g ⟨c, ⟨0, 0, dx, d⟩⟩ =
        .ok (some .Zero, none, none, none) := by
  have f0 : cfg.Fits 0 := Neutral.fits1 (by decide) (by decide)
  have hi := cfg.imin_eq
  have big : ∀ i, i + 3 ≤ cfg.bits → (4 : Int) * 2 ^ i ≤ cfg.imax + 1 := by
    intro i h
    have h2 : (2 : Int) ^ (i + 2) ≤ 2 ^ (cfg.bits - 1) := pow_le_pow_right₀ (by norm_num) (by omega)
    have hm : cfg.imax = 2 ^ (cfg.bits - 1) - 1 := rfl
    rw [pow_add] at h2
    omega
  induction l with
  | nil =>
    intro i c c1 c2 dx d hb ⟨hs, h0⟩ h1 h2 h3 h4 hc he
    obtain rfl := Gives.nil_eq hc
    obtain ⟨f₀, he⟩ := he
    have hM := big i (by simpa using hb)
    have hp : (0 : Int) < 2 ^ i := by positivity
    generalize (2 : Int) ^ i = M at *
    refine ⟨f₀ + 1, fun f hf g hg => ?_⟩
    obtain ⟨g, rfl⟩ : ∃ i, g = i + 1 := ⟨g - 1, by omega⟩
    have ea := attempt_ok (cfg := cfg) (dx := dx) (d := d) ⟨by omega, by omega⟩ ⟨by omega, by omega⟩
    have ev : ∃ w, (⟨0, 0, dx, d⟩ : Coef4).valueAtOneHalf cfg = .ok (0, w) ∧ w ≠ 0 ∧ cfg.Fits w ∧
        w ≠ cfg.imin := by
      unfold Coef4.valueAtOneHalf
      cases ho : isOdd dx with
      | true =>
        have hx : dx ≠ 0 := by rintro rfl; cases ho
        have f1 : cfg.Fits (d * 2) := ⟨by omega, by omega⟩
        have f2 : cfg.Fits (dx + d * 2) := ⟨by omega, by omega⟩
        exact ⟨dx + d * 2, by simp [Cfg.cadd, Cfg.cmul, Cfg.checked, f0, f1, f2], by omega, f2,
          by omega⟩
      | false =>
        have hh := halves ho
        have f2 : cfg.Fits (d + half dx) := ⟨by omega, by omega⟩
        exact ⟨d + half dx, by
          simp [show isOdd 0 = false from rfl, show half 0 = 0 from rfl, Cfg.cadd, Cfg.checked, f0,
            f2], by omega, f2, by omega⟩
    obtain ⟨w, ev, w0, wf, wm⟩ := ev
    simp only [Homographic.prime, ea, ok_bind, Homographic.primeIngest, he f (by omega), ev,
      Ratio.newI_nought w0 wf wm, pure_eq]
  | cons r l ih =>
    intro i c c1 c2 dx d hb ⟨hs, h0⟩ h1 h2 h3 h4 hc he
    obtain ⟨d', ⟨f₀, hd⟩, hd'⟩ := Gives.uncons hc
    simp only [List.length_cons] at hb
    have hM := big (i + 1) (by omega)
    have hp : (0 : Int) < 2 ^ i := by positivity
    have step : ∃ dx' e', OneSign dx' e' ∧ -2 ^ (i + 1) ≤ dx' ∧ dx' ≤ 2 ^ (i + 1) ∧
        -2 ^ (i + 1) ≤ e' ∧ e' ≤ 2 ^ (i + 1) ∧ ∀ f ≥ f₀, ∀ g,
        Homographic.prime cfg (Clog.egest cfg f) (g + 1) ⟨c, ⟨0, 0, dx, d⟩⟩ =
          Homographic.prime cfg (Clog.egest cfg f) g ⟨d', ⟨0, 0, dx', e'⟩⟩ := by
      rw [pow_succ] at hM ⊢
      generalize (2 : Int) ^ i = M at *
      have ea := attempt_ok (cfg := cfg) (dx := dx) (d := d) ⟨by omega, by omega⟩
        ⟨by omega, by omega⟩
      cases r with
      | Amplify =>
        cases ho : isOdd dx with
        | true =>
          have f1 : cfg.Fits (d * 2) := ⟨by omega, by omega⟩
          refine ⟨dx, d * 2, ⟨by omega, by omega⟩, by omega, by omega, by omega, by omega, ?_⟩
          intro f hf g
          simp [Homographic.prime, ea, Homographic.primeIngest, hd f hf, Coef4.ingestAmplify, ho,
            Cfg.cmul, Cfg.checked, f0, f1]
        | false =>
          have hh := halves ho
          refine ⟨half dx, d, ⟨by omega, by omega⟩, by omega, by omega, by omega, by omega, ?_⟩
          intro f hf g
          simp [Homographic.prime, ea, Homographic.primeIngest, hd f hf, Coef4.ingestAmplify, ho,
            show isOdd 0 = false from rfl, show half 0 = 0 from rfl]
      | Uncover =>
        have f1 : cfg.Fits (dx + d) := ⟨by omega, by omega⟩
        refine ⟨d, dx + d, ⟨by omega, by omega⟩, by omega, by omega, by omega, by omega, ?_⟩
        intro f hf g
        simp [Homographic.prime, ea, Homographic.primeIngest, hd f hf, Coef4.ingestUncover, Cfg.cadd,
          Cfg.checked, f0, f1]
    obtain ⟨dx', e', s1, s2, s3, s4, s5, hstep⟩ := step
    obtain ⟨f₁, h⟩ := ih (i + 1) d' c1 c2 dx' e' (by omega) s1 s2 s3 s4 s5 hd' he
    refine ⟨f₀ + f₁ + 1, fun f hf g hg => ?_⟩
    obtain ⟨g, rfl⟩ : ∃ i, g = i + 1 := ⟨g - 1, by omega⟩
    rw [hstep f (by omega), h f (by omega) g (by omega)]

/-- Every Uncover adds to the denominator, until it overflows. -/
theorem prime_long (l : List Reduction) : ∀ (c c1 : Clog) (dx d : Int) (s : Int),
    (s = 1 ∨ s = -1) → 1 ≤ s * dx → s * dx ≤ s * d → s * d ≤ cfg.imax + 1 →
    cfg.imax + 1 < s * d + l.count .Uncover → Gives cfg c l c1 →
    ∃ f₀ p, Overflow p ∧ ∀ f ≥ f₀, ∀ g ≥ f₀,
      Homographic.prime cfg (Clog.egest cfg f) g ⟨c, ⟨0, 0, dx, d⟩⟩ = .panic p := by
  have f0 : cfg.Fits 0 := Neutral.fits1 (by decide) (by decide)
  have hi := cfg.imin_eq
  induction l with
  | nil =>
    intro c c1 dx d s hs h1 h2 h3 h4
    simp at h4
    omega
  | cons r l ih =>
    intro c c1 dx d s hs h1 h2 h3 h4 hc
    obtain ⟨d', ⟨f₀, hd⟩, hd'⟩ := Gives.uncons hc
    rcases attempt (cfg := cfg) dx d with ea | ⟨p, ea, hp⟩
    · have step : (∃ p, Overflow p ∧ ∀ f ≥ f₀, ∀ g,
          Homographic.prime cfg (Clog.egest cfg f) (g + 1) ⟨c, ⟨0, 0, dx, d⟩⟩ = .panic p) ∨
          ∃ dx' e', 1 ≤ s * dx' ∧ s * dx' ≤ s * e' ∧ s * e' ≤ cfg.imax + 1 ∧
            cfg.imax + 1 < s * e' + l.count .Uncover ∧ ∀ f ≥ f₀, ∀ g,
            Homographic.prime cfg (Clog.egest cfg f) (g + 1) ⟨c, ⟨0, 0, dx, d⟩⟩ =
              Homographic.prime cfg (Clog.egest cfg f) g ⟨d', ⟨0, 0, dx', e'⟩⟩ := by
        cases r with
        | Amplify =>
          simp only [ne_eq, reduceCtorEq, not_false_eq_true, List.count_cons_of_ne] at h4
          cases ho : isOdd dx with
          | true =>
            by_cases f1 : cfg.Fits (d * 2)
            · right
              refine ⟨dx, d * 2, by omega, ?_, ?_, ?_, ?_⟩
              · rcases hs with rfl | rfl <;> omega
              · rcases hs with rfl | rfl <;> (obtain ⟨_, _⟩ := f1; omega)
              · rcases hs with rfl | rfl <;> omega
              · intro f hf g
                simp [Homographic.prime, ea, Homographic.primeIngest, hd f hf, Coef4.ingestAmplify,
                  ho, Cfg.cmul, Cfg.checked, f0, f1]
            · left
              refine ⟨.unwrapNone, .inl rfl, fun f hf g => ?_⟩
              simp [Homographic.prime, ea, Homographic.primeIngest, hd f hf, Coef4.ingestAmplify,
                ho, Cfg.cmul, Cfg.checked, f0, f1]
          | false =>
            have hh := halves ho
            right
            refine ⟨half dx, d, ?_, ?_, h3, h4, ?_⟩
            · rcases hs with rfl | rfl <;> omega
            · rcases hs with rfl | rfl <;> omega
            · intro f hf g
              simp [Homographic.prime, ea, Homographic.primeIngest, hd f hf, Coef4.ingestAmplify, ho,
                show isOdd 0 = false from rfl, show half 0 = 0 from rfl]
        | Uncover =>
          simp only [List.count_cons_self, Nat.cast_add, Nat.cast_one] at h4
          by_cases f1 : cfg.Fits (dx + d)
          · right
            refine ⟨d, dx + d, by omega, ?_, ?_, ?_, ?_⟩
            · rcases hs with rfl | rfl <;> omega
            · rcases hs with rfl | rfl <;> (obtain ⟨_, _⟩ := f1; omega)
            · rcases hs with rfl | rfl <;> omega
            · intro f hf g
              simp [Homographic.prime, ea, Homographic.primeIngest, hd f hf, Coef4.ingestUncover,
                Cfg.cadd, Cfg.checked, f0, f1]
          · left
            refine ⟨.unwrapNone, .inl rfl, fun f hf g => ?_⟩
            simp [Homographic.prime, ea, Homographic.primeIngest, hd f hf, Coef4.ingestUncover,
              Cfg.cadd, Cfg.checked, f0, f1]
      rcases step with ⟨p, hp, h⟩ | ⟨dx', e', s1, s2, s3, s4, hstep⟩
      · refine ⟨f₀ + 1, p, hp, fun f hf g hg => ?_⟩
        obtain ⟨g, rfl⟩ : ∃ i, g = i + 1 := ⟨g - 1, by omega⟩
        exact h f (by omega) g
      · obtain ⟨f₁, p, hp, h⟩ := ih d' c1 dx' e' s hs s1 s2 s3 s4 hd'
        refine ⟨f₀ + f₁ + 1, p, hp, fun f hf g hg => ?_⟩
        obtain ⟨g, rfl⟩ : ∃ i, g = i + 1 := ⟨g - 1, by omega⟩
        rw [hstep f (by omega), h f (by omega) g (by omega)]
    · refine ⟨1, p, hp, fun f hf g hg => ?_⟩
      obtain ⟨g, rfl⟩ : ∃ i, g = i + 1 := ⟨g - 1, by omega⟩
      simp [Homographic.prime, ea]

/-- The beginning: until the first or second Uncover nothing changes. -/
theorem prime_begins {s : Int} (hs : s = 1 ∨ s = -1) (l : List Reduction) : ∀ (c c1 : Clog),
    Gives cfg c l c1 →
    (cfg.imax + 1 < l.count .Uncover → ∃ f₀ p, Overflow p ∧ ∀ f ≥ f₀, ∀ g ≥ f₀,
      Homographic.prime cfg (Clog.egest cfg f) g ⟨c, ⟨0, 0, 0, s⟩⟩ = .panic p) ∧
    (cfg.imax + 2 < l.count .Uncover → ∃ f₀ p, Overflow p ∧ ∀ f ≥ f₀, ∀ g ≥ f₀,
      Homographic.prime cfg (Clog.egest cfg f) g ⟨c, ⟨0, 0, s, 0⟩⟩ = .panic p) := by
  have f0 : cfg.Fits 0 := Neutral.fits1 (by decide) (by decide)
  have fs : cfg.Fits s := by rcases hs with rfl | rfl <;> exact Neutral.fits1 (by decide) (by decide)
  have hm := cfg.imax_ge
  have ho : isOdd s = true := by rcases hs with rfl | rfl <;> rfl
  have e1 : (⟨0, 0, 0, s⟩ : Coef4).primerAttempt cfg = .ok none :=
    attempt_ok (by rcases hs with rfl | rfl <;> omega) (by rcases hs with rfl | rfl <;> omega)
  have e2 : (⟨0, 0, s, 0⟩ : Coef4).primerAttempt cfg = .ok none :=
    attempt_ok (by rcases hs with rfl | rfl <;> omega) (by rcases hs with rfl | rfl <;> omega)
  induction l with
  | nil =>
    intro c c1 _
    simp only [List.count_nil]
    exact ⟨fun h => by omega, fun h => by omega⟩
  | cons r l ih =>
    intro c c1 hc
    obtain ⟨d', ⟨f₀, hd⟩, hd'⟩ := Gives.uncons hc
    have next : ∀ {k k' : Coef4}, (∀ f ≥ f₀, ∀ g,
        Homographic.prime cfg (Clog.egest cfg f) (g + 1) ⟨c, k⟩ =
          Homographic.prime cfg (Clog.egest cfg f) g ⟨d', k'⟩) →
        (∃ f₀ p, Overflow p ∧ ∀ f ≥ f₀, ∀ g ≥ f₀,
          Homographic.prime cfg (Clog.egest cfg f) g ⟨d', k'⟩ = .panic p) →
        ∃ f₀ p, Overflow p ∧ ∀ f ≥ f₀, ∀ g ≥ f₀,
          Homographic.prime cfg (Clog.egest cfg f) g ⟨c, k⟩ = .panic p := by
      rintro k k' hstep ⟨f₁, p, hp, h⟩
      refine ⟨f₀ + f₁ + 1, p, hp, fun f hf g hg => ?_⟩
      obtain ⟨g, rfl⟩ : ∃ i, g = i + 1 := ⟨g - 1, by omega⟩
      rw [hstep f (by omega), h f (by omega) g (by omega)]
    cases r with
    | Amplify =>
      simp only [ne_eq, reduceCtorEq, not_false_eq_true, List.count_cons_of_ne]
      constructor
      · refine fun h => next (fun f hf g => ?_) ((ih d' c1 hd').1 h)
        simp [Homographic.prime, e1, Homographic.primeIngest, hd f hf, Coef4.ingestAmplify,
          show isOdd 0 = false from rfl, show half 0 = 0 from rfl]
      · refine fun h => next (fun f hf g => ?_) ((ih d' c1 hd').2 h)
        simp [Homographic.prime, e2, Homographic.primeIngest, hd f hf, Coef4.ingestAmplify, ho,
          Cfg.cmul, Cfg.checked, f0]
    | Uncover =>
      simp only [List.count_cons_self, Nat.cast_add, Nat.cast_one]
      constructor
      · intro h
        refine next (k' := ⟨0, 0, s, s⟩) (fun f hf g => ?_) (prime_long l d' c1 s s s hs ?_ ?_ ?_ ?_ hd')
        · simp [Homographic.prime, e1, Homographic.primeIngest, hd f hf, Coef4.ingestUncover,
            Cfg.cadd, Cfg.checked, f0, fs]
        all_goals rcases hs with rfl | rfl <;> omega
      · refine fun h => next (fun f hf g => ?_) ((ih d' c1 hd').1 (by omega))
        simp [Homographic.prime, e2, Homographic.primeIngest, hd f hf, Coef4.ingestUncover,
          Cfg.cadd, Cfg.checked, f0, fs]

/-- The calls of `0 / x`. -/
theorem calls (p : Option Primer) (c : Clog) : ∃ k : Coef4, ((∃ s, (s = 1 ∨ s = -1) ∧
    (k = ⟨0, 0, s, 0⟩ ∨ k = ⟨0, 0, 0, s⟩))) ∧ (p = none → k = ⟨0, 0, 1, 0⟩) ∧
    (p = some .Reflect → k = ⟨0, 0, -1, 0⟩) ∧ (p = some .Turn → k = ⟨0, 0, 0, 1⟩) ∧
    (p = some .Ground → k = ⟨0, 0, 0, -1⟩) ∧ ∀ f,
    Op.quotient.run cfg f (.Special .Zero) (.Other p c) =
      (Homographic.prime cfg (Clog.egest cfg f) f ⟨c, k⟩ >>= fun r =>
        match r.1 with
        | some fixed => pure (.Special fixed)
        | none =>
          match r.2.2.1 with
          | some ratio => pure (.Other r.2.1 (.ratio ratio))
          | none =>
            match r.2.2.2 with
            | some h => pure (.Other r.2.1 h.box)
            | none => .panic .unwrapMissing) := by
  have f0 : cfg.Fits 0 := Neutral.fits1 (by decide) (by decide)
  have f1 : cfg.Fits (-1) := Neutral.fits1 (by decide) (by decide)
  have e := Neutral.first (cfg := cfg) .Zero (.Other p c) 0 1 0 0 0 0 1 0
    (by intro c hc; simp at hc; omega)
  simp only [substitute] at e
  simp only [Op.run, e, Number.homographic, Homographic.new]
  rcases p with _ | _ | _ | _
  · exact ⟨⟨0, 0, 1, 0⟩, ⟨1, .inl rfl, .inl rfl⟩, by simp, by simp, by simp, by simp, fun f => by
      simp [Homographic.absorbPrimer]
      generalize Homographic.prime _ _ _ _ = m
      rcases m with ⟨_ | _, _, _ | _, _ | _⟩ | _ | _ <;> rfl⟩
  · exact ⟨⟨0, 0, 0, 1⟩, ⟨1, .inl rfl, .inr rfl⟩, by simp, by simp, by simp, by simp, fun f => by
      simp [Homographic.absorbPrimer]
      generalize Homographic.prime _ _ _ _ = m
      rcases m with ⟨_ | _, _, _ | _, _ | _⟩ | _ | _ <;> rfl⟩
  · exact ⟨⟨0, 0, -1, 0⟩, ⟨-1, .inr rfl, .inl rfl⟩, by simp, by simp, by simp, by simp, fun f => by
      simp [Homographic.absorbPrimer, Cfg.neg, Cfg.unchecked, f0, f1]
      generalize Homographic.prime _ _ _ _ = m
      rcases m with ⟨_ | _, _, _ | _, _ | _⟩ | _ | _ <;> rfl⟩
  · exact ⟨⟨0, 0, 0, -1⟩, ⟨-1, .inr rfl, .inr rfl⟩, by simp, by simp, by simp, by simp, fun f => by
      simp [Homographic.absorbPrimer, Cfg.neg, Cfg.unchecked, f0, f1]
      generalize Homographic.prime _ _ _ _ = m
      rcases m with ⟨_ | _, _, _ | _, _ | _⟩ | _ | _ <;> rfl⟩

end ZeroOver

open ZeroOver

/-- `0 / x` reads its operand to the end: if it returns, the clog of `x` has ended, and the result
is zero. -/
theorem C93_reads_to_the_end (cfg : Cfg) (p : Option Primer) (c : Clog) (z : Number)
    (h : Returns (fun f => Op.quotient.run cfg f (.Special .Zero) (.Other p c)) z) :
    z = .Special .Zero ∧ ∃ l, Stops cfg c l := by
  obtain ⟨k, ⟨s, -, hk⟩, -, -, -, -, e⟩ := calls (cfg := cfg) p c
  obtain ⟨f, hf⟩ := h
  have hf := hf f le_rfl
  simp only [e] at hf
  cases ep : Homographic.prime cfg (Clog.egest cfg f) f ⟨c, k⟩ with
  | timeout => simp [ep] at hf
  | panic p => simp [ep] at hf
  | ok r =>
    rcases hk with rfl | rfl
    all_goals
      obtain ⟨rfl, hl⟩ := prime_zero f f _ _ _ _ ep
      simp [ep] at hf
      exact ⟨hf.symm, hl⟩

/-- If it ends after at most `bits - 3` symbols, `0 / x` is zero. -/
theorem C93_short (cfg : Cfg) (p : Option Primer) (c : Clog) (l : List Reduction)
    (hl : Stops cfg c l) (hb : l.length + 3 ≤ cfg.bits) :
    Returns (fun f => Op.quotient.run cfg f (.Special .Zero) (.Other p c)) (.Special .Zero) := by
  obtain ⟨k, ⟨s, hs, hk⟩, -, -, -, -, e⟩ := calls (cfg := cfg) p c
  obtain ⟨c1, c2, h1, h2⟩ := hl
  have key : ∃ f₀, ∀ f ≥ f₀, ∀ g ≥ f₀, Homographic.prime cfg (Clog.egest cfg f) g ⟨c, k⟩ =
      .ok (some .Zero, none, none, none) := by
    rcases hk with rfl | rfl
    all_goals
      refine prime_short l 0 c c1 c2 _ _ (by omega) ⟨?_, ?_⟩ ?_ ?_ ?_ ?_ h1 h2
      all_goals rcases hs with rfl | rfl <;> decide
  obtain ⟨f₀, h⟩ := key
  refine ⟨f₀, fun f hf => ?_⟩
  show Op.quotient.run cfg f (.Special .Zero) (.Other p c) = _
  rw [e, h f hf f hf]
  rfl

/-- A clog of a fraction ends after the symbols of the fraction. -/
theorem ZeroOver.stops {x : ℚ} {l : List Reduction} (hl : Expands x l) :
    ∀ {c : Clog}, Clog.Denotes cfg NoPanic c x → Stops cfg c l := by
  induction hl with
  | half =>
    intro c hc
    obtain ⟨c', f₀, he, -⟩ := hc.step_returns
    rw [sym_half] at he
    exact ⟨c, c', Gives.nil c, f₀, he⟩
  | @amplify x l h0 h1 h ih =>
    intro c hc
    obtain ⟨c', f₀, he, hc'⟩ := hc.step_returns
    rw [next_lt h1] at hc'
    rw [sym_lt h1] at he
    obtain ⟨c1, c2, h2, h3⟩ := ih hc'
    exact ⟨c1, c2, Gives.cons ⟨f₀, he⟩ h2, h3⟩
  | @uncover x l h0 h1 h ih =>
    intro c hc
    obtain ⟨c', f₀, he, hc'⟩ := hc.step_returns
    rw [next_gt h0] at hc'
    rw [sym_gt h0] at he
    obtain ⟨c1, c2, h2, h3⟩ := ih hc'
    exact ⟨c1, c2, Gives.cons ⟨f₀, he⟩ h2, h3⟩

/-- So `0 / x` is zero for every fraction `x` of integers up to `2^b`, not zero, if
`(b-1)(b+4)/2 + 3` is at most `bits`: up to 512 on a 64-bit machine. -/
theorem C93_fraction (cfg : Cfg) (b : Nat) (num den : Int) (hn : num ≠ 0) (hd : den ≠ 0)
    (h1 : |num| ≤ 2 ^ b) (h2 : |den| ≤ 2 ^ b) (hb : (b - 1) * (b + 4) / 2 + 3 ≤ cfg.bits) (x : Number)
    (hx : Number.Denotes cfg NoPanic x ((num : ℚ) / den)) :
    Returns (fun f => Op.quotient.run cfg f (.Special .Zero) x) (.Special .Zero) := by
  cases x with
  | Special s =>
    have e : (num : ℚ) / den = specialValue s := hx
    have hq : specialValue s ≠ 0 := by
      rw [← e]
      exact div_ne_zero (by exact_mod_cast hn) (by exact_mod_cast hd)
    have key : Like cfg (fun f => Op.quotient.run cfg f (.Special .Zero) (.Special s))
        (.Special .Zero) := by
      have H : ∀ c ∈ [(0 : Int), 1, 0, 0, 0, 0, 1, 0], -1 ≤ c ∧ c ≤ 1 := by decide
      cases s
      · exact Neutral.two _ _ _ _ _ _ _ _ _ _ _ H (by decide) (by norm_num [substitute, specialValue])
      · exact absurd rfl hq
      · exact Neutral.two _ _ _ _ _ _ _ _ _ _ _ H (by decide) (by norm_num [substitute, specialValue])
    obtain ⟨z, hz, hs⟩ := key
    cases z with
    | Special t =>
      obtain rfl : Special.Zero = t := hs
      exact hz
    | Other p c => exact hs.elim
  | Other p c =>
    obtain ⟨v, l, hv, hl, hlen, -⟩ := hx.in_count (C45_symbol_count b num den hd h1 h2).1
    exact C93_short cfg p c l (stops hl hv) (by
      have : longest b = (b - 1) * (b + 4) / 2 := rfl
      omega)

/-- If it has more than `2^(bits-1) + 1` times Uncover among its symbols – for instance because it is
irrational – `0 / x` overflows. -/
theorem C93_long (cfg : Cfg) (p : Option Primer) (c c1 : Clog) (l : List Reduction)
    (hl : Gives cfg c l c1) (hu : 2 ^ (cfg.bits - 1) + 1 < l.count .Uncover) :
    ∃ o, Overflow o ∧
      Panics (fun f => Op.quotient.run cfg f (.Special .Zero) (.Other p c)) o := by
  obtain ⟨k, ⟨s, hs, hk⟩, -, -, -, -, e⟩ := calls (cfg := cfg) p c
  have hm : cfg.imax = 2 ^ (cfg.bits - 1) - 1 := rfl
  have hu' : (2 : Int) ^ (cfg.bits - 1) + 1 < l.count .Uncover := by exact_mod_cast hu
  have key : ∃ f₀ o, Overflow o ∧ ∀ f ≥ f₀, ∀ g ≥ f₀,
      Homographic.prime cfg (Clog.egest cfg f) g ⟨c, k⟩ = .panic o := by
    have := prime_begins (cfg := cfg) hs l c c1 hl
    rcases hk with rfl | rfl
    · exact this.2 (by omega)
    · exact this.1 (by omega)
  obtain ⟨f₀, o, ho, h⟩ := key
  refine ⟨o, ho, f₀, fun f hf => ?_⟩
  show Op.quotient.run cfg f (.Special .Zero) (.Other p c) = _
  rw [e, h f hf f hf]
  rfl

/-! ## Witnesses and examples -/

/-- (Witnesses.)  `0 / (1/4095)` panics on a 64-bit machine, `0 / (1/511)` on 32 bits and
`0 / (95/98)` on 16 bits, although `0 * 4095` is zero. -/
theorem C93_panics_for_small_fractions (checks : Bool) :
    Panics (fun f => Op.quotient.run ⟨64, by decide, checks⟩ f (.Special .Zero)
      (.Other none (.ratio ⟨1, 4095⟩))) .unwrapNone ∧
    Panics (fun f => Op.quotient.run ⟨32, by decide, checks⟩ f (.Special .Zero)
      (.Other none (.ratio ⟨1, 511⟩))) .unwrapNone ∧
    Panics (fun f => Op.quotient.run ⟨16, by decide, checks⟩ f (.Special .Zero)
      (.Other none (.ratio ⟨95, 98⟩))) .unwrapNone := by
  cases checks
  all_goals exact
    ⟨FuelMono.panics (Number.combine_mono _ _ _ _ _ _ _ _ _ _ _) 199 (by decide +kernel),
      FuelMono.panics (Number.combine_mono _ _ _ _ _ _ _ _ _ _ _) 199 (by decide +kernel),
      FuelMono.panics (Number.combine_mono _ _ _ _ _ _ _ _ _ _ _) 199 (by decide +kernel)⟩

/-- 0 divided by 511/512. -/
example : Returns (fun f => Op.quotient.run debug64 f (.Special .Zero)
    (.Other none (.ratio ⟨511, 512⟩))) (.Special .Zero) :=
  C93_fraction debug64 9 511 512 (by decide) (by decide) (by decide) (by decide) (by decide) _
    ⟨511 / 512, by
      simpa [Ratio.val] using Ratio.denotes (cfg := debug64) (A := NoPanic) (r := ⟨511, 512⟩)
        ⟨by decide, by decide, by decide⟩, rfl⟩

/-- 0 divided by -3/5. -/
example : Returns (fun f => Op.quotient.run debug64 f (.Special .Zero)
    (.Other (some .Reflect) (.ratio ⟨3, 5⟩))) (.Special .Zero) :=
  C93_short debug64 (some .Reflect) (.ratio ⟨3, 5⟩) [.Uncover, .Uncover]
    ⟨.ratio ⟨1, 2⟩, .ratio ⟨1, 2⟩, FuelMono.returns (Clog.egests_mono _ _ _) 1 (by decide +kernel),
      FuelMono.returns (Clog.egest_mono _ _) 1 (by decide +kernel)⟩ (by decide)

/-- Numbers with any number of Uncovers are made on every machine by repeating "add one and take the
reciprocal" (C66). -/
theorem ZeroOver.tower (cfg : Cfg) (m : Nat) :
    ∃ c c', Gives cfg c (List.replicate m .Uncover) c' := by
  induction m with
  | zero => exact ⟨.ratio ⟨1, 2⟩, _, Gives.nil _⟩
  | succ m ih =>
    obtain ⟨c, c', h⟩ := ih
    obtain ⟨c0, c1, -, h1, h2⟩ := C66_add_one cfg c
    obtain ⟨d', h3, -⟩ := C63_gives cfg c c1 c' h2 _ h
    obtain ⟨e, h4, h5⟩ := Gives.uncons h1
    rw [← Gives.nil_eq h5] at h4
    exact ⟨c0, d', Gives.cons h4 h3⟩

/-- So `0 / x` overflows for some of them, here for negative numbers above -1 on 64 bits. -/
example : ∃ c o, Overflow o ∧ Panics (fun f => Op.quotient.run debug64 f (.Special .Zero)
    (.Other (some .Reflect) c)) o := by
  obtain ⟨c, c', h⟩ := tower debug64 (2 ^ 63 + 2)
  obtain ⟨o, ho, hp⟩ := C93_long debug64 (some .Reflect) c c' _ h (by
    rw [List.count_replicate_self]
    decide)
  exact ⟨c, o, ho, hp⟩

end Clarith
