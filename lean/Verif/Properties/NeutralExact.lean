import Verif.Properties.Neutral
import Verif.Properties.Rebuild
import Verif.Properties.ReadsEnd

/-! # Division by minus one: the exact limit (C92)

`x / -1` for `x > 1`, and `1 / x` for `-1 < x < 0`: the answers of the opposite, and of the reciprocal,
if the clog begins with at most `bits - 3` times Amplify; a panic if it begins with more. -/

namespace Clarith

open Out Spec Neutral

variable {cfg : Cfg}

namespace Neutral

theorem pow_fits {j : Nat} (hj : j + 2 ≤ cfg.bits) : (1 : Int) ≤ 2 ^ j ∧ (2 : Int) ^ j ≤ cfg.imax := by
  have hm : cfg.imax = 2 ^ (cfg.bits - 1) - 1 := rfl
  have h1 : (1 : Int) ≤ 2 ^ j := one_le_pow₀ (by norm_num)
  have h2 : (2 : Int) ^ (j + 1) ≤ 2 ^ (cfg.bits - 1) := pow_le_pow_right₀ (by norm_num) (by omega)
  rw [pow_succ] at h2
  exact ⟨h1, by omega⟩

/-- Amplify doubles the numerator. -/
theorem walk (i : Nat) : ∀ (j : Nat) (c c1 : Clog), j + i + 2 ≤ cfg.bits →
    Gives cfg c (List.replicate i .Amplify) c1 → ∃ f₀, ∀ f ≥ f₀, ∀ g,
      Homographic.prime cfg (Clog.egest cfg f) (g + i) ⟨c, ⟨0, 2 ^ j, -1, 0⟩⟩ =
        Homographic.prime cfg (Clog.egest cfg f) g ⟨c1, ⟨0, 2 ^ (j + i), -1, 0⟩⟩ := by
  have f0 : cfg.Fits 0 := fits1 (by decide) (by decide)
  have hi := cfg.imin_eq
  induction i with
  | zero =>
    intro j c c1 _ h
    exact ⟨0, fun f _ g => by rw [Gives.nil_eq h]; rfl⟩
  | succ i ih =>
    intro j c c1 hj h
    obtain ⟨d, ⟨f₀, hd⟩, hd'⟩ := Gives.uncons h
    obtain ⟨h1, h2⟩ := pow_fits (cfg := cfg) (j := j) (by omega)
    obtain ⟨h3, h4⟩ := pow_fits (cfg := cfg) (j := j + 1) (by omega)
    obtain ⟨f₁, h⟩ := ih (j + 1) d c1 (by omega) hd'
    have nf : cfg.Fits ((2 : Int) ^ j * 2) := by
      rw [← pow_succ]
      exact ⟨by omega, h4⟩
    refine ⟨f₀ + f₁ + 1, fun f hf g => ?_⟩
    rw [show j + (i + 1) = j + 1 + i by omega, ← h f (by omega) g]
    show Homographic.prime cfg (Clog.egest cfg f) (g + i + 1) _ = _
    simp [Homographic.prime, undecided h1 h2, Homographic.primeIngest, hd f (by omega),
      Coef4.ingestAmplify, isOdd, Cfg.cmul, Cfg.checked, nf, f0, pow_succ]

/-- After Uncover `-m(1+x)` is known to be less than -1. -/
theorem decided {m : Int} (h1 : 1 ≤ m) (h2 : m + m ≤ cfg.imax) :
    (⟨m, m, 0, -1⟩ : Coef4).primerAttempt cfg = .ok (some (some .Ground, ⟨0, 1, m, m⟩)) := by
  have hi := cfg.imin_eq
  have f0 : cfg.Fits 0 := fits1 (by decide) (by decide)
  have f1 : cfg.Fits 1 := fits1 (by decide) (by decide)
  have f1' : cfg.Fits (-1) := fits1 (by decide) (by decide)
  have fm' : cfg.Fits (-m) := ⟨by omega, by omega⟩
  have fd : cfg.Fits (m + m) := ⟨by omega, by omega⟩
  have fd' : cfg.Fits (-m + -m) := ⟨by omega, by omega⟩
  have hs : m.sign = 1 := Int.sign_eq_one_of_pos (by omega)
  have hs' : (m + m).sign = 1 := Int.sign_eq_one_of_pos (by omega)
  have hm : m ≠ 0 := by omega
  have hl : -m + -m < -m := by omega
  have hn : ¬ -m + -m = -m := by omega
  have hd : m + m ≠ 0 := by omega
  have hm1 : ¬ m < 1 := by omega
  simp [Coef4.primerAttempt, Coef4.areSingularitiesOutsideDomain, Coef4.isZeroOutsideDomain,
    Out.and, Out.not, Coef4.isPoleOutsideDomain, Coef4.isDomainAmenable, Coef4.primerEgest,
    Coef4.imageExtremes, Coef4.valueAtZero, Coef4.valueAtOne, Support.updatedRange,
    Support.normalise, Support.lessThan, Support.greaterThan, Support.compareReduce,
    Support.areSame, Support.isSpecial, Support.equalToZero, Support.equalToOne,
    Support.equalToMinusOne, Support.greaterThanMinusOne, Support.lessThanMinusOne,
    Support.lessThanOne, Support.greaterThanZero, Support.lessThanZero, Cfg.cadd, Cfg.cmul, Cfg.mul,
    Cfg.neg, Cfg.checked, Cfg.unchecked, Coef4.ground, f0, f1, f1', fm', fd, fd', hs, hs', hm, hl,
    hn, hd, hm1]

/-- `1/(2m(1+x))` begins with Amplify. -/
theorem scaled {m : Int} (h1 : 1 ≤ m) (h2 : 4 * m ≤ cfg.imax) :
    (⟨0, 1, m * 2, m * 2⟩ : Coef4).reductionAttempt cfg =
      .ok (some (some .Amplify, ⟨0, 1, m, m⟩)) := by
  have hi := cfg.imin_eq
  have f0 : cfg.Fits 0 := fits1 (by decide) (by decide)
  have f1 : cfg.Fits 1 := fits1 (by decide) (by decide)
  have fm : cfg.Fits (m * 2) := ⟨by omega, by omega⟩
  have fd : cfg.Fits (m * 2 + m * 2) := ⟨by omega, by omega⟩
  have hs : (m * 2).sign = 1 := Int.sign_eq_one_of_pos (by omega)
  have hs' : (m * 2 + m * 2).sign = 1 := Int.sign_eq_one_of_pos (by omega)
  have hm : m ≠ 0 := by omega
  have a1 : ¬ m * 2 < 0 := by omega
  have a2 : ¬ m * 2 + m * 2 < 0 := by omega
  have a3 : m * 2 < m * 2 + m * 2 := by omega
  have a4 : 0 < m * 2 := by omega
  have a5 : ¬ m * 2 < 1 := by omega
  have a6 : ¬ m < 1 := by omega
  have a7 : 0 < m := by omega
  have e1 : half (m * 2) = m := Int.mul_tdiv_cancel m (by decide)
  have e2 : half (m * 2 + m * 2) = m * 2 := by
    rw [← mul_two (m * 2)]
    exact Int.mul_tdiv_cancel _ (by decide)
  have e3 : (m * 2).tmod 2 = 0 := Int.mul_tmod_left m 2
  have e4 : (m * 2 + m * 2).tmod 2 = 0 := by
    rw [← mul_two (m * 2)]
    exact Int.mul_tmod_left _ 2
  have e5 : (1 : Int) ≠ m * 2 := by omega
  simp [Coef4.reductionAttempt, Coef4.areSingularitiesOutsideDomain, Coef4.isZeroOutsideDomain,
    Coef4.isPoleOutsideDomain, Coef4.isDomainAmenable, Out.and, Cfg.cadd, Cfg.checked, f1, fm, fd,
    Coef4.reductionEgest, Coef4.imageExtremes, Coef4.valueAtZero, Coef4.valueAtOne,
    Support.updatedRange, Support.normalise, Support.lessThan, Support.greaterThan,
    Support.compareReduce, Cfg.cmul, Support.lessThanZero, Support.greaterThanOne,
    Support.equalToOneHalf, Support.doubled, Support.greaterThanOneHalf, Coef4.amplify, isOdd,
    hs, hs', hm, a1, a2, a3, a4, a5, a6, a7, e1, e2, e3, e4, e5]

theorem one : (⟨0, 1, 1, 1⟩ : Coef4).reductionAttempt cfg =
    .ok (some (some .Uncover, ⟨1, 0, 0, 1⟩)) := by
  have f0 : cfg.Fits 0 := fits1 (by decide) (by decide)
  have f1 : cfg.Fits 1 := fits1 (by decide) (by decide)
  have f2 : cfg.Fits 2 := Cfg.small (by omega) (by omega)
  simp [Coef4.reductionAttempt, Coef4.areSingularitiesOutsideDomain, Coef4.isZeroOutsideDomain,
    Coef4.isPoleOutsideDomain, Coef4.isDomainAmenable, Out.and, Cfg.cadd, Cfg.checked, f0, f1, f2,
    Coef4.reductionEgest, Coef4.imageExtremes, Coef4.valueAtZero, Coef4.valueAtOne,
    Support.updatedRange, Support.normalise, Support.lessThan, Support.greaterThan,
    Support.compareReduce, Cfg.cmul, Cfg.csub, Support.lessThanZero, Support.greaterThanOne,
    Support.equalToOneHalf, Support.doubled, Support.greaterThanOneHalf, Support.lessThanOneHalf,
    Coef4.uncover, half, show Int.sign 2 = 1 from rfl]

/-- Two clogs that have ended. -/
theorem ended {c c' d d' : Clog} (h : Returns (fun f => Clog.egest cfg f c) (none, d))
    (h' : Returns (fun f => Clog.egest cfg f c') (none, d')) : SameAnswers cfg c c' := by
  intro l e e' he he'
  cases l with
  | nil =>
    rw [Gives.nil_eq he, Gives.nil_eq he']
    refine ⟨fun r' => ⟨?_, ?_⟩, fun p => ⟨fun hp => ?_, fun hp => ?_⟩⟩
    · rintro ⟨x, hx⟩
      have := hx.unique h
      simp only [Prod.mk.injEq] at this
      exact ⟨d', this.1 ▸ h'⟩
    · rintro ⟨x, hx⟩
      have := hx.unique h'
      simp only [Prod.mk.injEq] at this
      exact ⟨d, this.1 ▸ h⟩
    · exact (h.not_panics hp).elim
    · exact (h'.not_panics hp).elim
  | cons r l =>
    obtain ⟨x, h1, -⟩ := Gives.uncons he
    have := h1.unique h
    simp at this

/-- `c` gives `j` times Amplify, then Uncover. -/
theorem same_uncover (j : Nat) (hj : j + 3 ≤ cfg.bits) : ∀ c c1 d : Clog,
    Gives cfg c (List.replicate j .Amplify) c1 →
    Returns (fun f => Clog.egest cfg f c1) (some .Uncover, d) →
    SameAnswers cfg c (Homographic.box ⟨d, ⟨0, 1, 2 ^ j, 2 ^ j⟩⟩) := by
  have unfold_ : ∀ (f : Nat) (h : Homographic), Clog.egest cfg (f + 2) (Homographic.box h) = (do
      let t ← Strategy.egest cfg (Clog.egest cfg (f + 1)) (f + 1) (Homographic.box h)
      match t with
      | (.ok reduction, s) => pure (reduction, s)
      | (.err newStrategy, _) => Clog.egest cfg (f + 1) newStrategy) := fun _ _ => rfl
  induction j with
  | zero =>
    intro c c1 d h hd
    rw [Gives.nil_eq h] at hd
    refine SameAnswers.cons hd (d' := Homographic.box ⟨d, ⟨1, 0, 0, 1⟩⟩) ⟨2, fun f hf => ?_⟩
      (Coef4.Identity.same (.inl rfl) none d).2
    obtain ⟨f, rfl⟩ : ∃ g, f = g + 2 := ⟨f - 2, by omega⟩
    refine (unfold_ _ _).trans ?_
    simp only [Strategy.egest, Homographic.box, Homographic.egest, pow_zero, one, ok_bind, pure_eq]
  | succ j ih =>
    intro c c1 d h hd
    rw [List.replicate_succ] at h
    obtain ⟨e, h1, h2⟩ := Gives.uncons h
    refine SameAnswers.cons h1 (d' := Homographic.box ⟨d, ⟨0, 1, 2 ^ j, 2 ^ j⟩⟩)
      ⟨2, fun f hf => ?_⟩ (ih (by omega) e c1 d h2 hd)
    obtain ⟨f, rfl⟩ : ∃ g, f = g + 2 := ⟨f - 2, by omega⟩
    refine (unfold_ _ _).trans ?_
    obtain ⟨p1, -⟩ := pow_fits (cfg := cfg) (j := j) (by omega)
    obtain ⟨-, p2⟩ := pow_fits (cfg := cfg) (j := j + 2) (by omega)
    rw [pow_add] at p2
    simp only [Strategy.egest, Homographic.box, Homographic.egest, pow_succ,
      scaled (cfg := cfg) p1 (by omega), ok_bind, pure_eq]

/-- `c` gives `j` times Amplify, then ends. -/
theorem same_end (j : Nat) : ∀ c c1 d : Clog, Gives cfg c (List.replicate j .Amplify) c1 →
    Returns (fun f => Clog.egest cfg f c1) (none, d) →
    SameAnswers cfg c (.ratio ⟨1, 2 ^ (j + 1)⟩) := by
  induction j with
  | zero =>
    intro c c1 d h hd
    rw [Gives.nil_eq h] at hd
    refine ended hd (d' := .ratio ⟨1, 2⟩) ⟨1, fun f hf => ?_⟩
    obtain ⟨f, rfl⟩ : ∃ g, f = g + 1 := ⟨f - 1, by omega⟩
    show Clog.egest cfg (f + 1) (.ratio ⟨1, 2⟩) = _
    rw [Clog.egest_ratio, ratio_half_egest]
    rfl
  | succ j ih =>
    intro c c1 d h hd
    rw [List.replicate_succ] at h
    obtain ⟨e, h1, h2⟩ := Gives.uncons h
    refine SameAnswers.cons h1 (d' := .ratio ⟨1, 2 ^ (j + 1)⟩) ⟨1, fun f hf => ?_⟩
      (ih e c1 d h2 hd)
    obtain ⟨f, rfl⟩ : ∃ g, f = g + 1 := ⟨f - 1, by omega⟩
    show Clog.egest cfg (f + 1) (.ratio ⟨1, 2 ^ (j + 1 + 1)⟩) = _
    have hp : 1 ≤ 2 ^ j := Nat.one_le_two_pow
    have e1 : 2 ^ (j + 1 + 1) / 2 = 2 ^ (j + 1) := by rw [pow_succ _ (j + 1)]; omega
    have e2 : 2 ^ (j + 1 + 1) % 2 = 0 := by rw [pow_succ _ (j + 1)]; omega
    have e3 : ¬ 1 > 2 ^ (j + 1) := by omega
    have e4 : ¬ 1 = 2 ^ (j + 1) := by omega
    rw [Clog.egest_ratio]
    simp only [Ratio.egest, e1, e2, e3, e4, if_false, if_true, pure_eq, ok_bind]

theorem newI_ground {m : Nat} (h1 : 2 ≤ m) (h2 : (m : Int) ≤ cfg.imax) :
    Ratio.newI cfg m (-1) = .ok (none, some .Ground, some ⟨1, m⟩) := by
  have hi := cfg.imin_eq
  have hm := cfg.imax_ge
  unfold Ratio.newI
  rw [(Ratio.magnitude_exact (cfg := cfg) (z := m) ⟨by omega, h2⟩ fun _ => by omega).1,
    (Ratio.magnitude_exact (cfg := cfg) (z := -1) ⟨by omega, by omega⟩ fun _ => by omega).1]
  simp [Ratio.sameSign, Ratio.new, show m ≠ 0 by omega, show m ≠ 1 by omega, show 1 < m by omega]

/-- From the coefficients of `1/(-x)`. -/
theorem from_start {c c1 : Clog} {j : Nat} (h : Gives cfg c (List.replicate j .Amplify) c1)
    (hj : j + 2 ≤ cfg.bits) {r : Option Reduction} {d : Clog}
    (hd : Returns (fun f => Clog.egest cfg f c1) (r, d)) :
    ∃ f₀, ∀ f ≥ f₀, ∀ g ≥ f₀,
      (j + 3 ≤ cfg.bits → r = some .Uncover →
        Homographic.prime cfg (Clog.egest cfg f) g ⟨c, ⟨0, 1, -1, 0⟩⟩ =
          .ok (none, some .Ground, none, some ⟨d, ⟨0, 1, 2 ^ j, 2 ^ j⟩⟩)) ∧
      (j + 3 ≤ cfg.bits → r = none →
        Homographic.prime cfg (Clog.egest cfg f) g ⟨c, ⟨0, 1, -1, 0⟩⟩ =
          .ok (none, some .Ground, some ⟨1, 2 ^ (j + 1)⟩, none)) ∧
      (j + 2 = cfg.bits →
        Homographic.prime cfg (Clog.egest cfg f) g ⟨c, ⟨0, 1, -1, 0⟩⟩ = .panic .unwrapNone) := by
  have hm : cfg.imax = 2 ^ (cfg.bits - 1) - 1 := rfl
  have hi := cfg.imin_eq
  have f0 : cfg.Fits 0 := fits1 (by decide) (by decide)
  have f1' : cfg.Fits (-1) := fits1 (by decide) (by decide)
  obtain ⟨f₀, hw⟩ := walk j 0 c c1 (by omega) h
  obtain ⟨f₁, hd⟩ := hd
  obtain ⟨p1, p2⟩ := pow_fits (cfg := cfg) hj
  have fm : cfg.Fits ((2 : Int) ^ j) := ⟨by omega, p2⟩
  have hu := undecided p1 p2
  refine ⟨f₀ + f₁ + j + 2, fun f hf g hg => ?_⟩
  obtain ⟨g, rfl⟩ : ∃ i, g = i + 2 + j := ⟨g - 2 - j, by omega⟩
  have e := hw f (by omega) (g + 2)
  rw [pow_zero, zero_add] at e
  rw [e]
  have hd := hd f (by omega)
  have two : j + 3 ≤ cfg.bits → (2 : Int) ^ j + 2 ^ j ≤ cfg.imax := by
    intro h3
    have := (pow_fits (cfg := cfg) (j := j + 1) (by omega)).2
    rw [pow_succ] at this
    omega
  refine ⟨fun h3 hr => ?_, fun h3 hr => ?_, fun h3 => ?_⟩
  · subst hr
    have hd2 := decided p1 (two h3)
    simp [Homographic.prime, hu, Homographic.primeIngest, hd, Coef4.ingestUncover, Cfg.cadd,
      Cfg.checked, fm, f1', hd2]
  · subst hr
    have fd : cfg.Fits ((2 : Int) ^ j * 2) := by
      have := two h3
      exact ⟨by omega, by omega⟩
    have ev : (⟨0, 2 ^ j, -1, 0⟩ : Coef4).valueAtOneHalf cfg = .ok (((2 ^ (j + 1) : Nat) : Int), -1) := by
      simp [Coef4.valueAtOneHalf, isOdd, Cfg.cmul, Cfg.cadd, Cfg.checked, fd, f0, f1', pow_succ]
    have en := newI_ground (cfg := cfg) (m := 2 ^ (j + 1))
      (by have := Nat.one_le_two_pow (n := j); rw [pow_succ]; omega)
      (by have := two h3; push_cast; rw [pow_succ]; omega)
    simp only [Homographic.prime, hu, Homographic.primeIngest, hd, ok_bind, ev, en, pure_eq]
  · have big : cfg.imax + 1 = (2 : Int) ^ j * 2 := by
      rw [hm, ← h3, show j + 2 - 1 = j + 1 by omega, pow_succ]
      omega
    have nf : ¬ cfg.Fits ((2 : Int) ^ j * 2) := by
      rintro ⟨-, _⟩
      omega
    have nf' : ¬ cfg.Fits ((2 : Int) ^ j + 2 ^ j) := by
      rintro ⟨-, _⟩
      omega
    have hs : ((2 : Int) ^ j).sign = 1 := Int.sign_eq_one_of_pos (by omega)
    rcases r with _ | _ | _
    · simp [Homographic.prime, hu, Homographic.primeIngest, hd, Coef4.valueAtOneHalf, isOdd, Cfg.cmul,
        Cfg.checked, nf]
    · simp [Homographic.prime, hu, Homographic.primeIngest, hd, Coef4.ingestAmplify, isOdd, Cfg.cmul,
        Cfg.checked, nf]
    · have hu' : (⟨2 ^ j, 2 ^ j, 0, -1⟩ : Coef4).primerAttempt cfg = .panic .unwrapNone := by
        simp [Coef4.primerAttempt, Coef4.areSingularitiesOutsideDomain, Coef4.isZeroOutsideDomain,
          Coef4.isDomainAmenable, Out.and, Cfg.cadd, Cfg.checked, hs, nf']
      simp [Homographic.prime, hu, hu', Homographic.primeIngest, hd, Coef4.ingestUncover, Cfg.cadd,
        Cfg.checked, fm, f1']

/-- A clog of a small value begins with Amplify, and what is left has a value. -/
theorem after (m : Nat) : ∀ (c : Clog) (v : ℚ), Clog.Denotes cfg NoPanic c v → v < 1 / 2 ^ m →
    ∃ c', Gives cfg c (List.replicate m .Amplify) c' ∧ Clog.Denotes cfg NoPanic c' (v * 2 ^ m) := by
  induction m with
  | zero => exact fun c _ h _ => ⟨c, Gives.nil c, by simpa using h⟩
  | succ m ih =>
    intro c v h hv
    have h2 : (2 : ℚ) * v < 1 / 2 ^ m := by
      rw [pow_succ, lt_div_iff₀ (by positivity)] at hv
      rw [lt_div_iff₀ (by positivity)]
      linarith
    have h1 : (1 : ℚ) / 2 ^ m ≤ 1 := by
      rw [div_le_one (by positivity)]
      exact one_le_pow₀ (by norm_num)
    obtain ⟨d, f₀, e, hd⟩ := h.step_returns
    rw [sym_lt (by linarith)] at e
    rw [next_lt (by linarith)] at hd
    obtain ⟨c', hc', hv'⟩ := ih d _ hd h2
    exact ⟨c', Gives.cons ⟨f₀, e⟩ hc', by
      rw [pow_succ, show v * (2 ^ m * 2) = 2 * v * 2 ^ m by ring]; exact hv'⟩

/-- Both calls are `prime` with these coefficients. -/
theorem both_calls (c : Clog) (f : Nat) :
    Op.quotient.run cfg f (.Other (some .Turn) c) (.Special .NegOne) =
      Number.homographic cfg f (.Other none c) 0 1 (-1) 0 ∧
    Op.quotient.run cfg f (.Special .PosOne) (.Other (some .Reflect) c) =
      Number.homographic cfg f (.Other none c) 0 1 (-1) 0 := by
  have f1' : cfg.Fits (-1) := fits1 (by decide) (by decide)
  have f0 : cfg.Fits 0 := fits1 (by decide) (by decide)
  constructor
  · refine (second (cfg := cfg) .NegOne (some .Turn) c 0 1 0 0 0 0 1 0
      (by intro c hc; simp at hc; omega) f).trans ?_
    simp [substitute, Number.homographic, Homographic.new, Homographic.absorbPrimer]
  · refine (first (cfg := cfg) .PosOne (.Other (some .Reflect) c) 0 1 0 0 0 0 1 0
      (by intro c hc; simp at hc; omega) f).trans ?_
    simp [substitute, Number.homographic, Homographic.new, Homographic.absorbPrimer, Cfg.neg,
      Cfg.unchecked, f0, f1']

end Neutral

/-- Let the clog begin with exactly `j` times Amplify.  If `j` is at most `bits - 3`, then `x / -1` for
`x > 1`, and `1 / x` for `-1 < x < 0`, give the answers of the opposite and of the reciprocal.  If the
clog begins with `bits - 2` times Amplify, whatever follows, they panic. -/
theorem C92_exact (cfg : Cfg) (c c1 d : Clog) (j : Nat) (r : Option Reduction)
    (h : Gives cfg c (List.replicate j .Amplify) c1)
    (hd : Returns (fun f => Clog.egest cfg f c1) (r, d)) :
    (j + 3 ≤ cfg.bits → r ≠ some .Amplify →
      Like cfg (fun f => Op.quotient.run cfg f (.Other (some .Turn) c) (.Special .NegOne))
        (.Other (some .Ground) c) ∧
      Like cfg (fun f => Op.quotient.run cfg f (.Special .PosOne) (.Other (some .Reflect) c))
        (.Other (some .Ground) c)) ∧
    (j + 2 = cfg.bits →
      Panics (fun f => Op.quotient.run cfg f (.Other (some .Turn) c) (.Special .NegOne)) .unwrapNone ∧
      Panics (fun f => Op.quotient.run cfg f (.Special .PosOne) (.Other (some .Reflect) c))
        .unwrapNone) := by
  simp only [(both_calls _ _).1, (both_calls _ _).2, and_self]
  constructor
  · intro hj hr
    obtain ⟨f₀, H⟩ := from_start h (by omega) hd
    rcases r with _ | _ | _
    · refine ⟨.Other (some .Ground) (.ratio ⟨1, 2 ^ (j + 1)⟩), ⟨f₀, fun f hf => ?_⟩, rfl,
        same_end j c c1 d h hd⟩
      simp [Number.homographic, Homographic.new, Homographic.absorbPrimer,
        (H f hf f hf).2.1 hj rfl]
    · exact absurd rfl hr
    · refine ⟨.Other (some .Ground) (Homographic.box ⟨d, ⟨0, 1, 2 ^ j, 2 ^ j⟩⟩),
        ⟨f₀, fun f hf => ?_⟩, rfl, same_uncover j hj c c1 d h hd⟩
      simp [Number.homographic, Homographic.new, Homographic.absorbPrimer,
        (H f hf f hf).1 hj rfl]
  · intro hj
    obtain ⟨f₀, H⟩ := from_start h (by omega) hd
    refine ⟨f₀, fun f hf => ?_⟩
    simp [Number.homographic, Homographic.new, Homographic.absorbPrimer, (H f hf f hf).2.2 hj]

/-- The same for numbers of known value: `q / -1` for `q > 1` is `-q` up to `q = 2^(bits-2)`, and
panics beyond; `1 / q` for `-1 < q < 0` is right up to `q = -1/2^(bits-2)`, and panics nearer to zero. -/
theorem C92_exact_value (cfg : Cfg) (x : Number) (q : ℚ) (hx : Number.Denotes cfg NoPanic x q) :
    (1 < q → q ≤ 2 ^ (cfg.bits - 2) → ∃ y, Number.Denotes cfg NoPanic y (-q) ∧
      Like cfg (fun f => Op.quotient.run cfg f x (.Special .NegOne)) y) ∧
    (2 ^ (cfg.bits - 2) < q →
      Panics (fun f => Op.quotient.run cfg f x (.Special .NegOne)) .unwrapNone) ∧
    (-1 < q → q ≤ -(1 / 2 ^ (cfg.bits - 2)) → ∃ y, Number.Denotes cfg NoPanic y (1 / q) ∧
      Like cfg (fun f => Op.quotient.run cfg f (.Special .PosOne) x) y) ∧
    (-(1 / 2 ^ (cfg.bits - 2)) < q → q < 0 →
      Panics (fun f => Op.quotient.run cfg f (.Special .PosOne) x) .unwrapNone) := by
  have hb := cfg.hbits
  have hp : (1 : ℚ) ≤ 2 ^ (cfg.bits - 2) := one_le_pow₀ (by norm_num)
  have hp' : (1 : ℚ) / 2 ^ (cfg.bits - 2) ≤ 1 := (div_le_one (by positivity)).2 hp
  have hp0 : (0 : ℚ) < 1 / 2 ^ (cfg.bits - 2) := by positivity
  cases x with
  | Special s =>
    have e : q = specialValue s := hx
    subst e
    refine ⟨fun h => ?_, fun h => ?_, fun h h' => ?_, fun h h' => ?_⟩ <;>
      cases s <;> simp only [specialValue] at h <;>
      first | linarith | (simp only [specialValue] at h'; linarith)
  | Other p c =>
    obtain ⟨v, hv, rfl⟩ := hx
    have v0 := hv.1
    have v1 := hv.2.1
    have i1 : 1 < 1 / v := by rwa [lt_div_iff₀ v0, one_mul]
    have good : 1 / 2 ^ (cfg.bits - 2) ≤ v →
        Like cfg (fun f => Op.quotient.run cfg f (.Other (some .Turn) c) (.Special .NegOne))
          (.Other (some .Ground) c) ∧
        Like cfg (fun f => Op.quotient.run cfg f (.Special .PosOne) (.Other (some .Reflect) c))
          (.Other (some .Ground) c) := by
      intro h
      obtain ⟨j, hj, h⟩ := hv.begins (cfg.bits - 3)
        (by rwa [show cfg.bits - 3 + 1 = cfg.bits - 2 by omega])
      rcases h with ⟨c1, h⟩ | ⟨c1, c2, h, h'⟩
      · obtain ⟨c0, h1, h2⟩ := Clarith.Gives.split h
        obtain ⟨c2, h2, -⟩ := Gives.uncons h2
        exact (C92_exact cfg c c0 c2 j _ h1 h2).1 (by omega) (by simp)
      · exact (C92_exact cfg c c1 c2 j _ h h').1 (by omega) (by simp)
    have bad : v < 1 / 2 ^ (cfg.bits - 2) →
        Panics (fun f => Op.quotient.run cfg f (.Other (some .Turn) c) (.Special .NegOne)) .unwrapNone ∧
        Panics (fun f => Op.quotient.run cfg f (.Special .PosOne) (.Other (some .Reflect) c))
          .unwrapNone := by
      intro h
      obtain ⟨c1, h1, h2⟩ := after (cfg.bits - 2) c v hv h
      obtain ⟨d, f₀, e, -⟩ := h2.step_returns
      exact (C92_exact cfg c c1 d _ _ h1 ⟨f₀, e⟩).2 (by omega)
    have turn : (1 : ℚ) / v ≤ 2 ^ (cfg.bits - 2) → 1 / 2 ^ (cfg.bits - 2) ≤ v := fun h => by
      rw [div_le_iff₀ v0] at h
      rw [div_le_iff₀ (by positivity)]
      linarith
    have turn' : 2 ^ (cfg.bits - 2) < (1 : ℚ) / v → v < 1 / 2 ^ (cfg.bits - 2) := fun h => by
      rw [lt_div_iff₀ v0] at h
      rw [lt_div_iff₀ (by positivity)]
      linarith
    refine ⟨fun h h' => ?_, fun h => ?_, fun h h' => ?_, fun h h' => ?_⟩
    · rcases p with _ | _ | _ | _ <;> simp only [applyPrimer] at h h'
      · linarith
      · exact ⟨.Other (some .Ground) c, ⟨v, hv, by simp only [applyPrimer]⟩, (good (turn h')).1⟩
      · linarith
      · linarith
    · rcases p with _ | _ | _ | _ <;> simp only [applyPrimer] at h
      · linarith
      · exact (bad (turn' h)).1
      · linarith
      · linarith
    · rcases p with _ | _ | _ | _ <;> simp only [applyPrimer] at h h'
      · linarith
      · linarith
      · exact ⟨.Other (some .Ground) c, ⟨v, hv, by simp only [applyPrimer]; field_simp⟩,
          (good (by linarith)).2⟩
      · linarith
    · rcases p with _ | _ | _ | _ <;> simp only [applyPrimer] at h h'
      · linarith
      · linarith
      · exact (bad (by linarith)).2
      · linarith

/-! ## The same with the other sign

`x / -1` for `x < -1` and `-1 / x` for `-1 < x < 0` begin with the coefficients of `(-1)/(-x)`. -/

namespace Neutral

theorem undecided' {m : Int} (h1 : 1 ≤ m) (h2 : m ≤ cfg.imax) :
    (⟨0, -m, -1, 0⟩ : Coef4).primerAttempt cfg = .ok none := by
  have hi := cfg.imin_eq
  have f0 : cfg.Fits 0 := fits1 (by decide) (by decide)
  have f1 : cfg.Fits 1 := fits1 (by decide) (by decide)
  have f1' : cfg.Fits (-1) := fits1 (by decide) (by decide)
  have fm : cfg.Fits m := ⟨by omega, h2⟩
  have fm' : cfg.Fits (-m) := ⟨by omega, by omega⟩
  have hs : m.sign = 1 := Int.sign_eq_one_of_pos (by omega)
  have hm : m ≠ 0 := by omega
  have hl0 : 0 < m := by omega
  have hl2 : -1 < m := by omega
  simp [Coef4.primerAttempt, Coef4.areSingularitiesOutsideDomain, Coef4.isZeroOutsideDomain,
    Out.and, Out.not, Coef4.isPoleOutsideDomain, Coef4.isDomainAmenable, Coef4.primerEgest,
    Coef4.imageExtremes, Coef4.valueAtZero, Coef4.valueAtOne, Support.updatedRange,
    Support.normalise, Support.lessThan, Support.greaterThan, Support.compareReduce,
    Support.areSame, Support.isSpecial, Support.equalToZero, Support.equalToOne,
    Support.equalToMinusOne, Support.greaterThanMinusOne, Support.lessThanMinusOne,
    Support.lessThanOne, Support.greaterThanZero, Support.lessThanZero, Cfg.cadd, Cfg.cmul, Cfg.mul,
    Cfg.neg, Cfg.checked, Cfg.unchecked, f0, f1, f1', fm, fm', hs, hm, hl0, hl2]

theorem walk' (i : Nat) : ∀ (j : Nat) (c c1 : Clog), j + i + 2 ≤ cfg.bits →
    Gives cfg c (List.replicate i .Amplify) c1 → ∃ f₀, ∀ f ≥ f₀, ∀ g,
      Homographic.prime cfg (Clog.egest cfg f) (g + i) ⟨c, ⟨0, -2 ^ j, -1, 0⟩⟩ =
        Homographic.prime cfg (Clog.egest cfg f) g ⟨c1, ⟨0, -2 ^ (j + i), -1, 0⟩⟩ := by
  have f0 : cfg.Fits 0 := fits1 (by decide) (by decide)
  have hi := cfg.imin_eq
  induction i with
  | zero =>
    intro j c c1 _ h
    exact ⟨0, fun f _ g => by rw [Gives.nil_eq h]; rfl⟩
  | succ i ih =>
    intro j c c1 hj h
    obtain ⟨d, ⟨f₀, hd⟩, hd'⟩ := Gives.uncons h
    obtain ⟨h1, h2⟩ := pow_fits (cfg := cfg) (j := j) (by omega)
    obtain ⟨h3, h4⟩ := pow_fits (cfg := cfg) (j := j + 1) (by omega)
    obtain ⟨f₁, h⟩ := ih (j + 1) d c1 (by omega) hd'
    have nf : cfg.Fits (-((2 : Int) ^ j * 2)) := by
      rw [← pow_succ]
      exact ⟨by omega, by omega⟩
    refine ⟨f₀ + f₁ + 1, fun f hf g => ?_⟩
    rw [show j + (i + 1) = j + 1 + i by omega, ← h f (by omega) g]
    show Homographic.prime cfg (Clog.egest cfg f) (g + i + 1) _ = _
    simp [Homographic.prime, undecided' h1 h2, Homographic.primeIngest, hd f (by omega),
      Coef4.ingestAmplify, isOdd, Cfg.cmul, Cfg.checked, nf, f0, pow_succ]

theorem decided' {m : Int} (h1 : 1 ≤ m) (h2 : m + m ≤ cfg.imax) :
    (⟨-m, -m, 0, -1⟩ : Coef4).primerAttempt cfg = .ok (some (some .Turn, ⟨0, -1, -m, -m⟩)) := by
  have hi := cfg.imin_eq
  have f1 : cfg.Fits 1 := fits1 (by decide) (by decide)
  have f1' : cfg.Fits (-1) := fits1 (by decide) (by decide)
  have fm : cfg.Fits m := ⟨by omega, by omega⟩
  have fd : cfg.Fits (m + m) := ⟨by omega, by omega⟩
  have fd' : cfg.Fits (-m + -m) := ⟨by omega, by omega⟩
  have hs : m.sign = 1 := Int.sign_eq_one_of_pos (by omega)
  have hs' : (-m + -m).sign = -1 := Int.sign_eq_neg_one_of_neg (by omega)
  have hm : m ≠ 0 := by omega
  have hd : -m + -m ≠ 0 := by omega
  have a1 : ¬ m + m < m := by omega
  have a2 : m < m + m := by omega
  have a3 : ¬ m < 1 := by omega
  have a4 : -1 < m + m := by omega
  have a5 : ¬ m = m + m := by omega
  have a6 : 0 < m := by omega
  simp [Coef4.primerAttempt, Coef4.areSingularitiesOutsideDomain, Coef4.isZeroOutsideDomain,
    Out.and, Out.not, Coef4.isPoleOutsideDomain, Coef4.isDomainAmenable, Coef4.primerEgest,
    Coef4.imageExtremes, Coef4.valueAtZero, Coef4.valueAtOne, Support.updatedRange,
    Support.normalise, Support.lessThan, Support.greaterThan, Support.compareReduce,
    Support.areSame, Support.isSpecial, Support.equalToZero, Support.equalToOne,
    Support.equalToMinusOne, Support.greaterThanMinusOne, Support.lessThanMinusOne,
    Support.lessThanOne, Support.greaterThanZero, Support.lessThanZero, Cfg.cadd, Cfg.cmul, Cfg.mul,
    Cfg.neg, Cfg.checked, Cfg.unchecked, Coef4.turn, f1, f1', fm, fd, fd', hs, hs', hm, hd,
    a1, a2, a3, a4, a5, a6]

theorem scaled' {m : Int} (h1 : 1 ≤ m) (h2 : 4 * m ≤ cfg.imax) :
    (⟨0, -1, -(m * 2), -(m * 2)⟩ : Coef4).reductionAttempt cfg =
      .ok (some (some .Amplify, ⟨0, -1, -m, -m⟩)) := by
  have hi := cfg.imin_eq
  have f1 : cfg.Fits 1 := fits1 (by decide) (by decide)
  have f1' : cfg.Fits (-1) := fits1 (by decide) (by decide)
  have fm : cfg.Fits (m * 2) := ⟨by omega, by omega⟩
  have fd : cfg.Fits (m * 2 + m * 2) := ⟨by omega, by omega⟩
  have fd' : cfg.Fits (-(m * 2) + -(m * 2)) := ⟨by omega, by omega⟩
  have hs : (m * 2).sign = 1 := Int.sign_eq_one_of_pos (by omega)
  have hs' : (-(m * 2) + -(m * 2)).sign = -1 := Int.sign_eq_neg_one_of_neg (by omega)
  have hm : m ≠ 0 := by omega
  have a1 : 0 < m * 2 := by omega
  have a2 : -(m * 2) + -(m * 2) < 0 := by omega
  have a3 : m * 2 < m * 2 + m * 2 := by omega
  have a5 : ¬ m * 2 < 1 := by omega
  have a6 : ¬ m < 1 := by omega
  have a7 : 0 < m := by omega
  have a8 : -(m * 2) + -(m * 2) ≠ 0 := by omega
  have e1 : half (m * 2) = m := Int.mul_tdiv_cancel m (by decide)
  have e1' : half (-(m * 2)) = -m := by
    rw [← neg_mul]
    exact Int.mul_tdiv_cancel _ (by decide)
  have e2 : half (m * 2 + m * 2) = m * 2 := by
    rw [← mul_two (m * 2)]
    exact Int.mul_tdiv_cancel _ (by decide)
  have e3 : (m * 2).tmod 2 = 0 := Int.mul_tmod_left m 2
  have e3' : (-(m * 2)).tmod 2 = 0 := by
    rw [← neg_mul]
    exact Int.mul_tmod_left _ 2
  have e4 : (m * 2 + m * 2).tmod 2 = 0 := by
    rw [← mul_two (m * 2)]
    exact Int.mul_tmod_left _ 2
  have e5 : (1 : Int) ≠ m * 2 := by omega
  simp [Coef4.reductionAttempt, Coef4.areSingularitiesOutsideDomain, Coef4.isZeroOutsideDomain,
    Coef4.isPoleOutsideDomain, Coef4.isDomainAmenable, Out.and, Cfg.cadd, Cfg.checked, f1, f1', fm,
    fd, fd', Cfg.mul, Cfg.unchecked,
    Coef4.reductionEgest, Coef4.imageExtremes, Coef4.valueAtZero, Coef4.valueAtOne,
    Support.updatedRange, Support.normalise, Support.lessThan, Support.greaterThan,
    Support.compareReduce, Cfg.cmul, Support.lessThanZero, Support.greaterThanOne,
    Support.equalToOneHalf, Support.doubled, Support.greaterThanOneHalf, Coef4.amplify, isOdd,
    hs, hs', hm, a1, a2, a3, a5, a6, a7, a8, e1, e1', e2, e3, e3', e4, e5]

theorem one' : (⟨0, -1, -1, -1⟩ : Coef4).reductionAttempt cfg =
    .ok (some (some .Uncover, ⟨-1, 0, 0, -1⟩)) :=
  Coef4.reductionAttempt_ok (by decide)

theorem same_uncover' (j : Nat) (hj : j + 3 ≤ cfg.bits) : ∀ c c1 d : Clog,
    Gives cfg c (List.replicate j .Amplify) c1 →
    Returns (fun f => Clog.egest cfg f c1) (some .Uncover, d) →
    SameAnswers cfg c (Homographic.box ⟨d, ⟨0, -1, -2 ^ j, -2 ^ j⟩⟩) := by
  have unfold_ : ∀ (f : Nat) (h : Homographic), Clog.egest cfg (f + 2) (Homographic.box h) = (do
      let t ← Strategy.egest cfg (Clog.egest cfg (f + 1)) (f + 1) (Homographic.box h)
      match t with
      | (.ok reduction, s) => pure (reduction, s)
      | (.err newStrategy, _) => Clog.egest cfg (f + 1) newStrategy) := fun _ _ => rfl
  induction j with
  | zero =>
    intro c c1 d h hd
    rw [Gives.nil_eq h] at hd
    refine SameAnswers.cons hd (d' := Homographic.box ⟨d, ⟨-1, 0, 0, -1⟩⟩) ⟨2, fun f hf => ?_⟩
      (Coef4.Identity.same (.inr rfl) none d).2
    obtain ⟨f, rfl⟩ : ∃ g, f = g + 2 := ⟨f - 2, by omega⟩
    refine (unfold_ _ _).trans ?_
    simp only [Strategy.egest, Homographic.box, Homographic.egest, pow_zero, one', ok_bind, pure_eq]
  | succ j ih =>
    intro c c1 d h hd
    rw [List.replicate_succ] at h
    obtain ⟨e, h1, h2⟩ := Gives.uncons h
    refine SameAnswers.cons h1 (d' := Homographic.box ⟨d, ⟨0, -1, -2 ^ j, -2 ^ j⟩⟩)
      ⟨2, fun f hf => ?_⟩ (ih (by omega) e c1 d h2 hd)
    obtain ⟨f, rfl⟩ : ∃ g, f = g + 2 := ⟨f - 2, by omega⟩
    refine (unfold_ _ _).trans ?_
    obtain ⟨p1, -⟩ := pow_fits (cfg := cfg) (j := j) (by omega)
    obtain ⟨-, p2⟩ := pow_fits (cfg := cfg) (j := j + 2) (by omega)
    rw [pow_add] at p2
    simp only [Strategy.egest, Homographic.box, Homographic.egest, pow_succ,
      scaled' (cfg := cfg) p1 (by omega), ok_bind, pure_eq]

theorem newI_turn {m : Nat} (h1 : 2 ≤ m) (h2 : (m : Int) ≤ cfg.imax) :
    Ratio.newI cfg (-m) (-1) = .ok (none, some .Turn, some ⟨1, m⟩) := by
  have hi := cfg.imin_eq
  have hm := cfg.imax_ge
  unfold Ratio.newI
  rw [(Ratio.magnitude_exact (cfg := cfg) (z := -m) ⟨by omega, by omega⟩ fun _ => by omega).1,
    (Ratio.magnitude_exact (cfg := cfg) (z := -1) ⟨by omega, by omega⟩ fun _ => by omega).1]
  simp [Ratio.sameSign, Ratio.new, show m ≠ 0 by omega, show m ≠ 1 by omega, show 1 < m by omega,
    show 0 < m by omega]

theorem both_calls' (c : Clog) (f : Nat) :
    Op.quotient.run cfg f (.Other (some .Ground) c) (.Special .NegOne) =
      Number.homographic cfg f (.Other none c) 0 (-1) (-1) 0 ∧
    Op.quotient.run cfg f (.Special .NegOne) (.Other (some .Reflect) c) =
      Number.homographic cfg f (.Other none c) 0 (-1) (-1) 0 := by
  have f1' : cfg.Fits (-1) := fits1 (by decide) (by decide)
  have f0 : cfg.Fits 0 := fits1 (by decide) (by decide)
  constructor
  · refine (second (cfg := cfg) .NegOne (some .Ground) c 0 1 0 0 0 0 1 0
      (by intro c hc; simp at hc; omega) f).trans ?_
    simp [substitute, Number.homographic, Homographic.new, Homographic.absorbPrimer, Cfg.neg,
      Cfg.unchecked, f0, f1']
  · refine (first (cfg := cfg) .NegOne (.Other (some .Reflect) c) 0 1 0 0 0 0 1 0
      (by intro c hc; simp at hc; omega) f).trans ?_
    simp [substitute, Number.homographic, Homographic.new, Homographic.absorbPrimer, Cfg.neg,
      Cfg.unchecked, f0, f1']

end Neutral

/-- The two quotients of negative numbers that are not immediate: `x / -1` for `x < -1`, and `-1 / x`
for `-1 < x < 0`. -/
theorem C92_exact_negative (cfg : Cfg) (c c1 d : Clog) (j : Nat) (r : Option Reduction)
    (h : Gives cfg c (List.replicate j .Amplify) c1)
    (hd : Returns (fun f => Clog.egest cfg f c1) (r, d)) (hj : j + 3 ≤ cfg.bits)
    (hr : r ≠ some .Amplify) :
    Like cfg (fun f => Op.quotient.run cfg f (.Other (some .Ground) c) (.Special .NegOne))
      (.Other (some .Turn) c) ∧
    Like cfg (fun f => Op.quotient.run cfg f (.Special .NegOne) (.Other (some .Reflect) c))
      (.Other (some .Turn) c) := by
  simp only [(both_calls' _ _).1, (both_calls' _ _).2, and_self]
  have hi := cfg.imin_eq
  have f0 : cfg.Fits 0 := fits1 (by decide) (by decide)
  have f1' : cfg.Fits (-1) := fits1 (by decide) (by decide)
  obtain ⟨f₀, hw⟩ := walk' j 0 c c1 (by omega) h
  have hd0 := hd
  obtain ⟨f₁, hd⟩ := hd
  obtain ⟨p1, p2⟩ := pow_fits (cfg := cfg) (j := j) (by omega)
  have fm : cfg.Fits (-(2 : Int) ^ j) := ⟨by omega, by omega⟩
  have hu := undecided' p1 p2
  have two : (2 : Int) ^ j + 2 ^ j ≤ cfg.imax := by
    have := (pow_fits (cfg := cfg) (j := j + 1) (by omega)).2
    rw [pow_succ] at this
    omega
  have key : ∀ f ≥ f₀ + f₁ + j + 2, ∃ g,
      Homographic.prime cfg (Clog.egest cfg f) f ⟨c, ⟨0, -1, -1, 0⟩⟩ =
        Homographic.prime cfg (Clog.egest cfg f) (g + 2) ⟨c1, ⟨0, -2 ^ j, -1, 0⟩⟩ ∧
      Clog.egest cfg f c1 = .ok (r, d) := by
    intro f hf
    refine ⟨f - 2 - j, ?_, hd f (by omega)⟩
    have e := hw f (by omega) (f - 2 - j + 2)
    rw [pow_zero, zero_add, show f - 2 - j + 2 + j = f by omega] at e
    exact e
  rcases r with _ | _ | _
  · refine ⟨.Other (some .Turn) (.ratio ⟨1, 2 ^ (j + 1)⟩), ⟨f₀ + f₁ + j + 2, fun f hf => ?_⟩, rfl,
      same_end j c c1 d h hd0⟩
    obtain ⟨g, e, e'⟩ := key f hf
    have fd : cfg.Fits (-((2 : Int) ^ j * 2)) := ⟨by omega, by omega⟩
    have ev : (⟨0, -2 ^ j, -1, 0⟩ : Coef4).valueAtOneHalf cfg =
        .ok (-((2 ^ (j + 1) : Nat) : Int), -1) := by
      simp [Coef4.valueAtOneHalf, isOdd, Cfg.cmul, Cfg.cadd, Cfg.checked, fd, f0, f1', pow_succ]
    have en := newI_turn (cfg := cfg) (m := 2 ^ (j + 1))
      (by have := Nat.one_le_two_pow (n := j); rw [pow_succ]; omega)
      (by push_cast; rw [pow_succ]; omega)
    have e2 : Homographic.prime cfg (Clog.egest cfg f) f ⟨c, ⟨0, -1, -1, 0⟩⟩ =
        .ok (none, some .Turn, some ⟨1, 2 ^ (j + 1)⟩, none) := by
      rw [e]
      simp only [Homographic.prime, hu, Homographic.primeIngest, e', ok_bind, ev, en, pure_eq]
    simp [Number.homographic, Homographic.new, Homographic.absorbPrimer, e2]
  · exact absurd rfl hr
  · refine ⟨.Other (some .Turn) (Homographic.box ⟨d, ⟨0, -1, -2 ^ j, -2 ^ j⟩⟩),
      ⟨f₀ + f₁ + j + 2, fun f hf => ?_⟩, rfl, same_uncover' j hj c c1 d h hd0⟩
    obtain ⟨g, e, e'⟩ := key f hf
    have hd2 := decided' p1 two
    have e2 : Homographic.prime cfg (Clog.egest cfg f) f ⟨c, ⟨0, -1, -1, 0⟩⟩ =
        .ok (none, some .Turn, none, some ⟨d, ⟨0, -1, -2 ^ j, -2 ^ j⟩⟩) := by
      rw [e]
      simp [Homographic.prime, hu, Homographic.primeIngest, e', Coef4.ingestUncover, Cfg.cadd,
        Cfg.checked, fm, f1', hd2]
    simp [Number.homographic, Homographic.new, Homographic.absorbPrimer, e2]

/-- The same for numbers of known value. -/
theorem C92_exact_negative_value (cfg : Cfg) (x : Number) (q : ℚ)
    (hx : Number.Denotes cfg NoPanic x q) :
    (q < -1 → -2 ^ (cfg.bits - 2) ≤ q → ∃ y, Number.Denotes cfg NoPanic y (-q) ∧
      Like cfg (fun f => Op.quotient.run cfg f x (.Special .NegOne)) y) ∧
    (-1 < q → q ≤ -(1 / 2 ^ (cfg.bits - 2)) → ∃ y, Number.Denotes cfg NoPanic y (-1 / q) ∧
      Like cfg (fun f => Op.quotient.run cfg f (.Special .NegOne) x) y) := by
  have hb := cfg.hbits
  have hp0 : (0 : ℚ) < 1 / 2 ^ (cfg.bits - 2) := by positivity
  cases x with
  | Special s =>
    have e : q = specialValue s := hx
    subst e
    refine ⟨fun h => ?_, fun h h' => ?_⟩ <;> cases s <;> simp only [specialValue] at h <;>
      first | linarith | (simp only [specialValue] at h'; linarith)
  | Other p c =>
    obtain ⟨v, hv, rfl⟩ := hx
    have v0 := hv.1
    have v1 := hv.2.1
    have i1 : 1 < 1 / v := by rwa [lt_div_iff₀ v0, one_mul]
    have good : 1 / 2 ^ (cfg.bits - 2) ≤ v →
        Like cfg (fun f => Op.quotient.run cfg f (.Other (some .Ground) c) (.Special .NegOne))
          (.Other (some .Turn) c) ∧
        Like cfg (fun f => Op.quotient.run cfg f (.Special .NegOne) (.Other (some .Reflect) c))
          (.Other (some .Turn) c) := by
      intro h
      obtain ⟨j, hj, h⟩ := hv.begins (cfg.bits - 3)
        (by rwa [show cfg.bits - 3 + 1 = cfg.bits - 2 by omega])
      rcases h with ⟨c1, h⟩ | ⟨c1, c2, h, h'⟩
      · obtain ⟨c0, h1, h2⟩ := Clarith.Gives.split h
        obtain ⟨c2, h2, -⟩ := Gives.uncons h2
        exact C92_exact_negative cfg c c0 c2 j _ h1 h2 (by omega) (by simp)
      · exact C92_exact_negative cfg c c1 c2 j _ h h' (by omega) (by simp)
    refine ⟨fun h h' => ?_, fun h h' => ?_⟩
    · rcases p with _ | _ | _ | _ <;> simp only [applyPrimer] at h h'
      · linarith
      · linarith
      · linarith
      · refine ⟨.Other (some .Turn) c, ⟨v, hv, by simp only [applyPrimer]; ring⟩, (good ?_).1⟩
        have h2 : 1 / v ≤ 2 ^ (cfg.bits - 2) := by
          have e : (-1 : ℚ) / v = -(1 / v) := by ring
          linarith
        rw [div_le_iff₀ v0] at h2
        rw [div_le_iff₀ (by positivity)]
        linarith
    · rcases p with _ | _ | _ | _ <;> simp only [applyPrimer] at h h'
      · linarith
      · linarith
      · exact ⟨.Other (some .Turn) c, ⟨v, hv, by simp only [applyPrimer]; field_simp⟩,
          (good (by linarith)).2⟩
      · linarith

/-- -1 divided by -3/8. -/
example : ∃ y, Number.Denotes release64 NoPanic y (-1 / (-(3 / 8))) ∧
    Like release64 (fun f => Op.quotient.run release64 f (.Special .NegOne)
      (.Other (some .Reflect) (.ratio ⟨3, 8⟩))) y :=
  (C92_exact_negative_value release64 (.Other (some .Reflect) (.ratio ⟨3, 8⟩)) (-(3 / 8))
    ⟨3 / 8, by
      simpa [Ratio.val] using Ratio.denotes (cfg := release64) (A := NoPanic) (r := ⟨3, 8⟩)
        ⟨by decide, by decide, by decide⟩, rfl⟩).2 (by norm_num) (by norm_num [release64])

/-- 2^62 divided by -1 on a 64-bit machine: the last that works. -/
example : ∃ y, Number.Denotes debug64 NoPanic y (-4611686018427387904) ∧
    Like debug64 (fun f => Op.quotient.run debug64 f
      (.Other (some .Turn) (.ratio ⟨1, 4611686018427387904⟩)) (.Special .NegOne)) y :=
  (C92_exact_value debug64 (.Other (some .Turn) (.ratio ⟨1, 4611686018427387904⟩)) 4611686018427387904
    ⟨1 / 4611686018427387904, by
      simpa [Ratio.val] using Ratio.denotes (cfg := debug64) (A := NoPanic)
        (r := ⟨1, 4611686018427387904⟩) ⟨by decide, by decide, by decide⟩,
      by norm_num [applyPrimer]⟩).1 (by norm_num) (by norm_num [debug64])

/-- 2^62+1 divided by -1: the first that panics. -/
example : Panics (fun f => Op.quotient.run debug64 f
      (.Other (some .Turn) (.ratio ⟨1, 4611686018427387905⟩)) (.Special .NegOne)) .unwrapNone :=
  (C92_exact_value debug64 (.Other (some .Turn) (.ratio ⟨1, 4611686018427387905⟩)) 4611686018427387905
    ⟨1 / 4611686018427387905, by
      simpa [Ratio.val] using Ratio.denotes (cfg := debug64) (A := NoPanic)
        (r := ⟨1, 4611686018427387905⟩) ⟨by decide, by decide, by decide⟩,
      by norm_num [applyPrimer]⟩).2.1 (by norm_num [debug64])

/-- 8/3 divided by -1, and 1 divided by -3/8. -/
example := (C92_exact debug64 (.ratio ⟨3, 8⟩) (.ratio ⟨3, 4⟩) (.ratio ⟨1, 3⟩) 1 (some .Uncover)
  (FuelMono.returns (Clog.egests_mono _ _ _) 1 (by decide +kernel))
  (FuelMono.returns (Clog.egest_mono _ _) 1 (by decide +kernel))).1 (by decide) (by decide)

/-- -8/3 divided by -1, and -1 divided by -3/8. -/
example := C92_exact_negative debug64 (.ratio ⟨3, 8⟩) (.ratio ⟨3, 4⟩) (.ratio ⟨1, 3⟩) 1 (some .Uncover)
  (FuelMono.returns (Clog.egests_mono _ _ _) 1 (by decide +kernel))
  (FuelMono.returns (Clog.egest_mono _ _) 1 (by decide +kernel)) (by decide) (by decide)

end Clarith
