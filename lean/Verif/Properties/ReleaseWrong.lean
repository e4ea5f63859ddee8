import Verif.Properties.Limits
import Verif.Proofs.Reciprocal
import Mathlib.Algebra.Order.Field.Basic

/-! # C34 on every word size

The witnesses of C34 in `Properties/Limits.lean` are on 64 bits.  Here the same on every machine, and
the reason: without overflow checks the negation of `isize::MIN` is `isize::MIN`. -/

namespace Clarith

open Spec

variable {cfg : Cfg}

/-- Without overflow checks `-isize::MIN` is `isize::MIN`. -/
theorem Cfg.neg_imin (h : cfg.overflowChecks = false) : cfg.neg cfg.imin = .ok cfg.imin := by
  have e := cfg.imin_eq
  have e' := cfg.imax_ge
  have hb := cfg.hbits
  have p : (2 : Int) ^ cfg.bits = 2 ^ (cfg.bits - 1) * 2 := by
    rw [← pow_succ]; congr 1; omega
  have hw : cfg.wrap (-cfg.imin) = cfg.imin := by
    have : cfg.imin = -2 ^ (cfg.bits - 1) := rfl
    rw [Cfg.wrap, this, Int.neg_neg, Int.bmod_def]
    push_cast
    rw [p]
    obtain ⟨M, hM⟩ : ∃ M : Int, M = 2 ^ (cfg.bits - 1) := ⟨_, rfl⟩
    rw [← hM]
    have : 32768 ≤ M := by rw [hM]; have : cfg.imin = -2 ^ (cfg.bits - 1) := rfl; omega
    rw [Int.emod_eq_of_lt (by omega) (by omega), if_neg (by omega)]
    omega
  rw [Cfg.neg, Cfg.unchecked, if_neg (by rintro ⟨_, _⟩; omega), h, hw]
  rfl

/-- With overflow checks `-isize::MIN` panics. -/
theorem Cfg.neg_imin_panics (h : cfg.overflowChecks = true) :
    cfg.neg cfg.imin = .panic .arithOverflow := by
  have e := cfg.imin_eq
  have e' := cfg.imax_ge
  rw [Cfg.neg, Cfg.unchecked, if_neg (by rintro ⟨_, _⟩; omega), h]
  rfl

theorem Cfg.neg_fits {z : Int} (h : cfg.Fits (-z)) : cfg.neg z = .ok (-z) :=
  Cfg.unchecked_eq h

/-- In a build without overflow checks the sign of the operand is lost when its coefficient is
`isize::MIN`: `homographic(x, isize::MIN, n, 0, d)` does exactly the same for a number and for its
opposite, and so does `homographic(x, 0, n, isize::MIN, d)`. -/
theorem C34_sign_lost (cfg : Cfg) (h : cfg.overflowChecks = false) (c : Clog) (n d : Int) (f : Nat) :
    Number.homographic cfg f (.Other (some .Reflect) c) cfg.imin n 0 d =
      Number.homographic cfg f (.Other none c) cfg.imin n 0 d ∧
    Number.homographic cfg f (.Other (some .Ground) c) cfg.imin n 0 d =
      Number.homographic cfg f (.Other (some .Turn) c) cfg.imin n 0 d ∧
    Number.homographic cfg f (.Other (some .Reflect) c) 0 n cfg.imin d =
      Number.homographic cfg f (.Other none c) 0 n cfg.imin d ∧
    Number.homographic cfg f (.Other (some .Ground) c) 0 n cfg.imin d =
      Number.homographic cfg f (.Other (some .Turn) c) 0 n cfg.imin d := by
  have e := Cfg.neg_imin h
  have e0 : cfg.neg 0 = .ok 0 := Cfg.neg_fits (cfg.fits_small (by decide) (by decide))
  refine ⟨?_, ?_, ?_, ?_⟩ <;>
    simp [Number.homographic, Homographic.new, Homographic.absorbPrimer, e, e0, bind, Out.bind,
      pure]

example := C34_sign_lost release64 rfl (.ratio ⟨3, 7⟩) 5 3 100

/-- So it is wrong on one of the two at least: a result that is right for a number is returned for
its opposite too, and is wrong there. -/
theorem C34_wrong_on_the_opposite (cfg : Cfg) (h : cfg.overflowChecks = false) (c : Clog)
    (p p' : Option Primer) (hp : (p, p') = (none, some .Reflect) ∨ (p, p') = (some .Turn, some .Ground))
    (q : ℚ) (n d : Int) (hd : d ≠ 0) (hx : Number.Denotes cfg NoPanic (.Other p c) q) (r : Number)
    (hr : Returns (fun f => Number.homographic cfg f (.Other p c) cfg.imin n 0 d) r)
    (hq : Number.Denotes cfg NoPanic r ((cfg.imin * q + n) / d)) :
    Number.Denotes cfg NoPanic (.Other p' c) (-q) ∧
    Returns (fun f => Number.homographic cfg f (.Other p' c) cfg.imin n 0 d) r ∧
    ¬Number.Denotes cfg NoPanic r ((cfg.imin * -q + n) / d) := by
  have hl := C34_sign_lost cfg h c n d
  have e := cfg.imin_eq
  have e' := cfg.imax_ge
  have hd0 : (d : ℚ) ≠ 0 := by exact_mod_cast hd
  have hm : (cfg.imin : ℚ) ≠ 0 := by
    have : cfg.imin ≠ 0 := by omega
    exact_mod_cast this
  obtain ⟨v, hv, rfl⟩ := hx
  have hne : applyPrimer p v ≠ 0 := by
    have hv0 := hv.1.ne'
    rcases hp with hp | hp <;> obtain ⟨rfl, rfl⟩ := Prod.mk.inj hp <;> simp [applyPrimer, hv0]
  refine ⟨⟨v, hv, ?_⟩, ?_, fun h' => ?_⟩
  · rcases hp with hp | hp <;> obtain ⟨rfl, rfl⟩ := Prod.mk.inj hp <;> simp [applyPrimer]
  · rcases hp with hp | hp <;> obtain ⟨rfl, rfl⟩ := Prod.mk.inj hp
    · simpa only [(hl _).1] using hr
    · simpa only [(hl _).2.1] using hr
  · have := hq.value_unique h'
    rw [div_left_inj' hd0, add_left_inj, mul_right_inj' hm] at this
    exact hne (by linarith)

/-- Hypotheses met: `isize::MIN * 1/2`, which is right, and `isize::MIN * -1/2`, which is not. -/
example : ∃ r, Returns (fun f =>
      Number.homographic release64 f (.Other none (.ratio ⟨1, 2⟩)) release64.imin 0 0 1) r ∧
    Number.Denotes release64 NoPanic r ((release64.imin * (1 / 2) + (0 : Int)) / (1 : Int)) := by
  refine ⟨.Other (some .Ground) (.ratio ⟨1, 4611686018427387904⟩),
    FuelMono.returns (Number.homographic_mono release64 _ _ _ _ _) 5 (by decide +kernel),
    1 / 2 ^ 62, ?_, ?_⟩
  · have := Ratio.denotes (cfg := release64) (A := NoPanic) (r := ⟨1, 4611686018427387904⟩)
      ⟨by decide, by decide, by decide⟩
    norm_num [Ratio.val] at this ⊢
    exact this
  · have : release64.imin = -9223372036854775808 := by decide
    rw [this]; norm_num [applyPrimer]

/-- The limits of the machine as multiples of one power of two. -/
private theorem Cfg.limits (cfg : Cfg) : ∃ M : Int, M = 2 ^ (cfg.bits - 2) ∧ 16384 ≤ M ∧
    cfg.imin = -2 * M ∧ cfg.imax = 2 * M - 1 ∧ (2 : Int) ^ cfg.bits = 4 * M := by
  have hb := cfg.hbits
  have p : (2 : Int) ^ (cfg.bits - 1) = 2 ^ (cfg.bits - 2) * 2 := by
    rw [← pow_succ]; congr 1; omega
  have p' : (2 : Int) ^ cfg.bits = 2 ^ (cfg.bits - 1) * 2 := by
    rw [← pow_succ]; congr 1; omega
  have e := cfg.imin_eq
  have e' := cfg.imax_ge
  have e2 : cfg.imin = -2 ^ (cfg.bits - 1) := rfl
  exact ⟨_, rfl, by omega, by omega, by omega, by omega⟩

private theorem asUsize_eq {z : Int} (h0 : 0 ≤ z) (h : z < 2 ^ cfg.bits) :
    cfg.asUsize z = z.toNat := by
  show (z % 2 ^ cfg.bits).toNat = _
  rw [Int.emod_eq_of_lt h0 h]

/-- A positive numerator and a positive denominator. -/
private theorem magnitude_eq {z : Int} (h : cfg.imin < z) (h' : z ≤ cfg.imax) :
    Ratio.magnitude cfg z = .ok z.natAbs := by
  obtain ⟨M, -, hM, e1, e2, e3⟩ := cfg.limits
  rw [Ratio.magnitude]
  split
  · rename_i h0
    show Out.ok (cfg.asUsize z) = _
    rw [asUsize_eq (by omega) (by omega)]
    congr 1; omega
  · rw [Cfg.neg_fits ⟨by omega, by omega⟩]
    show Out.ok (cfg.asUsize (-z)) = _
    rw [asUsize_eq (by omega) (by omega)]
    congr 1; omega

private theorem ratio_half (cfg : Cfg) :
    Number.ratio cfg (-1) 2 = .ok (.Other (some .Reflect) (.ratio ⟨1, 2⟩)) := by
  obtain ⟨M, -, hM, e1, e2, e3⟩ := cfg.limits
  rw [Number.ratio, magnitude_eq (by omega) (by omega), magnitude_eq (by omega) (by omega)]
  decide

private theorem egest_half (cfg : Cfg) (f : Nat) :
    Clog.egest cfg (f + 1) (.ratio ⟨1, 2⟩) = .ok (none, .ratio ⟨1, 2⟩) := by
  have : cfg.umul 1 2 = .ok 2 := by
    have hb := cfg.hbits
    have : (2 : Nat) ^ 16 ≤ 2 ^ cfg.bits := Nat.pow_le_pow_right (by decide) hb
    rw [Cfg.umul, Cfg.uunchecked, if_pos (by rw [Cfg.umax]; omega)]
    rfl
  simp [Clog.egest, Strategy.egest, Ratio.egest, this, bind, Out.bind, pure]

private theorem checked_of {z : Int} (h1 : cfg.imin ≤ z) (h2 : z ≤ cfg.imax) :
    cfg.checked z = .ok z := Cfg.checked_eq ⟨h1, h2⟩

private theorem unchecked_of {z : Int} (h1 : cfg.imin ≤ z) (h2 : z ≤ cfg.imax) :
    cfg.unchecked z = .ok z := Cfg.unchecked_eq ⟨h1, h2⟩

open Support in
/-- No symbol can leave from `isize::MIN * v`. -/
private theorem attempt_min {M : Int} (hM : 16384 ≤ M) (e1 : cfg.imin = -2 * M)
    (e2 : cfg.imax = 2 * M - 1) : Coef4.primerAttempt cfg ⟨-2 * M, 0, 0, 1⟩ = .ok none := by
  have c : ∀ {z : Int}, -2 * M ≤ z → z ≤ 2 * M - 1 → cfg.checked z = .ok z := fun h h' =>
    checked_of (by omega) (by omega)
  have u : ∀ {z : Int}, -2 * M ≤ z → z ≤ 2 * M - 1 → cfg.unchecked z = .ok z := fun h h' =>
    unchecked_of (by omega) (by omega)
  have a1 : Coef4.areSingularitiesOutsideDomain cfg ⟨-2 * M, 0, 0, 1⟩ = .ok true := by
    simp [Coef4.areSingularitiesOutsideDomain, Coef4.isZeroOutsideDomain,
      Coef4.isPoleOutsideDomain, Coef4.isDomainAmenable, Out.and, Cfg.cadd,
      c (z := 1) (by omega) (by omega), bind, Out.bind, pure]
  have a2 : Coef4.imageExtremes cfg ⟨-2 * M, 0, 0, 1⟩ = .ok (-2 * M, 1, 0, 1) := by
    have h0 : -(2 * M) ≠ 0 := by omega
    have h1 : cfg.checked (-(2 * M)) = .ok (-(2 * M)) := c (by omega) (by omega)
    have h2 : 0 < M := by omega
    simp [Coef4.imageExtremes, Coef4.valueAtZero, Coef4.valueAtOne, updatedRange, normalise,
      lessThan, compareReduce, Cfg.cadd, Cfg.cmul, h0, h1, h2, c (z := 1) (by omega) (by omega),
      c (z := 0) (by omega) (by omega), bind, Out.bind, pure]
  have h1 : cfg.unchecked (-1) = .ok (-1) := u (by omega) (by omega)
  rw [Coef4.primerAttempt, a1]
  show Coef4.primerEgest cfg _ = _
  rw [Coef4.primerEgest, a2]
  have h2 : -2 * M < -1 := by omega
  have h3 : -2 * M < 1 := by omega
  have h4 : -2 * M < 0 := by omega
  have h5 : -2 * M ≠ 0 := by omega
  simp [-neg_mul, areSame, greaterThanMinusOne, lessThanOne, lessThanMinusOne,
    lessThanZero, greaterThanOne, Out.and, Out.not, Cfg.neg, h1, h2, h3, h4, h5,
    bind, Out.bind, pure]

/-- `C34_release_wrong` on every machine: without overflow checks `homographic(-1/2, isize::MIN, 0,
0, 1)` returns a number denoting `-2^(bits-2)` and not `2^(bits-2)`; with overflow checks it panics. -/
theorem C34_release_wrong_everywhere (cfg : Cfg) :
    ∃ x, Number.ratio cfg (-1) 2 = .ok x ∧ Number.Denotes cfg NoPanic x (-1 / 2) ∧
      (cfg.imin : ℚ) * (-1 / 2) = 2 ^ (cfg.bits - 2) ∧
      (cfg.overflowChecks = false → ∃ r,
        Returns (fun f => Number.homographic cfg f x cfg.imin 0 0 1) r ∧
        Number.Denotes cfg NoPanic r (-2 ^ (cfg.bits - 2)) ∧
        ¬Number.Denotes cfg NoPanic r (2 ^ (cfg.bits - 2))) ∧
      (cfg.overflowChecks = true →
        Panics (fun f => Number.homographic cfg f x cfg.imin 0 0 1) .arithOverflow) := by
  obtain ⟨M, eM, hM, e1, e2, e3⟩ := cfg.limits
  have hx := Ratio.denotes (cfg := cfg) (A := NoPanic) (r := ⟨1, 2⟩) ⟨by decide, by decide, by
    show 2 ≤ 2 ^ cfg.bits - 1
    have : (2 : Nat) ^ 16 ≤ 2 ^ cfg.bits := Nat.pow_le_pow_right (by decide) cfg.hbits
    omega⟩
  refine ⟨_, ratio_half cfg, ⟨_, hx, by norm_num [applyPrimer, Ratio.val]⟩, ?_, ?_, ?_⟩
  · rw [e1, eM]; push_cast; ring
  · intro h
    obtain ⟨r, er, hr⟩ := Number.ratio_denotes (cfg := cfg) (A := NoPanic) (num := -M) (den := 1)
      (by decide) ⟨by omega, by omega⟩ ⟨by omega, by omega⟩ (fun _ => by omega)
    have hr' : Number.Denotes cfg NoPanic r (-2 ^ (cfg.bits - 2)) := by
      rw [eM] at hr; push_cast at hr; simpa using hr
    refine ⟨r, FuelMono.returns (Number.homographic_mono cfg _ _ _ _ _) 1 ?_, hr', fun h' => ?_⟩
    · have m1 : Ratio.magnitude cfg (-M) = .ok M.natAbs := by
        rw [magnitude_eq (by omega) (by omega), Int.natAbs_neg]
      have m2 : Ratio.magnitude cfg 1 = .ok 1 := magnitude_eq (by omega) (by omega)
      have n0 : M.natAbs ≠ 0 := by omega
      have n1 : M.natAbs ≠ 1 := by omega
      have n2 : 1 < M.natAbs := by omega
      have hs : Ratio.sameSign (-M) 1 = false := by
        have : ¬M ≤ 0 := by omega
        simp [Ratio.sameSign, this]
      have er' : r = .Other (some .Ground) (.ratio ⟨1, M.natAbs⟩) := by
        rw [Number.ratio, m1, m2] at er
        simp [Number.ratioU, Ratio.new, hs, n0, n1, n2, bind, Out.bind, pure] at er
        exact er.symm
      have v : Coef4.valueAtOneHalf cfg ⟨-2 * M, 0, 0, 1⟩ = .ok (-M, 1) := by
        have t : (-2 * M).tmod 2 = 0 := by
          rw [show -2 * M = 2 * -M by ring]; exact Int.mul_tmod_right 2 _
        have t' : (-2 * M).tdiv 2 = -M := by
          rw [show -2 * M = 2 * -M by ring]; exact Int.mul_tdiv_cancel_left _ (by decide)
        have c1 : cfg.checked (-M) = .ok (-M) := checked_of (by omega) (by omega)
        have c2 : cfg.checked 1 = .ok 1 := checked_of (by omega) (by omega)
        simp [-neg_mul, Coef4.valueAtOneHalf, isOdd, half, t, t', Cfg.cadd, c1, c2, bind, Out.bind,
          pure]
      have a := attempt_min hM e1 e2
      have hm := Cfg.neg_imin h
      have hz : cfg.neg 0 = .ok 0 := Cfg.neg_fits ⟨by omega, by omega⟩
      rw [e1] at hm ⊢
      have h5 : -2 * M ≠ 0 := by omega
      simp [-neg_mul, Number.homographic, Homographic.new, Homographic.absorbPrimer, hm, hz, h5,
        Homographic.prime, Homographic.primeIngest, a, egest_half, v, Ratio.newI, m1, m2, Ratio.new,
        hs, n0, n1, n2, er', bind, Out.bind, pure]
    · have := hr'.value_unique h'
      have : (0 : ℚ) < 2 ^ (cfg.bits - 2) := by positivity
      linarith
  · intro h
    refine FuelMono.panics (Number.homographic_mono cfg _ _ _ _ _) 1 ?_
    simp [Number.homographic, Homographic.new, Homographic.absorbPrimer, Cfg.neg_imin_panics h, bind,
      Out.bind, show cfg.imin ≠ 0 by omega]

section Steps

open Support

private theorem norm_pos {n d : Int} (hd : 0 < d) (hn : n ≠ 0) : normalise cfg n d = .ok (n, d) := by
  have : ¬d < 0 := by omega
  have : d ≠ 0 := by omega
  simp [normalise, bind, Out.bind, pure, *]

private theorem norm_zero {d : Int} (hd : 0 < d) : normalise cfg 0 d = .ok (0, 1) := by
  have : ¬d < 0 := by omega
  simp [normalise, bind, Out.bind, pure, *]

private theorem norm_inf {n : Int} (hn : n < 0) : normalise cfg n 0 = .ok (-1, 0) := by
  simp [normalise, bind, Out.bind, pure, Int.sign_eq_neg_one_of_neg hn]

private theorem norm_neg {n d n' d' : Int} (hd : d < 0) (h1 : cfg.unchecked (-n) = .ok n')
    (h2 : cfg.unchecked (-d) = .ok d') :
    normalise cfg n d = .ok (n', if n' = 0 then 1 else d') := by
  have : d ≠ 0 := by omega
  simp [normalise, Cfg.mul, bind, Out.bind, pure, *]

private theorem range_less {n0 d0 n1 d1 m0 e0 m1 e1 : Int} (h0 : normalise cfg n0 d0 = .ok (m0, e0))
    (h1 : normalise cfg n1 d1 = .ok (m1, e1)) (a : cfg.checked (m1 * e0) = .ok (m1 * e0))
    (b : cfg.checked (m0 * e1) = .ok (m0 * e1)) (l : m1 * e0 < m0 * e1) :
    updatedRange cfg n0 d0 n0 d0 n1 d1 = .ok (m1, e1, m0, e0) := by
  simp [updatedRange, h0, h1, lessThan, compareReduce, Cfg.cmul, a, b, l, bind, Out.bind, pure]

private theorem range_greater {n0 d0 n1 d1 m0 e0 m1 e1 : Int}
    (h0 : normalise cfg n0 d0 = .ok (m0, e0))
    (h1 : normalise cfg n1 d1 = .ok (m1, e1)) (a : cfg.checked (m1 * e0) = .ok (m1 * e0))
    (b : cfg.checked (m0 * e1) = .ok (m0 * e1)) (l : m0 * e1 < m1 * e0) :
    updatedRange cfg n0 d0 n0 d0 n1 d1 = .ok (m0, e0, m1, e1) := by
  have : ¬m1 * e0 < m0 * e1 := by omega
  simp [updatedRange, h0, h1, lessThan, greaterThan, compareReduce, Cfg.cmul, a, b, l, this, bind,
    Out.bind, pure]

private theorem extremes_eq {k : Coef4} (hz : ¬(k.n = 0 ∧ k.d = 0))
    (h1 : ¬(k.n + k.nx = 0 ∧ k.d + k.dx = 0)) (c1 : cfg.checked (k.n + k.nx) = .ok (k.n + k.nx))
    (c2 : cfg.checked (k.d + k.dx) = .ok (k.d + k.dx)) :
    Coef4.imageExtremes cfg k = updatedRange cfg k.n k.d k.n k.d (k.n + k.nx) (k.d + k.dx) := by
  rw [Coef4.imageExtremes]
  simp only [Coef4.valueAtZero, Coef4.valueAtOne, Cfg.cadd, c1, c2, bind, Out.bind, pure, if_neg hz,
    if_neg h1]

/-- Both polynomials keep their sign. -/
private theorem outside_eq {k : Coef4} (c1 : cfg.checked (k.nx + k.n) = .ok (k.nx + k.n))
    (c2 : cfg.checked (k.dx + k.d) = .ok (k.dx + k.d))
    (s1 : k.n = 0 ∨ k.n.sign = (k.nx + k.n).sign) (s2 : k.d = 0 ∨ k.d.sign = (k.dx + k.d).sign) :
    Coef4.areSingularitiesOutsideDomain cfg k = .ok true := by
  have key : ∀ {a b : Int}, cfg.checked (a + b) = .ok (a + b) → (b = 0 ∨ b.sign = (a + b).sign) →
      Coef4.isDomainAmenable cfg a b = .ok true := by
    rintro a b c (rfl | h)
    · simp [Coef4.isDomainAmenable, pure]
    · rw [Coef4.isDomainAmenable]
      simp only [Cfg.cadd, c, bind, Out.bind, ← h, if_pos, pure]
      split <;> rfl
  rw [Coef4.areSingularitiesOutsideDomain, Coef4.isZeroOutsideDomain, Coef4.isPoleOutsideDomain,
    key c1 s1, key c2 s2]
  rfl

private theorem max_extremes {M : Int} (hM : 16384 ≤ M) (e1 : cfg.imin = -2 * M)
    (e2 : cfg.imax = 2 * M - 1) :
    Coef4.areSingularitiesOutsideDomain cfg ⟨2, 0, -1, -(2 * M - 1)⟩ = .ok true ∧
    (cfg.overflowChecks = false →
      Coef4.imageExtremes cfg ⟨2, 0, -1, -(2 * M - 1)⟩ = .ok (-2, -2 * M, 0, 1)) ∧
    (cfg.overflowChecks = true →
      Coef4.imageExtremes cfg ⟨2, 0, -1, -(2 * M - 1)⟩ = .panic .arithOverflow) := by
  have ex : Coef4.imageExtremes cfg ⟨2, 0, -1, -(2 * M - 1)⟩ =
      updatedRange cfg 0 (-(2 * M - 1)) 0 (-(2 * M - 1)) 2 (-2 * M) := by
    rw [extremes_eq (by dsimp only; omega) (by dsimp only; omega)
      (checked_of (by dsimp only; omega) (by dsimp only; omega))
      (checked_of (by dsimp only; omega) (by dsimp only; omega))]
    dsimp only
    congr 1; ring
  have z := norm_neg (cfg := cfg) (n := 0) (d := -(2 * M - 1)) (n' := 0) (d' := 2 * M - 1) (by omega)
    (unchecked_of (by omega) (by omega)) (by
      rw [show - -(2 * M - 1) = 2 * M - 1 by ring]; exact unchecked_of (by omega) (by omega))
  refine ⟨?_, fun h => ?_, fun h => ?_⟩
  · refine outside_eq (checked_of (by dsimp only; omega) (by dsimp only; omega))
      (checked_of (by dsimp only; omega) (by dsimp only; omega)) (.inl rfl) (.inr ?_)
    dsimp only
    rw [Int.sign_eq_neg_one_of_neg (by omega), Int.sign_eq_neg_one_of_neg (by omega)]
  · rw [ex]
    have w := norm_neg (cfg := cfg) (n := 2) (d := -2 * M) (n' := -2) (d' := -2 * M) (by omega)
      (unchecked_of (by omega) (by omega)) (by rw [← e1]; exact Cfg.neg_imin h)
    rw [range_less z w (checked_of (by simp; omega) (by simp; omega))
      (checked_of (by simp; omega) (by simp; omega)) (by simp)]
    rfl
  · rw [ex]
    have : cfg.unchecked (- (-2 * M)) = .panic .arithOverflow := by
      rw [← e1]; exact Cfg.neg_imin_panics h
    have u : cfg.unchecked (-2) = .ok (-2) := unchecked_of (by omega) (by omega)
    have n1 : -2 * M ≠ 0 := by omega
    have n2 : -2 * M < 0 := by omega
    rw [updatedRange, z]
    simp [-neg_mul, normalise, Cfg.mul, this, u, n1, n2, bind, Out.bind]

end Steps

open Support in
/-- `C34_release_wrong_without_min` on every machine and for every operand between zero and one:
`homographic(x, 2, 0, -1, -isize::MAX)` is negative, but without overflow checks a number without
primer is returned, which is positive if it is a number at all.  With overflow checks the call
panics. -/
theorem C34_release_wrong_without_min_everywhere (cfg : Cfg) (A : Panic → Prop) (x : Number) (q : ℚ)
    (hx : Number.Denotes cfg A x q) (h0 : 0 < q) (h1 : q < 1) :
    (2 * q + 0) / (-1 * q + (-cfg.imax : Int)) < 0 ∧
    (cfg.overflowChecks = false → ∃ r,
      Returns (fun f => Number.homographic cfg f x 2 0 (-1) (-cfg.imax)) r ∧
      ∀ B v, Number.Denotes cfg B r v → 0 < v) ∧
    (cfg.overflowChecks = true →
      Panics (fun f => Number.homographic cfg f x 2 0 (-1) (-cfg.imax)) .arithOverflow) := by
  obtain ⟨M, eM, hM, e1, e2, e3⟩ := cfg.limits
  obtain ⟨c, rfl⟩ : ∃ c, x = .Other none c := by
    cases x with
    | Special s =>
      have e : q = specialValue s := hx
      cases s <;> simp [specialValue] at e <;> linarith
    | Other p c =>
      obtain ⟨v, hv, rfl⟩ := hx
      have v0 := hv.1
      have v1 := hv.2.1
      have := one_lt_one_div v0 v1
      cases p with
      | none => exact ⟨c, rfl⟩
      | some p => cases p <;> simp only [applyPrimer] at h0 h1 <;> linarith
  obtain ⟨a1, a2, a3⟩ := max_extremes hM e1 e2
  refine ⟨?_, fun h => ?_, fun h => ?_⟩
  · have : (0 : ℚ) < cfg.imax := by
      have : 0 < cfg.imax := by omega
      exact_mod_cast this
    push_cast
    exact div_neg_of_pos_of_neg (by linarith) (by linarith)
  · have a : Coef4.primerAttempt cfg ⟨2, 0, -1, -(2 * M - 1)⟩ =
        .ok (some (none, ⟨2, 0, -1, -(2 * M - 1)⟩)) := by
      rw [Coef4.primerAttempt, a1]
      show Coef4.primerEgest cfg _ = _
      have u1 : cfg.neg 1 = .ok (-1) := Cfg.neg_fits ⟨by omega, by omega⟩
      have u2 : cfg.neg (-2 * M) = .ok (-2 * M) := by rw [← e1]; exact Cfg.neg_imin h
      have n1 : ¬0 < -2 * M := by omega
      have n2 : -2 * M < 0 := by omega
      have n3 : ¬0 ≤ -2 * M := by omega
      have n4 : -2 * M < -2 := by omega
      rw [Coef4.primerEgest, a2 h]
      simp [-neg_mul, areSame, greaterThanMinusOne, lessThanOne, lessThanMinusOne, lessThanZero,
        greaterThanOne, Out.and, Out.not, u1, u2, n1, n2, n3, n4, bind, Out.bind, pure]
    refine ⟨.Other none (.homographic c ⟨2, 0, -1, -(2 * M - 1)⟩),
      FuelMono.returns (Number.homographic_mono cfg _ _ _ _ _) 1 ?_, ?_⟩
    · rw [e2]
      simp [-neg_sub, Number.homographic, Homographic.new, Homographic.absorbPrimer,
        Homographic.prime, a, Homographic.box, bind, Out.bind, pure]
    · rintro B v ⟨x, hx, rfl⟩
      exact hx.1
  · refine FuelMono.panics (Number.homographic_mono cfg _ _ _ _ _) 1 ?_
    rw [e2]
    simp [-neg_sub, Number.homographic, Homographic.new, Homographic.absorbPrimer,
      Homographic.prime, Coef4.primerAttempt, a1, Coef4.primerEgest, a3 h, bind, Out.bind, pure]

example := C34_release_wrong_without_min_everywhere ⟨16, by decide, false⟩ NoPanic
  (.Other none (.ratio ⟨1, 3⟩)) (1 / 3)
  ⟨1 / 3, by
    have := Ratio.denotes (cfg := ⟨16, by decide, false⟩) (A := NoPanic) (r := ⟨1, 3⟩)
      ⟨by decide, by decide, by decide⟩
    simpa [Ratio.val] using this, rfl⟩ (by norm_num) (by norm_num)

section LogicError

open Support

variable {M : Int}

/-- The map `M / v`. -/
private theorem attempt_big (hM : 16384 ≤ M) (e1 : cfg.imin = -2 * M) (e2 : cfg.imax = 2 * M - 1) :
    Coef4.primerAttempt cfg ⟨0, -M, -1, 0⟩ = .ok none := by
  have a1 : Coef4.areSingularitiesOutsideDomain cfg ⟨0, -M, -1, 0⟩ = .ok true := by
    refine outside_eq (checked_of (by dsimp only; omega) (by dsimp only; omega))
      (checked_of (by dsimp only; omega) (by dsimp only; omega)) (.inr ?_) (.inl rfl)
    dsimp only
    rw [zero_add]
  have z : normalise cfg (-M) 0 = .ok (-1, 0) := norm_inf (by omega)
  have w : normalise cfg (-M) (-1) = .ok (M, 1) := by
    rw [norm_neg (n' := M) (d' := 1) (by omega)
      (by rw [Int.neg_neg]; exact unchecked_of (by omega) (by omega))
      (unchecked_of (by omega) (by omega)), if_neg (by omega)]
  have a2 : Coef4.imageExtremes cfg ⟨0, -M, -1, 0⟩ = .ok (-1, 0, M, 1) := by
    rw [extremes_eq (by dsimp only; omega) (by dsimp only; omega)
      (checked_of (by dsimp only; omega) (by dsimp only; omega))
      (checked_of (by dsimp only; omega) (by dsimp only; omega))]
    dsimp only
    rw [add_zero, zero_add]
    exact range_greater z w (checked_of (by omega) (by omega)) (checked_of (by omega) (by omega))
      (by omega)
  have u1 : cfg.neg 1 = .ok (-1) := Cfg.neg_fits ⟨by omega, by omega⟩
  have n1 : -1 < M := by omega
  rw [Coef4.primerAttempt, a1]
  show Coef4.primerEgest cfg _ = _
  rw [Coef4.primerEgest, a2]
  simp [areSame, greaterThanMinusOne, lessThanOne, lessThanMinusOne, lessThanZero,
    Out.and, Out.not, u1, n1, bind, Out.bind, pure]

/-- The map `2*M / v`: the range check negates `isize::MIN`. -/
private theorem attempt_bigger (hM : 16384 ≤ M) (e1 : cfg.imin = -2 * M)
    (e2 : cfg.imax = 2 * M - 1) :
    (cfg.overflowChecks = false → Coef4.primerAttempt cfg ⟨0, -2 * M, -1, 0⟩ =
      .ok (some (some .Ground, ⟨1, 0, 0, -2 * M⟩))) ∧
    (cfg.overflowChecks = true → Coef4.primerAttempt cfg ⟨0, -2 * M, -1, 0⟩ =
      .panic .arithOverflow) := by
  have a1 : Coef4.areSingularitiesOutsideDomain cfg ⟨0, -2 * M, -1, 0⟩ = .ok true := by
    refine outside_eq (checked_of (by dsimp only; omega) (by dsimp only; omega))
      (checked_of (by dsimp only; omega) (by dsimp only; omega)) (.inr ?_) (.inl rfl)
    dsimp only
    rw [zero_add]
  have z : normalise cfg (-2 * M) 0 = .ok (-1, 0) := norm_inf (by omega)
  have ex : Coef4.imageExtremes cfg ⟨0, -2 * M, -1, 0⟩ =
      updatedRange cfg (-2 * M) 0 (-2 * M) 0 (-2 * M) (-1) := by
    rw [extremes_eq (by dsimp only; omega) (by dsimp only; omega)
      (checked_of (by dsimp only; omega) (by dsimp only; omega))
      (checked_of (by dsimp only; omega) (by dsimp only; omega))]
    dsimp only
    rw [add_zero, zero_add]
  rw [Coef4.primerAttempt, a1]
  refine ⟨fun h => ?_, fun h => ?_⟩
  · have w : normalise cfg (-2 * M) (-1) = .ok (-2 * M, 1) := by
      rw [norm_neg (n' := -2 * M) (d' := 1) (by omega) (by rw [← e1]; exact Cfg.neg_imin h)
        (unchecked_of (by omega) (by omega)), if_neg (by omega)]
    have a2 : Coef4.imageExtremes cfg ⟨0, -2 * M, -1, 0⟩ = .ok (-1, 0, -2 * M, 1) := by
      rw [ex]
      exact range_greater z w (checked_of (by omega) (by omega)) (checked_of (by omega) (by omega))
        (by omega)
    have u1 : cfg.neg 1 = .ok (-1) := Cfg.neg_fits ⟨by omega, by omega⟩
    have u2 : cfg.neg (-1) = .ok 1 := Cfg.neg_fits ⟨by omega, by omega⟩
    have u3 : cfg.neg 0 = .ok 0 := Cfg.neg_fits ⟨by omega, by omega⟩
    have n1 : ¬-1 < -2 * M := by omega
    show Coef4.primerEgest cfg _ = _
    rw [Coef4.primerEgest, a2]
    simp [-neg_mul, areSame, greaterThanMinusOne, Coef4.ground, Out.and, u1, u2, u3, n1, bind,
      Out.bind, pure]
  · have u : cfg.unchecked (- (-2 * M)) = .panic .arithOverflow := by
      rw [← e1]; exact Cfg.neg_imin_panics h
    show Coef4.primerEgest cfg _ = _
    rw [Coef4.primerEgest, ex, updatedRange, z]
    simp [-neg_mul, normalise, Cfg.mul, u, bind, Out.bind]

/-- The map `-v / (2*M)`, taken for a map into the positive numbers. -/
private theorem read_big (hM : 16384 ≤ M) (e1 : cfg.imin = -2 * M) (e2 : cfg.imax = 2 * M - 1)
    (h : cfg.overflowChecks = false) : Coef4.reductionAttempt cfg ⟨1, 0, 0, -2 * M⟩ =
      .ok (some (some .Amplify, ⟨1, 0, 0, -M⟩)) := by
  have a1 : Coef4.areSingularitiesOutsideDomain cfg ⟨1, 0, 0, -2 * M⟩ = .ok true := by
    refine outside_eq (checked_of (by dsimp only; omega) (by dsimp only; omega))
      (checked_of (by dsimp only; omega) (by dsimp only; omega)) (.inl rfl) (.inr ?_)
    dsimp only
    rw [zero_add]
  have z : normalise cfg 0 (-2 * M) = .ok (0, 1) := by
    rw [norm_neg (n' := 0) (d' := -2 * M) (by omega) (unchecked_of (by omega) (by omega))
      (by rw [← e1]; exact Cfg.neg_imin h), if_pos rfl]
  have w : normalise cfg 1 (-2 * M) = .ok (-1, -2 * M) := by
    rw [norm_neg (n' := -1) (d' := -2 * M) (by omega) (unchecked_of (by omega) (by omega))
      (by rw [← e1]; exact Cfg.neg_imin h), if_neg (by omega)]
  have a2 : Coef4.imageExtremes cfg ⟨1, 0, 0, -2 * M⟩ = .ok (-1, -2 * M, 0, 1) := by
    rw [extremes_eq (by dsimp only; omega) (by dsimp only; omega)
      (checked_of (by dsimp only; omega) (by dsimp only; omega))
      (checked_of (by dsimp only; omega) (by dsimp only; omega))]
    dsimp only
    rw [add_zero, zero_add]
    exact range_less z w (checked_of (by omega) (by omega)) (checked_of (by omega) (by omega))
      (by omega)
  have t : (-2 * M).tmod 2 = 0 := by
    rw [show -2 * M = 2 * -M by ring]; exact Int.mul_tmod_right 2 _
  have t' : (-2 * M).tdiv 2 = -M := by
    rw [show -2 * M = 2 * -M by ring]; exact Int.mul_tdiv_cancel_left _ (by decide)
  have n1 : ¬0 ≤ -2 * M := by omega
  have n2 : -1 ≠ -M := by omega
  have c1 : cfg.checked 0 = .ok 0 := checked_of (by omega) (by omega)
  rw [Coef4.reductionAttempt, a1]
  show Coef4.reductionEgest cfg _ = _
  rw [Coef4.reductionEgest, a2]
  simp [-neg_mul, lessThanZero, greaterThanOne, equalToOneHalf, greaterThanOneHalf, doubled, half, t,
    t', n1, n2, c1, Cfg.cmul, Coef4.amplify, isOdd, Out.and, bind, Out.bind, pure]

/-- The map `-v / M`, which is negative. -/
private theorem read_error (hM : 16384 ≤ M) (e1 : cfg.imin = -2 * M) (e2 : cfg.imax = 2 * M - 1) :
    Coef4.reductionAttempt cfg ⟨1, 0, 0, -M⟩ = .panic .logicError := by
  have a1 : Coef4.areSingularitiesOutsideDomain cfg ⟨1, 0, 0, -M⟩ = .ok true := by
    refine outside_eq (checked_of (by dsimp only; omega) (by dsimp only; omega))
      (checked_of (by dsimp only; omega) (by dsimp only; omega)) (.inl rfl) (.inr ?_)
    dsimp only
    rw [zero_add]
  have z : normalise cfg 0 (-M) = .ok (0, 1) := by
    rw [norm_neg (n' := 0) (d' := M) (by omega) (unchecked_of (by omega) (by omega))
      (by rw [Int.neg_neg]; exact unchecked_of (by omega) (by omega)), if_pos rfl]
  have w : normalise cfg 1 (-M) = .ok (-1, M) := by
    rw [norm_neg (n' := -1) (d' := M) (by omega) (unchecked_of (by omega) (by omega))
      (by rw [Int.neg_neg]; exact unchecked_of (by omega) (by omega)), if_neg (by omega)]
  have a2 : Coef4.imageExtremes cfg ⟨1, 0, 0, -M⟩ = .ok (-1, M, 0, 1) := by
    rw [extremes_eq (by dsimp only; omega) (by dsimp only; omega)
      (checked_of (by dsimp only; omega) (by dsimp only; omega))
      (checked_of (by dsimp only; omega) (by dsimp only; omega))]
    dsimp only
    rw [add_zero, zero_add]
    exact range_less z w (checked_of (by omega) (by omega)) (checked_of (by omega) (by omega))
      (by omega)
  have n1 : 0 ≤ M := by omega
  rw [Coef4.reductionAttempt, a1]
  show Coef4.reductionEgest cfg _ = _
  rw [Coef4.reductionEgest, a2]
  simp [lessThanZero, n1, bind, Out.bind]

end LogicError

private theorem umul_one (cfg : Cfg) : cfg.umul 1 2 = .ok 2 := by
  have : (2 : Nat) ^ 16 ≤ 2 ^ cfg.bits := Nat.pow_le_pow_right (by decide) cfg.hbits
  rw [Cfg.umul, Cfg.uunchecked, if_pos (by rw [Cfg.umax]; omega)]
  rfl

/-- `C34_release_logic_error` on every machine: without overflow checks `homographic(-3, 2^(bits-2),
0, 0, -1)` returns a number whose second read reaches the panic "logic error"; with overflow checks
the call panics with an overflow. -/
theorem C34_release_logic_error_everywhere (cfg : Cfg) :
    ∃ x, Number.ratio cfg (-3) 1 = .ok x ∧ Number.Denotes cfg NoPanic x (-3) ∧
      cfg.Fits (2 ^ (cfg.bits - 2)) ∧
      (cfg.overflowChecks = false → ∃ c,
        Returns (fun f => Number.homographic cfg f x (2 ^ (cfg.bits - 2)) 0 0 (-1))
          (.Other (some .Ground) c) ∧
        Panics (fun f => Clog.egests cfg f 2 c) .logicError) ∧
      (cfg.overflowChecks = true →
        Panics (fun f => Number.homographic cfg f x (2 ^ (cfg.bits - 2)) 0 0 (-1))
          .arithOverflow) := by
  obtain ⟨M, eM, hM, e1, e2, e3⟩ := cfg.limits
  have hx := Ratio.denotes (cfg := cfg) (A := NoPanic) (r := ⟨1, 3⟩) ⟨by decide, by decide, by
    show 3 ≤ 2 ^ cfg.bits - 1
    have : (2 : Nat) ^ 16 ≤ 2 ^ cfg.bits := Nat.pow_le_pow_right (by decide) cfg.hbits
    omega⟩
  have hb := attempt_big hM e1 e2
  have hb' := attempt_bigger hM e1 e2
  have hr : ∀ f, Clog.egest cfg (f + 1) (.ratio ⟨1, 3⟩) = .ok (some .Amplify, .ratio ⟨2, 3⟩) := by
    intro f
    simp [Clog.egest, Strategy.egest, Ratio.egest, umul_one, bind, Out.bind, pure]
  have ha : Coef4.ingestAmplify cfg ⟨0, -M, -1, 0⟩ = .ok ⟨0, -2 * M, -1, 0⟩ := by
    have c1 : cfg.checked (-(M * 2)) = .ok (-(M * 2)) := checked_of (by omega) (by omega)
    have c2 : cfg.checked 0 = .ok 0 := checked_of (by omega) (by omega)
    have : isOdd (-1) = true := by decide
    simp [Coef4.ingestAmplify, this, Cfg.cmul, c1, c2, bind, Out.bind, pure]
    ring
  have hm : cfg.neg M = .ok (-M) := Cfg.neg_fits ⟨by omega, by omega⟩
  have hz : cfg.neg 0 = .ok 0 := Cfg.neg_fits ⟨by omega, by omega⟩
  have h0 : M ≠ 0 := by omega
  rw [← eM]
  refine ⟨.Other (some .Ground) (.ratio ⟨1, 3⟩), ?_, ⟨_, hx, by norm_num [applyPrimer, Ratio.val]⟩,
    ⟨by omega, by omega⟩, fun h => ?_, fun h => ?_⟩
  · rw [Number.ratio, magnitude_eq (by omega) (by omega), magnitude_eq (by omega) (by omega)]
    decide
  · refine ⟨.homographic (.ratio ⟨2, 3⟩) ⟨1, 0, 0, -2 * M⟩,
      FuelMono.returns (Number.homographic_mono cfg _ _ _ _ _) 2 ?_,
      FuelMono.panics (fun _ _ hf => Clog.egests_le hf 2 _) 2 ?_⟩
    · simp [-neg_mul, Number.homographic, Homographic.new, Homographic.absorbPrimer, hm, hz, h0,
        Homographic.prime, Homographic.primeIngest, hb, hr, ha, hb'.1 h, Homographic.box, bind,
        Out.bind, pure]
    · simp [-neg_mul, Clog.egests, Clog.egest, Strategy.egest, Homographic.egest,
        read_big hM e1 e2 h, read_error hM e1 e2, Homographic.box, bind, Out.bind, pure]
  · refine FuelMono.panics (Number.homographic_mono cfg _ _ _ _ _) 2 ?_
    simp [-neg_mul, Number.homographic, Homographic.new, Homographic.absorbPrimer, hm, hz, h0,
      Homographic.prime, Homographic.primeIngest, hb, hr, ha, hb'.2 h, bind, Out.bind, pure]

example := C34_release_logic_error_everywhere ⟨32, by decide, false⟩

end Clarith
