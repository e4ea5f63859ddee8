import Verif.Proofs.NearOne
import Verif.Proofs.Reciprocal
import Verif.Properties.Limits

/-! # Unity, negation, reciprocal, doubling and halving (C30)

The tests `unity_does_not_overflow*`, `rec_does_not_overflow*`, `mul_does_not_overflow*`,
`div_does_not_overflow*` (src/strategy/homographic.rs:652-737) try these maps on the largest and on
the smallest positive ratio.  For which inputs do they never overflow, in any build?  Each theorem
below passes the input's own panics `A` on to the result and adds none; with `A = NoPanic` neither
the construction nor any later `egest` panics. -/

namespace Clarith

open Spec

variable {cfg : Cfg} {A : Panic → Prop} {x : Number} {q : ℚ}

/-- The identity never overflows, on any number. -/
theorem C30_unity (hx : Number.Denotes cfg A x q) :
    Ends A (fun f => Number.homographic cfg f x 1 0 0 1) (fun r => Number.Denotes cfg A r q) := by
  cases x with
  | Special s =>
    refine (Number.homographic_special hx (by decide) (by norm_num)).mono fun r hr => ?_
    simpa using hr
  | Other p c =>
    obtain ⟨v, hv, rfl⟩ := hx
    rcases p with _ | _ | _ | _
    · refine (Number.homographic_now (p' := none) (k' := ⟨1, 0, 0, 1⟩) (k := ⟨1, 0, 0, 1⟩)
        (by decide) (by decide) (by decide)).mono ?_
      rintro _ rfl
      exact ⟨v, hv.identity (.inl rfl), rfl⟩
    · refine (Number.homographic_now (p' := some .Turn) (k' := ⟨1, 0, 0, 1⟩) (k := ⟨0, 1, 1, 0⟩)
        (by decide) (by decide) (by decide)).mono ?_
      rintro _ rfl
      exact ⟨v, hv.identity (.inl rfl), rfl⟩
    · refine (Number.homographic_now (p' := some .Reflect) (k' := ⟨1, 0, 0, 1⟩)
        (k := ⟨-1, 0, 0, 1⟩) (by decide) (by decide) (by decide)).mono ?_
      rintro _ rfl
      exact ⟨v, hv.identity (.inl rfl), rfl⟩
    · refine (Number.homographic_now (p' := some .Ground) (k' := ⟨-1, 0, 0, -1⟩)
        (k := ⟨0, -1, 1, 0⟩) (by decide) (by decide) (by decide)).mono ?_
      rintro _ rfl
      exact ⟨v, hv.identity (.inr rfl), rfl⟩

example := C30_unity (denotes_three_fifths release64 NoPanic)

/-- Negation never overflows, on any number. -/
theorem C30_negation (hx : Number.Denotes cfg A x q) :
    Ends A (fun f => Number.homographic cfg f x (-1) 0 0 1)
      (fun r => Number.Denotes cfg A r (-q)) := by
  cases x with
  | Special s =>
    refine (Number.homographic_special hx (by decide) (by norm_num)).mono fun r hr => ?_
    simpa using hr
  | Other p c =>
    obtain ⟨v, hv, rfl⟩ := hx
    rcases p with _ | _ | _ | _
    · refine (Number.homographic_now (p' := some .Reflect) (k' := ⟨1, 0, 0, 1⟩)
        (k := ⟨-1, 0, 0, 1⟩) (by decide) (by decide) (by decide)).mono ?_
      rintro _ rfl
      exact ⟨v, hv.identity (.inl rfl), rfl⟩
    · refine (Number.homographic_now (p' := some .Ground) (k' := ⟨-1, 0, 0, -1⟩)
        (k := ⟨0, -1, 1, 0⟩) (by decide) (by decide) (by decide)).mono ?_
      rintro _ rfl
      exact ⟨v, hv.identity (.inr rfl), rfl⟩
    · refine (Number.homographic_now (p' := none) (k' := ⟨1, 0, 0, 1⟩) (k := ⟨1, 0, 0, 1⟩)
        (by decide) (by decide) (by decide)).mono ?_
      rintro _ rfl
      exact ⟨v, hv.identity (.inl rfl), by simp [applyPrimer]⟩
    · refine (Number.homographic_now (p' := some .Turn) (k' := ⟨1, 0, 0, 1⟩) (k := ⟨0, 1, 1, 0⟩)
        (by decide) (by decide) (by decide)).mono ?_
      rintro _ rfl
      exact ⟨v, hv.identity (.inl rfl), by simp [applyPrimer]⟩

example := C30_negation (denotes_three_fifths release64 NoPanic)

/-- The reciprocal never overflows on a positive number, or on a negative number that is not
very close to zero.  (On other negative numbers it always does: see `C30_reciprocal_overflow`.) -/
theorem C30_reciprocal (hx : Number.Denotes cfg A x q)
    (hq : 0 < q ∨ q ≤ -(1 / 2 ^ (cfg.bits - 2))) :
    Ends A (fun f => Number.homographic cfg f x 0 1 1 0)
      (fun r => Number.Denotes cfg A r (1 / q)) := by
  have hpow : (0 : ℚ) < 1 / 2 ^ (cfg.bits - 2) := div_pos one_pos (pow_pos (by norm_num) _)
  have h0 : q ≠ 0 := by rcases hq with h | h <;> intro e <;> linarith
  cases x with
  | Special s =>
    refine (Number.homographic_special hx (by decide) (by simpa using h0)).mono fun r hr => ?_
    simpa using hr
  | Other p c =>
    obtain ⟨v, hv, rfl⟩ := hx
    have hv0 := hv.1.ne'
    rcases p with _ | _ | _ | _
    · refine (Number.homographic_now (p' := some .Turn) (k' := ⟨1, 0, 0, 1⟩) (k := ⟨0, 1, 1, 0⟩)
        (by decide) (by decide) (by decide)).mono ?_
      rintro _ rfl
      exact ⟨v, hv.identity (.inl rfl), by simp [applyPrimer]⟩
    · refine (Number.homographic_now (p' := none) (k' := ⟨1, 0, 0, 1⟩) (k := ⟨1, 0, 0, 1⟩)
        (by decide) (by decide) (by decide)).mono ?_
      rintro _ rfl
      exact ⟨v, hv.identity (.inl rfl), by simp [applyPrimer]⟩
    · have hb := cfg.hbits
      have hv2 : 1 / 2 ^ (cfg.bits - 3 + 1) ≤ v := by
        rw [show cfg.bits - 3 + 1 = cfg.bits - 2 by omega]
        simp only [applyPrimer] at hq
        rcases hq with h | h <;> linarith [hv.1]
      have ha : Homographic.absorbPrimer cfg (some .Reflect) ⟨0, 1, 1, 0⟩ = .ok ⟨0, 1, -1, 0⟩ :=
        (Homographic.absorbPrimer_widens (narrowest_wider cfg) _ _).ok (by decide)
      have key := Homographic.prime_neg_turn (k := 0) (cfg.bits - 3) hv hv2 (by
        rw [show 0 + (cfg.bits - 3) + 1 = cfg.bits - 2 by omega]
        exact cfg.fits_pow (by omega))
      simp only [pow_zero] at key
      unfold Number.homographic
      simp only [Homographic.new, ha, Out.ok_bind]
      refine Ends.bind key.ends ?_
      rintro _ (⟨r, rfl, hr, hrv⟩ | ⟨h, rfl, hd⟩)
      · refine Ends.of_sat (Out.Sat.pure ⟨r.val, Ratio.denotes hr, ?_⟩)
        rw [hrv]; simp [applyPrimer]
      · refine Ends.of_sat (Out.Sat.pure ⟨v / 2 ^ 0, hd, ?_⟩)
        simp [applyPrimer]
    · refine (Number.homographic_now (p' := some .Reflect) (k' := ⟨-1, 0, 0, -1⟩)
        (k := ⟨1, 0, 0, -1⟩) (by decide) (by decide) (by decide)).mono ?_
      rintro _ rfl
      exact ⟨v, hv.identity (.inr rfl), by simp [applyPrimer]⟩

example := C30_reciprocal (denotes_three_fifths release64 NoPanic) (.inl (by norm_num))

/-- The reciprocal overflows, already at the construction, on every negative number that is very
close to zero, in every build. -/
theorem C30_reciprocal_overflow (hx : Number.Denotes cfg NoPanic x q)
    (h0 : -(1 / 2 ^ (cfg.bits - 2)) < q) (h1 : q < 0) :
    Panics (fun f => Number.homographic cfg f x 0 1 1 0) .unwrapNone := by
  have hb := cfg.hbits
  have hpow : (1 : ℚ) / 2 ^ (cfg.bits - 2) ≤ 1 := by
    rw [div_le_iff₀ (by positivity), one_mul]; exact one_le_pow₀ (by norm_num)
  cases x with
  | Special s =>
    exfalso
    rw [show q = _ from hx] at h0 h1
    cases s <;> simp only [specialValue] at h0 h1 <;> linarith
  | Other p c =>
    obtain ⟨v, hv, rfl⟩ := hx
    have hpos : 1 < 1 / v := by rw [lt_div_iff₀ hv.1]; linarith [hv.2.1]
    rcases p with _ | _ | _ | _ <;> simp only [applyPrimer] at h0 h1
    · exfalso; linarith [hv.1]
    · exfalso; linarith
    · have ha : Homographic.absorbPrimer cfg (some .Reflect) ⟨0, 1, 1, 0⟩ = .ok ⟨0, 1, -1, 0⟩ :=
        (Homographic.absorbPrimer_widens (narrowest_wider cfg) _ _).ok (by decide)
      have key := Homographic.prime_neg_turn_overflow (k := 0) (cfg.bits - 2) hv (by linarith)
        (cfg.fits_pow (by omega)) (cfg.not_fits_pow (by omega))
      simp only [pow_zero] at key
      have : Ends (fun p => p = .unwrapNone)
          (fun f => Number.homographic cfg f (.Other (some .Reflect) c) 0 1 1 0)
          (fun _ => False) := by
        unfold Number.homographic
        simp only [Homographic.new, ha, Out.ok_bind]
        exact Ends.bind key.ends fun _ h => h.elim
      obtain ⟨_, _, h⟩ | ⟨_, h, rfl⟩ := this
      · exact h.elim
      · exact h
    · exfalso; linarith

/-- Doubling never overflows on a number of magnitude at most one half, or at least one. -/
theorem C30_doubling (hx : Number.Denotes cfg A x q) (hq : |q| ≤ 1 / 2 ∨ 1 ≤ |q|) :
    Ends A (fun f => Number.homographic cfg f x 2 0 0 1)
      (fun r => Number.Denotes cfg A r (2 * q)) := by
  cases x with
  | Special s =>
    refine (Number.homographic_special hx (by decide) (by norm_num)).mono fun r hr => ?_
    simpa using hr
  | Other p c =>
    obtain ⟨v, hv, rfl⟩ := hx
    have hv0 := hv.1.ne'
    have hv1 := hv.2.1
    have hpos := hv.1
    rcases p with _ | _ | _ | _
    · have hv2 : v ≤ 1 / 2 := by
        simp only [applyPrimer, abs_of_pos hpos] at hq
        rcases hq with h | h <;> linarith
      rcases hv2.eq_or_lt with e | h
      · subst e
        refine (Number.homographic_half_special (s := .PosOne) (a := 1) (b := 1)
          (k := ⟨2, 0, 0, 1⟩) (by decide) hv (by decide) (by decide) (by decide) (by decide)
          (by decide) (by decide)).mono ?_
        rintro _ rfl
        norm_num [Number.Denotes, specialValue, applyPrimer]
      · refine (Number.homographic_next (k := ⟨2, 0, 0, 1⟩) (k1 := ⟨1, 0, 0, 1⟩)
          (k' := ⟨1, 0, 0, 1⟩) (p' := none) (by decide) hv (by decide) (by decide)
          (.inl ⟨sym_lt h, by decide⟩) (by decide)).mono ?_
        rintro _ ⟨c', rfl, hc⟩
        rw [next_lt h] at hc
        exact ⟨2 * v, hc.identity (.inl rfl), rfl⟩
    · refine (Number.homographic_now (p' := some .Turn) (k' := ⟨1, 0, 0, 2⟩) (k := ⟨0, 2, 1, 0⟩)
        (by decide) (by decide) (by decide)).mono ?_
      rintro _ rfl
      refine ⟨v / 2, hv.to_identity (k' := ⟨1, 0, 0, 1⟩) (.inl rfl) (by linarith) (by linarith)
        (by decide) (sym_lt (by linarith)).symm ?_, ?_⟩
      · rw [next_lt (by linarith)]; ring
      · simp only [applyPrimer]; field_simp
    · have hv2 : v ≤ 1 / 2 := by
        simp only [applyPrimer, abs_neg, abs_of_pos hpos] at hq
        rcases hq with h | h <;> linarith
      rcases hv2.eq_or_lt with e | h
      · subst e
        refine (Number.homographic_half_special (s := .NegOne) (a := -1) (b := 1)
          (k := ⟨-2, 0, 0, 1⟩) (by decide) hv (by decide) (by decide) (by decide) (by decide)
          (by decide) (by decide)).mono ?_
        rintro _ rfl
        norm_num [Number.Denotes, specialValue, applyPrimer]
      · refine (Number.homographic_next (k := ⟨-2, 0, 0, 1⟩) (k1 := ⟨-1, 0, 0, 1⟩)
          (k' := ⟨1, 0, 0, 1⟩) (p' := some .Reflect) (by decide) hv (by decide) (by decide)
          (.inl ⟨sym_lt h, by decide⟩) (by decide)).mono ?_
        rintro _ ⟨c', rfl, hc⟩
        rw [next_lt h] at hc
        exact ⟨2 * v, hc.identity (.inl rfl), by simp only [applyPrimer]; ring⟩
    · refine (Number.homographic_now (p' := some .Ground) (k' := ⟨-1, 0, 0, -2⟩)
        (k := ⟨0, -2, 1, 0⟩) (by decide) (by decide) (by decide)).mono ?_
      rintro _ rfl
      refine ⟨v / 2, hv.to_identity (k' := ⟨-1, 0, 0, -1⟩) (.inr rfl) (by linarith) (by linarith)
        (by decide) (sym_lt (by linarith)).symm ?_, ?_⟩
      · rw [next_lt (by linarith)]; ring
      · simp only [applyPrimer]; field_simp

example := C30_doubling (x := .Special .NegOne) (cfg := debug64) (A := NoPanic) (q := -1) rfl
  (.inr (by norm_num))

/-- Halving never overflows on a number of magnitude at most one, or at least two. -/
theorem C30_halving (hx : Number.Denotes cfg A x q) (hq : |q| ≤ 1 ∨ 2 ≤ |q|) :
    Ends A (fun f => Number.homographic cfg f x 1 0 0 2)
      (fun r => Number.Denotes cfg A r (q / 2)) := by
  cases x with
  | Special s =>
    refine (Number.homographic_special hx (by decide) (by norm_num)).mono fun r hr => ?_
    simpa using hr
  | Other p c =>
    obtain ⟨v, hv, rfl⟩ := hx
    have hv0 := hv.1.ne'
    have hv1 := hv.2.1
    have hpos := hv.1
    have hturn : |1 / v| ≤ 1 ∨ 2 ≤ |1 / v| → v ≤ 1 / 2 := by
      rw [abs_of_pos (one_div_pos.2 hpos), div_le_iff₀ hpos, le_div_iff₀ hpos]
      rintro (h | h) <;> linarith
    rcases p with _ | _ | _ | _
    · refine (Number.homographic_now (p' := none) (k' := ⟨1, 0, 0, 2⟩) (k := ⟨1, 0, 0, 2⟩)
        (by decide) (by decide) (by decide)).mono ?_
      rintro _ rfl
      refine ⟨v / 2, hv.to_identity (k' := ⟨1, 0, 0, 1⟩) (.inl rfl) (by linarith) (by linarith)
        (by decide) (sym_lt (by linarith)).symm ?_, rfl⟩
      rw [next_lt (by linarith)]; ring
    · have hv2 : v ≤ 1 / 2 := hturn hq
      rcases hv2.eq_or_lt with e | h
      · subst e
        refine (Number.homographic_half_special (s := .PosOne) (a := 1) (b := 1)
          (k := ⟨0, 1, 2, 0⟩) (by decide) hv (by decide) (by decide) (by decide) (by decide)
          (by decide) (by decide)).mono ?_
        rintro _ rfl
        norm_num [Number.Denotes, specialValue, applyPrimer]
      · refine (Number.homographic_next (k := ⟨0, 1, 2, 0⟩) (k1 := ⟨0, 1, 1, 0⟩)
          (k' := ⟨1, 0, 0, 1⟩) (p' := some .Turn) (by decide) hv (by decide) (by decide)
          (.inl ⟨sym_lt h, by decide⟩) (by decide)).mono ?_
        rintro _ ⟨c', rfl, hc⟩
        rw [next_lt h] at hc
        exact ⟨2 * v, hc.identity (.inl rfl), by simp only [applyPrimer]; field_simp⟩
    · refine (Number.homographic_now (p' := some .Reflect) (k' := ⟨1, 0, 0, 2⟩)
        (k := ⟨-1, 0, 0, 2⟩) (by decide) (by decide) (by decide)).mono ?_
      rintro _ rfl
      refine ⟨v / 2, hv.to_identity (k' := ⟨1, 0, 0, 1⟩) (.inl rfl) (by linarith) (by linarith)
        (by decide) (sym_lt (by linarith)).symm ?_, ?_⟩
      · rw [next_lt (by linarith)]; ring
      · simp only [applyPrimer]; ring
    · have hv2 : v ≤ 1 / 2 := hturn (by simpa only [applyPrimer, abs_neg] using hq)
      rcases hv2.eq_or_lt with e | h
      · subst e
        refine (Number.homographic_half_special (s := .NegOne) (a := -1) (b := 1)
          (k := ⟨0, -1, 2, 0⟩) (by decide) hv (by decide) (by decide) (by decide) (by decide)
          (by decide) (by decide)).mono ?_
        rintro _ rfl
        norm_num [Number.Denotes, specialValue, applyPrimer]
      · refine (Number.homographic_next (k := ⟨0, -1, 2, 0⟩) (k1 := ⟨0, -1, 1, 0⟩)
          (k' := ⟨-1, 0, 0, -1⟩) (p' := some .Ground) (by decide) hv (by decide) (by decide)
          (.inl ⟨sym_lt h, by decide⟩) (by decide)).mono ?_
        rintro _ ⟨c', rfl, hc⟩
        rw [next_lt h] at hc
        exact ⟨2 * v, hc.identity (.inr rfl), by simp only [applyPrimer]; field_simp⟩

example := C30_halving (denotes_three_fifths release64 NoPanic) (.inl (by norm_num [abs_of_pos]))

/-! ### Concrete cases -/

/-- `isize::MAX / 1` and `1 / isize::MAX`, the inputs of the tests, and their negatives. -/
theorem Spec.ratio_denotes_max :
    (∃ x, Number.ratio debug64 (2 ^ 63 - 1) 1 = .ok x ∧
      Number.Denotes debug64 NoPanic x (2 ^ 63 - 1)) ∧
    (∃ x, Number.ratio debug64 (-1) (2 ^ 63 - 1) = .ok x ∧
      Number.Denotes debug64 NoPanic x (-(1 / (2 ^ 63 - 1)))) := by
  have h := Ratio.denotes (cfg := debug64) (A := NoPanic) (r := ⟨1, 2 ^ 63 - 1⟩)
    ⟨by decide, by decide, by decide⟩
  refine ⟨⟨.Other (some .Turn) (.ratio ⟨1, 2 ^ 63 - 1⟩), by decide, _, h, ?_⟩,
    ⟨.Other (some .Reflect) (.ratio ⟨1, 2 ^ 63 - 1⟩), by decide, _, h, ?_⟩⟩ <;>
  norm_num [applyPrimer, Ratio.val]

/-- The tests `unity_does_not_overflow1`, `rec_does_not_overflow1`, `mul_does_not_overflow1` and
`div_does_not_overflow1`. -/
example : ∃ x, Number.ratio debug64 (2 ^ 63 - 1) 1 = .ok x ∧
    Ends NoPanic (fun f => Number.homographic debug64 f x 1 0 0 1)
      (fun r => Number.Denotes debug64 NoPanic r (2 ^ 63 - 1)) ∧
    Ends NoPanic (fun f => Number.homographic debug64 f x (-1) 0 0 1)
      (fun r => Number.Denotes debug64 NoPanic r (-(2 ^ 63 - 1))) ∧
    Ends NoPanic (fun f => Number.homographic debug64 f x 0 1 1 0)
      (fun r => Number.Denotes debug64 NoPanic r (1 / (2 ^ 63 - 1))) ∧
    Ends NoPanic (fun f => Number.homographic debug64 f x 2 0 0 1)
      (fun r => Number.Denotes debug64 NoPanic r (2 * (2 ^ 63 - 1))) ∧
    Ends NoPanic (fun f => Number.homographic debug64 f x 1 0 0 2)
      (fun r => Number.Denotes debug64 NoPanic r ((2 ^ 63 - 1) / 2)) := by
  obtain ⟨x, e, hx⟩ := ratio_denotes_max.1
  exact ⟨x, e, C30_unity hx, C30_negation hx, C30_reciprocal hx (.inl (by norm_num)),
    C30_doubling hx (.inr (by norm_num [abs_of_pos])), C30_halving hx (.inr (by norm_num [abs_of_pos]))⟩

/-- The same map as the test `rec_does_not_overflow2`, on the negative of its input: the code
panics. -/
example : ∃ x, Number.ratio debug64 (-1) (2 ^ 63 - 1) = .ok x ∧
    Panics (fun f => Number.homographic debug64 f x 0 1 1 0) .unwrapNone := by
  obtain ⟨x, e, hx⟩ := ratio_denotes_max.2
  exact ⟨x, e, C30_reciprocal_overflow hx (by norm_num [debug64]) (by norm_num)⟩

/-! ### Doubling and halving are not free of overflow on every number -/

/-- The bound in the next two theorems, for the number that follows the symbol `Uncover`. -/
theorem Spec.near_one {P v : ℚ} (hP : 1 ≤ P) (hv : P / (P + 1) < v) : 1 / v - 1 < 1 / P := by
  have h0 : 0 < v := lt_trans (div_pos (by linarith) (by linarith)) hv
  rw [div_lt_iff₀ (by linarith)] at hv
  rw [sub_lt_iff_lt_add, div_lt_iff₀ h0]
  have : 1 < (P + 1) * v / P := by rw [lt_div_iff₀ (by linarith)]; linarith
  calc (1 : ℚ) < (P + 1) * v / P := this
    _ = (1 / P + 1) * v := by field_simp; ring

/-- Doubling is not free of overflow on every number: for every number less than 1 but above
`2^(bits-2) / (2^(bits-2) + 1)`, the double is made and its first `bits-2` symbols can be read, but
reading one more panics with an overflow, in every build. -/
theorem C30_doubling_overflow {cfg : Cfg} {x : Number} {q : ℚ}
    (hx : Number.Denotes cfg NoPanic x q)
    (h1 : 2 ^ (cfg.bits - 2) / (2 ^ (cfg.bits - 2) + 1) < q) (h2 : q < 1) :
    ∃ c, Returns (fun f => Number.homographic cfg f x 2 0 0 1) (.Other (some .Turn) c) ∧
      (∃ c', Returns (fun f => Clog.egests cfg f (cfg.bits - 2) c)
        (some .Uncover :: some .Uncover :: List.replicate (cfg.bits - 4) (some .Amplify), c')) ∧
      Panics (fun f => Clog.egests cfg f (cfg.bits - 1) c) .unwrapNone := by
  have hp : (1 : ℚ) ≤ 2 ^ (cfg.bits - 2) := one_le_pow₀ (by norm_num)
  have hq : 1 / 2 < q := by
    refine lt_of_le_of_lt ?_ h1
    rw [div_le_div_iff₀ (by norm_num) (by linarith)]
    linarith
  cases x with
  | Special s =>
    exfalso
    obtain rfl : q = specialValue s := hx
    cases s <;> simp only [specialValue] at hq h2 <;> linarith
  | Other p c =>
    obtain ⟨v, hv, rfl⟩ := hx
    have hv0 := hv.1
    have hv1 := hv.2.1
    have h1v : 1 < 1 / v := by rwa [lt_div_iff₀ hv0, one_mul]
    rcases p with _ | _ | _ | _ <;> simp only [applyPrimer] at hq h1 h2
    · obtain ⟨r, hr, c', rfl, hc⟩ := (Number.homographic_next (A := NoPanic) (p := none)
        (nx := 2) (n := 0) (dx := 0) (d := 1) (k := ⟨2, 0, 0, 1⟩) (k1 := ⟨0, 2, 1, 1⟩)
        (k' := ⟨1, 1, 0, 2⟩) (p' := some .Turn) (by decide) hv (by decide) (by decide)
        (.inr ⟨sym_gt hq, by decide⟩) (by decide)).returns
      rw [next_gt hq] at hc
      exact ⟨_, hr, Homographic.egests_diff_first hc (near_one hp h1)⟩
    · exfalso; linarith
    · exfalso; linarith
    · exfalso; linarith

/-- Halving is not free of overflow on every number: likewise for every number above 1 but less than
`1 + 1/2^(bits-2)`. -/
theorem C30_halving_overflow {cfg : Cfg} {x : Number} {q : ℚ}
    (hx : Number.Denotes cfg NoPanic x q)
    (h1 : 1 < q) (h2 : q < 1 + 1 / 2 ^ (cfg.bits - 2)) :
    ∃ c, Returns (fun f => Number.homographic cfg f x 1 0 0 2) (.Other none c) ∧
      (∃ c', Returns (fun f => Clog.egests cfg f (cfg.bits - 2) c)
        (some .Uncover :: some .Uncover :: List.replicate (cfg.bits - 4) (some .Amplify), c')) ∧
      Panics (fun f => Clog.egests cfg f (cfg.bits - 1) c) .unwrapNone := by
  have hp : (1 : ℚ) ≤ 2 ^ (cfg.bits - 2) := one_le_pow₀ (by norm_num)
  have hq : q < 2 := by
    have : (1 : ℚ) / 2 ^ (cfg.bits - 2) ≤ 1 := by
      rw [div_le_iff₀ (by linarith)]; linarith
    linarith
  cases x with
  | Special s =>
    exfalso
    obtain rfl : q = specialValue s := hx
    cases s <;> simp only [specialValue] at h1 <;> linarith
  | Other p c =>
    obtain ⟨v, hv, rfl⟩ := hx
    have hv0 := hv.1
    have hv1 := hv.2.1
    have h1v : 1 < 1 / v := by rwa [lt_div_iff₀ hv0, one_mul]
    rcases p with _ | _ | _ | _ <;> simp only [applyPrimer] at hq h1 h2
    · exfalso; linarith
    · have hh : 1 / 2 < v := by
        rw [div_lt_iff₀ hv0] at hq
        linarith
      obtain ⟨r, hr, c', rfl, hc⟩ := (Number.homographic_next (A := NoPanic) (p := some .Turn)
        (nx := 1) (n := 0) (dx := 0) (d := 2) (k := ⟨0, 1, 2, 0⟩) (k1 := ⟨1, 1, 0, 2⟩)
        (k' := ⟨1, 1, 0, 2⟩) (p' := none) (by decide) hv (by decide) (by decide)
        (.inr ⟨sym_gt hh, by decide⟩) (by decide)).returns
      rw [next_gt hh] at hc
      exact ⟨_, hr, Homographic.egests_diff_first hc (by linarith)⟩
    · exfalso; linarith
    · exfalso; linarith

/-- `(isize::MAX - 1) / isize::MAX` and `isize::MAX / (isize::MAX - 1)` are in these ranges on a 64
bit machine. -/
example : (∃ x, Number.ratio debug64 (2 ^ 63 - 2) (2 ^ 63 - 1) = .ok x ∧
      ∃ c, Returns (fun f => Number.homographic debug64 f x 2 0 0 1) (.Other (some .Turn) c) ∧
        Panics (fun f => Clog.egests debug64 f 63 c) .unwrapNone) ∧
    (∃ x, Number.ratio debug64 (2 ^ 63 - 1) (2 ^ 63 - 2) = .ok x ∧
      ∃ c, Returns (fun f => Number.homographic debug64 f x 1 0 0 2) (.Other none c) ∧
        Panics (fun f => Clog.egests debug64 f 63 c) .unwrapNone) := by
  have h := Ratio.denotes (cfg := debug64) (A := NoPanic) (r := ⟨2 ^ 63 - 2, 2 ^ 63 - 1⟩)
    ⟨by decide, by decide, by decide⟩
  have e : Number.ratio debug64 (2 ^ 63 - 2) (2 ^ 63 - 1)
      = .ok (.Other none (.ratio ⟨2 ^ 63 - 2, 2 ^ 63 - 1⟩)) := by decide
  have e' : Number.ratio debug64 (2 ^ 63 - 1) (2 ^ 63 - 2)
      = .ok (.Other (some .Turn) (.ratio ⟨2 ^ 63 - 2, 2 ^ 63 - 1⟩)) := by decide
  obtain ⟨c, hc, -, hp⟩ := C30_doubling_overflow
    (x := .Other none (.ratio ⟨2 ^ 63 - 2, 2 ^ 63 - 1⟩)) ⟨_, h, rfl⟩
    (by norm_num [debug64, applyPrimer, Ratio.val]) (by norm_num [applyPrimer, Ratio.val])
  obtain ⟨c', hc', -, hp'⟩ := C30_halving_overflow
    (x := .Other (some .Turn) (.ratio ⟨2 ^ 63 - 2, 2 ^ 63 - 1⟩)) ⟨_, h, rfl⟩
    (by norm_num [applyPrimer, Ratio.val]) (by norm_num [debug64, applyPrimer, Ratio.val])
  exact ⟨⟨_, e, c, hc, hp⟩, _, e', c', hc', hp'⟩

end Clarith
