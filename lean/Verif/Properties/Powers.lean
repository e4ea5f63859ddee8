import Verif.Properties.Limits
import Verif.Proofs.Powers

/-! # C61 Adding one to `2^b - 1`: exactly when it overflows -/

namespace Clarith

open Out Spec

variable {cfg : Cfg}

/-- `3 + 1` never overflows. -/
private theorem Homographic.four {c : Clog} (hd : Clog.Denotes cfg NoPanic c (1 / 3)) :
    Clog.Denotes cfg NoPanic (Homographic.box ⟨c, ⟨1, 0, 1, 1⟩⟩) (1 / 2 ^ 2) := by
  have small : ∀ {z : Int}, -32767 ≤ z → z ≤ 32767 → cfg.CheckSafe NoPanic z :=
    fun h h' => .inl (cfg.fits_small h h')
  obtain ⟨r, ha, h', rfl, rfl⟩ := (Homographic.box_egest (cfg := cfg) (A := NoPanic)
    (h := ⟨c, ⟨1, 0, 1, 1⟩⟩) (r := some .Amplify) (P := fun h' => h' = ⟨c, ⟨2, 0, 1, 1⟩⟩)
    (by
      refine Ev.succ ?_
      simp only [Homographic.egest, Coef4.reductionAttempt_ok (cfg := cfg) (k := ⟨1, 0, 1, 1⟩)
        (r := some (some .Amplify, ⟨2, 0, 1, 1⟩)) (by decide), ok_bind]
      exact Ev.pure ⟨_, rfl, rfl⟩)).returns
  have e1 : Ev NoPanic (fun f j => Homographic.egest cfg (Clog.egest cfg f) j ⟨c, ⟨2, 0, 1, 1⟩⟩)
      (fun r => ∃ t h', r = (.err (.ratio t), h') ∧ t.OK cfg ∧ t.val = 1 / 2) := by
    refine Homographic.egest_on_amplify (k' := ⟨2, 0, 1, 2⟩) hd (by norm_num)
      (Sat.of_eq (Coef4.reductionAttempt_ok (cfg := cfg) (k := ⟨2, 0, 1, 1⟩) (r := none)
        (by decide)))
      (Sat.of_eq (Coef4.ingestAmplify_sum (cfg.fits_small (by norm_num) (by norm_num)))) ?_
    intro c1 hc1
    refine Homographic.egest_on_uncover (k' := ⟨0, 2, 2, 3⟩) hc1 (by norm_num)
      (Sat.of_eq (Coef4.reductionAttempt_ok (cfg := cfg) (k := ⟨2, 0, 1, 2⟩) (r := none)
        (by decide)))
      (Coef4.ingestUncover_pos (w := 3) (by decide) (by decide) (by decide) (by decide)
        (small (by norm_num) (by norm_num))) ?_
    intro c2 hc2
    norm_num at hc2
    have hk : (⟨0, 2, 2, 3⟩ : Coef4).Halfway 1 2 (2 * 2) := by
      constructor <;> decide
    refine (Homographic.egest_at_end hc2 hk (by decide) (by decide)
      (small (by norm_num) (by norm_num)) (by norm_num)
      (hk.attempt (by norm_num) (by norm_num) (small (by norm_num) (by norm_num))
        (small (by norm_num) (by norm_num)))).mono fun r h => h.2.2
  have e2 : Ends NoPanic (fun f => Clog.egest cfg f (Homographic.box ⟨c, ⟨2, 0, 1, 1⟩⟩))
      (fun r => r.1 = none ∧ Clog.Denotes cfg NoPanic r.2 (1 / 2)) := by
    refine Clog.egest_ends (Q := fun r =>
      ∃ t s, r = (.err (.ratio t), s) ∧ t.OK cfg ∧ t.val = 1 / 2) ?_ ?_ ?_
    · simp only [Strategy.egest, Homographic.box]
      refine Ev.bind e1 ?_
      rintro _ ⟨t, h', rfl, ht⟩
      exact Ev.pure ⟨t, _, rfl, ht⟩
    · rintro red s' ⟨t, s, e, -⟩
      cases e
    · rintro new s' ⟨t, s, e, ht, hv⟩
      cases e
      have := (Ratio.denotes (A := NoPanic) ht).step
      rw [hv] at this
      refine this.mono ?_
      rintro r ⟨h1, h2⟩
      rw [sym_half] at h1
      rw [next_half] at h2
      exact ⟨h1, h2⟩
  have lt : (1 : ℚ) / 2 ^ 2 < 1 / 2 := by norm_num
  refine Clog.Denotes.of_step (by norm_num) (by norm_num) (.inl ⟨_, ha, ?_, ?_⟩)
  · exact (sym_lt lt).symm
  · rw [next_lt lt]
    refine Clog.Denotes.of_step (by norm_num) (by norm_num) (e2.mono ?_)
    rintro r ⟨h1, h2⟩
    rw [show (2 : ℚ) * (1 / 2 ^ 2) = 1 / 2 by norm_num, sym_half, next_half]
    exact ⟨h1, h2⟩

/-- For every number denoting `2^b - 1` and every word size: if `b*(b+1)` is less than `bits + 3`,
one more is `2^b`, without any panic.  Otherwise the first `b - 1` symbols of the result are
right, and reading the `b`-th panics with an overflow. -/
theorem C61_power_plus_one (cfg : Cfg) (b : Nat) (hb : 2 ≤ b) (hb' : b < cfg.bits) (x : Number)
    (hx : Number.Denotes cfg NoPanic x (2 ^ b - 1)) :
    ∃ c, Returns (fun f => Number.homographic cfg f x 1 1 0 1) (.Other (some .Turn) c) ∧
      (b * (b + 1) < cfg.bits + 3 →
        Number.Denotes cfg NoPanic (.Other (some .Turn) c) (2 ^ b)) ∧
      (cfg.bits + 3 ≤ b * (b + 1) →
        (∃ c', Returns (fun f => Clog.egests cfg f (b - 1) c)
          (List.replicate (b - 1) (some .Amplify), c')) ∧
        Panics (fun f => Clog.egests cfg f b c) .unwrapNone) := by
  have hbits := cfg.hbits
  have h4 : (4 : ℚ) ≤ 2 ^ b := by
    have : (2 : ℚ) ^ 2 ≤ 2 ^ b := pow_le_pow_right₀ (by norm_num) hb
    linarith
  by_cases hbig : cfg.bits - 1 ≤ b
  · -- the range of `C32_add_one`
    obtain rfl : b = cfg.bits - 1 := by omega
    have e : (2 : ℚ) ^ (cfg.bits - 1) = 2 * 2 ^ (cfg.bits - 2) := by
      rw [show cfg.bits - 1 = cfg.bits - 2 + 1 by omega, pow_succ]; ring
    have h1 : (2 : ℚ) ≤ 2 ^ (cfg.bits - 2) := by
      have : (2 : ℚ) ^ 1 ≤ 2 ^ (cfg.bits - 2) := pow_le_pow_right₀ (by norm_num) (by omega)
      linarith
    obtain ⟨c, h2, h3, h4⟩ := C32_add_one cfg x _ hx (by rw [e]; linarith)
    refine ⟨c, h2, fun h => ?_, fun _ => ⟨by rw [show cfg.bits - 1 - 1 = cfg.bits - 2 by omega]; exact h3, h4⟩⟩
    exfalso
    obtain ⟨n, hn⟩ : ∃ n, cfg.bits = n + 16 := ⟨cfg.bits - 16, by omega⟩
    rw [hn, show n + 16 - 1 = n + 15 by omega] at h
    nlinarith
  cases x with
  | Special s =>
    exfalso
    have hq : (2 : ℚ) ^ b - 1 = specialValue s := hx
    cases s <;> simp only [specialValue] at hq <;> linarith
  | Other p c =>
    obtain ⟨v, hv, hq⟩ := hx
    have hv0 := hv.1
    have hv1 := hv.2.1
    have h1 : 0 < 1 / v := one_div_pos.2 hv0
    rcases p with _ | _ | _ | _ <;> simp only [applyPrimer] at hq
    · exfalso; linarith
    · obtain rfl : v = 1 / (2 ^ b - 1) := by rw [hq, one_div_one_div]
      obtain ⟨r, hr, rfl⟩ := (Number.homographic_now (cfg := cfg) (A := NoPanic) (c := c)
        (nx := 1) (n := 1) (dx := 0) (d := 1) (p := some .Turn)
        (p' := some .Turn) (k' := ⟨1, 0, 1, 1⟩) (k := ⟨1, 1, 1, 0⟩)
        (by decide) (by decide) (by decide)).returns
      refine ⟨_, hr, ?_⟩
      have fin : Clog.Denotes cfg NoPanic (Homographic.box ⟨c, ⟨1, 0, 1, 1⟩⟩) (1 / 2 ^ b) →
          Number.Denotes cfg NoPanic
            (.Other (some .Turn) (Homographic.box ⟨c, ⟨1, 0, 1, 1⟩⟩)) (2 ^ b) := fun h =>
        ⟨_, h, by simp only [applyPrimer, one_div_one_div]⟩
      rcases hb.lt_or_eq with hb3 | rfl
      · obtain ⟨t, rfl⟩ : ∃ t, b = t + 3 := ⟨b - 3, by omega⟩
        obtain ⟨hg, hbad⟩ := Homographic.egests_power_first (t := t) (by omega) hv
        have := Homographic.doublings_top t
        exact ⟨fun h => fin (hg (by omega)), fun h => hbad (by omega)⟩
      · refine ⟨fun _ => fin (Homographic.four ?_), fun h => by omega⟩
        rw [show (3 : ℚ) = 2 ^ 2 - 1 by norm_num]
        exact hv
    · exfalso; linarith
    · exfalso; linarith

/-- Whether adding one to `2^b - 1` panics at some point is decided by `b` and the word size. -/
theorem C61_exact (cfg : Cfg) (b : Nat) (hb : 2 ≤ b) (hb' : b < cfg.bits) (x : Number)
    (hx : Number.Denotes cfg NoPanic x (2 ^ b - 1)) :
    (∃ r, Returns (fun f => Number.homographic cfg f x 1 1 0 1) r ∧
      Number.Denotes cfg NoPanic r (2 ^ b)) ↔ b * (b + 1) < cfg.bits + 3 := by
  obtain ⟨c, hr, hg, hbad⟩ := C61_power_plus_one cfg b hb hb' x hx
  constructor
  · rintro ⟨r, hr', hd⟩
    obtain rfl := hr.unique hr'
    by_contra hn
    obtain ⟨v, hv, -⟩ := hd
    obtain ⟨c', hc'⟩ := hv.returns b
    exact hc'.not_panics (hbad (by omega)).2
  · exact fun h => ⟨_, hr, hg h⟩

/-- On every 64 bit machine `255 + 1` panics with an overflow at the eighth symbol, although
every number involved is below 300. -/
theorem C61_255 (cfg : Cfg) (h64 : cfg.bits = 64) :
    ∃ x c, Number.ratio cfg 255 1 = .ok x ∧ Number.Denotes cfg NoPanic x 255 ∧
      Returns (fun f => Number.homographic cfg f x 1 1 0 1) (.Other (some .Turn) c) ∧
      (∃ c', Returns (fun f => Clog.egests cfg f 7 c) (List.replicate 7 (some .Amplify), c')) ∧
      Panics (fun f => Clog.egests cfg f 8 c) .unwrapNone := by
  have hm := cfg.imax_ge
  have hi := cfg.imin_eq
  obtain ⟨x, e, hx⟩ := Number.ratio_denotes (cfg := cfg) (A := NoPanic) (num := 255) (den := 1)
    one_ne_zero (cfg.fits_small (by norm_num) (by norm_num))
    (cfg.fits_small (by norm_num) (by norm_num))
    (fun _ => ⟨by omega, by omega⟩)
  norm_num at hx
  obtain ⟨c, h1, -, h2⟩ := C61_power_plus_one cfg 8 (by norm_num) (by omega) x
    (by norm_num; exact hx)
  exact ⟨x, c, e, hx, h1, h2 (by omega)⟩

/-- The hypotheses are met by fractions: `127 + 1` on a 64 bit machine is right, `255 + 1` on a
128 bit machine too. -/
example : ∃ x, Number.ratio debug64 127 1 = .ok x ∧
    Number.Denotes debug64 NoPanic x (2 ^ 7 - 1) ∧ 7 * (7 + 1) < debug64.bits + 3 := by
  obtain ⟨x, e, hx⟩ := Number.ratio_denotes (cfg := debug64) (A := NoPanic) (num := 127) (den := 1)
    one_ne_zero (by decide) (by decide) (by decide)
  norm_num at hx
  exact ⟨x, e, by norm_num; exact hx, by decide⟩

/-- Test: the same by running the model. -/
example : (do
    let x ← Number.ratio debug64 255 1
    let y ← Number.homographic debug64 50 x 1 1 0 1
    let (_, c) ← y.unwrapOther
    Clog.egests debug64 50 8 c) = .panic .unwrapNone := by
  decide +kernel

end Clarith
