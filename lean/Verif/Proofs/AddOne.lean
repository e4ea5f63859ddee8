import Verif.Proofs.Reciprocal
import Verif.Proofs.Consume

/-! # A large number plus one

The states met are `2^k, 0, 1, 2^k`. -/

namespace Clarith

open Out Spec

variable {cfg : Cfg} {A : Panic → Prop}

namespace Coef4

theorem sum_range {N M : Int} (h0 : 1 ≤ N) (h1 : N ≤ M) (hf : cfg.Fits (M + 1)) :
    (⟨N, 0, 1, M⟩ : Coef4).imageExtremes cfg = .ok (0, 1, N, M + 1) ∧
    (⟨N, 0, 1, M⟩ : Coef4).areSingularitiesOutsideDomain cfg = .ok true := by
  have cN : ∀ z : Int, -(M + 1) ≤ z → z ≤ M + 1 → cfg.checked z = .ok z :=
    fun z h h' => cfg.checked_eq (cfg.fits_le hf h h')
  have c0 := cN (M + 1) (by omega) (by omega)
  have c1 := cN N (by omega) (by omega)
  have c2 := cN 0 (by omega) (by omega)
  have hs := signs M (by omega)
  have hs2 := signs (M + 1) (by omega)
  have hr : Support.normalise cfg 0 M = .ok (0, 1) := by
    simp only [Support.normalise, pure_eq, show ¬M = 0 by omega, show ¬M < 0 by omega,
      if_false, ok_bind, if_true]
  have hr' : Support.normalise cfg N (M + 1) = .ok (N, M + 1) := by
    simp only [Support.normalise, pure_eq, show ¬M + 1 = 0 by omega, show ¬M + 1 < 0 by omega,
      show ¬N = 0 by omega, if_false, ok_bind]
  have hl : Support.lessThan cfg N (M + 1) 0 1 = .ok false := by
    simp only [Support.lessThan, Support.compareReduce, Cfg.cmul, mul_one, zero_mul, c1, c2, ok_bind,
      pure_eq]
    rw [decide_eq_false (by omega)]
  have hg : Support.greaterThan cfg N (M + 1) 0 1 = .ok true := by
    simp only [Support.greaterThan, Support.compareReduce, Cfg.cmul, mul_one, zero_mul, c1, c2,
      ok_bind, pure_eq]
    rw [decide_eq_true (by omega)]
  constructor
  · simp [imageExtremes, valueAtZero, valueAtOne, Cfg.cadd, c0, c1, show ¬M = 0 by omega,
      show ¬N = 0 by omega, Support.updatedRange, hr, hr', hl, hg, pure_eq]
  · simp [areSingularitiesOutsideDomain, isZeroOutsideDomain, isPoleOutsideDomain,
      isDomainAmenable, Cfg.cadd, c0, hs, hs2, Out.and, add_comm, pure_eq]

theorem odd_succ (N : Int) (h : 0 ≤ N) : ¬(2 * N + 1).tmod 2 = 0 := by
  rw [Int.tmod_eq_emod_of_nonneg (by omega)]; omega

/-- `N * x / (x + N)` for an even `N`: no symbol yet. -/
theorem reductionAttempt_sum {N : Int} (h1 : 1 ≤ N) (hf : cfg.Fits (2 * (2 * N))) :
    (⟨2 * N, 0, 1, 2 * N⟩ : Coef4).reductionAttempt cfg = .ok none := by
  have hf1 : cfg.Fits (2 * N + 1) := cfg.fits_le hf (by omega) (by omega)
  obtain ⟨hi, hsing⟩ := sum_range (N := 2 * N) (by omega) le_rfl hf1
  have c0 := cfg.checked_eq hf
  have c2 : cfg.checked 0 = .ok 0 := cfg.checked_eq (cfg.fits_small (by norm_num) (by norm_num))
  have e1 : Support.lessThanZero 0 1 = false := by decide
  have e2 : Support.greaterThanOne (2 * N) (2 * N + 1) = false := by
    simp only [Support.greaterThanOne, show 2 * N + 1 > 0 by omega, if_true]
    rw [decide_eq_false (by omega)]
  have d0 : Support.doubled cfg 0 1 = .ok (0, 1) := by
    simp [Support.doubled, Cfg.cmul, c2, pure_eq]
  have d1 : Support.doubled cfg (2 * N) (2 * N + 1) = .ok (2 * (2 * N), 2 * N + 1) := by
    simp only [Support.doubled, odd_succ N (by omega), if_false, Cfg.cmul, mul_comm (2 * N) 2, c0,
      ok_bind, pure_eq]
  have e3 : Support.equalToOneHalf cfg 0 1 = .ok false := by
    simp only [Support.equalToOneHalf, d0, ok_bind, pure_eq]; rfl
  have e4 : Support.greaterThanOneHalf cfg (2 * N) (2 * N + 1) = .ok true := by
    simp only [Support.greaterThanOneHalf, d1, ok_bind, pure_eq, show 2 * N + 1 > 0 by omega,
      if_true]
    rw [decide_eq_true (by omega)]
  have e5 : Support.lessThanOneHalf cfg 0 1 = .ok true := by
    simp only [Support.lessThanOneHalf, d0, ok_bind, pure_eq]; rfl
  simp [reductionAttempt, hsing, reductionEgest, hi, e1, e2, e3, e4, e5, Out.and, pure_eq]

/-- The same when doubling overflows. -/
theorem reductionAttempt_sum_overflow {N : Int} (h1 : 1 ≤ N) (hf1 : cfg.Fits (2 * N + 1))
    (hf : ¬cfg.Fits (2 * (2 * N))) :
    (⟨2 * N, 0, 1, 2 * N⟩ : Coef4).reductionAttempt cfg = .panic .unwrapNone := by
  obtain ⟨hi, hsing⟩ := sum_range (N := 2 * N) (by omega) le_rfl hf1
  have c0 : cfg.checked (2 * (2 * N)) = .panic .unwrapNone := by
    unfold Cfg.checked; exact if_neg hf
  have c2 : cfg.checked 0 = .ok 0 := cfg.checked_eq (cfg.fits_small (by norm_num) (by norm_num))
  have e1 : Support.lessThanZero 0 1 = false := by decide
  have e2 : Support.greaterThanOne (2 * N) (2 * N + 1) = false := by
    simp only [Support.greaterThanOne, show 2 * N + 1 > 0 by omega, if_true]
    rw [decide_eq_false (by omega)]
  have d0 : Support.doubled cfg 0 1 = .ok (0, 1) := by
    simp [Support.doubled, Cfg.cmul, c2, pure_eq]
  have d1 : Support.doubled cfg (2 * N) (2 * N + 1) = .panic .unwrapNone := by
    simp only [Support.doubled, odd_succ N (by omega), if_false, Cfg.cmul, mul_comm (2 * N) 2, c0,
      panic_bind]
  have e3 : Support.equalToOneHalf cfg 0 1 = .ok false := by
    simp only [Support.equalToOneHalf, d0, ok_bind, pure_eq]; rfl
  have e4 : Support.greaterThanOneHalf cfg (2 * N) (2 * N + 1) = .panic .unwrapNone := by
    simp only [Support.greaterThanOneHalf, d1, panic_bind]
  simp [reductionAttempt, hsing, reductionEgest, hi, e1, e2, e3, e4, Out.and, pure_eq]

/-- `N * x / (x + 2N)`: `Amplify`. -/
theorem reductionAttempt_sum_amplify {N : Int} (h1 : 1 ≤ N) (hf : cfg.Fits (2 * N + 1)) :
    (⟨N, 0, 1, 2 * N⟩ : Coef4).reductionAttempt cfg =
      .ok (some (some .Amplify, ⟨2 * N, 0, 1, 2 * N⟩)) := by
  obtain ⟨hi, hsing⟩ := sum_range (N := N) (M := 2 * N) (by omega) (by omega) hf
  have c0 : cfg.checked (2 * N) = .ok (2 * N) :=
    cfg.checked_eq (cfg.fits_le hf (by omega) (by omega))
  have c2 : cfg.checked 0 = .ok 0 := cfg.checked_eq (cfg.fits_small (by norm_num) (by norm_num))
  have e1 : Support.lessThanZero 0 1 = false := by decide
  have e2 : Support.greaterThanOne N (2 * N + 1) = false := by
    simp only [Support.greaterThanOne, show 2 * N + 1 > 0 by omega, if_true]
    rw [decide_eq_false (by omega)]
  have d0 : Support.doubled cfg 0 1 = .ok (0, 1) := by
    simp [Support.doubled, Cfg.cmul, c2, pure_eq]
  have d1 : Support.doubled cfg N (2 * N + 1) = .ok (2 * N, 2 * N + 1) := by
    simp only [Support.doubled, odd_succ N (by omega), if_false, Cfg.cmul, mul_comm N 2, c0,
      ok_bind, pure_eq]
  have e3 : Support.equalToOneHalf cfg 0 1 = .ok false := by
    simp only [Support.equalToOneHalf, d0, ok_bind, pure_eq]; rfl
  have e4 : Support.greaterThanOneHalf cfg N (2 * N + 1) = .ok false := by
    simp only [Support.greaterThanOneHalf, d1, ok_bind, pure_eq, show 2 * N + 1 > 0 by omega,
      if_true]
    rw [decide_eq_false (by omega)]
  have hg : (⟨N, 0, 1, 2 * N⟩ : Coef4).amplify cfg = .ok ⟨2 * N, 0, 1, 2 * N⟩ := by
    simp [amplify, show isOdd 1 = true by decide, Cfg.cmul, mul_comm N 2, c0, c2, pure_eq]
  simp [reductionAttempt, hsing, reductionEgest, hi, e1, e2, e3, e4, hg, Out.and, pure_eq]

theorem ingestAmplify_sum {N M : Int} (hf : cfg.Fits (2 * M)) :
    (⟨N, 0, 1, M⟩ : Coef4).ingestAmplify cfg = .ok ⟨N, 0, 1, 2 * M⟩ := by
  have c0 := cfg.checked_eq hf
  have c2 : cfg.checked 0 = .ok 0 := cfg.checked_eq (cfg.fits_small (by norm_num) (by norm_num))
  simp [ingestAmplify, show isOdd 1 = true by decide, Cfg.cmul, mul_comm M 2, c0, c2, pure_eq]

end Coef4

/-- One call in the state `2N, 0, 1, 2N`. -/
theorem Homographic.egest_sum {c : Clog} {v : ℚ} {N : Int} (hd : Clog.Denotes cfg A c v)
    (hv : v < 1 / 2) (h1 : 1 ≤ N) (hf : cfg.Fits (2 * (2 * N) + 1)) :
    Ev A (fun f j => Homographic.egest cfg (Clog.egest cfg f) j ⟨c, ⟨2 * N, 0, 1, 2 * N⟩⟩)
      (fun r => ∃ c', r = (.ok (some .Amplify), ⟨c', ⟨2 * (2 * N), 0, 1, 2 * (2 * N)⟩⟩) ∧
        Clog.Denotes cfg A c' (2 * v)) := by
  have hf0 : cfg.Fits (2 * (2 * N)) := cfg.fits_le hf (by omega) (by omega)
  refine Ev.succ ?_
  simp only [Homographic.egest, Coef4.reductionAttempt_sum h1 hf0, ok_bind,
    Homographic.reductionIngest]
  refine Ev.bind (Q := fun r => ∃ c', r = (none, ⟨c', ⟨2 * N, 0, 1, 2 * (2 * N)⟩⟩) ∧
    Clog.Denotes cfg A c' (2 * v)) ?_ ?_
  · refine Ev.bind hd.ev ?_
    rintro ⟨r, c'⟩ ⟨hr, hc⟩
    rw [sym_lt hv] at hr
    rw [next_lt hv] at hc
    simp only at hr
    subst hr
    refine Ev.bind_sat (Sat.of_eq (Coef4.ingestAmplify_sum hf0)) ?_
    rintro _ rfl
    exact Ev.pure ⟨c', rfl, hc⟩
  · rintro _ ⟨c', rfl, hc⟩
    refine Ev.succ ?_
    simp only [Homographic.egest, Coef4.reductionAttempt_sum_amplify (N := 2 * N) (by omega) hf,
      ok_bind]
    exact Ev.pure ⟨c', rfl, hc⟩

/-- One call in the state `2, 0, 1, 1`. -/
theorem Homographic.egest_sum_first {c : Clog} {v : ℚ} (hd : Clog.Denotes cfg A c v)
    (hv : v < 1 / 4) :
    Ev A (fun f j => Homographic.egest cfg (Clog.egest cfg f) j ⟨c, ⟨2, 0, 1, 1⟩⟩)
      (fun r => ∃ c', r = (.ok (some .Amplify), ⟨c', ⟨4, 0, 1, 4⟩⟩) ∧
        Clog.Denotes cfg A c' (2 * (2 * v))) := by
  have hv' : v < 1 / 2 := by linarith
  refine Ev.succ ?_
  simp only [Homographic.egest, Coef4.reductionAttempt_ok (cfg := cfg) (k := ⟨2, 0, 1, 1⟩)
    (r := none) (by decide), ok_bind, Homographic.reductionIngest]
  refine Ev.bind (Q := fun r => ∃ c', r = (none, ⟨c', ⟨2 * 1, 0, 1, 2 * 1⟩⟩) ∧
    Clog.Denotes cfg A c' (2 * v)) ?_ ?_
  · refine Ev.bind hd.ev ?_
    rintro ⟨r, c'⟩ ⟨hr, hc⟩
    rw [sym_lt hv'] at hr
    rw [next_lt hv'] at hc
    simp only at hr
    subst hr
    refine Ev.bind_sat (Sat.of_eq (Coef4.ingestAmplify_sum (M := 1)
      (cfg.fits_small (by norm_num) (by norm_num)))) ?_
    rintro _ rfl
    exact Ev.pure ⟨c', rfl, hc⟩
  · rintro _ ⟨c', rfl, hc⟩
    exact Homographic.egest_sum hc (by linarith) le_rfl
      (cfg.fits_small (by norm_num) (by norm_num))

/-- A call of a boxed `Homographic` that answers a symbol. -/
theorem Homographic.box_egest {h : Homographic} {r : Option Reduction} {P : Homographic → Prop}
    (hE : Ev A (fun f j => Homographic.egest cfg (Clog.egest cfg f) j h)
      (fun t => ∃ h', t = (.ok r, h') ∧ P h')) :
    Ends A (fun f => Clog.egest cfg f h.box) (fun t => ∃ h', t = (r, h'.box) ∧ P h') := by
  refine Clog.egest_ends (Q := fun t => ∃ h', t = (.ok r, Homographic.box h') ∧ P h') ?_ ?_ ?_
  · simp only [Strategy.egest, Homographic.box]
    refine Ev.bind hE ?_
    rintro _ ⟨h', rfl, hP⟩
    exact Ev.pure ⟨h', rfl, hP⟩
  · rintro red s' ⟨h', e, hP⟩
    cases e
    exact ⟨h', rfl, hP⟩
  · rintro new s' ⟨h', e, hP⟩
    cases e

theorem Clog.egests_cons_panics {c c' : Clog} {r} {m : Nat} {p : Panic}
    (h1 : Returns (fun f => Clog.egest cfg f c) (r, c'))
    (h2 : Panics (fun f => Clog.egests cfg f m c') p) :
    Panics (fun f => Clog.egests cfg f (m + 1) c) p := by
  obtain ⟨f1, h1⟩ := h1
  obtain ⟨f2, h2⟩ := h2
  refine ⟨max f1 f2, fun f hf => ?_⟩
  simp only at h1 h2 ⊢
  rw [egests_succ, h1 f (by omega)]
  simp [h2 f (by omega)]

theorem Ends.returns {α : Type} {m : Nat → Out α} {P : α → Prop} (h : Ends NoPanic m P) :
    ∃ a, Returns m a ∧ P a := by
  rcases h with h | ⟨_, _, h⟩
  · exact h
  · exact h.elim

/-- `m` calls from the state `2^k, 0, 1, 2^k`, and one more. -/
theorem Homographic.egests_sum (m : Nat) : ∀ {c : Clog} {v : ℚ} {k : Nat},
    Clog.Denotes cfg NoPanic c v → v < 1 / 2 ^ m → k + 1 + m = cfg.bits - 2 →
    (∃ c', Returns (fun f => Clog.egests cfg f m
        (Homographic.box ⟨c, ⟨2 * 2 ^ k, 0, 1, 2 * 2 ^ k⟩⟩))
      (List.replicate m (some .Amplify), c')) ∧
    Panics (fun f => Clog.egests cfg f (m + 1)
        (Homographic.box ⟨c, ⟨2 * 2 ^ k, 0, 1, 2 * 2 ^ k⟩⟩)) .unwrapNone := by
  induction m with
  | zero =>
    intro c v k hd hv hk
    have hi : (1 : Int) ≤ 2 ^ k := one_le_pow₀ (by norm_num)
    have hb := cfg.hbits
    have e1 : (2 : Int) * 2 ^ k = 2 ^ (k + 1) := by rw [pow_succ]; ring
    have e2 : (2 : Int) * (2 * 2 ^ k) = 2 ^ (k + 2) := by rw [pow_succ, pow_succ]; ring
    have hn : ¬cfg.Fits (2 * (2 * 2 ^ k)) := by rw [e2]; exact cfg.not_fits_pow (by omega)
    have hf : cfg.Fits (2 * 2 ^ k + 1) := by
      have hm : (2 : Int) * (2 * 2 ^ k) = 2 ^ (cfg.bits - 1) := by
        rw [e2]; congr 1; omega
      have h16 : (2 : Int) ^ 15 ≤ 2 ^ (cfg.bits - 1) :=
        pow_le_pow_right₀ (by norm_num) (by omega)
      constructor
      · simp only [Cfg.imin]; omega
      · simp only [Cfg.imax]; omega
    refine ⟨⟨_, 0, fun _ _ => rfl⟩, ?_⟩
    refine ⟨2, fun f hf' => ?_⟩
    obtain ⟨f, rfl⟩ : ∃ g, f = g + 2 := ⟨f - 2, by omega⟩
    simp only [egests_succ, Clog.egest, Homographic.box, Strategy.egest, Homographic.egest,
      Coef4.reductionAttempt_sum_overflow hi hf hn, panic_bind]
  | succ m ih =>
    intro c v k hd hv hk
    have hi : (1 : Int) ≤ 2 ^ k := one_le_pow₀ (by norm_num)
    have hb := cfg.hbits
    have e2 : (2 : Int) * (2 * 2 ^ k) = 2 ^ (k + 2) := by rw [pow_succ, pow_succ]; ring
    have e3 : (2 : Int) * 2 ^ (k + 1) = 2 * (2 * 2 ^ k) := by rw [pow_succ]; ring
    have hf : cfg.Fits (2 * (2 * 2 ^ k) + 1) := by
      have hm : (2 : Int) ^ (k + 2) ≤ 2 ^ (cfg.bits - 2) :=
        pow_le_pow_right₀ (by norm_num) (by omega)
      have hm' : (2 : Int) ^ (cfg.bits - 1) = 2 * 2 ^ (cfg.bits - 2) := by
        rw [show cfg.bits - 1 = cfg.bits - 2 + 1 by omega, pow_succ]; ring
      constructor
      · simp only [Cfg.imin]; omega
      · simp only [Cfg.imax]; omega
    have hv2 : v < 1 / 2 := by
      refine hv.trans_le ?_
      rw [pow_succ, div_le_div_iff₀ (by positivity) (by norm_num)]
      have : (1 : ℚ) ≤ 2 ^ m := one_le_pow₀ (by norm_num)
      linarith
    have hv3 : 2 * v < 1 / 2 ^ m := by
      rw [pow_succ, lt_div_iff₀ (by positivity)] at hv
      rw [lt_div_iff₀ (by positivity)]
      linarith
    obtain ⟨t, ht, h', rfl, c', rfl, hc⟩ := (Homographic.box_egest
      (P := fun h' => ∃ c', h' = ⟨c', ⟨2 * (2 * 2 ^ k), 0, 1, 2 * (2 * 2 ^ k)⟩⟩ ∧
        Clog.Denotes cfg NoPanic c' (2 * v))
      ((Homographic.egest_sum hd hv2 hi hf).mono (by
        rintro _ ⟨c', rfl, hc⟩; exact ⟨_, rfl, c', rfl, hc⟩))).returns
    obtain ⟨⟨c'', h1⟩, h2⟩ := ih (k := k + 1) hc hv3 (by omega)
    rw [e3] at h1 h2
    exact ⟨⟨c'', Clog.egests_cons ht h1⟩, Clog.egests_cons_panics ht h2⟩

/-- Reading `x/(x+1)` for a small `x`. -/
theorem Homographic.egests_sum_first {c : Clog} {v : ℚ} (hd : Clog.Denotes cfg NoPanic c v)
    (hv : v < 1 / 2 ^ (cfg.bits - 2)) :
    (∃ c', Returns (fun f => Clog.egests cfg f (cfg.bits - 2) (Homographic.box ⟨c, ⟨1, 0, 1, 1⟩⟩))
      (List.replicate (cfg.bits - 2) (some .Amplify), c')) ∧
    Panics (fun f => Clog.egests cfg f (cfg.bits - 1) (Homographic.box ⟨c, ⟨1, 0, 1, 1⟩⟩))
      .unwrapNone := by
  have hb := cfg.hbits
  have e4 : (2 : ℚ) ^ (cfg.bits - 2) = 2 ^ (cfg.bits - 4) * 4 := by
    rw [show cfg.bits - 2 = cfg.bits - 4 + 2 by omega, pow_add]; norm_num
  have hp : (1 : ℚ) ≤ 2 ^ (cfg.bits - 4) := one_le_pow₀ (by norm_num)
  have hv2 : 2 * (2 * v) < 1 / 2 ^ (cfg.bits - 4) := by
    rw [e4, lt_div_iff₀ (by positivity)] at hv
    rw [lt_div_iff₀ (by positivity)]
    linarith
  have hv4 : v < 1 / 4 := by
    rw [lt_div_iff₀ (by positivity)] at hv2
    have := hd.1
    nlinarith
  obtain ⟨t, ht, h', rfl, rfl⟩ := (Homographic.box_egest (cfg := cfg) (A := NoPanic)
    (h := ⟨c, ⟨1, 0, 1, 1⟩⟩) (r := some .Amplify) (P := fun h' => h' = ⟨c, ⟨2, 0, 1, 1⟩⟩)
    (by
      refine Ev.succ ?_
      simp only [Homographic.egest, Coef4.reductionAttempt_ok (cfg := cfg) (k := ⟨1, 0, 1, 1⟩)
        (r := some (some .Amplify, ⟨2, 0, 1, 1⟩)) (by decide), ok_bind]
      exact Ev.pure ⟨_, rfl, rfl⟩)).returns
  obtain ⟨t, ht', h', rfl, c', rfl, hc⟩ := (Homographic.box_egest
    (P := fun h' => ∃ c', h' = ⟨c', ⟨4, 0, 1, 4⟩⟩ ∧ Clog.Denotes cfg NoPanic c' (2 * (2 * v)))
    ((Homographic.egest_sum_first hd hv4).mono (by
      rintro _ ⟨c', rfl, hc⟩; exact ⟨_, rfl, c', rfl, hc⟩))).returns
  obtain ⟨⟨c'', h1⟩, h2⟩ := Homographic.egests_sum (cfg.bits - 4) (k := 1) hc hv2 (by omega)
  rw [show cfg.bits - 1 = cfg.bits - 4 + 1 + 1 + 1 by omega,
    show cfg.bits - 2 = cfg.bits - 4 + 1 + 1 by omega]
  exact ⟨⟨c'', Clog.egests_cons ht (Clog.egests_cons ht' h1)⟩,
    Clog.egests_cons_panics ht (Clog.egests_cons_panics ht' h2)⟩

end Clarith
