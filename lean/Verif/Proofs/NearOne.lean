import Verif.Proofs.AddOne

/-! # Twice a number just below one, half a number just above one

The states met are `N, 0, -1, 2N` for powers of two `N`. -/

namespace Clarith

open Out Spec

variable {cfg : Cfg} {A : Panic → Prop}

namespace Coef4

theorem diff_range {N M : Int} (h0 : 1 ≤ N) (h1 : N < M) (hf : cfg.Fits M) :
    (⟨N, 0, -1, M⟩ : Coef4).imageExtremes cfg = .ok (0, 1, N, M - 1) ∧
    (⟨N, 0, -1, M⟩ : Coef4).areSingularitiesOutsideDomain cfg = .ok true := by
  have cN : ∀ z : Int, -M ≤ z → z ≤ M → cfg.checked z = .ok z :=
    fun z h h' => cfg.checked_eq (cfg.fits_le hf h h')
  have c0 := cN (M - 1) (by omega) (by omega)
  have c1 := cN N (by omega) (by omega)
  have c2 := cN 0 (by omega) (by omega)
  have hs := signs M (by omega)
  have hs2 := signs (M - 1) (by omega)
  have hr : Support.normalise cfg 0 M = .ok (0, 1) := by
    simp only [Support.normalise, pure_eq, show ¬M = 0 by omega, show ¬M < 0 by omega,
      if_false, ok_bind, if_true]
  have hr' : Support.normalise cfg N (M - 1) = .ok (N, M - 1) := by
    simp only [Support.normalise, pure_eq, show ¬M - 1 = 0 by omega, show ¬M - 1 < 0 by omega,
      show ¬N = 0 by omega, if_false, ok_bind]
  have hl : Support.lessThan cfg N (M - 1) 0 1 = .ok false := by
    simp only [Support.lessThan, Support.compareReduce, Cfg.cmul, mul_one, zero_mul, c1, c2, ok_bind,
      pure_eq]
    rw [decide_eq_false (by omega)]
  have hg : Support.greaterThan cfg N (M - 1) 0 1 = .ok true := by
    simp only [Support.greaterThan, Support.compareReduce, Cfg.cmul, mul_one, zero_mul, c1, c2,
      ok_bind, pure_eq]
    rw [decide_eq_true (by omega)]
  have a1 : M + -1 = M - 1 := rfl
  have a2 : -1 + M = M - 1 := by omega
  constructor
  · simp [imageExtremes, valueAtZero, valueAtOne, Cfg.cadd, a1, c0, c1, show ¬M = 0 by omega,
      show ¬N = 0 by omega, Support.updatedRange, hr, hr', hl, hg, pure_eq]
  · simp [areSingularitiesOutsideDomain, isZeroOutsideDomain, isPoleOutsideDomain,
      isDomainAmenable, Cfg.cadd, a2, c0, hs, hs2, Out.and, pure_eq]

theorem odd_pred (N : Int) (h : 1 ≤ N) : ¬(2 * N - 1).tmod 2 = 0 := by
  rw [Int.tmod_eq_emod_of_nonneg (by omega)]; omega

/-- `N * x / (2N - x)`: no symbol yet. -/
theorem reductionAttempt_diff {N : Int} (h1 : 1 ≤ N) (hf : cfg.Fits (2 * N)) :
    (⟨N, 0, -1, 2 * N⟩ : Coef4).reductionAttempt cfg = .ok none := by
  obtain ⟨hi, hsing⟩ := diff_range (N := N) (M := 2 * N) (by omega) (by omega) hf
  have c0 := cfg.checked_eq hf
  have c2 : cfg.checked 0 = .ok 0 := cfg.checked_eq (cfg.fits_small (by norm_num) (by norm_num))
  have e1 : Support.lessThanZero 0 1 = false := by decide
  have e2 : Support.greaterThanOne N (2 * N - 1) = false := by
    simp only [Support.greaterThanOne, show 2 * N - 1 > 0 by omega, if_true]
    rw [decide_eq_false (by omega)]
  have d0 : Support.doubled cfg 0 1 = .ok (0, 1) := by
    simp [Support.doubled, Cfg.cmul, c2, pure_eq]
  have d1 : Support.doubled cfg N (2 * N - 1) = .ok (2 * N, 2 * N - 1) := by
    simp only [Support.doubled, odd_pred N h1, if_false, Cfg.cmul, mul_comm N 2, c0,
      ok_bind, pure_eq]
  have e3 : Support.equalToOneHalf cfg 0 1 = .ok false := by
    simp only [Support.equalToOneHalf, d0, ok_bind, pure_eq]; rfl
  have e4 : Support.greaterThanOneHalf cfg N (2 * N - 1) = .ok true := by
    simp only [Support.greaterThanOneHalf, d1, ok_bind, pure_eq, show 2 * N - 1 > 0 by omega,
      if_true]
    rw [decide_eq_true (by omega)]
  have e5 : Support.lessThanOneHalf cfg 0 1 = .ok true := by
    simp only [Support.lessThanOneHalf, d0, ok_bind, pure_eq]; rfl
  simp [reductionAttempt, hsing, reductionEgest, hi, e1, e2, e3, e4, e5, Out.and, pure_eq]

/-- `N * x / (4N - x)`: `Amplify`. -/
theorem reductionAttempt_diff_amplify {N : Int} (h1 : 1 ≤ N) (hf : cfg.Fits (2 * (2 * N))) :
    (⟨N, 0, -1, 2 * (2 * N)⟩ : Coef4).reductionAttempt cfg =
      .ok (some (some .Amplify, ⟨2 * N, 0, -1, 2 * (2 * N)⟩)) := by
  obtain ⟨hi, hsing⟩ := diff_range (N := N) (M := 2 * (2 * N)) (by omega) (by omega) hf
  have c0 : cfg.checked (2 * N) = .ok (2 * N) :=
    cfg.checked_eq (cfg.fits_le hf (by omega) (by omega))
  have c2 : cfg.checked 0 = .ok 0 := cfg.checked_eq (cfg.fits_small (by norm_num) (by norm_num))
  have e1 : Support.lessThanZero 0 1 = false := by decide
  have e2 : Support.greaterThanOne N (2 * (2 * N) - 1) = false := by
    simp only [Support.greaterThanOne, show 2 * (2 * N) - 1 > 0 by omega, if_true]
    rw [decide_eq_false (by omega)]
  have d0 : Support.doubled cfg 0 1 = .ok (0, 1) := by
    simp [Support.doubled, Cfg.cmul, c2, pure_eq]
  have d1 : Support.doubled cfg N (2 * (2 * N) - 1) = .ok (2 * N, 2 * (2 * N) - 1) := by
    simp only [Support.doubled, odd_pred (2 * N) (by omega), if_false, Cfg.cmul, mul_comm N 2, c0,
      ok_bind, pure_eq]
  have e3 : Support.equalToOneHalf cfg 0 1 = .ok false := by
    simp only [Support.equalToOneHalf, d0, ok_bind, pure_eq]; rfl
  have e4 : Support.greaterThanOneHalf cfg N (2 * (2 * N) - 1) = .ok false := by
    simp only [Support.greaterThanOneHalf, d1, ok_bind, pure_eq,
      show 2 * (2 * N) - 1 > 0 by omega, if_true]
    rw [decide_eq_false (by omega)]
  have hg : (⟨N, 0, -1, 2 * (2 * N)⟩ : Coef4).amplify cfg =
      .ok ⟨2 * N, 0, -1, 2 * (2 * N)⟩ := by
    simp [amplify, show isOdd (-1) = true by decide, Cfg.cmul, mul_comm N 2, c0, c2, pure_eq]
  simp [reductionAttempt, hsing, reductionEgest, hi, e1, e2, e3, e4, hg, Out.and, pure_eq]

theorem ingestAmplify_diff {N M : Int} (hf : cfg.Fits (2 * M)) :
    (⟨N, 0, -1, M⟩ : Coef4).ingestAmplify cfg = .ok ⟨N, 0, -1, 2 * M⟩ := by
  have c0 := cfg.checked_eq hf
  have c2 : cfg.checked 0 = .ok 0 := cfg.checked_eq (cfg.fits_small (by norm_num) (by norm_num))
  simp [ingestAmplify, show isOdd (-1) = true by decide, Cfg.cmul, mul_comm M 2, c0, c2, pure_eq]

/-- `N / (2N * x + 2N - 1)` for a large `N`. -/
theorem reductionAttempt_diff_overflow {N : Int} (h1 : 3 ≤ N) (hf : cfg.Fits (2 * (2 * N) - 1))
    (hn : ¬cfg.Fits (2 * (2 * N))) :
    (⟨0, N, 2 * N, 2 * N - 1⟩ : Coef4).reductionAttempt cfg = .panic .unwrapNone := by
  have cN : ∀ z : Int, -(2 * (2 * N) - 1) ≤ z → z ≤ 2 * (2 * N) - 1 → cfg.checked z = .ok z :=
    fun z h h' => cfg.checked_eq (cfg.fits_le hf h h')
  have a1 : 2 * N + (2 * N - 1) = 2 * (2 * N) - 1 := by omega
  have a2 : (2 * N - 1) + 2 * N = 2 * (2 * N) - 1 := by omega
  have c0 := cN _ (by omega) le_rfl
  have c1 := cN N (by omega) (by omega)
  have hs := signs N (by omega)
  have hs1 := signs (2 * N - 1) (by omega)
  have hs2 := signs (2 * (2 * N) - 1) (by omega)
  have hsing : (⟨0, N, 2 * N, 2 * N - 1⟩ : Coef4).areSingularitiesOutsideDomain cfg = .ok true := by
    simp [areSingularitiesOutsideDomain, isZeroOutsideDomain, isPoleOutsideDomain,
      isDomainAmenable, Cfg.cadd, a1, c0, c1, hs, hs1, hs2, Out.and, pure_eq]
  have hr : Support.normalise cfg N (2 * N - 1) = .ok (N, 2 * N - 1) := by
    simp only [Support.normalise, pure_eq, show ¬2 * N - 1 = 0 by omega,
      show ¬2 * N - 1 < 0 by omega, show ¬N = 0 by omega, if_false, ok_bind]
  have hr' : Support.normalise cfg N (2 * (2 * N) - 1) = .ok (N, 2 * (2 * N) - 1) := by
    simp only [Support.normalise, pure_eq, show ¬2 * (2 * N) - 1 = 0 by omega,
      show ¬2 * (2 * N) - 1 < 0 by omega, show ¬N = 0 by omega, if_false, ok_bind]
  have hbig : ¬cfg.Fits (N * (2 * N - 1)) := by
    intro h
    apply hn
    refine cfg.fits_le h ?_ ?_ <;> nlinarith
  have cb : cfg.checked (N * (2 * N - 1)) = .panic .unwrapNone := by
    unfold Cfg.checked; exact if_neg hbig
  have hl : Support.lessThan cfg N (2 * (2 * N) - 1) N (2 * N - 1) = .panic .unwrapNone := by
    simp only [Support.lessThan, Support.compareReduce, Cfg.cmul, cb, panic_bind]
  have hi : (⟨0, N, 2 * N, 2 * N - 1⟩ : Coef4).imageExtremes cfg = .panic .unwrapNone := by
    simp [imageExtremes, valueAtZero, valueAtOne, Cfg.cadd, a2, c0, c1, show ¬N = 0 by omega,
      Support.updatedRange, hr, hr', hl, pure_eq]
  simp [reductionAttempt, hsing, reductionEgest, hi]

end Coef4

/-- One call in the state `N, 0, -1, 2N`. -/
theorem Homographic.egest_diff {c : Clog} {v : ℚ} {N : Int} (hd : Clog.Denotes cfg A c v)
    (hv : v < 1 / 2) (h1 : 1 ≤ N) (hf : cfg.Fits (2 * (2 * N))) :
    Ev A (fun f j => Homographic.egest cfg (Clog.egest cfg f) j ⟨c, ⟨N, 0, -1, 2 * N⟩⟩)
      (fun r => ∃ h', r = (.ok (some .Amplify), h') ∧
        ∃ c', h' = ⟨c', ⟨2 * N, 0, -1, 2 * (2 * N)⟩⟩ ∧ Clog.Denotes cfg A c' (2 * v)) := by
  have hf0 : cfg.Fits (2 * N) := cfg.fits_le hf (by omega) (by omega)
  refine Ev.succ ?_
  simp only [Homographic.egest, Coef4.reductionAttempt_diff h1 hf0, ok_bind,
    Homographic.reductionIngest]
  refine Ev.bind (Q := fun r => ∃ c', r = (none, ⟨c', ⟨N, 0, -1, 2 * (2 * N)⟩⟩) ∧
    Clog.Denotes cfg A c' (2 * v)) ?_ ?_
  · refine Ev.bind hd.ev ?_
    rintro ⟨r, c'⟩ ⟨hr, hc⟩
    rw [sym_lt hv] at hr
    rw [next_lt hv] at hc
    simp only at hr
    subst hr
    refine Ev.bind_sat (Sat.of_eq (Coef4.ingestAmplify_diff hf)) ?_
    rintro _ rfl
    exact Ev.pure ⟨c', rfl, hc⟩
  · rintro _ ⟨c', rfl, hc⟩
    refine Ev.succ ?_
    simp only [Homographic.egest, Coef4.reductionAttempt_diff_amplify h1 hf, ok_bind]
    exact Ev.pure ⟨_, rfl, c', rfl, hc⟩

/-- A boxed `Homographic` whose call panics. -/
theorem Homographic.box_panics {h : Homographic} {p : Panic}
    (hE : Ev (fun q => q = p) (fun f j => Homographic.egest cfg (Clog.egest cfg f) j h)
      (fun _ => False)) :
    Panics (fun f => Clog.egests cfg f 1 h.box) p := by
  have : Ends (fun q => q = p) (fun f => Clog.egest cfg f h.box) (fun _ => False) := by
    refine Clog.egest_ends (Q := fun _ => False) ?_ (fun _ _ h => h.elim) (fun _ _ h => h.elim)
    simp only [Strategy.egest, Homographic.box]
    exact Ev.bind hE fun _ h => h.elim
  rcases this with ⟨_, _, h⟩ | ⟨_, ⟨f0, h⟩, rfl⟩
  · exact h.elim
  · refine ⟨f0, fun f hf => ?_⟩
    simp only at h ⊢
    simp [egests_succ, h f hf]

/-- The call in the state `N, 0, -1, 2N` for the greatest `N` there is. -/
theorem Homographic.egest_diff_overflow {c : Clog} {v : ℚ} {N : Int}
    (hd : Clog.Denotes cfg NoPanic c v) (h1 : 3 ≤ N) (hf : cfg.Fits (2 * (2 * N) - 1))
    (hn : ¬cfg.Fits (2 * (2 * N))) :
    Ev (fun q => q = .unwrapNone)
      (fun f j => Homographic.egest cfg (Clog.egest cfg f) j ⟨c, ⟨N, 0, -1, 2 * N⟩⟩)
      (fun _ => False) := by
  have hd' : Clog.Denotes cfg (fun p => p = .unwrapNone) c v := hd.exact_any
  have hf0 : cfg.Fits (2 * N) := cfg.fits_le hf (by omega) (by omega)
  have cN : ∀ z : Int, -(2 * (2 * N) - 1) ≤ z → z ≤ 2 * (2 * N) - 1 → cfg.checked z = .ok z :=
    fun z h h' => cfg.checked_eq (cfg.fits_le hf h h')
  have c0 := cN 0 (by omega) (by omega)
  have c1 := cN N (by omega) (by omega)
  have c2 := cN (2 * N - 1) (by omega) (by omega)
  have cb : cfg.checked (2 * (2 * N)) = .panic .unwrapNone := by
    unfold Cfg.checked; exact if_neg hn
  have o1 : isOdd (-1) = true := by decide
  have a1 : 2 * N * 2 = 2 * (2 * N) := mul_comm _ _
  have a2 : -1 + 2 * N = 2 * N - 1 := by omega
  refine Ev.succ ?_
  simp only [Homographic.egest, Coef4.reductionAttempt_diff (by omega : 1 ≤ N) hf0, ok_bind,
    Homographic.reductionIngest]
  refine Ev.bind (Q := fun r => ∃ c', r = (none, ⟨c', ⟨0, N, 2 * N, 2 * N - 1⟩⟩)) ?_ ?_
  · refine Ev.bind hd'.ev ?_
    rintro ⟨r, c'⟩ -
    rcases r with _ | _ | _
    · refine Ev.bind_sat (Q := fun _ => False) (Sat.of_panic (p := .unwrapNone) ?_ rfl) ?_
      · simp [Coef4.valueAtOneHalf, o1, Cfg.cmul, Cfg.cadd, a1, c0, c1, cb]
      · exact fun _ h => h.elim
    · refine Ev.bind_sat (Q := fun _ => False) (Sat.of_panic (p := .unwrapNone) ?_ rfl) ?_
      · simp [Coef4.ingestAmplify, o1, Cfg.cmul, a1, c0, cb]
      · exact fun _ h => h.elim
    · have : (⟨N, 0, -1, 2 * N⟩ : Coef4).ingestUncover cfg = .ok ⟨0, N, 2 * N, 2 * N - 1⟩ := by
        simp [Coef4.ingestUncover, Cfg.cadd, a2, c1, c2, pure_eq]
      refine Ev.bind_sat (Sat.of_eq this) ?_
      rintro _ rfl
      exact Ev.pure ⟨c', rfl⟩
  · rintro _ ⟨c', rfl⟩
    refine Ev.succ ?_
    simp only [Homographic.egest]
    exact Ev.bind_sat (Q := fun _ => False) (Sat.of_panic (p := .unwrapNone)
      (Coef4.reductionAttempt_diff_overflow h1 hf hn) rfl) fun _ h => h.elim

/-- `m` calls from the state `2^k, 0, -1, 2^(k+1)`, and one more. -/
theorem Homographic.egests_diff (m : Nat) : ∀ {c : Clog} {v : ℚ} {k : Nat},
    Clog.Denotes cfg NoPanic c v → v < 1 / 2 ^ m → k + m = cfg.bits - 3 →
    (∃ c', Returns (fun f => Clog.egests cfg f m
        (Homographic.box ⟨c, ⟨2 ^ k, 0, -1, 2 * 2 ^ k⟩⟩))
      (List.replicate m (some .Amplify), c')) ∧
    Panics (fun f => Clog.egests cfg f (m + 1)
        (Homographic.box ⟨c, ⟨2 ^ k, 0, -1, 2 * 2 ^ k⟩⟩)) .unwrapNone := by
  induction m with
  | zero =>
    intro c v k hd hv hk
    have hb := cfg.hbits
    have hi : (2 : Int) ^ 2 ≤ 2 ^ k := pow_le_pow_right₀ (by norm_num) (by omega)
    have e2 : (2 : Int) * (2 * 2 ^ k) = 2 ^ (k + 2) := by rw [pow_succ, pow_succ]; ring
    have hn : ¬cfg.Fits (2 * (2 * 2 ^ k)) := by rw [e2]; exact cfg.not_fits_pow (by omega)
    have hf : cfg.Fits (2 * (2 * 2 ^ k) - 1) := by
      have hm : (2 : Int) * (2 * 2 ^ k) = 2 ^ (cfg.bits - 1) := by
        rw [e2]; congr 1; omega
      constructor
      · simp only [Cfg.imin]; omega
      · simp only [Cfg.imax]; omega
    exact ⟨⟨_, 0, fun _ _ => rfl⟩, Homographic.box_panics
      (Homographic.egest_diff_overflow hd (by omega) hf hn)⟩
  | succ m ih =>
    intro c v k hd hv hk
    have hi : (1 : Int) ≤ 2 ^ k := one_le_pow₀ (by norm_num)
    have hb := cfg.hbits
    have e2 : (2 : Int) * (2 * 2 ^ k) = 2 ^ (k + 2) := by rw [pow_succ, pow_succ]; ring
    have e3 : (2 : Int) ^ (k + 1) = 2 * 2 ^ k := by rw [pow_succ]; ring
    have hf : cfg.Fits (2 * (2 * 2 ^ k)) := by rw [e2]; exact cfg.fits_pow (by omega)
    have hv2 : v < 1 / 2 := by
      refine hv.trans_le ?_
      rw [pow_succ, div_le_div_iff₀ (by positivity) (by norm_num)]
      have : (1 : ℚ) ≤ 2 ^ m := one_le_pow₀ (by norm_num)
      linarith
    have hv3 : 2 * v < 1 / 2 ^ m := by
      rw [pow_succ, lt_div_iff₀ (by positivity)] at hv
      rw [lt_div_iff₀ (by positivity)]
      linarith
    obtain ⟨t, ht, h', rfl, c', rfl, hc⟩ :=
      (Homographic.box_egest (Homographic.egest_diff hd hv2 hi hf)).returns
    obtain ⟨⟨c'', h1⟩, h2⟩ := ih (k := k + 1) hc hv3 (by omega)
    rw [e3] at h1 h2
    exact ⟨⟨c'', Clog.egests_cons ht h1⟩, Clog.egests_cons_panics ht h2⟩

/-- Reading `(1+y)/2` for a small `y`: two symbols `Uncover`, then `Amplify`. -/
theorem Homographic.egests_diff_first {c : Clog} {v : ℚ} (hd : Clog.Denotes cfg NoPanic c v)
    (hv : v < 1 / 2 ^ (cfg.bits - 2)) :
    (∃ c', Returns (fun f => Clog.egests cfg f (cfg.bits - 2) (Homographic.box ⟨c, ⟨1, 1, 0, 2⟩⟩))
      (some .Uncover :: some .Uncover :: List.replicate (cfg.bits - 4) (some .Amplify), c')) ∧
    Panics (fun f => Clog.egests cfg f (cfg.bits - 1) (Homographic.box ⟨c, ⟨1, 1, 0, 2⟩⟩))
      .unwrapNone := by
  have hb := cfg.hbits
  have e4 : (2 : ℚ) ^ (cfg.bits - 2) = 2 ^ (cfg.bits - 4) * 4 := by
    rw [show cfg.bits - 2 = cfg.bits - 4 + 2 by omega, pow_add]; norm_num
  have hp : (1 : ℚ) ≤ 2 ^ (cfg.bits - 4) := one_le_pow₀ (by norm_num)
  have hv2 : 2 * (2 * v) < 1 / 2 ^ (cfg.bits - 4) := by
    rw [e4, lt_div_iff₀ (by positivity)] at hv
    rw [lt_div_iff₀ (by positivity)]
    linarith
  have hv4 : v < 1 / 4 := by
    rw [lt_div_iff₀ (by positivity)] at hv2
    have := hd.1
    nlinarith
  have hva : v < 1 / 2 := by linarith
  have hvb : 2 * v < 1 / 2 := by linarith
  obtain ⟨t, ht, h', rfl, rfl⟩ := (Homographic.box_egest (cfg := cfg) (A := NoPanic)
    (h := ⟨c, ⟨1, 1, 0, 2⟩⟩) (r := some .Uncover) (P := fun h' => h' = ⟨c, ⟨-1, 1, 1, 1⟩⟩)
    (by
      refine Ev.succ ?_
      simp only [Homographic.egest, Coef4.reductionAttempt_ok (cfg := cfg) (k := ⟨1, 1, 0, 2⟩)
        (r := some (some .Uncover, ⟨-1, 1, 1, 1⟩)) (by decide), ok_bind]
      exact Ev.pure ⟨_, rfl, rfl⟩)).returns
  obtain ⟨t, ht', h', rfl, c', rfl, hc⟩ := (Homographic.box_egest (cfg := cfg) (A := NoPanic)
    (h := ⟨c, ⟨-1, 1, 1, 1⟩⟩) (r := some .Uncover)
    (P := fun h' => ∃ c', h' = ⟨c', ⟨2, 0, -1, 4⟩⟩ ∧ Clog.Denotes cfg NoPanic c' (2 * (2 * v)))
    (by
      refine Ev.succ ?_
      simp only [Homographic.egest, Coef4.reductionAttempt_ok (cfg := cfg) (k := ⟨-1, 1, 1, 1⟩)
        (r := none) (by decide), ok_bind, Homographic.reductionIngest]
      refine Ev.bind (Q := fun r => ∃ c', r = (none, ⟨c', ⟨-1, 2, 1, 2⟩⟩) ∧
        Clog.Denotes cfg NoPanic c' (2 * v)) ?_ ?_
      · refine Ev.bind hd.ev ?_
        rintro ⟨r, c'⟩ ⟨hr, hc⟩
        rw [sym_lt hva] at hr
        rw [next_lt hva] at hc
        simp only at hr
        subst hr
        refine Ev.bind_sat (Sat.of_eq (Coef4.ingestAmplify_ok (k' := ⟨-1, 2, 1, 2⟩)
          (by decide))) ?_
        rintro _ rfl
        exact Ev.pure ⟨c', rfl, hc⟩
      rintro _ ⟨c', rfl, hc⟩
      refine Ev.succ ?_
      simp only [Homographic.egest, Coef4.reductionAttempt_ok (cfg := cfg) (k := ⟨-1, 2, 1, 2⟩)
        (r := none) (by decide), ok_bind, Homographic.reductionIngest]
      refine Ev.bind (Q := fun r => ∃ c', r = (none, ⟨c', ⟨-1, 4, 1, 4⟩⟩) ∧
        Clog.Denotes cfg NoPanic c' (2 * (2 * v))) ?_ ?_
      · refine Ev.bind hc.ev ?_
        rintro ⟨r, c'⟩ ⟨hr, hc⟩
        rw [sym_lt hvb] at hr
        rw [next_lt hvb] at hc
        simp only at hr
        subst hr
        refine Ev.bind_sat (Sat.of_eq (Coef4.ingestAmplify_ok (k' := ⟨-1, 4, 1, 4⟩)
          (by decide))) ?_
        rintro _ rfl
        exact Ev.pure ⟨c', rfl, hc⟩
      rintro _ ⟨c', rfl, hc⟩
      refine Ev.succ ?_
      simp only [Homographic.egest, Coef4.reductionAttempt_ok (cfg := cfg) (k := ⟨-1, 4, 1, 4⟩)
        (r := some (some .Uncover, ⟨2, 0, -1, 4⟩)) (by decide), ok_bind]
      exact Ev.pure ⟨_, rfl, c', rfl, hc⟩)).returns
  obtain ⟨⟨c'', h1⟩, h2⟩ := Homographic.egests_diff (cfg.bits - 4) (k := 1) hc hv2 (by omega)
  rw [show cfg.bits - 1 = cfg.bits - 4 + 1 + 1 + 1 by omega,
    show cfg.bits - 2 = cfg.bits - 4 + 1 + 1 by omega]
  exact ⟨⟨c'', Clog.egests_cons ht (Clog.egests_cons ht' h1)⟩,
    Clog.egests_cons_panics ht (Clog.egests_cons_panics ht' h2)⟩

end Clarith
