import Verif.Proofs.Unity

/-! # The reciprocal of a number between minus one and zero

The states met are `0, 2^k, -1, 0` while the primer is looked for, and `0, 1, 2^k, 2^k` once it is
found. -/

namespace Clarith

open Out Spec

variable {cfg : Cfg} {A : Panic → Prop}

theorem Cfg.checked_eq {z : Int} (h : cfg.Fits z) : cfg.checked z = .ok z := by
  unfold Cfg.checked; exact if_pos h

theorem Cfg.unchecked_eq {z : Int} (h : cfg.Fits z) : cfg.unchecked z = .ok z := by
  unfold Cfg.unchecked; exact if_pos h

theorem Cfg.fits_small {z : Int} (h : -32767 ≤ z) (h' : z ≤ 32767) : cfg.Fits z := by
  have h1 := cfg.imax_ge
  have h2 := cfg.imin_eq
  constructor <;> omega

theorem Cfg.fits_le {z N : Int} (h : cfg.Fits N) (h1 : -N ≤ z) (h2 : z ≤ N) : cfg.Fits z := by
  have := cfg.imin_eq
  obtain ⟨h3, h4⟩ := h
  constructor <;> omega

theorem Cfg.fits_pow (cfg : Cfg) {n : Nat} (h : n ≤ cfg.bits - 2) : cfg.Fits (2 ^ n) := by
  have := cfg.hbits
  have h1 : (2 : Int) ^ n < 2 ^ (cfg.bits - 1) := pow_lt_pow_right₀ (by norm_num) (by omega)
  have h2 : (0 : Int) < 2 ^ n := by positivity
  constructor
  · simp only [Cfg.imin]; omega
  · simp only [Cfg.imax]; omega

theorem Cfg.not_fits_pow (cfg : Cfg) {n : Nat} (h : cfg.bits - 1 ≤ n) : ¬cfg.Fits (2 ^ n) := by
  have h1 : (2 : Int) ^ (cfg.bits - 1) ≤ 2 ^ n := pow_le_pow_right₀ (by norm_num) h
  intro hf
  have := hf.2
  simp only [Cfg.imax] at this
  omega

namespace Coef4

theorem signs (N : Int) (h : 1 ≤ N) : N.sign = 1 := Int.sign_eq_one_of_pos (by omega)

/-- `-N/x`, with `x` anywhere between zero and one: no primer yet. -/
theorem primerAttempt_neg_turn {N : Int} (h1 : 1 ≤ N) (hf : cfg.Fits N) :
    (⟨0, N, -1, 0⟩ : Coef4).primerAttempt cfg = .ok none := by
  have c0 := cfg.checked_eq hf
  have c1 : cfg.checked (-1) = .ok (-1) := cfg.checked_eq (cfg.fits_small (by norm_num) (by norm_num))
  have c2 : cfg.checked 0 = .ok 0 := cfg.checked_eq (cfg.fits_small (by norm_num) (by norm_num))
  have c3 : cfg.checked 1 = .ok 1 := cfg.checked_eq (cfg.fits_small (by norm_num) (by norm_num))
  have u0 : cfg.unchecked (-N) = .ok (-N) := cfg.unchecked_eq (cfg.fits_le hf (by omega) (by omega))
  have u1 : cfg.unchecked 1 = .ok 1 := cfg.unchecked_eq (cfg.fits_small (by norm_num) (by norm_num))
  have u2 : cfg.unchecked (-1) = .ok (-1) :=
    cfg.unchecked_eq (cfg.fits_small (by norm_num) (by norm_num))
  have hs := signs N h1
  have n0 : N ≠ 0 := by omega
  have n1 : ¬N = 0 := n0
  have hr : Support.normalise cfg N 0 = .ok (1, 0) := by
    simp [Support.normalise, hs, pure_eq]
  have hr' : Support.normalise cfg N (-1) = .ok (-N, 1) := by
    simp [Support.normalise, Cfg.mul, u0, u1, pure_eq]
  have hl : Support.lessThan cfg (-N) 1 1 0 = .ok true := by
    simp [Support.lessThan, Support.compareReduce, Cfg.cmul, c2, c3, pure_eq]
  have hm : Support.lessThanMinusOne cfg (-N) 1 = .ok (decide (-N < -1)) := by
    simp [Support.lessThanMinusOne, Cfg.neg, u2, pure_eq]
  have hi : (⟨0, N, -1, 0⟩ : Coef4).imageExtremes cfg = .ok (-N, 1, 1, 0) := by
    simp [imageExtremes, valueAtZero, valueAtOne, Cfg.cadd, c0, c1, n1, Support.updatedRange, hr,
      hr', hl, pure_eq]
  have hsing : (⟨0, N, -1, 0⟩ : Coef4).areSingularitiesOutsideDomain cfg = .ok true := by
    simp [areSingularitiesOutsideDomain, isZeroOutsideDomain, isPoleOutsideDomain,
      isDomainAmenable, Cfg.cadd, c0, hs, Out.and, pure_eq]
  have e1 : Support.areSame (-N) 1 1 0 = false := by simp [Support.areSame]
  have e2 : Support.greaterThanMinusOne cfg 1 0 = .ok true := by
    simp [Support.greaterThanMinusOne, pure_eq]
  have e3 : Support.lessThanOne (-N) 1 = true := by simp [Support.lessThanOne]; omega
  have e4 : Support.greaterThanZero 1 0 = true := by simp [Support.greaterThanZero]
  have e5 : Support.lessThanZero (-N) 1 = true := by simp [Support.lessThanZero]; omega
  simp [primerAttempt, hsing, primerEgest, hi, e1, e2, e3, e4, e5, hm, Out.and, Out.not, pure_eq]

/-- `-N * (1 + x)`: the primer is `Ground`. -/
theorem primerAttempt_neg_sum {N : Int} (h1 : 1 ≤ N) (hf : cfg.Fits (N + N)) :
    (⟨N, N, 0, -1⟩ : Coef4).primerAttempt cfg = .ok (some (some .Ground, ⟨0, 1, N, N⟩)) := by
  have cN : ∀ z : Int, -(N + N) ≤ z → z ≤ N + N → cfg.checked z = .ok z := fun z h h' =>
    cfg.checked_eq (cfg.fits_le hf h h')
  have uN : ∀ z : Int, -(N + N) ≤ z → z ≤ N + N → cfg.unchecked z = .ok z := fun z h h' =>
    cfg.unchecked_eq (cfg.fits_le hf h h')
  have c0 := cN (N + N) (by omega) (by omega)
  have c1 := cN (-1) (by omega) (by omega)
  have c2 := cN (-(N + N)) (by omega) (by omega)
  have c3 := cN (-N) (by omega) (by omega)
  have u0 := uN (-(N + N)) (by omega) (by omega)
  have u1 := uN (-N) (by omega) (by omega)
  have u2 := uN 1 (by omega) (by omega)
  have u3 := uN (-1) (by omega) (by omega)
  have u4 := uN 0 (by omega) (by omega)
  have hs := signs N h1
  have hs2 := signs (N + N) (by omega)
  have n0 : ¬N = 0 := by omega
  have n2 : ¬N + N = 0 := by omega
  have hr : Support.normalise cfg N (-1) = .ok (-N, 1) := by
    simp [Support.normalise, Cfg.mul, u1, u2, pure_eq]
  have hr' : Support.normalise cfg (N + N) (-1) = .ok (-(N + N), 1) := by
    simp only [Support.normalise, Cfg.mul, mul_neg, mul_one, u0, u2, pure_eq, ok_bind,
      neg_neg, show ¬(-1 : Int) = 0 by norm_num, if_false, show (-1 : Int) < 0 by norm_num, if_true]
    rw [if_neg (by omega)]
  have hl : Support.lessThan cfg (-(N + N)) 1 (-N) 1 = .ok true := by
    simp only [Support.lessThan, Support.compareReduce, Cfg.cmul, mul_one, c2, c3, ok_bind, pure_eq]
    rw [decide_eq_true (by omega)]
  have hi : (⟨N, N, 0, -1⟩ : Coef4).imageExtremes cfg = .ok (-(N + N), 1, -N, 1) := by
    simp only [imageExtremes, valueAtZero, valueAtOne, Cfg.cadd, c0, add_zero, c1, n0, n2,
      Support.updatedRange, hr, hr', hl, pure_eq, ok_bind, false_and, if_false, if_true]
  have hsing : (⟨N, N, 0, -1⟩ : Coef4).areSingularitiesOutsideDomain cfg = .ok true := by
    simp [areSingularitiesOutsideDomain, isZeroOutsideDomain, isPoleOutsideDomain,
      isDomainAmenable, Cfg.cadd, c0, c1, hs, hs2, Out.and, pure_eq]
  have e1 : Support.areSame (-(N + N)) 1 (-N) 1 = false := by
    simp only [Support.areSame, beq_self_eq_true, Bool.and_true, beq_eq_false_iff_ne]; omega
  have e2 : Support.greaterThanMinusOne cfg (-N) 1 = .ok false := by
    simp only [Support.greaterThanMinusOne, Cfg.neg, u3, ok_bind, pure_eq,
      show (1 : Int) > 0 by norm_num, if_true]
    rw [decide_eq_false (by omega)]
  have hg : (⟨N, N, 0, -1⟩ : Coef4).ground cfg = .ok ⟨0, 1, N, N⟩ := by
    simp [ground, Cfg.neg, u4, u2, pure_eq]
  simp [-neg_add_rev, primerAttempt, hsing, primerEgest, hi, e1, e2, hg, Out.and, pure_eq]

/-- `1 / (N * (1 + x))` for an even `N`. -/
theorem reductionAttempt_even {N : Int} (h1 : 1 ≤ N) (hf : cfg.Fits (2 * N + 2 * N)) :
    (⟨0, 1, 2 * N, 2 * N⟩ : Coef4).reductionAttempt cfg =
      .ok (some (some .Amplify, ⟨0, 1, N, N⟩)) := by
  have cN : ∀ z : Int, -(2 * N + 2 * N) ≤ z → z ≤ 2 * N + 2 * N → cfg.checked z = .ok z :=
    fun z h h' => cfg.checked_eq (cfg.fits_le hf h h')
  have c0 := cN (2 * N + 2 * N) (by omega) (by omega)
  have c1 := cN 1 (by omega) (by omega)
  have c2 := cN (2 * N) (by omega) (by omega)
  have hs := signs (2 * N) (by omega)
  have hs2 := signs (2 * N + 2 * N) (by omega)
  have hr : Support.normalise cfg 1 (2 * N) = .ok (1, 2 * N) := by
    simp only [Support.normalise, pure_eq, show ¬2 * N = 0 by omega, show ¬2 * N < 0 by omega,
      if_false, ok_bind, one_ne_zero]
  have hr' : Support.normalise cfg 1 (2 * N + 2 * N) = .ok (1, 2 * N + 2 * N) := by
    simp only [Support.normalise, pure_eq, show ¬2 * N + 2 * N = 0 by omega,
      show ¬2 * N + 2 * N < 0 by omega, if_false, ok_bind, one_ne_zero]
  have hl : Support.lessThan cfg 1 (2 * N + 2 * N) 1 (2 * N) = .ok true := by
    simp only [Support.lessThan, Support.compareReduce, Cfg.cmul, one_mul, c2, c0, ok_bind, pure_eq]
    rw [decide_eq_true (by omega)]
  have hi : (⟨0, 1, 2 * N, 2 * N⟩ : Coef4).imageExtremes cfg =
      .ok (1, 2 * N + 2 * N, 1, 2 * N) := by
    simp only [imageExtremes, valueAtZero, valueAtOne, Cfg.cadd, c0, add_zero, c1, one_ne_zero,
      Support.updatedRange, hr, hr', hl, pure_eq, ok_bind, false_and, if_false, if_true]
  have hsing : (⟨0, 1, 2 * N, 2 * N⟩ : Coef4).areSingularitiesOutsideDomain cfg = .ok true := by
    simp [areSingularitiesOutsideDomain, isZeroOutsideDomain, isPoleOutsideDomain,
      isDomainAmenable, Cfg.cadd, c0, c1, hs, hs2, Out.and, pure_eq]
  have e1 : Support.lessThanZero 1 (2 * N + 2 * N) = false := by
    simp only [Support.lessThanZero, show 2 * N + 2 * N ≥ 0 by omega, if_true]; decide
  have e2 : Support.greaterThanOne 1 (2 * N) = false := by
    simp only [Support.greaterThanOne, show 2 * N > 0 by omega, if_true]
    rw [decide_eq_false (by omega)]
  have t2 : (2 * N).tmod 2 = 0 := by rw [Int.tmod_eq_emod_of_nonneg (by omega)]; omega
  have t4 : (2 * N + 2 * N).tmod 2 = 0 := by rw [Int.tmod_eq_emod_of_nonneg (by omega)]; omega
  have hh : half (2 * N) = N := by
    unfold half; rw [Int.tdiv_eq_ediv_of_nonneg (by omega)]; omega
  have hh4 : half (2 * N + 2 * N) = 2 * N := by
    unfold half; rw [Int.tdiv_eq_ediv_of_nonneg (by omega)]; omega
  have d2 : Support.doubled cfg 1 (2 * N) = .ok (1, N) := by
    simp only [Support.doubled, t2, if_true, hh, pure_eq]
  have d4 : Support.doubled cfg 1 (2 * N + 2 * N) = .ok (1, 2 * N) := by
    simp only [Support.doubled, t4, if_true, hh4, pure_eq]
  have e3 : Support.equalToOneHalf cfg 1 (2 * N + 2 * N) = .ok false := by
    simp only [Support.equalToOneHalf, d4, ok_bind, pure_eq]
    rw [beq_eq_false_iff_ne.2 (by omega)]
  have e4 : Support.greaterThanOneHalf cfg 1 (2 * N) = .ok false := by
    simp only [Support.greaterThanOneHalf, d2, ok_bind, pure_eq, show N > 0 by omega, if_true]
    rw [decide_eq_false (by omega)]
  have o2 : isOdd (2 * N) = false := by
    unfold isOdd; simp [t2]
  have hg : (⟨0, 1, 2 * N, 2 * N⟩ : Coef4).amplify cfg = .ok ⟨0, 1, N, N⟩ := by
    simp [amplify, o2, hh, pure_eq]
  simp [reductionAttempt, hsing, reductionEgest, hi, e1, e2, e3, e4, hg, Out.and, pure_eq]

end Coef4

/-- The state `1 / (N * (1 + x))`, for a power of two `N`. -/
theorem Clog.Denotes.divided {c : Clog} {v : ℚ} {k : Nat}
    (hf : cfg.Fits (2 ^ k + 2 ^ k)) (h0 : 1 / 2 < v) (h1 : v < 1)
    (hd : Clog.Denotes cfg A c (1 / v - 1)) :
    Clog.Denotes cfg A (Homographic.box ⟨c, ⟨0, 1, 2 ^ k, 2 ^ k⟩⟩) (v / 2 ^ k) := by
  have one : Clog.Denotes cfg A (Homographic.box ⟨c, ⟨0, 1, 2 ^ 0, 2 ^ 0⟩⟩) v :=
    hd.to_identity (k' := ⟨1, 0, 0, 1⟩) (.inl rfl) (by linarith) h1 (by decide)
      (sym_gt h0).symm (next_gt h0).symm
  refine Clog.Denotes.coind (fun c' x => Clog.Denotes cfg A c' x ∨ ∃ k : Nat,
    cfg.Fits (2 ^ k + 2 ^ k) ∧ c' = Homographic.box ⟨c, ⟨0, 1, 2 ^ k, 2 ^ k⟩⟩ ∧ x = v / 2 ^ k) ?_
    (.inr ⟨k, hf, rfl, rfl⟩)
  have stop : ∀ c' x, Clog.Denotes cfg A c' x → 0 < x ∧ x < 1 ∧
      Ends A (fun f => Clog.egest cfg f c') (fun r => r.1 = sym x ∧
        (Clog.Denotes cfg A r.2 (next x) ∨ ∃ k : Nat, cfg.Fits (2 ^ k + 2 ^ k) ∧
          r.2 = Homographic.box ⟨c, ⟨0, 1, 2 ^ k, 2 ^ k⟩⟩ ∧ next x = v / 2 ^ k)) := fun c' x hd =>
    ⟨hd.1, hd.2.1, hd.step.mono fun r hr => ⟨hr.1, .inl hr.2⟩⟩
  rintro c' x (hd | ⟨k, hf, rfl, rfl⟩)
  · exact stop _ _ hd
  · cases k with
    | zero =>
      rw [pow_zero, div_one]
      exact stop _ _ one
    | succ k =>
      have hp : (0 : ℚ) < 2 ^ k := by positivity
      have hp1 : (1 : ℚ) ≤ 2 ^ k := one_le_pow₀ (by norm_num)
      have hi : (1 : Int) ≤ 2 ^ k := one_le_pow₀ (by norm_num)
      have hlt : v / 2 ^ (k + 1) < 1 / 2 := by
        rw [pow_succ, div_lt_div_iff₀ (by positivity) (by norm_num)]; linarith
      have hgt : 0 < v / 2 ^ (k + 1) := by
        exact div_pos (by linarith) (by positivity)
      have hn : next (v / 2 ^ (k + 1)) = v / 2 ^ k := by
        rw [next_lt hlt, pow_succ]; field_simp
      have e : (2 : Int) ^ (k + 1) = 2 * 2 ^ k := by rw [pow_succ]; ring
      rw [e] at hf ⊢
      refine ⟨hgt, by linarith, ?_⟩
      refine Clog.egest_ends (Q := fun r => r = (.ok (some .Amplify),
        Homographic.box ⟨c, ⟨0, 1, 2 ^ k, 2 ^ k⟩⟩)) ?_ ?_ ?_
      · simp only [Strategy.egest, Homographic.box]
        refine Ev.bind (Q := fun r => r = (.ok (some .Amplify), ⟨c, ⟨0, 1, 2 ^ k, 2 ^ k⟩⟩))
          (Ev.succ ?_) ?_
        · simp only [Homographic.egest, Coef4.reductionAttempt_even hi hf, ok_bind]
          exact Ev.pure rfl
        · rintro _ rfl
          exact Ev.pure rfl
      · rintro red s' h
        cases h
        exact ⟨(sym_lt hlt).symm, .inr ⟨k, cfg.fits_le hf (by omega) (by omega), rfl, hn⟩⟩
      · rintro new s' h
        cases h

/-- What looking for the primer of `-2^k / v` gives. -/
def Homographic.NegTurned (cfg : Cfg) (A : Panic → Prop) (v : ℚ) (k : Nat)
    (t : Homographic.Primed) : Prop :=
  (∃ r, t = (none, some .Ground, some r, none) ∧ r.OK cfg ∧ r.val = v / 2 ^ k) ∨
  ∃ h, t = (none, some .Ground, none, some h) ∧ Clog.Denotes cfg A h.box (v / 2 ^ k)

/-- The first symbol read while looking for the primer. -/
theorem Homographic.prime_neg_turn_step {c : Clog} {v : ℚ} {k : Nat}
    (hd : Clog.Denotes cfg A c v) (hf : cfg.Fits (2 ^ (k + 1)))
    (H : v < 1 / 2 → ∀ c', Clog.Denotes cfg A c' (2 * v) →
      Ev A (fun f j => Homographic.prime cfg (Clog.egest cfg f) j ⟨c', ⟨0, 2 ^ (k + 1), -1, 0⟩⟩)
        (Homographic.NegTurned cfg A (2 * v) (k + 1))) :
    Ev A (fun f j => Homographic.prime cfg (Clog.egest cfg f) j ⟨c, ⟨0, 2 ^ k, -1, 0⟩⟩)
      (Homographic.NegTurned cfg A v k) := by
  have hi : (1 : Int) ≤ 2 ^ k := one_le_pow₀ (by norm_num)
  have e2 : (2 : Int) ^ (k + 1) = 2 ^ k * 2 := pow_succ _ _
  rw [e2] at hf
  have hfN : cfg.Fits (2 ^ k) := cfg.fits_le hf (by omega) (by omega)
  have cN : ∀ z : Int, -(2 ^ k * 2) ≤ z → z ≤ 2 ^ k * 2 → cfg.checked z = .ok z :=
    fun z h h' => cfg.checked_eq (cfg.fits_le hf h h')
  have c0 := cN (2 ^ k * 2) (by omega) (by omega)
  have c1 := cN (2 ^ k) (by omega) (by omega)
  have c2 := cN (-1) (by omega) (by omega)
  have c3 := cN 0 (by omega) (by omega)
  have o1 : isOdd (-1) = true := by decide
  have hp : (0 : ℚ) < 2 ^ k := by positivity
  refine Ev.succ ?_
  simp only [Homographic.prime, Coef4.primerAttempt_neg_turn hi hfN, ok_bind,
    Homographic.primeIngest]
  rcases lt_trichotomy v (1 / 2) with h | h | h
  · refine Ev.bind (Q := fun r => ∃ c', r = (none, ⟨c', ⟨0, 2 ^ (k + 1), -1, 0⟩⟩) ∧
      Clog.Denotes cfg A c' (2 * v)) ?_ ?_
    · refine Ev.bind hd.ev ?_
      rintro ⟨r, c'⟩ ⟨hr, hc⟩
      rw [sym_lt h] at hr
      rw [next_lt h] at hc
      simp only at hr
      subst hr
      have : (⟨0, 2 ^ k, -1, 0⟩ : Coef4).ingestAmplify cfg = .ok ⟨0, 2 ^ (k + 1), -1, 0⟩ := by
        simp [Coef4.ingestAmplify, o1, Cfg.cmul, c0, c3, e2, pure_eq]
      refine Ev.bind_sat (Sat.of_eq this) ?_
      rintro _ rfl
      exact Ev.pure ⟨c', rfl, hc⟩
    · rintro _ ⟨c', rfl, hc⟩
      refine (H h c' hc).mono ?_
      have hv : 2 * v / 2 ^ (k + 1) = v / 2 ^ k := by rw [pow_succ]; field_simp
      intro t ht
      unfold Homographic.NegTurned at ht ⊢
      rwa [hv] at ht
  · refine Ev.bind (Q := fun t => ∃ s, t.1 = some s ∧
      ∃ r, s = (none, some .Ground, some r) ∧ r.OK cfg ∧ r.val = v / 2 ^ k) ?_ ?_
    · refine Ev.bind hd.ev ?_
      rintro ⟨r, c'⟩ ⟨hr, -⟩
      rw [h, sym_half] at hr
      simp only at hr
      subst hr
      have : (⟨0, 2 ^ k, -1, 0⟩ : Coef4).valueAtOneHalf cfg = .ok (2 ^ k * 2, -1) := by
        simp [Coef4.valueAtOneHalf, o1, Cfg.cmul, Cfg.cadd, c0, c2, c3, pure_eq]
      refine Ev.bind_sat (Sat.of_eq this) ?_
      rintro _ rfl
      refine Ev.bind_sat (Ratio.newI_sat (by norm_num) hf (cfg.fits_le hf (by omega) (by omega))
        (.inl (cfg.fits_le hf (by omega) (by omega)))
        (.inl (cfg.fits_le hf (by omega) (by omega)))) ?_
      intro s hs
      refine Ev.pure ⟨s, rfl, ?_⟩
      have hq : (((2 ^ k * 2 : Int) : ℚ) / ((-1 : Int) : ℚ)) = -(2 ^ k * 2) := by
        push_cast; ring
      have hb : (1 : ℚ) ≤ 2 ^ k := one_le_pow₀ (by norm_num)
      rw [hq] at hs
      rcases hs with ⟨s, rfl, hs⟩ | ⟨p, r, rfl, hr, hs⟩
      · exfalso
        cases s <;> simp only [specialValue] at hs <;> linarith
      · have hm := hr.val_mem
        refine ⟨r, ?_⟩
        have hne := hm.1.ne'
        rcases p with _ | _ | _ | _ <;> simp only [applyPrimer] at hs
        · exfalso; linarith [hm.1]
        · exfalso
          have : 0 < 1 / r.val := one_div_pos.2 hm.1
          linarith
        · exfalso; linarith [hm.2]
        · refine ⟨rfl, hr, ?_⟩
          rw [h]
          field_simp at hs ⊢
          linarith
    · rintro ⟨_, h'⟩ ⟨_, rfl, r, rfl, hr, hv⟩
      exact Ev.pure (.inl ⟨r, rfl, hr, hv⟩)
  · refine Ev.bind (Q := fun r => ∃ c', r = (none, ⟨c', ⟨2 ^ k, 2 ^ k, 0, -1⟩⟩) ∧
      Clog.Denotes cfg A c' (1 / v - 1)) ?_ ?_
    · refine Ev.bind hd.ev ?_
      rintro ⟨r, c'⟩ ⟨hr, hc⟩
      rw [sym_gt h] at hr
      rw [next_gt h] at hc
      simp only at hr
      subst hr
      have : (⟨0, 2 ^ k, -1, 0⟩ : Coef4).ingestUncover cfg = .ok ⟨2 ^ k, 2 ^ k, 0, -1⟩ := by
        simp [Coef4.ingestUncover, Cfg.cadd, c1, c2, pure_eq]
      refine Ev.bind_sat (Sat.of_eq this) ?_
      rintro _ rfl
      exact Ev.pure ⟨c', rfl, hc⟩
    · rintro _ ⟨c', rfl, hc⟩
      have hf' : cfg.Fits (2 ^ k + 2 ^ k) := by rwa [← mul_two]
      refine Ev.succ ?_
      simp only [Homographic.prime, Coef4.primerAttempt_neg_sum hi hf', ok_bind]
      exact Ev.pure (.inr ⟨_, rfl, hc.divided hf' h hd.2.1⟩)

/-- Looking for the primer of `-2^k / v`, when `v` has at most `m` leading `Amplify`s. -/
theorem Homographic.prime_neg_turn (m : Nat) : ∀ {c : Clog} {v : ℚ} {k : Nat},
    Clog.Denotes cfg A c v → 1 / 2 ^ (m + 1) ≤ v → cfg.Fits (2 ^ (k + m + 1)) →
    Ev A (fun f j => Homographic.prime cfg (Clog.egest cfg f) j ⟨c, ⟨0, 2 ^ k, -1, 0⟩⟩)
      (Homographic.NegTurned cfg A v k) := by
  induction m with
  | zero =>
    intro c v k hd hv hf
    refine Homographic.prime_neg_turn_step hd hf fun h => ?_
    norm_num at hv
    linarith
  | succ m ih =>
    intro c v k hd hv hf
    have hle : (2 : Int) ^ (k + 1) ≤ 2 ^ (k + (m + 1) + 1) :=
      pow_le_pow_right₀ (by norm_num) (by omega)
    have hpos : (0 : Int) < 2 ^ (k + 1) := by positivity
    refine Homographic.prime_neg_turn_step hd (cfg.fits_le hf (by omega) hle) fun h c' hc => ?_
    refine ih hc ?_ (by rwa [show k + 1 + m + 1 = k + (m + 1) + 1 by omega])
    rw [pow_succ (2 : ℚ) (m + 1), div_le_iff₀ (by positivity)] at hv
    rw [div_le_iff₀ (by positivity)]
    linarith

theorem Cfg.checked_overflow {z : Int} (h : ¬cfg.Fits z) : cfg.checked z = .panic .unwrapNone := by
  unfold Cfg.checked; exact if_neg h

/-- A panic with a known outcome. -/
theorem Out.Sat.of_panic {α : Type} {A : Panic → Prop} {o : Out α} {p : Panic} {P : α → Prop}
    (h : o = .panic p) (hp : A p) : Sat A o P := by
  subst h; exact hp

/-- Too many leading `Amplify`s: the search for the primer overflows. -/
theorem Homographic.prime_neg_turn_overflow (m : Nat) : ∀ {c : Clog} {v : ℚ} {k : Nat},
    Clog.Denotes cfg NoPanic c v → v < 1 / 2 ^ m → cfg.Fits (2 ^ (k + m)) →
    ¬cfg.Fits (2 ^ (k + m + 1)) →
    Ev (fun p => p = .unwrapNone)
      (fun f j => Homographic.prime cfg (Clog.egest cfg f) j ⟨c, ⟨0, 2 ^ k, -1, 0⟩⟩)
      (fun _ => False) := by
  have o1 : isOdd (-1) = true := by decide
  induction m with
  | zero =>
    intro c v k hd hv hf hn
    have hi : (1 : Int) ≤ 2 ^ k := one_le_pow₀ (by norm_num)
    have e2 : (2 : Int) ^ (k + 1) = 2 ^ k * 2 := pow_succ _ _
    rw [add_zero] at hf
    rw [add_zero, e2] at hn
    have c0 := cfg.checked_overflow hn
    have c1 := cfg.checked_eq hf
    have c2 : cfg.checked (-1) = .ok (-1) :=
      cfg.checked_eq (cfg.fits_small (by norm_num) (by norm_num))
    have hd' : Clog.Denotes cfg (fun p => p = .unwrapNone) c v := hd.exact_any
    refine Ev.succ ?_
    simp only [Homographic.prime, Coef4.primerAttempt_neg_turn hi hf, ok_bind,
      Homographic.primeIngest]
    refine Ev.bind (Q := fun r => ∃ c', r = (none, ⟨c', ⟨2 ^ k, 2 ^ k, 0, -1⟩⟩)) ?_ ?_
    · refine Ev.bind hd'.ev ?_
      rintro ⟨r, c'⟩ -
      rcases r with _ | _ | _
      · refine Ev.bind_sat (Q := fun _ => False) (Sat.of_panic (p := .unwrapNone) ?_ rfl) ?_
        · simp [Coef4.valueAtOneHalf, o1, Cfg.cmul, c0]
        · exact fun _ h => h.elim
      · refine Ev.bind_sat (Q := fun _ => False) (Sat.of_panic (p := .unwrapNone) ?_ rfl) ?_
        · simp [Coef4.ingestAmplify, o1, Cfg.cmul, c0]
        · exact fun _ h => h.elim
      · have : (⟨0, 2 ^ k, -1, 0⟩ : Coef4).ingestUncover cfg = .ok ⟨2 ^ k, 2 ^ k, 0, -1⟩ := by
          simp [Coef4.ingestUncover, Cfg.cadd, c1, c2, pure_eq]
        refine Ev.bind_sat (Sat.of_eq this) ?_
        rintro _ rfl
        exact Ev.pure ⟨c', rfl⟩
    · rintro _ ⟨c', rfl⟩
      refine Ev.succ ?_
      simp only [Homographic.prime]
      refine Ev.bind_sat (Q := fun _ => False) (Sat.of_panic (p := .unwrapNone) ?_ rfl) ?_
      · have hz : ¬((2 : Int) ^ k).sign = 0 := by
          rw [Coef4.signs _ hi]; norm_num
        simp only [Coef4.primerAttempt, Coef4.areSingularitiesOutsideDomain, Out.and,
          Coef4.isZeroOutsideDomain, Coef4.isDomainAmenable, if_neg hz, Cfg.cadd, ← mul_two, c0,
          panic_bind]
      · exact fun _ h => h.elim
  | succ m ih =>
    intro c v k hd hv hf hn
    have hi : (1 : Int) ≤ 2 ^ k := one_le_pow₀ (by norm_num)
    have e2 : (2 : Int) ^ (k + 1) = 2 ^ k * 2 := pow_succ _ _
    have hle : (2 : Int) ^ (k + 1) ≤ 2 ^ (k + (m + 1)) :=
      pow_le_pow_right₀ (by norm_num) (by omega)
    have hf2 : cfg.Fits (2 ^ k * 2) := cfg.fits_le hf (by omega) (by omega)
    have hfN : cfg.Fits (2 ^ k) := cfg.fits_le hf2 (by omega) (by omega)
    have c0 := cfg.checked_eq hf2
    have c3 : cfg.checked 0 = .ok 0 :=
      cfg.checked_eq (cfg.fits_small (by norm_num) (by norm_num))
    have h : v < 1 / 2 := by
      refine hv.trans_le ?_
      rw [pow_succ, div_le_div_iff₀ (by positivity) (by norm_num)]
      have : (1 : ℚ) ≤ 2 ^ m := one_le_pow₀ (by norm_num)
      linarith
    refine Ev.succ ?_
    simp only [Homographic.prime, Coef4.primerAttempt_neg_turn hi hfN, ok_bind,
      Homographic.primeIngest]
    refine Ev.bind (Q := fun r => ∃ c', r = (none, ⟨c', ⟨0, 2 ^ (k + 1), -1, 0⟩⟩) ∧
      Clog.Denotes cfg NoPanic c' (2 * v)) ?_ ?_
    · refine Ev.bind (hd.ev.weaken fun _ hp => hp.elim) ?_
      rintro ⟨r, c'⟩ ⟨hr, hc⟩
      rw [sym_lt h] at hr
      rw [next_lt h] at hc
      simp only at hr
      subst hr
      have : (⟨0, 2 ^ k, -1, 0⟩ : Coef4).ingestAmplify cfg = .ok ⟨0, 2 ^ (k + 1), -1, 0⟩ := by
        simp [Coef4.ingestAmplify, o1, Cfg.cmul, c0, c3, e2, pure_eq]
      refine Ev.bind_sat (Sat.of_eq this) ?_
      rintro _ rfl
      exact Ev.pure ⟨c', rfl, hc⟩
    · rintro _ ⟨c', rfl, hc⟩
      refine ih hc ?_ (by rwa [show k + 1 + m = k + (m + 1) by omega])
        (by rwa [show k + 1 + m + 1 = k + (m + 1) + 1 by omega])
      rw [pow_succ, lt_div_iff₀ (by positivity)] at hv
      rw [lt_div_iff₀ (by positivity)]
      linarith

end Clarith
