import Verif.Properties.ZeroOver

/-! # Zero divided by 1/(2^b-1) (C93)

The exact limit for one family of fractions: `0 / (1/(2^b-1))` overflows if and only if
`(b-2)(b+1)/2` is at least `bits - 1`. -/

namespace Clarith

open Out Spec ZeroOver

variable {cfg : Cfg}

namespace ZeroOver

/-- From one state of `prime` to another. -/
def Leads (cfg : Cfg) (c : Clog) (dx d : Int) (c' : Clog) (dx' d' : Int) : Prop :=
  ∃ n f₀, ∀ f ≥ f₀, ∀ g, Homographic.prime cfg (Clog.egest cfg f) (g + n) ⟨c, ⟨0, 0, dx, d⟩⟩ =
    Homographic.prime cfg (Clog.egest cfg f) g ⟨c', ⟨0, 0, dx', d'⟩⟩

/-- An overflow. -/
def Fails (cfg : Cfg) (c : Clog) (dx d : Int) : Prop :=
  ∃ f₀ p, Overflow p ∧ ∀ f ≥ f₀, ∀ g ≥ f₀,
    Homographic.prime cfg (Clog.egest cfg f) g ⟨c, ⟨0, 0, dx, d⟩⟩ = .panic p

theorem Leads.trans {c c' c'' : Clog} {a b a' b' a'' b'' : Int} (h : Leads cfg c a b c' a' b')
    (h' : Leads cfg c' a' b' c'' a'' b'') : Leads cfg c a b c'' a'' b'' := by
  obtain ⟨n, f₀, h⟩ := h
  obtain ⟨n', f₁, h'⟩ := h'
  refine ⟨n' + n, f₀ + f₁, fun f hf g => ?_⟩
  rw [← add_assoc, h f (by omega), h' f (by omega)]

theorem Leads.fails {c c' : Clog} {a b a' b' : Int} (h : Leads cfg c a b c' a' b')
    (h' : Fails cfg c' a' b') : Fails cfg c a b := by
  obtain ⟨n, f₀, h⟩ := h
  obtain ⟨f₁, p, hp, h'⟩ := h'
  refine ⟨f₀ + f₁ + n, p, hp, fun f hf g hg => ?_⟩
  obtain ⟨g, rfl⟩ : ∃ i, g = i + n := ⟨g - n, by omega⟩
  rw [h f (by omega), h' f (by omega) g (by omega)]

/-- It goes on, or it overflows, and the latter not if `B` is a machine integer. -/
def Goes (cfg : Cfg) (B : Int) (c : Clog) (dx d : Int) (c' : Clog) (dx' d' : Int) : Prop :=
  (Fails cfg c dx d ∨ Leads cfg c dx d c' dx' d') ∧ (B ≤ cfg.imax → Leads cfg c dx d c' dx' d')

theorem Goes.trans {B B' : Int} {c c' c'' : Clog} {a b a' b' a'' b'' : Int}
    (h : Goes cfg B c a b c' a' b') (h' : Goes cfg B' c' a' b' c'' a'' b'') {M : Int} (hB : B ≤ M)
    (hB' : B' ≤ M) : Goes cfg M c a b c'' a'' b'' := by
  refine ⟨?_, fun hm => (h.2 (by omega)).trans (h'.2 (by omega))⟩
  rcases h.1 with h1 | h1
  · exact .inl h1
  · rcases h'.1 with h2 | h2
    · exact .inl (h1.fails h2)
    · exact .inr (h1.trans h2)

theorem attempt_fails {c : Clog} {dx d : Int} {p : Panic}
    (h : (⟨0, 0, dx, d⟩ : Coef4).primerAttempt cfg = .panic p) (hp : Overflow p) :
    Fails cfg c dx d := by
  refine ⟨1, p, hp, fun f hf g hg => ?_⟩
  obtain ⟨g, rfl⟩ : ∃ i, g = i + 1 := ⟨g - 1, by omega⟩
  simp [Homographic.prime, h]

/-- One Amplify, with an odd coefficient. -/
theorem goes_amplify {c c' : Clog} {s p q : Int} (hs : s = 1 ∨ s = -1) (h1 : 1 ≤ p) (h2 : 1 ≤ q)
    (ho : p % 2 = 1) (hc : Returns (fun f => Clog.egest cfg f c) (some .Amplify, c')) :
    Goes cfg (p + 2 * q) c (s * p) (s * q) c' (s * p) (s * (2 * q)) := by
  have f0 : cfg.Fits 0 := Neutral.fits1 (by decide) (by decide)
  have hi := cfg.imin_eq
  have ho' : isOdd (s * p) = true := by
    by_contra h
    have := halves (by simpa using h)
    rcases hs with rfl | rfl <;> omega
  obtain ⟨f₀, hc⟩ := hc
  have leads : (⟨0, 0, s * p, s * q⟩ : Coef4).primerAttempt cfg = .ok none →
      cfg.Fits (s * q * 2) → Leads cfg c (s * p) (s * q) c' (s * p) (s * (2 * q)) := by
    intro ea f1
    refine ⟨1, f₀, fun f hf g => ?_⟩
    simp [Homographic.prime, ea, Homographic.primeIngest, hc f hf, Coef4.ingestAmplify, ho',
      Cfg.cmul, Cfg.checked, f0, f1, show s * (2 * q) = s * q * 2 by ring]
  constructor
  · rcases attempt (cfg := cfg) (s * p) (s * q) with ea | ⟨o, ea, hp⟩
    · by_cases f1 : cfg.Fits (s * q * 2)
      · exact .inr (leads ea f1)
      · left
        refine ⟨f₀ + 1, .unwrapNone, .inl rfl, fun f hf g hg => ?_⟩
        obtain ⟨g, rfl⟩ : ∃ i, g = i + 1 := ⟨g - 1, by omega⟩
        simp [Homographic.prime, ea, Homographic.primeIngest, hc f (by omega), Coef4.ingestAmplify,
          ho', Cfg.cmul, Cfg.checked, f0, f1]
    · exact .inl (attempt_fails ea hp)
  · intro hB
    refine leads (attempt_ok ?_ ?_) ?_
    · rcases hs with rfl | rfl <;> exact ⟨by omega, by omega⟩
    · rcases hs with rfl | rfl <;> exact ⟨by omega, by omega⟩
    · rcases hs with rfl | rfl <;> exact ⟨by omega, by omega⟩

/-- One Uncover. -/
theorem goes_uncover {c c' : Clog} {s p q : Int} (hs : s = 1 ∨ s = -1) (h1 : 0 ≤ p) (h2 : 0 ≤ q)
    (hc : Returns (fun f => Clog.egest cfg f c) (some .Uncover, c')) :
    Goes cfg (p + q) c (s * p) (s * q) c' (s * q) (s * (p + q)) := by
  have f0 : cfg.Fits 0 := Neutral.fits1 (by decide) (by decide)
  have hi := cfg.imin_eq
  obtain ⟨f₀, hc⟩ := hc
  have leads : (⟨0, 0, s * p, s * q⟩ : Coef4).primerAttempt cfg = .ok none →
      cfg.Fits (s * p + s * q) → Leads cfg c (s * p) (s * q) c' (s * q) (s * (p + q)) := by
    intro ea f1
    refine ⟨1, f₀, fun f hf g => ?_⟩
    simp [Homographic.prime, ea, Homographic.primeIngest, hc f hf, Coef4.ingestUncover,
      Cfg.cadd, Cfg.checked, f0, f1, mul_add]
  constructor
  · rcases attempt (cfg := cfg) (s * p) (s * q) with ea | ⟨o, ea, hp⟩
    · by_cases f1 : cfg.Fits (s * p + s * q)
      · exact .inr (leads ea f1)
      · left
        refine ⟨f₀ + 1, .unwrapNone, .inl rfl, fun f hf g hg => ?_⟩
        obtain ⟨g, rfl⟩ : ∃ i, g = i + 1 := ⟨g - 1, by omega⟩
        simp [Homographic.prime, ea, Homographic.primeIngest, hc f (by omega), Coef4.ingestUncover,
          Cfg.cadd, Cfg.checked, f0, f1]
    · exact .inl (attempt_fails ea hp)
  · intro hB
    refine leads (attempt_ok ?_ ?_) ?_
    · rcases hs with rfl | rfl <;> exact ⟨by omega, by omega⟩
    · rcases hs with rfl | rfl <;> exact ⟨by omega, by omega⟩
    · rcases hs with rfl | rfl <;> exact ⟨by omega, by omega⟩

/-- One Amplify before the first Uncover. -/
theorem leads_amplify {c c' : Clog} {s : Int} (hs : s = 1 ∨ s = -1)
    (hc : Returns (fun f => Clog.egest cfg f c) (some .Amplify, c')) :
    Leads cfg c s 0 c' s 0 := by
  have f0 : cfg.Fits 0 := Neutral.fits1 (by decide) (by decide)
  have hm := cfg.imax_ge
  have ho : isOdd s = true := by rcases hs with rfl | rfl <;> rfl
  have ea : (⟨0, 0, s, 0⟩ : Coef4).primerAttempt cfg = .ok none :=
    attempt_ok (by rcases hs with rfl | rfl <;> omega) (by rcases hs with rfl | rfl <;> omega)
  obtain ⟨f₀, hc⟩ := hc
  refine ⟨1, f₀, fun f hf g => ?_⟩
  simp [Homographic.prime, ea, Homographic.primeIngest, hc f hf, Coef4.ingestAmplify, ho, Cfg.cmul,
    Cfg.checked, f0]

/-- `j` times Amplify. -/
theorem goes_amplifies {s p : Int} (hs : s = 1 ∨ s = -1) (h1 : 1 ≤ p) (ho : p % 2 = 1) (i : Nat) :
    ∀ (c : Clog) (v : ℚ) (q : Int), 1 ≤ q → Clog.Denotes cfg NoPanic c v → v * 2 ^ i < 1 →
    ∃ c', Clog.Denotes cfg NoPanic c' (v * 2 ^ i) ∧
      Goes cfg (p + 2 ^ i * q) c (s * p) (s * q) c' (s * p) (s * (2 ^ i * q)) := by
  induction i with
  | zero =>
    intro c v q _ hc _
    refine ⟨c, by simpa using hc, ?_⟩
    have : Leads cfg c (s * p) (s * q) c (s * p) (s * q) := ⟨0, 0, fun f _ g => rfl⟩
    simpa using ⟨.inr this, fun _ => this⟩
  | succ i ih =>
    intro c v q hq hc hv
    have v0 := hc.1
    have hp : (1 : ℚ) ≤ 2 ^ i := one_le_pow₀ (by norm_num)
    have hpi : (1 : Int) ≤ 2 ^ i := one_le_pow₀ (by norm_num)
    have h2 : v < 1 / 2 := by
      rw [pow_succ] at hv
      nlinarith
    obtain ⟨d, f₀, e, hd⟩ := hc.step_returns
    rw [sym_lt h2] at e
    rw [next_lt h2] at hd
    obtain ⟨c', h3, h4⟩ := ih d (2 * v) (2 * q) (by omega) hd (by rw [pow_succ] at hv; linarith)
    refine ⟨c', by rw [pow_succ, show v * (2 ^ i * 2) = 2 * v * 2 ^ i by ring]; exact h3, ?_⟩
    have e1 : (2 : Int) ^ (i + 1) * q = 2 ^ i * (2 * q) := by ring
    rw [e1]
    exact (goes_amplify hs h1 hq ho ⟨f₀, e⟩).trans h4 (by nlinarith) le_rfl

/-- It returns zero. -/
def Finishes (cfg : Cfg) (c : Clog) (dx d : Int) : Prop :=
  ∃ f₀, ∀ f ≥ f₀, ∀ g ≥ f₀, Homographic.prime cfg (Clog.egest cfg f) g ⟨c, ⟨0, 0, dx, d⟩⟩ =
    .ok (some .Zero, none, none, none)

theorem Leads.finishes {c c' : Clog} {a b a' b' : Int} (h : Leads cfg c a b c' a' b')
    (h' : Finishes cfg c' a' b') : Finishes cfg c a b := by
  obtain ⟨n, f₀, h⟩ := h
  obtain ⟨f₁, h'⟩ := h'
  refine ⟨f₀ + f₁ + n, fun f hf g hg => ?_⟩
  obtain ⟨g, rfl⟩ : ∃ i, g = i + n := ⟨g - n, by omega⟩
  rw [h f (by omega), h' f (by omega) g (by omega)]

/-- The end of the operand. -/
theorem finish {c c' : Clog} {s p q : Int} (hs : s = 1 ∨ s = -1) (h1 : 1 ≤ p) (h2 : 1 ≤ q)
    (hc : Returns (fun f => Clog.egest cfg f c) (none, c')) :
    (p + 4 * q ≤ cfg.imax → Finishes cfg c (s * (2 * q)) (s * (p + 2 * q))) ∧
    (cfg.imax + 1 < p + 4 * q → Fails cfg c (s * (2 * q)) (s * (p + 2 * q))) := by
  have f0 : cfg.Fits 0 := Neutral.fits1 (by decide) (by decide)
  have hi := cfg.imin_eq
  obtain ⟨f₀, hc⟩ := hc
  constructor
  · intro hB
    have ea := attempt_ok (cfg := cfg) (dx := s * (2 * q)) (d := s * (p + 2 * q))
      (by rcases hs with rfl | rfl <;> exact ⟨by omega, by omega⟩)
      (by rcases hs with rfl | rfl <;> exact ⟨by omega, by omega⟩)
    have he : isOdd (s * (2 * q)) = false := by
      rcases hs with rfl | rfl
      · simp [isOdd]
      · simp [isOdd]
    have hh := halves he
    have hw : half (s * (2 * q)) = s * q := by rcases hs with rfl | rfl <;> omega
    have f2 : cfg.Fits (s * (p + 2 * q) + s * q) := by
      rcases hs with rfl | rfl <;> exact ⟨by omega, by omega⟩
    have ev : (⟨0, 0, s * (2 * q), s * (p + 2 * q)⟩ : Coef4).valueAtOneHalf cfg =
        .ok (0, s * (p + 2 * q) + s * q) := by
      unfold Coef4.valueAtOneHalf
      simp only [he, show isOdd 0 = false from rfl, show half 0 = 0 from rfl, hw, Cfg.cadd,
        Cfg.checked, f0, f2, add_zero, if_true, ok_bind, Bool.or_self, Bool.false_eq_true, if_false,
        pure_eq]
    refine ⟨f₀ + 1, fun f hf g hg => ?_⟩
    obtain ⟨g, rfl⟩ : ∃ i, g = i + 1 := ⟨g - 1, by omega⟩
    simp only [Homographic.prime, ea, ok_bind, Homographic.primeIngest, hc f (by omega), ev,
      Ratio.newI_nought (cfg := cfg) (d := s * (p + 2 * q) + s * q)
        (by rcases hs with rfl | rfl <;> omega) f2 (by rcases hs with rfl | rfl <;> omega), pure_eq]
  · intro hB
    have nf : ¬ cfg.Fits (s * (2 * q) + s * (p + 2 * q)) := by
      rintro ⟨_, _⟩
      rcases hs with rfl | rfl <;> omega
    have h0 : (s * (p + 2 * q)).sign ≠ 0 := by
      rw [Ne, Int.sign_eq_zero_iff_zero]
      rcases hs with rfl | rfl <;> omega
    refine attempt_fails (p := .unwrapNone) ?_ (.inl rfl)
    have hz : Coef4.isDomainAmenable cfg 0 0 = .ok true := by simp [Coef4.isDomainAmenable]
    have hp : Coef4.isDomainAmenable cfg (s * (2 * q)) (s * (p + 2 * q)) = .panic .unwrapNone := by
      unfold Coef4.isDomainAmenable
      simp only [h0, if_false, Cfg.cadd, Cfg.checked, nf]
      rfl
    simp [Coef4.primerAttempt, Coef4.areSingularitiesOutsideDomain, Coef4.isZeroOutsideDomain,
      Coef4.isPoleOutsideDomain, Out.and, hz, hp]

/-- From `1/(2^(j+1)-1)` to the next but one Uncover. -/
theorem round {s p q : Int} (hs : s = 1 ∨ s = -1) (h1 : 1 ≤ p) (hq : 1 ≤ q) (ho : p % 2 = 1)
    {j : Nat} (hj : 1 ≤ j) {c : Clog} (hc : Clog.Denotes cfg NoPanic c (1 / (2 ^ (j + 1) - 1))) :
    ∃ c', Clog.Denotes cfg NoPanic c' ((2 ^ j - 1) / 2 ^ j) ∧
      Goes cfg (p + 2 ^ j * q) c (s * p) (s * q) c' (s * (2 ^ j * q)) (s * (p + 2 ^ j * q)) := by
  have hp : (2 : ℚ) ≤ 2 ^ j := by
    calc (2 : ℚ) = 2 ^ 1 := by norm_num
      _ ≤ 2 ^ j := pow_le_pow_right₀ (by norm_num) hj
  have hpi : (1 : Int) ≤ 2 ^ j := one_le_pow₀ (by norm_num)
  have hd : (0 : ℚ) < 2 ^ (j + 1) - 1 := by rw [pow_succ]; linarith
  obtain ⟨c', h2, h3⟩ := goes_amplifies hs h1 ho j c _ q hq hc (by
    rw [div_mul_eq_mul_div, one_mul, div_lt_one hd, pow_succ]
    linarith)
  have hv : (1 / 2 : ℚ) < 1 / (2 ^ (j + 1) - 1) * 2 ^ j := by
    rw [div_mul_eq_mul_div, one_mul, lt_div_iff₀ hd, pow_succ]
    linarith
  obtain ⟨d, f₀, e, hd'⟩ := h2.step_returns
  rw [sym_gt hv] at e
  rw [next_gt hv] at hd'
  refine ⟨d, ?_, h3.trans (goes_uncover hs (by omega) (by positivity) ⟨f₀, e⟩) le_rfl le_rfl⟩
  convert hd' using 1
  rw [pow_succ] at hd ⊢
  field_simp
  ring

/-- All rounds. -/
theorem rounds {s : Int} (hs : s = 1 ∨ s = -1) {j : Nat} (hj : 1 ≤ j) : ∀ (c : Clog) (p q : Int)
    (g e : Nat), 1 ≤ p → p ≤ q → p % 2 = 1 → Clog.Denotes cfg NoPanic c (1 / (2 ^ (j + 1) - 1)) →
    p + q * (2 ^ (j + 1) - 1) = 2 ^ g → 2 * e + 2 = 2 * g + j * (j + 1) →
    (cfg.bits ≤ e + 1 → Fails cfg c (s * p) (s * q)) ∧
    (e + 2 ≤ cfg.bits → Finishes cfg c (s * p) (s * q)) := by
  have hm : cfg.imax = 2 ^ (cfg.bits - 1) - 1 := rfl
  have hb := cfg.hbits
  induction j, hj using Nat.le_induction with
  | base =>
    intro c p q g e h1 h2 ho hc hg he
    obtain rfl : e = g := by omega
    obtain ⟨c', h3, h4⟩ := round hs h1 (by omega : 1 ≤ q) ho le_rfl hc
    rw [show ((2 : ℚ) ^ 1 - 1) / 2 ^ 1 = 1 / 2 by norm_num] at h3
    rw [pow_one] at h4
    obtain ⟨d, f₀, hd, -⟩ := h3.step_returns
    rw [sym_half] at hd
    obtain ⟨e1, e2⟩ := finish hs h1 (by omega : 1 ≤ q) ⟨f₀, hd⟩
    norm_num at hg
    constructor
    · intro hbits
      have : (2 : Int) ^ (cfg.bits - 1) ≤ 2 ^ e := pow_le_pow_right₀ (by norm_num) (by omega)
      rcases h4.1 with h5 | h5
      · exact h5
      · exact h5.fails (e2 (by omega))
    · intro hbits
      have : (2 : Int) ^ (e + 1) ≤ 2 ^ (cfg.bits - 1) := pow_le_pow_right₀ (by norm_num) (by omega)
      rw [pow_succ] at this
      exact (h4.2 (by omega)).finishes (e1 (by omega))
  | succ j hj ih =>
    intro c p q g e h1 h2 ho hc hg he
    obtain ⟨c', h3, h4⟩ := round hs h1 (by omega : 1 ≤ q) ho (by omega : 1 ≤ j + 1) hc
    have hq0 : 0 < q := by omega
    have hp0 : 0 < p := by omega
    have hp : (4 : ℚ) ≤ 2 ^ (j + 1) := by
      calc (4 : ℚ) = 2 ^ 2 := by norm_num
        _ ≤ 2 ^ (j + 1) := pow_le_pow_right₀ (by norm_num) (by omega)
    have hpi : (4 : Int) ≤ 2 ^ (j + 1) := by
      calc (4 : Int) = 2 ^ 2 := by norm_num
        _ ≤ 2 ^ (j + 1) := pow_le_pow_right₀ (by norm_num) (by omega)
    have hv : (1 / 2 : ℚ) < (2 ^ (j + 1) - 1) / 2 ^ (j + 1) := by
      rw [lt_div_iff₀ (by linarith)]
      linarith
    obtain ⟨d, f₀, ed, hd⟩ := h3.step_returns
    rw [sym_gt hv] at ed
    rw [next_gt hv] at hd
    have hv' : (1 : ℚ) / ((2 ^ (j + 1) - 1) / 2 ^ (j + 1)) - 1 = 1 / (2 ^ (j + 1) - 1) := by
      have : (2 : ℚ) ^ (j + 1) - 1 ≠ 0 := by linarith
      field_simp
      ring
    rw [hv'] at hd
    have h5 := goes_uncover (cfg := cfg) hs (p := 2 ^ (j + 1) * q) (q := p + 2 ^ (j + 1) * q)
      (by positivity) (by positivity) ⟨f₀, ed⟩
    have hqe : (0 : Int) ≤ 2 ^ (j + 1) * q := by positivity
    have h6 := h4.trans h5 (M := 2 ^ (j + 1) * q + (p + 2 ^ (j + 1) * q)) (by omega) le_rfl
    have hev : (2 : Int) ^ (j + 1) * q = 2 * (2 ^ j * q) := by ring
    have hg' : (p + 2 ^ (j + 1) * q) + (2 ^ (j + 1) * q + (p + 2 ^ (j + 1) * q)) * (2 ^ (j + 1) - 1) =
        2 ^ (g + (j + 1)) := by
      rw [pow_add _ g, ← hg]
      ring
    have ih := ih d (p + 2 ^ (j + 1) * q) (2 ^ (j + 1) * q + (p + 2 ^ (j + 1) * q)) (g + (j + 1)) e
      (by omega) (by omega) (by omega) hd hg' (by rw [he]; ring)
    constructor
    · intro hbits
      rcases h6.1 with h7 | h7
      · exact h7
      · exact h7.fails (ih.1 hbits)
    · intro hbits
      refine (h6.2 ?_).finishes (ih.2 hbits)
      have hge : g ≤ e := by nlinarith
      have e1 : (2 : Int) ^ (g + 1) ≤ 2 ^ (cfg.bits - 1) := pow_le_pow_right₀ (by norm_num) (by omega)
      rw [pow_succ] at e1
      have e2 : (2 : Int) ^ (j + 1) * q + (p + 2 ^ (j + 1) * q) = 2 ^ g + q := by rw [← hg]; ring
      have e3 : q < 2 ^ g := by rw [← hg]; nlinarith
      omega

/-- Before the first Uncover. -/
theorem leads_amplifies {s : Int} (hs : s = 1 ∨ s = -1) (i : Nat) :
    ∀ (c : Clog) (v : ℚ), Clog.Denotes cfg NoPanic c v → v * 2 ^ i < 1 →
    ∃ c', Clog.Denotes cfg NoPanic c' (v * 2 ^ i) ∧ Leads cfg c s 0 c' s 0 := by
  induction i with
  | zero =>
    intro c v hc _
    exact ⟨c, by simpa using hc, 0, 0, fun f _ g => rfl⟩
  | succ i ih =>
    intro c v hc hv
    have v0 := hc.1
    have hp : (1 : ℚ) ≤ 2 ^ i := one_le_pow₀ (by norm_num)
    have h2 : v < 1 / 2 := by
      rw [pow_succ] at hv
      nlinarith
    obtain ⟨d, f₀, e, hd⟩ := hc.step_returns
    rw [sym_lt h2] at e
    rw [next_lt h2] at hd
    obtain ⟨c', h3, h4⟩ := ih d (2 * v) hd (by rw [pow_succ] at hv; linarith)
    exact ⟨c', by rw [pow_succ, show v * (2 ^ i * 2) = 2 * v * 2 ^ i by ring]; exact h3,
      (leads_amplify hs ⟨f₀, e⟩).trans h4⟩

theorem mersenne {s : Int} (hs : s = 1 ∨ s = -1) {b : Nat} (hb : 3 ≤ b) {c : Clog}
    (hc : Clog.Denotes cfg NoPanic c (1 / (2 ^ b - 1))) :
    (2 * cfg.bits ≤ (b - 2) * (b + 1) + 2 → Fails cfg c s 0) ∧
    ((b - 2) * (b + 1) + 2 < 2 * cfg.bits → Finishes cfg c s 0) := by
  obtain ⟨j, rfl⟩ : ∃ j, b = j + 3 := ⟨b - 3, by omega⟩
  have hp : (4 : ℚ) ≤ 2 ^ (j + 2) := by
    calc (4 : ℚ) = 2 ^ 2 := by norm_num
      _ ≤ 2 ^ (j + 2) := pow_le_pow_right₀ (by norm_num) (by omega)
  have hd : (0 : ℚ) < 2 ^ (j + 3) - 1 := by rw [pow_succ]; linarith
  obtain ⟨c1, h1, l1⟩ := leads_amplifies hs (j + 2) c _ hc (by
    rw [div_mul_eq_mul_div, one_mul, div_lt_one hd, pow_succ _ (j + 2)]
    linarith)
  have hv : (1 / 2 : ℚ) < 1 / (2 ^ (j + 3) - 1) * 2 ^ (j + 2) := by
    rw [div_mul_eq_mul_div, one_mul, lt_div_iff₀ hd, pow_succ _ (j + 2)]
    linarith
  obtain ⟨c2, f₀, e1, h2⟩ := h1.step_returns
  rw [sym_gt hv] at e1
  rw [next_gt hv] at h2
  have hv2 : (1 : ℚ) / (1 / (2 ^ (j + 3) - 1) * 2 ^ (j + 2)) - 1 = (2 ^ (j + 2) - 1) / 2 ^ (j + 2) := by
    rw [pow_succ _ (j + 2)] at hd ⊢
    field_simp
    ring
  rw [hv2] at h2
  have hv3 : (1 / 2 : ℚ) < (2 ^ (j + 2) - 1) / 2 ^ (j + 2) := by
    rw [lt_div_iff₀ (by linarith)]
    linarith
  obtain ⟨c3, f₁, e2, h3⟩ := h2.step_returns
  rw [sym_gt hv3] at e2
  rw [next_gt hv3] at h3
  have hv4 : (1 : ℚ) / ((2 ^ (j + 2) - 1) / 2 ^ (j + 2)) - 1 = 1 / (2 ^ (j + 1 + 1) - 1) := by
    have : (2 : ℚ) ^ (j + 2) - 1 ≠ 0 := by linarith
    field_simp
    ring
  rw [hv4] at h3
  have hm := cfg.imax_ge
  have l2 := (goes_uncover (cfg := cfg) hs (p := 1) (q := 0) (by decide) (by decide) ⟨f₀, e1⟩).2
    (by omega)
  have l3 := (goes_uncover (cfg := cfg) hs (p := 0) (q := 1) (by decide) (by decide) ⟨f₁, e2⟩).2
    (by omega)
  simp only [mul_one, mul_zero, add_zero, zero_add] at l2 l3
  have l := l1.trans (l2.trans l3)
  obtain ⟨e, he⟩ : ∃ e, 2 * e + 2 = 2 * (j + 2) + (j + 1) * (j + 1 + 1) := by
    obtain ⟨t, ht⟩ := Nat.even_mul_succ_self (j + 1)
    exact ⟨t + j + 1, by rw [ht]; ring⟩
  have r := rounds (cfg := cfg) hs (by omega : 1 ≤ j + 1) c3 1 1 (j + 2) e le_rfl le_rfl (by decide)
    h3 (by ring) he
  simp only [mul_one] at r
  have e3 : (j + 3 - 2) * (j + 3 + 1) = 2 * e := by
    have : j + 3 - 2 = j + 1 := by omega
    rw [this]
    nlinarith
  rw [e3]
  exact ⟨fun h => l.fails (r.1 (by omega)), fun h => l.finishes (r.2 (by omega))⟩

theorem mersenne' {s : Int} (hs : s = 1 ∨ s = -1) {b : Nat} (hb : 2 ≤ b) {c : Clog}
    (hc : Clog.Denotes cfg NoPanic c ((2 ^ b - 1) / 2 ^ b)) :
    (2 * cfg.bits ≤ (b - 1) * (b + 2) + 2 → Fails cfg c 0 s) ∧
    ((b - 1) * (b + 2) + 2 < 2 * cfg.bits → Finishes cfg c 0 s) := by
  obtain ⟨j, rfl⟩ : ∃ j, b = j + 2 := ⟨b - 2, by omega⟩
  have hp : (4 : ℚ) ≤ 2 ^ (j + 2) := by
    calc (4 : ℚ) = 2 ^ 2 := by norm_num
      _ ≤ 2 ^ (j + 2) := pow_le_pow_right₀ (by norm_num) (by omega)
  have hv3 : (1 / 2 : ℚ) < (2 ^ (j + 2) - 1) / 2 ^ (j + 2) := by
    rw [lt_div_iff₀ (by linarith)]
    linarith
  obtain ⟨c3, f₁, e2, h3⟩ := hc.step_returns
  rw [sym_gt hv3] at e2
  rw [next_gt hv3] at h3
  have hv4 : (1 : ℚ) / ((2 ^ (j + 2) - 1) / 2 ^ (j + 2)) - 1 = 1 / (2 ^ (j + 1 + 1) - 1) := by
    have : (2 : ℚ) ^ (j + 2) - 1 ≠ 0 := by linarith
    field_simp
    ring
  rw [hv4] at h3
  have hm := cfg.imax_ge
  have l := (goes_uncover (cfg := cfg) hs (p := 0) (q := 1) (by decide) (by decide) ⟨f₁, e2⟩).2
    (by omega)
  simp only [mul_one, mul_zero, zero_add] at l
  obtain ⟨e, he⟩ : ∃ e, 2 * e + 2 = 2 * (j + 2) + (j + 1) * (j + 1 + 1) := by
    obtain ⟨t, ht⟩ := Nat.even_mul_succ_self (j + 1)
    exact ⟨t + j + 1, by rw [ht]; ring⟩
  have r := rounds (cfg := cfg) hs (by omega : 1 ≤ j + 1) c3 1 1 (j + 2) e le_rfl le_rfl (by decide)
    h3 (by ring) he
  simp only [mul_one] at r
  have e3 : (j + 2 - 1) * (j + 2 + 2) = 2 * e := by
    have : j + 2 - 1 = j + 1 := by omega
    rw [this]
    nlinarith
  rw [e3]
  exact ⟨fun h => l.fails (r.1 (by omega)), fun h => l.finishes (r.2 (by omega))⟩

end ZeroOver

/-- `0 / (1/(2^b-1))`, and the same with the negative number, overflows if `(b-2)(b+1)/2` is at least
`bits - 1`, and is zero otherwise. -/
theorem C93_mersenne (cfg : Cfg) (b : Nat) (hb : 3 ≤ b) (x : Number) (q : ℚ)
    (hx : Number.Denotes cfg NoPanic x q) (hq : |q| = 1 / (2 ^ b - 1)) :
    (2 * cfg.bits ≤ (b - 2) * (b + 1) + 2 → ∃ o, Overflow o ∧
      Panics (fun f => Op.quotient.run cfg f (.Special .Zero) x) o) ∧
    ((b - 2) * (b + 1) + 2 < 2 * cfg.bits →
      Returns (fun f => Op.quotient.run cfg f (.Special .Zero) x) (.Special .Zero)) := by
  have hp : (8 : ℚ) ≤ 2 ^ b := by
    calc (8 : ℚ) = 2 ^ 3 := by norm_num
      _ ≤ 2 ^ b := pow_le_pow_right₀ (by norm_num) hb
  have hd : (0 : ℚ) < 2 ^ b - 1 := by linarith
  have q1 : (1 : ℚ) / (2 ^ b - 1) < 1 := by rw [div_lt_one hd]; linarith
  have q0 : (0 : ℚ) < 1 / (2 ^ b - 1) := by positivity
  cases x with
  | Special s =>
    have e : q = specialValue s := hx
    subst e
    cases s <;> simp only [specialValue, abs_neg, abs_one, abs_zero] at hq <;> linarith
  | Other p c =>
    obtain ⟨v, hv, rfl⟩ := hx
    have v0 := hv.1
    have v1 := hv.2.1
    have i1 : 1 < 1 / v := by rwa [lt_div_iff₀ v0, one_mul]
    obtain ⟨k, -, k1, k2, -, -, e⟩ := calls (cfg := cfg) p c
    have key : v = 1 / (2 ^ b - 1) ∧ ∃ s : Int, (s = 1 ∨ s = -1) ∧ k = ⟨0, 0, s, 0⟩ := by
      rcases p with _ | _ | _ | _ <;> simp only [applyPrimer, abs_neg] at hq
      · rw [abs_of_pos v0] at hq
        exact ⟨hq, 1, .inl rfl, k1 rfl⟩
      · rw [abs_of_pos (by linarith)] at hq
        linarith
      · rw [abs_of_pos v0] at hq
        exact ⟨hq, -1, .inr rfl, k2 rfl⟩
      · rw [abs_of_pos (by linarith)] at hq
        linarith
    obtain ⟨rfl, s, hs, rfl⟩ := key
    obtain ⟨m1, m2⟩ := mersenne (cfg := cfg) hs hb hv
    constructor
    · intro h
      obtain ⟨f₀, o, ho, h⟩ := m1 h
      refine ⟨o, ho, f₀, fun f hf => ?_⟩
      show Op.quotient.run cfg f (.Special .Zero) (.Other p c) = _
      rw [e, h f hf f hf]
      rfl
    · intro h
      obtain ⟨f₀, h⟩ := m2 h
      refine ⟨f₀, fun f hf => ?_⟩
      show Op.quotient.run cfg f (.Special .Zero) (.Other p c) = _
      rw [e, h f hf f hf]
      rfl

/-- `0 / (2^b/(2^b-1))`, and the same with the negative number, overflows if `(b-1)(b+2)/2` is at least
`bits - 1`, and is zero otherwise. -/
theorem C93_mersenne_turned (cfg : Cfg) (b : Nat) (hb : 2 ≤ b) (x : Number) (q : ℚ)
    (hx : Number.Denotes cfg NoPanic x q) (hq : |q| = 2 ^ b / (2 ^ b - 1)) :
    (2 * cfg.bits ≤ (b - 1) * (b + 2) + 2 → ∃ o, Overflow o ∧
      Panics (fun f => Op.quotient.run cfg f (.Special .Zero) x) o) ∧
    ((b - 1) * (b + 2) + 2 < 2 * cfg.bits →
      Returns (fun f => Op.quotient.run cfg f (.Special .Zero) x) (.Special .Zero)) := by
  have hp : (4 : ℚ) ≤ 2 ^ b := by
    calc (4 : ℚ) = 2 ^ 2 := by norm_num
      _ ≤ 2 ^ b := pow_le_pow_right₀ (by norm_num) hb
  have hd : (0 : ℚ) < 2 ^ b - 1 := by linarith
  have q1 : (1 : ℚ) < 2 ^ b / (2 ^ b - 1) := by rw [lt_div_iff₀ hd]; linarith
  cases x with
  | Special s =>
    have e : q = specialValue s := hx
    subst e
    cases s <;> simp only [specialValue, abs_neg, abs_one, abs_zero] at hq <;> linarith
  | Other p c =>
    obtain ⟨v, hv, rfl⟩ := hx
    have v0 := hv.1
    have v1 := hv.2.1
    have i0 : 0 < 1 / v := by positivity
    have inv : 1 / v = 2 ^ b / (2 ^ b - 1) → v = (2 ^ b - 1) / 2 ^ b := by
      intro h
      rw [div_eq_div_iff v0.ne' hd.ne'] at h
      rw [eq_div_iff (by positivity)]
      linarith
    obtain ⟨k, -, -, -, k1, k2, e⟩ := calls (cfg := cfg) p c
    have key : v = (2 ^ b - 1) / 2 ^ b ∧ ∃ s : Int, (s = 1 ∨ s = -1) ∧ k = ⟨0, 0, 0, s⟩ := by
      rcases p with _ | _ | _ | _ <;> simp only [applyPrimer, abs_neg] at hq
      · rw [abs_of_pos v0] at hq
        linarith
      · rw [abs_of_pos i0] at hq
        exact ⟨inv hq, 1, .inl rfl, k1 rfl⟩
      · rw [abs_of_pos v0] at hq
        linarith
      · rw [abs_of_pos i0] at hq
        exact ⟨inv hq, -1, .inr rfl, k2 rfl⟩
    obtain ⟨rfl, s, hs, rfl⟩ := key
    obtain ⟨m1, m2⟩ := mersenne' (cfg := cfg) hs hb hv
    constructor
    · intro h
      obtain ⟨f₀, o, ho, h⟩ := m1 h
      refine ⟨o, ho, f₀, fun f hf => ?_⟩
      show Op.quotient.run cfg f (.Special .Zero) (.Other p c) = _
      rw [e, h f hf f hf]
      rfl
    · intro h
      obtain ⟨f₀, h⟩ := m2 h
      refine ⟨f₀, fun f hf => ?_⟩
      show Op.quotient.run cfg f (.Special .Zero) (.Other p c) = _
      rw [e, h f hf f hf]
      rfl

/-- 0/(1/2047) is zero on a 64-bit machine. -/
example : Returns (fun f => Op.quotient.run debug64 f (.Special .Zero)
    (.Other none (.ratio ⟨1, 2047⟩))) (.Special .Zero) :=
  (C93_mersenne debug64 11 (by decide) (.Other none (.ratio ⟨1, 2047⟩)) (1 / 2047) ⟨1 / 2047, by
    simpa [Ratio.val] using Ratio.denotes (cfg := debug64) (A := NoPanic) (r := ⟨1, 2047⟩)
      ⟨by decide, by decide, by decide⟩, rfl⟩ (by norm_num)).2 (by decide)

/-- 0/(-1/4095) overflows. -/
example : ∃ o, Overflow o ∧ Panics (fun f => Op.quotient.run release64 f (.Special .Zero)
    (.Other (some .Reflect) (.ratio ⟨1, 4095⟩))) o :=
  (C93_mersenne release64 12 (by decide) (.Other (some .Reflect) (.ratio ⟨1, 4095⟩)) (-(1 / 4095))
    ⟨1 / 4095, by
      simpa [Ratio.val] using Ratio.denotes (cfg := release64) (A := NoPanic) (r := ⟨1, 4095⟩)
        ⟨by decide, by decide, by decide⟩, rfl⟩
    (by rw [abs_neg, abs_of_pos (by norm_num)]; norm_num)).1 (by decide)

/-- 0/(2048/2047) overflows. -/
example : ∃ o, Overflow o ∧ Panics (fun f => Op.quotient.run release64 f (.Special .Zero)
    (.Other (some .Turn) (.ratio ⟨2047, 2048⟩))) o :=
  (C93_mersenne_turned release64 11 (by decide) (.Other (some .Turn) (.ratio ⟨2047, 2048⟩)) (2048 / 2047)
    ⟨2047 / 2048, by
      simpa [Ratio.val] using Ratio.denotes (cfg := release64) (A := NoPanic) (r := ⟨2047, 2048⟩)
        ⟨by decide, by decide, by decide⟩, by norm_num [applyPrimer]⟩
    (by rw [abs_of_pos (by norm_num)]; norm_num)).1 (by decide)

end Clarith
