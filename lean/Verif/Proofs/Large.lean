import Verif.Properties.Rebuild
import Verif.Properties.Limits
import Verif.Proofs.Powers
import Verif.Proofs.Observe

/-! # `Combine` while both operands answer Amplify

Lemmas for C86.  As long as a coefficient without operand is zero in the numerator or in the
denominator, `prime` reads a symbol of each operand, and every Amplify doubles a coefficient. -/

namespace Clarith

open Out Spec Support

variable {cfg : Cfg}

/-! ## Waiting -/

/-- `G t` are the coefficients after `t` doublings, the first by a symbol of `x`, the next by a
symbol of `y`, and so on; the one with number `T` does not fit. -/
structure Coef8.Waits (cfg : Cfg) (G : Nat → Coef8) (T : Nat) : Prop where
  attempt : ∀ i, 2 * i < T → (G (2 * i)).primerAttempt cfg = .ok none ∨
    (G (2 * i)).primerAttempt cfg = .panic .unwrapNone
  ax : ∀ i, 2 * i + 1 < T → (G (2 * i)).amplifyX cfg = .ok (G (2 * i + 1))
  ay : ∀ i, 2 * i + 2 < T → (G (2 * i + 1)).amplifyY cfg = .ok (G (2 * i + 2))
  px : ∀ i, 2 * i + 1 = T → (G (2 * i)).amplifyX cfg = .panic .unwrapNone
  py : ∀ i, 2 * i + 2 = T → (G (2 * i + 1)).amplifyY cfg = .panic .unwrapNone

theorem Combine.prime_waits {G : Nat → Coef8} {T : Nat} (hG : Coef8.Waits cfg G T) {eg : EgestFn} :
    ∀ (mx my i : Nat) (x x' y y' : Clog) (f : Nat), mx < f → 2 * i < T → T ≤ 2 * (i + mx) →
      T ≤ 2 * (i + my) + 1 → Reads eg (List.replicate mx .Amplify) x x' →
      Reads eg (List.replicate my .Amplify) y y' →
      Combine.prime cfg eg f ⟨x, y, G (2 * i)⟩ = .panic .unwrapNone := by
  intro mx
  induction mx with
  | zero => intro my i x x' y y' f _ h1 h2; omega
  | succ mx ih =>
    intro my i x x' y y' f hf h1 h2 h3 hx hy
    obtain ⟨f, rfl⟩ : ∃ g, f = g + 1 := ⟨f - 1, by omega⟩
    rw [List.replicate_succ] at hx
    obtain ⟨x1, ex, hx⟩ := hx
    rcases hG.attempt i h1 with ea | ea
    swap
    · simp only [Combine.prime, ea, panic_bind]
    by_cases t1 : 2 * i + 1 = T
    · simp only [Combine.prime, ea, ok_bind, Combine.primeIngest, ex, Coef8.ingestX, hG.px i t1,
        panic_bind]
    obtain ⟨my, rfl⟩ : ∃ m, my = m + 1 := ⟨my - 1, by omega⟩
    rw [List.replicate_succ] at hy
    obtain ⟨y1, ey, hy⟩ := hy
    by_cases t2 : 2 * i + 2 = T
    · simp only [Combine.prime, ea, ok_bind, Combine.primeIngest, ex, Coef8.ingestX,
        hG.ax i (by omega), ey, Coef8.ingestY, hG.py i t2, panic_bind]
    · simp only [Combine.prime, ea, ok_bind, Combine.primeIngest, ex, Coef8.ingestX,
        hG.ax i (by omega), ey, Coef8.ingestY, hG.ay i (by omega), pure_eq]
      exact ih my (i + 1) x1 x' y1 y' f (by omega) (by omega) (by omega) (by omega) hx hy

/-- The call panics, for operands that answer Amplify often enough. -/
theorem Number.combine_waits {G : Nat → Coef8} {T : Nat} (hG : Coef8.Waits cfg G T) (hT : 0 < T)
    {p q : Option Primer} {cx cy dx dy : Clog} {k k1 : Coef8}
    (e1 : k.absorbPrimerX cfg p = .ok k1) (e2 : k1.absorbPrimerY cfg q = .ok (G 0))
    {mx my : Nat} (hx : Gives cfg cx (List.replicate mx .Amplify) dx)
    (hy : Gives cfg cy (List.replicate my .Amplify) dy) (h1 : T ≤ 2 * mx) (h2 : T ≤ 2 * my + 1) :
    Panics (fun f => Number.combine cfg f (.Other p cx) (.Other q cy) k.a k.b k.c k.d k.e k.f k.g
      k.h) .unwrapNone := by
  obtain ⟨f1, hx⟩ := hx
  obtain ⟨f2, hy⟩ := hy
  refine ⟨max (max f1 f2) (mx + 1), fun f hf => ?_⟩
  have hx := reads_iff.2 (hx f (by omega))
  have hy := reads_iff.2 (hy f (by omega))
  have := Combine.prime_waits hG (eg := Clog.egest cfg f) mx my 0 cx dx cy dy f (by omega)
    (by omega) (by omega) (by omega) hx hy
  simp only [Number.combine, Combine.new, e1, e2, ok_bind, mul_zero] at this ⊢
  rw [this, panic_bind]

/-! ## The coefficients of the four operations -/

namespace Coef8

/-- The product of two small numbers, and the quotient of a small and a large one. -/
def tiny (σ : Int) (t : Nat) : Coef8 := ⟨σ, 0, 0, 0, 0, 0, 0, 2 ^ t⟩

/-- The product of two large numbers, and the quotient of a large and a small one. -/
def huge (σ : Int) (t : Nat) : Coef8 := ⟨0, 0, 0, 2 ^ t, σ, 0, 0, 0⟩

/-- The sum of a large and a small number. -/
def largeSmall (σ τ : Int) (t : Nat) : Coef8 := ⟨σ, 0, 0, 2 ^ t, 0, τ * 2 ^ (t / 2), 0, 0⟩

/-- The sum of a small and a large number. -/
def smallLarge (σ δ τ : Int) (t : Nat) : Coef8 :=
  ⟨σ, 0, 0, δ * 2 ^ t, 0, 0, τ * 2 ^ ((t + 1) / 2), 0⟩

end Coef8

theorem Cfg.pow_fits {t : Nat} (h : t + 1 < cfg.bits) : cfg.Fits (2 ^ t) := by
  have hb := cfg.hbits
  have hi := cfg.imin_eq
  have e : cfg.imax = 2 * 2 ^ (cfg.bits - 2) - 1 := by
    unfold Cfg.imax
    rw [show cfg.bits - 1 = 1 + (cfg.bits - 2) by omega, pow_add]
    norm_num
  have h1 : (2 : Int) ^ t ≤ 2 ^ (cfg.bits - 2) := pow_le_pow_right₀ (by norm_num) (by omega)
  have h2 : (0 : Int) < 2 ^ t := by positivity
  constructor <;> omega

theorem Cfg.pow_not_fits : ¬cfg.Fits (2 ^ (cfg.bits - 1)) := by
  rintro ⟨-, h⟩
  unfold Cfg.imax at h
  omega

theorem Cfg.cmul_two_pow {t : Nat} (h : t + 2 < cfg.bits) :
    cfg.cmul (2 ^ t) 2 = .ok (2 ^ (t + 1)) := by
  rw [Cfg.cmul, ← pow_succ]
  exact cfg.checked_eq (cfg.pow_fits (by omega))

theorem Cfg.cmul_two_pow_panics {t : Nat} (h : t + 2 = cfg.bits) :
    cfg.cmul (2 ^ t) 2 = .panic .unwrapNone := by
  rw [Cfg.cmul, ← pow_succ, Cfg.checked, if_neg]
  rw [show t + 1 = cfg.bits - 1 by omega]
  exact cfg.pow_not_fits

theorem Cfg.cmul_zero_two : cfg.cmul 0 2 = .ok 0 := by
  rw [Cfg.cmul, zero_mul]
  exact cfg.checked_eq (cfg.fits_small (by norm_num) (by norm_num))

theorem unit_not_even {σ : Int} (h : σ = 1 ∨ σ = -1) : isEven σ = false := by
  rcases h with rfl | rfl <;> rfl

theorem Coef8.tiny_waits {σ : Int} (hσ : σ = 1 ∨ σ = -1) : Waits cfg (tiny σ) (cfg.bits - 1) := by
  have hb := cfg.hbits
  have ho := unit_not_even hσ
  have z := cfg.cmul_zero_two
  constructor
  · intro i hi
    exact .inl (by simp [primerAttempt, areSingularitiesOutsideDomain, isZeroOutsideDomain,
      isDomainAmenable, tiny, Out.and])
  · intro i hi
    simp [amplifyX, tiny, ho, z, cfg.cmul_two_pow (t := 2 * i) (by omega)]
  · intro i hi
    simp [amplifyY, tiny, ho, z, cfg.cmul_two_pow (t := 2 * i + 1) (by omega)]
  · intro i hi
    simp [amplifyX, tiny, ho, z, cfg.cmul_two_pow_panics (t := 2 * i) (by omega)]
  · intro i hi
    simp [amplifyY, tiny, ho, z, cfg.cmul_two_pow_panics (t := 2 * i + 1) (by omega)]

theorem Coef8.huge_waits {σ : Int} (hσ : σ = 1 ∨ σ = -1) : Waits cfg (huge σ) (cfg.bits - 1) := by
  have hb := cfg.hbits
  have ho := unit_not_even hσ
  have z := cfg.cmul_zero_two
  have f0 : cfg.checked 0 = .ok 0 := cfg.checked_eq (cfg.fits_small (by norm_num) (by norm_num))
  constructor
  · intro i hi
    have h1 := cfg.checked_eq (cfg.pow_fits (t := 2 * i) (by omega))
    have h2 : ((2 : Int) ^ (2 * i)).sign = 1 := Int.sign_eq_one_of_pos (by positivity)
    exact .inl (by simp [primerAttempt, areSingularitiesOutsideDomain, isZeroOutsideDomain,
      isPoleOutsideDomain, isDomainAmenable, huge, Out.and, h1, h2, Cfg.cadd, f0])
  · intro i hi
    simp [amplifyX, huge, ho, z, cfg.cmul_two_pow (t := 2 * i) (by omega)]
  · intro i hi
    simp [amplifyY, huge, ho, z, cfg.cmul_two_pow (t := 2 * i + 1) (by omega)]
  · intro i hi
    simp [amplifyX, huge, ho, z, cfg.cmul_two_pow_panics (t := 2 * i) (by omega)]
  · intro i hi
    simp [amplifyY, huge, ho, z, cfg.cmul_two_pow_panics (t := 2 * i + 1) (by omega)]

theorem Cfg.cadd_cases (a b : Int) :
    (∃ z, cfg.cadd a b = .ok z) ∨ cfg.cadd a b = .panic .unwrapNone := by
  unfold Cfg.cadd Cfg.checked
  split
  · exact .inl ⟨_, rfl⟩
  · exact .inr rfl

theorem Coef8.isDomainAmenable_cases (a b c d : Int) :
    (∃ z, isDomainAmenable cfg a b c d = .ok z) ∨
      isDomainAmenable cfg a b c d = .panic .unwrapNone := by
  unfold isDomainAmenable
  simp only
  split
  · exact .inl ⟨_, rfl⟩
  rcases cfg.cadd_cases d b with ⟨z, e⟩ | e <;> simp only [e, ok_bind, panic_bind, or_true]
  split
  · exact .inl ⟨_, rfl⟩
  rcases cfg.cadd_cases d c with ⟨z, e⟩ | e <;> simp only [e, ok_bind, panic_bind, or_true]
  split
  · exact .inl ⟨_, rfl⟩
  rcases cfg.cadd_cases b c with ⟨z, e⟩ | e <;> simp only [e, ok_bind, panic_bind, or_true]
  rcases cfg.cadd_cases a z with ⟨z, e⟩ | e <;> simp only [e, ok_bind, panic_bind, or_true]
  rcases cfg.cadd_cases d z with ⟨z, e⟩ | e <;> simp only [e, ok_bind, panic_bind, or_true]
  exact .inl ⟨_, rfl⟩

/-- Nothing can be decided while the denominator has no constant term. -/
theorem Coef8.primerAttempt_no_constant {k : Coef8} (h : k.h = 0) :
    k.primerAttempt cfg = .ok none ∨ k.primerAttempt cfg = .panic .unwrapNone := by
  unfold primerAttempt areSingularitiesOutsideDomain isZeroOutsideDomain
  rcases isDomainAmenable_cases (cfg := cfg) k.a k.b k.c k.d with ⟨z, e⟩ | e
  · left
    have ep : isPoleOutsideDomain cfg k = .ok false := by
      simp [isPoleOutsideDomain, isDomainAmenable, h]
    cases z <;> simp [e, ep, Out.and]
  · right
    simp [e, Out.and]

theorem Cfg.signed_pow_fits {t : Nat} {τ : Int} (hτ : τ = 1 ∨ τ = -1) (h : t + 1 < cfg.bits) :
    cfg.Fits (τ * 2 ^ t) := by
  have := cfg.pow_fits h
  have hi := cfg.imin_eq
  have h2 : (0 : Int) < 2 ^ t := by positivity
  obtain ⟨h3, h4⟩ := this
  rcases hτ with rfl | rfl <;> constructor <;> omega

theorem Cfg.cmul_two_signed {t : Nat} {τ : Int} (hτ : τ = 1 ∨ τ = -1) (h : t + 2 < cfg.bits) :
    cfg.cmul (τ * 2 ^ t) 2 = .ok (τ * 2 ^ (t + 1)) := by
  rw [Cfg.cmul, mul_assoc, ← pow_succ]
  exact cfg.checked_eq (cfg.signed_pow_fits hτ (by omega))

theorem Coef8.largeSmall_waits {σ τ : Int} (hσ : σ = 1 ∨ σ = -1) (hτ : τ = 1 ∨ τ = -1) :
    Waits cfg (largeSmall σ τ) (cfg.bits - 1) := by
  have hb := cfg.hbits
  have ho := unit_not_even hσ
  have z := cfg.cmul_zero_two
  constructor
  · intro i hi
    exact primerAttempt_no_constant rfl
  · intro i hi
    simp [amplifyX, largeSmall, ho, z, cfg.cmul_two_pow (t := 2 * i) (by omega),
      show (2 * i + 1) / 2 = i by omega]
  · intro i hi
    simp [amplifyY, largeSmall, ho, z, cfg.cmul_two_pow (t := 2 * i + 1) (by omega),
      show (2 * i + 1) / 2 = i by omega, show (2 * i + 2) / 2 = i + 1 by omega,
      cfg.cmul_two_signed (t := i) hτ (by omega)]
  · intro i hi
    simp [amplifyX, largeSmall, ho, z, cfg.cmul_two_pow_panics (t := 2 * i) (by omega)]
  · intro i hi
    simp [amplifyY, largeSmall, ho, z, cfg.cmul_two_pow_panics (t := 2 * i + 1) (by omega)]

theorem Coef8.smallLarge_waits {σ τ : Int} (hσ : σ = 1 ∨ σ = -1) (hτ : τ = 1 ∨ τ = -1) :
    Waits cfg (smallLarge σ 1 τ) (cfg.bits - 1) := by
  have hb := cfg.hbits
  have ho := unit_not_even hσ
  have z := cfg.cmul_zero_two
  constructor
  · intro i hi
    exact primerAttempt_no_constant rfl
  · intro i hi
    simp [amplifyX, smallLarge, ho, z, cfg.cmul_two_pow (t := 2 * i) (by omega),
      show (2 * i + 1) / 2 = i by omega, show (2 * i + 1 + 1) / 2 = i + 1 by omega,
      cfg.cmul_two_signed (t := i) hτ (by omega)]
  · intro i hi
    simp [amplifyY, smallLarge, ho, z, cfg.cmul_two_pow (t := 2 * i + 1) (by omega),
      show (2 * i + 1 + 1) / 2 = i + 1 by omega, show (2 * i + 2 + 1) / 2 = i + 1 by omega]
  · intro i hi
    simp [amplifyX, smallLarge, ho, z, cfg.cmul_two_pow_panics (t := 2 * i) (by omega)]
  · intro i hi
    simp [amplifyY, smallLarge, ho, z, cfg.cmul_two_pow_panics (t := 2 * i + 1) (by omega)]

/-- With a negative coefficient there is room for one doubling more. -/
theorem Cfg.neg_cmul_two {t : Nat} (h : t + 1 < cfg.bits) :
    cfg.cmul (-1 * 2 ^ t) 2 = .ok (-1 * 2 ^ (t + 1)) := by
  rw [Cfg.cmul, mul_assoc, ← pow_succ]
  refine cfg.checked_eq ?_
  have h1 : (2 : Int) ^ (t + 1) ≤ 2 ^ (cfg.bits - 1) := pow_le_pow_right₀ (by norm_num) (by omega)
  have h2 : (0 : Int) < 2 ^ (t + 1) := by positivity
  have h3 : (0 : Int) < 2 ^ (cfg.bits - 1) := by positivity
  unfold Cfg.Fits Cfg.imin Cfg.imax
  constructor <;> omega

theorem Cfg.neg_cmul_two_panics {t : Nat} (h : t + 1 = cfg.bits) :
    cfg.cmul (-1 * 2 ^ t) 2 = .panic .unwrapNone := by
  rw [Cfg.cmul, mul_assoc, ← pow_succ, Cfg.checked, if_neg]
  rintro ⟨h1, -⟩
  unfold Cfg.imin at h1
  rw [show t + 1 = cfg.bits - 1 + 1 by omega, pow_succ] at h1
  have h3 : (0 : Int) < 2 ^ (cfg.bits - 1) := by positivity
  omega

theorem Coef8.smallLarge_waits_neg {σ τ : Int} (hσ : σ = 1 ∨ σ = -1) (hτ : τ = 1 ∨ τ = -1) :
    Waits cfg (smallLarge σ (-1) τ) cfg.bits := by
  have hb := cfg.hbits
  have ho := unit_not_even hσ
  have z := cfg.cmul_zero_two
  constructor
  · intro i hi
    exact primerAttempt_no_constant rfl
  · intro i hi
    have h1 := cfg.neg_cmul_two (t := 2 * i) (by omega)
    have h2 := cfg.cmul_two_signed (t := i) hτ (by omega)
    simp only [amplifyX, smallLarge, ho, z, h1, h2, ok_bind, pure_eq, Bool.false_and,
      Bool.false_eq_true, if_false, show (2 * i + 1) / 2 = i by omega,
      show (2 * i + 1 + 1) / 2 = i + 1 by omega]
  · intro i hi
    have h1 := cfg.neg_cmul_two (t := 2 * i + 1) (by omega)
    simp only [amplifyY, smallLarge, ho, z, h1, ok_bind, pure_eq, Bool.false_and,
      Bool.false_eq_true, if_false, show (2 * i + 2 + 1) / 2 = i + 1 by omega,
      show (2 * i + 1 + 1) / 2 = i + 1 by omega]
  · intro i hi
    have h1 := cfg.neg_cmul_two_panics (t := 2 * i) (by omega)
    simp only [amplifyX, smallLarge, ho, z, h1, ok_bind, panic_bind, Bool.false_and,
      Bool.false_eq_true, if_false]
  · intro i hi
    have h1 := cfg.neg_cmul_two_panics (t := 2 * i + 1) (by omega)
    simp only [amplifyY, smallLarge, ho, z, h1, ok_bind, panic_bind, Bool.false_and,
      Bool.false_eq_true, if_false]

/-! ## A number below `2^-m` begins with `m` times Amplify -/

theorem Clog.Denotes.amplifies (m : Nat) : ∀ {c : Clog} {v : ℚ},
    Clog.Denotes cfg NoPanic c v → v < 1 / 2 ^ m →
    ∃ c', Gives cfg c (List.replicate m .Amplify) c' ∧ Clog.Denotes cfg NoPanic c' (2 ^ m * v) := by
  induction m with
  | zero => exact fun h _ => ⟨_, Gives.nil _, by simpa using h⟩
  | succ m ih =>
    intro c v h hv
    have hle : (1 : ℚ) / 2 ^ (m + 1) ≤ 1 / 2 := by
      rw [pow_succ]
      have : (1 : ℚ) ≤ 2 ^ m := one_le_pow₀ (by norm_num)
      rw [div_le_div_iff₀ (by positivity) (by norm_num)]
      linarith
    obtain ⟨c1, f₀, h1, h2⟩ := h.step_returns
    rw [sym_lt (by linarith)] at h1
    rw [next_lt (by linarith)] at h2
    obtain ⟨c', h3, h4⟩ := ih h2 (by
      rw [pow_succ, lt_div_iff₀ (by positivity)] at hv
      rw [lt_div_iff₀ (by positivity)]
      linarith)
    exact ⟨c', Gives.cons ⟨f₀, h1⟩ h3, by rwa [show (2 : ℚ) ^ (m + 1) * v = 2 ^ m * (2 * v) by ring]⟩

/-! ## Products of powers of two -/

/-- The state after `i` times Amplify from the identity (`Coef4.shifted_attempt` with one bit more).-/
theorem Coef4.halved_attempt {s : Int} (hs : s = 1 ∨ s = -1) {i : Nat} (hi : i + 1 + 2 ≤ cfg.bits) :
    (⟨s, 0, 0, s * 2 ^ (i + 1)⟩ : Coef4).reductionAttempt cfg =
      .ok (some (some .Amplify, ⟨s, 0, 0, s * 2 ^ i⟩)) := by
  have f3 : cfg.Fits (2 ^ (i + 1)) := cfg.pow_fits (by omega)
  have f4 : cfg.Fits (-1 * 2 ^ (i + 1)) := cfg.signed_pow_fits (.inr rfl) (by omega)
  have hD : (1 : Int) ≤ 2 ^ i := one_le_pow₀ (by norm_num)
  rw [pow_succ] at f3 f4 ⊢
  generalize (2 : Int) ^ i = D at hD f3 f4 ⊢
  rw [neg_one_mul] at f4
  have f0 : cfg.Fits 0 := cfg.fits_small (by norm_num) (by norm_num)
  have f1 : cfg.Fits 1 := cfg.fits_small (by norm_num) (by norm_num)
  have f2 : cfg.Fits (-1) := cfg.fits_small (by norm_num) (by norm_num)
  have D0 : D ≠ 0 := by omega
  have D1 : ¬D * 2 < 0 := by omega
  have D2 : ¬D * 2 < 1 := by omega
  have D3 : ¬D < 1 := by omega
  have D4 : 0 < D := by omega
  rcases hs with rfl | rfl
  · simp [reductionAttempt, areSingularitiesOutsideDomain, isZeroOutsideDomain, isPoleOutsideDomain,
      isDomainAmenable, Out.and, Cfg.cadd, Cfg.checked, f3, f1, f0, reductionEgest, imageExtremes,
      valueAtZero, valueAtOne, updatedRange, normalise, D0, D1, D2, D3, D4, lessThan, greaterThan,
      compareReduce, Cfg.cmul, lessThanZero, greaterThanOne, equalToOneHalf, doubled,
      greaterThanOneHalf, amplify, isOdd, half]
  · simp [reductionAttempt, areSingularitiesOutsideDomain, isZeroOutsideDomain, isPoleOutsideDomain,
      isDomainAmenable, Out.and, Cfg.cadd, Cfg.checked, f4, f3, f2, f1, f0, reductionEgest,
      imageExtremes, valueAtZero, valueAtOne, updatedRange, normalise, D0, D2, D3, D4, lessThan,
      greaterThan, compareReduce, Cfg.cmul, Cfg.mul, Cfg.unchecked, lessThanZero, greaterThanOne,
      equalToOneHalf, doubled, greaterThanOneHalf, amplify, isOdd, half]

theorem Coef4.halved_denotes {s : Int} (hs : s = 1 ∨ s = -1) {c : Clog} {v : ℚ}
    (h : Clog.Denotes cfg NoPanic c v) (i : Nat) (hi : i + 2 ≤ cfg.bits) :
    Clog.Denotes cfg NoPanic (Homographic.box ⟨c, ⟨s, 0, 0, s * 2 ^ i⟩⟩) (v / 2 ^ i) := by
  induction i with
  | zero =>
    have := h.identity (k := ⟨s, 0, 0, s * 2 ^ 0⟩) (by rcases hs with rfl | rfl <;> simp [Identity])
    simpa using this
  | succ i ih =>
    have hp : (0 : ℚ) < 2 ^ (i + 1) := by positivity
    have hp' : (1 : ℚ) ≤ 2 ^ i := one_le_pow₀ (by norm_num)
    have h0 := h.1
    have h1 := h.2.1
    have lt : v / 2 ^ (i + 1) < 1 / 2 := by
      rw [div_lt_iff₀ hp, pow_succ]
      linarith
    refine Clog.Denotes.of_step (div_pos h0 hp) (by linarith) ?_
    rw [sym_lt lt, next_lt lt, show 2 * (v / 2 ^ (i + 1)) = v / 2 ^ i by rw [pow_succ]; field_simp]
    refine .inl ⟨(some .Amplify, Homographic.box ⟨c, ⟨s, 0, 0, s * 2 ^ i⟩⟩), ⟨2, fun f hf => ?_⟩, rfl,
      ih (by omega)⟩
    obtain ⟨f, rfl⟩ : ∃ g, f = g + 2 := ⟨f - 2, by omega⟩
    have unfold_ : ∀ h : Homographic, Clog.egest cfg (f + 2) (Homographic.box h) = (do
        let t ← Strategy.egest cfg (Clog.egest cfg (f + 1)) (f + 1) (Homographic.box h)
        match t with
        | (.ok reduction, s) => pure (reduction, s)
        | (.err newStrategy, _) => Clog.egest cfg (f + 1) newStrategy) := fun _ => rfl
    refine (unfold_ _).trans ?_
    simp only [Strategy.egest, Homographic.box, Homographic.egest, halved_attempt hs hi, ok_bind,
      pure_eq]

/-- The coefficients left when one operand has ended, and the primer they give. -/
def Coef4.tiny (σ : Int) (t : Nat) : Coef4 := ⟨σ, 0, 0, 2 ^ t⟩

def Coef4.huge (σ : Int) (t : Nat) : Coef4 := ⟨0, 2 ^ t, σ, 0⟩

theorem Coef4.tiny_primer {σ : Int} (hσ : σ = 1 ∨ σ = -1) {t : Nat} (ht : t + 2 ≤ cfg.bits)
    (h1 : 1 ≤ t) : (Coef4.tiny σ t).primerAttempt cfg =
      .ok (some (if σ = 1 then none else some .Reflect, ⟨1, 0, 0, 2 ^ t⟩)) := by
  have f3 : cfg.Fits (2 ^ t) := cfg.pow_fits (by omega)
  have f4 : cfg.Fits (-1 * 2 ^ t) := cfg.signed_pow_fits (.inr rfl) (by omega)
  have hD : (2 : Int) ^ 1 ≤ 2 ^ t := pow_le_pow_right₀ (by norm_num) h1
  unfold Coef4.tiny
  generalize (2 : Int) ^ t = D at hD f3 f4 ⊢
  rw [neg_one_mul] at f4
  have f0 : cfg.Fits 0 := cfg.fits_small (by norm_num) (by norm_num)
  have f1 : cfg.Fits 1 := cfg.fits_small (by norm_num) (by norm_num)
  have f2 : cfg.Fits (-1) := cfg.fits_small (by norm_num) (by norm_num)
  have D0 : D ≠ 0 := by omega
  have D1 : ¬D < 0 := by omega
  have D2 : ¬D < 1 := by omega
  have D3 : ¬D ≤ 1 := by omega
  have D4 : 0 < D := by omega
  have D5 : D ≠ 1 := by omega
  have D6 : 1 < D := by omega
  have D7 : -D < 1 := by omega
  have D8 : ¬1 = D := by omega
  have D9 : D.sign = 1 := Int.sign_eq_one_of_pos D4
  have D10 : (-D).sign = -1 := Int.sign_eq_neg_one_of_neg (by omega)
  have D11 : ¬D ≤ 0 := by omega
  rcases hσ with rfl | rfl
  · simp [primerAttempt, areSingularitiesOutsideDomain, isZeroOutsideDomain, isPoleOutsideDomain,
      isDomainAmenable, Out.and, Out.not, Cfg.cadd, Cfg.checked, Cfg.neg, Cfg.unchecked,
      primerEgest, imageExtremes, valueAtZero, valueAtOne, updatedRange, normalise, lessThan,
      greaterThan, compareReduce, Cfg.cmul, areSame, greaterThanMinusOne, lessThanOne,
      lessThanMinusOne, greaterThanZero, lessThanZero, greaterThanOne, *]
  · simp [primerAttempt, areSingularitiesOutsideDomain, isZeroOutsideDomain, isPoleOutsideDomain,
      isDomainAmenable, Out.and, Out.not, Cfg.cadd, Cfg.checked, Cfg.neg, Cfg.unchecked,
      primerEgest, imageExtremes, valueAtZero, valueAtOne, updatedRange, normalise, lessThan,
      greaterThan, compareReduce, Cfg.cmul, areSame, greaterThanMinusOne, lessThanOne,
      lessThanMinusOne, greaterThanZero, lessThanZero, greaterThanOne, reflect, *]
    omega

theorem Coef4.huge_primer {t : Nat} (ht : t + 2 ≤ cfg.bits) (h1 : 1 ≤ t) :
    (Coef4.huge 1 t).primerAttempt cfg = .ok (some (some .Turn, ⟨1, 0, 0, 2 ^ t⟩)) ∧
    (Coef4.huge (-1) t).primerAttempt cfg = .ok none := by
  have f3 : cfg.Fits (2 ^ t) := cfg.pow_fits (by omega)
  have f4 : cfg.Fits (-1 * 2 ^ t) := cfg.signed_pow_fits (.inr rfl) (by omega)
  have hD : (2 : Int) ^ 1 ≤ 2 ^ t := pow_le_pow_right₀ (by norm_num) h1
  unfold Coef4.huge
  generalize (2 : Int) ^ t = D at hD f3 f4 ⊢
  rw [neg_one_mul] at f4
  have f0 : cfg.Fits 0 := cfg.fits_small (by norm_num) (by norm_num)
  have f1 : cfg.Fits 1 := cfg.fits_small (by norm_num) (by norm_num)
  have f2 : cfg.Fits (-1) := cfg.fits_small (by norm_num) (by norm_num)
  have D0 : D ≠ 0 := by omega
  have D1 : ¬D < 0 := by omega
  have D2 : ¬D < 1 := by omega
  have D3 : ¬D ≤ 1 := by omega
  have D4 : 0 < D := by omega
  have D5 : D ≠ 1 := by omega
  have D6 : 1 < D := by omega
  have D7 : -D < 1 := by omega
  have D8 : ¬1 = D := by omega
  have D9 : D.sign = 1 := Int.sign_eq_one_of_pos D4
  have D10 : (-D).sign = -1 := Int.sign_eq_neg_one_of_neg (by omega)
  have D11 : ¬D ≤ 0 := by omega
  have D12 : ¬D = 1 := by omega
  have D13 : -D ≤ 0 := by omega
  have D14 : ¬0 ≤ -D := by omega
  have D15 : ¬1 ≤ -D := by omega
  have m1 : cfg.mul D (-1) = .ok (-D) := by
    rw [Cfg.mul, mul_neg_one]; exact cfg.unchecked_eq f4
  have m2 : cfg.mul (-1) (-1) = .ok 1 := cfg.unchecked_eq f1
  constructor
  · simp [primerAttempt, areSingularitiesOutsideDomain, isZeroOutsideDomain, isPoleOutsideDomain,
      isDomainAmenable, Out.and, Out.not, Cfg.cadd, Cfg.checked, Cfg.neg, Cfg.unchecked,
      primerEgest, imageExtremes, valueAtZero, valueAtOne, updatedRange, normalise, lessThan,
      greaterThan, compareReduce, Cfg.cmul, areSame, greaterThanMinusOne, lessThanOne,
      lessThanMinusOne, greaterThanZero, lessThanZero, greaterThanOne, turn, *]
  · simp [primerAttempt, areSingularitiesOutsideDomain, isZeroOutsideDomain, isPoleOutsideDomain,
      isDomainAmenable, Out.and, Out.not, Cfg.cadd, Cfg.checked, Cfg.neg, Cfg.unchecked,
      primerEgest, imageExtremes, valueAtZero, valueAtOne, updatedRange, normalise, lessThan,
      greaterThan, compareReduce, Cfg.cmul, areSame, greaterThanMinusOne, lessThanOne,
      lessThanMinusOne, greaterThanZero, lessThanZero, greaterThanOne, *]

/-- The panic of a failed `checked_*`. -/
def Unwrapped : Panic → Prop := fun p => p = .unwrapNone

theorem Ev.panics {α : Type} {m : Nat → Nat → Out α} (h : Ev Unwrapped m (fun _ => False)) :
    Panics (fun f => m f f) .unwrapNone := by
  rcases h with ⟨a, ha, -⟩ | ⟨p, rfl, f₀, h⟩
  · exact ha.elim
  · exact ⟨f₀, fun f hf => h f hf f hf⟩

theorem Ev.of_eq {α : Type} {A : Panic → Prop} {m m' : Nat → Nat → Out α} {P : α → Prop} (f₀ : Nat)
    (he : ∀ f ≥ f₀, ∀ j ≥ f₀, m f j = m' f j) (h : Ev A m' P) : Ev A m P := by
  rcases h with ⟨a, ha, f₁, h⟩ | ⟨p, hp, f₁, h⟩
  · exact .inl ⟨a, ha, max f₀ f₁, fun f hf j hj => by
      rw [he f (by omega) j (by omega), h f (by omega) j (by omega)]⟩
  · exact .inr ⟨p, hp, max f₀ f₁, fun f hf j hj => by
      rw [he f (by omega) j (by omega), h f (by omega) j (by omega)]⟩

/-- What one call answers on `2^-n`. -/
theorem Clog.Denotes.half_end {c : Clog} (h : Clog.Denotes cfg NoPanic c (1 / 2 ^ 1)) :
    ∃ f₀ c', ∀ f ≥ f₀, Clog.egest cfg f c = .ok (none, c') := by
  obtain ⟨c', f₀, h1, -⟩ := h.step_returns
  rw [pow_one, sym_half] at h1
  exact ⟨f₀, c', h1⟩

theorem Clog.Denotes.half_amplify {c : Clog} {n : Nat}
    (h : Clog.Denotes cfg NoPanic c (1 / 2 ^ (n + 2))) :
    ∃ f₀ c', (∀ f ≥ f₀, Clog.egest cfg f c = .ok (some .Amplify, c')) ∧
      Clog.Denotes cfg NoPanic c' (1 / 2 ^ (n + 1)) := by
  have lt : (1 : ℚ) / 2 ^ (n + 2) < 1 / 2 := by
    have : (1 : ℚ) ≤ 2 ^ n := one_le_pow₀ (by norm_num)
    rw [div_lt_div_iff₀ (by positivity) (by norm_num), pow_add]
    linarith
  obtain ⟨c', f₀, h1, h2⟩ := h.step_returns
  rw [sym_lt lt] at h1
  rw [next_lt lt] at h2
  refine ⟨f₀, c', h1, ?_⟩
  convert h2 using 1
  rw [pow_succ 2 (n + 1)]
  field_simp

/-- `Waits`, and what is left when an operand ends: `H t`. -/
structure Coef8.Folds (cfg : Cfg) (G : Nat → Coef8) (H : Nat → Coef4) (T : Nat) : Prop
    extends Waits cfg G T where
  none_ : ∀ i, 2 * i < T → (G (2 * i)).primerAttempt cfg = .ok none
  ex : ∀ i, 2 * i + 1 < T → (G (2 * i)).valueAtEndOfX cfg = .ok (H (2 * i + 1))
  ey : ∀ i, 2 * i + 2 < T → (G (2 * i + 1)).valueAtEndOfY cfg = .ok (H (2 * i + 2))
  exp : ∀ i, 2 * i + 1 = T → (G (2 * i)).valueAtEndOfX cfg = .panic .unwrapNone
  eyp : ∀ i, 2 * i + 2 = T → (G (2 * i + 1)).valueAtEndOfY cfg = .panic .unwrapNone

theorem Ev.unwrapped {α : Type} {m : Nat → Nat → Out α} {P : α → Prop} (f₀ : Nat)
    (he : ∀ f ≥ f₀, ∀ j ≥ f₀, m f j = .panic .unwrapNone) : Ev Unwrapped m P :=
  .inr ⟨_, rfl, f₀, he⟩

/-- When both powers of two are too large the call panics. -/
theorem Combine.prime_powers_panics {G : Nat → Coef8} {H : Nat → Coef4} {T : Nat}
    (hG : Coef8.Folds cfg G H T) : ∀ (a b i : Nat) (x y : Clog),
      Clog.Denotes cfg NoPanic x (1 / 2 ^ (a + 1)) → Clog.Denotes cfg NoPanic y (1 / 2 ^ (b + 1)) →
      2 * i < T → T ≤ 2 * (i + a) + 1 → T ≤ 2 * (i + b) + 2 →
      Ev Unwrapped (fun f j => Combine.prime cfg (Clog.egest cfg f) j ⟨x, y, G (2 * i)⟩)
        (fun _ => False) := by
  intro a
  induction a with
  | zero =>
    intro b i x y hx hy h1 h2 h3
    refine Ev.succ ?_
    obtain ⟨f₀, x1, ex⟩ := hx.half_end
    refine Ev.unwrapped f₀ fun f hf j hj => ?_
    simp only [Combine.prime, hG.none_ i h1, ok_bind, Combine.primeIngest, ex f hf,
      hG.exp i (by omega), panic_bind]
  | succ a ih =>
    intro b i x y hx hy h1 h2 h3
    refine Ev.succ ?_
    obtain ⟨f₀, x1, ex, hx1⟩ := hx.half_amplify
    by_cases t1 : 2 * i + 1 = T
    · refine Ev.unwrapped f₀ fun f hf j hj => ?_
      simp only [Combine.prime, hG.none_ i h1, ok_bind, Combine.primeIngest, ex f hf,
        Coef8.ingestX, hG.px i t1, panic_bind]
    cases b with
    | zero =>
      obtain ⟨f₁, y1, ey⟩ := hy.half_end
      refine Ev.unwrapped (max f₀ f₁) fun f hf j hj => ?_
      simp only [Combine.prime, hG.none_ i h1, ok_bind, Combine.primeIngest, ex f (by omega),
        Coef8.ingestX, hG.ax i (by omega), ey f (by omega), hG.eyp i (by omega), panic_bind]
    | succ b =>
      obtain ⟨f₁, y1, ey, hy1⟩ := hy.half_amplify
      by_cases t2 : 2 * i + 2 = T
      · refine Ev.unwrapped (max f₀ f₁) fun f hf j hj => ?_
        simp only [Combine.prime, hG.none_ i h1, ok_bind, Combine.primeIngest, ex f (by omega),
          Coef8.ingestX, hG.ax i (by omega), ey f (by omega), Coef8.ingestY, hG.py i t2, panic_bind]
      · refine Ev.of_eq (max f₀ f₁) (fun f hf j hj => ?_)
          (ih b (i + 1) x1 y1 hx1 hy1 (by omega) (by omega) (by omega))
        simp only [Combine.prime, hG.none_ i h1, ok_bind, Combine.primeIngest, ex f (by omega),
          Coef8.ingestX, hG.ax i (by omega), ey f (by omega), Coef8.ingestY, hG.ay i (by omega),
          pure_eq]
        rfl

/-- Otherwise it goes on as `homographic` of the other power. -/
theorem Combine.prime_powers {G : Nat → Coef8} {H : Nat → Coef4} {T : Nat}
    (hG : Coef8.Folds cfg G H T) : ∀ (a b i : Nat) (x y : Clog),
      Clog.Denotes cfg NoPanic x (1 / 2 ^ (a + 1)) → Clog.Denotes cfg NoPanic y (1 / 2 ^ (b + 1)) →
      2 * (i + a) + 1 < T ∨ 2 * (i + b) + 2 < T →
      ∃ t m c, 1 ≤ t ∧ t < T ∧ t + m = 2 * i + a + b + 1 ∧
        Clog.Denotes cfg NoPanic c (1 / 2 ^ (m + 1)) ∧
        ∀ (A : Panic → Prop) (Q : Homographic.Primed → Prop),
          Ev A (fun f j => Homographic.new cfg (Clog.egest cfg f) j (.Other none c) (H t).nx (H t).n
            (H t).dx (H t).d) Q →
          Ev A (fun f j => Combine.prime cfg (Clog.egest cfg f) j ⟨x, y, G (2 * i)⟩)
            (fun r => ∃ q, Q q ∧ r = (q.1, q.2.1, q.2.2.1, q.2.2.2, none)) := by
  intro a
  induction a with
  | zero =>
    intro b i x y hx hy h1
    refine ⟨2 * i + 1, b, y, by omega, by omega, by omega, hy, fun A Q hQ => Ev.succ ?_⟩
    obtain ⟨f₀, x1, ex⟩ := hx.half_end
    refine Ev.of_eq f₀ (m' := fun f j => (Homographic.new cfg (Clog.egest cfg f) j (.Other none y)
      (H (2 * i + 1)).nx (H (2 * i + 1)).n (H (2 * i + 1)).dx (H (2 * i + 1)).d) >>= fun q =>
        (.ok (q.1, q.2.1, q.2.2.1, q.2.2.2, none))) (fun f hf j hj => ?_) ?_
    · simp only [Combine.prime, hG.none_ i (by omega), ok_bind, Combine.primeIngest, ex f hf,
        hG.ex i (by omega)]
      cases Homographic.new cfg (Clog.egest cfg f) j (.Other none y) (H (2 * i + 1)).nx
        (H (2 * i + 1)).n (H (2 * i + 1)).dx (H (2 * i + 1)).d <;> rfl
    · exact Ev.bind hQ fun q hq => Ev.pure ⟨q, hq, rfl⟩
  | succ a ih =>
    intro b i x y hx hy h1
    obtain ⟨f₀, x1, ex, hx1⟩ := hx.half_amplify
    cases b with
    | zero =>
      refine ⟨2 * i + 2, a, x1, by omega, by omega, by omega, hx1, fun A Q hQ => Ev.succ ?_⟩
      obtain ⟨f₁, y1, ey⟩ := hy.half_end
      refine Ev.of_eq (max f₀ f₁) (m' := fun f j => (Homographic.new cfg (Clog.egest cfg f) j
        (.Other none x1) (H (2 * i + 2)).nx (H (2 * i + 2)).n (H (2 * i + 2)).dx
          (H (2 * i + 2)).d) >>= fun q => (.ok (q.1, q.2.1, q.2.2.1, q.2.2.2, none)))
        (fun f hf j hj => ?_) ?_
      · simp only [Combine.prime, hG.none_ i (by omega), ok_bind, Combine.primeIngest,
          ex f (by omega), Coef8.ingestX, hG.ax i (by omega), ey f (by omega), hG.ey i (by omega)]
        cases Homographic.new cfg (Clog.egest cfg f) j (.Other none x1) (H (2 * i + 2)).nx
          (H (2 * i + 2)).n (H (2 * i + 2)).dx (H (2 * i + 2)).d <;> rfl
      · exact Ev.bind hQ fun q hq => Ev.pure ⟨q, hq, rfl⟩
    | succ b =>
      obtain ⟨f₁, y1, ey, hy1⟩ := hy.half_amplify
      obtain ⟨t, m, c, g1, g2, g3, g4, g5⟩ := ih b (i + 1) x1 y1 hx1 hy1 (by omega)
      refine ⟨t, m, c, g1, g2, by omega, g4, fun A Q hQ => Ev.succ ?_⟩
      refine Ev.of_eq (max f₀ f₁) (fun f hf j hj => ?_) (g5 A Q hQ)
      simp only [Combine.prime, hG.none_ i (by omega), ok_bind, Combine.primeIngest,
        ex f (by omega), Coef8.ingestX, hG.ax i (by omega), ey f (by omega), Coef8.ingestY,
        hG.ay i (by omega), pure_eq]
      rfl

theorem Coef8.tiny_folds {σ : Int} (hσ : σ = 1 ∨ σ = -1) :
    Folds cfg (tiny σ) (Coef4.tiny σ) (cfg.bits - 1) := by
  have hb := cfg.hbits
  have ho := unit_not_even hσ
  have z := cfg.cmul_zero_two
  have f0 : cfg.checked 0 = .ok 0 := cfg.checked_eq (cfg.fits_small (by norm_num) (by norm_num))
  have fs : cfg.checked σ = .ok σ := cfg.checked_eq (cfg.fits_small (by omega) (by omega))
  have fp : ∀ t, t + 1 < cfg.bits → cfg.checked (2 ^ t) = .ok (2 ^ t) :=
    fun t h => cfg.checked_eq (cfg.pow_fits h)
  refine { tiny_waits hσ with none_ := ?_, ex := ?_, ey := ?_, exp := ?_, eyp := ?_ }
  · intro i hi
    simp [primerAttempt, areSingularitiesOutsideDomain, isZeroOutsideDomain, isDomainAmenable, tiny,
      Out.and]
  · intro i hi
    simp [valueAtEndOfX, tiny, Coef4.tiny, ho, z, cfg.cmul_two_pow (t := 2 * i) (by omega), Cfg.cadd,
      f0, fs, fp (2 * i + 1) (by omega)]
  · intro i hi
    simp [valueAtEndOfY, tiny, Coef4.tiny, ho, z, cfg.cmul_two_pow (t := 2 * i + 1) (by omega),
      Cfg.cadd, f0, fs, fp (2 * i + 1 + 1) (by omega)]
  · intro i hi
    simp [valueAtEndOfX, tiny, ho, z, cfg.cmul_two_pow_panics (t := 2 * i) (by omega), Cfg.cadd,
      f0, fs]
  · intro i hi
    simp [valueAtEndOfY, tiny, ho, z, cfg.cmul_two_pow_panics (t := 2 * i + 1) (by omega), Cfg.cadd,
      f0, fs]

theorem Coef8.huge_folds {σ : Int} (hσ : σ = 1 ∨ σ = -1) :
    Folds cfg (huge σ) (Coef4.huge σ) (cfg.bits - 1) := by
  have hb := cfg.hbits
  have ho := unit_not_even hσ
  have z := cfg.cmul_zero_two
  have f0 : cfg.checked 0 = .ok 0 := cfg.checked_eq (cfg.fits_small (by norm_num) (by norm_num))
  have fs : cfg.checked σ = .ok σ := cfg.checked_eq (cfg.fits_small (by omega) (by omega))
  have fp : ∀ t, t + 1 < cfg.bits → cfg.checked (2 ^ t) = .ok (2 ^ t) :=
    fun t h => cfg.checked_eq (cfg.pow_fits h)
  refine { huge_waits hσ with none_ := ?_, ex := ?_, ey := ?_, exp := ?_, eyp := ?_ }
  · intro i hi
    have h1 := fp (2 * i) (by omega)
    have h2 : ((2 : Int) ^ (2 * i)).sign = 1 := Int.sign_eq_one_of_pos (by positivity)
    simp [primerAttempt, areSingularitiesOutsideDomain, isZeroOutsideDomain,
      isPoleOutsideDomain, isDomainAmenable, huge, Out.and, h1, h2, Cfg.cadd, f0]
  · intro i hi
    simp [valueAtEndOfX, huge, Coef4.huge, ho, z, cfg.cmul_two_pow (t := 2 * i) (by omega), Cfg.cadd,
      f0, fs, fp (2 * i + 1) (by omega)]
  · intro i hi
    simp [valueAtEndOfY, huge, Coef4.huge, ho, z, cfg.cmul_two_pow (t := 2 * i + 1) (by omega),
      Cfg.cadd, f0, fs, fp (2 * i + 1 + 1) (by omega)]
  · intro i hi
    simp [valueAtEndOfX, huge, ho, z, cfg.cmul_two_pow_panics (t := 2 * i) (by omega), Cfg.cadd,
      f0]
  · intro i hi
    simp [valueAtEndOfY, huge, ho, z, cfg.cmul_two_pow_panics (t := 2 * i + 1) (by omega), Cfg.cadd,
      f0]

/-! ## The call of `homographic` that is left -/

theorem Homographic.new_tiny {σ : Int} (hσ : σ = 1 ∨ σ = -1) {t : Nat} (ht : t + 2 ≤ cfg.bits)
    (h1 : 1 ≤ t) (c : Clog) :
    Ev NoPanic (fun f j => Homographic.new cfg (Clog.egest cfg f) j (.Other none c)
        (Coef4.tiny σ t).nx (Coef4.tiny σ t).n (Coef4.tiny σ t).dx (Coef4.tiny σ t).d)
      (fun r => r = (none, if σ = 1 then none else some .Reflect, none,
        some ⟨c, ⟨1, 0, 0, 2 ^ t⟩⟩)) := by
  refine Ev.succ ?_
  have h := Coef4.tiny_primer hσ ht h1
  have hx : ¬((Coef4.tiny σ t).nx = 0 ∧ (Coef4.tiny σ t).dx = 0) := by
    simp only [Coef4.tiny]; omega
  simp only [Homographic.new, if_neg hx, Homographic.absorbPrimer, pure_eq, ok_bind,
    Homographic.prime, h]
  exact Ev.pure rfl

theorem Homographic.new_huge {t : Nat} (ht : t + 2 ≤ cfg.bits) (h1 : 1 ≤ t) (c : Clog) :
    Ev NoPanic (fun f j => Homographic.new cfg (Clog.egest cfg f) j (.Other none c)
        (Coef4.huge 1 t).nx (Coef4.huge 1 t).n (Coef4.huge 1 t).dx (Coef4.huge 1 t).d)
      (fun r => r = (none, some .Turn, none, some ⟨c, ⟨1, 0, 0, 2 ^ t⟩⟩)) := by
  refine Ev.succ ?_
  have h := (Coef4.huge_primer ht h1).1
  have hx : ¬((Coef4.huge 1 t).nx = 0 ∧ (Coef4.huge 1 t).dx = 0) := by
    simp [Coef4.huge]
  simp only [Homographic.new, if_neg hx, Homographic.absorbPrimer, pure_eq, ok_bind,
    Homographic.prime, h]
  exact Ev.pure rfl

/-- `-2^t / x` for `x = 2^-(m+1)`: nothing is decided before the end. -/
theorem Homographic.prime_huge_neg : ∀ (m t : Nat), t + 2 ≤ cfg.bits → 1 ≤ t → ∀ c : Clog,
    Clog.Denotes cfg NoPanic c (1 / 2 ^ (m + 1)) →
    (t + m + 3 ≤ cfg.bits → Ev NoPanic (fun f j => Homographic.prime cfg (Clog.egest cfg f) j
      ⟨c, Coef4.huge (-1) t⟩) (fun r => ∃ t', r = (t'.1, t'.2.1, t'.2.2, none) ∧
        Ratio.Describes cfg t' (-2 ^ (t + m + 1)))) ∧
    (cfg.bits < t + m + 3 → Ev Unwrapped (fun f j => Homographic.prime cfg (Clog.egest cfg f) j
      ⟨c, Coef4.huge (-1) t⟩) (fun _ => False)) := by
  intro m
  have z := cfg.cmul_zero_two
  have fs : cfg.checked (-1) = .ok (-1) :=
    cfg.checked_eq (cfg.fits_small (by omega) (by omega))
  have fp : ∀ t, t + 1 < cfg.bits → cfg.checked (2 ^ t) = .ok (2 ^ t) :=
    fun t h => cfg.checked_eq (cfg.pow_fits h)
  induction m with
  | zero =>
    intro t ht h1 c hc
    obtain ⟨f₀, c1, e⟩ := hc.half_end
    have hn := (Coef4.huge_primer (cfg := cfg) ht h1).2
    constructor
    · intro h
      have hv : (Coef4.huge (-1) t).valueAtOneHalf cfg = .ok (2 ^ (t + 1), -1) := by
        simp [Coef4.valueAtOneHalf, Coef4.huge, isOdd, Cfg.cadd, z,
          cfg.cmul_two_pow (t := t) (by omega), fs, fp (t + 1) (by omega)]
      have hr : Sat NoPanic (Ratio.newI cfg (2 ^ (t + 1)) (-1))
          (fun r => Ratio.Describes cfg r (-2 ^ (t + 0 + 1))) := by
        have := Ratio.newI_sat (cfg := cfg) (A := NoPanic) (num := 2 ^ (t + 1)) (den := -1) (by norm_num)
          (cfg.pow_fits (by omega)) (cfg.fits_small (by norm_num) (by norm_num))
          (.inl (by have := cfg.signed_pow_fits (t := t + 1) (τ := -1) (.inr rfl) (by omega); rwa [neg_one_mul] at this))
          (.inl (cfg.fits_small (by norm_num) (by norm_num)))
        refine this.mono fun r hr => ?_
        convert hr using 1
        push_cast
        rw [div_neg, div_one, add_zero]
      refine Ev.succ (Ev.of_eq f₀ (m' := fun _ _ => Ratio.newI cfg (2 ^ (t + 1)) (-1) >>= fun r =>
        .ok (r.1, r.2.1, r.2.2, none)) (fun f hf j hj => ?_) ?_)
      · simp only [Homographic.prime, hn, ok_bind, Homographic.primeIngest, e f hf, hv]
        cases Ratio.newI cfg (2 ^ (t + 1)) (-1) <;> rfl
      · exact Ev.bind (Ev.of_sat hr) fun r hr => Ev.pure ⟨r, rfl, hr⟩
    · intro h
      have hv : (Coef4.huge (-1) t).valueAtOneHalf cfg = .panic .unwrapNone := by
        simp [Coef4.valueAtOneHalf, Coef4.huge, isOdd, Cfg.cadd,
          cfg.cmul_two_pow_panics (t := t) (by omega)]
      refine Ev.succ (Ev.unwrapped f₀ fun f hf j hj => ?_)
      simp only [Homographic.prime, hn, ok_bind, Homographic.primeIngest, e f hf, hv, panic_bind]
  | succ m ih =>
    intro t ht h1 c hc
    obtain ⟨f₀, c1, e, hc1⟩ := hc.half_amplify
    have hn := (Coef4.huge_primer (cfg := cfg) ht h1).2
    by_cases hf : t + 3 ≤ cfg.bits
    · have hk : (Coef4.huge (-1) t).ingestAmplify cfg = .ok (Coef4.huge (-1) (t + 1)) := by
        simp [Coef4.ingestAmplify, Coef4.huge, isOdd, z, cfg.cmul_two_pow (t := t) (by omega)]
      obtain ⟨i1, i2⟩ := ih (t + 1) (by omega) (by omega) c1 hc1
      rw [show t + 1 + m + 3 = t + (m + 1) + 3 by omega, show t + 1 + m + 1 = t + (m + 1) + 1 by omega] at i1
      rw [show t + 1 + m + 3 = t + (m + 1) + 3 by omega] at i2
      constructor
      · intro h
        refine Ev.succ (Ev.of_eq f₀ (fun f hf j hj => ?_) (i1 h))
        simp only [Homographic.prime, hn, ok_bind, Homographic.primeIngest, e f hf, hk, pure_eq]
      · intro h
        refine Ev.succ (Ev.of_eq f₀ (fun f hf j hj => ?_) (i2 h))
        simp only [Homographic.prime, hn, ok_bind, Homographic.primeIngest, e f hf, hk, pure_eq]
    · refine ⟨fun h => by omega, fun _ => Ev.succ (Ev.unwrapped f₀ fun f hf j hj => ?_)⟩
      have hk : (Coef4.huge (-1) t).ingestAmplify cfg = .panic .unwrapNone := by
        simp [Coef4.ingestAmplify, Coef4.huge, isOdd, cfg.cmul_two_pow_panics (t := t) (by omega)]
      simp only [Homographic.prime, hn, ok_bind, Homographic.primeIngest, e f hf, hk, panic_bind]

end Clarith
