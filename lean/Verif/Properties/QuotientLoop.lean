import Verif.Properties.Large
import Verif.Properties.Neutral

/-! # Repeated division by powers of two (C98)

The program `loop { x = x / y }` of a user of the library, for `x` and `y` powers of two or opposites of
ones: going down is exact for ever, going up is so only if every quotient is positive. -/

namespace Clarith

open Out Spec

/-! ## Specification -/

/-- `x` divided `n` times by `y`: `Number::combine` (src/lib.rs:136-174) with the coefficients of the
quotient. -/
def Spec.divided (cfg : Cfg) (f : Nat) (x y : Number) : Nat → Out Number
  | 0 => pure x
  | n + 1 => do
    let z ← divided cfg f x y n
    Op.quotient.run cfg f z y

/-- The first `n` divisions return, without panic, and the last one gives the value `q`. -/
def Spec.DividedIs (cfg : Cfg) (x y : Number) (n : Nat) (q : ℚ) : Prop :=
  ∃ r, Returns (fun f => divided cfg f x y n) r ∧ Number.Denotes cfg NoPanic r q

/-! ## Proof -/

namespace QuotientLoop

variable {cfg : Cfg} {x y z : Number} {n : Nat}

theorem next {r : Number} (hz : Returns (fun f => divided cfg f x y n) z)
    (hr : Returns (fun f => Number.combine cfg f z y 0 1 0 0 0 0 1 0) r) :
    Returns (fun f => divided cfg f x y (n + 1)) r := by
  obtain ⟨f₀, hz⟩ := hz
  obtain ⟨f₁, hr⟩ := hr
  refine ⟨f₀ + f₁, fun f hf => ?_⟩
  have e : divided cfg f x y n = .ok z := hz f (by omega)
  show divided cfg f x y n >>= _ = _
  rw [e]
  exact hr f (by omega)

theorem next_panics {p : Panic} (hz : Returns (fun f => divided cfg f x y n) z)
    (hr : Panics (fun f => Number.combine cfg f z y 0 1 0 0 0 0 1 0) p) :
    Panics (fun f => divided cfg f x y (n + 1)) p := by
  obtain ⟨f₀, hz⟩ := hz
  obtain ⟨f₁, hr⟩ := hr
  refine ⟨f₀ + f₁, fun f hf => ?_⟩
  have e : divided cfg f x y n = .ok z := hz f (by omega)
  show divided cfg f x y n >>= _ = _
  rw [e]
  exact hr f (by omega)

theorem panics_next {p : Panic} (hz : Panics (fun f => divided cfg f x y n) p) :
    Panics (fun f => divided cfg f x y (n + 1)) p := by
  obtain ⟨f₀, hz⟩ := hz
  refine ⟨f₀, fun f hf => ?_⟩
  have e : divided cfg f x y n = .panic p := hz f (by omega)
  show divided cfg f x y n >>= _ = _
  rw [e]
  rfl

theorem unit_mul_pow {σ τ : Int} (hσ : σ = 1 ∨ σ = -1) (h : τ = 1 ∨ τ = -1) (n : Nat) :
    σ * τ ^ n = 1 ∨ σ * τ ^ n = -1 := by
  have : τ ^ n = 1 ∨ τ ^ n = -1 := by
    rcases h with rfl | rfl
    · exact .inl (one_pow n)
    · exact neg_one_pow_eq_or ℤ n
  rcases hσ with rfl | rfl <;> rcases this with e | e <;> simp [e]

/-- Dividing by a sign is multiplying by it. -/
theorem div_unit {τ : Int} (h : τ = 1 ∨ τ = -1) (a : ℚ) : a / (τ : ℚ) = a * τ := by
  rcases h with rfl | rfl <;> simp [div_neg]

theorem div_unit_pow {τ : Int} (h : τ = 1 ∨ τ = -1) (a : ℚ) (n : Nat) : a / (τ : ℚ) ^ n = a * τ ^ n := by
  induction n with
  | zero => simp
  | succ n ih => rw [pow_succ, ← div_div, ih, div_unit h]; ring

end QuotientLoop

/-! ## C98 -/

open QuotientLoop

/-- Starting with `±1/2^a`, all quotients by `2^b` and by `-2^b` are exact. -/
theorem C98_down (cfg : Cfg) (a b : Nat) (ha : 1 ≤ a) (hb : 1 ≤ b) (hb' : 2 * b + 2 ≤ cfg.bits) (σ τ : Int)
    (hσ : σ = 1 ∨ σ = -1) (hτ : τ = 1 ∨ τ = -1) (x y : Number)
    (hx : Number.Denotes cfg NoPanic x (σ / 2 ^ a)) (hy : Number.Denotes cfg NoPanic y (τ * 2 ^ b)) (n : Nat) :
    DividedIs cfg x y n (σ / 2 ^ a / (τ * 2 ^ b) ^ n) := by
  have e : ∀ n : Nat, (σ : ℚ) / 2 ^ a / (τ * 2 ^ b) ^ n = ((σ * τ ^ n : Int) : ℚ) / 2 ^ (a + b * n) := fun n => by
    rw [mul_pow, ← div_div, div_unit_pow hτ, pow_add, pow_mul]
    push_cast
    field_simp
  induction n with
  | zero => exact ⟨x, ⟨0, fun _ _ => rfl⟩, by simpa using hx⟩
  | succ n ih =>
    obtain ⟨z, hz, hd⟩ := ih
    rw [e] at hd
    obtain ⟨r, hr, h⟩ := (C86_div_small_powers cfg (a + b * n) b (by omega) hb (σ * τ ^ n) τ
      (unit_mul_pow hσ hτ n) hτ z y hd hy).1 (.inr hb')
    refine ⟨r, next hz hr, ?_⟩
    rw [← e, div_div, ← pow_succ] at h
    exact h

/-- Starting with `±1/2^a`, if `2^b` has too many bits for the loop above: the first quotient by `±2^b` is exact
if `2a+1 ≤ bits`, otherwise it panics; the second panics in any case. -/
theorem C98_down_wide (cfg : Cfg) (a b : Nat) (ha : 1 ≤ a) (hb : cfg.bits < 2 * b + 2) (σ τ : Int)
    (hσ : σ = 1 ∨ σ = -1) (hτ : τ = 1 ∨ τ = -1) (x y : Number)
    (hx : Number.Denotes cfg NoPanic x (σ / 2 ^ a)) (hy : Number.Denotes cfg NoPanic y (τ * 2 ^ b)) :
    (2 * a + 1 ≤ cfg.bits → DividedIs cfg x y 1 (σ / 2 ^ a / (τ * 2 ^ b))) ∧
    (cfg.bits < 2 * a + 1 → Panics (fun f => divided cfg f x y 1) .unwrapNone) ∧
    ∀ n ≥ 2, Panics (fun f => divided cfg f x y n) .unwrapNone := by
  have h16 := cfg.hbits
  have key := C86_div_small_powers cfg a b ha (by omega) σ τ hσ hτ x y hx hy
  have h0 : Returns (fun f => divided cfg f x y 0) x := ⟨0, fun _ _ => rfl⟩
  have h1 (h : 2 * a + 1 ≤ cfg.bits) : DividedIs cfg x y 1 (σ / 2 ^ a / (τ * 2 ^ b)) := by
    obtain ⟨r, hr, h'⟩ := key.1 (.inl h)
    exact ⟨r, next h0 hr, h'⟩
  have h2 (h : cfg.bits < 2 * a + 1) : Panics (fun f => divided cfg f x y 1) .unwrapNone :=
    next_panics h0 (key.2 fun e => by rcases e with e | e <;> omega)
  refine ⟨h1, h2, fun n hn => ?_⟩
  induction n, hn using Nat.le_induction with
  | base =>
    by_cases h : 2 * a + 1 ≤ cfg.bits
    · obtain ⟨r, hr, h'⟩ := h1 h
      refine next_panics hr ((C86_div_small_powers cfg (a + b) b (by omega) (by omega) (σ * τ) τ (by
        simpa using unit_mul_pow hσ hτ 1) hτ r y ?_ hy).2 fun e => by rcases e with e | e <;> omega)
      rw [← div_div, div_unit hτ] at h'
      convert h' using 1
      push_cast
      rw [pow_add, ← div_div]
      ring
    · exact panics_next (h2 (by omega))
  | succ n _ ih => exact panics_next ih

/-- Starting with `±2^a` and dividing by `±1/2^b`: the first `n` quotients are exact if every negative one
among them is at most `2^(bits-2)` in magnitude; otherwise the loop panics. -/
theorem C98_up (cfg : Cfg) (a b : Nat) (ha : 1 ≤ a) (hb : 1 ≤ b) (hb' : 2 * b + 2 ≤ cfg.bits) (σ τ : Int)
    (hσ : σ = 1 ∨ σ = -1) (hτ : τ = 1 ∨ τ = -1) (x y : Number)
    (hx : Number.Denotes cfg NoPanic x (σ * 2 ^ a)) (hy : Number.Denotes cfg NoPanic y (τ / 2 ^ b)) (n : Nat) :
    ((∀ k, 1 ≤ k → k ≤ n → σ * τ ^ k = -1 → a + b * k + 2 ≤ cfg.bits) →
      DividedIs cfg x y n (σ * 2 ^ a / (τ / 2 ^ b) ^ n)) ∧
    ((∃ k, 1 ≤ k ∧ k ≤ n ∧ σ * τ ^ k = -1 ∧ cfg.bits < a + b * k + 2) →
      Panics (fun f => divided cfg f x y n) .unwrapNone) := by
  have e : ∀ n : Nat, (σ : ℚ) * 2 ^ a / (τ / 2 ^ b) ^ n = ((σ * τ ^ n : Int) : ℚ) * 2 ^ (a + b * n) := fun n => by
    rw [div_pow, ← div_mul, div_unit_pow hτ, pow_add, pow_mul]
    push_cast
    ring
  -- a quotient is negative if its operands have different signs
  have hs : ∀ n, σ * τ ^ n = τ ↔ σ * τ ^ (n + 1) ≠ -1 := fun n => by
    rw [pow_succ, ← mul_assoc]
    rcases unit_mul_pow hσ hτ n with h | h <;> rcases hτ with t | t <;> rw [h] <;> subst t <;> decide
  induction n with
  | zero => exact ⟨fun _ => ⟨x, ⟨0, fun _ _ => rfl⟩, by simpa using hx⟩, fun ⟨k, h1, h2, _⟩ => by omega⟩
  | succ n ih =>
    constructor
    · intro h
      obtain ⟨z, hz, hd⟩ := ih.1 fun k h1 h2 => h k h1 (by omega)
      rw [e] at hd
      obtain ⟨r, hr, h'⟩ := (C86_div_large_powers cfg (a + b * n) b (by omega) hb (σ * τ ^ n) τ
        (unit_mul_pow hσ hτ n) hτ z y hd hy).1 (by
          split
          · exact .inr hb'
          · next hne =>
            have := h (n + 1) (by omega) le_rfl (not_not.1 (mt (hs n).2 hne))
            rw [Nat.mul_succ] at this
            omega)
      refine ⟨r, next hz hr, ?_⟩
      rw [← e, div_div, ← pow_succ] at h'
      exact h'
    · rintro ⟨k, h1, h2, h3, h4⟩
      by_cases hc : ∃ k, 1 ≤ k ∧ k ≤ n ∧ σ * τ ^ k = -1 ∧ cfg.bits < a + b * k + 2
      · exact panics_next (ih.2 hc)
      · obtain ⟨z, hz, hd⟩ := ih.1 fun k h1 h2 h3 => by
          by_contra h4
          exact hc ⟨k, h1, h2, h3, by omega⟩
        rw [e] at hd
        have hk : k = n + 1 := by
          by_contra hk
          exact hc ⟨k, h1, by omega, h3, h4⟩
        subst hk
        refine next_panics hz ((C86_div_large_powers cfg (a + b * n) b (by omega) hb (σ * τ ^ n) τ
          (unit_mul_pow hσ hτ n) hτ z y hd hy).2 ?_)
        rw [if_neg fun h => (hs n).1 h h3]
        rw [Nat.mul_succ] at h4
        omega

/-! ### Cases that meet the hypotheses -/

/-- A half, halved 1000 times. -/
example : ∃ x y, Number.ratio debug64 1 2 = .ok x ∧ Number.ratio debug64 2 1 = .ok y ∧
    DividedIs debug64 x y 1000 (1 / 2 ^ 1001) := by
  obtain ⟨x, h, hx⟩ := C01_ratio_exact debug64 1 2 (by decide) (by decide) (by decide) (by decide)
  obtain ⟨y, h', hy⟩ := C01_ratio_exact debug64 2 1 (by decide) (by decide) (by decide) (by decide)
  have := C98_down debug64 1 1 le_rfl le_rfl (by decide) 1 1 (.inl rfl) (.inl rfl) x y (by simpa using hx)
    (by simpa using hy) 1000
  refine ⟨x, y, h, h', ?_⟩
  convert this using 1
  rw [pow_succ' (2 : ℚ) 1000, ← div_div]
  simp

/-- 1/2 divided by -2^40 on a 64 bit machine: once, but not twice. -/
example : ∃ x y, Number.ratio debug64 1 2 = .ok x ∧ Number.ratio debug64 (-2 ^ 40) 1 = .ok y ∧
    DividedIs debug64 x y 1 (-1 / 2 ^ 41) ∧ Panics (fun f => divided debug64 f x y 2) .unwrapNone := by
  obtain ⟨x, h, hx⟩ := C01_ratio_exact debug64 1 2 (by decide) (by decide) (by decide) (by decide)
  obtain ⟨y, h', hy⟩ := C01_ratio_exact debug64 (-2 ^ 40) 1 (by decide) (by decide) (by decide) (by decide)
  have := C98_down_wide debug64 1 40 le_rfl (by decide) 1 (-1) (.inl rfl) (.inr rfl) x y (by simpa using hx)
    (by norm_num at hy ⊢; exact hy)
  refine ⟨x, y, h, h', ?_, this.2.2 2 le_rfl⟩
  convert this.1 (by decide) using 1
  norm_num

/-- On a 64 bit machine: 2 divided by a half is exact for ever, -2 divided by a half up to `-2^62`; the next
division panics. -/
theorem C98_by_a_half : ∃ x x' y, Number.ratio debug64 2 1 = .ok x ∧ Number.ratio debug64 (-2) 1 = .ok x' ∧
    Number.ratio debug64 1 2 = .ok y ∧ (∀ n, DividedIs debug64 x y n (2 ^ (n + 1))) ∧
    (∀ n ≤ 61, DividedIs debug64 x' y n (-2 ^ (n + 1))) ∧
    ∀ n ≥ 62, Panics (fun f => divided debug64 f x' y n) .unwrapNone := by
  have hbits : debug64.bits = 64 := rfl
  obtain ⟨x, h, hx⟩ := C01_ratio_exact debug64 2 1 (by decide) (by decide) (by decide) (by decide)
  obtain ⟨x', h', hx'⟩ := C01_ratio_exact debug64 (-2) 1 (by decide) (by decide) (by decide) (by decide)
  obtain ⟨y, h'', hy⟩ := C01_ratio_exact debug64 1 2 (by decide) (by decide) (by decide) (by decide)
  have up := C98_up debug64 1 1 le_rfl le_rfl (by decide) 1 1 (.inl rfl) (.inl rfl) x y (by simpa using hx)
    (by simpa using hy)
  have up' := C98_up debug64 1 1 le_rfl le_rfl (by decide) (-1) 1 (.inr rfl) (.inl rfl) x' y
    (by simpa using hx') (by simpa using hy)
  refine ⟨x, x', y, h, h', h'', fun n => ?_, fun n hn => ?_, fun n hn => (up' n).2 ⟨62, by omega, hn, by simp, by omega⟩⟩
  · convert (up n).1 (fun k _ _ hk => by simp at hk) using 1
    simp [pow_succ, mul_comm]
  · convert (up' n).1 (fun k _ _ _ => by omega) using 1
    simp [pow_succ, mul_comm]

end Clarith
