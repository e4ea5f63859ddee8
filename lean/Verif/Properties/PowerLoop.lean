import Verif.Properties.Large
import Verif.Properties.Neutral

/-! # Powers by repeated multiplication (C96)

The program `let mut x = y; loop { x = x * y }` of a user of the library, for `y` a power of two or the
opposite of one: `2^n` and `(-1/2)^n` are exact for all `n`, `(-2)^n` is not. -/

namespace Clarith

open Out Spec

/-! ## Specification -/

/-- `y` multiplied `n` times by `y`: `Number::combine` (src/lib.rs:136-174) with the coefficients of the
product. -/
def Spec.power (cfg : Cfg) (f : Nat) (y : Number) : Nat → Out Number
  | 0 => pure y
  | n + 1 => do
    let x ← power cfg f y n
    Op.product.run cfg f x y

/-- The powers up to the `n+1`th return, without panic, and the last one has the value `q`. -/
def Spec.PowerIs (cfg : Cfg) (y : Number) (n : Nat) (q : ℚ) : Prop :=
  ∃ r, Returns (fun f => power cfg f y n) r ∧ Number.Denotes cfg NoPanic r q

/-! ## Proof -/

namespace PowerLoop

variable {cfg : Cfg} {y x : Number} {n : Nat}

theorem next {r : Number} (hx : Returns (fun f => power cfg f y n) x)
    (hr : Returns (fun f => Number.combine cfg f x y 1 0 0 0 0 0 0 1) r) :
    Returns (fun f => power cfg f y (n + 1)) r := by
  obtain ⟨f₀, hx⟩ := hx
  obtain ⟨f₁, hr⟩ := hr
  refine ⟨f₀ + f₁, fun f hf => ?_⟩
  have e : power cfg f y n = .ok x := hx f (by omega)
  show power cfg f y n >>= _ = _
  rw [e]
  exact hr f (by omega)

theorem next_panics {p : Panic} (hx : Returns (fun f => power cfg f y n) x)
    (hr : Panics (fun f => Number.combine cfg f x y 1 0 0 0 0 0 0 1) p) :
    Panics (fun f => power cfg f y (n + 1)) p := by
  obtain ⟨f₀, hx⟩ := hx
  obtain ⟨f₁, hr⟩ := hr
  refine ⟨f₀ + f₁, fun f hf => ?_⟩
  have e : power cfg f y n = .ok x := hx f (by omega)
  show power cfg f y n >>= _ = _
  rw [e]
  exact hr f (by omega)

theorem panics_next {p : Panic} (hx : Panics (fun f => power cfg f y n) p) :
    Panics (fun f => power cfg f y (n + 1)) p := by
  obtain ⟨f₀, hx⟩ := hx
  refine ⟨f₀, fun f hf => ?_⟩
  have e : power cfg f y n = .panic p := hx f (by omega)
  show power cfg f y n >>= _ = _
  rw [e]
  rfl

theorem unit_pow {τ : Int} (h : τ = 1 ∨ τ = -1) (n : Nat) : τ ^ n = 1 ∨ τ ^ n = -1 := by
  rcases h with rfl | rfl
  · exact .inl (one_pow n)
  · exact neg_one_pow_eq_or ℤ n

end PowerLoop

/-! ## C96 -/

open PowerLoop

/-- All powers of `2^b` are exact, on all machines with at least `2b+2` bits. -/
theorem C96_large (cfg : Cfg) (b : Nat) (hb : 1 ≤ b) (hb' : 2 * b + 2 ≤ cfg.bits) (y : Number)
    (hy : Number.Denotes cfg NoPanic y (2 ^ b)) (n : Nat) : PowerIs cfg y n ((2 ^ b) ^ (n + 1)) := by
  induction n with
  | zero => exact ⟨y, ⟨0, fun _ _ => rfl⟩, by simpa using hy⟩
  | succ n ih =>
    obtain ⟨x, hx, hd⟩ := ih
    obtain ⟨r, hr, h⟩ := (C86_mul_large_powers cfg (b * (n + 1)) b (Nat.mul_pos hb (Nat.succ_pos n)) hb 1 1 (.inl rfl)
      (.inl rfl) x y (by simpa [pow_mul] using hd) (by simpa using hy)).1 (by
        rw [if_pos rfl]; exact .inr hb')
    refine ⟨r, next hx hr, ?_⟩
    rw [pow_succ]
    simpa [pow_mul] using h

/-- All powers of `1/2^b` and of `-1/2^b` are exact. -/
theorem C96_small (cfg : Cfg) (b : Nat) (hb : 1 ≤ b) (hb' : 2 * b + 2 ≤ cfg.bits) (τ : Int)
    (hτ : τ = 1 ∨ τ = -1) (y : Number) (hy : Number.Denotes cfg NoPanic y (τ / 2 ^ b)) (n : Nat) :
    PowerIs cfg y n ((τ / 2 ^ b) ^ (n + 1)) := by
  induction n with
  | zero => exact ⟨y, ⟨0, fun _ _ => rfl⟩, by simpa using hy⟩
  | succ n ih =>
    obtain ⟨x, hx, hd⟩ := ih
    obtain ⟨r, hr, h⟩ := (C86_mul_small_powers cfg (b * (n + 1)) b (Nat.mul_pos hb (Nat.succ_pos n)) hb (τ ^ (n + 1)) τ
      (unit_pow hτ _) hτ x y (by simpa [pow_mul, div_pow] using hd) hy).1 (.inr hb')
    refine ⟨r, next hx hr, ?_⟩
    rw [pow_succ]
    simpa [pow_mul, div_pow] using h

/-- The power `n+1` of `-2^b` is exact if the largest odd power up to it is at most `2^(bits-2)` in magnitude;
otherwise the loop panics. -/
theorem C96_negative (cfg : Cfg) (b : Nat) (hb : 1 ≤ b) (hb' : 2 * b + 2 ≤ cfg.bits) (y : Number)
    (hy : Number.Denotes cfg NoPanic y (-2 ^ b)) (n : Nat) :
    ((2 * (n / 2) + 1) * b + 2 ≤ cfg.bits → PowerIs cfg y n ((-2 ^ b) ^ (n + 1))) ∧
    (¬(2 * (n / 2) + 1) * b + 2 ≤ cfg.bits → Panics (fun f => power cfg f y n) .unwrapNone) := by
  induction n with
  | zero =>
    refine ⟨fun _ => ⟨y, ⟨0, fun _ _ => rfl⟩, by simpa using hy⟩, fun h => absurd ?_ h⟩
    omega
  | succ n ih =>
    by_cases hc : (2 * (n / 2) + 1) * b + 2 ≤ cfg.bits
    · obtain ⟨x, hx, hd⟩ := ih.1 hc
      have key := C86_mul_large_powers cfg (b * (n + 1)) b (Nat.mul_pos hb (Nat.succ_pos n)) hb
        ((-1) ^ (n + 1)) (-1) (neg_one_pow_eq_or ℤ _) (.inr rfl) x y (by
          rw [neg_pow] at hd
          simpa [pow_mul] using hd) (by simpa using hy)
      have e : (((-1 : Int) ^ (n + 1) : Int) : ℚ) * 2 ^ (b * (n + 1)) * (((-1 : Int) : ℚ) * 2 ^ b) =
          (-2 ^ b) ^ (n + 1 + 1) := by
        rw [pow_succ (-2 ^ b), neg_pow (2 ^ b), pow_mul]
        push_cast
        ring
      rw [e] at key
      have hiff : (if ((-1 : Int)) ^ (n + 1) = -1 then EndsInTime cfg (b * (n + 1)) b
          else b * (n + 1) + b + 2 ≤ cfg.bits) ↔ (2 * ((n + 1) / 2) + 1) * b + 2 ≤ cfg.bits := by
        rcases Nat.even_or_odd' n with ⟨m, rfl | rfl⟩
        · rw [if_pos (Odd.neg_one_pow ⟨m, rfl⟩)]
          rw [show 2 * m / 2 = m by omega] at hc
          rw [show (2 * m + 1) / 2 = m by omega]
          exact ⟨fun _ => hc, fun _ => .inr hb'⟩
        · rw [if_neg (by rw [Even.neg_one_pow ⟨m + 1, by ring⟩]; decide), show (2 * m + 1 + 1) / 2 = m + 1 by omega]
          rw [show b * (2 * m + 1 + 1) + b = (2 * (m + 1) + 1) * b by ring]
      rw [hiff] at key
      refine ⟨fun h => ?_, fun h => next_panics hx (key.2 h)⟩
      obtain ⟨r, hr, h'⟩ := key.1 h
      exact ⟨r, next hx hr, h'⟩
    · have hp := panics_next (ih.2 hc)
      refine ⟨fun h => absurd ?_ hc, fun _ => hp⟩
      have : (2 * (n / 2) + 1) * b ≤ (2 * ((n + 1) / 2) + 1) * b := Nat.mul_le_mul_right _ (by omega)
      omega

/-- If `2^b` has too many bits for the loops above, so `bits < 2b+1`, already the first product panics, for `2^b`,
`-2^b`, `1/2^b` and `-1/2^b`. -/
theorem C96_wide (cfg : Cfg) (b : Nat) (hb : cfg.bits < 2 * b + 1) (τ : Int) (hτ : τ = 1 ∨ τ = -1) (y : Number)
    (hy : Number.Denotes cfg NoPanic y (τ * 2 ^ b) ∨ Number.Denotes cfg NoPanic y (τ / 2 ^ b)) (n : Nat)
    (hn : 1 ≤ n) : Panics (fun f => power cfg f y n) .unwrapNone := by
  have h16 := cfg.hbits
  have hw : ¬EndsInTime cfg b b := fun e => by rcases e with e | e <;> omega
  have h0 : Returns (fun f => power cfg f y 0) y := ⟨0, fun _ _ => rfl⟩
  induction n, hn using Nat.le_induction with
  | base =>
    refine next_panics h0 ?_
    rcases hy with hy | hy
    · exact (C86_mul_large_powers cfg b b (by omega) (by omega) τ τ hτ hτ y y hy hy).2 (by rwa [if_pos rfl])
    · exact (C86_mul_small_powers cfg b b (by omega) (by omega) τ τ hτ hτ y y hy hy).2 hw
  | succ n _ ih => exact panics_next ih

/-! ### Cases that meet the hypotheses -/

/-- `2^1001` on a 64 bit machine. -/
example : ∃ y, Number.ratio debug64 2 1 = .ok y ∧ PowerIs debug64 y 1000 (2 ^ 1001) := by
  obtain ⟨y, h, hy⟩ := C01_ratio_exact debug64 2 1 (by decide) (by decide) (by decide) (by decide)
  have := C96_large debug64 1 le_rfl (by decide) y (by simpa using hy) 1000
  rw [pow_one] at this
  exact ⟨y, h, this⟩

/-- `(-1/8)^1001` on a 64 bit machine. -/
example : ∃ y, Number.ratio debug64 (-1) 8 = .ok y ∧ PowerIs debug64 y 1000 ((-1 / 8) ^ 1001) := by
  obtain ⟨y, h, hy⟩ := C01_ratio_exact debug64 (-1) 8 (by decide) (by decide) (by decide) (by decide)
  have := C96_small debug64 3 (by decide) (by decide) (-1) (.inr rfl) y (by norm_num at hy ⊢; exact hy) 1000
  refine ⟨y, h, ?_⟩
  convert this using 2
  norm_num

/-- The square of -2^40 on a 64 bit machine. -/
example : ∃ y, Number.ratio debug64 (-2 ^ 40) 1 = .ok y ∧ Panics (fun f => power debug64 f y 1) .unwrapNone := by
  obtain ⟨y, h, hy⟩ := C01_ratio_exact debug64 (-2 ^ 40) 1 (by decide) (by decide) (by decide) (by decide)
  exact ⟨y, h, C96_wide debug64 40 (by decide) (-1) (.inr rfl) y (.inl (by norm_num at hy ⊢; exact hy)) 1 le_rfl⟩

/-- On a 64 bit machine the powers of -2 are exact up to `2^62`, and the 63rd panics. -/
theorem C96_minus_two : ∃ y, Number.ratio debug64 (-2) 1 = .ok y ∧
    (∀ n < 62, PowerIs debug64 y n ((-2) ^ (n + 1))) ∧
    ∀ n ≥ 62, Panics (fun f => power debug64 f y n) .unwrapNone := by
  have hbits : debug64.bits = 64 := rfl
  obtain ⟨y, h, hy⟩ := C01_ratio_exact debug64 (-2) 1 (by decide) (by decide) (by decide) (by decide)
  have := C96_negative debug64 1 le_rfl (by decide) y (by simpa using hy)
  refine ⟨y, h, fun n hn => ?_, fun n hn => (this n).2 (by omega)⟩
  simpa using (this n).1 (by omega)

end Clarith
