import Verif.Properties.Front
import Verif.Properties.ZeroOver
import Verif.Properties.Counter
import Verif.Proofs.ReadsEnd
import Mathlib.Data.Nat.Fib.Basic

/-! # Continued fractions (C97)

`x = 2^k + 1/x`, again and again, `k` changing from step to step.  Each step puts `k` times Amplify, one
Uncover and `k` times Amplify before the answers of `x`, so the answers are exact however far the numerator and
the denominator of the value are out of the range of the machine integers. -/

namespace Clarith

open Out Spec

/-! ## Specification -/

/-- `2^k₁ + 1/(2^k₂ + 1/(… + 1/q))`. -/
def Spec.contFrac (q : ℚ) : List Nat → ℚ
  | [] => q
  | k :: ks => 2 ^ k + 1 / contFrac q ks

/-- The calls of `Number::homographic` (src/lib.rs:112-131) that compute it, from the inside. -/
def Spec.contFracOf (cfg : Cfg) (f : Nat) (x : Number) : List Nat → Out Number
  | [] => pure x
  | k :: ks => do
    let y ← contFracOf cfg f x ks
    Number.homographic cfg f y (2 ^ k) 1 1 0

/-- The symbols put before those of `x`. -/
def Spec.quotients : List Nat → List Reduction
  | [] => []
  | k :: ks => List.replicate k .Amplify ++ .Uncover :: List.replicate k .Amplify ++ quotients ks

/-- The number can be read to its end, without panic, and what is read is the expansion of `q`. -/
def Spec.ReadsAs (cfg : Cfg) (n : Number) (q : ℚ) : Prop :=
  ∃ p c v l d e, n = .Other p c ∧ q = applyPrimer p v ∧ Expands v l ∧ Gives cfg c l d ∧
    Returns (fun f => Clog.egest cfg f d) (none, e)

/-! ## Proof -/

namespace ContFrac

variable {cfg : Cfg}

theorem unread_amplify (k : Nat) (s : ℚ) : unread (List.replicate k .Amplify) s = s / 2 ^ k := by
  induction k with
  | zero => simp [unread]
  | succ k ih =>
    rw [List.replicate_succ, unread, ih, unread1, pow_succ]
    field_simp

theorem unread_append (l l' : List Reduction) (s : ℚ) : unread (l ++ l') s = unread l (unread l' s) := by
  induction l with
  | nil => rfl
  | cons r l ih => rw [List.cons_append, unread, ih, unread]

theorem expands_append {s : ℚ} {l' : List Reduction} (h : Expands s l') (l : List Reduction) :
    Expands (unread l s) (l ++ l') := by
  have hm := h.mem
  induction l with
  | nil => exact h
  | cons r l ih =>
    obtain ⟨h0, h1⟩ := unread_mem l hm.1 hm.2
    rw [List.cons_append, unread]
    cases r with
    | Amplify =>
      refine .amplify (by simp only [unread1]; linarith) (by simp only [unread1]; linarith) ?_
      rw [show 2 * unread1 .Amplify (unread l s) = unread l s by simp only [unread1]; ring]
      exact ih
    | Uncover =>
      have g : 1 / 2 < 1 / (1 + unread l s) := one_div_lt_one_div_of_lt (by linarith) (by linarith)
      refine .uncover (by simpa only [unread1] using g) ?_ ?_
      · simp only [unread1]
        rw [div_lt_one (by linarith)]
        linarith
      · rw [show 1 / unread1 .Uncover (unread l s) - 1 = unread l s by simp only [unread1]; rw [one_div_one_div]; ring]
        exact ih

theorem unread_step (k : Nat) {s : ℚ} (h0 : 0 < s) :
    unread (List.replicate k .Amplify ++ .Uncover :: List.replicate k .Amplify) s = 1 / (2 ^ k + s) := by
  rw [unread_append, unread_amplify, unread, unread_amplify, unread1]
  field_simp

theorem step (k : Nat) (hk : 2 * k + 6 ≤ cfg.bits) (c : Clog) :
    ∃ c0 c1, Returns (fun f => Number.homographic cfg f (.Other (some .Turn) c) (2 ^ k) 1 1 0)
      (.Other (some .Turn) c0) ∧
      Gives cfg c0 (List.replicate k .Amplify ++ .Uncover :: List.replicate k .Amplify) c1 ∧
      SameAnswers cfg c c1 := by
  have hp : (1 : Int) ≤ 2 ^ k := one_le_pow₀ (by norm_num)
  refine C66_homographic (M := 2 ^ k + 1) (l := []) (by rw [abs_of_pos (by omega)]; norm_num)
    (by norm_num) ?_ (Gives.nil c) (fun s s0 s1 => ⟨?_, ?_⟩) (.inr (.inr (.inl (by simp))))
  · have e : cfg.imax = 2 ^ (cfg.bits - 1) - 1 := rfl
    have h1 : (2 : Int) ^ (2 * k + 5) ≤ 2 ^ (cfg.bits - 1) := pow_le_pow_right₀ (by norm_num) (by omega)
    have h2 : (2 : Int) ^ (2 * k + 5) = 32 * (2 ^ k * 2 ^ k) := by ring
    rw [e]
    simp only [List.length_nil, zero_add, pow_one]
    have h3 : (2 : Int) ^ k ≤ 2 ^ k * 2 ^ k := le_mul_of_one_le_left (by omega) hp
    have h4 : (((2 : Int) ^ k + 1) * 2) ^ 2 = 4 * (2 ^ k * 2 ^ k) + 8 * 2 ^ k + 4 := by ring
    omega
  · simp only [unread, applyPrimer]
    push_cast
    positivity
  · simp only [unread_step k s0]
    simp only [unread, applyPrimer]
    push_cast
    field_simp
    ring

theorem next {x y r : Number} {k : Nat} {ks : List Nat} (hy : Returns (fun f => contFracOf cfg f x ks) y)
    (hr : Returns (fun f => Number.homographic cfg f y (2 ^ k) 1 1 0) r) :
    Returns (fun f => contFracOf cfg f x (k :: ks)) r := by
  obtain ⟨f₀, hy⟩ := hy
  obtain ⟨f₁, hr⟩ := hr
  refine ⟨f₀ + f₁, fun f hf => ?_⟩
  have e : contFracOf cfg f x ks = .ok y := hy f (by omega)
  show contFracOf cfg f x ks >>= _ = _
  rw [e]
  exact hr f (by omega)

theorem unread_quotients (ks : List Nat) {s : ℚ} (h0 : 0 < s) (h1 : s < 1) :
    contFrac (1 / s) ks = 1 / unread (quotients ks) s := by
  induction ks with
  | nil => rfl
  | cons k ks ih =>
    rw [contFrac, ih, quotients, unread_append, unread_step k (unread_mem _ h0 h1).1, one_div_one_div, one_div_one_div]

end ContFrac

/-! ## C97 -/

open ContFrac

/-- For any answers of `x`, a number greater than 1: what is read of the continued fraction are the symbols of its
quotients, and then the answers of `x`. -/
theorem C97_front (cfg : Cfg) (ks : List Nat) (hk : ∀ k ∈ ks, 2 * k + 6 ≤ cfg.bits) (c : Clog) :
    ∃ c0 c1, Returns (fun f => contFracOf cfg f (.Other (some .Turn) c) ks) (.Other (some .Turn) c0) ∧
      Gives cfg c0 (quotients ks) c1 ∧ SameAnswers cfg c c1 := by
  induction ks with
  | nil => exact ⟨c, c, ⟨0, fun _ _ => rfl⟩, Gives.nil c, SameAnswers.of_agree (Agree.refl c) (Agree.refl c)⟩
  | cons k ks ih =>
    obtain ⟨c0, c1, h1, h2, h3⟩ := ih fun k h => hk k (List.mem_cons_of_mem _ h)
    obtain ⟨d0, d1, g1, g2, g3⟩ := step k (hk k List.mem_cons_self) c0
    obtain ⟨e1, i1, i2⟩ := C63_gives cfg c0 d1 c1 g3 _ h2
    exact ⟨d0, e1, next h1 g1, Clarith.Gives.trans g2 i1, Counter.SameAnswers.trans h3 i2⟩

/-- `2 + 1/(8 + 1/(1 + 1/x))` for an operand that goes on for ever. -/
example := C97_front debug64 [1, 3, 0] (by decide) (.homographic (.ratio ⟨3, 5⟩) ⟨0, 0, 1, 1⟩)

/-- With a value: the continued fraction is read as its exact value. -/
theorem C97_value (cfg : Cfg) (ks : List Nat) (hk : ∀ k ∈ ks, 2 * k + 6 ≤ cfg.bits) (x : Number) (q : ℚ)
    (hx : Number.Denotes cfg NoPanic x q) (hq : 1 < q) :
    ∃ r, Returns (fun f => contFracOf cfg f x ks) r ∧ ReadsAs cfg r (contFrac q ks) := by
  obtain ⟨c, rfl⟩ := Counter.turn hx hq
  obtain ⟨v, hv, rfl⟩ := hx
  obtain ⟨c0, c1, h1, h2, h3⟩ := C97_front cfg ks hk c
  obtain ⟨l, hl⟩ := exists_expands v hv.1 hv.2.1
  obtain ⟨d, e, hd, he⟩ := ZeroOver.stops hl hv
  obtain ⟨d', hd', hs⟩ := C63_gives cfg c c1 d h3 l hd
  obtain ⟨e', he'⟩ := ((h3 l d d' hd hd').1 none).1 ⟨e, he⟩
  exact ⟨_, h1, some .Turn, c0, unread (quotients ks) v, quotients ks ++ l, d', e', rfl,
    unread_quotients ks hv.1 hv.2.1, expands_append hl _, Clarith.Gives.trans h2 hd', he'⟩

/-- A hundred steps towards the square root of two, plus one, from 7/2. -/
example : ∃ x, Number.ratio debug64 7 2 = .ok x ∧ ∃ r,
    Returns (fun f => contFracOf debug64 f x (List.replicate 100 1)) r ∧
      ReadsAs debug64 r (contFrac (7 / 2) (List.replicate 100 1)) := by
  obtain ⟨x, h, hx⟩ := C01_ratio_exact debug64 7 2 (by decide) (by decide) (by decide) (by decide)
  exact ⟨x, h, C97_value debug64 _ (fun k hk => by rw [List.eq_of_mem_replicate hk]; decide) x (7 / 2)
    (by norm_num at hx ⊢; exact hx) (by norm_num)⟩

/-- The quotients of successive Fibonacci numbers. -/
theorem C97_fibonacci (cfg : Cfg) (n : Nat) : ∃ x, Number.ratio cfg 2 1 = .ok x ∧
    ∃ r, Returns (fun f => contFracOf cfg f x (List.replicate n 0)) r ∧
      ReadsAs cfg r ((n + 3).fib / (n + 2).fib) := by
  obtain ⟨x, h, hx⟩ := Counter.ratio (cfg := cfg) 2 (by have := cfg.imax_ge; omega)
  refine ⟨x, h, ?_⟩
  have e : contFrac 2 (List.replicate n 0) = (n + 3).fib / (n + 2).fib := by
    induction n with
    | zero => simp [contFrac, Nat.fib_add_two]
    | succ n ih =>
      have : ((n + 3).fib : ℚ) ≠ 0 := by exact_mod_cast (Nat.fib_pos.2 (by omega)).ne'
      rw [List.replicate_succ, contFrac, ih, one_div_div, show n + 1 + 3 = n + 2 + 2 by omega, Nat.fib_add_two (n := n + 2)]
      push_cast
      field_simp
      ring
  rw [← e]
  exact C97_value cfg _ (fun k hk => by have := cfg.hbits; rw [List.eq_of_mem_replicate hk]; omega) x 2
    (by exact_mod_cast hx) (by norm_num)

/-- The 203rd and 202nd Fibonacci numbers have more than 64 bits. -/
example := C97_fibonacci debug64 200

end Clarith
