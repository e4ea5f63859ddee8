import Verif.Proofs.Clog

/-! # How many symbols a fraction has -/

namespace Clarith

open Spec

namespace Spec

theorem frac_lt_half {p q : Nat} (hq : 0 < q) (h : (p : ℚ) / q < 1 / 2) : 2 * p < q := by
  have hq' : (0 : ℚ) < q := by exact_mod_cast hq
  rw [div_lt_div_iff₀ hq' (by norm_num)] at h
  have : ((2 * p : Nat) : ℚ) < (q : Nat) := by push_cast; linarith
  exact_mod_cast this

theorem frac_gt_half {p q : Nat} (hq : 0 < q) (h : 1 / 2 < (p : ℚ) / q) : q < 2 * p := by
  have hq' : (0 : ℚ) < q := by exact_mod_cast hq
  rw [div_lt_div_iff₀ (by norm_num) hq'] at h
  have : ((q : Nat) : ℚ) < (2 * p : Nat) := by push_cast; linarith
  exact_mod_cast this

theorem frac_eq_half {p q : Nat} (hq : 0 < q) (h : (p : ℚ) / q = 1 / 2) : q = 2 * p := by
  have hq' : (q : ℚ) ≠ 0 := by exact_mod_cast hq.ne'
  rw [div_eq_div_iff hq' (by norm_num)] at h
  have : ((q : Nat) : ℚ) = (2 * p : Nat) := by push_cast; linarith
  exact_mod_cast this

theorem frac_uncover {p q : Nat} (hp : 0 < p) (h : p < q) :
    1 / ((p : ℚ) / q) - 1 = ((q - p : Nat) : ℚ) / p := by
  have hp' : (p : ℚ) ≠ 0 := by exact_mod_cast hp.ne'
  have hq' : (q : ℚ) ≠ 0 := by exact_mod_cast (by omega : q ≠ 0)
  rw [Nat.cast_sub h.le]
  field_simp

theorem frac_double {p q : Nat} : 2 * ((p : ℚ) / q) = ((2 * p : Nat) : ℚ) / q := by
  push_cast; ring

theorem frac_halve {p q : Nat} : 2 * ((p : ℚ) / (2 * q : Nat)) = (p : ℚ) / q := by
  push_cast
  rw [← div_div, mul_div_assoc']
  congr 1; ring

/-- One symbol of a fraction. -/
theorem Expands.frac_cases {p q : Nat} (hp : 0 < p) (h : p < q) {l : List Reduction}
    (hl : Expands ((p : ℚ) / q) l) :
    (l = [] ∧ q = 2 * p) ∨
    (∃ l', l = .Amplify :: l' ∧ 2 * p < q ∧ Expands (((2 * p : Nat) : ℚ) / q) l') ∨
    (∃ l', l = .Uncover :: l' ∧ q < 2 * p ∧ Expands (((q - p : Nat) : ℚ) / p) l') := by
  generalize hx : (p : ℚ) / q = x at hl
  cases hl with
  | half => exact .inl ⟨rfl, frac_eq_half (by omega) hx⟩
  | @amplify x l' h0 h1 hl' =>
    subst hx
    exact .inr (.inl ⟨l', rfl, frac_lt_half (by omega) h1, frac_double ▸ hl'⟩)
  | @uncover x l' h0 h1 hl' =>
    subst hx
    exact .inr (.inr ⟨l', rfl, frac_gt_half (by omega) h0, frac_uncover hp h ▸ hl'⟩)

/-- The bound for denominators up to `2^b`, as an induction hypothesis: it is met with equality
only by `(2^b - 1) / 2^b`. -/
def LengthBound (b : Nat) : Prop :=
  ∀ p q : Nat, 0 < p → p < q → q ≤ 2 ^ b → ∀ l, Expands ((p : ℚ) / q) l →
    2 * l.length + 4 ≤ b * (b + 3) ∧
    (2 * l.length + 4 = b * (b + 3) → q = 2 ^ b ∧ p + 1 = q)

/-- One more symbol is enough for an even denominator up to `2^(b+1)`. -/
theorem LengthBound.even {b : Nat} (H : LengthBound b) (hb : 1 ≤ b) {p q : Nat} (hp : 0 < p)
    (h : p < q) (hpb : p ≤ 2 ^ b) (hqb : q ≤ 2 ^ (b + 1)) (he : 2 ∣ q) {l : List Reduction}
    (hl : Expands ((p : ℚ) / q) l) : 2 * l.length + 4 ≤ b * (b + 3) + 2 ∧
      (2 * l.length + 4 = b * (b + 3) + 2 → q = 2 ^ (b + 1)) := by
  have hb4 : 4 ≤ b * (b + 3) := by nlinarith
  rw [pow_succ] at hqb ⊢
  rcases hl.frac_cases hp h with ⟨rfl, _⟩ | ⟨l', rfl, h2, hl'⟩ | ⟨l', rfl, h2, hl'⟩
  · simp only [List.length_nil]; omega
  · obtain ⟨e, rfl⟩ := he
    have e1 : (((2 * p : Nat) : ℚ) / (2 * e : Nat)) = (p : ℚ) / e := by
      rw [← frac_double, frac_halve]
    rw [e1] at hl'
    have := H p e hp (by omega) (by omega) l' hl'
    simp only [List.length_cons]; omega
  · have := H (q - p) p (by omega) (by omega) hpb l' hl'
    simp only [List.length_cons]; omega

/-- A run of doublings over an odd denominator. -/
theorem LengthBound.run {b : Nat} (H : LengthBound b) (hb : 1 ≤ b) {p q : Nat} (hp : 0 < p)
    (hqb : q ≤ 2 ^ (b + 1)) (ho : ¬2 ∣ q) (l : List Reduction) :
    ∀ i, 1 ≤ i → 2 ^ i * p < q → Expands (((2 ^ i * p : Nat) : ℚ) / q) l →
      2 * l.length + 4 + 2 * i ≤ b * (b + 3) + 2 * (b + 1) ∧
      (2 * l.length + 4 + 2 * i = b * (b + 3) + 2 * (b + 1) → p = 1 ∧ q + 1 = 2 ^ (b + 1)) := by
  induction l with
  | nil =>
    intro i hi h hl
    have h0 : 0 < 2 ^ i * p := by positivity
    rcases hl.frac_cases h0 h with ⟨_, h2⟩ | ⟨l', h2, _⟩ | ⟨l', h2, _⟩
    · exact absurd ⟨_, h2⟩ ho
    · cases h2
    · cases h2
  | cons s l ih =>
    intro i hi h hl
    have h0 : 0 < 2 ^ i * p := by positivity
    have hib : i ≤ b := by
      by_contra hc
      have : 2 ^ (b + 1) ≤ 2 ^ i := Nat.pow_le_pow_right (by norm_num) (by omega)
      nlinarith
    rcases hl.frac_cases h0 h with ⟨h2, _⟩ | ⟨l', h2, h3, hl'⟩ | ⟨l', h2, h3, hl'⟩
    · cases h2
    · cases h2
      have e : 2 * (2 ^ i * p) = 2 ^ (i + 1) * p := by rw [pow_succ]; ring
      rw [e] at h3 hl'
      have := ih (i + 1) (by omega) h3 hl'
      simp only [List.length_cons]; omega
    · cases h2
      by_cases hD : 2 ^ i * p ≤ 2 ^ b
      · obtain ⟨h4, h5⟩ := H (q - 2 ^ i * p) (2 ^ i * p) (by omega) (by omega) hD l hl'
        simp only [List.length_cons]
        refine ⟨by omega, fun he => ?_⟩
        have hi' : i = b := by omega
        subst hi'
        obtain ⟨h6, h7⟩ := h5 (by omega)
        have hp1 : p = 1 := by
          have : 2 ^ i * p = 2 ^ i * 1 := by omega
          exact Nat.eq_of_mul_eq_mul_left (by positivity) this
        rw [pow_succ]
        omega
      · have hp2 : 2 ≤ p := by
          by_contra hc
          have : p = 1 := by omega
          subst this
          have : 2 ^ i ≤ 2 ^ b := Nat.pow_le_pow_right (by norm_num) hib
          omega
        have hib' : i + 1 ≤ b := by
          by_contra hc
          have : i = b := by omega
          subst this
          rw [pow_succ] at hqb
          have : 2 ^ i * 2 ≤ 2 ^ i * p := Nat.mul_le_mul_left _ hp2
          omega
        have hle : q - 2 ^ i * p ≤ 2 ^ b := by rw [pow_succ] at hqb; omega
        have he : 2 ∣ 2 ^ i * p := Dvd.dvd.mul_right (dvd_pow_self 2 (by omega)) p
        have := H.even hb (by omega) (by omega) hle (by omega) he hl'
        simp only [List.length_cons]; omega

/-- `b + 1` more symbols are enough for a numerator up to `2^b`. -/
theorem LengthBound.small {b : Nat} (H : LengthBound b) (hb : 1 ≤ b) {p q : Nat} (hp : 0 < p)
    (h : p < q) (hpb : p ≤ 2 ^ b) (hqb : q ≤ 2 ^ (b + 1)) {l : List Reduction}
    (hl : Expands ((p : ℚ) / q) l) : 2 * l.length + 4 ≤ b * (b + 3) + 2 * (b + 1) ∧
      (2 * l.length + 4 = b * (b + 3) + 2 * (b + 1) → p = 1 ∧ q + 1 = 2 ^ (b + 1)) := by
  by_cases he : 2 ∣ q
  · have := H.even hb hp h hpb hqb he hl
    omega
  · rcases hl.frac_cases hp h with ⟨rfl, h2⟩ | ⟨l', rfl, h2, hl'⟩ | ⟨l', rfl, h2, hl'⟩
    · exact absurd ⟨_, h2⟩ he
    · have := H.run hb hp hqb he l' 1 le_rfl (by omega) (by simpa using hl')
      simp only [List.length_cons]; omega
    · have := H (q - p) p (by omega) (by omega) hpb l' hl'
      simp only [List.length_cons]; omega

theorem lengthBound : ∀ b, LengthBound b
  | 0 => by
    intro p q hp h hq
    simp at hq; omega
  | 1 => by
    intro p q hp h hq l hl
    have : q = 2 := by omega
    have : p = 1 := by omega
    subst_vars
    rcases hl.frac_cases hp h with ⟨rfl, h2⟩ | ⟨l', rfl, h2, hl'⟩ | ⟨l', rfl, h2, hl'⟩
    · simp
    · omega
    · omega
  | b + 2 => by
    intro p q hp h hq l hl
    have H := lengthBound (b + 1)
    have e : (b + 2) * (b + 2 + 3) = (b + 1) * (b + 1 + 3) + 2 * (b + 1 + 2) := by ring
    have hpow : 2 ^ (b + 2) = 2 * 2 ^ (b + 1) := by rw [pow_succ]; ring
    by_cases hpb : p ≤ 2 ^ (b + 1)
    · have := H.small (by omega) hp h hpb hq hl
      omega
    · rcases hl.frac_cases hp h with ⟨rfl, h2⟩ | ⟨l', rfl, h2, hl'⟩ | ⟨l', rfl, h2, hl'⟩
      · omega
      · omega
      · have := H.small (by omega) (by omega) (by omega) (by omega) (by omega) hl'
        simp only [List.length_cons]; omega

/-! ## The longest fractions -/

/-- The symbols of `(2^b - 1) / 2^b`. -/
def worst : Nat → List Reduction
  | 0 => []
  | 1 => []
  | b + 2 => .Uncover :: (List.replicate (b + 1) .Amplify ++ .Uncover :: worst (b + 1))

theorem worst_length : ∀ b, 1 ≤ b → 2 * (worst b).length + 4 = b * (b + 3)
  | 1, _ => by simp [worst]
  | b + 2, _ => by
    have := worst_length (b + 1) (by omega)
    simp only [worst, List.length_cons, List.length_append, List.length_replicate]
    have e : (b + 2) * (b + 2 + 3) = (b + 1) * (b + 1 + 3) + 2 * (b + 1 + 2) := by ring
    omega

/-- Doublings of `1 / q` below one half. -/
theorem expands_doublings {q : Nat} (l : List Reduction) : ∀ k i, 2 ^ (i + k) < q →
    Expands (((2 ^ (i + k) : Nat) : ℚ) / q) l →
    Expands (((2 ^ i : Nat) : ℚ) / q) (List.replicate k .Amplify ++ l)
  | 0, i, _, h => by simpa using h
  | k + 1, i, hlt, h => by
    have hle : 2 ^ (i + 1) ≤ 2 ^ (i + (k + 1)) := Nat.pow_le_pow_right (by norm_num) (by omega)
    rw [List.replicate_succ, List.cons_append]
    have hq : (0 : ℚ) < q := by exact_mod_cast (Nat.zero_lt_of_lt hlt)
    have hi : (0 : ℚ) < (2 ^ i : Nat) := by exact_mod_cast Nat.two_pow_pos i
    refine .amplify (div_pos hi hq) ?_ ?_
    · rw [div_lt_div_iff₀ hq (by norm_num)]
      have : ((2 ^ i * 2 : Nat) : ℚ) < (q : Nat) := by
        exact_mod_cast (by rw [← pow_succ]; omega : 2 ^ i * 2 < q)
      push_cast at this ⊢; linarith
    · rw [frac_double, show 2 * 2 ^ i = 2 ^ (i + 1) by rw [pow_succ]; ring]
      exact expands_doublings l k (i + 1) (by rw [show i + 1 + k = i + (k + 1) by omega]; exact hlt)
        (by rw [show i + 1 + k = i + (k + 1) by omega]; exact h)

theorem expands_uncover {p q : Nat} {l : List Reduction} (hp : 0 < p) (h : p < q)
    (h2 : q < 2 * p) (hl : Expands (((q - p : Nat) : ℚ) / p) l) :
    Expands ((p : ℚ) / q) (.Uncover :: l) := by
  have hp' : (0 : ℚ) < p := by exact_mod_cast hp
  have hq' : (0 : ℚ) < q := by exact_mod_cast (by omega : 0 < q)
  have hpq : (p : ℚ) < q := by exact_mod_cast h
  have h2' : (q : ℚ) < 2 * p := by exact_mod_cast h2
  refine .uncover ?_ (by rw [div_lt_iff₀ hq', one_mul]; exact hpq) (by rw [frac_uncover hp h]; exact hl)
  rw [div_lt_div_iff₀ (by norm_num) hq']; linarith

/-- `(2^b - 1) / 2^b` and, one symbol shorter, `1 / (2^b - 1)`. -/
theorem expands_worst : ∀ b, 1 ≤ b →
    Expands (((2 ^ b - 1 : Nat) : ℚ) / (2 ^ b : Nat)) (worst b) ∧
    (2 ≤ b → Expands ((1 : ℚ) / (2 ^ b - 1 : Nat)) (worst b).tail)
  | 1, _ => ⟨by norm_num [worst]; exact .half, by omega⟩
  | b + 2, _ => by
    have hpos : 0 < 2 ^ b := Nat.two_pow_pos b
    have e1 : 2 ^ (b + 1) = 2 * 2 ^ b := by rw [pow_succ]; ring
    have e2 : 2 ^ (b + 2) = 4 * 2 ^ b := by rw [pow_add]; ring
    have h1 : Expands (((2 ^ (b + 1) : Nat) : ℚ) / (2 ^ (b + 2) - 1 : Nat))
        (.Uncover :: worst (b + 1)) := by
      refine expands_uncover (by omega) (by omega) (by omega) ?_
      rw [show 2 ^ (b + 2) - 1 - 2 ^ (b + 1) = 2 ^ (b + 1) - 1 by omega]
      exact (expands_worst (b + 1) (by omega)).1
    have h2 := expands_doublings (q := 2 ^ (b + 2) - 1) _ (b + 1) 0 (by rw [Nat.zero_add]; omega)
      (by rw [Nat.zero_add]; exact h1)
    rw [pow_zero] at h2
    refine ⟨?_, fun _ => ?_⟩
    · refine expands_uncover (by omega) (by omega) (by omega) ?_
      rw [show 2 ^ (b + 2) - (2 ^ (b + 2) - 1) = 1 by omega]
      exact h2
    · simpa [worst] using h2

end Spec

end Clarith
