import Verif.Proofs.Length
import Verif.SpecGrowth

/-! # The growth of fractions

A fraction `p/q` in lowest terms grows by `q/2` times a power of two: one factor for each doubling
over an odd denominator.  There are at most `b*(b-1)/2` of these when `q ≤ 2^b`. -/

namespace Clarith

namespace Spec

theorem one_le_growth {v : ℚ} {l : List Reduction} (hl : Expands v l) : 1 ≤ growth v l := by
  induction hl with
  | half => simp only [growth]; exact le_rfl
  | amplify h0 h1 h ih => simp only [growth]; linarith
  | @uncover x l h0 h1 h ih =>
    simp only [growth]
    have : 1 ≤ 1 / x := by rw [le_div_iff₀ (by linarith)]; linarith
    nlinarith

/-- `0 + 1 + ... + (b-1)` -/
def tri : Nat → Nat
  | 0 => 0
  | b + 1 => tri b + b

theorem tri_eq : ∀ b, 2 * tri b + b = b * b
  | 0 => rfl
  | b + 1 => by
    have := tri_eq b
    simp only [tri]
    nlinarith

theorem growth_amplify {p q : Nat} (l : List Reduction) :
    growth ((p : ℚ) / q) (.Amplify :: l) = 2 * growth (((2 * p : Nat) : ℚ) / q) l := by
  rw [growth, frac_double]

theorem growth_uncover {p q : Nat} (hp : 0 < p) (h : p < q) (l : List Reduction) :
    p * growth ((p : ℚ) / q) (.Uncover :: l) = q * growth (((q - p : Nat) : ℚ) / p) l := by
  have hp' : (p : ℚ) ≠ 0 := by exact_mod_cast (by omega : p ≠ 0)
  rw [growth, frac_uncover hp h, one_div_div]
  field_simp

def GrowthBound (b : Nat) : Prop :=
  ∀ p q : Nat, 0 < p → p < q → q ≤ 2 ^ b → ∀ l, Expands ((p : ℚ) / q) l →
    2 * growth ((p : ℚ) / q) l ≤ 2 ^ tri b * q

/-- After an `Uncover`. -/
theorem GrowthBound.uncover {T : ℚ} {p q : Nat} {l : List Reduction} (hp : 0 < p) (h : p < q)
    (H : 2 * growth (((q - p : Nat) : ℚ) / p) l ≤ T * p) :
    2 * growth ((p : ℚ) / q) (.Uncover :: l) ≤ T * q := by
  have hp' : (0 : ℚ) < p := by exact_mod_cast hp
  have hq' : (0 : ℚ) < q := by exact_mod_cast (by omega : 0 < q)
  have := growth_uncover hp h l
  have h1 : (p : ℚ) * (2 * growth ((p : ℚ) / q) (.Uncover :: l)) ≤ p * (T * q) := by
    calc (p : ℚ) * (2 * growth ((p : ℚ) / q) (.Uncover :: l))
        = q * (2 * growth (((q - p : Nat) : ℚ) / p) l) := by linarith
      _ ≤ q * (T * p) := mul_le_mul_of_nonneg_left H hq'.le
      _ = p * (T * q) := by ring
  exact le_of_mul_le_mul_left h1 hp'

theorem GrowthBound.even {b : Nat} (H : GrowthBound b) {p q : Nat} (hp : 0 < p)
    (h : p < q) (hpb : p ≤ 2 ^ b) (hqb : q ≤ 2 ^ (b + 1)) (he : 2 ∣ q) {l : List Reduction}
    (hl : Expands ((p : ℚ) / q) l) : 2 * growth ((p : ℚ) / q) l ≤ 2 ^ tri b * q := by
  rw [pow_succ] at hqb
  rcases hl.frac_cases hp h with ⟨rfl, _⟩ | ⟨l', rfl, h2, hl'⟩ | ⟨l', rfl, h2, hl'⟩
  · have h1 : (1 : ℚ) ≤ 2 ^ tri b := one_le_pow₀ (by norm_num)
    have h2 : (2 : ℚ) ≤ q := by exact_mod_cast (by omega : 2 ≤ q)
    simp only [growth]
    nlinarith
  · obtain ⟨e, rfl⟩ := he
    have e1 : (((2 * p : Nat) : ℚ) / (2 * e : Nat)) = (p : ℚ) / e := by
      rw [← frac_double, frac_halve]
    rw [growth_amplify, e1]
    rw [e1] at hl'
    have := H p e hp (by omega) (by omega) l' hl'
    push_cast
    linarith
  · exact GrowthBound.uncover hp h (H (q - p) p (by omega) (by omega) hpb l' hl')

theorem GrowthBound.run {b : Nat} (H : GrowthBound b) {p q : Nat} (hp : 0 < p)
    (hqb : q ≤ 2 ^ (b + 1)) (ho : ¬2 ∣ q) (l : List Reduction) :
    ∀ i, 1 ≤ i → 2 ^ i * p < q → Expands (((2 ^ i * p : Nat) : ℚ) / q) l →
      2 ^ i * (2 * growth (((2 ^ i * p : Nat) : ℚ) / q) l) ≤ 2 ^ (tri b + b) * q := by
  induction l with
  | nil =>
    intro i hi h hl
    have h0 : 0 < 2 ^ i * p := by positivity
    rcases hl.frac_cases h0 h with ⟨_, h2⟩ | ⟨l', h2, _⟩ | ⟨l', h2, _⟩
    · exact absurd ⟨_, h2⟩ ho
    · cases h2
    · cases h2
  | cons s l ih =>
    intro i hi h hl
    have h0 : 0 < 2 ^ i * p := by positivity
    have hib : i ≤ b := by
      by_contra hc
      have : 2 ^ (b + 1) ≤ 2 ^ i := Nat.pow_le_pow_right (by norm_num) (by omega)
      nlinarith
    have hpow : (2 : ℚ) ^ i ≤ 2 ^ b := pow_le_pow_right₀ (by norm_num) hib
    have fin : 2 * growth (((2 ^ i * p : Nat) : ℚ) / q) (s :: l) ≤ 2 ^ tri b * q →
        2 ^ i * (2 * growth (((2 ^ i * p : Nat) : ℚ) / q) (s :: l)) ≤ 2 ^ (tri b + b) * q := by
      intro hg
      have : (2 : ℚ) ^ (tri b + b) * q = 2 ^ b * (2 ^ tri b * q) := by rw [pow_add]; ring
      rw [this]
      refine mul_le_mul hpow hg ?_ (by positivity)
      have := one_le_growth hl
      linarith
    rcases hl.frac_cases h0 h with ⟨h2, _⟩ | ⟨l', h2, h3, hl'⟩ | ⟨l', h2, h3, hl'⟩
    · cases h2
    · cases h2
      rw [growth_amplify]
      have e : 2 * (2 ^ i * p) = 2 ^ (i + 1) * p := by rw [pow_succ]; ring
      rw [e] at h3 hl' ⊢
      have := ih (i + 1) (by omega) h3 hl'
      rw [pow_succ] at this
      linarith
    · cases h2
      apply fin
      by_cases hD : 2 ^ i * p ≤ 2 ^ b
      · exact GrowthBound.uncover h0 h
          (H (q - 2 ^ i * p) (2 ^ i * p) (by omega) (by omega) hD l hl')
      · have hle : q - 2 ^ i * p ≤ 2 ^ b := by rw [pow_succ] at hqb; omega
        have he : 2 ∣ 2 ^ i * p := Dvd.dvd.mul_right (dvd_pow_self 2 (by omega)) p
        exact GrowthBound.uncover h0 h
          (H.even (by omega) (by omega) hle (by omega) he hl')

theorem GrowthBound.small {b : Nat} (H : GrowthBound b) {p q : Nat} (hp : 0 < p)
    (h : p < q) (hpb : p ≤ 2 ^ b) (hqb : q ≤ 2 ^ (b + 1)) {l : List Reduction}
    (hl : Expands ((p : ℚ) / q) l) : 2 * growth ((p : ℚ) / q) l ≤ 2 ^ (tri b + b) * q := by
  have step : 2 * growth ((p : ℚ) / q) l ≤ 2 ^ tri b * q →
      2 * growth ((p : ℚ) / q) l ≤ 2 ^ (tri b + b) * q := by
    intro hg
    refine hg.trans (mul_le_mul_of_nonneg_right ?_ (by positivity))
    exact pow_le_pow_right₀ (by norm_num) (by omega)
  by_cases he : 2 ∣ q
  · exact step (H.even hp h hpb hqb he hl)
  · rcases hl.frac_cases hp h with ⟨rfl, h2⟩ | ⟨l', rfl, h2, hl'⟩ | ⟨l', rfl, h2, hl'⟩
    · exact absurd ⟨_, h2⟩ he
    · have := H.run hp hqb he l' 1 le_rfl (by omega) (by simpa using hl')
      rw [growth_amplify]
      simpa using this
    · exact step (GrowthBound.uncover hp h (H (q - p) p (by omega) (by omega) hpb l' hl'))

theorem growthBound : ∀ b, GrowthBound b
  | 0 => by
    intro p q hp h hq
    simp at hq; omega
  | b + 1 => by
    intro p q hp h hq l hl
    have H := growthBound b
    have hpow : 2 ^ (b + 1) = 2 * 2 ^ b := by rw [pow_succ]; ring
    by_cases hpb : p ≤ 2 ^ b
    · exact H.small hp h hpb hq hl
    · rcases hl.frac_cases hp h with ⟨rfl, h2⟩ | ⟨l', rfl, h2, hl'⟩ | ⟨l', rfl, h2, hl'⟩
      · omega
      · omega
      · exact GrowthBound.uncover hp h
          (H.small (by omega) (by omega) (by omega) (by omega) hl')

end Spec

end Clarith
