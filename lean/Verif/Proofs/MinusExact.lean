import Verif.Proofs.Minus

/-! # `(2^b - 1)/2^b` minus itself

No coefficient is halved before the end, so that the last denominator is known exactly. -/

namespace Clarith

open Out Spec Support

variable {cfg : Cfg} {A : Panic → Prop}

namespace Combine

variable {cx cy : Clog} {w : Int} {P : Combine.Primed → Prop}

/-- A run of `Amplify`s of both operands, with nothing to halve. -/
theorem prime_diff_run (hA : cfg.CheckSafe A w) (m : Nat) (hm : 1 ≤ m) (e : Int)
    (ho : e % 2 = 1) : ∀ (k i : Nat), i + k = m → ∀ (s f h : Int) (cx cy : Clog),
      Clog.Denotes cfg A cx (2 ^ i / (2 ^ (m + 1) - 1)) →
      Clog.Denotes cfg A cy (2 ^ i / (2 ^ (m + 1) - 1)) →
      0 ≤ f → f ≤ h → 2 ^ k * |s| ≤ w → 4 ^ k * h ≤ w →
      (∀ cx' cy', Clog.Denotes cfg A cx' (2 ^ m / (2 ^ (m + 1) - 1)) →
        Clog.Denotes cfg A cy' (2 ^ m / (2 ^ (m + 1) - 1)) →
        Ev A (fun i j => Combine.prime cfg (Clog.egest cfg i) j
          ⟨cx', cy', Coef8.diff 1 (2 ^ k * s) e (2 ^ k * f) (4 ^ k * h)⟩) P) →
      Ev A (fun i j => Combine.prime cfg (Clog.egest cfg i) j ⟨cx, cy, Coef8.diff 1 s e f h⟩) P
  | 0, i, hi, s, f, h, cx, cy, hx, hy, _, _, _, _, hn => by
    obtain rfl : i = m := by omega
    simpa using hn cx cy hx hy
  | k + 1, i, hi, s, f, h, cx, cy, hx, hy, hf, hh, b1, b2, hn => by
    have hN : (2 : ℚ) * 2 ^ i < (2 ^ (m + 1) - 1) * 1 := by
      have h1 : (2 : ℚ) ^ (i + 1) ≤ 2 ^ m := pow_le_pow_right₀ (by norm_num) (by omega)
      have h2 : (2 : ℚ) ^ 1 ≤ 2 ^ m := pow_le_pow_right₀ (by norm_num) hm
      rw [pow_succ] at h1 ⊢
      linarith
    have hi0 : (0 : ℚ) < 2 ^ i := by positivity
    have hv : (2 : ℚ) ^ i / (2 ^ (m + 1) - 1) < 1 / 2 := by
      rw [div_lt_div_iff₀ (by linarith) (by norm_num)]
      linarith
    have p1 : (1 : Int) ≤ 2 ^ k := one_le_pow₀ (by norm_num)
    have p2 : (1 : Int) ≤ 4 ^ k := one_le_pow₀ (by norm_num)
    have := abs_nonneg s
    refine prime_on hx hy Coef8.diff_attempt (sym_lt hv)
      (Coef8.diff_amplify (s := s) (e := e) (w := w) (.inl rfl) hf hh ?_ ?_ hA) ?_
    · rw [pow_succ] at b1; nlinarith
    · rw [pow_succ] at b2; nlinarith
    intro cx' cy' k' hx' hy' hk
    rw [next_lt hv, show (2 : ℚ) * (2 ^ i / (2 ^ (m + 1) - 1)) = 2 ^ (i + 1) / (2 ^ (m + 1) - 1) by
      rw [pow_succ]; ring] at hx' hy'
    rcases hk with ⟨s', e', f', -, h1, -, -⟩ | ⟨e', h1, -⟩ | ⟨-, rfl⟩
    · omega
    · omega
    refine prime_diff_run hA m hm e ho k (i + 1) (by omega) _ _ _ _ _ hx' hy' (by omega) (by omega)
      ?_ ?_ ?_
    · rw [abs_mul, abs_two]; rw [pow_succ] at b1; linarith
    · rw [pow_succ] at b2; linarith
    · intro cx'' cy'' g1 g2
      have := hn cx'' cy'' g1 g2
      rw [show (2 : Int) ^ (k + 1) * s = 2 ^ k * (2 * s) by rw [pow_succ]; ring,
        show (2 : Int) ^ (k + 1) * f = 2 ^ k * (2 * f) by rw [pow_succ]; ring,
        show (4 : Int) ^ (k + 1) * h = 4 ^ k * (4 * h) by rw [pow_succ]; ring] at this
      exact this

/-- `(2^b - 1)/2^b` minus itself; the last denominator is `D`. -/
theorem prime_diff_worst {D : Int} (hA : cfg.CheckSafe A D) (b : Nat) : 1 ≤ b →
    ∀ (s e f h : Int) (cx cy : Clog),
      Clog.Denotes cfg A cx ((2 ^ b - 1) / 2 ^ b) → Clog.Denotes cfg A cy ((2 ^ b - 1) / 2 ^ b) →
      s ≠ 0 → 0 ≤ e → e ≤ f → f ≤ h → |s| ≤ h → 4 ∣ e → 2 ∣ f → h % 2 = 1 →
      ((2 ∣ s ∧ 2 * |s| ≤ h) ∨ 2 ≤ b) →
      4 * D = (e * (2 ^ b - 1) ^ 2 + 2 * f * ((2 ^ b - 1) * 2 ^ b) + h * (2 ^ b) ^ 2) * 4 ^ tri b →
      Ev A (fun i j => Combine.prime cfg (Clog.egest cfg i) j ⟨cx, cy, Coef8.diff 1 s e f h⟩)
        (fun t => t = (some .Zero, none, none, none, none) ∧ cfg.Fits D) := by
  induction b with
  | zero => intro h; omega
  | succ b ih =>
  intro _ s e f h cx cy hx hy hs he hef hfh hsh d1 d2 ho hb hD
  rcases b with _ | m
  · have := abs_nonneg s
    norm_num [tri] at hD hx hy
    obtain ⟨d3, hs2⟩ : 2 ∣ s ∧ 2 * |s| ≤ h := by
      rcases hb with hb | hb
      · exact hb
      · omega
    refine (prime_diff_end (w := D) hx hy (.inl rfl) hs he (by omega) hfh (by omega) (by omega)
      (.inr ⟨d3, d1, d2, by omega, by omega⟩) hA).mono ?_
    rintro _ ⟨rfl, D', h1, h2⟩
    exact ⟨rfl, cfg.fits_le h1 (by omega) (by omega)⟩
  · rw [show m + 1 + 1 = m + 2 from rfl] at hx hy hD hb
    have hs0 := abs_nonneg s
    obtain ⟨M, hM⟩ : ∃ M : Int, M = 2 ^ (m + 1) := ⟨_, rfl⟩
    have hM2 : 2 ≤ M := by
      have : (2 : Int) ^ 1 ≤ 2 ^ (m + 1) := pow_le_pow_right₀ (by norm_num) (by omega)
      rw [hM]; linarith
    have e4 : (4 : Int) ^ (m + 1) = M * M := by
      rw [hM, ← mul_pow]; norm_num
    have eb : (2 : Int) ^ (m + 2) = 2 * M := by rw [hM, pow_succ _ (m + 1)]; ring
    have t1 : (1 : Int) ≤ 4 ^ tri (m + 1) := one_le_pow₀ (by norm_num)
    obtain ⟨F, hF⟩ : ∃ F : Int, F = M * (f + h) := ⟨_, rfl⟩
    obtain ⟨H, hH⟩ : ∃ H : Int, H = M * M * (e + 2 * f + h) := ⟨_, rfl⟩
    have hD' : 4 * D = (H * (M - 1) ^ 2 + 2 * (F + H) * ((M - 1) * M) + (h + 2 * F + H) * M ^ 2) *
        4 ^ tri (m + 1) := by
      rw [hD, eb, show tri (m + 2) = tri (m + 1) + (m + 1) from rfl, pow_add, e4, hF, hH]
      ring
    have e5 : H * (M - 1) ^ 2 + 2 * (F + H) * ((M - 1) * M) + (h + 2 * F + H) * M ^ 2 =
        H * (2 * M - 1) ^ 2 + 2 * F * (M * (2 * M - 1)) + h * M ^ 2 := by ring
    have F0 : 0 ≤ F := by rw [hF]; exact mul_nonneg (by omega) (by omega)
    have H1 : 4 * (e + 2 * f + h) ≤ H := by
      rw [hH]; exact mul_le_mul_of_nonneg_right (by nlinarith) (by omega)
    have FH : F ≤ H := by
      rw [hF, hH, mul_assoc]
      refine mul_le_mul_of_nonneg_left ?_ (by omega)
      nlinarith
    have big : 4 * (h + 2 * F + H) ≤ 4 * D := by
      have a1 : H * 4 ≤ H * (2 * M - 1) ^ 2 := mul_le_mul_of_nonneg_left (by nlinarith) (by omega)
      have a2 : 2 * F * 4 ≤ 2 * F * (M * (2 * M - 1)) :=
        mul_le_mul_of_nonneg_left (by nlinarith) (by omega)
      have a3 : h * 4 ≤ h * M ^ 2 := mul_le_mul_of_nonneg_left (by nlinarith) (by omega)
      rw [hD', e5]
      refine le_trans ?_ (le_mul_of_one_le_right ?_ t1) <;> omega
    have sM : M * |s| * 2 ≤ H := by
      rw [hH, show M * |s| * 2 = M * (2 * |s|) by ring, mul_assoc]
      refine mul_le_mul_of_nonneg_left ?_ (by omega)
      nlinarith
    -- the rational values
    have hMq : ((2 : ℚ) ^ (m + 1)) = (M : ℚ) := by rw [hM]; push_cast; rfl
    have hbq : ((2 : ℚ) ^ (m + 2)) = 2 * (M : ℚ) := by rw [pow_succ _ (m + 1), hMq]; ring
    have hMq2 : (2 : ℚ) ≤ M := by exact_mod_cast hM2
    have v1 : (1 : ℚ) / 2 < (2 ^ (m + 2) - 1) / 2 ^ (m + 2) := by
      rw [hbq, div_lt_div_iff₀ (by norm_num) (by linarith)]; linarith
    have n1 : next (((2 : ℚ) ^ (m + 2) - 1) / 2 ^ (m + 2)) = 2 ^ 0 / (2 ^ (m + 1 + 1) - 1) := by
      rw [next_gt v1, show m + 1 + 1 = m + 2 from rfl, hbq, one_div_div]
      have : (2 * (M : ℚ) - 1) ≠ 0 := by linarith
      field_simp; ring
    have v2 : (1 : ℚ) / 2 < 2 ^ (m + 1) / (2 ^ (m + 1 + 1) - 1) := by
      rw [show m + 1 + 1 = m + 2 from rfl, hbq, hMq, div_lt_div_iff₀ (by norm_num) (by linarith)]
      linarith
    have n2 : next ((2 : ℚ) ^ (m + 1) / (2 ^ (m + 1 + 1) - 1)) =
        (2 ^ (m + 1) - 1) / 2 ^ (m + 1) := by
      rw [next_gt v2, show m + 1 + 1 = m + 2 from rfl, hbq, hMq, one_div_div]
      field_simp; ring
    refine prime_on hx hy Coef8.diff_attempt (sym_gt v1)
      (Coef8.diff_uncover (s := s) (w := D) (.inl rfl) he (by omega) (by omega) (by omega) (by omega) hA) ?_
    rintro cx1 cy1 _ hx1 hy1 rfl
    rw [n1] at hx1 hy1
    refine prime_diff_run hA (m + 1) (by omega) h ho (m + 1) 0 (by omega) _ _ _ _ _ hx1 hy1
      (by omega) (by omega) ?_ ?_ ?_
    · rw [abs_neg, ← hM]; omega
    · rw [e4, ← hH]; omega
    intro cx2 cy2 hx2 hy2
    rw [← hM, e4, ← hF, ← hH]
    refine prime_on hx2 hy2 Coef8.diff_attempt (sym_gt v2)
      (Coef8.diff_uncover (s := M * -s) (w := D) (.inl rfl) (by omega) F0 (by omega) ?_ (by omega) hA) ?_
    · rw [abs_mul, abs_neg, abs_of_nonneg (by omega : 0 ≤ M)]; omega
    rintro cx3 cy3 _ hx3 hy3 rfl
    rw [n2] at hx3 hy3
    have d4 : 2 ∣ M := by rw [hM, pow_succ]; exact dvd_mul_left _ _
    have d5 : 4 ∣ H := by
      rw [hH]; exact Dvd.dvd.mul_right (by simpa using mul_dvd_mul d4 d4) _
    have d6 : 2 ∣ F := by rw [hF]; exact Dvd.dvd.mul_right d4 _
    have es : -(M * -s) = M * s := by ring
    rw [es]
    have as : |M * s| = M * |s| := by rw [abs_mul, abs_of_nonneg (by omega : 0 ≤ M)]
    rw [← hM] at ih
    exact ih (by omega) (M * s) H (F + H) (h + 2 * F + H) cx3 cy3 hx3 hy3
      (mul_ne_zero (by omega) hs) (by omega) (by omega) (by omega) (by rw [as]; omega) d5
      (by omega) (by omega) (.inl ⟨Dvd.dvd.mul_right d4 _, by rw [as]; omega⟩) hD'

end Combine

end Clarith
