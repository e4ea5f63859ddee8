import Verif.Proofs.Contract
import Mathlib.Analysis.Real.Sqrt

/-! # How fast the symbols of a number determine it

The distance of two numbers seen through a map with the denominator `c*x+d`, and a weight of `(c,d)` that
grows by the same factor in the worst case of every symbol. -/

namespace Clarith

open Spec

/-- The distance of `x` and `y` after a map of determinant one and denominator `c*x+d`. -/
noncomputable def seen (c d x y : ℝ) : ℝ := |x - y| / ((c * x + d) * (c * y + d))

theorem seen_nonneg {c d x y : ℝ} (hc : 0 ≤ c) (hd : 0 < d) (hx : 0 < x) (hy : 0 < y) :
    0 ≤ seen c d x y := by unfold seen; positivity

theorem seen_self (c d x : ℝ) : seen c d x x = 0 := by simp [seen]

theorem seen_amplify (c d x y : ℝ) :
    seen c d (undoOne .Amplify x) (undoOne .Amplify y) = seen (c / 2) d x y / 2 := by
  unfold seen undoOne
  have e : x / 2 - y / 2 = (x - y) / 2 := by ring
  rw [e, abs_div, abs_of_pos (two_pos : (0 : ℝ) < 2)]
  have e1 : c * (x / 2) + d = c / 2 * x + d := by ring
  have e2 : c * (y / 2) + d = c / 2 * y + d := by ring
  rw [e1, e2]
  ring

theorem seen_uncover {c d x y : ℝ} (hc : 0 ≤ c) (hd : 0 < d) (hx : 0 < x) (hy : 0 < y) :
    seen c d (undoOne .Uncover x) (undoOne .Uncover y) = seen d (c + d) x y := by
  unfold seen undoOne
  have px : 0 < x + 1 := by linarith
  have py : 0 < y + 1 := by linarith
  have e : 1 / (x + 1) - 1 / (y + 1) = (y - x) / ((x + 1) * (y + 1)) := by
    field_simp; ring
  have e1 : c * (1 / (x + 1)) + d = (d * x + (c + d)) / (x + 1) := by field_simp; ring
  have e2 : c * (1 / (y + 1)) + d = (d * y + (c + d)) / (y + 1) := by field_simp; ring
  rw [e, e1, e2, abs_div, abs_of_pos (mul_pos px py), abs_sub_comm y x]
  have : 0 < d * x + (c + d) := by positivity
  have : 0 < d * y + (c + d) := by positivity
  field_simp

/-- Nothing in the unit interval is further apart than its ends. -/
theorem seen_le {c d x y : ℝ} (hc : 0 ≤ c) (hd : 0 < d) (hx0 : 0 < x) (hx1 : x < 1) (hy0 : 0 < y)
    (hy1 : y < 1) : seen c d x y * (d * (c + d)) ≤ 1 := by
  unfold seen
  have px : 0 < c * x + d := by positivity
  have py : 0 < c * y + d := by positivity
  rw [div_mul_eq_mul_div, div_le_one (mul_pos px py)]
  rcases le_total x y with h | h
  · rw [abs_of_nonpos (by linarith)]
    nlinarith [mul_nonneg (mul_nonneg hc hd.le) hx0.le, mul_nonneg (mul_nonneg hc hc) (mul_pos hx0 hy0).le,
      mul_nonneg (mul_nonneg hc hd.le) (sub_nonneg.2 hy1.le), mul_nonneg (mul_nonneg hc hd.le) hy0.le,
      mul_pos hd hd]
  · rw [abs_of_nonneg (by linarith)]
    nlinarith [mul_nonneg (mul_nonneg hc hd.le) hy0.le, mul_nonneg (mul_nonneg hc hc) (mul_pos hx0 hy0).le,
      mul_nonneg (mul_nonneg hc hd.le) (sub_nonneg.2 hx1.le), mul_nonneg (mul_nonneg hc hd.le) hx0.le,
      mul_pos hd hd]

/-! ## The worst case -/

/-- The constants of the worst case; `2/b` is the factor of a symbol. -/
structure Worst (a b : ℝ) : Prop where
  a_lo : 0.8989 < a
  a_hi : a < 0.899
  b_lo : 1.1274 < b
  b_hi : b < 1.1277
  /-- what makes `Uncover` and three times `Amplify` the worst case -/
  period : a * (8 + a) = 8
  growth : b ^ 4 = 2 * a ^ 2

/-- The weight of `(c,d)` when `j` times `Amplify` is to come before the next `Uncover`. -/
noncomputable def weight (a b : ℝ) (j : Nat) (c d : ℝ) : ℝ := b ^ j * (d + a * c / 2 ^ j) ^ 2

theorem weight_amplify (a b : ℝ) (j : Nat) (c d : ℝ) :
    weight a b (j + 1) c d = b * weight a b j (c / 2) d := by
  unfold weight
  have : a * (c / 2) / 2 ^ j = a * c / 2 ^ (j + 1) := by rw [pow_succ]; field_simp
  rw [this, pow_succ]; ring

section

variable {a b : ℝ} (w : Worst a b) {c d : ℝ}

include w

theorem Worst.four (hc : 0 ≤ c) (hcd : c ≤ d) : weight a b 3 c d ≤ weight a b 4 c d := by
  obtain ⟨a1, a2, b1, b2, -, -⟩ := w
  unfold weight
  have hb : 0 < b ^ 3 := by positivity
  have hac : a * c ≤ 0.899 * d := by nlinarith
  have hac0 : 0 ≤ a * c := by positivity
  have e : b ^ 4 * (d + a * c / 2 ^ 4) ^ 2 = b ^ 3 * (b * (d + a * c / 2 ^ 4) ^ 2) := by ring
  rw [e]
  refine mul_le_mul_of_nonneg_left ?_ hb.le
  have h : d + a * c / 2 ^ 3 ≤ 1.06 * (d + a * c / 2 ^ 4) := by linarith
  have h0 : 0 ≤ d + a * c / 2 ^ 3 := by linarith
  have h1 := pow_le_pow_left₀ h0 h 2
  nlinarith [sq_nonneg (d + a * c / 2 ^ 4)]

/-- After `Uncover` some weight has grown enough. -/
theorem Worst.uncover (hc : 0 ≤ c) (hd : 0 < d) (hcd : c ≤ d) (j : Nat) (hj : j ≤ 3) :
    ∃ i ≤ 3, 2 * weight a b i c d ≤ b * weight a b j d (c + d) := by
  obtain ⟨a1, a2, b1, b2, h8, h4⟩ := w
  have a0 : 0 < a := by linarith
  have b0 : 0 < b := by linarith
  have p2 : 1.271 < b ^ 2 := by nlinarith
  match j, hj with
  | 0, _ =>
    refine ⟨0, by omega, ?_⟩
    simp only [weight, pow_zero, one_mul, div_one]
    have h : 1.34 * (d + a * c) ≤ c + d + a * d := by nlinarith
    have h0 : 0 ≤ d + a * c := by positivity
    have : (1.34 * (d + a * c)) ^ 2 ≤ (c + d + a * d) ^ 2 := pow_le_pow_left₀ (by positivity) h 2
    nlinarith [sq_nonneg (d + a * c)]
  | 1, _ =>
    refine ⟨0, by omega, ?_⟩
    simp only [weight, pow_zero, one_mul, div_one, pow_one]
    have h : 1.255 * (d + a * c) ≤ c + d + a * d / 2 := by nlinarith
    have h0 : 0 ≤ d + a * c := by positivity
    have h1 : (1.255 * (d + a * c)) ^ 2 ≤ (c + d + a * d / 2) ^ 2 := pow_le_pow_left₀ (by positivity) h 2
    have h2 : 1.271 * (c + d + a * d / 2) ^ 2 ≤ b ^ 2 * (c + d + a * d / 2) ^ 2 :=
      mul_le_mul_of_nonneg_right p2.le (sq_nonneg _)
    nlinarith [sq_nonneg (d + a * c)]
  | 2, _ =>
    have p3 : 1.433 < b ^ 3 := by nlinarith
    by_cases ht : c ≤ 0.6 * d
    · refine ⟨0, by omega, ?_⟩
      simp only [weight, pow_zero, one_mul, div_one]
      have h : 1.182 * (d + a * c) ≤ c + d + a * d / 2 ^ 2 := by nlinarith
      have h0 : 0 ≤ d + a * c := by positivity
      have h1 : (1.182 * (d + a * c)) ^ 2 ≤ (c + d + a * d / 2 ^ 2) ^ 2 :=
        pow_le_pow_left₀ (by positivity) h 2
      have h2 : 1.433 * (c + d + a * d / 2 ^ 2) ^ 2 ≤ b ^ 3 * (c + d + a * d / 2 ^ 2) ^ 2 :=
        mul_le_mul_of_nonneg_right p3.le (sq_nonneg _)
      nlinarith [sq_nonneg (d + a * c)]
    · refine ⟨1, by omega, ?_⟩
      simp only [weight, pow_one]
      push Not at ht
      have h : 1.3 * (d + a * c / 2) ≤ c + d + a * d / 2 ^ 2 := by nlinarith
      have h0 : 0 ≤ d + a * c / 2 := by positivity
      have h1 : (1.3 * (d + a * c / 2)) ^ 2 ≤ (c + d + a * d / 2 ^ 2) ^ 2 :=
        pow_le_pow_left₀ (by positivity) h 2
      have h2 : 1.271 * (c + d + a * d / 2 ^ 2) ^ 2 ≤ b ^ 2 * (c + d + a * d / 2 ^ 2) ^ 2 :=
        mul_le_mul_of_nonneg_right p2.le (sq_nonneg _)
      have h3 : 2 * (d + a * c / 2) ^ 2 ≤ b ^ 2 * (c + d + a * d / 2 ^ 2) ^ 2 := by
        nlinarith [sq_nonneg (d + a * c / 2)]
      nlinarith [mul_le_mul_of_nonneg_left h3 b0.le]
  | 3, _ =>
    refine ⟨0, by omega, le_of_eq ?_⟩
    simp only [weight, pow_zero, one_mul, div_one]
    have e : a * (c + d + a * d / 2 ^ 3) = d + a * c := by linear_combination (d / 8) * h8
    have e2 : b * (b ^ 3 * (c + d + a * d / 2 ^ 3) ^ 2) =
        2 * (a * (c + d + a * d / 2 ^ 3)) ^ 2 := by
      linear_combination (c + d + a * d / 2 ^ 3) ^ 2 * h4
    rw [e2, e]

/-- At the start some weight is not much more than the inverse of the length of the interval. -/
theorem Worst.start (hc : 0 ≤ c) (hd : 0 < d) (hcd : c ≤ d) :
    ∃ i ≤ 3, weight a b i c d ≤ 9 / 8 * (d * (c + d)) := by
  obtain ⟨a1, a2, b1, b2, -, -⟩ := w
  have a0 : 0 < a := by linarith
  have p2 : b ^ 2 < 1.272 := by nlinarith
  have hac : a * c ≤ 0.899 * c := by nlinarith
  have hac0 : 0 ≤ a * c := by positivity
  by_cases h1 : c ≤ 0.15 * d
  · refine ⟨0, by omega, ?_⟩
    simp only [weight, pow_zero, one_mul, div_one]
    have : (d + a * c) ^ 2 ≤ (d + 0.899 * c) ^ 2 := pow_le_pow_left₀ (by positivity) (by linarith) 2
    nlinarith [mul_nonneg hc hd.le, mul_nonneg hc (sub_nonneg.2 h1), mul_nonneg hd.le (sub_nonneg.2 h1)]
  · push Not at h1
    by_cases h2 : c ≤ 0.4 * d
    · refine ⟨1, by omega, ?_⟩
      simp only [weight, pow_one]
      have h : (d + a * c / 2) ^ 2 ≤ (d + 0.4495 * c) ^ 2 :=
        pow_le_pow_left₀ (by positivity) (by linarith) 2
      have : b * (d + a * c / 2) ^ 2 ≤ 1.1277 * (d + 0.4495 * c) ^ 2 :=
        mul_le_mul b2.le h (sq_nonneg _) (by norm_num)
      nlinarith [mul_nonneg (sub_nonneg.2 h1.le) (sub_nonneg.2 h2), mul_nonneg hd.le (sub_nonneg.2 h2),
        mul_nonneg hd.le (sub_nonneg.2 h1.le)]
    · push Not at h2
      refine ⟨2, by omega, ?_⟩
      simp only [weight]
      have h : (d + a * c / 2 ^ 2) ^ 2 ≤ (d + 0.22475 * c) ^ 2 :=
        pow_le_pow_left₀ (by positivity) (by linarith) 2
      have : b ^ 2 * (d + a * c / 2 ^ 2) ^ 2 ≤ 1.272 * (d + 0.22475 * c) ^ 2 :=
        mul_le_mul p2.le h (sq_nonneg _) (by norm_num)
      nlinarith [mul_nonneg (sub_nonneg.2 h2.le) (sub_nonneg.2 hcd), mul_nonneg hd.le (sub_nonneg.2 h2.le),
        mul_nonneg hd.le (sub_nonneg.2 hcd)]

theorem Worst.seen (n : Nat) {x y : ℝ} (hx0 : 0 < x) (hx1 : x < 1) (hy0 : 0 < y) (hy1 : y < 1)
    (h : symbolsR n x = symbolsR n y) (hc : 0 ≤ c) (hd : 0 < d) (hcd : c ≤ d) :
    ∃ i ≤ 3, seen c d x y * (2 / b) ^ n * weight a b i c d ≤ 9 / 8 := by
  have b0 : 0 < b := by linarith [w.b_lo]
  induction n generalizing x y c d with
  | zero =>
    obtain ⟨i, hi, h'⟩ := w.start hc hd hcd
    refine ⟨i, hi, ?_⟩
    have h1 := seen_le hc hd hx0 hx1 hy0 hy1
    have h0 := seen_nonneg hc hd hx0 hy0
    rw [pow_zero, mul_one]
    nlinarith [mul_le_mul_of_nonneg_left h' h0]
  | succ n ih =>
    simp only [symbolsR_succ, List.cons.injEq] at h
    rcases dist_step_one hx0 hx1 hy0 hy1 h.1 with rfl | ⟨r, e1, e1', k1, k2, k3, k4⟩
    · exact ⟨0, by omega, by rw [seen_self]; norm_num⟩
    · cases r with
      | Amplify =>
        obtain ⟨j, hj, hs⟩ := ih k1 k2 k3 k4 h.2 (c := c / 2) (d := d) (by linarith) hd (by linarith)
        have key : Clarith.seen c d x y * (2 / b) ^ (n + 1) * weight a b (j + 1) c d ≤ 9 / 8 := by
          rw [e1, e1', seen_amplify, weight_amplify, pow_succ]
          calc _ = Clarith.seen (c / 2) d (nextR x) (nextR y) * (2 / b) ^ n *
              weight a b j (c / 2) d := by field_simp
            _ ≤ _ := hs
        rcases Nat.lt_or_ge j 3 with hlt | hge
        · exact ⟨j + 1, by omega, key⟩
        · obtain rfl : j = 3 := by omega
          refine ⟨3, le_rfl, le_trans ?_ key⟩
          refine mul_le_mul_of_nonneg_left (w.four hc hcd) ?_
          have := seen_nonneg hc hd hx0 hy0
          positivity
      | Uncover =>
        obtain ⟨j, hj, hs⟩ := ih k1 k2 k3 k4 h.2 (c := d) (d := c + d) hd.le (by linarith) (by linarith)
        obtain ⟨i, hi, hu⟩ := w.uncover hc hd hcd j hj
        refine ⟨i, hi, le_trans ?_ hs⟩
        have h0 := seen_nonneg hd.le (by linarith : 0 < c + d) k1 k3
        rw [e1, e1', seen_uncover hc hd k1 k3, ← e1, ← e1', pow_succ]
        have : 2 / b * weight a b i c d ≤ weight a b j d (c + d) := by
          rw [div_mul_eq_mul_div, div_le_iff₀ b0]; linarith
        calc _ = Clarith.seen d (c + d) (nextR x) (nextR y) * (2 / b) ^ n *
              (2 / b * weight a b i c d) := by ring
          _ ≤ _ := mul_le_mul_of_nonneg_left this (by positivity)

end

/-- The factor of four symbols in the worst case. -/
theorem worst_facts : (2 * √6 - 4) * (8 + (2 * √6 - 4)) = 8 ∧
    (5 + 2 * √6) * (2 * √6 - 4) ^ 2 = 8 ∧ 0.8989 < 2 * √6 - 4 ∧ 2 * √6 - 4 < 0.899 := by
  have h : √6 ^ 2 = 6 := Real.sq_sqrt (by norm_num)
  refine ⟨by linear_combination 4 * h, by linear_combination (8 * √6 - 12) * h, ?_, ?_⟩
  · have : 2.44945 < √6 := Real.lt_sqrt_of_sq_lt (by norm_num)
    linarith
  · have : √6 < 2.4495 := (Real.sqrt_lt' (by norm_num)).2 (by norm_num)
    linarith

/-- The factor of a symbol in the worst case. -/
noncomputable def worstRate : ℝ := √(√(5 + 2 * √6))

theorem worstRate_pow : worstRate ^ 4 = 5 + 2 * √6 := by
  have e : worstRate ^ 4 = (worstRate ^ 2) ^ 2 := by ring
  rw [e, worstRate, Real.sq_sqrt (Real.sqrt_nonneg _), Real.sq_sqrt (by positivity)]

theorem worstRate_pos : 0 < worstRate := by unfold worstRate; positivity

theorem worst : Worst (2 * √6 - 4) (2 / worstRate) := by
  obtain ⟨h1, h2, h3, h4⟩ := worst_facts
  have hp := worstRate_pos
  have hr := worstRate_pow
  have s1 : 1.7737 < worstRate := by
    by_contra hcon
    push Not at hcon
    have := pow_le_pow_left₀ hp.le hcon 4
    rw [hr] at this
    linarith [this, show (1.7737 : ℝ) ^ 4 < 9.8979 by norm_num]
  have s2 : worstRate < 1.7739 := by
    by_contra hcon
    push Not at hcon
    have := pow_le_pow_left₀ (by norm_num) hcon 4
    rw [hr] at this
    linarith [this, show (9.9 : ℝ) < 1.7739 ^ 4 by norm_num]
  refine ⟨h3, h4, ?_, ?_, h1, ?_⟩
  · rw [lt_div_iff₀ hp]; linarith
  · rw [div_lt_iff₀ hp]; linarith
  · rw [div_pow, hr, div_eq_iff (by positivity)]
    linarith

/-! ### The worst case is attained -/

theorem symR_undoOne (r : Reduction) {z : ℝ} (h0 : 0 < z) (h1 : z < 1) :
    symR (undoOne r z) = some r ∧ nextR (undoOne r z) = z ∧ 0 < undoOne r z ∧ undoOne r z < 1 := by
  cases r with
  | Amplify =>
    have h : z / 2 < 1 / 2 := by linarith
    exact ⟨symR_lt h, by rw [undoOne, nextR_lt h]; ring, by rw [undoOne]; linarith,
      by rw [undoOne]; linarith⟩
  | Uncover =>
    have h : 1 / 2 < 1 / (z + 1) := by
      rw [div_lt_div_iff₀ (by norm_num) (by linarith)]; linarith
    refine ⟨symR_gt h, ?_, by rw [undoOne]; linarith, ?_⟩
    · rw [undoOne, nextR_gt h, one_div_one_div]; ring
    · rw [undoOne, div_lt_one (by linarith)]; linarith

/-- The number with the symbols `Uncover`, `Amplify`, `Amplify`, `Amplify` and then those of `z`. -/
noncomputable def worstFour (z : ℝ) : ℝ :=
  undoOne .Uncover (undoOne .Amplify (undoOne .Amplify (undoOne .Amplify z)))

theorem worstFour_symbols (n : Nat) {z : ℝ} (h0 : 0 < z) (h1 : z < 1) :
    0 < worstFour z ∧ worstFour z < 1 ∧ symbolsR (n + 4) (worstFour z) =
      some .Uncover :: some .Amplify :: some .Amplify :: some .Amplify :: symbolsR n z := by
  obtain ⟨a1, a2, a3, a4⟩ := symR_undoOne .Amplify h0 h1
  obtain ⟨b1, b2, b3, b4⟩ := symR_undoOne .Amplify a3 a4
  obtain ⟨c1, c2, c3, c4⟩ := symR_undoOne .Amplify b3 b4
  obtain ⟨d1, d2, d3, d4⟩ := symR_undoOne .Uncover c3 c4
  refine ⟨d3, d4, ?_⟩
  rw [show n + 4 = n + 1 + 1 + 1 + 1 by ring, symbolsR_succ, symbolsR_succ, symbolsR_succ, symbolsR_succ,
    worstFour, d1, d2, c1, c2, b1, b2, a1, a2]

theorem seen_worstFour {c d z z' : ℝ} (hc : 0 ≤ c) (hd : 0 < d) (h0 : 0 < z) (h0' : 0 < z') :
    seen c d (worstFour z) (worstFour z') = seen (d / 8) (c + d) z z' / 8 := by
  have p : ∀ {z : ℝ}, 0 < z → 0 < undoOne .Amplify z := by
    intro z h; rw [undoOne]; linarith
  rw [worstFour, worstFour, seen_uncover hc hd (p (p (p h0))) (p (p (p h0'))), seen_amplify,
    seen_amplify, seen_amplify, div_div, div_div, div_div, div_div]
  norm_num

theorem seen_iterate (n : Nat) {c d z z' : ℝ} (hc : 0 ≤ c) (hd : 0 < d) (h0 : 0 < z) (h1 : z < 1)
    (h0' : 0 < z') (h1' : z' < 1) :
    ((0 < worstFour^[n] z ∧ worstFour^[n] z < 1) ∧ 0 < worstFour^[n] z' ∧ worstFour^[n] z' < 1) ∧
    symbolsR (4 * n) (worstFour^[n] z) = symbolsR (4 * n) (worstFour^[n] z') ∧
    |z - z'| * (2 * √6 - 4) ^ 2 ≤ seen c d (worstFour^[n] z) (worstFour^[n] z') * (5 + 2 * √6) ^ n *
      (d + (2 * √6 - 4) * c) ^ 2 := by
  obtain ⟨e1, e2, e3, e4⟩ := worst_facts
  obtain ⟨a, ha⟩ : ∃ a, a = 2 * √6 - 4 := ⟨_, rfl⟩
  rw [← ha] at e1 e2 e3 e4 ⊢
  induction n generalizing c d with
  | zero =>
    refine ⟨⟨⟨h0, h1⟩, h0', h1'⟩, rfl, ?_⟩
    simp only [Function.iterate_zero, id_eq, pow_zero, mul_one, seen]
    have p : 0 < c * z + d := by positivity
    have p' : 0 < c * z' + d := by positivity
    rw [div_mul_eq_mul_div, le_div_iff₀ (mul_pos p p'), mul_assoc]
    refine mul_le_mul_of_nonneg_left ?_ (abs_nonneg _)
    have h : c * z + d ≤ c + d := by nlinarith
    have h' : c * z' + d ≤ c + d := by nlinarith
    have k : a * (c + d) ≤ d + a * c := by nlinarith
    calc a ^ 2 * ((c * z + d) * (c * z' + d)) ≤ a ^ 2 * ((c + d) * (c + d)) :=
          mul_le_mul_of_nonneg_left (mul_le_mul h h' p'.le (by linarith)) (sq_nonneg _)
      _ = (a * (c + d)) ^ 2 := by ring
      _ ≤ (d + a * c) ^ 2 := pow_le_pow_left₀ (by nlinarith) k 2
  | succ n ih =>
    obtain ⟨⟨⟨i1, i2⟩, i3, i4⟩, hs, hl⟩ := ih (c := d / 8) (d := c + d) (by linarith) (by linarith)
    have w := worstFour_symbols (4 * n) i1 i2
    have w' := worstFour_symbols (4 * n) i3 i4
    rw [Function.iterate_succ_apply', Function.iterate_succ_apply']
    refine ⟨⟨⟨w.1, w.2.1⟩, w'.1, w'.2.1⟩, ?_, ?_⟩
    · rw [show 4 * (n + 1) = 4 * n + 4 by ring, w.2.2, w'.2.2, hs]
    · rw [seen_worstFour hc hd i1 i3]
      refine hl.trans (le_of_eq ?_)
      have e : a * (c + d + a * (d / 8)) = d + a * c := by linear_combination (d / 8) * e1
      rw [← e, pow_succ, mul_pow]
      linear_combination (-(seen (d / 8) (c + d) (worstFour^[n] z) (worstFour^[n] z') / 8 *
        (5 + 2 * √6) ^ n * (c + d + a * (d / 8)) ^ 2)) * e2

/-! ## The best case -/

theorem golden_facts : ((1 + √5) / 2) ^ 2 = (1 + √5) / 2 + 1 ∧ ((1 + √5) / 2) ^ 2 = (3 + √5) / 2 ∧
    1.6 < (1 + √5) / 2 ∧ (1 + √5) / 2 < 1.7 := by
  have h : √5 ^ 2 = 5 := Real.sq_sqrt (by norm_num)
  have h1 : 2.2 < √5 := Real.lt_sqrt_of_sq_lt (by norm_num)
  have h2 : √5 < 2.3 := (Real.sqrt_lt' (by norm_num)).2 (by norm_num)
  exact ⟨by linear_combination h / 4, by linear_combination h / 4, by linarith, by linarith⟩

/-- Whatever the symbols are, there is a number with the same first ones that is not near. -/
theorem best_far (n : Nat) {x : ℝ} (hx0 : 0 < x) (hx1 : x < 1) (h : none ∉ symbolsR n x) {g : ℝ}
    (hg : g ^ 2 = g + 1) (hg0 : 1.6 < g) :
    ∃ y, 0 < y ∧ y < 1 ∧ symbolsR n y = symbolsR n x ∧ ∀ c d : ℝ, 0 ≤ c → 0 < d →
      49 / 100 ≤ seen c d x y * (g ^ 2) ^ n * (c + g * d) ^ 2 := by
  induction n generalizing x with
  | zero =>
    have key : ∀ y : ℝ, 0 < y → y < 1 → 49 / 100 ≤ |x - y| → ∀ c d : ℝ, 0 ≤ c → 0 < d →
        49 / 100 ≤ seen c d x y * (g ^ 2) ^ 0 * (c + g * d) ^ 2 := by
      intro y hy0 hy1 hxy c d hc hd
      have p : 0 < c * x + d := by positivity
      have p' : 0 < c * y + d := by positivity
      rw [pow_zero, mul_one, seen, div_mul_eq_mul_div, le_div_iff₀ (mul_pos p p')]
      have h1 : c * x + d ≤ c + g * d := by nlinarith
      have h2 : c * y + d ≤ c + g * d := by nlinarith
      have h3 : (c * x + d) * (c * y + d) ≤ (c + g * d) ^ 2 := by
        rw [sq]; exact mul_le_mul h1 h2 p'.le (by nlinarith)
      exact mul_le_mul hxy h3 (mul_pos p p').le (abs_nonneg _)
    by_cases hh : x < 1 / 2
    · exact ⟨99 / 100, by norm_num, by norm_num, rfl, key _ (by norm_num) (by norm_num)
        (by rw [abs_sub_comm]; exact le_trans (by linarith) (le_abs_self _))⟩
    · exact ⟨1 / 100, by norm_num, by norm_num, rfl, key _ (by norm_num) (by norm_num)
        (le_trans (by linarith) (le_abs_self _))⟩
  | succ n ih =>
    rw [symbolsR_succ] at h
    simp only [List.mem_cons, not_or] at h
    obtain ⟨hn, h⟩ := h
    have m := nextR_mem hx0 hx1
    obtain ⟨y, hy0, hy1, hy, hk⟩ := ih m.1 m.2 h
    rcases hr : symR x with _ | r
    · exact absurd hr.symm hn
    · obtain ⟨s1, s2, s3, s4⟩ := symR_undoOne r hy0 hy1
      refine ⟨undoOne r y, s3, s4, by rw [symbolsR_succ, symbolsR_succ, s1, s2, hr, hy], ?_⟩
      intro c d hc hd
      have ex := eq_undoOne hx0 hr
      have hv : 0 ≤ c + g * d := by nlinarith
      cases r with
      | Amplify =>
        have hk := hk (c / 2) d (by linarith) hd
        have h0 : 0 ≤ seen (c / 2) d (nextR x) y := seen_nonneg (by linarith) hd m.1 hy0
        have h2 : (c / 2 + g * d) ^ 2 ≤ (c + g * d) ^ 2 :=
          pow_le_pow_left₀ (by nlinarith) (by linarith) 2
        have h3 : 1 ≤ g ^ 2 / 2 := by nlinarith
        rw [ex, seen_amplify]
        obtain ⟨S, hS⟩ : ∃ S, S = seen (c / 2) d (nextR x) y * (g ^ 2) ^ n := ⟨_, rfl⟩
        have hS0 : 0 ≤ S := by rw [hS]; positivity
        rw [← hS] at hk
        calc (49 / 100 : ℝ) ≤ S * (c / 2 + g * d) ^ 2 := hk
          _ ≤ S * (c + g * d) ^ 2 := mul_le_mul_of_nonneg_left h2 hS0
          _ ≤ (g ^ 2 / 2) * (S * (c + g * d) ^ 2) := by
            have := mul_nonneg hS0 (sq_nonneg (c + g * d))
            nlinarith
          _ = _ := by rw [hS, pow_succ]; ring
      | Uncover =>
        have hk := hk d (c + d) hd.le (by linarith)
        rw [ex, seen_uncover hc hd m.1 hy0]
        refine hk.trans (le_of_eq ?_)
        have e : d + g * (c + d) = g * (c + g * d) := by linear_combination (-d) * hg
        rw [e, pow_succ]; ring

/-- Numbers that begin with `n` times `Uncover` are near each other. -/
theorem best_near (n : Nat) {x y : ℝ} (hx0 : 0 < x) (hx1 : x < 1) (hy0 : 0 < y) (hy1 : y < 1)
    (hx : symbolsR n x = List.replicate n (some .Uncover))
    (hy : symbolsR n y = List.replicate n (some .Uncover)) {g : ℝ}
    (hg : g ^ 2 = g + 1) (hg0 : 1.6 < g) {c d : ℝ} (hc : 0 ≤ c) (hd : 0 < d) (hcd : c ≤ d) :
    seen c d x y * (g ^ 2) ^ n * (c + g * d) ^ 2 ≤ (1 + g) ^ 2 := by
  induction n generalizing x y c d with
  | zero =>
    have p : 0 < c * x + d := by positivity
    have p' : 0 < c * y + d := by positivity
    have h1 := seen_le hc hd hx0 hx1 hy0 hy1
    have h0 := seen_nonneg hc hd hx0 hy0
    have h2 : (c + g * d) ^ 2 ≤ (1 + g) ^ 2 * (d * (c + d)) := by
      have : c + g * d ≤ (1 + g) * d := by linarith
      calc (c + g * d) ^ 2 ≤ ((1 + g) * d) ^ 2 := pow_le_pow_left₀ (by nlinarith) this 2
        _ = (1 + g) ^ 2 * (d * d) := by ring
        _ ≤ _ := mul_le_mul_of_nonneg_left (by nlinarith) (sq_nonneg _)
    rw [pow_zero, mul_one]
    calc seen c d x y * (c + g * d) ^ 2 ≤ seen c d x y * ((1 + g) ^ 2 * (d * (c + d))) :=
          mul_le_mul_of_nonneg_left h2 h0
      _ = (1 + g) ^ 2 * (seen c d x y * (d * (c + d))) := by ring
      _ ≤ (1 + g) ^ 2 * 1 := mul_le_mul_of_nonneg_left h1 (sq_nonneg _)
      _ = _ := mul_one _
  | succ n ih =>
    rw [symbolsR_succ, List.replicate_succ, List.cons.injEq] at hx hy
    have m := nextR_mem hx0 hx1
    have m' := nextR_mem hy0 hy1
    have ex := eq_undoOne hx0 hx.1
    have ey := eq_undoOne hy0 hy.1
    have hk := ih m.1 m.2 m'.1 m'.2 hx.2 hy.2 (c := d) (d := c + d) hd.le (by linarith) (by linarith)
    rw [ex, ey, seen_uncover hc hd m.1 m'.1]
    refine le_trans (le_of_eq ?_) hk
    have e : d + g * (c + d) = g * (c + g * d) := by linear_combination (-d) * hg
    rw [e, pow_succ]; ring

end Clarith
