import Verif.Proofs.Reals
import Mathlib.Tactic.FieldSimp
import Mathlib.Tactic.Positivity
import Mathlib.Tactic.LinearCombination

/-! # Three symbols bring two numbers four times nearer to each other -/

namespace Clarith

open Spec

section

variable {K : Type*} [Field K] [LinearOrder K] [IsStrictOrderedRing K]

/-- The number in (0,1) with first symbol `r`, if `y` is what is left after it. -/
def Spec.undoOne : Reduction → K → K
  | .Amplify, y => y / 2
  | .Uncover, y => 1 / (y + 1)

theorem Spec.undoOne_nonneg (r : Reduction) {y : K} (h : 0 ≤ y) : 0 ≤ undoOne r y := by
  cases r
  · exact div_nonneg h zero_le_two
  · exact one_div_nonneg.2 (by linarith)

/-- A map `(a*y+b)/(c*y+d)` brings numbers nearer to each other by the factor `|ad-bc|/d^2` at
least. -/
theorem contract_quotient {a b c d s y y' : K} (hc : 0 ≤ c) (hd : 0 < d)
    (h : s * |a * d - b * c| ≤ d ^ 2) (hy : 0 ≤ y) (hy' : 0 ≤ y') :
    s * |(a * y + b) / (c * y + d) - (a * y' + b) / (c * y' + d)| ≤ |y - y'| := by
  have e0 : d ≤ c * y + d := by nlinarith [mul_nonneg hc hy]
  have e1 : d ≤ c * y' + d := by nlinarith [mul_nonneg hc hy']
  have p0 : 0 < c * y + d := by linarith
  have p1 : 0 < c * y' + d := by linarith
  have e : (a * y + b) / (c * y + d) - (a * y' + b) / (c * y' + d) =
      (a * d - b * c) * (y - y') / ((c * y + d) * (c * y' + d)) := by
    rw [div_sub_div _ _ p0.ne' p1.ne']
    congr 1
    ring
  rw [e, abs_div, abs_mul, abs_of_pos (mul_pos p0 p1), ← mul_div_assoc, div_le_iff₀ (mul_pos p0 p1)]
  have h2 : d ^ 2 ≤ (c * y + d) * (c * y' + d) := by nlinarith
  calc s * (|a * d - b * c| * |y - y'|) = |y - y'| * (s * |a * d - b * c|) := by ring
    _ ≤ |y - y'| * ((c * y + d) * (c * y' + d)) :=
      mul_le_mul_of_nonneg_left (h.trans h2) (abs_nonneg _)

/-- One symbol does not bring numbers further apart. -/
theorem undoOne_contract (r : Reduction) {y y' : K} (hy : 0 ≤ y) (hy' : 0 ≤ y') :
    |undoOne r y - undoOne r y'| ≤ |y - y'| := by
  have key : ∀ a b c d : K, 0 ≤ c → 0 < d → 1 * |a * d - b * c| ≤ d ^ 2 →
      (∀ z : K, 0 ≤ z → undoOne r z = (a * z + b) / (c * z + d)) →
      |undoOne r y - undoOne r y'| ≤ |y - y'| := by
    intro a b c d hc hd h e
    rw [e y hy, e y' hy', ← one_mul |_ - _|]
    exact contract_quotient hc hd h hy hy'
  cases r
  · refine key 1 0 0 2 le_rfl two_pos (by norm_num [abs_of_pos]) fun z _ => ?_
    simp [undoOne]
  · refine key 0 1 1 1 zero_le_one one_pos (by norm_num) fun z _ => ?_
    simp [undoOne]

/-- Three symbols bring numbers nearer to each other by the factor 4 at least. -/
theorem undoOne_three (r1 r2 r3 : Reduction) {y y' : K} (hy : 0 ≤ y) (hy' : 0 ≤ y') :
    4 * |undoOne r1 (undoOne r2 (undoOne r3 y)) - undoOne r1 (undoOne r2 (undoOne r3 y'))|
      ≤ |y - y'| := by
  have key : ∀ a b c d : K, 0 ≤ c → 0 < d → 4 * |a * d - b * c| ≤ d ^ 2 →
      (∀ z : K, 0 ≤ z →
        undoOne r1 (undoOne r2 (undoOne r3 z)) = (a * z + b) / (c * z + d)) →
      4 * |undoOne r1 (undoOne r2 (undoOne r3 y)) - undoOne r1 (undoOne r2 (undoOne r3 y'))|
        ≤ |y - y'| := by
    intro a b c d hc hd h e
    rw [e y hy, e y' hy']
    exact contract_quotient hc hd h hy hy'
  cases r1 <;> cases r2 <;> cases r3
  · refine key 1 0 0 8 ?_ ?_ ?_ fun z hz => ?_
    · norm_num
    · norm_num
    · norm_num [abs_of_pos]
    · simp only [undoOne]; field_simp; ring
  · refine key 0 1 4 4 ?_ ?_ ?_ fun z hz => ?_
    · norm_num
    · norm_num
    · norm_num [abs_of_pos]
    · have : z + 1 ≠ 0 := by linarith
      have : 4 * z + 4 ≠ 0 := by linarith
      simp only [undoOne]; field_simp; ring
  · refine key 0 1 1 2 ?_ ?_ ?_ fun z hz => ?_
    · norm_num
    · norm_num
    · norm_num [abs_of_pos]
    · have : z / 2 + 1 ≠ 0 := by linarith
      have : z + 2 ≠ 0 := by linarith
      simp only [undoOne]; field_simp; ring
  · refine key 1 1 2 4 ?_ ?_ ?_ fun z hz => ?_
    · norm_num
    · norm_num
    · norm_num [abs_of_pos]
    · have : z + 1 ≠ 0 := by linarith
      have : 1 + (z + 1) ≠ 0 := by linarith
      have : 2 * z + 4 ≠ 0 := by linarith
      simp only [undoOne]; field_simp; ring
  · refine key 0 4 1 4 ?_ ?_ ?_ fun z hz => ?_
    · norm_num
    · norm_num
    · norm_num [abs_of_pos]
    · have : z / 2 / 2 + 1 ≠ 0 := by linarith
      have : z + 4 ≠ 0 := by linarith
      simp only [undoOne]; field_simp; ring
  · refine key 2 2 2 3 ?_ ?_ ?_ fun z hz => ?_
    · norm_num
    · norm_num
    · norm_num [abs_of_pos]
    · have : z + 1 ≠ 0 := by linarith
      have : 2 * z + 3 ≠ 0 := by linarith
      have : 1 + 2 * (z + 1) ≠ 0 := by linarith
      simp only [undoOne]; field_simp; ring
  · refine key 1 2 1 4 ?_ ?_ ?_ fun z hz => ?_
    · norm_num
    · norm_num
    · norm_num [abs_of_pos]
    · have : z / 2 + 1 ≠ 0 := by linarith
      have : z + 4 ≠ 0 := by linarith
      have : z + 2 ≠ 0 := by linarith
      simp only [undoOne]; field_simp; ring
  · refine key 1 2 2 3 ?_ ?_ ?_ fun z hz => ?_
    · norm_num
    · norm_num
    · norm_num [abs_of_pos]
    · have : z + 1 ≠ 0 := by linarith
      have : z + 2 ≠ 0 := by linarith
      have : 2 * z + 3 ≠ 0 := by linarith
      have : 1 + (z + 1) ≠ 0 := by linarith
      simp only [undoOne]; field_simp; ring

end

/-! ## Reals -/

theorem eq_undoOne {x : ℝ} (h0 : 0 < x) {r : Reduction} (h : symR x = some r) :
    x = undoOne r (nextR x) := by
  cases r
  · rw [nextR_lt (symR_eq_amplify h), undoOne]; ring
  · rw [nextR_gt (symR_eq_uncover h), undoOne]; field_simp; ring

/-- Two numbers with the same first symbol are not further apart than what is left of them. -/
theorem dist_step_one {x y : ℝ} (hx0 : 0 < x) (hx1 : x < 1) (hy0 : 0 < y) (hy1 : y < 1)
    (h : symR x = symR y) : x = y ∨ ∃ r, x = undoOne r (nextR x) ∧ y = undoOne r (nextR y) ∧
      0 < nextR x ∧ nextR x < 1 ∧ 0 < nextR y ∧ nextR y < 1 := by
  rcases hr : symR x with _ | r
  · exact .inl (by rw [symR_eq_none hr, symR_eq_none (h.symm.trans hr)])
  · have mx := nextR_mem hx0 hx1
    have my := nextR_mem hy0 hy1
    exact .inr ⟨r, eq_undoOne hx0 hr, eq_undoOne hy0 (h.symm.trans hr), mx.1, mx.2, my.1, my.2⟩

theorem dist_of_symbolsR_three (n : Nat) {x y : ℝ} (hx0 : 0 < x) (hx1 : x < 1) (hy0 : 0 < y)
    (hy1 : y < 1) (h : symbolsR (3 * n) x = symbolsR (3 * n) y) : 4 ^ n * |x - y| < 1 := by
  induction n generalizing x y with
  | zero => rw [pow_zero, one_mul, abs_lt]; constructor <;> linarith
  | succ n ih =>
    have e : 3 * (n + 1) = 3 * n + 1 + 1 + 1 := by ring
    rw [e] at h
    simp only [symbolsR_succ, List.cons.injEq] at h
    obtain ⟨h1, h2, h3, h4⟩ := h
    rcases dist_step_one hx0 hx1 hy0 hy1 h1 with rfl | ⟨r1, e1, e1', a1, a2, a3, a4⟩
    · simp
    rcases dist_step_one a1 a2 a3 a4 h2 with he | ⟨r2, e2, e2', b1, b2, b3, b4⟩
    · rw [e1, e1', he]; simp
    rcases dist_step_one b1 b2 b3 b4 h3 with he | ⟨r3, e3, e3', c1, c2, c3, c4⟩
    · rw [e1, e1', e2, e2', he]; simp
    have := ih c1 c2 c3 c4 h4
    have k := undoOne_three r1 r2 r3 c1.le c3.le
    rw [← e3, ← e3', ← e2, ← e2', ← e1, ← e1'] at k
    calc (4 : ℝ) ^ (n + 1) * |x - y| = 4 ^ n * (4 * |x - y|) := by ring
      _ ≤ 4 ^ n * |nextR (nextR (nextR x)) - nextR (nextR (nextR y))| :=
        mul_le_mul_of_nonneg_left k (by positivity)
      _ < 1 := this

end Clarith
