import Verif.Properties.Reads
import Verif.Properties.ReadsCombine
import Verif.Properties.Reals
import Mathlib.Topology.MetricSpace.Basic
import Mathlib.Topology.Algebra.Field
import Mathlib.Topology.Instances.Real.Lemmas

/-! # Numbers near an irrational number have its primer and its first symbols -/

namespace Clarith

open Spec Out

theorem applyPrimerR_cast (p : Option Primer) (s : ℚ) : ((applyPrimer p s : ℚ) : ℝ) = applyPrimerR p s := by
  rcases p with _ | p <;> (try cases p) <;> simp [applyPrimer, applyPrimerR]

theorem near_mem {u : ℝ} (u0 : 0 < u) (u1 : u < 1) : ∃ δ : ℚ, 0 < δ ∧ ∀ w : ℚ, |(w : ℝ) - u| < δ →
    δ ≤ w ∧ w ≤ 1 - δ := by
  obtain ⟨δ, h1, h2⟩ := exists_rat_btwn (show (0 : ℝ) < min u (1 - u) / 2 by
    have : 0 < min u (1 - u) := lt_min u0 (by linarith)
    linarith)
  have h3 := min_le_left u (1 - u)
  have h4 := min_le_right u (1 - u)
  refine ⟨δ, by exact_mod_cast h1, fun w hw => ?_⟩
  obtain ⟨a, b⟩ := abs_lt.1 hw
  constructor
  · exact_mod_cast (by linarith : (δ : ℝ) ≤ w)
  · exact_mod_cast (by linarith : (w : ℝ) ≤ 1 - δ)

/-- Near an irrational number the first symbols stay clear. -/
theorem near_clear (m : Nat) : ∀ {u : ℝ}, 0 < u → u < 1 → Irrational u →
    ∃ (δ : ℚ) (ε : ℝ) (out : List Reduction), 0 < δ ∧ 0 < ε ∧ out.length = m ∧
      symbolsR m u = out.map some ∧ ∀ w : ℚ, |(w : ℝ) - u| < ε → Clear δ out w := by
  induction m with
  | zero =>
    intro u u0 u1 _
    obtain ⟨δ, h0, h⟩ := near_mem u0 u1
    exact ⟨δ, δ, [], h0, by exact_mod_cast h0, rfl, rfl, fun w hw => h w hw⟩
  | succ m ih =>
    intro u u0 u1 hu
    obtain ⟨δ0, d0, hd⟩ := near_mem u0 u1
    have hne : u ≠ 1 / 2 := fun e => hu ⟨1 / 2, by rw [e]; norm_num⟩
    rcases lt_or_gt_of_ne hne with hlt | hgt
    · obtain ⟨δ, ε, out, e0, e1, e2, e3, e4⟩ := ih (u := 2 * u) (by linarith) (by linarith) (by
        rintro ⟨q, hq⟩
        exact hu ⟨q / 2, by push_cast; linarith⟩)
      refine ⟨min δ0 δ, min δ0 (ε / 2), .Amplify :: out, lt_min d0 e0, lt_min (by exact_mod_cast d0)
        (by linarith), by simp [e2], ?_, fun w hw => ?_⟩
      · simp only [symbolsR, if_pos hlt, e3, List.map_cons]
      · obtain ⟨a, b⟩ := lt_min_iff.1 hw
        obtain ⟨c, d⟩ := hd w a
        refine ⟨⟨(min_le_left _ _).trans c, d.trans ?_⟩, (e4 _ ?_).mono (min_le_right _ _)⟩
        · have := min_le_left δ0 δ; linarith
        · push_cast
          rw [← mul_sub, abs_mul, abs_two]
          linarith
    · have hu' : 0 < 1 / u - 1 ∧ 1 / u - 1 < 1 := by
        constructor
        · rw [sub_pos, lt_div_iff₀ u0]; linarith
        · rw [sub_lt_iff_lt_add, div_lt_iff₀ u0]; linarith
      obtain ⟨δ, ε, out, e0, e1, e2, e3, e4⟩ := ih hu'.1 hu'.2 (by
        rintro ⟨q, hq⟩
        refine hu ⟨1 / (q + 1), ?_⟩
        push_cast
        rw [hq, sub_add_cancel, one_div_one_div])
      refine ⟨min δ0 δ, min δ0 (min (1 / 4) (ε / 8)), .Uncover :: out, lt_min d0 e0,
        lt_min (by exact_mod_cast d0) (lt_min (by norm_num) (by linarith)), by simp [e2], ?_,
        fun w hw => ?_⟩
      · simp only [symbolsR, if_neg (not_lt.2 hgt.le), if_pos hgt, e3, List.map_cons]
      · obtain ⟨a, b⟩ := lt_min_iff.1 hw
        obtain ⟨b, b'⟩ := lt_min_iff.1 b
        obtain ⟨c, d⟩ := hd w a
        refine ⟨⟨(min_le_left _ _).trans c, d.trans ?_⟩, (e4 _ ?_).mono (min_le_right _ _)⟩
        · have := min_le_left δ0 δ; linarith
        · have hw' : (1 / 4 : ℝ) < w := by have := (abs_lt.1 b).1; linarith
          have hw0 : (0 : ℝ) < w := by linarith
          push_cast
          have e : 1 / (w : ℝ) - 1 - (1 / u - 1) = (u - w) / (w * u) := by
            field_simp
            ring
          rw [e, abs_div, abs_of_pos (by positivity : 0 < (w : ℝ) * u), abs_sub_comm,
            div_lt_iff₀ (by positivity)]
          have : (1 / 8 : ℝ) ≤ w * u := by nlinarith
          nlinarith

/-- Near an irrational number the primer is the same, and the first symbols stay clear. -/
theorem near_value {v : ℝ} (hv : Irrational v) (m : Nat) :
    ∃ (p : Option Primer) (u : ℝ) (δ : ℚ) (ε : ℝ) (out : List Reduction), 0 < u ∧ u < 1 ∧
      v = applyPrimerR p u ∧ 0 < δ ∧ 0 < ε ∧ out.length = m ∧ symbolsR m u = out.map some ∧
      ∀ w : ℚ, |(w : ℝ) - v| < ε → ∃ u' : ℚ, w = applyPrimer p u' ∧ Clear δ out u' := by
  rcases decomposeR v with ⟨s, rfl⟩ | ⟨p, u, u0, u1, rfl⟩
  · exact (hv ⟨specialValue s, by cases s <;> simp [specialValue, specialValueR]⟩).elim
  · have hu : Irrational u := by
      rintro ⟨q, rfl⟩
      exact hv ⟨applyPrimer p q, applyPrimerR_cast p q⟩
    have hi : 1 < 1 / u := by rw [lt_div_iff₀ u0]; linarith
    obtain ⟨δ, ε, out, e0, e1, e2, e3, e4⟩ := near_clear m u0 u1 hu
    have inv : ∀ w : ℝ, |w - 1 / u| < min (1 / 2) (ε / 2) → |1 / w - u| < ε := by
      intro w hw
      obtain ⟨a, b⟩ := lt_min_iff.1 hw
      have hw0 : 1 / 2 < w := by have := (abs_lt.1 a).1; linarith
      have e : 1 / w - u = (1 / u - w) / (w * (1 / u)) := by
        have : w ≠ 0 := by linarith
        field_simp
      have h1 : 1 / 2 ≤ w * (1 / u) := by nlinarith
      rw [e, abs_div, abs_of_pos (by linarith : 0 < w * (1 / u)), abs_sub_comm, div_lt_iff₀ (by linarith)]
      nlinarith
    have hmin : 0 < min (1 / 2) (ε / 2) := lt_min (by norm_num) (by linarith)
    rcases p with _ | (_ | _ | _)
    · exact ⟨none, u, δ, ε, out, u0, u1, rfl, e0, e1, e2, e3, fun w hw => ⟨w, rfl, e4 w hw⟩⟩
    · refine ⟨some .Turn, u, δ, min (1 / 2) (ε / 2), out, u0, u1, rfl, e0, hmin, e2, e3, fun w hw =>
        ⟨1 / w, by simp [applyPrimer], e4 _ ?_⟩⟩
      push_cast
      exact inv w hw
    · refine ⟨some .Reflect, u, δ, ε, out, u0, u1, rfl, e0, e1, e2, e3, fun w hw =>
        ⟨-w, by simp [applyPrimer], e4 _ ?_⟩⟩
      simp only [applyPrimerR] at hw
      push_cast
      rw [← abs_neg]
      convert hw using 2
      ring
    · refine ⟨some .Ground, u, δ, min (1 / 2) (ε / 2), out, u0, u1, rfl, e0, hmin, e2, e3, fun w hw =>
        ⟨1 / -w, by simp [applyPrimer], e4 _ ?_⟩⟩
      push_cast
      refine inv (-w) ?_
      simp only [applyPrimerR] at hw
      rw [← abs_neg]
      convert hw using 2
      ring

theorem symbolsR_take (j k : Nat) (h : j ≤ k) (x : ℝ) : symbolsR j x = (symbolsR k x).take j := by
  induction j generalizing k x with
  | zero => simp [symbolsR]
  | succ j ih =>
    obtain ⟨k, rfl⟩ : ∃ i, k = i + 1 := ⟨k - 1, by omega⟩
    rw [symbolsR_succ, symbolsR_succ, List.take_succ_cons, ih k (by omega)]

theorem continuousAt_primer (p : Option Primer) {t : ℝ} (h0 : 0 < t) :
    ContinuousAt (applyPrimerR p) t := by
  have ht := h0.ne'
  have hinv : ContinuousAt (fun x : ℝ => 1 / x) t := continuousAt_const.div continuousAt_id ht
  rcases p with _ | (_ | _ | _)
  · exact continuousAt_id
  · exact hinv
  · exact continuousAt_id.neg
  · exact hinv.neg

/-- Numbers that share enough symbols with a number are near it. -/
theorem near_operand (p : Option Primer) {t : ℝ} (t0 : 0 < t) (t1 : t < 1) {ε : ℝ} (hε : 0 < ε) :
    ∃ K, ∀ k ≥ K, ∀ s : ℝ, 0 < s → s < 1 → symbolsR k s = symbolsR k t →
      |applyPrimerR p s - applyPrimerR p t| < ε := by
  obtain ⟨η, h0, h⟩ := Metric.continuousAt_iff.1 (continuousAt_primer p t0) ε hε
  obtain ⟨n, hn⟩ := exists_pow_lt_of_lt_one h0 (show (1 / 2 : ℝ) < 1 by norm_num)
  refine ⟨2 * n, fun k hk s s0 s1 hs => ?_⟩
  have h1 := C41_precision n s t s0 s1 t0 t1 (by
    rw [symbolsR_take _ _ hk, hs, ← symbolsR_take _ _ hk])
  rw [one_div_pow] at hn
  exact h (h1.trans hn)

theorem near_begins (p : Option Primer) {t : ℝ} (t0 : 0 < t) (t1 : t < 1) {ε : ℝ} (hε : 0 < ε) :
    ∃ K, ∀ l : List Reduction, K ≤ l.length → symbolsR l.length t = l.map some → ∀ s : ℚ, Begins l s →
      |((applyPrimer p s : ℚ) : ℝ) - applyPrimerR p t| < ε := by
  obtain ⟨K, hK⟩ := near_operand p t0 t1 hε
  refine ⟨K, fun l hl hs s ⟨s0, s1, h⟩ => ?_⟩
  rw [applyPrimerR_cast]
  exact hK _ hl s (by exact_mod_cast s0) (by exact_mod_cast s1) (by rw [symbolsR_cast, h, hs])

/-- A map with an irrational value is not constant. -/
theorem det_of_irrational {A B C D : ℚ} {x v : ℝ} (hd : (C : ℝ) * x + D ≠ 0)
    (hv : v = (A * x + B) / (C * x + D)) (hi : Irrational v) : A * D - B * C ≠ 0 := by
  intro h
  have h' : (A : ℝ) * D - B * C = 0 := by exact_mod_cast h
  by_cases hD : (D : ℝ) = 0
  · rw [hD, add_zero] at hd
    have hC : (C : ℝ) ≠ 0 := fun e => hd (by rw [e, zero_mul])
    refine hi ⟨A / C, ?_⟩
    have hx : x ≠ 0 := fun e => hd (by rw [e, mul_zero])
    have hB : (B : ℝ) = 0 := by
      rw [hD, mul_zero, zero_sub, neg_eq_zero] at h'
      exact (mul_eq_zero.1 h').resolve_right hC
    push_cast
    rw [hv, hB, hD, add_zero, add_zero]
    field_simp
  · refine hi ⟨B / D, ?_⟩
    push_cast
    rw [hv, div_eq_div_iff hD hd]
    linear_combination (-x) * h'

/-- The values of a map near a point. -/
theorem near_map {A B C D : ℚ} {x v : ℝ} (hd : (C : ℝ) * x + D ≠ 0)
    (hv : v = (A * x + B) / (C * x + D)) {ε : ℝ} (hε : 0 < ε) :
    ∃ η > 0, ∀ w : ℚ, |(w : ℝ) - x| < η → C * w + D ≠ 0 ∧
      |(((A * w + B) / (C * w + D) : ℚ) : ℝ) - v| < ε := by
  have c1 : ContinuousAt (fun x : ℝ => (C : ℝ) * x + D) x := by fun_prop
  have c2 : ContinuousAt (fun x : ℝ => ((A : ℝ) * x + B) / (C * x + D)) x :=
    ContinuousAt.div (by fun_prop) c1 hd
  obtain ⟨η1, h1, h2⟩ := Metric.continuousAt_iff.1 c1 _ (abs_pos.2 hd)
  obtain ⟨η2, h3, h4⟩ := Metric.continuousAt_iff.1 c2 ε hε
  refine ⟨min η1 η2, lt_min h1 h3, fun w hw => ?_⟩
  obtain ⟨a, b⟩ := lt_min_iff.1 hw
  constructor
  · intro e
    have e' : (C : ℝ) * w + D = 0 := by exact_mod_cast e
    have := h2 a
    rw [Real.dist_eq, e', zero_sub, abs_neg] at this
    exact lt_irrefl _ this
  · have := h4 b
    rw [Real.dist_eq, ← hv] at this
    push_cast
    exact this

/-- The values of a map of two operands near a point, with its denominator. -/
theorem near_map2 {a b c d e f g h : ℚ} {x y v : ℝ} (hd : (e : ℝ) * x * y + f * x + g * y + h ≠ 0)
    (hv : v = (a * x * y + b * x + c * y + d) / (e * x * y + f * x + g * y + h)) {ε : ℝ} (hε : 0 < ε) :
    ∃ η > 0, ∃ δ : ℚ, 0 < δ ∧ ∀ s t : ℚ, |(s : ℝ) - x| < η → |(t : ℝ) - y| < η →
      δ * (max 1 |s| * max 1 |t|) ≤ |e * s * t + f * s + g * t + h| ∧
      |(((a * s * t + b * s + c * t + d) / (e * s * t + f * s + g * t + h) : ℚ) : ℝ) - v| < ε := by
  have c1 : ContinuousAt (fun z : ℝ × ℝ => (e : ℝ) * z.1 * z.2 + f * z.1 + g * z.2 + h) (x, y) := by fun_prop
  have c2 : ContinuousAt (fun z : ℝ × ℝ => ((a : ℝ) * z.1 * z.2 + b * z.1 + c * z.2 + d) /
      (e * z.1 * z.2 + f * z.1 + g * z.2 + h)) (x, y) := ContinuousAt.div (by fun_prop) c1 hd
  have hD := abs_pos.2 hd
  obtain ⟨η1, h1, h2⟩ := Metric.continuousAt_iff.1 c1 (|(e : ℝ) * x * y + f * x + g * y + h| / 2)
    (by linarith)
  obtain ⟨η2, h3, h4⟩ := Metric.continuousAt_iff.1 c2 ε hε
  set D := |(e : ℝ) * x * y + f * x + g * y + h| with hDdef
  obtain ⟨δ, d1, d2⟩ := exists_rat_btwn (show (0 : ℝ) < D / 2 / ((2 + |x|) * (2 + |y|)) by positivity)
  refine ⟨min 1 (min η1 η2), lt_min one_pos (lt_min h1 h3), δ, by exact_mod_cast d1, fun s t hs ht => ?_⟩
  obtain ⟨s0, hs⟩ := lt_min_iff.1 hs
  obtain ⟨s1, s2⟩ := lt_min_iff.1 hs
  obtain ⟨t0, ht⟩ := lt_min_iff.1 ht
  obtain ⟨t1, t2⟩ := lt_min_iff.1 ht
  constructor
  · have k1 := h2 (x := ((s : ℝ), (t : ℝ))) (by rw [Prod.dist_eq]; exact max_lt s1 t1)
    rw [Real.dist_eq] at k1
    have k2 : D / 2 ≤ |(e : ℝ) * s * t + f * s + g * t + h| := by
      have := abs_sub_abs_le_abs_sub ((e : ℝ) * x * y + f * x + g * y + h)
        ((e : ℝ) * s * t + f * s + g * t + h)
      rw [abs_sub_comm] at k1
      simp only at k1
      linarith
    have m1 : max 1 |(s : ℝ)| ≤ 2 + |x| := by
      have := abs_sub_abs_le_abs_sub (s : ℝ) x
      have := abs_nonneg x
      exact max_le (by linarith) (by linarith)
    have m2 : max 1 |(t : ℝ)| ≤ 2 + |y| := by
      have := abs_sub_abs_le_abs_sub (t : ℝ) y
      have := abs_nonneg y
      exact max_le (by linarith) (by linarith)
    have m0 : 0 < max 1 |(s : ℝ)| * max 1 |(t : ℝ)| :=
      mul_pos (lt_max_of_lt_left one_pos) (lt_max_of_lt_left one_pos)
    rw [lt_div_iff₀ (by positivity)] at d2
    have key : (δ : ℝ) * (max 1 |(s : ℝ)| * max 1 |(t : ℝ)|) ≤
        |(e : ℝ) * s * t + f * s + g * t + h| := by
      refine le_trans ?_ (d2.le.trans k2)
      refine mul_le_mul_of_nonneg_left ?_ d1.le
      exact mul_le_mul m1 m2 (le_trans zero_le_one (le_max_left _ _)) (by positivity)
    exact_mod_cast key
  · have := h4 (x := ((s : ℝ), (t : ℝ))) (by rw [Prod.dist_eq]; exact max_lt s2 t2)
    rw [Real.dist_eq, ← hv] at this
    push_cast
    exact this

end Clarith
