import Verif.Properties.Precision
import Verif.Properties.Reads

/-! # How a homographic map and the symbols of its value spread a distance -/

namespace Clarith

open Spec

/-! ## Distances grow by at most the square of the golden ratio with a symbol -/

/-- What is left of `u` after `j` symbols. -/
noncomputable def restR : Nat → ℝ → ℝ
  | 0, u => u
  | j + 1, u => restR j (nextR u)

/-- A number near enough to `u` has the same first symbols, when no remainder of `u` is near 1/2. -/
theorem same_symbols_seen (m : Nat) {u v e g c d : ℝ} (hu0 : 0 < u) (hu1 : u < 1) (hv0 : 0 < v)
    (hv1 : v < 1) (hg : g ^ 2 = g + 1) (hg0 : 1.6 < g) (hc : 0 ≤ c) (hd : 0 < d) (he : 0 < e)
    (hm : ∀ j < m, e ≤ |restR j u - 1 / 2|)
    (h : seen c d u v * (g ^ 2) ^ m * (c + g * d) ^ 2 < e) : symbolsR m u = symbolsR m v ∧
      ∀ j < m, |restR j u - restR j v| ≤ seen c d u v * (g ^ 2) ^ m * (c + g * d) ^ 2 := by
  induction m generalizing u v c d with
  | zero => exact ⟨rfl, fun j hj => by omega⟩
  | succ m ih =>
    have hs0 := seen_nonneg hc hd hu0 hv0
    have hg1 : 1 ≤ g ^ 2 := by nlinarith
    have hw : 0 ≤ seen c d u v * (c + g * d) ^ 2 := by positivity
    have near' : |u - v| ≤ seen c d u v * (g ^ 2) ^ (m + 1) * (c + g * d) ^ 2 := by
      have p : 0 < c * u + d := by positivity
      have p' : 0 < c * v + d := by positivity
      have h1 : c * u + d ≤ c + g * d := by nlinarith
      have h2 : c * v + d ≤ c + g * d := by nlinarith
      have h3 : (c * u + d) * (c * v + d) ≤ (c + g * d) ^ 2 := by
        rw [sq]; exact mul_le_mul h1 h2 p'.le (by nlinarith)
      calc |u - v| = seen c d u v * ((c * u + d) * (c * v + d)) := by
            rw [seen, div_mul_cancel₀ _ (mul_pos p p').ne']
        _ ≤ seen c d u v * (c + g * d) ^ 2 := mul_le_mul_of_nonneg_left h3 hs0
        _ ≤ seen c d u v * (c + g * d) ^ 2 * (g ^ 2) ^ (m + 1) :=
          le_mul_of_one_le_right hw (one_le_pow₀ hg1)
        _ = _ := by ring
    have near : |u - v| < e := lt_of_le_of_lt near' h
    have h0 := hm 0 (by omega)
    simp only [restR] at h0
    obtain ⟨r, hr, hr'⟩ : ∃ r, symR u = some r ∧ symR v = some r := by
      obtain ⟨n1, n2⟩ := abs_lt.1 near
      rcases lt_trichotomy u (1 / 2) with hlt | heq | hgt
      · rw [abs_of_neg (by linarith)] at h0
        exact ⟨.Amplify, symR_lt hlt, symR_lt (by linarith)⟩
      · rw [heq, sub_self, abs_zero] at h0; linarith
      · rw [abs_of_pos (by linarith)] at h0
        exact ⟨.Uncover, symR_gt hgt, symR_gt (by linarith)⟩
    have mu := nextR_mem hu0 hu1
    have mv := nextR_mem hv0 hv1
    have eu := eq_undoOne hu0 hr
    have ev := eq_undoOne hv0 hr'
    rw [symbolsR_succ, symbolsR_succ, hr, hr']
    have hm' : ∀ j < m, e ≤ |restR j (nextR u) - 1 / 2| := fun j hj => hm (j + 1) (by omega)
    have rest : ∀ c' d' : ℝ, 0 ≤ c' → 0 < d' →
        seen c' d' (nextR u) (nextR v) * (g ^ 2) ^ m * (c' + g * d') ^ 2 ≤
          seen c d u v * (g ^ 2) ^ (m + 1) * (c + g * d) ^ 2 →
        some r :: symbolsR m (nextR u) = some r :: symbolsR m (nextR v) ∧
        ∀ j < m + 1, |restR j u - restR j v| ≤
          seen c d u v * (g ^ 2) ^ (m + 1) * (c + g * d) ^ 2 := by
      intro c' d' hc' hd' hle
      obtain ⟨i1, i2⟩ := ih mu.1 mu.2 mv.1 mv.2 hc' hd' hm' (lt_of_le_of_lt hle h)
      refine ⟨by rw [i1], fun j hj => ?_⟩
      rcases j with _ | j
      · exact near'
      · exact (i2 j (by omega)).trans hle
    cases r with
    | Amplify =>
      refine rest (c / 2) d (by linarith) hd ?_
      conv_rhs => rw [eu, ev, seen_amplify]
      obtain ⟨T, hT⟩ : ∃ T, T = seen (c / 2) d (nextR u) (nextR v) * (g ^ 2) ^ m := ⟨_, rfl⟩
      have hT0 : 0 ≤ T := by
        have := seen_nonneg (by linarith : 0 ≤ c / 2) hd mu.1 mv.1
        rw [hT]; positivity
      have h2 : (c / 2 + g * d) ^ 2 ≤ (c + g * d) ^ 2 :=
        pow_le_pow_left₀ (by nlinarith) (by linarith) 2
      have h3 : 1 ≤ g ^ 2 / 2 := by nlinarith
      rw [← hT]
      calc T * (c / 2 + g * d) ^ 2 ≤ T * (c + g * d) ^ 2 := mul_le_mul_of_nonneg_left h2 hT0
        _ ≤ (g ^ 2 / 2) * (T * (c + g * d) ^ 2) := by
          have := mul_nonneg hT0 (sq_nonneg (c + g * d))
          nlinarith
        _ = _ := by rw [hT, pow_succ]; ring
    | Uncover =>
      refine rest d (c + d) hd.le (by linarith) (le_of_eq ?_)
      conv_rhs => rw [eu, ev, seen_uncover hc hd mu.1 mv.1]
      have e1 : d + g * (c + d) = g * (c + g * d) := by linear_combination (-d) * hg
      rw [e1, pow_succ]
      ring

/-- As above, for the numbers themselves. -/
theorem same_symbols (m : Nat) {u v e : ℝ} (hu0 : 0 < u) (hu1 : u < 1) (hv0 : 0 < v) (hv1 : v < 1)
    (he : 0 < e) (hm : ∀ j < m, e ≤ |restR j u - 1 / 2|)
    (h : |u - v| * ((3 + √5) / 2) ^ (m + 1) < e) : symbolsR m u = symbolsR m v ∧
      ∀ j < m, |restR j u - restR j v| ≤ |u - v| * ((3 + √5) / 2) ^ (m + 1) := by
  obtain ⟨g1, g2, g3, g4⟩ := golden_facts
  have key := same_symbols_seen m hu0 hu1 hv0 hv1 g1 g3 (c := 0) (d := 1) le_rfl one_pos he hm
  rw [g2, zero_add, mul_one, g2, seen, zero_mul, zero_mul, zero_add, mul_one, div_one, mul_assoc,
    ← pow_succ] at key
  exact key h

/-! ## Two operands with the same first symbols -/

/-- The number whose symbols are `l` and then those of `z`. -/
def undoQ (l : List Reduction) (z : ℚ) : ℚ := l.foldr undoOne z

theorem undoOne_cast (r : Reduction) (z : ℚ) : ((undoOne r z : ℚ) : ℝ) = undoOne r (z : ℝ) := by
  cases r <;> simp [undoOne]

theorem undoQ_begins (l : List Reduction) {z : ℚ} (h0 : 0 < z) (h1 : z < 1) :
    Begins l (undoQ l z) := by
  induction l with
  | nil => exact ⟨h0, h1, rfl⟩
  | cons r l ih =>
    obtain ⟨i0, i1, i2⟩ := ih
    obtain ⟨s1, s2, s3, s4⟩ := symR_undoOne r (z := (undoQ l z : ℝ)) (by exact_mod_cast i0)
      (by exact_mod_cast i1)
    rw [← undoOne_cast] at s1 s2 s3 s4
    refine ⟨by exact_mod_cast s3, by exact_mod_cast s4, ?_⟩
    rw [← symbolsR_cast, List.length_cons, List.map_cons, symbolsR_succ]
    show symR ((undoOne r (undoQ l z) : ℚ) : ℝ) :: symbolsR l.length (nextR ((undoOne r (undoQ l z) : ℚ) : ℝ)) = _
    rw [s1, s2, symbolsR_cast, i2]

theorem undoQ_apart (l : List Reduction) {z z' : ℚ} (h0 : 0 < z) (h1 : z < 1) (h0' : 0 < z')
    (h1' : z' < 1) {g c d : ℝ} (hg : g ^ 2 = g + 1) (hg0 : 1.6 < g) (hc : 0 ≤ c) (hd : 0 < d) :
    |(z : ℝ) - z'| ≤
      seen c d (undoQ l z) (undoQ l z') * (g ^ 2) ^ l.length * (c + g * d) ^ 2 := by
  have r0 : (0 : ℝ) < z := by exact_mod_cast h0
  have r1 : (z : ℝ) < 1 := by exact_mod_cast h1
  have r0' : (0 : ℝ) < z' := by exact_mod_cast h0'
  have r1' : (z' : ℝ) < 1 := by exact_mod_cast h1'
  induction l generalizing c d with
  | nil =>
    simp only [undoQ, List.foldr_nil, List.length_nil, pow_zero, mul_one]
    have p : 0 < c * (z : ℝ) + d := by positivity
    have p' : 0 < c * (z' : ℝ) + d := by positivity
    rw [seen, div_mul_eq_mul_div, le_div_iff₀ (mul_pos p p')]
    have h1 : c * (z : ℝ) + d ≤ c + g * d := by nlinarith
    have h2 : c * (z' : ℝ) + d ≤ c + g * d := by nlinarith
    have h3 : (c * (z : ℝ) + d) * (c * z' + d) ≤ (c + g * d) ^ 2 := by
      rw [sq]; exact mul_le_mul h1 h2 p'.le (by nlinarith)
    exact mul_le_mul_of_nonneg_left h3 (abs_nonneg _)
  | cons r l ih =>
    obtain ⟨b0, b1, -⟩ := undoQ_begins l h0 h1
    obtain ⟨b0', b1', -⟩ := undoQ_begins l h0' h1'
    have q0 : (0 : ℝ) < undoQ l z := by exact_mod_cast b0
    have q0' : (0 : ℝ) < undoQ l z' := by exact_mod_cast b0'
    have e : ∀ z, (undoQ (r :: l) z : ℝ) = undoOne r (undoQ l z : ℝ) := fun z => by
      rw [← undoOne_cast]; rfl
    rw [e, e, List.length_cons]
    cases r with
    | Amplify =>
      have hk := ih (c := c / 2) (d := d) (by linarith) hd
      obtain ⟨T, hT⟩ : ∃ T, T = seen (c / 2) d (undoQ l z) (undoQ l z') * (g ^ 2) ^ l.length := ⟨_, rfl⟩
      have hT0 : 0 ≤ T := by
        have := seen_nonneg (by linarith : 0 ≤ c / 2) hd q0 q0'
        rw [hT]; positivity
      have h2 : (c / 2 + g * d) ^ 2 ≤ (c + g * d) ^ 2 :=
        pow_le_pow_left₀ (by nlinarith) (by linarith) 2
      have h3 : 1 ≤ g ^ 2 / 2 := by nlinarith
      rw [seen_amplify]
      rw [← hT] at hk
      calc _ ≤ T * (c / 2 + g * d) ^ 2 := hk
        _ ≤ T * (c + g * d) ^ 2 := mul_le_mul_of_nonneg_left h2 hT0
        _ ≤ (g ^ 2 / 2) * (T * (c + g * d) ^ 2) := by
          have := mul_nonneg hT0 (sq_nonneg (c + g * d))
          nlinarith
        _ = _ := by rw [hT, pow_succ]; ring
    | Uncover =>
      have hk := ih (c := d) (d := c + d) hd.le (by linarith)
      rw [seen_uncover hc hd q0 q0']
      refine hk.trans (le_of_eq ?_)
      have e1 : d + g * (c + d) = g * (c + g * d) := by linear_combination (-d) * hg
      rw [e1, pow_succ]
      ring

/-- Whatever the symbols `l` are, two rationals that begin with them are this far apart. -/
theorem begins_apart (l : List Reduction) : ∃ t t', Begins l t ∧ Begins l t' ∧
    3 / 8 ≤ |(t : ℝ) - t'| * ((3 + √5) / 2) ^ l.length := by
  obtain ⟨g1, g2, g3, g4⟩ := golden_facts
  refine ⟨undoQ l (999 / 1000), undoQ l (1 / 1000), undoQ_begins l (by norm_num) (by norm_num),
    undoQ_begins l (by norm_num) (by norm_num), ?_⟩
  have h := undoQ_apart l (z := 999 / 1000) (z' := 1 / 1000) (by norm_num) (by norm_num) (by norm_num)
    (by norm_num) g1 g3 (c := 0) (d := 1) le_rfl one_pos
  rw [g2, zero_add, mul_one, g2, seen, zero_mul, zero_mul, zero_add, mul_one, div_one] at h
  have e : |(((999 / 1000 : ℚ) : ℝ)) - ((1 / 1000 : ℚ) : ℝ)| = 998 / 1000 := by
    push_cast; norm_num [abs_of_pos]
  rw [e] at h
  have h5 : √5 < 2.2361 := (Real.sqrt_lt' (by norm_num)).2 (by norm_num)
  have h6 : 0 ≤ |((undoQ l (999 / 1000) : ℚ) : ℝ) - ((undoQ l (1 / 1000) : ℚ) : ℝ)| *
    ((3 + √5) / 2) ^ l.length := by positivity
  nlinarith

theorem begins_near {l : List Reduction} {t t' : ℚ} (h : Begins l t) (h' : Begins l t') :
    8 / 9 * |(t : ℝ) - t'| * worstRate ^ l.length ≤ 1 := by
  have h4 := C83_worst_case l.length t t' (by exact_mod_cast h.1) (by exact_mod_cast h.2.1)
    (by exact_mod_cast h'.1) (by exact_mod_cast h'.2.1)
    (by rw [symbolsR_cast, symbolsR_cast, h.2.2, h'.2.2])
  have hp := worstRate_pos
  rw [← worstRate_pow, ← pow_mul, mul_comm 4, pow_mul, ← mul_pow] at h4
  exact (pow_le_one_iff_of_nonneg (by positivity) (by norm_num : (4 : Nat) ≠ 0)).1 h4

/-! ## The map between what is left of the operand and what is left of the result -/

/-- The map seen without the primers of operand and result. -/
theorem without_primers (p p' : Option Primer) (nx n dx d S : Int) (h1 : |nx| + |n| ≤ S)
    (h2 : |dx| + |d| ≤ S) : ∃ a b c e : Int, |a| + |b| ≤ S ∧ |c| + |e| ≤ S ∧
      |a * e - b * c| = |nx * d - n * dx| ∧ ∀ t u : ℚ, 0 < t → 0 < u →
        ((dx * applyPrimer p t + d ≠ 0 ∧
          (nx * applyPrimer p t + n) / (dx * applyPrimer p t + d) = applyPrimer p' u) ↔
        (c * t + e ≠ 0 ∧ (a * t + b) / (c * t + e) = u)) := by
  obtain ⟨a, b, c, e, g1, g2, g3, g4⟩ : ∃ a b c e : Int, |a| + |b| ≤ S ∧ |c| + |e| ≤ S ∧
      |a * e - b * c| = |nx * d - n * dx| ∧ ∀ t u : ℚ, 0 < t →
        ((dx * applyPrimer p t + d ≠ 0 ∧
          (nx * applyPrimer p t + n) / (dx * applyPrimer p t + d) = u) ↔
        (c * t + e ≠ 0 ∧ (a * t + b) / (c * t + e) = u)) := by
    have flip : ∀ (a b c e : Int) (t u : ℚ), 0 < t →
        ((c * (1 / t) + e ≠ 0 ∧ (a * (1 / t) + b) / (c * (1 / t) + e) = u) ↔
        (e * t + c ≠ 0 ∧ (b * t + a) / (e * t + c) = u)) := by
      intro a b c e t u ht
      have e1 : c * (1 / t) + e = (e * t + c) / t := by field_simp; ring
      have e2 : a * (1 / t) + b = (b * t + a) / t := by field_simp; ring
      rw [e1, e2, div_div_div_cancel_right₀ ht.ne', Ne, div_eq_zero_iff, or_iff_left ht.ne']
    rcases p with _ | _ | _ | _
    · exact ⟨nx, n, dx, d, h1, h2, rfl, fun t u ht => Iff.rfl⟩
    · refine ⟨n, nx, d, dx, by omega, by omega, ?_, fun t u ht => flip nx n dx d t u ht⟩
      rw [← abs_neg]; ring_nf
    · refine ⟨-nx, n, -dx, d, by rwa [abs_neg], by rwa [abs_neg], ?_, fun t u ht => ?_⟩
      · rw [← abs_neg]; ring_nf
      · simp only [applyPrimer, Int.cast_neg, mul_neg, neg_mul]
    · refine ⟨n, -nx, d, -dx, by rw [abs_neg]; omega, by rw [abs_neg]; omega, ?_, fun t u ht => ?_⟩
      · ring_nf
      · have := flip (-nx) n (-dx) d t u ht
        simp only [Int.cast_neg, neg_mul] at this
        simp only [applyPrimer, Int.cast_neg, mul_neg]
        exact this
  have inv : ∀ x y u : ℚ, 0 < u → ((y ≠ 0 ∧ x / y = 1 / u) ↔ (x ≠ 0 ∧ y / x = u)) := by
    intro x y u hu
    constructor
    · rintro ⟨hy, h⟩
      rw [div_eq_div_iff hy hu.ne'] at h
      have hx : x ≠ 0 := by
        rintro rfl
        rw [zero_mul, one_mul] at h
        exact hy h.symm
      exact ⟨hx, by rw [div_eq_iff hx]; linarith⟩
    · rintro ⟨hx, h⟩
      rw [div_eq_iff hx] at h
      have hy : y ≠ 0 := by rw [h]; exact mul_ne_zero hu.ne' hx
      exact ⟨hy, by rw [div_eq_div_iff hy hu.ne']; linarith⟩
  rcases p' with _ | _ | _ | _
  · exact ⟨a, b, c, e, g1, g2, g3, fun t u ht hu => g4 t _ ht⟩
  · refine ⟨c, e, a, b, g2, g1, ?_, fun t u ht hu => (g4 t _ ht).trans (inv _ _ _ hu)⟩
    rw [← g3, ← abs_neg]; ring_nf
  · refine ⟨-a, -b, c, e, by rwa [abs_neg, abs_neg], g2, ?_, fun t u ht hu => (g4 t _ ht).trans ?_⟩
    · rw [← g3, ← abs_neg]; ring_nf
    · simp only [applyPrimer]
      refine and_congr_right fun _ => ?_
      rw [show ((-a : Int) * t + (-b : Int)) = -(a * t + b) by push_cast; ring, neg_div]
      exact neg_eq_iff_eq_neg.symm
  · refine ⟨-c, -e, a, b, by rwa [abs_neg, abs_neg], g1, ?_, fun t u ht hu => (g4 t _ ht).trans ?_⟩
    · rw [← g3]; ring_nf
    · simp only [applyPrimer]
      rw [← inv _ _ _ hu]
      have e1 : ((-c : Int) * t + (-e : Int)) = -(c * t + e) := by push_cast; ring
      rw [e1, neg_ne_zero, div_neg, neg_eq_iff_eq_neg]

/-- The distance of two values of the map. -/
theorem values_apart {a b c e t t' : ℝ} (h : c * t + e ≠ 0) (h' : c * t' + e ≠ 0) :
    |(a * t + b) / (c * t + e) - (a * t' + b) / (c * t' + e)| * (|c * t + e| * |c * t' + e|) =
      |a * e - b * c| * |t - t'| := by
  rw [← abs_mul, ← abs_mul, ← abs_mul]
  congr 1
  rw [div_sub_div _ _ h h', div_mul_cancel₀ _ (mul_ne_zero h h')]
  ring

end Clarith
