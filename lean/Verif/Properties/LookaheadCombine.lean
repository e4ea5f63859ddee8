import Verif.Properties.Lookahead
import Verif.Properties.ReadsCombine

/-! # C88 How far `Number::combine` looks ahead: symbols read for symbols given

The counterpart of C87 for two operands.  For a map with coefficients of size `S`, `i` symbols of each
operand are enough for `m` symbols of the result when the result keeps away by `e` from the numbers where
its symbols change, the numerator or the denominator is at least `f` (relative to the size of the operands),
and

    (5 · S · ((3+√5)/2)^(m+1))^4 < (e · f)^4 · (5 + 2√6)^i
-/

namespace Clarith

open Spec Out

/-! ## Proof -/

namespace Lookahead

/-- An operand with primer `p` is `up / down`. -/
def up : Option Primer → ℚ → ℚ
  | none, s => s
  | some .Turn, _ => 1
  | some .Reflect, s => -s
  | some .Ground, _ => -1

/-- An operand with primer `p` is `up / down`. -/
def down : Option Primer → ℚ → ℚ
  | none, _ => 1
  | some .Turn, s => s
  | some .Reflect, _ => 1
  | some .Ground, s => s

theorem down_pos (p : Option Primer) {s : ℚ} (h0 : 0 < s) : 0 < down p s := by
  rcases p with _ | _ | _ | _ <;> simp [down, h0]

theorem up_down (p : Option Primer) {s : ℚ} (h0 : 0 < s) : applyPrimer p s * down p s = up p s := by
  rcases p with _ | _ | _ | _ <;> simp [down, up, applyPrimer, h0.ne']

theorem size_down (p : Option Primer) {s : ℚ} (h0 : 0 < s) (h1 : s < 1) :
    max 1 |applyPrimer p s| * down p s = 1 := by
  have h : 1 ≤ 1 / s := by rw [le_div_iff₀ h0]; linarith
  rcases p with _ | _ | _ | _ <;> simp only [down, applyPrimer, abs_neg]
  · rw [abs_of_pos h0, max_eq_left h1.le, mul_one]
  · rw [abs_of_pos (by positivity), max_eq_right h, one_div_mul_cancel h0.ne']
  · rw [abs_of_pos h0, max_eq_left h1.le, mul_one]
  · rw [abs_of_pos (by positivity), max_eq_right h, one_div_mul_cancel h0.ne']

theorem up_down_le (p : Option Primer) {s : ℚ} (h0 : 0 < s) (h1 : s < 1) :
    |up p s| ≤ 1 ∧ |down p s| ≤ 1 := by
  rcases p with _ | _ | _ | _ <;> simp [down, up, abs_of_pos h0, h1.le]

theorem up_down_near (p : Option Primer) (s s' : ℚ) :
    |up p s - up p s'| ≤ |s - s'| ∧ |down p s - down p s'| ≤ |s - s'| := by
  rcases p with _ | _ | _ | _ <;> simp [down, up]
  rw [neg_add_eq_sub, abs_sub_comm]

/-- A bilinear form of two operands, times the denominators of the operands. -/
def form (px py : Option Primer) (a b c e : Int) (s t : ℚ) : ℚ :=
  a * (up px s * up py t) + b * (up px s * down py t) + c * (down px s * up py t) +
    e * (down px s * down py t)

theorem form_eq (px py : Option Primer) (a b c e : Int) {s t : ℚ} (hs : 0 < s) (ht : 0 < t) :
    form px py a b c e s t = (a * applyPrimer px s * applyPrimer py t + b * applyPrimer px s +
      c * applyPrimer py t + e) * (down px s * down py t) := by
  rw [form, ← up_down px hs, ← up_down py ht]
  ring

theorem product_near {x x' y y' d d' : ℚ} (hy : |y| ≤ 1) (hx' : |x'| ≤ 1)
    (h1 : |x - x'| ≤ d) (h2 : |y - y'| ≤ d') : |x * y - x' * y'| ≤ d + d' := by
  have e : x * y - x' * y' = (x - x') * y + x' * (y - y') := by ring
  rw [e]
  refine (abs_add_le _ _).trans ?_
  rw [abs_mul, abs_mul]
  have a1 := mul_le_of_le_one_right (abs_nonneg (x - x')) hy
  have a2 := mul_le_of_le_one_left (abs_nonneg (y - y')) hx'
  linarith

theorem form_near (px py : Option Primer) (a b c e : Int) {S : Int}
    (hS : |a| + |b| + |c| + |e| ≤ S) {s t s' t' : ℚ} (ht : 0 < t) (ht1 : t < 1)
    (hs' : 0 < s') (hs1' : s' < 1) :
    |form px py a b c e s t - form px py a b c e s' t'| ≤ S * (|s - s'| + |t - t'|) := by
  obtain ⟨u1, d1⟩ := up_down_near px s s'
  obtain ⟨u2, d2⟩ := up_down_near py t t'
  obtain ⟨y1, y2⟩ := up_down_le py ht ht1
  obtain ⟨x1, x2⟩ := up_down_le px hs' hs1'
  have p1 := product_near y1 x1 u1 u2
  have p2 := product_near y2 x1 u1 d2
  have p3 := product_near y1 x2 d1 u2
  have p4 := product_near y2 x2 d1 d2
  obtain ⟨w, hw⟩ : ∃ w, w = |s - s'| + |t - t'| := ⟨_, rfl⟩
  rw [← hw] at p1 p2 p3 p4 ⊢
  have hw0 : 0 ≤ w := by rw [hw]; positivity
  have key : form px py a b c e s t - form px py a b c e s' t' =
      a * (up px s * up py t - up px s' * up py t') +
      b * (up px s * down py t - up px s' * down py t') +
      c * (down px s * up py t - down px s' * up py t') +
      e * (down px s * down py t - down px s' * down py t') := by
    simp only [form]; ring
  rw [key]
  have m : ∀ (k : Int) {z : ℚ}, |z| ≤ w → |(k : ℚ) * z| ≤ |(k : ℚ)| * w := by
    intro k z hz
    rw [abs_mul]
    exact mul_le_mul_of_nonneg_left hz (abs_nonneg _)
  have q1 := m a p1
  have q2 := m b p2
  have q3 := m c p3
  have q4 := m e p4
  have r1 := abs_add_le ((a : ℚ) * (up px s * up py t - up px s' * up py t') +
      b * (up px s * down py t - up px s' * down py t') +
      c * (down px s * up py t - down px s' * up py t'))
      (e * (down px s * down py t - down px s' * down py t'))
  have r2 := abs_add_le ((a : ℚ) * (up px s * up py t - up px s' * up py t') +
      b * (up px s * down py t - up px s' * down py t'))
      (c * (down px s * up py t - down px s' * up py t'))
  have r3 := abs_add_le ((a : ℚ) * (up px s * up py t - up px s' * up py t'))
      (b * (up px s * down py t - up px s' * down py t'))
  have hS' : |(a : ℚ)| + |(b : ℚ)| + |(c : ℚ)| + |(e : ℚ)| ≤ S := by exact_mod_cast hS
  have := mul_le_mul_of_nonneg_right hS' hw0
  linarith

/-- Numerator and denominator of what is left of the result after its primer. -/
def result : Option Primer → ℚ → ℚ → ℚ × ℚ
  | none, N, D => (N, D)
  | some .Turn, N, D => (D, N)
  | some .Reflect, N, D => (-N, D)
  | some .Ground, N, D => (-D, N)

theorem result_iff (p' : Option Primer) (N D : ℚ) {u : ℚ} (hu : 0 < u) :
    (D ≠ 0 ∧ N / D = applyPrimer p' u) ↔
      ((result p' N D).2 ≠ 0 ∧ (result p' N D).1 / (result p' N D).2 = u) := by
  have inv : ∀ x y u : ℚ, 0 < u → ((y ≠ 0 ∧ x / y = 1 / u) ↔ (x ≠ 0 ∧ y / x = u)) := by
    intro x y u hu
    constructor
    · rintro ⟨hy, h⟩
      rw [div_eq_div_iff hy hu.ne'] at h
      have hx : x ≠ 0 := by
        rintro rfl
        rw [zero_mul, one_mul] at h
        exact hy h.symm
      exact ⟨hx, by rw [div_eq_iff hx]; linarith⟩
    · rintro ⟨hx, h⟩
      rw [div_eq_iff hx] at h
      have hy : y ≠ 0 := by rw [h]; exact mul_ne_zero hu.ne' hx
      exact ⟨hy, by rw [div_eq_div_iff hy hu.ne']; linarith⟩
  rcases p' with _ | _ | _ | _
  · exact Iff.rfl
  · exact inv N D u hu
  · simp only [applyPrimer, result]
    refine and_congr_right fun _ => ?_
    rw [neg_div]
    exact neg_eq_iff_eq_neg.symm
  · simp only [applyPrimer, result]
    rw [← inv _ _ _ hu, neg_ne_zero, div_neg, neg_eq_iff_eq_neg]

theorem result_max (p' : Option Primer) (N D : ℚ) :
    max |(result p' N D).1| |(result p' N D).2| = max |N| |D| := by
  rcases p' with _ | _ | _ | _ <;> simp only [result, abs_neg]
  · exact max_comm _ _
  · exact max_comm _ _

theorem result_near (p' : Option Primer) {N D N' D' w : ℚ} (h1 : |N - N'| ≤ w) (h2 : |D - D'| ≤ w) :
    |(result p' N D).1 - (result p' N' D').1| ≤ w ∧
      |(result p' N D).2 - (result p' N' D').2| ≤ w := by
  rcases p' with _ | _ | _ | _ <;> simp only [result]
  · exact ⟨h1, h2⟩
  · exact ⟨h2, h1⟩
  · exact ⟨by rw [neg_sub_neg, abs_sub_comm]; exact h1, h2⟩
  · exact ⟨by rw [neg_sub_neg, abs_sub_comm]; exact h2, h1⟩

theorem result_min (p' : Option Primer) (N D : ℚ) :
    min |(result p' N D).1| |(result p' N D).2| ≤ |D| := by
  rcases p' with _ | _ | _ | _ <;> simp only [result, abs_neg]
  · exact min_le_right _ _
  · exact min_le_left _ _
  · exact min_le_right _ _
  · exact min_le_left _ _

/-- Numbers whose remainders keep away from 1/2 keep away from 0 and 1 as well. -/
theorem clear_of_rest (m : Nat) {δ v : ℚ} (hδ : 0 < δ) (h0 : δ ≤ v) (h1 : v ≤ 1 - δ)
    (h : ∀ j < m, (δ : ℝ) ≤ |restR j v - 1 / 2|) :
    ∃ out : List Reduction, out.map some = symbols m v ∧ Clear δ out v := by
  induction m generalizing v with
  | zero => exact ⟨[], rfl, h0, h1⟩
  | succ m ih =>
    have hv := h 0 (by omega)
    simp only [restR] at hv
    have hv' : δ ≤ |v - 1 / 2| := by
      have : ((δ : ℚ) : ℝ) ≤ ((|v - 1 / 2| : ℚ) : ℝ) := by push_cast; exact hv
      exact_mod_cast this
    rcases lt_trichotomy v (1 / 2) with hlt | heq | hgt
    · rw [abs_of_neg (by linarith)] at hv'
      have e : next v = 2 * v := by simp only [next, if_pos hlt]
      have hr : ∀ j < m, (δ : ℝ) ≤ |restR j ((2 * v : ℚ) : ℝ) - 1 / 2| := by
        intro j hj
        have := h (j + 1) (by omega)
        rwa [restR, nextR_cast, e] at this
      obtain ⟨out, o1, o2⟩ := ih (by linarith) (by linarith) hr
      exact ⟨.Amplify :: out, by rw [symbols, if_pos hlt, ← o1, List.map_cons], ⟨h0, h1⟩, o2⟩
    · rw [heq, sub_self, abs_zero] at hv'; linarith
    · rw [abs_of_pos (by linarith)] at hv'
      have hn : ¬ v < 1 / 2 := not_lt.2 hgt.le
      have v0 : 0 < v := by linarith
      have e : next v = 1 / v - 1 := by simp only [next, if_neg hn, if_pos hgt]
      have hr : ∀ j < m, (δ : ℝ) ≤ |restR j ((1 / v - 1 : ℚ) : ℝ) - 1 / 2| := by
        intro j hj
        have := h (j + 1) (by omega)
        rwa [restR, nextR_cast, e] at this
      have b1 : δ ≤ 1 / v - 1 := by
        rw [le_sub_iff_add_le, le_div_iff₀ v0]; nlinarith
      have b2 : 1 / v - 1 ≤ 1 - δ := by
        rw [sub_le_iff_le_add, div_le_iff₀ v0]; nlinarith
      obtain ⟨out, o1, o2⟩ := ih b1 b2 hr
      exact ⟨.Uncover :: out, by rw [symbols, if_neg hn, if_pos hgt, ← o1, List.map_cons],
        ⟨h0, h1⟩, o2⟩

end Lookahead

section

variable {px py p' : Option Primer} {nxy nx ny n dxy dx dy d S : Int} {lx ly : List Reduction} {m : Nat}

open Lookahead

/-- The symbols `lx`, `ly` of the operands are enough for the primer and `m` symbols of the result, if
there are enough of them. -/
theorem C88_at_most (h1 : |nxy| + |nx| + |ny| + |n| ≤ S) (h2 : |dxy| + |dx| + |dy| + |d| ≤ S)
    {s t x y u e f : ℚ} (hs : Begins lx s) (ht : Begins ly t) (ex : x = applyPrimer px s)
    (ey : y = applyPrimer py t) (hd : dxy * x * y + dx * x + dy * y + d ≠ 0)
    (hu : (nxy * x * y + nx * x + ny * y + n) / (dxy * x * y + dx * x + dy * y + d) = applyPrimer p' u)
    (hm : Undisturbed e m u) (hf0 : 0 < f)
    (hf : f * (max 1 |x| * max 1 |y|) ≤
      max |nxy * x * y + nx * x + ny * y + n| |dxy * x * y + dx * x + dy * y + d|)
    (hx : (5 * (S : ℝ) * ((3 + √5) / 2) ^ (m + 1)) ^ 4 <
      ((e : ℝ) * f) ^ 4 * (5 + 2 * √6) ^ lx.length)
    (hy : (5 * (S : ℝ) * ((3 + √5) / 2) ^ (m + 1)) ^ 4 <
      ((e : ℝ) * f) ^ 4 * (5 + 2 * √6) ^ ly.length) :
    ∃ out : List Reduction, out.map some = symbols m u ∧
      ClearlySettled px py nxy nx ny n dxy dx dy d lx ly p' out := by
  subst ex ey
  have hm' := hm
  obtain ⟨he, heu, hue, -⟩ := hm
  have hu0 : 0 < u := lt_of_lt_of_le he heu
  have hu1 : u < 1 := by linarith
  -- the forms
  obtain ⟨N, hN⟩ : ∃ N : ℚ → ℚ → ℚ, N = form px py nxy nx ny n := ⟨_, rfl⟩
  obtain ⟨D, hD⟩ : ∃ D : ℚ → ℚ → ℚ, D = form px py dxy dx dy d := ⟨_, rfl⟩
  have value : ∀ s t v : ℚ, Begins lx s → Begins ly t → 0 < v →
      ((dxy * applyPrimer px s * applyPrimer py t + dx * applyPrimer px s + dy * applyPrimer py t + d ≠ 0 ∧
        (nxy * applyPrimer px s * applyPrimer py t + nx * applyPrimer px s + ny * applyPrimer py t + n) /
        (dxy * applyPrimer px s * applyPrimer py t + dx * applyPrimer px s + dy * applyPrimer py t + d) =
          applyPrimer p' v) ↔
      ((result p' (N s t) (D s t)).2 ≠ 0 ∧
        (result p' (N s t) (D s t)).1 / (result p' (N s t) (D s t)).2 = v)) := by
    intro s t v hs ht hv
    rw [← result_iff p' _ _ hv, hN, hD, form_eq px py _ _ _ _ hs.1 ht.1, form_eq px py _ _ _ _ hs.1 ht.1]
    have hz : down px s * down py t ≠ 0 := (mul_pos (down_pos px hs.1) (down_pos py ht.1)).ne'
    rw [mul_div_mul_right _ _ hz, mul_ne_zero_iff_right hz]
  obtain ⟨q1, q2⟩ := (value s t u hs ht hu0).1 ⟨hd, hu⟩
  obtain ⟨A, hA⟩ : ∃ A, A = (result p' (N s t) (D s t)).1 := ⟨_, rfl⟩
  obtain ⟨B, hB⟩ : ∃ B, B = (result p' (N s t) (D s t)).2 := ⟨_, rfl⟩
  rw [← hA, ← hB] at q2
  rw [← hB] at q1
  have hAB : A = u * B := by rw [← q2, div_mul_cancel₀ _ q1]
  have hBf : f ≤ |B| := by
    have hz : 0 < down px s * down py t := mul_pos (down_pos px hs.1) (down_pos py ht.1)
    have e1 : max |N s t| |D s t| = max |nxy * applyPrimer px s * applyPrimer py t +
        nx * applyPrimer px s + ny * applyPrimer py t + n| |dxy * applyPrimer px s * applyPrimer py t +
        dx * applyPrimer px s + dy * applyPrimer py t + d| * (down px s * down py t) := by
      rw [hN, hD, form_eq px py _ _ _ _ hs.1 ht.1, form_eq px py _ _ _ _ hs.1 ht.1,
        abs_mul _ (down px s * down py t), abs_mul _ (down px s * down py t), abs_of_pos hz,
        max_mul_of_nonneg _ _ hz.le]
    have e2 : f * (max 1 |applyPrimer px s| * max 1 |applyPrimer py t|) * (down px s * down py t) = f := by
      have k1 := size_down px hs.1 hs.2.1
      have k2 := size_down py ht.1 ht.2.1
      calc _ = f * ((max 1 |applyPrimer px s| * down px s) * (max 1 |applyPrimer py t| * down py t)) := by
            ring
        _ = f := by rw [k1, k2, mul_one, mul_one]
    have e3 := mul_le_mul_of_nonneg_right hf hz.le
    rw [e2, ← e1, ← result_max p', ← hA, ← hB] at e3
    refine e3.trans (max_le ?_ le_rfl)
    rw [hAB, abs_mul, abs_of_pos hu0]
    exact mul_le_of_le_one_left (abs_nonneg _) hu1.le
  -- the size of the room
  have hp := worstRate_pos
  obtain ⟨G, hG⟩ : ∃ G, G = ((3 + √5) / 2) ^ (m + 1) := ⟨_, rfl⟩
  have hGm : 2.6 < G := by
    have h22 : 2.2 < √5 := Real.lt_sqrt_of_sq_lt (by norm_num)
    rw [hG, pow_succ]
    have : 1 ≤ ((3 + √5) / 2) ^ m := one_le_pow₀ (by linarith)
    nlinarith
  rw [← hG, ← worstRate_pow, ← pow_mul, mul_comm 4, pow_mul, ← mul_pow] at hx hy
  have re : (0 : ℝ) < e := by exact_mod_cast he
  have rf : (0 : ℝ) < f := by exact_mod_cast hf0
  have hx' : 5 * (S : ℝ) * G < e * f * worstRate ^ lx.length :=
    lt_of_pow_lt_pow_left₀ 4 (by positivity) hx
  have hy' : 5 * (S : ℝ) * G < e * f * worstRate ^ ly.length :=
    lt_of_pow_lt_pow_left₀ 4 (by positivity) hy
  have hS0 : (0 : ℝ) ≤ S := by
    have : 0 ≤ S := le_trans (by positivity) h1
    exact_mod_cast this
  obtain ⟨W, hW⟩ : ∃ W, W = min (worstRate ^ lx.length) (worstRate ^ ly.length) := ⟨_, rfl⟩
  have hW0 : 0 < W := by rw [hW]; exact lt_min (pow_pos hp _) (pow_pos hp _)
  have hWx : W ≤ worstRate ^ lx.length := by rw [hW]; exact min_le_left _ _
  have hWy : W ≤ worstRate ^ ly.length := by rw [hW]; exact min_le_right _ _
  have hW' : 5 * (S : ℝ) * G < e * f * W := by
    rw [hW, mul_min_of_nonneg _ _ (by positivity)]
    exact lt_min hx' hy'
  obtain ⟨κ, hκ⟩ : ∃ κ, κ = 5 * (S : ℝ) * G / (f * W) := ⟨_, rfl⟩
  have hκe : κ < e := by
    rw [hκ, div_lt_iff₀ (by positivity)]; linarith
  have hκ0 : 0 ≤ κ := by rw [hκ]; positivity
  obtain ⟨δ', hδ0, hδ1⟩ := exists_rat_btwn (sub_pos.2 hκe)
  have hδ'0 : 0 < δ' := by exact_mod_cast hδ0
  have reu : (e : ℝ) ≤ u := by exact_mod_cast heu
  have rue : (u : ℝ) ≤ 1 - e := by exact_mod_cast hue
  have ru0 : (0 : ℝ) < u := by exact_mod_cast hu0
  have ru1 : (u : ℝ) < 1 := by exact_mod_cast hu1
  -- every other pair of operands
  have main : ∀ s' t', Begins lx s' → Begins ly t' → 9 / 10 * f ≤ |(result p' (N s' t') (D s' t')).2| ∧
      |((((result p' (N s' t') (D s' t')).1 / (result p' (N s' t') (D s' t')).2 : ℚ)) : ℝ) - u| * G ≤ κ := by
    intro s' t' hs' ht'
    obtain ⟨A', hA'⟩ : ∃ A', A' = (result p' (N s' t') (D s' t')).1 := ⟨_, rfl⟩
    obtain ⟨B', hB'⟩ : ∃ B', B' = (result p' (N s' t') (D s' t')).2 := ⟨_, rfl⟩
    rw [← hA', ← hB']
    have bx := begins_near hs' hs
    have by' := begins_near ht' ht
    obtain ⟨w, hw⟩ : ∃ w, w = |s' - s| + |t' - t| := ⟨_, rfl⟩
    have hw0 : 0 ≤ w := by rw [hw]; positivity
    have rw0 : (0 : ℝ) ≤ w := by exact_mod_cast hw0
    obtain ⟨n1, n2⟩ := result_near p'
      (form_near px py nxy nx ny n h1 ht'.1 ht'.2.1 hs.1 hs.2.1 (s := s') (t' := t))
      (form_near px py dxy dx dy d h2 ht'.1 ht'.2.1 hs.1 hs.2.1 (s := s') (t' := t))
    rw [← hN, ← hD, ← hA, ← hA', ← hw] at n1
    rw [← hN, ← hD, ← hB, ← hB', ← hw] at n2
    have r1 : |(A' : ℝ) - A| ≤ S * w := by
      have : ((|A' - A| : ℚ) : ℝ) ≤ ((S * w : ℚ) : ℝ) := by exact_mod_cast n1
      push_cast at this; exact this
    have r2 : |(B' : ℝ) - B| ≤ S * w := by
      have : ((|B' - B| : ℚ) : ℝ) ≤ ((S * w : ℚ) : ℝ) := by exact_mod_cast n2
      push_cast at this; exact this
    have ww : (w : ℝ) * W ≤ 9 / 4 := by
      have e1 : (w : ℝ) = |(s' : ℝ) - s| + |(t' : ℝ) - t| := by rw [hw]; push_cast; rfl
      have e2 : |(s' : ℝ) - s| * W ≤ |(s' : ℝ) - s| * worstRate ^ lx.length :=
        mul_le_mul_of_nonneg_left hWx (abs_nonneg _)
      have e3 : |(t' : ℝ) - t| * W ≤ |(t' : ℝ) - t| * worstRate ^ ly.length :=
        mul_le_mul_of_nonneg_left hWy (abs_nonneg _)
      rw [e1, add_mul]
      linarith
    have small : (S : ℝ) * w ≤ f / 10 := by
      have e2 : (e : ℝ) ≤ 1 / 2 := by linarith
      have e3 : 5 * (S : ℝ) * 2.6 ≤ 5 * (S : ℝ) * G :=
        mul_le_mul_of_nonneg_left hGm.le (by positivity)
      have e4 : (e : ℝ) * f * W ≤ 1 / 2 * f * W :=
        mul_le_mul_of_nonneg_right (mul_le_mul_of_nonneg_right e2 rf.le) hW0.le
      have e5 : (S : ℝ) * 26 ≤ f * W := by linarith
      have e6 : (S : ℝ) * 26 * w ≤ f * W * w := mul_le_mul_of_nonneg_right e5 rw0
      have e7 : (f : ℝ) * (w * W) ≤ f * (9 / 4) := mul_le_mul_of_nonneg_left ww rf.le
      linarith
    have rBf : (f : ℝ) ≤ |(B : ℝ)| := by
      have : ((f : ℚ) : ℝ) ≤ ((|B| : ℚ) : ℝ) := by exact_mod_cast hBf
      push_cast at this; exact this
    have rB' : 9 / 10 * (f : ℝ) ≤ |(B' : ℝ)| := by
      have := abs_sub_abs_le_abs_sub (B : ℝ) B'
      rw [abs_sub_comm] at this
      linarith
    refine ⟨?_, ?_⟩
    · have : ((9 / 10 * f : ℚ) : ℝ) ≤ ((|B'| : ℚ) : ℝ) := by push_cast; exact rB'
      exact_mod_cast this
    · have hB0 : (B' : ℝ) ≠ 0 := abs_pos.1 (by linarith)
      have rAB : (A : ℝ) = u * B := by rw [hAB]; push_cast; rfl
      have e1 : ((A' / B' : ℚ) : ℝ) - u = ((A' - A) - u * (B' - B)) / B' := by
        push_cast
        rw [rAB]
        field_simp
        ring
      have e2 : |((A' : ℝ) - A) - u * (B' - B)| ≤ 2 * (S * w) := by
        refine (abs_sub _ _).trans ?_
        rw [abs_mul, abs_of_pos ru0]
        have := mul_le_of_le_one_left (abs_nonneg ((B' : ℝ) - B)) ru1.le
        linarith
      rw [e1, abs_div, hκ, div_mul_eq_mul_div, div_le_div_iff₀ (abs_pos.2 hB0) (by positivity)]
      have hG0 : 0 ≤ G := by linarith
      calc |((A' : ℝ) - A) - u * (B' - B)| * G * (f * W)
          ≤ 2 * (S * w) * G * (f * W) :=
            mul_le_mul_of_nonneg_right (mul_le_mul_of_nonneg_right e2 hG0) (by positivity)
        _ = (2 * S * G * f) * (w * W) := by ring
        _ ≤ (2 * S * G * f) * (9 / 4) := mul_le_mul_of_nonneg_left ww (by positivity)
        _ = 5 * S * G * (9 / 10 * f) := by ring
        _ ≤ 5 * S * G * |(B' : ℝ)| := mul_le_mul_of_nonneg_left rB' (by positivity)
  have hδe : (δ' : ℝ) < e := by linarith
  have hδe' : δ' ≤ e := by exact_mod_cast hδe.le
  have hδ1' : δ' ≤ 1 := by linarith
  obtain ⟨out, o1, -⟩ := clear_of_rest m (δ := δ') hδ'0 (by linarith) (by linarith)
    (fun j hj => hδe.le.trans (hm'.restR j hj))
  refine ⟨out, o1, min δ' (9 / 10 * f * δ'), lt_min hδ'0 (by positivity), ?_⟩
  rintro s' t' x y hs' ht' rfl rfl
  obtain ⟨m1, m2⟩ := main s' t' hs' ht'
  obtain ⟨A', hA'⟩ : ∃ A', A' = (result p' (N s' t') (D s' t')).1 := ⟨_, rfl⟩
  obtain ⟨B', hB'⟩ : ∃ B', B' = (result p' (N s' t') (D s' t')).2 := ⟨_, rfl⟩
  obtain ⟨v, hv⟩ : ∃ v, v = A' / B' := ⟨_, rfl⟩
  rw [← hA', ← hB', ← hv] at m2
  rw [← hB'] at m1
  have hB0 : B' ≠ 0 := abs_pos.1 (by linarith)
  have hvu : |(v : ℝ) - u| ≤ κ := by
    have : |(v : ℝ) - u| * 1 ≤ |(v : ℝ) - u| * G :=
      mul_le_mul_of_nonneg_left (by linarith) (abs_nonneg _)
    linarith
  obtain ⟨b1, b2⟩ := abs_le.1 hvu
  have rv0 : (δ' : ℝ) ≤ v := by linarith
  have rv1 : (v : ℝ) ≤ 1 - δ' := by linarith
  have hv0 : δ' ≤ v := by exact_mod_cast rv0
  have hv1 : v ≤ 1 - δ' := by exact_mod_cast rv1
  obtain ⟨g1, g2⟩ := same_symbols m ru0 ru1 (v := v) (by linarith) (by linarith) re
    (fun j hj => hm'.restR j hj) (by rw [← hG, abs_sub_comm]; linarith)
  rw [← hG, abs_sub_comm] at g2
  obtain ⟨out', o1', o2'⟩ := clear_of_rest m (δ := δ') hδ'0 hv0 hv1 (fun j hj => by
    have k1 := hm'.restR j hj
    have k2 := g2 j hj
    have k3 := abs_sub_abs_le_abs_sub (restR j u - 1 / 2) (restR j v - 1 / 2)
    rw [show restR j u - 1 / 2 - (restR j v - 1 / 2) = restR j u - restR j v by ring] at k3
    linarith)
  have oe : out' = out := by
    rw [symbolsR_cast, symbolsR_cast, ← o1, ← o1'] at g1
    exact (List.map_injective_iff.2 (Option.some_injective _) g1).symm
  obtain ⟨k1, k2⟩ := (value s' t' v hs' ht' (by linarith)).2 ⟨hB' ▸ hB0, by rw [← hA', ← hB', hv]⟩
  refine ⟨?_, v, k2, oe ▸ o2'.mono (min_le_left _ _)⟩
  have hz : 0 < down px s' * down py t' := mul_pos (down_pos px hs'.1) (down_pos py ht'.1)
  have hDmin := result_min p' (N s' t') (D s' t')
  rw [← hA', ← hB'] at hDmin
  have hA2 : 9 / 10 * f * δ' ≤ |A'| := by
    have : A' = v * B' := by rw [hv, div_mul_cancel₀ _ hB0]
    rw [this, abs_mul, abs_of_pos (by linarith : 0 < v), mul_comm v]
    exact mul_le_mul m1 hv0 hδ'0.le (abs_nonneg _)
  have hB2 : 9 / 10 * f * δ' ≤ |B'| :=
    le_trans (mul_le_of_le_one_right (by positivity) hδ1') m1
  have hD2 : min δ' (9 / 10 * f * δ') ≤ |D s' t'| :=
    (min_le_right _ _).trans ((le_min hA2 hB2).trans hDmin)
  rw [hD, form_eq px py _ _ _ _ hs'.1 ht'.1, abs_mul _ (down px s' * down py t'), abs_of_pos hz] at hD2
  have e2 : max 1 |applyPrimer px s'| * max 1 |applyPrimer py t'| * (down px s' * down py t') = 1 := by
    have k1 := size_down px hs'.1 hs'.2.1
    have k2 := size_down py ht'.1 ht'.2.1
    calc _ = (max 1 |applyPrimer px s'| * down px s') * (max 1 |applyPrimer py t'| * down py t') := by ring
      _ = 1 := by rw [k1, k2, mul_one]
  refine le_of_mul_le_mul_right ?_ hz
  rw [mul_assoc, e2, mul_one]
  exact hD2

end

/-! ## What this says of `combine` -/

theorem symbols_len (m : Nat) (u : ℚ) : (symbols m u).length = m := by
  induction m generalizing u with
  | zero => rfl
  | succ m ih => rw [symbols_succ, List.length_cons, ih]

section

variable {cfg : Cfg} {px py p' : Option Primer} {nxy nx ny n dxy dx dy d S : Int}
  {cx cx' cy cy' : Clog} {lx ly : List Reduction} {m : Nat}

/-- The primer and `m` symbols of the result are given without reading more of the operands than `lx` and
`ly` (unless a number is too large before), whatever the operands do later. -/
theorem C88_reads_at_most (hc : cfg.overflowChecks = true) (h1 : |nxy| + |nx| + |ny| + |n| ≤ S)
    (h2 : |dxy| + |dx| + |dy| + |d| ≤ S) (gx : Gives cfg cx lx cx') (gy : Gives cfg cy ly cy')
    (hlen : lx.length = ly.length) {s t x y u e f : ℚ} (hs : Begins lx s) (ht : Begins ly t)
    (ex : x = applyPrimer px s) (ey : y = applyPrimer py t)
    (hd : dxy * x * y + dx * x + dy * y + d ≠ 0)
    (hu : (nxy * x * y + nx * x + ny * y + n) / (dxy * x * y + dx * x + dy * y + d) = applyPrimer p' u)
    (hm : Undisturbed e m u) (hf0 : 0 < f)
    (hf : f * (max 1 |x| * max 1 |y|) ≤
      max |nxy * x * y + nx * x + ny * y + n| |dxy * x * y + dx * x + dy * y + d|)
    (hi : (5 * (S : ℝ) * ((3 + √5) / 2) ^ (m + 1)) ^ 4 <
      ((e : ℝ) * f) ^ 4 * (5 + 2 * √6) ^ lx.length) :
    Ends Overflow (fun f => Number.combine cfg f (.Other px cx) (.Other py cy) nxy nx ny n dxy dx dy d)
      fun v => ∃ c0, v = .Other p' c0 ∧ Ends Overflow (fun f => Clog.egests cfg f m c0) fun r =>
        r.1 = symbols m u ∧ ∃ lx1 lx2 ly1 ly2 cx1 cy1 k, lx = lx1 ++ lx2 ∧ ly = ly1 ++ ly2 ∧
          lx1.length = ly1.length ∧ Gives cfg cx lx1 cx1 ∧ Gives cfg cy ly1 cy1 ∧
          r.2 = .combine cx1 cy1 k := by
  obtain ⟨out, o1, hcl⟩ := C88_at_most h1 h2 hs ht ex ey hd hu hm hf0 hf hi (hlen ▸ hi)
  have hol : out.length = m := by
    have := congrArg List.length o1
    rwa [List.length_map, symbols_len] at this
  refine (C60_clear_is_enough hc gx gy hlen hcl).mono ?_
  rintro v ⟨c0, rfl, h⟩
  refine ⟨c0, rfl, ?_⟩
  rw [hol] at h
  refine h.mono ?_
  rintro ⟨o, c2⟩ ⟨e0, lx1, lx2, ly1, ly2, cx1, cy1, k, e1, e2, e3, k1, k2, -, e4⟩
  exact ⟨by simp only at e0 ⊢; rw [e0, o1], lx1, lx2, ly1, ly2, cx1, cy1, k, e1, e2, e3, k1, k2, e4⟩

/-- With or without overflow checks: if moreover the square of `S * 4^i` is a machine integer, the primer
and the `m` symbols are returned, exactly. -/
theorem C88_returns (h1 : |nxy| + |nx| + |ny| + |n| ≤ S)
    (h2 : |dxy| + |dx| + |dy| + |d| ≤ S) (hM : (S * 4 ^ lx.length) ^ 2 ≤ cfg.imax)
    (gx : Gives cfg cx lx cx') (gy : Gives cfg cy ly cy')
    (hlen : lx.length = ly.length) {s t x y u e f : ℚ} (hs : Begins lx s) (ht : Begins ly t)
    (ex : x = applyPrimer px s) (ey : y = applyPrimer py t)
    (hd : dxy * x * y + dx * x + dy * y + d ≠ 0)
    (hu : (nxy * x * y + nx * x + ny * y + n) / (dxy * x * y + dx * x + dy * y + d) = applyPrimer p' u)
    (hm : Undisturbed e m u) (hf0 : 0 < f)
    (hf : f * (max 1 |x| * max 1 |y|) ≤
      max |nxy * x * y + nx * x + ny * y + n| |dxy * x * y + dx * x + dy * y + d|)
    (hi : (5 * (S : ℝ) * ((3 + √5) / 2) ^ (m + 1)) ^ 4 <
      ((e : ℝ) * f) ^ 4 * (5 + 2 * √6) ^ lx.length) :
    ∃ c0, Returns (fun f => Number.combine cfg f (.Other px cx) (.Other py cy)
        nxy nx ny n dxy dx dy d) (.Other p' c0) ∧
      ∃ lx1 lx2 ly1 ly2 cx1 cy1 k, lx = lx1 ++ lx2 ∧ ly = ly1 ++ ly2 ∧
        Gives cfg cx lx1 cx1 ∧ Gives cfg cy ly1 cy1 ∧
        Returns (fun f => Clog.egests cfg f m c0) (symbols m u, .combine cx1 cy1 k) := by
  obtain ⟨out, o1, hcl⟩ := C88_at_most h1 h2 hs ht ex ey hd hu hm hf0 hf hi (hlen ▸ hi)
  have hol : out.length = m := by
    have := congrArg List.length o1
    rwa [List.length_map, symbols_len] at this
  have h := C65_combine h1 h2 hM gx gy hlen hcl
  rw [hol, o1] at h
  exact h

end

/-! ## In whole numbers -/

theorem C88_simple_bound {S : Int} {s q k i m : Nat} (hS : |S| ≤ 2 ^ s)
    (h : 56 * m + 40 * s + 40 * q + 40 * k + 149 ≤ 33 * i) :
    (5 * (S : ℝ) * ((3 + √5) / 2) ^ (m + 1)) ^ 4 <
      (((1 / 2 ^ k : ℚ) : ℝ) * ((1 / 2 ^ q : ℚ) : ℝ)) ^ 4 * (5 + 2 * √6) ^ i := by
  obtain ⟨k1, k2⟩ := C87_constants
  have hG0 : 0 < (3 + √5) / 2 := by positivity
  have hR0 : 0 < 5 + 2 * √6 := by positivity
  generalize (3 + √5) / 2 = G at k1 hG0 ⊢
  generalize 5 + 2 * √6 = R at k2 hR0 ⊢
  have hS' : (|(S : ℝ)|) ≤ 2 ^ s := by exact_mod_cast hS
  have e0 : ((((1 / 2 ^ k : ℚ) : ℝ) * ((1 / 2 ^ q : ℚ) : ℝ)) ^ 4) = 1 / (2 ^ k * 2 ^ q) ^ 4 := by
    push_cast
    rw [one_div_mul_one_div, div_pow, one_pow]
  rw [e0, div_mul_eq_mul_div, one_mul, lt_div_iff₀ (by positivity)]
  refine lt_of_pow_lt_pow_left₀ 10 (by positivity) ?_
  have e1 : ((5 * (S : ℝ) * G ^ (m + 1)) ^ 4 * (2 ^ k * 2 ^ q) ^ 4) ^ 10 =
      5 ^ 40 * |(S : ℝ)| ^ 40 * ((G ^ 5) ^ (m + 1)) ^ 8 * (2 ^ k * 2 ^ q) ^ 40 := by
    rw [show |(S : ℝ)| ^ 40 = (S : ℝ) ^ 40 from (by decide : Even 40).pow_abs _]
    ring
  have e2 : (R ^ i) ^ 10 = (R ^ 10) ^ i := by ring
  rw [e1, e2]
  have a1 : |(S : ℝ)| ^ 40 ≤ (2 ^ s) ^ 40 := pow_le_pow_left₀ (abs_nonneg _) hS' 40
  have a2 : ((G ^ 5) ^ (m + 1)) ^ 8 ≤ ((2 ^ 7) ^ (m + 1)) ^ 8 :=
    pow_le_pow_left₀ (by positivity) (pow_le_pow_left₀ (by positivity) k1 (m + 1)) 8
  calc (5 : ℝ) ^ 40 * |(S : ℝ)| ^ 40 * ((G ^ 5) ^ (m + 1)) ^ 8 * (2 ^ k * 2 ^ q) ^ 40
      ≤ 5 ^ 40 * (2 ^ s) ^ 40 * ((2 ^ 7) ^ (m + 1)) ^ 8 * (2 ^ k * 2 ^ q) ^ 40 :=
        mul_le_mul_of_nonneg_right
          (mul_le_mul (mul_le_mul_of_nonneg_left a1 (by positivity)) a2 (by positivity) (by positivity))
          (by positivity)
    _ < 2 ^ 93 * (2 ^ s) ^ 40 * ((2 ^ 7) ^ (m + 1)) ^ 8 * (2 ^ k * 2 ^ q) ^ 40 := by
        refine mul_lt_mul_of_pos_right (mul_lt_mul_of_pos_right
          (mul_lt_mul_of_pos_right (by norm_num) (by positivity)) (by positivity)) (by positivity)
    _ = 2 ^ (56 * m + 40 * s + 40 * q + 40 * k + 149) := by
        simp only [← pow_mul, ← pow_add]
        congr 1
        ring
    _ ≤ 2 ^ (33 * i) := pow_le_pow_right₀ (by norm_num) h
    _ = (2 ^ 33) ^ i := by rw [pow_mul]
    _ ≤ (R ^ 10) ^ i := pow_le_pow_left₀ (by norm_num) k2 i

section

variable {cfg : Cfg} {px py p' : Option Primer} {cx cy : Clog} {i m a b k : Nat} {s t x y u : ℚ}

/-- The operands denote numbers, have not ended after `i` symbols, and are not more than `2^a` and `2^b` in
magnitude. -/
def Spec.TwoOperands (cfg : Cfg) (px py : Option Primer) (cx cy : Clog) (i a b : Nat) (s t x y : ℚ) : Prop :=
  Clog.Denotes cfg NoPanic cx s ∧ Clog.Denotes cfg NoPanic cy t ∧ x = applyPrimer px s ∧
    y = applyPrimer py t ∧ none ∉ symbols i s ∧ none ∉ symbols i t ∧ |x| ≤ 2 ^ a ∧ |y| ≤ 2 ^ b

theorem operand_given {c : Clog} {t : ℚ} {i : Nat} (h : Clog.Denotes cfg NoPanic c t)
    (hn : none ∉ symbols i t) : ∃ l c', l.length = i ∧ Begins l t ∧ Gives cfg c l c' := by
  obtain ⟨l, hl, e⟩ := symbols_given i t hn
  rcases h.2.2 i with ⟨⟨o, c'⟩, hr, ho⟩ | ⟨_, _, hA⟩
  · simp only at ho
    subst hl
    rw [ho, e] at hr
    exact ⟨l, c', rfl, ⟨h.1, h.2.1, e⟩, hr⟩
  · exact hA.elim

theorem operand_prefix {c c1 : Clog} {t : ℚ} {l l1 l2 : List Reduction}
    (h : Clog.Denotes cfg NoPanic c t) (e : l = l1 ++ l2) (hg : Gives cfg c l1 c1) :
    l1.length ≤ l.length ∧ Returns (fun f => Clog.egests cfg f l1.length c) (symbols l1.length t, c1) := by
  refine ⟨by rw [e, List.length_append]; omega, ?_⟩
  rcases h.2.2 l1.length with ⟨⟨o1, c2⟩, hr1, ho1⟩ | ⟨_, _, hA⟩
  · obtain ⟨f1, q1⟩ := hr1
    obtain ⟨f2, q2⟩ := hg
    have q := (q1 (max f1 f2) (by omega)).symm.trans (q2 (max f1 f2) (by omega))
    simp only [Out.ok.injEq, Prod.mk.injEq] at q
    simp only at ho1
    rw [← ho1, q.1]
    exact ⟨f2, q2⟩
  · exact hA.elim

theorem size_of_operands (hx : |x| ≤ 2 ^ a) (hy : |y| ≤ 2 ^ b) (N : ℚ) :
    (1 / 2 ^ (a + b) : ℚ) * (max 1 |x| * max 1 |y|) ≤ max |N| |1| := by
  have e1 : max 1 |x| ≤ 2 ^ a := max_le (one_le_pow₀ (by norm_num)) hx
  have e2 : max 1 |y| ≤ 2 ^ b := max_le (one_le_pow₀ (by norm_num)) hy
  have e3 : max 1 |x| * max 1 |y| ≤ 2 ^ a * 2 ^ b :=
    mul_le_mul e1 e2 (by positivity) (by positivity)
  have : (1 / 2 ^ (a + b) : ℚ) * (max 1 |x| * max 1 |y|) ≤ 1 := by
    rw [one_div, inv_mul_le_iff₀ (by positivity), mul_one, pow_add]
    exact e3
  exact this.trans (by rw [abs_one]; exact le_max_right _ _)

/-- A polynomial of two operands: enough symbols of both give `m` symbols of the result. -/
private theorem polynomial (hc : cfg.overflowChecks = true) {nxy nx ny n : Int} {σ : Nat}
    (h1 : |nxy| + |nx| + |ny| + |n| ≤ 2 ^ σ) (h : TwoOperands cfg px py cx cy i a b s t x y)
    (hu : nxy * x * y + nx * x + ny * y + n = applyPrimer p' u) (hm : Undisturbed (1 / 2 ^ k) m u)
    (hi : 56 * m + 40 * σ + 40 * (a + b) + 40 * k + 149 ≤ 33 * i) :
    Ends Overflow (fun f => Number.combine cfg f (.Other px cx) (.Other py cy) nxy nx ny n 0 0 0 1)
      fun v => ∃ c0, v = .Other p' c0 ∧ Ends Overflow (fun f => Clog.egests cfg f m c0) fun r =>
        r.1 = symbols m u ∧ ∃ j ≤ i, ∃ cx1 cy1 k, r.2 = .combine cx1 cy1 k ∧
          Returns (fun f => Clog.egests cfg f j cx) (symbols j s, cx1) ∧
          Returns (fun f => Clog.egests cfg f j cy) (symbols j t, cy1) := by
  obtain ⟨d1, d2, ex, ey, n1, n2, b1, b2⟩ := h
  obtain ⟨lx, cx', hlx, hbx, hgx⟩ := operand_given d1 n1
  obtain ⟨ly, cy', hly, hby, hgy⟩ := operand_given d2 n2
  have hden : ((0 : Int) : ℚ) * x * y + ((0 : Int) : ℚ) * x + ((0 : Int) : ℚ) * y + ((1 : Int) : ℚ) = 1 := by
    push_cast; ring
  have hS : |(0 : Int)| + |0| + |0| + |1| ≤ 2 ^ σ := by
    have : (1 : Int) ≤ 2 ^ σ := one_le_pow₀ (by norm_num)
    simpa using this
  refine (C88_reads_at_most (S := 2 ^ σ) (e := 1 / 2 ^ k) (f := 1 / 2 ^ (a + b)) hc h1 hS hgx hgy
    (by omega) hbx hby ex ey (by rw [hden]; norm_num) (by rw [hden, div_one]; exact hu) hm (by positivity)
    (by rw [hden]; exact size_of_operands b1 b2 _)
    (C88_simple_bound (s := σ) (by rw [abs_of_pos (by positivity)]) (by rw [hlx]; omega))).mono ?_
  rintro v ⟨c0, rfl, h⟩
  refine ⟨c0, rfl, h.mono ?_⟩
  rintro ⟨o, c2⟩ ⟨rfl, lx1, lx2, ly1, ly2, cx1, cy1, k, e1, e2, e3, k1, k2, e4⟩
  obtain ⟨p1, p2⟩ := operand_prefix d1 e1 k1
  obtain ⟨p3, p4⟩ := operand_prefix d2 e2 k2
  exact ⟨rfl, lx1.length, by omega, cx1, cy1, k, e4, p2, by rw [e3]; exact p4⟩

/-- The sum of two numbers up to `2^a` and `2^b`, to `m` symbols: at most `i` symbols of each are read when
`56 m + 40 (a + b) + 40 k + 189 ≤ 33 i`. -/
theorem C88_sum (hc : cfg.overflowChecks = true) (h : TwoOperands cfg px py cx cy i a b s t x y)
    (hu : x + y = applyPrimer p' u) (hm : Undisturbed (1 / 2 ^ k) m u)
    (hi : 56 * m + 40 * (a + b) + 40 * k + 189 ≤ 33 * i) :
    Ends Overflow (fun f => Number.combine cfg f (.Other px cx) (.Other py cy) 0 1 1 0 0 0 0 1)
      fun v => ∃ c0, v = .Other p' c0 ∧ Ends Overflow (fun f => Clog.egests cfg f m c0) fun r =>
        r.1 = symbols m u ∧ ∃ j ≤ i, ∃ cx1 cy1 k, r.2 = .combine cx1 cy1 k ∧
          Returns (fun f => Clog.egests cfg f j cx) (symbols j s, cx1) ∧
          Returns (fun f => Clog.egests cfg f j cy) (symbols j t, cy1) :=
  polynomial hc (σ := 1) (by decide) h (by rw [← hu]; push_cast; ring) hm (by omega)

/-- As above, for the difference. -/
theorem C88_difference (hc : cfg.overflowChecks = true) (h : TwoOperands cfg px py cx cy i a b s t x y)
    (hu : x - y = applyPrimer p' u) (hm : Undisturbed (1 / 2 ^ k) m u)
    (hi : 56 * m + 40 * (a + b) + 40 * k + 189 ≤ 33 * i) :
    Ends Overflow (fun f => Number.combine cfg f (.Other px cx) (.Other py cy) 0 1 (-1) 0 0 0 0 1)
      fun v => ∃ c0, v = .Other p' c0 ∧ Ends Overflow (fun f => Clog.egests cfg f m c0) fun r =>
        r.1 = symbols m u ∧ ∃ j ≤ i, ∃ cx1 cy1 k, r.2 = .combine cx1 cy1 k ∧
          Returns (fun f => Clog.egests cfg f j cx) (symbols j s, cx1) ∧
          Returns (fun f => Clog.egests cfg f j cy) (symbols j t, cy1) :=
  polynomial hc (σ := 1) (by decide) h (by rw [← hu]; push_cast; ring) hm (by omega)

/-- As above, for the product. -/
theorem C88_product (hc : cfg.overflowChecks = true) (h : TwoOperands cfg px py cx cy i a b s t x y)
    (hu : x * y = applyPrimer p' u) (hm : Undisturbed (1 / 2 ^ k) m u)
    (hi : 56 * m + 40 * (a + b) + 40 * k + 149 ≤ 33 * i) :
    Ends Overflow (fun f => Number.combine cfg f (.Other px cx) (.Other py cy) 1 0 0 0 0 0 0 1)
      fun v => ∃ c0, v = .Other p' c0 ∧ Ends Overflow (fun f => Clog.egests cfg f m c0) fun r =>
        r.1 = symbols m u ∧ ∃ j ≤ i, ∃ cx1 cy1 k, r.2 = .combine cx1 cy1 k ∧
          Returns (fun f => Clog.egests cfg f j cx) (symbols j s, cx1) ∧
          Returns (fun f => Clog.egests cfg f j cy) (symbols j t, cy1) :=
  polynomial hc (σ := 0) (by decide) h (by rw [← hu]; push_cast; ring) hm (by omega)

end

/-! ## Examples -/

/-- The first 15 symbols of 4555390/9815116. -/
def fifteen : List Reduction :=
  [.Amplify, .Uncover, .Amplify, .Amplify, .Amplify, .Uncover, .Uncover, .Uncover, .Uncover,
   .Uncover, .Uncover, .Uncover, .Amplify, .Uncover, .Uncover]

/-- The first 15 symbols of 8125/10811. -/
def fifteen' : List Reduction :=
  [.Uncover, .Amplify, .Uncover, .Uncover, .Uncover, .Amplify, .Amplify, .Amplify, .Amplify,
   .Uncover, .Amplify, .Amplify, .Uncover, .Amplify, .Amplify]

private theorem two_operands : TwoOperands debug64 none none (.ratio ⟨4555390, 9815116⟩)
    (.ratio ⟨8125, 10811⟩) 30 0 0 (4555390 / 9815116) (8125 / 10811) (4555390 / 9815116)
    (8125 / 10811) :=
  ⟨Ratio.denotes (r := ⟨4555390, 9815116⟩) ⟨by decide, by decide, by decide⟩,
    Ratio.denotes (r := ⟨8125, 10811⟩) ⟨by decide, by decide, by decide⟩, rfl, rfl,
    by decide +kernel, by decide +kernel, by norm_num [abs_of_pos], by norm_num [abs_of_pos]⟩

/-- Ten symbols of a sum, a difference and a product from 30 symbols of the operands. -/
example := C88_sum (p' := some .Turn) (u := 53055609538 / 64498069395) (k := 4) (m := 10) rfl two_operands
  (by norm_num [applyPrimer]) ⟨by norm_num, by norm_num, by norm_num, by decide +kernel⟩ (by decide)

example := C88_difference (p' := some .Reflect) (u := 15249748105 / 53055609538) (k := 4) (m := 10) rfl
  two_operands (by norm_num [applyPrimer]) ⟨by norm_num, by norm_num, by norm_num, by decide +kernel⟩
  (by decide)

example := C88_product (p' := none) (u := 18506271875 / 53055609538) (k := 4) (m := 10) rfl
  two_operands (by norm_num [applyPrimer]) ⟨by norm_num, by norm_num, by norm_num, by decide +kernel⟩
  (by decide)

private theorem fifteen_given :
    Gives debug64 (.ratio ⟨4555390, 9815116⟩) fifteen (.ratio ⟨10258, 17665⟩) ∧
    Gives debug64 (.ratio ⟨8125, 10811⟩) fifteen' (.ratio ⟨244, 475⟩) ∧
    Begins fifteen (4555390 / 9815116) ∧ Begins fifteen' (8125 / 10811) := by
  refine ⟨FuelMono.returns (Clog.egests_mono _ _ _) 60 (by decide +kernel),
    FuelMono.returns (Clog.egests_mono _ _ _) 60 (by decide +kernel),
    ⟨by norm_num, by norm_num, ?_⟩, ⟨by norm_num, by norm_num, ?_⟩⟩ <;> decide +kernel

private theorem fifteen_undisturbed : Undisturbed (1 / 2 ^ 4) 3 (18506271875 / 53055609538) :=
  ⟨by norm_num, by norm_num, by norm_num, by decide +kernel⟩

/-- Three symbols of the product from 15 symbols of the operands, with no overflow possible. -/
example := C88_at_most (px := none) (py := none) (p' := none) (nxy := 1) (nx := 0) (ny := 0) (n := 0)
  (dxy := 0) (dx := 0) (dy := 0) (d := 1) (S := 1) (f := 1 / 2 ^ 0) (by decide) (by decide)
  fifteen_given.2.2.1 fifteen_given.2.2.2 rfl rfl (by norm_num) (by norm_num [applyPrimer])
  fifteen_undisturbed (by norm_num) (by norm_num [applyPrimer, abs_of_pos])
  (C88_simple_bound (s := 0) (by decide) (by decide)) (C88_simple_bound (s := 0) (by decide) (by decide))

example := C88_reads_at_most (cfg := debug64) (px := none) (py := none) (p' := none) (nxy := 1) (nx := 0)
  (ny := 0) (n := 0) (dxy := 0) (dx := 0) (dy := 0) (d := 1) (S := 1) (f := 1 / 2 ^ 0) rfl (by decide)
  (by decide) fifteen_given.1 fifteen_given.2.1 rfl fifteen_given.2.2.1 fifteen_given.2.2.2 rfl rfl
  (by norm_num) (by norm_num [applyPrimer]) fifteen_undisturbed (by norm_num)
  (by norm_num [applyPrimer, abs_of_pos]) (C88_simple_bound (s := 0) (by decide) (by decide))

example := C88_returns (cfg := debug64) (px := none) (py := none) (p' := none) (nxy := 1) (nx := 0)
  (ny := 0) (n := 0) (dxy := 0) (dx := 0) (dy := 0) (d := 1) (S := 1) (f := 1 / 2 ^ 0) (by decide)
  (by decide) (by decide) fifteen_given.1 fifteen_given.2.1 rfl fifteen_given.2.2.1 fifteen_given.2.2.2 rfl
  rfl (by norm_num) (by norm_num [applyPrimer]) fifteen_undisturbed (by norm_num)
  (by norm_num [applyPrimer, abs_of_pos]) (C88_simple_bound (s := 0) (by decide) (by decide))

end Clarith
