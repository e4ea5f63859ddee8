import Verif.Proofs.Lookahead
import Verif.Properties.Budget

/-! # C87 How far `Number::homographic` looks ahead: symbols read for symbols given

C59 says that `homographic` reads just the symbols of the operand that settle its answers.  This says
how many these are.  For a map with coefficients of size `S` and determinant `D`, `i` symbols of the
operand can settle `m` symbols of the result only if

    D^4 · (5 + 2√6)^m ≤ (3 · S² · ((3+√5)/2)^i)^4

and they do settle them when the result keeps away by `e` from the numbers where its symbols change, and

    (5 · S² · ((3+√5)/2)^(m+1))^4 < (e · D)^4 · (5 + 2√6)^i

that is, `m` symbols take at least about `0.59 m` and at most about `1.68 m` symbols of the operand. -/

namespace Clarith

open Spec Out

/-! ## Specification -/

/-- What is left of `u` after its first `j` symbols. -/
def Spec.left : Nat → ℚ → ℚ
  | 0, u => u
  | j + 1, u =>
    if u < 1 / 2 then left j (2 * u) else if 1 / 2 < u then left j (1 / u - 1) else u

/-- The primer and the first `m` symbols of the number with the primer `p` and the rest `u` do not change
when it is moved a little: `u` is not near 0 or 1, and nothing left of it before these symbols is near
1/2. -/
def Spec.Undisturbed (e : ℚ) (m : Nat) (u : ℚ) : Prop :=
  0 < e ∧ e ≤ u ∧ u ≤ 1 - e ∧ ∀ j < m, e ≤ |left j u - 1 / 2|

/-! ## Proof -/

theorem restR_cast (j : Nat) (u : ℚ) (h : ∀ i < j, left i u ≠ 1 / 2) :
    restR j u = ((left j u : ℚ) : ℝ) := by
  induction j generalizing u with
  | zero => rfl
  | succ j ih =>
    have h0 := h 0 (by omega)
    simp only [left] at h0
    rcases lt_or_gt_of_ne h0 with hlt | hgt
    · have e : next u = 2 * u := by simp only [next, if_pos hlt]
      rw [restR, nextR_cast, e, left, if_pos hlt, ih]
      intro i hi
      have := h (i + 1) (by omega)
      rwa [left, if_pos hlt] at this
    · have hn : ¬ u < 1 / 2 := not_lt.2 hgt.le
      have e : next u = 1 / u - 1 := by simp only [next, if_neg hn, if_pos hgt]
      rw [restR, nextR_cast, e, left, if_neg hn, if_pos hgt, ih]
      intro i hi
      have := h (i + 1) (by omega)
      rwa [left, if_neg hn, if_pos hgt] at this

theorem Spec.Undisturbed.restR {e : ℚ} {m : Nat} {u : ℚ} (h : Undisturbed e m u) (j : Nat) (hj : j < m) :
    (e : ℝ) ≤ |restR j u - 1 / 2| := by
  have hne : ∀ i < j, left i u ≠ 1 / 2 := by
    intro i hi e'
    have := h.2.2.2 i (by omega)
    rw [e', sub_self, abs_zero] at this
    linarith [h.1]
  rw [restR_cast j u hne]
  have := h.2.2.2 j hj
  have h2 : ((e : ℚ) : ℝ) ≤ ((|left j u - 1 / 2| : ℚ) : ℝ) := by exact_mod_cast this
  push_cast at h2
  exact h2

theorem linear_le {a b S : Int} (h : |a| + |b| ≤ S) {t : ℝ} (h0 : 0 < t) (h1 : t < 1) :
    |(a : ℝ) * t + b| ≤ S := by
  have h' : |(a : ℝ)| + |(b : ℝ)| ≤ S := by exact_mod_cast h
  have := abs_add_le ((a : ℝ) * t) b
  rw [abs_mul, abs_of_pos h0] at this
  have := mul_le_of_le_one_right (abs_nonneg (a : ℝ)) h1.le
  linarith

section

variable {p p' : Option Primer} {nx n dx d S : Int} {l : List Reduction} {m : Nat}
  {out : List (Option Reduction)}

/-- `i` symbols of the operand settle `m` symbols of the result only if `i` is large enough. -/
theorem C87_at_least (h1 : |nx| + |n| ≤ S) (h2 : |dx| + |d| ≤ S)
    (hs : Settled p nx n dx d l p' m out) :
    |((nx * d - n * dx : Int) : ℝ)| ^ 4 * (5 + 2 * √6) ^ m ≤
      (3 * (S : ℝ) ^ 2 * ((3 + √5) / 2) ^ l.length) ^ 4 := by
  obtain ⟨t, t', ht, ht', hfar⟩ := begins_apart l
  obtain ⟨a, b, c, e, g1, g2, g3, g4⟩ := without_primers p p' nx n dx d S h1 h2
  obtain ⟨k1, u, hu0, hu1, k2, k3⟩ := hs t ht
  obtain ⟨k1', u', hu0', hu1', k2', k3'⟩ := hs t' ht'
  obtain ⟨q1, q2⟩ := (g4 t u ht.1 hu0).1 ⟨k1, k2⟩
  obtain ⟨q1', q2'⟩ := (g4 t' u' ht'.1 hu0').1 ⟨k1', k2'⟩
  have r1 : (c : ℝ) * t + e ≠ 0 := by exact_mod_cast q1
  have r1' : (c : ℝ) * t' + e ≠ 0 := by exact_mod_cast q1'
  have r2 : ((a : ℝ) * t + b) / (c * t + e) = u := by rw [← q2]; push_cast; rfl
  have r2' : ((a : ℝ) * t' + b) / (c * t' + e) = u' := by rw [← q2']; push_cast; rfl
  have key := values_apart (a := a) (b := b) r1 r1'
  rw [r2, r2'] at key
  have t0 : (0 : ℝ) < t := by exact_mod_cast ht.1
  have t1 : (t : ℝ) < 1 := by exact_mod_cast ht.2.1
  have t0' : (0 : ℝ) < t' := by exact_mod_cast ht'.1
  have t1' : (t' : ℝ) < 1 := by exact_mod_cast ht'.2.1
  have b1 := linear_le g2 t0 t1
  have b1' := linear_le g2 t0' t1'
  have hw := C83_worst_case m u u' (by exact_mod_cast hu0) (by exact_mod_cast hu1)
    (by exact_mod_cast hu0') (by exact_mod_cast hu1') (by rw [symbolsR_cast, symbolsR_cast, k3, k3'])
  have hdet : |(a : ℝ) * e - b * c| = |((nx * d - n * dx : Int) : ℝ)| := by
    have : ((|a * e - b * c| : Int) : ℝ) = ((|nx * d - n * dx| : Int) : ℝ) := by rw [g3]
    rw [Int.cast_abs, Int.cast_abs] at this
    rw [← this]; push_cast; rfl
  rw [hdet] at key
  obtain ⟨D, hD⟩ : ∃ D, D = |((nx * d - n * dx : Int) : ℝ)| := ⟨_, rfl⟩
  obtain ⟨G, hG⟩ : ∃ G, G = ((3 + √5) / 2) ^ l.length := ⟨_, rfl⟩
  rw [← hD] at key
  rw [← hG] at hfar
  rw [← hD, ← hG]
  have hG0 : 0 < G := by rw [hG]; positivity
  have hD0 : 0 ≤ D := by rw [hD]; positivity
  have hS0 : (0 : ℝ) ≤ S := le_trans (abs_nonneg _) b1
  have s1 : |(u : ℝ) - u'| * (|(c : ℝ) * t + e| * |(c : ℝ) * t' + e|) ≤ |(u : ℝ) - u'| * (S : ℝ) ^ 2 := by
    refine mul_le_mul_of_nonneg_left ?_ (abs_nonneg _)
    rw [sq]
    exact mul_le_mul b1 b1' (abs_nonneg _) hS0
  have s2 : D * (3 / 8) ≤ |(u : ℝ) - u'| * (S : ℝ) ^ 2 * G := by
    calc D * (3 / 8) ≤ D * (|(t : ℝ) - t'| * G) := mul_le_mul_of_nonneg_left hfar hD0
      _ = D * |(t : ℝ) - t'| * G := by ring
      _ ≤ _ := mul_le_mul_of_nonneg_right (key ▸ s1) hG0.le
  have s3 : D ≤ 8 / 9 * |(u : ℝ) - u'| * (3 * (S : ℝ) ^ 2 * G) := by linarith
  calc D ^ 4 * (5 + 2 * √6) ^ m
      ≤ (8 / 9 * |(u : ℝ) - u'| * (3 * (S : ℝ) ^ 2 * G)) ^ 4 * (5 + 2 * √6) ^ m :=
        mul_le_mul_of_nonneg_right (pow_le_pow_left₀ hD0 s3 4) (by positivity)
    _ = ((8 / 9 * |(u : ℝ) - u'|) ^ 4 * (5 + 2 * √6) ^ m) * (3 * (S : ℝ) ^ 2 * G) ^ 4 := by ring
    _ ≤ 1 * (3 * (S : ℝ) ^ 2 * G) ^ 4 := mul_le_mul_of_nonneg_right hw (by positivity)
    _ = _ := one_mul _

/-- `i` symbols of the operand settle the primer and `m` symbols of the result if `i` is large enough;
and all the results they leave possible are then less than `2 / e`. -/
theorem C87_at_most (h1 : |nx| + |n| ≤ S) (h2 : |dx| + |d| ≤ S) {t u e : ℚ} (ht : Begins l t)
    (hd : dx * applyPrimer p t + d ≠ 0)
    (hu : (nx * applyPrimer p t + n) / (dx * applyPrimer p t + d) = applyPrimer p' u)
    (hc : Undisturbed e m u)
    (hi : (5 * (S : ℝ) ^ 2 * ((3 + √5) / 2) ^ (m + 1)) ^ 4 <
      ((e : ℝ) * |((nx * d - n * dx : Int) : ℝ)|) ^ 4 * (5 + 2 * √6) ^ l.length) :
    Settled p nx n dx d l p' m (symbols m u) ∧
      ∀ t, Begins l t → |(nx * applyPrimer p t + n) / (dx * applyPrimer p t + d)| ≤ 2 / e := by
  obtain ⟨a, b, c, e', g1, g2, g3, g4⟩ := without_primers p p' nx n dx d S h1 h2
  obtain ⟨he, heu, hue, hm⟩ := hc
  have hu0 : 0 < u := lt_of_lt_of_le he heu
  have hu1 : u < 1 := by linarith
  obtain ⟨q1, q2⟩ := (g4 t u ht.1 hu0).1 ⟨hd, hu⟩
  have r1 : (c : ℝ) * t + e' ≠ 0 := by exact_mod_cast q1
  have r2 : ((a : ℝ) * t + b) / (c * t + e') = u := by rw [← q2]; push_cast; rfl
  have t0 : (0 : ℝ) < t := by exact_mod_cast ht.1
  have t1 : (t : ℝ) < 1 := by exact_mod_cast ht.2.1
  have ru0 : (0 : ℝ) < u := by exact_mod_cast hu0
  have ru1 : (u : ℝ) < 1 := by exact_mod_cast hu1
  have re : (0 : ℝ) < e := by exact_mod_cast he
  have reu : (e : ℝ) ≤ u := by exact_mod_cast heu
  have rue : (u : ℝ) ≤ 1 - e := by exact_mod_cast hue
  have hdet : |(a : ℝ) * e' - b * c| = |((nx * d - n * dx : Int) : ℝ)| := by
    have : ((|a * e' - b * c| : Int) : ℝ) = ((|nx * d - n * dx| : Int) : ℝ) := by rw [g3]
    rw [Int.cast_abs, Int.cast_abs] at this
    rw [← this]; push_cast; rfl
  obtain ⟨D, hD⟩ : ∃ D, D = |((nx * d - n * dx : Int) : ℝ)| := ⟨_, rfl⟩
  rw [← hD] at hdet hi
  have hD0 : 0 ≤ D := by rw [hD]; positivity
  have hG1 : 2.6 < (3 + √5) / 2 := by
    have : 2.2 < √5 := Real.lt_sqrt_of_sq_lt (by norm_num)
    linarith
  have hp := worstRate_pos
  obtain ⟨G, hG⟩ : ∃ G, G = ((3 + √5) / 2) ^ (m + 1) := ⟨_, rfl⟩
  have hGm : 2.6 < G := by
    rw [hG, pow_succ]
    have : 1 ≤ ((3 + √5) / 2) ^ m := one_le_pow₀ (by linarith)
    nlinarith
  rw [← hG, ← worstRate_pow, ← pow_mul, mul_comm 4, pow_mul, ← mul_pow] at hi
  have hi' : 5 * (S : ℝ) ^ 2 * G < e * D * worstRate ^ l.length :=
    lt_of_pow_lt_pow_left₀ 4 (by positivity) hi
  have hDpos : 0 < D := by
    rcases hD0.lt_or_eq with h | h
    · exact h
    · rw [← h, mul_zero, zero_mul] at hi'
      have : 0 ≤ 5 * (S : ℝ) ^ 2 * G := by positivity
      linarith
  -- the denominator at `t`
  have bc : |(c : ℝ)| ≤ S := by
    have : |c| ≤ S := by have := abs_nonneg e'; omega
    exact_mod_cast this
  have ba : |(a : ℝ)| ≤ S := by
    have : |a| ≤ S := by have := abs_nonneg b; omega
    exact_mod_cast this
  have hS0 : (0 : ℝ) ≤ S := le_trans (abs_nonneg _) bc
  obtain ⟨Q, hQ⟩ : ∃ Q, Q = |(c : ℝ) * t + e'| := ⟨_, rfl⟩
  have hQ0 : 0 < Q := by rw [hQ]; exact abs_pos.2 r1
  have hDQ : D ≤ 2 * S * Q := by
    have e1 : (a : ℝ) * t + b = u * (c * t + e') := by rw [← r2, div_mul_cancel₀ _ r1]
    have e2 : (a : ℝ) * e' - b * c = (a - c * u) * (c * t + e') := by linear_combination (-c : ℝ) * e1
    rw [← hdet, e2, abs_mul, ← hQ]
    refine mul_le_mul_of_nonneg_right ?_ hQ0.le
    have := abs_sub (a : ℝ) (c * u)
    rw [abs_mul, abs_of_pos ru0] at this
    have := mul_le_of_le_one_right (abs_nonneg (c : ℝ)) ru1.le
    linarith
  have hS : (0 : ℝ) < S := by
    rcases hS0.lt_or_eq with h | h
    · exact h
    · rw [← h] at hDQ; linarith
  have main : ∀ s, Begins l s → (c : ℝ) * s + e' ≠ 0 ∧
      |((a : ℝ) * s + b) / (c * s + e') - u| * G < e := by
    intro s hs
    obtain ⟨w, hw⟩ : ∃ w, w = |(s : ℝ) - t| := ⟨_, rfl⟩
    have hw0 : 0 ≤ w := by rw [hw]; positivity
    have near := begins_near hs ht
    rw [← hw] at near
    have n1 : 40 / 9 * (S : ℝ) ^ 2 * G * w < e * D := by
      have hr : 0 < worstRate ^ l.length := pow_pos hp _
      have h3 : 5 * (S : ℝ) ^ 2 * G * (8 / 9 * w * worstRate ^ l.length) ≤ 5 * (S : ℝ) ^ 2 * G :=
        mul_le_of_le_one_right (by positivity) near
      have h4 : (40 / 9 * (S : ℝ) ^ 2 * G * w) * worstRate ^ l.length <
          (e * D) * worstRate ^ l.length := by linarith
      exact lt_of_mul_lt_mul_right h4 hr.le
    have n2 : 20 * (S * w) ≤ 2 * Q := by
      have he2 : (e : ℝ) ≤ 1 / 2 := by linarith
      have h3 : 40 / 9 * (S : ℝ) ^ 2 * 2.6 * w ≤ 40 / 9 * (S : ℝ) ^ 2 * G * w :=
        mul_le_mul_of_nonneg_right (mul_le_mul_of_nonneg_left hGm.le (by positivity)) hw0
      have h4 : (e : ℝ) * D ≤ 1 / 2 * (2 * S * Q) := mul_le_mul he2 hDQ hD0 (by norm_num)
      have h5 : (S : ℝ) * (40 / 9 * 2.6 * (S * w)) ≤ S * Q := by linarith
      have h6 := le_of_mul_le_mul_left h5 hS
      have : 0 ≤ S * w := by positivity
      linarith
    have n3 : 9 / 10 * Q ≤ |(c : ℝ) * s + e'| := by
      have e1 : (c : ℝ) * t + e' = (c * s + e') - c * (s - t) := by ring
      have h3 := abs_sub ((c : ℝ) * s + e') (c * (s - t))
      rw [← e1, ← hQ, abs_mul, ← hw] at h3
      have : |(c : ℝ)| * w ≤ S * w := mul_le_mul_of_nonneg_right bc hw0
      linarith
    have n4 : (c : ℝ) * s + e' ≠ 0 := abs_pos.1 (by linarith)
    refine ⟨n4, ?_⟩
    have key := values_apart (a := a) (b := b) n4 r1
    rw [r2, ← hQ, hdet, ← hw] at key
    obtain ⟨V, hV⟩ : ∃ V, V = |((a : ℝ) * s + b) / (c * s + e') - u| := ⟨_, rfl⟩
    rw [← hV] at key ⊢
    have hV0 : 0 ≤ V := by rw [hV]; positivity
    have n5 : V * (9 / 10 * Q * Q) ≤ D * w := by
      rw [← key]
      exact mul_le_mul_of_nonneg_left (mul_le_mul_of_nonneg_right n3 hQ0.le) hV0
    have n6 : V * (9 / 10 * (D * D)) ≤ 4 * (S : ℝ) ^ 2 * (D * w) := by
      have h3 : D * D ≤ (2 * S * Q) * (2 * S * Q) := mul_le_mul hDQ hDQ hD0 (by positivity)
      calc V * (9 / 10 * (D * D)) ≤ V * (9 / 10 * ((2 * S * Q) * (2 * S * Q))) := by
            refine mul_le_mul_of_nonneg_left ?_ hV0
            linarith
        _ = 4 * (S : ℝ) ^ 2 * (V * (9 / 10 * Q * Q)) := by ring
        _ ≤ _ := mul_le_mul_of_nonneg_left n5 (by positivity)
    have n7 : V * D ≤ 40 / 9 * (S : ℝ) ^ 2 * w := by
      have h3 : D * (V * D) ≤ D * (40 / 9 * (S : ℝ) ^ 2 * w) := by linarith
      exact le_of_mul_le_mul_left h3 hDpos
    have n8 : V * D * G ≤ 40 / 9 * (S : ℝ) ^ 2 * w * G := mul_le_mul_of_nonneg_right n7 (by linarith)
    have n9 : (V * G) * D < e * D := by linarith
    exact lt_of_mul_lt_mul_right n9 hD0
  have result : ∀ s, Begins l s → dx * applyPrimer p s + d ≠ 0 ∧ ∃ v : ℚ, 0 < v ∧ v < 1 ∧ e ≤ 2 * v ∧
      (nx * applyPrimer p s + n) / (dx * applyPrimer p s + d) = applyPrimer p' v ∧
      symbols m v = symbols m u := by
    intro s hs
    obtain ⟨m1, m2⟩ := main s hs
    obtain ⟨v, hv⟩ : ∃ v : ℚ, v = (a * s + b) / (c * s + e') := ⟨_, rfl⟩
    have hv' : ((a : ℝ) * s + b) / (c * s + e') = v := by rw [hv]; push_cast; rfl
    rw [hv'] at m2
    obtain ⟨V, hV⟩ : ∃ V, V = |(v : ℝ) - u| := ⟨_, rfl⟩
    have hV0 : 0 ≤ V := by rw [hV]; positivity
    have hV2 : 2 * V ≤ e := by
      rw [← hV] at m2
      nlinarith
    have h3 := abs_le.1 (hV ▸ le_refl V : |(v : ℝ) - u| ≤ V)
    have v0 : (0 : ℝ) < v := by linarith
    have v1 : (v : ℝ) < 1 := by linarith
    have hv0 : 0 < v := by exact_mod_cast v0
    have q1' : (c : ℚ) * s + e' ≠ 0 := by exact_mod_cast m1
    obtain ⟨k1, k2⟩ := (g4 s v hs.1 hv0).2 ⟨q1', hv.symm⟩
    refine ⟨k1, v, hv0, by exact_mod_cast v1, ?_, k2, ?_⟩
    · have : (e : ℝ) ≤ 2 * v := by linarith
      exact_mod_cast this
    · rw [← symbolsR_cast, ← symbolsR_cast]
      refine (same_symbols m ru0 ru1 v0 v1 re
        (fun j hj => Spec.Undisturbed.restR ⟨he, heu, hue, hm⟩ j hj) ?_).1.symm
      rw [← hG, abs_sub_comm]
      exact m2
  refine ⟨fun s hs => ?_, fun s hs => ?_⟩
  · obtain ⟨k1, v, k2, k3, -, k4, k5⟩ := result s hs
    exact ⟨k1, v, k2, k3, k4, k5⟩
  · obtain ⟨k1, v, k2, k3, k6, k4, k5⟩ := result s hs
    rw [k4, le_div_iff₀ he]
    have hinv : 1 / v * e ≤ 2 := by
      rw [one_div, inv_mul_le_iff₀ k2]; linarith
    have hle : v * e ≤ 2 := by nlinarith
    rcases p' with _ | _ | _ | _ <;> simp only [applyPrimer, abs_neg]
    · rwa [abs_of_pos k2]
    · rwa [abs_of_pos (by positivity : 0 < 1 / v)]
    · rwa [abs_of_pos k2]
    · rwa [abs_of_pos (by positivity : 0 < 1 / v)]

end

/-! ## What this says of `homographic` -/

section

variable {cfg : Cfg} {p p' : Option Primer} {nx n dx d S : Int} {c c' : Clog} {l : List Reduction}
  {m : Nat}

theorem C87_not_settled (h1 : |nx| + |n| ≤ S) (h2 : |dx| + |d| ≤ S)
    (hi : (3 * (S : ℝ) ^ 2 * ((3 + √5) / 2) ^ l.length) ^ 4 <
      |((nx * d - n * dx : Int) : ℝ)| ^ 4 * (5 + 2 * √6) ^ m) (l1 l2 : List Reduction)
    (p' : Option Primer) (out : List (Option Reduction)) (e : l = l1 ++ l2) :
    ¬Settled p nx n dx d l1 p' m out := by
  intro hs
  have h := C87_at_least h1 h2 hs
  have h5 : 2.2 < √5 := Real.lt_sqrt_of_sq_lt (by norm_num)
  have hle : ((3 + √5) / 2) ^ l1.length ≤ ((3 + √5) / 2) ^ l.length :=
    pow_le_pow_right₀ (by linarith) (by rw [e, List.length_append]; omega)
  have : (3 * (S : ℝ) ^ 2 * ((3 + √5) / 2) ^ l1.length) ^ 4 ≤
      (3 * (S : ℝ) ^ 2 * ((3 + √5) / 2) ^ l.length) ^ 4 :=
    pow_le_pow_left₀ (by positivity) (mul_le_mul_of_nonneg_left hle (by positivity)) 4
  linarith

/-- The first `i` symbols of the operand are not enough for the primer and `m` symbols of the result when
`i` is small: if the operand panics after them, so does `homographic`, or the `m` calls of `egest` on the
result (unless a number is too large before). -/
theorem C87_reads_at_least (hc : cfg.overflowChecks = true) (hdet : nx * d - n * dx ≠ 0)
    (h1 : |nx| + |n| ≤ S) (h2 : |dx| + |d| ≤ S) (hl : Gives cfg c l c')
    (hi : (3 * (S : ℝ) ^ 2 * ((3 + √5) / 2) ^ l.length) ^ 4 <
      |((nx * d - n * dx : Int) : ℝ)| ^ 4 * (5 + 2 * √6) ^ m)
    {P : Panic} (hP : Panics (fun f => Clog.egest cfg f c') P) :
    Ends (fun e => Overflow e ∨ e = P)
      (fun f => Number.homographic cfg f (.Other p c) nx n dx d) fun v =>
      ∃ p1 c0, v = .Other p1 c0 ∧
        Ends (fun e => Overflow e ∨ e = P) (fun f => Clog.egests cfg f m c0) fun _ => False :=
  C59_unsettled_reads_on hc hdet hl (C87_not_settled h1 h2 hi) hP

/-- As above, when the operand never answers after the first `i` symbols: then the `m` symbols of the
result are never answered. -/
theorem C87_waits_at_least (hc : cfg.overflowChecks = true) (hdet : nx * d - n * dx ≠ 0)
    (h1 : |nx| + |n| ≤ S) (h2 : |dx| + |d| ≤ S) (hl : Gives cfg c l c')
    (hi : (3 * (S : ℝ) ^ 2 * ((3 + √5) / 2) ^ l.length) ^ 4 <
      |((nx * d - n * dx : Int) : ℝ)| ^ 4 * (5 + 2 * √6) ^ m)
    (hP : Diverges (fun f => Clog.egest cfg f c')) :
    May Overflow (fun f => Number.homographic cfg f (.Other p c) nx n dx d) fun v =>
      ∃ p1 c0, v = .Other p1 c0 ∧
        May Overflow (fun f => Clog.egests cfg f m c0) fun _ => False :=
  C59_unsettled_waits hc hdet hl (C87_not_settled h1 h2 hi) hP

/-- The first `i` symbols of the operand are enough when `i` is large: the primer and the `m` symbols of the
result are then given without reading more of the operand (unless a number is too large before), whatever
the operand does later. -/
theorem C87_reads_at_most (hc : cfg.overflowChecks = true) (h1 : |nx| + |n| ≤ S)
    (h2 : |dx| + |d| ≤ S) (hl : Gives cfg c l c') {t u e : ℚ} (ht : Begins l t)
    (hd : dx * applyPrimer p t + d ≠ 0)
    (hu : (nx * applyPrimer p t + n) / (dx * applyPrimer p t + d) = applyPrimer p' u)
    (hm : Undisturbed e m u)
    (hi : (5 * (S : ℝ) ^ 2 * ((3 + √5) / 2) ^ (m + 1)) ^ 4 <
      ((e : ℝ) * |((nx * d - n * dx : Int) : ℝ)|) ^ 4 * (5 + 2 * √6) ^ l.length) :
    Ends Overflow (fun f => Number.homographic cfg f (.Other p c) nx n dx d) fun v =>
      ∃ c0, v = .Other p' c0 ∧ Ends Overflow (fun f => Clog.egests cfg f m c0) fun r =>
        r.1 = symbols m u ∧
          ∃ l1 l2 c1 k, l = l1 ++ l2 ∧ Gives cfg c l1 c1 ∧ r.2 = .homographic c1 k := by
  obtain ⟨hs, hb⟩ := C87_at_most h1 h2 ht hd hu hm hi
  have hdet : nx * d - n * dx ≠ 0 := by
    intro e0
    rw [e0, Int.cast_zero, abs_zero, mul_zero, zero_pow (by norm_num), zero_mul] at hi
    have : 0 ≤ (5 * (S : ℝ) ^ 2 * ((3 + √5) / 2) ^ (m + 1)) ^ 4 := by positivity
    linarith
  refine (C59_settled_is_enough hc hdet hl hs (.inr ⟨_, hb⟩)).mono ?_
  rintro v ⟨c0, rfl, h⟩
  refine ⟨c0, rfl, h.mono ?_⟩
  rintro ⟨o, c2⟩ ⟨rfl, l1, l2, c1, k, e, g1, g2, rfl⟩
  exact ⟨rfl, l1, l2, c1, k, e, g1, rfl⟩

/-- With or without overflow checks: if moreover the square of `S * 2^i` is a machine integer, the primer
and the `m` symbols are returned, exactly. -/
theorem C87_returns (h1 : |nx| + |n| ≤ S) (h2 : |dx| + |d| ≤ S)
    (hM : (S * 2 ^ l.length) ^ 2 ≤ cfg.imax) (hl : Gives cfg c l c') {t u e : ℚ} (ht : Begins l t)
    (hd : dx * applyPrimer p t + d ≠ 0)
    (hu : (nx * applyPrimer p t + n) / (dx * applyPrimer p t + d) = applyPrimer p' u)
    (hm : Undisturbed e m u)
    (hi : (5 * (S : ℝ) ^ 2 * ((3 + √5) / 2) ^ (m + 1)) ^ 4 <
      ((e : ℝ) * |((nx * d - n * dx : Int) : ℝ)|) ^ 4 * (5 + 2 * √6) ^ l.length) :
    ∃ c0, Returns (fun f => Number.homographic cfg f (.Other p c) nx n dx d) (.Other p' c0) ∧
      ∃ l1 l2 c1 k, l = l1 ++ l2 ∧ Gives cfg c l1 c1 ∧
        Returns (fun f => Clog.egests cfg f m c0) (symbols m u, .homographic c1 k) := by
  obtain ⟨hs, hb⟩ := C87_at_most h1 h2 ht hd hu hm hi
  have hdet : nx * d - n * dx ≠ 0 := by
    intro e0
    rw [e0, Int.cast_zero, abs_zero, mul_zero, zero_pow (by norm_num), zero_mul] at hi
    have : 0 ≤ (5 * (S : ℝ) ^ 2 * ((3 + √5) / 2) ^ (m + 1)) ^ 4 := by positivity
    linarith
  exact C65_homographic h1 h2 hM hdet hl hs (.inr ⟨_, hb⟩)

end

/-! ## In whole numbers -/

theorem C87_constants : ((3 + √5) / 2) ^ 5 ≤ 2 ^ 7 ∧ 2 ^ 33 ≤ (5 + 2 * √6) ^ 10 := by
  have h5 : √5 < 2.2361 := (Real.sqrt_lt' (by norm_num)).2 (by norm_num)
  constructor
  · exact (pow_le_pow_left₀ (by positivity) (by linarith : (3 + √5) / 2 ≤ 2.6181) 5).trans (by norm_num)
  · exact le_trans (by norm_num) (pow_le_pow_left₀ (by norm_num) C83_rate.1.le 10)

private theorem lt_of_pow_ten {x y : ℝ} (hy : 0 ≤ y) (h : x ^ 10 < y ^ 10) : x < y :=
  lt_of_pow_lt_pow_left₀ 10 hy h

/-- `i` symbols of the operand cannot settle `m` symbols of the result when
`56 i + 80 s + 64 ≤ 33 m`, for coefficients up to `2^s`. -/
theorem C87_at_least_simple {nx n dx d S : Int} {s i m : Nat} (hS : |S| ≤ 2 ^ s)
    (hdet : nx * d - n * dx ≠ 0) (h : 56 * i + 80 * s + 64 ≤ 33 * m) :
    (3 * (S : ℝ) ^ 2 * ((3 + √5) / 2) ^ i) ^ 4 <
      |((nx * d - n * dx : Int) : ℝ)| ^ 4 * (5 + 2 * √6) ^ m := by
  obtain ⟨k1, k2⟩ := C87_constants
  have hG0 : 0 < (3 + √5) / 2 := by positivity
  have hR0 : 0 < 5 + 2 * √6 := by positivity
  generalize (3 + √5) / 2 = G at k1 hG0 ⊢
  generalize 5 + 2 * √6 = R at k2 hR0 ⊢
  have hS' : (S : ℝ) ^ 2 ≤ (2 ^ s) ^ 2 := by
    rw [← sq_abs]
    exact pow_le_pow_left₀ (abs_nonneg _) (by exact_mod_cast hS) 2
  have hD : (1 : ℝ) ≤ |((nx * d - n * dx : Int) : ℝ)| ^ 4 := by
    refine one_le_pow₀ ?_
    exact_mod_cast Int.one_le_abs hdet
  refine lt_of_lt_of_le ?_ (le_mul_of_one_le_left (by positivity) hD)
  refine lt_of_pow_ten (by positivity) ?_
  have e1 : ((3 * (S : ℝ) ^ 2 * G ^ i) ^ 4) ^ 10 =
      3 ^ 40 * ((S : ℝ) ^ 2) ^ 40 * ((G ^ 5) ^ i) ^ 8 := by ring
  have e2 : (R ^ m) ^ 10 = (R ^ 10) ^ m := by ring
  rw [e1, e2]
  have a1 : (((S : ℝ) ^ 2) ^ 40) ≤ ((2 ^ s) ^ 2) ^ 40 := pow_le_pow_left₀ (by positivity) hS' 40
  have a2 : ((G ^ 5) ^ i) ^ 8 ≤ ((2 ^ 7) ^ i) ^ 8 :=
    pow_le_pow_left₀ (by positivity) (pow_le_pow_left₀ (by positivity) k1 i) 8
  calc (3 : ℝ) ^ 40 * ((S : ℝ) ^ 2) ^ 40 * ((G ^ 5) ^ i) ^ 8
      ≤ 3 ^ 40 * ((2 ^ s) ^ 2) ^ 40 * ((2 ^ 7) ^ i) ^ 8 :=
        mul_le_mul (mul_le_mul_of_nonneg_left a1 (by positivity)) a2 (by positivity) (by positivity)
    _ < 2 ^ 64 * ((2 ^ s) ^ 2) ^ 40 * ((2 ^ 7) ^ i) ^ 8 := by
        refine mul_lt_mul_of_pos_right (mul_lt_mul_of_pos_right (by norm_num) (by positivity))
          (by positivity)
    _ = 2 ^ (56 * i + 80 * s + 64) := by
        simp only [← pow_mul, ← pow_add]
        congr 1
        ring
    _ ≤ 2 ^ (33 * m) := pow_le_pow_right₀ (by norm_num) h
    _ = (2 ^ 33) ^ m := by rw [pow_mul]
    _ ≤ (R ^ 10) ^ m := pow_le_pow_left₀ (by norm_num) k2 m

/-- They settle them, for a result that keeps away by `1/2^k` from where its symbols change, when
`56 m + 80 s + 40 k + 149 ≤ 33 i`. -/
theorem C87_at_most_simple {nx n dx d S : Int} {s k i m : Nat} (hS : |S| ≤ 2 ^ s)
    (hdet : nx * d - n * dx ≠ 0) (h : 56 * m + 80 * s + 40 * k + 149 ≤ 33 * i) :
    (5 * (S : ℝ) ^ 2 * ((3 + √5) / 2) ^ (m + 1)) ^ 4 <
      (((1 / 2 ^ k : ℚ) : ℝ) * |((nx * d - n * dx : Int) : ℝ)|) ^ 4 * (5 + 2 * √6) ^ i := by
  obtain ⟨k1, k2⟩ := C87_constants
  have hG0 : 0 < (3 + √5) / 2 := by positivity
  have hR0 : 0 < 5 + 2 * √6 := by positivity
  generalize (3 + √5) / 2 = G at k1 hG0 ⊢
  generalize 5 + 2 * √6 = R at k2 hR0 ⊢
  have hS' : (S : ℝ) ^ 2 ≤ (2 ^ s) ^ 2 := by
    rw [← sq_abs]
    exact pow_le_pow_left₀ (abs_nonneg _) (by exact_mod_cast hS) 2
  have hD : (1 / 2 ^ k : ℝ) ^ 4 ≤ (((1 / 2 ^ k : ℚ) : ℝ) * |((nx * d - n * dx : Int) : ℝ)|) ^ 4 := by
    refine pow_le_pow_left₀ (by positivity) ?_ 4
    push_cast
    refine le_mul_of_one_le_right (by positivity) ?_
    have := Int.one_le_abs hdet
    exact_mod_cast this
  refine lt_of_lt_of_le ?_ (mul_le_mul_of_nonneg_right hD (by positivity))
  rw [div_pow 1, one_pow, div_mul_eq_mul_div, one_mul, lt_div_iff₀ (by positivity)]
  refine lt_of_pow_ten (by positivity) ?_
  have e1 : ((5 * (S : ℝ) ^ 2 * G ^ (m + 1)) ^ 4 * (2 ^ k) ^ 4) ^ 10 =
      5 ^ 40 * ((S : ℝ) ^ 2) ^ 40 * ((G ^ 5) ^ (m + 1)) ^ 8 * (2 ^ k) ^ 40 := by ring
  have e2 : (R ^ i) ^ 10 = (R ^ 10) ^ i := by ring
  rw [e1, e2]
  have a1 : (((S : ℝ) ^ 2) ^ 40) ≤ ((2 ^ s) ^ 2) ^ 40 := pow_le_pow_left₀ (by positivity) hS' 40
  have a2 : ((G ^ 5) ^ (m + 1)) ^ 8 ≤ ((2 ^ 7) ^ (m + 1)) ^ 8 :=
    pow_le_pow_left₀ (by positivity) (pow_le_pow_left₀ (by positivity) k1 (m + 1)) 8
  calc (5 : ℝ) ^ 40 * ((S : ℝ) ^ 2) ^ 40 * ((G ^ 5) ^ (m + 1)) ^ 8 * (2 ^ k) ^ 40
      ≤ 5 ^ 40 * ((2 ^ s) ^ 2) ^ 40 * ((2 ^ 7) ^ (m + 1)) ^ 8 * (2 ^ k) ^ 40 :=
        mul_le_mul_of_nonneg_right
          (mul_le_mul (mul_le_mul_of_nonneg_left a1 (by positivity)) a2 (by positivity) (by positivity))
          (by positivity)
    _ < 2 ^ 93 * ((2 ^ s) ^ 2) ^ 40 * ((2 ^ 7) ^ (m + 1)) ^ 8 * (2 ^ k) ^ 40 := by
        refine mul_lt_mul_of_pos_right (mul_lt_mul_of_pos_right
          (mul_lt_mul_of_pos_right (by norm_num) (by positivity)) (by positivity)) (by positivity)
    _ = 2 ^ (56 * m + 80 * s + 40 * k + 149) := by
        simp only [← pow_mul, ← pow_add]
        congr 1
        ring
    _ ≤ 2 ^ (33 * i) := pow_le_pow_right₀ (by norm_num) h
    _ = (2 ^ 33) ^ i := by rw [pow_mul]
    _ ≤ (R ^ 10) ^ i := pow_le_pow_left₀ (by norm_num) k2 i

/-- So, with or without overflow checks: an operand that has given `i` symbols, coefficients up to `2^s`,
a result that keeps away by `1/2^k` from where its symbols change: if `56 m + 80 s + 40 k + 149 ≤ 33 i` and
`2 (s + i) < bits`, the primer and `m` symbols of the result are returned, exactly, from these `i` symbols
and not more. -/
theorem C87_simple (cfg : Cfg) {p p' : Option Primer} {nx n dx d : Int} {c c' : Clog}
    {l : List Reduction} {m s k : Nat} (h1 : |nx| + |n| ≤ 2 ^ s) (h2 : |dx| + |d| ≤ 2 ^ s)
    (hdet : nx * d - n * dx ≠ 0) (hl : Gives cfg c l c') {t u : ℚ} (ht : Begins l t)
    (hd : dx * applyPrimer p t + d ≠ 0)
    (hu : (nx * applyPrimer p t + n) / (dx * applyPrimer p t + d) = applyPrimer p' u)
    (hm : Undisturbed (1 / 2 ^ k) m u) (hi : 56 * m + 80 * s + 40 * k + 149 ≤ 33 * l.length)
    (hb : 2 * (s + l.length) < cfg.bits - 1) :
    ∃ c0, Returns (fun f => Number.homographic cfg f (.Other p c) nx n dx d) (.Other p' c0) ∧
      ∃ l1 l2 c1 k, l = l1 ++ l2 ∧ Gives cfg c l1 c1 ∧
        Returns (fun f => Clog.egests cfg f m c0) (symbols m u, .homographic c1 k) := by
  refine C87_returns (S := 2 ^ s) (e := 1 / 2 ^ k) h1 h2 ?_ hl ht hd hu hm
    (C87_at_most_simple (s := s) (by rw [abs_of_pos (by positivity)]) hdet hi)
  rw [← pow_add, ← pow_mul]
  have h3 : (2 : Int) ^ ((s + l.length) * 2) < 2 ^ (cfg.bits - 1) :=
    pow_lt_pow_right₀ (by norm_num) (by omega)
  have : cfg.imax = 2 ^ (cfg.bits - 1) - 1 := rfl
  omega

theorem symbols_given (i : Nat) (t : ℚ) (h : none ∉ symbols i t) :
    ∃ l : List Reduction, l.length = i ∧ symbols i t = l.map some := by
  induction i generalizing t with
  | zero => exact ⟨[], rfl, rfl⟩
  | succ i ih =>
    rw [symbols_succ] at h ⊢
    simp only [List.mem_cons, not_or] at h
    obtain ⟨l, h1, h2⟩ := ih _ h.2
    rcases hs : sym t with _ | r
    · exact absurd hs.symm h.1
    · exact ⟨r :: l, by rw [List.length_cons, h1], by rw [h2, List.map_cons]⟩

/-- The same for an operand that denotes a number and has not ended after `i` symbols: the result, when
its primer is `p'` and its symbols those of `u`, is given to `m` symbols from at most `i` of the operand. -/
theorem C87_denoted (cfg : Cfg) {p p' : Option Primer} {nx n dx d : Int} {c : Clog} {i m s k : Nat}
    {t u : ℚ} (h1 : |nx| + |n| ≤ 2 ^ s) (h2 : |dx| + |d| ≤ 2 ^ s) (hdet : nx * d - n * dx ≠ 0)
    (ht : Clog.Denotes cfg NoPanic c t) (hn : none ∉ symbols i t)
    (hd : dx * applyPrimer p t + d ≠ 0)
    (hu : (nx * applyPrimer p t + n) / (dx * applyPrimer p t + d) = applyPrimer p' u)
    (hm : Undisturbed (1 / 2 ^ k) m u) (hi : 56 * m + 80 * s + 40 * k + 149 ≤ 33 * i)
    (hb : 2 * (s + i) < cfg.bits - 1) :
    ∃ c0, Returns (fun f => Number.homographic cfg f (.Other p c) nx n dx d) (.Other p' c0) ∧
      ∃ j ≤ i, ∃ c1 k, Returns (fun f => Clog.egests cfg f j c) (symbols j t, c1) ∧
        Returns (fun f => Clog.egests cfg f m c0) (symbols m u, .homographic c1 k) := by
  obtain ⟨l, hl, e⟩ := symbols_given i t hn
  obtain ⟨t0, t1, h⟩ := ht
  rcases h i with ⟨⟨o, c'⟩, hr, ho⟩ | ⟨_, _, hA⟩
  · simp only at ho
    subst hl
    rw [ho, e] at hr
    obtain ⟨c0, g1, l1, l2, c1, k', e', g2, g3⟩ :=
      C87_simple cfg h1 h2 hdet hr ⟨t0, t1, e⟩ hd hu hm hi hb
    refine ⟨c0, g1, l1.length, by rw [e', List.length_append]; omega, c1, k', ?_, g3⟩
    rcases h l1.length with ⟨⟨o1, c2⟩, hr1, ho1⟩ | ⟨_, _, hA⟩
    · obtain ⟨f1, q1⟩ := hr1
      obtain ⟨f2, q2⟩ := g2
      have q := (q1 (max f1 f2) (by omega)).symm.trans (q2 (max f1 f2) (by omega))
      simp only [Out.ok.injEq, Prod.mk.injEq] at q
      simp only at ho1
      rw [← ho1, q.1]
      exact ⟨f2, q2⟩
    · exact hA.elim
  · exact hA.elim

/-! ## Examples -/

/-- The first 30 symbols of 4555390/9815116. -/
def thirty : List Reduction :=
  [.Amplify, .Uncover, .Amplify, .Amplify, .Amplify, .Uncover, .Uncover, .Uncover, .Uncover,
   .Uncover, .Uncover, .Uncover, .Amplify, .Uncover, .Uncover, .Uncover, .Uncover, .Amplify,
   .Uncover, .Amplify, .Uncover, .Uncover, .Amplify, .Uncover, .Amplify, .Amplify, .Amplify,
   .Amplify, .Amplify, .Uncover]

theorem thirty_given : Gives debug64 (.ratio ⟨4555390, 9815116⟩) thirty (.ratio ⟨111, 448⟩) :=
  FuelMono.returns (Clog.egests_mono _ _ _) 60 (by decide +kernel)

theorem thirty_begins : Begins thirty (4555390 / 9815116) := by
  refine ⟨by norm_num, by norm_num, ?_⟩
  decide +kernel

theorem thirty_undisturbed : Undisturbed (1 / 2 ^ 3) 11 (14370506 / 19630232) := by
  refine ⟨by norm_num, by norm_num, by norm_num, ?_⟩
  decide +kernel

theorem thirty_not_zero :
    ((0 : Int) : ℚ) * applyPrimer none (4555390 / 9815116) + ((2 : Int) : ℚ) ≠ 0 := by
  norm_num [applyPrimer]

theorem thirty_value :
    (((1 : Int) : ℚ) * applyPrimer none (4555390 / 9815116) + ((1 : Int) : ℚ)) /
      (((0 : Int) : ℚ) * applyPrimer none (4555390 / 9815116) + ((2 : Int) : ℚ)) =
    applyPrimer none (14370506 / 19630232) := by
  norm_num [applyPrimer]

/-- (x + 1)/2 for x = 4555390/9815116: 11 symbols from 30. -/
example := C87_at_most (nx := 1) (n := 1) (dx := 0) (d := 2) (S := 2) (p := none) (p' := none)
  (by decide) (by decide) thirty_begins thirty_not_zero thirty_value thirty_undisturbed
  (C87_at_most_simple (s := 1) (by decide) (by decide) (by decide))

example := C87_reads_at_most (cfg := debug64) (nx := 1) (n := 1) (dx := 0) (d := 2) (S := 2) (p := none)
  (p' := none) rfl (by decide) (by decide) thirty_given thirty_begins thirty_not_zero thirty_value
  thirty_undisturbed (C87_at_most_simple (s := 1) (by decide) (by decide) (by decide))

example := C87_returns (cfg := debug64) (nx := 1) (n := 1) (dx := 0) (d := 2) (S := 2) (p := none)
  (p' := none) (by decide) (by decide) (by decide) thirty_given thirty_begins thirty_not_zero thirty_value
  thirty_undisturbed (C87_at_most_simple (s := 1) (by decide) (by decide) (by decide))

example := C87_simple debug64 (nx := 1) (n := 1) (dx := 0) (d := 2) (p := none) (p' := none) (s := 1)
  (k := 3) (m := 11) (by decide) (by decide) (by decide) thirty_given thirty_begins thirty_not_zero
  thirty_value thirty_undisturbed (by decide) (by decide)

example := C87_denoted debug64 (nx := 1) (n := 1) (dx := 0) (d := 2) (p := none) (p' := none) (s := 1)
  (k := 3) (m := 11) (i := 30) (by decide) (by decide) (by decide)
  (Ratio.denotes (r := ⟨4555390, 9815116⟩) ⟨by decide, by decide, by decide⟩)
  (by decide +kernel) thirty_not_zero thirty_value thirty_undisturbed (by decide) (by decide)

/-- And from 30 symbols not more than 56 can be had. -/
example (p p' : Option Primer) (out : List (Option Reduction)) : ¬Settled p 1 1 0 2 thirty p' 56 out :=
  C87_not_settled (S := 2) (by decide) (by decide)
    (C87_at_least_simple (s := 1) (i := thirty.length) (by decide) (by decide) (by decide)) thirty [] p' out
    (List.append_nil _).symm

theorem thirty_settled : Settled none 1 1 0 2 thirty none 11 (symbols 11 (14370506 / 19630232)) :=
  (C87_at_most (S := 2) (by decide) (by decide) thirty_begins thirty_not_zero thirty_value
    thirty_undisturbed (C87_at_most_simple (s := 1) (by decide) (by decide) (by decide))).1

example := C87_at_least (S := 2) (by decide) (by decide) thirty_settled

/-- `ratio(isize::MAX, 1) + 1` gives 62 symbols and panics. -/
private theorem max_plus_one : Gives debug64
    (.homographic (.ratio ⟨1, 9223372036854775807⟩) ⟨1, 0, 1, 1⟩) (List.replicate 62 .Amplify)
    (.homographic (.ratio ⟨4611686018427387904, 9223372036854775807⟩)
      ⟨4611686018427387904, 0, 1, 4611686018427387904⟩) :=
  FuelMono.returns (Clog.egests_mono _ _ _) 100 (by decide +kernel)

/-- So of its half there are never 110 symbols. -/
example := C87_reads_at_least (cfg := debug64) (nx := 1) (n := 0) (dx := 0) (d := 2) (S := 2)
  (p := some .Turn) (m := 110) (P := .unwrapNone) rfl (by decide) (by decide) (by decide) max_plus_one
  (C87_at_least_simple (s := 1) (i := (List.replicate 62 Reduction.Amplify).length) (by decide) (by decide) (by decide))
  (FuelMono.panics (Clog.egest_mono _ _) 5 (by decide +kernel))

/-- A clog that never answers, as in C59: five symbols of its half are never
given. -/
example := C87_waits_at_least (cfg := debug64) (p := none) (nx := 1) (n := 0) (dx := 0) (d := 2)
  (S := 2) (l := []) (m := 5) rfl (by decide) (by decide) (by decide) ⟨0, fun _ _ => rfl⟩
  (C87_at_least_simple (s := 1) (i := 0) (by decide) (by decide) (by decide)) endless

end Clarith
