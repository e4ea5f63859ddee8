import Verif.Proofs.FieldHomographic
import Verif.Proofs.CombineNew

/-! # `Combine` follows the value of its map, in any ordered field -/

namespace Clarith

open Out Spec

variable {K : Type*} [Field K] [LinearOrder K] [IsStrictOrderedRing K]

omit [IsStrictOrderedRing K] in
theorem symIn_none {u : K} (h : symIn u = none) : u = 1 / 2 := by
  rcases lt_trichotomy u (1 / 2) with hu | hu | hu
  · rw [symIn_lt hu] at h; cases h
  · exact hu
  · rw [symIn_gt hu] at h; cases h

namespace Coef8

/-! ## Values -/

/-- Numerator at `(u, v)`. -/
def numIn (k : Coef8) (u v : K) : K := k.a * u * v + k.b * u + k.c * v + k.d
/-- Denominator at `(u, v)`. -/
def denIn (k : Coef8) (u v : K) : K := k.e * u * v + k.f * u + k.g * v + k.h
/-- Value at `(u, v)`. -/
def valIn (k : Coef8) (u v : K) : K := k.numIn u v / k.denIn u v

omit [LinearOrder K] [IsStrictOrderedRing K] in
theorem valIn_opp (k : Coef8) (u v : K) : k.opp.valIn u v = k.valIn u v := by
  simp only [valIn, numIn, denIn, opp]
  push_cast
  rw [← neg_div_neg_eq]
  congr 1 <;> ring

/-- A bilinear function is a convex combination of its values at the corners. -/
theorem bilin_pos_in {a b c d : Int} {u v : K} (u0 : 0 < u) (u1 : u < 1) (v0 : 0 < v) (v1 : v < 1)
    (h00 : 0 < d) (h01 : 0 < c + d) (h10 : 0 < b + d) (h11 : 0 < a + b + c + d) :
    (0 : K) < a * u * v + b * u + c * v + d := by
  have g00 : (0 : K) < d := by exact_mod_cast h00
  have g01 : (0 : K) < (c : K) + d := by exact_mod_cast h01
  have g10 : (0 : K) < (b : K) + d := by exact_mod_cast h10
  have g11 : (0 : K) < (a : K) + b + c + d := by exact_mod_cast h11
  have e : (a : K) * u * v + b * u + c * v + d = (1 - u) * (1 - v) * d + (1 - u) * v * (c + d) +
    u * (1 - v) * (b + d) + u * v * (a + b + c + d) := by ring
  rw [e]
  have u2 : 0 < 1 - u := by linarith
  have v2 : 0 < 1 - v := by linarith
  positivity

theorem Pos.denIn_pos {k : Coef8} (h : Pos k) {u v : K} (u0 : 0 < u) (u1 : u < 1) (v0 : 0 < v)
    (v1 : v < 1) : 0 < k.denIn u v := by
  unfold Pos at h
  exact bilin_pos_in u0 u1 v0 v1 (by omega) (by omega) (by omega) (by omega)

theorem Pos.numIn_pos {k : Coef8} (h : Pos k) {u v : K} (u0 : 0 < u) (u1 : u < 1) (v0 : 0 < v)
    (v1 : v < 1) : 0 < k.numIn u v := by
  unfold Pos at h
  exact bilin_pos_in u0 u1 v0 v1 (by omega) (by omega) (by omega) (by omega)

theorem Pos.numIn_lt {k : Coef8} (h : Pos k) {u v : K} (u0 : 0 < u) (u1 : u < 1) (v0 : 0 < v)
    (v1 : v < 1) : k.numIn u v < k.denIn u v := by
  unfold Pos at h
  have := bilin_pos_in (a := k.e - k.a) (b := k.f - k.b) (c := k.g - k.c) (d := k.h - k.d)
    u0 u1 v0 v1 (by omega) (by omega) (by omega) (by omega)
  unfold numIn denIn
  push_cast at this
  linarith

theorem Pos.valIn_mem {k : Coef8} (h : Pos k) {u v : K} (u0 : 0 < u) (u1 : u < 1) (v0 : 0 < v)
    (v1 : v < 1) : 0 < k.valIn u v ∧ k.valIn u v < 1 := by
  have d := h.denIn_pos u0 u1 v0 v1
  exact ⟨div_pos (h.numIn_pos u0 u1 v0 v1) d, by
    unfold valIn; rw [div_lt_iff₀ d, one_mul]; exact h.numIn_lt u0 u1 v0 v1⟩

theorem Inv.valIn_mem {k : Coef8} (h : Inv k) {u v : K} (u0 : 0 < u) (u1 : u < 1) (v0 : 0 < v)
    (v1 : v < 1) : 0 < k.valIn u v ∧ k.valIn u v < 1 := by
  rcases h with h | h
  · exact h.valIn_mem u0 u1 v0 v1
  · rw [← valIn_opp]; exact h.valIn_mem u0 u1 v0 v1

omit [LinearOrder K] [IsStrictOrderedRing K] in
theorem denIn_opp (k : Coef8) (u v : K) : k.opp.denIn u v = -k.denIn u v := by
  simp only [denIn, opp]; push_cast; ring

theorem Inv.denIn_ne {k : Coef8} (h : Inv k) {u v : K} (u0 : 0 < u) (u1 : u < 1) (v0 : 0 < v)
    (v1 : v < 1) : k.denIn u v ≠ 0 := by
  rcases h with h | h
  · exact (h.denIn_pos u0 u1 v0 v1).ne'
  · have := h.denIn_pos u0 u1 v0 v1
    rw [denIn_opp] at this
    intro e; rw [e] at this; simp at this

theorem Amen.ne_in {a b c d : Int} (h : Amen a b c d) {u v : K} (u0 : 0 < u) (u1 : u < 1)
    (v0 : 0 < v) (v1 : v < 1) : (a : K) * u * v + b * u + c * v + d ≠ 0 := by
  unfold Amen at h
  rcases h with h | h
  · exact (bilin_pos_in u0 u1 v0 v1 (by omega) (by omega) (by omega) (by omega)).ne'
  · have := bilin_pos_in (a := -a) (b := -b) (c := -c) (d := -d)
      u0 u1 v0 v1 (by omega) (by omega) (by omega) (by omega)
    push_cast at this
    intro e
    linarith

/-! ## Ingestion -/

/-- `k'` at `(u', v')` is `k` at `(u, v)`, as a pair of numerator and denominator. -/
def SameIn (k : Coef8) (u v : K) (k' : Coef8) (u' v' : K) : Prop :=
  ∃ t : K, t ≠ 0 ∧ k'.numIn u' v' = t * k.numIn u v ∧ k'.denIn u' v' = t * k.denIn u v

omit [LinearOrder K] [IsStrictOrderedRing K] in
theorem SameIn.val {k k' : Coef8} {u v u' v' : K} (h : SameIn k u v k' u' v') :
    k'.valIn u' v' = k.valIn u v := by
  obtain ⟨t, ht, h1, h2⟩ := h
  unfold Coef8.valIn
  rw [h1, h2, mul_div_mul_left _ _ ht]

omit [LinearOrder K] [IsStrictOrderedRing K] in
theorem SameIn.den {k k' : Coef8} {u v u' v' : K} (h : SameIn k u v k' u' v') :
    k'.denIn u' v' = 0 ↔ k.denIn u v = 0 := by
  obtain ⟨t, ht, h1, h2⟩ := h
  rw [h2, mul_eq_zero, or_iff_right ht]

omit [IsStrictOrderedRing K] in
theorem symIn_cases {u : K} {r} (h : symIn u = some r) :
    (r = .Amplify ∧ nextIn u = 2 * u) ∨ (r = .Uncover ∧ 1 / 2 < u ∧ nextIn u = 1 / u - 1) := by
  rcases lt_trichotomy u (1 / 2) with hu | hu | hu
  · rw [symIn_lt hu] at h; exact .inl ⟨(Option.some.inj h).symm, nextIn_lt hu⟩
  · rw [hu, symIn_half] at h; cases h
  · rw [symIn_gt hu] at h; exact .inr ⟨(Option.some.inj h).symm, hu, nextIn_gt hu⟩

theorem IngX.sameIn {r : Reduction} {k k' : Coef8} (h : IngX r k k') {u v : K}
    (hu : symIn u = some r) : SameIn k u v k' (nextIn u) v := by
  rcases symIn_cases hu with ⟨rfl, hn⟩ | ⟨rfl, hu, hn⟩
  · obtain ⟨s, hs, ⟨a1, a2, a3, a4⟩, a5, a6, a7, a8⟩ := h
    have hs' : (s : K) ≠ 0 := Coef4.cast_ne hs
    have b1 : (s : K) * k'.a = k.a := by exact_mod_cast a1
    have b2 : (s : K) * k'.b = k.b := by exact_mod_cast a2
    have b3 : (s : K) * k'.c = 2 * k.c := by exact_mod_cast a3
    have b4 : (s : K) * k'.d = 2 * k.d := by exact_mod_cast a4
    have b5 : (s : K) * k'.e = k.e := by exact_mod_cast a5
    have b6 : (s : K) * k'.f = k.f := by exact_mod_cast a6
    have b7 : (s : K) * k'.g = 2 * k.g := by exact_mod_cast a7
    have b8 : (s : K) * k'.h = 2 * k.h := by exact_mod_cast a8
    refine ⟨2 / s, div_ne_zero two_ne_zero hs', ?_, ?_⟩
    · rw [hn, div_mul_eq_mul_div, eq_div_iff hs']
      unfold numIn
      linear_combination 2 * u * v * b1 + 2 * u * b2 + v * b3 + b4
    · rw [hn, div_mul_eq_mul_div, eq_div_iff hs']
      unfold denIn
      linear_combination 2 * u * v * b5 + 2 * u * b6 + v * b7 + b8
  · obtain rfl : k' = _ := h
    have hu' : u ≠ 0 := (lt_trans (by norm_num) hu).ne'
    refine ⟨1 / u, one_div_ne_zero hu', ?_, ?_⟩
    · rw [hn]; unfold numIn; push_cast; field_simp; ring
    · rw [hn]; unfold denIn; push_cast; field_simp; ring

theorem IngY.sameIn {r : Reduction} {k k' : Coef8} (h : IngY r k k') {u v : K}
    (hv : symIn v = some r) : SameIn k u v k' u (nextIn v) := by
  rcases symIn_cases hv with ⟨rfl, hn⟩ | ⟨rfl, hv, hn⟩
  · obtain ⟨s, hs, ⟨a1, a2, a3, a4⟩, a5, a6, a7, a8⟩ := h
    have hs' : (s : K) ≠ 0 := Coef4.cast_ne hs
    have b1 : (s : K) * k'.a = k.a := by exact_mod_cast a1
    have b2 : (s : K) * k'.b = 2 * k.b := by exact_mod_cast a2
    have b3 : (s : K) * k'.c = k.c := by exact_mod_cast a3
    have b4 : (s : K) * k'.d = 2 * k.d := by exact_mod_cast a4
    have b5 : (s : K) * k'.e = k.e := by exact_mod_cast a5
    have b6 : (s : K) * k'.f = 2 * k.f := by exact_mod_cast a6
    have b7 : (s : K) * k'.g = k.g := by exact_mod_cast a7
    have b8 : (s : K) * k'.h = 2 * k.h := by exact_mod_cast a8
    refine ⟨2 / s, div_ne_zero two_ne_zero hs', ?_, ?_⟩
    · rw [hn, div_mul_eq_mul_div, eq_div_iff hs']
      unfold numIn
      linear_combination 2 * u * v * b1 + u * b2 + 2 * v * b3 + b4
    · rw [hn, div_mul_eq_mul_div, eq_div_iff hs']
      unfold denIn
      linear_combination 2 * u * v * b5 + u * b6 + 2 * v * b7 + b8
  · obtain rfl : k' = _ := h
    have hv' : v ≠ 0 := (lt_trans (by norm_num) hv).ne'
    refine ⟨1 / v, one_div_ne_zero hv', ?_, ?_⟩
    · rw [hn]; unfold numIn; push_cast; field_simp; ring
    · rw [hn]; unfold denIn; push_cast; field_simp; ring

/-- `k'` at `w` is `k` at `(u, v)`, as a pair of numerator and denominator. -/
def Same4In (k : Coef8) (u v : K) (k' : Coef4) (w : K) : Prop :=
  ∃ t : K, t ≠ 0 ∧ k'.numIn w = t * k.numIn u v ∧ k'.denIn w = t * k.denIn u v

omit [LinearOrder K] [IsStrictOrderedRing K] in
theorem Same4In.val {k : Coef8} {k' : Coef4} {u v w : K} (h : Same4In k u v k' w) :
    k'.valIn w = k.valIn u v := by
  obtain ⟨t, ht, h1, h2⟩ := h
  rw [Coef4.valIn, h1, h2, mul_div_mul_left _ _ ht]
  rfl

omit [LinearOrder K] [IsStrictOrderedRing K] in
theorem Same4In.den {k : Coef8} {k' : Coef4} {u v w : K} (h : Same4In k u v k' w) :
    k'.denIn w = 0 ↔ k.denIn u v = 0 := by
  obtain ⟨t, ht, h1, h2⟩ := h
  rw [h2, mul_eq_zero, or_iff_right ht]

theorem EndX.sameIn {k : Coef8} {k' : Coef4} (h : EndX k k') (v : K) :
    Same4In k (1 / 2) v k' v := by
  obtain ⟨s, hs, a1, a2, a3, a4⟩ := h
  have hs' : (s : K) ≠ 0 := Coef4.cast_ne hs
  have b1 : (s : K) * k'.nx = k.a + 2 * k.c := by exact_mod_cast a1
  have b2 : (s : K) * k'.n = k.b + 2 * k.d := by exact_mod_cast a2
  have b3 : (s : K) * k'.dx = k.e + 2 * k.g := by exact_mod_cast a3
  have b4 : (s : K) * k'.d = k.f + 2 * k.h := by exact_mod_cast a4
  refine ⟨2 / s, div_ne_zero two_ne_zero hs', ?_, ?_⟩
  · rw [div_mul_eq_mul_div, eq_div_iff hs']
    unfold numIn Coef4.numIn
    linear_combination v * b1 + b2
  · rw [div_mul_eq_mul_div, eq_div_iff hs']
    unfold denIn Coef4.denIn
    linear_combination v * b3 + b4

theorem EndY.sameIn {k : Coef8} {k' : Coef4} (h : EndY k k') (u : K) :
    Same4In k u (1 / 2) k' u := by
  obtain ⟨s, hs, a1, a2, a3, a4⟩ := h
  have hs' : (s : K) ≠ 0 := Coef4.cast_ne hs
  have b1 : (s : K) * k'.nx = k.a + 2 * k.b := by exact_mod_cast a1
  have b2 : (s : K) * k'.n = k.c + 2 * k.d := by exact_mod_cast a2
  have b3 : (s : K) * k'.dx = k.e + 2 * k.f := by exact_mod_cast a3
  have b4 : (s : K) * k'.d = k.g + 2 * k.h := by exact_mod_cast a4
  refine ⟨2 / s, div_ne_zero two_ne_zero hs', ?_, ?_⟩
  · rw [div_mul_eq_mul_div, eq_div_iff hs']
    unfold numIn Coef4.numIn
    linear_combination u * b1 + b2
  · rw [div_mul_eq_mul_div, eq_div_iff hs']
    unfold denIn Coef4.denIn
    linear_combination u * b3 + b4

/-! ## Egestion -/

private theorem red_pos_in {k k' : Coef8} {r} {u v : K} (u0 : 0 < u) (u1 : u < 1) (v0 : 0 < v)
    (v1 : v < 1) (hp : Pos k) (h : ReductionRel k r k') :
    r = symIn (k.valIn u v) ∧ k'.valIn u v = nextIn (k.valIn u v) := by
  have hd := hp.denIn_pos u0 u1 v0 v1
  have hnum := hp.numIn_pos u0 u1 v0 v1
  rcases h with ⟨rfl, ⟨s, hs, ⟨a1, a2, a3, a4⟩, a5, a6, a7, a8⟩, e1, e2, e3, e4⟩ |
    ⟨rfl, rfl, e1, e2, e3, e4⟩
  · have hlt : k.valIn u v < 1 / 2 := by
      unfold valIn
      rw [div_lt_div_iff₀ hd (by norm_num)]
      have := bilin_pos_in (a := k.e - 2 * k.a) (b := k.f - 2 * k.b) (c := k.g - 2 * k.c)
        (d := k.h - 2 * k.d) u0 u1 v0 v1 (by omega) (by omega) (by omega) (by omega)
      unfold numIn denIn
      push_cast at this
      linarith
    refine ⟨(symIn_lt hlt).symm, ?_⟩
    rw [nextIn_lt hlt]
    have hs' : (s : K) ≠ 0 := Coef4.cast_ne hs
    have b1 : (s : K) * k'.a = 2 * k.a := by exact_mod_cast a1
    have b2 : (s : K) * k'.b = 2 * k.b := by exact_mod_cast a2
    have b3 : (s : K) * k'.c = 2 * k.c := by exact_mod_cast a3
    have b4 : (s : K) * k'.d = 2 * k.d := by exact_mod_cast a4
    have b5 : (s : K) * k'.e = k.e := by exact_mod_cast a5
    have b6 : (s : K) * k'.f = k.f := by exact_mod_cast a6
    have b7 : (s : K) * k'.g = k.g := by exact_mod_cast a7
    have b8 : (s : K) * k'.h = k.h := by exact_mod_cast a8
    unfold valIn
    rw [← mul_div_mul_left _ _ hs', ← mul_div_assoc]
    unfold numIn denIn
    congr 1
    · linear_combination u * v * b1 + u * b2 + v * b3 + b4
    · linear_combination u * v * b5 + u * b6 + v * b7 + b8
  · have hgt : 1 / 2 < k.valIn u v := by
      unfold valIn
      rw [div_lt_div_iff₀ (by norm_num) hd]
      have := bilin_pos_in (a := 2 * k.a - k.e) (b := 2 * k.b - k.f) (c := 2 * k.c - k.g)
        (d := 2 * k.d - k.h) u0 u1 v0 v1 (by omega) (by omega) (by omega) (by omega)
      unfold numIn denIn
      push_cast at this
      linarith
    refine ⟨(symIn_gt hgt).symm, ?_⟩
    rw [nextIn_gt hgt]
    have hne : k.numIn u v ≠ 0 := hnum.ne'
    rw [show k.valIn u v = k.numIn u v / k.denIn u v from rfl, one_div_div, div_sub_one hne]
    unfold valIn numIn denIn
    push_cast
    congr 1; ring

theorem red_step_in {k k' : Coef8} {r} {u v : K} (u0 : 0 < u) (u1 : u < 1) (v0 : 0 < v)
    (v1 : v < 1)
    (h : (Pos k ∧ ReductionRel k r k') ∨ (Pos k.opp ∧ ReductionRel k.opp r k'.opp)) :
    r = symIn (k.valIn u v) ∧ k'.valIn u v = nextIn (k.valIn u v) := by
  rcases h with ⟨hp, hr⟩ | ⟨hp, hr⟩
  · exact red_pos_in u0 u1 v0 v1 hp hr
  · have := red_pos_in u0 u1 v0 v1 hp hr
    rwa [valIn_opp, valIn_opp] at this

omit [LinearOrder K] [IsStrictOrderedRing K] in
theorem PrimerRel.valIn {k k' : Coef8} {p} (h : PrimerRel k p k') (u v : K) :
    k.valIn u v = primerIn p (k'.valIn u v) := by
  rcases h with ⟨rfl, rfl⟩ | ⟨rfl, rfl⟩ | ⟨rfl, rfl⟩ | ⟨rfl, rfl⟩ <;>
    simp only [primerIn, Coef8.valIn, numIn, denIn]
  · rw [one_div_div, ← div_neg]
    congr 1
    push_cast; ring
  · rw [one_div_div]
  · rw [← neg_div]
    congr 1
    push_cast; ring

omit [IsStrictOrderedRing K] in
theorem AbsX.sameIn {p} {k k' : Coef8} (h : AbsX p k k') {u : K} (hu : 0 < u) (v : K) :
    SameIn k (primerIn p u) v k' u v := by
  have hu' := hu.ne'
  rcases h with ⟨rfl, rfl⟩ | ⟨rfl, rfl⟩ | ⟨rfl, rfl⟩ | ⟨rfl, rfl⟩ <;>
    simp only [SameIn, primerIn, numIn, denIn]
  · exact ⟨1, one_ne_zero, by ring, by ring⟩
  · exact ⟨u, hu', by field_simp; ring, by field_simp; ring⟩
  · exact ⟨1, one_ne_zero, by push_cast; ring, by push_cast; ring⟩
  · exact ⟨-u, neg_ne_zero.2 hu', by push_cast; field_simp; ring, by push_cast; field_simp; ring⟩

omit [IsStrictOrderedRing K] in
theorem AbsY.sameIn {p} {k k' : Coef8} (h : AbsY p k k') {v : K} (hv : 0 < v) (u : K) :
    SameIn k u (primerIn p v) k' u v := by
  have hv' := hv.ne'
  rcases h with ⟨rfl, rfl⟩ | ⟨rfl, rfl⟩ | ⟨rfl, rfl⟩ | ⟨rfl, rfl⟩ <;>
    simp only [SameIn, primerIn, numIn, denIn]
  · exact ⟨1, one_ne_zero, by ring, by ring⟩
  · exact ⟨v, hv', by field_simp; ring, by field_simp; ring⟩
  · exact ⟨1, one_ne_zero, by push_cast; ring, by push_cast; ring⟩
  · exact ⟨-v, neg_ne_zero.2 hv', by push_cast; field_simp; ring, by push_cast; field_simp; ring⟩

/-- Every eight coefficients have a bound. -/
theorem exists_within (k : Coef8) : ∃ M, k.Within M := by
  refine ⟨1 + |k.a| + |k.b| + |k.c| + |k.d| + |k.e| + |k.f| + |k.g| + |k.h|, ?_⟩
  have a1 := abs_le.1 (le_refl |k.a|)
  have a2 := abs_le.1 (le_refl |k.b|)
  have a3 := abs_le.1 (le_refl |k.c|)
  have a4 := abs_le.1 (le_refl |k.d|)
  have a5 := abs_le.1 (le_refl |k.e|)
  have a6 := abs_le.1 (le_refl |k.f|)
  have a7 := abs_le.1 (le_refl |k.g|)
  have a8 := abs_le.1 (le_refl |k.h|)
  constructor <;> omega

theorem exists_bounded (k : Coef8) : ∃ M, k.Bounded M := by
  obtain ⟨M, h⟩ := k.exists_within
  exact ⟨_, h.bounded⟩

end Coef8

/-! ## `homographic::new` on an input without primer -/

namespace Homographic

theorem new_none_maybe {cfg : Cfg} {A : Panic → Prop} (hs : ∀ M, cfg.SafeUpTo A M) {c : Clog}
    {v : K} {k : Coef4} (hc : Clog.Follows cfg A c v) (hf : k.Fits cfg) (hD : k.denIn v ≠ 0)
    (f j : Nat) :
    Maybe A (Homographic.new cfg (Clog.egest cfg f) j (.Other none c) k.nx k.n k.dx k.d)
      (fun t => DescribesIn cfg A t (k.valIn v)) :=
  new_maybe (x := .Other none c) (q := v) hs ⟨v, hc, rfl⟩ hf.1 hf.2.1 hf.2.2.1 hf.2.2.2 hD f j

/-- A result describing an element of (0,1) has neither special nor primer. -/
theorem DescribesIn.unit {cfg : Cfg} {A : Panic → Prop} (hs : ∀ M, cfg.SafeUpTo A M)
    {t : Homographic.Primed} {w : K}
    (h : DescribesIn cfg A t w) (h0 : 0 < w) (h1 : w < 1) :
    (∃ r, t = (none, none, some r, none) ∧ Clog.Follows cfg A (.ratio r) w) ∨
    (∃ h' : Homographic, t = (none, none, none, some h') ∧ Clog.Follows cfg A h'.box w) := by
  have key : ∀ p (x : K), 0 < x → x < 1 → w = primerIn p x → p = none := by
    intro p x x0 x1 e
    rcases p with _ | p
    · rfl
    · exfalso
      cases p <;> simp only [primerIn] at e
      · have : 1 < 1 / x := by rw [lt_div_iff₀ x0]; linarith
        linarith
      · linarith
      · have : 0 < 1 / x := div_pos one_pos x0
        linarith
  rcases h.follows hs with ⟨s, rfl, e⟩ | ⟨p, r, x, rfl, hr, e⟩ | ⟨p, h', x, rfl, hh, e⟩
  · exfalso
    cases s <;> simp only [specialIn] at e <;> linarith
  · obtain rfl := key p _ hr.1 hr.2.1 e
    exact .inl ⟨r, rfl, by rw [e]; exact hr⟩
  · obtain rfl := key p _ hh.1 hh.2.1 e
    exact .inr ⟨h', rfl, by rw [e]; exact hh⟩

end Homographic

/-! ## The strategy -/

namespace Combine

/-- The inputs follow elements of the field at which the map has the value `w`. -/
structure OKIn (cfg : Cfg) (A : Panic → Prop) (s : Combine) (w : K) : Prop where
  intro ::
  ex : ∃ u v : K, Clog.Follows cfg A s.x u ∧ Clog.Follows cfg A s.y v ∧ s.k.Inv ∧
    w = s.k.valIn u v

/-- Outcome of `Combine::egest`. -/
def EgestIn (cfg : Cfg) (A : Panic → Prop) (w : K) (r : Egested × Combine) : Prop :=
  (∃ red, r.1 = .ok red ∧ red = symIn w ∧ OKIn cfg A r.2 (nextIn w)) ∨
  (∃ c : Clog, r.1 = .err c ∧ Clog.Follows cfg A c w)

/-- Outcome of `reduction_ingest`. -/
def IngestIn (cfg : Cfg) (A : Panic → Prop) (w : K)
    (r : (Option Ratio × Option Homographic) × Combine) : Prop :=
  (∃ q, r.1 = (some q, none) ∧ Clog.Follows cfg A (.ratio q) w) ∨
  (∃ h, r.1 = (none, some h) ∧ Clog.Follows cfg A h.box w) ∨
  (r.1 = (none, none) ∧ ∃ u v : K, Clog.Follows cfg A r.2.x u ∧ Clog.Follows cfg A r.2.y v ∧
    r.2.k.Inv ∧ r.2.k.valIn u v = w)

theorem reductionIngest_maybe {cfg : Cfg} {A : Panic → Prop} (hs : ∀ M, cfg.SafeUpTo A M)
    {u v : K} {s : Combine} (hx : Clog.Follows cfg A s.x u) (hy : Clog.Follows cfg A s.y v)
    (hI : s.k.Inv) (f j : Nat) :
    Maybe A (reductionIngest cfg (Clog.egest cfg f) j s) (IngestIn cfg A (s.k.valIn u v)) := by
  obtain ⟨M, hb⟩ := s.k.exists_bounded
  unfold reductionIngest
  refine Maybe.bind (hx.step f) ?_
  rintro ⟨r, x⟩ ⟨hr, hx'⟩
  simp only at hr hx'
  cases r with
  | none =>
    have hu : u = 1 / 2 := symIn_none hr.symm
    subst hu
    refine Maybe.bind_sat (Coef8.valueAtEndOfX_sat (hs M) hb) ?_
    rintro k' ⟨he, hf⟩
    have hm := hI.valIn_mem hx.1 hx.2.1 hy.1 hy.2.1
    have hd := hI.denIn_ne hx.1 hx.2.1 hy.1 hy.2.1
    have hsame := he.sameIn v
    refine Maybe.bind (Homographic.new_none_maybe hs hy hf (fun h => hd (hsame.den.1 h)) f j) ?_
    intro t ht
    rw [hsame.val] at ht
    rcases ht.unit hs hm.1 hm.2 with ⟨q, rfl, hq⟩ | ⟨h, rfl, hh⟩
    · exact Maybe.pure (.inl ⟨q, rfl, hq⟩)
    · exact Maybe.pure (.inr (.inl ⟨h, rfl, hh⟩))
  | some a =>
    refine Maybe.bind_sat (Coef8.ingestX_sat a (hs M) hb) ?_
    intro k1 hk1
    have hI1 := hk1.inv hI
    have hb1 := hk1.bounded hb
    have hv1 := hk1.sameIn (v := v) hr.symm
    refine Maybe.bind (hy.step f) ?_
    rintro ⟨r, y⟩ ⟨hr', hy'⟩
    simp only at hr' hy'
    cases r with
    | none =>
      have hv : v = 1 / 2 := symIn_none hr'.symm
      subst hv
      refine Maybe.bind_sat (Coef8.valueAtEndOfY_sat (hs _) hb1) ?_
      rintro k' ⟨he, hf⟩
      have hm := hI1.valIn_mem hx'.1 hx'.2.1 hy.1 hy.2.1
      have hd := hI1.denIn_ne hx'.1 hx'.2.1 hy.1 hy.2.1
      have hsame := he.sameIn (nextIn u)
      rw [hv1.val] at hm
      refine Maybe.bind (Homographic.new_none_maybe hs hx' hf (fun h => hd (hsame.den.1 h)) f j) ?_
      intro t ht
      rw [hsame.val, hv1.val] at ht
      rcases ht.unit hs hm.1 hm.2 with ⟨q, rfl, hq⟩ | ⟨h, rfl, hh⟩
      · exact Maybe.pure (.inl ⟨q, rfl, hq⟩)
      · exact Maybe.pure (.inr (.inl ⟨h, rfl, hh⟩))
    | some b =>
      refine Maybe.bind_sat (Coef8.ingestY_sat b (hs _) hb1) ?_
      intro k2 hk2
      have hv2 := hk2.sameIn (u := nextIn u) hr'.symm
      exact Maybe.pure (.inr (.inr ⟨rfl, _, _, hx', hy', hk2.inv hI1,
        by simp only; rw [hv2.val, hv1.val]⟩))

theorem egest_maybe {cfg : Cfg} {A : Panic → Prop} (hs : ∀ M, cfg.SafeUpTo A M) (f j : Nat) :
    ∀ {u v : K} {s : Combine}, Clog.Follows cfg A s.x u → Clog.Follows cfg A s.y v → s.k.Inv →
    Maybe A (Combine.egest cfg (Clog.egest cfg f) j s) (EgestIn cfg A (s.k.valIn u v)) := by
  induction j with
  | zero => intros; trivial
  | succ j ih =>
    intro u v s hx hy hI
    obtain ⟨M, hb⟩ := s.k.exists_bounded
    simp only [Combine.egest]
    refine Maybe.bind_sat (Coef8.reductionAttempt_sat (hs M) hb hI) ?_
    rintro (_ | ⟨red, k'⟩) hr
    · refine Maybe.bind (reductionIngest_maybe hs hx hy hI f j) ?_
      rintro ⟨⟨o1, o2⟩, s'⟩ (⟨q, h1, h2⟩ | ⟨h, h1, h2⟩ | ⟨h1, u', v', g1, g2, g3, g4⟩)
      · simp only [Prod.mk.injEq] at h1
        obtain ⟨rfl, rfl⟩ := h1
        exact Maybe.pure (.inr ⟨_, rfl, h2⟩)
      · simp only [Prod.mk.injEq] at h1
        obtain ⟨rfl, rfl⟩ := h1
        exact Maybe.pure (.inr ⟨_, rfl, h2⟩)
      · simp only [Prod.mk.injEq] at h1
        obtain ⟨rfl, rfl⟩ := h1
        simp only at g1 g2 g3 g4 ⊢
        rw [← g4]
        exact ih g1 g2 g3
    · have h1 := Coef8.red_step_in hx.1 hx.2.1 hy.1 hy.2.1 (hr red k' rfl)
      have h2 := Coef8.red_step (u := 1 / 2) (v := 1 / 2) (by norm_num) (by norm_num) (by norm_num)
        (by norm_num) hb (hr red k' rfl)
      exact Maybe.pure (.inl ⟨red, rfl, h1.1, ⟨u, v, hx, hy, h2.2.1, h1.2.symm⟩⟩)

/-- A primed `Combine` follows the value of its map at its inputs. -/
theorem OKIn.follows {cfg : Cfg} {A : Panic → Prop} (hs : ∀ M, cfg.SafeUpTo A M)
    {s : Combine} {w : K} (hh : OKIn cfg A s w) : Clog.Follows cfg A s.box w := by
  refine Clog.Follows.coind (fun c w => Clog.Follows cfg A c w ∨
    ∃ s : Combine, c = s.box ∧ OKIn cfg A s w) ?_ (.inr ⟨s, rfl, hh⟩)
  rintro c w (hd | ⟨s, rfl, hh⟩)
  · exact ⟨hd.1, hd.2.1, fun f => (hd.step f).mono fun r hr => ⟨hr.1, .inl hr.2⟩⟩
  · obtain ⟨u, v, hx, hy, hI, rfl⟩ := hh
    have hm := hI.valIn_mem hx.1 hx.2.1 hy.1 hy.2.1
    refine ⟨hm.1, hm.2, ?_⟩
    refine Clog.egest_maybe (Q := fun r => (∃ red s', r = (.ok red, s'.box) ∧
        red = symIn (s.k.valIn u v) ∧ OKIn cfg A s' (nextIn (s.k.valIn u v))) ∨
      (∃ (c : Clog) (s' : Strategy), r = (.err c, s') ∧ Clog.Follows cfg A c (s.k.valIn u v)))
      ?_ ?_ ?_
    · intro f j
      simp only [Strategy.egest, Combine.box]
      refine Maybe.bind (egest_maybe hs f j hx hy hI) ?_
      rintro ⟨e, h'⟩ (⟨red, rfl, h1, h2⟩ | ⟨q, rfl, h1⟩)
      · exact Maybe.pure (.inl ⟨red, h', rfl, h1, h2⟩)
      · exact Maybe.pure (.inr ⟨q, _, rfl, h1⟩)
    · rintro red s' (⟨red', h', e, h1, h2⟩ | ⟨q, s, e, _⟩)
      · simp only [Prod.mk.injEq, Egested.ok.injEq] at e
        obtain ⟨rfl, rfl⟩ := e
        exact ⟨h1, .inr ⟨h', rfl, h2⟩⟩
      · simp at e
    · rintro new s' (⟨red', h', e, h1, h2⟩ | ⟨q, s, e, h1⟩) f
      · simp at e
      · simp only [Prod.mk.injEq, Egested.err.injEq] at e
        obtain ⟨rfl, rfl⟩ := e
        exact (h1.step f).mono fun r hr => ⟨hr.1, .inl hr.2⟩

/-! ## Construction -/

/-- The result tuple of `combine::new` describes `q`. -/
def DescribesIn (cfg : Cfg) (A : Panic → Prop) (t : Combine.Primed) (q : K) : Prop :=
  (∃ t', Homographic.DescribesIn cfg A t' q ∧ t = (t'.1, t'.2.1, t'.2.2.1, t'.2.2.2, none)) ∨
  (∃ p s w, t = (none, p, none, none, some s) ∧ OKIn cfg A s w ∧ q = primerIn p w)

/-- Outcome of `prime_ingest`. -/
def PrimeIngestIn (cfg : Cfg) (A : Panic → Prop) (k : Coef8) (u v : K)
    (r : Homographic.Primed ⊕ Combine) : Prop :=
  (∃ t, r = .inl t ∧ Homographic.DescribesIn cfg A t (k.valIn u v)) ∨
  (∃ s', r = .inr s' ∧ ∃ u' v' : K, Clog.Follows cfg A s'.x u' ∧ Clog.Follows cfg A s'.y v' ∧
    s'.k.denIn u' v' ≠ 0 ∧ s'.k.valIn u' v' = k.valIn u v)

theorem primeIngest_maybe {cfg : Cfg} {A : Panic → Prop} (hs : ∀ M, cfg.SafeUpTo A M)
    {u v : K} {s : Combine} (hx : Clog.Follows cfg A s.x u) (hy : Clog.Follows cfg A s.y v)
    (hD : s.k.denIn u v ≠ 0) (f j : Nat) :
    Maybe A (primeIngest cfg (Clog.egest cfg f) j s) (PrimeIngestIn cfg A s.k u v) := by
  obtain ⟨M, hb⟩ := s.k.exists_bounded
  unfold primeIngest
  refine Maybe.bind (hx.step f) ?_
  rintro ⟨r, x⟩ ⟨hr, hx'⟩
  simp only at hr hx'
  cases r with
  | none =>
    have hu : u = 1 / 2 := symIn_none hr.symm
    subst hu
    refine Maybe.bind_sat (Coef8.valueAtEndOfX_sat (hs M) hb) ?_
    rintro k' ⟨he, hf⟩
    have hsame := he.sameIn v
    refine Maybe.bind (Homographic.new_none_maybe hs hy hf (fun h => hD (hsame.den.1 h)) f j) ?_
    intro t ht
    rw [hsame.val] at ht
    exact Maybe.pure (.inl ⟨t, rfl, ht⟩)
  | some a =>
    refine Maybe.bind_sat (Coef8.ingestX_sat a (hs M) hb) ?_
    intro k1 hk1
    have hb1 := hk1.bounded hb
    have hv1 := hk1.sameIn (v := v) hr.symm
    refine Maybe.bind (hy.step f) ?_
    rintro ⟨r, y⟩ ⟨hr', hy'⟩
    simp only at hr' hy'
    cases r with
    | none =>
      have hv : v = 1 / 2 := symIn_none hr'.symm
      subst hv
      refine Maybe.bind_sat (Coef8.valueAtEndOfY_sat (hs _) hb1) ?_
      rintro k' ⟨he, hf⟩
      have hsame := he.sameIn (nextIn u)
      refine Maybe.bind (Homographic.new_none_maybe hs hx' hf
        (fun h => hD (hv1.den.1 (hsame.den.1 h))) f j) ?_
      intro t ht
      rw [hsame.val, hv1.val] at ht
      exact Maybe.pure (.inl ⟨t, rfl, ht⟩)
    | some b =>
      refine Maybe.bind_sat (Coef8.ingestY_sat b (hs _) hb1) ?_
      intro k2 hk2
      have hv2 := hk2.sameIn (u := nextIn u) hr'.symm
      exact Maybe.pure (.inr ⟨_, rfl, _, _, hx', hy',
        fun h => hD (hv1.den.1 (hv2.den.1 h)), by simp only; rw [hv2.val, hv1.val]⟩)

theorem prime_maybe {cfg : Cfg} {A : Panic → Prop} (hs : ∀ M, cfg.SafeUpTo A M) (f j : Nat) :
    ∀ {u v : K} {s : Combine}, Clog.Follows cfg A s.x u → Clog.Follows cfg A s.y v →
    s.k.denIn u v ≠ 0 →
    Maybe A (Combine.prime cfg (Clog.egest cfg f) j s)
      (fun t => DescribesIn cfg A t (s.k.valIn u v)) := by
  induction j with
  | zero => intros; trivial
  | succ j ih =>
    intro u v s hx hy hD
    obtain ⟨M, hb⟩ := s.k.exists_bounded
    simp only [Combine.prime]
    refine Maybe.bind_sat (Coef8.primerAttempt_sat (hs M) hb) ?_
    rintro (_ | ⟨p, k'⟩) hr
    · refine Maybe.bind (primeIngest_maybe hs hx hy hD f j) ?_
      rintro r (⟨⟨t1, t2, t3, t4⟩, rfl, ht⟩ | ⟨s', rfl, u', v', g1, g2, g3, g4⟩)
      · exact Maybe.pure (.inl ⟨_, ht, rfl⟩)
      · simp only
        rw [← g4]
        exact ih g1 g2 g3
    · obtain ⟨h1, h2, _⟩ := hr p k' rfl
      exact Maybe.pure (.inr ⟨p, _, _, rfl, ⟨u, v, hx, hy, h2, rfl⟩, h1.valIn u v⟩)

theorem asHomographic_maybe {cfg : Cfg} {A : Panic → Prop} (hs : ∀ M, cfg.SafeUpTo A M)
    {x : Number} {q : K} {nx n dx d : Int} {w : K}
    (hx : Number.Follows cfg A x q)
    (f1 : cfg.Fits nx) (f2 : cfg.Fits n) (f3 : cfg.Fits dx) (f4 : cfg.Fits d)
    (hD : (dx : K) * q + d ≠ 0) (hw : w = (nx * q + n) / (dx * q + d)) (f j : Nat) :
    Maybe A (asHomographic cfg (Clog.egest cfg f) j x nx n dx d)
      (fun t => DescribesIn cfg A t w) := by
  unfold asHomographic
  refine Maybe.bind (Homographic.new_maybe hs hx f1 f2 f3 f4 hD f j) ?_
  rintro ⟨t1, t2, t3, t4⟩ ht
  rw [← hw] at ht
  exact Maybe.pure (.inl ⟨_, ht, rfl⟩)

/-- The two ways in which `combine::new` goes on, whatever is to be shown of its result. -/
theorem new_any_maybe {cfg : Cfg} {A : Panic → Prop} (hs : ∀ M, cfg.SafeUpTo A M)
    {x y : Number} {q r : K} {k : Coef8} {P : Combine.Primed → Prop}
    (hx : Number.Follows cfg A x q) (hy : Number.Follows cfg A y r) (hf : k.Fits cfg) (f j : Nat)
    (hH : ∀ {z : Number} {t : K} {nx n dx d : Int}, Number.Follows cfg A z t →
      cfg.Fits nx → cfg.Fits n → cfg.Fits dx → cfg.Fits d →
      (nx : K) * t + n = k.numIn q r → (dx : K) * t + d = k.denIn q r →
      Maybe A (asHomographic cfg (Clog.egest cfg f) j z nx n dx d) P)
    (hC : ∀ {u v : K} {s : Combine}, Clog.Follows cfg A s.x u → Clog.Follows cfg A s.y v →
      Coef8.SameIn k q r s.k u v →
      Maybe A (Combine.prime cfg (Clog.egest cfg f) j s) P) :
    Maybe A (Combine.new cfg (Clog.egest cfg f) j x y k) P := by
  have safe : ∀ z : Int, cfg.Safe A z := fun z => (hs |z|).1 z (by have := abs_nonneg z; omega)
  obtain ⟨fa, fb, fc, fd, fe, ff, fg, fh⟩ := hf
  obtain ⟨M, hk⟩ := k.exists_within
  unfold Combine.new
  cases x with
  | Special s =>
    have hq : q = specialIn K s := hx
    subst hq
    cases s
    · refine Maybe.bind_sat (Cfg.csub_sat (safe _)) ?_
      rintro _ ⟨rfl, g1⟩
      refine Maybe.bind_sat (Cfg.csub_sat (safe _)) ?_
      rintro _ ⟨rfl, g2⟩
      refine Maybe.bind_sat (Cfg.csub_sat (safe _)) ?_
      rintro _ ⟨rfl, g3⟩
      refine Maybe.bind_sat (Cfg.csub_sat (safe _)) ?_
      rintro _ ⟨rfl, g4⟩
      refine hH hy g1 g2 g3 g4 ?_ ?_ <;>
        simp only [specialIn, Coef8.numIn, Coef8.denIn] <;> push_cast <;> ring
    · refine hH hy fc fd fg fh ?_ ?_ <;>
        simp only [specialIn, Coef8.numIn, Coef8.denIn] <;> ring
    · refine Maybe.bind_sat (Cfg.cadd_sat (safe _)) ?_
      rintro _ ⟨rfl, g1⟩
      refine Maybe.bind_sat (Cfg.cadd_sat (safe _)) ?_
      rintro _ ⟨rfl, g2⟩
      refine Maybe.bind_sat (Cfg.cadd_sat (safe _)) ?_
      rintro _ ⟨rfl, g3⟩
      refine Maybe.bind_sat (Cfg.cadd_sat (safe _)) ?_
      rintro _ ⟨rfl, g4⟩
      refine hH hy g1 g2 g3 g4 ?_ ?_ <;>
        simp only [specialIn, Coef8.numIn, Coef8.denIn] <;> push_cast <;> ring
  | Other px cx =>
    cases y with
    | Special s =>
      have hr : r = specialIn K s := hy
      subst hr
      cases s
      · refine Maybe.bind_sat (Cfg.csub_sat (safe _)) ?_
        rintro _ ⟨rfl, g1⟩
        refine Maybe.bind_sat (Cfg.csub_sat (safe _)) ?_
        rintro _ ⟨rfl, g2⟩
        refine Maybe.bind_sat (Cfg.csub_sat (safe _)) ?_
        rintro _ ⟨rfl, g3⟩
        refine Maybe.bind_sat (Cfg.csub_sat (safe _)) ?_
        rintro _ ⟨rfl, g4⟩
        refine hH hx g1 g2 g3 g4 ?_ ?_ <;>
          simp only [specialIn, Coef8.numIn, Coef8.denIn] <;> push_cast <;> ring
      · refine hH hx fb fd ff fh ?_ ?_ <;>
          simp only [specialIn, Coef8.numIn, Coef8.denIn] <;> ring
      · refine Maybe.bind_sat (Cfg.cadd_sat (safe _)) ?_
        rintro _ ⟨rfl, g1⟩
        refine Maybe.bind_sat (Cfg.cadd_sat (safe _)) ?_
        rintro _ ⟨rfl, g2⟩
        refine Maybe.bind_sat (Cfg.cadd_sat (safe _)) ?_
        rintro _ ⟨rfl, g3⟩
        refine Maybe.bind_sat (Cfg.cadd_sat (safe _)) ?_
        rintro _ ⟨rfl, g4⟩
        refine hH hx g1 g2 g3 g4 ?_ ?_ <;>
          simp only [specialIn, Coef8.numIn, Coef8.denIn] <;> push_cast <;> ring
    | Other py cy =>
      obtain ⟨u, hu, rfl⟩ := hx
      obtain ⟨v, hv, rfl⟩ := hy
      refine Maybe.bind_sat (Coef8.absorbPrimerX_sat px (hs M) hk) ?_
      intro k1 h1
      refine Maybe.bind_sat (Coef8.absorbPrimerY_sat py (hs M) (h1.within hk)) ?_
      intro k2 h2
      refine hC (s := ⟨cx, cy, k2⟩) hu hv ?_
      obtain ⟨t1, n1, a1, b1⟩ := h1.sameIn hu.1 (primerIn py v)
      obtain ⟨t2, n2, a2, b2⟩ := h2.sameIn hv.1 u
      exact ⟨t2 * t1, mul_ne_zero n2 n1, by simp only; rw [a2, a1, mul_assoc],
        by simp only; rw [b2, b1, mul_assoc]⟩

/-- Away from poles, `combine::new` gives the value of the map. -/
theorem new_maybe {cfg : Cfg} {A : Panic → Prop} (hs : ∀ M, cfg.SafeUpTo A M)
    {x y : Number} {q r : K} {k : Coef8}
    (hx : Number.Follows cfg A x q) (hy : Number.Follows cfg A y r) (hf : k.Fits cfg)
    (hD : k.denIn q r ≠ 0) (f j : Nat) :
    Maybe A (Combine.new cfg (Clog.egest cfg f) j x y k)
      (fun t => DescribesIn cfg A t (k.valIn q r)) := by
  refine new_any_maybe hs hx hy hf f j ?_ ?_
  · intro z t nx n dx d hz f1 f2 f3 f4 e1 e2
    refine asHomographic_maybe hs hz f1 f2 f3 f4 (by rw [e2]; exact hD) ?_ f j
    rw [e1, e2]; rfl
  · intro u v s hx hy hsame
    have := prime_maybe hs f j hx hy (fun h => hD (hsame.den.1 h))
    rwa [hsame.val] at this

end Combine

/-! ## `Number::combine` -/

theorem Number.combine_maybe {cfg : Cfg} {A : Panic → Prop} (hs : ∀ M, cfg.SafeUpTo A M)
    {x y : Number} {q r : K} {a b c d e f' g h : Int}
    (hx : Number.Follows cfg A x q) (hy : Number.Follows cfg A y r)
    (hf : (⟨a, b, c, d, e, f', g, h⟩ : Coef8).Fits cfg)
    (hD : (e : K) * q * r + f' * q + g * r + h ≠ 0) :
    May A (fun f => Number.combine cfg f x y a b c d e f' g h)
      (fun t => Number.Follows cfg A t
        ((a * q * r + b * q + c * r + d) / (e * q * r + f' * q + g * r + h))) := by
  refine may_iff.2 fun f => ?_
  unfold Number.combine
  refine Maybe.bind (Combine.new_maybe hs hx hy hf hD f f) ?_
  rintro t (⟨t', ht, rfl⟩ | ⟨p, s, w, rfl, hh, hq⟩)
  · rcases ht.follows hs with ⟨s, rfl, hq⟩ | ⟨p, r, w, rfl, hr, hq⟩ | ⟨p, h, w, rfl, hh, hq⟩
    · exact Maybe.pure hq
    · exact Maybe.pure ⟨w, hr, hq⟩
    · exact Maybe.pure ⟨w, hh, hq⟩
  · exact Maybe.pure ⟨w, hh.follows hs, hq⟩

end Clarith
