import Verif.Proofs.Coef8
import Verif.Proofs.HomographicNew
import Verif.Proofs.Observe
import Mathlib.Tactic.LinearCombination

/-! # `Combine` denotes the value of its map -/

namespace Clarith

open Out Spec

theorem Spec.Expands.nil {u : ℚ} (h : Expands u []) : u = 1 / 2 := by
  cases h; rfl

theorem Spec.Expands.cons {u : ℚ} {r l} (h : Expands u (r :: l)) :
    sym u = some r ∧ Expands (next u) l := by
  cases h with
  | amplify h0 h1 h => exact ⟨sym_lt h1, by rwa [next_lt h1]⟩
  | uncover h0 h1 h => exact ⟨sym_gt h0, by rwa [next_gt h0]⟩

namespace Coef8

/-! ## Values -/

/-- Numerator at `(u, v)`. -/
def numAt (k : Coef8) (u v : ℚ) : ℚ := k.a * u * v + k.b * u + k.c * v + k.d
/-- Denominator at `(u, v)`. -/
def denAt (k : Coef8) (u v : ℚ) : ℚ := k.e * u * v + k.f * u + k.g * v + k.h
/-- Value at `(u, v)`. -/
def val (k : Coef8) (u v : ℚ) : ℚ := k.numAt u v / k.denAt u v

theorem val_opp (k : Coef8) (u v : ℚ) : k.opp.val u v = k.val u v := by
  simp only [val, numAt, denAt, opp]
  push_cast
  rw [← neg_div_neg_eq]
  congr 1 <;> ring

/-- A bilinear function is a convex combination of its values at the corners. -/
theorem bilin_pos {a b c d : Int} {u v : ℚ} (u0 : 0 < u) (u1 : u < 1) (v0 : 0 < v) (v1 : v < 1)
    (h00 : 0 < d) (h01 : 0 < c + d) (h10 : 0 < b + d) (h11 : 0 < a + b + c + d) :
    (0 : ℚ) < a * u * v + b * u + c * v + d := by
  have g00 : (0 : ℚ) < d := by exact_mod_cast h00
  have g01 : (0 : ℚ) < (c : ℚ) + d := by exact_mod_cast h01
  have g10 : (0 : ℚ) < (b : ℚ) + d := by exact_mod_cast h10
  have g11 : (0 : ℚ) < (a : ℚ) + b + c + d := by exact_mod_cast h11
  have e : (a : ℚ) * u * v + b * u + c * v + d = (1 - u) * (1 - v) * d + (1 - u) * v * (c + d) +
    u * (1 - v) * (b + d) + u * v * (a + b + c + d) := by ring
  rw [e]
  have u2 : 0 < 1 - u := by linarith
  have v2 : 0 < 1 - v := by linarith
  positivity

theorem Pos.den_pos {k : Coef8} (h : Pos k) {u v : ℚ} (u0 : 0 < u) (u1 : u < 1) (v0 : 0 < v)
    (v1 : v < 1) : 0 < k.denAt u v := by
  unfold Pos at h
  exact bilin_pos u0 u1 v0 v1 (by omega) (by omega) (by omega) (by omega)

theorem Pos.num_pos {k : Coef8} (h : Pos k) {u v : ℚ} (u0 : 0 < u) (u1 : u < 1) (v0 : 0 < v)
    (v1 : v < 1) : 0 < k.numAt u v := by
  unfold Pos at h
  exact bilin_pos u0 u1 v0 v1 (by omega) (by omega) (by omega) (by omega)

theorem Pos.num_lt {k : Coef8} (h : Pos k) {u v : ℚ} (u0 : 0 < u) (u1 : u < 1) (v0 : 0 < v)
    (v1 : v < 1) : k.numAt u v < k.denAt u v := by
  unfold Pos at h
  have := bilin_pos (a := k.e - k.a) (b := k.f - k.b) (c := k.g - k.c) (d := k.h - k.d)
    u0 u1 v0 v1 (by omega) (by omega) (by omega) (by omega)
  unfold numAt denAt
  push_cast at this
  linarith

theorem Pos.val_mem {k : Coef8} (h : Pos k) {u v : ℚ} (u0 : 0 < u) (u1 : u < 1) (v0 : 0 < v)
    (v1 : v < 1) : 0 < k.val u v ∧ k.val u v < 1 := by
  have d := h.den_pos u0 u1 v0 v1
  exact ⟨div_pos (h.num_pos u0 u1 v0 v1) d, by
    unfold val; rw [div_lt_iff₀ d, one_mul]; exact h.num_lt u0 u1 v0 v1⟩

theorem Inv.val_mem {k : Coef8} (h : Inv k) {u v : ℚ} (u0 : 0 < u) (u1 : u < 1) (v0 : 0 < v)
    (v1 : v < 1) : 0 < k.val u v ∧ k.val u v < 1 := by
  rcases h with h | h
  · exact h.val_mem u0 u1 v0 v1
  · rw [← val_opp]; exact h.val_mem u0 u1 v0 v1

theorem denAt_opp (k : Coef8) (u v : ℚ) : k.opp.denAt u v = -k.denAt u v := by
  simp only [denAt, opp]; push_cast; ring

theorem Inv.den_ne {k : Coef8} (h : Inv k) {u v : ℚ} (u0 : 0 < u) (u1 : u < 1) (v0 : 0 < v)
    (v1 : v < 1) : k.denAt u v ≠ 0 := by
  rcases h with h | h
  · exact (h.den_pos u0 u1 v0 v1).ne'
  · have := h.den_pos u0 u1 v0 v1
    rw [denAt_opp] at this
    intro e; rw [e] at this; simp at this

theorem Amen.ne {a b c d : Int} (h : Amen a b c d) {u v : ℚ} (u0 : 0 < u) (u1 : u < 1)
    (v0 : 0 < v) (v1 : v < 1) : (a : ℚ) * u * v + b * u + c * v + d ≠ 0 := by
  unfold Amen at h
  rcases h with h | h
  · exact (bilin_pos u0 u1 v0 v1 (by omega) (by omega) (by omega) (by omega)).ne'
  · have := bilin_pos (a := -a) (b := -b) (c := -c) (d := -d)
      u0 u1 v0 v1 (by omega) (by omega) (by omega) (by omega)
    push_cast at this
    intro e
    linarith

/-! ## Ingestion -/

/-- `k'` at `(u', v')` is `k` at `(u, v)`, as a pair of numerator and denominator. -/
def Same (k : Coef8) (u v : ℚ) (k' : Coef8) (u' v' : ℚ) : Prop :=
  ∃ t : ℚ, t ≠ 0 ∧ k'.numAt u' v' = t * k.numAt u v ∧ k'.denAt u' v' = t * k.denAt u v

theorem Same.val {k k' : Coef8} {u v u' v' : ℚ} (h : Same k u v k' u' v') :
    k'.val u' v' = k.val u v := by
  obtain ⟨t, ht, h1, h2⟩ := h
  unfold Coef8.val
  rw [h1, h2, mul_div_mul_left _ _ ht]

theorem Same.den {k k' : Coef8} {u v u' v' : ℚ} (h : Same k u v k' u' v') :
    k'.denAt u' v' = 0 ↔ k.denAt u v = 0 := by
  obtain ⟨t, ht, h1, h2⟩ := h
  rw [h2, mul_eq_zero, or_iff_right ht]

private theorem sym_cases {u : ℚ} {r} (h : sym u = some r) :
    (r = .Amplify ∧ next u = 2 * u) ∨ (r = .Uncover ∧ 1 / 2 < u ∧ next u = 1 / u - 1) := by
  rcases lt_trichotomy u (1 / 2) with hu | hu | hu
  · rw [sym_lt hu] at h; exact .inl ⟨(Option.some.inj h).symm, next_lt hu⟩
  · rw [hu, sym_half] at h; cases h
  · rw [sym_gt hu] at h; exact .inr ⟨(Option.some.inj h).symm, hu, next_gt hu⟩

theorem IngX.same {r : Reduction} {k k' : Coef8} (h : IngX r k k') {u v : ℚ}
    (hu : sym u = some r) : Same k u v k' (next u) v := by
  rcases sym_cases hu with ⟨rfl, hn⟩ | ⟨rfl, hu, hn⟩
  · obtain ⟨s, hs, ⟨a1, a2, a3, a4⟩, a5, a6, a7, a8⟩ := h
    have hs' : (s : ℚ) ≠ 0 := by rcases hs with rfl | rfl <;> norm_num
    have b1 : (s : ℚ) * k'.a = k.a := by exact_mod_cast a1
    have b2 : (s : ℚ) * k'.b = k.b := by exact_mod_cast a2
    have b3 : (s : ℚ) * k'.c = 2 * k.c := by exact_mod_cast a3
    have b4 : (s : ℚ) * k'.d = 2 * k.d := by exact_mod_cast a4
    have b5 : (s : ℚ) * k'.e = k.e := by exact_mod_cast a5
    have b6 : (s : ℚ) * k'.f = k.f := by exact_mod_cast a6
    have b7 : (s : ℚ) * k'.g = 2 * k.g := by exact_mod_cast a7
    have b8 : (s : ℚ) * k'.h = 2 * k.h := by exact_mod_cast a8
    refine ⟨2 / s, div_ne_zero two_ne_zero hs', ?_, ?_⟩
    · rw [hn, div_mul_eq_mul_div, eq_div_iff hs']
      unfold numAt
      linear_combination 2 * u * v * b1 + 2 * u * b2 + v * b3 + b4
    · rw [hn, div_mul_eq_mul_div, eq_div_iff hs']
      unfold denAt
      linear_combination 2 * u * v * b5 + 2 * u * b6 + v * b7 + b8
  · obtain rfl : k' = _ := h
    have hu' : u ≠ 0 := by linarith
    refine ⟨1 / u, one_div_ne_zero hu', ?_, ?_⟩
    · rw [hn]; unfold numAt; push_cast; field_simp; ring
    · rw [hn]; unfold denAt; push_cast; field_simp; ring

theorem IngY.same {r : Reduction} {k k' : Coef8} (h : IngY r k k') {u v : ℚ}
    (hv : sym v = some r) : Same k u v k' u (next v) := by
  rcases sym_cases hv with ⟨rfl, hn⟩ | ⟨rfl, hv, hn⟩
  · obtain ⟨s, hs, ⟨a1, a2, a3, a4⟩, a5, a6, a7, a8⟩ := h
    have hs' : (s : ℚ) ≠ 0 := by rcases hs with rfl | rfl <;> norm_num
    have b1 : (s : ℚ) * k'.a = k.a := by exact_mod_cast a1
    have b2 : (s : ℚ) * k'.b = 2 * k.b := by exact_mod_cast a2
    have b3 : (s : ℚ) * k'.c = k.c := by exact_mod_cast a3
    have b4 : (s : ℚ) * k'.d = 2 * k.d := by exact_mod_cast a4
    have b5 : (s : ℚ) * k'.e = k.e := by exact_mod_cast a5
    have b6 : (s : ℚ) * k'.f = 2 * k.f := by exact_mod_cast a6
    have b7 : (s : ℚ) * k'.g = k.g := by exact_mod_cast a7
    have b8 : (s : ℚ) * k'.h = 2 * k.h := by exact_mod_cast a8
    refine ⟨2 / s, div_ne_zero two_ne_zero hs', ?_, ?_⟩
    · rw [hn, div_mul_eq_mul_div, eq_div_iff hs']
      unfold numAt
      linear_combination 2 * u * v * b1 + u * b2 + 2 * v * b3 + b4
    · rw [hn, div_mul_eq_mul_div, eq_div_iff hs']
      unfold denAt
      linear_combination 2 * u * v * b5 + u * b6 + 2 * v * b7 + b8
  · obtain rfl : k' = _ := h
    have hv' : v ≠ 0 := by linarith
    refine ⟨1 / v, one_div_ne_zero hv', ?_, ?_⟩
    · rw [hn]; unfold numAt; push_cast; field_simp; ring
    · rw [hn]; unfold denAt; push_cast; field_simp; ring

/-- `k'` at `w` is `k` at `(u, v)`, as a pair of numerator and denominator. -/
def Same4 (k : Coef8) (u v : ℚ) (k' : Coef4) (w : ℚ) : Prop :=
  ∃ t : ℚ, t ≠ 0 ∧ k'.numAt w = t * k.numAt u v ∧ k'.denAt w = t * k.denAt u v

theorem Same4.val {k : Coef8} {k' : Coef4} {u v w : ℚ} (h : Same4 k u v k' w) :
    k'.val w = k.val u v := by
  obtain ⟨t, ht, h1, h2⟩ := h
  rw [Coef4.val_eq, h1, h2, mul_div_mul_left _ _ ht]
  rfl

theorem Same4.den {k : Coef8} {k' : Coef4} {u v w : ℚ} (h : Same4 k u v k' w) :
    k'.denAt w = 0 ↔ k.denAt u v = 0 := by
  obtain ⟨t, ht, h1, h2⟩ := h
  rw [h2, mul_eq_zero, or_iff_right ht]

theorem EndX.same {k : Coef8} {k' : Coef4} (h : EndX k k') (v : ℚ) : Same4 k (1 / 2) v k' v := by
  obtain ⟨s, hs, a1, a2, a3, a4⟩ := h
  have hs' : (s : ℚ) ≠ 0 := by rcases hs with rfl | rfl <;> norm_num
  have b1 : (s : ℚ) * k'.nx = k.a + 2 * k.c := by exact_mod_cast a1
  have b2 : (s : ℚ) * k'.n = k.b + 2 * k.d := by exact_mod_cast a2
  have b3 : (s : ℚ) * k'.dx = k.e + 2 * k.g := by exact_mod_cast a3
  have b4 : (s : ℚ) * k'.d = k.f + 2 * k.h := by exact_mod_cast a4
  refine ⟨2 / s, div_ne_zero two_ne_zero hs', ?_, ?_⟩
  · rw [div_mul_eq_mul_div, eq_div_iff hs']
    unfold numAt Coef4.numAt
    linear_combination v * b1 + b2
  · rw [div_mul_eq_mul_div, eq_div_iff hs']
    unfold denAt Coef4.denAt
    linear_combination v * b3 + b4

theorem EndY.same {k : Coef8} {k' : Coef4} (h : EndY k k') (u : ℚ) : Same4 k u (1 / 2) k' u := by
  obtain ⟨s, hs, a1, a2, a3, a4⟩ := h
  have hs' : (s : ℚ) ≠ 0 := by rcases hs with rfl | rfl <;> norm_num
  have b1 : (s : ℚ) * k'.nx = k.a + 2 * k.b := by exact_mod_cast a1
  have b2 : (s : ℚ) * k'.n = k.c + 2 * k.d := by exact_mod_cast a2
  have b3 : (s : ℚ) * k'.dx = k.e + 2 * k.f := by exact_mod_cast a3
  have b4 : (s : ℚ) * k'.d = k.g + 2 * k.h := by exact_mod_cast a4
  refine ⟨2 / s, div_ne_zero two_ne_zero hs', ?_, ?_⟩
  · rw [div_mul_eq_mul_div, eq_div_iff hs']
    unfold numAt Coef4.numAt
    linear_combination u * b1 + b2
  · rw [div_mul_eq_mul_div, eq_div_iff hs']
    unfold denAt Coef4.denAt
    linear_combination u * b3 + b4

/-! ## Egestion -/

private theorem red_pos {k k' : Coef8} {r} {M} {u v : ℚ} (u0 : 0 < u) (u1 : u < 1) (v0 : 0 < v)
    (v1 : v < 1) (hp : Pos k) (hb : k.Bounded M) (h : ReductionRel k r k') :
    r = sym (k.val u v) ∧ Inv k' ∧ k'.Bounded M ∧ k'.val u v = next (k.val u v) := by
  have hd := hp.den_pos u0 u1 v0 v1
  have hnum := hp.num_pos u0 u1 v0 v1
  obtain ⟨hM, _, _, _, _, _, _, _, _, _, _, _, _, _, _, _, _⟩ := hb
  rcases h with ⟨rfl, ⟨s, hs, ⟨a1, a2, a3, a4⟩, a5, a6, a7, a8⟩, e1, e2, e3, e4⟩ |
    ⟨rfl, rfl, e1, e2, e3, e4⟩
  · have hlt : k.val u v < 1 / 2 := by
      unfold val
      rw [div_lt_div_iff₀ hd (by norm_num)]
      have := bilin_pos (a := k.e - 2 * k.a) (b := k.f - 2 * k.b) (c := k.g - 2 * k.c)
        (d := k.h - 2 * k.d) u0 u1 v0 v1 (by omega) (by omega) (by omega) (by omega)
      unfold numAt denAt
      push_cast at this
      linarith
    refine ⟨(sym_lt hlt).symm, .inl ?_, ?_, ?_⟩
    · unfold Pos at hp ⊢
      rcases hs with rfl | rfl <;> omega
    · unfold Pos at hp
      rcases hs with rfl | rfl <;> constructor <;> omega
    · rw [next_lt hlt]
      have hs' : (s : ℚ) ≠ 0 := by rcases hs with rfl | rfl <;> norm_num
      have b1 : (s : ℚ) * k'.a = 2 * k.a := by exact_mod_cast a1
      have b2 : (s : ℚ) * k'.b = 2 * k.b := by exact_mod_cast a2
      have b3 : (s : ℚ) * k'.c = 2 * k.c := by exact_mod_cast a3
      have b4 : (s : ℚ) * k'.d = 2 * k.d := by exact_mod_cast a4
      have b5 : (s : ℚ) * k'.e = k.e := by exact_mod_cast a5
      have b6 : (s : ℚ) * k'.f = k.f := by exact_mod_cast a6
      have b7 : (s : ℚ) * k'.g = k.g := by exact_mod_cast a7
      have b8 : (s : ℚ) * k'.h = k.h := by exact_mod_cast a8
      unfold val
      rw [← mul_div_mul_left _ _ hs', ← mul_div_assoc]
      unfold numAt denAt
      congr 1
      · linear_combination u * v * b1 + u * b2 + v * b3 + b4
      · linear_combination u * v * b5 + u * b6 + v * b7 + b8
  · have hgt : 1 / 2 < k.val u v := by
      unfold val
      rw [div_lt_div_iff₀ (by norm_num) hd]
      have := bilin_pos (a := 2 * k.a - k.e) (b := 2 * k.b - k.f) (c := 2 * k.c - k.g)
        (d := 2 * k.d - k.h) u0 u1 v0 v1 (by omega) (by omega) (by omega) (by omega)
      unfold numAt denAt
      push_cast at this
      linarith
    refine ⟨(sym_gt hgt).symm, .inl ?_, ?_, ?_⟩
    · unfold Pos at hp ⊢
      simp only
      omega
    · unfold Pos at hp
      constructor <;> (try simp only) <;> omega
    · rw [next_gt hgt]
      have hne : k.numAt u v ≠ 0 := hnum.ne'
      rw [show k.val u v = k.numAt u v / k.denAt u v from rfl, one_div_div, div_sub_one hne]
      unfold val numAt denAt
      push_cast
      congr 1; ring

theorem Inv.opp {k : Coef8} (h : Inv k) : Inv k.opp := by
  unfold Inv at *; rw [opp_opp]; exact h.symm

theorem red_step {k k' : Coef8} {r} {M} {u v : ℚ} (u0 : 0 < u) (u1 : u < 1) (v0 : 0 < v)
    (v1 : v < 1) (hb : k.Bounded M)
    (h : (Pos k ∧ ReductionRel k r k') ∨ (Pos k.opp ∧ ReductionRel k.opp r k'.opp)) :
    r = sym (k.val u v) ∧ Inv k' ∧ k'.Bounded M ∧ k'.val u v = next (k.val u v) := by
  rcases h with ⟨hp, hr⟩ | ⟨hp, hr⟩
  · exact red_pos u0 u1 v0 v1 hp hb hr
  · have := red_pos u0 u1 v0 v1 hp hb.opp hr
    rw [val_opp, val_opp] at this
    refine ⟨this.1, ?_, ?_, this.2.2.2⟩
    · have := this.2.1.opp; rwa [opp_opp] at this
    · have := this.2.2.1.opp; rwa [opp_opp] at this

theorem PrimerRel.val {k k' : Coef8} {p} (h : PrimerRel k p k') (u v : ℚ) :
    k.val u v = applyPrimer p (k'.val u v) := by
  rcases h with ⟨rfl, rfl⟩ | ⟨rfl, rfl⟩ | ⟨rfl, rfl⟩ | ⟨rfl, rfl⟩ <;>
    simp only [applyPrimer, Coef8.val, numAt, denAt]
  · rw [one_div_div, ← div_neg]
    congr 1
    push_cast; ring
  · rw [one_div_div]
  · rw [← neg_div]
    congr 1
    push_cast; ring

end Coef8

/-! ## `homographic::new` on an input without primer -/

namespace Homographic

theorem new_none_ev {cfg : Cfg} {A : Panic → Prop} {c : Clog} {v : ℚ} {l : List Reduction}
    {k : Coef4} {a b : Int} (hl : Expands v l) (hc : Clog.Denotes cfg A c v) (hf : k.Fits cfg)
    (hb : k.Under a b) (hs : cfg.SafeUpTo A (peak l a b)) (hD : k.denAt v ≠ 0) :
    Ev A (fun f j => Homographic.new cfg (Clog.egest cfg f) j (.Other none c) k.nx k.n k.dx k.d)
      (fun t => Describes cfg A t (k.val v)) := by
  obtain ⟨f1, f2, f3, f4⟩ := hf
  unfold Homographic.new
  by_cases h0 : k.nx = 0 ∧ k.dx = 0
  · simp only [if_pos h0]
    obtain ⟨z1, z2⟩ := h0
    obtain ⟨_, _, _, _, _, _, _, _, _⟩ := hb.peak l
    have := asRatio_ev (A := A) (cfg := cfg) (n := k.n) (d := k.d)
      (by intro h; simp [Coef4.denAt, z2, h] at hD) f2 f4
      (hs.lin (by omega) (by omega)) (hs.lin (by omega) (by omega))
    simpa [Coef4.val, z1, z2] using this
  · simp only [if_neg h0]
    exact prime_ev (h := ⟨c, k⟩) hl hc hD hb hs

theorem new_none_pole_ev {cfg : Cfg} {A : Panic → Prop} (hA : A .divisionByZero)
    {c : Clog} {v : ℚ} {l : List Reduction}
    {k : Coef4} {M : Int} (hl : Expands v l) (hc : Clog.Denotes cfg A c v) (hf : k.Fits cfg)
    (hb : k.Bounded M) (hs : cfg.SafeUpTo A (M * 2 ^ l.length)) (hD : k.denAt v = 0) :
    Ev A (fun f j => Homographic.new cfg (Clog.egest cfg f) j (.Other none c) k.nx k.n k.dx k.d)
      (fun t => ∃ p h', t = (none, p, none, some h') ∧
        (p = some .Turn ∨ p = some .Ground) ∧ Clog.AmplifiesForever cfg A h'.box) := by
  obtain ⟨f1, f2, f3, f4⟩ := hf
  have hs2 := hs.head hb.pos
  unfold Homographic.new
  by_cases h0 : k.nx = 0 ∧ k.dx = 0
  · simp only [if_pos h0]
    obtain ⟨z1, z2⟩ := h0
    obtain ⟨_, _, _, _, _, _, _, _, _⟩ := hb
    have : k.d = 0 := by simpa [Coef4.denAt, z2] using hD
    rw [this]
    exact (asRatio_zero f2 (hs2.lin (by omega) (by omega)) hA).mono fun _ h => h.elim
  · simp only [if_neg h0]
    refine (prime_pole_ev hA (h := ⟨c, k⟩) hl hc hD hb hs).mono ?_
    rintro t ⟨z1, z2, p', h', rfl, hp, i1, i2, i3, M', i4, i5⟩
    exact ⟨p', h', rfl, hp, fun m => Homographic.amplifies i5 m i4 i1 i2 i3⟩

/-- A result describing a number in (0,1) has neither special nor primer. -/
theorem Describes.unit {cfg : Cfg} {A : Panic → Prop} {t : Homographic.Primed} {w : ℚ}
    (h : Describes cfg A t w) (h0 : 0 < w) (h1 : w < 1) :
    (∃ r, t = (none, none, some r, none) ∧ Clog.Denotes cfg A (.ratio r) w) ∨
    (∃ h, t = (none, none, none, some h) ∧ Clog.Denotes cfg A h.box w) := by
  have key : ∀ p x, 0 < x → x < 1 → w = applyPrimer p x → p = none := by
    intro p x x0 x1 e
    rcases p with _ | p
    · rfl
    · exfalso
      cases p <;> simp only [applyPrimer] at e
      · have : 1 < 1 / x := by rw [lt_div_iff₀ x0]; linarith
        linarith
      · linarith
      · have : 0 < 1 / x := div_pos one_pos x0
        linarith
  rcases h with ⟨s, rfl, e⟩ | ⟨p, r, rfl, hr, e⟩ | ⟨p, h, x, rfl, hh, e⟩
  · exfalso
    cases s <;> simp only [specialValue] at e <;> linarith
  · obtain rfl := key p _ hr.val_mem.1 hr.val_mem.2 e
    exact .inl ⟨r, rfl, by rw [e]; exact Ratio.denotes hr⟩
  · have hd := hh.denotes
    obtain rfl := key p _ hd.1 hd.2.1 e
    exact .inr ⟨h, rfl, by rw [e]; exact hd⟩

end Homographic

/-! ## The strategy -/

namespace Combine

/-- Both inputs are right about `u` and `v`, the coefficients satisfy the invariant, and are
small enough for the symbols left. -/
structure OK (cfg : Cfg) (A : Panic → Prop) (s : Combine) (w : ℚ) : Prop where
  intro ::
  ex : ∃ u v lu lv, Clog.Denotes cfg A s.x u ∧ Clog.Denotes cfg A s.y v ∧ Expands u lu ∧
    Expands v lv ∧ s.k.Inv ∧ s.k.Room cfg A lu lv ∧ w = s.k.val u v

/-- Outcome of `Combine::egest`. -/
def EgestOK (cfg : Cfg) (A : Panic → Prop) (w : ℚ) (r : Egested × Combine) : Prop :=
  (∃ red, r.1 = .ok red ∧ red = sym w ∧ OK cfg A r.2 (next w)) ∨
  (∃ c : Clog, r.1 = .err c ∧ Clog.Denotes cfg A c w)

/-- Outcome of `reduction_ingest`. -/
def IngestOK (cfg : Cfg) (A : Panic → Prop) (w : ℚ) (lu lv : List Reduction)
    (r : (Option Ratio × Option Homographic) × Combine) : Prop :=
  (∃ q, r.1 = (some q, none) ∧ Clog.Denotes cfg A (.ratio q) w) ∨
  (∃ h, r.1 = (none, some h) ∧ Clog.Denotes cfg A h.box w) ∨
  (r.1 = (none, none) ∧ ∃ a lu' b lv' u v, lu = a :: lu' ∧ lv = b :: lv' ∧
    Expands u lu' ∧ Expands v lv' ∧ Clog.Denotes cfg A r.2.x u ∧ Clog.Denotes cfg A r.2.y v ∧
    r.2.k.Inv ∧ r.2.k.Room cfg A lu' lv' ∧ r.2.k.val u v = w)

theorem reductionIngest_ev {cfg : Cfg} {A : Panic → Prop} {u v : ℚ} {lu lv : List Reduction}
    {s : Combine} (hu : Expands u lu) (hv : Expands v lv)
    (hx : Clog.Denotes cfg A s.x u) (hy : Clog.Denotes cfg A s.y v) (hI : s.k.Inv)
    (hb : s.k.Room cfg A lu lv) :
    Ev A (fun f j => reductionIngest cfg (Clog.egest cfg f) j s)
      (IngestOK cfg A (s.k.val u v) lu lv) := by
  unfold reductionIngest
  obtain ⟨M, hbM, hs0⟩ := hb.bounded
  refine Ev.bind hx.ev ?_
  rintro ⟨r, x⟩ ⟨hr, hx'⟩
  simp only at hr hx'
  cases lu with
  | nil =>
    obtain rfl := hu.nil
    rw [sym_half] at hr
    subst hr
    refine Ev.bind_sat (Coef8.valueAtEndOfX_sat hs0 hbM) ?_
    rintro k' ⟨he, hf⟩
    have hm := hI.val_mem (u := 1 / 2) (by norm_num) (by norm_num) hv.mem.1 hv.mem.2
    have hd := hI.den_ne (u := 1 / 2) (by norm_num) (by norm_num) hv.mem.1 hv.mem.2
    obtain ⟨a', b', hb', hs'⟩ := hb.endX he
    have hsame := he.same v
    refine Ev.bind (Homographic.new_none_ev hv hy hf hb' hs'
      (fun h => hd (hsame.den.1 h))) ?_
    intro t ht
    rw [hsame.val] at ht
    rcases ht.unit hm.1 hm.2 with ⟨q, rfl, hq⟩ | ⟨h, rfl, hh⟩
    · exact Ev.pure (.inl ⟨q, rfl, hq⟩)
    · exact Ev.pure (.inr (.inl ⟨h, rfl, hh⟩))
  | cons a lu =>
    obtain ⟨hsym, hu'⟩ := hu.cons
    rw [hsym] at hr
    subst hr
    refine Ev.bind_sat (Coef8.ingestX_sat a hs0 hbM) ?_
    intro k1 hk1
    have hI1 := hk1.inv hI
    have hb1 := hb.x hk1
    obtain ⟨M1, hbM1, hs1⟩ := hb1.bounded
    have hv1 := hk1.same (v := v) hsym
    refine Ev.bind hy.ev ?_
    rintro ⟨r, y⟩ ⟨hr, hy'⟩
    simp only at hr hy'
    cases lv with
    | nil =>
      obtain rfl := hv.nil
      rw [sym_half] at hr
      subst hr
      refine Ev.bind_sat (Coef8.valueAtEndOfY_sat hs1 hbM1) ?_
      rintro k' ⟨he, hf⟩
      have hm := hI1.val_mem (v := 1 / 2) hu'.mem.1 hu'.mem.2 (by norm_num) (by norm_num)
      have hd := hI1.den_ne (v := 1 / 2) hu'.mem.1 hu'.mem.2 (by norm_num) (by norm_num)
      obtain ⟨a', b', hb', hs'⟩ := hb1.endY he
      have hsame := he.same (next u)
      rw [hv1.val] at hm
      refine Ev.bind (Homographic.new_none_ev hu' hx' hf hb' hs'
        (fun h => hd (hsame.den.1 h))) ?_
      intro t ht
      rw [hsame.val, hv1.val] at ht
      rcases ht.unit hm.1 hm.2 with ⟨q, rfl, hq⟩ | ⟨h, rfl, hh⟩
      · exact Ev.pure (.inl ⟨q, rfl, hq⟩)
      · exact Ev.pure (.inr (.inl ⟨h, rfl, hh⟩))
    | cons b lv =>
      obtain ⟨hsymv, hv'⟩ := hv.cons
      rw [hsymv] at hr
      subst hr
      refine Ev.bind_sat (Coef8.ingestY_sat b hs1 hbM1) ?_
      intro k2 hk2
      have hv2 := hk2.same (u := next u) hsymv
      exact Ev.pure (.inr (.inr ⟨rfl, a, lu, b, lv, _, _, rfl, rfl, hu', hv', hx', hy',
        hk2.inv hI1, hb1.y hk2, by simp only; rw [hv2.val, hv1.val]⟩))

theorem egest_ev {cfg : Cfg} {A : Panic → Prop} {lu : List Reduction} :
    ∀ {u v : ℚ} {lv : List Reduction} {s : Combine}, Expands u lu → Expands v lv →
    Clog.Denotes cfg A s.x u → Clog.Denotes cfg A s.y v → s.k.Inv → s.k.Room cfg A lu lv →
    Ev A (fun f j => Combine.egest cfg (Clog.egest cfg f) j s)
      (EgestOK cfg A (s.k.val u v)) := by
  induction lu with
  | nil =>
    intro u v lv s hu hv hx hy hI hb
    obtain ⟨M, hbM, hs⟩ := hb.bounded
    refine Ev.succ ?_
    simp only [Combine.egest]
    refine Ev.bind_sat (Coef8.reductionAttempt_sat hs hbM hI) ?_
    rintro (_ | ⟨red, k'⟩) hr
    · refine Ev.bind (reductionIngest_ev hu hv hx hy hI hb) ?_
      rintro ⟨⟨o1, o2⟩, s'⟩ (⟨q, h1, h2⟩ | ⟨h, h1, h2⟩ | ⟨_, a, lu', b, lv', u', v', h2, _⟩)
      · simp only [Prod.mk.injEq] at h1
        obtain ⟨rfl, rfl⟩ := h1
        exact Ev.pure (.inr ⟨_, rfl, h2⟩)
      · simp only [Prod.mk.injEq] at h1
        obtain ⟨rfl, rfl⟩ := h1
        exact Ev.pure (.inr ⟨_, rfl, h2⟩)
      · cases h2
    · obtain ⟨h1, h2, h3, h4⟩ :=
        Coef8.red_step hu.mem.1 hu.mem.2 hv.mem.1 hv.mem.2 hbM (hr red k' rfl)
      exact Ev.pure (.inl ⟨red, rfl, h1, ⟨u, v, _, _, hx, hy, hu, hv, h2,
        hb.reduction (hr red k' rfl), h4.symm⟩⟩)
  | cons a lu ih =>
    intro u v lv s hu hv hx hy hI hb
    obtain ⟨M, hbM, hs⟩ := hb.bounded
    refine Ev.succ ?_
    simp only [Combine.egest]
    refine Ev.bind_sat (Coef8.reductionAttempt_sat hs hbM hI) ?_
    rintro (_ | ⟨red, k'⟩) hr
    · refine Ev.bind (reductionIngest_ev hu hv hx hy hI hb) ?_
      rintro ⟨⟨o1, o2⟩, s'⟩ (⟨q, h1, h2⟩ | ⟨h, h1, h2⟩ |
        ⟨h1, a', lu', b, lv', u', v', e1, e2, g1, g2, g3, g4, g5, g6, g7⟩)
      · simp only [Prod.mk.injEq] at h1
        obtain ⟨rfl, rfl⟩ := h1
        exact Ev.pure (.inr ⟨_, rfl, h2⟩)
      · simp only [Prod.mk.injEq] at h1
        obtain ⟨rfl, rfl⟩ := h1
        exact Ev.pure (.inr ⟨_, rfl, h2⟩)
      · simp only [Prod.mk.injEq] at h1
        obtain ⟨rfl, rfl⟩ := h1
        simp only [List.cons.injEq] at e1
        obtain ⟨rfl, rfl⟩ := e1
        subst e2
        simp only at g3 g4 g5 g6 g7 ⊢
        rw [← g7]
        exact ih g1 g2 g3 g4 g5 g6
    · obtain ⟨h1, h2, h3, h4⟩ :=
        Coef8.red_step hu.mem.1 hu.mem.2 hv.mem.1 hv.mem.2 hbM (hr red k' rfl)
      exact Ev.pure (.inl ⟨red, rfl, h1, ⟨u, v, _, _, hx, hy, hu, hv, h2,
        hb.reduction (hr red k' rfl), h4.symm⟩⟩)

/-- A primed `Combine` denotes the value of its map at its inputs. -/
theorem OK.denotes {cfg : Cfg} {A : Panic → Prop} {s : Combine} {w : ℚ}
    (hh : OK cfg A s w) : Clog.Denotes cfg A s.box w := by
  refine Clog.Denotes.coind (fun c w => Clog.Denotes cfg A c w ∨
    ∃ s : Combine, c = s.box ∧ OK cfg A s w) ?_ (.inr ⟨s, rfl, hh⟩)
  rintro c w (hd | ⟨s, rfl, hh⟩)
  · exact ⟨hd.1, hd.2.1, hd.step.mono fun r hr => ⟨hr.1, .inl hr.2⟩⟩
  · obtain ⟨u, v, lu, lv, hx, hy, hu, hv, hI, hb, rfl⟩ := hh
    have hm := hI.val_mem hu.mem.1 hu.mem.2 hv.mem.1 hv.mem.2
    refine ⟨hm.1, hm.2, ?_⟩
    refine Clog.egest_ends (Q := fun r => (∃ red s', r = (.ok red, s'.box) ∧
        red = sym (s.k.val u v) ∧ OK cfg A s' (next (s.k.val u v))) ∨
      (∃ (c : Clog) (s' : Strategy), r = (.err c, s') ∧ Clog.Denotes cfg A c (s.k.val u v))) ?_ ?_ ?_
    · simp only [Strategy.egest, Combine.box]
      refine Ev.bind (egest_ev hu hv hx hy hI hb) ?_
      rintro ⟨e, h'⟩ (⟨red, rfl, h1, h2⟩ | ⟨q, rfl, h1⟩)
      · exact Ev.pure (.inl ⟨red, h', rfl, h1, h2⟩)
      · exact Ev.pure (.inr ⟨q, _, rfl, h1⟩)
    · rintro red s' (⟨red', h', e, h1, h2⟩ | ⟨q, s, e, _⟩)
      · simp only [Prod.mk.injEq, Egested.ok.injEq] at e
        obtain ⟨rfl, rfl⟩ := e
        exact ⟨h1, .inr ⟨h', rfl, h2⟩⟩
      · simp at e
    · rintro new s' (⟨red', h', e, h1, h2⟩ | ⟨q, s, e, h1⟩)
      · simp at e
      · simp only [Prod.mk.injEq, Egested.err.injEq] at e
        obtain ⟨rfl, rfl⟩ := e
        exact h1.step.mono fun r hr => ⟨hr.1, .inl hr.2⟩

/-! ## Construction -/

/-- The result tuple of `combine::new` describes `q`. -/
def Describes (cfg : Cfg) (A : Panic → Prop) (t : Combine.Primed) (q : ℚ) : Prop :=
  (∃ t', Homographic.Describes cfg A t' q ∧ t = (t'.1, t'.2.1, t'.2.2.1, t'.2.2.2, none)) ∨
  (∃ p s w, t = (none, p, none, none, some s) ∧ OK cfg A s w ∧ q = applyPrimer p w)

/-- Outcome of `prime_ingest`. -/
def PrimeIngestOK (cfg : Cfg) (A : Panic → Prop) (k : Coef8) (u v : ℚ) (lu lv : List Reduction)
    (r : Homographic.Primed ⊕ Combine) : Prop :=
  (∃ t, r = .inl t ∧ Homographic.Describes cfg A t (k.val u v)) ∨
  (∃ s', r = .inr s' ∧ ∃ a lu' b lv' u' v', lu = a :: lu' ∧ lv = b :: lv' ∧
    Expands u' lu' ∧ Expands v' lv' ∧ Clog.Denotes cfg A s'.x u' ∧ Clog.Denotes cfg A s'.y v' ∧
    s'.k.Room cfg A lu' lv' ∧ s'.k.denAt u' v' ≠ 0 ∧ s'.k.val u' v' = k.val u v)

theorem primeIngest_ev {cfg : Cfg} {A : Panic → Prop} {u v : ℚ} {lu lv : List Reduction}
    {s : Combine} (hu : Expands u lu) (hv : Expands v lv)
    (hx : Clog.Denotes cfg A s.x u) (hy : Clog.Denotes cfg A s.y v) (hD : s.k.denAt u v ≠ 0)
    (hb : s.k.Room cfg A lu lv) :
    Ev A (fun f j => primeIngest cfg (Clog.egest cfg f) j s)
      (PrimeIngestOK cfg A s.k u v lu lv) := by
  unfold primeIngest
  obtain ⟨M, hbM, hs0⟩ := hb.bounded
  refine Ev.bind hx.ev ?_
  rintro ⟨r, x⟩ ⟨hr, hx'⟩
  simp only at hr hx'
  cases lu with
  | nil =>
    obtain rfl := hu.nil
    rw [sym_half] at hr
    subst hr
    refine Ev.bind_sat (Coef8.valueAtEndOfX_sat hs0 hbM) ?_
    rintro k' ⟨he, hf⟩
    obtain ⟨a', b', hb', hs'⟩ := hb.endX he
    have hsame := he.same v
    refine Ev.bind (Homographic.new_none_ev hv hy hf hb' hs'
      (fun h => hD (hsame.den.1 h))) ?_
    intro t ht
    rw [hsame.val] at ht
    exact Ev.pure (.inl ⟨t, rfl, ht⟩)
  | cons a lu =>
    obtain ⟨hsym, hu'⟩ := hu.cons
    rw [hsym] at hr
    subst hr
    refine Ev.bind_sat (Coef8.ingestX_sat a hs0 hbM) ?_
    intro k1 hk1
    have hb1 := hb.x hk1
    obtain ⟨M1, hbM1, hs1⟩ := hb1.bounded
    have hv1 := hk1.same (v := v) hsym
    refine Ev.bind hy.ev ?_
    rintro ⟨r, y⟩ ⟨hr, hy'⟩
    simp only at hr hy'
    cases lv with
    | nil =>
      obtain rfl := hv.nil
      rw [sym_half] at hr
      subst hr
      refine Ev.bind_sat (Coef8.valueAtEndOfY_sat hs1 hbM1) ?_
      rintro k' ⟨he, hf⟩
      obtain ⟨a', b', hb', hs'⟩ := hb1.endY he
      have hsame := he.same (next u)
      refine Ev.bind (Homographic.new_none_ev hu' hx' hf hb' hs'
        (fun h => hD (hv1.den.1 (hsame.den.1 h)))) ?_
      intro t ht
      rw [hsame.val, hv1.val] at ht
      exact Ev.pure (.inl ⟨t, rfl, ht⟩)
    | cons b lv =>
      obtain ⟨hsymv, hv'⟩ := hv.cons
      rw [hsymv] at hr
      subst hr
      refine Ev.bind_sat (Coef8.ingestY_sat b hs1 hbM1) ?_
      intro k2 hk2
      have hv2 := hk2.same (u := next u) hsymv
      exact Ev.pure (.inr ⟨_, rfl, a, lu, b, lv, _, _, rfl, rfl, hu', hv', hx', hy',
        hb1.y hk2, fun h => hD (hv1.den.1 (hv2.den.1 h)),
        by simp only; rw [hv2.val, hv1.val]⟩)

theorem prime_ev {cfg : Cfg} {A : Panic → Prop} {lu : List Reduction} :
    ∀ {u v : ℚ} {lv : List Reduction} {s : Combine}, Expands u lu → Expands v lv →
    Clog.Denotes cfg A s.x u → Clog.Denotes cfg A s.y v → s.k.denAt u v ≠ 0 → s.k.Room cfg A lu lv →
    Ev A (fun f j => Combine.prime cfg (Clog.egest cfg f) j s)
      (fun t => Describes cfg A t (s.k.val u v)) := by
  induction lu with
  | nil =>
    intro u v lv s hu hv hx hy hD hb
    obtain ⟨M, hbM, hs⟩ := hb.bounded
    refine Ev.succ ?_
    simp only [Combine.prime]
    refine Ev.bind_sat (Coef8.primerAttempt_sat hs hbM) ?_
    rintro (_ | ⟨p, k'⟩) hr
    · refine Ev.bind (primeIngest_ev hu hv hx hy hD hb) ?_
      rintro r (⟨⟨t1, t2, t3, t4⟩, rfl, ht⟩ | ⟨s', rfl, a, lu', b, lv', u', v', h2, _⟩)
      · exact Ev.pure (.inl ⟨_, ht, rfl⟩)
      · cases h2
    · obtain ⟨h1, h2, _⟩ := hr p k' rfl
      exact Ev.pure (.inr ⟨p, _, _, rfl, ⟨u, v, _, _, hx, hy, hu, hv, h2, hb.primer h1, rfl⟩,
        h1.val u v⟩)
  | cons a lu ih =>
    intro u v lv s hu hv hx hy hD hb
    obtain ⟨M, hbM, hs⟩ := hb.bounded
    refine Ev.succ ?_
    simp only [Combine.prime]
    refine Ev.bind_sat (Coef8.primerAttempt_sat hs hbM) ?_
    rintro (_ | ⟨p, k'⟩) hr
    · refine Ev.bind (primeIngest_ev hu hv hx hy hD hb) ?_
      rintro r (⟨⟨t1, t2, t3, t4⟩, rfl, ht⟩ | ⟨s', rfl, a', lu', b, lv', u', v', e1, e2, g1, g2, g3,
        g4, g5, g6, g7⟩)
      · exact Ev.pure (.inl ⟨_, ht, rfl⟩)
      · simp only [List.cons.injEq] at e1
        obtain ⟨rfl, rfl⟩ := e1
        subst e2
        simp only
        rw [← g7]
        exact ih g1 g2 g3 g4 g6 g5
    · obtain ⟨h1, h2, _⟩ := hr p k' rfl
      exact Ev.pure (.inr ⟨p, _, _, rfl, ⟨u, v, _, _, hx, hy, hu, hv, h2, hb.primer h1, rfl⟩,
        h1.val u v⟩)

/-! ## Poles -/

/-- The outcome at a pole, when there is no panic. -/
def Amplifying (cfg : Cfg) (A : Panic → Prop) (t : Homographic.Primed) : Prop :=
  ∃ p h', t = (none, p, none, some h') ∧ (p = some .Turn ∨ p = some .Ground) ∧
    Clog.AmplifiesForever cfg A h'.box

/-- Outcome of `prime_ingest` at a pole. -/
def PrimeIngestPole (cfg : Cfg) (A : Panic → Prop) (lu lv : List Reduction)
    (M : Int) (r : Homographic.Primed ⊕ Combine) : Prop :=
  (∃ t, r = .inl t ∧ Amplifying cfg A t) ∨
  (∃ s', r = .inr s' ∧ ∃ a lu' b lv' u' v', lu = a :: lu' ∧ lv = b :: lv' ∧
    Expands u' lu' ∧ Expands v' lv' ∧ Clog.Denotes cfg A s'.x u' ∧ Clog.Denotes cfg A s'.y v' ∧
    s'.k.Bounded (2 * (2 * M)) ∧ s'.k.denAt u' v' = 0)

theorem primeIngest_pole_ev {cfg : Cfg} {A : Panic → Prop} (hA : A .divisionByZero)
    {u v : ℚ} {lu lv : List Reduction}
    {s : Combine} {M : Int} (hu : Expands u lu) (hv : Expands v lv)
    (hx : Clog.Denotes cfg A s.x u) (hy : Clog.Denotes cfg A s.y v) (hD : s.k.denAt u v = 0)
    (hb : s.k.Bounded M) (hs : cfg.SafeUpTo A (M * 2 ^ (lu.length + lv.length + 1))) :
    Ev A (fun f j => primeIngest cfg (Clog.egest cfg f) j s)
      (PrimeIngestPole cfg A lu lv M) := by
  unfold primeIngest
  have hs0 := hs.head hb.pos
  refine Ev.bind hx.ev ?_
  rintro ⟨r, x⟩ ⟨hr, hx'⟩
  simp only at hr hx'
  cases lu with
  | nil =>
    obtain rfl := hu.nil
    rw [sym_half] at hr
    subst hr
    refine Ev.bind_sat (Coef8.valueAtEndOfX_sat hs0 hb) ?_
    rintro k' ⟨he, hf⟩
    have hs' : cfg.SafeUpTo A (2 * M * 2 ^ lv.length) := by
      simp only [List.length_nil, Nat.zero_add] at hs
      exact hs.tail
    have hsame := he.same v
    refine Ev.bind (Homographic.new_none_pole_ev hA hv hy hf (he.bounded hb) hs'
      (hsame.den.2 hD)) ?_
    intro t ht
    exact Ev.pure (.inl ⟨t, rfl, ht⟩)
  | cons a lu =>
    obtain ⟨hsym, hu'⟩ := hu.cons
    rw [hsym] at hr
    subst hr
    refine Ev.bind_sat (Coef8.ingestX_sat a hs0 hb) ?_
    intro k1 hk1
    have hb1 := hk1.bounded hb
    have hv1 := hk1.same (v := v) hsym
    have hs1 : cfg.SafeUpTo A (2 * M * 2 ^ (lu.length + lv.length + 1)) := by
      rw [List.length_cons, show lu.length + 1 + lv.length + 1 = lu.length + lv.length + 1 + 1 by
        omega] at hs
      exact hs.tail
    refine Ev.bind hy.ev ?_
    rintro ⟨r, y⟩ ⟨hr, hy'⟩
    simp only at hr hy'
    cases lv with
    | nil =>
      obtain rfl := hv.nil
      rw [sym_half] at hr
      subst hr
      refine Ev.bind_sat (Coef8.valueAtEndOfY_sat (hs1.head hb1.pos) hb1) ?_
      rintro k' ⟨he, hf⟩
      have hs' : cfg.SafeUpTo A (2 * (2 * M) * 2 ^ lu.length) := by
        simp only [List.length_nil, Nat.add_zero] at hs1
        exact hs1.tail
      have hsame := he.same (next u)
      refine Ev.bind (Homographic.new_none_pole_ev hA hu' hx' hf (he.bounded hb1) hs'
        (hsame.den.2 (hv1.den.2 hD))) ?_
      intro t ht
      exact Ev.pure (.inl ⟨t, rfl, ht⟩)
    | cons b lv =>
      obtain ⟨hsymv, hv'⟩ := hv.cons
      rw [hsymv] at hr
      subst hr
      refine Ev.bind_sat (Coef8.ingestY_sat b (hs1.head hb1.pos) hb1) ?_
      intro k2 hk2
      have hv2 := hk2.same (u := next u) hsymv
      exact Ev.pure (.inr ⟨_, rfl, a, lu, b, lv, _, _, rfl, rfl, hu', hv', hx', hy',
        hk2.bounded hb1, hv2.den.2 (hv1.den.2 hD)⟩)

theorem prime_pole_ev {cfg : Cfg} {A : Panic → Prop} (hA : A .divisionByZero)
    {lu : List Reduction} :
    ∀ {u v : ℚ} {lv : List Reduction} {s : Combine} {M : Int}, Expands u lu → Expands v lv →
    Clog.Denotes cfg A s.x u → Clog.Denotes cfg A s.y v → s.k.denAt u v = 0 → s.k.Bounded M →
    cfg.SafeUpTo A (M * 2 ^ (lu.length + lv.length + 1)) →
    Ev A (fun f j => Combine.prime cfg (Clog.egest cfg f) j s)
      (fun t => ∃ t', Amplifying cfg A t' ∧ t = (t'.1, t'.2.1, t'.2.2.1, t'.2.2.2, none)) := by
  induction lu with
  | nil =>
    intro u v lv s M hu hv hx hy hD hb hs
    refine Ev.succ ?_
    simp only [Combine.prime]
    refine Ev.bind_sat (Coef8.primerAttempt_sat (hs.head hb.pos) hb) ?_
    rintro (_ | ⟨p, k'⟩) hr
    · refine Ev.bind (primeIngest_pole_ev hA hu hv hx hy hD hb hs) ?_
      rintro r (⟨⟨t1, t2, t3, t4⟩, rfl, ht⟩ | ⟨s', rfl, a, lu', b, lv', u', v', h2, _⟩)
      · exact Ev.pure ⟨_, ht, rfl⟩
      · cases h2
    · exact absurd hD ((hr p k' rfl).2.2.ne hu.mem.1 hu.mem.2 hv.mem.1 hv.mem.2)
  | cons a lu ih =>
    intro u v lv s M hu hv hx hy hD hb hs
    refine Ev.succ ?_
    simp only [Combine.prime]
    refine Ev.bind_sat (Coef8.primerAttempt_sat (hs.head hb.pos) hb) ?_
    rintro (_ | ⟨p, k'⟩) hr
    · refine Ev.bind (primeIngest_pole_ev hA hu hv hx hy hD hb hs) ?_
      rintro r (⟨⟨t1, t2, t3, t4⟩, rfl, ht⟩ | ⟨s', rfl, a', lu', b, lv', u', v', e1, e2, g1, g2, g3,
        g4, g5, g6⟩)
      · exact Ev.pure ⟨_, ht, rfl⟩
      · simp only [List.cons.injEq] at e1
        obtain ⟨rfl, rfl⟩ := e1
        subst e2
        simp only
        refine ih g1 g2 g3 g4 g6 g5 ?_
        rw [List.length_cons, List.length_cons,
          show lu.length + 1 + (lv'.length + 1) + 1 = lu.length + lv'.length + 1 + 1 + 1 by
          omega] at hs
        exact hs.tail.tail
    · exact absurd hD ((hr p k' rfl).2.2.ne hu.mem.1 hu.mem.2 hv.mem.1 hv.mem.2)

end Combine

end Clarith
