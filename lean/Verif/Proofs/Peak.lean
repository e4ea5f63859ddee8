import Verif.Proofs.Growth
import Verif.Proofs.Coef8

/-! # How large the coefficients get while the symbols of a number are read

The values of a linear form at the ends of [0,1] are `a` and `b`.  After `Amplify` they are `2a` and
`a + b`, and after `Uncover` they are `b` and `a + b`.  Symbols given out and halvings never make them
larger. -/

namespace Clarith

open Out Spec

/-- The larger end value after all symbols. -/
def peak : List Reduction → Int → Int → Int
  | [], a, b => max a b
  | .Amplify :: l, a, b => peak l (2 * a) (a + b)
  | .Uncover :: l, a, b => peak l b (a + b)

/-- Twice the value at 1/2 after all symbols. -/
def total : List Reduction → Int → Int → Int
  | [], a, b => a + b
  | .Amplify :: l, a, b => total l (2 * a) (a + b)
  | .Uncover :: l, a, b => total l b (a + b)

theorem le_peak : ∀ (l : List Reduction) {a b : Int}, 0 ≤ a → 0 ≤ b → a ≤ peak l a b ∧ b ≤ peak l a b
  | [], a, b, _, _ => ⟨le_max_left _ _, le_max_right _ _⟩
  | .Amplify :: l, a, b, ha, hb => by
    have := le_peak l (a := 2 * a) (b := a + b) (by omega) (by omega)
    simp only [peak]; omega
  | .Uncover :: l, a, b, ha, hb => by
    have := le_peak l (a := b) (b := a + b) (by omega) (by omega)
    simp only [peak]; omega

theorem peak_le_total : ∀ (l : List Reduction) {a b : Int}, 0 ≤ a → 0 ≤ b →
    peak l a b ≤ total l a b
  | [], a, b, ha, hb => by simp only [peak, total]; omega
  | .Amplify :: l, a, b, ha, hb => by
    simp only [peak, total]; exact peak_le_total l (by omega) (by omega)
  | .Uncover :: l, a, b, ha, hb => by
    simp only [peak, total]; exact peak_le_total l (by omega) (by omega)

theorem peak_mul {c : Int} (hc : 0 ≤ c) : ∀ (l : List Reduction) (a b : Int),
    peak l (c * a) (c * b) = c * peak l a b
  | [], a, b => by simp only [peak]; exact (mul_max_of_nonneg a b hc).symm
  | .Amplify :: l, a, b => by
    simp only [peak]; rw [← peak_mul hc l]; congr 1 <;> ring
  | .Uncover :: l, a, b => by
    simp only [peak]; rw [← peak_mul hc l]; congr 1; ring

theorem peak_le : ∀ (l : List Reduction) {a b M : Int}, a ≤ M → b ≤ M → 0 ≤ M →
    peak l a b ≤ M * 2 ^ l.length
  | [], a, b, M, ha, hb, hM => by simp only [peak, List.length_nil, pow_zero]; omega
  | .Amplify :: l, a, b, M, ha, hb, hM => by
    simp only [peak, List.length_cons]
    refine (peak_le l (M := 2 * M) (by omega) (by omega) (by omega)).trans_eq ?_
    rw [pow_succ]; ring
  | .Uncover :: l, a, b, M, ha, hb, hM => by
    simp only [peak, List.length_cons]
    refine (peak_le l (M := 2 * M) (by omega) (by omega) (by omega)).trans_eq ?_
    rw [pow_succ]; ring

theorem total_le : ∀ (l : List Reduction) {a b M : Int}, a ≤ M → b ≤ M → 0 ≤ M →
    total l a b ≤ M * 2 ^ (l.length + 1)
  | [], a, b, M, ha, hb, hM => by simp only [total, List.length_nil]; omega
  | .Amplify :: l, a, b, M, ha, hb, hM => by
    simp only [total, List.length_cons]
    refine (total_le l (M := 2 * M) (by omega) (by omega) (by omega)).trans_eq ?_
    rw [pow_succ _ (l.length + 1)]; ring
  | .Uncover :: l, a, b, M, ha, hb, hM => by
    simp only [total, List.length_cons]
    refine (total_le l (M := 2 * M) (by omega) (by omega) (by omega)).trans_eq ?_
    rw [pow_succ _ (l.length + 1)]; ring

/-- The value at the number itself grows exactly by the growth of the number. -/
theorem total_growth {v : ℚ} {l : List Reduction} (hl : Expands v l) : ∀ a b : Int,
    (total l a b : ℚ) = 2 * growth v l * (a * (1 - v) + b * v) := by
  induction hl with
  | half => intro a b; simp only [total, growth]; push_cast; ring
  | @amplify x l h0 h1 h ih =>
    intro a b
    simp only [total, growth]
    rw [ih]; push_cast; ring
  | @uncover x l h0 h1 h ih =>
    intro a b
    simp only [total, growth]
    have hx : x ≠ 0 := by linarith
    rw [ih]; push_cast; field_simp; ring

/-- Numerators and denominators are bounded by `a` at 0 and by `b` at 1. -/
structure Coef4.Under (k : Coef4) (a b : Int) : Prop where
  pa : 1 ≤ a
  pb : 1 ≤ b
  n0 : -a ≤ k.n
  n0' : k.n ≤ a
  n1 : -b ≤ k.n + k.nx
  n1' : k.n + k.nx ≤ b
  d0 : -a ≤ k.d
  d0' : k.d ≤ a
  d1 : -b ≤ k.d + k.dx
  d1' : k.d + k.dx ≤ b

namespace Coef4

theorem Bounded.under {k : Coef4} {M} (h : k.Bounded M) : k.Under M M := by
  obtain ⟨h1, h2, h3, h4, h5, h6, h7, h8, h9⟩ := h
  constructor <;> omega

theorem Under.bounded {k : Coef4} {a b M} (h : k.Under a b) (ha : a ≤ M) (hb : b ≤ M) :
    k.Bounded M := by
  obtain ⟨h0, h1, h2, h3, h4, h5, h6, h7, h8, h9⟩ := h
  constructor <;> omega

theorem Under.peak {k : Coef4} {a b} (h : k.Under a b) (l : List Reduction) :
    k.Bounded (peak l a b) :=
  have := le_peak l (a := a) (b := b) (by have := h.pa; omega) (by have := h.pb; omega)
  h.bounded this.1 this.2

theorem Under.opp {k : Coef4} {a b} (h : k.Under a b) : k.opp.Under a b := by
  obtain ⟨h0, h1, h2, h3, h4, h5, h6, h7, h8, h9⟩ := h
  constructor <;> (try simp only [Coef4.opp]) <;> omega

theorem Under.amplify {k r : Coef4} {a b}
    (hk : ∃ c : Int, (c = 1 ∨ c = 2) ∧ c * r.n = 2 * k.n ∧ c * r.nx = k.nx ∧
        c * r.d = 2 * k.d ∧ c * r.dx = k.dx) (h : k.Under a b) : r.Under (2 * a) (a + b) := by
  obtain ⟨h0, h1, h2, h3, h4, h5, h6, h7, h8, h9⟩ := h
  obtain ⟨c, hc, c1, c2, c3, c4⟩ := hk
  rcases hc with rfl | rfl <;> constructor <;> omega

theorem Under.uncover {k : Coef4} {a b} (h : k.Under a b) :
    (⟨k.n, k.nx + k.n, k.d, k.dx + k.d⟩ : Coef4).Under b (a + b) := by
  obtain ⟨h0, h1, h2, h3, h4, h5, h6, h7, h8, h9⟩ := h
  constructor <;> (try simp only) <;> omega

theorem PrimerRel.under {k : Coef4} {p k'} (h : PrimerRel k p k') {a b} (hb : k.Under a b) :
    k'.Under a b := by
  obtain ⟨h0, h1, h2, h3, h4, h5, h6, h7, h8, h9⟩ := hb
  rcases h with ⟨_, rfl⟩ | ⟨_, rfl⟩ | ⟨_, rfl⟩ | ⟨_, rfl⟩ <;> constructor <;> (try simp only) <;> omega

private theorem red_under_pos {k k' : Coef4} {r a b} (hp : PosW k) (h : ReductionRel k r k')
    (hb : k.Under a b) : k'.Under a b := by
  obtain ⟨h0, h1, h2, h3, h4, h5, h6, h7, h8, h9⟩ := hb
  unfold PosW at hp
  rcases h with ⟨_, rfl, _⟩ | ⟨_, ⟨c, hc, a1, a2, a3, a4⟩, e1, e2, e3⟩ | ⟨_, rfl, e1, e2, e3⟩
  · constructor <;> omega
  · rcases hc with rfl | rfl <;> constructor <;> omega
  · constructor <;> (try simp only) <;> omega

/-- Giving out a symbol does not raise the bounds. -/
theorem Under.reduction {k k' : Coef4} {r a b} (hb : k.Under a b)
    (h : (PosW k ∧ ReductionRel k r k') ∨ (PosW k.opp ∧ ReductionRel k.opp r k'.opp)) :
    k'.Under a b := by
  rcases h with ⟨hp, hr⟩ | ⟨hp, hr⟩
  · exact red_under_pos hp hr hb
  · have := (red_under_pos hp hr hb.opp).opp
    rwa [show k'.opp.opp = k' by simp [Coef4.opp]] at this

end Coef4

/-- Numerators and denominators are bounded by `a`, `b`, `c`, `d` at (0,0), (0,1), (1,0), (1,1). -/
structure Coef8.Under (k : Coef8) (a b c d : Int) : Prop where
  pa : 1 ≤ a
  pb : 1 ≤ b
  pc : 1 ≤ c
  pd : 1 ≤ d
  n00 : -a ≤ k.d
  n00' : k.d ≤ a
  n01 : -b ≤ k.c + k.d
  n01' : k.c + k.d ≤ b
  n10 : -c ≤ k.b + k.d
  n10' : k.b + k.d ≤ c
  n11 : -d ≤ k.a + k.b + k.c + k.d
  n11' : k.a + k.b + k.c + k.d ≤ d
  d00 : -a ≤ k.h
  d00' : k.h ≤ a
  d01 : -b ≤ k.g + k.h
  d01' : k.g + k.h ≤ b
  d10 : -c ≤ k.f + k.h
  d10' : k.f + k.h ≤ c
  d11 : -d ≤ k.e + k.f + k.g + k.h
  d11' : k.e + k.f + k.g + k.h ≤ d

namespace Coef8

theorem Bounded.under {k : Coef8} {M} (h : k.Bounded M) : k.Under M M M M := by
  obtain ⟨_, _, _, _, _, _, _, _, _, _, _, _, _, _, _, _, _⟩ := h
  constructor <;> omega

theorem Under.bounded {k : Coef8} {a b c d M} (h : k.Under a b c d) (ha : a ≤ M) (hb : b ≤ M)
    (hc : c ≤ M) (hd : d ≤ M) : k.Bounded M := by
  obtain ⟨_, _, _, _, _, _, _, _, _, _, _, _, _, _, _, _, _, _, _, _⟩ := h
  constructor <;> omega

theorem Under.opp {k : Coef8} {a b c d} (h : k.Under a b c d) : k.opp.Under a b c d := by
  obtain ⟨_, _, _, _, _, _, _, _, _, _, _, _, _, _, _, _, _, _, _, _⟩ := h
  constructor <;> (try simp only [Coef8.opp]) <;> omega

/-- The bounds after a symbol of `x`. -/
theorem IngX.under {r : Reduction} {k k' : Coef8} {a b c d} (h : IngX r k k')
    (hb : k.Under a b c d) :
    match r with
    | .Amplify => k'.Under (2 * a) (2 * b) (a + c) (b + d)
    | .Uncover => k'.Under c d (a + c) (b + d) := by
  obtain ⟨_, _, _, _, _, _, _, _, _, _, _, _, _, _, _, _, _, _, _, _⟩ := hb
  cases r
  · obtain ⟨s, hs, ⟨a1, a2, a3, a4⟩, a5, a6, a7, a8⟩ := h
    rcases hs with rfl | rfl <;> constructor <;> omega
  · obtain rfl : k' = _ := h
    constructor <;> (try simp only) <;> omega

/-- The bounds after a symbol of `y`. -/
theorem IngY.under {r : Reduction} {k k' : Coef8} {a b c d} (h : IngY r k k')
    (hb : k.Under a b c d) :
    match r with
    | .Amplify => k'.Under (2 * a) (a + b) (2 * c) (c + d)
    | .Uncover => k'.Under b (a + b) d (c + d) := by
  obtain ⟨_, _, _, _, _, _, _, _, _, _, _, _, _, _, _, _, _, _, _, _⟩ := hb
  cases r
  · obtain ⟨s, hs, ⟨a1, a2, a3, a4⟩, a5, a6, a7, a8⟩ := h
    rcases hs with rfl | rfl <;> constructor <;> omega
  · obtain rfl : k' = _ := h
    constructor <;> (try simp only) <;> omega

theorem EndX.under {k : Coef8} {k' : Coef4} {a b c d} (h : EndX k k') (hb : k.Under a b c d) :
    k'.Under (a + c) (b + d) := by
  obtain ⟨_, _, _, _, _, _, _, _, _, _, _, _, _, _, _, _, _, _, _, _⟩ := hb
  obtain ⟨s, hs, a1, a2, a3, a4⟩ := h
  rcases hs with rfl | rfl <;> constructor <;> omega

theorem EndY.under {k : Coef8} {k' : Coef4} {a b c d} (h : EndY k k') (hb : k.Under a b c d) :
    k'.Under (a + b) (c + d) := by
  obtain ⟨_, _, _, _, _, _, _, _, _, _, _, _, _, _, _, _, _, _, _, _⟩ := hb
  obtain ⟨s, hs, a1, a2, a3, a4⟩ := h
  rcases hs with rfl | rfl <;> constructor <;> omega

theorem PrimerRel.under {k k' : Coef8} {p} (h : PrimerRel k p k') {a b c d}
    (hb : k.Under a b c d) : k'.Under a b c d := by
  obtain ⟨_, _, _, _, _, _, _, _, _, _, _, _, _, _, _, _, _, _, _, _⟩ := hb
  rcases h with ⟨_, rfl⟩ | ⟨_, rfl⟩ | ⟨_, rfl⟩ | ⟨_, rfl⟩ <;> constructor <;>
    (try simp only) <;> omega

private theorem red_under_pos {k k' : Coef8} {r a b c d} (hp : Pos k) (h : ReductionRel k r k')
    (hb : k.Under a b c d) : k'.Under a b c d := by
  obtain ⟨_, _, _, _, _, _, _, _, _, _, _, _, _, _, _, _, _, _, _, _⟩ := hb
  unfold Pos at hp
  rcases h with ⟨_, ⟨s, hs, ⟨a1, a2, a3, a4⟩, a5, a6, a7, a8⟩, e1, e2, e3, e4⟩ |
    ⟨_, rfl, e1, e2, e3, e4⟩
  · rcases hs with rfl | rfl <;> constructor <;> omega
  · constructor <;> (try simp only) <;> omega

/-- Giving out a symbol does not raise the bounds. -/
theorem Under.reduction {k k' : Coef8} {r a b c d} (hb : k.Under a b c d)
    (h : (Pos k ∧ ReductionRel k r k') ∨ (Pos k.opp ∧ ReductionRel k.opp r k'.opp)) :
    k'.Under a b c d := by
  rcases h with ⟨hp, hr⟩ | ⟨hp, hr⟩
  · exact red_under_pos hp hr hb
  · have := (red_under_pos hp hr hb.opp).opp
    rwa [opp_opp] at this

/-- There is room to read the symbols `lu` of `x` and `lv` of `y`. -/
def Room (cfg : Cfg) (A : Panic → Prop) (k : Coef8) (lu lv : List Reduction) : Prop :=
  ∃ a b c d : Int, 1 ≤ a ∧ 1 ≤ b ∧ 1 ≤ c ∧ 1 ≤ d ∧ k.Under (a * c) (a * d) (b * c) (b * d) ∧
    cfg.SafeUpTo A (total lu a b * peak lv c d) ∧ cfg.SafeUpTo A (peak lu a b * total lv c d)

theorem Room.bounded {cfg : Cfg} {A : Panic → Prop} {k : Coef8} {lu lv : List Reduction}
    (h : Room cfg A k lu lv) : ∃ M, k.Bounded M ∧ cfg.SafeUpTo A M := by
  obtain ⟨a, b, c, d, pa, pb, pc, pd, hu, hs, _⟩ := h
  obtain ⟨h1, h2⟩ := le_peak lu (a := a) (b := b) (by omega) (by omega)
  obtain ⟨h3, h4⟩ := le_peak lv (a := c) (b := d) (by omega) (by omega)
  refine ⟨peak lu a b * peak lv c d, hu.bounded ?_ ?_ ?_ ?_, hs.mono ?_ ?_⟩
  · exact mul_le_mul h1 h3 (by omega) (by omega)
  · exact mul_le_mul h1 h4 (by omega) (by omega)
  · exact mul_le_mul h2 h3 (by omega) (by omega)
  · exact mul_le_mul h2 h4 (by omega) (by omega)
  · exact mul_nonneg (by omega) (by omega)
  · exact mul_le_mul_of_nonneg_right (peak_le_total lu (by omega) (by omega)) (by omega)

theorem Room.x {cfg : Cfg} {A : Panic → Prop} {k k' : Coef8} {r} {lu lv : List Reduction}
    (h : Room cfg A k (r :: lu) lv) (hk : IngX r k k') : Room cfg A k' lu lv := by
  obtain ⟨a, b, c, d, pa, pb, pc, pd, hu, s1, s2⟩ := h
  have := hk.under hu
  cases r
  · refine ⟨2 * a, a + b, c, d, by omega, by omega, pc, pd, ?_, s1, s2⟩
    simp only at this
    convert this using 1 <;> ring
  · refine ⟨b, a + b, c, d, by omega, by omega, pc, pd, ?_, s1, s2⟩
    simp only at this
    convert this using 1 <;> ring

theorem Room.y {cfg : Cfg} {A : Panic → Prop} {k k' : Coef8} {r} {lu lv : List Reduction}
    (h : Room cfg A k lu (r :: lv)) (hk : IngY r k k') : Room cfg A k' lu lv := by
  obtain ⟨a, b, c, d, pa, pb, pc, pd, hu, s1, s2⟩ := h
  have := hk.under hu
  cases r
  · refine ⟨a, b, 2 * c, c + d, pa, pb, by omega, by omega, ?_, s1, s2⟩
    simp only at this
    convert this using 1 <;> ring
  · refine ⟨a, b, d, c + d, pa, pb, by omega, by omega, ?_, s1, s2⟩
    simp only at this
    convert this using 1 <;> ring

theorem Room.endX {cfg : Cfg} {A : Panic → Prop} {k : Coef8} {k' : Coef4} {lv : List Reduction}
    (h : Room cfg A k [] lv) (hk : EndX k k') :
    ∃ a b, k'.Under a b ∧ cfg.SafeUpTo A (peak lv a b) := by
  obtain ⟨a, b, c, d, pa, pb, pc, pd, hu, s1, _⟩ := h
  refine ⟨(a + b) * c, (a + b) * d, ?_, ?_⟩
  · have := hk.under hu
    convert this using 1 <;> ring
  · rw [peak_mul (by omega)]
    exact s1

theorem Room.endY {cfg : Cfg} {A : Panic → Prop} {k : Coef8} {k' : Coef4} {lu : List Reduction}
    (h : Room cfg A k lu []) (hk : EndY k k') :
    ∃ a b, k'.Under a b ∧ cfg.SafeUpTo A (peak lu a b) := by
  obtain ⟨a, b, c, d, pa, pb, pc, pd, hu, _, s2⟩ := h
  refine ⟨(c + d) * a, (c + d) * b, ?_, ?_⟩
  · have := hk.under hu
    convert this using 1 <;> ring
  · rw [peak_mul (by omega), mul_comm]
    exact s2

theorem Room.primer {cfg : Cfg} {A : Panic → Prop} {k k' : Coef8} {p} {lu lv : List Reduction}
    (h : Room cfg A k lu lv) (hk : PrimerRel k p k') : Room cfg A k' lu lv := by
  obtain ⟨a, b, c, d, pa, pb, pc, pd, hu, s⟩ := h
  exact ⟨a, b, c, d, pa, pb, pc, pd, hk.under hu, s⟩

theorem Room.reduction {cfg : Cfg} {A : Panic → Prop} {k k' : Coef8} {r} {lu lv : List Reduction}
    (h : Room cfg A k lu lv)
    (hk : (Pos k ∧ ReductionRel k r k') ∨ (Pos k.opp ∧ ReductionRel k.opp r k'.opp)) :
    Room cfg A k' lu lv := by
  obtain ⟨a, b, c, d, pa, pb, pc, pd, hu, s⟩ := h
  exact ⟨a, b, c, d, pa, pb, pc, pd, hu.reduction hk, s⟩

/-- Room in terms of a bound of the corners and of the numbers of symbols. -/
theorem Bounded.room {cfg : Cfg} {A : Panic → Prop} {k : Coef8} {M : Int} {lu lv : List Reduction}
    (h : k.Bounded M) (hs : cfg.SafeUpTo A (M * 2 ^ (lu.length + lv.length + 1))) :
    Room cfg A k lu lv := by
  have hM := h.pos
  obtain ⟨_, p1⟩ := le_peak lu (a := M) (b := M) (by omega) (by omega)
  obtain ⟨_, p2⟩ := le_peak lv (a := 1) (b := 1) (by omega) (by omega)
  have p3 := peak_le_total lu (a := M) (b := M) (by omega) (by omega)
  have p4 := peak_le_total lv (a := 1) (b := 1) (by omega) (by omega)
  refine ⟨M, M, 1, 1, hM, hM, le_rfl, le_rfl, ?_, hs.mono ?_ ?_, hs.mono ?_ ?_⟩
  · rw [mul_one]; exact h.under
  · exact mul_nonneg (by omega) (by omega)
  · calc total lu M M * peak lv 1 1
        ≤ (M * 2 ^ (lu.length + 1)) * (1 * 2 ^ lv.length) :=
          mul_le_mul (total_le lu le_rfl le_rfl (by omega)) (peak_le lv le_rfl le_rfl (by omega))
            (by omega) (by positivity)
      _ = M * 2 ^ (lu.length + lv.length + 1) := by ring
  · exact mul_nonneg (by omega) (by omega)
  · calc peak lu M M * total lv 1 1
        ≤ (M * 2 ^ lu.length) * (1 * 2 ^ (lv.length + 1)) :=
          mul_le_mul (peak_le lu le_rfl le_rfl (by omega)) (total_le lv le_rfl le_rfl (by omega))
            (by omega) (by positivity)
      _ = M * 2 ^ (lu.length + lv.length + 1) := by ring

end Coef8

end Clarith
