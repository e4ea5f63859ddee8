import Verif.Proofs.Egest4

/-! # Coefficient functions of `Combine` -/

namespace Clarith

open Out Spec Support

theorem isEven_iff {x : Int} : isEven x = true ↔ 2 * half x = x := by
  unfold isEven half
  simp only [beq_iff_eq]
  have := Int.mul_tdiv_add_tmod x 2
  omega

/-! ## `updated_range` on finite non-zero fractions -/

/-- `t` holds the least and the greatest of some finite non-zero fractions, of which `P`
says that all are (strictly) above or below a threshold `mu/lam`. -/
structure Range (M : Int) (t : Int × Int × Int × Int) (below above : Int → Int → Prop) : Prop where
  nmin : t.1 ≠ 0
  nmax : t.2.2.1 ≠ 0
  dmin : 0 < t.2.1
  dmax : 0 < t.2.2.2
  b1 : -M ≤ t.1
  b1' : t.1 ≤ M
  b2 : t.2.1 ≤ M
  b3 : -M ≤ t.2.2.1
  b3' : t.2.2.1 ≤ M
  b4 : t.2.2.2 ≤ M
  ordered : t.1 * t.2.2.2 ≤ t.2.2.1 * t.2.1
  max_lt : ∀ lam mu : Int, 0 < lam → (lam * t.2.2.1 < mu * t.2.2.2 ↔ below lam mu)
  lt_min : ∀ lam mu : Int, 0 < lam → (mu * t.2.1 < lam * t.1 ↔ above lam mu)

private theorem trans_lt {p0 q0 p1 q1 lam mu : Int} (hq0 : 0 < q0) (hq1 : 0 < q1)
    (hc : p0 * q1 ≤ p1 * q0) (hl : 0 < lam) (h : lam * p1 < mu * q1) : lam * p0 < mu * q0 := by
  have h1 : lam * (p0 * q1) ≤ lam * (p1 * q0) := mul_le_mul_of_nonneg_left hc hl.le
  have h2 : (lam * p1) * q0 < (mu * q1) * q0 := mul_lt_mul_of_pos_right h hq0
  have h3 : (lam * p0) * q1 < (mu * q0) * q1 := by nlinarith
  exact lt_of_mul_lt_mul_right h3 hq1.le

private theorem trans_gt {p0 q0 p1 q1 lam mu : Int} (hq0 : 0 < q0) (hq1 : 0 < q1)
    (hc : p0 * q1 ≤ p1 * q0) (hl : 0 < lam) (h : mu * q0 < lam * p0) : mu * q1 < lam * p1 := by
  have h1 : lam * (p0 * q1) ≤ lam * (p1 * q0) := mul_le_mul_of_nonneg_left hc hl.le
  have h2 : (mu * q0) * q1 < (lam * p0) * q1 := mul_lt_mul_of_pos_right h hq1
  have h3 : (mu * q1) * q0 < (lam * p1) * q0 := by nlinarith
  exact lt_of_mul_lt_mul_right h3 hq0.le

/-- A sign. -/
def IsSign (s : Int) : Prop := s = 1 ∨ s = -1

theorem Normed.sign {n d p q s : Int} (h : Normed n d p q) (hn : n ≠ 0) (hs : IsSign s)
    (hd : 0 < s * d) : p = s * n ∧ q = s * d := by
  unfold Normed at h
  rcases hs with rfl | rfl <;> omega

/-- One update of a range of fractions by a new finite non-zero fraction. -/
theorem updatedRange_sat {cfg : Cfg} {A M n0 d0 n1 d1 n d s r} (hs : cfg.SafeUpTo A M)
    (hM : 1 ≤ M) (sg : IsSign s) (sg' : IsSign r)
    (z0 : n0 ≠ 0) (z1 : n1 ≠ 0) (z : n ≠ 0)
    (p0 : 0 < s * d0) (p1 : 0 < s * d1) (p : 0 < r * d)
    (b0 : -M ≤ n0) (b0' : n0 ≤ M) (c0 : -M ≤ d0) (c0' : d0 ≤ M)
    (b1 : -M ≤ n1) (b1' : n1 ≤ M) (c1 : -M ≤ d1) (c1' : d1 ≤ M)
    (b : -M ≤ n) (b' : n ≤ M) (c : -M ≤ d) (c' : d ≤ M)
    (ord : (s * n0) * (s * d1) ≤ (s * n1) * (s * d0)) :
    Sat A (updatedRange cfg n0 d0 n1 d1 n d) (fun t => Range M t
      (fun lam mu => lam * (s * n1) < mu * (s * d1) ∧ lam * (r * n) < mu * (r * d))
      (fun lam mu => mu * (s * d0) < lam * (s * n0) ∧ mu * (r * d) < lam * (r * n))) := by
  unfold updatedRange
  refine Sat.bind (normalise_sat hs hM b0 b0' c0 c0') ?_
  rintro ⟨P0, Q0⟩ ⟨hn0, e1, e2, e3, e4⟩
  refine Sat.bind (normalise_sat hs hM b1 b1' c1 c1') ?_
  rintro ⟨P1, Q1⟩ ⟨hn1, e5, e6, e7, e8⟩
  refine Sat.bind (normalise_sat hs hM b b' c c') ?_
  rintro ⟨P, Q⟩ ⟨hn, e9, e10, e11, e12⟩
  simp only at *
  have hz0 : P0 ≠ 0 ∧ P1 ≠ 0 ∧ P ≠ 0 := by unfold Normed at hn0 hn1 hn; omega
  obtain ⟨g1, g2⟩ := hn0.sign z0 sg p0
  obtain ⟨g3, g4⟩ := hn1.sign z1 sg p1
  obtain ⟨g5, g6⟩ := hn.sign z sg' p
  rw [← g2] at p0
  rw [← g4] at p1
  rw [← g6] at p
  simp only [← g1, ← g2, ← g3, ← g4, ← g5, ← g6] at ord ⊢
  clear g1 g2 g3 g4 g5 g6 hn0 hn1 hn
  obtain ⟨y0, y1, y⟩ := hz0
  have cr : ∀ {X Y X' Y' : Int}, -M ≤ X → X ≤ M → 0 ≤ Y → Y ≤ M → -M ≤ X' → X' ≤ M → 0 ≤ Y' →
      Y' ≤ M → Sat A (compareReduce cfg X Y X' Y') (fun r => r = (X * Y', X' * Y)) := by
    intro X Y X' Y' a1 a2 a3 a4 a5 a6 a7 a8
    unfold compareReduce
    refine Sat.bind (Cfg.cmul_sat' (hs.prod a1 a2 (by omega) a8)) ?_
    rintro _ ⟨rfl, _⟩
    refine Sat.bind (Cfg.cmul_sat' (hs.prod a5 a6 (by omega) a4)) ?_
    rintro _ ⟨rfl, _⟩
    exact Sat.pure rfl
  refine Sat.bind (Q := fun b => b = decide (P * Q0 < P0 * Q)) ?_ ?_
  · unfold lessThan
    refine Sat.bind (cr e9 e10 e11 e12 e1 e2 e3 e4) ?_
    rintro _ rfl
    exact Sat.pure rfl
  rintro _ rfl
  by_cases hlt : P * Q0 < P0 * Q
  · rw [if_pos (by simpa using hlt)]
    refine Sat.pure ⟨y, y1, p, p1, e9, e10, e12, e5, e6, e8, ?_, fun lam mu hl => ?_,
      fun lam mu hl => ?_⟩
    · simp only
      have h1 : (P * Q1) * Q0 ≤ (P1 * Q) * Q0 := by
        have a1 : (P * Q0) * Q1 ≤ (P0 * Q) * Q1 := mul_le_mul_of_nonneg_right hlt.le p1.le
        have a2 : (P0 * Q1) * Q ≤ (P1 * Q0) * Q := mul_le_mul_of_nonneg_right ord p.le
        nlinarith
      exact le_of_mul_le_mul_right h1 p0
    · refine ⟨fun h => ⟨h, ?_⟩, fun h => h.1⟩
      exact trans_lt p p0 hlt.le hl (trans_lt p0 p1 ord hl h)
    · exact ⟨fun h => ⟨trans_gt p p0 hlt.le hl h, h⟩, fun h => h.2⟩
  · rw [if_neg (by simpa using hlt)]
    refine Sat.bind (Q := fun b => b = decide (P * Q1 > P1 * Q)) ?_ ?_
    · unfold greaterThan
      refine Sat.bind (cr e9 e10 e11 e12 e5 e6 e7 e8) ?_
      rintro _ rfl
      exact Sat.pure rfl
    rintro _ rfl
    by_cases hgt : P * Q1 > P1 * Q
    · rw [if_pos (by simpa using hgt)]
      refine Sat.pure ⟨y0, y, p0, p, e1, e2, e4, e9, e10, e12, by simp only; omega,
        fun lam mu hl => ?_, fun lam mu hl => ?_⟩
      · exact ⟨fun h => ⟨trans_lt p1 p hgt.le hl h, h⟩, fun h => h.2⟩
      · exact ⟨fun h => ⟨h, trans_gt p0 p (not_lt.1 hlt) hl h⟩, fun h => h.1⟩
    · rw [if_neg (by simpa using hgt)]
      refine Sat.pure ⟨y0, y1, p0, p1, e1, e2, e4, e5, e6, e8, ord, fun lam mu hl => ?_,
        fun lam mu hl => ?_⟩
      · exact ⟨fun h => ⟨h, trans_lt p p1 (not_lt.1 hgt) hl h⟩, fun h => h.1⟩
      · exact ⟨fun h => ⟨h, trans_gt p0 p (not_lt.1 hlt) hl h⟩, fun h => h.1⟩

namespace Coef8

/-! ## Corners of the domain -/

/-- Numerator at (0,0). -/ def n00 (k : Coef8) : Int := k.d
/-- Numerator at (0,1). -/ def n01 (k : Coef8) : Int := k.c + k.d
/-- Numerator at (1,0). -/ def n10 (k : Coef8) : Int := k.b + k.d
/-- Numerator at (1,1). -/ def n11 (k : Coef8) : Int := k.a + k.b + k.c + k.d
/-- Denominator at (0,0). -/ def d00 (k : Coef8) : Int := k.h
/-- Denominator at (0,1). -/ def d01 (k : Coef8) : Int := k.g + k.h
/-- Denominator at (1,0). -/ def d10 (k : Coef8) : Int := k.f + k.h
/-- Denominator at (1,1). -/ def d11 (k : Coef8) : Int := k.e + k.f + k.g + k.h

/-- Numerators and denominators at the corners are bounded by `M`. -/
structure Bounded (k : Coef8) (M : Int) : Prop where
  pos : 1 ≤ M
  n00 : -M ≤ k.d
  n00' : k.d ≤ M
  n01 : -M ≤ k.c + k.d
  n01' : k.c + k.d ≤ M
  n10 : -M ≤ k.b + k.d
  n10' : k.b + k.d ≤ M
  n11 : -M ≤ k.a + k.b + k.c + k.d
  n11' : k.a + k.b + k.c + k.d ≤ M
  d00 : -M ≤ k.h
  d00' : k.h ≤ M
  d01 : -M ≤ k.g + k.h
  d01' : k.g + k.h ≤ M
  d10 : -M ≤ k.f + k.h
  d10' : k.f + k.h ≤ M
  d11 : -M ≤ k.e + k.f + k.g + k.h
  d11' : k.e + k.f + k.g + k.h ≤ M

theorem Bounded.mono {k : Coef8} {M M' : Int} (h : k.Bounded M) (hM : M ≤ M') : k.Bounded M' := by
  obtain ⟨_, _, _, _, _, _, _, _, _, _, _, _, _, _, _, _, _⟩ := h
  constructor <;> omega

/-- All coefficients negated. -/
def opp (k : Coef8) : Coef8 := ⟨-k.a, -k.b, -k.c, -k.d, -k.e, -k.f, -k.g, -k.h⟩

theorem opp_opp (k : Coef8) : k.opp.opp = k := by simp [opp]

theorem Bounded.opp {k : Coef8} {M} (h : k.Bounded M) : k.opp.Bounded M := by
  obtain ⟨_, _, _, _, _, _, _, _, _, _, _, _, _, _, _, _, _⟩ := h
  constructor <;> (try simp only [Coef8.opp]) <;> omega

/-- At every corner the numerator is positive and below the denominator. -/
def Pos (k : Coef8) : Prop :=
  (0 < k.d ∧ k.d < k.h) ∧ (0 < k.c + k.d ∧ k.c + k.d < k.g + k.h) ∧
  (0 < k.b + k.d ∧ k.b + k.d < k.f + k.h) ∧
  (0 < k.a + k.b + k.c + k.d ∧ k.a + k.b + k.c + k.d < k.e + k.f + k.g + k.h)

/-- Invariant of a primed `Combine`: the map takes [0,1]² into (0,1). -/
def Inv (k : Coef8) : Prop := Pos k ∨ Pos k.opp

/-- A bilinear form with these corner values has a fixed, non-zero sign on the domain. -/
def Amen (mxy mx my m : Int) : Prop :=
  (0 < m ∧ 0 < m + mx ∧ 0 < m + my ∧ 0 < mxy + mx + my + m) ∨
  (m < 0 ∧ m + mx < 0 ∧ m + my < 0 ∧ mxy + mx + my + m < 0)

theorem isDomainAmenable_sat {cfg : Cfg} {A M} {mxy mx my m : Int} (hs : cfg.SafeUpTo A M)
    (h1 : -M ≤ m) (h2 : m ≤ M) (h3 : -M ≤ mx + m) (h4 : mx + m ≤ M)
    (h5 : -M ≤ my + m) (h6 : my + m ≤ M)
    (h7 : -M ≤ mxy + mx + my + m) (h8 : mxy + mx + my + m ≤ M) :
    Sat A (isDomainAmenable cfg mxy mx my m) (fun b => b = true ↔ Amen mxy mx my m) := by
  unfold isDomainAmenable Amen
  simp only []
  by_cases h0 : m.sign = 0
  · rw [if_pos h0]
    have := Int.sign_eq_zero_iff_zero.1 h0
    refine Sat.pure ?_
    simp only [Bool.false_eq_true, false_iff]; omega
  rw [if_neg h0]
  have hm0 : m ≠ 0 := fun h => h0 (by simp [h])
  have key : ∀ z : Int, m.sign = z.sign ↔ (0 < m ∧ 0 < z) ∨ (m < 0 ∧ z < 0) := by
    intro z
    rcases lt_trichotomy m 0 with h | h | h
    · rw [Int.sign_eq_neg_one_of_neg h, eq_comm, Int.sign_eq_neg_one_iff_neg]; omega
    · exact absurd h hm0
    · rw [Int.sign_eq_one_of_pos h, eq_comm, Int.sign_eq_one_iff_pos]; omega
  refine Sat.bind (Cfg.cadd_sat (hs.lin (by omega) (by omega))) ?_
  rintro _ ⟨rfl, _⟩
  by_cases k1 : m.sign = (m + mx).sign
  swap
  · rw [if_pos k1]
    rw [key] at k1
    refine Sat.pure ?_
    simp only [Bool.false_eq_true, false_iff]; omega
  rw [if_neg (not_not.2 k1)]
  rw [key] at k1
  refine Sat.bind (Cfg.cadd_sat (hs.lin (by omega) (by omega))) ?_
  rintro _ ⟨rfl, _⟩
  by_cases k2 : m.sign = (m + my).sign
  swap
  · rw [if_pos k2]
    rw [key] at k2
    refine Sat.pure ?_
    simp only [Bool.false_eq_true, false_iff]; omega
  rw [if_neg (not_not.2 k2)]
  rw [key] at k2
  refine Sat.bind (Cfg.cadd_sat (hs.lin (by omega) (by omega))) ?_
  rintro _ ⟨rfl, _⟩
  refine Sat.bind (Cfg.cadd_sat (hs.lin (by omega) (by omega))) ?_
  rintro _ ⟨rfl, _⟩
  refine Sat.bind (Cfg.cadd_sat (hs.lin (by omega) (by omega))) ?_
  rintro _ ⟨rfl, _⟩
  refine Sat.pure ?_
  rw [beq_iff_eq, key]
  omega

theorem areSingularitiesOutsideDomain_sat {cfg : Cfg} {A M} {k : Coef8} (hs : cfg.SafeUpTo A M)
    (hb : k.Bounded M) :
    Sat A (k.areSingularitiesOutsideDomain cfg) (fun b => b = true ↔
      Amen k.a k.b k.c k.d ∧ Amen k.e k.f k.g k.h) := by
  obtain ⟨_, _, _, _, _, _, _, _, _, _, _, _, _, _, _, _, _⟩ := hb
  unfold areSingularitiesOutsideDomain isZeroOutsideDomain isPoleOutsideDomain
  exact Sat.andAlso (isDomainAmenable_sat hs (by omega) (by omega) (by omega) (by omega)
      (by omega) (by omega) (by omega) (by omega))
    fun _ => isDomainAmenable_sat hs (by omega) (by omega) (by omega) (by omega)
      (by omega) (by omega) (by omega) (by omega)

/-- Outcome of `image_extremes`, when no corner is zero or a pole. -/
theorem imageExtremes_sat {cfg : Cfg} {A M s} {k : Coef8} (hs : cfg.SafeUpTo A M)
    (hb : k.Bounded M) (sg : IsSign s)
    (z0 : k.d ≠ 0) (z1 : k.c + k.d ≠ 0) (z2 : k.b + k.d ≠ 0) (z3 : k.a + k.b + k.c + k.d ≠ 0)
    (p0 : 0 < s * k.h) (p1 : 0 < s * (k.g + k.h)) (p2 : 0 < s * (k.f + k.h))
    (p3 : 0 < s * (k.e + k.f + k.g + k.h)) :
    Sat A (k.imageExtremes cfg) (fun t => Range M t
      (fun lam mu => lam * (s * k.d) < mu * (s * k.h) ∧
        lam * (s * (k.c + k.d)) < mu * (s * (k.g + k.h)) ∧
        lam * (s * (k.b + k.d)) < mu * (s * (k.f + k.h)) ∧
        lam * (s * (k.a + k.b + k.c + k.d)) < mu * (s * (k.e + k.f + k.g + k.h)))
      (fun lam mu => mu * (s * k.h) < lam * (s * k.d) ∧
        mu * (s * (k.g + k.h)) < lam * (s * (k.c + k.d)) ∧
        mu * (s * (k.f + k.h)) < lam * (s * (k.b + k.d)) ∧
        mu * (s * (k.e + k.f + k.g + k.h)) < lam * (s * (k.a + k.b + k.c + k.d)))) := by
  obtain ⟨hM, _, _, _, _, _, _, _, _, _, _, _, _, _, _, _, _⟩ := hb
  unfold imageExtremes
  simp only [valueAt00]
  refine Sat.bind (Q := fun r => r = (k.c + k.d, k.g + k.h)) ?_ ?_
  · unfold valueAt01
    refine Sat.bind (Cfg.cadd_sat (hs.lin (by omega) (by omega))) ?_
    rintro _ ⟨rfl, _⟩
    refine Sat.bind (Cfg.cadd_sat (hs.lin (by omega) (by omega))) ?_
    rintro _ ⟨rfl, _⟩
    exact Sat.pure rfl
  rintro _ rfl
  refine Sat.bind (updatedRange_sat hs hM sg sg z0 z0 z1 p0 p0 p1 (by omega) (by omega)
    (by omega) (by omega) (by omega) (by omega) (by omega) (by omega) (by omega) (by omega)
    (by omega) (by omega) le_rfl) ?_
  rintro ⟨t1, t2, t3, t4⟩ r1
  refine Sat.bind (Q := fun r => r = (k.b + k.d, k.f + k.h)) ?_ ?_
  · unfold valueAt10
    refine Sat.bind (Cfg.cadd_sat (hs.lin (by omega) (by omega))) ?_
    rintro _ ⟨rfl, _⟩
    refine Sat.bind (Cfg.cadd_sat (hs.lin (by omega) (by omega))) ?_
    rintro _ ⟨rfl, _⟩
    exact Sat.pure rfl
  rintro _ rfl
  obtain ⟨x1, x2, x3, x4, x5, x6, x7, x8, x9, x10, x11, x12, x13⟩ := r1
  simp only at x1 x2 x3 x4 x5 x6 x7 x8 x9 x10 x11 x12 x13 ⊢
  refine Sat.bind (updatedRange_sat (s := 1) hs hM (.inl rfl) sg x1 x2 z2 (by omega) (by omega) p2
    x5 x6 (by omega) x7 x8 x9 (by omega) x10 (by omega) (by omega)
    (by omega) (by omega) (by simpa using x11)) ?_
  rintro ⟨u1, u2, u3, u4⟩ r2
  refine Sat.bind (Q := fun r => r = (k.a + k.b + k.c + k.d, k.e + k.f + k.g + k.h)) ?_ ?_
  · unfold valueAt11
    refine Sat.bind (Cfg.cadd_sat (hs.lin (by omega) (by omega))) ?_
    rintro _ ⟨rfl, _⟩
    refine Sat.bind (Cfg.cadd_sat (hs.lin (by omega) (by omega))) ?_
    rintro _ ⟨rfl, _⟩
    refine Sat.bind (Cfg.cadd_sat (hs.lin (by omega) (by omega))) ?_
    rintro _ ⟨rfl, _⟩
    refine Sat.bind (Cfg.cadd_sat (hs.lin (by omega) (by omega))) ?_
    rintro _ ⟨rfl, _⟩
    refine Sat.bind (Cfg.cadd_sat (hs.lin (by omega) (by omega))) ?_
    rintro _ ⟨rfl, _⟩
    refine Sat.bind (Cfg.cadd_sat (hs.lin (by omega) (by omega))) ?_
    rintro _ ⟨rfl, _⟩
    refine Sat.pure ?_
    simp only [Prod.mk.injEq]
    omega
  rintro _ rfl
  obtain ⟨y1, y2, y3, y4, y5, y6, y7, y8, y9, y10, y11, y12, y13⟩ := r2
  simp only at y1 y2 y3 y4 y5 y6 y7 y8 y9 y10 y11 y12 y13 ⊢
  refine Sat.mono (updatedRange_sat (s := 1) hs hM (.inl rfl) sg y1 y2 z3 (by omega) (by omega) p3
    y5 y6 (by omega) y7 y8 y9 (by omega) y10 (by omega) (by omega)
    (by omega) (by omega) (by simpa using y11)) ?_
  rintro t ⟨w1, w2, w3, w4, w5, w6, w7, w8, w9, w10, w11, w12, w13⟩
  refine ⟨w1, w2, w3, w4, w5, w6, w7, w8, w9, w10, w11, fun lam mu hl => ?_, fun lam mu hl => ?_⟩
  · rw [w12 lam mu hl, one_mul, one_mul, y12 lam mu hl, one_mul, one_mul, x12 lam mu hl]
    tauto
  · rw [w13 lam mu hl, one_mul, one_mul, y13 lam mu hl, one_mul, one_mul, x13 lam mu hl]
    tauto

/-! ## Decisions -/

/-- What the primer says about the change of coefficients. -/
def PrimerRel (k : Coef8) (p : Option Primer) (k' : Coef8) : Prop :=
  (p = some .Ground ∧ k' = ⟨-k.e, -k.f, -k.g, -k.h, k.a, k.b, k.c, k.d⟩) ∨
  (p = some .Turn ∧ k' = ⟨k.e, k.f, k.g, k.h, k.a, k.b, k.c, k.d⟩) ∨
  (p = some .Reflect ∧ k' = ⟨-k.a, -k.b, -k.c, -k.d, k.e, k.f, k.g, k.h⟩) ∨ (p = none ∧ k' = k)

theorem PrimerRel.bounded {k : Coef8} {p k'} (h : PrimerRel k p k') {M} (hb : k.Bounded M) :
    k'.Bounded M := by
  obtain ⟨_, _, _, _, _, _, _, _, _, _, _, _, _, _, _, _, _⟩ := hb
  rcases h with ⟨_, rfl⟩ | ⟨_, rfl⟩ | ⟨_, rfl⟩ | ⟨_, rfl⟩ <;> constructor <;>
    (try simp only) <;> omega

theorem Amen.sign {mxy mx my m : Int} (h : Amen mxy mx my m) : ∃ s, IsSign s ∧ 0 < s * m ∧
    0 < s * (my + m) ∧ 0 < s * (mx + m) ∧ 0 < s * (mxy + mx + my + m) := by
  rcases h with h | h
  · exact ⟨1, .inl rfl, by omega⟩
  · exact ⟨-1, .inr rfl, by omega⟩

/-- A decided primer is right, and leads to the invariant. -/
theorem primerEgest_sat {cfg : Cfg} {A M} {k : Coef8} (hs : cfg.SafeUpTo A M)
    (hb : k.Bounded M) (hN : Amen k.a k.b k.c k.d) (hD : Amen k.e k.f k.g k.h) :
    Sat A (k.primerEgest cfg) (fun r => ∀ p k', r = some (p, k') → PrimerRel k p k' ∧ Inv k') := by
  have hb' := hb
  obtain ⟨hM, _, _, _, _, _, _, _, _, _, _, _, _, _, _, _, _⟩ := hb'
  obtain ⟨s, sg, p0, p1, p2, p3⟩ := hD.sign
  unfold primerEgest
  refine Sat.bind (imageExtremes_sat hs hb sg (by unfold Amen at hN; omega)
    (by unfold Amen at hN; omega) (by unfold Amen at hN; omega) (by unfold Amen at hN; omega)
    p0 p1 p2 p3) ?_
  rintro ⟨nmin, dmn, nmax, dmx⟩ ⟨-, -, x3, x4, x5, x6, x7, x8, x9, x10, -, mx, mn⟩
  have m1 := mx 1 (-1) (by norm_num); have m2 := mx 1 0 (by norm_num)
  have m3 := mx 1 1 (by norm_num)
  have l1 := mn 1 (-1) (by norm_num); have l2 := mn 1 0 (by norm_num)
  have l3 := mn 1 1 (by norm_num)
  simp only [one_mul, zero_mul, neg_mul] at m1 m2 m3 l1 l2 l3 x3 x4 x5 x6 x7 x8 x9 x10 ⊢
  clear mx mn
  have sx : cfg.Safe A (-dmx) := hs.lin (by omega) (by omega)
  have sn : cfg.Safe A (-dmn) := hs.lin (by omega) (by omega)
  refine Sat.bind (lessThanMinusOne_sat x4.le sx) ?_
  intro b hb
  by_cases g1 : b = true
  · rw [if_pos g1]
    have hc := m1.1 (by
      have := mt hb.2 (by simp [g1]); omega)
    refine Sat.bind (Q := fun k' => k' = ⟨-k.e, -k.f, -k.g, -k.h, k.a, k.b, k.c, k.d⟩) ?_ ?_
    · unfold ground reflect turn
      simp only
      refine Sat.bind (Cfg.neg_sat (hs.lin (by omega) (by omega))) ?_
      rintro _ ⟨rfl, _⟩
      refine Sat.bind (Cfg.neg_sat (hs.lin (by omega) (by omega))) ?_
      rintro _ ⟨rfl, _⟩
      refine Sat.bind (Cfg.neg_sat (hs.lin (by omega) (by omega))) ?_
      rintro _ ⟨rfl, _⟩
      refine Sat.bind (Cfg.neg_sat (hs.lin (by omega) (by omega))) ?_
      rintro _ ⟨rfl, _⟩
      exact Sat.pure rfl
    · rintro _ rfl
      refine Sat.pure ?_
      intro p k' h
      simp only [Option.some.injEq, Prod.mk.injEq] at h
      obtain ⟨rfl, rfl⟩ := h
      refine ⟨.inl ⟨rfl, rfl⟩, ?_⟩
      unfold Inv Pos opp
      simp only
      rcases sg with rfl | rfl
      · right; omega
      · left; omega
  rw [if_neg g1]
  refine Sat.bind (Q := fun b => b = true → (-dmn < nmin ∧ nmax < 0)) ?_ ?_
  · unfold Out.and
    refine Sat.bind (greaterThanMinusOne_sat x3.le sn) ?_
    intro b hb
    by_cases g : b = true
    · rw [if_pos g]
      refine Sat.pure ?_
      intro h
      have := mt hb.2 (by simp [g])
      have h2 := mt (lessThanZero_eq (n := nmax) x4.le).2 (by simp [h])
      omega
    · rw [if_neg g]
      exact Sat.pure (by simp)
  intro b hneg
  by_cases g2 : b = true
  · rw [if_pos g2]
    obtain ⟨h1, h2⟩ := hneg g2
    have ha := l1.1 h1
    have hc := m2.1 h2
    refine Sat.bind (Q := fun k' => k' = ⟨-k.a, -k.b, -k.c, -k.d, k.e, k.f, k.g, k.h⟩) ?_ ?_
    · unfold reflect
      refine Sat.bind (Cfg.neg_sat (hs.lin (by omega) (by omega))) ?_
      rintro _ ⟨rfl, _⟩
      refine Sat.bind (Cfg.neg_sat (hs.lin (by omega) (by omega))) ?_
      rintro _ ⟨rfl, _⟩
      refine Sat.bind (Cfg.neg_sat (hs.lin (by omega) (by omega))) ?_
      rintro _ ⟨rfl, _⟩
      refine Sat.bind (Cfg.neg_sat (hs.lin (by omega) (by omega))) ?_
      rintro _ ⟨rfl, _⟩
      exact Sat.pure rfl
    · rintro _ rfl
      refine Sat.pure ?_
      intro p k' h
      simp only [Option.some.injEq, Prod.mk.injEq] at h
      obtain ⟨rfl, rfl⟩ := h
      refine ⟨.inr (.inr (.inl ⟨rfl, rfl⟩)), ?_⟩
      unfold Inv Pos opp
      simp only
      rcases sg with rfl | rfl
      · left; omega
      · right; omega
  rw [if_neg g2]
  by_cases g3 : (greaterThanZero nmin dmn && lessThanOne nmax dmx) = true
  · rw [if_pos g3]
    simp only [Bool.and_eq_true] at g3
    have h1 := mt (greaterThanZero_eq (n := nmin) x3.le).2 (by simp [g3.1])
    have h2 := mt (lessThanOne_eq (n := nmax) x4.le).2 (by simp [g3.2])
    have ha := l2.1 (by omega)
    have hc := m3.1 (by omega)
    refine Sat.pure ?_
    intro p k' h
    simp only [Option.some.injEq, Prod.mk.injEq] at h
    obtain ⟨rfl, rfl⟩ := h
    refine ⟨.inr (.inr (.inr ⟨rfl, rfl⟩)), ?_⟩
    unfold Inv Pos opp
    simp only
    rcases sg with rfl | rfl
    · left; omega
    · right; omega
  rw [if_neg g3]
  by_cases g4 : greaterThanOne nmin dmn = true
  · rw [if_pos g4]
    have h1 := mt (greaterThanOne_eq (n := nmin) x3.le).2 (by simp [g4])
    have ha := l3.1 (by omega)
    refine Sat.pure ?_
    intro p k' h
    simp only [Option.some.injEq, Prod.mk.injEq] at h
    obtain ⟨rfl, rfl⟩ := h
    refine ⟨.inr (.inl ⟨rfl, rfl⟩), ?_⟩
    unfold Inv Pos opp turn
    simp only
    rcases sg with rfl | rfl
    · left; omega
    · right; omega
  · rw [if_neg g4]
    exact Sat.pure (by simp)

theorem primerAttempt_sat {cfg : Cfg} {A M} {k : Coef8} (hs : cfg.SafeUpTo A M)
    (hb : k.Bounded M) :
    Sat A (k.primerAttempt cfg) (fun r => ∀ p k', r = some (p, k') →
      PrimerRel k p k' ∧ Inv k' ∧ Amen k.e k.f k.g k.h) := by
  unfold primerAttempt
  refine Sat.bind (areSingularitiesOutsideDomain_sat hs hb) ?_
  intro b hb'
  by_cases h : b = true
  · rw [if_pos h]
    refine Sat.mono (primerEgest_sat hs hb (hb'.1 h).1 (hb'.1 h).2) ?_
    exact fun r hr p k' e => ⟨(hr p k' e).1, (hr p k' e).2, (hb'.1 h).2⟩
  · rw [if_neg h]
    exact Sat.pure (by simp)

/-- Outcome of a `reduction_egest` that decides, for a positive representative. -/
def ReductionRel (k : Coef8) (r : Option Reduction) (k' : Coef8) : Prop :=
  (r = some .Amplify ∧ (∃ s : Int, (s = 1 ∨ s = 2) ∧
      (s * k'.a = 2 * k.a ∧ s * k'.b = 2 * k.b ∧ s * k'.c = 2 * k.c ∧ s * k'.d = 2 * k.d) ∧
      (s * k'.e = k.e ∧ s * k'.f = k.f ∧ s * k'.g = k.g ∧ s * k'.h = k.h)) ∧
    2 * k.d < k.h ∧ 2 * (k.c + k.d) < k.g + k.h ∧ 2 * (k.b + k.d) < k.f + k.h ∧
    2 * (k.a + k.b + k.c + k.d) < k.e + k.f + k.g + k.h) ∨
  (r = some .Uncover ∧
    k' = ⟨k.e - k.a, k.f - k.b, k.g - k.c, k.h - k.d, k.a, k.b, k.c, k.d⟩ ∧
    k.h < 2 * k.d ∧ k.g + k.h < 2 * (k.c + k.d) ∧ k.f + k.h < 2 * (k.b + k.d) ∧
    k.e + k.f + k.g + k.h < 2 * (k.a + k.b + k.c + k.d))

/-- Under the invariant, `reduction_egest` never panics with "logic error", and its decisions
are right at all corners. -/
theorem reductionEgest_sat {cfg : Cfg} {A M} {k : Coef8} (hs : cfg.SafeUpTo A M)
    (hb : k.Bounded M) (hI : Inv k) :
    Sat A (k.reductionEgest cfg) (fun r => ∀ p k', r = some (p, k') →
      (Pos k ∧ ReductionRel k p k') ∨ (Pos k.opp ∧ ReductionRel k.opp p k'.opp)) := by
  have hb' := hb
  obtain ⟨hM, _, _, _, _, _, _, _, _, _, _, _, _, _, _, _, _⟩ := hb'
  have hsg : ∃ s : Int, ((s = 1 ∧ Pos k) ∨ (s = -1 ∧ Pos k.opp)) ∧ IsSign s ∧
      (0 < s * k.d ∧ 0 < s * (k.c + k.d) ∧ 0 < s * (k.b + k.d) ∧
        0 < s * (k.a + k.b + k.c + k.d)) ∧
      (s * k.d < s * k.h ∧ s * (k.c + k.d) < s * (k.g + k.h) ∧
        s * (k.b + k.d) < s * (k.f + k.h) ∧
        s * (k.a + k.b + k.c + k.d) < s * (k.e + k.f + k.g + k.h)) := by
    rcases hI with h | h
    · refine ⟨1, .inl ⟨rfl, h⟩, .inl rfl, ?_⟩
      unfold Pos at h; omega
    · refine ⟨-1, .inr ⟨rfl, h⟩, .inr rfl, ?_⟩
      unfold Pos opp at h; simp only at h; omega
  obtain ⟨s, hp, sg, q1, q2⟩ := hsg
  unfold reductionEgest
  refine Sat.bind (imageExtremes_sat hs hb sg (by rcases sg with rfl | rfl <;> omega)
    (by rcases sg with rfl | rfl <;> omega) (by rcases sg with rfl | rfl <;> omega)
    (by rcases sg with rfl | rfl <;> omega) (by omega) (by omega) (by omega) (by omega)) ?_
  rintro ⟨nmin, dmn, nmax, dmx⟩ ⟨-, -, x3, x4, x5, x6, x7, x8, x9, x10, -, mx, mn⟩
  have m2 := mx 2 1 (by norm_num)
  have m3 := mx 1 1 (by norm_num)
  have l2 := mn 1 0 (by norm_num)
  have l3 := mn 2 1 (by norm_num)
  simp only [one_mul, zero_mul] at m2 m3 l2 l3 x3 x4 x5 x6 x7 x8 x9 x10 ⊢
  clear mx mn
  have i1 := l2.2 q1
  have i2 := m3.2 q2
  rw [if_neg (by simp [notGreaterThanZero, x3, i1]), if_neg (by simp [notLessThanOne, x4, i2])]
  have sN : cfg.Safe A (nmin * 2) := hs.lin (by omega) (by omega)
  have sX : cfg.Safe A (nmax * 2) := hs.lin (by omega) (by omega)
  refine Sat.bind (lessThanOneHalf_sat x4.le sX) ?_
  intro b hb
  by_cases g1 : b = true
  · rw [if_pos g1]
    have hc := m2.1 (by have := mt hb.2 (by simp [g1]); omega)
    refine Sat.bind (Q := fun k' => ∃ s : Int, (s = 1 ∨ s = 2) ∧
      (s * k'.a = 2 * k.a ∧ s * k'.b = 2 * k.b ∧ s * k'.c = 2 * k.c ∧ s * k'.d = 2 * k.d) ∧
      (s * k'.e = k.e ∧ s * k'.f = k.f ∧ s * k'.g = k.g ∧ s * k'.h = k.h)) ?_ ?_
    · unfold amplify
      by_cases hev : (isEven k.e && isEven k.f && isEven k.g && isEven k.h) = true
      · rw [if_pos hev]
        simp only [Bool.and_eq_true, isEven_iff] at hev
        exact Sat.pure ⟨2, .inr rfl, ⟨rfl, rfl, rfl, rfl⟩, hev.1.1.1, hev.1.1.2, hev.1.2, hev.2⟩
      · rw [if_neg hev]
        refine Sat.bind (Cfg.cmul_sat (hs.lin (by rcases sg with rfl | rfl <;> omega)
          (by rcases sg with rfl | rfl <;> omega))) ?_
        rintro _ ⟨rfl, _⟩
        refine Sat.bind (Cfg.cmul_sat (hs.lin (by rcases sg with rfl | rfl <;> omega)
          (by rcases sg with rfl | rfl <;> omega))) ?_
        rintro _ ⟨rfl, _⟩
        refine Sat.bind (Cfg.cmul_sat (hs.lin (by rcases sg with rfl | rfl <;> omega)
          (by rcases sg with rfl | rfl <;> omega))) ?_
        rintro _ ⟨rfl, _⟩
        refine Sat.bind (Cfg.cmul_sat (hs.lin (by rcases sg with rfl | rfl <;> omega)
          (by rcases sg with rfl | rfl <;> omega))) ?_
        rintro _ ⟨rfl, _⟩
        refine Sat.pure ⟨1, .inl rfl, ?_⟩
        simp only
        omega
    · rintro k' ⟨c, hc', a1, a2⟩
      refine Sat.pure ?_
      intro p k'' h
      simp only [Option.some.injEq, Prod.mk.injEq] at h
      obtain ⟨rfl, rfl⟩ := h
      rcases hp with ⟨rfl, hp⟩ | ⟨rfl, hp⟩
      · exact .inl ⟨hp, .inl ⟨rfl, ⟨c, hc', a1, a2⟩, by omega⟩⟩
      · refine .inr ⟨hp, .inl ⟨rfl, ⟨c, hc', ?_⟩, ?_⟩⟩ <;> simp only [opp, mul_neg] <;> omega
  rw [if_neg g1]
  refine Sat.bind (greaterThanOneHalf_sat x3.le sN) ?_
  intro b hb
  by_cases g2 : b = true
  · rw [if_pos g2]
    have hc := l3.1 (by have := mt hb.2 (by simp [g2]); omega)
    refine Sat.bind (Q := fun k' => k' =
      ⟨k.e - k.a, k.f - k.b, k.g - k.c, k.h - k.d, k.a, k.b, k.c, k.d⟩) ?_ ?_
    · unfold uncover shift turn
      simp only
      refine Sat.bind (Cfg.csub_sat (hs.lin (by rcases sg with rfl | rfl <;> omega)
        (by rcases sg with rfl | rfl <;> omega))) ?_
      rintro _ ⟨rfl, _⟩
      refine Sat.bind (Cfg.csub_sat (hs.lin (by rcases sg with rfl | rfl <;> omega)
        (by rcases sg with rfl | rfl <;> omega))) ?_
      rintro _ ⟨rfl, _⟩
      refine Sat.bind (Cfg.csub_sat (hs.lin (by rcases sg with rfl | rfl <;> omega)
        (by rcases sg with rfl | rfl <;> omega))) ?_
      rintro _ ⟨rfl, _⟩
      refine Sat.bind (Cfg.csub_sat (hs.lin (by rcases sg with rfl | rfl <;> omega)
        (by rcases sg with rfl | rfl <;> omega))) ?_
      rintro _ ⟨rfl, _⟩
      exact Sat.pure rfl
    · rintro _ rfl
      refine Sat.pure ?_
      intro p k'' h
      simp only [Option.some.injEq, Prod.mk.injEq] at h
      obtain ⟨rfl, rfl⟩ := h
      rcases hp with ⟨rfl, hp⟩ | ⟨rfl, hp⟩
      · exact .inl ⟨hp, .inr ⟨rfl, rfl, by omega⟩⟩
      · refine .inr ⟨hp, .inr ⟨rfl, ?_, ?_⟩⟩
        · simp only [opp]; congr 1 <;> ring
        · simp only [opp]; omega
  · rw [if_neg g2]
    exact Sat.pure (by simp)

theorem reductionAttempt_sat {cfg : Cfg} {A M} {k : Coef8} (hs : cfg.SafeUpTo A M)
    (hb : k.Bounded M) (hI : Inv k) :
    Sat A (k.reductionAttempt cfg) (fun r => ∀ p k', r = some (p, k') →
      (Pos k ∧ ReductionRel k p k') ∨ (Pos k.opp ∧ ReductionRel k.opp p k'.opp)) := by
  unfold reductionAttempt
  refine Sat.bind (areSingularitiesOutsideDomain_sat hs hb) ?_
  intro b hb'
  by_cases h : b = true
  · rw [if_pos h]
    exact reductionEgest_sat hs hb hI
  · rw [if_neg h]
    exact Sat.pure (by simp)

/-! ## Ingestion -/

/-- The coefficients after a symbol of `x`. -/
def IngX (r : Reduction) (k k' : Coef8) : Prop :=
  match r with
  | .Amplify => ∃ s : Int, (s = 1 ∨ s = 2) ∧
      (s * k'.a = k.a ∧ s * k'.b = k.b ∧ s * k'.c = 2 * k.c ∧ s * k'.d = 2 * k.d) ∧
      (s * k'.e = k.e ∧ s * k'.f = k.f ∧ s * k'.g = 2 * k.g ∧ s * k'.h = 2 * k.h)
  | .Uncover => k' = ⟨k.c, k.d, k.a + k.c, k.b + k.d, k.g, k.h, k.e + k.g, k.f + k.h⟩

/-- The coefficients after a symbol of `y`. -/
def IngY (r : Reduction) (k k' : Coef8) : Prop :=
  match r with
  | .Amplify => ∃ s : Int, (s = 1 ∨ s = 2) ∧
      (s * k'.a = k.a ∧ s * k'.b = 2 * k.b ∧ s * k'.c = k.c ∧ s * k'.d = 2 * k.d) ∧
      (s * k'.e = k.e ∧ s * k'.f = 2 * k.f ∧ s * k'.g = k.g ∧ s * k'.h = 2 * k.h)
  | .Uncover => k' = ⟨k.b, k.a + k.b, k.d, k.c + k.d, k.f, k.e + k.f, k.h, k.g + k.h⟩

theorem ingestX_sat {cfg : Cfg} {A M} {k : Coef8} (r : Reduction) (hs : cfg.SafeUpTo A M)
    (hb : k.Bounded M) : Sat A (k.ingestX cfg r) (IngX r k) := by
  obtain ⟨hM, _, _, _, _, _, _, _, _, _, _, _, _, _, _, _, _⟩ := hb
  cases r with
  | Amplify =>
    simp only [ingestX, amplifyX]
    by_cases hev : (isEven k.a && isEven k.b && isEven k.e && isEven k.f) = true
    · rw [if_pos hev]
      simp only [Bool.and_eq_true, isEven_iff] at hev
      exact Sat.pure ⟨2, .inr rfl, ⟨hev.1.1.1, hev.1.1.2, rfl, rfl⟩, hev.1.2, hev.2, rfl, rfl⟩
    · rw [if_neg hev]
      refine Sat.bind (Cfg.cmul_sat (hs.lin (by omega) (by omega))) ?_
      rintro _ ⟨rfl, _⟩
      refine Sat.bind (Cfg.cmul_sat (hs.lin (by omega) (by omega))) ?_
      rintro _ ⟨rfl, _⟩
      refine Sat.bind (Cfg.cmul_sat (hs.lin (by omega) (by omega))) ?_
      rintro _ ⟨rfl, _⟩
      refine Sat.bind (Cfg.cmul_sat (hs.lin (by omega) (by omega))) ?_
      rintro _ ⟨rfl, _⟩
      refine Sat.pure ⟨1, .inl rfl, ?_⟩
      simp only; omega
  | Uncover =>
    simp only [ingestX, uncoverX, shiftX, turnX]
    refine Sat.bind (Cfg.cadd_sat (hs.lin (by omega) (by omega))) ?_
    rintro _ ⟨rfl, _⟩
    refine Sat.bind (Cfg.cadd_sat (hs.lin (by omega) (by omega))) ?_
    rintro _ ⟨rfl, _⟩
    refine Sat.bind (Cfg.cadd_sat (hs.lin (by omega) (by omega))) ?_
    rintro _ ⟨rfl, _⟩
    refine Sat.bind (Cfg.cadd_sat (hs.lin (by omega) (by omega))) ?_
    rintro _ ⟨rfl, _⟩
    exact Sat.pure rfl

theorem ingestY_sat {cfg : Cfg} {A M} {k : Coef8} (r : Reduction) (hs : cfg.SafeUpTo A M)
    (hb : k.Bounded M) : Sat A (k.ingestY cfg r) (IngY r k) := by
  obtain ⟨hM, _, _, _, _, _, _, _, _, _, _, _, _, _, _, _, _⟩ := hb
  cases r with
  | Amplify =>
    simp only [ingestY, amplifyY]
    by_cases hev : (isEven k.a && isEven k.c && isEven k.e && isEven k.g) = true
    · rw [if_pos hev]
      simp only [Bool.and_eq_true, isEven_iff] at hev
      exact Sat.pure ⟨2, .inr rfl, ⟨hev.1.1.1, rfl, hev.1.1.2, rfl⟩, hev.1.2, rfl, hev.2, rfl⟩
    · rw [if_neg hev]
      refine Sat.bind (Cfg.cmul_sat (hs.lin (by omega) (by omega))) ?_
      rintro _ ⟨rfl, _⟩
      refine Sat.bind (Cfg.cmul_sat (hs.lin (by omega) (by omega))) ?_
      rintro _ ⟨rfl, _⟩
      refine Sat.bind (Cfg.cmul_sat (hs.lin (by omega) (by omega))) ?_
      rintro _ ⟨rfl, _⟩
      refine Sat.bind (Cfg.cmul_sat (hs.lin (by omega) (by omega))) ?_
      rintro _ ⟨rfl, _⟩
      refine Sat.pure ⟨1, .inl rfl, ?_⟩
      simp only; omega
  | Uncover =>
    simp only [ingestY, uncoverY, shiftY, turnY]
    refine Sat.bind (Cfg.cadd_sat (hs.lin (by omega) (by omega))) ?_
    rintro _ ⟨rfl, _⟩
    refine Sat.bind (Cfg.cadd_sat (hs.lin (by omega) (by omega))) ?_
    rintro _ ⟨rfl, _⟩
    refine Sat.bind (Cfg.cadd_sat (hs.lin (by omega) (by omega))) ?_
    rintro _ ⟨rfl, _⟩
    refine Sat.bind (Cfg.cadd_sat (hs.lin (by omega) (by omega))) ?_
    rintro _ ⟨rfl, _⟩
    exact Sat.pure rfl

theorem IngX.bounded {r : Reduction} {k k' : Coef8} {M} (h : IngX r k k') (hb : k.Bounded M) :
    k'.Bounded (2 * M) := by
  obtain ⟨hM, _, _, _, _, _, _, _, _, _, _, _, _, _, _, _, _⟩ := hb
  cases r with
  | Amplify =>
    obtain ⟨s, hs, h1, h2⟩ := h
    rcases hs with rfl | rfl <;> constructor <;> omega
  | Uncover =>
    obtain rfl : k' = _ := h
    constructor <;> (try simp only) <;> omega

theorem IngY.bounded {r : Reduction} {k k' : Coef8} {M} (h : IngY r k k') (hb : k.Bounded M) :
    k'.Bounded (2 * M) := by
  obtain ⟨hM, _, _, _, _, _, _, _, _, _, _, _, _, _, _, _, _⟩ := hb
  cases r with
  | Amplify =>
    obtain ⟨s, hs, h1, h2⟩ := h
    rcases hs with rfl | rfl <;> constructor <;> omega
  | Uncover =>
    obtain rfl : k' = _ := h
    constructor <;> (try simp only) <;> omega

theorem IngX.inv {r : Reduction} {k k' : Coef8} (h : IngX r k k') (hI : Inv k) : Inv k' := by
  cases r with
  | Amplify =>
    obtain ⟨s, hs, h1, h2⟩ := h
    unfold Inv Pos opp at *
    simp only at *
    rcases hI with hI | hI
    · left; rcases hs with rfl | rfl <;> omega
    · right; rcases hs with rfl | rfl <;> omega
  | Uncover =>
    obtain rfl : k' = _ := h
    unfold Inv Pos opp at *
    simp only at *
    rcases hI with hI | hI
    · left; omega
    · right; omega

theorem IngY.inv {r : Reduction} {k k' : Coef8} (h : IngY r k k') (hI : Inv k) : Inv k' := by
  cases r with
  | Amplify =>
    obtain ⟨s, hs, h1, h2⟩ := h
    unfold Inv Pos opp at *
    simp only at *
    rcases hI with hI | hI
    · left; rcases hs with rfl | rfl <;> omega
    · right; rcases hs with rfl | rfl <;> omega
  | Uncover =>
    obtain rfl : k' = _ := h
    unfold Inv Pos opp at *
    simp only at *
    rcases hI with hI | hI
    · left; omega
    · right; omega

/-- The coefficients in `y` when `x` has ended. -/
def EndX (k : Coef8) (k' : Coef4) : Prop := ∃ s : Int, (s = 1 ∨ s = 2) ∧
  s * k'.nx = k.a + 2 * k.c ∧ s * k'.n = k.b + 2 * k.d ∧
  s * k'.dx = k.e + 2 * k.g ∧ s * k'.d = k.f + 2 * k.h

/-- The coefficients in `x` when `y` has ended. -/
def EndY (k : Coef8) (k' : Coef4) : Prop := ∃ s : Int, (s = 1 ∨ s = 2) ∧
  s * k'.nx = k.a + 2 * k.b ∧ s * k'.n = k.c + 2 * k.d ∧
  s * k'.dx = k.e + 2 * k.f ∧ s * k'.d = k.g + 2 * k.h

/-- The coefficients are machine integers. -/
def _root_.Clarith.Coef4.Fits (cfg : Cfg) (k : Coef4) : Prop :=
  cfg.Fits k.nx ∧ cfg.Fits k.n ∧ cfg.Fits k.dx ∧ cfg.Fits k.d

theorem valueAtEndOfX_sat {cfg : Cfg} {A M} {k : Coef8} (hs : cfg.SafeUpTo A M)
    (hb : k.Bounded M) :
    Sat A (k.valueAtEndOfX cfg) (fun k' => EndX k k' ∧ k'.Fits cfg) := by
  obtain ⟨hM, _, _, _, _, _, _, _, _, _, _, _, _, _, _, _, _⟩ := hb
  unfold valueAtEndOfX
  by_cases hev : (isEven k.a && isEven k.b && isEven k.e && isEven k.f) = true
  · rw [if_pos hev]
    simp only [Bool.and_eq_true, isEven_iff] at hev
    refine Sat.bind (Cfg.cadd_sat (hs.lin (by omega) (by omega))) ?_
    rintro _ ⟨rfl, f1⟩
    refine Sat.bind (Cfg.cadd_sat (hs.lin (by omega) (by omega))) ?_
    rintro _ ⟨rfl, f2⟩
    refine Sat.bind (Cfg.cadd_sat (hs.lin (by omega) (by omega))) ?_
    rintro _ ⟨rfl, f3⟩
    refine Sat.bind (Cfg.cadd_sat (hs.lin (by omega) (by omega))) ?_
    rintro _ ⟨rfl, f4⟩
    refine Sat.pure ⟨⟨2, .inr rfl, ?_⟩, f1, f2, f3, f4⟩
    simp only; omega
  · rw [if_neg hev]
    refine Sat.bind (Cfg.cmul_sat (hs.lin (by omega) (by omega))) ?_
    rintro _ ⟨rfl, _⟩
    refine Sat.bind (Cfg.cadd_sat (hs.lin (by omega) (by omega))) ?_
    rintro _ ⟨rfl, f1⟩
    refine Sat.bind (Cfg.cmul_sat (hs.lin (by omega) (by omega))) ?_
    rintro _ ⟨rfl, _⟩
    refine Sat.bind (Cfg.cadd_sat (hs.lin (by omega) (by omega))) ?_
    rintro _ ⟨rfl, f2⟩
    refine Sat.bind (Cfg.cmul_sat (hs.lin (by omega) (by omega))) ?_
    rintro _ ⟨rfl, _⟩
    refine Sat.bind (Cfg.cadd_sat (hs.lin (by omega) (by omega))) ?_
    rintro _ ⟨rfl, f3⟩
    refine Sat.bind (Cfg.cmul_sat (hs.lin (by omega) (by omega))) ?_
    rintro _ ⟨rfl, _⟩
    refine Sat.bind (Cfg.cadd_sat (hs.lin (by omega) (by omega))) ?_
    rintro _ ⟨rfl, f4⟩
    refine Sat.pure ⟨⟨1, .inl rfl, ?_⟩, f1, f2, f3, f4⟩
    simp only; omega

theorem valueAtEndOfY_sat {cfg : Cfg} {A M} {k : Coef8} (hs : cfg.SafeUpTo A M)
    (hb : k.Bounded M) :
    Sat A (k.valueAtEndOfY cfg) (fun k' => EndY k k' ∧ k'.Fits cfg) := by
  obtain ⟨hM, _, _, _, _, _, _, _, _, _, _, _, _, _, _, _, _⟩ := hb
  unfold valueAtEndOfY
  by_cases hev : (isEven k.a && isEven k.c && isEven k.e && isEven k.g) = true
  · rw [if_pos hev]
    simp only [Bool.and_eq_true, isEven_iff] at hev
    refine Sat.bind (Cfg.cadd_sat (hs.lin (by omega) (by omega))) ?_
    rintro _ ⟨rfl, f1⟩
    refine Sat.bind (Cfg.cadd_sat (hs.lin (by omega) (by omega))) ?_
    rintro _ ⟨rfl, f2⟩
    refine Sat.bind (Cfg.cadd_sat (hs.lin (by omega) (by omega))) ?_
    rintro _ ⟨rfl, f3⟩
    refine Sat.bind (Cfg.cadd_sat (hs.lin (by omega) (by omega))) ?_
    rintro _ ⟨rfl, f4⟩
    refine Sat.pure ⟨⟨2, .inr rfl, ?_⟩, f1, f2, f3, f4⟩
    simp only; omega
  · rw [if_neg hev]
    refine Sat.bind (Cfg.cmul_sat (hs.lin (by omega) (by omega))) ?_
    rintro _ ⟨rfl, _⟩
    refine Sat.bind (Cfg.cadd_sat (hs.lin (by omega) (by omega))) ?_
    rintro _ ⟨rfl, f1⟩
    refine Sat.bind (Cfg.cmul_sat (hs.lin (by omega) (by omega))) ?_
    rintro _ ⟨rfl, _⟩
    refine Sat.bind (Cfg.cadd_sat (hs.lin (by omega) (by omega))) ?_
    rintro _ ⟨rfl, f2⟩
    refine Sat.bind (Cfg.cmul_sat (hs.lin (by omega) (by omega))) ?_
    rintro _ ⟨rfl, _⟩
    refine Sat.bind (Cfg.cadd_sat (hs.lin (by omega) (by omega))) ?_
    rintro _ ⟨rfl, f3⟩
    refine Sat.bind (Cfg.cmul_sat (hs.lin (by omega) (by omega))) ?_
    rintro _ ⟨rfl, _⟩
    refine Sat.bind (Cfg.cadd_sat (hs.lin (by omega) (by omega))) ?_
    rintro _ ⟨rfl, f4⟩
    refine Sat.pure ⟨⟨1, .inl rfl, ?_⟩, f1, f2, f3, f4⟩
    simp only; omega

theorem EndX.bounded {k : Coef8} {k' : Coef4} {M} (h : EndX k k') (hb : k.Bounded M) :
    k'.Bounded (2 * M) := by
  obtain ⟨hM, _, _, _, _, _, _, _, _, _, _, _, _, _, _, _, _⟩ := hb
  obtain ⟨s, hs, h1, h2, h3, h4⟩ := h
  rcases hs with rfl | rfl <;> constructor <;> omega

theorem EndY.bounded {k : Coef8} {k' : Coef4} {M} (h : EndY k k') (hb : k.Bounded M) :
    k'.Bounded (2 * M) := by
  obtain ⟨hM, _, _, _, _, _, _, _, _, _, _, _, _, _, _, _, _⟩ := hb
  obtain ⟨s, hs, h1, h2, h3, h4⟩ := h
  rcases hs with rfl | rfl <;> constructor <;> omega

end Coef8

end Clarith
