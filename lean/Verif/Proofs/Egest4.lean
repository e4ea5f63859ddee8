import Verif.Proofs.Coef4

/-! # Decisions of `Homographic`: `primer_egest` and `reduction_egest` -/

namespace Clarith

open Out Spec Support

/-! ## Threshold tests on fractions with nonnegative denominator -/

theorem greaterThanMinusOne_sat {cfg : Cfg} {A} {n d : Int} (hd : 0 ≤ d)
    (hs : cfg.Safe A (-d)) :
    Sat A (greaterThanMinusOne cfg n d) (fun b => b = false ↔ n ≤ -d) := by
  unfold greaterThanMinusOne
  split_ifs with h1 h2
  · refine Sat.bind (Cfg.neg_sat hs) ?_
    rintro _ ⟨rfl, _⟩
    exact Sat.pure (by simp)
  · omega
  · have : d = 0 := by omega
    exact Sat.pure (by simp [this])

theorem lessThanMinusOne_sat {cfg : Cfg} {A} {n d : Int} (hd : 0 ≤ d)
    (hs : cfg.Safe A (-d)) :
    Sat A (lessThanMinusOne cfg n d) (fun b => b = false ↔ -d ≤ n) := by
  unfold lessThanMinusOne
  split_ifs with h1 h2
  · refine Sat.bind (Cfg.neg_sat hs) ?_
    rintro _ ⟨rfl, _⟩
    exact Sat.pure (by simp)
  · omega
  · have : d = 0 := by omega
    exact Sat.pure (by simp [this])

theorem lessThanOne_eq {n d : Int} (hd : 0 ≤ d) : lessThanOne n d = false ↔ d ≤ n := by
  unfold lessThanOne
  split_ifs with h1 h2
  · simp
  · omega
  · have : d = 0 := by omega
    simp [this]

theorem greaterThanOne_eq {n d : Int} (hd : 0 ≤ d) : greaterThanOne n d = false ↔ n ≤ d := by
  unfold greaterThanOne
  split_ifs with h1 h2
  · simp
  · omega
  · have : d = 0 := by omega
    simp [this]

theorem greaterThanZero_eq {n d : Int} (hd : 0 ≤ d) : greaterThanZero n d = false ↔ n ≤ 0 := by
  simp [greaterThanZero, hd]

theorem lessThanZero_eq {n d : Int} (hd : 0 ≤ d) : lessThanZero n d = false ↔ 0 ≤ n := by
  simp [lessThanZero, hd]

theorem doubled_sat {cfg : Cfg} {A} {n d : Int} (hs : cfg.Safe A (n * 2)) :
    Sat A (doubled cfg n d) (fun r => (r.1 = n ∧ 2 * r.2 = d) ∨ (r.1 = 2 * n ∧ r.2 = d)) := by
  unfold doubled
  split_ifs with h
  · refine Sat.pure (.inl ⟨rfl, ?_⟩)
    have := Int.mul_tdiv_add_tmod d 2
    simp only [half]; omega
  · refine Sat.bind (Cfg.cmul_sat hs) ?_
    rintro _ ⟨rfl, _⟩
    exact Sat.pure (.inr ⟨by simp; ring, rfl⟩)

theorem equalToOneHalf_sat {cfg : Cfg} {A} {n d : Int} (hs : cfg.Safe A (n * 2)) :
    Sat A (equalToOneHalf cfg n d) (fun b => b = true ↔ 2 * n = d) := by
  unfold equalToOneHalf
  refine Sat.bind (doubled_sat hs) ?_
  rintro ⟨n', d'⟩ h
  refine Sat.pure ?_
  simp only [beq_iff_eq]
  simp only at h
  omega

theorem greaterThanOneHalf_sat {cfg : Cfg} {A} {n d : Int} (hd : 0 ≤ d)
    (hs : cfg.Safe A (n * 2)) :
    Sat A (greaterThanOneHalf cfg n d) (fun b => b = false ↔ 2 * n ≤ d) := by
  unfold greaterThanOneHalf
  refine Sat.bind (doubled_sat hs) ?_
  rintro ⟨n', d'⟩ h
  refine Sat.pure ?_
  simp only at h ⊢
  split_ifs <;> simp only [decide_eq_false_iff_not] <;> omega

theorem lessThanOneHalf_sat {cfg : Cfg} {A} {n d : Int} (hd : 0 ≤ d)
    (hs : cfg.Safe A (n * 2)) :
    Sat A (lessThanOneHalf cfg n d) (fun b => b = false ↔ d ≤ 2 * n) := by
  unfold lessThanOneHalf
  refine Sat.bind (doubled_sat hs) ?_
  rintro ⟨n', d'⟩ h
  refine Sat.pure ?_
  simp only at h ⊢
  split_ifs <;> simp only [decide_eq_false_iff_not] <;> omega

theorem isSpecial_sat {cfg : Cfg} {A} {n d : Int} (hs : cfg.Safe A (-d)) :
    Sat A (isSpecial cfg n d) (fun b => b = true ↔ d ≠ 0 ∧ (n = 0 ∨ n = -d ∨ n = d)) := by
  unfold isSpecial equalToMinusOne
  by_cases h0 : equalToZero n d = true
  · rw [if_pos h0]
    refine Sat.pure ?_
    simp [equalToZero] at h0
    simp [h0]
  · rw [if_neg h0]
    simp [equalToZero] at h0
    by_cases hd : d = 0
    · simp only [hd, ne_eq, not_true_eq_false, if_false, pure_eq, ok_bind]
      refine Sat.ok ?_
      simp [equalToOne]
    · simp only [hd, ne_eq, not_false_eq_true, if_true]
      refine Sat.bind (Q := fun b => b = true ↔ n = -d) ?_ ?_
      · refine Sat.bind (Cfg.neg_sat hs) ?_
        rintro _ ⟨rfl, _⟩
        exact Sat.pure (by simp)
      · intro b hb
        by_cases hb' : b = true
        · rw [if_pos hb']
          exact Sat.pure (by simp [hb.1 hb'])
        · rw [if_neg hb']
          have hne : n ≠ -d := fun h => hb' (hb.2 h)
          refine Sat.pure ?_
          simp [equalToOne, hd, h0 hd, hne]

namespace Coef4

/-- What the primer says about the change of coefficients. -/
def PrimerRel (k : Coef4) (p : Option Primer) (k' : Coef4) : Prop :=
  (p = some .Ground ∧ k' = ⟨-k.dx, -k.d, k.nx, k.n⟩) ∨ (p = some .Turn ∧ k' = ⟨k.dx, k.d, k.nx, k.n⟩) ∨
  (p = some .Reflect ∧ k' = ⟨-k.nx, -k.n, k.dx, k.d⟩) ∨ (p = none ∧ k' = k)

/-- Outcome of a successful `primer_egest`. -/
structure Primed (k : Coef4) (p : Option Primer) (k' : Coef4) : Prop where
  rel : PrimerRel k p k'
  inv : InvW k'
  zero : k'.n = 0 ∧ k'.n + k'.nx = 0 → k.d = 0 ∧ k.dx = 0

theorem PrimerRel.bounded {k : Coef4} {p k'} (h : PrimerRel k p k') {M} (hb : k.Bounded M) :
    k'.Bounded M := by
  obtain ⟨h1, h2, h3, h4, h5, h6, h7, h8, h9⟩ := hb
  rcases h with ⟨_, rfl⟩ | ⟨_, rfl⟩ | ⟨_, rfl⟩ | ⟨_, rfl⟩ <;> constructor <;> (try simp only) <;> omega

theorem PrimerRel.val {k : Coef4} {p k'} (h : PrimerRel k p k') (v : ℚ) :
    k.val v = applyPrimer p (k'.val v) := by
  rcases h with ⟨rfl, rfl⟩ | ⟨rfl, rfl⟩ | ⟨rfl, rfl⟩ | ⟨rfl, rfl⟩ <;>
    simp only [applyPrimer, Coef4.val]
  · push_cast
    rw [one_div_div, show (-(k.dx : ℚ) * v + -(k.d : ℚ)) = -(k.dx * v + k.d) by ring, div_neg,
      neg_neg]
  · rw [one_div_div]
  · push_cast
    rw [show (-(k.nx : ℚ) * v + -(k.n : ℚ)) = -(k.nx * v + k.n) by ring, neg_div, neg_neg]

private theorem primed_ground {k : Coef4} {p0 q0 p1 q1 : Int}
    (hn : Amen k.n (k.n + k.nx)) (hn0 : Normed k.n k.d p0 q0)
    (hn1 : Normed (k.n + k.nx) (k.d + k.dx) p1 q1)
    (h0 : p0 ≤ -q0) (h1 : p1 ≤ -q1) (hsp : ¬(p0 = -q0 ∧ p1 = -q1)) :
    Primed k (some .Ground) ⟨-k.dx, -k.d, k.nx, k.n⟩ := by
  refine ⟨.inl ⟨rfl, rfl⟩, ?_, ?_⟩
  · unfold InvW PosW opp
    unfold Amen at hn
    unfold Normed at hn0 hn1
    simp only
    rcases hn0 with h | h | h | h | h <;> rcases hn1 with h' | h' | h' | h' | h' <;> omega
  · simp only
    omega

private theorem primed_turn {k : Coef4} {p0 q0 p1 q1 : Int}
    (hn : Amen k.n (k.n + k.nx)) (hn0 : Normed k.n k.d p0 q0)
    (hn1 : Normed (k.n + k.nx) (k.d + k.dx) p1 q1)
    (h0 : q0 ≤ p0) (h1 : q1 ≤ p1) (hsp : ¬(p0 = q0 ∧ p1 = q1)) :
    Primed k (some .Turn) ⟨k.dx, k.d, k.nx, k.n⟩ := by
  refine ⟨.inr (.inl ⟨rfl, rfl⟩), ?_, ?_⟩
  · unfold InvW PosW opp
    unfold Amen at hn
    unfold Normed at hn0 hn1
    simp only
    rcases hn0 with h | h | h | h | h <;> rcases hn1 with h' | h' | h' | h' | h' <;> omega
  · simp only
    omega

private theorem primed_reflect {k : Coef4} {p0 q0 p1 q1 : Int}
    (hd : Amen k.d (k.d + k.dx)) (z0 : ¬(k.n = 0 ∧ k.d = 0))
    (z1 : ¬(k.n + k.nx = 0 ∧ k.d + k.dx = 0)) (hn0 : Normed k.n k.d p0 q0)
    (hn1 : Normed (k.n + k.nx) (k.d + k.dx) p1 q1)
    (h0 : -q0 ≤ p0) (h1 : -q1 ≤ p1) (h2 : p0 ≤ 0) (h3 : p1 ≤ 0)
    (hsp : ¬(p0 = 0 ∧ p1 = 0)) (hsp' : ¬(p0 = -q0 ∧ p1 = -q1))
    (hd' : (k.n = 0 → k.n + k.nx = 0 → False)) :
    Primed k (some .Reflect) ⟨-k.nx, -k.n, k.dx, k.d⟩ := by
  refine ⟨.inr (.inr (.inl ⟨rfl, rfl⟩)), ?_, ?_⟩
  · unfold InvW PosW opp
    unfold Amen at hd
    unfold Normed at hn0 hn1
    simp only
    rcases hn0 with h | h | h | h | h <;> rcases hn1 with h' | h' | h' | h' | h' <;> omega
  · simp only
    intro h
    exact (hd' (by omega) (by omega)).elim

private theorem primed_none {k : Coef4} {p0 q0 p1 q1 : Int}
    (hd : Amen k.d (k.d + k.dx)) (z0 : ¬(k.n = 0 ∧ k.d = 0))
    (z1 : ¬(k.n + k.nx = 0 ∧ k.d + k.dx = 0)) (hn0 : Normed k.n k.d p0 q0)
    (hn1 : Normed (k.n + k.nx) (k.d + k.dx) p1 q1)
    (h0 : p0 ≤ q0) (h1 : p1 ≤ q1) (h2 : 0 ≤ p0) (h3 : 0 ≤ p1)
    (hsp' : ¬(p0 = q0 ∧ p1 = q1))
    (hd' : (k.n = 0 → k.n + k.nx = 0 → False)) :
    Primed k none k := by
  refine ⟨.inr (.inr (.inr ⟨rfl, rfl⟩)), ?_, ?_⟩
  · unfold InvW PosW opp
    unfold Amen at hd
    unfold Normed at hn0 hn1
    rcases hn0 with h | h | h | h | h <;> rcases hn1 with h' | h' | h' | h' | h' <;> simp only <;> omega
  · intro h; exact (hd' h.1 h.2).elim

/-- Two normalised fractions that both equal a special are found to be a special constant. -/
private theorem special_same {t p0 q0 p1 q1}
    (mm : MinMax t p0 q0 p1 q1) {mu : Int} (hmu : mu = 0 ∨ mu = -1 ∨ mu = 1)
    (h0 : p0 = mu * q0) (h1 : p1 = mu * q1) :
    t.1 = t.2.2.1 ∧ t.2.1 = t.2.2.2 ∧ t.2.1 ≠ 0 ∧ (t.1 = 0 ∨ t.1 = -t.2.1 ∨ t.1 = t.2.1) := by
  obtain ⟨s1, s2⟩ := mm.same (by rw [h0, h1]; ring)
  have a1 := (mm.max_le 1 mu (by norm_num)).2 (by constructor <;> omega)
  have a2 := (mm.le_min 1 mu (by norm_num)).2 (by constructor <;> omega)
  rw [← s1, ← s2] at a1
  have a3 : t.1 = mu * t.2.1 := by omega
  have hne : t.2.1 ≠ 0 := by
    intro h
    have := mm.nmin h
    rw [h] at a3; simp at a3; omega
  refine ⟨s1, s2, hne, ?_⟩
  rcases hmu with rfl | rfl | rfl <;> omega

theorem _root_.Clarith.Normed.zero {n d p q} (h : Normed n d p q) (hn : n = 0) : p = 0 := by
  unfold Normed at h; omega

theorem primerEgest_sat {cfg : Cfg} {A M} {k : Coef4} (hs : cfg.SafeUpTo A M)
    (hb : k.Bounded M) (hN : Amen k.n (k.n + k.nx)) (hD : Amen k.d (k.d + k.dx)) :
    Sat A (k.primerEgest cfg) (fun r => ∀ p k', r = some (p, k') → Primed k p k') := by
  have hb' := hb
  obtain ⟨b1, b2, b3, b4, b5, b6, b7, b8, b9⟩ := hb'
  unfold primerEgest
  refine Sat.bind (imageExtremes_sat hs hb) ?_
  rintro t ⟨hex, c1, c2, c3, c4, c5, c6, c7, c8⟩
  rcases hex with ⟨_, rfl⟩ | ⟨z0, z1, p0, q0, p1, q1, hn0, hn1, hmm⟩
  · simp only [and_self, if_true]
    exact Sat.pure (by simp)
  have mm : MinMax t p0 q0 p1 q1 := by
    apply hmm
    unfold Amen at hN
    unfold Normed at hn0 hn1
    omega
  have nz : ¬(t.1 = 0 ∧ t.2.1 = 0) := fun h => mm.nmin h.2 h.1
  have hsame := @special_same t p0 q0 p1 q1 mm
  have mx := fun mu => mm.max_le 1 mu (by norm_num)
  have mn := fun mu => mm.le_min 1 mu (by norm_num)
  have dmin := mm.dmin
  have dmax := mm.dmax
  obtain ⟨nmin, dmn, nmax, dmx⟩ := t
  simp only at *
  rw [if_neg nz]
  have sx : cfg.Safe A (-dmx) := hs.lin (by omega) (by omega)
  have sn : cfg.Safe A (-dmn) := hs.lin (by omega) (by omega)
  have s1 : cfg.Safe A (-k.dx) := hs.lin (by omega) (by omega)
  have s2 : cfg.Safe A (-k.d) := hs.lin (by omega) (by omega)
  have s3 : cfg.Safe A (-k.nx) := hs.lin (by omega) (by omega)
  have s4 : cfg.Safe A (-k.n) := hs.lin (by omega) (by omega)
  have m1 := mx (-1); have m2 := mx 0; have m3 := mx 1
  have l1 := mn (-1); have l2 := mn 0; have l3 := mn 1
  have e0 := @hsame 0 (.inl rfl)
  have e1 := @hsame (-1) (.inr (.inl rfl))
  have e2 := @hsame 1 (.inr (.inr rfl))
  simp only [one_mul, zero_mul, neg_mul] at m1 m2 m3 l1 l2 l3 e0 e1 e2
  clear mx mn hsame hmm
  refine Sat.bind (Sat.andAlso (p := nmin = nmax ∧ dmn = dmx) (Sat.pure (by simp [areSame]))
    fun _ => isSpecial_sat sn) ?_
  intro same hsame
  by_cases hsm : same = true
  · rw [if_pos hsm]
    exact Sat.pure (by simp)
  rw [if_neg hsm]
  have hns := mt hsame.2 hsm
  have ne0 : ¬(p0 = 0 ∧ p1 = 0) := fun h => hns ⟨⟨(e0 h.1 h.2).1, (e0 h.1 h.2).2.1⟩, (e0 h.1 h.2).2.2⟩
  have ne1 : ¬(p0 = -q0 ∧ p1 = -q1) := fun h => hns ⟨⟨(e1 h.1 h.2).1, (e1 h.1 h.2).2.1⟩, (e1 h.1 h.2).2.2⟩
  have ne2 : ¬(p0 = q0 ∧ p1 = q1) := fun h => hns ⟨⟨(e2 h.1 h.2).1, (e2 h.1 h.2).2.1⟩, (e2 h.1 h.2).2.2⟩
  have nN : k.n = 0 → k.n + k.nx = 0 → False := fun h h' => ne0 ⟨hn0.zero h, hn1.zero h'⟩
  refine Sat.bind (greaterThanMinusOne_sat dmax sx) ?_
  intro b hb
  by_cases g1 : b = false
  · rw [if_pos (by simp [g1])]
    have hc := m1.1 (hb.1 g1)
    refine Sat.bind (Q := fun k' => k' = ⟨-k.dx, -k.d, k.nx, k.n⟩) ?_ ?_
    · unfold ground
      refine Sat.bind (Cfg.neg_sat s1) ?_
      rintro _ ⟨rfl, _⟩
      refine Sat.bind (Cfg.neg_sat s2) ?_
      rintro _ ⟨rfl, _⟩
      exact Sat.pure rfl
    · rintro _ rfl
      refine Sat.pure ?_
      intro p k' h
      simp only [Option.some.injEq, Prod.mk.injEq] at h
      obtain ⟨rfl, rfl⟩ := h
      exact primed_ground hN hn0 hn1 hc.1 hc.2 ne1
  rw [if_neg (by simpa using g1)]
  by_cases g2 : lessThanOne nmin dmn = false
  · rw [if_pos (by simp [g2])]
    have hc := l3.1 ((lessThanOne_eq dmin).1 g2)
    refine Sat.pure ?_
    intro p k' h
    simp only [Option.some.injEq, Prod.mk.injEq] at h
    obtain ⟨rfl, rfl⟩ := h
    exact primed_turn hN hn0 hn1 hc.1 hc.2 ne2
  rw [if_neg (by simpa using g2)]
  refine Sat.bind (Sat.andAlso
    (Sat.notB (lessThanMinusOne_sat dmin sn))
    fun _ => (Sat.pure (P := fun r => r = true ↔ nmax ≤ 0) (by simp [greaterThanZero_eq dmax]))) ?_
  intro neg hneg
  by_cases g3 : neg = true
  · rw [if_pos g3]
    have hc := hneg.1 g3
    have ha := l1.1 hc.1
    have hb := m2.1 hc.2
    refine Sat.bind (Q := fun k' => k' = ⟨-k.nx, -k.n, k.dx, k.d⟩) ?_ ?_
    · unfold reflect
      refine Sat.bind (Cfg.neg_sat s3) ?_
      rintro _ ⟨rfl, _⟩
      refine Sat.bind (Cfg.neg_sat s4) ?_
      rintro _ ⟨rfl, _⟩
      exact Sat.pure rfl
    · rintro _ rfl
      refine Sat.pure ?_
      intro p k' h
      simp only [Option.some.injEq, Prod.mk.injEq] at h
      obtain ⟨rfl, rfl⟩ := h
      exact primed_reflect hD z0 z1 hn0 hn1 ha.1 ha.2 hb.1 hb.2 ne0 ne1 nN
  rw [if_neg g3]
  by_cases g4 : (!lessThanZero nmin dmn && !greaterThanOne nmax dmx) = true
  · rw [if_pos g4]
    simp only [Bool.and_eq_true, Bool.not_eq_true', lessThanZero_eq dmin, greaterThanOne_eq dmax] at g4
    have ha := l2.1 g4.1
    have hb := m3.1 g4.2
    refine Sat.pure ?_
    intro p k' h
    simp only [Option.some.injEq, Prod.mk.injEq] at h
    obtain ⟨rfl, rfl⟩ := h
    exact primed_none hD z0 z1 hn0 hn1 hb.1 hb.2 ha.1 ha.2 ne2 nN
  · rw [if_neg g4]
    exact Sat.pure (by simp)

/-- Outcome of a `reduction_egest` that decides. -/
def ReductionRel (k : Coef4) (r : Option Reduction) (k' : Coef4) : Prop :=
  (r = none ∧ k' = k ∧ 2 * k.n = k.d ∧ 2 * (k.n + k.nx) = k.d + k.dx) ∨
  (r = some .Amplify ∧ (∃ c : Int, (c = 1 ∨ c = 2) ∧ c * k'.n = 2 * k.n ∧ c * k'.nx = 2 * k.nx ∧
      c * k'.d = k.d ∧ c * k'.dx = k.dx) ∧ 2 * k.n ≤ k.d ∧ 2 * (k.n + k.nx) ≤ k.d + k.dx ∧
      ¬(2 * k.n = k.d ∧ 2 * (k.n + k.nx) = k.d + k.dx)) ∨
  (r = some .Uncover ∧ k' = ⟨k.dx - k.nx, k.d - k.n, k.nx, k.n⟩ ∧ k.d ≤ 2 * k.n ∧
      k.d + k.dx ≤ 2 * (k.n + k.nx) ∧ ¬(2 * k.n = k.d ∧ 2 * (k.n + k.nx) = k.d + k.dx))

theorem amplify_sat {cfg : Cfg} {A} {k : Coef4} (h1 : cfg.Safe A (k.nx * 2))
    (h2 : cfg.Safe A (k.n * 2)) :
    Sat A (k.amplify cfg) (fun k' => ∃ c : Int, (c = 1 ∨ c = 2) ∧ c * k'.n = 2 * k.n ∧
      c * k'.nx = 2 * k.nx ∧ c * k'.d = k.d ∧ c * k'.dx = k.dx) := by
  unfold amplify
  by_cases hodd : (isOdd k.dx || isOdd k.d) = true
  · rw [if_pos hodd]
    refine Sat.bind (Cfg.cmul_sat h1) ?_
    rintro _ ⟨rfl, _⟩
    refine Sat.bind (Cfg.cmul_sat h2) ?_
    rintro _ ⟨rfl, _⟩
    exact Sat.pure ⟨1, .inl rfl, by simp; ring, by simp; ring, by simp, by simp⟩
  · rw [if_neg hodd]
    simp only [Bool.or_eq_true, not_or, Bool.not_eq_true] at hodd
    exact Sat.pure ⟨2, .inr rfl, rfl, rfl, isOdd_iff.1 hodd.2, isOdd_iff.1 hodd.1⟩

/-- The positive representative. -/
def PosRep (k K : Coef4) : Prop := (K = k ∨ K = k.opp) ∧ PosW K

/-- Under the invariant, `reduction_egest` never panics with "logic error", and its decisions
are justified at both ends of the domain. -/
theorem reductionEgest_sat {cfg : Cfg} {A M} {k : Coef4} (hs : cfg.SafeUpTo A M)
    (hb : k.Bounded M) (hI : InvW k) :
    Sat A (k.reductionEgest cfg) (fun r => ∀ p k', r = some (p, k') →
      (PosW k ∧ ReductionRel k p k') ∨ (PosW k.opp ∧ ReductionRel k.opp p k'.opp)) := by
  have hb' := hb
  obtain ⟨b1, b2, b3, b4, b5, b6, b7, b8, b9⟩ := hb'
  unfold reductionEgest
  refine Sat.bind (imageExtremes_sat hs hb) ?_
  rintro t ⟨hex, c1, c2, c3, c4, c5, c6, c7, c8⟩
  rcases hex with ⟨hz, rfl⟩ | ⟨z0, z1, p0, q0, p1, q1, hn0, hn1, hmm⟩
  · exfalso
    unfold InvW PosW opp at hI
    simp only at hI
    omega
  have mm : MinMax t p0 q0 p1 q1 := by
    apply hmm
    unfold InvW PosW opp at hI
    unfold Normed at hn0 hn1
    simp only at hI
    omega
  -- the normalised fractions in terms of the positive representative
  have rep : ∃ s : Int, ((s = 1 ∧ PosW k) ∨ (s = -1 ∧ PosW k.opp)) ∧
      (0 ≤ p0 ∧ p0 ≤ q0 ∧ 0 ≤ p1 ∧ p1 ≤ q1) ∧
      (2 * p0 ≤ q0 ↔ 2 * (s * k.n) ≤ s * k.d) ∧ (q0 ≤ 2 * p0 ↔ s * k.d ≤ 2 * (s * k.n)) ∧
      (2 * p1 ≤ q1 ↔ 2 * (s * (k.n + k.nx)) ≤ s * (k.d + k.dx)) ∧
      (q1 ≤ 2 * p1 ↔ s * (k.d + k.dx) ≤ 2 * (s * (k.n + k.nx))) := by
    unfold Normed at hn0 hn1
    rcases hI with hI | hI
    · refine ⟨1, .inl ⟨rfl, hI⟩, ?_⟩
      unfold PosW at hI
      simp only [one_mul]
      omega
    · refine ⟨-1, .inr ⟨rfl, hI⟩, ?_⟩
      unfold PosW opp at hI
      simp only at hI
      simp only [neg_mul, one_mul]
      omega
  obtain ⟨s, hsgn, ⟨r1, r2, r3, r4⟩, t1, t2, t3, t4⟩ := rep
  have m1 := mm.max_le 1 1 (by norm_num)
  have m2 := mm.max_le 2 1 (by norm_num)
  have l1 := mm.le_min 1 0 (by norm_num)
  have l2 := mm.le_min 2 1 (by norm_num)
  have dmin := mm.dmin
  have dmax := mm.dmax
  have mx2 := mm.le_min 2 1 (by norm_num)
  have hmaxhalf := mm.max_le 1 1 (by norm_num)
  obtain ⟨nmin, dmn, nmax, dmx⟩ := t
  simp only [one_mul, zero_mul] at *
  rw [if_neg (by simpa using (lessThanZero_eq dmin).2 (l1.2 ⟨r1, r3⟩)),
    if_neg (by simpa using (greaterThanOne_eq dmax).2 (m1.2 ⟨r2, r4⟩))]
  have sN : cfg.Safe A (nmin * 2) := hs.lin (by omega) (by omega)
  have sX : cfg.Safe A (nmax * 2) := hs.lin (by omega) (by omega)
  refine Sat.bind (Sat.andAlso (equalToOneHalf_sat sN) fun _ => equalToOneHalf_sat sX) ?_
  intro both hboth
  have sg : (s = 1 ∧ PosW k) ∨ (s = -1 ∧ PosW k.opp) := hsgn
  by_cases hbo : both = true
  · rw [if_pos hbo]
    refine Sat.pure ?_
    intro p k' h
    simp only [Option.some.injEq, Prod.mk.injEq] at h
    obtain ⟨rfl, rfl⟩ := h
    obtain ⟨e1, e2⟩ := hboth.1 hbo
    have f1 := m2.1 (by omega)
    have f2 := l2.1 (by omega)
    rcases sg with ⟨rfl, hp⟩ | ⟨rfl, hp⟩
    · refine .inl ⟨hp, .inl ⟨rfl, rfl, ?_, ?_⟩⟩ <;> omega
    · refine .inr ⟨hp, .inl ⟨rfl, rfl, ?_, ?_⟩⟩ <;> simp only [opp] <;> omega
  rw [if_neg hbo]
  refine Sat.bind (greaterThanOneHalf_sat dmax sX) ?_
  intro b hb
  by_cases g1 : b = false
  · rw [if_pos (by simp [g1])]
    have f1 := m2.1 (hb.1 g1)
    have hne : ¬(q0 ≤ 2 * p0 ∧ q1 ≤ 2 * p1) := by
      intro h
      have h' := l2.2 h
      have hsame := mm.same (by
        have e0 : q0 = 2 * p0 := by omega
        have e1 : q1 = 2 * p1 := by omega
        rw [e0, e1]; ring)
      simp only at hsame
      apply hbo; rw [hboth]
      have := hb.1 g1
      omega
    refine Sat.bind (amplify_sat (hs.lin ?_ ?_) (hs.lin ?_ ?_)) ?_
    · omega
    · omega
    · omega
    · omega
    · rintro k' ⟨c, hc, a1, a2, a3, a4⟩
      refine Sat.pure ?_
      intro p k'' h
      simp only [Option.some.injEq, Prod.mk.injEq] at h
      obtain ⟨rfl, rfl⟩ := h
      rcases sg with ⟨rfl, hp⟩ | ⟨rfl, hp⟩
      · refine .inl ⟨hp, .inr (.inl ⟨rfl, ⟨c, hc, a1, a2, a3, a4⟩, ?_, ?_, ?_⟩)⟩ <;> omega
      · refine .inr ⟨hp, .inr (.inl ⟨rfl, ⟨c, hc, ?_, ?_, ?_, ?_⟩, ?_, ?_, ?_⟩)⟩ <;>
          simp only [opp, mul_neg] <;> omega
  rw [if_neg (by simpa using g1)]
  refine Sat.bind (lessThanOneHalf_sat dmin sN) ?_
  intro b' hb'
  by_cases g2 : b' = false
  · rw [if_pos (by simp [g2])]
    have f2 := l2.1 (hb'.1 g2)
    have f1 : ¬ (2 * p0 ≤ q0 ∧ 2 * p1 ≤ q1) := fun h => g1 (hb.2 (m2.2 h))
    refine Sat.bind (Q := fun k' => k' = ⟨k.dx - k.nx, k.d - k.n, k.nx, k.n⟩) ?_ ?_
    · unfold uncover
      refine Sat.bind (Cfg.csub_sat (hs.lin (by omega) (by omega))) ?_
      rintro _ ⟨rfl, _⟩
      refine Sat.bind (Cfg.csub_sat (hs.lin (by omega) (by omega))) ?_
      rintro _ ⟨rfl, _⟩
      exact Sat.pure rfl
    · rintro _ rfl
      refine Sat.pure ?_
      intro p k'' h
      simp only [Option.some.injEq, Prod.mk.injEq] at h
      obtain ⟨rfl, rfl⟩ := h
      rcases sg with ⟨rfl, hp⟩ | ⟨rfl, hp⟩
      · refine .inl ⟨hp, .inr (.inr ⟨rfl, rfl, ?_, ?_, ?_⟩)⟩ <;> omega
      · refine .inr ⟨hp, .inr (.inr ⟨rfl, ?_, ?_, ?_, ?_⟩)⟩
        · simp only [opp]; congr 1 <;> ring
        all_goals simp only [opp]; omega
  · rw [if_neg (by simpa using g2)]
    exact Sat.pure (by simp)

end Coef4

end Clarith
