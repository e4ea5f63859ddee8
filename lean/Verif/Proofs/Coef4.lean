import Verif.Proofs.Ratio

/-! # Coefficient functions of `Homographic` -/

namespace Clarith

open Out Spec Support

theorem isOdd_iff {x : Int} : isOdd x = false ↔ 2 * half x = x := by
  unfold isOdd half
  simp only [bne_eq_false_iff_eq]
  have := Int.mul_tdiv_add_tmod x 2
  omega

/-- All integers up to `4 * M` are safe. -/
theorem Cfg.SafeUpTo.lin {cfg : Cfg} {A M} (hs : cfg.SafeUpTo A M) {z : Int}
    (h1 : -(4 * M) ≤ z) (h2 : z ≤ 4 * M) : cfg.Safe A z :=
  hs.1 z (abs_le.2 ⟨h1, h2⟩)

/-- Products of integers up to `M` are safe in checked operations. -/
theorem Cfg.SafeUpTo.prod {cfg : Cfg} {A M} (hs : cfg.SafeUpTo A M) {a b : Int}
    (h1 : -M ≤ a) (h2 : a ≤ M) (h3 : -M ≤ b) (h4 : b ≤ M) : cfg.CheckSafe A (a * b) := by
  refine hs.2 _ ?_
  rw [abs_mul]
  have ha : |a| ≤ M := abs_le.2 ⟨h1, h2⟩
  have hb : |b| ≤ M := abs_le.2 ⟨h3, h4⟩
  exact mul_le_mul ha hb (abs_nonneg b) (le_trans (abs_nonneg a) ha)

/-! ## Support functions -/

/-- Outcome of `normalise` on one fraction. -/
def Normed (n d p q : Int) : Prop :=
  (0 < d ∧ n ≠ 0 ∧ p = n ∧ q = d) ∨ (d < 0 ∧ n ≠ 0 ∧ p = -n ∧ q = -d) ∨
  (n = 0 ∧ p = 0 ∧ q = 1) ∨ (d = 0 ∧ 0 < n ∧ p = 1 ∧ q = 0) ∨ (d = 0 ∧ n < 0 ∧ p = -1 ∧ q = 0)

theorem normalise_sat {cfg : Cfg} {A M n d} (hs : cfg.SafeUpTo A M) (hM : 1 ≤ M)
    (h1 : -M ≤ n) (h2 : n ≤ M) (h3 : -M ≤ d) (h4 : d ≤ M) :
    Sat A (normalise cfg n d) (fun r => Normed n d r.1 r.2 ∧
      -M ≤ r.1 ∧ r.1 ≤ M ∧ 0 ≤ r.2 ∧ r.2 ≤ M) := by
  unfold normalise
  simp only []
  by_cases hd : d < 0
  · rw [if_pos hd, if_neg (by omega)]
    refine Sat.bind (Cfg.mul_sat (hs.lin (by omega) (by omega))) ?_
    rintro _ ⟨rfl, _⟩
    refine Sat.bind (Cfg.mul_sat (hs.lin (by omega) (by omega))) ?_
    rintro _ ⟨rfl, _⟩
    simp only [pure_eq, ok_bind]
    refine Sat.ok ?_
    unfold Normed
    by_cases hn : n = 0
    · simp [hn]; omega
    · rw [if_neg (by omega)]
      exact ⟨.inr (.inl ⟨hd, hn, by simp, by simp⟩), by simp; omega⟩
  · rw [if_neg hd]
    simp only [pure_eq, ok_bind]
    refine Sat.ok ?_
    unfold Normed
    by_cases h0 : d = 0
    · rw [if_pos h0]
      rcases lt_trichotomy n 0 with hn | hn | hn
      · simp only [Int.sign_eq_neg_one_of_neg hn]; simp; omega
      · simp only [hn, Int.sign_zero]; simp; omega
      · simp only [Int.sign_eq_one_of_pos hn]; simp; omega
    · rw [if_neg h0]
      simp only
      split_ifs with hn
      · simp [hn]; omega
      · exact ⟨.inl ⟨by omega, hn, by simp, by simp⟩, by omega⟩

/-- The result of `updated_range` on two normalised fractions `p0/q0` and `p1/q1`: the first
pair is the smaller one, the second pair the larger one, as far as comparisons with any
rational threshold `μ/λ` can tell. -/
structure MinMax (t : Int × Int × Int × Int) (p0 q0 p1 q1 : Int) : Prop where
  dmin : 0 ≤ t.2.1
  dmax : 0 ≤ t.2.2.2
  nmin : t.2.1 = 0 → t.1 ≠ 0
  max_le : ∀ lam mu : Int, 0 < lam →
    (lam * t.2.2.1 ≤ mu * t.2.2.2 ↔ lam * p0 ≤ mu * q0 ∧ lam * p1 ≤ mu * q1)
  le_min : ∀ lam mu : Int, 0 < lam →
    (mu * t.2.1 ≤ lam * t.1 ↔ mu * q0 ≤ lam * p0 ∧ mu * q1 ≤ lam * p1)
  same : p0 * q1 = p1 * q0 → t.1 = t.2.2.1 ∧ t.2.1 = t.2.2.2

/-- A fraction as left by `normalise`. -/
structure Nrm (p q : Int) : Prop where
  nonneg : 0 ≤ q
  inf : q = 0 → p = 1 ∨ p = -1

theorem Normed.nrm {n d p q} (h : Normed n d p q) (h0 : ¬(n = 0 ∧ d = 0)) : Nrm p q := by
  unfold Normed at h
  constructor <;> omega

private theorem trans_le {p0 q0 p1 q1 lam mu : Int} (hq0 : 0 ≤ q0) (hq1 : 0 < q1)
    (hc : p0 * q1 ≤ p1 * q0) (hl : 0 < lam) (h : lam * p1 ≤ mu * q1) : lam * p0 ≤ mu * q0 := by
  have h1 : lam * (p0 * q1) ≤ lam * (p1 * q0) := mul_le_mul_of_nonneg_left hc hl.le
  have h2 : (lam * p1) * q0 ≤ (mu * q1) * q0 := mul_le_mul_of_nonneg_right h hq0
  have h3 : (lam * p0) * q1 ≤ (mu * q0) * q1 := by nlinarith
  exact le_of_mul_le_mul_right h3 hq1

private theorem trans_ge {p0 q0 p1 q1 lam mu : Int} (hq0 : 0 < q0) (hq1 : 0 ≤ q1)
    (hc : p0 * q1 ≤ p1 * q0) (hl : 0 < lam) (h : mu * q0 ≤ lam * p0) : mu * q1 ≤ lam * p1 := by
  have h1 : lam * (p0 * q1) ≤ lam * (p1 * q0) := mul_le_mul_of_nonneg_left hc hl.le
  have h2 : (mu * q0) * q1 ≤ (lam * p0) * q1 := mul_le_mul_of_nonneg_right h hq1
  have h3 : (mu * q1) * q0 ≤ (lam * p1) * q0 := by nlinarith
  exact le_of_mul_le_mul_right h3 hq0

/-- For normalised fractions that are not opposite infinities, the order given by the cross
products is the order of the values. -/
private theorem order {p0 q0 p1 q1 : Int} (n0 : Nrm p0 q0) (n1 : Nrm p1 q1)
    (hinf : ¬(q0 = 0 ∧ q1 = 0 ∧ p0 ≠ p1)) (hc : p0 * q1 ≤ p1 * q0) {lam mu : Int} (hl : 0 < lam) :
    (lam * p1 ≤ mu * q1 → lam * p0 ≤ mu * q0) ∧ (mu * q0 ≤ lam * p0 → mu * q1 ≤ lam * p1) := by
  have hq0 := n0.nonneg
  have hq1 := n1.nonneg
  constructor
  · intro h
    rcases hq1.lt_or_eq with h1 | h1
    · exact trans_le hq0 h1 hc hl h
    · rw [← h1] at h hc
      have hp : p1 = -1 := by
        rcases n1.inf h1.symm with h' | h'
        · subst h'; simp at h; omega
        · exact h'
      subst hp
      have : q0 = 0 := by simp at hc; omega
      subst this
      have : p0 = -1 := by by_contra hne; exact hinf ⟨rfl, h1.symm, hne⟩
      subst this
      simpa using h
  · intro h
    rcases hq0.lt_or_eq with h1 | h1
    · exact trans_ge h1 hq1 hc hl h
    · rw [← h1] at h hc
      have hp : p0 = 1 := by
        rcases n0.inf h1.symm with h' | h'
        · exact h'
        · subst h'; simp at h; omega
      subst hp
      have : q1 = 0 := by simp at hc; omega
      subst this
      have : p1 = 1 := by by_contra hne; exact hinf ⟨h1.symm, rfl, fun e => hne e.symm⟩
      subst this
      simpa using h

theorem MinMax.of_order {p0 q0 p1 q1 : Int} (n0 : Nrm p0 q0) (n1 : Nrm p1 q1)
    (hinf : ¬(q0 = 0 ∧ q1 = 0 ∧ p0 ≠ p1)) {t}
    (ht : (p1 * q0 < p0 * q1 ∧ t = (p1, q1, p0, q0)) ∨ (p0 * q1 < p1 * q0 ∧ t = (p0, q0, p1, q1)) ∨
      (p1 * q0 = p0 * q1 ∧ t = (p0, q0, p0, q0))) : MinMax t p0 q0 p1 q1 := by
  have hinf' : ¬(q1 = 0 ∧ q0 = 0 ∧ p1 ≠ p0) := fun h => hinf ⟨h.2.1, h.1, h.2.2.symm⟩
  have nz0 : q0 = 0 → p0 ≠ 0 := fun h => by rcases n0.inf h with h | h <;> omega
  have nz1 : q1 = 0 → p1 ≠ 0 := fun h => by rcases n1.inf h with h | h <;> omega
  rcases ht with ⟨hc, rfl⟩ | ⟨hc, rfl⟩ | ⟨hc, rfl⟩
  · refine ⟨n1.nonneg, n0.nonneg, nz1, fun lam mu hl => ?_, fun lam mu hl => ?_, fun h => by omega⟩
    · exact ⟨fun h => ⟨h, (order n1 n0 hinf' hc.le hl).1 h⟩, fun h => h.1⟩
    · exact ⟨fun h => ⟨(order n1 n0 hinf' hc.le hl).2 h, h⟩, fun h => h.2⟩
  · refine ⟨n0.nonneg, n1.nonneg, nz0, fun lam mu hl => ?_, fun lam mu hl => ?_, fun h => by omega⟩
    · exact ⟨fun h => ⟨(order n0 n1 hinf hc.le hl).1 h, h⟩, fun h => h.2⟩
    · exact ⟨fun h => ⟨h, (order n0 n1 hinf hc.le hl).2 h⟩, fun h => h.1⟩
  · refine ⟨n0.nonneg, n0.nonneg, nz0, fun lam mu hl => ?_, fun lam mu hl => ?_, fun _ => ⟨rfl, rfl⟩⟩
    · exact ⟨fun h => ⟨h, (order n1 n0 hinf' hc.le hl).1 h⟩, fun h => h.1⟩
    · exact ⟨fun h => ⟨h, (order n0 n1 hinf hc.ge hl).2 h⟩, fun h => h.1⟩

theorem updatedRange_same_sat {cfg : Cfg} {A M n0 d0 n1 d1} (hs : cfg.SafeUpTo A M) (hM : 1 ≤ M)
    (h1 : -M ≤ n0) (h2 : n0 ≤ M) (h3 : -M ≤ d0) (h4 : d0 ≤ M)
    (h5 : -M ≤ n1) (h6 : n1 ≤ M) (h7 : -M ≤ d1) (h8 : d1 ≤ M) :
    Sat A (updatedRange cfg n0 d0 n0 d0 n1 d1) (fun t => ∃ p0 q0 p1 q1,
      Normed n0 d0 p0 q0 ∧ Normed n1 d1 p1 q1 ∧
      ((p1 * q0 < p0 * q1 ∧ t = (p1, q1, p0, q0)) ∨ (p0 * q1 < p1 * q0 ∧ t = (p0, q0, p1, q1)) ∨
        (p1 * q0 = p0 * q1 ∧ t = (p0, q0, p0, q0))) ∧
      -M ≤ t.1 ∧ t.1 ≤ M ∧ 0 ≤ t.2.1 ∧ t.2.1 ≤ M ∧ -M ≤ t.2.2.1 ∧ t.2.2.1 ≤ M ∧
      0 ≤ t.2.2.2 ∧ t.2.2.2 ≤ M) := by
  unfold updatedRange
  refine Sat.bind (normalise_sat hs hM h1 h2 h3 h4) ?_
  rintro ⟨p0, q0⟩ ⟨hn0, b1, b2, b3, b4⟩
  refine Sat.bind (normalise_sat hs hM h1 h2 h3 h4) ?_
  rintro ⟨p0', q0'⟩ ⟨hn0', _⟩
  refine Sat.bind (normalise_sat hs hM h5 h6 h7 h8) ?_
  rintro ⟨p1, q1⟩ ⟨hn1, b5, b6, b7, b8⟩
  simp only at hn0 hn0' hn1 b1 b2 b3 b4 b5 b6 b7 b8 ⊢
  have heq : p0' = p0 ∧ q0' = q0 := by
    unfold Normed at hn0 hn0'; omega
  obtain ⟨rfl, rfl⟩ := heq
  have hcr : Sat A (compareReduce cfg p1 q1 p0' q0') (fun r => r = (p1 * q0', p0' * q1)) := by
    unfold compareReduce
    refine Sat.bind (Cfg.cmul_sat' (hs.prod b5 b6 (by omega) b4)) ?_
    rintro _ ⟨rfl, _⟩
    refine Sat.bind (Cfg.cmul_sat' (hs.prod b1 b2 (by omega) b8)) ?_
    rintro _ ⟨rfl, _⟩
    exact Sat.pure rfl
  refine Sat.bind (Q := fun b => b = decide (p1 * q0' < p0' * q1)) ?_ ?_
  · unfold lessThan
    refine Sat.bind hcr ?_
    rintro _ rfl
    exact Sat.pure rfl
  rintro _ rfl
  by_cases hlt : p1 * q0' < p0' * q1
  · rw [if_pos (by simpa using hlt)]
    exact Sat.pure ⟨p0', q0', p1, q1, hn0, hn1, .inl ⟨hlt, rfl⟩, b5, b6, b7, b8, b1, b2, b3, b4⟩
  · rw [if_neg (by simpa using hlt)]
    refine Sat.bind (Q := fun b => b = decide (p1 * q0' > p0' * q1)) ?_ ?_
    · unfold greaterThan
      refine Sat.bind hcr ?_
      rintro _ rfl
      exact Sat.pure rfl
    rintro _ rfl
    by_cases hgt : p1 * q0' > p0' * q1
    · rw [if_pos (by simpa using hgt)]
      exact Sat.pure ⟨p0', q0', p1, q1, hn0, hn1, .inr (.inl ⟨hgt, rfl⟩),
        b1, b2, b3, b4, b5, b6, b7, b8⟩
    · rw [if_neg (by simpa using hgt)]
      exact Sat.pure ⟨p0', q0', p1, q1, hn0, hn1, .inr (.inr ⟨by omega, rfl⟩),
        b1, b2, b3, b4, b1, b2, b3, b4⟩

/-! ## Coefficients -/

namespace Coef4

/-- Numerators and denominators at the ends of the domain [0,1] are bounded by `M`. -/
structure Bounded (k : Coef4) (M : Int) : Prop where
  pos : 1 ≤ M
  n0 : -M ≤ k.n
  n0' : k.n ≤ M
  n1 : -M ≤ k.n + k.nx
  n1' : k.n + k.nx ≤ M
  d0 : -M ≤ k.d
  d0' : k.d ≤ M
  d1 : -M ≤ k.d + k.dx
  d1' : k.d + k.dx ≤ M

/-- Value of the map at `v`. -/
def val (k : Coef4) (v : ℚ) : ℚ := (k.nx * v + k.n) / (k.dx * v + k.d)

/-- The map takes [0,1] into [0,1], with positive denominators, and is not the constant 1. -/
def PosW (k : Coef4) : Prop :=
  0 < k.d ∧ 0 < k.d + k.dx ∧ 0 ≤ k.n ∧ k.n ≤ k.d ∧ 0 ≤ k.n + k.nx ∧ k.n + k.nx ≤ k.d + k.dx ∧
    ¬(k.n = k.d ∧ k.n + k.nx = k.d + k.dx)

/-- All coefficients negated. -/
def opp (k : Coef4) : Coef4 := ⟨-k.nx, -k.n, -k.dx, -k.d⟩

/-- `PosW` up to a common sign. -/
def InvW (k : Coef4) : Prop := PosW k ∨ PosW k.opp

/-- Invariant of a primed `Homographic`: the map takes [0,1] into [0,1], has no pole there, and
is neither the constant 0 nor the constant 1. -/
def Inv (k : Coef4) : Prop := InvW k ∧ ¬(k.n = 0 ∧ k.n + k.nx = 0)

theorem Bounded.mono {k : Coef4} {M M' : Int} (h : k.Bounded M) (hM : M ≤ M') : k.Bounded M' := by
  obtain ⟨h1, h2, h3, h4, h5, h6, h7, h8, h9⟩ := h
  constructor <;> omega

theorem valueAtOne_sat {cfg : Cfg} {A M} {k : Coef4} (hs : cfg.SafeUpTo A M) (hb : k.Bounded M) :
    Sat A (k.valueAtOne cfg) (fun r => r = (k.n + k.nx, k.d + k.dx)) := by
  obtain ⟨h1, h2, h3, h4, h5, h6, h7, h8, h9⟩ := hb
  unfold valueAtOne
  refine Sat.bind (Cfg.cadd_sat (hs.lin (by omega) (by omega))) ?_
  rintro _ ⟨rfl, _⟩
  refine Sat.bind (Cfg.cadd_sat (hs.lin (by omega) (by omega))) ?_
  rintro _ ⟨rfl, _⟩
  exact Sat.pure rfl

theorem valueAtOneHalf_sat {cfg : Cfg} {A M} {k : Coef4} (hs : cfg.SafeUpTo A M)
    (hb : k.Bounded M) :
    Sat A (k.valueAtOneHalf cfg) (fun r =>
      (∃ c : Int, (c = 1 ∨ c = 2) ∧ c * r.1 = k.nx + 2 * k.n ∧ c * r.2 = k.dx + 2 * k.d) ∧
      cfg.Fits r.1 ∧ cfg.Fits r.2 ∧ -(4 * M) ≤ r.1 ∧ r.1 ≤ 4 * M ∧ -(4 * M) ≤ r.2 ∧
      r.2 ≤ 4 * M) := by
  obtain ⟨h1, h2, h3, h4, h5, h6, h7, h8, h9⟩ := hb
  unfold valueAtOneHalf
  by_cases hodd : (isOdd k.nx || isOdd k.dx) = true
  · rw [if_pos hodd]
    refine Sat.bind (Cfg.cmul_sat (hs.lin (by omega) (by omega))) ?_
    rintro _ ⟨rfl, _⟩
    refine Sat.bind (Cfg.cadd_sat (hs.lin (by omega) (by omega))) ?_
    rintro _ ⟨rfl, f1⟩
    refine Sat.bind (Cfg.cmul_sat (hs.lin (by omega) (by omega))) ?_
    rintro _ ⟨rfl, _⟩
    refine Sat.bind (Cfg.cadd_sat (hs.lin (by omega) (by omega))) ?_
    rintro _ ⟨rfl, f2⟩
    exact Sat.pure ⟨⟨1, .inl rfl, by simp; ring, by simp; ring⟩, f1, f2, by simp only; omega,
      by simp only; omega, by simp only; omega, by simp only; omega⟩
  · rw [if_neg hodd]
    simp only [Bool.or_eq_true, not_or, Bool.not_eq_true] at hodd
    have e1 := isOdd_iff.1 hodd.1
    have e2 := isOdd_iff.1 hodd.2
    refine Sat.bind (Cfg.cadd_sat (hs.lin (by omega) (by omega))) ?_
    rintro _ ⟨rfl, f1⟩
    refine Sat.bind (Cfg.cadd_sat (hs.lin (by omega) (by omega))) ?_
    rintro _ ⟨rfl, f2⟩
    exact Sat.pure ⟨⟨2, .inr rfl, by simp only; omega, by simp only; omega⟩, f1, f2,
      by simp only; omega, by simp only; omega, by simp only; omega, by simp only; omega⟩

theorem ingestAmplify_sat {cfg : Cfg} {A M} {k : Coef4} (hs : cfg.SafeUpTo A M)
    (hb : k.Bounded M) :
    Sat A (k.ingestAmplify cfg) (fun r =>
      ∃ c : Int, (c = 1 ∨ c = 2) ∧ c * r.n = 2 * k.n ∧ c * r.nx = k.nx ∧
        c * r.d = 2 * k.d ∧ c * r.dx = k.dx) := by
  obtain ⟨h1, h2, h3, h4, h5, h6, h7, h8, h9⟩ := hb
  unfold ingestAmplify
  by_cases hodd : (isOdd k.nx || isOdd k.dx) = true
  · rw [if_pos hodd]
    refine Sat.bind (Cfg.cmul_sat (hs.lin (by omega) (by omega))) ?_
    rintro _ ⟨rfl, _⟩
    refine Sat.bind (Cfg.cmul_sat (hs.lin (by omega) (by omega))) ?_
    rintro _ ⟨rfl, _⟩
    exact Sat.pure ⟨1, .inl rfl, by simp; ring, by simp, by simp; ring, by simp⟩
  · rw [if_neg hodd]
    simp only [Bool.or_eq_true, not_or, Bool.not_eq_true] at hodd
    have e1 := isOdd_iff.1 hodd.1
    have e2 := isOdd_iff.1 hodd.2
    exact Sat.pure ⟨2, .inr rfl, rfl, e1, rfl, e2⟩

theorem ingestUncover_sat {cfg : Cfg} {A M} {k : Coef4} (hs : cfg.SafeUpTo A M)
    (hb : k.Bounded M) :
    Sat A (k.ingestUncover cfg) (fun r => r = ⟨k.n, k.nx + k.n, k.d, k.dx + k.d⟩) := by
  obtain ⟨h1, h2, h3, h4, h5, h6, h7, h8, h9⟩ := hb
  unfold ingestUncover
  refine Sat.bind (Cfg.cadd_sat (hs.lin (by omega) (by omega))) ?_
  rintro _ ⟨rfl, _⟩
  refine Sat.bind (Cfg.cadd_sat (hs.lin (by omega) (by omega))) ?_
  rintro _ ⟨rfl, _⟩
  exact Sat.pure rfl

/-- No sign change of a linear function with values `p`, `q` at the ends. -/
def Amen (p q : Int) : Prop := p = 0 ∨ q = 0 ∨ (0 < p ∧ 0 < q) ∨ (p < 0 ∧ q < 0)

theorem isDomainAmenable_sat {cfg : Cfg} {A M} {mx m : Int} (hs : cfg.SafeUpTo A M)
    (h1 : -M ≤ m + mx) (h2 : m + mx ≤ M) :
    Sat A (isDomainAmenable cfg mx m) (fun b => b = true ↔ Amen m (m + mx)) := by
  unfold isDomainAmenable Amen
  simp only []
  by_cases h0 : m.sign = 0
  · rw [if_pos h0]
    have := Int.sign_eq_zero_iff_zero.1 h0
    exact Sat.pure (by simp [this])
  · rw [if_neg h0]
    have hm0 : m ≠ 0 := fun h => h0 (by simp [h])
    have hsafe : cfg.Safe A (mx + m) := hs.lin (by omega) (by omega)
    refine Sat.bind (Cfg.cadd_sat hsafe) ?_
    rintro _ ⟨rfl, _⟩
    have key : m.sign = (mx + m).sign ↔ (0 < m ∧ 0 < m + mx) ∨ (m < 0 ∧ m + mx < 0) := by
      rcases lt_trichotomy m 0 with h | h | h
      · rw [Int.sign_eq_neg_one_of_neg h, eq_comm, Int.sign_eq_neg_one_iff_neg]; omega
      · exact absurd h hm0
      · rw [Int.sign_eq_one_of_pos h, eq_comm, Int.sign_eq_one_iff_pos]; omega
    by_cases ht : m.sign = (mx + m).sign
    · rw [if_pos ht]
      exact Sat.pure (by simpa using .inr (.inr (key.1 ht)))
    · rw [if_neg ht]
      refine Sat.bind (Cfg.cadd_sat hsafe) ?_
      rintro _ ⟨rfl, _⟩
      refine Sat.pure ?_
      have := mt key.2 ht
      rw [beq_iff_eq, Int.sign_eq_zero_iff_zero]
      omega

theorem areSingularitiesOutsideDomain_sat {cfg : Cfg} {A M} {k : Coef4} (hs : cfg.SafeUpTo A M)
    (hb : k.Bounded M) :
    Sat A (k.areSingularitiesOutsideDomain cfg) (fun b => b = true ↔
      Amen k.n (k.n + k.nx) ∧ Amen k.d (k.d + k.dx)) := by
  unfold areSingularitiesOutsideDomain isZeroOutsideDomain isPoleOutsideDomain
  exact Sat.andAlso (isDomainAmenable_sat hs hb.n1 hb.n1')
    fun _ => isDomainAmenable_sat hs hb.d1 hb.d1'

/-- Outcome of `image_extremes`. -/
def Extremes (k : Coef4) (t : Int × Int × Int × Int) : Prop :=
  (((k.n = 0 ∧ k.d = 0) ∨ (k.n + k.nx = 0 ∧ k.d + k.dx = 0)) ∧ t = (0, 0, 0, 0)) ∨
  (¬(k.n = 0 ∧ k.d = 0) ∧ ¬(k.n + k.nx = 0 ∧ k.d + k.dx = 0) ∧ ∃ p0 q0 p1 q1,
    Normed k.n k.d p0 q0 ∧ Normed (k.n + k.nx) (k.d + k.dx) p1 q1 ∧
      (¬(q0 = 0 ∧ q1 = 0 ∧ p0 ≠ p1) → MinMax t p0 q0 p1 q1))

theorem imageExtremes_sat {cfg : Cfg} {A M} {k : Coef4} (hs : cfg.SafeUpTo A M)
    (hb : k.Bounded M) :
    Sat A (k.imageExtremes cfg) (fun t => Extremes k t ∧
      -M ≤ t.1 ∧ t.1 ≤ M ∧ 0 ≤ t.2.1 ∧ t.2.1 ≤ M ∧ -M ≤ t.2.2.1 ∧ t.2.2.1 ≤ M ∧
      0 ≤ t.2.2.2 ∧ t.2.2.2 ≤ M) := by
  have hb' := hb
  obtain ⟨h1, h2, h3, h4, h5, h6, h7, h8, h9⟩ := hb
  have e : k.imageExtremes cfg = if k.n = 0 ∧ k.d = 0 then pure (0, 0, 0, 0) else (do
    let (n1, d1) ← k.valueAtOne cfg
    if n1 = 0 ∧ d1 = 0 then pure (0, 0, 0, 0)
    else updatedRange cfg k.n k.d k.n k.d n1 d1) := rfl
  rw [e]
  by_cases hz0 : k.n = 0 ∧ k.d = 0
  · rw [if_pos hz0]
    exact Sat.pure ⟨.inl ⟨.inl hz0, rfl⟩, by simp; omega⟩
  rw [if_neg hz0]
  refine Sat.bind (valueAtOne_sat hs hb') ?_
  rintro _ rfl
  simp only
  by_cases hz1 : k.n + k.nx = 0 ∧ k.d + k.dx = 0
  · rw [if_pos hz1]
    exact Sat.pure ⟨.inl ⟨.inr hz1, rfl⟩, by simp; omega⟩
  rw [if_neg hz1]
  refine Sat.mono (updatedRange_same_sat hs h1 h2 h3 h6 h7 h4 h5 h8 h9) ?_
  rintro t ⟨p0, q0, p1, q1, hn0, hn1, ht, hbd⟩
  exact ⟨.inr ⟨hz0, hz1, p0, q0, p1, q1, hn0, hn1, fun hinf =>
    MinMax.of_order (hn0.nrm hz0) (hn1.nrm hz1) hinf ht⟩, hbd⟩

end Coef4

end Clarith
