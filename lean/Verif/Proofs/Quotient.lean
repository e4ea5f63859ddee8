import Verif.Proofs.Minus

/-! # A number divided by itself

The coefficients of the denominator are those of the numerator with the operands exchanged.  The
value is 1, which no range excludes: no primer leaves, and both operands are read to their ends. -/

namespace Clarith

open Out Spec Support

variable {cfg : Cfg} {A : Panic → Prop} {σ w : Int}

theorem Support.normalise_pos {n d : Int} (hσ : σ = 1 ∨ (σ = -1 ∧ cfg.Fits n ∧ cfg.Fits d))
    (hn : 0 < n) (hd : 0 < d) : normalise cfg (σ * n) (σ * d) = .ok (n, d) := by
  have hi := cfg.imin_eq
  rcases hσ with rfl | ⟨rfl, h1, h2⟩
  · simp only [normalise, one_mul, show ¬d = 0 by omega, show ¬n = 0 by omega,
      show ¬d < 0 by omega, if_false, pure_eq, ok_bind]
  · simp only [normalise, show ¬(-1 * d = 0) by omega, show -1 * d < 0 by omega, if_true, if_false,
      Cfg.mul, show -1 * n * -1 = n by ring, show -1 * d * -1 = d by ring, cfg.unchecked_eq h1,
      cfg.unchecked_eq h2, pure_eq, ok_bind, show ¬n = 0 by omega]

theorem Support.compareReduce_sat {n0 d0 n1 d1 : Int} (h0 : 0 ≤ n0 * d1) (h1 : n0 * d1 ≤ w)
    (h2 : 0 ≤ n1 * d0) (h3 : n1 * d0 ≤ w) (hA : cfg.CheckSafe A w) :
    Sat A (compareReduce cfg n0 d0 n1 d1)
      (fun r => r = (n0 * d1, n1 * d0) ∧ cfg.Fits (n0 * d1)) := by
  unfold compareReduce
  refine Sat.bind (Cfg.cmul_sat' (hA.le' (by omega) (by omega))) ?_
  rintro _ ⟨rfl, hf⟩
  refine Sat.bind (Cfg.cmul_sat' (hA.le' (by omega) (by omega))) ?_
  rintro _ ⟨rfl, _⟩
  exact Sat.pure ⟨rfl, hf⟩

theorem Support.lessThan_sat {n0 d0 n1 d1 : Int} (h0 : 0 ≤ n0 * d1) (h1 : n0 * d1 ≤ w)
    (h2 : 0 ≤ n1 * d0) (h3 : n1 * d0 ≤ w) (hA : cfg.CheckSafe A w) :
    Sat A (lessThan cfg n0 d0 n1 d1)
      (fun r => r = decide (n0 * d1 < n1 * d0) ∧ cfg.Fits (n0 * d1)) := by
  unfold lessThan
  refine Sat.bind (compareReduce_sat h0 h1 h2 h3 hA) ?_
  rintro _ ⟨rfl, hf⟩
  exact Sat.pure ⟨rfl, hf⟩

theorem Support.greaterThan_sat {n0 d0 n1 d1 : Int} (h0 : 0 ≤ n0 * d1) (h1 : n0 * d1 ≤ w)
    (h2 : 0 ≤ n1 * d0) (h3 : n1 * d0 ≤ w) (hA : cfg.CheckSafe A w) :
    Sat A (greaterThan cfg n0 d0 n1 d1)
      (fun r => r = decide (n0 * d1 > n1 * d0)) := by
  unfold greaterThan
  refine Sat.bind (compareReduce_sat h0 h1 h2 h3 hA) ?_
  rintro _ ⟨rfl, _⟩
  exact Sat.pure rfl

/-- Three positive fractions. -/
theorem Support.updatedRange_pos {n0 d0 n1 d1 n d a0 b0 a1 b1 a b : Int}
    (e0 : normalise cfg a0 b0 = .ok (n0, d0)) (e1 : normalise cfg a1 b1 = .ok (n1, d1))
    (e : normalise cfg a b = .ok (n, d)) (hn0 : 0 < n0) (hd0 : 0 < d0) (hn1 : 0 < n1)
    (hd1 : 0 < d1) (hn : 0 < n) (hd : 0 < d) (l1 : n * d0 ≤ w) (l2 : n0 * d ≤ w)
    (l3 : n * d1 ≤ w) (l4 : n1 * d ≤ w) (hA : cfg.CheckSafe A w) :
    Sat A (updatedRange cfg a0 b0 a1 b1 a b) (fun r => cfg.Fits (n * d0) ∧
      ((n * d0 < n0 * d ∧ r = (n, d, n1, d1)) ∨
      (¬n * d0 < n0 * d ∧ n * d1 > n1 * d ∧ r = (n0, d0, n, d)) ∨
      (¬n * d0 < n0 * d ∧ ¬n * d1 > n1 * d ∧ r = (n0, d0, n1, d1)))) := by
  have p1 := mul_pos hn hd0
  have p2 := mul_pos hn0 hd
  have p3 := mul_pos hn hd1
  have p4 := mul_pos hn1 hd
  unfold updatedRange
  simp only [e0, e1, e, ok_bind]
  refine Sat.bind (lessThan_sat p1.le l1 p2.le l2 hA) ?_
  rintro _ ⟨rfl, hf⟩
  by_cases c1 : n * d0 < n0 * d
  · simp only [c1, decide_true, if_true]
    exact Sat.pure ⟨hf, .inl ⟨trivial, rfl⟩⟩
  · simp only [c1, decide_false, Bool.false_eq_true, if_false]
    refine Sat.bind (greaterThan_sat p3.le l3 p4.le l4 hA) ?_
    rintro _ rfl
    by_cases c2 : n * d1 > n1 * d
    · simp only [c2, decide_true, if_true]
      exact Sat.pure ⟨hf, .inr (.inl ⟨not_false, trivial, rfl⟩)⟩
    · simp only [c2, decide_false, Bool.false_eq_true, if_false]
      exact Sat.pure ⟨hf, .inr (.inr ⟨not_false, not_false, rfl⟩)⟩

/-- The numerator `a*x*y + b*x + c*y + d` over the same with `x` and `y` exchanged. -/
def Coef8.quot (σ a b c d : Int) : Coef8 :=
  ⟨σ * a, σ * b, σ * c, σ * d, σ * a, σ * c, σ * b, σ * d⟩

theorem Cfg.Sign.le {w z σ : Int} (h : cfg.Sign w σ) (h0 : 0 ≤ z) (hz : z ≤ w) : cfg.Sign z σ := by
  have := cfg.imin_eq
  have := cfg.imax_ge
  exact h.imp_right fun h => ⟨h.1, cfg.fits_le h.2 (by omega) hz⟩

/-- After an attempt that did not panic, the next sizes fit. -/
theorem Cfg.Sign.grow {a b c d σ : Int} (h : cfg.Sign (a + b + c + d) σ)
    (hf : (b < c → cfg.Fits ((a + b + c + d) * (c + d))) ∧
      (c < b → cfg.Fits ((a + b + c + d) * (b + d))))
    (hbc : b ≠ c) (ha : 0 ≤ a) (ha' : a ≤ d) (hb : 0 ≤ b) (hb' : b ≤ d) (hc : 0 ≤ c)
    (hc' : c ≤ d) : cfg.Sign (4 * (a + b + c + d)) σ := by
  have := cfg.imin_eq
  have := cfg.imax_ge
  refine h.imp_right fun h => ⟨h.1, ?_⟩
  by_cases hd : d ≤ 3
  · exact cfg.fits_small (by omega) (by omega)
  · rcases lt_or_gt_of_ne hbc with hlt | hlt
    · exact cfg.fits_le (hf.1 hlt) (by nlinarith) (by nlinarith)
    · exact cfg.fits_le (hf.2 hlt) (by nlinarith) (by nlinarith)

namespace Coef8

variable {a b c d : Int}

/-- Positive coefficients have no singularities. -/
theorem amenable_pos (hσ : σ = 1 ∨ σ = -1) (ha : 0 ≤ a) (hb : 0 ≤ b) (hc : 0 ≤ c) (hd : 0 < d)
    (h : a + b + c + d ≤ w) (hA : cfg.CheckSafe A w) :
    Sat A (isDomainAmenable cfg (σ * a) (σ * b) (σ * c) (σ * d))
      (fun r => r = true ∧ cfg.Fits (σ * (a + b + c + d))) := by
  have hs : ∀ z : Int, 0 < z → (σ * z).sign = σ := by
    intro z hz
    rw [Int.sign_mul, Int.sign_eq_one_of_pos hz, mul_one]
    rcases hσ with rfl | rfl <;> rfl
  have s0 : σ ≠ 0 := by omega
  unfold isDomainAmenable
  simp only [hs d hd, if_neg s0, Cfg.cadd]
  refine Sat.bind (Cfg.checked_sat' (hA.le' ?_ ?_)) ?_
  · rcases hσ with rfl | rfl <;> omega
  · rcases hσ with rfl | rfl <;> omega
  rintro _ ⟨rfl, _⟩
  rw [← mul_add, hs _ (by omega : 0 < d + b), if_neg (by simp)]
  refine Sat.bind (Cfg.checked_sat' (hA.le' ?_ ?_)) ?_
  · rcases hσ with rfl | rfl <;> omega
  · rcases hσ with rfl | rfl <;> omega
  rintro _ ⟨rfl, _⟩
  rw [← mul_add, hs _ (by omega : 0 < d + c), if_neg (by simp)]
  refine Sat.bind (Cfg.checked_sat' (hA.le' ?_ ?_)) ?_
  · rcases hσ with rfl | rfl <;> omega
  · rcases hσ with rfl | rfl <;> omega
  rintro _ ⟨rfl, _⟩
  refine Sat.bind (Cfg.checked_sat' (hA.le' ?_ ?_)) ?_
  · rcases hσ with rfl | rfl <;> omega
  · rcases hσ with rfl | rfl <;> omega
  rintro _ ⟨rfl, _⟩
  refine Sat.bind (Cfg.checked_sat' (hA.le' ?_ ?_)) ?_
  · rcases hσ with rfl | rfl <;> omega
  · rcases hσ with rfl | rfl <;> omega
  rintro _ ⟨rfl, hf⟩
  rw [← mul_add, ← mul_add, ← mul_add] at hf ⊢
  rw [hs _ (by omega : 0 < d + (a + (b + c)))]
  refine Sat.pure ⟨by simp, ?_⟩
  rw [show a + b + c + d = d + (a + (b + c)) by ring]
  exact hf

theorem valueAt01_quot (hσ : σ = 1 ∨ σ = -1) (h1 : 0 ≤ c + d) (h2 : c + d ≤ w) (h3 : 0 ≤ b + d)
    (h4 : b + d ≤ w) (hA : cfg.CheckSafe A w) :
    Sat A ((quot σ a b c d).valueAt01 cfg) (fun r => r = (σ * (c + d), σ * (b + d))) := by
  simp only [valueAt01, quot, Cfg.cadd]
  refine Sat.bind (Cfg.checked_sat' (hA.le' ?_ ?_)) ?_
  · rcases hσ with rfl | rfl <;> omega
  · rcases hσ with rfl | rfl <;> omega
  rintro _ ⟨rfl, _⟩
  refine Sat.bind (Cfg.checked_sat' (hA.le' ?_ ?_)) ?_
  · rcases hσ with rfl | rfl <;> omega
  · rcases hσ with rfl | rfl <;> omega
  rintro _ ⟨rfl, _⟩
  exact Sat.pure (by rw [mul_add, mul_add])

theorem valueAt10_quot (hσ : σ = 1 ∨ σ = -1) (h1 : 0 ≤ c + d) (h2 : c + d ≤ w) (h3 : 0 ≤ b + d)
    (h4 : b + d ≤ w) (hA : cfg.CheckSafe A w) :
    Sat A ((quot σ a b c d).valueAt10 cfg) (fun r => r = (σ * (b + d), σ * (c + d))) := by
  simp only [valueAt10, quot, Cfg.cadd]
  refine Sat.bind (Cfg.checked_sat' (hA.le' ?_ ?_)) ?_
  · rcases hσ with rfl | rfl <;> omega
  · rcases hσ with rfl | rfl <;> omega
  rintro _ ⟨rfl, _⟩
  refine Sat.bind (Cfg.checked_sat' (hA.le' ?_ ?_)) ?_
  · rcases hσ with rfl | rfl <;> omega
  · rcases hσ with rfl | rfl <;> omega
  rintro _ ⟨rfl, _⟩
  exact Sat.pure (by rw [mul_add, mul_add])

theorem valueAt11_quot (hσ : σ = 1 ∨ σ = -1) (h0 : 0 ≤ a) (h1 : 0 ≤ b) (h2 : 0 ≤ c) (h3 : 0 ≤ d)
    (h4 : a + b + c + d ≤ w) (hA : cfg.CheckSafe A w) :
    Sat A ((quot σ a b c d).valueAt11 cfg)
      (fun r => r = (σ * (a + b + c + d), σ * (a + b + c + d))) := by
  simp only [valueAt11, quot, Cfg.cadd]
  refine Sat.bind (Cfg.checked_sat' (hA.le' ?_ ?_)) ?_
  · rcases hσ with rfl | rfl <;> omega
  · rcases hσ with rfl | rfl <;> omega
  rintro _ ⟨rfl, _⟩
  refine Sat.bind (Cfg.checked_sat' (hA.le' ?_ ?_)) ?_
  · rcases hσ with rfl | rfl <;> omega
  · rcases hσ with rfl | rfl <;> omega
  rintro _ ⟨rfl, _⟩
  refine Sat.bind (Cfg.checked_sat' (hA.le' ?_ ?_)) ?_
  · rcases hσ with rfl | rfl <;> omega
  · rcases hσ with rfl | rfl <;> omega
  rintro _ ⟨rfl, _⟩
  refine Sat.bind (Cfg.checked_sat' (hA.le' ?_ ?_)) ?_
  · rcases hσ with rfl | rfl <;> omega
  · rcases hσ with rfl | rfl <;> omega
  rintro _ ⟨rfl, _⟩
  refine Sat.bind (Cfg.checked_sat' (hA.le' ?_ ?_)) ?_
  · rcases hσ with rfl | rfl <;> omega
  · rcases hσ with rfl | rfl <;> omega
  rintro _ ⟨rfl, _⟩
  refine Sat.bind (Cfg.checked_sat' (hA.le' ?_ ?_)) ?_
  · rcases hσ with rfl | rfl <;> omega
  · rcases hσ with rfl | rfl <;> omega
  rintro _ ⟨rfl, _⟩
  refine Sat.pure ?_
  rw [Prod.mk.injEq]
  constructor <;> ring

/-- The range has 1 inside. -/
theorem imageExtremes_quot (hσ : cfg.Sign (a + b + c + d) σ) (ha : 0 ≤ a) (hb : 0 ≤ b) (hc : 0 ≤ c)
    (hd : 0 < d) (hs : (a + b + c + d) * (b + d) ≤ w) (hs' : (a + b + c + d) * (c + d) ≤ w)
    (hA : cfg.CheckSafe A w) :
    Sat A ((quot σ a b c d).imageExtremes cfg) (fun r =>
      ∃ n0 d0 n1 d1 : Int, r = (n0, d0, n1, d1) ∧ 0 < n0 ∧ n0 ≤ d0 ∧ 0 < d1 ∧ d1 ≤ n1 ∧
        d0 ≤ a + b + c + d ∧ d1 ≤ a + b + c + d ∧
        (b < c → cfg.Fits ((a + b + c + d) * (c + d))) ∧
        (c < b → cfg.Fits ((a + b + c + d) * (b + d)))) := by
  obtain ⟨S, hS⟩ : ∃ S, S = a + b + c + d := ⟨_, rfl⟩
  obtain ⟨p, hp⟩ : ∃ p, p = c + d := ⟨_, rfl⟩
  obtain ⟨q, hq⟩ : ∃ q, q = b + d := ⟨_, rfl⟩
  have hσ' : σ = 1 ∨ σ = -1 := hσ.imp_right And.left
  rw [← hS, ← hp] at hs'
  rw [← hS, ← hq] at hs
  rw [← hS, ← hp, ← hq]
  rw [← hS] at hσ
  have d1 : 1 ≤ d := hd
  have pS : p ≤ S := by omega
  have qS : q ≤ S := by omega
  have S1 : S ≤ S * p := le_mul_of_one_le_right (by omega) (by omega)
  have sw : S ≤ w := by omega
  have p0 : 0 < p := by omega
  have q0 : 0 < q := by omega
  have hn : ∀ {n m : Int}, 0 < n → 0 < m → n ≤ S → m ≤ S →
      normalise cfg (σ * n) (σ * m) = .ok (n, m) := by
    intro n m h1 h2 h3 h4
    refine normalise_pos (hσ.imp_right fun h => ⟨h.1, ?_, ?_⟩) h1 h2
    · exact cfg.fits_le h.2 (by omega) (by omega)
    · exact cfg.fits_le h.2 (by omega) (by omega)
  have hn' : ∀ {n m : Int}, 0 < n → 0 < m → normalise cfg n m = .ok (n, m) := by
    intro n m h1 h2
    have := normalise_pos (cfg := cfg) (σ := 1) (.inl rfl) h1 h2
    simpa only [one_mul] using this
  have bd : ∀ {n m : Int}, 0 < n → 0 < m → n ≤ S → m ≤ p → n * m ≤ w := by
    intro n m h1 h2 h3 h4
    exact (mul_le_mul h3 h4 h2.le (by omega)).trans hs'
  have bd' : ∀ {n m : Int}, 0 < n → 0 < m → n ≤ S → m ≤ q → n * m ≤ w := by
    intro n m h1 h2 h3 h4
    exact (mul_le_mul h3 h4 h2.le (by omega)).trans hs
  have bc : ∀ {n m : Int}, 0 < n → 0 < m → n ≤ p → m ≤ S → n * m ≤ w := by
    intro n m h1 h2 h3 h4
    rw [mul_comm]; exact bd h2 h1 h4 h3
  have bc' : ∀ {n m : Int}, 0 < n → 0 < m → n ≤ q → m ≤ S → n * m ≤ w := by
    intro n m h1 h2 h3 h4
    rw [mul_comm]; exact bd' h2 h1 h4 h3
  simp only [imageExtremes, valueAt00]
  refine Sat.bind (valueAt01_quot (w := w) hσ' (by omega) (by omega) (by omega) (by omega) hA) ?_
  rintro _ rfl
  rw [← hp, ← hq]
  dsimp only [quot]
  refine Sat.bind (updatedRange_pos (n0 := d) (d0 := d) (n1 := d) (d1 := d) (n := p) (d := q)
    (hn hd hd (by omega) (by omega)) (hn hd hd (by omega) (by omega))
    (hn (by omega) (by omega) pS qS) hd hd hd hd (by omega) (by omega)
    (bc (by omega) hd le_rfl (by omega)) (bd' hd (by omega) (by omega) le_rfl)
    (bc (by omega) hd le_rfl (by omega)) (bd' hd (by omega) (by omega) le_rfl) hA) ?_
  rintro _ ⟨-, ⟨c1, rfl⟩ | ⟨c0, c1, rfl⟩ | ⟨c0, c1, rfl⟩⟩
  · have pq : p < q := by nlinarith
    refine Sat.bind (valueAt10_quot (w := w) hσ' (by omega) (by omega) (by omega) (by omega) hA) ?_
    rintro _ rfl
    rw [← hp, ← hq]
    refine Sat.bind (updatedRange_pos (n0 := p) (d0 := q) (n1 := d) (d1 := d) (n := q) (d := p)
      (hn' p0 q0) (hn' hd hd) (hn (by omega) (by omega) qS pS)
      (by omega) (by omega) hd hd (by omega) (by omega)
      (bc' (by omega) (by omega) le_rfl qS) (bc (by omega) (by omega) le_rfl pS)
      (bc' (by omega) hd le_rfl (by omega)) (bd hd (by omega) (by omega) le_rfl) hA) ?_
    rintro _ ⟨-, ⟨c2, rfl⟩ | ⟨c2, c3, rfl⟩ | ⟨c2, c3, rfl⟩⟩
    · nlinarith
    · refine Sat.bind (valueAt11_quot (w := w) hσ' ha hb hc hd.le (by omega) hA) ?_
      rintro _ rfl
      rw [← hS]
      refine Sat.mono (updatedRange_pos (n0 := p) (d0 := q) (n1 := q) (d1 := p) (n := S) (d := S)
        (hn' p0 q0) (hn' q0 p0) (hn (by omega) (by omega) le_rfl
        le_rfl) (by omega) (by omega) (by omega) (by omega) (by omega) (by omega)
        hs (bc (by omega) (by omega) le_rfl le_rfl) hs' (bc' (by omega) (by omega) le_rfl le_rfl)
        hA) ?_
      rintro _ ⟨hf, ⟨c4, rfl⟩ | ⟨c4, c5, rfl⟩ | ⟨c4, c5, rfl⟩⟩
      · nlinarith
      · nlinarith
      · exact ⟨p, q, q, p, rfl, by omega, by omega, by omega, by omega, qS, pS, by omega,
          fun _ => hf⟩
    · nlinarith
  · have pq : q < p := by nlinarith
    refine Sat.bind (valueAt10_quot (w := w) hσ' (by omega) (by omega) (by omega) (by omega) hA) ?_
    rintro _ rfl
    rw [← hp, ← hq]
    refine Sat.bind (updatedRange_pos (n0 := d) (d0 := d) (n1 := p) (d1 := q) (n := q) (d := p)
      (hn' hd hd) (hn' p0 q0) (hn (by omega) (by omega) qS pS)
      hd hd (by omega) (by omega) (by omega) (by omega)
      (bc' (by omega) hd le_rfl (by omega)) (bd hd (by omega) (by omega) le_rfl)
      (bc' (by omega) (by omega) le_rfl qS) (bc (by omega) (by omega) le_rfl pS) hA) ?_
    rintro _ ⟨-, ⟨c2, rfl⟩ | ⟨c2, c3, rfl⟩ | ⟨c2, c3, rfl⟩⟩
    · refine Sat.bind (valueAt11_quot (w := w) hσ' ha hb hc hd.le (by omega) hA) ?_
      rintro _ rfl
      rw [← hS]
      refine Sat.mono (updatedRange_pos (n0 := q) (d0 := p) (n1 := p) (d1 := q) (n := S) (d := S)
        (hn' q0 p0) (hn' p0 q0) (hn (by omega) (by omega) le_rfl
        le_rfl) (by omega) (by omega) (by omega) (by omega) (by omega) (by omega)
        hs' (bc' (by omega) (by omega) le_rfl le_rfl) hs (bc (by omega) (by omega) le_rfl le_rfl)
        hA) ?_
      rintro _ ⟨hf, ⟨c4, rfl⟩ | ⟨c4, c5, rfl⟩ | ⟨c4, c5, rfl⟩⟩
      · nlinarith
      · nlinarith
      · exact ⟨q, p, p, q, rfl, by omega, by omega, by omega, by omega, pS, qS, fun _ => hf,
          by omega⟩
    · nlinarith
    · nlinarith
  · have pq : p = q := by nlinarith
    refine Sat.bind (valueAt10_quot (w := w) hσ' (by omega) (by omega) (by omega) (by omega) hA) ?_
    rintro _ rfl
    rw [← hp, ← hq]
    refine Sat.bind (updatedRange_pos (n0 := d) (d0 := d) (n1 := d) (d1 := d) (n := q) (d := p)
      (hn' hd hd) (hn' hd hd) (hn (by omega) (by omega) qS pS) hd hd hd hd (by omega) (by omega)
      (bc' (by omega) hd le_rfl (by omega)) (bd hd (by omega) (by omega) le_rfl)
      (bc' (by omega) hd le_rfl (by omega)) (bd hd (by omega) (by omega) le_rfl) hA) ?_
    rintro _ ⟨-, ⟨c2, rfl⟩ | ⟨c2, c3, rfl⟩ | ⟨c2, c3, rfl⟩⟩
    · nlinarith
    · nlinarith
    · refine Sat.bind (valueAt11_quot (w := w) hσ' ha hb hc hd.le (by omega) hA) ?_
      rintro _ rfl
      rw [← hS]
      refine Sat.mono (updatedRange_pos (n0 := d) (d0 := d) (n1 := d) (d1 := d) (n := S) (d := S)
        (hn' hd hd) (hn' hd hd) (hn (by omega) (by omega) le_rfl le_rfl) hd hd hd hd (by omega)
        (by omega) (bd (by omega) hd le_rfl (by omega)) (bc hd (by omega) (by omega) le_rfl)
        (bd (by omega) hd le_rfl (by omega)) (bc hd (by omega) (by omega) le_rfl) hA) ?_
      rintro _ ⟨hf, ⟨c4, rfl⟩ | ⟨c4, c5, rfl⟩ | ⟨c4, c5, rfl⟩⟩
      · nlinarith
      · nlinarith
      · exact ⟨d, d, d, d, rfl, by omega, by omega, by omega, by omega, by omega, by omega,
          by omega, by omega⟩

/-- No primer leaves. -/
theorem quot_attempt (hσ : cfg.Sign (a + b + c + d) σ) (ha : 0 ≤ a) (hb : 0 ≤ b) (hc : 0 ≤ c)
    (hd : 0 < d) (hs : (a + b + c + d) * (b + d) ≤ w) (hs' : (a + b + c + d) * (c + d) ≤ w)
    (hA : cfg.CheckSafe A w) :
    Sat A ((quot σ a b c d).primerAttempt cfg) (fun r => r = none ∧
      (b < c → cfg.Fits ((a + b + c + d) * (c + d))) ∧
      (c < b → cfg.Fits ((a + b + c + d) * (b + d)))) := by
  have hσ' : σ = 1 ∨ σ = -1 := hσ.imp_right And.left
  have hi := cfg.imin_eq
  have S1 : a + b + c + d ≤ (a + b + c + d) * (b + d) :=
    le_mul_of_one_le_right (by omega) (by omega)
  unfold primerAttempt areSingularitiesOutsideDomain isZeroOutsideDomain isPoleOutsideDomain Out.and
  refine Sat.bind (Q := fun r => r = true ∧ cfg.Fits (σ * (a + b + c + d))) ?_ ?_
  · refine Sat.bind (amenable_pos hσ' ha hb hc hd (by omega) hA) ?_
    rintro _ ⟨rfl, hf⟩
    simp only [if_true]
    refine (amenable_pos hσ' ha hc hb hd (w := w) (by omega) hA).mono ?_
    rintro _ ⟨rfl, _⟩
    exact ⟨rfl, hf⟩
  rintro _ ⟨rfl, hf⟩
  have hf : -cfg.imax ≤ a + b + c + d ∧ a + b + c + d ≤ cfg.imax := by
    rcases hσ with rfl | ⟨rfl, h⟩
    · have := hf.2; omega
    · have := h.2; omega
  simp only [if_true, primerEgest]
  refine Sat.bind (imageExtremes_quot hσ ha hb hc hd hs hs' hA) ?_
  rintro _ ⟨n0, d0, n1, d1, rfl, h1, h2, h3, h4, h5, h6, h7⟩
  have g1 : cfg.neg d1 = .ok (-d1) := cfg.unchecked_eq ⟨by omega, by omega⟩
  have g0 : cfg.neg d0 = .ok (-d0) := cfg.unchecked_eq ⟨by omega, by omega⟩
  simp only [lessThanMinusOne, greaterThanMinusOne, lessThanZero, greaterThanZero, lessThanOne,
    greaterThanOne, g0, g1, ok_bind, pure_eq, Out.and, show d0 > 0 by omega, show d1 > 0 by omega,
    show d0 ≥ 0 by omega, show d1 ≥ 0 by omega, if_true, show ¬n1 < -d1 by omega,
    show n0 > -d0 by omega, show ¬n1 < 0 by omega, show n0 > 0 by omega, show ¬n1 < d1 by omega,
    show ¬n0 > d0 by omega, decide_true, decide_false, Bool.and_false, Bool.false_eq_true,
    if_false]
  exact Sat.pure ⟨rfl, h7⟩

/-- Both operands answer `Amplify`. -/
theorem quot_amplify (hσ : σ = 1 ∨ σ = -1) (hb : 0 ≤ b) (hc : 0 ≤ c) (hb' : b ≤ d) (hc' : c ≤ d)
    (hw : 4 * d ≤ w) (hA : cfg.CheckSafe A w) :
    Sat A ((quot σ a b c d).ingestX cfg .Amplify) (fun k => Sat A (k.ingestY cfg .Amplify)
      (fun k' => (∃ a' b' c', a = 4 * a' ∧ b = 2 * b' ∧ c = 2 * c' ∧ k' = quot σ a' b' c' d) ∨
        (∃ a', a = 2 * a' ∧ k' = quot σ a' b c (2 * d)) ∨
        (a % 2 = 1 ∧ k' = quot σ a (2 * b) (2 * c) (4 * d)))) := by
  simp only [ingestX, ingestY]
  refine Sat.mono (amplifyX_cases (k := quot σ a b c d) (w := w) ?_ ?_ ?_ ?_ hA) ?_
  · simp only [quot]; rcases hσ with rfl | rfl <;> omega
  · simp only [quot]; rcases hσ with rfl | rfl <;> omega
  · simp only [quot]; rcases hσ with rfl | rfl <;> omega
  · simp only [quot]; rcases hσ with rfl | rfl <;> omega
  rintro _ (⟨a1, b1, e1, f1, h1, h2, h3, h4, rfl⟩ | ⟨h1, rfl⟩)
  · simp only [quot] at h1 h2 h3 h4 ⊢
    refine Sat.mono (amplifyY_cases (w := w) ?_ ?_ ?_ ?_ hA) ?_
    · simp only; rcases hσ with rfl | rfl <;> omega
    · simp only; rcases hσ with rfl | rfl <;> omega
    · simp only; rcases hσ with rfl | rfl <;> omega
    · simp only; rcases hσ with rfl | rfl <;> omega
    rintro _ (⟨a2, c2, e2, g2, g1, g2, g3, g4, rfl⟩ | ⟨g1, rfl⟩)
    · simp only at g1 g2 g3 g4
      refine .inl ⟨σ * a2, σ * b1, σ * c2, ?_, ?_, ?_, ?_⟩
      · rcases hσ with rfl | rfl <;> omega
      · rcases hσ with rfl | rfl <;> omega
      · rcases hσ with rfl | rfl <;> omega
      · rcases hσ with rfl | rfl <;>
          (rw [Coef8.mk.injEq]; refine ⟨?_, ?_, ?_, ?_, ?_, ?_, ?_, ?_⟩ <;> (try dsimp only) <;>
            omega)
    · refine .inr (.inl ⟨σ * a1, ?_, ?_⟩)
      · rcases hσ with rfl | rfl <;> omega
      · rcases hσ with rfl | rfl <;>
          (rw [Coef8.mk.injEq]; refine ⟨?_, ?_, ?_, ?_, ?_, ?_, ?_, ?_⟩ <;> (try dsimp only) <;>
            omega)
  · simp only [quot] at h1 ⊢
    refine Sat.mono (amplifyY_cases (w := w) ?_ ?_ ?_ ?_ hA) ?_
    · simp only; rcases hσ with rfl | rfl <;> omega
    · simp only; rcases hσ with rfl | rfl <;> omega
    · simp only; rcases hσ with rfl | rfl <;> omega
    · simp only; rcases hσ with rfl | rfl <;> omega
    rintro _ (⟨a2, c2, e2, g2, g1, g2, g3, g4, rfl⟩ | ⟨g1, rfl⟩)
    · simp only at g1 g2 g3 g4
      refine .inr (.inl ⟨σ * a2, ?_, ?_⟩)
      · rcases hσ with rfl | rfl <;> omega
      · rcases hσ with rfl | rfl <;>
          (rw [Coef8.mk.injEq]; refine ⟨?_, ?_, ?_, ?_, ?_, ?_, ?_, ?_⟩ <;> (try dsimp only) <;>
            omega)
    · refine .inr (.inr ⟨?_, ?_⟩)
      · simp only at g1
        rcases hσ with rfl | rfl <;> omega
      · rcases hσ with rfl | rfl <;>
          (rw [Coef8.mk.injEq]; refine ⟨?_, ?_, ?_, ?_, ?_, ?_, ?_, ?_⟩ <;> (try dsimp only) <;>
            omega)

/-- Both operands answer `Uncover`. -/
theorem quot_uncover (hσ : σ = 1 ∨ σ = -1) (ha : 0 ≤ a) (hb : 0 ≤ b) (hc : 0 ≤ c) (hd : 0 ≤ d)
    (hw : a + b + c + d ≤ w) (hA : cfg.CheckSafe A w) :
    Sat A ((quot σ a b c d).ingestX cfg .Uncover) (fun k => Sat A (k.ingestY cfg .Uncover)
      (fun k' => k' = quot σ d (c + d) (b + d) (a + b + c + d))) := by
  simp only [ingestX, ingestY]
  unfold uncoverX shiftX
  simp only [quot, turnX, Cfg.cadd]
  rcases hσ with rfl | rfl
  all_goals
    refine Sat.bind (Cfg.checked_sat' (hA.le' (by omega) (by omega))) ?_
    rintro _ ⟨rfl, _⟩
    refine Sat.bind (Cfg.checked_sat' (hA.le' (by omega) (by omega))) ?_
    rintro _ ⟨rfl, _⟩
    refine Sat.bind (Cfg.checked_sat' (hA.le' (by omega) (by omega))) ?_
    rintro _ ⟨rfl, _⟩
    refine Sat.bind (Cfg.checked_sat' (hA.le' (by omega) (by omega))) ?_
    rintro _ ⟨rfl, _⟩
    refine Sat.pure ?_
    unfold uncoverY shiftY
    simp only [turnY, Cfg.cadd]
    refine Sat.bind (Cfg.checked_sat' (hA.le' (by omega) (by omega))) ?_
    rintro _ ⟨rfl, _⟩
    refine Sat.bind (Cfg.checked_sat' (hA.le' (by omega) (by omega))) ?_
    rintro _ ⟨rfl, _⟩
    refine Sat.bind (Cfg.checked_sat' (hA.le' (by omega) (by omega))) ?_
    rintro _ ⟨rfl, _⟩
    refine Sat.bind (Cfg.checked_sat' (hA.le' (by omega) (by omega))) ?_
    rintro _ ⟨rfl, _⟩
    refine Sat.pure ?_
    rw [Coef8.mk.injEq]; refine ⟨?_, ?_, ?_, ?_, ?_, ?_, ?_, ?_⟩ <;> (try dsimp only) <;> omega

/-- The first operand has ended. -/
theorem quot_end (hσ : σ = 1 ∨ σ = -1) (ha : 0 ≤ a) (hb : 0 ≤ b) (hc : 0 ≤ c) (hd : 0 < d)
    (hbc : 0 < b + c)
    (hs : (a + b + c + d) * (b + d) ≤ w) (hs' : (a + b + c + d) * (c + d) ≤ w)
    (h4 : 4 * (a + b + c + d) ≤ w)
    (hw : (2 ∣ a ∧ 2 ∣ b ∧ 2 ∣ c) ∨ 2 * (a + b + c + d) * (b + c + 2 * d) ≤ w)
    (hA : cfg.CheckSafe A w) :
    Sat A ((quot σ a b c d).valueAtEndOfX cfg) (fun k => ∃ nx n dx m : Int,
      k = ⟨σ * nx, σ * n, σ * dx, σ * m⟩ ∧ 0 ≤ nx ∧ 0 ≤ dx ∧ 0 < n ∧ 0 < m ∧
      nx + 2 * n = dx + 2 * m ∧ (nx + n) * m ≤ w ∧ (dx + m) * n ≤ w ∧ nx + 2 * n ≤ w ∧
      0 < nx + dx ∧ nx + 2 * n ≤ 4 * (a + b + c + d)) := by
  refine Sat.mono (valueAtEndOfX_cases (k := quot σ a b c d) (w := w) ?_ ?_ hA) ?_
  · simp only [quot]
    rintro ⟨e1, e2, e3, e4⟩
    rcases hσ with rfl | rfl <;> omega
  · simp only [quot]
    intro _
    rcases hσ with rfl | rfl <;> omega
  rintro _ (⟨⟨e1, e2, -, e3⟩, rfl⟩ | ⟨hn, rfl⟩)
  · simp only [quot] at e1 e2 e3 ⊢
    obtain ⟨x, rfl⟩ : 2 ∣ a := by rcases hσ with rfl | rfl <;> omega
    obtain ⟨y, rfl⟩ : 2 ∣ b := by rcases hσ with rfl | rfl <;> omega
    obtain ⟨z, rfl⟩ : 2 ∣ c := by rcases hσ with rfl | rfl <;> omega
    refine ⟨2 * z + x, d + y, 2 * y + x, d + z, ?_, by omega, by omega, by omega, by omega,
      by omega, ?_, ?_, by omega, by omega, by omega⟩
    · rw [Coef4.mk.injEq]
      refine ⟨?_, ?_, ?_, ?_⟩ <;> rcases hσ with rfl | rfl <;> omega
    · exact (mul_le_mul (by omega) (by omega) (by omega) (by omega)).trans hs'
    · exact (mul_le_mul (by omega) (by omega) (by omega) (by omega)).trans hs
  · simp only [quot] at hn ⊢
    have hw : 2 * (a + b + c + d) * (b + c + 2 * d) ≤ w := by
      rcases hw with ⟨h1, h2, h3⟩ | hw
      · exact absurd ⟨Dvd.dvd.mul_left h1 _, Dvd.dvd.mul_left h2 _, Dvd.dvd.mul_left h1 _,
          Dvd.dvd.mul_left h3 _⟩ hn
      · exact hw
    refine ⟨a + 2 * c, b + 2 * d, a + 2 * b, c + 2 * d, ?_, by omega, by omega, by omega,
      by omega, by omega, ?_, ?_, by omega, by omega, by omega⟩
    · rw [Coef4.mk.injEq]
      refine ⟨?_, ?_, ?_, ?_⟩ <;> ring
    · exact (mul_le_mul (by omega) (by omega) (by omega) (by omega)).trans hw
    · exact (mul_le_mul (by omega) (by omega) (by omega) (by omega)).trans hw

end Coef8

theorem Coef4.amenable_pos {mx m : Int} (hσ : σ = 1 ∨ σ = -1) (h1 : 0 ≤ mx) (h2 : 0 < m)
    (h : mx + m ≤ w) (hA : cfg.CheckSafe A w) :
    Sat A (isDomainAmenable cfg (σ * mx) (σ * m))
      (fun r => r = true ∧ cfg.Fits (σ * (mx + m))) := by
  have hs : ∀ z : Int, 0 < z → (σ * z).sign = σ := by
    intro z hz
    rw [Int.sign_mul, Int.sign_eq_one_of_pos hz, mul_one]
    rcases hσ with rfl | rfl <;> rfl
  have s0 : σ ≠ 0 := by omega
  unfold isDomainAmenable
  simp only [hs m h2, if_neg s0, Cfg.cadd]
  refine Sat.bind (Cfg.checked_sat' (hA.le' ?_ ?_)) ?_
  · rcases hσ with rfl | rfl <;> omega
  · rcases hσ with rfl | rfl <;> omega
  rintro _ ⟨rfl, hf⟩
  rw [← mul_add] at hf ⊢
  rw [hs _ (by omega : 0 < mx + m), if_pos rfl]
  exact Sat.pure ⟨rfl, hf⟩

/-- The value at 1/2 is 1: no primer leaves. -/
theorem Coef4.quot_attempt {nx n dx m : Int} (hσ : cfg.Sign (nx + 2 * n) σ) (h1 : 0 ≤ nx) (h2 : 0 ≤ dx)
    (h3 : 0 < n) (h4 : 0 < m) (h5 : nx + 2 * n = dx + 2 * m) (h6 : (nx + n) * m ≤ w)
    (h7 : (dx + m) * n ≤ w) (h8 : nx + 2 * n ≤ w) (hA : cfg.CheckSafe A w) :
    Sat A (Coef4.primerAttempt cfg ⟨σ * nx, σ * n, σ * dx, σ * m⟩) (fun r => r = none) := by
  have hσ' : σ = 1 ∨ σ = -1 := hσ.imp_right And.left
  have hi := cfg.imin_eq
  have s0 : ∀ z : Int, 0 < z → σ * z ≠ 0 := by
    intro z hz; rcases hσ' with rfl | rfl <;> omega
  unfold primerAttempt areSingularitiesOutsideDomain isZeroOutsideDomain isPoleOutsideDomain Out.and
  refine Sat.bind (Q := fun r => r = true ∧ cfg.Fits (σ * (nx + n)) ∧ cfg.Fits (σ * (dx + m))) ?_ ?_
  · refine Sat.bind (amenable_pos (w := w) hσ' h1 h3 (by omega) hA) ?_
    rintro _ ⟨rfl, hf⟩
    simp only [if_true]
    refine (amenable_pos (w := w) hσ' h2 h4 (by omega) hA).mono ?_
    rintro _ ⟨rfl, hf'⟩
    exact ⟨rfl, hf, hf'⟩
  rintro _ ⟨rfl, hf, hf'⟩
  have f1 : cfg.Fits (nx + n) := by
    rcases hσ with rfl | ⟨rfl, h⟩
    · simpa using hf
    · exact cfg.fits_le h (by omega) (by omega)
  have f2 : cfg.Fits (dx + m) := by
    rcases hσ with rfl | ⟨rfl, h⟩
    · simpa using hf'
    · exact cfg.fits_le h (by omega) (by omega)
  have f3 := cfg.fits_le f1 (z := n) (by omega) (by omega)
  have f4 := cfg.fits_le f2 (z := m) (by omega) (by omega)
  simp only [if_true, primerEgest, imageExtremes, valueAtZero, valueAtOne, Cfg.cadd, ← mul_add,
    cfg.checked_eq (show cfg.Fits (σ * (n + nx)) by rw [add_comm]; exact hf),
    cfg.checked_eq (show cfg.Fits (σ * (m + dx)) by rw [add_comm]; exact hf'), ok_bind, pure_eq,
    s0 n h3, s0 (n + nx) (by omega), false_and, if_false]
  have hn : ∀ {a b : Int}, 0 < a → 0 < b → cfg.Fits a → cfg.Fits b →
      normalise cfg (σ * a) (σ * b) = .ok (a, b) := by
    intro a b g1 g2 g3 g4
    exact Support.normalise_pos (hσ.imp_right fun h => ⟨h.1, g3, g4⟩) g1 g2
  have b1 : (n + nx) * m ≤ w := by rw [add_comm]; exact h6
  have b2 : n * (m + dx) ≤ w := by rw [mul_comm, add_comm]; exact h7
  rw [add_comm] at f1 f2
  refine Sat.bind (updatedRange_pos (n0 := n) (d0 := m) (n1 := n) (d1 := m) (n := n + nx)
    (d := m + dx) (hn h3 h4 f3 f4) (hn h3 h4 f3 f4) (hn (by omega) (by omega) f1 f2)
    h3 h4 h3 h4 (by omega) (by omega) b1 b2 b1 b2 hA) ?_
  have key : ∀ n0 d0 n1 d1 : Int, 0 < n0 → n0 < d0 → 0 < d1 → d1 < n1 → cfg.Fits d0 →
      cfg.Fits d1 → Sat A (do
        let same ← Out.and (pure (areSame n0 d0 n1 d1)) (isSpecial cfg n0 d0)
        if same = true then pure none
        else do
          if !(← greaterThanMinusOne cfg n1 d1) then do
            let k ← ground cfg ⟨σ * nx, σ * n, σ * dx, σ * m⟩
            pure (some (some Primer.Ground, k))
          else if !(lessThanOne n0 d0) then
            pure (some (some .Turn, turn ⟨σ * nx, σ * n, σ * dx, σ * m⟩))
          else do
            let negative ← Out.and (Out.not (lessThanMinusOne cfg n0 d0))
              (pure (!(greaterThanZero n1 d1)))
            if negative then do
              let k ← reflect cfg ⟨σ * nx, σ * n, σ * dx, σ * m⟩
              pure (some (some .Reflect, k))
            else if !(lessThanZero n0 d0) && !(greaterThanOne n1 d1) then
              pure (some (none, ⟨σ * nx, σ * n, σ * dx, σ * m⟩))
            else
              pure none) (fun r => r = none) := by
    intro n0 d0 n1 d1 g1 g2 g3 g4 g5 g6
    have g7 := g5.2
    have g8 := g6.2
    have e1 : cfg.neg d1 = .ok (-d1) := cfg.unchecked_eq ⟨by omega, by omega⟩
    have e0 : cfg.neg d0 = .ok (-d0) := cfg.unchecked_eq ⟨by omega, by omega⟩
    have e2 : areSame n0 d0 n1 d1 = false := by
      simp only [areSame, Bool.and_eq_false_iff, beq_eq_false_iff_ne]
      omega
    simp only [e2, lessThanMinusOne, greaterThanMinusOne, lessThanZero, greaterThanZero,
      lessThanOne, greaterThanOne, e0, e1, ok_bind, pure_eq, Out.and, Out.not,
      show d0 > 0 by omega, show d1 > 0 by omega,
      show d0 ≥ 0 by omega, show d1 ≥ 0 by omega, if_true, show ¬n0 < -d0 by omega,
      show n1 > -d1 by omega, show ¬n0 < 0 by omega, show n1 > 0 by omega, show n0 < d0 by omega,
      show n1 > d1 by omega, decide_true, decide_false, Bool.and_false, Bool.false_eq_true,
      if_false, Bool.not_true, Bool.not_false]
    exact Sat.pure rfl
  rintro _ ⟨-, ⟨c1, rfl⟩ | ⟨c0, c1, rfl⟩ | ⟨c0, c1, rfl⟩⟩
  · have : n > m := by nlinarith
    simp only [show ¬(n + nx = 0) by omega, false_and, if_false]
    exact key _ _ _ _ (by omega) (by omega) (by omega) (by omega) f2 f4
  · have : n < m := by nlinarith
    simp only [show ¬(n = 0) by omega, false_and, if_false]
    exact key _ _ _ _ (by omega) (by omega) (by omega) (by omega) f4 f2
  · have e : n = m := by nlinarith
    subst e
    have g8 := f3.2
    have e1 : cfg.neg n = .ok (-n) := cfg.unchecked_eq ⟨by omega, by omega⟩
    have e3 : (n == -n) = false := beq_false_of_ne (by omega)
    have e4 : (n == 0) = false := beq_false_of_ne (by omega)
    simp only [show ¬(n = 0) by omega, false_and, if_false, areSame, isSpecial, equalToZero,
      equalToMinusOne, equalToOne, e1, e3, e4, Out.and, pure_eq, ok_bind, ne_eq, not_false_eq_true,
      if_true, bne, Bool.not_false, Bool.and_true, Bool.and_false, Bool.false_eq_true, beq_self_eq_true]
    exact Sat.pure rfl

theorem Coef4.quot_half {nx n dx m : Int} (hσ : cfg.Sign (nx + 2 * n) σ) (h1 : 0 ≤ nx) (h2 : 0 ≤ dx)
    (h3 : 0 < n) (h4 : 0 < m) (h5 : nx + 2 * n = dx + 2 * m) (h8 : nx + 2 * n ≤ w)
    (hA : cfg.CheckSafe A w) :
    Sat A (Coef4.valueAtOneHalf cfg ⟨σ * nx, σ * n, σ * dx, σ * m⟩) (fun r => r.1 = r.2 ∧
      r.1 ≠ 0 ∧ cfg.Fits r.1 ∧ r.1 ≠ cfg.imin) := by
  have hσ' : σ = 1 ∨ σ = -1 := hσ.imp_right And.left
  have hi := cfg.imin_eq
  have hm := cfg.imax_ge
  have fin : ∀ z : Int, 0 < σ * z → σ * z ≤ nx + 2 * n → cfg.Fits z → z ≠ 0 ∧ cfg.Fits z ∧ z ≠ cfg.imin := by
    intro z g1 g2 g3
    refine ⟨by rintro rfl; simp at g1, g3, ?_⟩
    rcases hσ with rfl | ⟨rfl, h⟩
    · omega
    · have := h.2; omega
  refine Sat.mono (valueAtOneHalf_cases (w := w) ?_ ?_ hA) ?_
  · dsimp only
    rcases hσ' with rfl | rfl <;> omega
  · dsimp only
    rcases hσ' with rfl | rfl <;> omega
  rintro _ (⟨⟨d1, d2⟩, rfl, hf⟩ | ⟨hn, rfl, hf⟩)
  · dsimp only at d1 d2 hf ⊢
    have e : σ * n + σ * nx / 2 = σ * m + σ * dx / 2 := by
      rcases hσ' with rfl | rfl <;> omega
    refine ⟨e, fin _ ?_ ?_ (by rw [e]; exact hf)⟩
    · rcases hσ' with rfl | rfl <;> omega
    · rcases hσ' with rfl | rfl <;> omega
  · dsimp only at hf ⊢
    have e : σ * nx + 2 * (σ * n) = σ * dx + 2 * (σ * m) := by
      rcases hσ' with rfl | rfl <;> omega
    refine ⟨e, fin _ ?_ ?_ (by rw [e]; exact hf)⟩
    · rcases hσ' with rfl | rfl <;> omega
    · rcases hσ' with rfl | rfl <;> omega

theorem Ratio.newI_same {z : Int} (h0 : z ≠ 0) (hf : cfg.Fits z) (hi : z ≠ cfg.imin) :
    Ratio.newI cfg z z = .ok (some .PosOne, none, none) := by
  unfold Ratio.newI
  have hs : Ratio.sameSign z z = true := by
    unfold Ratio.sameSign
    by_cases h : z ≥ 0
    · simp [h]
    · simp [h, show z < 0 by omega]
  rw [(Ratio.magnitude_exact hf fun _ => hi).1]
  simp only [ok_bind, hs, Ratio.new, show ¬z.natAbs = 0 by omega, if_false, if_true]

namespace Combine

variable {cx cy : Clog} {v : ℚ} {a b c d : Int} {P : Combine.Primed → Prop}

/-- No primer yet, and both operands answer the same symbol. -/
theorem prime_on' {k : Coef8} {r : Reduction} {Q : Coef8 → Prop} {R : Prop}
    (hx : Clog.Denotes cfg A cx v) (hy : Clog.Denotes cfg A cy v)
    (ha : Sat A (k.primerAttempt cfg) (fun r => r = none ∧ R)) (hr : sym v = some r)
    (hi : Sat A (k.ingestX cfg r) (fun k => Sat A (k.ingestY cfg r) Q))
    (hn : R → ∀ cx' cy' k', Clog.Denotes cfg A cx' (next v) → Clog.Denotes cfg A cy' (next v) →
      Q k' → Ev A (fun f j => Combine.prime cfg (Clog.egest cfg f) j ⟨cx', cy', k'⟩) P) :
    Ev A (fun f j => Combine.prime cfg (Clog.egest cfg f) j ⟨cx, cy, k⟩) P := by
  refine Ev.succ ?_
  simp only [Combine.prime]
  refine Ev.bind_sat ha ?_
  rintro _ ⟨rfl, hR⟩
  simp only [Combine.primeIngest]
  refine Ev.bind (Q := fun t => ∃ cx' cy' k', t = .inr ⟨cx', cy', k'⟩ ∧
    Clog.Denotes cfg A cx' (next v) ∧ Clog.Denotes cfg A cy' (next v) ∧ Q k') ?_ ?_
  · refine Ev.bind hx.ev ?_
    rintro ⟨r', cx'⟩ ⟨hr', hc⟩
    rw [hr] at hr'
    simp only at hr'
    subst hr'
    refine Ev.bind_sat hi ?_
    intro k1 hk1
    refine Ev.bind hy.ev ?_
    rintro ⟨r', cy'⟩ ⟨hr', hc'⟩
    rw [hr] at hr'
    simp only at hr'
    subst hr'
    refine Ev.bind_sat hk1 ?_
    intro k2 hk2
    exact Ev.pure ⟨cx', cy', k2, rfl, hc, hc', hk2⟩
  · rintro _ ⟨cx', cy', k', rfl, h1, h2, h3⟩
    exact hn hR cx' cy' k' h1 h2 h3

/-- Both operands end together. -/
theorem prime_quot_end (hx : Clog.Denotes cfg A cx (1 / 2)) (hy : Clog.Denotes cfg A cy (1 / 2))
    (hσ : cfg.Sign (a + b + c + d) σ)
    (hσ4 : (b < c → cfg.Fits ((a + b + c + d) * (c + d))) ∧
      (c < b → cfg.Fits ((a + b + c + d) * (b + d))) → cfg.Sign (4 * (a + b + c + d)) σ)
    (ha : 0 ≤ a) (hb : 0 ≤ b) (hc : 0 ≤ c) (hd : 0 < d) (hbc : 0 < b + c) (hs : (a + b + c + d) * (b + d) ≤ w) (hs' : (a + b + c + d) * (c + d) ≤ w)
    (h4 : 4 * (a + b + c + d) ≤ w)
    (hw : (2 ∣ a ∧ 2 ∣ b ∧ 2 ∣ c) ∨ 2 * (a + b + c + d) * (b + c + 2 * d) ≤ w)
    (hA : cfg.CheckSafe A w) :
    Ev A (fun i j => Combine.prime cfg (Clog.egest cfg i) j ⟨cx, cy, Coef8.quot σ a b c d⟩)
      (fun t => t = (some .PosOne, none, none, none, none) ∧
        (b < c → cfg.Fits ((a + b + c + d) * (c + d))) ∧
        (c < b → cfg.Fits ((a + b + c + d) * (b + d)))) := by
  have hσ' : σ = 1 ∨ σ = -1 := hσ.imp_right And.left
  refine Ev.succ ?_
  simp only [Combine.prime]
  refine Ev.bind_sat (Coef8.quot_attempt hσ ha hb hc hd hs hs' hA) ?_
  rintro _ ⟨rfl, hF⟩
  have hσ4 := hσ4 hF
  simp only [Combine.primeIngest]
  refine Ev.bind (Q := fun t => t = .inl (some .PosOne, none, none, none)) ?_ ?_
  · refine Ev.bind hx.ev ?_
    rintro ⟨r', cx'⟩ ⟨hr', hcx⟩
    rw [sym_half] at hr'
    simp only at hr'
    subst hr'
    refine Ev.bind_sat (Coef8.quot_end hσ' ha hb hc hd hbc hs hs' h4 hw hA) ?_
    rintro _ ⟨nx, n, dx, m, rfl, g1, g2, g3, g4, g5, g6, g7, g8, g9, g10⟩
    refine Ev.bind (Q := fun t => t = (some .PosOne, none, none, none)) ?_ ?_
    · have g11 : ¬(σ * nx = 0 ∧ σ * dx = 0) := by rcases hσ' with rfl | rfl <;> omega
      simp only [Homographic.new, g11, if_false, Homographic.absorbPrimer, pure_eq, ok_bind]
      refine Ev.succ ?_
      simp only [Homographic.prime]
      refine Ev.bind_sat (Coef4.quot_attempt (hσ4.le (by omega) g10) g1 g2 g3 g4 g5 g6 g7 g8 hA) ?_
      rintro _ rfl
      simp only [Homographic.primeIngest]
      refine Ev.bind (Q := fun t => t.1 = some (some .PosOne, none, none)) ?_ ?_
      · refine Ev.bind hy.ev ?_
        rintro ⟨r', cy'⟩ ⟨hr', hcy⟩
        rw [sym_half] at hr'
        simp only at hr'
        subst hr'
        refine Ev.bind_sat (Coef4.quot_half (hσ4.le (by omega) g10) g1 g2 g3 g4 g5 g8 hA) ?_
        rintro ⟨z, z'⟩ ⟨h6, h7, h8, h9⟩
        simp only at h6 h7 h8 h9
        subst h6
        simp only [Ratio.newI_same h7 h8 h9, ok_bind]
        exact Ev.pure rfl
      · rintro ⟨_, h'⟩ rfl
        exact Ev.pure rfl
    · rintro _ rfl
      exact Ev.pure rfl
  · rintro _ rfl
    exact Ev.pure ⟨rfl, hF⟩

/-- The bounds that follow from the size at the value. -/
theorem quot_bounds {a b c d w : Int} {N : ℚ} (ha : 0 ≤ a) (ha' : a ≤ d) (hb : 0 ≤ b)
    (hb' : b ≤ d) (hc : 0 ≤ c) (hc' : c ≤ d) (hd : 0 < d) (hw : 16 ≤ w) (hN : (d : ℚ) ≤ N)
    (h : 8 * N ^ 2 ≤ w) : (a + b + c + d) * (b + d) ≤ w ∧ (a + b + c + d) * (c + d) ≤ w ∧
      4 * (a + b + c + d) ≤ w := by
  have hd' : (0 : ℚ) < d := by exact_mod_cast hd
  have h1 : 8 * d ^ 2 ≤ w := by
    have : 8 * (d : ℚ) ^ 2 ≤ w := by nlinarith
    exact_mod_cast this
  refine ⟨?_, ?_, ?_⟩
  · have : (a + b + c + d) * (b + d) ≤ 4 * d * (2 * d) :=
      mul_le_mul (by omega) (by omega) (by omega) (by omega)
    nlinarith
  · have : (a + b + c + d) * (c + d) ≤ 4 * d * (2 * d) :=
      mul_le_mul (by omega) (by omega) (by omega) (by omega)
    nlinarith
  · by_cases h2 : d = 1
    · omega
    · have : 2 ≤ d := by omega
      nlinarith

/-- Both operands denote the same number. -/
theorem prime_quot (hσ : cfg.Sign w σ) (hw : 16 ≤ w) (hA : cfg.CheckSafe A w)
    (l : List Reduction) : ∀ (v : ℚ) (cx cy : Clog) (a b c d : Int), Expands v l →
      Clog.Denotes cfg A cx v → Clog.Denotes cfg A cy v → 0 ≤ a → a ≤ d → 0 ≤ b → b ≤ d →
      0 ≤ c → c ≤ d → 0 < d → 0 < b + c →
      8 * ((a * v ^ 2 + (b + c) * v + d) * growth v l ^ 2) ^ 2 ≤ w →
      Ev A (fun i j => Combine.prime cfg (Clog.egest cfg i) j ⟨cx, cy, Coef8.quot σ a b c d⟩)
        (fun t => t = (some .PosOne, none, none, none, none)) := by
  have hσ' : σ = 1 ∨ σ = -1 := hσ.imp_right And.left
  induction l with
  | nil =>
    intro v cx cy a b c d hl hx hy ha ha' hb hb' hc hc' hd hbc h
    cases hl
    simp only [growth, one_pow, mul_one] at h
    have hb0 : (0 : ℚ) ≤ b := by exact_mod_cast hb
    have hc0 : (0 : ℚ) ≤ c := by exact_mod_cast hc
    have ha0 : (0 : ℚ) ≤ a := by exact_mod_cast ha
    obtain ⟨s1, s2, s3⟩ := quot_bounds ha ha' hb hb' hc hc' hd hw (by linarith) h
    refine (prime_quot_end hx hy (hσ.le (by omega) (by omega)) (fun _ => hσ.le (by omega) s3) ha hb hc hd hbc s1 s2 s3 (.inr ?_) hA).mono fun _ h => h.1
    have e1 : (2 * (a + b + c + d) : ℚ) ≤ 4 * (a * (1 / 2) ^ 2 + (b + c) * (1 / 2) + d) := by
      have : (a : ℚ) ≤ d := by exact_mod_cast ha'
      linarith
    have e2 : (b + c + 2 * d : ℚ) ≤ 2 * (a * (1 / 2) ^ 2 + (b + c) * (1 / 2) + d) := by linarith
    have hd0 : (0 : ℚ) < d := by exact_mod_cast hd
    have e3 : (2 * (a + b + c + d) * (b + c + 2 * d) : ℚ) ≤ w := by
      refine (mul_le_mul e1 e2 (by positivity) (by positivity)).trans ?_
      linarith
    exact_mod_cast e3
  | cons r l ih =>
    intro v cx cy a b c d hl hx hy ha ha' hb hb' hc hc' hd hbc h
    have ha0 : (0 : ℚ) ≤ a := by exact_mod_cast ha
    have hb0 : (0 : ℚ) ≤ b := by exact_mod_cast hb
    have hc0 : (0 : ℚ) ≤ c := by exact_mod_cast hc
    have hd0 : (0 : ℚ) < d := by exact_mod_cast hd
    have hv := hx.1
    have q0 : (d : ℚ) ≤ a * v ^ 2 + (b + c) * v + d := by
      have : 0 ≤ (a : ℚ) * v ^ 2 := by positivity
      have : 0 ≤ ((b : ℚ) + c) * v := by positivity
      linarith
    have hg0 := one_le_growth hl
    have h' : 8 * ((a : ℚ) * v ^ 2 + (b + c) * v + d) ^ 2 ≤ w := by
      refine le_trans ?_ h
      have : ((a : ℚ) * v ^ 2 + (b + c) * v + d) * 1 ≤
          (a * v ^ 2 + (b + c) * v + d) * growth v (r :: l) ^ 2 :=
        mul_le_mul_of_nonneg_left (one_le_pow₀ hg0) (by linarith)
      rw [mul_one] at this
      have := pow_le_pow_left₀ (by linarith) this 2
      linarith
    obtain ⟨s1, s2, s3⟩ := quot_bounds ha ha' hb hb' hc hc' hd hw q0 h'
    have hat := Coef8.quot_attempt (A := A) (hσ.le (by omega) (by omega)) ha hb hc hd s1 s2 hA
    cases hl with
    | amplify h1 h2 hl =>
      have hg := one_le_growth hl
      simp only [growth] at h
      set g := growth (2 * v) l with hgd
      set N := (a : ℚ) * v ^ 2 + (b + c) * v + d with hN
      have hg2 : 1 ≤ g ^ 2 := one_le_pow₀ hg
      have hN0 : 0 < N := by linarith
      have le4 : ∀ t : ℚ, 0 ≤ t → t ≤ 4 → 8 * (t * N * g ^ 2) ^ 2 ≤ w := by
        intro t t0 t4
        refine le_trans ?_ h
        have : t * N * g ^ 2 ≤ N * (2 * g) ^ 2 := by
          have : t * N * g ^ 2 ≤ 4 * N * g ^ 2 := by
            apply mul_le_mul_of_nonneg_right _ (by positivity)
            exact mul_le_mul_of_nonneg_right t4 hN0.le
          linarith
        have := pow_le_pow_left₀ (by positivity) this 2
        linarith
      refine prime_on' hx hy hat (sym_lt h2) (Coef8.quot_amplify (w := w) hσ' hb hc hb' hc'
        (by omega) hA) ?_
      intro _ cx' cy' k' hx' hy' hk
      rw [next_lt h2] at hx' hy'
      rcases hk with ⟨a', b', c', rfl, rfl, rfl, rfl⟩ | ⟨a', rfl, rfl⟩ | ⟨ho, rfl⟩
      · refine ih _ _ _ _ _ _ _ hl hx' hy' (by omega) (by omega) (by omega) (by omega) (by omega)
          (by omega) (by omega) (by omega) ?_
        have e : (a' : ℚ) * (2 * v) ^ 2 + (b' + c') * (2 * v) + d = 1 * N := by
          rw [hN]; push_cast; ring
        rw [e]; exact le4 1 (by norm_num) (by norm_num)
      · refine ih _ _ _ _ _ _ _ hl hx' hy' (by omega) (by omega) (by omega) (by omega) (by omega)
          (by omega) (by omega) (by omega) ?_
        have e : (a' : ℚ) * (2 * v) ^ 2 + (b + c) * (2 * v) + (2 * d : Int) = 2 * N := by
          rw [hN]; push_cast; ring
        rw [e]; exact le4 2 (by norm_num) (by norm_num)
      · refine ih _ _ _ _ _ _ _ hl hx' hy' (by omega) (by omega) (by omega) (by omega) (by omega)
          (by omega) (by omega) (by omega) ?_
        have e : (a : ℚ) * (2 * v) ^ 2 + ((2 * b : Int) + (2 * c : Int)) * (2 * v) + (4 * d : Int) =
            4 * N := by
          rw [hN]; push_cast; ring
        rw [e]; exact le4 4 (by norm_num) (by norm_num)
    | uncover h1 h2 hl =>
      simp only [growth] at h
      refine prime_on' hx hy hat (sym_gt h1) (Coef8.quot_uncover (w := w) hσ' ha hb hc hd.le
        (by omega) hA) ?_
      rintro - cx' cy' _ hx' hy' rfl
      rw [next_gt h1] at hx' hy'
      refine ih _ _ _ _ _ _ _ hl hx' hy' (by omega) (by omega) (by omega) (by omega) (by omega)
          (by omega) (by omega) (by omega) ?_
      have v0 : v ≠ 0 := hv.ne'
      have e : ((d : ℚ) * (1 / v - 1) ^ 2 + (((c + d : Int) : ℚ) + (b + d : Int)) * (1 / v - 1) +
          (a + b + c + d : Int)) = (a * v ^ 2 + (b + c) * v + d) * (1 / v) ^ 2 := by
        push_cast; field_simp; ring
      rw [e, mul_assoc, ← mul_pow]
      exact h

theorem sat_of_ok {α : Type} {o : Out α} {a : α} {P : α → Prop} (h : o = .ok a) (hp : P a) :
    Sat A o P := by
  subst h
  exact hp

theorem quot_start_attempt (σ b c : Int) :
    (Coef8.quot σ 0 b c 0).primerAttempt cfg = .ok none := by
  simp only [Coef8.primerAttempt, Coef8.areSingularitiesOutsideDomain, Coef8.isZeroOutsideDomain,
    Coef8.isDomainAmenable, Coef8.quot, mul_zero, Int.sign_zero, if_true, Out.and, pure_eq,
    ok_bind, Bool.false_eq_true, if_false]

/-- The coefficients at the start. -/
def QuotStart (σ b c : Int) : Prop := (σ = 1 ∨ σ = -1) ∧ ((b = 1 ∧ c = 0) ∨ (b = 0 ∧ c = 1))

theorem QuotStart.amplify {σ b c : Int} (h : QuotStart σ b c) :
    Sat A ((Coef8.quot σ 0 b c 0).ingestX cfg .Amplify) (fun k => Sat A (k.ingestY cfg .Amplify)
      (fun k' => k' = Coef8.quot σ 0 b c 0)) := by
  obtain ⟨rfl | rfl, ⟨rfl, rfl⟩ | ⟨rfl, rfl⟩⟩ := h
  · exact sat_of_ok ((Coef8.ingestX_widens (narrowest_wider cfg) .Amplify (Coef8.quot 1 0 1 0 0)).ok
      (show _ = Out.ok (⟨0, 1, 0, 0, 0, 0, 2, 0⟩ : Coef8) by decide))
      (sat_of_ok ((Coef8.ingestY_widens (narrowest_wider cfg) .Amplify ⟨0, 1, 0, 0, 0, 0, 2, 0⟩).ok
        (show _ = Out.ok (Coef8.quot 1 0 1 0 0) by decide)) rfl)
  · exact sat_of_ok ((Coef8.ingestX_widens (narrowest_wider cfg) .Amplify (Coef8.quot 1 0 0 1 0)).ok
      (show _ = Out.ok (⟨0, 0, 2, 0, 0, 1, 0, 0⟩ : Coef8) by decide))
      (sat_of_ok ((Coef8.ingestY_widens (narrowest_wider cfg) .Amplify ⟨0, 0, 2, 0, 0, 1, 0, 0⟩).ok
        (show _ = Out.ok (Coef8.quot 1 0 0 1 0) by decide)) rfl)
  · exact sat_of_ok ((Coef8.ingestX_widens (narrowest_wider cfg) .Amplify (Coef8.quot (-1) 0 1 0 0)).ok
      (show _ = Out.ok (⟨0, -1, 0, 0, 0, 0, -2, 0⟩ : Coef8) by decide))
      (sat_of_ok ((Coef8.ingestY_widens (narrowest_wider cfg) .Amplify ⟨0, -1, 0, 0, 0, 0, -2, 0⟩).ok
        (show _ = Out.ok (Coef8.quot (-1) 0 1 0 0) by decide)) rfl)
  · exact sat_of_ok ((Coef8.ingestX_widens (narrowest_wider cfg) .Amplify (Coef8.quot (-1) 0 0 1 0)).ok
      (show _ = Out.ok (⟨0, 0, -2, 0, 0, -1, 0, 0⟩ : Coef8) by decide))
      (sat_of_ok ((Coef8.ingestY_widens (narrowest_wider cfg) .Amplify ⟨0, 0, -2, 0, 0, -1, 0, 0⟩).ok
        (show _ = Out.ok (Coef8.quot (-1) 0 0 1 0) by decide)) rfl)

theorem QuotStart.end {σ b c : Int} (h : QuotStart σ b c) :
    ∃ k : Coef4, (Coef8.quot σ 0 b c 0).valueAtEndOfX cfg = .ok k ∧ ¬(k.nx = 0 ∧ k.dx = 0) ∧
      k.primerAttempt cfg = .ok none ∧ k.valueAtOneHalf cfg = .ok (σ, σ) := by
  obtain ⟨rfl | rfl, ⟨rfl, rfl⟩ | ⟨rfl, rfl⟩⟩ := h
  · exact ⟨⟨0, 1, 2, 0⟩, (Coef8.valueAtEndOfX_widens (narrowest_wider cfg) _).ok (by decide),
      by decide, (Coef4.primerAttempt_widens (narrowest_wider cfg) _).ok (by decide),
      (Coef4.valueAtOneHalf_widens (narrowest_wider cfg) _).ok (by decide)⟩
  · exact ⟨⟨2, 0, 0, 1⟩, (Coef8.valueAtEndOfX_widens (narrowest_wider cfg) _).ok (by decide),
      by decide, (Coef4.primerAttempt_widens (narrowest_wider cfg) _).ok (by decide),
      (Coef4.valueAtOneHalf_widens (narrowest_wider cfg) _).ok (by decide)⟩
  · exact ⟨⟨0, -1, -2, 0⟩, (Coef8.valueAtEndOfX_widens (narrowest_wider cfg) _).ok (by decide),
      by decide, (Coef4.primerAttempt_widens (narrowest_wider cfg) _).ok (by decide),
      (Coef4.valueAtOneHalf_widens (narrowest_wider cfg) _).ok (by decide)⟩
  · exact ⟨⟨-2, 0, 0, -1⟩, (Coef8.valueAtEndOfX_widens (narrowest_wider cfg) _).ok (by decide),
      by decide, (Coef4.primerAttempt_widens (narrowest_wider cfg) _).ok (by decide),
      (Coef4.valueAtOneHalf_widens (narrowest_wider cfg) _).ok (by decide)⟩

theorem prime_quot_half (h : QuotStart σ b c) (hx : Clog.Denotes cfg A cx (1 / 2))
    (hy : Clog.Denotes cfg A cy (1 / 2)) :
    Ev A (fun i j => Combine.prime cfg (Clog.egest cfg i) j ⟨cx, cy, Coef8.quot σ 0 b c 0⟩)
      (fun t => t = (some .PosOne, none, none, none, none)) := by
  have hi := cfg.imin_eq
  have hm := cfg.imax_ge
  obtain ⟨k, e1, e2, e3, e4⟩ := h.end (cfg := cfg)
  refine Ev.succ ?_
  simp only [Combine.prime, quot_start_attempt, ok_bind, Combine.primeIngest]
  refine Ev.bind (Q := fun t => t = .inl (some .PosOne, none, none, none)) ?_ ?_
  · refine Ev.bind hx.ev ?_
    rintro ⟨r', cx'⟩ ⟨hr', hcx⟩
    rw [sym_half] at hr'
    simp only at hr'
    subst hr'
    simp only [e1, ok_bind]
    refine Ev.bind (Q := fun t => t = (some .PosOne, none, none, none)) ?_ ?_
    · simp only [Homographic.new, e2, if_false, Homographic.absorbPrimer, pure_eq, ok_bind]
      refine Ev.succ ?_
      simp only [Homographic.prime, e3, ok_bind, Homographic.primeIngest]
      refine Ev.bind (Q := fun t => t.1 = some (some .PosOne, none, none)) ?_ ?_
      · refine Ev.bind hy.ev ?_
        rintro ⟨r', cy'⟩ ⟨hr', hcy⟩
        rw [sym_half] at hr'
        simp only at hr'
        subst hr'
        have hs := h.1
        simp only [e4, ok_bind, Ratio.newI_same (cfg := cfg) (z := σ) (by omega)
          (cfg.fits_small (by omega) (by omega)) (by omega)]
        exact Ev.pure rfl
      · rintro ⟨_, h'⟩ rfl
        exact Ev.pure rfl
    · rintro _ rfl
      exact Ev.pure rfl
  · rintro _ rfl
    exact Ev.pure rfl

/-- From the start. -/
theorem prime_quot_start (h : QuotStart σ b c) (hσ : cfg.Sign w σ) (hw : 16 ≤ w)
    (hA : cfg.CheckSafe A w) (l : List Reduction) : ∀ (v : ℚ) (cx cy : Clog), Expands v l →
      Clog.Denotes cfg A cx v → Clog.Denotes cfg A cy v → 8 * (growth v l ^ 2) ^ 2 ≤ w →
      Ev A (fun i j => Combine.prime cfg (Clog.egest cfg i) j ⟨cx, cy, Coef8.quot σ 0 b c 0⟩)
        (fun t => t = (some .PosOne, none, none, none, none)) := by
  have hat : Sat A ((Coef8.quot σ 0 b c 0).primerAttempt cfg) (fun r => r = none ∧ True) :=
    sat_of_ok (quot_start_attempt σ b c) ⟨rfl, trivial⟩
  obtain ⟨hσ', hbc⟩ := id h
  induction l with
  | nil =>
    intro v cx cy hl hx hy _
    cases hl
    exact prime_quot_half h hx hy
  | cons r l ih =>
    intro v cx cy hl hx hy hg
    cases hl with
    | amplify h1 h2 hl =>
      have g1 := one_le_growth hl
      simp only [growth] at hg
      refine prime_on' hx hy hat (sym_lt h2) h.amplify ?_
      rintro - cx' cy' _ hx' hy' rfl
      rw [next_lt h2] at hx' hy'
      refine ih _ _ _ hl hx' hy' (le_trans ?_ hg)
      have : growth (2 * v) l ^ 2 ≤ (2 * growth (2 * v) l) ^ 2 :=
        pow_le_pow_left₀ (by linarith) (by linarith) 2
      have := pow_le_pow_left₀ (by positivity) this 2
      linarith
    | uncover h1 h2 hl =>
      have g1 := one_le_growth hl
      have hv := hx.1
      simp only [growth] at hg
      refine prime_on' hx hy hat (sym_gt h1) (Coef8.quot_uncover (w := w) hσ' le_rfl (by omega)
        (by omega) le_rfl (by omega) hA) ?_
      rintro - cx' cy' _ hx' hy' rfl
      rw [next_gt h1] at hx' hy'
      refine prime_quot hσ hw hA l _ _ _ _ _ _ _ hl hx' hy' (by omega) (by omega) (by omega)
          (by omega) (by omega) (by omega) (by omega) (by omega) (le_trans ?_ hg)
      have v0 : v ≠ 0 := hv.ne'
      have hbc' : (b : ℚ) + c = 1 := by exact_mod_cast (by omega : b + c = 1)
      have e : (((0 : Int) : ℚ) * (1 / v - 1) ^ 2 + (((c + 0 : Int) : ℚ) + (b + 0 : Int)) *
          (1 / v - 1) + (0 + b + c + 0 : Int)) = 1 / v := by
        push_cast
        linear_combination (1 / v) * hbc'
      rw [e]
      have u1 : 1 ≤ 1 / v := by rw [le_div_iff₀ hv]; linarith
      have : 1 / v * growth (1 / v - 1) l ^ 2 ≤ (1 / v * growth (1 / v - 1) l) ^ 2 := by
        rw [mul_pow]
        exact mul_le_mul_of_nonneg_right (by nlinarith) (by positivity)
      have := pow_le_pow_left₀ (by positivity) this 2
      linarith

end Combine

end Clarith
