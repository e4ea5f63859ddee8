import Verif.Proofs.AddOne

/-! # `2^b - 1` plus one

The result is a power of two, whose last symbol can only be told from all symbols of the operand.
The states met are followed exactly: the numerator at the operand doubles with each `Amplify`. -/

namespace Clarith

open Out Spec

variable {cfg : Cfg} {A : Panic → Prop}

theorem Cfg.CheckSafe.le {z w : Int} (h : cfg.CheckSafe A w) (h0 : 0 ≤ z) (h1 : z ≤ w) :
    cfg.CheckSafe A z :=
  h.imp_left fun h => cfg.fits_le h (by omega) h1

theorem Cfg.checked_sat' {z : Int} (h : cfg.CheckSafe A z) :
    Sat A (cfg.checked z) (fun r => r = z ∧ cfg.Fits z) := by
  unfold Cfg.checked
  by_cases hz : cfg.Fits z
  · simp [hz, Sat]
  · rcases h with h | h1
    · exact absurd h hz
    · simpa [hz, Sat] using h1

namespace Coef4

/-- A state whose value at the operand `p/q` is one half. -/
structure Halfway (k : Coef4) (p q V : Int) : Prop where
  nx : 0 ≤ k.nx
  n : 1 ≤ k.n
  dx : 0 ≤ k.dx
  d : 2 ≤ k.d
  le0 : k.n ≤ k.d
  le1 : k.nx + k.n ≤ k.dx + k.d
  num : k.nx * p + k.n * q = V
  den : k.dx * p + k.d * q = 2 * V
  det : k.nx * k.d ≠ k.n * k.dx

variable {k : Coef4} {p q V : Int}

theorem Halfway.sides (h : k.Halfway p q V) (hp : 0 < p) (hq : p < q) :
    (2 * k.n < k.d ∧ k.dx + k.d < 2 * (k.nx + k.n)) ∨
    (k.d < 2 * k.n ∧ 2 * (k.nx + k.n) < k.dx + k.d) := by
  have e : (2 * k.n - k.d) * (q - p) + p * (2 * (k.nx + k.n) - (k.dx + k.d)) = 0 := by
    have := h.num
    have := h.den
    linarith
  rcases lt_trichotomy (2 * k.n - k.d) 0 with h0 | h0 | h0
  · left
    refine ⟨by omega, ?_⟩
    by_contra hc
    have h1 : (2 * k.n - k.d) * (q - p) < 0 := mul_neg_of_neg_of_pos h0 (by omega)
    have h2 : p * (2 * (k.nx + k.n) - (k.dx + k.d)) ≤ 0 :=
      mul_nonpos_of_nonneg_of_nonpos hp.le (by omega)
    omega
  · exfalso
    rw [h0, zero_mul, zero_add] at e
    rcases mul_eq_zero.1 e with e | e
    · omega
    · refine h.det ?_
      have e1 : k.d = 2 * k.n := by omega
      have e2 : k.dx = 2 * k.nx := by omega
      rw [e1, e2]; ring
  · right
    refine ⟨by omega, ?_⟩
    by_contra hc
    have h1 : 0 < (2 * k.n - k.d) * (q - p) := mul_pos h0 (by omega)
    have h2 : 0 ≤ p * (2 * (k.nx + k.n) - (k.dx + k.d)) :=
      mul_nonneg hp.le (by omega)
    omega

theorem tmod_two_of_nonneg {x : Int} (h : 0 ≤ x) : x.tmod 2 = x % 2 :=
  Int.tmod_eq_emod_of_nonneg h

theorem half_of_nonneg {x : Int} (h : 0 ≤ x) : half x = x / 2 := by
  unfold half
  exact Int.tdiv_eq_ediv_of_nonneg h

/-- Comparing a positive fraction to one half. -/
theorem doubled_sat {n d w : Int} (hn : 0 ≤ n) (hd : 1 ≤ d) (hw : 2 * n ≤ w)
    (hs : cfg.CheckSafe A w) :
    Sat A (Support.doubled cfg n d)
      (fun r => (r = (n, d / 2) ∧ d % 2 = 0) ∨ (r = (2 * n, d) ∧ d % 2 = 1)) := by
  unfold Support.doubled
  rw [tmod_two_of_nonneg (by omega), half_of_nonneg (by omega)]
  by_cases h : d % 2 = 0
  · rw [if_pos h]; exact Sat.pure (.inl ⟨rfl, h⟩)
  · rw [if_neg h]
    refine Sat.bind (Cfg.cmul_sat' (hs.le (by omega) (by omega))) ?_
    rintro _ ⟨rfl, _⟩
    exact Sat.pure (.inr ⟨by rw [mul_comm], by omega⟩)

theorem greaterThanOneHalf_sat {n d w : Int} (hn : 0 ≤ n) (hd : 1 ≤ d) (hw : 2 * n ≤ w)
    (hs : cfg.CheckSafe A w) :
    Sat A (Support.greaterThanOneHalf cfg n d) (fun r => r = decide (d < 2 * n)) := by
  unfold Support.greaterThanOneHalf
  refine Sat.bind (doubled_sat hn hd hw hs) ?_
  rintro _ (⟨rfl, h⟩ | ⟨rfl, h⟩) <;> refine Sat.pure ?_
  · rw [if_pos (by omega)]; exact decide_eq_decide.2 (by omega)
  · rw [if_pos (by omega)]

theorem lessThanOneHalf_sat {n d w : Int} (hn : 0 ≤ n) (hd : 1 ≤ d) (hw : 2 * n ≤ w)
    (hs : cfg.CheckSafe A w) :
    Sat A (Support.lessThanOneHalf cfg n d) (fun r => r = decide (2 * n < d)) := by
  unfold Support.lessThanOneHalf
  refine Sat.bind (doubled_sat hn hd hw hs) ?_
  rintro _ (⟨rfl, h⟩ | ⟨rfl, h⟩) <;> refine Sat.pure ?_
  · rw [if_pos (by omega)]; exact decide_eq_decide.2 (by omega)
  · rw [if_pos (by omega)]

theorem equalToOneHalf_sat {n d w : Int} (hn : 0 ≤ n) (hd : 1 ≤ d) (hw : 2 * n ≤ w)
    (hs : cfg.CheckSafe A w) :
    Sat A (Support.equalToOneHalf cfg n d) (fun r => r = decide (d = 2 * n)) := by
  unfold Support.equalToOneHalf
  refine Sat.bind (doubled_sat hn hd hw hs) ?_
  rintro _ (⟨rfl, h⟩ | ⟨rfl, h⟩) <;> refine Sat.pure ?_
  · rw [show ((n == d / 2) = decide (n = d / 2)) from rfl]; exact decide_eq_decide.2 (by omega)
  · rw [show ((2 * n == d) = decide (2 * n = d)) from rfl]; exact decide_eq_decide.2 (by omega)

theorem normalise_pos {n d : Int} (hn : 1 ≤ n) (hd : 1 ≤ d) :
    Support.normalise cfg n d = .ok (n, d) := by
  simp only [Support.normalise, pure_eq, show ¬d = 0 by omega, show ¬d < 0 by omega,
    show ¬n = 0 by omega, if_false, ok_bind]

theorem isDomainAmenable_pos {mx m w : Int} (h0 : 0 ≤ mx) (h1 : 1 ≤ m) (hw : mx + m ≤ w)
    (hs : cfg.CheckSafe A w) : Sat A (isDomainAmenable cfg mx m) (fun b => b = true) := by
  unfold isDomainAmenable
  simp only [signs m h1, one_ne_zero, if_false]
  refine Sat.bind (Cfg.checked_sat' (hs.le (by omega) hw)) ?_
  rintro _ ⟨rfl, _⟩
  rw [signs (mx + m) (by omega), if_pos rfl]
  exact Sat.pure rfl

/-- The extremes of a map without singularities. -/
theorem imageExtremes_pos (hnx : 0 ≤ k.nx) (hn : 1 ≤ k.n) (hdx : 0 ≤ k.dx) (hd : 2 ≤ k.d)
    (h1 : cfg.CheckSafe A ((k.nx + k.n) * k.d)) (h2 : cfg.CheckSafe A (k.n * (k.dx + k.d))) :
    Sat A (k.imageExtremes cfg) (fun t =>
      (t = (k.n, k.d, k.nx + k.n, k.dx + k.d) ∨ t = (k.nx + k.n, k.dx + k.d, k.n, k.d) ∨
        t = (k.n, k.d, k.n, k.d)) ∧
      (k.n * (k.dx + k.d) < (k.nx + k.n) * k.d → t = (k.n, k.d, k.nx + k.n, k.dx + k.d)) ∧
      ((k.nx + k.n) * k.d < k.n * (k.dx + k.d) → t = (k.nx + k.n, k.dx + k.d, k.n, k.d)) ∧
      cfg.Fits ((k.nx + k.n) * k.d) ∧ cfg.Fits (k.n * (k.dx + k.d))) := by
  have b1 : k.nx + k.n ≤ (k.nx + k.n) * k.d := le_mul_of_one_le_right (by omega) (by omega)
  have b2 : k.dx + k.d ≤ k.n * (k.dx + k.d) := le_mul_of_one_le_left (by omega) (by omega)
  unfold imageExtremes valueAtZero valueAtOne
  simp only [show ¬(k.n = 0 ∧ k.d = 0) by omega, if_false]
  have s1 : cfg.CheckSafe A (k.n + k.nx) := h1.le (by omega) (by omega)
  have s2 : cfg.CheckSafe A (k.d + k.dx) := h2.le (by omega) (by omega)
  refine Sat.bind (Q := fun r => r = (k.nx + k.n, k.dx + k.d)) ?_ ?_
  · refine Sat.bind (Cfg.checked_sat' s1) ?_
    rintro _ ⟨rfl, _⟩
    refine Sat.bind (Cfg.checked_sat' s2) ?_
    rintro _ ⟨rfl, _⟩
    exact Sat.pure (by rw [add_comm k.n, add_comm k.d])
  · rintro _ rfl
    simp only [show ¬(k.nx + k.n = 0 ∧ k.dx + k.d = 0) by omega, if_false]
    unfold Support.updatedRange
    rw [normalise_pos hn (by omega), normalise_pos (by omega) (by omega)]
    simp only [ok_bind]
    have key : ∀ {β : Type} (g : Int × Int → Out β) (P : β → Prop),
        (cfg.Fits ((k.nx + k.n) * k.d) → cfg.Fits (k.n * (k.dx + k.d)) →
          Sat A (g ((k.nx + k.n) * k.d, k.n * (k.dx + k.d))) P) →
        Sat A (Support.compareReduce cfg (k.nx + k.n) (k.dx + k.d) k.n k.d >>= g) P := by
      intro β g P hg
      refine Sat.bind (Q := fun r => r = ((k.nx + k.n) * k.d, k.n * (k.dx + k.d)) ∧
        cfg.Fits ((k.nx + k.n) * k.d) ∧ cfg.Fits (k.n * (k.dx + k.d))) ?_ ?_
      · unfold Support.compareReduce
        refine Sat.bind (Cfg.cmul_sat' h1) ?_
        rintro _ ⟨rfl, f1⟩
        refine Sat.bind (Cfg.cmul_sat' h2) ?_
        rintro _ ⟨rfl, f2⟩
        exact Sat.pure ⟨rfl, f1, f2⟩
      rintro _ ⟨rfl, f1, f2⟩
      exact hg f1 f2
    refine Sat.bind (Q := fun r => r = decide ((k.nx + k.n) * k.d < k.n * (k.dx + k.d)) ∧
      cfg.Fits ((k.nx + k.n) * k.d) ∧ cfg.Fits (k.n * (k.dx + k.d))) ?_ ?_
    · exact key _ _ fun f1 f2 => Sat.pure ⟨rfl, f1, f2⟩
    · rintro _ ⟨rfl, f1, f2⟩
      by_cases hlt : (k.nx + k.n) * k.d < k.n * (k.dx + k.d)
      · rw [decide_eq_true hlt, if_pos rfl]
        exact Sat.pure ⟨.inr (.inl rfl), fun h => by omega, fun _ => rfl, f1, f2⟩
      · rw [decide_eq_false hlt, if_neg (by decide)]
        refine Sat.bind (Q := fun r =>
          r = decide (k.n * (k.dx + k.d) < (k.nx + k.n) * k.d)) ?_ ?_
        · exact key _ _ fun f1 f2 => Sat.pure rfl
        · rintro _ rfl
          by_cases hgt : k.n * (k.dx + k.d) < (k.nx + k.n) * k.d
          · rw [decide_eq_true hgt, if_pos rfl]
            exact Sat.pure ⟨.inl rfl, fun _ => rfl, fun h => by omega, f1, f2⟩
          · rw [decide_eq_false hgt, if_neg (by decide)]
            exact Sat.pure ⟨.inr (.inr rfl), fun h => absurd h hgt, fun h => absurd h hlt, f1, f2⟩

/-- The value at the operand is one half: no symbol can be given. -/
theorem Halfway.attempt (h : k.Halfway p q V) (hp : 0 < p) (hq : p < q)
    (h1 : cfg.CheckSafe A ((k.nx + k.n) * k.d)) (h2 : cfg.CheckSafe A (k.n * (k.dx + k.d))) :
    Sat A (k.reductionAttempt cfg) (fun r => r = none ∧
      cfg.Fits ((k.nx + k.n) * k.d) ∧ cfg.Fits (k.n * (k.dx + k.d))) := by
  obtain ⟨hnx, hn, hdx, hd, le0, le1, -, -, hdet⟩ := id h
  have b1 : 2 * (k.nx + k.n) ≤ (k.nx + k.n) * k.d := by
    rw [mul_comm]; exact mul_le_mul_of_nonneg_left hd (by omega)
  have b2 : k.dx + k.d ≤ k.n * (k.dx + k.d) := le_mul_of_one_le_left (by omega) (by omega)
  have b3 : 2 * k.n ≤ (k.nx + k.n) * k.d := by omega
  have hdet' : (k.nx + k.n) * k.d ≠ k.n * (k.dx + k.d) := by
    intro e; apply hdet; linarith
  unfold reductionAttempt areSingularitiesOutsideDomain isZeroOutsideDomain isPoleOutsideDomain
  refine Sat.bind (Q := fun b => b = true) ?_ ?_
  · unfold Out.and
    refine Sat.bind (isDomainAmenable_pos hnx hn (by omega) h1) ?_
    rintro _ rfl
    rw [if_pos rfl]
    exact isDomainAmenable_pos hdx (by omega) b2 h2
  rintro _ rfl
  rw [if_pos rfl]
  unfold reductionEgest
  refine Sat.bind (imageExtremes_pos hnx hn hdx hd h1 h2) ?_
  rintro t ⟨-, tl, tg, f1, f2⟩
  -- the two ends, the smaller first
  obtain ⟨a, b, a', b', rfl, ha, hb, ha', hb', hab, hab', hlt, hgt, ba, ba'⟩ :
      ∃ a b a' b', t = (a, b, a', b') ∧ 1 ≤ a ∧ 1 ≤ b ∧ 1 ≤ a' ∧ 1 ≤ b' ∧ a ≤ b ∧ a' ≤ b' ∧
        2 * a < b ∧ b' < 2 * a' ∧ 2 * a ≤ (k.nx + k.n) * k.d ∧
        2 * a' ≤ (k.nx + k.n) * k.d := by
    rcases h.sides hp hq with ⟨s1, s2⟩ | ⟨s1, s2⟩
    · refine ⟨_, _, _, _, tl ?_, by omega, by omega, by omega, by omega, by omega, by omega,
        by omega, by omega, b3, b1⟩
      rcases lt_or_gt_of_ne hdet' with hc | hc
      · exfalso
        have e1 : k.n * 2 * (k.dx + k.d) ≤ k.d * (k.dx + k.d) :=
          mul_le_mul_of_nonneg_right (by omega) (by omega)
        have e2 : (k.dx + k.d) * k.d ≤ 2 * (k.nx + k.n) * k.d :=
          mul_le_mul_of_nonneg_right (by omega) (by omega)
        nlinarith
      · exact hc
    · refine ⟨_, _, _, _, tg ?_, by omega, by omega, by omega, by omega, by omega, by omega,
        by omega, by omega, b1, b3⟩
      rcases lt_or_gt_of_ne hdet' with hc | hc
      · exact hc
      · exfalso
        have e1 : k.d * (k.dx + k.d) ≤ k.n * 2 * (k.dx + k.d) :=
          mul_le_mul_of_nonneg_right (by omega) (by omega)
        have e2 : 2 * (k.nx + k.n) * k.d ≤ (k.dx + k.d) * k.d :=
          mul_le_mul_of_nonneg_right (by omega) (by omega)
        nlinarith
  simp only
  have l1 : Support.lessThanZero a b = false := by
    unfold Support.lessThanZero
    rw [if_pos (by omega)]; exact decide_eq_false (by omega)
  have l2 : Support.greaterThanOne a' b' = false := by
    unfold Support.greaterThanOne
    rw [if_pos (by omega)]; exact decide_eq_false (by omega)
  rw [l1, l2, if_neg (by decide), if_neg (by decide)]
  refine Sat.bind (Q := fun r => r = false) ?_ ?_
  · unfold Out.and
    refine Sat.bind (equalToOneHalf_sat (by omega) hb ba h1) ?_
    rintro _ rfl
    rw [decide_eq_false (by omega), if_neg (by decide)]
    exact Sat.pure rfl
  rintro _ rfl
  rw [if_neg (by decide)]
  refine Sat.bind (greaterThanOneHalf_sat (by omega) hb' ba' h1) ?_
  rintro _ rfl
  rw [decide_eq_true (by omega), if_neg (by decide)]
  refine Sat.bind (lessThanOneHalf_sat (by omega) hb ba h1) ?_
  rintro _ rfl
  rw [decide_eq_true (by omega), if_neg (by decide)]
  exact Sat.pure ⟨rfl, f1, f2⟩

/-- The cross products are bounded by the square of the numerator at the operand. -/
theorem Halfway.products (h : k.Halfway p q V) (hp : 0 < p) (hq : p < q) :
    0 ≤ (k.nx + k.n) * k.d ∧ (k.nx + k.n) * k.d ≤ V * V ∧
    0 ≤ k.n * (k.dx + k.d) ∧ k.n * (k.dx + k.d) ≤ V * V := by
  obtain ⟨hnx, hn, hdx, hd, le0, le1, num, den, hdet⟩ := id h
  have a1 : k.nx ≤ k.nx * p := le_mul_of_one_le_right hnx (by omega)
  have a2 : 2 * k.n ≤ k.n * q := by nlinarith
  have a3 : k.dx ≤ k.dx * p := le_mul_of_one_le_right hdx (by omega)
  have a4 : 2 * k.d ≤ k.d * q := by nlinarith
  have c1 : k.nx + k.n ≤ V := by omega
  have c2 : k.d ≤ V := by nlinarith
  refine ⟨mul_nonneg (by omega) (by omega), mul_le_mul c1 c2 (by omega) (by omega),
    mul_nonneg (by omega) (by omega), ?_⟩
  have c3 : 2 * k.n ≤ V := by omega
  have c4 : k.dx + k.d ≤ 2 * V := by omega
  nlinarith

theorem Halfway.amplify (h : k.Halfway p q V) :
    (⟨k.nx, 2 * k.n, k.dx, 2 * k.d⟩ : Coef4).Halfway (2 * p) q (2 * V) := by
  obtain ⟨hnx, hn, hdx, hd, le0, le1, num, den, hdet⟩ := h
  refine ⟨hnx, ?_, hdx, ?_, ?_, ?_, ?_, ?_, ?_⟩ <;> simp only
  · omega
  · omega
  · omega
  · omega
  · rw [← num]; ring
  · rw [← den]; ring
  · intro e; apply hdet; linarith

theorem Halfway.uncover (h : k.Halfway p q V) :
    (⟨k.n, k.nx + k.n, k.d, k.dx + k.d⟩ : Coef4).Halfway (q - p) p V := by
  obtain ⟨hnx, hn, hdx, hd, le0, le1, num, den, hdet⟩ := h
  refine ⟨by simp only; omega, by simp only; omega, by simp only; omega, by simp only; omega,
    by simp only; omega, by simp only; omega, ?_, ?_, ?_⟩ <;> simp only
  · rw [← num]; ring
  · rw [← den]; ring
  · intro e; apply hdet; linarith

theorem ingestAmplify_odd {w : Int} (hn : 0 ≤ k.n) (hd : 0 ≤ k.d) (hdx : 0 ≤ k.dx) (hodd : k.dx % 2 = 1)
    (h1 : 2 * k.n ≤ w) (h2 : 2 * k.d ≤ w) (hs : cfg.CheckSafe A w) :
    Sat A (k.ingestAmplify cfg) (fun k' => k' = ⟨k.nx, 2 * k.n, k.dx, 2 * k.d⟩) := by
  unfold ingestAmplify
  have ho : isOdd k.dx = true := by
    unfold isOdd
    rw [tmod_two_of_nonneg hdx, hodd]; rfl
  rw [ho, Bool.or_true, if_pos rfl]
  refine Sat.bind (Cfg.cmul_sat' (hs.le (by omega) (by omega))) ?_
  rintro _ ⟨rfl, _⟩
  refine Sat.bind (Cfg.cmul_sat' (hs.le (by omega) (by omega))) ?_
  rintro _ ⟨rfl, _⟩
  exact Sat.pure (by rw [mul_comm k.n, mul_comm k.d])

theorem ingestUncover_pos {w : Int} (h0 : 0 ≤ k.nx + k.n) (h1 : k.nx + k.n ≤ w)
    (h2 : 0 ≤ k.dx + k.d) (h3 : k.dx + k.d ≤ w) (hs : cfg.CheckSafe A w) :
    Sat A (k.ingestUncover cfg) (fun k' => k' = ⟨k.n, k.nx + k.n, k.d, k.dx + k.d⟩) := by
  unfold ingestUncover
  refine Sat.bind (Cfg.checked_sat' (hs.le h0 h1)) ?_
  rintro _ ⟨rfl, _⟩
  refine Sat.bind (Cfg.checked_sat' (hs.le h2 h3)) ?_
  rintro _ ⟨rfl, _⟩
  exact Sat.pure rfl

end Coef4

namespace Homographic

variable {k k' : Coef4} {c : Clog} {v : ℚ} {P : Egested × Homographic → Prop}

/-- Nothing to give, and the operand answers `Amplify`. -/
theorem egest_on_amplify (hd : Clog.Denotes cfg A c v) (hv : v < 1 / 2)
    (ha : Sat A (k.reductionAttempt cfg) (fun r => r = none))
    (hi : Sat A (k.ingestAmplify cfg) (fun k₁ => k₁ = k'))
    (hn : ∀ c', Clog.Denotes cfg A c' (2 * v) →
      Ev A (fun f j => Homographic.egest cfg (Clog.egest cfg f) j ⟨c', k'⟩) P) :
    Ev A (fun f j => Homographic.egest cfg (Clog.egest cfg f) j ⟨c, k⟩) P := by
  refine Ev.succ ?_
  simp only [Homographic.egest]
  refine Ev.bind_sat ha ?_
  rintro _ rfl
  simp only [Homographic.reductionIngest]
  refine Ev.bind (Q := fun r => ∃ c', r = (none, ⟨c', k'⟩) ∧ Clog.Denotes cfg A c' (2 * v)) ?_ ?_
  · refine Ev.bind hd.ev ?_
    rintro ⟨r, c'⟩ ⟨hr, hc⟩
    rw [sym_lt hv] at hr
    rw [next_lt hv] at hc
    simp only at hr
    subst hr
    refine Ev.bind_sat hi ?_
    rintro _ rfl
    exact Ev.pure ⟨c', rfl, hc⟩
  · rintro _ ⟨c', rfl, hc⟩
    exact hn c' hc

/-- Nothing to give, and the operand answers `Uncover`. -/
theorem egest_on_uncover (hd : Clog.Denotes cfg A c v) (hv : 1 / 2 < v)
    (ha : Sat A (k.reductionAttempt cfg) (fun r => r = none))
    (hi : Sat A (k.ingestUncover cfg) (fun k₁ => k₁ = k'))
    (hn : ∀ c', Clog.Denotes cfg A c' (1 / v - 1) →
      Ev A (fun f j => Homographic.egest cfg (Clog.egest cfg f) j ⟨c', k'⟩) P) :
    Ev A (fun f j => Homographic.egest cfg (Clog.egest cfg f) j ⟨c, k⟩) P := by
  refine Ev.succ ?_
  simp only [Homographic.egest]
  refine Ev.bind_sat ha ?_
  rintro _ rfl
  simp only [Homographic.reductionIngest]
  refine Ev.bind (Q := fun r => ∃ c', r = (none, ⟨c', k'⟩) ∧ Clog.Denotes cfg A c' (1 / v - 1))
    ?_ ?_
  · refine Ev.bind hd.ev ?_
    rintro ⟨r, c'⟩ ⟨hr, hc⟩
    rw [sym_gt hv] at hr
    rw [next_gt hv] at hc
    simp only at hr
    subst hr
    refine Ev.bind_sat hi ?_
    rintro _ rfl
    exact Ev.pure ⟨c', rfl, hc⟩
  · rintro _ ⟨c', rfl, hc⟩
    exact hn c' hc

/-- Nothing to give, and the operand ends: the rest is one half. -/
theorem egest_at_end {V : Int} (hd : Clog.Denotes cfg A c (1 / 2)) (hk : k.Halfway 1 2 (2 * V))
    (hev : k.nx % 2 = 0) (hev' : k.dx % 2 = 0) (hV : cfg.CheckSafe A (2 * V)) (hV0 : 1 ≤ V)
    (ha : Sat A (k.reductionAttempt cfg) (fun r => r = none ∧
      cfg.Fits ((k.nx + k.n) * k.d) ∧ cfg.Fits (k.n * (k.dx + k.d)))) :
    Ev A (fun f j => Homographic.egest cfg (Clog.egest cfg f) j ⟨c, k⟩)
      (fun r => cfg.Fits ((k.nx + k.n) * k.d) ∧ cfg.Fits (k.n * (k.dx + k.d)) ∧
        ∃ t h', r = (.err (.ratio t), h') ∧ t.OK cfg ∧ t.val = 1 / 2) := by
  obtain ⟨hnx, hn, hdx, hd', le0, le1, num, den, hdet⟩ := id hk
  refine Ev.succ ?_
  simp only [Homographic.egest]
  refine Ev.bind_sat ha ?_
  rintro _ ⟨rfl, f1, f2⟩
  simp only [Homographic.reductionIngest]
  refine Ev.bind (Q := fun r => ∃ t h', r = (some t, h') ∧ t.OK cfg ∧ t.val = 1 / 2) ?_ ?_
  · refine Ev.bind hd.ev ?_
    rintro ⟨r, c'⟩ ⟨hr, hc⟩
    rw [sym_half] at hr
    simp only at hr
    subst hr
    have o1 : isOdd k.nx = false := by
      unfold isOdd; rw [Coef4.tmod_two_of_nonneg hnx, hev]; rfl
    have o2 : isOdd k.dx = false := by
      unfold isOdd; rw [Coef4.tmod_two_of_nonneg hdx, hev']; rfl
    simp only [Coef4.valueAtOneHalf, o1, o2, Bool.or_self, Bool.false_eq_true, if_false]
    refine Ev.bind_sat (Q := fun r => r = (V, 2 * V) ∧ cfg.Fits (2 * V)) ?_ ?_
    · have e1 : k.n + half k.nx = V := by rw [Coef4.half_of_nonneg hnx]; omega
      have e2 : k.d + half k.dx = 2 * V := by rw [Coef4.half_of_nonneg hdx]; omega
      simp only [Cfg.cadd, e1, e2]
      refine Sat.bind (Cfg.checked_sat' (hV.le (by omega) (by omega))) ?_
      rintro _ ⟨rfl, _⟩
      refine Sat.bind (Cfg.checked_sat' hV) ?_
      rintro _ ⟨rfl, h⟩
      exact Sat.pure ⟨rfl, h⟩
    · rintro _ ⟨rfl, hf⟩
      simp only
      refine Ev.bind_sat (Ratio.newI_sat (A := A) (by omega) (cfg.fits_le hf (by omega) (by omega)) hf
        (.inl (cfg.fits_le hf (by omega) (by omega)))
        (.inl (cfg.fits_le hf (by omega) (by omega)))) ?_
      have hVq : (V : ℚ) ≠ 0 := by
        have : V ≠ 0 := by omega
        exact_mod_cast this
      have e : ((V : Int) : ℚ) / ((2 * V : Int) : ℚ) = 1 / 2 := by
        push_cast; field_simp
      rintro t (⟨s, rfl, hs⟩ | ⟨p, r, rfl, hr, hv⟩)
      · exfalso
        rw [e] at hs
        cases s <;> simp only [specialValue] at hs <;> norm_num at hs
      · rw [e] at hv
        have hm := hr.val_mem
        have h1 : 1 < 1 / r.val := by rw [lt_div_iff₀ hm.1]; linarith [hm.2]
        rcases p with _ | _ | _ | _ <;> simp only [applyPrimer] at hv
        · exact Ev.pure ⟨r, _, rfl, hr, hv.symm⟩
        · exfalso; linarith
        · exfalso; linarith [hm.1]
        · exfalso; linarith
  · rintro _ ⟨t, h', rfl, ht, hv⟩
    exact Ev.pure ⟨f1, f2, t, h', rfl, ht, hv⟩


/-- Reading `Amplify` while the coefficient of the operand in the denominator is odd. -/
theorem egest_amplifies (i : Nat) : ∀ {k : Coef4} {c : Clog} {p q V : Int},
    k.Halfway p q V → 0 < p → 2 ^ i * p < q → k.dx % 2 = 1 →
    Clog.Denotes cfg A c ((p : ℚ) / q) → cfg.CheckSafe A ((2 ^ i * V) * (2 ^ i * V)) →
    (∀ c', Clog.Denotes cfg A c' (((2 ^ i * p : Int) : ℚ) / q) →
      (⟨k.nx, 2 ^ i * k.n, k.dx, 2 ^ i * k.d⟩ : Coef4).Halfway (2 ^ i * p) q (2 ^ i * V) →
      Ev A (fun f j => Homographic.egest cfg (Clog.egest cfg f) j
        ⟨c', ⟨k.nx, 2 ^ i * k.n, k.dx, 2 ^ i * k.d⟩⟩) P) →
    Ev A (fun f j => Homographic.egest cfg (Clog.egest cfg f) j ⟨c, k⟩) P := by
  induction i with
  | zero =>
    intro k c p q V hk hp hq ho hd hs hn
    simp only [pow_zero, one_mul] at hn
    exact hn c hd hk
  | succ i ih =>
    intro k c p q V hk hp hq ho hd hs hn
    have hi : (1 : Int) ≤ 2 ^ i := one_le_pow₀ (by norm_num)
    have e : (2 : Int) ^ (i + 1) = 2 ^ i * 2 := pow_succ ..
    have hpq : 2 * p < q := by
      have : 2 * p ≤ 2 ^ (i + 1) * p := by
        rw [e]; nlinarith
      omega
    have hq0 : (0 : ℚ) < q := by
      have : 0 < q := by omega
      exact_mod_cast this
    have hv : (p : ℚ) / q < 1 / 2 := by
      rw [div_lt_div_iff₀ hq0 (by norm_num)]
      have : p * 2 < 1 * q := by omega
      exact_mod_cast this
    obtain ⟨z1, w1, z2, w2⟩ := hk.products hp (by omega)
    have hV : 1 ≤ V := by
      have := hk.num; have := hk.n; have := hk.nx
      nlinarith [mul_nonneg hk.nx hp.le]
    have hVV : V * V ≤ (2 ^ (i + 1) * V) * (2 ^ (i + 1) * V) := by
      have : V ≤ 2 ^ (i + 1) * V := by rw [e]; nlinarith
      exact mul_le_mul this this (by omega) (by omega)
    have d2 : 2 * k.d ≤ 2 * V := by
      have := hk.den
      have := mul_nonneg hk.dx hp.le
      have := hk.d
      nlinarith
    have n2 : k.n ≤ k.d := hk.le0
    have hVV2 : 2 * V ≤ (2 ^ (i + 1) * V) * (2 ^ (i + 1) * V) := by
      have : 2 * V ≤ 2 ^ (i + 1) * V := by rw [e]; nlinarith
      nlinarith
    have hn0 := hk.n
    have hd0 := hk.d
    refine egest_on_amplify hd hv
      ((hk.attempt hp (by omega) (hs.le z1 (by omega)) (hs.le z2 (by omega))).mono fun _ h => h.1)
      (Coef4.ingestAmplify_odd (by omega) (by omega) hk.dx ho (by omega) (by omega) hs) ?_
    intro c' hc'
    have ed : (2 : ℚ) * (p / q) = ((2 * p : Int) : ℚ) / q := by push_cast; ring
    rw [ed] at hc'
    have e1 : (2 : Int) ^ i * (2 * V) = 2 ^ (i + 1) * V := by rw [e]; ring
    have e2 : (2 : Int) ^ i * (2 * p) = 2 ^ (i + 1) * p := by rw [e]; ring
    have e3 : (2 : Int) ^ i * (2 * k.n) = 2 ^ (i + 1) * k.n := by rw [e]; ring
    have e4 : (2 : Int) ^ i * (2 * k.d) = 2 ^ (i + 1) * k.d := by rw [e]; ring
    refine ih hk.amplify (by omega) (by rw [e2]; exact hq) ho hc' (by rw [e1]; exact hs) ?_
    simp only [e1, e2, e3, e4]
    exact hn

/-- The state when the operand is left at `1/(2^r - 1)`. -/
structure Stage (k : Coef4) (r : Nat) (V : Int) : Prop where
  half : k.Halfway 1 (2 ^ r - 1) V
  d : k.d = 2 * k.n + 1
  lo : V ≤ k.n * 2 ^ r
  hi : k.n * 2 ^ r ≤ 2 * V

theorem Stage.odd {r : Nat} {V : Int} (h : Stage k (r + 1) V) : k.dx % 2 = 1 := by
  have h1 := h.half.den
  rw [h.d, pow_succ] at h1
  have : k.dx = 2 * (V - 2 ^ r * (2 * k.n + 1) + k.n) + 1 := by linarith
  omega

theorem Stage.pos {r : Nat} {V : Int} (h : Stage k (r + 1) V) : 1 ≤ V := by
  have h1 := h.half.num
  have h2 := h.half.nx
  have h3 := h.half.n
  have h4 : (1 : Int) ≤ 2 ^ r := one_le_pow₀ (by norm_num)
  have h5 : (2 : Int) ^ (r + 1) - 1 ≥ 1 := by rw [pow_succ]; omega
  have : 1 ≤ k.n * (2 ^ (r + 1) - 1) := by nlinarith
  omega

/-- From the operand `1/3`: `Amplify`, `Uncover`, the end. -/
theorem Stage.last {V : Int} (h : Stage k 2 V) (hV : 8 ≤ V)
    (hd : Clog.Denotes cfg A c (1 / 3)) (hs : cfg.CheckSafe A (2 * (V * V) - 1)) :
    Ev A (fun f j => Homographic.egest cfg (Clog.egest cfg f) j ⟨c, k⟩)
      (fun r => cfg.Fits (V * V) ∧ ∃ t h', r = (.err (.ratio t), h') ∧ t.OK cfg ∧ t.val = 1 / 2) := by
  obtain ⟨hk, hdd, hlo, hhi⟩ := id h
  have ho := h.odd
  have hVV : 8 * V ≤ V * V := mul_le_mul_of_nonneg_right hV (by omega)
  norm_num at hk hlo hhi
  obtain ⟨hnx, hn, hdx, hd', le0, le1, num, den, hdet⟩ := id hk
  obtain ⟨z1, w1, z2, w2⟩ := hk.products (by norm_num) (by norm_num)
  refine egest_on_amplify hd (by norm_num)
    ((hk.attempt (by norm_num) (by norm_num) (hs.le z1 (by omega))
      (hs.le z2 (by omega))).mono fun _ h => h.1)
    (Coef4.ingestAmplify_odd (by omega) (by omega) hdx ho (by omega) (by omega) hs) ?_
  intro c1 hc1
  have hk1 := hk.amplify
  -- at `2/3`
  have a1 : k.nx + 2 * k.n ≤ V := by omega
  have a2 : 3 * (2 * k.d) ≤ 4 * V := by omega
  have a3 : 3 * (2 * k.n) ≤ 2 * V := by omega
  have a4 : k.dx + 2 * k.d ≤ 2 * V := by omega
  have p1 : (k.nx + 2 * k.n) * (2 * k.d) ≤ 2 * (V * V) - 1 := by
    have : (k.nx + 2 * k.n) * (3 * (2 * k.d)) ≤ V * (4 * V) :=
      mul_le_mul a1 a2 (by omega) (by omega)
    nlinarith
  have p2 : 2 * k.n * (k.dx + 2 * k.d) ≤ 2 * (V * V) - 1 := by
    have : 3 * (2 * k.n) * (k.dx + 2 * k.d) ≤ 2 * V * (2 * V) :=
      mul_le_mul a3 a4 (by omega) (by omega)
    nlinarith
  refine egest_on_uncover hc1 (by norm_num)
    ((hk1.attempt (by norm_num) (by norm_num)
      (hs.le (mul_nonneg (by simp only; omega) (by simp only; omega)) p1)
      (hs.le (mul_nonneg (by simp only; omega) (by simp only; omega)) p2)).mono fun _ h => h.1)
    (Coef4.ingestUncover_pos (by simp only; omega) (by simp only; omega) (by simp only; omega)
      (by simp only; omega) hs) ?_
  intro c2 hc2
  have hk2 := hk1.uncover
  norm_num at hc2 hk2
  -- at `1/2`
  have q1 : (2 * k.n + (k.nx + 2 * k.n)) * (k.dx + 2 * k.d) =
      2 * (V * V) - 2 * (k.n * k.n) - V - k.n := by
    rw [show 2 * k.n + (k.nx + 2 * k.n) = V + k.n by linarith,
      show k.dx + 2 * k.d = 2 * V - (2 * k.n + 1) by linarith]
    ring
  have q2 : (k.nx + 2 * k.n) * (2 * k.d + (k.dx + 2 * k.d)) =
      2 * (V * V) - 2 * (k.n * k.n) + V - k.n := by
    rw [show k.nx + 2 * k.n = V - k.n by linarith,
      show 2 * k.d + (k.dx + 2 * k.d) = 2 * V + (2 * k.n + 1) by linarith]
    ring
  have b1 : V ≤ 2 * (k.n * k.n) := by nlinarith
  have b2 : 2 * (k.n * k.n) ≤ V * V := by nlinarith
  have b3 : k.n ≤ V := by omega
  have f : Sat A ((⟨2 * k.n, k.nx + 2 * k.n, 2 * k.d, k.dx + 2 * k.d⟩ : Coef4).reductionAttempt cfg)
      (fun r => r = none ∧
        cfg.Fits ((2 * k.n + (k.nx + 2 * k.n)) * (k.dx + 2 * k.d)) ∧
        cfg.Fits ((k.nx + 2 * k.n) * (2 * k.d + (k.dx + 2 * k.d)))) :=
    hk2.attempt (by norm_num) (by norm_num) (hs.le (by simp only [q1]; omega) (by simp only [q1]; omega))
      (hs.le (by simp only [q2]; omega) (by simp only [q2]; omega))
  refine (egest_at_end hc2 hk2 (by simp only; omega) (by simp only; omega)
    (hs.le (by omega) (by omega)) (by omega) f).mono ?_
  rintro r ⟨-, f2, hr⟩
  refine ⟨?_, hr⟩
  simp only [q2] at f2
  exact cfg.fits_le f2 (by omega) (by omega)

/-- How often the numerator doubles from `1/(2^(t+2) - 1)` to `1/3`. -/
def doublings : Nat → Nat
  | 0 => 0
  | t + 1 => doublings t + (t + 2)

/-- From the operand `1/(2^(t+2) - 1)` to the end. -/
theorem Stage.run (t : Nat) : ∀ {k : Coef4} {c : Clog} {V W : Int}, Stage k (t + 2) V → 8 ≤ W →
    W = 2 ^ doublings t * V → Clog.Denotes cfg A c (1 / (2 ^ (t + 2) - 1)) →
    cfg.CheckSafe A (2 * (W * W) - 1) →
    Ev A (fun f j => Homographic.egest cfg (Clog.egest cfg f) j ⟨c, k⟩)
      (fun r => cfg.Fits (W * W) ∧
        ∃ t h', r = (.err (.ratio t), h') ∧ t.OK cfg ∧ t.val = 1 / 2) := by
  induction t with
  | zero =>
    intro k c V W h hW hV hd hs
    simp only [doublings, pow_zero, one_mul] at hV
    subst hV
    exact h.last hW (by norm_num at hd ⊢; exact hd) hs
  | succ t ih =>
    intro k c V W h hW hV hd hs
    have hV0 := h.pos
    have e : (2 : Int) ^ (t + 3) = 2 * 2 ^ (t + 2) := by rw [pow_succ]; ring
    have e' : (2 : ℚ) ^ (t + 3) = 2 * 2 ^ (t + 2) := by rw [pow_succ]; ring
    have h4 : (4 : Int) ≤ 2 ^ (t + 2) := by
      have : (2 : Int) ^ 2 ≤ 2 ^ (t + 2) := pow_le_pow_right₀ (by norm_num) (by omega)
      linarith
    have h4q : (4 : ℚ) ≤ 2 ^ (t + 2) := by exact_mod_cast h4
    have hWW : 8 * W ≤ W * W := mul_le_mul_of_nonneg_right hW (by omega)
    have hle : 2 ^ (t + 2) * V ≤ W := by
      rw [hV, doublings]
      have : (2 : Int) ^ (t + 2) ≤ 2 ^ (doublings t + (t + 2)) :=
        pow_le_pow_right₀ (by norm_num) (by omega)
      exact mul_le_mul_of_nonneg_right this (by omega)
    have hpos : 0 ≤ 2 ^ (t + 2) * V := by positivity
    have hsq : (2 ^ (t + 2) * V) * (2 ^ (t + 2) * V) ≤ W * W :=
      mul_le_mul hle hle hpos (by omega)
    have hs1 : cfg.CheckSafe A ((2 ^ (t + 2) * V) * (2 ^ (t + 2) * V)) :=
      hs.le (mul_nonneg hpos hpos) (by omega)
    have hk := h.half
    rw [show t + 1 + 2 = t + 3 from rfl] at hk hd
    refine egest_amplifies (t + 2) hk one_pos (by rw [e]; omega) h.odd
      (by push_cast; exact hd) hs1 ?_
    intro c1 hc1 hk1
    rw [mul_one] at hc1 hk1
    push_cast at hc1
    -- at `2^(t+2) / (2^(t+3) - 1)`
    obtain ⟨z1, w1, z2, w2⟩ := hk1.products (by omega) (by rw [e]; omega)
    have n1 := hk1.n
    have nx1 := hk1.nx
    have d1 := hk1.d
    have dx1 := hk1.dx
    have num1 := hk1.num
    have den1 := hk1.den
    simp only at z1 w1 z2 w2 n1 nx1 d1 dx1 num1 den1
    have i1 : k.nx + 2 ^ (t + 2) * k.n ≤ 2 ^ (t + 2) * V := by
      have : k.nx ≤ k.nx * 2 ^ (t + 2) := le_mul_of_one_le_right nx1 (by omega)
      have : 2 ^ (t + 2) * k.n ≤ 2 ^ (t + 2) * k.n * (2 ^ (t + 3) - 1) :=
        le_mul_of_one_le_right (by omega) (by omega)
      omega
    have i2 : k.dx + 2 ^ (t + 2) * k.d ≤ 2 * (2 ^ (t + 2) * V) := by
      have : k.dx ≤ k.dx * 2 ^ (t + 2) := le_mul_of_one_le_right dx1 (by omega)
      have : 2 ^ (t + 2) * k.d ≤ 2 ^ (t + 2) * k.d * (2 ^ (t + 3) - 1) :=
        le_mul_of_one_le_right (by omega) (by omega)
      omega
    refine egest_on_uncover hc1 ?_
      ((hk1.attempt (by omega) (by rw [e]; omega) (hs1.le z1 w1) (hs1.le z2 w2)).mono fun _ h => h.1)
      (Coef4.ingestUncover_pos (w := 2 * (W * W) - 1) (by simp only; omega) (by simp only; omega)
        (by simp only; omega) (by simp only; omega) hs) ?_
    · rw [e', div_lt_div_iff₀ (by norm_num) (by linarith)]; linarith
    intro c2 hc2
    have hk2 := hk1.uncover
    simp only at hk2
    rw [show (2 : Int) ^ (t + 3) - 1 - 2 ^ (t + 2) = 2 ^ (t + 2) - 1 by rw [e]; ring] at hk2
    have ev2 : 1 / ((2 : ℚ) ^ (t + 2) / (2 ^ (t + 3) - 1)) - 1 = (2 ^ (t + 2) - 1) / 2 ^ (t + 2) := by
      rw [e', one_div_div]; field_simp; ring
    rw [ev2] at hc2
    -- at `(2^(t+2) - 1) / 2^(t+2)`
    obtain ⟨z3, w3, z4, w4⟩ := hk2.products (by omega) (by omega)
    have num2 := hk2.num
    have den2 := hk2.den
    simp only at z3 w3 z4 w4 num2 den2
    have i3 : 2 ^ (t + 2) * k.n + (k.nx + 2 ^ (t + 2) * k.n) ≤ 2 ^ (t + 2) * V := by
      have : 2 ^ (t + 2) * k.n ≤ 2 ^ (t + 2) * k.n * (2 ^ (t + 2) - 1) :=
        le_mul_of_one_le_right (by omega) (by omega)
      have : k.nx + 2 ^ (t + 2) * k.n ≤ (k.nx + 2 ^ (t + 2) * k.n) * 2 ^ (t + 2) :=
        le_mul_of_one_le_right (by omega) (by omega)
      omega
    have i4 : 2 ^ (t + 2) * k.d + (k.dx + 2 ^ (t + 2) * k.d) ≤ 2 * (2 ^ (t + 2) * V) := by
      have : 2 ^ (t + 2) * k.d ≤ 2 ^ (t + 2) * k.d * (2 ^ (t + 2) - 1) :=
        le_mul_of_one_le_right (by omega) (by omega)
      have : k.dx + 2 ^ (t + 2) * k.d ≤ (k.dx + 2 ^ (t + 2) * k.d) * 2 ^ (t + 2) :=
        le_mul_of_one_le_right (by omega) (by omega)
      omega
    refine egest_on_uncover hc2 ?_
      ((hk2.attempt (by omega) (by omega) (hs1.le z3 w3) (hs1.le z4 w4)).mono fun _ h => h.1)
      (Coef4.ingestUncover_pos (w := 2 * (W * W) - 1) (by simp only; omega) (by simp only; omega)
        (by simp only; omega) (by simp only; omega) hs) ?_
    · rw [div_lt_div_iff₀ (by norm_num) (by linarith)]; linarith
    intro c3 hc3
    have hk3 := hk2.uncover
    simp only at hk3
    rw [show (2 : Int) ^ (t + 2) - (2 ^ (t + 2) - 1) = 1 by ring] at hk3
    have ev3 : 1 / (((2 : ℚ) ^ (t + 2) - 1) / 2 ^ (t + 2)) - 1 = 1 / (2 ^ (t + 2) - 1) := by
      have : (2 : ℚ) ^ (t + 2) - 1 ≠ 0 := by linarith
      rw [one_div_div]; field_simp; ring
    rw [ev3] at hc3
    have hnum := h.half.num
    have hlo := h.lo
    have hhi := h.hi
    rw [show t + 1 + 2 = t + 3 from rfl, e] at hnum hlo hhi
    refine ih (V := 2 ^ (t + 2) * V) ⟨hk3, ?_, ?_, ?_⟩ hW ?_ hc3 hs
    · simp only
      have := h.half.den
      rw [show t + 1 + 2 = t + 3 from rfl, e, h.d] at this
      rw [h.d]
      linarith
    · simp only
      have : V ≤ 2 ^ (t + 2) * k.n + (k.nx + 2 ^ (t + 2) * k.n) := by
        have := h.half.n; linarith
      nlinarith
    · simp only
      have : 2 ^ (t + 2) * k.n + (k.nx + 2 ^ (t + 2) * k.n) ≤ 2 * V := by
        have := h.half.n; nlinarith
      nlinarith
    · rw [hV, doublings, pow_add]; ring

theorem doublings_eq (t : Nat) : 2 * doublings t = t * (t + 3) := by
  induction t with
  | zero => rfl
  | succ t ih => rw [doublings, mul_add, ih]; ring

/-- The numerator at the end, for `b = t + 3`. -/
theorem doublings_top (t : Nat) :
    2 * (doublings t + 2 * (t + 2)) + 4 = (t + 3) * (t + 3 + 1) := by
  rw [mul_add, doublings_eq]; ring

/-- Reading the last symbol: everything left of the operand is read. -/
theorem egest_power {c : Clog} {t : Nat} (hd : Clog.Denotes cfg A c (2 ^ (t + 2) / (2 ^ (t + 3) - 1)))
    (hf : cfg.Fits (2 ^ (t + 3)))
    (hs : cfg.CheckSafe A (2 * ((2 ^ (doublings t + 2 * (t + 2))) * (2 ^ (doublings t + 2 * (t + 2)))) - 1)) :
    Ev A (fun f j => Homographic.egest cfg (Clog.egest cfg f) j
        ⟨c, ⟨2 * 2 ^ (t + 1), 0, 1, 2 * 2 ^ (t + 1)⟩⟩)
      (fun r => cfg.Fits ((2 ^ (doublings t + 2 * (t + 2))) * (2 ^ (doublings t + 2 * (t + 2)))) ∧
        ∃ t h', r = (.err (.ratio t), h') ∧ t.OK cfg ∧ t.val = 1 / 2) := by
  have e : (2 : Int) ^ (t + 3) = 2 * 2 ^ (t + 2) := by rw [pow_succ]; ring
  have e1 : (2 : Int) * 2 ^ (t + 1) = 2 ^ (t + 2) := by rw [pow_succ 2 (t + 1)]; ring
  have e' : (2 : ℚ) ^ (t + 3) = 2 * 2 ^ (t + 2) := by rw [pow_succ]; ring
  have h4 : (4 : Int) ≤ 2 ^ (t + 2) := by
    have : (2 : Int) ^ 2 ≤ 2 ^ (t + 2) := pow_le_pow_right₀ (by norm_num) (by omega)
    linarith
  have h4q : (4 : ℚ) ≤ 2 ^ (t + 2) := by exact_mod_cast h4
  have h1 : (1 : Int) ≤ 2 ^ (t + 1) := one_le_pow₀ (by norm_num)
  have hatt := Coef4.reductionAttempt_sum (cfg := cfg) (N := 2 ^ (t + 1)) h1 (by rw [e1, ← e]; exact hf)
  rw [e1] at hatt ⊢
  have hf1 : cfg.CheckSafe A (2 ^ (t + 3)) := .inl hf
  refine egest_on_uncover hd ?_ (Sat.of_eq hatt |>.mono fun _ h => by rw [h])
    (Coef4.ingestUncover_pos (by simp only; omega) (by simp only; omega) (by simp only; omega)
      (by simp only; omega) hf1) ?_
  · rw [e', div_lt_div_iff₀ (by norm_num) (by linarith)]; linarith
  intro c1 hc1
  simp only [add_zero]
  have ev2 : 1 / ((2 : ℚ) ^ (t + 2) / (2 ^ (t + 3) - 1)) - 1 = (2 ^ (t + 2) - 1) / 2 ^ (t + 2) := by
    rw [e', one_div_div]; field_simp; ring
  rw [ev2] at hc1
  -- at `(2^(t+2) - 1) / 2^(t+2)`
  generalize hM : (2 : Int) ^ (t + 2) = M at *
  have hk1 : (⟨0, M, M, 1 + M⟩ : Coef4).Halfway (M - 1) M (M * M) := by
    refine ⟨?_, ?_, ?_, ?_, ?_, ?_, ?_, ?_, ?_⟩ <;> simp only
    · omega
    · omega
    · omega
    · omega
    · omega
    · omega
    · ring
    · ring
    · rw [zero_mul]; exact (mul_pos (by omega) (by omega)).ne
  have hW : M * M ≤ 2 ^ (doublings t + 2 * (t + 2)) := by
    rw [← hM, ← pow_add]
    exact pow_le_pow_right₀ (by norm_num) (by omega)
  have hM4 : 4 * M ≤ M * M := mul_le_mul_of_nonneg_right h4 (by omega)
  have hWe : (2 : Int) ^ (doublings t + 2 * (t + 2)) = 2 ^ doublings t * (M * M) := by
    rw [← hM, ← pow_add, ← pow_add]; congr 1; ring
  generalize hWW : (2 : Int) ^ (doublings t + 2 * (t + 2)) = W at *
  have hW8 : 8 * W ≤ W * W := mul_le_mul_of_nonneg_right (by omega) (by omega)
  obtain ⟨z3, w3, z4, w4⟩ := hk1.products (by omega) (by omega)
  have hsq : (M * M) * (M * M) ≤ W * W := mul_le_mul hW hW (by nlinarith) (by omega)
  refine egest_on_uncover hc1 ?_
    ((hk1.attempt (by omega) (by omega) (hs.le z3 (by omega)) (hs.le z4 (by omega))).mono
      fun _ h => h.1)
    (Coef4.ingestUncover_pos (w := 2 * (W * W) - 1) (by simp only; omega) (by simp only; omega)
      (by simp only; omega) (by simp only; omega) hs) ?_
  · rw [div_lt_div_iff₀ (by norm_num) (by linarith)]; linarith
  intro c2 hc2
  have hk2 := hk1.uncover
  simp only at hk2 ⊢
  rw [show M - (M - 1) = 1 by ring] at hk2
  have ev3 : 1 / (((2 : ℚ) ^ (t + 2) - 1) / 2 ^ (t + 2)) - 1 = 1 / (2 ^ (t + 2) - 1) := by
    have : (2 : ℚ) ^ (t + 2) - 1 ≠ 0 := by linarith
    rw [one_div_div]; field_simp; ring
  rw [ev3] at hc2
  refine Stage.run t (V := M * M) ⟨by rw [hM]; exact hk2, by simp only; ring, ?_, ?_⟩ (by omega)
    hWe hc2 hs
  · simp only [hM, zero_add]; omega
  · simp only [hM, zero_add]; omega

end Homographic

theorem Clog.Denotes.of_step {c : Clog} {x : ℚ} (h0 : 0 < x) (h1 : x < 1)
    (h : Ends A (fun f => Clog.egest cfg f c)
      (fun r => r.1 = sym x ∧ Clog.Denotes cfg A r.2 (next x))) : Clog.Denotes cfg A c x := by
  refine Clog.Denotes.coind (fun c' y => Clog.Denotes cfg A c' y ∨ (c' = c ∧ y = x)) ?_
    (.inr ⟨rfl, rfl⟩)
  rintro c' y (hd | ⟨rfl, rfl⟩)
  · exact ⟨hd.1, hd.2.1, hd.step.mono fun r hr => ⟨hr.1, .inl hr.2⟩⟩
  · exact ⟨h0, h1, h.mono fun r hr => ⟨hr.1, .inl hr.2⟩⟩

namespace Homographic

/-- The call for the last symbol. -/
theorem egest_power_ends {c : Clog} {t : Nat} (hd : Clog.Denotes cfg A c (2 ^ (t + 2) / (2 ^ (t + 3) - 1)))
    (hf : cfg.Fits (2 ^ (t + 3)))
    (hs : cfg.CheckSafe A (2 * ((2 ^ (doublings t + 2 * (t + 2))) * (2 ^ (doublings t + 2 * (t + 2)))) - 1)) :
    Ends A (fun f => Clog.egest cfg f
        (Homographic.box ⟨c, ⟨2 * 2 ^ (t + 1), 0, 1, 2 * 2 ^ (t + 1)⟩⟩))
      (fun r => cfg.Fits ((2 ^ (doublings t + 2 * (t + 2))) * (2 ^ (doublings t + 2 * (t + 2)))) ∧
        r.1 = none ∧ Clog.Denotes cfg A r.2 (1 / 2)) := by
  refine Clog.egest_ends (Q := fun r =>
    cfg.Fits ((2 ^ (doublings t + 2 * (t + 2))) * (2 ^ (doublings t + 2 * (t + 2)))) ∧
    ∃ t s, r = (.err (.ratio t), s) ∧ t.OK cfg ∧ t.val = 1 / 2) ?_ ?_ ?_
  · simp only [Strategy.egest, Homographic.box]
    refine Ev.bind (egest_power hd hf hs) ?_
    rintro _ ⟨hF, t, h', rfl, ht⟩
    exact Ev.pure ⟨hF, t, _, rfl, ht⟩
  · rintro red s' ⟨-, t, s, e, -⟩
    cases e
  · rintro new s' ⟨hF, t, s, e, ht, hv⟩
    cases e
    have := (Ratio.denotes (A := A) ht).step
    rw [hv] at this
    refine this.mono ?_
    rintro r ⟨h1, h2⟩
    rw [sym_half] at h1
    rw [next_half] at h2
    exact ⟨hF, h1, h2⟩

/-- Outcomes of adding one to `2^b - 1`, `b = t + 3`, in the state with `k + 1` symbols read and
given and `j` more `Amplify` to give. -/
theorem egests_power {t : Nat} (ht : t + 3 ≤ cfg.bits - 2) (j : Nat) : ∀ {c : Clog} {k : Nat},
    k + 1 + j = t + 2 → Clog.Denotes cfg NoPanic c (2 ^ (k + 1) / (2 ^ (t + 3) - 1)) →
    (2 * (doublings t + 2 * (t + 2)) + 1 ≤ cfg.bits - 1 →
      Clog.Denotes cfg NoPanic (Homographic.box ⟨c, ⟨2 * 2 ^ k, 0, 1, 2 * 2 ^ k⟩⟩)
        (1 / 2 ^ (j + 1))) ∧
    (cfg.bits - 1 ≤ 2 * (doublings t + 2 * (t + 2)) →
      (∃ c', Returns (fun f => Clog.egests cfg f j
          (Homographic.box ⟨c, ⟨2 * 2 ^ k, 0, 1, 2 * 2 ^ k⟩⟩))
        (List.replicate j (some .Amplify), c')) ∧
      Panics (fun f => Clog.egests cfg f (j + 1)
        (Homographic.box ⟨c, ⟨2 * 2 ^ k, 0, 1, 2 * 2 ^ k⟩⟩)) .unwrapNone) := by
  induction j with
  | zero =>
    intro c k hk hd
    obtain rfl : k = t + 1 := by omega
    have e0 : (2 : Int) ^ (doublings t + 2 * (t + 2)) * 2 ^ (doublings t + 2 * (t + 2)) =
        2 ^ (2 * (doublings t + 2 * (t + 2))) := by rw [← pow_add]; congr 1; ring
    constructor
    · intro hb
      refine Clog.Denotes.of_step (by norm_num) (by norm_num) ?_
      have hs : cfg.CheckSafe NoPanic
          (2 * ((2 ^ (doublings t + 2 * (t + 2))) * (2 ^ (doublings t + 2 * (t + 2)))) - 1) := by
        refine .inl ?_
        rw [e0, ← pow_succ']
        have h1 : (2 : Int) ^ (2 * (doublings t + 2 * (t + 2)) + 1) ≤ 2 ^ (cfg.bits - 1) :=
          pow_le_pow_right₀ (by norm_num) hb
        have h2 : (1 : Int) ≤ 2 ^ (2 * (doublings t + 2 * (t + 2)) + 1) :=
          one_le_pow₀ (by norm_num)
        constructor
        · simp only [Cfg.imin]; omega
        · simp only [Cfg.imax]; omega
      refine (egest_power_ends hd (cfg.fits_pow ht) hs).mono ?_
      rintro r ⟨-, h1, h2⟩
      have e : (1 : ℚ) / 2 ^ (0 + 1) = 1 / 2 := by norm_num
      rw [e, sym_half, next_half]
      exact ⟨h1, h2⟩
    · intro hb
      refine ⟨⟨_, 0, fun _ _ => rfl⟩, ?_⟩
      have hd' : Clog.Denotes cfg (fun p => p = .unwrapNone) c (2 ^ (t + 2) / (2 ^ (t + 3) - 1)) :=
        hd.weaken fun _ h => h.elim
      have := egest_power_ends hd' (cfg.fits_pow ht) (.inr rfl)
      rcases this with ⟨r, -, hF, -⟩ | ⟨p, ⟨f₀, hp⟩, rfl⟩
      · exfalso
        rw [e0] at hF
        exact cfg.not_fits_pow hb hF
      · refine ⟨f₀, fun f hf => ?_⟩
        simp only at hp
        simp only [egests_succ, hp f hf, panic_bind]
  | succ j ih =>
    intro c k hk hd
    have hi : (1 : Int) ≤ 2 ^ k := one_le_pow₀ (by norm_num)
    have hb := cfg.hbits
    have e2 : (2 : Int) * (2 * 2 ^ k) = 2 ^ (k + 2) := by rw [pow_succ, pow_succ]; ring
    have e3 : (2 : Int) * 2 ^ (k + 1) = 2 * (2 * 2 ^ k) := by rw [pow_succ]; ring
    have hf : cfg.Fits (2 * (2 * 2 ^ k) + 1) := by
      have hm : (2 : Int) ^ (k + 2) ≤ 2 ^ (cfg.bits - 2) :=
        pow_le_pow_right₀ (by norm_num) (by omega)
      have hm' : (2 : Int) ^ (cfg.bits - 1) = 2 * 2 ^ (cfg.bits - 2) := by
        rw [show cfg.bits - 1 = cfg.bits - 2 + 1 by omega, pow_succ]; ring
      have h16 : (2 : Int) ^ 14 ≤ 2 ^ (cfg.bits - 2) := pow_le_pow_right₀ (by norm_num) (by omega)
      constructor
      · simp only [Cfg.imin]; omega
      · simp only [Cfg.imax]; omega
    have hden : (2 : ℚ) ^ (k + 2) * 2 ≤ 2 ^ (t + 3) := by
      rw [← pow_succ]; exact pow_le_pow_right₀ (by norm_num) (by omega)
    have hpos : (4 : ℚ) ≤ 2 ^ (k + 2) := by
      have : (2 : ℚ) ^ 2 ≤ 2 ^ (k + 2) := pow_le_pow_right₀ (by norm_num) (by omega)
      linarith
    have ek : (2 : ℚ) ^ (k + 2) = 2 * 2 ^ (k + 1) := by rw [pow_succ]; ring
    have hv2 : (2 : ℚ) ^ (k + 1) / (2 ^ (t + 3) - 1) < 1 / 2 := by
      rw [div_lt_div_iff₀ (by linarith) (by norm_num)]; linarith
    obtain ⟨r, ht', h', rfl, c', rfl, hc⟩ := (Homographic.box_egest
      (P := fun h' => ∃ c', h' = ⟨c', ⟨2 * (2 * 2 ^ k), 0, 1, 2 * (2 * 2 ^ k)⟩⟩ ∧
        Clog.Denotes cfg NoPanic c' (2 * (2 ^ (k + 1) / (2 ^ (t + 3) - 1))))
      ((Homographic.egest_sum hd hv2 hi hf).mono (by
        rintro _ ⟨c', rfl, hc⟩; exact ⟨_, rfl, c', rfl, hc⟩))).returns
    rw [show (2 : ℚ) * (2 ^ (k + 1) / (2 ^ (t + 3) - 1)) = 2 ^ (k + 1 + 1) / (2 ^ (t + 3) - 1) by
      rw [ek]; ring] at hc
    have := ih (k := k + 1) (by omega) hc
    rw [e3] at this
    refine ⟨fun hg => ?_, fun hbad => ?_⟩
    · have hlt : (1 : ℚ) / 2 ^ (j + 1 + 1) < 1 / 2 := by
        have : (1 : ℚ) < 2 ^ (j + 1) := one_lt_pow₀ (by norm_num) (by omega)
        rw [pow_succ, div_lt_div_iff₀ (by positivity) (by norm_num)]; linarith
      refine Clog.Denotes.of_step (one_div_pos.2 (by positivity)) (by linarith) (.inl ⟨_, ht', ?_, ?_⟩)
      · rw [sym_lt hlt]
      · rw [next_lt hlt, show (2 : ℚ) * (1 / 2 ^ (j + 1 + 1)) = 1 / 2 ^ (j + 1) by
          rw [pow_succ 2 (j + 1)]; field_simp]
        exact this.1 hg
    · obtain ⟨⟨c'', h1⟩, h2⟩ := this.2 hbad
      exact ⟨⟨c'', Clog.egests_cons ht' h1⟩, Clog.egests_cons_panics ht' h2⟩

/-- From the start: `x/(x+1)` at `1/(2^b - 1)`, `b = t + 3`. -/
theorem egests_power_first {t : Nat} (ht : t + 3 ≤ cfg.bits - 2) {c : Clog}
    (hd : Clog.Denotes cfg NoPanic c (1 / (2 ^ (t + 3) - 1))) :
    (2 * (doublings t + 2 * (t + 2)) + 1 ≤ cfg.bits - 1 →
      Clog.Denotes cfg NoPanic (Homographic.box ⟨c, ⟨1, 0, 1, 1⟩⟩) (1 / 2 ^ (t + 3))) ∧
    (cfg.bits - 1 ≤ 2 * (doublings t + 2 * (t + 2)) →
      (∃ c', Returns (fun f => Clog.egests cfg f (t + 2) (Homographic.box ⟨c, ⟨1, 0, 1, 1⟩⟩))
        (List.replicate (t + 2) (some .Amplify), c')) ∧
      Panics (fun f => Clog.egests cfg f (t + 3) (Homographic.box ⟨c, ⟨1, 0, 1, 1⟩⟩))
        .unwrapNone) := by
  have h8 : (8 : ℚ) ≤ 2 ^ (t + 3) := by
    have : (2 : ℚ) ^ 3 ≤ 2 ^ (t + 3) := pow_le_pow_right₀ (by norm_num) (by omega)
    linarith
  have hv4 : 1 / ((2 : ℚ) ^ (t + 3) - 1) < 1 / 4 := by
    rw [div_lt_div_iff₀ (by linarith) (by norm_num)]; linarith
  obtain ⟨r, ha, h', rfl, rfl⟩ := (Homographic.box_egest (cfg := cfg) (A := NoPanic)
    (h := ⟨c, ⟨1, 0, 1, 1⟩⟩) (r := some .Amplify) (P := fun h' => h' = ⟨c, ⟨2, 0, 1, 1⟩⟩)
    (by
      refine Ev.succ ?_
      simp only [Homographic.egest, Coef4.reductionAttempt_ok (cfg := cfg) (k := ⟨1, 0, 1, 1⟩)
        (r := some (some .Amplify, ⟨2, 0, 1, 1⟩)) (by decide), ok_bind]
      exact Ev.pure ⟨_, rfl, rfl⟩)).returns
  obtain ⟨r, ha', h', rfl, c', rfl, hc⟩ := (Homographic.box_egest
    (P := fun h' => ∃ c', h' = ⟨c', ⟨4, 0, 1, 4⟩⟩ ∧
      Clog.Denotes cfg NoPanic c' (2 * (2 * (1 / (2 ^ (t + 3) - 1)))))
    ((Homographic.egest_sum_first hd hv4).mono (by
      rintro _ ⟨c', rfl, hc⟩; exact ⟨_, rfl, c', rfl, hc⟩))).returns
  rw [show (2 : ℚ) * (2 * (1 / (2 ^ (t + 3) - 1))) = 2 ^ (1 + 1) / (2 ^ (t + 3) - 1) by ring] at hc
  obtain ⟨hg, hb⟩ := egests_power ht t (k := 1) (by omega) hc
  have small : ∀ i, (1 : ℚ) / 2 ^ (i + 2) < 1 / 2 := fun i => by
    have : (1 : ℚ) ≤ 2 ^ i := one_le_pow₀ (by norm_num)
    rw [pow_add, div_lt_div_iff₀ (by positivity) (by norm_num)]; linarith
  have twice : ∀ i, (2 : ℚ) * (1 / 2 ^ (i + 1)) = 1 / 2 ^ i := fun i => by
    rw [pow_succ]; field_simp
  refine ⟨fun h => ?_, fun h => ?_⟩
  · have s1 := small (t + 1)
    have s2 := small t
    refine Clog.Denotes.of_step (one_div_pos.2 (by positivity)) (by linarith) (.inl ⟨_, ha, ?_, ?_⟩)
    · exact (sym_lt s1).symm
    · rw [next_lt s1, twice]
      refine Clog.Denotes.of_step (one_div_pos.2 (by positivity)) (by linarith) (.inl ⟨_, ha', ?_, ?_⟩)
      · exact (sym_lt s2).symm
      · rw [next_lt s2, twice]
        exact hg h
  · obtain ⟨⟨c'', h1⟩, h2⟩ := hb h
    exact ⟨⟨c'', Clog.egests_cons ha (Clog.egests_cons ha' h1)⟩,
      Clog.egests_cons_panics ha (Clog.egests_cons_panics ha' h2)⟩

end Homographic

end Clarith
