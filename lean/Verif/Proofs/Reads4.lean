import Verif.Proofs.HomographicNew
import Verif.Proofs.Fuel
import Verif.Proofs.Total

/-! # How much of its operand `homographic` reads -/

namespace Clarith

open Out Spec Support

namespace Spec

/-! ## Numbers with given first symbols -/

/-- The number whose first symbol is `r` and which leaves `s`. -/
def unread1 : Reduction → ℚ → ℚ
  | .Amplify, s => s / 2
  | .Uncover, s => 1 / (1 + s)

/-- The number whose first symbols are `l` and which leaves `s`. -/
def unread : List Reduction → ℚ → ℚ
  | [], s => s
  | r :: l, s => unread1 r (unread l s)

theorem unread1_mem (r : Reduction) {s : ℚ} (h0 : 0 < s) (h1 : s < 1) :
    0 < unread1 r s ∧ unread1 r s < 1 := by
  cases r
  · simp only [unread1]; constructor <;> linarith
  · simp only [unread1]
    exact ⟨by positivity, by rw [div_lt_one (by linarith)]; linarith⟩

theorem unread_mem (l : List Reduction) {s : ℚ} (h0 : 0 < s) (h1 : s < 1) :
    0 < unread l s ∧ unread l s < 1 := by
  induction l with
  | nil => exact ⟨h0, h1⟩
  | cons r l ih => exact unread1_mem r ih.1 ih.2

theorem sym_unread1 (r : Reduction) {s : ℚ} (h0 : 0 < s) (h1 : s < 1) :
    sym (unread1 r s) = some r ∧ next (unread1 r s) = s := by
  cases r
  · have : s / 2 < 1 / 2 := by linarith
    simp only [unread1, sym_lt this, next_lt this]
    exact ⟨trivial, by ring⟩
  · have : 1 / 2 < 1 / (1 + s) := by
      rw [div_lt_div_iff₀ (by norm_num) (by linarith)]; linarith
    simp only [unread1, sym_gt this, next_gt this]
    exact ⟨trivial, by rw [one_div_one_div]; ring⟩

theorem unread1_next {r : Reduction} {t : ℚ} (h : sym t = some r) :
    unread1 r (next t) = t := by
  cases r
  · have := sym_eq_amplify.1 h
    rw [next_lt this, unread1]; ring
  · have := sym_eq_uncover.1 h
    rw [next_gt this, unread1, add_sub_cancel, one_div_one_div]

/-- The numbers in (0,1) with first symbols `l` are the `unread l s`. -/
theorem symbols_iff_unread (l : List Reduction) (t : ℚ) :
    (0 < t ∧ t < 1 ∧ symbols l.length t = l.map some) ↔ ∃ s, 0 < s ∧ s < 1 ∧ t = unread l s := by
  induction l generalizing t with
  | nil => simp [symbols, unread]
  | cons r l ih =>
    simp only [List.length_cons, symbols_succ, List.map_cons, List.cons.injEq, unread]
    constructor
    · rintro ⟨h0, h1, hr, hl⟩
      have hm := next_mem h0 h1
      obtain ⟨s, s0, s1, hs⟩ := (ih (next t)).1 ⟨hm.1, hm.2, hl⟩
      exact ⟨s, s0, s1, by rw [← hs, unread1_next hr]⟩
    · rintro ⟨s, s0, s1, rfl⟩
      have hm := unread_mem l s0 s1
      have hm' := unread1_mem r hm.1 hm.2
      have e := sym_unread1 r hm.1 hm.2
      refine ⟨hm'.1, hm'.2, e.1, ?_⟩
      rw [e.2]
      exact ((ih (unread l s)).2 ⟨s, s0, s1, rfl⟩).2.2

theorem unread_append (l l' : List Reduction) (s : ℚ) :
    unread (l ++ l') s = unread l (unread l' s) := by
  induction l with
  | nil => rfl
  | cons r l ih => simp only [List.cons_append, unread, ih]

end Spec

/-! ## Linear functions on (0,1) -/

theorem lin_ends {a b : Int} (h : ∀ v : ℚ, 0 < v → v < 1 → 0 < a * v + b) :
    0 ≤ b ∧ 0 ≤ b + a := by
  have key : ∀ {a b : Int}, (∀ v : ℚ, 0 < v → v < 1 → 0 < a * v + b) → 0 ≤ b := by
    intro a b h
    by_contra hb
    have hb' : (b : ℚ) ≤ -1 := by exact_mod_cast (by omega : b ≤ -1)
    have ha : (0 : ℚ) ≤ |(a : ℚ)| := abs_nonneg _
    have hp : (0 : ℚ) < |(a : ℚ)| + 2 := by linarith
    have h1 := h (1 / (|(a : ℚ)| + 2)) (by positivity)
      (by rw [div_lt_one hp]; linarith)
    have h2 : (a : ℚ) * (1 / (|(a : ℚ)| + 2)) ≤ |(a : ℚ)| * (1 / (|(a : ℚ)| + 2)) :=
      mul_le_mul_of_nonneg_right (le_abs_self _) (by positivity)
    have h3 : |(a : ℚ)| * (1 / (|(a : ℚ)| + 2)) < 1 := by
      rw [mul_one_div, div_lt_one hp]; linarith
    linarith
  refine ⟨key h, ?_⟩
  refine key (a := -a) fun v h0 h1 => ?_
  have := h (1 - v) (by linarith) (by linarith)
  push_cast
  linarith

/-- A linear function without zeros in (0,1) has one sign there. -/
theorem lin_sign {a b : Int} (h : ∀ v : ℚ, 0 < v → v < 1 → (a : ℚ) * v + b ≠ 0) :
    (∀ v : ℚ, 0 < v → v < 1 → 0 < (a : ℚ) * v + b) ∨
      ∀ v : ℚ, 0 < v → v < 1 → 0 < ((-a : Int) : ℚ) * v + ((-b : Int) : ℚ) := by
  have root : ∀ {a b : Int}, b < 0 → 0 < b + a → ∃ v : ℚ, 0 < v ∧ v < 1 ∧ (a : ℚ) * v + b = 0 := by
    intro a b h1 h2
    have h1' : (b : ℚ) < 0 := by exact_mod_cast h1
    have h2' : (0 : ℚ) < b + a := by exact_mod_cast h2
    have ha : (0 : ℚ) < a := by linarith
    refine ⟨-b / a, div_pos (by linarith) ha, by rw [div_lt_one ha]; linarith, ?_⟩
    field_simp
    ring
  have z : ¬(b = 0 ∧ b + a = 0) := by
    rintro ⟨rfl, e⟩
    have : a = 0 := by omega
    subst this
    exact h (1 / 2) (by norm_num) (by norm_num) (by simp)
  have n1 : ¬(b < 0 ∧ 0 < b + a) := fun ⟨e1, e2⟩ => by
    obtain ⟨v, v0, v1, e⟩ := root e1 e2
    exact h v v0 v1 e
  have n2 : ¬(0 < b ∧ b + a < 0) := fun ⟨e1, e2⟩ => by
    obtain ⟨v, v0, v1, e⟩ := root (a := -a) (b := -b) (by omega) (by omega)
    refine h v v0 v1 ?_
    push_cast at e
    linarith
  rcases (by omega : (0 ≤ b ∧ 0 ≤ b + a) ∨ (0 ≤ -b ∧ 0 ≤ -b + -a)) with ⟨e1, e2⟩ | ⟨e1, e2⟩
  · exact .inl fun v v0 v1 => Coef4.lin_pos v0 v1 e1 e2 z
  · exact .inr fun v v0 v1 => Coef4.lin_pos v0 v1 e1 e2 (by omega)

namespace Coef4

/-- Primer `p` is the right one whatever the operand is. -/
def Sure (k : Coef4) (p : Option Primer) : Prop :=
  ∀ s, 0 < s → s < 1 → k.denAt s ≠ 0 ∧ ∃ u, 0 < u ∧ u < 1 ∧ k.val s = applyPrimer p u

/-- What the code needs in addition: the denominator does not tend to 0 from below. -/
def Tame (k : Coef4) : Prop :=
  (∀ s, 0 < s → s < 1 → 0 < k.denAt s) ∨ (k.d ≠ 0 ∧ k.d + k.dx ≠ 0)

/-- The conditions at the ends of the domain that make primer `p` the right one. -/
structure Decided (k : Coef4) (p : Option Primer) (σ : Int) : Prop where
  sgn : σ = 1 ∨ σ = -1 ∧ k.d ≠ 0 ∧ k.d + k.dx ≠ 0
  d0 : 0 ≤ σ * k.d
  d1 : 0 ≤ σ * (k.d + k.dx)
  num : match p with
    | none => 0 ≤ σ * k.n ∧ 0 ≤ σ * (k.n + k.nx) ∧ 0 ≤ σ * (k.d - k.n) ∧
        0 ≤ σ * (k.d + k.dx - (k.n + k.nx))
    | some .Turn => 0 ≤ σ * (k.n - k.d) ∧ 0 ≤ σ * (k.n + k.nx - (k.d + k.dx))
    | some .Reflect => 0 ≤ σ * (-k.n) ∧ 0 ≤ σ * (-(k.n + k.nx)) ∧ 0 ≤ σ * (k.d + k.n) ∧
        0 ≤ σ * (k.d + k.dx + (k.n + k.nx))
    | some .Ground => 0 ≤ σ * (-(k.n + k.d)) ∧ 0 ≤ σ * (-(k.n + k.nx + (k.d + k.dx)))

theorem opp_numAt (k : Coef4) (s : ℚ) : k.opp.numAt s = -k.numAt s := by
  simp only [opp, numAt]; push_cast; ring
theorem opp_denAt (k : Coef4) (s : ℚ) : k.opp.denAt s = -k.denAt s := by
  simp only [opp, denAt]; push_cast; ring

private theorem decided_pos {k : Coef4} {p : Option Primer}
    (hd : ∀ s, 0 < s → s < 1 → 0 < k.denAt s)
    (h : ∀ s, 0 < s → s < 1 → ∃ u, 0 < u ∧ u < 1 ∧ k.val s = applyPrimer p u) :
    0 ≤ k.d ∧ 0 ≤ k.d + k.dx ∧ (match p with
    | none => 0 ≤ k.n ∧ 0 ≤ k.n + k.nx ∧ 0 ≤ k.d - k.n ∧ 0 ≤ k.d + k.dx - (k.n + k.nx)
    | some .Turn => 0 ≤ k.n - k.d ∧ 0 ≤ k.n + k.nx - (k.d + k.dx)
    | some .Reflect => 0 ≤ -k.n ∧ 0 ≤ -(k.n + k.nx) ∧ 0 ≤ k.d + k.n ∧
        0 ≤ k.d + k.dx + (k.n + k.nx)
    | some .Ground => 0 ≤ -(k.n + k.d) ∧ 0 ≤ -(k.n + k.nx + (k.d + k.dx))) := by
  have e := lin_ends (a := k.dx) (b := k.d) hd
  refine ⟨e.1, e.2, ?_⟩
  rcases p with _ | p
  · have p1 := lin_ends (a := k.nx) (b := k.n) fun s s0 s1 => by
      obtain ⟨u, u0, u1, hu⟩ := h s s0 s1
      have := hd s s0 s1
      simp only [applyPrimer] at hu
      rw [val_eq, div_eq_iff this.ne'] at hu
      change 0 < k.numAt s
      rw [hu]; positivity
    have p2 := lin_ends (a := k.dx - k.nx) (b := k.d - k.n) fun s s0 s1 => by
      obtain ⟨u, u0, u1, hu⟩ := h s s0 s1
      have := hd s s0 s1
      simp only [applyPrimer] at hu
      rw [val_eq, div_eq_iff this.ne'] at hu
      have : k.numAt s < k.denAt s := by rw [hu]; nlinarith
      unfold numAt denAt at this
      push_cast
      linarith
    simp only
    omega
  · cases p
    · have p2 := lin_ends (a := k.nx - k.dx) (b := k.n - k.d) fun s s0 s1 => by
        obtain ⟨u, u0, u1, hu⟩ := h s s0 s1
        have := hd s s0 s1
        simp only [applyPrimer] at hu
        rw [val_eq, div_eq_iff this.ne'] at hu
        have : k.denAt s < k.numAt s := by
          rw [hu, one_div, ← div_eq_inv_mul, lt_div_iff₀ u0]; nlinarith
        unfold numAt denAt at this
        push_cast
        linarith
      simp only
      omega
    · have p1 := lin_ends (a := -k.nx) (b := -k.n) fun s s0 s1 => by
        obtain ⟨u, u0, u1, hu⟩ := h s s0 s1
        have := hd s s0 s1
        simp only [applyPrimer] at hu
        rw [val_eq, div_eq_iff this.ne'] at hu
        have : k.numAt s < 0 := by rw [hu]; nlinarith
        unfold numAt at this
        push_cast
        linarith
      have p2 := lin_ends (a := k.dx + k.nx) (b := k.d + k.n) fun s s0 s1 => by
        obtain ⟨u, u0, u1, hu⟩ := h s s0 s1
        have := hd s s0 s1
        simp only [applyPrimer] at hu
        rw [val_eq, div_eq_iff this.ne'] at hu
        have : 0 < k.denAt s + k.numAt s := by rw [hu]; nlinarith
        unfold numAt denAt at this
        push_cast
        linarith
      simp only
      omega
    · have p2 := lin_ends (a := -(k.nx + k.dx)) (b := -(k.n + k.d)) fun s s0 s1 => by
        obtain ⟨u, u0, u1, hu⟩ := h s s0 s1
        have := hd s s0 s1
        simp only [applyPrimer] at hu
        rw [val_eq, div_eq_iff this.ne'] at hu
        have : k.numAt s + k.denAt s < 0 := by
          have h2 : k.denAt s < k.denAt s / u := by rw [lt_div_iff₀ u0]; nlinarith
          have h3 : k.numAt s = -(k.denAt s / u) := by rw [hu]; ring
          linarith
        unfold numAt denAt at this
        push_cast
        linarith
      simp only
      omega

theorem Sure.decided {k : Coef4} {p : Option Primer} (h : k.Sure p) (ht : k.Tame) :
    ∃ σ, k.Decided p σ := by
  rcases lin_sign (a := k.dx) (b := k.d) fun s s0 s1 => (h s s0 s1).1 with hd | hd
  · obtain ⟨e1, e2, e3⟩ := decided_pos (k := k) (p := p) hd fun s s0 s1 => (h s s0 s1).2
    refine ⟨1, .inl rfl, by omega, by omega, ?_⟩
    rcases p with _ | p
    · simp only [one_mul] at e3 ⊢; exact e3
    · cases p <;> simp only [one_mul] at e3 ⊢ <;> exact e3
  · have ht' : k.d ≠ 0 ∧ k.d + k.dx ≠ 0 := by
      rcases ht with ht | ht
      · have h1 := hd (1 / 2) (by norm_num) (by norm_num)
        have h2 := ht (1 / 2) (by norm_num) (by norm_num)
        unfold denAt at h2
        push_cast at h1
        linarith
      · exact ht
    obtain ⟨e1, e2, e3⟩ := decided_pos (k := k.opp) (p := p) hd fun s s0 s1 => by
      rw [val_opp]; exact (h s s0 s1).2
    refine ⟨-1, .inr ⟨rfl, ht'⟩, by simp only [opp] at e1; omega, by simp only [opp] at e2; omega, ?_⟩
    rcases p with _ | p
    · simp only [opp] at e3 ⊢; omega
    · cases p <;> simp only [opp] at e3 ⊢ <;> omega

theorem Decided.amen {k : Coef4} {p σ} (h : k.Decided p σ) (hdet : k.det ≠ 0) :
    Amen k.n (k.n + k.nx) ∧ Amen k.d (k.d + k.dx) := by
  obtain ⟨h1, h2, h3, h4⟩ := h
  have z : ¬(k.n = 0 ∧ k.d = 0) := by rintro ⟨e1, e2⟩; simp [det, e1, e2] at hdet
  unfold Amen
  rcases h1 with rfl | ⟨rfl, h5, h6⟩ <;> rcases p with _ | p <;> (try cases p) <;>
    simp only [] at h4 <;> omega

private theorem special_det {k : Coef4} {p0 q0 p1 q1 : Int} {mu : Int}
    (hmu : mu = 0 ∨ mu = -1 ∨ mu = 1) (hn0 : Normed k.n k.d p0 q0) (hn1 : Normed (k.n + k.nx) (k.d + k.dx) p1 q1)
    (h0 : p0 = mu * q0) (h1 : p1 = mu * q1) : k.det = 0 := by
  have e0 : k.n = mu * k.d := by
    unfold Normed at hn0
    rcases hmu with rfl | rfl | rfl <;> omega
  have e1 : k.n + k.nx = mu * (k.d + k.dx) := by
    unfold Normed at hn1
    rcases hmu with rfl | rfl | rfl <;> omega
  have e2 : k.nx = mu * k.dx := by linarith
  unfold det
  rw [e0, e2]; ring

/-- When a primer is the right one whatever the operand, `primer_egest` finds one. -/
theorem primerEgest_some {cfg : Cfg} {A M} {k : Coef4} (hs : cfg.SafeUpTo A M)
    (hb : k.Bounded M) (hdet : k.det ≠ 0) {p : Option Primer} {σ : Int} (hp : k.Decided p σ) :
    Sat A (k.primerEgest cfg) (fun r => r ≠ none) := by
  obtain ⟨hN, hD⟩ := hp.amen hdet
  have hb' := hb
  obtain ⟨b1, b2, b3, b4, b5, b6, b7, b8, b9⟩ := hb'
  unfold primerEgest
  refine Sat.bind (imageExtremes_sat hs hb) ?_
  rintro t ⟨hex, c1, c2, c3, c4, c5, c6, c7, c8⟩
  rcases hex with ⟨hz, rfl⟩ | ⟨z0, z1, p0, q0, p1, q1, hn0, hn1, hmm⟩
  · exfalso
    apply hdet
    unfold det
    rcases hz with ⟨e1, e2⟩ | ⟨e1, e2⟩
    · rw [e1, e2]; ring
    · rw [show k.nx = -k.n by omega, show k.dx = -k.d by omega]; ring
  have mm : MinMax t p0 q0 p1 q1 := by
    apply hmm
    unfold Amen at hN
    unfold Normed at hn0 hn1
    omega
  have nz : ¬(t.1 = 0 ∧ t.2.1 = 0) := fun h => mm.nmin h.2 h.1
  have mx := fun mu => mm.max_le 1 mu (by norm_num)
  have mn := fun mu => mm.le_min 1 mu (by norm_num)
  have dmin := mm.dmin
  have dmax := mm.dmax
  obtain ⟨nmin, dmn, nmax, dmx⟩ := t
  simp only at *
  rw [if_neg nz]
  have sx : cfg.Safe A (-dmx) := hs.lin (by omega) (by omega)
  have sn : cfg.Safe A (-dmn) := hs.lin (by omega) (by omega)
  have s1 : cfg.Safe A (-k.dx) := hs.lin (by omega) (by omega)
  have s2 : cfg.Safe A (-k.d) := hs.lin (by omega) (by omega)
  have s3 : cfg.Safe A (-k.nx) := hs.lin (by omega) (by omega)
  have s4 : cfg.Safe A (-k.n) := hs.lin (by omega) (by omega)
  have m1 := mx (-1); have m2 := mx 0; have m3 := mx 1
  have l1 := mn (-1); have l2 := mn 0; have l3 := mn 1
  simp only [one_mul, zero_mul, neg_mul] at m1 m2 m3 l1 l2 l3
  clear mx mn hmm
  refine Sat.bind (Sat.andAlso (p := nmin = nmax ∧ dmn = dmx) (Sat.pure (by simp [areSame]))
    fun _ => isSpecial_sat sn) ?_
  intro same hsame
  by_cases hsm : same = true
  · exfalso
    obtain ⟨⟨e1, e2⟩, e3, e4⟩ := hsame.1 hsm
    subst e1 e2
    rcases e4 with e | e | e
    · exact hdet (special_det (mu := 0) (.inl rfl) hn0 hn1 (by omega) (by omega))
    · exact hdet (special_det (mu := -1) (.inr (.inl rfl)) hn0 hn1 (by omega) (by omega))
    · exact hdet (special_det (mu := 1) (.inr (.inr rfl)) hn0 hn1 (by omega) (by omega))
  rw [if_neg hsm]
  refine Sat.bind (greaterThanMinusOne_sat dmax sx) ?_
  intro b hb
  by_cases g1 : b = false
  · rw [if_pos (by simp [g1])]
    refine Sat.bind (Q := fun _ => True) ?_ ?_
    · unfold ground
      refine Sat.bind (Cfg.neg_sat s1) ?_
      rintro _ ⟨rfl, _⟩
      refine Sat.bind (Cfg.neg_sat s2) ?_
      rintro _ ⟨rfl, _⟩
      exact Sat.pure trivial
    · intro _ _
      exact Sat.pure (by simp)
  rw [if_neg (by simpa using g1)]
  by_cases g2 : lessThanOne nmin dmn = false
  · rw [if_pos (by simp [g2])]
    exact Sat.pure (by simp)
  rw [if_neg (by simpa using g2)]
  refine Sat.bind (Sat.andAlso
    (Sat.notB (lessThanMinusOne_sat dmin sn))
    fun _ => (Sat.pure (P := fun r => r = true ↔ nmax ≤ 0) (by simp [greaterThanZero_eq dmax]))) ?_
  intro neg hneg
  by_cases g3 : neg = true
  · rw [if_pos g3]
    refine Sat.bind (Q := fun _ => True) ?_ ?_
    · unfold reflect
      refine Sat.bind (Cfg.neg_sat s3) ?_
      rintro _ ⟨rfl, _⟩
      refine Sat.bind (Cfg.neg_sat s4) ?_
      rintro _ ⟨rfl, _⟩
      exact Sat.pure trivial
    · intro _ _
      exact Sat.pure (by simp)
  rw [if_neg g3]
  by_cases g4 : (!lessThanZero nmin dmn && !greaterThanOne nmax dmx) = true
  · rw [if_pos g4]
    exact Sat.pure (by simp)
  · exfalso
    rw [lessThanOne_eq dmin] at g2
    simp only [Bool.and_eq_true, Bool.not_eq_true', lessThanZero_eq dmin, greaterThanOne_eq dmax] at g4
    rw [hneg] at g3
    rw [hb] at g1
    rw [m1] at g1
    rw [l3] at g2
    rw [l1, m2] at g3
    rw [l2, m3] at g4
    obtain ⟨k1, k2, k3, k4⟩ := hp
    clear hneg hb m1 m2 m3 l1 l2 l3 hsame s1 s2 s3 s4 sx sn c1 c2 c3 c4 c5 c6 c7 c8 mm hs hdet hN hD
    unfold Normed at hn0 hn1
    rcases k1 with rfl | ⟨rfl, k5, k6⟩ <;> rcases p with _ | p <;> (try cases p) <;>
      simp only [one_mul] at k4 <;> omega

theorem primerAttempt_some {cfg : Cfg} {A M} {k : Coef4} (hs : cfg.SafeUpTo A M)
    (hb : k.Bounded M) (hdet : k.det ≠ 0) {p : Option Primer} {σ : Int} (hp : k.Decided p σ) :
    Sat A (k.primerAttempt cfg) (fun r => r ≠ none) := by
  unfold primerAttempt
  refine Sat.bind (areSingularitiesOutsideDomain_sat hs hb) ?_
  intro b hb'
  rw [if_pos (hb'.2 (hp.amen hdet))]
  exact primerEgest_some hs hb hdet hp

private theorem normed_side {n d p q s : Int} (h : Normed n d p q)
    (hs : (s = 1 ∧ 0 < d ∧ 0 ≤ n ∧ n ≤ d) ∨ (s = -1 ∧ d < 0 ∧ n ≤ 0 ∧ d ≤ n)) :
    0 ≤ p ∧ p ≤ q ∧ (2 * p ≤ q ↔ 2 * (s * n) ≤ s * d) ∧ (q ≤ 2 * p ↔ s * d ≤ 2 * (s * n)) := by
  unfold Normed at h
  rcases hs with ⟨rfl, h1⟩ | ⟨rfl, h1⟩ <;> omega

/-- When the next symbol is the same whatever the operand, `reduction_egest` finds it. -/
theorem reductionEgest_some {cfg : Cfg} {A M} {k : Coef4} (hs : cfg.SafeUpTo A M)
    (hb : k.Bounded M) {s : Int} (hsgn : (s = 1 ∧ PosW k) ∨ (s = -1 ∧ PosW k.opp))
    (hside : (2 * (s * k.n) ≤ s * k.d ∧ 2 * (s * (k.n + k.nx)) ≤ s * (k.d + k.dx)) ∨
      (s * k.d ≤ 2 * (s * k.n) ∧ s * (k.d + k.dx) ≤ 2 * (s * (k.n + k.nx)))) :
    Sat A (k.reductionEgest cfg) (fun r => r ≠ none) := by
  have hb' := hb
  obtain ⟨b1, b2, b3, b4, b5, b6, b7, b8, b9⟩ := hb'
  have v1 : cfg.Safe A (k.nx * 2) := hs.lin (by omega) (by omega)
  have v2 : cfg.Safe A (k.n * 2) := hs.lin (by omega) (by omega)
  have v3 : cfg.Safe A (k.dx - k.nx) := hs.lin (by omega) (by omega)
  have v4 : cfg.Safe A (k.d - k.n) := hs.lin (by omega) (by omega)
  unfold reductionEgest
  refine Sat.bind (imageExtremes_sat hs hb) ?_
  rintro t ⟨hex, c1, c2, c3, c4, c5, c6, c7, c8⟩
  rcases hex with ⟨hz, rfl⟩ | ⟨z0, z1, p0, q0, p1, q1, hn0, hn1, hmm⟩
  · exfalso
    unfold PosW opp at hsgn
    simp only at hsgn
    omega
  have mm : MinMax t p0 q0 p1 q1 := by
    apply hmm
    unfold PosW opp at hsgn
    unfold Normed at hn0 hn1
    simp only at hsgn
    omega
  have e0 := normed_side (s := s) hn0 (by
    unfold PosW opp at hsgn
    simp only at hsgn
    omega)
  have e1 := normed_side (s := s) hn1 (by
    unfold PosW opp at hsgn
    simp only at hsgn
    omega)
  have rep : (0 ≤ p0 ∧ p0 ≤ q0 ∧ 0 ≤ p1 ∧ p1 ≤ q1) ∧
      ((2 * p0 ≤ q0 ∧ 2 * p1 ≤ q1) ∨ (q0 ≤ 2 * p0 ∧ q1 ≤ 2 * p1)) := by
    refine ⟨⟨e0.1, e0.2.1, e1.1, e1.2.1⟩, ?_⟩
    rw [e0.2.2.1, e0.2.2.2, e1.2.2.1, e1.2.2.2]
    exact hside
  clear e0 e1
  obtain ⟨⟨r1, r2, r3, r4⟩, side⟩ := rep
  have m1 := mm.max_le 1 1 (by norm_num)
  have m2 := mm.max_le 2 1 (by norm_num)
  have l1 := mm.le_min 1 0 (by norm_num)
  have l2 := mm.le_min 2 1 (by norm_num)
  have dmin := mm.dmin
  have dmax := mm.dmax
  obtain ⟨nmin, dmn, nmax, dmx⟩ := t
  simp only [one_mul, zero_mul] at *
  rw [if_neg (by simpa using (lessThanZero_eq dmin).2 (l1.2 ⟨r1, r3⟩)),
    if_neg (by simpa using (greaterThanOne_eq dmax).2 (m1.2 ⟨r2, r4⟩))]
  have sN : cfg.Safe A (nmin * 2) := hs.lin (by omega) (by omega)
  have sX : cfg.Safe A (nmax * 2) := hs.lin (by omega) (by omega)
  refine Sat.bind (Sat.andAlso (equalToOneHalf_sat sN) fun _ => equalToOneHalf_sat sX) ?_
  intro both hboth
  by_cases hbo : both = true
  · rw [if_pos hbo]
    exact Sat.pure (by simp)
  rw [if_neg hbo]
  refine Sat.bind (greaterThanOneHalf_sat dmax sX) ?_
  intro b hb
  by_cases g1 : b = false
  · rw [if_pos (by simp [g1])]
    refine Sat.bind (amplify_sat v1 v2) ?_
    intro _ _
    exact Sat.pure (by simp)
  rw [if_neg (by simpa using g1)]
  refine Sat.bind (lessThanOneHalf_sat dmin sN) ?_
  intro b' hb'
  by_cases g2 : b' = false
  · rw [if_pos (by simp [g2])]
    refine Sat.bind (Q := fun _ => True) ?_ ?_
    · unfold uncover
      refine Sat.bind (Cfg.csub_sat v3) ?_
      rintro _ ⟨rfl, _⟩
      refine Sat.bind (Cfg.csub_sat v4) ?_
      rintro _ ⟨rfl, _⟩
      exact Sat.pure trivial
    · intro _ _
      exact Sat.pure (by simp)
  · exfalso
    rw [hb] at g1
    rw [hb'] at g2
    rcases side with h | h
    · exact g1 (m2.2 h)
    · exact g2 (l2.2 h)

theorem PosW.amen {k : Coef4} (h : PosW k) : Amen k.n (k.n + k.nx) ∧ Amen k.d (k.d + k.dx) := by
  unfold PosW at h
  unfold Amen
  omega

theorem InvW.amen {k : Coef4} (h : InvW k) : Amen k.n (k.n + k.nx) ∧ Amen k.d (k.d + k.dx) := by
  rcases h with h | h
  · exact h.amen
  · have := h.amen
    unfold Amen opp at *
    simp only at this
    omega

theorem reductionAttempt_some {cfg : Cfg} {A M} {k : Coef4} (hs : cfg.SafeUpTo A M)
    (hb : k.Bounded M) {s : Int} (hsgn : (s = 1 ∧ PosW k) ∨ (s = -1 ∧ PosW k.opp))
    (hside : (2 * (s * k.n) ≤ s * k.d ∧ 2 * (s * (k.n + k.nx)) ≤ s * (k.d + k.dx)) ∨
      (s * k.d ≤ 2 * (s * k.n) ∧ s * (k.d + k.dx) ≤ 2 * (s * (k.n + k.nx)))) :
    Sat A (k.reductionAttempt cfg) (fun r => r ≠ none) := by
  unfold reductionAttempt
  refine Sat.bind (areSingularitiesOutsideDomain_sat hs hb) ?_
  intro b hb'
  have hI : InvW k := by
    rcases hsgn with ⟨_, h⟩ | ⟨_, h⟩
    · exact .inl h
    · exact .inr h
  rw [if_pos (hb'.2 hI.amen)]
  exact reductionEgest_some hs hb hsgn hside

theorem val_inj {k : Coef4} (hdet : k.det ≠ 0) {s t : ℚ} (hs : k.denAt s ≠ 0) (ht : k.denAt t ≠ 0)
    (h : k.val s = k.val t) : s = t := by
  rw [val_eq, val_eq, div_eq_div_iff hs ht] at h
  unfold numAt denAt at h
  have hdet' : (k.nx * k.d - k.n * k.dx : ℚ) ≠ 0 := by
    unfold det at hdet
    exact_mod_cast hdet
  have : (k.nx * k.d - k.n * k.dx : ℚ) * (s - t) = 0 := by linear_combination h
  have := (mul_eq_zero.1 this).resolve_left hdet'
  linarith

theorem det_opp (k : Coef4) : k.opp.det = k.det := by
  simp only [det, opp]; ring

/-- When the next symbol is the same whatever the operand, the ends of the image are on one
side of 1/2. -/
theorem Inv.side {k : Coef4} (hI : k.Inv) (hdet : k.det ≠ 0) {r : Option Reduction}
    (h : ∀ s, 0 < s → s < 1 → sym (k.val s) = r) :
    ∃ s : Int, ((s = 1 ∧ PosW k) ∨ (s = -1 ∧ PosW k.opp)) ∧
      ((2 * (s * k.n) ≤ s * k.d ∧ 2 * (s * (k.n + k.nx)) ≤ s * (k.d + k.dx)) ∨
      (s * k.d ≤ 2 * (s * k.n) ∧ s * (k.d + k.dx) ≤ 2 * (s * (k.n + k.nx)))) := by
  have key : ∀ {k : Coef4}, PosW k → k.det ≠ 0 → (∀ s, 0 < s → s < 1 → sym (k.val s) = r) →
      (2 * k.n ≤ k.d ∧ 2 * (k.n + k.nx) ≤ k.d + k.dx) ∨
      (k.d ≤ 2 * k.n ∧ k.d + k.dx ≤ 2 * (k.n + k.nx)) := by
    intro k hp hdet h
    rcases r with _ | r
    · exfalso
      have h1 := sym_eq_none.1 (h (1 / 3) (by norm_num) (by norm_num))
      have h2 := sym_eq_none.1 (h (1 / 2) (by norm_num) (by norm_num))
      have := val_inj hdet (hp.den_pos (v := 1 / 3) (by norm_num) (by norm_num)).ne'
        (hp.den_pos (v := 1 / 2) (by norm_num) (by norm_num)).ne' (h1.trans h2.symm)
      norm_num at this
    · cases r
      · have := lin_ends (a := k.dx - 2 * k.nx) (b := k.d - 2 * k.n) fun s s0 s1 => by
          have h1 := sym_eq_amplify.1 (h s s0 s1)
          rw [val_eq, div_lt_div_iff₀ (hp.den_pos s0 s1) (by norm_num)] at h1
          unfold numAt denAt at h1
          push_cast
          linarith
        omega
      · have := lin_ends (a := 2 * k.nx - k.dx) (b := 2 * k.n - k.d) fun s s0 s1 => by
          have h1 := sym_eq_uncover.1 (h s s0 s1)
          rw [val_eq, div_lt_div_iff₀ (by norm_num) (hp.den_pos s0 s1)] at h1
          unfold numAt denAt at h1
          push_cast
          linarith
        omega
  rcases hI.1 with hp | hp
  · refine ⟨1, .inl ⟨rfl, hp⟩, ?_⟩
    have := key hp hdet h
    omega
  · refine ⟨-1, .inr ⟨rfl, hp⟩, ?_⟩
    have := key hp (by rwa [det_opp])
      fun s s0 s1 => by rw [val_opp]; exact h s s0 s1
    simp only [Coef4.opp] at this
    omega

/-! ## Reading symbols -/

/-- `k'` is `k` after reading `l`. -/
structure After (k : Coef4) (l : List Reduction) (k' : Coef4) : Prop where
  det : k'.det ≠ 0
  at_ : ∀ s, 0 < s → s < 1 → ∃ c : ℚ, 0 < c ∧ k'.numAt s = c * k.numAt (unread l s) ∧
    k'.denAt s = c * k.denAt (unread l s)

theorem After.nil {k : Coef4} (h : k.det ≠ 0) : k.After [] k :=
  ⟨h, fun _ _ _ => ⟨1, one_pos, (one_mul _).symm, (one_mul _).symm⟩⟩

theorem After.val {k k' : Coef4} {l} (h : k.After l k') {s : ℚ} (s0 : 0 < s) (s1 : s < 1) :
    k'.val s = k.val (unread l s) := by
  obtain ⟨c, c0, h1, h2⟩ := h.at_ s s0 s1
  rw [val_eq, val_eq, h1, h2, mul_div_mul_left _ _ c0.ne']

theorem After.trans {k k' k'' : Coef4} {l l'} (h : k.After l k') (h' : k'.After l' k'') :
    k.After (l ++ l') k'' := by
  refine ⟨h'.det, fun s s0 s1 => ?_⟩
  obtain ⟨c, c0, h1, h2⟩ := h'.at_ s s0 s1
  obtain ⟨c', c0', h1', h2'⟩ := h.at_ (unread l' s) (unread_mem l' s0 s1).1 (unread_mem l' s0 s1).2
  refine ⟨c * c', by positivity, ?_, ?_⟩
  · rw [h1, h1', unread_append]; ring
  · rw [h2, h2', unread_append]; ring

theorem after_amplify {k r : Coef4} (hdet : k.det ≠ 0)
    (h : ∃ c : Int, (c = 1 ∨ c = 2) ∧ c * r.n = 2 * k.n ∧ c * r.nx = k.nx ∧
        c * r.d = 2 * k.d ∧ c * r.dx = k.dx) : k.After [.Amplify] r := by
  obtain ⟨c, hc, h1, h2, h3, h4⟩ := h
  have hc0 : (0 : ℚ) < c := by rcases hc with rfl | rfl <;> norm_num
  refine ⟨?_, fun s s0 s1 => ⟨2 / c, by positivity, ?_, ?_⟩⟩
  · intro e
    apply hdet
    have : 2 * k.det = c * c * r.det := by
      unfold det
      rw [← h2, ← h4]
      have e1 : 2 * (c * r.nx * k.d - k.n * (c * r.dx)) =
        c * r.nx * (2 * k.d) - 2 * k.n * (c * r.dx) := by ring
      rw [e1, ← h1, ← h3]; ring
    rw [e] at this
    omega
  · have h1' : (c : ℚ) * r.n = 2 * k.n := by exact_mod_cast h1
    have h2' : (c : ℚ) * r.nx = k.nx := by exact_mod_cast h2
    simp only [numAt, unread, unread1, ← h2']
    field_simp
    linarith
  · have h1' : (c : ℚ) * r.d = 2 * k.d := by exact_mod_cast h3
    have h2' : (c : ℚ) * r.dx = k.dx := by exact_mod_cast h4
    simp only [denAt, unread, unread1, ← h2']
    field_simp
    linarith

theorem after_uncover {k : Coef4} (hdet : k.det ≠ 0) :
    k.After [.Uncover] ⟨k.n, k.nx + k.n, k.d, k.dx + k.d⟩ := by
  refine ⟨?_, fun s s0 s1 => ⟨1 + s, by positivity, ?_, ?_⟩⟩
  · intro e
    apply hdet
    unfold det at *
    simp only at e
    linarith
  · simp only [numAt, unread, unread1]
    push_cast
    field_simp
    ring
  · simp only [denAt, unread, unread1]
    push_cast
    field_simp
    ring

end Coef4

/-- `eg` on `x` gives the symbols `l` and leaves `x'`. -/
def Reads (eg : EgestFn) : List Reduction → Clog → Clog → Prop
  | [], x, x' => x = x'
  | r :: l, x, x' => ∃ x1, eg x = .ok (some r, x1) ∧ Reads eg l x1 x'

namespace Homographic

/-- What `prime` does on an operand that gives `l` and leaves `x'`. -/
def PrimeReads (A : Panic → Prop) (M : Int) (eg : EgestFn) (l : List Reduction) (x x' : Clog)
    (k : Coef4) (o : Out Primed) : Prop :=
  (∃ p, A p ∧ o = .panic p) ∨
  (∃ l1 l2 x1 k0 p k1, l = l1 ++ l2 ∧ Reads eg l1 x x1 ∧ Reads eg l2 x1 x' ∧ k.After l1 k0 ∧
    k0.Primed p k1 ∧ k1.Bounded (M * 2 ^ l1.length) ∧ o = .ok (none, p, none, some ⟨x1, k1⟩)) ∨
  ((∃ k0, k.After l k0 ∧ ∀ p σ, ¬k0.Decided p σ) ∧ (∀ P, eg x' = .panic P → o = .panic P) ∧
    (eg x' = .timeout → o = .timeout))

theorem PrimeReads.cons {A M} {eg : EgestFn} {l r x x1 x' k k' o}
    (h : PrimeReads A (2 * M) eg l x1 x' k' o) (hx : eg x = .ok (some r, x1))
    (hk : k.After [r] k') : PrimeReads A M eg (r :: l) x x' k o := by
  rcases h with h | ⟨l1, l2, x2, k0, p, k1, e, h1, h2, h3, h4, h6, h5⟩ | ⟨⟨k0, h1, h2⟩, h3⟩
  · exact .inl h
  · exact .inr (.inl ⟨r :: l1, l2, x2, k0, p, k1, by rw [e]; rfl, ⟨x1, hx, h1⟩, h2, hk.trans h3,
      h4, by rw [List.length_cons, pow_succ']; convert h6 using 1; ring, h5⟩)
  · exact .inr (.inr ⟨⟨k0, hk.trans h1, h2⟩, h3⟩)

theorem prime_reads {cfg : Cfg} {A} {eg : EgestFn} (j : Nat)
    (l : List Reduction) : ∀ {x x' : Clog} {k : Coef4} {M : Int},
    cfg.SafeUpTo A (M * 2 ^ l.length) → k.Bounded M → Reads eg l x x' → k.det ≠ 0 →
    PrimeReads A M eg l x x' k (prime cfg eg (j + l.length + 1) ⟨x, k⟩) := by
  induction l with
  | nil =>
    intro x x' k M hs' hb hx hdet
    cases hx
    have hs := hs'.head hb.pos
    have h1 := Coef4.primerAttempt_sat hs hb
    simp only [prime]
    cases e : k.primerAttempt cfg with
    | ok o =>
      rw [e] at h1
      rcases o with _ | ⟨p, k'⟩
      · refine .inr (.inr ⟨⟨k, .nil hdet, fun p σ hp => ?_⟩, fun P hP => ?_, fun hP => ?_⟩)
        · have := Coef4.primerAttempt_some hs hb hdet hp
          rw [e] at this
          exact this rfl
        · simp [primeIngest, hP]
        · simp [primeIngest, hP]
      · exact .inr (.inl ⟨[], [], x, k, p, k', rfl, rfl, rfl, .nil hdet, (h1 p k' rfl).1,
          by simpa using (h1 p k' rfl).1.rel.bounded hb, rfl⟩)
    | panic p =>
      rw [e] at h1
      exact .inl ⟨p, h1, rfl⟩
    | timeout =>
      rw [e] at h1
      exact h1.elim
  | cons r l ih =>
    rintro x x' k M hs' hb ⟨x1, hx, hl⟩ hdet
    have hs := hs'.head hb.pos
    have ht : cfg.SafeUpTo A (2 * M * 2 ^ l.length) := by
      convert hs' using 1; rw [List.length_cons, pow_succ]; ring
    have h1 := Coef4.primerAttempt_sat hs hb
    rw [List.length_cons, ← add_assoc]
    simp only [prime]
    cases e : k.primerAttempt cfg with
    | ok o =>
      rw [e] at h1
      rcases o with _ | ⟨p, k'⟩
      · cases r
        · simp only [primeIngest, hx, ok_bind]
          have h2 := Coef4.ingestAmplify_sat hs hb
          cases e2 : k.ingestAmplify cfg with
          | ok k' =>
            rw [e2] at h2
            have ha := Coef4.after_amplify hdet h2
            exact (ih ht (Coef4.bounded_ingestAmplify h2 hb) hl ha.det).cons hx ha
          | panic p => rw [e2] at h2; exact .inl ⟨p, h2, rfl⟩
          | timeout => rw [e2] at h2; exact h2.elim
        · simp only [primeIngest, hx, ok_bind]
          have h2 := Coef4.ingestUncover_sat hs hb
          cases e2 : k.ingestUncover cfg with
          | ok k' =>
            rw [e2] at h2
            obtain rfl : k' = _ := h2
            have ha := Coef4.after_uncover hdet
            exact (ih ht (Coef4.bounded_ingestUncover hb) hl ha.det).cons hx ha
          | panic p => rw [e2] at h2; exact .inl ⟨p, h2, rfl⟩
          | timeout => rw [e2] at h2; exact h2.elim
      · exact .inr (.inl ⟨[], r :: l, x, k, p, k', rfl, rfl, ⟨x1, hx, hl⟩, .nil hdet,
          (h1 p k' rfl).1, by simpa using (h1 p k' rfl).1.rel.bounded hb, rfl⟩)
    | panic p =>
      rw [e] at h1
      exact .inl ⟨p, h1, rfl⟩
    | timeout =>
      rw [e] at h1
      exact h1.elim

/-- What `egest` does on an operand that gives `l` and leaves `x'`. -/
def EgestReads (A : Panic → Prop) (M : Int) (eg : EgestFn) (l : List Reduction) (x x' : Clog)
    (k : Coef4) (o : Out (Egested × Homographic)) : Prop :=
  (∃ p, A p ∧ o = .panic p) ∨
  (∃ l1 l2 x1 k1 r, l = l1 ++ l2 ∧ Reads eg l1 x x1 ∧ Reads eg l2 x1 x' ∧ k1.Inv ∧ k1.det ≠ 0 ∧
    k1.Bounded (M * 2 ^ l1.length) ∧
    (∀ s, 0 < s → s < 1 → r = sym (k.val (unread l1 s)) ∧ k1.val s = next (k.val (unread l1 s))) ∧
    o = .ok (.ok r, ⟨x1, k1⟩)) ∨
  ((∀ r, ¬∀ s, 0 < s → s < 1 → sym (k.val (unread l s)) = r) ∧
    (∀ P, eg x' = .panic P → o = .panic P) ∧ (eg x' = .timeout → o = .timeout))

theorem EgestReads.cons {A M} {eg : EgestFn} {l r x x1 x' k k' o}
    (h : EgestReads A (2 * M) eg l x1 x' k' o) (hx : eg x = .ok (some r, x1))
    (hk : k.After [r] k') : EgestReads A M eg (r :: l) x x' k o := by
  rcases h with h | ⟨l1, l2, x2, k1, r', e, h1, h2, h3, h4, h7, h5, h6⟩ | ⟨h1, h3⟩
  · exact .inl h
  · refine .inr (.inl ⟨r :: l1, l2, x2, k1, r', by rw [e]; rfl, ⟨x1, hx, h1⟩, h2, h3, h4,
      by rw [List.length_cons, pow_succ']; convert h7 using 1; ring, ?_, h6⟩)
    intro s s0 s1
    have := h5 s s0 s1
    rwa [hk.val (unread_mem l1 s0 s1).1 (unread_mem l1 s0 s1).2] at this
  · refine .inr (.inr ⟨fun r' hr => h1 r' fun s s0 s1 => ?_, h3⟩)
    rw [hk.val (unread_mem l s0 s1).1 (unread_mem l s0 s1).2]
    exact hr s s0 s1

theorem red_det {k k' : Coef4} {r} (hdet : k.det ≠ 0)
    (h : (Coef4.PosW k ∧ Coef4.ReductionRel k r k') ∨
      (Coef4.PosW k.opp ∧ Coef4.ReductionRel k.opp r k'.opp)) : k'.det ≠ 0 := by
  have key : ∀ {k k' : Coef4}, k.det ≠ 0 → Coef4.ReductionRel k r k' → k'.det ≠ 0 := by
    rintro k k' hdet (⟨_, rfl, _, _⟩ | ⟨_, ⟨c, hc, a1, a2, a3, a4⟩, _⟩ | ⟨_, rfl, _⟩) e
    · exact hdet e
    · apply hdet
      have : 2 * k.det = c * c * k'.det := by
        unfold Coef4.det
        rw [← a3, ← a4]
        have e1 : 2 * (k.nx * (c * k'.d) - k.n * (c * k'.dx)) =
          2 * k.nx * (c * k'.d) - 2 * k.n * (c * k'.dx) := by ring
        rw [e1, ← a1, ← a2]; ring
      rw [e] at this
      omega
    · apply hdet
      unfold Coef4.det at *
      simp only at e
      linarith
  rcases h with ⟨_, h⟩ | ⟨_, h⟩
  · exact key hdet h
  · have := key (by rwa [Coef4.det_opp]) h
    rwa [Coef4.det_opp] at this

theorem egest_reads {cfg : Cfg} {A} {eg : EgestFn} (j : Nat)
    (l : List Reduction) : ∀ {x x' : Clog} {k : Coef4} {M : Int},
    cfg.SafeUpTo A (M * 2 ^ l.length) → k.Bounded M → Reads eg l x x' → k.Inv → k.det ≠ 0 →
    EgestReads A M eg l x x' k (egest cfg eg (j + l.length + 1) ⟨x, k⟩) := by
  have step : ∀ (l : List Reduction) {x x' : Clog} {k k' : Coef4} {r} {M : Int},
      (k.reductionAttempt cfg) = .ok (some (r, k')) → cfg.SafeUpTo A (M * 2 ^ l.length) →
      k.Bounded M → Reads eg l x x' → k.Inv → k.det ≠ 0 →
      EgestReads A M eg l x x' k (.ok (.ok r, ⟨x, k'⟩)) := by
    intro l x x' k k' r M e hs hb hx hI hdet
    have h1 := Coef4.reductionAttempt_sat (hs.head hb.pos) hb hI.1
    rw [e] at h1
    have h2 := h1 r k' rfl
    have h3 := Coef4.red_step (v := 1 / 2) (by norm_num) (by norm_num) hI.2 hb h2
    refine .inr (.inl ⟨[], l, x, k', r, rfl, rfl, hx, h3.2.1, red_det hdet h2,
      by simpa using h3.2.2.1, ?_, rfl⟩)
    intro s s0 s1
    have h4 := Coef4.red_step s0 s1 hI.2 hb h2
    exact ⟨h4.1, h4.2.2.2⟩
  induction l with
  | nil =>
    intro x x' k M hs' hb hx hI hdet
    have hs := hs'.head hb.pos
    have h1 := Coef4.reductionAttempt_sat hs hb hI.1
    simp only [egest]
    cases e : k.reductionAttempt cfg with
    | ok o =>
      rw [e] at h1
      rcases o with _ | ⟨r, k'⟩
      · cases hx
        refine .inr (.inr ⟨fun r hr => ?_, fun P hP => ?_, fun hP => ?_⟩)
        · obtain ⟨s, hsgn, hside⟩ := hI.side hdet hr
          have := Coef4.reductionAttempt_some hs hb hsgn hside
          rw [e] at this
          exact this rfl
        · simp [reductionIngest, hP]
        · simp [reductionIngest, hP]
      · exact step [] e hs' hb hx hI hdet
    | panic p => rw [e] at h1; exact .inl ⟨p, h1, rfl⟩
    | timeout => rw [e] at h1; exact h1.elim
  | cons r l ih =>
    intro x x' k M hs' hb hx hI hdet
    have hs := hs'.head hb.pos
    have ht : cfg.SafeUpTo A (2 * M * 2 ^ l.length) := by
      convert hs' using 1; rw [List.length_cons, pow_succ]; ring
    have h1 := Coef4.reductionAttempt_sat hs hb hI.1
    rw [List.length_cons, ← add_assoc]
    simp only [egest]
    cases e : k.reductionAttempt cfg with
    | ok o =>
      rw [e] at h1
      rcases o with _ | ⟨r', k'⟩
      · obtain ⟨x1, hx, hl⟩ := hx
        cases r
        · simp only [reductionIngest, hx, ok_bind]
          have h2 := Coef4.ingestAmplify_sat hs hb
          cases e2 : k.ingestAmplify cfg with
          | ok k' =>
            rw [e2] at h2
            have ha := Coef4.after_amplify hdet h2
            exact (ih ht (Coef4.bounded_ingestAmplify h2 hb) hl (Coef4.inv_ingestAmplify h2 hI) ha.det).cons hx ha
          | panic p => rw [e2] at h2; exact .inl ⟨p, h2, rfl⟩
          | timeout => rw [e2] at h2; exact h2.elim
        · simp only [reductionIngest, hx, ok_bind]
          have h2 := Coef4.ingestUncover_sat hs hb
          cases e2 : k.ingestUncover cfg with
          | ok k' =>
            rw [e2] at h2
            obtain rfl : k' = _ := h2
            have ha := Coef4.after_uncover hdet
            exact (ih ht (Coef4.bounded_ingestUncover hb) hl (Coef4.inv_ingestUncover hI) ha.det).cons hx ha
          | panic p => rw [e2] at h2; exact .inl ⟨p, h2, rfl⟩
          | timeout => rw [e2] at h2; exact h2.elim
      · exact step (r :: l) e hs' hb hx hI hdet
    | panic p => rw [e] at h1; exact .inl ⟨p, h1, rfl⟩
    | timeout => rw [e] at h1; exact h1.elim

end Homographic

theorem Reads.append {eg : EgestFn} {l l' : List Reduction} {x x1 x' : Clog} (h : Reads eg l x x1)
    (h' : Reads eg l' x1 x') : Reads eg (l ++ l') x x' := by
  induction l generalizing x with
  | nil => cases h; exact h'
  | cons r l ih =>
    obtain ⟨x2, h1, h2⟩ := h
    exact ⟨x2, h1, ih h2⟩

/-- What `m` calls of `egest` do on a `Homographic` whose operand gives `l` and leaves `x'`. -/
def EgestsRead (A : Panic → Prop) (eg : EgestFn) (m : Nat) (l : List Reduction) (x x' : Clog) (k : Coef4)
    (o : Out (List (Option Reduction) × Clog)) : Prop :=
  (∃ p, A p ∧ o = .panic p) ∨
  (∃ l1 l2 x1 k1 out, l = l1 ++ l2 ∧ Reads eg l1 x x1 ∧ Reads eg l2 x1 x' ∧
    (∀ s, 0 < s → s < 1 → symbols m (k.val (unread l1 s)) = out) ∧
    o = .ok (out, .homographic x1 k1)) ∨
  ((∀ out, ¬∀ s, 0 < s → s < 1 → symbols m (k.val (unread l s)) = out) ∧
    (∀ P, eg x' = .panic P → o = .panic P) ∧ (eg x' = .timeout → o = .timeout))

theorem Clog.egests_reads {cfg : Cfg} {A} {f : Nat} (m : Nat) :
    ∀ {l : List Reduction} {x x' : Clog} {k : Coef4} {M : Int},
    cfg.SafeUpTo A (M * 2 ^ l.length) → k.Bounded M → l.length < f →
    Reads (Clog.egest cfg f) l x x' → k.Inv → k.det ≠ 0 →
    EgestsRead A (Clog.egest cfg f) m l x x' k (Clog.egests cfg (f + 1) m (.homographic x k)) := by
  induction m with
  | zero =>
    intro l x x' k M _ _ _ hx hI hdet
    exact .inr (.inl ⟨[], l, x, k, [], rfl, rfl, hx, fun _ _ _ => rfl, rfl⟩)
  | succ m ih =>
    intro l x x' k M hs hb hl hx hI hdet
    have h := Homographic.egest_reads (f - l.length - 1) l hs hb hx hI hdet
    rw [show f - l.length - 1 + l.length + 1 = f by omega] at h
    rw [egests_succ]
    simp only [Clog.egest, Strategy.egest]
    rcases h with ⟨p, hp, e⟩ | ⟨l1, l2, x1, k1, r, rfl, h1, h2, h3, h4, hb1, h5, e⟩ | ⟨h1, h2, h3⟩
    · exact .inl ⟨p, hp, by simp [e]⟩
    · simp only [e, ok_bind, pure_eq, Homographic.box]
      have hl2 : l2.length < f := by rw [List.length_append] at hl; omega
      have hs2 : cfg.SafeUpTo A (M * 2 ^ l1.length * 2 ^ l2.length) := by
        convert hs using 1; rw [List.length_append, pow_add]; ring
      rcases ih hs2 hb1 hl2 h2 h3 h4 with ⟨p, hp, e'⟩ | ⟨l3, l4, x2, k2, out, rfl, g1, g2, g3, e'⟩ | ⟨g1, g2, g3⟩
      · exact .inl ⟨p, hp, by simp only [e', panic_bind]⟩
      · refine .inr (.inl ⟨l1 ++ l3, l4, x2, k2, r :: out, by rw [List.append_assoc], h1.append g1,
          g2, ?_, by simp only [e', ok_bind]⟩)
        intro s s0 s1
        have hm := unread_mem l3 s0 s1
        obtain ⟨e1, e2⟩ := h5 _ hm.1 hm.2
        rw [unread_append, symbols_succ, ← e1, ← e2, g3 s s0 s1]
      · refine .inr (.inr ⟨?_, fun P hP => ?_, fun hP => ?_⟩)
        · intro out hout
          rcases out with _ | ⟨r', out⟩
          · have := hout (1 / 2) (by norm_num) (by norm_num)
            simp [symbols_succ] at this
          · refine g1 out fun s s0 s1 => ?_
            have hm := unread_mem l2 s0 s1
            obtain ⟨e1, e2⟩ := h5 _ hm.1 hm.2
            have := hout s s0 s1
            rw [unread_append, symbols_succ, List.cons.injEq] at this
            rw [e2]; exact this.2
        · simp only [g2 P hP, panic_bind]
        · simp only [g3 hP, timeout_bind]
    · refine .inr (.inr ⟨?_, fun P hP => ?_, fun hP => ?_⟩)
      · intro out hout
        rcases out with _ | ⟨r', out⟩
        · have := hout (1 / 2) (by norm_num) (by norm_num)
          simp [symbols_succ] at this
        · refine h1 r' fun s s0 s1 => ?_
          have := hout s s0 s1
          rw [symbols_succ, List.cons.injEq] at this
          exact this.1
      · simp [h2 P hP]
      · simp [h3 hP]

end Clarith
