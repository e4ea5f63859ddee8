import Verif.Proofs.Reads4
import Verif.Proofs.FieldCombine

/-! # How much of its operands `combine` reads -/

namespace Clarith

open Out Spec Support

/-- `u` has the first symbols `l`, and `u` and what is left of it after each of these symbols is
at least `δ` away from 0 and from 1. -/
def Spec.Clear (δ : ℚ) : List Reduction → ℚ → Prop
  | [], u => δ ≤ u ∧ u ≤ 1 - δ
  | .Amplify :: l, u => (δ ≤ u ∧ u ≤ 1 - δ) ∧ Spec.Clear δ l (2 * u)
  | .Uncover :: l, u => (δ ≤ u ∧ u ≤ 1 - δ) ∧ Spec.Clear δ l (1 / u - 1)

namespace Spec

theorem Clear.mem {δ : ℚ} {l : List Reduction} {u : ℚ} (h : Clear δ l u) : δ ≤ u ∧ u ≤ 1 - δ := by
  rcases l with _ | ⟨r, l⟩
  · exact h
  · cases r <;> exact h.1

theorem Clear.mono {δ δ' : ℚ} (hδ : δ' ≤ δ) {l : List Reduction} {u : ℚ} (h : Clear δ l u) :
    Clear δ' l u := by
  induction l generalizing u with
  | nil => exact ⟨hδ.trans h.1, h.2.trans (by linarith)⟩
  | cons r l ih =>
    have := h.mem
    cases r <;> exact ⟨⟨hδ.trans this.1, this.2.trans (by linarith)⟩, ih h.2⟩

theorem clear_cons {δ : ℚ} (hδ : 0 < δ) {r : Reduction} {l : List Reduction} {u : ℚ} :
    Clear δ (r :: l) u ↔ (δ ≤ u ∧ u ≤ 1 - δ) ∧ sym u = some r ∧ Clear δ l (next u) := by
  cases r
  · constructor
    · rintro ⟨h1, h2⟩
      have h3 := h2.mem
      have hu : u < 1 / 2 := by linarith
      exact ⟨h1, sym_lt hu, by rw [next_lt hu]; exact h2⟩
    · rintro ⟨h1, h2, h3⟩
      rw [next_lt (sym_eq_amplify.1 h2)] at h3
      exact ⟨h1, h3⟩
  · constructor
    · rintro ⟨h1, h2⟩
      have h3 := h2.mem
      have h0 : 0 < u := by linarith
      have hu : 1 / 2 < u := by
        have : 1 / u < 2 := by linarith
        rw [div_lt_iff₀ h0] at this
        linarith
      exact ⟨h1, sym_gt hu, by rw [next_gt hu]; exact h2⟩
    · rintro ⟨h1, h2, h3⟩
      rw [next_gt (sym_eq_uncover.1 h2)] at h3
      exact ⟨h1, h3⟩

theorem Clear.symbols {δ : ℚ} (hδ : 0 < δ) {l : List Reduction} {u : ℚ} (h : Clear δ l u) :
    symbols l.length u = l.map some := by
  induction l generalizing u with
  | nil => rfl
  | cons r l ih =>
    obtain ⟨-, h2, h3⟩ := (clear_cons hδ).1 h
    rw [List.length_cons, symbols_succ, h2, ih h3]
    rfl

theorem applyPrimer_invol (p : Option Primer) (x : ℚ) : applyPrimer p (applyPrimer p x) = x := by
  rcases p with _ | p
  · rfl
  · cases p <;> simp [applyPrimer]

end Spec

/-! ## Bilinear functions on (0,1)² -/

namespace Bilin

/-- A bilinear function that stays above some δ > 0 on the open square is positive at (0,0). -/
theorem corner {a b c d δ : ℚ} (hδ : 0 < δ)
    (h : ∀ s t : ℚ, 0 < s → s < 1 → 0 < t → t < 1 → δ ≤ a * s * t + b * s + c * t + d) : 0 < d := by
  set C : ℚ := |a| + |b| + |c| with hC
  have hC0 : 0 ≤ C := by positivity
  have hp : 0 < 2 * (C + δ) := by positivity
  set ε : ℚ := δ / (2 * (C + δ)) with hε
  have e0 : 0 < ε := by positivity
  have e1 : ε < 1 := by rw [hε, div_lt_one hp]; linarith
  have h1 := h ε ε e0 e1 e0 e1
  have a1 : a * ε * ε ≤ |a| * ε := by
    have g1 : a * ε * ε ≤ |a| * ε * ε :=
      mul_le_mul_of_nonneg_right (mul_le_mul_of_nonneg_right (le_abs_self a) e0.le) e0.le
    have g2 : |a| * ε * ε ≤ |a| * ε * 1 := mul_le_mul_of_nonneg_left e1.le (by positivity)
    linarith
  have a2 : b * ε ≤ |b| * ε := mul_le_mul_of_nonneg_right (le_abs_self b) e0.le
  have a3 : c * ε ≤ |c| * ε := mul_le_mul_of_nonneg_right (le_abs_self c) e0.le
  have a4 : C * ε < δ := by
    rw [hε, ← mul_div_assoc, div_lt_iff₀ hp]; nlinarith
  have a5 : C * ε = |a| * ε + |b| * ε + |c| * ε := by rw [hC]; ring
  linarith

theorem corners {a b c d : Int} {δ : ℚ} (hδ : 0 < δ)
    (h : ∀ s t : ℚ, 0 < s → s < 1 → 0 < t → t < 1 → δ ≤ a * s * t + b * s + c * t + d) :
    0 < d ∧ 0 < c + d ∧ 0 < b + d ∧ 0 < a + b + c + d := by
  have h1 := corner hδ h
  have h2 := corner (a := -a) (b := a + b) (c := -c) (d := c + d) hδ fun s t s0 s1 t0 t1 => by
    have := h s (1 - t) s0 s1 (by linarith) (by linarith)
    linarith
  have h3 := corner (a := -a) (b := -b) (c := a + c) (d := b + d) hδ fun s t s0 s1 t0 t1 => by
    have := h (1 - s) t (by linarith) (by linarith) t0 t1
    linarith
  have h4 := corner (a := a) (b := -a - b) (c := -a - c) (d := a + b + c + d) hδ
    fun s t s0 s1 t0 t1 => by
      have := h (1 - s) (1 - t) (by linarith) (by linarith) (by linarith) (by linarith)
      linarith
  exact ⟨by exact_mod_cast h1, by exact_mod_cast h2, by exact_mod_cast h3, by exact_mod_cast h4⟩

private theorem lin_same {p q : ℚ} (h : ∀ s : ℚ, 0 < s → s < 1 → p * s + q ≠ 0) {s s' : ℚ}
    (s0 : 0 < s) (s1 : s < 1) (s0' : 0 < s') (s1' : s' < 1) (hp : 0 < p * s + q) :
    0 < p * s' + q := by
  rcases lt_trichotomy 0 (p * s' + q) with h1 | h1 | h1
  · exact h1
  · exact (h s' s0' s1' h1.symm).elim
  · exfalso
    set A := p * s + q with hA
    set B := -(p * s' + q) with hB
    have hB0 : 0 < B := by linarith
    have hAB : 0 < A + B := by linarith
    refine h ((B * s + A * s') / (A + B)) (by positivity) ?_ ?_
    · rw [div_lt_one hAB]; nlinarith
    · have : p * ((B * s + A * s') / (A + B)) + q = (B * (p * s + q) + A * (p * s' + q)) / (A + B) := by
        field_simp
        ring
      rw [this, ← hA, show p * s' + q = -B by rw [hB, neg_neg]]
      rw [div_eq_zero_iff]
      left; ring

/-- A bilinear function that stays away from 0 on the open square has one sign there. -/
theorem sign {a b c d δ : ℚ} (hδ : 0 < δ)
    (h : ∀ s t : ℚ, 0 < s → s < 1 → 0 < t → t < 1 → δ ≤ |a * s * t + b * s + c * t + d|) :
    (∀ s t : ℚ, 0 < s → s < 1 → 0 < t → t < 1 → δ ≤ a * s * t + b * s + c * t + d) ∨
    ∀ s t : ℚ, 0 < s → s < 1 → 0 < t → t < 1 → δ ≤ -(a * s * t + b * s + c * t + d) := by
  have key : ∀ {a b c d : ℚ}, (∀ s t : ℚ, 0 < s → s < 1 → 0 < t → t < 1 →
      δ ≤ |a * s * t + b * s + c * t + d|) → 0 < a * (1 / 2) * (1 / 2) + b * (1 / 2) + c * (1 / 2) + d →
      ∀ s t : ℚ, 0 < s → s < 1 → 0 < t → t < 1 → δ ≤ a * s * t + b * s + c * t + d := by
    intro a b c d h hp s t s0 s1 t0 t1
    have hne : ∀ s t : ℚ, 0 < s → s < 1 → 0 < t → t < 1 → a * s * t + b * s + c * t + d ≠ 0 := by
      intro s t s0 s1 t0 t1 e
      have := h s t s0 s1 t0 t1
      rw [e, abs_zero] at this
      linarith
    have g1 := lin_same (p := a * (1 / 2) + b) (q := c * (1 / 2) + d) (s := 1 / 2) (s' := s)
      (fun s s0 s1 e => hne s (1 / 2) s0 s1 (by norm_num) (by norm_num) (by linarith))
      (by norm_num) (by norm_num) s0 s1 (by linarith)
    have g2 := lin_same (p := a * s + c) (q := b * s + d) (s := 1 / 2) (s' := t)
      (fun t t0 t1 e => hne s t s0 s1 t0 t1 (by linarith))
      (by norm_num) (by norm_num) t0 t1 (by linarith)
    have := h s t s0 s1 t0 t1
    rwa [abs_of_pos (by linarith)] at this
  have h0 := h (1 / 2) (1 / 2) (by norm_num) (by norm_num) (by norm_num) (by norm_num)
  rcases lt_trichotomy 0 (a * (1 / 2) * (1 / 2) + b * (1 / 2) + c * (1 / 2) + d) with h1 | h1 | h1
  · exact .inl (key h h1)
  · rw [← h1, abs_zero] at h0; linarith
  · right
    intro s t s0 s1 t0 t1
    have := key (a := -a) (b := -b) (c := -c) (d := -d) (fun s t s0 s1 t0 t1 => by
      rw [show -a * s * t + -b * s + -c * t + -d = -(a * s * t + b * s + c * t + d) by ring, abs_neg]
      exact h s t s0 s1 t0 t1) (by linarith) s t s0 s1 t0 t1
    linarith

theorem ge {a b c d m : Int} {s t : ℚ} (s0 : 0 < s) (s1 : s < 1) (t0 : 0 < t) (t1 : t < 1)
    (h00 : m ≤ d) (h01 : m ≤ c + d) (h10 : m ≤ b + d) (h11 : m ≤ a + b + c + d) :
    (m : ℚ) ≤ a * s * t + b * s + c * t + d := by
  have g00 : (0 : ℚ) ≤ d - m := by have : (m : ℚ) ≤ d := by exact_mod_cast h00
                                   linarith
  have g01 : (0 : ℚ) ≤ (c : ℚ) + d - m := by
    have : (m : ℚ) ≤ c + d := by exact_mod_cast h01
    linarith
  have g10 : (0 : ℚ) ≤ (b : ℚ) + d - m := by
    have : (m : ℚ) ≤ b + d := by exact_mod_cast h10
    linarith
  have g11 : (0 : ℚ) ≤ (a : ℚ) + b + c + d - m := by
    have : (m : ℚ) ≤ a + b + c + d := by exact_mod_cast h11
    linarith
  have e : (a : ℚ) * s * t + b * s + c * t + d - m = (1 - s) * (1 - t) * (d - m) +
    (1 - s) * t * (c + d - m) + s * (1 - t) * (b + d - m) + s * t * (a + b + c + d - m) := by ring
  have u2 : 0 ≤ 1 - s := by linarith
  have v2 : 0 ≤ 1 - t := by linarith
  have : 0 ≤ (a : ℚ) * s * t + b * s + c * t + d - m := by rw [e]; positivity
  linarith

end Bilin

namespace Coef8

/-- On the open square the values stay in [δ, 1-δ], and the denominator away from 0. -/
def Margin (k : Coef8) (δ : ℚ) : Prop :=
  0 < δ ∧ ∀ s t : ℚ, 0 < s → s < 1 → 0 < t → t < 1 →
    δ ≤ |k.denAt s t| ∧ δ ≤ k.val s t ∧ k.val s t ≤ 1 - δ

theorem numAt_opp (k : Coef8) (u v : ℚ) : k.opp.numAt u v = -k.numAt u v := by
  simp only [numAt, opp]; push_cast; ring

private theorem Pos.margin {k : Coef8} (h : Pos k) : ∃ δ, k.Margin δ := by
  obtain ⟨M, hb⟩ := k.exists_bounded
  obtain ⟨hM, _, _, _, _, _, _, _, _, _, _, _, _, _, _, _, _⟩ := hb
  unfold Pos at h
  have hM' : (1 : ℚ) ≤ M := by exact_mod_cast hM
  have hM0 : (0 : ℚ) < M := by linarith
  refine ⟨1 / M, by positivity, fun s t s0 s1 t0 t1 => ?_⟩
  have h1 : ((1 : Int) : ℚ) ≤ k.denAt s t :=
    Bilin.ge s0 s1 t0 t1 (by omega) (by omega) (by omega) (by omega)
  have h2 : ((1 : Int) : ℚ) ≤ k.numAt s t :=
    Bilin.ge s0 s1 t0 t1 (by omega) (by omega) (by omega) (by omega)
  have h3 := Bilin.ge (a := k.e - k.a) (b := k.f - k.b) (c := k.g - k.c) (d := k.h - k.d) (m := 1)
    s0 s1 t0 t1 (by omega) (by omega) (by omega) (by omega)
  have h4 := Bilin.ge (a := -k.e) (b := -k.f) (c := -k.g) (d := -k.h) (m := -M)
    s0 s1 t0 t1 (by omega) (by omega) (by omega) (by omega)
  have h5 : k.denAt s t ≤ M := by unfold denAt; push_cast at h4; linarith
  have h6 : 1 ≤ k.denAt s t - k.numAt s t := by
    unfold denAt numAt; push_cast at h3; linarith
  push_cast at h1 h2
  have hd : 0 < k.denAt s t := by linarith
  have h7 : (1 : ℚ) / M ≤ 1 / k.denAt s t := one_div_le_one_div_of_le hd h5
  have h8 : (1 : ℚ) / M ≤ 1 := by rw [div_le_one hM0]; exact hM'
  refine ⟨?_, ?_, ?_⟩
  · rw [abs_of_pos hd]; linarith
  · refine h7.trans ?_
    unfold val
    exact div_le_div_of_nonneg_right h2 hd.le
  · have : 1 / k.denAt s t ≤ (k.denAt s t - k.numAt s t) / k.denAt s t :=
      div_le_div_of_nonneg_right h6 hd.le
    rw [sub_div, div_self hd.ne'] at this
    unfold val
    linarith

theorem Margin.opp {k : Coef8} {δ} (h : k.Margin δ) : k.opp.Margin δ :=
  ⟨h.1, fun s t s0 s1 t0 t1 => by
    rw [denAt_opp, abs_neg, val_opp]; exact h.2 s t s0 s1 t0 t1⟩

/-- The invariant of a primed `Combine` says that values stay away from 0 and 1, and denominators
from 0. -/
theorem inv_iff {k : Coef8} : Inv k ↔ ∃ δ, k.Margin δ := by
  constructor
  · rintro (h | h)
    · exact h.margin
    · obtain ⟨δ, h⟩ := h.margin
      have := h.opp
      rw [opp_opp] at this
      exact ⟨δ, this⟩
  · rintro ⟨δ, h⟩
    have key : ∀ {k : Coef8}, k.Margin δ →
        (∀ s t : ℚ, 0 < s → s < 1 → 0 < t → t < 1 → δ ≤ k.denAt s t) → Pos k := by
      rintro k ⟨hδ, h⟩ hd
      have h2 : 0 < δ * δ := by positivity
      have c2 := Bilin.corners (a := k.a) (b := k.b) (c := k.c) (d := k.d) h2
        fun s t s0 s1 t0 t1 => by
          have hd' := hd s t s0 s1 t0 t1
          have hv := (h s t s0 s1 t0 t1).2.1
          unfold val at hv
          rw [le_div_iff₀ (by linarith)] at hv
          change δ * δ ≤ k.numAt s t
          have := mul_le_mul_of_nonneg_left hd' hδ.le
          linarith
      have c3 := Bilin.corners (a := k.e - k.a) (b := k.f - k.b) (c := k.g - k.c) (d := k.h - k.d) h2
        fun s t s0 s1 t0 t1 => by
          have hd' := hd s t s0 s1 t0 t1
          have hv := (h s t s0 s1 t0 t1).2.2
          unfold val at hv
          rw [div_le_iff₀ (by linarith)] at hv
          have := mul_le_mul_of_nonneg_left hd' hδ.le
          have : δ * δ ≤ k.denAt s t - k.numAt s t := by linarith
          unfold denAt numAt at this
          push_cast
          linarith
      unfold Pos
      omega
    rcases Bilin.sign h.1 (fun s t s0 s1 t0 t1 => (h.2 s t s0 s1 t0 t1).1) with hd | hd
    · exact .inl (key h hd)
    · refine .inr (key h.opp fun s t s0 s1 t0 t1 => ?_)
      rw [denAt_opp]
      exact hd s t s0 s1 t0 t1

/-! ## Decisions that are made -/

theorem PrimerRel.amen {k k' : Coef8} {p} (h : PrimerRel k p k') (hI : Inv k') :
    Amen k.a k.b k.c k.d ∧ Amen k.e k.f k.g k.h := by
  unfold Inv Pos Coef8.opp at hI
  unfold Amen
  rcases h with ⟨_, rfl⟩ | ⟨_, rfl⟩ | ⟨_, rfl⟩ | ⟨_, rfl⟩ <;> simp only at hI <;> omega

private theorem undecided {k k0 : Coef8} {p : Option Primer} {s : Int} (sg : IsSign s)
    (hp : PrimerRel k p k0) (hI : Inv k0) (p0 : 0 < s * k.h)
    (n1 : ¬(s * k.d < -(s * k.h) ∧ s * (k.c + k.d) < -(s * (k.g + k.h)) ∧
      s * (k.b + k.d) < -(s * (k.f + k.h)) ∧
      s * (k.a + k.b + k.c + k.d) < -(s * (k.e + k.f + k.g + k.h))))
    (n2 : ¬((-(s * k.h) < s * k.d ∧ -(s * (k.g + k.h)) < s * (k.c + k.d) ∧
      -(s * (k.f + k.h)) < s * (k.b + k.d) ∧
      -(s * (k.e + k.f + k.g + k.h)) < s * (k.a + k.b + k.c + k.d)) ∧
      s * k.d < 0 ∧ s * (k.c + k.d) < 0 ∧ s * (k.b + k.d) < 0 ∧ s * (k.a + k.b + k.c + k.d) < 0))
    (n3 : ¬((0 < s * k.d ∧ 0 < s * (k.c + k.d) ∧ 0 < s * (k.b + k.d) ∧
      0 < s * (k.a + k.b + k.c + k.d)) ∧ s * k.d < s * k.h ∧ s * (k.c + k.d) < s * (k.g + k.h) ∧
      s * (k.b + k.d) < s * (k.f + k.h) ∧
      s * (k.a + k.b + k.c + k.d) < s * (k.e + k.f + k.g + k.h)))
    (n4 : ¬(s * k.h < s * k.d ∧ s * (k.g + k.h) < s * (k.c + k.d) ∧
      s * (k.f + k.h) < s * (k.b + k.d) ∧
      s * (k.e + k.f + k.g + k.h) < s * (k.a + k.b + k.c + k.d))) : False := by
  unfold Inv Pos Coef8.opp at hI
  rcases hp with ⟨_, rfl⟩ | ⟨_, rfl⟩ | ⟨_, rfl⟩ | ⟨_, rfl⟩
  · clear n2 n3 n4
    simp only at hI
    rcases sg with rfl | rfl <;> omega
  · clear n1 n2 n3
    simp only at hI
    rcases sg with rfl | rfl <;> omega
  · clear n1 n3 n4
    simp only at hI
    rcases sg with rfl | rfl <;> omega
  · clear n1 n2 n4
    simp only at hI
    rcases sg with rfl | rfl <;> omega

/-- When the invariant can be reached with a primer, `primer_egest` finds one. -/
theorem primerEgest_some {cfg : Cfg} {A M} {k k0 : Coef8} (hs : cfg.SafeUpTo A M)
    (hb : k.Bounded M) {p : Option Primer} (hp : PrimerRel k p k0) (hI : Inv k0) :
    Sat A (k.primerEgest cfg) (fun r => r ≠ none) := by
  obtain ⟨hN, hD⟩ := hp.amen hI
  have hb' := hb
  obtain ⟨hM, _, _, _, _, _, _, _, _, _, _, _, _, _, _, _, _⟩ := hb'
  obtain ⟨s, sg, p0, p1, p2, p3⟩ := hD.sign
  unfold primerEgest
  refine Sat.bind (imageExtremes_sat hs hb sg (by unfold Amen at hN; omega)
    (by unfold Amen at hN; omega) (by unfold Amen at hN; omega) (by unfold Amen at hN; omega)
    p0 p1 p2 p3) ?_
  rintro ⟨nmin, dmn, nmax, dmx⟩ ⟨-, -, x3, x4, x5, x6, x7, x8, x9, x10, -, mx, mn⟩
  have m1 := mx 1 (-1) (by norm_num); have m2 := mx 1 0 (by norm_num)
  have m3 := mx 1 1 (by norm_num)
  have l1 := mn 1 (-1) (by norm_num); have l2 := mn 1 0 (by norm_num)
  have l3 := mn 1 1 (by norm_num)
  simp only [one_mul, zero_mul, neg_mul] at m1 m2 m3 l1 l2 l3 x3 x4 x5 x6 x7 x8 x9 x10 ⊢
  clear mx mn
  have sx : cfg.Safe A (-dmx) := hs.lin (by omega) (by omega)
  have sn : cfg.Safe A (-dmn) := hs.lin (by omega) (by omega)
  refine Sat.bind (lessThanMinusOne_sat x4.le sx) ?_
  intro b hb
  by_cases g1 : b = true
  · rw [if_pos g1]
    refine Sat.bind (Q := fun _ => True) ?_ fun _ _ => Sat.pure (by simp)
    unfold ground reflect turn
    simp only
    refine Sat.bind (Cfg.neg_sat (hs.lin (by omega) (by omega))) ?_
    rintro _ ⟨rfl, _⟩
    refine Sat.bind (Cfg.neg_sat (hs.lin (by omega) (by omega))) ?_
    rintro _ ⟨rfl, _⟩
    refine Sat.bind (Cfg.neg_sat (hs.lin (by omega) (by omega))) ?_
    rintro _ ⟨rfl, _⟩
    refine Sat.bind (Cfg.neg_sat (hs.lin (by omega) (by omega))) ?_
    rintro _ ⟨rfl, _⟩
    exact Sat.pure trivial
  rw [if_neg g1]
  refine Sat.bind (Q := fun b => b = false → ¬(-dmn < nmin ∧ nmax < 0)) ?_ ?_
  · unfold Out.and
    refine Sat.bind (greaterThanMinusOne_sat x3.le sn) ?_
    intro b hb
    by_cases g : b = true
    · rw [if_pos g]
      refine Sat.pure ?_
      intro h
      have h2 := (lessThanZero_eq (n := nmax) x4.le).1 h
      omega
    · rw [if_neg g]
      refine Sat.pure fun _ => ?_
      have := hb.1 (by simpa using g)
      omega
  intro b hneg
  by_cases g2 : b = true
  · rw [if_pos g2]
    refine Sat.bind (Q := fun _ => True) ?_ fun _ _ => Sat.pure (by simp)
    unfold reflect
    refine Sat.bind (Cfg.neg_sat (hs.lin (by omega) (by omega))) ?_
    rintro _ ⟨rfl, _⟩
    refine Sat.bind (Cfg.neg_sat (hs.lin (by omega) (by omega))) ?_
    rintro _ ⟨rfl, _⟩
    refine Sat.bind (Cfg.neg_sat (hs.lin (by omega) (by omega))) ?_
    rintro _ ⟨rfl, _⟩
    refine Sat.bind (Cfg.neg_sat (hs.lin (by omega) (by omega))) ?_
    rintro _ ⟨rfl, _⟩
    exact Sat.pure trivial
  rw [if_neg g2]
  by_cases g3 : (greaterThanZero nmin dmn && lessThanOne nmax dmx) = true
  · rw [if_pos g3]
    exact Sat.pure (by simp)
  rw [if_neg g3]
  by_cases g4 : greaterThanOne nmin dmn = true
  · rw [if_pos g4]
    exact Sat.pure (by simp)
  exfalso
  have n1 : ¬nmax < -dmx := by
    have := hb.1 (by simpa using g1); omega
  have n2 := hneg (by simpa using g2)
  have n3 : ¬(0 < nmin ∧ nmax < dmx) := by
    rintro ⟨h1, h2⟩
    apply g3
    rw [Bool.and_eq_true]
    constructor
    · by_contra h
      have := (greaterThanZero_eq (n := nmin) x3.le).1 (by simpa using h)
      omega
    · by_contra h
      have := (lessThanOne_eq (n := nmax) x4.le).1 (by simpa using h)
      omega
  have n4 : ¬dmn < nmin := by
    have := (greaterThanOne_eq (n := nmin) x3.le).1 (by simpa using g4); omega
  rw [m1] at n1
  rw [l1, m2] at n2
  rw [l2, m3] at n3
  rw [l3] at n4
  exact undecided sg hp hI p0 n1 n2 n3 n4

theorem primerAttempt_some {cfg : Cfg} {A M} {k k0 : Coef8} (hs : cfg.SafeUpTo A M)
    (hb : k.Bounded M) {p : Option Primer} (hp : PrimerRel k p k0) (hI : Inv k0) :
    Sat A (k.primerAttempt cfg) (fun r => r ≠ none) := by
  unfold primerAttempt
  refine Sat.bind (areSingularitiesOutsideDomain_sat hs hb) ?_
  intro b hb'
  rw [if_pos (hb'.2 (hp.amen hI))]
  exact primerEgest_some hs hb hp hI

/-- The coefficients after symbol `r` has been given, up to a factor. -/
def given : Reduction → Coef8 → Coef8
  | .Amplify, k => ⟨2 * k.a, 2 * k.b, 2 * k.c, 2 * k.d, k.e, k.f, k.g, k.h⟩
  | .Uncover, k => ⟨k.e - k.a, k.f - k.b, k.g - k.c, k.h - k.d, k.a, k.b, k.c, k.d⟩

theorem Inv.amen {k : Coef8} (h : Inv k) : Amen k.a k.b k.c k.d ∧ Amen k.e k.f k.g k.h :=
  PrimerRel.amen (p := none) (.inr (.inr (.inr ⟨rfl, rfl⟩))) h

/-- When the invariant can be kept with a symbol, `reduction_egest` finds one. -/
theorem reductionEgest_some {cfg : Cfg} {A M} {k : Coef8} (hs : cfg.SafeUpTo A M)
    (hb : k.Bounded M) (hI : Inv k) {r : Reduction} (hr : Inv (given r k)) :
    Sat A (k.reductionEgest cfg) (fun r => r ≠ none) := by
  have hb' := hb
  obtain ⟨hM, _, _, _, _, _, _, _, _, _, _, _, _, _, _, _, _⟩ := hb'
  have hsg : ∃ s : Int, IsSign s ∧
      (0 < s * k.d ∧ 0 < s * (k.c + k.d) ∧ 0 < s * (k.b + k.d) ∧
        0 < s * (k.a + k.b + k.c + k.d)) ∧
      (s * k.d < s * k.h ∧ s * (k.c + k.d) < s * (k.g + k.h) ∧
        s * (k.b + k.d) < s * (k.f + k.h) ∧
        s * (k.a + k.b + k.c + k.d) < s * (k.e + k.f + k.g + k.h)) := by
    rcases hI with h | h
    · refine ⟨1, .inl rfl, ?_⟩
      unfold Pos at h; omega
    · refine ⟨-1, .inr rfl, ?_⟩
      unfold Pos Coef8.opp at h; simp only at h; omega
  obtain ⟨s, sg, q1, q2⟩ := hsg
  have side : (2 * (s * k.d) < s * k.h ∧ 2 * (s * (k.c + k.d)) < s * (k.g + k.h) ∧
      2 * (s * (k.b + k.d)) < s * (k.f + k.h) ∧
      2 * (s * (k.a + k.b + k.c + k.d)) < s * (k.e + k.f + k.g + k.h)) ∨
      (s * k.h < 2 * (s * k.d) ∧ s * (k.g + k.h) < 2 * (s * (k.c + k.d)) ∧
      s * (k.f + k.h) < 2 * (s * (k.b + k.d)) ∧
      s * (k.e + k.f + k.g + k.h) < 2 * (s * (k.a + k.b + k.c + k.d))) := by
    unfold Inv Pos Coef8.opp at hr
    cases r <;> simp only [given] at hr <;> rcases sg with rfl | rfl <;> omega
  unfold reductionEgest
  refine Sat.bind (imageExtremes_sat hs hb sg (by rcases sg with rfl | rfl <;> omega)
    (by rcases sg with rfl | rfl <;> omega) (by rcases sg with rfl | rfl <;> omega)
    (by rcases sg with rfl | rfl <;> omega) (by omega) (by omega) (by omega) (by omega)) ?_
  rintro ⟨nmin, dmn, nmax, dmx⟩ ⟨-, -, x3, x4, x5, x6, x7, x8, x9, x10, -, mx, mn⟩
  have m2 := mx 2 1 (by norm_num)
  have m3 := mx 1 1 (by norm_num)
  have l2 := mn 1 0 (by norm_num)
  have l3 := mn 2 1 (by norm_num)
  simp only [one_mul, zero_mul] at m2 m3 l2 l3 x3 x4 x5 x6 x7 x8 x9 x10 ⊢
  clear mx mn
  have i1 := l2.2 q1
  have i2 := m3.2 q2
  rw [if_neg (by simp [notGreaterThanZero, x3, i1]), if_neg (by simp [notLessThanOne, x4, i2])]
  have sN : cfg.Safe A (nmin * 2) := hs.lin (by omega) (by omega)
  have sX : cfg.Safe A (nmax * 2) := hs.lin (by omega) (by omega)
  refine Sat.bind (lessThanOneHalf_sat x4.le sX) ?_
  intro b hb
  by_cases g1 : b = true
  · rw [if_pos g1]
    refine Sat.bind (Q := fun _ => True) ?_ fun _ _ => Sat.pure (by simp)
    unfold amplify
    by_cases hev : (isEven k.e && isEven k.f && isEven k.g && isEven k.h) = true
    · rw [if_pos hev]
      exact Sat.pure trivial
    · rw [if_neg hev]
      have hc := m2.1 (by have := mt hb.2 (by simp [g1]); omega)
      refine Sat.bind (Cfg.cmul_sat (hs.lin (by rcases sg with rfl | rfl <;> omega)
        (by rcases sg with rfl | rfl <;> omega))) ?_
      rintro _ ⟨rfl, _⟩
      refine Sat.bind (Cfg.cmul_sat (hs.lin (by rcases sg with rfl | rfl <;> omega)
        (by rcases sg with rfl | rfl <;> omega))) ?_
      rintro _ ⟨rfl, _⟩
      refine Sat.bind (Cfg.cmul_sat (hs.lin (by rcases sg with rfl | rfl <;> omega)
        (by rcases sg with rfl | rfl <;> omega))) ?_
      rintro _ ⟨rfl, _⟩
      refine Sat.bind (Cfg.cmul_sat (hs.lin (by rcases sg with rfl | rfl <;> omega)
        (by rcases sg with rfl | rfl <;> omega))) ?_
      rintro _ ⟨rfl, _⟩
      exact Sat.pure trivial
  rw [if_neg g1]
  refine Sat.bind (greaterThanOneHalf_sat x3.le sN) ?_
  intro b hb''
  by_cases g2 : b = true
  · rw [if_pos g2]
    refine Sat.bind (Q := fun _ => True) ?_ fun _ _ => Sat.pure (by simp)
    unfold uncover shift turn
    simp only
    refine Sat.bind (Cfg.csub_sat (hs.lin (by rcases sg with rfl | rfl <;> omega)
      (by rcases sg with rfl | rfl <;> omega))) ?_
    rintro _ ⟨rfl, _⟩
    refine Sat.bind (Cfg.csub_sat (hs.lin (by rcases sg with rfl | rfl <;> omega)
      (by rcases sg with rfl | rfl <;> omega))) ?_
    rintro _ ⟨rfl, _⟩
    refine Sat.bind (Cfg.csub_sat (hs.lin (by rcases sg with rfl | rfl <;> omega)
      (by rcases sg with rfl | rfl <;> omega))) ?_
    rintro _ ⟨rfl, _⟩
    refine Sat.bind (Cfg.csub_sat (hs.lin (by rcases sg with rfl | rfl <;> omega)
      (by rcases sg with rfl | rfl <;> omega))) ?_
    rintro _ ⟨rfl, _⟩
    exact Sat.pure trivial
  exfalso
  have n1 : ¬2 * nmax < dmx := by
    have := hb.1 (by simpa using g1); omega
  have n2 : ¬dmn < 2 * nmin := by
    have := hb''.1 (by simpa using g2); omega
  rw [m2] at n1
  rw [l3] at n2
  rcases side with h | h
  · exact n1 h
  · exact n2 h

theorem reductionAttempt_some {cfg : Cfg} {A M} {k : Coef8} (hs : cfg.SafeUpTo A M)
    (hb : k.Bounded M) (hI : Inv k) {r : Reduction} (hr : Inv (given r k)) :
    Sat A (k.reductionAttempt cfg) (fun r => r ≠ none) := by
  unfold reductionAttempt
  refine Sat.bind (areSingularitiesOutsideDomain_sat hs hb) ?_
  intro b hb'
  rw [if_pos (hb'.2 hI.amen)]
  exact reductionEgest_some hs hb hI hr

/-! ## Clear primers and symbols -/

/-- The coefficients after primer `p` has been given. -/
def primed : Option Primer → Coef8 → Coef8
  | none, k => k
  | some .Turn, k => ⟨k.e, k.f, k.g, k.h, k.a, k.b, k.c, k.d⟩
  | some .Reflect, k => ⟨-k.a, -k.b, -k.c, -k.d, k.e, k.f, k.g, k.h⟩
  | some .Ground, k => ⟨-k.e, -k.f, -k.g, -k.h, k.a, k.b, k.c, k.d⟩

theorem primed_rel (p : Option Primer) (k : Coef8) : PrimerRel k p (primed p k) := by
  unfold PrimerRel
  rcases p with _ | p
  · simp [primed]
  · cases p <;> simp [primed]

theorem PrimerRel.eq {k k' : Coef8} {p} (h : PrimerRel k p k') : k' = primed p k := by
  rcases h with ⟨rfl, rfl⟩ | ⟨rfl, rfl⟩ | ⟨rfl, rfl⟩ | ⟨rfl, rfl⟩ <;> rfl

theorem Margin.le {k : Coef8} {δ} (h : k.Margin δ) : δ ≤ 1 / 2 := by
  have := (h.2 (1 / 2) (1 / 2) (by norm_num) (by norm_num) (by norm_num) (by norm_num)).2
  linarith

theorem num_eq (k : Coef8) {s t : ℚ} (h : k.denAt s t ≠ 0) : k.numAt s t = k.val s t * k.denAt s t := by
  unfold val; rw [div_mul_cancel₀ _ h]

/-- The denominators before and after a primer. -/
private theorem primed_den' (p : Option Primer) (hp : p = none ∨ p = some .Reflect) (k : Coef8) (s t : ℚ) :
    |(primed p k).denAt s t| = |k.denAt s t| := by
  rcases hp with rfl | rfl <;> rfl

private theorem primed_den'' (p : Option Primer) (hp : p = some .Turn ∨ p = some .Ground) (k : Coef8)
    (s t : ℚ) : |(primed p k).denAt s t| = |k.numAt s t| ∧ |k.denAt s t| = |(primed p k).numAt s t| := by
  rcases hp with rfl | rfl
  · exact ⟨rfl, rfl⟩
  · refine ⟨rfl, ?_⟩
    have : (primed (some .Ground) k).numAt s t = -k.denAt s t := by
      simp only [primed, numAt, denAt]; push_cast; ring
    rw [this, abs_neg]

private theorem primer_cases (p : Option Primer) : (p = none ∨ p = some .Reflect) ∨
    (p = some .Turn ∨ p = some .Ground) := by
  rcases p with _ | p
  · exact .inl (.inl rfl)
  · cases p <;> simp

/-- When primer `p` is clear, the invariant is reached with it. -/
theorem inv_primed {k : Coef8} {p : Option Primer} {δ : ℚ} (hδ : 0 < δ)
    (h : ∀ s t : ℚ, 0 < s → s < 1 → 0 < t → t < 1 → δ ≤ |k.denAt s t| ∧
      ∃ u, k.val s t = applyPrimer p u ∧ Clear δ [] u) : Inv (primed p k) := by
  refine inv_iff.2 ⟨δ, hδ, fun s t s0 s1 t0 t1 => ?_⟩
  obtain ⟨h1, u, h2, h3, h4⟩ := h s t s0 s1 t0 t1
  have hu : (primed p k).val s t = u := by
    have := (primed_rel p k).val s t
    rw [h2] at this
    have := congrArg (applyPrimer p) this
    rw [applyPrimer_invol, applyPrimer_invol] at this
    exact this.symm
  refine ⟨?_, by rw [hu]; exact h3, by rw [hu]; exact h4⟩
  rcases primer_cases p with hp | hp
  · rw [primed_den' p hp]; exact h1
  · rw [(primed_den'' p hp k s t).1]
    have hd : k.denAt s t ≠ 0 := fun e => by rw [e, abs_zero] at h1; linarith
    rw [num_eq k hd, abs_mul, h2]
    have h0 : 0 < u := by linarith
    have : 1 ≤ |applyPrimer p u| := by
      have : 1 ≤ 1 / u := by rw [le_div_iff₀ h0]; linarith
      rcases hp with rfl | rfl
      · simp only [applyPrimer]; rw [abs_of_pos (by positivity)]; exact this
      · simp only [applyPrimer]; rw [abs_neg, abs_of_pos (by positivity)]; exact this
    nlinarith [abs_nonneg (k.denAt s t)]

/-- The converse. -/
theorem clear_primed {k : Coef8} {p : Option Primer} (h : Inv (primed p k)) :
    ∃ δ : ℚ, 0 < δ ∧ ∀ s t : ℚ, 0 < s → s < 1 → 0 < t → t < 1 → δ ≤ |k.denAt s t| ∧
      k.val s t = applyPrimer p ((primed p k).val s t) := by
  obtain ⟨δ, hm⟩ := inv_iff.1 h
  have hle := hm.le
  obtain ⟨hδ, h⟩ := hm
  refine ⟨δ * δ, by positivity, fun s t s0 s1 t0 t1 => ?_⟩
  obtain ⟨h1, h2, h3⟩ := h s t s0 s1 t0 t1
  refine ⟨?_, (primed_rel p k).val s t⟩
  rcases primer_cases p with hp | hp
  · rw [← primed_den' p hp]; nlinarith
  · rw [(primed_den'' p hp k s t).2]
    have hd : (primed p k).denAt s t ≠ 0 := fun e => by rw [e, abs_zero] at h1; linarith
    rw [num_eq _ hd, abs_mul, abs_of_pos (by linarith : 0 < (primed p k).val s t)]
    nlinarith

/-- When symbol `r` is clear, the invariant is kept with it. -/
theorem inv_given {k : Coef8} (hI : Inv k) {r : Reduction} {δ : ℚ} (hδ : 0 < δ)
    (h : ∀ s t : ℚ, 0 < s → s < 1 → 0 < t → t < 1 → Clear δ [r] (k.val s t)) :
    Inv (given r k) := by
  obtain ⟨δk, hδk, hk⟩ := inv_iff.1 hI
  have hδ1 : δ ≤ 1 := by
    have := (h (1 / 2) (1 / 2) (by norm_num) (by norm_num) (by norm_num) (by norm_num)).mem
    linarith
  have hm : 0 < δ * δk := by positivity
  refine inv_iff.2 ⟨min δ (δ * δk), lt_min hδ hm, fun s t s0 s1 t0 t1 => ?_⟩
  obtain ⟨a1, -, -⟩ := hk s t s0 s1 t0 t1
  have hd : k.denAt s t ≠ 0 := fun e => by rw [e, abs_zero] at a1; linarith
  have hc := h s t s0 s1 t0 t1
  have hc' := hc.mem
  cases r
  · have h2 : δ ≤ 2 * k.val s t ∧ 2 * k.val s t ≤ 1 - δ := hc.2
    have hv : (given .Amplify k).val s t = 2 * k.val s t := by
      simp only [given, val, numAt, denAt]
      push_cast
      rw [← mul_div_assoc]
      congr 1; ring
    rw [hv]
    refine ⟨(min_le_right _ _).trans ?_, (min_le_left _ _).trans h2.1, h2.2.trans ?_⟩
    · change _ ≤ |k.denAt s t|
      nlinarith
    · linarith [min_le_left δ (δ * δk)]
  · have h2 : δ ≤ 1 / k.val s t - 1 ∧ 1 / k.val s t - 1 ≤ 1 - δ := hc.2
    have hv0 : 0 < k.val s t := by linarith
    have hn : k.numAt s t ≠ 0 := fun e => by
      rw [val, e, zero_div] at hv0; linarith
    have hv : (given .Uncover k).val s t = 1 / k.val s t - 1 := by
      rw [show k.val s t = k.numAt s t / k.denAt s t from rfl, one_div_div, div_sub_one hn]
      simp only [given, val, numAt, denAt]
      push_cast
      congr 1; ring
    rw [hv]
    refine ⟨(min_le_right _ _).trans ?_, (min_le_left _ _).trans h2.1, h2.2.trans ?_⟩
    · change _ ≤ |k.numAt s t|
      rw [num_eq _ hd, abs_mul, abs_of_pos hv0]
      nlinarith
    · linarith [min_le_left δ (δ * δk)]

/-! ## Reading symbols -/

/-- `k'` is `k` after reading `lx` and `ly`. -/
def After (k : Coef8) (lx ly : List Reduction) (k' : Coef8) : Prop :=
  ∃ c0 c1 : ℚ, 0 < c0 ∧ 0 < c1 ∧ ∀ s t : ℚ, 0 < s → s < 1 → 0 < t → t < 1 → ∃ c, c0 ≤ |c| ∧ |c| ≤ c1 ∧
    k'.numAt s t = c * k.numAt (unread lx s) (unread ly t) ∧
    k'.denAt s t = c * k.denAt (unread lx s) (unread ly t)

theorem After.nil (k : Coef8) : k.After [] [] k :=
  ⟨1, 1, one_pos, one_pos, fun _ _ _ _ _ _ => ⟨1, by simp, by simp, (one_mul _).symm, (one_mul _).symm⟩⟩

theorem After.val {k k' : Coef8} {lx ly} (h : k.After lx ly k') {s t : ℚ} (s0 : 0 < s) (s1 : s < 1)
    (t0 : 0 < t) (t1 : t < 1) : k'.val s t = k.val (unread lx s) (unread ly t) := by
  obtain ⟨c0, c1, h0, -, h⟩ := h
  obtain ⟨c, h1, h2, h3, h4⟩ := h s t s0 s1 t0 t1
  have hc : c ≠ 0 := fun e => by rw [e, abs_zero] at h1; linarith
  rw [Coef8.val, Coef8.val, h3, h4, mul_div_mul_left _ _ hc]

theorem After.trans {k k' k'' : Coef8} {lx ly lx' ly'} (h : k.After lx ly k')
    (h' : k'.After lx' ly' k'') : k.After (lx ++ lx') (ly ++ ly') k'' := by
  obtain ⟨c0, c1, p0, p1, h⟩ := h
  obtain ⟨d0, d1, q0, q1, h'⟩ := h'
  refine ⟨d0 * c0, d1 * c1, by positivity, by positivity, fun s t s0 s1 t0 t1 => ?_⟩
  obtain ⟨d, g1, g2, g3, g4⟩ := h' s t s0 s1 t0 t1
  have hs := unread_mem lx' s0 s1
  have ht := unread_mem ly' t0 t1
  obtain ⟨c, f1, f2, f3, f4⟩ := h _ _ hs.1 hs.2 ht.1 ht.2
  refine ⟨d * c, ?_, ?_, ?_, ?_⟩
  · rw [abs_mul]; exact mul_le_mul g1 f1 p0.le (abs_nonneg _)
  · rw [abs_mul]; exact mul_le_mul g2 f2 (abs_nonneg _) q1.le
  · rw [g3, f3, unread_append, unread_append]; ring
  · rw [g4, f4, unread_append, unread_append]; ring

theorem IngX.after {r : Reduction} {k k' : Coef8} (h : IngX r k k') : k.After [r] [] k' := by
  cases r
  · obtain ⟨c, hc, ⟨a1, a2, a3, a4⟩, a5, a6, a7, a8⟩ := h
    have hs' : (c : ℚ) ≠ 0 := by rcases hc with rfl | rfl <;> norm_num
    have b1 : (c : ℚ) * k'.a = k.a := by exact_mod_cast a1
    have b2 : (c : ℚ) * k'.b = k.b := by exact_mod_cast a2
    have b3 : (c : ℚ) * k'.c = 2 * k.c := by exact_mod_cast a3
    have b4 : (c : ℚ) * k'.d = 2 * k.d := by exact_mod_cast a4
    have b5 : (c : ℚ) * k'.e = k.e := by exact_mod_cast a5
    have b6 : (c : ℚ) * k'.f = k.f := by exact_mod_cast a6
    have b7 : (c : ℚ) * k'.g = 2 * k.g := by exact_mod_cast a7
    have b8 : (c : ℚ) * k'.h = 2 * k.h := by exact_mod_cast a8
    refine ⟨1, 2, one_pos, two_pos, fun s t s0 s1 t0 t1 => ⟨2 / c, ?_, ?_, ?_, ?_⟩⟩
    · rcases hc with rfl | rfl <;> norm_num
    · rcases hc with rfl | rfl <;> norm_num
    · rw [div_mul_eq_mul_div, eq_div_iff hs']
      simp only [numAt, unread, unread1]
      linear_combination s * t * b1 + s * b2 + t * b3 + b4
    · rw [div_mul_eq_mul_div, eq_div_iff hs']
      simp only [denAt, unread, unread1]
      linear_combination s * t * b5 + s * b6 + t * b7 + b8
  · obtain rfl : k' = _ := h
    refine ⟨1, 2, one_pos, two_pos, fun s t s0 s1 t0 t1 => ⟨1 + s, ?_, ?_, ?_, ?_⟩⟩
    · rw [abs_of_pos (by linarith)]; linarith
    · rw [abs_of_pos (by linarith)]; linarith
    · simp only [numAt, unread, unread1]; push_cast; field_simp; ring
    · simp only [denAt, unread, unread1]; push_cast; field_simp; ring

theorem IngY.after {r : Reduction} {k k' : Coef8} (h : IngY r k k') : k.After [] [r] k' := by
  cases r
  · obtain ⟨c, hc, ⟨a1, a2, a3, a4⟩, a5, a6, a7, a8⟩ := h
    have hs' : (c : ℚ) ≠ 0 := by rcases hc with rfl | rfl <;> norm_num
    have b1 : (c : ℚ) * k'.a = k.a := by exact_mod_cast a1
    have b2 : (c : ℚ) * k'.b = 2 * k.b := by exact_mod_cast a2
    have b3 : (c : ℚ) * k'.c = k.c := by exact_mod_cast a3
    have b4 : (c : ℚ) * k'.d = 2 * k.d := by exact_mod_cast a4
    have b5 : (c : ℚ) * k'.e = k.e := by exact_mod_cast a5
    have b6 : (c : ℚ) * k'.f = 2 * k.f := by exact_mod_cast a6
    have b7 : (c : ℚ) * k'.g = k.g := by exact_mod_cast a7
    have b8 : (c : ℚ) * k'.h = 2 * k.h := by exact_mod_cast a8
    refine ⟨1, 2, one_pos, two_pos, fun s t s0 s1 t0 t1 => ⟨2 / c, ?_, ?_, ?_, ?_⟩⟩
    · rcases hc with rfl | rfl <;> norm_num
    · rcases hc with rfl | rfl <;> norm_num
    · rw [div_mul_eq_mul_div, eq_div_iff hs']
      simp only [numAt, unread, unread1]
      linear_combination s * t * b1 + s * b2 + t * b3 + b4
    · rw [div_mul_eq_mul_div, eq_div_iff hs']
      simp only [denAt, unread, unread1]
      linear_combination s * t * b5 + s * b6 + t * b7 + b8
  · obtain rfl : k' = _ := h
    refine ⟨1, 2, one_pos, two_pos, fun s t s0 s1 t0 t1 => ⟨1 + t, ?_, ?_, ?_, ?_⟩⟩
    · rw [abs_of_pos (by linarith)]; linarith
    · rw [abs_of_pos (by linarith)]; linarith
    · simp only [numAt, unread, unread1]; push_cast; field_simp; ring
    · simp only [denAt, unread, unread1]; push_cast; field_simp; ring

/-- Primer `p` and the symbols `out` are clear from `lx` and `ly`. -/
def IsClear (k : Coef8) (lx ly : List Reduction) (p : Option Primer) (out : List Reduction) : Prop :=
  ∃ δ : ℚ, 0 < δ ∧ ∀ s t : ℚ, 0 < s → s < 1 → 0 < t → t < 1 →
    δ ≤ |k.denAt (unread lx s) (unread ly t)| ∧
    ∃ u, k.val (unread lx s) (unread ly t) = applyPrimer p u ∧ Clear δ out u

theorem IsClear.less {k : Coef8} {lx ly p out} (h : k.IsClear lx ly p out) : k.IsClear lx ly p [] := by
  obtain ⟨δ, h0, h⟩ := h
  refine ⟨δ, h0, fun s t s0 s1 t0 t1 => ?_⟩
  obtain ⟨h1, u, h2, h3⟩ := h s t s0 s1 t0 t1
  exact ⟨h1, u, h2, h3.mem⟩

theorem After.isClear {k k' : Coef8} {lx ly} (h : k.After lx ly k') {lx' ly' p out} :
    k'.IsClear lx' ly' p out ↔ k.IsClear (lx ++ lx') (ly ++ ly') p out := by
  have hv := fun {s t : ℚ} (s0 : 0 < s) (s1 : s < 1) (t0 : 0 < t) (t1 : t < 1) => h.val s0 s1 t0 t1
  obtain ⟨c0, c1, p0, p1, h⟩ := h
  constructor
  · rintro ⟨δ, h0, g⟩
    refine ⟨min δ (δ / c1), lt_min h0 (by positivity), fun s t s0 s1 t0 t1 => ?_⟩
    obtain ⟨g1, u, g2, g3⟩ := g s t s0 s1 t0 t1
    have hs := unread_mem lx' s0 s1
    have ht := unread_mem ly' t0 t1
    obtain ⟨c, f1, f2, f3, f4⟩ := h _ _ hs.1 hs.2 ht.1 ht.2
    rw [hv hs.1 hs.2 ht.1 ht.2] at g2
    rw [unread_append, unread_append]
    refine ⟨(min_le_right _ _).trans ?_, u, g2, g3.mono (min_le_left _ _)⟩
    rw [f4, abs_mul] at g1
    rw [div_le_iff₀ p1]
    have := mul_le_mul_of_nonneg_right f2
      (abs_nonneg (k.denAt (unread lx (unread lx' s)) (unread ly (unread ly' t))))
    linarith
  · rintro ⟨δ, h0, g⟩
    refine ⟨min δ (δ * c0), lt_min h0 (by positivity), fun s t s0 s1 t0 t1 => ?_⟩
    obtain ⟨g1, u, g2, g3⟩ := g s t s0 s1 t0 t1
    have hs := unread_mem lx' s0 s1
    have ht := unread_mem ly' t0 t1
    obtain ⟨c, f1, f2, f3, f4⟩ := h _ _ hs.1 hs.2 ht.1 ht.2
    rw [unread_append, unread_append] at g1 g2
    rw [hv hs.1 hs.2 ht.1 ht.2]
    refine ⟨(min_le_right _ _).trans ?_, u, g2, g3.mono (min_le_left _ _)⟩
    rw [f4, abs_mul, mul_comm δ c0]
    exact mul_le_mul f1 g1 h0.le (abs_nonneg _)

end Coef8

/-- A call that gives no answer: it panics or does not end. -/
def Out.stop {α : Type} : Option Panic → Out α
  | some P => .panic P
  | none => .timeout

@[simp] theorem Out.stop_bind {α β : Type} (h : Option Panic) (f : α → Out β) :
    (Out.stop h >>= f) = Out.stop h := by
  cases h <;> rfl

/-- Reading one more pair gives no answer. -/
def Halts (eg : EgestFn) (x y : Clog) (h : Option Panic) : Prop :=
  eg x = Out.stop h ∨ ∃ r x', eg x = .ok (some r, x') ∧ eg y = Out.stop h

theorem Cfg.SafeUpTo.head4 {cfg : Cfg} {A M} {n : Nat} (hs : cfg.SafeUpTo A (M * 4 ^ n))
    (hM : 1 ≤ M) : cfg.SafeUpTo A M :=
  hs.mono (by omega) (le_mul_of_one_le_right (by omega) (one_le_pow₀ (by norm_num)))

theorem Cfg.SafeUpTo.tail4 {cfg : Cfg} {A M} {n : Nat} (hs : cfg.SafeUpTo A (M * 4 ^ (n + 1))) :
    cfg.SafeUpTo A (2 * (2 * M) * 4 ^ n) := by
  convert hs using 1; rw [pow_succ]; ring

namespace Combine

/-- What `prime` does on operands that give `lx`, `ly` and leave `x'`, `y'`. -/
def PrimeReads (A : Panic → Prop) (M : Int) (eg : EgestFn) (lx ly : List Reduction)
    (x x' y y' : Clog) (k : Coef8) (o : Out Primed) : Prop :=
  (∃ p, A p ∧ o = .panic p) ∨
  (∃ lx1 lx2 ly1 ly2 x1 y1 k0 p, lx = lx1 ++ lx2 ∧ ly = ly1 ++ ly2 ∧ lx1.length = ly1.length ∧
    (Reads eg lx1 x x1 ∧ Reads eg lx2 x1 x') ∧ (Reads eg ly1 y y1 ∧ Reads eg ly2 y1 y') ∧
    k.After lx1 ly1 k0 ∧ Coef8.Inv (Coef8.primed p k0) ∧
    (Coef8.primed p k0).Bounded (M * 4 ^ lx1.length) ∧
    o = .ok (none, p, none, none, some ⟨x1, y1, Coef8.primed p k0⟩)) ∨
  ((∀ p, ¬k.IsClear lx ly p []) ∧
    ∀ h, Halts eg x' y' h → (∃ p, A p ∧ o = .panic p) ∨ o = Out.stop h)

theorem PrimeReads.cons {A M} {eg : EgestFn} {lx ly rx ry x x1 x' y y1 y' k k' o}
    (h : PrimeReads A (2 * (2 * M)) eg lx ly x1 x' y1 y' k' o) (hx : eg x = .ok (some rx, x1))
    (hy : eg y = .ok (some ry, y1)) (hk : k.After [rx] [ry] k') :
    PrimeReads A M eg (rx :: lx) (ry :: ly) x x' y y' k o := by
  rcases h with h | ⟨lx1, lx2, ly1, ly2, x2, y2, k0, p, e1, e2, e3, h1, h2, h3, h4, h6, h5⟩ |
    ⟨h1, h2⟩
  · exact .inl h
  · exact .inr (.inl ⟨rx :: lx1, lx2, ry :: ly1, ly2, x2, y2, k0, p, by rw [e1]; rfl, by rw [e2]; rfl,
      by simp [e3], ⟨⟨x1, hx, h1.1⟩, h1.2⟩, ⟨⟨y1, hy, h2.1⟩, h2.2⟩, hk.trans h3, h4,
      by rw [List.length_cons, pow_succ']; convert h6 using 1; ring, h5⟩)
  · exact .inr (.inr ⟨fun p hp => h1 p (hk.isClear.2 hp), h2⟩)

theorem prime_reads {cfg : Cfg} {A} {eg : EgestFn} (j : Nat)
    (lx : List Reduction) : ∀ {ly : List Reduction} {x x' y y' : Clog} {k : Coef8} {M : Int},
    cfg.SafeUpTo A (M * 4 ^ lx.length) → k.Bounded M → lx.length = ly.length → Reads eg lx x x' → Reads eg ly y y' →
    PrimeReads A M eg lx ly x x' y y' k (prime cfg eg (j + lx.length + 1) ⟨x, y, k⟩) := by
  induction lx with
  | nil =>
    intro ly x x' y y' k M hs' hb hlen hx hy
    obtain rfl : ly = [] := List.length_eq_zero_iff.1 hlen.symm
    cases hx
    cases hy
    have hs := hs'.head4 hb.pos
    have h1 := Coef8.primerAttempt_sat hs hb
    simp only [prime]
    cases e : k.primerAttempt cfg with
    | ok o =>
      rw [e] at h1
      rcases o with _ | ⟨p, k'⟩
      · refine .inr (.inr ⟨fun p hp => ?_, fun h hh => ?_⟩)
        · obtain ⟨δ, hδ, hp⟩ := hp
          have := Coef8.primerAttempt_some hs hb (Coef8.primed_rel p k) (Coef8.inv_primed hδ hp)
          rw [e] at this
          exact this rfl
        · rcases hh with hh | ⟨r, x2, hx, hy⟩
          · right; simp only [ok_bind, primeIngest, hh, Out.stop_bind]
          · simp only [ok_bind, primeIngest, hx]
            have h2 := Coef8.ingestX_sat r hs hb
            cases e2 : k.ingestX cfg r with
            | ok k1 => right; simp only [ok_bind, hy, Out.stop_bind]
            | panic p => rw [e2] at h2; exact .inl ⟨p, h2, rfl⟩
            | timeout => rw [e2] at h2; exact h2.elim
      · obtain ⟨g1, g2, -⟩ := h1 p k' rfl
        obtain rfl := g1.eq
        exact .inr (.inl ⟨[], [], [], [], x, y, k, p, rfl, rfl, rfl, ⟨rfl, rfl⟩, ⟨rfl, rfl⟩, .nil k,
          g2, by simpa using g1.bounded hb, rfl⟩)
    | panic p =>
      rw [e] at h1
      exact .inl ⟨p, h1, rfl⟩
    | timeout =>
      rw [e] at h1
      exact h1.elim
  | cons rx lx ih =>
    rintro (_ | ⟨ry, ly⟩) x x' y y' k M hs' hb hlen hx hy
    · cases hlen
    have hs := hs'.head4 hb.pos
    have ht := hs'.tail4
    have h1 := Coef8.primerAttempt_sat hs hb
    rw [List.length_cons, ← add_assoc]
    simp only [prime]
    cases e : k.primerAttempt cfg with
    | ok o =>
      rw [e] at h1
      rcases o with _ | ⟨p, k'⟩
      · obtain ⟨x1, hx, hlx⟩ := hx
        obtain ⟨y1, hy, hly⟩ := hy
        simp only [ok_bind, primeIngest, hx]
        have h2 := Coef8.ingestX_sat rx hs hb
        cases e2 : k.ingestX cfg rx with
        | panic p => rw [e2] at h2; exact .inl ⟨p, h2, rfl⟩
        | timeout => rw [e2] at h2; exact h2.elim
        | ok k1 =>
          rw [e2] at h2
          replace h2 : Coef8.IngX rx k k1 := h2
          have hb' := h2.bounded hb
          have h3 := Coef8.ingestY_sat ry ((ht.head4 (by have := hb.pos; omega)).mono
            (by have := hb.pos; omega) (by have := hb.pos; omega)) hb'
          simp only [ok_bind, hy]
          cases e3 : k1.ingestY cfg ry with
          | panic p => rw [e3] at h3; exact .inl ⟨p, h3, rfl⟩
          | timeout => rw [e3] at h3; exact h3.elim
          | ok k2 =>
            rw [e3] at h3
            replace h3 : Coef8.IngY ry k1 k2 := h3
            have hl : lx.length = ly.length := by simpa using hlen
            exact (ih ht (h3.bounded hb') hl hlx hly).cons hx hy (h2.after.trans h3.after)
      · obtain ⟨g1, g2, -⟩ := h1 p k' rfl
        obtain rfl := g1.eq
        exact .inr (.inl ⟨[], _, [], _, x, y, k, p, rfl, rfl, rfl, ⟨rfl, hx⟩, ⟨rfl, hy⟩, .nil k,
          g2, by simpa using g1.bounded hb, rfl⟩)
    | panic p =>
      rw [e] at h1
      exact .inl ⟨p, h1, rfl⟩
    | timeout =>
      rw [e] at h1
      exact h1.elim

/-- What `egest` does on operands that give `lx`, `ly` and leave `x'`, `y'`. -/
def EgestReads (A : Panic → Prop) (M : Int) (eg : EgestFn) (lx ly : List Reduction)
    (x x' y y' : Clog) (k : Coef8) (o : Out (Egested × Combine)) : Prop :=
  (∃ p, A p ∧ o = .panic p) ∨
  (∃ lx1 lx2 ly1 ly2 x1 y1 k1 r, lx = lx1 ++ lx2 ∧ ly = ly1 ++ ly2 ∧ lx1.length = ly1.length ∧
    (Reads eg lx1 x x1 ∧ Reads eg lx2 x1 x') ∧ (Reads eg ly1 y y1 ∧ Reads eg ly2 y1 y') ∧
    Coef8.Inv k1 ∧ k1.Bounded (M * 4 ^ lx1.length) ∧
    (∀ s t : ℚ, 0 < s → s < 1 → 0 < t → t < 1 →
      sym (k.val (unread lx1 s) (unread ly1 t)) = some r ∧
      k1.val s t = next (k.val (unread lx1 s) (unread ly1 t))) ∧
    o = .ok (.ok (some r), ⟨x1, y1, k1⟩)) ∨
  ((∀ r, ¬∃ δ : ℚ, 0 < δ ∧ ∀ s t : ℚ, 0 < s → s < 1 → 0 < t → t < 1 →
      Clear δ [r] (k.val (unread lx s) (unread ly t))) ∧
    ∀ h, Halts eg x' y' h → (∃ p, A p ∧ o = .panic p) ∨ o = Out.stop h)

theorem EgestReads.cons {A M} {eg : EgestFn} {lx ly rx ry x x1 x' y y1 y' k k' o}
    (h : EgestReads A (2 * (2 * M)) eg lx ly x1 x' y1 y' k' o) (hx : eg x = .ok (some rx, x1))
    (hy : eg y = .ok (some ry, y1)) (hk : k.After [rx] [ry] k') :
    EgestReads A M eg (rx :: lx) (ry :: ly) x x' y y' k o := by
  rcases h with h | ⟨lx1, lx2, ly1, ly2, x2, y2, k1, r, e1, e2, e3, h1, h2, h3, h6, h4, h5⟩ |
    ⟨h1, h2⟩
  · exact .inl h
  · refine .inr (.inl ⟨rx :: lx1, lx2, ry :: ly1, ly2, x2, y2, k1, r, by rw [e1]; rfl, by rw [e2]; rfl,
      by simp [e3], ⟨⟨x1, hx, h1.1⟩, h1.2⟩, ⟨⟨y1, hy, h2.1⟩, h2.2⟩, h3,
      by rw [List.length_cons, pow_succ']; convert h6 using 1; ring, ?_, h5⟩)
    intro s t s0 s1 t0 t1
    have := h4 s t s0 s1 t0 t1
    have hs := unread_mem lx1 s0 s1
    have ht := unread_mem ly1 t0 t1
    rwa [hk.val hs.1 hs.2 ht.1 ht.2] at this
  · refine .inr (.inr ⟨?_, h2⟩)
    rintro r ⟨δ, hδ, hr⟩
    refine h1 r ⟨δ, hδ, fun s t s0 s1 t0 t1 => ?_⟩
    have hs := unread_mem lx s0 s1
    have ht := unread_mem ly t0 t1
    rw [hk.val hs.1 hs.2 ht.1 ht.2]
    exact hr s t s0 s1 t0 t1

theorem egest_reads {cfg : Cfg} {A} {eg : EgestFn} (j : Nat)
    (lx : List Reduction) : ∀ {ly : List Reduction} {x x' y y' : Clog} {k : Coef8} {M : Int},
    cfg.SafeUpTo A (M * 4 ^ lx.length) → k.Bounded M →
    lx.length = ly.length → Reads eg lx x x' → Reads eg ly y y' → Coef8.Inv k →
    EgestReads A M eg lx ly x x' y y' k (egest cfg eg (j + lx.length + 1) ⟨x, y, k⟩) := by
  have step : ∀ (lx ly : List Reduction) {x x' y y' : Clog} {k k' : Coef8} {r} {M : Int},
      (k.reductionAttempt cfg) = .ok (some (r, k')) → cfg.SafeUpTo A M → k.Bounded M → Reads eg lx x x' → Reads eg ly y y' →
      Coef8.Inv k → EgestReads A M eg lx ly x x' y y' k (.ok (.ok r, ⟨x, y, k'⟩)) := by
    intro lx ly x x' y y' k k' r M e hs hb hx hy hI
    have h1 := Coef8.reductionAttempt_sat hs hb hI
    rw [e] at h1
    have h2 := h1 r k' rfl
    obtain ⟨r, rfl⟩ : ∃ r0, r = some r0 := by
      rcases h2 with ⟨_, ⟨rfl, _⟩ | ⟨rfl, _⟩⟩ | ⟨_, ⟨rfl, _⟩ | ⟨rfl, _⟩⟩ <;> exact ⟨_, rfl⟩
    have h3 := Coef8.red_step (u := 1 / 2) (v := 1 / 2) (by norm_num) (by norm_num) (by norm_num)
      (by norm_num) hb h2
    refine .inr (.inl ⟨[], lx, [], ly, x, y, k', r, rfl, rfl, rfl, ⟨rfl, hx⟩, ⟨rfl, hy⟩, h3.2.1,
      by simpa using h3.2.2.1, ?_, rfl⟩)
    intro s t s0 s1 t0 t1
    have h4 := Coef8.red_step s0 s1 t0 t1 hb h2
    exact ⟨h4.1.symm, h4.2.2.2⟩
  induction lx with
  | nil =>
    intro ly x x' y y' k M hs' hb hlen hx hy hI
    obtain rfl : ly = [] := List.length_eq_zero_iff.1 hlen.symm
    have hs := hs'.head4 hb.pos
    have h1 := Coef8.reductionAttempt_sat hs hb hI
    simp only [egest]
    cases e : k.reductionAttempt cfg with
    | ok o =>
      rw [e] at h1
      rcases o with _ | ⟨r, k'⟩
      · cases hx
        cases hy
        refine .inr (.inr ⟨?_, fun h hh => ?_⟩)
        · rintro r ⟨δ, hδ, hr⟩
          have := Coef8.reductionAttempt_some hs hb hI (Coef8.inv_given hI hδ hr)
          rw [e] at this
          exact this rfl
        · rcases hh with hh | ⟨r, x2, hx, hy⟩
          · right; simp only [ok_bind, reductionIngest, hh, Out.stop_bind]
          · simp only [ok_bind, reductionIngest, hx]
            have h2 := Coef8.ingestX_sat r hs hb
            cases e2 : k.ingestX cfg r with
            | ok k1 => right; simp only [ok_bind, hy, Out.stop_bind]
            | panic p => rw [e2] at h2; exact .inl ⟨p, h2, rfl⟩
            | timeout => rw [e2] at h2; exact h2.elim
      · exact step [] [] e hs hb hx hy hI
    | panic p => rw [e] at h1; exact .inl ⟨p, h1, rfl⟩
    | timeout => rw [e] at h1; exact h1.elim
  | cons rx lx ih =>
    rintro (_ | ⟨ry, ly⟩) x x' y y' k M hs' hb hlen hx hy hI
    · cases hlen
    have hs := hs'.head4 hb.pos
    have ht := hs'.tail4
    have h1 := Coef8.reductionAttempt_sat hs hb hI
    rw [List.length_cons, ← add_assoc]
    simp only [egest]
    cases e : k.reductionAttempt cfg with
    | ok o =>
      rw [e] at h1
      rcases o with _ | ⟨r', k'⟩
      · obtain ⟨x1, hx, hlx⟩ := hx
        obtain ⟨y1, hy, hly⟩ := hy
        simp only [ok_bind, reductionIngest, hx]
        have h2 := Coef8.ingestX_sat rx hs hb
        cases e2 : k.ingestX cfg rx with
        | panic p => rw [e2] at h2; exact .inl ⟨p, h2, rfl⟩
        | timeout => rw [e2] at h2; exact h2.elim
        | ok k1 =>
          rw [e2] at h2
          replace h2 : Coef8.IngX rx k k1 := h2
          have hb' := h2.bounded hb
          have h3 := Coef8.ingestY_sat ry ((ht.head4 (by have := hb.pos; omega)).mono
            (by have := hb.pos; omega) (by have := hb.pos; omega)) hb'
          simp only [ok_bind, hy]
          cases e3 : k1.ingestY cfg ry with
          | panic p => rw [e3] at h3; exact .inl ⟨p, h3, rfl⟩
          | timeout => rw [e3] at h3; exact h3.elim
          | ok k2 =>
            rw [e3] at h3
            replace h3 : Coef8.IngY ry k1 k2 := h3
            have hl : lx.length = ly.length := by simpa using hlen
            exact (ih ht (h3.bounded hb') hl hlx hly (h3.inv (h2.inv hI))).cons hx hy (h2.after.trans h3.after)
      · exact step _ _ e hs hb hx hy hI
    | panic p => rw [e] at h1; exact .inl ⟨p, h1, rfl⟩
    | timeout => rw [e] at h1; exact h1.elim

end Combine

/-- What `m` calls of `egest` do on a `Combine` whose operands give `lx`, `ly` and leave `x'`,
`y'`. -/
def EgestsRead8 (A : Panic → Prop) (eg : EgestFn) (m : Nat) (lx ly : List Reduction) (x x' y y' : Clog) (k : Coef8)
    (o : Out (List (Option Reduction) × Clog)) : Prop :=
  (∃ p, A p ∧ o = .panic p) ∨
  (∃ lx1 lx2 ly1 ly2 x1 y1 k1 out, lx = lx1 ++ lx2 ∧ ly = ly1 ++ ly2 ∧ lx1.length = ly1.length ∧
    (Reads eg lx1 x x1 ∧ Reads eg lx2 x1 x') ∧ (Reads eg ly1 y y1 ∧ Reads eg ly2 y1 y') ∧
    out.length = m ∧
    (∃ δ : ℚ, 0 < δ ∧ ∀ s t : ℚ, 0 < s → s < 1 → 0 < t → t < 1 →
      Clear δ out (k.val (unread lx1 s) (unread ly1 t))) ∧
    o = .ok (out.map some, .combine x1 y1 k1)) ∨
  ((∀ out, out.length = m → ¬∃ δ : ℚ, 0 < δ ∧ ∀ s t : ℚ, 0 < s → s < 1 → 0 < t → t < 1 →
      Clear δ out (k.val (unread lx s) (unread ly t))) ∧
    ∀ h, Halts eg x' y' h → (∃ p, A p ∧ o = .panic p) ∨ o = Out.stop h)

theorem Clog.egests_reads8 {cfg : Cfg} {A} {f : Nat} (m : Nat) :
    ∀ {lx ly : List Reduction} {x x' y y' : Clog} {k : Coef8} {M : Int},
    cfg.SafeUpTo A (M * 4 ^ lx.length) → k.Bounded M → lx.length < f →
    lx.length = ly.length → Reads (Clog.egest cfg f) lx x x' → Reads (Clog.egest cfg f) ly y y' →
    Coef8.Inv k → EgestsRead8 A (Clog.egest cfg f) m lx ly x x' y y' k
      (Clog.egests cfg (f + 1) m (.combine x y k)) := by
  induction m with
  | zero =>
    intro lx ly x x' y y' k M _ _ _ _ hx hy hI
    obtain ⟨δ, hδ, h⟩ := Coef8.inv_iff.1 hI
    exact .inr (.inl ⟨[], lx, [], ly, x, y, k, [], rfl, rfl, rfl, ⟨rfl, hx⟩, ⟨rfl, hy⟩, rfl,
      ⟨δ, hδ, fun s t s0 s1 t0 t1 => (h s t s0 s1 t0 t1).2⟩, rfl⟩)
  | succ m ih =>
    intro lx ly x x' y y' k M hs hb hl hlen hx hy hI
    have h := Combine.egest_reads (f - lx.length - 1) lx hs hb hlen hx hy hI
    rw [show f - lx.length - 1 + lx.length + 1 = f by omega] at h
    rw [egests_succ]
    simp only [Clog.egest, Strategy.egest]
    rcases h with ⟨p, hp, e⟩ |
      ⟨lx1, lx2, ly1, ly2, x1, y1, k1, r, rfl, rfl, e3, h1, h2, h3, hb1, h4, e⟩ | ⟨h1, h2⟩
    · exact .inl ⟨p, hp, by simp [e]⟩
    · simp only [e, ok_bind, pure_eq, Combine.box]
      rw [List.length_append] at hl
      rw [List.length_append, List.length_append] at hlen
      have hval : ∀ s t : ℚ, 0 < s → s < 1 → 0 < t → t < 1 →
          0 < k.val (unread lx1 s) (unread ly1 t) ∧ k.val (unread lx1 s) (unread ly1 t) < 1 := by
        intro s t s0 s1 t0 t1
        have hs := unread_mem lx1 s0 s1
        have ht := unread_mem ly1 t0 t1
        exact hI.val_mem hs.1 hs.2 ht.1 ht.2
      obtain ⟨δk, hδk, hk⟩ := Coef8.inv_iff.1 hI
      have hs2 : cfg.SafeUpTo A (M * 4 ^ lx1.length * 4 ^ lx2.length) := by
        convert hs using 1; rw [List.length_append, pow_add]; ring
      rcases ih hs2 hb1 (by omega) (by omega) h1.2 h2.2 h3 with ⟨p, hp, e'⟩ |
        ⟨lx3, lx4, ly3, ly4, x2, y2, k2, out, rfl, rfl, g0, g1, g2, g3, ⟨δ, hδ, g4⟩, e'⟩ | ⟨g1, g2⟩
      · exact .inl ⟨p, hp, by simp only [e', panic_bind]⟩
      · refine .inr (.inl ⟨lx1 ++ lx3, lx4, ly1 ++ ly3, ly4, x2, y2, k2, r :: out,
          by rw [List.append_assoc], by rw [List.append_assoc], by simp [e3, g0],
          ⟨h1.1.append g1.1, g1.2⟩, ⟨h2.1.append g2.1, g2.2⟩, by simp [g3],
          ⟨min δ δk, lt_min hδ hδk, ?_⟩, by simp only [e', ok_bind, List.map_cons]⟩)
        intro s t s0 s1 t0 t1
        have hs := unread_mem lx3 s0 s1
        have ht := unread_mem ly3 t0 t1
        obtain ⟨f1, f2⟩ := h4 _ _ hs.1 hs.2 ht.1 ht.2
        rw [unread_append, unread_append, clear_cons (lt_min hδ hδk)]
        have hs' := unread_mem lx1 hs.1 hs.2
        have ht' := unread_mem ly1 ht.1 ht.2
        have hm := (hk _ _ hs'.1 hs'.2 ht'.1 ht'.2).2
        refine ⟨⟨(min_le_right _ _).trans hm.1, hm.2.trans ?_⟩, f1, ?_⟩
        · linarith [min_le_right δ δk]
        · rw [← f2]
          exact (g4 s t s0 s1 t0 t1).mono (min_le_left _ _)
      · refine .inr (.inr ⟨?_, fun h hh => ?_⟩)
        · rintro (_ | ⟨r', out⟩) hout ⟨δ, hδ, hcl⟩
          · cases hout
          · refine g1 out (by simpa using hout) ⟨δ, hδ, fun s t s0 s1 t0 t1 => ?_⟩
            have hs := unread_mem lx2 s0 s1
            have ht := unread_mem ly2 t0 t1
            obtain ⟨f1, f2⟩ := h4 _ _ hs.1 hs.2 ht.1 ht.2
            have := hcl s t s0 s1 t0 t1
            rw [unread_append, unread_append, clear_cons hδ] at this
            rw [f2]
            exact this.2.2
        · rcases g2 h hh with ⟨p, hp, e'⟩ | e'
          · exact .inl ⟨p, hp, by simp only [e', panic_bind]⟩
          · exact .inr (by simp only [e', Out.stop_bind])
    · refine .inr (.inr ⟨?_, fun h hh => ?_⟩)
      · rintro (_ | ⟨r', out⟩) hout ⟨δ, hδ, hcl⟩
        · cases hout
        · refine h1 r' ⟨δ, hδ, fun s t s0 s1 t0 t1 => ?_⟩
          have := hcl s t s0 s1 t0 t1
          rw [clear_cons hδ] at this ⊢
          exact ⟨this.1, this.2.1, this.2.2.mem⟩
      · rcases h2 h hh with ⟨p, hp, e'⟩ | e'
        · exact .inl ⟨p, hp, by simp only [e', panic_bind]⟩
        · exact .inr (by simp only [e', Out.stop_bind])

end Clarith
