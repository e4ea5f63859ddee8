import Verif.Proofs.Powers
import Verif.Proofs.Length
import Verif.Proofs.Observe
import Verif.Proofs.CombineNew
import Verif.Proofs.Growth

/-! # A number minus itself

The numerator stays `s*(x - y)`, which has a zero inside the domain: `combine` never looks at the
range, and reads both operands to their ends.  The denominator stays symmetric. -/

namespace Clarith

open Out Spec Support

variable {cfg : Cfg} {A : Panic → Prop}

theorem Cfg.CheckSafe.le' {z w : Int} (h : cfg.CheckSafe A w) (h0 : -w ≤ z) (h1 : z ≤ w) :
    cfg.CheckSafe A z := by
  refine h.imp_left fun h => ?_
  unfold Cfg.Fits at h ⊢
  have := cfg.imin_eq
  omega

/-- A sign; the negative one only as long as the sizes fit. -/
def Cfg.Sign (cfg : Cfg) (w σ : Int) : Prop := σ = 1 ∨ (σ = -1 ∧ cfg.Fits w)

theorem Ratio.newI_nought {d : Int} (h0 : d ≠ 0) (hf : cfg.Fits d) (hm : d ≠ cfg.imin) :
    Ratio.newI cfg 0 d = .ok (some .Zero, none, none) := by
  have hi := cfg.imin_eq
  have hm' := cfg.imax_ge
  unfold Ratio.newI
  rw [(Ratio.magnitude_exact (cfg.fits_small (by norm_num) (by norm_num)) (by omega)).1,
    (Ratio.magnitude_exact hf fun _ => hm).1]
  simp only [ok_bind, Ratio.new, show ¬d.natAbs = 0 by omega, if_false, Int.natAbs_zero, if_true]

/-- `s*(x - y)` over a symmetric denominator. -/
def Coef8.diff (σ s e f h : Int) : Coef8 := ⟨0, s, -s, 0, σ * e, σ * f, σ * f, σ * h⟩

namespace Coef8

variable {σ s e f h w : Int}

theorem diff_attempt : (diff σ s e f h).primerAttempt cfg = .ok none := by
  simp only [primerAttempt, areSingularitiesOutsideDomain, isZeroOutsideDomain, isDomainAmenable,
    diff, Int.sign_zero, if_true, Out.and, pure_eq, ok_bind, Bool.false_eq_true, if_false]

theorem amplifyX_cases {k : Coef8} (h1 : -w ≤ 2 * k.c ∧ 2 * k.c ≤ w)
    (h2 : -w ≤ 2 * k.d ∧ 2 * k.d ≤ w) (h3 : -w ≤ 2 * k.g ∧ 2 * k.g ≤ w)
    (h4 : -w ≤ 2 * k.h ∧ 2 * k.h ≤ w) (hA : cfg.CheckSafe A w) :
    Sat A (k.amplifyX cfg) (fun k' =>
      (∃ a b e f, k.a = 2 * a ∧ k.b = 2 * b ∧ k.e = 2 * e ∧ k.f = 2 * f ∧
        k' = ⟨a, b, k.c, k.d, e, f, k.g, k.h⟩) ∨
      (¬(2 ∣ k.a ∧ 2 ∣ k.b ∧ 2 ∣ k.e ∧ 2 ∣ k.f) ∧
        k' = ⟨k.a, k.b, 2 * k.c, 2 * k.d, k.e, k.f, 2 * k.g, 2 * k.h⟩)) := by
  unfold amplifyX
  by_cases hev : (isEven k.a && isEven k.b && isEven k.e && isEven k.f) = true
  · rw [if_pos hev]
    simp only [Bool.and_eq_true, isEven_iff] at hev
    obtain ⟨⟨⟨e0, e1⟩, e2⟩, e3⟩ := hev
    exact Sat.pure (.inl ⟨half k.a, half k.b, half k.e, half k.f, e0.symm, e1.symm, e2.symm,
      e3.symm, rfl⟩)
  · rw [if_neg hev]
    refine Sat.bind (Cfg.cmul_sat' (hA.le' (by omega) (by omega))) ?_
    rintro _ ⟨rfl, _⟩
    refine Sat.bind (Cfg.cmul_sat' (hA.le' (by omega) (by omega))) ?_
    rintro _ ⟨rfl, _⟩
    refine Sat.bind (Cfg.cmul_sat' (hA.le' (by omega) (by omega))) ?_
    rintro _ ⟨rfl, _⟩
    refine Sat.bind (Cfg.cmul_sat' (hA.le' (by omega) (by omega))) ?_
    rintro _ ⟨rfl, _⟩
    refine Sat.pure (.inr ⟨?_, by simp only [mul_comm]⟩)
    rintro ⟨d1, d2, d3, d4⟩
    apply hev
    simp only [Bool.and_eq_true, isEven, beq_iff_eq]
    exact ⟨⟨⟨Int.tmod_eq_zero_of_dvd d1, Int.tmod_eq_zero_of_dvd d2⟩,
      Int.tmod_eq_zero_of_dvd d3⟩, Int.tmod_eq_zero_of_dvd d4⟩

theorem amplifyY_cases {k : Coef8} (h1 : -w ≤ 2 * k.b ∧ 2 * k.b ≤ w)
    (h2 : -w ≤ 2 * k.d ∧ 2 * k.d ≤ w) (h3 : -w ≤ 2 * k.f ∧ 2 * k.f ≤ w)
    (h4 : -w ≤ 2 * k.h ∧ 2 * k.h ≤ w) (hA : cfg.CheckSafe A w) :
    Sat A (k.amplifyY cfg) (fun k' =>
      (∃ a c e g, k.a = 2 * a ∧ k.c = 2 * c ∧ k.e = 2 * e ∧ k.g = 2 * g ∧
        k' = ⟨a, k.b, c, k.d, e, k.f, g, k.h⟩) ∨
      (¬(2 ∣ k.a ∧ 2 ∣ k.c ∧ 2 ∣ k.e ∧ 2 ∣ k.g) ∧
        k' = ⟨k.a, 2 * k.b, k.c, 2 * k.d, k.e, 2 * k.f, k.g, 2 * k.h⟩)) := by
  unfold amplifyY
  by_cases hev : (isEven k.a && isEven k.c && isEven k.e && isEven k.g) = true
  · rw [if_pos hev]
    simp only [Bool.and_eq_true, isEven_iff] at hev
    obtain ⟨⟨⟨e0, e1⟩, e2⟩, e3⟩ := hev
    exact Sat.pure (.inl ⟨half k.a, half k.c, half k.e, half k.g, e0.symm, e1.symm, e2.symm,
      e3.symm, rfl⟩)
  · rw [if_neg hev]
    refine Sat.bind (Cfg.cmul_sat' (hA.le' (by omega) (by omega))) ?_
    rintro _ ⟨rfl, _⟩
    refine Sat.bind (Cfg.cmul_sat' (hA.le' (by omega) (by omega))) ?_
    rintro _ ⟨rfl, _⟩
    refine Sat.bind (Cfg.cmul_sat' (hA.le' (by omega) (by omega))) ?_
    rintro _ ⟨rfl, _⟩
    refine Sat.bind (Cfg.cmul_sat' (hA.le' (by omega) (by omega))) ?_
    rintro _ ⟨rfl, _⟩
    refine Sat.pure (.inr ⟨?_, by simp only [mul_comm]⟩)
    rintro ⟨d1, d2, d3, d4⟩
    apply hev
    simp only [Bool.and_eq_true, isEven, beq_iff_eq]
    exact ⟨⟨⟨Int.tmod_eq_zero_of_dvd d1, Int.tmod_eq_zero_of_dvd d2⟩,
      Int.tmod_eq_zero_of_dvd d3⟩, Int.tmod_eq_zero_of_dvd d4⟩

/-- Both operands answer `Amplify`. -/
theorem diff_amplify (hσ : σ = 1 ∨ σ = -1) (hf : 0 ≤ f) (hh : f ≤ h) (hs : 2 * |s| ≤ w) (hw : 4 * h ≤ w)
    (hA : cfg.CheckSafe A w) :
    Sat A ((diff σ s e f h).ingestX cfg .Amplify) (fun k => Sat A (k.ingestY cfg .Amplify) (fun k' =>
      (∃ s' e' f', s = 2 * s' ∧ e = 4 * e' ∧ f = 2 * f' ∧ k' = diff σ s' e' f' h) ∨
      (∃ e', e = 2 * e' ∧ k' = diff σ s e' f (2 * h)) ∨
      (e % 2 = 1 ∧ k' = diff σ (2 * s) e (2 * f) (4 * h)))) := by
  have b := abs_le.1 (le_refl |s|)
  simp only [ingestX, ingestY]
  refine Sat.mono (amplifyX_cases (k := diff σ s e f h) (w := w) ?_ ?_ ?_ ?_ hA) ?_
  · simp only [diff]; rcases hσ with rfl | rfl <;> omega
  · simp only [diff]; rcases hσ with rfl | rfl <;> omega
  · simp only [diff]; rcases hσ with rfl | rfl <;> omega
  · simp only [diff]; rcases hσ with rfl | rfl <;> omega
  rintro _ (⟨a, s', e', f', h1, h2, h3, h4, rfl⟩ | ⟨h1, rfl⟩)
  · simp only [diff] at h1 h2 h3 h4 ⊢
    refine Sat.mono (amplifyY_cases (w := w) ?_ ?_ ?_ ?_ hA) ?_
    · simp only; rcases hσ with rfl | rfl <;> omega
    · simp only; rcases hσ with rfl | rfl <;> omega
    · simp only; rcases hσ with rfl | rfl <;> omega
    · simp only; rcases hσ with rfl | rfl <;> omega
    rintro _ (⟨a', c', e'', g', g1, g2, g3, g4, rfl⟩ | ⟨g1, rfl⟩)
    · simp only at g1 g2 g3 g4
      refine .inl ⟨s', σ * e'', σ * f', h2, by rcases hσ with rfl | rfl <;> omega,
        by rcases hσ with rfl | rfl <;> omega, ?_⟩
      rw [Coef8.mk.injEq]; refine ⟨?_, ?_, ?_, ?_, ?_, ?_, ?_, ?_⟩ <;> (try dsimp only) <;>
        rcases hσ with rfl | rfl <;> omega
    · refine .inr (.inl ⟨σ * e', by rcases hσ with rfl | rfl <;> omega, ?_⟩)
      rw [Coef8.mk.injEq]; refine ⟨?_, ?_, ?_, ?_, ?_, ?_, ?_, ?_⟩ <;> (try dsimp only) <;>
        rcases hσ with rfl | rfl <;> omega
  · simp only [diff] at h1 ⊢
    refine Sat.mono (amplifyY_cases (w := w) ?_ ?_ ?_ ?_ hA) ?_
    · simp only; rcases hσ with rfl | rfl <;> omega
    · simp only; rcases hσ with rfl | rfl <;> omega
    · simp only; rcases hσ with rfl | rfl <;> omega
    · simp only; rcases hσ with rfl | rfl <;> omega
    rintro _ (⟨a', c', e'', g', g1, g2, g3, g4, rfl⟩ | ⟨g1, rfl⟩)
    · simp only at g1 g2 g3 g4
      refine .inr (.inl ⟨σ * e'', by rcases hσ with rfl | rfl <;> omega, ?_⟩)
      rw [Coef8.mk.injEq]; refine ⟨?_, ?_, ?_, ?_, ?_, ?_, ?_, ?_⟩ <;> (try dsimp only) <;>
        rcases hσ with rfl | rfl <;> omega
    · refine .inr (.inr ⟨?_, ?_⟩)
      · simp only at g1
        rcases hσ with rfl | rfl <;> omega
      · rw [Coef8.mk.injEq]; refine ⟨?_, ?_, ?_, ?_, ?_, ?_, ?_, ?_⟩ <;> (try dsimp only) <;>
        rcases hσ with rfl | rfl <;> omega

/-- Both operands answer `Uncover`. -/
theorem diff_uncover (hσ : σ = 1 ∨ σ = -1) (he : 0 ≤ e) (hf : 0 ≤ f) (hh : 0 ≤ h) (hs : |s| ≤ w)
    (hw : e + 2 * f + h ≤ w) (hA : cfg.CheckSafe A w) :
    Sat A ((diff σ s e f h).ingestX cfg .Uncover) (fun k => Sat A (k.ingestY cfg .Uncover) (fun k' =>
      k' = diff σ (-s) h (f + h) (e + 2 * f + h))) := by
  have b := abs_le.1 (le_refl |s|)
  simp only [ingestX, ingestY]
  unfold uncoverX shiftX
  simp only [diff, turnX, Cfg.cadd]
  rcases hσ with rfl | rfl
  all_goals
    refine Sat.bind (Cfg.checked_sat' (hA.le' (by omega) (by omega))) ?_
    rintro _ ⟨rfl, _⟩
    refine Sat.bind (Cfg.checked_sat' (hA.le' (by omega) (by omega))) ?_
    rintro _ ⟨rfl, _⟩
    refine Sat.bind (Cfg.checked_sat' (hA.le' (by omega) (by omega))) ?_
    rintro _ ⟨rfl, _⟩
    refine Sat.bind (Cfg.checked_sat' (hA.le' (by omega) (by omega))) ?_
    rintro _ ⟨rfl, _⟩
    refine Sat.pure ?_
    unfold uncoverY shiftY
    simp only [turnY, Cfg.cadd]
    refine Sat.bind (Cfg.checked_sat' (hA.le' (by omega) (by omega))) ?_
    rintro _ ⟨rfl, _⟩
    refine Sat.bind (Cfg.checked_sat' (hA.le' (by omega) (by omega))) ?_
    rintro _ ⟨rfl, _⟩
    refine Sat.bind (Cfg.checked_sat' (hA.le' (by omega) (by omega))) ?_
    rintro _ ⟨rfl, _⟩
    refine Sat.bind (Cfg.checked_sat' (hA.le' (by omega) (by omega))) ?_
    rintro _ ⟨rfl, _⟩
    refine Sat.pure ?_
    rw [Coef8.mk.injEq]; refine ⟨?_, ?_, ?_, ?_, ?_, ?_, ?_, ?_⟩ <;> (try dsimp only) <;> omega

theorem valueAtEndOfX_cases {k : Coef8}
    (h0 : 2 ∣ k.a ∧ 2 ∣ k.b ∧ 2 ∣ k.e ∧ 2 ∣ k.f →
      (-w ≤ k.c + k.a / 2 ∧ k.c + k.a / 2 ≤ w) ∧ (-w ≤ k.d + k.b / 2 ∧ k.d + k.b / 2 ≤ w) ∧
      (-w ≤ k.g + k.e / 2 ∧ k.g + k.e / 2 ≤ w) ∧ (-w ≤ k.h + k.f / 2 ∧ k.h + k.f / 2 ≤ w))
    (h1 : ¬(2 ∣ k.a ∧ 2 ∣ k.b ∧ 2 ∣ k.e ∧ 2 ∣ k.f) →
      (-w ≤ 2 * k.c ∧ 2 * k.c ≤ w) ∧ (-w ≤ k.a + 2 * k.c ∧ k.a + 2 * k.c ≤ w) ∧
      (-w ≤ 2 * k.d ∧ 2 * k.d ≤ w) ∧ (-w ≤ k.b + 2 * k.d ∧ k.b + 2 * k.d ≤ w) ∧
      (-w ≤ 2 * k.g ∧ 2 * k.g ≤ w) ∧ (-w ≤ k.e + 2 * k.g ∧ k.e + 2 * k.g ≤ w) ∧
      (-w ≤ 2 * k.h ∧ 2 * k.h ≤ w) ∧ (-w ≤ k.f + 2 * k.h ∧ k.f + 2 * k.h ≤ w))
    (hA : cfg.CheckSafe A w) :
    Sat A (k.valueAtEndOfX cfg) (fun r =>
      ((2 ∣ k.a ∧ 2 ∣ k.b ∧ 2 ∣ k.e ∧ 2 ∣ k.f) ∧
        r = ⟨k.c + k.a / 2, k.d + k.b / 2, k.g + k.e / 2, k.h + k.f / 2⟩) ∨
      (¬(2 ∣ k.a ∧ 2 ∣ k.b ∧ 2 ∣ k.e ∧ 2 ∣ k.f) ∧
        r = ⟨k.a + 2 * k.c, k.b + 2 * k.d, k.e + 2 * k.g, k.f + 2 * k.h⟩)) := by
  unfold valueAtEndOfX
  by_cases hev : (isEven k.a && isEven k.b && isEven k.e && isEven k.f) = true
  · rw [if_pos hev]
    simp only [Bool.and_eq_true, isEven_iff] at hev
    obtain ⟨⟨⟨e0, e1⟩, e2⟩, e3⟩ := hev
    have hd : 2 ∣ k.a ∧ 2 ∣ k.b ∧ 2 ∣ k.e ∧ 2 ∣ k.f :=
      ⟨⟨_, e0.symm⟩, ⟨_, e1.symm⟩, ⟨_, e2.symm⟩, ⟨_, e3.symm⟩⟩
    have b := h0 hd
    rw [show half k.a = k.a / 2 by omega, show half k.b = k.b / 2 by omega,
      show half k.e = k.e / 2 by omega, show half k.f = k.f / 2 by omega]
    refine Sat.bind (Cfg.checked_sat' (hA.le' b.1.1 b.1.2)) ?_
    rintro _ ⟨rfl, _⟩
    refine Sat.bind (Cfg.checked_sat' (hA.le' b.2.1.1 b.2.1.2)) ?_
    rintro _ ⟨rfl, _⟩
    refine Sat.bind (Cfg.checked_sat' (hA.le' b.2.2.1.1 b.2.2.1.2)) ?_
    rintro _ ⟨rfl, _⟩
    refine Sat.bind (Cfg.checked_sat' (hA.le' b.2.2.2.1 b.2.2.2.2)) ?_
    rintro _ ⟨rfl, _⟩
    exact Sat.pure (.inl ⟨hd, rfl⟩)
  · rw [if_neg hev]
    have hd : ¬(2 ∣ k.a ∧ 2 ∣ k.b ∧ 2 ∣ k.e ∧ 2 ∣ k.f) := by
      rintro ⟨d1, d2, d3, d4⟩
      apply hev
      simp only [Bool.and_eq_true, isEven, beq_iff_eq]
      exact ⟨⟨⟨Int.tmod_eq_zero_of_dvd d1, Int.tmod_eq_zero_of_dvd d2⟩,
        Int.tmod_eq_zero_of_dvd d3⟩, Int.tmod_eq_zero_of_dvd d4⟩
    obtain ⟨b1, b2, b3, b4, b5, b6, b7, b8⟩ := h1 hd
    refine Sat.bind (Cfg.cmul_sat' (hA.le' (by omega) (by omega))) ?_
    rintro _ ⟨rfl, _⟩
    refine Sat.bind (Cfg.checked_sat' (hA.le' (by omega) (by omega))) ?_
    rintro _ ⟨rfl, _⟩
    refine Sat.bind (Cfg.cmul_sat' (hA.le' (by omega) (by omega))) ?_
    rintro _ ⟨rfl, _⟩
    refine Sat.bind (Cfg.checked_sat' (hA.le' (by omega) (by omega))) ?_
    rintro _ ⟨rfl, _⟩
    refine Sat.bind (Cfg.cmul_sat' (hA.le' (by omega) (by omega))) ?_
    rintro _ ⟨rfl, _⟩
    refine Sat.bind (Cfg.checked_sat' (hA.le' (by omega) (by omega))) ?_
    rintro _ ⟨rfl, _⟩
    refine Sat.bind (Cfg.cmul_sat' (hA.le' (by omega) (by omega))) ?_
    rintro _ ⟨rfl, _⟩
    refine Sat.bind (Cfg.checked_sat' (hA.le' (by omega) (by omega))) ?_
    rintro _ ⟨rfl, _⟩
    exact Sat.pure (.inr ⟨hd, by simp only [mul_comm]⟩)

end Coef8

theorem Coef4.valueAtOneHalf_cases {k : Coef4} {w : Int}
    (h0 : 2 ∣ k.nx ∧ 2 ∣ k.dx →
      (-w ≤ k.n + k.nx / 2 ∧ k.n + k.nx / 2 ≤ w) ∧ (-w ≤ k.d + k.dx / 2 ∧ k.d + k.dx / 2 ≤ w))
    (h1 : ¬(2 ∣ k.nx ∧ 2 ∣ k.dx) →
      (-w ≤ 2 * k.n ∧ 2 * k.n ≤ w) ∧ (-w ≤ k.nx + 2 * k.n ∧ k.nx + 2 * k.n ≤ w) ∧
      (-w ≤ 2 * k.d ∧ 2 * k.d ≤ w) ∧ (-w ≤ k.dx + 2 * k.d ∧ k.dx + 2 * k.d ≤ w))
    (hA : cfg.CheckSafe A w) :
    Sat A (k.valueAtOneHalf cfg) (fun r =>
      ((2 ∣ k.nx ∧ 2 ∣ k.dx) ∧ r = (k.n + k.nx / 2, k.d + k.dx / 2) ∧
        cfg.Fits (k.d + k.dx / 2)) ∨
      (¬(2 ∣ k.nx ∧ 2 ∣ k.dx) ∧ r = (k.nx + 2 * k.n, k.dx + 2 * k.d) ∧
        cfg.Fits (k.dx + 2 * k.d))) := by
  have odd : ∀ z : Int, isOdd z = true ↔ ¬2 ∣ z := by
    intro z
    unfold isOdd
    rw [bne_iff_ne, Int.dvd_iff_tmod_eq_zero]
  unfold Coef4.valueAtOneHalf
  by_cases hod : (isOdd k.nx || isOdd k.dx) = true
  · rw [if_pos hod]
    have hd : ¬(2 ∣ k.nx ∧ 2 ∣ k.dx) := by
      rw [Bool.or_eq_true, odd, odd] at hod
      tauto
    obtain ⟨b1, b2, b3, b4⟩ := h1 hd
    refine Sat.bind (Cfg.cmul_sat' (hA.le' (by omega) (by omega))) ?_
    rintro _ ⟨rfl, _⟩
    refine Sat.bind (Cfg.checked_sat' (hA.le' (by omega) (by omega))) ?_
    rintro _ ⟨rfl, _⟩
    refine Sat.bind (Cfg.cmul_sat' (hA.le' (by omega) (by omega))) ?_
    rintro _ ⟨rfl, _⟩
    refine Sat.bind (Cfg.checked_sat' (hA.le' (by omega) (by omega))) ?_
    rintro _ ⟨rfl, hf⟩
    exact Sat.pure (.inr ⟨hd, by simp only [mul_comm], by rw [mul_comm]; exact hf⟩)
  · rw [if_neg hod]
    have hd : 2 ∣ k.nx ∧ 2 ∣ k.dx := by
      rw [Bool.or_eq_true, odd, odd] at hod
      tauto
    obtain ⟨b1, b2⟩ := h0 hd
    have hhalf : ∀ z : Int, 2 ∣ z → half z = z / 2 := by
      rintro z ⟨y, rfl⟩
      unfold half
      rw [Int.mul_tdiv_cancel_left _ (by norm_num), Int.mul_ediv_cancel_left _ (by norm_num)]
    rw [hhalf _ hd.1, hhalf _ hd.2]
    refine Sat.bind (Cfg.checked_sat' (hA.le' b1.1 b1.2)) ?_
    rintro _ ⟨rfl, _⟩
    refine Sat.bind (Cfg.checked_sat' (hA.le' b2.1 b2.2)) ?_
    rintro _ ⟨rfl, hf⟩
    exact Sat.pure (.inl ⟨hd, rfl, hf⟩)

namespace Coef8

variable {σ s e f h w : Int}

/-- The first operand has ended. -/
theorem diff_end (hσ : σ = 1 ∨ σ = -1) (hs0 : s ≠ 0) (he : 0 ≤ e) (hf : 0 ≤ f) (hh : f ≤ h)
    (hs : 2 * |s| ≤ w)
    (hw : (e + 4 * f + 4 * h ≤ w) ∨ (2 ∣ s ∧ 4 ∣ e ∧ 2 ∣ f ∧ e ≤ 4 * h ∧
      e + 4 * f + 4 * h ≤ 4 * w))
    (hA : cfg.CheckSafe A w) :
    Sat A ((diff σ s e f h).valueAtEndOfX cfg) (fun k => k.nx = -2 * k.n ∧ k.n ≠ 0 ∧
      -w ≤ k.n ∧ k.n ≤ w ∧
      Sat A (k.valueAtOneHalf cfg) (fun r => r.1 = 0 ∧ cfg.Fits r.2 ∧
        -w ≤ r.2 ∧ e + 4 * f + 4 * h ≤ 4 * (σ * r.2))) := by
  have b := abs_le.1 (le_refl |s|)
  rcases hσ with rfl | rfl
  all_goals
    refine Sat.mono (valueAtEndOfX_cases (k := diff _ s e f h) (w := w) ?_ ?_ hA) ?_
    · simp only [diff]
      rintro ⟨-, h1, h2, h3⟩
      omega
    · simp only [diff]
      intro hn
      have hw : e + 4 * f + 4 * h ≤ w := by
        rcases hw with hw | ⟨h1, h2, h3, -, -⟩
        · exact hw
        · exact absurd ⟨dvd_zero _, h1, by omega, by omega⟩ hn
      omega
    rintro _ (⟨⟨-, h1, h2, h3⟩, rfl⟩ | ⟨hn, rfl⟩)
    · simp only [diff] at h1 h2 h3 ⊢
      refine ⟨by omega, by omega, by omega, by omega, ?_⟩
      refine Sat.mono (Coef4.valueAtOneHalf_cases (w := w) ?_ ?_ hA) ?_
      · dsimp only
        omega
      · dsimp only
        omega
      · rintro _ (⟨hd, rfl, hfit⟩ | ⟨hd, rfl, hfit⟩)
        · refine ⟨?_, hfit, ?_, ?_⟩ <;> dsimp only at hd ⊢ <;> omega
        · refine ⟨?_, hfit, ?_, ?_⟩ <;> dsimp only at hd ⊢ <;> omega
    · simp only [diff] at hn ⊢
      have hw : e + 4 * f + 4 * h ≤ w := by
        rcases hw with hw | ⟨h1, h2, h3, -, -⟩
        · exact hw
        · exact absurd ⟨dvd_zero _, h1, by omega, by omega⟩ hn
      refine ⟨by omega, by omega, by omega, by omega, ?_⟩
      refine Sat.mono (Coef4.valueAtOneHalf_cases (w := w) ?_ ?_ hA) ?_
      · dsimp only
        omega
      · dsimp only
        omega
      · rintro _ (⟨hd, rfl, hfit⟩ | ⟨hd, rfl, hfit⟩)
        · refine ⟨?_, hfit, ?_, ?_⟩ <;> dsimp only at hd ⊢ <;> omega
        · refine ⟨?_, hfit, ?_, ?_⟩ <;> dsimp only at hd ⊢ <;> omega

end Coef8

/-- A zero inside the domain. -/
theorem Coef4.primerAttempt_inside {k : Coef4} {w : Int} (h1 : k.nx = -2 * k.n) (h2 : k.n ≠ 0)
    (h3 : -w ≤ k.n) (h4 : k.n ≤ w) (hA : cfg.CheckSafe A w) :
    Sat A (k.primerAttempt cfg) (fun r => r = none) := by
  unfold Coef4.primerAttempt Coef4.areSingularitiesOutsideDomain Coef4.isZeroOutsideDomain
    Coef4.isDomainAmenable Out.and
  have hs : k.n.sign ≠ 0 := by rwa [Ne, Int.sign_eq_zero_iff_zero]
  have e : k.nx + k.n = -k.n := by omega
  have hs' : k.n.sign ≠ (-k.n).sign := by rw [Int.sign_neg]; omega
  have hs'' : ((-k.n).sign == 0) = false := by
    rw [Int.sign_neg]; exact beq_false_of_ne (by omega)
  have hs3 : cfg.CheckSafe A (-k.n) := hA.le' (by omega) (by omega)
  simp only [if_neg hs, Cfg.cadd, e]
  refine Sat.bind (Q := fun b => b = false) ?_ ?_
  · refine Sat.bind (Q := fun b => b = false) ?_ ?_
    · refine Sat.bind (Cfg.checked_sat' hs3) ?_
      rintro _ ⟨rfl, _⟩
      rw [if_neg hs']
      refine Sat.bind (Cfg.checked_sat' hs3) ?_
      rintro _ ⟨rfl, _⟩
      exact Sat.pure hs''
    · rintro _ rfl
      exact Sat.pure rfl
  · rintro _ rfl
    exact Sat.pure rfl

namespace Combine

variable {cx cy : Clog} {v : ℚ} {σ s e f h w : Int} {P : Combine.Primed → Prop}

/-- No primer yet, and both operands answer the same symbol. -/
theorem prime_on {k : Coef8} {r : Reduction} {Q : Coef8 → Prop}
    (hx : Clog.Denotes cfg A cx v) (hy : Clog.Denotes cfg A cy v)
    (ha : k.primerAttempt cfg = .ok none) (hr : sym v = some r)
    (hi : Sat A (k.ingestX cfg r) (fun k => Sat A (k.ingestY cfg r) Q))
    (hn : ∀ cx' cy' k', Clog.Denotes cfg A cx' (next v) → Clog.Denotes cfg A cy' (next v) → Q k' →
      Ev A (fun f j => Combine.prime cfg (Clog.egest cfg f) j ⟨cx', cy', k'⟩) P) :
    Ev A (fun f j => Combine.prime cfg (Clog.egest cfg f) j ⟨cx, cy, k⟩) P := by
  refine Ev.succ ?_
  simp only [Combine.prime, ha, ok_bind, Combine.primeIngest]
  refine Ev.bind (Q := fun t => ∃ cx' cy' k', t = .inr ⟨cx', cy', k'⟩ ∧
    Clog.Denotes cfg A cx' (next v) ∧ Clog.Denotes cfg A cy' (next v) ∧ Q k') ?_ ?_
  · refine Ev.bind hx.ev ?_
    rintro ⟨r', cx'⟩ ⟨hr', hc⟩
    rw [hr] at hr'
    simp only at hr'
    subst hr'
    refine Ev.bind_sat hi ?_
    intro k1 hk1
    refine Ev.bind hy.ev ?_
    rintro ⟨r', cy'⟩ ⟨hr', hc'⟩
    rw [hr] at hr'
    simp only at hr'
    subst hr'
    refine Ev.bind_sat hk1 ?_
    intro k2 hk2
    exact Ev.pure ⟨cx', cy', k2, rfl, hc, hc', hk2⟩
  · rintro _ ⟨cx', cy', k', rfl, h1, h2, h3⟩
    exact hn cx' cy' k' h1 h2 h3

/-- Both operands end together. -/
theorem prime_diff_end (hx : Clog.Denotes cfg A cx (1 / 2)) (hy : Clog.Denotes cfg A cy (1 / 2))
    (hσ : cfg.Sign w σ) (hs0 : s ≠ 0) (he : 0 ≤ e) (hf : 0 ≤ f) (hh : f ≤ h) (h0 : 0 < e + 4 * h)
    (hs : 2 * |s| ≤ w)
    (hw : (e + 4 * f + 4 * h ≤ w) ∨ (2 ∣ s ∧ 4 ∣ e ∧ 2 ∣ f ∧ e ≤ 4 * h ∧
      e + 4 * f + 4 * h ≤ 4 * w))
    (hA : cfg.CheckSafe A w) :
    Ev A (fun i j => Combine.prime cfg (Clog.egest cfg i) j ⟨cx, cy, Coef8.diff σ s e f h⟩)
      (fun t => t = (some .Zero, none, none, none, none) ∧
        ∃ D, cfg.Fits D ∧ e + 4 * f + 4 * h ≤ 4 * D) := by
  have hσ' : σ = 1 ∨ σ = -1 := hσ.imp_right And.left
  have hi := cfg.imin_eq
  refine Ev.succ ?_
  simp only [Combine.prime, Coef8.diff_attempt, ok_bind, Combine.primeIngest]
  refine Ev.bind (Q := fun t => t = .inl (some .Zero, none, none, none) ∧
    ∃ D, cfg.Fits D ∧ e + 4 * f + 4 * h ≤ 4 * D) ?_ ?_
  · refine Ev.bind hx.ev ?_
    rintro ⟨r', cx'⟩ ⟨hr', hc⟩
    rw [sym_half] at hr'
    simp only at hr'
    subst hr'
    refine Ev.bind_sat (Coef8.diff_end hσ' hs0 he hf hh hs hw hA) ?_
    rintro k ⟨h1, h2, h3, h4, h5⟩
    refine Ev.bind (Q := fun t => t = (some .Zero, none, none, none) ∧
      ∃ D, cfg.Fits D ∧ e + 4 * f + 4 * h ≤ 4 * D) ?_ ?_
    · simp only [Homographic.new, show ¬(k.nx = 0 ∧ k.dx = 0) by omega, if_false,
        Homographic.absorbPrimer, pure_eq, ok_bind]
      refine Ev.succ ?_
      simp only [Homographic.prime]
      refine Ev.bind_sat (Coef4.primerAttempt_inside (k := k) h1 h2 h3 h4 hA) ?_
      rintro _ rfl
      simp only [Homographic.primeIngest]
      refine Ev.bind (Q := fun t => t.1 = some (some .Zero, none, none) ∧
        ∃ D, cfg.Fits D ∧ e + 4 * f + 4 * h ≤ 4 * D) ?_ ?_
      · refine Ev.bind hy.ev ?_
        rintro ⟨r', cy'⟩ ⟨hr', hc⟩
        rw [sym_half] at hr'
        simp only at hr'
        subst hr'
        refine Ev.bind_sat h5 ?_
        rintro ⟨n, d⟩ ⟨h6, h7, h7', h8⟩
        simp only at h6 h7 h7' h8
        subst h6
        have d0 : d ≠ 0 := by rintro rfl; omega
        have dm : d ≠ cfg.imin ∧ cfg.Fits (σ * d) := by
          unfold Cfg.Fits at h7 ⊢
          rcases hσ with rfl | ⟨rfl, hw⟩
          · omega
          · unfold Cfg.Fits at hw; omega
        simp only [Ratio.newI_nought (cfg := cfg) (d := d) d0 h7 dm.1, ok_bind]
        exact Ev.pure ⟨rfl, σ * d, dm.2, h8⟩
      · rintro ⟨_, h'⟩ ⟨rfl, hD⟩
        exact Ev.pure ⟨rfl, hD⟩
    · rintro _ ⟨rfl, hD⟩
      exact Ev.pure ⟨rfl, hD⟩
  · rintro _ ⟨rfl, hD⟩
    exact Ev.pure ⟨rfl, hD⟩

/-- Both operands denote the same number. -/
theorem prime_diff (hσ : cfg.Sign w σ) (hA : cfg.CheckSafe A w) (l : List Reduction) :
    ∀ (v : ℚ) (cx cy : Clog) (s e f h : Int), Expands v l → Clog.Denotes cfg A cx v →
      Clog.Denotes cfg A cy v → s ≠ 0 → 0 ≤ e → 0 ≤ f → f ≤ h → 0 < e + h →
      4 * |(s : ℚ)| * growth v l ^ 2 ≤ w →
      4 * (e * v ^ 2 + 2 * f * v + h) * growth v l ^ 2 ≤ w →
      Ev A (fun i j => Combine.prime cfg (Clog.egest cfg i) j ⟨cx, cy, Coef8.diff σ s e f h⟩)
        (fun t => t = (some .Zero, none, none, none, none)) := by
  have hσ' : σ = 1 ∨ σ = -1 := hσ.imp_right And.left
  induction l with
  | nil =>
    intro v cx cy s e f h hl hx hy hs he hf hh h0 b1 b2
    cases hl
    simp only [growth, one_pow, mul_one] at b1 b2
    have c1 : 4 * |s| ≤ w := by exact_mod_cast b1
    have c2 : e + 4 * f + 4 * h ≤ w := by
      have : (e + 4 * f + 4 * h : ℚ) ≤ w := by linarith
      exact_mod_cast this
    have := abs_nonneg s
    exact (prime_diff_end hx hy hσ hs he hf hh (by omega) (by omega) (.inl c2) hA).mono fun _ h => h.1
  | cons r l ih =>
    intro v cx cy s e f h hl hx hy hs he hf hh h0 b1 b2
    have he' : (0 : ℚ) ≤ e := by exact_mod_cast he
    have hf' : (0 : ℚ) ≤ f := by exact_mod_cast hf
    have hh' : (f : ℚ) ≤ h := by exact_mod_cast hh
    have hs' := abs_nonneg (s : ℚ)
    cases hl with
    | amplify h1 h2 hl =>
      have hg := one_le_growth hl
      simp only [growth] at b1 b2
      set g := growth (2 * v) l with hgd
      have hg2 : 1 ≤ g ^ 2 := by nlinarith
      have q0 : (h : ℚ) ≤ e * v ^ 2 + 2 * f * v + h := by
        have : 0 ≤ (e : ℚ) * v ^ 2 := by positivity
        have : 0 ≤ 2 * (f : ℚ) * v := by positivity
        linarith
      set q := (e : ℚ) * v ^ 2 + 2 * f * v + h with hq
      have c1 : 2 * |s| ≤ w := by
        have : (2 * |(s : ℚ)|) ≤ w := by nlinarith
        exact_mod_cast this
      have c2 : 4 * h ≤ w := by
        have : (4 * h : ℚ) ≤ w := by nlinarith
        exact_mod_cast this
      refine prime_on hx hy Coef8.diff_attempt (sym_lt h2)
        (Coef8.diff_amplify (e := e) hσ' hf hh c1 c2 hA) ?_
      intro cx' cy' k' hx' hy' hk
      rw [next_lt h2] at hx' hy'
      rcases hk with ⟨s', e', f', rfl, rfl, rfl, rfl⟩ | ⟨e', rfl, rfl⟩ | ⟨ho, rfl⟩
      · refine ih _ _ _ _ _ _ _ hl hx' hy' (by omega) (by omega) (by omega) (by omega) (by omega)
          ?_ ?_
        · push_cast at b1 hs'
          rw [abs_mul, abs_two] at b1
          have := abs_nonneg (s' : ℚ)
          rw [← hgd]
          nlinarith
        · push_cast at hq
          have e1 : (e' : ℚ) * (2 * v) ^ 2 + 2 * f' * (2 * v) + h = q := by rw [hq]; ring
          rw [e1, ← hgd]
          nlinarith
      · refine ih _ _ _ _ _ _ _ hl hx' hy' (by omega) (by omega) (by omega) (by omega) (by omega)
          ?_ ?_
        · rw [← hgd]
          nlinarith
        · push_cast at hq ⊢
          have e1 : (e' : ℚ) * (2 * v) ^ 2 + 2 * f * (2 * v) + 2 * h = 2 * q := by rw [hq]; ring
          rw [e1, ← hgd]
          nlinarith
      · refine ih _ _ _ _ _ _ _ hl hx' hy' (by omega) (by omega) (by omega) (by omega) (by omega)
          ?_ ?_
        · push_cast
          rw [abs_mul, abs_two, ← hgd]
          nlinarith
        · push_cast
          have e1 : (e : ℚ) * (2 * v) ^ 2 + 2 * (2 * f) * (2 * v) + 4 * h = 4 * q := by
            rw [hq]; ring
          rw [e1, ← hgd]
          nlinarith
    | uncover h1 h2 hl =>
      have hg := one_le_growth hl
      have v0 : v ≠ 0 := by linarith
      have v1 : 1 ≤ 1 / v := by rw [le_div_iff₀ (by linarith)]; linarith
      simp only [growth] at b1 b2
      have e1 : (h : ℚ) * (1 / v - 1) ^ 2 + 2 * (f + h) * (1 / v - 1) + (e + 2 * f + h) =
          (e * v ^ 2 + 2 * f * v + h) * (1 / v) ^ 2 := by
        field_simp; ring
      set g := growth (1 / v - 1) l with hgd
      set u := 1 / v with hu
      have hg2 : 1 ≤ g ^ 2 := by nlinarith
      have b2' : 4 * ((h : ℚ) * (u - 1) ^ 2 + 2 * (f + h) * (u - 1) + (e + 2 * f + h)) * g ^ 2
          ≤ w := by
        rw [e1]; linarith
      have q0 : (e + 2 * f + h : ℚ) ≤
          (h : ℚ) * (u - 1) ^ 2 + 2 * (f + h) * (u - 1) + (e + 2 * f + h) := by
        have : 0 ≤ (h : ℚ) * (u - 1) ^ 2 := mul_nonneg (by linarith) (by positivity)
        have : 0 ≤ 2 * ((f : ℚ) + h) * (u - 1) := mul_nonneg (by linarith) (by linarith)
        linarith
      have b1' : 4 * |(s : ℚ)| * g ^ 2 ≤ w := by
        refine le_trans ?_ b1
        have : g ^ 2 ≤ (u * g) ^ 2 := by
          apply pow_le_pow_left₀ (by linarith)
          nlinarith
        exact mul_le_mul_of_nonneg_left this (by positivity)
      have c1 : |s| ≤ w := by
        have : |(s : ℚ)| ≤ w := by nlinarith
        exact_mod_cast this
      have c2 : e + 2 * f + h ≤ w := by
        have : (e + 2 * f + h : ℚ) ≤ w := by nlinarith
        exact_mod_cast this
      refine prime_on hx hy Coef8.diff_attempt (sym_gt h1)
        (Coef8.diff_uncover (s := s) hσ' he hf (by omega) c1 c2 hA) ?_
      intro cx' cy' k' hx' hy' hk
      rw [next_gt h1] at hx' hy'
      subst hk
      refine ih _ _ _ _ _ _ _ hl hx' hy' (by omega) (by omega) (by omega) (by omega) (by omega)
          ?_ ?_
      · push_cast
        rw [abs_neg]
        exact b1'
      · push_cast
        exact b2'

end Combine

end Clarith
