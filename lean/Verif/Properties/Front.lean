import Verif.Properties.Mirror
import Verif.Properties.Budget

/-! # Maps that only change the first symbols (C66)

For `x` between 0 and 1, `x + 1` has the primer `Turn`, the first symbol `Uncover`, and then the
symbols of `x`.  So it is with every map that exchanges some first symbols for others, and for any
clog at all: also one that never ends, one that panics, one that does not return. -/

namespace Clarith

open Spec Out

variable {cfg : Cfg}

/-! ## The identity with a common factor -/

namespace Coef4

/-- Inversion: where the coefficients after a symbol come from. -/
theorem reductionAttempt_amplify {k k' : Coef4}
    (h : k.reductionAttempt cfg = .ok (some (some .Amplify, k'))) : k.amplify cfg = .ok k' := by
  unfold reductionAttempt at h
  cases e1 : k.areSingularitiesOutsideDomain cfg with
  | panic p => simp [e1] at h
  | timeout => simp [e1] at h
  | ok b =>
    rw [e1] at h
    simp only [ok_bind] at h
    split at h
    · unfold reductionEgest at h
      cases e2 : k.imageExtremes cfg with
      | panic p => simp [e2] at h
      | timeout => simp [e2] at h
      | ok t =>
        obtain ⟨nmin, dmin, nmax, dmax⟩ := t
        simp only [e2, ok_bind] at h
        split at h
        · simp at h
        split at h
        · simp at h
        cases e3 : Out.and (Support.equalToOneHalf cfg nmin dmin)
            (Support.equalToOneHalf cfg nmax dmax) with
        | panic p => simp [e3] at h
        | timeout => simp [e3] at h
        | ok b =>
          simp only [e3, ok_bind] at h
          split at h
          · simp [pure_eq] at h
          cases e4 : Support.greaterThanOneHalf cfg nmax dmax with
          | panic p => simp [e4] at h
          | timeout => simp [e4] at h
          | ok b =>
            simp only [e4, ok_bind] at h
            split at h
            · cases e5 : k.amplify cfg with
              | panic p => simp [e5] at h
              | timeout => simp [e5] at h
              | ok k1 => simpa [e5, pure_eq] using h
            cases e6 : Support.lessThanOneHalf cfg nmin dmin with
            | panic p => simp [e6] at h
            | timeout => simp [e6] at h
            | ok b =>
              simp only [e6, ok_bind] at h
              split at h
              · cases e7 : k.uncover cfg with
                | panic p => simp [e7] at h
                | timeout => simp [e7] at h
                | ok k1 => simp [e7, pure_eq] at h
              · simp [pure_eq] at h
    · simp [pure_eq] at h

variable {a : Int}

theorem ident_inv (ha : a ≠ 0) : (⟨a, 0, 0, a⟩ : Coef4).Inv := by
  refine ⟨?_, by simpa using ha⟩
  rcases lt_or_gt_of_ne ha with h | h
  · right; unfold PosW opp; simp only; omega
  · left; unfold PosW; simp only; omega

theorem ident_val (ha : a ≠ 0) (s : ℚ) : (⟨a, 0, 0, a⟩ : Coef4).val s = s := by
  have : (a : ℚ) ≠ 0 := by exact_mod_cast ha
  simp only [val, Int.cast_zero, zero_mul, add_zero, zero_add]
  rw [mul_comm, mul_div_assoc, div_self this, mul_one]

theorem ident_bounded (ha : a ≠ 0) : (⟨a, 0, 0, a⟩ : Coef4).Bounded |a| := by
  have h := abs_le.1 (le_refl |a|)
  have h1 := Int.one_le_abs ha
  constructor <;> (try simp only) <;> omega

/-- In the state of the identity no symbol is ready. -/
theorem ident_attempt (ha : a ≠ 0) (hs : cfg.SafeUpTo NoPanic |a|) :
    (⟨a, 0, 0, a⟩ : Coef4).reductionAttempt cfg = .ok none := by
  have hb := ident_bounded ha
  have hI := ident_inv ha
  have h := reductionAttempt_sat hs hb hI.1
  cases e : (⟨a, 0, 0, a⟩ : Coef4).reductionAttempt cfg with
  | panic p => rw [e] at h; exact h.elim
  | timeout => rw [e] at h; exact h.elim
  | ok r =>
    rw [e] at h
    rcases r with _ | ⟨r, k'⟩
    · rfl
    · exfalso
      have h2 := h r k' rfl
      have h3 := (red_step (v := 1 / 3) (by norm_num) (by norm_num) hI.2 hb h2).1
      have h4 := (red_step (v := 2 / 3) (by norm_num) (by norm_num) hI.2 hb h2).1
      rw [ident_val ha, sym_lt (by norm_num)] at h3
      rw [ident_val ha, sym_gt (by norm_num)] at h4
      rw [h3] at h4
      cases h4

/-- When the map sends every operand to one that begins with `r`, `r` is ready. -/
theorem attempt_ready {k : Coef4} {M : Int} {r : Option Reduction} (hs : cfg.SafeUpTo NoPanic M)
    (hb : k.Bounded M) (hI : k.Inv) (hdet : k.det ≠ 0)
    (h : ∀ s, 0 < s → s < 1 → sym (k.val s) = r) :
    ∃ k', k.reductionAttempt cfg = .ok (some (r, k')) ∧
      ((PosW k ∧ ReductionRel k r k') ∨ (PosW k.opp ∧ ReductionRel k.opp r k'.opp)) := by
  obtain ⟨σ, hsgn, hside⟩ := hI.side hdet h
  have h1 := reductionAttempt_some hs hb hsgn hside
  have h2 := reductionAttempt_sat hs hb hI.1
  cases e : k.reductionAttempt cfg with
  | panic p => rw [e] at h1; exact h1.elim
  | timeout => rw [e] at h1; exact h1.elim
  | ok o =>
    rw [e] at h1 h2
    rcases o with _ | ⟨r', k'⟩
    · exact absurd rfl h1
    · have h3 := h2 r' k' rfl
      have h4 := (red_step (v := 1 / 3) (by norm_num) (by norm_num) hI.2 hb h3).1
      rw [h _ (by norm_num) (by norm_num)] at h4
      subst h4
      exact ⟨k', rfl, h3⟩

theorem amplify_ready (ha : a ≠ 0) (hs : cfg.SafeUpTo NoPanic (2 * |a|)) :
    (⟨a, 0, 0, 2 * a⟩ : Coef4).reductionAttempt cfg = .ok (some (some .Amplify, ⟨a, 0, 0, a⟩)) := by
  have h := abs_le.1 (le_refl |a|)
  have h1 := Int.one_le_abs ha
  have hb : (⟨a, 0, 0, 2 * a⟩ : Coef4).Bounded (2 * |a|) := by
    constructor <;> (try simp only) <;> omega
  have hI : (⟨a, 0, 0, 2 * a⟩ : Coef4).Inv := by
    refine ⟨?_, by simpa using ha⟩
    rcases lt_or_gt_of_ne ha with h | h
    · right; unfold PosW opp; simp only; omega
    · left; unfold PosW; simp only; omega
  have hd : (⟨a, 0, 0, 2 * a⟩ : Coef4).det ≠ 0 := by
    simp [det, ha]
  have hv : ∀ s : ℚ, (⟨a, 0, 0, 2 * a⟩ : Coef4).val s = s / 2 := by
    intro s
    have : (a : ℚ) ≠ 0 := by exact_mod_cast ha
    simp only [val]
    push_cast
    field_simp
    ring
  obtain ⟨k', e, -⟩ := attempt_ready (r := some .Amplify) hs hb hI hd fun s s0 s1 => by
    rw [hv, sym_lt (by linarith)]
  have e1 := reductionAttempt_amplify e
  have t : (2 * a).tmod 2 = 0 := by exact Int.mul_tmod_right 2 a
  have hh : half (2 * a) = a := by
    unfold half; exact Int.mul_tdiv_cancel_left a (by norm_num)
  have e2 : (⟨a, 0, 0, 2 * a⟩ : Coef4).amplify cfg = .ok ⟨a, 0, 0, a⟩ := by
    have o1 : isOdd (2 * a) = false := by unfold isOdd; simp [t]
    have o2 : isOdd 0 = false := by decide
    have h0 : half 0 = 0 := by decide
    simp [amplify, o1, o2, hh, h0, pure_eq]
  rw [e2] at e1
  injection e1 with e1
  rw [e, e1]

theorem uncover_ready (ha : a ≠ 0) (hs : cfg.SafeUpTo NoPanic (2 * |a|)) :
    (⟨0, a, a, a⟩ : Coef4).reductionAttempt cfg = .ok (some (some .Uncover, ⟨a, 0, 0, a⟩)) := by
  have h := abs_le.1 (le_refl |a|)
  have h1 := Int.one_le_abs ha
  have hb : (⟨0, a, a, a⟩ : Coef4).Bounded (2 * |a|) := by
    constructor <;> (try simp only) <;> omega
  have hI : (⟨0, a, a, a⟩ : Coef4).Inv := by
    refine ⟨?_, by simpa using ha⟩
    rcases lt_or_gt_of_ne ha with h | h
    · right; unfold PosW opp; simp only; omega
    · left; unfold PosW; simp only; omega
  have hd : (⟨0, a, a, a⟩ : Coef4).det ≠ 0 := by
    simp [det, ha]
  have hv : ∀ s : ℚ, 0 < s → (⟨0, a, a, a⟩ : Coef4).val s = 1 / (1 + s) := by
    intro s s0
    have : (a : ℚ) ≠ 0 := by exact_mod_cast ha
    have : (1 : ℚ) + s ≠ 0 := by linarith
    simp only [val]
    push_cast
    rw [show (a : ℚ) * s + a = a * (1 + s) by ring]
    field_simp
    ring
  obtain ⟨k', e, e1⟩ := attempt_ready (r := some .Uncover) hs hb hI hd fun s s0 s1 => by
    rw [hv s s0, sym_gt]
    rw [div_lt_div_iff₀ (by norm_num) (by linarith)]; linarith
  rw [e]
  rcases e1 with ⟨-, h⟩ | ⟨-, h⟩
  · rcases h with ⟨h, _⟩ | ⟨h, _⟩ | ⟨-, rfl, -⟩
    · cases h
    · cases h
    · simp
  · rcases h with ⟨h, _⟩ | ⟨h, _⟩ | ⟨-, h, -⟩
    · cases h
    · cases h
    · obtain ⟨k1, k2, k3, k4⟩ := k'
      simp only [opp, Coef4.mk.injEq] at h
      simp only [Out.ok.injEq, Option.some.injEq, Prod.mk.injEq, true_and, Coef4.mk.injEq]
      omega

/-- The state of the identity, with a common factor that is small enough. -/
def Ident (cfg : Cfg) (k : Coef4) : Prop :=
  ∃ a : Int, a ≠ 0 ∧ cfg.SafeUpTo NoPanic (2 * |a|) ∧ k = ⟨a, 0, 0, a⟩

theorem Ident.symbol {k : Coef4} (hk : k.Ident cfg) (r : Reduction) :
    ∃ k1 k' : Coef4, k'.Ident cfg ∧ (match r with
      | .Amplify => k.ingestAmplify cfg
      | .Uncover => k.ingestUncover cfg) = .ok k1 ∧
      k1.reductionAttempt cfg = .ok (some (some r, k')) := by
  obtain ⟨a, ha, hs, rfl⟩ := hk
  have hb := ident_bounded ha
  have h1 := Int.one_le_abs ha
  have hs1 : cfg.SafeUpTo NoPanic |a| := hs.mono (by omega) (by omega)
  cases r
  · have h := ingestAmplify_sat hs1 hb
    cases e : (⟨a, 0, 0, a⟩ : Coef4).ingestAmplify cfg with
    | panic p => rw [e] at h; exact h.elim
    | timeout => rw [e] at h; exact h.elim
    | ok k1 =>
      rw [e] at h
      obtain ⟨c, hc, g1, g2, g3, g4⟩ := h
      simp only at g1 g2 g3 g4
      obtain ⟨b, hb0, hb1, rfl⟩ : ∃ b : Int, b ≠ 0 ∧ |b| ≤ |a| ∧ k1 = ⟨b, 0, 0, 2 * b⟩ := by
        obtain ⟨x, y, z, w⟩ := k1
        simp only at g1 g2 g3 g4
        refine ⟨x, ?_, ?_, ?_⟩
        · rintro rfl; simp at g2; exact ha g2.symm
        · rw [← g2, abs_mul]
          have : (1 : Int) ≤ |c| := by rcases hc with rfl | rfl <;> norm_num
          nlinarith [abs_nonneg x]
        · simp only [Coef4.mk.injEq]
          refine ⟨trivial, ?_⟩
          rcases hc with rfl | rfl <;> omega
      refine ⟨⟨b, 0, 0, 2 * b⟩, ⟨b, 0, 0, b⟩,
        ⟨b, hb0, hs.mono (by positivity) (by omega), rfl⟩, rfl, ?_⟩
      exact amplify_ready hb0 (hs.mono (by positivity) (by omega))
  · have h := ingestUncover_sat hs1 hb
    cases e : (⟨a, 0, 0, a⟩ : Coef4).ingestUncover cfg with
    | panic p => rw [e] at h; exact h.elim
    | timeout => rw [e] at h; exact h.elim
    | ok k1 =>
      rw [e] at h
      obtain rfl : k1 = _ := h
      refine ⟨_, _, ⟨a, ha, hs, rfl⟩, rfl, ?_⟩
      simpa using uncover_ready ha hs

theorem Ident.start {k : Coef4} (hk : k.Ident cfg) :
    k.reductionAttempt cfg = .ok none ∧ ∃ n d r r', k.valueAtOneHalf cfg = .ok (n, d) ∧
      Ratio.newI cfg n d = .ok (none, none, some r) ∧ r.egest cfg = .ok (none, r') := by
  obtain ⟨a, ha, hs, rfl⟩ := hk
  have hb := ident_bounded ha
  have h1 := Int.one_le_abs ha
  have hs1 : cfg.SafeUpTo NoPanic |a| := hs.mono (by omega) (by omega)
  refine ⟨ident_attempt ha hs1, ?_⟩
  have h := valueAtOneHalf_sat hs1 hb
  cases e : (⟨a, 0, 0, a⟩ : Coef4).valueAtOneHalf cfg with
  | panic p => rw [e] at h; exact h.elim
  | timeout => rw [e] at h; exact h.elim
  | ok t =>
    rw [e] at h
    obtain ⟨⟨c, hc, g1, g2⟩, f1, f2, b1, b2, b3, b4⟩ := h
    obtain ⟨n, d⟩ := t
    simp only at *
    have hd : d ≠ 0 := by rintro rfl; simp at g2; exact ha g2
    have hc0 : c ≠ 0 := by rcases hc with rfl | rfl <;> norm_num
    have hnd : d = 2 * n := by
      have : c * d = c * (2 * n) := by linarith
      exact mul_left_cancel₀ hc0 this
    have h2 := Ratio.newI_sat (A := NoPanic) hd f1 f2 (hs1.lin (by omega) (by omega))
      (hs1.lin (by omega) (by omega))
    cases e2 : Ratio.newI cfg n d with
    | panic p => rw [e2] at h2; exact h2.elim
    | timeout => rw [e2] at h2; exact h2.elim
    | ok t =>
      rw [e2] at h2
      have hv : (n : ℚ) / d = 1 / 2 := by
        rw [hnd]
        have : (n : ℚ) ≠ 0 := by
          intro h0
          have : n = 0 := by exact_mod_cast h0
          omega
        push_cast
        field_simp
      rw [hv] at h2
      rcases h2 with ⟨s, -, h2⟩ | ⟨p, r, rfl, h2, h3⟩
      · exfalso; cases s <;> norm_num [specialValue] at h2
      · have hm := h2.val_mem
        obtain ⟨rfl, h4⟩ := applyPrimer_inj (p := none) (x := 1 / 2) (by norm_num) (by norm_num)
          hm.1 hm.2 h3
        have h5 := Ratio.egest_sat (A := NoPanic) h2
        cases e3 : r.egest cfg with
        | panic p => rw [e3] at h5; exact h5.elim
        | timeout => rw [e3] at h5; exact h5.elim
        | ok t =>
          rw [e3] at h5
          obtain ⟨r0, r'⟩ := t
          obtain ⟨h6, -⟩ := h5
          rw [← h4, sym_eq_none.2 rfl] at h6
          simp only at h6
          subst h6
          exact ⟨n, d, r, r', rfl, e2, e3⟩

end Coef4

/-- One call in the state of the identity. -/
theorem Coef4.Ident.egest {k : Coef4} (hk : k.Ident cfg) (c : Clog) (f : Nat) :
    (∀ p, Clog.egest cfg (f + 2) c = .panic p →
      Clog.egest cfg (f + 3) (Homographic.box ⟨c, k⟩) = .panic p) ∧
    (Clog.egest cfg (f + 2) c = .timeout →
      Clog.egest cfg (f + 3) (Homographic.box ⟨c, k⟩) = .timeout) ∧
    (∀ d, Clog.egest cfg (f + 2) c = .ok (none, d) → ∃ d',
      Clog.egest cfg (f + 3) (Homographic.box ⟨c, k⟩) = .ok (none, d')) ∧
    (∀ r d, Clog.egest cfg (f + 2) c = .ok (some r, d) → ∃ k' : Coef4, k'.Ident cfg ∧
      Clog.egest cfg (f + 3) (Homographic.box ⟨c, k⟩) =
        .ok (some r, Homographic.box ⟨d, k'⟩)) := by
  obtain ⟨h0, n, d, r0, r1, h1, h2, h3⟩ := hk.start
  have unfold_ : Clog.egest cfg (f + 3) (Homographic.box ⟨c, k⟩) = (do
      let t ← Strategy.egest cfg (Clog.egest cfg (f + 2)) (f + 2) (Homographic.box ⟨c, k⟩)
      match t with
      | (.ok reduction, s) => pure (reduction, s)
      | (.err newStrategy, _) => Clog.egest cfg (f + 2) newStrategy) := rfl
  rw [unfold_]
  simp only [Strategy.egest, Homographic.box, Homographic.egest, h0, ok_bind,
    Homographic.reductionIngest]
  refine ⟨fun p hp => ?_, fun hp => ?_, fun e hp => ?_, fun r e hp => ?_⟩
  · simp [hp]
  · simp [hp]
  · simp only [hp, ok_bind, h1, h2, pure_eq]
    rw [Clog.egest_ratio, h3]
    exact ⟨_, rfl⟩
  · obtain ⟨k1, k', hk', e1, e2⟩ := hk.symbol r
    refine ⟨k', hk', ?_⟩
    cases r <;> simp only at e1 <;> simp [hp, e1, e2, pure_eq]

theorem Coef4.Ident.same {k : Coef4} (hk : k.Ident cfg) (c : Clog) :
    SameAnswers cfg c (Homographic.box ⟨c, k⟩) := by
  refine SameAnswers.of_agree
    (Agree.coind (fun c c' => ∃ k : Coef4, k.Ident cfg ∧ c' = Homographic.box ⟨c, k⟩) ?_ ⟨k, hk, rfl⟩)
    (Agree.coind (fun c' c => ∃ k : Coef4, k.Ident cfg ∧ c' = Homographic.box ⟨c, k⟩) ?_ ⟨k, hk, rfl⟩)
  · rintro c _ ⟨k, hk, rfl⟩ f
    refine Sim.of_le (Clog.egest_mono cfg c f (f + 2) (by omega)) ?_
    show Sim _ (Clog.egest cfg (f + 2) c) _
    obtain ⟨h1, -, h3, h4⟩ := hk.egest c f
    have mono := Clog.egest_mono cfg (Homographic.box ⟨c, k⟩)
    cases e : Clog.egest cfg (f + 2) c with
    | timeout => trivial
    | panic p => exact ⟨f + 3, fun g hg _ _ => (mono _ _ hg).panic (h1 p e)⟩
    | ok t =>
      obtain ⟨r, d⟩ := t
      cases r with
      | none =>
        obtain ⟨d', hd⟩ := h3 d e
        exact ⟨(none, d'), ⟨rfl, by simp⟩, f + 3, fun g hg _ _ => (mono _ _ hg).ok hd⟩
      | some r =>
        obtain ⟨k', hk', hd⟩ := h4 r d e
        exact ⟨(some r, Homographic.box ⟨d, k'⟩), ⟨rfl, fun _ => ⟨k', hk', rfl⟩⟩, f + 3,
          fun g hg _ _ => (mono _ _ hg).ok hd⟩
  · rintro _ c ⟨k, hk, rfl⟩ f
    refine Sim.of_le (Clog.egest_mono cfg (Homographic.box ⟨c, k⟩) f (f + 3) (by omega)) ?_
    show Sim _ (Clog.egest cfg (f + 3) (Homographic.box ⟨c, k⟩)) _
    obtain ⟨h1, h2, h3, h4⟩ := hk.egest c f
    have mono := Clog.egest_mono cfg c
    cases e : Clog.egest cfg (f + 2) c with
    | timeout => rw [h2 e]; trivial
    | panic p =>
      rw [h1 p e]
      exact ⟨f + 2, fun g hg _ _ => (mono _ _ hg).panic e⟩
    | ok t =>
      obtain ⟨r, d⟩ := t
      cases r with
      | none =>
        obtain ⟨d', hd⟩ := h3 d e
        rw [hd]
        exact ⟨(none, d), ⟨rfl, by simp⟩, f + 2, fun g hg _ _ => (mono _ _ hg).ok e⟩
      | some r =>
        obtain ⟨k', hk', hd⟩ := h4 r d e
        rw [hd]
        exact ⟨(some r, d), ⟨rfl, fun _ => ⟨k', hk', rfl⟩⟩, f + 2,
          fun g hg _ _ => (mono _ _ hg).ok e⟩

/-! ## The symbols before -/

/-- A map of (0,1) into itself that undoes the symbols `l`: there are none. -/
theorem Coef4.undoes_nothing {k : Coef4} {l : List Reduction} (hI : k.Inv) (hdet : k.det ≠ 0)
    (h : ∀ s, 0 < s → s < 1 → k.val (unread l s) = s) : l = [] := by
  have hd : ∀ s, 0 < s → s < 1 → k.denAt s ≠ 0 := by
    intro s s0 s1
    rcases hI.1 with hp | hp
    · exact (hp.den_pos s0 s1).ne'
    · have := (hp.den_pos s0 s1).ne'
      intro e
      apply this
      have e' := opp_denAt k s
      rw [e, neg_zero] at e'
      exact e'
  rcases l with _ | ⟨r, l⟩
  · rfl
  · exfalso
    have key : ∀ t, 0 < t → t < 1 → sym t = some r := by
      intro t t0 t1
      have hv := hI.val_mem t0 t1
      have hm := unread_mem (r :: l) hv.1 hv.2
      have := val_inj hdet (hd _ t0 t1) (hd _ hm.1 hm.2) (h _ hv.1 hv.2).symm
      rw [this]
      have hm' := unread_mem l hv.1 hv.2
      exact (sym_unread1 r hm'.1 hm'.2).1
    have h1 := key (1 / 3) (by norm_num) (by norm_num)
    have h2 := key (2 / 3) (by norm_num) (by norm_num)
    rw [sym_lt (by norm_num)] at h1
    rw [sym_gt (by norm_num)] at h2
    rw [← h1] at h2
    cases h2

theorem Coef4.ident_of_val {k : Coef4} (hdet : k.det ≠ 0)
    (hd : ∀ s, 0 < s → s < 1 → k.denAt s ≠ 0) (h : ∀ s, 0 < s → s < 1 → k.val s = s) :
    k.nx ≠ 0 ∧ k = ⟨k.nx, 0, 0, k.nx⟩ := by
  have key : ∀ s : ℚ, 0 < s → s < 1 → (k.dx : ℚ) * s * s + (k.d - k.nx) * s - k.n = 0 := by
    intro s s0 s1
    have h1 := h s s0 s1
    rw [val_eq, div_eq_iff (hd s s0 s1)] at h1
    unfold numAt denAt at h1
    linarith
  have a1 := key (1 / 2) (by norm_num) (by norm_num)
  have a2 := key (1 / 3) (by norm_num) (by norm_num)
  have a3 := key (1 / 4) (by norm_num) (by norm_num)
  have b1 : (k.dx : ℚ) = 0 := by linarith
  have b2 : (k.n : ℚ) = 0 := by linarith
  have b3 : (k.d : ℚ) = k.nx := by linarith
  have c1 : k.dx = 0 := by exact_mod_cast b1
  have c2 : k.n = 0 := by exact_mod_cast b2
  have c3 : k.d = k.nx := by exact_mod_cast b3
  obtain ⟨x, y, z, w⟩ := k
  simp only at c1 c2 c3
  subst c1 c2 c3
  refine ⟨?_, rfl⟩
  rintro rfl
  simp [det] at hdet

/-- The symbols `l` go in, the symbols `l'` come out, and the state of the identity is left. -/
theorem Homographic.egests_front {F : Nat} (l' : List Reduction) :
    ∀ {l : List Reduction} {x x' : Clog} {k : Coef4} {M : Int},
    cfg.SafeUpTo NoPanic (M * 2 ^ l.length) → k.Bounded M → l.length < F →
    Reads (Clog.egest cfg F) l x x' → k.Inv → k.det ≠ 0 →
    (∀ s, 0 < s → s < 1 → k.val (unread l s) = unread l' s) →
    ∃ a : Int, a ≠ 0 ∧ |a| ≤ M * 2 ^ l.length ∧ Reads (Clog.egest cfg (F + 1)) l'
      (.homographic x k) (.homographic x' ⟨a, 0, 0, a⟩) := by
  induction l' with
  | nil =>
    intro l x x' k M hs hb hl hx hI hdet h
    obtain rfl := Coef4.undoes_nothing hI hdet h
    cases hx
    have hd : ∀ s, 0 < s → s < 1 → k.denAt s ≠ 0 := by
      intro s s0 s1 e
      have := (hI.val_mem s0 s1).1
      rw [Coef4.val_eq, e, div_zero] at this
      exact lt_irrefl _ this
    obtain ⟨h1, h2⟩ := Coef4.ident_of_val hdet hd h
    refine ⟨k.nx, h1, ?_, ?_⟩
    · rw [h2] at hb
      have := hb.n1
      have := hb.n1'
      simp only [zero_add] at *
      rw [List.length_nil, pow_zero, mul_one, abs_le]
      exact ⟨by assumption, by assumption⟩
    · show _ = _
      rw [← h2]
  | cons r l' ih =>
    intro l x x' k M hs hb hl hx hI hdet h
    have h1 := Homographic.egest_reads (F - l.length - 1) l hs hb hx hI hdet
    rw [show F - l.length - 1 + l.length + 1 = F by omega] at h1
    rcases h1 with ⟨p, hp, -⟩ | ⟨l1, l2, x1, k1, r', rfl, h1, h2, h3, h4, hb1, h5, e⟩ | ⟨h1, -⟩
    · exact hp.elim
    · have hl2 : l2.length < F := by rw [List.length_append] at hl; omega
      have hs2 : cfg.SafeUpTo NoPanic (M * 2 ^ l1.length * 2 ^ l2.length) := by
        convert hs using 1; rw [List.length_append, pow_add]; ring
      have key : ∀ s, 0 < s → s < 1 → r' = some r ∧ k1.val (unread l2 s) = unread l' s := by
        intro s s0 s1
        have hm := unread_mem l2 s0 s1
        have hm' := unread_mem l' s0 s1
        obtain ⟨e1, e2⟩ := h5 _ hm.1 hm.2
        rw [← unread_append, h s s0 s1] at e1 e2
        have e3 := sym_unread1 r hm'.1 hm'.2
        exact ⟨e1.trans e3.1, e2.trans e3.2⟩
      obtain ⟨a, a0, a1, a2⟩ := ih hs2 hb1 hl2 h2 h3 h4 fun s s0 s1 => (key s s0 s1).2
      obtain rfl := (key (1 / 2) (by norm_num) (by norm_num)).1
      refine ⟨a, a0, ?_, .homographic x1 k1, ?_, a2⟩
      · rw [List.length_append, pow_add]
        rwa [← mul_assoc]
      · simp only [Clog.egest, Strategy.egest, e, ok_bind, pure_eq, Homographic.box]
    · exfalso
      refine h1 (some r) fun s s0 s1 => ?_
      rw [h s s0 s1]
      have hm' := unread_mem l' s0 s1
      exact (sym_unread1 r hm'.1 hm'.2).1

theorem unread_bound {l : List Reduction} (h : .Uncover ∈ l) :
    ∃ e : ℚ, 0 < e ∧ ∀ s, 0 < s → s < 1 → e ≤ unread l s := by
  induction l with
  | nil => cases h
  | cons r l ih =>
    cases r
    · have h' : .Uncover ∈ l := by simpa using h
      obtain ⟨e, e0, he⟩ := ih h'
      exact ⟨e / 2, by positivity, fun s s0 s1 => by
        have := he s s0 s1
        simp only [unread, unread1]; linarith⟩
    · refine ⟨1 / 2, by norm_num, fun s s0 s1 => ?_⟩
      have hm := unread_mem l s0 s1
      simp only [unread, unread1]
      rw [div_le_div_iff₀ (by norm_num) (by linarith)]
      linarith

/-! ## The theorem -/

/-- The operand begins with the symbols `l`, and the map makes of these the primer `p'` and the
symbols `l'`, whatever the rest `s`.  Then the result has the primer `p'`, its first symbols are
`l'`, and its further answers are those of what is left of the operand: the same symbols, the same
panics after the same symbols, the same calls that do not return.  (For a result that can be
arbitrarily large the denominator has to be positive, as in C59.) -/
theorem C66_homographic {p p' : Option Primer} {c c' : Clog} {nx n dx d M : Int}
    {l l' : List Reduction} (h1 : |nx| + |n| ≤ M) (h2 : |dx| + |d| ≤ M)
    (hM : (M * 2 ^ (l.length + 1)) ^ 2 ≤ cfg.imax) (hl : Gives cfg c l c')
    (hmap : ∀ s, 0 < s → s < 1 → dx * applyPrimer p (unread l s) + d ≠ 0 ∧
      (nx * applyPrimer p (unread l s) + n) / (dx * applyPrimer p (unread l s) + d) =
        applyPrimer p' (unread l' s))
    (hpole : p' = none ∨ p' = some .Reflect ∨ .Uncover ∈ l' ∨
      ∀ s, 0 < s → s < 1 → 0 < dx * applyPrimer p (unread l s) + d) :
    ∃ c0 c1, Returns (fun f => Number.homographic cfg f (.Other p c) nx n dx d) (.Other p' c0) ∧
      Gives cfg c0 l' c1 ∧ SameAnswers cfg c' c1 := by
  have hdet : nx * d - n * dx ≠ 0 := by
    intro hdet
    have hdet' : (nx : ℚ) * d - n * dx = 0 := by exact_mod_cast hdet
    have a1 := hmap (1 / 2) (by norm_num) (by norm_num)
    have a2 := hmap (1 / 3) (by norm_num) (by norm_num)
    have m1 := unread_mem l' (s := 1 / 2) (by norm_num) (by norm_num)
    have m2 := unread_mem l' (s := 1 / 3) (by norm_num) (by norm_num)
    have e : applyPrimer p' (unread l' (1 / 2)) = applyPrimer p' (unread l' (1 / 3)) := by
      rw [← a1.2, ← a2.2, div_eq_div_iff a1.1 a2.1]
      linear_combination (applyPrimer p (unread l (1 / 2)) - applyPrimer p (unread l (1 / 3))) * hdet'
    have e2 := (applyPrimer_inj m1.1 m1.2 m2.1 m2.2 e).2
    have inj : ∀ (l : List Reduction) {s t : ℚ}, 0 < s → s < 1 → 0 < t → t < 1 →
        unread l s = unread l t → s = t := by
      intro l
      induction l with
      | nil => intro s t _ _ _ _ h; exact h
      | cons r l ih =>
        intro s t s0 s1 t0 t1 h
        have ms := unread_mem l s0 s1
        have mt := unread_mem l t0 t1
        refine ih s0 s1 t0 t1 ?_
        rw [← (sym_unread1 r ms.1 ms.2).2, ← (sym_unread1 r mt.1 mt.2).2]
        exact congrArg next h
    have := inj l' (by norm_num) (by norm_num) (by norm_num) (by norm_num) e2
    norm_num at this
  have hM1 : 1 ≤ M := by
    by_contra h
    have a1 := abs_nonneg nx
    have a2 := abs_nonneg n
    have e1 : nx = 0 := abs_eq_zero.1 (by omega)
    have e2 : n = 0 := abs_eq_zero.1 (by omega)
    simp [e1, e2] at hdet
  have hs' : cfg.SafeUpTo NoPanic (2 * (M * 2 ^ l.length)) := by
    refine safeUpTo_of_sq_le (by positivity) ?_
    rw [← sq]
    convert hM using 2
    rw [pow_succ]; ring
  have hs : cfg.SafeUpTo NoPanic (M * 2 ^ l.length) := by
    have : 0 < M * 2 ^ l.length := by positivity
    exact hs'.mono this.le (by linarith)
  obtain ⟨f0, hl⟩ := hl
  set F := max f0 (l.length + 1) with hF
  have hR : Reads (Clog.egest cfg F) l c c' := reads_iff.2 (hl F (by omega))
  rcases Homographic.make_reads (p := p) ⟨hM1, h1, h2⟩ hs hdet (by omega) hR with ⟨P, hP, e⟩ |
    ⟨l1, l2, x1, p1, k1, rfl, g1, g2, hI, hd, hb, ⟨k, hA, g3⟩, e⟩ | ⟨⟨k, k0, hA, ha, hn⟩, _⟩
  · exact hP.elim
  · have key : ∀ s, 0 < s → s < 1 → p' = p1 ∧ k1.val (unread l2 s) = unread l' s := by
      intro s s0 s1
      have hm := unread_mem l2 s0 s1
      have hm' := unread_mem (l1 ++ l2) s0 s1
      have hm'' := unread_mem l' s0 s1
      obtain ⟨-, e3⟩ := g3 _ hm.1 hm.2
      have hv := hI.val_mem hm.1 hm.2
      rw [← unread_append, hA.val hm'.1 hm'.2, (hmap s s0 s1).2] at e3
      obtain ⟨e4, e5⟩ := applyPrimer_inj hm''.1 hm''.2 hv.1 hv.2 e3
      exact ⟨e4, e5.symm⟩
    obtain rfl := (key (1 / 2) (by norm_num) (by norm_num)).1
    have hl2 : l2.length < F := by
      rw [List.length_append] at hF; omega
    have hs2 : cfg.SafeUpTo NoPanic (M * 2 ^ l1.length * 2 ^ l2.length) := by
      convert hs using 1; rw [List.length_append, pow_add]; ring
    obtain ⟨a, a0, a1, a2⟩ := Homographic.egests_front l' hs2 hb hl2 g2 hI hd
      fun s s0 s1 => (key s s0 s1).2
    refine ⟨_, _, FuelMono.returns (Number.homographic_mono _ _ _ _ _ _) F e, a2.gives,
      Coef4.Ident.same ⟨a, a0, hs'.mono (by positivity) ?_, rfl⟩ _⟩
    rw [List.length_append, pow_add, ← mul_assoc M]
    linarith
  · exfalso
    have hsure : k0.Sure p' := by
      intro s s0 s1
      have hm := unread_mem l s0 s1
      have hm' := unread_mem l' s0 s1
      obtain ⟨e1, e2⟩ := hmap s s0 s1
      obtain ⟨c, c0, -, e3⟩ := ha.at_ s s0 s1
      refine ⟨by rw [e3]; exact mul_ne_zero c0.ne' ((hA.den hm.1 hm.2).2 e1), _, hm'.1, hm'.2, ?_⟩
      rw [ha.val s0 s1, hA.val hm.1 hm.2, e2]
    have bounded : ∀ B : ℚ, (∀ s, 0 < s → s < 1 → |applyPrimer p' (unread l' s)| ≤ B) → k0.Tame := by
      intro B hB
      refine Coef4.tame_of_bounded (B := B) ha.det (fun s s0 s1 => (hsure s s0 s1).1)
        fun s s0 s1 => ?_
      have hm := unread_mem l s0 s1
      rw [ha.val s0 s1, hA.val hm.1 hm.2, (hmap s s0 s1).2]
      exact hB s s0 s1
    have ht : k0.Tame := by
      rcases hpole with rfl | rfl | hu | hp
      · refine bounded 1 fun s s0 s1 => ?_
        have hm' := unread_mem l' s0 s1
        simp only [applyPrimer]
        rw [abs_le]; constructor <;> linarith
      · refine bounded 1 fun s s0 s1 => ?_
        have hm' := unread_mem l' s0 s1
        simp only [applyPrimer]
        rw [abs_le]; constructor <;> linarith
      · obtain ⟨ε, e0, he⟩ := unread_bound hu
        refine bounded (max 1 (1 / ε)) fun s s0 s1 => ?_
        have hm' := unread_mem l' s0 s1
        have hb := one_div_le_one_div_of_le e0 (he s s0 s1)
        have hp : 0 < 1 / unread l' s := by have := hm'.1; positivity
        rcases p' with _ | _ | _ | _ <;> simp only [applyPrimer]
        · refine le_max_of_le_left ?_
          rw [abs_le]; constructor <;> linarith
        · refine le_max_of_le_right ?_
          rwa [abs_of_pos hp]
        · refine le_max_of_le_left ?_
          rw [abs_le]; constructor <;> linarith
        · refine le_max_of_le_right ?_
          rw [abs_le]; constructor
          · linarith
          · linarith
      · refine .inl fun s s0 s1 => ?_
        have hm := unread_mem l s0 s1
        obtain ⟨c, c0, -, e3⟩ := ha.at_ s s0 s1
        obtain ⟨c2, c20, -, e4⟩ := hA.at_ _ hm.1 hm.2
        have := hp s s0 s1
        rw [e3, e4]; positivity
    obtain ⟨σ, hσ⟩ := hsure.decided ht
    exact hn p' σ hσ

/-! ## Instances -/

private theorem small {M : Int} {j : Nat} (h : (M * 2 ^ (j + 1)) ^ 2 ≤ 32767) (cfg : Cfg) :
    (M * 2 ^ (j + 1)) ^ 2 ≤ cfg.imax := by
  have h16 : (2 : Int) ^ 15 ≤ 2 ^ (cfg.bits - 1) :=
    pow_le_pow_right₀ (by norm_num) (by have := cfg.hbits; omega)
  simp only [Cfg.imax]
  linarith

/-- `x + 1`, for `x` between 0 and 1: the primer `Turn` and the symbol `Uncover` before the
answers of `x`. -/
theorem C66_add_one (cfg : Cfg) (c : Clog) :
    ∃ c0 c1, Returns (fun f => Number.homographic cfg f (.Other none c) 1 1 0 1)
        (.Other (some .Turn) c0) ∧ Gives cfg c0 [.Uncover] c1 ∧ SameAnswers cfg c c1 := by
  refine C66_homographic (M := 2) (l := []) (by norm_num) (by norm_num) (small (by norm_num) cfg)
    (Gives.nil c) (fun s s0 s1 => ⟨by norm_num, ?_⟩) (.inr (.inr (.inl (by simp))))
  simp only [applyPrimer, unread, unread1]
  norm_num
  ring

/-- `x / 2`, for `x` between 0 and 1: the symbol `Amplify` before the answers of `x`. -/
theorem C66_halve (cfg : Cfg) (c : Clog) :
    ∃ c0 c1, Returns (fun f => Number.homographic cfg f (.Other none c) 1 0 0 2) (.Other none c0) ∧
      Gives cfg c0 [.Amplify] c1 ∧ SameAnswers cfg c c1 := by
  refine C66_homographic (M := 2) (l := []) (by norm_num) (by norm_num) (small (by norm_num) cfg)
    (Gives.nil c) (fun s s0 s1 => ⟨by norm_num, ?_⟩) (.inl rfl)
  simp only [applyPrimer, unread, unread1]
  norm_num

/-- `2 * x`, for `x` above 1: the symbol `Amplify` before the answers of `x`. -/
theorem C66_double (cfg : Cfg) (c : Clog) :
    ∃ c0 c1, Returns (fun f => Number.homographic cfg f (.Other (some .Turn) c) 2 0 0 1)
        (.Other (some .Turn) c0) ∧ Gives cfg c0 [.Amplify] c1 ∧ SameAnswers cfg c c1 := by
  refine C66_homographic (M := 2) (l := []) (by norm_num) (by norm_num) (small (by norm_num) cfg)
    (Gives.nil c) (fun s s0 s1 => ⟨by norm_num, ?_⟩) (.inr (.inr (.inr fun s s0 s1 => by norm_num)))
  simp only [applyPrimer, unread, unread1]
  norm_num
  field_simp

/-- `2 * x`, for `x` between 0 and 1/2: the answers of `x` after its first one. -/
theorem C66_double_small (cfg : Cfg) (c c' : Clog) (h : Gives cfg c [.Amplify] c') :
    ∃ c0, Returns (fun f => Number.homographic cfg f (.Other none c) 2 0 0 1) (.Other none c0) ∧
      SameAnswers cfg c' c0 := by
  obtain ⟨c0, c1, h1, h2, h3⟩ := C66_homographic (cfg := cfg) (M := 2) (l := [.Amplify]) (l' := [])
    (nx := 2) (n := 0) (dx := 0) (d := 1) (p := none) (p' := none)
    (by norm_num) (by norm_num) (small (by norm_num) cfg) h
    (fun s s0 s1 => ⟨by norm_num, by simp only [applyPrimer, unread, unread1]; norm_num; ring⟩)
    (.inl rfl)
  rw [Gives.nil_eq h2] at h3
  exact ⟨c0, h1, h3⟩

/-- The coefficients of the map that puts the symbols `l` in front. -/
theorem front_coefficients (l : List Reduction) : ∃ nx n dx d : Int,
    0 ≤ nx ∧ 0 ≤ n ∧ 0 ≤ dx ∧ 0 ≤ d ∧ nx + n ≤ 2 ^ l.length ∧ dx + d ≤ 2 ^ l.length ∧
    nx * d - n * dx ≠ 0 ∧ ∀ s : ℚ, 0 < s → s < 1 → 0 < nx * s + n ∧ 0 < dx * s + d ∧
      unread l s = (nx * s + n) / (dx * s + d) := by
  induction l with
  | nil => exact ⟨1, 0, 0, 1, by norm_num, le_rfl, le_rfl, by norm_num, by norm_num, by norm_num,
      by norm_num, fun s s0 s1 => ⟨by simpa, by simp, by simp [unread]⟩⟩
  | cons r l ih =>
    obtain ⟨nx, n, dx, d, h1, h2, h3, h4, h5, h6, h7, h8⟩ := ih
    rw [List.length_cons, pow_succ]
    cases r
    · refine ⟨nx, n, 2 * dx, 2 * d, h1, h2, by omega, by omega, by omega, by omega, ?_,
        fun s s0 s1 => ?_⟩
      · intro e; apply h7; linarith
      · obtain ⟨g1, g2, g3⟩ := h8 s s0 s1
        refine ⟨g1, by push_cast; linarith, ?_⟩
        simp only [unread, unread1, g3]
        push_cast
        rw [div_div]; ring_nf
    · refine ⟨dx, d, nx + dx, n + d, h3, h4, by omega, by omega, by omega, by omega, ?_,
        fun s s0 s1 => ?_⟩
      · intro e; apply h7; linarith
      · obtain ⟨g1, g2, g3⟩ := h8 s s0 s1
        refine ⟨g2, by push_cast; linarith, ?_⟩
        simp only [unread, unread1, g3]
        push_cast
        rw [show ((nx : ℚ) + dx) * s + (n + d) = (nx * s + n) + (dx * s + d) by ring]
        generalize (nx : ℚ) * s + n = u at *
        generalize (dx : ℚ) * s + d = v at *
        have : u + v ≠ 0 := by linarith
        field_simp
        ring

/-- Any primer and any symbols can be put in front of a number between 0 and 1, up to half the word
size: there are coefficients for which the answers of the result are these symbols, and then those
of the operand, whatever it is. -/
theorem C66_front (p' : Option Primer) (l' : List Reduction) :
    ∃ nx n dx d : Int, ∀ cfg : Cfg, 2 * l'.length + 4 ≤ cfg.bits → ∀ c : Clog,
      ∃ c0 c1, Returns (fun f => Number.homographic cfg f (.Other none c) nx n dx d) (.Other p' c0) ∧
        Gives cfg c0 l' c1 ∧ SameAnswers cfg c c1 := by
  obtain ⟨nx, n, dx, d, h1, h2, h3, h4, h5, h6, -, h8⟩ := front_coefficients l'
  have size : ∀ cfg : Cfg, 2 * l'.length + 4 ≤ cfg.bits →
      ((2 : Int) ^ l'.length * 2 ^ (([] : List Reduction).length + 1)) ^ 2 ≤ cfg.imax := by
    intro cfg hb
    have h : (2 : Int) ^ (2 * l'.length + 3) ≤ 2 ^ (cfg.bits - 1) :=
      pow_le_pow_right₀ (by norm_num) (by omega)
    have e : ((2 : Int) ^ l'.length * 2 ^ (([] : List Reduction).length + 1)) ^ 2 =
        2 ^ (2 * l'.length + 2) := by
      rw [List.length_nil, zero_add, ← pow_add, ← pow_mul]; congr 1; ring
    have h0 : (1 : Int) ≤ 2 ^ (2 * l'.length + 2) := one_le_pow₀ (by norm_num)
    rw [e]
    simp only [Cfg.imax]
    rw [pow_succ] at h
    linarith
  have a1 := abs_of_nonneg h1
  have a2 := abs_of_nonneg h2
  have a3 := abs_of_nonneg h3
  have a4 := abs_of_nonneg h4
  rcases p' with _ | _ | _ | _
  · refine ⟨nx, n, dx, d, fun cfg hb c => C66_homographic (M := 2 ^ l'.length) (l := [])
      (by omega) (by omega) (size cfg hb) (Gives.nil c) (fun s s0 s1 => ?_) (.inl rfl)⟩
    obtain ⟨g1, g2, g3⟩ := h8 s s0 s1
    exact ⟨g2.ne', g3.symm⟩
  · refine ⟨dx, d, nx, n, fun cfg hb c => C66_homographic (M := 2 ^ l'.length) (l := [])
      (by omega) (by omega) (size cfg hb) (Gives.nil c) (fun s s0 s1 => ?_)
      (.inr (.inr (.inr fun s s0 s1 => (h8 s s0 s1).1)))⟩
    obtain ⟨g1, g2, g3⟩ := h8 s s0 s1
    refine ⟨g1.ne', ?_⟩
    simp only [applyPrimer, unread, g3]
    rw [one_div_div]
  · refine ⟨-nx, -n, dx, d, fun cfg hb c => C66_homographic (M := 2 ^ l'.length) (l := [])
      (by rw [abs_neg, abs_neg]; omega) (by omega) (size cfg hb) (Gives.nil c)
      (fun s s0 s1 => ?_) (.inr (.inl rfl))⟩
    obtain ⟨g1, g2, g3⟩ := h8 s s0 s1
    refine ⟨g2.ne', ?_⟩
    simp only [applyPrimer, unread, g3]
    push_cast
    rw [← neg_div]; congr 1; ring
  · refine ⟨-dx, -d, nx, n, fun cfg hb c => C66_homographic (M := 2 ^ l'.length) (l := [])
      (by rw [abs_neg, abs_neg]; omega) (by omega) (size cfg hb) (Gives.nil c)
      (fun s s0 s1 => ?_) (.inr (.inr (.inr fun s s0 s1 => (h8 s s0 s1).1)))⟩
    obtain ⟨g1, g2, g3⟩ := h8 s s0 s1
    refine ⟨g1.ne', ?_⟩
    simp only [applyPrimer, unread, g3]
    push_cast
    rw [one_div_div, ← neg_div]; congr 1; ring

/-- The first symbols of a number between 0 and 1 can be taken away again, up to a quarter of the
word size. -/
theorem C66_rest (l : List Reduction) :
    ∃ nx n dx d : Int, ∀ cfg : Cfg, 4 * l.length + 6 ≤ cfg.bits → ∀ c c' : Clog, Gives cfg c l c' →
      ∃ c0, Returns (fun f => Number.homographic cfg f (.Other none c) nx n dx d) (.Other none c0) ∧
        SameAnswers cfg c' c0 := by
  obtain ⟨nx, n, dx, d, h1, h2, h3, h4, h5, h6, h7, h8⟩ := front_coefficients l
  have a1 := abs_of_nonneg h1
  have a2 := abs_of_nonneg h2
  have a3 := abs_of_nonneg h3
  have a4 := abs_of_nonneg h4
  have hp : (0 : Int) < 2 ^ l.length := by positivity
  refine ⟨d, -n, -dx, nx, fun cfg hb c c' hl => ?_⟩
  have size : (2 * (2 : Int) ^ l.length * 2 ^ (l.length + 1)) ^ 2 ≤ cfg.imax := by
    have h : (2 : Int) ^ (4 * l.length + 5) ≤ 2 ^ (cfg.bits - 1) :=
      pow_le_pow_right₀ (by norm_num) (by omega)
    have e : (2 * (2 : Int) ^ l.length * 2 ^ (l.length + 1)) ^ 2 = 2 ^ (4 * l.length + 4) := by
      rw [← pow_succ', ← pow_add, ← pow_mul]; congr 1; ring
    have h0 : (1 : Int) ≤ 2 ^ (4 * l.length + 4) := one_le_pow₀ (by norm_num)
    rw [e]
    simp only [Cfg.imax]
    rw [pow_succ] at h
    linarith
  have hmap : ∀ s : ℚ, 0 < s → s < 1 →
      ((-dx : Int) : ℚ) * applyPrimer none (unread l s) + nx ≠ 0 ∧
      (d * applyPrimer none (unread l s) + ((-n : Int) : ℚ)) /
        (((-dx : Int) : ℚ) * applyPrimer none (unread l s) + nx) =
        applyPrimer none (unread [] s) := by
    intro s s0 s1
    obtain ⟨g1, g2, g3⟩ := h8 s s0 s1
    simp only [applyPrimer, unread, g3]
    push_cast
    have h7' : (nx : ℚ) * d - n * dx ≠ 0 := by exact_mod_cast h7
    have e1 : -(dx : ℚ) * ((nx * s + n) / (dx * s + d)) + nx =
        (nx * d - n * dx) / (dx * s + d) := by field_simp; ring
    have e2 : (d : ℚ) * ((nx * s + n) / (dx * s + d)) + -n =
        s * ((nx * d - n * dx) / (dx * s + d)) := by
      have := g2.ne'
      rw [eq_comm, mul_div_assoc', eq_comm, mul_div_assoc', ← sub_eq_add_neg, div_sub' this]
      congr 1; ring
    have h9 : ((nx : ℚ) * d - n * dx) / (dx * s + d) ≠ 0 := div_ne_zero h7' g2.ne'
    rw [e1, e2]
    exact ⟨h9, mul_div_cancel_right₀ _ h9⟩
  obtain ⟨c0, c1, g1, g2, g3⟩ := C66_homographic (M := 2 * 2 ^ l.length)
    (by rw [abs_neg]; omega) (by rw [abs_neg]; omega) size hl hmap (.inl rfl)
  rw [Gives.nil_eq g2] at g3
  exact ⟨c0, g1, g3⟩

/-! ## Examples -/

/-- A clog that panics at its eighth symbol, on a 64 bit machine … -/
example : Panics (fun f => Clog.egests release64 f 8
    (.homographic (.ratio ⟨1, 255⟩) ⟨1, 0, 1, 1⟩)) .unwrapNone :=
  FuelMono.panics (Clog.egests_mono _ _ _) 100 (by decide +kernel)

/-- … one more than it … -/
example := C66_add_one release64 (.homographic (.ratio ⟨1, 255⟩) ⟨1, 0, 1, 1⟩)

/-- … and (test) this panics at its ninth symbol. -/
example : Number.homographic release64 100
      (.Other none (.homographic (.ratio ⟨1, 255⟩) ⟨1, 0, 1, 1⟩)) 1 1 0 1 =
    .ok (.Other (some .Turn) (.homographic (.homographic (.ratio ⟨1, 255⟩) ⟨1, 0, 1, 1⟩) ⟨0, 1, 1, 1⟩)) ∧
    Clog.egests release64 100 9 (.homographic (.homographic (.ratio ⟨1, 255⟩) ⟨1, 0, 1, 1⟩)
      ⟨0, 1, 1, 1⟩) = .panic .unwrapNone :=
  ⟨by decide +kernel, by decide +kernel⟩

/-- The map `(2x+3)/(x+2)`, with a common factor 2, on a 16 bit machine, for a clog whose `egest` does not return. -/
example := C66_homographic (cfg := ⟨16, by decide, false⟩) (p := none) (p' := some .Turn)
  (nx := 4) (n := 6) (dx := 2) (d := 4) (M := 10) (l := []) (l' := [.Uncover, .Uncover, .Uncover])
  (c := .combine (.homographic (.ratio ⟨3, 5⟩) ⟨0, 0, 1, 1⟩) (.homographic (.ratio ⟨3, 5⟩) ⟨0, 0, 1, 1⟩)
    ⟨0, 1, 2, 0, 0, 3, 3, 0⟩) (by decide) (by decide) (by decide) (Gives.nil _)
  (fun s s0 s1 => ⟨by simp only [applyPrimer, unread]; push_cast; positivity, by
    simp only [applyPrimer, unread, unread1]; push_cast; field_simp; ring⟩)
  (.inr (.inr (.inl (by simp))))

example := C66_double_small debug64 (.ratio ⟨3, 10⟩) (.ratio ⟨3, 5⟩)
  (FuelMono.returns (Clog.egests_mono _ _ _) 5 (by decide))

end Clarith
