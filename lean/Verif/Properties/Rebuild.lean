import Verif.Properties.ConsumeExact
import Verif.Properties.Front

/-! # Rebuilding a number that `consume` has read in part (C67)

`consume` gives up when a coefficient has reached a quarter of `isize::MAX`, and returns what is
left of the operand.  The number should be obtained from the two by `homographic`; the test `t_some`
(consume.rs:50-72, ignored) does so.  The image check of `homographic` multiplies the coefficients
crosswise, so this call panics for every number that is not very near zero or very large. -/

namespace Clarith

open Spec Out Support

variable {cfg : Cfg}

/-! ## The coefficients -/

namespace Consume

/-- Without primer the coefficients are not negative, and `d` is the greatest. -/
theorem undoes_shape (l : List Reduction) : ∃ k : Coef4, Undoes none l k ∧ Lowest k ∧
    0 ≤ k.nx ∧ 0 ≤ k.n ∧ 0 ≤ k.dx ∧ 0 < k.d ∧ k.n ≤ k.d ∧ k.dx ≤ k.d ∧ k.nx ≤ k.d ∧
    0 < k.nx + k.n ∧ k.nx + k.n ≤ k.dx + k.d ∧ k.d ≤ 2 ^ l.length ∧ (.Uncover ∈ l → 0 < k.n ∧ 0 < k.dx) ∧
    (∀ l' r, l = l' ++ [r] → ∃ k', Undoes none l' k' ∧ Lowest k' ∧ k.d ≤ 2 * k'.d) := by
  induction l using List.reverseRecOn with
  | nil =>
    refine ⟨⟨1, 0, 0, 1⟩, fun y hy => ?_, fun g g1 _ _ _ => g1, ?_⟩
    · simp [undo, applyPrimer]
    · simp
  | append_singleton l r ih =>
    obtain ⟨k, hu, hg, a1, a2, a3, a4, a5, a6, a7, a8, a8', aP, a9, -⟩ := ih
    have hlast : ∀ d, d ≤ 2 * k.d → ∀ l' r', l ++ [r] = l' ++ [r'] →
        ∃ k', Undoes none l' k' ∧ Lowest k' ∧ d ≤ 2 * k'.d := by
      intro d hd l' r' e
      rw [(List.append_inj' e rfl).1.symm]
      exact ⟨k, hu, hg, hd⟩
    have eP : (2 : Int) ^ (l ++ [r]).length = 2 * 2 ^ l.length := by
      rw [List.length_append, List.length_singleton, pow_succ]; ring
    cases r with
    | Amplify =>
      by_cases hodd : k.nx % 2 = 1 ∨ k.dx % 2 = 1
      · refine ⟨⟨k.nx, 2 * k.n, k.dx, 2 * k.d⟩, fun y hy => ?_, fun g g1 g2 g3 g4 => ?_,
          a1, by simp only; omega, a3, by simp only; omega, by simp only; omega,
          by simp only; omega, by simp only; omega, by simp only; omega, by simp only; omega,
          by simp only; omega, fun h => ?_, hlast _ (by simp only; omega)⟩
        · obtain ⟨u1, u2⟩ := hu (y / 2) (div_pos hy two_pos)
          rw [undo_append, undo, undo, ← u2]
          push_cast
          refine ⟨fun h => u1 (by linarith), ?_⟩
          rw [← mul_div_mul_left (k.nx * (y / 2) + k.n : ℚ) _ (two_ne_zero)]
          congr 1 <;> ring
        · simp only at g1 g2 g3 g4
          have hc : IsCoprime g 2 := by
            have hgo : g % 2 = 1 := by
              by_contra hne
              have h2 : (2 : Int) ∣ g := by omega
              have b1 := h2.trans g1
              have b3 := h2.trans g3
              omega
            exact ⟨1, -(g / 2), by omega⟩
          exact hg g g1 (hc.dvd_of_dvd_mul_left g2) g3 (hc.dvd_of_dvd_mul_left g4)
        · have := a9 (by simpa using h)
          simp only
          omega
      · obtain ⟨nx, e1⟩ : ∃ z, k.nx = 2 * z := ⟨k.nx / 2, by omega⟩
        obtain ⟨dx, e2⟩ : ∃ z, k.dx = 2 * z := ⟨k.dx / 2, by omega⟩
        refine ⟨⟨nx, k.n, dx, k.d⟩, fun y hy => ?_, fun g g1 g2 g3 g4 => ?_,
          by simp only; omega, a2, by simp only; omega, a4, a5, by simp only; omega,
          by simp only; omega, by simp only; omega, by simp only; omega,
          by simp only; omega, fun h => ?_, hlast _ (by simp only; omega)⟩
        · obtain ⟨u1, u2⟩ := hu (y / 2) (div_pos hy two_pos)
          have e1' : (k.nx : ℚ) = 2 * nx := by exact_mod_cast e1
          have e2' : (k.dx : ℚ) = 2 * dx := by exact_mod_cast e2
          rw [undo_append, undo, undo, ← u2, e1', e2']
          rw [e2'] at u1
          simp only
          refine ⟨fun h => u1 (by linarith), ?_⟩
          congr 1 <;> ring
        · simp only at g1 g2 g3 g4
          exact hg g (e1 ▸ g1.mul_left 2) g2 (e2 ▸ g3.mul_left 2) g4
        · have := a9 (by simpa using h)
          simp only
          omega
    | Uncover =>
      refine ⟨⟨k.n, k.nx + k.n, k.d, k.dx + k.d⟩, fun y hy => ?_, fun g g1 g2 g3 g4 => ?_,
          a2, by simp only; omega, by simp only; omega, by simp only; omega, a8',
          by simp only; omega, by simp only; omega, by simp only; omega, by simp only; omega,
          by simp only; omega, fun _ => ⟨a8, a4⟩, hlast _ (by simp only; omega)⟩
      · have hy1 : (y + 1) ≠ 0 := by linarith
        obtain ⟨u1, u2⟩ := hu (1 / (y + 1)) (one_div_pos.2 (by linarith))
        rw [undo_append, undo, undo, ← u2]
        push_cast
        have eN : (k.n : ℚ) * y + (k.nx + k.n) = (k.nx * (1 / (y + 1)) + k.n) * (y + 1) := by
          field_simp; ring
        have eD : (k.d : ℚ) * y + (k.dx + k.d) = (k.dx * (1 / (y + 1)) + k.d) * (y + 1) := by
          field_simp; ring
        rw [eN, eD]
        exact ⟨mul_ne_zero u1 hy1, mul_div_mul_right _ _ hy1⟩
      · simp only at g1 g2 g3 g4
        exact hg g ((Int.dvd_add_left g1).1 g2) g1 ((Int.dvd_add_left g3).1 g4) g3

theorem undo_le_one : ∀ {l : List Reduction} {y : ℚ}, 0 < y → y ≤ 1 → undo l y ≤ 1
  | [], _, _, h => h
  | .Amplify :: l, y, h, h' => by
      have := undo_le_one (l := l) h h'
      have := undo_pos (l := l) h
      rw [undo]; linarith
  | .Uncover :: l, y, h, h' => by
      have := undo_pos (l := l) h
      rw [undo, div_le_one (by linarith)]; linarith

theorem undo_lt_one {l : List Reduction} {y : ℚ} (hl : l ≠ []) (h : 0 < y) (h' : y ≤ 1) :
    undo l y < 1 := by
  cases l with
  | nil => exact absurd rfl hl
  | cons r l =>
    have h1 := undo_le_one (l := l) h h'
    have h2 := undo_pos (l := l) h
    cases r with
    | Amplify => rw [undo]; linarith
    | Uncover => rw [undo, div_lt_one (by linarith)]; linarith

/-- After `j` times Amplify, Uncover and more, the number is more than `2^-(j+1)`. -/
theorem undo_gt (j : Nat) {l : List Reduction} {y : ℚ} (hl : l ≠ []) (h : 0 < y) (h' : y ≤ 1) :
    1 / 2 ^ (j + 1) < undo (List.replicate j .Amplify ++ .Uncover :: l) y := by
  induction j with
  | zero =>
    have h1 := undo_lt_one hl h h'
    have h2 := undo_pos (l := l) h
    simp only [List.replicate_zero, List.nil_append, undo]
    rw [div_lt_div_iff₀ (by norm_num) (by linarith)]
    norm_num
    linarith
  | succ j ih =>
    rw [List.replicate_succ, List.cons_append, undo]
    have : (1 : ℚ) / 2 ^ (j + 1 + 1) = 1 / 2 ^ (j + 1) / 2 := by rw [pow_succ]; field_simp
    linarith

/-- The coefficients with the primer. -/
def withPrimer : Option Primer → Coef4 → Coef4
  | none, k => k
  | some .Turn, k => ⟨k.dx, k.d, k.nx, k.n⟩
  | some .Reflect, k => ⟨-k.nx, -k.n, k.dx, k.d⟩
  | some .Ground, k => ⟨-k.dx, -k.d, k.nx, k.n⟩

theorem withPrimer_undoes {p : Option Primer} {l : List Reduction} {k : Coef4}
    (h : Undoes none l k) (hg : Lowest k) :
    Undoes p l (withPrimer p k) ∧ Lowest (withPrimer p k) := by
  have key : ∀ y : ℚ, 0 < y → (k.nx : ℚ) * y + k.n ≠ 0 := by
    intro y hy h0
    obtain ⟨-, h2⟩ := h y hy
    have := undo_pos (l := l) hy
    rw [h0, zero_div] at h2
    simp only [applyPrimer] at h2
    linarith
  rcases p with _ | p
  · exact ⟨h, hg⟩
  · cases p <;> refine ⟨fun y hy => ?_, fun g g1 g2 g3 g4 => ?_⟩ <;>
      obtain ⟨h1, h2⟩ := h (1 : ℚ) one_pos
    · obtain ⟨h1, h2⟩ := h y hy
      refine ⟨key y hy, ?_⟩
      simp only [applyPrimer, withPrimer] at h2 ⊢
      rw [← h2, one_div_div]
    · exact hg g g3 g4 g1 g2
    · obtain ⟨h1, h2⟩ := h y hy
      refine ⟨h1, ?_⟩
      simp only [applyPrimer, withPrimer] at h2 ⊢
      rw [← h2, ← neg_div]
      push_cast
      congr 1; ring
    · exact hg g (Int.dvd_neg.1 g1) (Int.dvd_neg.1 g2) g3 g4
    · obtain ⟨h1, h2⟩ := h y hy
      refine ⟨key y hy, ?_⟩
      simp only [applyPrimer, withPrimer] at h2 ⊢
      have h3 := key y hy
      rw [← h2]
      push_cast
      field_simp
      ring
    · exact hg g g3 g4 (Int.dvd_neg.1 g1) (Int.dvd_neg.1 g2)

end Consume

/-! ## The image check -/

theorem Support.normalise_signed {n d t : Int} (ht : t = 1 ∨ t = -1) (hd : 0 < t * d) (hn : n ≠ 0)
    (f1 : cfg.Fits (-n)) (f2 : cfg.Fits (-d)) : normalise cfg n d = .ok (t * n, t * d) := by
  have d0 : d ≠ 0 := by rintro rfl; simp at hd
  rcases ht with rfl | rfl
  · have : ¬d < 0 := by omega
    simp [normalise, d0, this, hn]
  · have h1 : d < 0 := by omega
    have h2 : cfg.mul n (-1) = .ok (-n) := by
      rw [Cfg.mul, mul_neg_one, Cfg.unchecked, if_pos f1]
    have h3 : cfg.mul d (-1) = .ok (-d) := by
      rw [Cfg.mul, mul_neg_one, Cfg.unchecked, if_pos f2]
    simp [normalise, d0, h1, hn, h2, h3]

theorem Support.compareReduce_panics {n0 d0 n1 d1 : Int}
    (h : ¬cfg.Fits (n0 * d1) ∨ ¬cfg.Fits (n1 * d0)) :
    compareReduce cfg n0 d0 n1 d1 = .panic .unwrapNone := by
  unfold compareReduce Cfg.cmul Cfg.checked
  by_cases h1 : cfg.Fits (n0 * d1)
  · have h2 := h.resolve_left (not_not.2 h1)
    simp [h1, h2]
  · simp [h1]

/-- The attempt to find the primer panics when a cross product does not fit. -/
theorem Coef4.primerAttempt_panics {k : Coef4} {s t : Int} (hs : s = 1 ∨ s = -1)
    (ht : t = 1 ∨ t = -1) (h1 : 0 ≤ s * k.nx) (h2 : 0 < s * k.n) (h3 : 0 ≤ t * k.dx)
    (h4 : 0 < t * k.d) (b1 : |k.n| + |k.nx| ≤ cfg.imax) (b2 : |k.d| + |k.dx| ≤ cfg.imax)
    (hp : cfg.imax + 1 < |(k.n + k.nx) * k.d| ∨ cfg.imax + 1 < |k.n * (k.d + k.dx)|) :
    k.primerAttempt cfg = .panic .unwrapNone := by
  have hF : ∀ {z : Int}, |z| ≤ cfg.imax → cfg.Fits z := Consume.fits_of_abs
  have hNF : ∀ {z : Int}, cfg.imax + 1 < |z| → ¬cfg.Fits z := by
    rintro z hz ⟨c1, c2⟩
    have : cfg.imin = -cfg.imax - 1 := by unfold Cfg.imin Cfg.imax; ring
    rcases abs_cases z with ⟨e, _⟩ | ⟨e, _⟩ <;> omega
  have a1 := abs_add_le k.n k.nx
  have a2 := abs_add_le k.d k.dx
  have p1 := abs_nonneg k.n
  have p2 := abs_nonneg k.nx
  have p3 := abs_nonneg k.d
  have p4 := abs_nonneg k.dx
  have n0 : k.n ≠ 0 := by rintro e; rw [e] at h2; simp at h2
  have d0 : k.d ≠ 0 := by rintro e; rw [e] at h4; simp at h4
  have n1 : 0 < s * (k.n + k.nx) := by rw [mul_add]; omega
  have d1 : 0 < t * (k.d + k.dx) := by rw [mul_add]; omega
  have n1' : k.n + k.nx ≠ 0 := by rintro e; rw [e] at n1; simp at n1
  have d1' : k.d + k.dx ≠ 0 := by rintro e; rw [e] at d1; simp at d1
  have F1 : cfg.Fits (k.n + k.nx) := hF (by omega)
  have F2 : cfg.Fits (k.d + k.dx) := hF (by omega)
  have am : ∀ {m mx u : Int}, (u = 1 ∨ u = -1) → 0 < u * m → 0 < u * (m + mx) →
      cfg.Fits (m + mx) → isDomainAmenable cfg mx m = .ok true := by
    intro m mx u hu hm hmx hf
    have m0 : m.sign ≠ 0 := by
      rw [ne_eq, Int.sign_eq_zero_iff_zero]
      rintro rfl; simp at hm
    have e : m.sign = (mx + m).sign := by
      rw [add_comm mx m]
      rcases hu with rfl | rfl
      · rw [Int.sign_eq_one_of_pos (by omega), Int.sign_eq_one_of_pos (by omega)]
      · rw [Int.sign_eq_neg_one_of_neg (by omega), Int.sign_eq_neg_one_of_neg (by omega)]
    have hc : cfg.cadd mx m = .ok (mx + m) := by
      rw [Cfg.cadd, Cfg.checked, if_pos (by rwa [add_comm])]
    simp [isDomainAmenable, m0, hc, ← e]
  have s1 : k.areSingularitiesOutsideDomain cfg = .ok true := by
    simp [areSingularitiesOutsideDomain, isZeroOutsideDomain, isPoleOutsideDomain, Out.and,
      am hs h2 n1 F1, am ht h4 d1 F2]
  have N0 := normalise_signed (cfg := cfg) ht h4 n0 (hF (by rw [abs_neg]; omega))
    (hF (by rw [abs_neg]; omega))
  have N1 := normalise_signed (cfg := cfg) ht d1 n1' (hF (by rw [abs_neg]; omega))
    (hF (by rw [abs_neg]; omega))
  have tt : t * t = 1 := by rcases ht with rfl | rfl <;> rfl
  have hcmp : compareReduce cfg (t * (k.n + k.nx)) (t * (k.d + k.dx)) (t * k.n) (t * k.d) =
      .panic .unwrapNone := by
    refine compareReduce_panics (hp.imp (fun h => hNF ?_) (fun h => hNF ?_))
    · rwa [show t * (k.n + k.nx) * (t * k.d) = t * t * ((k.n + k.nx) * k.d) by ring, tt, one_mul]
    · rwa [show t * k.n * (t * (k.d + k.dx)) = t * t * (k.n * (k.d + k.dx)) by ring, tt, one_mul]
  have C1 : cfg.cadd k.n k.nx = .ok (k.n + k.nx) := by rw [Cfg.cadd, Cfg.checked, if_pos F1]
  have C2 : cfg.cadd k.d k.dx = .ok (k.d + k.dx) := by rw [Cfg.cadd, Cfg.checked, if_pos F2]
  have him : k.imageExtremes cfg = .panic .unwrapNone := by
    simp [imageExtremes, valueAtZero, valueAtOne, n0, C1, C2, n1', updatedRange, N0, N1, lessThan,
      hcmp]
  simp [primerAttempt, s1, primerEgest, him]

theorem Gives.prefix {c d d' : Clog} {l l' : List Reduction} (h : Gives cfg c l d)
    (h' : Gives cfg c l' d') (hl : l'.length ≤ l.length) : l' <+: l := by
  induction l' generalizing c l with
  | nil => exact List.nil_prefix
  | cons r' l' ih =>
    cases l with
    | nil => simp at hl
    | cons r l =>
      obtain ⟨e, h1, h2⟩ := Gives.uncons h
      obtain ⟨e', h1', h2'⟩ := Gives.uncons h'
      have := h1.unique h1'
      simp only [Prod.mk.injEq, Option.some.injEq] at this
      obtain ⟨rfl, rfl⟩ := this
      rw [List.cons_prefix_cons]
      exact ⟨rfl, ih h2 h2' (by simpa using hl)⟩

/-- While symbols come there is no `None`. -/
theorem Gives.no_end {c d e : Clog} {l l' : List Reduction} (h : Gives cfg c l d)
    (h' : Gives cfg c l' e) (hl : l'.length < l.length) :
    ¬∃ e', Returns (fun f => Clog.egest cfg f e) (none, e') := by
  rintro ⟨e', h2⟩
  induction l' generalizing c l with
  | nil =>
    rw [Gives.nil_eq h'] at h2
    cases l with
    | nil => simp at hl
    | cons r l =>
      obtain ⟨x, h1, -⟩ := Gives.uncons h
      have := h1.unique h2
      simp at this
  | cons r' l' ih =>
    cases l with
    | nil => simp at hl
    | cons r l =>
      obtain ⟨x, h1, h3⟩ := Gives.uncons h
      obtain ⟨x', h1', h3'⟩ := Gives.uncons h'
      have := h1.unique h1'
      simp only [Prod.mk.injEq, Option.some.injEq] at this
      obtain ⟨rfl, rfl⟩ := this
      exact ih h3 h3' (by simpa using hl)

/-- A number that is not very small soon has the symbol Uncover, or ends. -/
theorem Clog.Denotes.begins {c : Clog} {v : ℚ} (h : Clog.Denotes cfg NoPanic c v) (m : Nat)
    (hv : 1 / 2 ^ (m + 1) ≤ v) :
    ∃ j ≤ m, (∃ c1, Gives cfg c (List.replicate j .Amplify ++ [.Uncover]) c1) ∨
      ∃ c1 c2, Gives cfg c (List.replicate j .Amplify) c1 ∧
        Returns (fun f => Clog.egest cfg f c1) (none, c2) := by
  induction m generalizing c v with
  | zero =>
    obtain ⟨c', f₀, h1, -⟩ := h.step_returns
    refine ⟨0, le_rfl, ?_⟩
    rcases lt_or_eq_of_le hv with hlt | heq
    · rw [sym_gt (by simpa using hlt)] at h1
      exact .inl ⟨c', Gives.cons ⟨f₀, h1⟩ (Gives.nil c')⟩
    · rw [sym_eq_none.2 (by rw [← heq]; norm_num)] at h1
      exact .inr ⟨c, c', Gives.nil c, f₀, h1⟩
  | succ m ih =>
    obtain ⟨c', f₀, h1, h2⟩ := h.step_returns
    rcases lt_trichotomy v (1 / 2) with hlt | heq | hgt
    · rw [sym_lt hlt] at h1
      rw [next_lt hlt] at h2
      obtain ⟨j, hj, h3⟩ := ih h2 (by
        rw [pow_succ, div_le_iff₀ (by positivity)] at hv
        rw [div_le_iff₀ (by positivity)]
        linarith)
      refine ⟨j + 1, by omega, ?_⟩
      rw [List.replicate_succ]
      rcases h3 with ⟨c1, h3⟩ | ⟨c1, c2, h3, h4⟩
      · exact .inl ⟨c1, Gives.cons ⟨f₀, h1⟩ h3⟩
      · exact .inr ⟨c1, c2, Gives.cons ⟨f₀, h1⟩ h3, h4⟩
    · rw [sym_eq_none.2 heq] at h1
      exact ⟨0, by omega, .inr ⟨c, c', Gives.nil c, f₀, h1⟩⟩
    · rw [sym_gt hgt] at h1
      exact ⟨0, by omega, .inl ⟨c', Gives.cons ⟨f₀, h1⟩ (Gives.nil c')⟩⟩

/-! ## A number that begins with many times Amplify -/

theorem SameAnswers.cons {c c' d d' : Clog} {r : Reduction}
    (h : Returns (fun f => Clog.egest cfg f c) (some r, d))
    (h' : Returns (fun f => Clog.egest cfg f c') (some r, d')) (hs : SameAnswers cfg d d') :
    SameAnswers cfg c c' := by
  intro l e e' he he'
  cases l with
  | nil =>
    rw [Gives.nil_eq he, Gives.nil_eq he']
    refine ⟨fun r' => ⟨?_, ?_⟩, fun p => ⟨fun hp => ?_, fun hp => ?_⟩⟩
    · rintro ⟨x, hx⟩
      have := hx.unique h
      simp only [Prod.mk.injEq] at this
      exact ⟨d', this.1 ▸ h'⟩
    · rintro ⟨x, hx⟩
      have := hx.unique h'
      simp only [Prod.mk.injEq] at this
      exact ⟨d, this.1 ▸ h⟩
    · exact (h.not_panics hp).elim
    · exact (h'.not_panics hp).elim
  | cons r' l =>
    obtain ⟨x, h1, h2⟩ := Gives.uncons he
    obtain ⟨x', h1', h2'⟩ := Gives.uncons he'
    have e1 := h1.unique h
    have e2 := h1'.unique h'
    simp only [Prod.mk.injEq] at e1 e2
    rw [e1.2] at h2
    rw [e2.2] at h2'
    exact hs l e e' h2 h2'

/-- The state after `i` times Amplify from the identity. -/
theorem Coef4.shifted_attempt {s : Int} (hs : s = 1 ∨ s = -1) {i : Nat} (hi : i + 1 + 3 ≤ cfg.bits) :
    (⟨s, 0, 0, s * 2 ^ (i + 1)⟩ : Coef4).reductionAttempt cfg =
      .ok (some (some .Amplify, ⟨s, 0, 0, s * 2 ^ i⟩)) := by
  have hb := cfg.hbits
  have eI : cfg.imax = 4 * 2 ^ (cfg.bits - 3) - 1 := by
    unfold Cfg.imax
    rw [show cfg.bits - 1 = 2 + (cfg.bits - 3) by omega, pow_add]
    norm_num
  have hle : (2 : Int) ^ (i + 1) ≤ 2 ^ (cfg.bits - 3) := pow_le_pow_right₀ (by norm_num) (by omega)
  have hD : (1 : Int) ≤ 2 ^ i := one_le_pow₀ (by norm_num)
  rw [pow_succ] at hle ⊢
  generalize (2 : Int) ^ i = D at hle hD ⊢
  have hF : ∀ {z : Int}, |z| ≤ cfg.imax → cfg.Fits z := Consume.fits_of_abs
  have f0 : cfg.Fits 0 := cfg.fits_small (by norm_num) (by norm_num)
  have f1 : cfg.Fits 1 := cfg.fits_small (by norm_num) (by norm_num)
  have f2 : cfg.Fits (-1) := cfg.fits_small (by norm_num) (by norm_num)
  have f3 : cfg.Fits (D * 2) := hF (by rw [abs_of_pos (by omega)]; omega)
  have f4 : cfg.Fits (-(D * 2)) := hF (by rw [abs_neg, abs_of_pos (by omega)]; omega)
  have D0 : D ≠ 0 := by omega
  have D1 : ¬D * 2 < 0 := by omega
  have D2 : ¬D * 2 < 1 := by omega
  have D3 : ¬D < 1 := by omega
  have D4 : 0 < D := by omega
  rcases hs with rfl | rfl
  · simp [reductionAttempt, areSingularitiesOutsideDomain, isZeroOutsideDomain, isPoleOutsideDomain,
      isDomainAmenable, Out.and, Cfg.cadd, Cfg.checked, f3, f1, f0, reductionEgest, imageExtremes,
      valueAtZero, valueAtOne, updatedRange, normalise, D0, D1, D2, D3, D4, lessThan, greaterThan,
      compareReduce, Cfg.cmul, lessThanZero, greaterThanOne, equalToOneHalf, doubled,
      greaterThanOneHalf, amplify, isOdd, half]
  · simp [reductionAttempt, areSingularitiesOutsideDomain, isZeroOutsideDomain, isPoleOutsideDomain,
      isDomainAmenable, Out.and, Cfg.cadd, Cfg.checked, f4, f3, f2, f1, f0, reductionEgest,
      imageExtremes, valueAtZero, valueAtOne, updatedRange, normalise, D0, D2, D3, D4, lessThan,
      greaterThan, compareReduce, Cfg.cmul, Cfg.mul, Cfg.unchecked, lessThanZero, greaterThanOne,
      equalToOneHalf, doubled, greaterThanOneHalf, amplify, isOdd, half]

theorem Coef4.shifted_same {s : Int} (hs : s = 1 ∨ s = -1) (i : Nat) (hi : i + 3 ≤ cfg.bits) :
    ∀ c c1 : Clog, Gives cfg c (List.replicate i .Amplify) c1 →
      SameAnswers cfg c (Homographic.box ⟨c1, ⟨s, 0, 0, s * 2 ^ i⟩⟩) := by
  induction i with
  | zero =>
    intro c c1 h
    rw [Gives.nil_eq h]
    refine Ident.same ⟨s, ?_, ?_, by simp⟩ c
    · rcases hs with rfl | rfl <;> norm_num
    · have h2 : (2 * |s|) = 2 := by rcases hs with rfl | rfl <;> norm_num
      rw [h2]
      refine ⟨fun z hz => .inl ?_, fun z hz => .inl ?_⟩ <;>
        exact cfg.fits_small (by have := abs_le.1 hz; omega) (by have := abs_le.1 hz; omega)
  | succ i ih =>
    intro c c1 h
    rw [List.replicate_succ] at h
    obtain ⟨d, h1, h2⟩ := Gives.uncons h
    refine SameAnswers.cons h1 (d' := Homographic.box ⟨c1, ⟨s, 0, 0, s * 2 ^ i⟩⟩) ⟨2, fun f hf => ?_⟩
      (ih (by omega) d c1 h2)
    obtain ⟨f, rfl⟩ : ∃ g, f = g + 2 := ⟨f - 2, by omega⟩
    have unfold_ : ∀ h : Homographic, Clog.egest cfg (f + 2) (Homographic.box h) = (do
        let t ← Strategy.egest cfg (Clog.egest cfg (f + 1)) (f + 1) (Homographic.box h)
        match t with
        | (.ok reduction, s) => pure (reduction, s)
        | (.err newStrategy, _) => Clog.egest cfg (f + 1) newStrategy) := fun _ => rfl
    refine (unfold_ _).trans ?_
    simp only [Strategy.egest, Homographic.box, Homographic.egest, shifted_attempt hs hi, ok_bind,
      pure_eq]

namespace Consume

theorem start_eq (p : Option Primer) :
    start cfg p = .ok (match p with
      | none => ⟨1, 0, 0, 1⟩
      | some .Turn => ⟨0, 1, 1, 0⟩
      | some .Reflect => ⟨-1, 0, 0, 1⟩
      | some .Ground => ⟨0, -1, 1, 0⟩) := by
  obtain ⟨b1, b2⟩ := lim_bounds cfg
  have hn : ∀ z : Int, |z| ≤ 1 → cfg.neg z = .ok (-z) := fun z hz => by
    rw [Cfg.neg, Cfg.unchecked, if_pos (fits_of_abs (by rw [abs_neg]; omega))]
  rcases p with _ | p
  · rfl
  · cases p <;> simp [start, hn]

/-- `consume` doubles `n` and `d` for every Amplify, if `nx` or `dx` is odd, until the limit. -/
theorem consume_amplify {eg : EgestFn} {k : Coef4} (ho : isOdd k.nx || isOdd k.dx)
    (hx : |k.nx| ≤ 1 ∧ |k.dx| ≤ 1) (hn : |k.n| ≤ 1 ∧ |k.d| ≤ 1) (h1 : |k.n| = 1 ∨ |k.d| = 1) :
    ∀ (m i : Nat), m + 1 + i + 3 = cfg.bits → ∀ c c1 : Clog,
      Reads eg (List.replicate (m + 1) .Amplify) c c1 →
      consume cfg eg (m + 1) c ⟨k.nx, k.n * 2 ^ i, k.dx, k.d * 2 ^ i⟩ =
        .ok (some c1, ⟨k.nx, k.n * 2 ^ (cfg.bits - 3), k.dx, k.d * 2 ^ (cfg.bits - 3)⟩) := by
  obtain ⟨b1, b2⟩ := lim_bounds cfg
  have hb := cfg.hbits
  have eI : cfg.imax = 4 * 2 ^ (cfg.bits - 3) - 1 := by
    unfold Cfg.imax
    rw [show cfg.bits - 1 = 2 + (cfg.bits - 3) by omega, pow_add]
    norm_num
  have eL : lim cfg = 2 ^ (cfg.bits - 3) - 1 := by
    unfold lim
    rw [Int.tdiv_eq_ediv_of_nonneg (by have := cfg.imax_ge; omega)]
    omega
  have step : ∀ i : Nat, i + 1 + 3 ≤ cfg.bits →
      ingest cfg .Amplify ⟨k.nx, k.n * 2 ^ i, k.dx, k.d * 2 ^ i⟩ =
        .ok ⟨k.nx, k.n * 2 ^ (i + 1), k.dx, k.d * 2 ^ (i + 1)⟩ ∧
      isStateUnsafe cfg ⟨k.nx, k.n * 2 ^ (i + 1), k.dx, k.d * 2 ^ (i + 1)⟩ =
        .ok (decide (i + 1 + 3 = cfg.bits)) := by
    intro i hi
    have hle : (2 : Int) ^ (i + 1) ≤ 2 ^ (cfg.bits - 3) := pow_le_pow_right₀ (by norm_num) (by omega)
    have hp : (0 : Int) < 2 ^ (i + 1) := by positivity
    have hz : ∀ z : Int, |z| ≤ 1 → |z * 2 ^ (i + 1)| ≤ 2 ^ (i + 1) := by
      intro z hz
      rw [abs_mul, abs_of_pos hp]
      exact mul_le_of_le_one_left hp.le hz
    have z1 := hz _ hn.1
    have z2 := hz _ hn.2
    have g1 : cfg.Fits (k.n * 2 ^ i * 2) := fits_of_abs (by rw [mul_assoc, ← pow_succ]; omega)
    have g2 : cfg.Fits (k.d * 2 ^ i * 2) := fits_of_abs (by rw [mul_assoc, ← pow_succ]; omega)
    constructor
    · simp only [ingest, amplifyX, if_pos ho, Cfg.mul, Cfg.unchecked, if_pos g1, if_pos g2, ok_bind,
        pure_eq]
      simp only [pow_succ, mul_assoc]
    · have hu := isStateUnsafe_sat (cfg := cfg) (A := NoPanic)
        (k := ⟨k.nx, k.n * 2 ^ (i + 1), k.dx, k.d * 2 ^ (i + 1)⟩)
        ⟨by simp only; omega, by simp only; omega, by simp only; omega, by simp only; omega⟩
      cases hb : isStateUnsafe cfg ⟨k.nx, k.n * 2 ^ (i + 1), k.dx, k.d * 2 ^ (i + 1)⟩ with
      | panic q => rw [hb] at hu; exact hu.elim
      | timeout => rw [hb] at hu; exact hu.elim
      | ok b =>
        rw [hb] at hu
        simp only [Sat] at hu
        by_cases he : i + 1 + 3 = cfg.bits
        · rw [decide_eq_true he]
          cases b with
          | true => rfl
          | false =>
            obtain ⟨-, c2, -, c4⟩ := hu.1 rfl
            simp only at c2 c4
            rw [abs_mul, abs_of_pos hp] at c2 c4
            rw [show cfg.bits - 3 = i + 1 by omega] at eL
            rcases h1 with e | e
            · rw [e] at c2; omega
            · rw [e] at c4; omega
        · rw [decide_eq_false he]
          have hle' : (2 : Int) ^ (i + 2) ≤ 2 ^ (cfg.bits - 3) :=
            pow_le_pow_right₀ (by norm_num) (by omega)
          rw [pow_succ] at hle'
          rw [hu.2 ⟨by simp only; omega, by simp only; omega, by simp only; omega,
            by simp only; omega⟩]
  intro m
  induction m with
  | zero =>
    intro i hi c c1 hr
    obtain ⟨x1, e, rfl⟩ := hr
    obtain ⟨s1, s2⟩ := step i (by omega)
    rw [decide_eq_true (by omega)] at s2
    rw [show cfg.bits - 3 = i + 1 by omega]
    simp only [consume, e, ok_bind, s1, s2, if_true, pure_eq]
  | succ m ih =>
    intro i hi c c1 hr
    rw [List.replicate_succ] at hr
    obtain ⟨x1, e, hr⟩ := hr
    obtain ⟨s1, s2⟩ := step i (by omega)
    rw [decide_eq_false (by omega)] at s2
    rw [consume]
    simp only [e, ok_bind, s1, s2, Bool.false_eq_true, if_false]
    exact ih (i + 1) (by omega) x1 c1 hr

end Consume

/-- The primer of the coefficients that `consume` returns for such a number. -/
theorem Coef4.shifted_primer (p : Option Primer) {i : Nat} (hi : i + 3 ≤ cfg.bits) (h1 : 1 ≤ i) :
    ∃ s : Int, (s = 1 ∨ s = -1) ∧ Coef4.primerAttempt cfg (match p with
      | none => ⟨1, 0 * 2 ^ i, 0, 1 * 2 ^ i⟩
      | some .Turn => ⟨0, 1 * 2 ^ i, 1, 0 * 2 ^ i⟩
      | some .Reflect => ⟨-1, 0 * 2 ^ i, 0, 1 * 2 ^ i⟩
      | some .Ground => ⟨0, -1 * 2 ^ i, 1, 0 * 2 ^ i⟩) = .ok (some (p, ⟨s, 0, 0, s * 2 ^ i⟩)) := by
  have hb := cfg.hbits
  have eI : cfg.imax = 4 * 2 ^ (cfg.bits - 3) - 1 := by
    unfold Cfg.imax
    rw [show cfg.bits - 1 = 2 + (cfg.bits - 3) by omega, pow_add]
    norm_num
  have hle : (2 : Int) ^ i ≤ 2 ^ (cfg.bits - 3) := pow_le_pow_right₀ (by norm_num) (by omega)
  have hD : (2 : Int) ^ 1 ≤ 2 ^ i := pow_le_pow_right₀ (by norm_num) h1
  generalize (2 : Int) ^ i = D at hle hD ⊢
  have hF : ∀ {z : Int}, |z| ≤ cfg.imax → cfg.Fits z := Consume.fits_of_abs
  have f0 : cfg.Fits 0 := cfg.fits_small (by norm_num) (by norm_num)
  have f1 : cfg.Fits 1 := cfg.fits_small (by norm_num) (by norm_num)
  have f2 : cfg.Fits (-1) := cfg.fits_small (by norm_num) (by norm_num)
  have f3 : cfg.Fits D := hF (by rw [abs_of_pos (by omega)]; omega)
  have f4 : cfg.Fits (-D) := hF (by rw [abs_neg, abs_of_pos (by omega)]; omega)
  have D0 : D ≠ 0 := by omega
  have D1 : ¬D < 0 := by omega
  have D2 : ¬D < 1 := by omega
  have D3 : ¬D ≤ 1 := by omega
  have D4 : 0 < D := by omega
  have D5 : D ≠ 1 := by omega
  have D6 : 1 < D := by omega
  have D7 : -D < 1 := by omega
  have D8 : ¬1 = D := by omega
  have D9 : D.sign = 1 := Int.sign_eq_one_of_pos D4
  have D10 : (-D).sign = -1 := Int.sign_eq_neg_one_of_neg (by omega)
  rcases p with _ | p
  · refine ⟨1, .inl rfl, ?_⟩
    simp [primerAttempt, areSingularitiesOutsideDomain, isZeroOutsideDomain, isPoleOutsideDomain,
      isDomainAmenable, Out.and, Out.not, Cfg.cadd, Cfg.checked, Cfg.neg, Cfg.unchecked,
      primerEgest, imageExtremes, valueAtZero, valueAtOne, updatedRange, normalise, lessThan,
      greaterThan, compareReduce, Cfg.cmul, areSame, greaterThanMinusOne, lessThanOne,
      lessThanMinusOne, greaterThanZero, lessThanZero, greaterThanOne, *]
  · cases p
    · refine ⟨1, .inl rfl, ?_⟩
      simp [primerAttempt, areSingularitiesOutsideDomain, isZeroOutsideDomain, isPoleOutsideDomain,
        isDomainAmenable, Out.and, Out.not, Cfg.cadd, Cfg.checked, Cfg.neg, Cfg.unchecked,
        primerEgest, imageExtremes, valueAtZero, valueAtOne, updatedRange, normalise, lessThan,
        greaterThan, compareReduce, Cfg.cmul, areSame, greaterThanMinusOne, lessThanOne,
        lessThanMinusOne, greaterThanZero, lessThanZero, greaterThanOne, turn, *]
    · refine ⟨1, .inl rfl, ?_⟩
      simp [primerAttempt, areSingularitiesOutsideDomain, isZeroOutsideDomain, isPoleOutsideDomain,
        isDomainAmenable, Out.and, Out.not, Cfg.cadd, Cfg.checked, Cfg.neg, Cfg.unchecked,
        primerEgest, imageExtremes, valueAtZero, valueAtOne, updatedRange, normalise, lessThan,
        greaterThan, compareReduce, Cfg.cmul, areSame, greaterThanMinusOne, lessThanOne,
        lessThanMinusOne, greaterThanZero, lessThanZero, greaterThanOne, reflect, *]
      omega
    · refine ⟨-1, .inr rfl, ?_⟩
      simp [primerAttempt, areSingularitiesOutsideDomain, isZeroOutsideDomain, isPoleOutsideDomain,
        isDomainAmenable, Out.and, Out.not, Cfg.cadd, Cfg.checked, Cfg.neg, Cfg.unchecked,
        primerEgest, imageExtremes, valueAtZero, valueAtOne, updatedRange, normalise, lessThan,
        greaterThan, compareReduce, Cfg.cmul, areSame, greaterThanMinusOne, lessThanOne,
        lessThanMinusOne, greaterThanZero, lessThanZero, greaterThanOne, ground, *]

/-! ## C67 -/

/-- If the number begins with `bits - 3` times Amplify, `consume` stops there, and rebuilding gives
the same number: the same primer, and the same answers whatever is left of the operand does. -/
theorem C67_rebuild_tiny (cfg : Cfg) (p : Option Primer) (c c1 : Clog)
    (hc : Gives cfg c (List.replicate (cfg.bits - 3) .Amplify) c1) :
    ∃ k x', Returns (fun f => Number.consume cfg f (.Other p c)) (some (.Other none c1), k) ∧
      Returns (fun f => rebuild cfg f (some (.Other none c1), k)) x' ∧
      SameNumber cfg (.Other p c) x' := by
  have hb := cfg.hbits
  have hr : ∃ f₀, ∀ f ≥ f₀, Reads (Clog.egest cfg f) (List.replicate (cfg.bits - 3) .Amplify) c c1 := by
    obtain ⟨f₀, h⟩ := hc
    exact ⟨f₀, fun f hf => reads_iff.2 (h f hf)⟩
  have hcons : ∀ k : Coef4, Consume.start cfg p = .ok k → (isOdd k.nx || isOdd k.dx) →
      |k.nx| ≤ 1 ∧ |k.dx| ≤ 1 → |k.n| ≤ 1 ∧ |k.d| ≤ 1 → |k.n| = 1 ∨ |k.d| = 1 →
      Returns (fun f => Number.consume cfg f (.Other p c)) (some (.Other none c1),
        ⟨k.nx, k.n * 2 ^ (cfg.bits - 3), k.dx, k.d * 2 ^ (cfg.bits - 3)⟩) := by
    intro k hk h1 h2 h3 h4
    obtain ⟨f₀, hr⟩ := hr
    have e : cfg.bits - 3 = cfg.bits - 4 + 1 := by omega
    have hr := hr (f₀ + cfg.bits) (by omega)
    rw [e] at hr
    have := Consume.consume_amplify (cfg := cfg) h1 h2 h3 h4 (cfg.bits - 4) 0 (by omega) c c1 hr
    have := (Consume.consume_le (EgestFn.Le.refl _) (by omega : _ ≤ f₀ + cfg.bits) c _).ok this
    simp only [pow_zero, mul_one] at this
    refine FuelMono.returns (Number.consume_mono cfg _) (f₀ + cfg.bits) ?_
    simp only [Number.consume, Consume.new, hk, ok_bind, this, pure_eq]
    rfl
  have hsame : ∀ s : Int, (s = 1 ∨ s = -1) → ∀ k : Coef4, ¬(k.nx = 0 ∧ k.dx = 0) →
      k.primerAttempt cfg = .ok (some (p, ⟨s, 0, 0, s * 2 ^ (cfg.bits - 3)⟩)) →
      ∃ x', Returns (fun f => rebuild cfg f (some (.Other none c1), k)) x' ∧
        SameNumber cfg (.Other p c) x' := by
    intro s hs k hx hp
    refine ⟨.Other p (Homographic.box ⟨c1, ⟨s, 0, 0, s * 2 ^ (cfg.bits - 3)⟩⟩), ⟨1, fun f hf => ?_⟩,
      rfl, Coef4.shifted_same hs _ (by omega) c c1 hc⟩
    obtain ⟨f, rfl⟩ : ∃ g, f = g + 1 := ⟨f - 1, by omega⟩
    simp only [rebuild, Number.homographic, Homographic.new, if_neg hx, Homographic.absorbPrimer,
      Homographic.prime, pure_eq, ok_bind, hp]
  have hst := Consume.start_eq (cfg := cfg) p
  obtain ⟨s, hs, hp⟩ := Coef4.shifted_primer (cfg := cfg) p (i := cfg.bits - 3) (by omega) (by omega)
  rcases p with _ | p
  · obtain ⟨x', h1, h2⟩ := hsame s hs _ (by simp) hp
    exact ⟨_, x', hcons _ hst (by decide) (by simp) (by simp) (by simp), h1, h2⟩
  · cases p
    · obtain ⟨x', h1, h2⟩ := hsame s hs _ (by simp) hp
      exact ⟨_, x', hcons _ hst (by decide) (by simp) (by simp) (by simp), h1, h2⟩
    · obtain ⟨x', h1, h2⟩ := hsame s hs _ (by simp) hp
      exact ⟨_, x', hcons _ hst (by decide) (by simp) (by simp) (by simp), h1, h2⟩
    · obtain ⟨x', h1, h2⟩ := hsame s hs _ (by simp) hp
      exact ⟨_, x', hcons _ hst (by decide) (by simp) (by simp) (by simp), h1, h2⟩

/-- Coefficients that have reached a quarter of `isize::MAX` stand for many symbols. -/
theorem Consume.long_of_not_below {p : Option Primer} {l : List Reduction} {k : Coef4}
    (hu : Undoes p l k) (hg : Lowest k) (hq : ¬BelowQuarter cfg k) :
    cfg.bits ≤ l.length + 3 := by
  obtain ⟨K, K1, K2, a1, a2, a3, a4, a5, a6, a7, a8, a8', aP, a9, -⟩ := Consume.undoes_shape l
  obtain ⟨u1, u2⟩ := Consume.withPrimer_undoes (p := p) K1 K2
  by_contra hlt
  have hb := cfg.hbits
  have eI : cfg.imax = 8 * 2 ^ (cfg.bits - 4) - 1 := by
    unfold Cfg.imax
    rw [show cfg.bits - 1 = 3 + (cfg.bits - 4) by omega, pow_add]
    norm_num
  have hle : (2 : Int) ^ l.length ≤ 2 ^ (cfg.bits - 4) := pow_le_pow_right₀ (by norm_num) (by omega)
  have hM : (2 : Int) ^ 12 ≤ 2 ^ (cfg.bits - 4) := pow_le_pow_right₀ (by norm_num) (by omega)
  refine hq ?_
  have hb : BelowQuarter cfg (Consume.withPrimer p K) := by
    have r1 := abs_of_nonneg a1
    have r2 := abs_of_nonneg a2
    have r3 := abs_of_nonneg a3
    have r4 := abs_of_pos a4
    rcases p with _ | p
    · exact ⟨by simp only [Consume.withPrimer]; omega, by simp only [Consume.withPrimer]; omega,
        by simp only [Consume.withPrimer]; omega, by simp only [Consume.withPrimer]; omega⟩
    · cases p <;> exact ⟨by simp only [Consume.withPrimer, abs_neg]; omega,
        by simp only [Consume.withPrimer, abs_neg]; omega,
        by simp only [Consume.withPrimer]; omega, by simp only [Consume.withPrimer]; omega⟩
  rcases u1.unique hu u2 hg with rfl | rfl
  · exact hb
  · simpa only [BelowQuarter, abs_neg] using hb

/-- `consume` has read many symbols when it gives up. -/
theorem Consume.gave_up (cfg : Cfg) (p : Option Primer) (c : Clog) (y : Number) (k : Coef4)
    (hr : Returns (fun f => Number.consume cfg f (.Other p c)) (some y, k)) :
    ∃ l c', Gives cfg c l c' ∧ cfg.bits ≤ l.length + 3 := by
  obtain ⟨l, hu, hg, -, hq, c', rfl, hl⟩ := C56_consume_exact cfg p c (some y) k hr
  exact ⟨l, c', hl, Consume.long_of_not_below hu hg hq⟩

/-- If `consume` has not read the number to its end, rebuilding it panics in the call of
`homographic`, in every build, whatever is left; unless the first `bits - 5` symbols are Amplify,
that is, unless the number is nearer to zero than `2^-(bits-5)` or its reciprocal is. -/
theorem C67_rebuild_panics (cfg : Cfg) (p : Option Primer) (c c1 : Clog) (y : Number) (k : Coef4)
    (hr : Returns (fun f => Number.consume cfg f (.Other p c)) (some y, k)) (j : Nat)
    (hj : j + 6 ≤ cfg.bits) (hc : Gives cfg c (List.replicate j .Amplify ++ [.Uncover]) c1) :
    Panics (fun f => rebuild cfg f (some y, k)) .unwrapNone := by
  obtain ⟨l, hu, hg, hpre, hq, c', rfl, hl⟩ := C56_consume_exact cfg p c (some y) k hr
  obtain ⟨K, K1, K2, a1, a2, a3, a4, a5, a6, a7, a8, a8', aP, a9, aL⟩ := Consume.undoes_shape l
  obtain ⟨u1, u2⟩ := Consume.withPrimer_undoes (p := p) K1 K2
  have hB : ∀ {k' : Coef4}, BelowQuarter cfg (Consume.withPrimer p k') → |k'.d| < cfg.imax / 4 := by
    intro k' h
    obtain ⟨h1, h2, h3, h4⟩ := h
    rcases p with _ | p
    · exact h4
    · cases p <;> simp only [Consume.withPrimer, abs_neg] at h1 h2 h3 h4 <;> assumption
  have eI : cfg.imax = 32 * 2 ^ (cfg.bits - 6) - 1 := by
    unfold Cfg.imax
    rw [show cfg.bits - 1 = 5 + (cfg.bits - 6) by have := cfg.hbits; omega, pow_add]
    norm_num
  have hM : (512 : Int) ≤ 2 ^ (cfg.bits - 6) :=
    le_trans (by norm_num) (pow_le_pow_right₀ (by norm_num) (by have := cfg.hbits; omega : 9 ≤ _))
  have hj' : (2 : Int) ^ j ≤ 2 ^ (cfg.bits - 6) := pow_le_pow_right₀ (by norm_num) (by omega)
  set M : Int := 2 ^ (cfg.bits - 6) with eM
  have hd : cfg.imax / 4 ≤ K.d := by
    by_contra hlt
    refine hq ?_
    have hb : BelowQuarter cfg (Consume.withPrimer p K) := by
      have r1 := abs_of_nonneg a1
      have r2 := abs_of_nonneg a2
      have r3 := abs_of_nonneg a3
      have r4 := abs_of_pos a4
      rcases p with _ | p
      · exact ⟨by simp only [Consume.withPrimer]; omega, by simp only [Consume.withPrimer]; omega,
          by simp only [Consume.withPrimer]; omega, by simp only [Consume.withPrimer]; omega⟩
      · cases p <;> exact ⟨by simp only [Consume.withPrimer, abs_neg]; omega,
          by simp only [Consume.withPrimer, abs_neg]; omega,
          by simp only [Consume.withPrimer]; omega, by simp only [Consume.withPrimer]; omega⟩
    rcases u1.unique hu u2 hg with rfl | rfl
    · exact hb
    · simpa only [BelowQuarter, abs_neg] using hb
  have hlen : j + 1 < l.length := by
    by_contra hle
    have : (2 : Int) ^ l.length ≤ 2 ^ (j + 1) := pow_le_pow_right₀ (by norm_num) (by omega)
    rw [pow_succ] at this
    omega
  obtain ⟨l2, hl2⟩ := Gives.prefix (l := l) hl hc (by simp; omega)
  rw [List.append_assoc, List.singleton_append] at hl2
  obtain ⟨hn, hdx⟩ := a9 (by rw [← hl2]; simp)
  have hl2' : l2 ≠ [] := by
    rintro rfl
    have := congrArg List.length hl2
    simp at this
    omega
  have hd2 : K.d < 2 * (cfg.imax / 4) := by
    obtain ⟨l', r, e⟩ : ∃ l' r, l = l' ++ [r] :=
      ⟨l.dropLast, l.getLast (by rintro rfl; simp at hlen), (List.dropLast_append_getLast _).symm⟩
    obtain ⟨k', v1, v2, v3⟩ := aL l' r e
    obtain ⟨w1, w2⟩ := Consume.withPrimer_undoes (p := p) v1 v2
    have h5 := hB (hpre l' ⟨[r], e.symm⟩ (by
      intro h; have := congrArg List.length (h.trans e); simp at this) _ w1 w2)
    have := le_abs_self k'.d
    omega
  have hv : K.dx + K.d < 2 ^ (j + 1) * (K.nx + K.n) := by
    obtain ⟨-, h2⟩ := K1 1 one_pos
    have h3 := Consume.undo_gt j (y := 1) hl2' one_pos le_rfl
    rw [hl2] at h3
    simp only [applyPrimer, mul_one] at h2
    rw [← h2, div_lt_div_iff₀ (by positivity) (by exact_mod_cast (by omega : 0 < K.dx + K.d))] at h3
    have : ((K.dx + K.d : Int) : ℚ) < ((2 ^ (j + 1) * (K.nx + K.n) : Int) : ℚ) := by
      push_cast; linarith
    exact_mod_cast this
  have h5 : 5 ≤ K.nx + K.n := by
    by_contra hlt
    have : 2 ^ (j + 1) * (K.nx + K.n) ≤ 2 ^ (j + 1) * 4 :=
      mul_le_mul_of_nonneg_left (by omega) (by positivity)
    rw [pow_succ] at this hv
    omega
  have hprod : cfg.imax + 1 < (K.nx + K.n) * K.d := by
    have : 5 * (cfg.imax / 4) ≤ (K.nx + K.n) * K.d :=
      mul_le_mul h5 hd (by omega) (by omega)
    omega
  have hpa : k.primerAttempt cfg = .panic .unwrapNone := by
    have g1 : 0 < (K.nx + K.n) * K.d := mul_pos a8 a4
    have r1 := abs_of_nonneg a1
    have r2 := abs_of_nonneg a2
    have r3 := abs_of_nonneg a3
    have r4 := abs_of_pos a4
    have e1 : |(K.n + K.nx) * K.d| = (K.nx + K.n) * K.d := by rw [add_comm K.n, abs_of_pos g1]
    have e2 : |K.d * (K.n + K.nx)| = (K.nx + K.n) * K.d := by rw [mul_comm, e1]
    have e3 : |(-K.n + -K.nx) * K.d| = (K.nx + K.n) * K.d := by
      rw [show (-K.n + -K.nx) * K.d = -((K.n + K.nx) * K.d) by ring, abs_neg, e1]
    have e4 : |-K.d * (K.n + K.nx)| = (K.nx + K.n) * K.d := by
      rw [neg_mul, abs_neg, e2]
    have e5 : |(-K.n + -K.nx) * -K.d| = (K.nx + K.n) * K.d := by
      rw [show (-K.n + -K.nx) * -K.d = ((K.n + K.nx) * K.d) by ring, e1]
    have e6 : |-K.d * (-K.n + -K.nx)| = (K.nx + K.n) * K.d := by
      rw [show -K.d * (-K.n + -K.nx) = ((K.n + K.nx) * K.d) by ring, e1]
    have e7 : |(K.n + K.nx) * -K.d| = (K.nx + K.n) * K.d := by
      rw [show (K.n + K.nx) * -K.d = -((K.n + K.nx) * K.d) by ring, abs_neg, e1]
    have e8 : |K.d * (-K.n + -K.nx)| = (K.nx + K.n) * K.d := by
      rw [show K.d * (-K.n + -K.nx) = -((K.n + K.nx) * K.d) by ring, abs_neg, e1]
    rcases u1.unique hu u2 hg with rfl | rfl
    · rcases p with _ | p
      · refine Coef4.primerAttempt_panics (s := 1) (t := 1) (by simp) (by simp) ?_ ?_ ?_ ?_ ?_ ?_
          (.inl ?_) <;> simp only [Consume.withPrimer] <;> omega
      · cases p
        · refine Coef4.primerAttempt_panics (s := 1) (t := 1) (by simp) (by simp) ?_ ?_ ?_ ?_ ?_ ?_
            (.inr ?_) <;> simp only [Consume.withPrimer] <;> omega
        · refine Coef4.primerAttempt_panics (s := -1) (t := 1) (by simp) (by simp) ?_ ?_ ?_ ?_ ?_ ?_
            (.inl ?_) <;> simp only [Consume.withPrimer, abs_neg] <;> omega
        · refine Coef4.primerAttempt_panics (s := -1) (t := 1) (by simp) (by simp) ?_ ?_ ?_ ?_ ?_ ?_
            (.inr ?_) <;> simp only [Consume.withPrimer, abs_neg] <;> omega
    · rcases p with _ | p
      · refine Coef4.primerAttempt_panics (s := -1) (t := -1) (by simp) (by simp) ?_ ?_ ?_ ?_ ?_ ?_
          (.inl ?_) <;> simp only [Consume.withPrimer, abs_neg] <;> omega
      · cases p
        · refine Coef4.primerAttempt_panics (s := -1) (t := -1) (by simp) (by simp) ?_ ?_ ?_ ?_ ?_ ?_
            (.inr ?_) <;> simp only [Consume.withPrimer, abs_neg] <;> omega
        · refine Coef4.primerAttempt_panics (s := 1) (t := -1) (by simp) (by simp) ?_ ?_ ?_ ?_ ?_ ?_
            (.inl ?_) <;> simp only [Consume.withPrimer, abs_neg, neg_neg] <;> omega
        · refine Coef4.primerAttempt_panics (s := 1) (t := -1) (by simp) (by simp) ?_ ?_ ?_ ?_ ?_ ?_
            (.inr ?_) <;> simp only [Consume.withPrimer, abs_neg, neg_neg] <;> omega
  have hx : ¬(k.nx = 0 ∧ k.dx = 0) := by
    rintro ⟨e1, e2⟩
    obtain ⟨-, h1⟩ := hu 1 one_pos
    obtain ⟨-, h2⟩ := hu 2 two_pos
    rw [e1, e2] at h1 h2
    simp only [Int.cast_zero, zero_mul] at h1 h2
    have := undo_inj one_pos two_pos (applyPrimer_cancel (h1.symm.trans h2))
    norm_num at this
  refine ⟨1, fun f hf => ?_⟩
  obtain ⟨f, rfl⟩ : ∃ g, f = g + 1 := ⟨f - 1, by omega⟩
  simp only [rebuild, Number.homographic, Homographic.new, if_neg hx, Homographic.absorbPrimer,
    Homographic.prime, pure_eq, ok_bind, hpa, panic_bind]

/-- The same for a number of known value. -/
theorem C67_rebuild_value (cfg : Cfg) (x : Number) (q : ℚ) (hx : Number.Denotes cfg NoPanic x q)
    (h1 : 1 / 2 ^ (cfg.bits - 5) ≤ |q|) (h2 : |q| ≤ 2 ^ (cfg.bits - 5)) (y : Number) (k : Coef4)
    (hr : Returns (fun f => Number.consume cfg f x) (some y, k)) :
    Panics (fun f => rebuild cfg f (some y, k)) .unwrapNone := by
  cases x with
  | Special s =>
    obtain ⟨f, hf⟩ := hr
    have := hf f le_rfl
    cases s <;> cases this
  | Other p c =>
    obtain ⟨v, hv, rfl⟩ := hx
    have hb := cfg.hbits
    have hv1 : 1 / 2 ^ (cfg.bits - 6 + 1) ≤ v := by
      rw [show cfg.bits - 6 + 1 = cfg.bits - 5 by omega]
      have v0 := hv.1
      have inv : |1 / v| ≤ 2 ^ (cfg.bits - 5) → 1 / 2 ^ (cfg.bits - 5) ≤ v := by
        intro h
        rw [abs_of_pos (by positivity), div_le_iff₀ v0] at h
        rw [div_le_iff₀ (by positivity)]
        linarith
      rcases p with _ | p
      · rwa [applyPrimer, abs_of_pos v0] at h1
      · cases p
        · exact inv h2
        · rwa [applyPrimer, abs_neg, abs_of_pos v0] at h1
        · refine inv ?_
          rwa [applyPrimer, abs_neg] at h2
    obtain ⟨j, hj, ⟨c1, h3⟩ | ⟨c1, c2, h3, h4⟩⟩ := hv.begins _ hv1
    · exact C67_rebuild_panics cfg p c c1 y k hr j (by omega) h3
    · obtain ⟨l, c', hl, hlen⟩ := Consume.gave_up cfg p c y k hr
      exact (Gives.no_end hl h3 (by simp; omega) ⟨c2, h4⟩).elim

/-- 64-bit machine, `(2^63-1)/12345678901234567`, about 747: `consume` gives up, and what it
returns cannot be put together again.  (The first Uncover comes after nine times Amplify.) -/
example : Panics (fun f => rebuild debug64 f (some (.Other none (.ratio ⟨136157448, 379478477⟩)),
    ⟨317057240142156288, 3148453488174247936, 424387833914317, 4214271705093880⟩)) .unwrapNone :=
  C67_rebuild_panics debug64 (some .Turn) (.ratio ⟨12345678901234567, 2 ^ 63 - 1⟩)
    (.ratio ⟨2902384439422677503, 6320987597432098304⟩) _ _
    (FuelMono.returns (Number.consume_mono _ _) 199 (by decide +kernel)) 9 (by decide)
    (FuelMono.returns (Clog.egests_mono _ _ _) 1 (by decide +kernel))

/-- The same as a number of known value. -/
example (y : Number) (k : Coef4)
    (hr : Returns (fun f => Number.consume debug64 f (.Other (some .Turn)
      (.ratio ⟨12345678901234567, 2 ^ 63 - 1⟩))) (some y, k)) :
    Panics (fun f => rebuild debug64 f (some y, k)) .unwrapNone :=
  C67_rebuild_value debug64 (.Other (some .Turn) (.ratio ⟨12345678901234567, 2 ^ 63 - 1⟩)) (1 / (12345678901234567 / (2 ^ 63 - 1)))
    ⟨12345678901234567 / (2 ^ 63 - 1), (by
      have h := Ratio.denotes (cfg := debug64) (A := NoPanic)
        (r := ⟨12345678901234567, 2 ^ 63 - 1⟩) ⟨by decide, by decide, by decide⟩
      norm_num [Ratio.val] at h ⊢
      exact h), rfl⟩
    (by rw [abs_of_pos (by norm_num)]; norm_num [debug64])
    (by rw [abs_of_pos (by norm_num)]; norm_num [debug64]) y k hr

/-- `-1/(2^64-1)` begins with 61 times Amplify: it comes back. -/
example := C67_rebuild_tiny debug64 (some .Reflect) (.ratio ⟨1, 2 ^ 64 - 1⟩)
  (.ratio ⟨2 ^ 61, 2 ^ 64 - 1⟩)
  (FuelMono.returns (Clog.egests_mono _ _ _) 1 (by decide +kernel))

/-- (Witnesses.)  The limit is sharp: on a 64-bit machine with 59 = `bits - 5` times Amplify before
the first Uncover, rebuilding `7/(13*2^59)` returns a number and rebuilding `9/(11*2^59)` panics. -/
theorem C67_limit_sharp :
    (∃ c c1 y k x', Gives debug64 c (List.replicate 59 .Amplify ++ [.Uncover]) c1 ∧
      Returns (fun f => Number.consume debug64 f (.Other none c)) (some y, k) ∧
      Returns (fun f => rebuild debug64 f (some y, k)) x') ∧
    ∃ c c1 y k, Gives debug64 c (List.replicate 59 .Amplify ++ [.Uncover]) c1 ∧
      Returns (fun f => Number.consume debug64 f (.Other none c)) (some y, k) ∧
      Panics (fun f => rebuild debug64 f (some y, k)) .unwrapNone :=
  ⟨⟨.ratio ⟨7, 13 * 2 ^ 59⟩, .ratio ⟨6, 7⟩, .Other none (.ratio ⟨1, 3⟩),
      ⟨1, 2, 2 ^ 59, 2 ^ 61⟩, .Other none (.homographic (.ratio ⟨1, 3⟩) ⟨1, 2, 2 ^ 59, 2 ^ 61⟩),
      FuelMono.returns (Clog.egests_mono _ _ _) 1 (by decide +kernel),
      FuelMono.returns (Number.consume_mono _ _) 199 (by decide +kernel),
      FuelMono.returns (Number.homographic_mono _ _ _ _ _ _) 199 (by decide +kernel)⟩,
    ⟨.ratio ⟨9, 11 * 2 ^ 59⟩, .ratio ⟨2, 9⟩, .Other none (.ratio ⟨1, 2⟩),
      ⟨1, 4, 2 ^ 59, 5 * 2 ^ 59⟩,
      FuelMono.returns (Clog.egests_mono _ _ _) 1 (by decide +kernel),
      FuelMono.returns (Number.consume_mono _ _) 199 (by decide +kernel),
      FuelMono.panics (Number.homographic_mono _ _ _ _ _ _) 199 (by decide +kernel)⟩⟩

end Clarith
