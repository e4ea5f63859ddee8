import Verif.Proofs.Observe
import Verif.Proofs.Homographic

/-! # The loop of `consume` -/

namespace Clarith

open Out Spec

namespace Consume

/-- `isize::MAX / 4` -/
def lim (cfg : Cfg) : Int := cfg.imax.tdiv 4

theorem lim_bounds (cfg : Cfg) : 4 * lim cfg ≤ cfg.imax ∧ 8191 ≤ lim cfg := by
  have := cfg.imax_ge
  unfold lim
  rw [Int.tdiv_eq_ediv_of_nonneg (by omega)]
  omega

/-- All coefficients are below `M` in magnitude. -/
def Below (M : Int) (k : Coef4) : Prop := |k.nx| < M ∧ |k.n| < M ∧ |k.dx| < M ∧ |k.d| < M

theorem half_abs {z : Int} (h : isOdd z = false) : 2 * half z = z ∧ |half z| ≤ |z| := by
  have he : 2 * half z = z := by
    unfold isOdd at h
    unfold half
    have h' : z.tmod 2 = 0 := by simpa using h
    have := Int.mul_tdiv_add_tmod z 2
    omega
  refine ⟨he, ?_⟩
  have h0 := abs_nonneg (half z)
  conv_rhs => rw [← he, abs_mul]
  simp only [Nat.abs_ofNat]
  omega

theorem fits_of_abs {cfg : Cfg} {z : Int} (h : |z| ≤ cfg.imax) : cfg.Fits z := by
  have := cfg.imin_eq
  obtain ⟨a, b⟩ := abs_le.1 h
  exact ⟨by omega, b⟩

/-- One symbol: the value is kept, no operation overflows, coefficients at most double. -/
theorem ingest_sat {cfg : Cfg} {A : Panic → Prop} {k : Coef4} {x w : ℚ} {r : Reduction} {M : Int}
    (hM : M ≤ lim cfg) (hk : Below M k) (hx0 : 0 < x) (hr : sym x = some r) (hD : (k.dx : ℚ) * x + k.d ≠ 0)
    (hw : (k.nx * x + k.n) / (k.dx * x + k.d) = w) :
    Sat A (ingest cfg r k) (fun k' => Below (2 * M) k' ∧
      (k'.dx : ℚ) * next x + k'.d ≠ 0 ∧
      (k'.nx * next x + k'.n) / (k'.dx * next x + k'.d) = w) := by
  obtain ⟨b1, b2⟩ := lim_bounds cfg
  have hM0 : 0 < M := lt_of_le_of_lt (abs_nonneg _) hk.1
  obtain ⟨k1, k2, k3, k4⟩ := hk
  cases r with
  | Amplify =>
    have hx : x < 1 / 2 := sym_eq_amplify.1 hr
    rw [next_lt hx]
    simp only [ingest, amplifyX]
    split_ifs with hodd
    · refine Sat.bind (Cfg.mul_sat (.inl (fits_of_abs ?_))) ?_
      · rw [abs_mul]; simp only [Nat.abs_ofNat]; omega
      rintro _ ⟨rfl, _⟩
      refine Sat.bind (Cfg.mul_sat (.inl (fits_of_abs ?_))) ?_
      · rw [abs_mul]; simp only [Nat.abs_ofNat]; omega
      rintro _ ⟨rfl, _⟩
      refine Sat.pure ⟨⟨?_, ?_, ?_, ?_⟩, ?_, ?_⟩
      · simp only; omega
      · simp only; rw [abs_mul]; simp only [Nat.abs_ofNat]; omega
      · simp only; omega
      · simp only; rw [abs_mul]; simp only [Nat.abs_ofNat]; omega
      · push_cast
        intro h
        apply hD
        linarith
      · push_cast
        rw [← hw, ← mul_div_mul_left (k.nx * x + k.n : ℚ) _ (two_ne_zero)]
        congr 1 <;> ring
    · simp only [Bool.or_eq_true, not_or, Bool.not_eq_true] at hodd
      obtain ⟨e1, a1⟩ := half_abs hodd.1
      obtain ⟨e2, a2⟩ := half_abs hodd.2
      have e1' : (k.nx : ℚ) = 2 * (half k.nx : Int) := by exact_mod_cast e1.symm
      have e2' : (k.dx : ℚ) = 2 * (half k.dx : Int) := by exact_mod_cast e2.symm
      refine Sat.pure ⟨⟨?_, ?_, ?_, ?_⟩, ?_, ?_⟩
      · simp only; omega
      · simp only; omega
      · simp only; omega
      · simp only; omega
      · simp only
        intro h
        apply hD
        rw [e2']
        linarith
      · simp only
        rw [← hw, e1', e2']
        congr 1 <;> ring
  | Uncover =>
    have hx : 1 / 2 < x := sym_eq_uncover.1 hr
    rw [next_gt hx]
    simp only [ingest, uncoverX]
    have t1 := abs_add_le k.nx k.n
    have t2 := abs_add_le k.dx k.d
    refine Sat.bind (Cfg.add_sat (.inl (fits_of_abs (by omega)))) ?_
    rintro _ ⟨rfl, _⟩
    refine Sat.bind (Cfg.add_sat (.inl (fits_of_abs (by omega)))) ?_
    rintro _ ⟨rfl, _⟩
    have eN : (k.n : ℚ) * (1 / x - 1) + (k.nx + k.n : Int) = (k.nx * x + k.n) / x := by
      push_cast; field_simp; ring
    have eD : (k.d : ℚ) * (1 / x - 1) + (k.dx + k.d : Int) = (k.dx * x + k.d) / x := by
      push_cast; field_simp; ring
    refine Sat.pure ⟨⟨?_, ?_, ?_, ?_⟩, ?_, ?_⟩
    · simp only; omega
    · simp only; omega
    · simp only; omega
    · simp only; omega
    · simp only
      rw [eD]
      exact div_ne_zero hD hx0.ne'
    · simp only
      rw [eN, eD, div_div_div_cancel_right₀ hx0.ne', hw]

theorem abs_sat {cfg : Cfg} {A : Panic → Prop} {z : Int} (h : |z| ≤ cfg.imax) :
    Sat A (abs cfg z) (fun r => r = |z|) := by
  unfold abs
  split_ifs with hz
  · refine (Cfg.neg_sat (.inl (fits_of_abs (by rwa [abs_neg])))).mono ?_
    rintro _ ⟨rfl, _⟩
    exact (abs_of_neg hz).symm
  · exact Sat.pure (abs_of_nonneg (by omega)).symm

theorem isStateUnsafe_sat {cfg : Cfg} {A : Panic → Prop} {k : Coef4}
    (hk : Below (2 * lim cfg) k) :
    Sat A (isStateUnsafe cfg k) (fun b => b = false ↔ Below (lim cfg) k) := by
  obtain ⟨b1, b2⟩ := lim_bounds cfg
  obtain ⟨k1, k2, k3, k4⟩ := hk
  unfold isStateUnsafe
  change Sat A (abs cfg k.nx >>= fun a => if a ≥ lim cfg then _ else _) _
  refine Sat.bind (abs_sat (by omega)) ?_
  rintro _ rfl
  by_cases h1 : |k.nx| ≥ lim cfg
  · rw [if_pos h1]
    exact Sat.pure (by simp [Below]; intros; omega)
  rw [if_neg h1]
  change Sat A (abs cfg k.n >>= fun a => if a ≥ lim cfg then _ else _) _
  refine Sat.bind (abs_sat (by omega)) ?_
  rintro _ rfl
  by_cases h2 : |k.n| ≥ lim cfg
  · rw [if_pos h2]
    exact Sat.pure (by simp [Below]; intros; omega)
  rw [if_neg h2]
  change Sat A (abs cfg k.dx >>= fun a => if a ≥ lim cfg then _ else _) _
  refine Sat.bind (abs_sat (by omega)) ?_
  rintro _ rfl
  by_cases h3 : |k.dx| ≥ lim cfg
  · rw [if_pos h3]
    exact Sat.pure (by simp [Below]; intros; omega)
  rw [if_neg h3]
  refine Sat.bind (abs_sat (by omega)) ?_
  rintro _ rfl
  refine Sat.pure ?_
  change decide (|k.d| ≥ lim cfg) = false ↔ _
  rw [decide_eq_false_iff_not]
  constructor
  · intro h4; exact ⟨by omega, by omega, by omega, by omega⟩
  · rintro ⟨_, _, _, h4⟩; omega

/-- What `consume` promises about its result, for an input clog `c` with value `w`. -/
def Post (cfg : Cfg) (A : Panic → Prop) (c : Clog) (w : ℚ) (r : Option Clog × Coef4) : Prop :=
  match r with
  | (none, k) => Below (lim cfg) k ∧ (k.dx : ℚ) * (1 / 2) + k.d ≠ 0 ∧
      (k.nx * (1 / 2) + k.n) / (k.dx * (1 / 2) + k.d) = w ∧
      ∃ m rs c', Returns (fun f => Clog.egests cfg f m c) (rs ++ [none], c')
  | (some y, k) => Below (2 * lim cfg) k ∧ ¬Below (lim cfg) k ∧
      ∃ v, Clog.Denotes cfg A y v ∧ (k.dx : ℚ) * v + k.d ≠ 0 ∧
        (k.nx * v + k.n) / (k.dx * v + k.d) = w ∧
        ∃ m rs, Returns (fun f => Clog.egests cfg f m c) (rs, y)

theorem _root_.Clarith.Ends.and_returns {α : Type} {A : Panic → Prop} {m : Nat → Out α}
    {P : α → Prop} (h : Ends A m P) : Ends A m (fun a => P a ∧ Returns m a) := by
  rcases h with ⟨a, r, ha⟩ | r
  · exact .inl ⟨a, r, ha, r⟩
  · exact .inr r

theorem _root_.Clarith.Clog.egests_cons {cfg : Cfg} {c c' c'' : Clog} {r rs} {m : Nat}
    (h1 : Returns (fun f => Clog.egest cfg f c) (r, c'))
    (h2 : Returns (fun f => Clog.egests cfg f m c') (rs, c'')) :
    Returns (fun f => Clog.egests cfg f (m + 1) c) (r :: rs, c'') := by
  obtain ⟨f1, h1⟩ := h1
  obtain ⟨f2, h2⟩ := h2
  refine ⟨max f1 f2, fun f hf => ?_⟩
  simp only at h1 h2 ⊢
  rw [egests_succ, h1 f (by omega)]
  simp [h2 f (by omega)]

theorem consume_ev {cfg : Cfg} {A : Panic → Prop} {c : Clog} {x w : ℚ} {l : List Reduction}
    {k : Coef4} (h : Clog.Denotes cfg A c x) (hl : Expands x l) (hk : Below (lim cfg) k)
    (hD : (k.dx : ℚ) * x + k.d ≠ 0) (hw : (k.nx * x + k.n) / (k.dx * x + k.d) = w) :
    Ev A (fun f j => consume cfg (Clog.egest cfg f) j c k) (Post cfg A c w) := by
  induction l generalizing c x k with
  | nil =>
    cases hl
    refine Ev.succ ?_
    simp only [consume]
    refine Ev.bind h.step.and_returns.ev ?_
    rintro ⟨r, c'⟩ ⟨⟨hr, -⟩, hret⟩
    simp only [sym_half] at hr
    subst hr
    refine Ev.pure ⟨hk, hD, hw, 1, [], c', ?_⟩
    exact Clog.egests_cons hret ⟨0, fun _ _ => rfl⟩
  | cons s l ih =>
    have hs : sym x = some s ∧ Expands (next x) l := by
      cases hl with
      | amplify h0 h1 h => rw [sym_lt h1, next_lt h1]; exact ⟨rfl, h⟩
      | uncover h0 h1 h => rw [sym_gt h0, next_gt h0]; exact ⟨rfl, h⟩
    refine Ev.succ ?_
    simp only [consume]
    refine Ev.bind h.step.and_returns.ev ?_
    rintro ⟨r, c'⟩ ⟨⟨hr, hd⟩, hret⟩
    simp only at hr hd
    rw [hs.1] at hr
    subst hr
    refine Ev.bind_sat (ingest_sat le_rfl hk h.1 hs.1 hD hw) ?_
    rintro k' ⟨hb, hD', hw'⟩
    refine Ev.bind_sat (isStateUnsafe_sat hb) ?_
    rintro b hb'
    cases b with
    | true =>
      have hnb : ¬Below (lim cfg) k' := fun h => by simpa using hb'.2 h
      refine Ev.pure ⟨hb, hnb, _, hd, hD', hw', 1, [some s], ?_⟩
      exact Clog.egests_cons hret ⟨0, fun _ _ => rfl⟩
    | false =>
      refine (ih hd hs.2 (hb'.1 rfl) hD' hw').mono ?_
      rintro ⟨_ | y, k''⟩ hp
      · obtain ⟨p1, p2, p3, m, rs, c'', p4⟩ := hp
        exact ⟨p1, p2, p3, m + 1, some s :: rs, c'', Clog.egests_cons hret p4⟩
      · obtain ⟨p1, p2, v, p3, p4, p5, m, rs, p6⟩ := hp
        exact ⟨p1, p2, v, p3, p4, p5, m + 1, some s :: rs, Clog.egests_cons hret p6⟩

/-- If the coefficients stay small, everything is read. -/
theorem consume_all_ev {cfg : Cfg} {A : Panic → Prop} {c : Clog} {x : ℚ} {l : List Reduction}
    {k : Coef4} {M : Int} (h : Clog.Denotes cfg A c x) (hl : Expands x l) (hk : Below M k)
    (hM : M * 2 ^ l.length ≤ lim cfg) (hD : (k.dx : ℚ) * x + k.d ≠ 0) :
    Ev A (fun f j => consume cfg (Clog.egest cfg f) j c k) (fun r => r.1 = none) := by
  have hM0 : 0 < M := lt_of_le_of_lt (abs_nonneg _) hk.1
  induction l generalizing c x k M with
  | nil =>
    cases hl
    refine Ev.succ ?_
    simp only [consume]
    refine Ev.bind h.step.ev ?_
    rintro ⟨r, c'⟩ ⟨hr, -⟩
    simp only [sym_half] at hr
    subst hr
    exact Ev.pure rfl
  | cons s l ih =>
    have hs : sym x = some s ∧ Expands (next x) l := by
      cases hl with
      | amplify h0 h1 h => rw [sym_lt h1, next_lt h1]; exact ⟨rfl, h⟩
      | uncover h0 h1 h => rw [sym_gt h0, next_gt h0]; exact ⟨rfl, h⟩
    have h2 : 2 * M * 2 ^ l.length ≤ lim cfg := by
      rw [List.length_cons, pow_succ] at hM
      linarith
    have h1 : (1 : Int) ≤ 2 ^ l.length := one_le_pow₀ (by norm_num)
    have h3 : 2 * M ≤ lim cfg := by nlinarith
    refine Ev.succ ?_
    simp only [consume]
    refine Ev.bind h.step.ev ?_
    rintro ⟨r, c'⟩ ⟨hr, hd⟩
    simp only at hr hd
    rw [hs.1] at hr
    subst hr
    refine Ev.bind_sat (ingest_sat (by omega) hk h.1 hs.1 hD rfl) ?_
    rintro k' ⟨hb, hD', -⟩
    have hb1 : Below (lim cfg) k' :=
      ⟨by have := hb.1; omega, by have := hb.2.1; omega, by have := hb.2.2.1; omega,
        by have := hb.2.2.2; omega⟩
    have hl0 := lim_bounds cfg
    refine Ev.bind_sat (isStateUnsafe_sat (k := k')
      ⟨by have := hb1.1; omega, by have := hb1.2.1; omega, by have := hb1.2.2.1; omega,
        by have := hb1.2.2.2; omega⟩) ?_
    rintro b hb'
    obtain rfl : b = false := hb'.2 hb1
    exact ih hd hs.2 hb h2 hD' (by omega)

theorem start_sat {cfg : Cfg} {A : Panic → Prop} {p : Option Primer} {x : ℚ} (h0 : 0 < x) :
    Sat A (start cfg p) (fun k => Below 2 k ∧ (k.dx : ℚ) * x + k.d ≠ 0 ∧
      (k.nx * x + k.n) / (k.dx * x + k.d) = applyPrimer p x) := by
  obtain ⟨b1, b2⟩ := lim_bounds cfg
  have hn1 : cfg.Safe A (-1) := .inl (fits_of_abs (by norm_num; omega))
  have hn0 : cfg.Safe A (-0) := .inl (fits_of_abs (by norm_num; omega))
  rcases p with _ | p
  · exact Sat.pure ⟨by simp [Below], by simp, by simp [applyPrimer]⟩
  · cases p
    · exact Sat.pure ⟨by simp [Below], by simp [h0.ne'], by simp [applyPrimer]⟩
    · refine Sat.bind (Cfg.neg_sat hn1) ?_
      rintro _ ⟨rfl, _⟩
      refine Sat.bind (Cfg.neg_sat hn0) ?_
      rintro _ ⟨rfl, _⟩
      exact Sat.pure ⟨by simp [Below], by simp, by simp [applyPrimer]⟩
    · refine Sat.bind (Cfg.neg_sat hn1) ?_
      rintro _ ⟨rfl, _⟩
      refine Sat.bind (Cfg.neg_sat hn0) ?_
      rintro _ ⟨rfl, _⟩
      refine Sat.pure ⟨by simp [Below], by simp [h0.ne'], ?_⟩
      simp only [applyPrimer]
      push_cast
      ring

end Consume

end Clarith
