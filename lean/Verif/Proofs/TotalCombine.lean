import Verif.Proofs.TotalHomographic

/-! # `Combine` ends if one operand is a fraction and the value is not -/

namespace Clarith

open Out Spec Support

section

variable {K : Type*} [Field K] [LinearOrder K] [IsStrictOrderedRing K]

/-! ## Fractions among the elements of a field -/

/-- `x` is a fraction with at most `n` symbols. -/
def Short (n : Nat) (x : K) : Prop := ∃ (p : ℚ) (l : List Reduction), x = p ∧ Expands p l ∧ l.length ≤ n

theorem NotFraction.next {x : K} (h : NotFraction x) : NotFraction (nextIn x) := by
  intro hn
  apply h
  obtain ⟨p, hp⟩ := hn
  unfold nextIn at hp
  split_ifs at hp with h1 h2
  · exact ⟨p / 2, by push_cast; linarith⟩
  · refine ⟨1 / (p + 1), ?_⟩
    push_cast
    have : 1 / x = p + 1 := by linarith
    rw [← this, one_div_one_div]
  · exact ⟨p, hp⟩

theorem IsFraction.of_primer {p : Option Primer} {x : K} (h : IsFraction (primerIn p x)) :
    IsFraction x := by
  obtain ⟨a, ha⟩ := h
  rcases p with _ | p
  · exact ⟨a, ha⟩
  · cases p <;> simp only [primerIn] at ha
    · exact ⟨1 / a, by push_cast; rw [← ha, one_div_one_div]⟩
    · exact ⟨-a, by push_cast; rw [← ha, neg_neg]⟩
    · exact ⟨-(1 / a), by push_cast; rw [← ha]; simp⟩

theorem IsFraction.short {x : K} (h : IsFraction x) (h0 : 0 < x) (h1 : x < 1) :
    ∃ n, Short n x := by
  obtain ⟨p, rfl⟩ := h
  obtain ⟨l, hl⟩ := Spec.exists_expands p (by exact_mod_cast h0) (by exact_mod_cast h1)
  exact ⟨l.length, p, l, rfl, hl, le_rfl⟩

theorem Short.next {n : Nat} {x : K} (h : Short (n + 1) x) {a} (hx : symIn x = some a) :
    Short n (nextIn x) := by
  obtain ⟨p, l, rfl, hl, hn⟩ := h
  rw [symIn_cast] at hx
  rw [nextIn_cast]
  cases hl with
  | half => rw [sym_half] at hx; cases hx
  | amplify h0 h1 h => exact ⟨_, _, rfl, by rw [next_lt h1]; exact h, by simpa using hn⟩
  | uncover h0 h1 h => exact ⟨_, _, rfl, by rw [next_gt h0]; exact h, by simpa using hn⟩

theorem Short.zero {x : K} (h : Short 0 x) : x = 1 / 2 := by
  obtain ⟨p, l, rfl, hl, hn⟩ := h
  obtain rfl : l = [] := List.length_eq_zero_iff.1 (by omega)
  cases hl
  exact half_cast

theorem Short.both {n : Nat} {u v : K} {a b} (hu : symIn u = some a) (hv : symIn v = some b)
    (h : Short n u ∨ Short n v) :
    ∃ m, m < n ∧ (Short m (nextIn u) ∨ Short m (nextIn v)) := by
  cases n with
  | zero =>
    rcases h with h | h
    · rw [h.zero, symIn_half] at hu; cases hu
    · rw [h.zero, symIn_half] at hv; cases hv
  | succ n => exact ⟨n, by omega, h.imp (·.next hu) (·.next hv)⟩

/-- A map that takes a value that is not a fraction is not constant. -/
theorem det_ne_of_notFraction {k : Coef4} {v : K} (hD : k.denIn v ≠ 0)
    (hw : NotFraction (k.valIn v)) : k.det ≠ 0 := by
  intro h
  apply hw
  unfold Coef4.det at h
  have h' : (k.nx : K) * k.d - k.n * k.dx = 0 := by exact_mod_cast h
  by_cases hd : k.d = 0
  · have hdx : (k.dx : K) ≠ 0 := by
      intro e
      apply hD
      simp [Coef4.denIn, hd, e]
    have hn : (k.n : K) = 0 := by
      rw [hd] at h'
      simp only [Int.cast_zero, mul_zero, zero_sub, neg_eq_zero] at h'
      exact (mul_eq_zero.1 h').resolve_right hdx
    refine ⟨k.nx / k.dx, ?_⟩
    unfold Coef4.valIn
    rw [div_eq_iff hD]
    unfold Coef4.numIn Coef4.denIn
    push_cast
    rw [hn, hd]
    field_simp
    push_cast
    ring
  · have hd' : (k.d : K) ≠ 0 := by exact_mod_cast hd
    refine ⟨k.n / k.d, ?_⟩
    unfold Coef4.valIn
    rw [div_eq_iff hD]
    unfold Coef4.numIn Coef4.denIn
    push_cast
    field_simp
    linear_combination v * h'

namespace Homographic

theorem new_none_ev_in {cfg : Cfg} {A : Panic → Prop} (hc : cfg.overflowChecks = true)
    (hs : ∀ M, cfg.SafeUpTo A M) {c : Clog}
    {v : K} {k : Coef4} (h : Clog.Tracks cfg A c v) (hf : k.Fits cfg) (hD : k.denIn v ≠ 0)
    (hw : NotFraction (k.valIn v)) :
    Ev A (fun f j => Homographic.new cfg (Clog.egest cfg f) j (.Other none c) k.nx k.n k.dx k.d)
      (fun t => DescribesTot cfg A t (k.valIn v)) :=
  new_ev_in (x := .Other none c) (q := v) hc hs ⟨v, h, rfl⟩ hf.1 hf.2.1 hf.2.2.1 hf.2.2.2 hD
    (det_ne_of_notFraction hD hw)

/-- A result describing an element of (0,1) has neither special nor primer. -/
theorem DescribesTot.unit {cfg : Cfg} {A : Panic → Prop} (hs : ∀ M, cfg.SafeUpTo A M)
    {t : Homographic.Primed} {w : K}
    (h : DescribesTot cfg A t w) (h0 : 0 < w) (h1 : w < 1) :
    (∃ r, t = (none, none, some r, none) ∧ Clog.Tracks cfg A (.ratio r) w) ∨
    (∃ h' : Homographic, t = (none, none, none, some h') ∧ Clog.Tracks cfg A h'.box w) := by
  have key : ∀ p (x : K), 0 < x → x < 1 → w = primerIn p x → p = none := by
    intro p x x0 x1 e
    rcases p with _ | p
    · rfl
    · exfalso
      cases p <;> simp only [primerIn] at e
      · have : 1 < 1 / x := by rw [lt_div_iff₀ x0]; linarith
        linarith
      · linarith
      · have : 0 < 1 / x := div_pos one_pos x0
        linarith
  rcases h.tracks hs with ⟨s, rfl, e⟩ | ⟨p, r, x, rfl, hr, e⟩ | ⟨p, h', x, rfl, hh, e⟩
  · exfalso
    cases s <;> simp only [specialIn] at e <;> linarith
  · obtain rfl := key p _ hr.1 hr.2.1 e
    exact .inl ⟨r, rfl, by rw [e]; exact hr⟩
  · obtain rfl := key p _ hh.1 hh.2.1 e
    exact .inr ⟨h', rfl, by rw [e]; exact hh⟩

end Homographic

/-! ## The strategy -/

namespace Combine

/-- The inputs track elements of the field, one of them a fraction, at which the map has the value
`w`, which is not a fraction. -/
structure OKTot (cfg : Cfg) (A : Panic → Prop) (s : Combine) (w : K) : Prop where
  intro ::
  ex : ∃ (u v : K) (n : Nat), Clog.Tracks cfg A s.x u ∧ Clog.Tracks cfg A s.y v ∧ s.k.Inv ∧
    w = s.k.valIn u v ∧ NotFraction w ∧ (Short n u ∨ Short n v)

/-- Outcome of `Combine::egest`. -/
def EgestTot (cfg : Cfg) (A : Panic → Prop) (w : K) (r : Egested × Combine) : Prop :=
  (∃ red, r.1 = .ok red ∧ red = symIn w ∧ OKTot cfg A r.2 (nextIn w)) ∨
  (∃ c : Clog, r.1 = .err c ∧ Clog.Tracks cfg A c w)

/-- Outcome of `reduction_ingest`, with at most `n` symbols to go. -/
def IngestTot (cfg : Cfg) (A : Panic → Prop) (n : Nat) (w : K)
    (r : (Option Ratio × Option Homographic) × Combine) : Prop :=
  (∃ q, r.1 = (some q, none) ∧ Clog.Tracks cfg A (.ratio q) w) ∨
  (∃ h, r.1 = (none, some h) ∧ Clog.Tracks cfg A h.box w) ∨
  (r.1 = (none, none) ∧ ∃ u v : K, Clog.Tracks cfg A r.2.x u ∧ Clog.Tracks cfg A r.2.y v ∧
    r.2.k.Inv ∧ r.2.k.valIn u v = w ∧ ∃ m, m < n ∧ (Short m u ∨ Short m v))

theorem reductionIngest_ev_in {cfg : Cfg} {A : Panic → Prop} (hs : ∀ M, cfg.SafeUpTo A M)
    (hc : cfg.overflowChecks = true) {n : Nat}
    {u v : K} {s : Combine} (hx : Clog.Tracks cfg A s.x u) (hy : Clog.Tracks cfg A s.y v)
    (hI : s.k.Inv) (hw : NotFraction (s.k.valIn u v)) (hn : Short n u ∨ Short n v) :
    Ev A (fun f j => reductionIngest cfg (Clog.egest cfg f) j s)
      (IngestTot cfg A n (s.k.valIn u v)) := by
  obtain ⟨M, hb⟩ := s.k.exists_bounded
  unfold reductionIngest
  refine Ev.bind (hx.ev) ?_
  rintro ⟨r, x⟩ ⟨hr, hx'⟩
  simp only at hr hx'
  cases r with
  | none =>
    have hu : u = 1 / 2 := symIn_none hr.symm
    subst hu
    refine Ev.bind_sat (Coef8.valueAtEndOfX_sat (hs M) hb) ?_
    rintro k' ⟨he, hf⟩
    have hm := hI.valIn_mem hx.1 hx.2.1 hy.1 hy.2.1
    have hd := hI.denIn_ne hx.1 hx.2.1 hy.1 hy.2.1
    have hsame := he.sameIn v
    refine Ev.bind (Homographic.new_none_ev_in hc hs hy hf (fun h => hd (hsame.den.1 h))
      (by rw [hsame.val]; exact hw)) ?_
    intro t ht
    rw [hsame.val] at ht
    rcases ht.unit hs hm.1 hm.2 with ⟨q, rfl, hq⟩ | ⟨h, rfl, hh⟩
    · exact Ev.pure (.inl ⟨q, rfl, hq⟩)
    · exact Ev.pure (.inr (.inl ⟨h, rfl, hh⟩))
  | some a =>
    refine Ev.bind_sat (Coef8.ingestX_sat a (hs M) hb) ?_
    intro k1 hk1
    have hI1 := hk1.inv hI
    have hb1 := hk1.bounded hb
    have hv1 := hk1.sameIn (v := v) hr.symm
    refine Ev.bind (hy.ev) ?_
    rintro ⟨r, y⟩ ⟨hr', hy'⟩
    simp only at hr' hy'
    cases r with
    | none =>
      have hv : v = 1 / 2 := symIn_none hr'.symm
      subst hv
      refine Ev.bind_sat (Coef8.valueAtEndOfY_sat (hs _) hb1) ?_
      rintro k' ⟨he, hf⟩
      have hm := hI1.valIn_mem hx'.1 hx'.2.1 hy.1 hy.2.1
      have hd := hI1.denIn_ne hx'.1 hx'.2.1 hy.1 hy.2.1
      have hsame := he.sameIn (nextIn u)
      rw [hv1.val] at hm
      refine Ev.bind (Homographic.new_none_ev_in hc hs hx' hf
        (fun h => hd (hsame.den.1 h)) (by rw [hsame.val, hv1.val]; exact hw)) ?_
      intro t ht
      rw [hsame.val, hv1.val] at ht
      rcases ht.unit hs hm.1 hm.2 with ⟨q, rfl, hq⟩ | ⟨h, rfl, hh⟩
      · exact Ev.pure (.inl ⟨q, rfl, hq⟩)
      · exact Ev.pure (.inr (.inl ⟨h, rfl, hh⟩))
    | some b =>
      refine Ev.bind_sat (Coef8.ingestY_sat b (hs _) hb1) ?_
      intro k2 hk2
      have hv2 := hk2.sameIn (u := nextIn u) hr'.symm
      have hn' := Short.both hr.symm hr'.symm hn
      exact Ev.pure (.inr (.inr ⟨rfl, _, _, hx', hy', hk2.inv hI1,
        by simp only; rw [hv2.val, hv1.val], hn'⟩))

theorem egest_ev_in {cfg : Cfg} {A : Panic → Prop} (hs : ∀ M, cfg.SafeUpTo A M)
    (hc : cfg.overflowChecks = true) {n : Nat} :
    ∀ {u v : K} {s : Combine}, Clog.Tracks cfg A s.x u → Clog.Tracks cfg A s.y v → s.k.Inv →
    NotFraction (s.k.valIn u v) → (Short n u ∨ Short n v) →
    Ev A (fun f j => Combine.egest cfg (Clog.egest cfg f) j s)
      (EgestTot cfg A (s.k.valIn u v)) := by
  induction n using Nat.strong_induction_on with
  | _ n ih =>
    intro u v s hx hy hI hW hn
    obtain ⟨M, hb⟩ := s.k.exists_bounded
    refine Ev.succ ?_
    simp only [Combine.egest]
    refine Ev.bind_sat (Coef8.reductionAttempt_sat (hs M) hb hI) ?_
    rintro (_ | ⟨red, k'⟩) hr
    · refine Ev.bind (reductionIngest_ev_in hs hc hx hy hI hW hn) ?_
      rintro ⟨⟨o1, o2⟩, s'⟩ (⟨q, h1, h2⟩ | ⟨h, h1, h2⟩ | ⟨h1, u', v', g1, g2, g3, g4, m, hm, g5⟩)
      · simp only [Prod.mk.injEq] at h1
        obtain ⟨rfl, rfl⟩ := h1
        exact Ev.pure (.inr ⟨_, rfl, h2⟩)
      · simp only [Prod.mk.injEq] at h1
        obtain ⟨rfl, rfl⟩ := h1
        exact Ev.pure (.inr ⟨_, rfl, h2⟩)
      · simp only [Prod.mk.injEq] at h1
        obtain ⟨rfl, rfl⟩ := h1
        simp only at g1 g2 g3 g4 ⊢
        rw [← g4] at hW ⊢
        exact ih m hm g1 g2 g3 hW g5
    · have h1 := Coef8.red_step_in hx.1 hx.2.1 hy.1 hy.2.1 (hr red k' rfl)
      have h2 := Coef8.red_step (u := 1 / 2) (v := 1 / 2) (by norm_num) (by norm_num) (by norm_num)
        (by norm_num) hb (hr red k' rfl)
      exact Ev.pure (.inl ⟨red, rfl, h1.1, ⟨u, v, n, hx, hy, h2.2.1, h1.2.symm, hW.next, hn⟩⟩)

/-- A primed `Combine` tracks the value of its map at its inputs. -/
theorem OKTot.tracks {cfg : Cfg} {A : Panic → Prop} (hs : ∀ M, cfg.SafeUpTo A M)
    (hc : cfg.overflowChecks = true)
    {s : Combine} {w : K} (hh : OKTot cfg A s w) : Clog.Tracks cfg A s.box w := by
  refine Clog.Tracks.coind (fun c w => Clog.Tracks cfg A c w ∨
    ∃ s : Combine, c = s.box ∧ OKTot cfg A s w) ?_ (.inr ⟨s, rfl, hh⟩)
  rintro c w (hd | ⟨s, rfl, hh⟩)
  · exact ⟨hd.1, hd.2.1, hd.step.mono fun r hr => ⟨hr.1, .inl hr.2⟩⟩
  · obtain ⟨u, v, n, hx, hy, hI, rfl, hW, hn⟩ := hh
    have hm := hI.valIn_mem hx.1 hx.2.1 hy.1 hy.2.1
    refine ⟨hm.1, hm.2, ?_⟩
    refine Clog.egest_ends (Q := fun r => (∃ red s', r = (.ok red, s'.box) ∧
        red = symIn (s.k.valIn u v) ∧ OKTot cfg A s' (nextIn (s.k.valIn u v))) ∨
      (∃ (c : Clog) (s' : Strategy), r = (.err c, s') ∧ Clog.Tracks cfg A c (s.k.valIn u v)))
      ?_ ?_ ?_
    · simp only [Strategy.egest, Combine.box]
      refine Ev.bind (egest_ev_in hs hc hx hy hI hW hn) ?_
      rintro ⟨e, h'⟩ (⟨red, rfl, h1, h2⟩ | ⟨q, rfl, h1⟩)
      · exact Ev.pure (.inl ⟨red, h', rfl, h1, h2⟩)
      · exact Ev.pure (.inr ⟨q, _, rfl, h1⟩)
    · rintro red s' (⟨red', h', e, h1, h2⟩ | ⟨q, s, e, _⟩)
      · simp only [Prod.mk.injEq, Egested.ok.injEq] at e
        obtain ⟨rfl, rfl⟩ := e
        exact ⟨h1, .inr ⟨h', rfl, h2⟩⟩
      · simp at e
    · rintro new s' (⟨red', h', e, h1, h2⟩ | ⟨q, s, e, h1⟩)
      · simp at e
      · simp only [Prod.mk.injEq, Egested.err.injEq] at e
        obtain ⟨rfl, rfl⟩ := e
        exact h1.step.mono fun r hr => ⟨hr.1, .inl hr.2⟩

/-! ## Construction -/

/-- The result tuple of `combine::new` describes `q`. -/
def DescribesTot (cfg : Cfg) (A : Panic → Prop) (t : Combine.Primed) (q : K) : Prop :=
  (∃ t', Homographic.DescribesTot cfg A t' q ∧ t = (t'.1, t'.2.1, t'.2.2.1, t'.2.2.2, none)) ∨
  (∃ p s w, t = (none, p, none, none, some s) ∧ OKTot cfg A s w ∧ q = primerIn p w)

/-- Outcome of `prime_ingest`, with at most `n` symbols to go. -/
def PrimeIngestTot (cfg : Cfg) (A : Panic → Prop) (n : Nat) (k : Coef8) (u v : K)
    (r : Homographic.Primed ⊕ Combine) : Prop :=
  (∃ t, r = .inl t ∧ Homographic.DescribesTot cfg A t (k.valIn u v)) ∨
  (∃ s', r = .inr s' ∧ ∃ u' v' : K, Clog.Tracks cfg A s'.x u' ∧ Clog.Tracks cfg A s'.y v' ∧
    s'.k.denIn u' v' ≠ 0 ∧ s'.k.valIn u' v' = k.valIn u v ∧
    ∃ m, m < n ∧ (Short m u' ∨ Short m v'))

theorem primeIngest_ev_in {cfg : Cfg} {A : Panic → Prop} (hs : ∀ M, cfg.SafeUpTo A M)
    (hc : cfg.overflowChecks = true) {n : Nat}
    {u v : K} {s : Combine} (hx : Clog.Tracks cfg A s.x u) (hy : Clog.Tracks cfg A s.y v)
    (hD : s.k.denIn u v ≠ 0) (hw : NotFraction (s.k.valIn u v)) (hn : Short n u ∨ Short n v) :
    Ev A (fun f j => primeIngest cfg (Clog.egest cfg f) j s) (PrimeIngestTot cfg A n s.k u v) := by
  obtain ⟨M, hb⟩ := s.k.exists_bounded
  unfold primeIngest
  refine Ev.bind (hx.ev) ?_
  rintro ⟨r, x⟩ ⟨hr, hx'⟩
  simp only at hr hx'
  cases r with
  | none =>
    have hu : u = 1 / 2 := symIn_none hr.symm
    subst hu
    refine Ev.bind_sat (Coef8.valueAtEndOfX_sat (hs M) hb) ?_
    rintro k' ⟨he, hf⟩
    have hsame := he.sameIn v
    refine Ev.bind (Homographic.new_none_ev_in hc hs hy hf (fun h => hD (hsame.den.1 h))
      (by rw [hsame.val]; exact hw)) ?_
    intro t ht
    rw [hsame.val] at ht
    exact Ev.pure (.inl ⟨t, rfl, ht⟩)
  | some a =>
    refine Ev.bind_sat (Coef8.ingestX_sat a (hs M) hb) ?_
    intro k1 hk1
    have hb1 := hk1.bounded hb
    have hv1 := hk1.sameIn (v := v) hr.symm
    refine Ev.bind (hy.ev) ?_
    rintro ⟨r, y⟩ ⟨hr', hy'⟩
    simp only at hr' hy'
    cases r with
    | none =>
      have hv : v = 1 / 2 := symIn_none hr'.symm
      subst hv
      refine Ev.bind_sat (Coef8.valueAtEndOfY_sat (hs _) hb1) ?_
      rintro k' ⟨he, hf⟩
      have hsame := he.sameIn (nextIn u)
      refine Ev.bind (Homographic.new_none_ev_in hc hs hx' hf
        (fun h => hD (hv1.den.1 (hsame.den.1 h))) (by rw [hsame.val, hv1.val]; exact hw)) ?_
      intro t ht
      rw [hsame.val, hv1.val] at ht
      exact Ev.pure (.inl ⟨t, rfl, ht⟩)
    | some b =>
      refine Ev.bind_sat (Coef8.ingestY_sat b (hs _) hb1) ?_
      intro k2 hk2
      have hv2 := hk2.sameIn (u := nextIn u) hr'.symm
      have hn' := Short.both hr.symm hr'.symm hn
      exact Ev.pure (.inr ⟨_, rfl, _, _, hx', hy',
        fun h => hD (hv1.den.1 (hv2.den.1 h)), by simp only; rw [hv2.val, hv1.val],
        hn'⟩)

theorem prime_ev_in {cfg : Cfg} {A : Panic → Prop} (hs : ∀ M, cfg.SafeUpTo A M)
    (hc : cfg.overflowChecks = true) {n : Nat} :
    ∀ {u v : K} {s : Combine}, Clog.Tracks cfg A s.x u → Clog.Tracks cfg A s.y v →
    s.k.denIn u v ≠ 0 → NotFraction (s.k.valIn u v) → (Short n u ∨ Short n v) →
    Ev A (fun f j => Combine.prime cfg (Clog.egest cfg f) j s)
      (fun t => DescribesTot cfg A t (s.k.valIn u v)) := by
  induction n using Nat.strong_induction_on with
  | _ n ih =>
    intro u v s hx hy hD hW hn
    obtain ⟨M, hb⟩ := s.k.exists_bounded
    refine Ev.succ ?_
    simp only [Combine.prime]
    refine Ev.bind_sat (Coef8.primerAttempt_sat (hs M) hb) ?_
    rintro (_ | ⟨p, k'⟩) hr
    · refine Ev.bind (primeIngest_ev_in hs hc hx hy hD hW hn) ?_
      rintro r (⟨⟨t1, t2, t3, t4⟩, rfl, ht⟩ | ⟨s', rfl, u', v', g1, g2, g3, g4, m, hm, g5⟩)
      · exact Ev.pure (.inl ⟨_, ht, rfl⟩)
      · simp only
        rw [← g4] at hW ⊢
        exact ih m hm g1 g2 g3 hW g5
    · obtain ⟨h1, h2, _⟩ := hr p k' rfl
      refine Ev.pure (.inr ⟨p, _, _, rfl, ⟨u, v, n, hx, hy, h2, rfl, ?_, hn⟩, h1.valIn u v⟩)
      intro hf
      apply hW
      rw [h1.valIn u v]
      obtain ⟨a, ha⟩ := hf
      exact ⟨applyPrimer p a, by rw [ha, primerIn_cast]⟩

theorem asHomographic_ev_in {cfg : Cfg} {A : Panic → Prop} (hs : ∀ M, cfg.SafeUpTo A M)
    (hc : cfg.overflowChecks = true)
    {x : Number} {q : K} {nx n dx d : Int} {w : K}
    (hx : Number.Tracks cfg A x q)
    (f1 : cfg.Fits nx) (f2 : cfg.Fits n) (f3 : cfg.Fits dx) (f4 : cfg.Fits d)
    (hD : (dx : K) * q + d ≠ 0) (hw : w = (nx * q + n) / (dx * q + d)) 
    (hW : NotFraction w) :
    Ev A (fun f j => asHomographic cfg (Clog.egest cfg f) j x nx n dx d)
      (fun t => DescribesTot cfg A t w) := by
  unfold asHomographic
  refine Ev.bind (Homographic.new_ev_in hc hs hx f1 f2 f3 f4 hD
    (det_ne_of_notFraction (k := ⟨nx, n, dx, d⟩) hD (by rw [hw] at hW; exact hW))) ?_
  rintro ⟨t1, t2, t3, t4⟩ ht
  rw [← hw] at ht
  exact Ev.pure (.inl ⟨_, ht, rfl⟩)

/-- The two ways in which `combine::new` goes on, whatever is to be shown of its result. -/
theorem new_any_ev_in {cfg : Cfg} {A : Panic → Prop} (hs : ∀ M, cfg.SafeUpTo A M)
    {x y : Number} {q r : K} {k : Coef8} {P : Combine.Primed → Prop}
    (hx : Number.Tracks cfg A x q) (hy : Number.Tracks cfg A y r) (hf : k.Fits cfg)
    (hH : ∀ {z : Number} {t : K} {nx n dx d : Int}, Number.Tracks cfg A z t →
      cfg.Fits nx → cfg.Fits n → cfg.Fits dx → cfg.Fits d →
      (nx : K) * t + n = k.numIn q r → (dx : K) * t + d = k.denIn q r →
      Ev A (fun f j => asHomographic cfg (Clog.egest cfg f) j z nx n dx d) P)
    (hC : ∀ {u v : K} {s : Combine}, Clog.Tracks cfg A s.x u → Clog.Tracks cfg A s.y v →
      (IsFraction q ∨ IsFraction r → IsFraction u ∨ IsFraction v) →
      Coef8.SameIn k q r s.k u v →
      Ev A (fun f j => Combine.prime cfg (Clog.egest cfg f) j s) P) :
    Ev A (fun f j => Combine.new cfg (Clog.egest cfg f) j x y k) P := by
  have safe : ∀ z : Int, cfg.Safe A z := fun z => (hs |z|).1 z (by have := abs_nonneg z; omega)
  obtain ⟨fa, fb, fc, fd, fe, ff, fg, fh⟩ := hf
  obtain ⟨M, hk⟩ := k.exists_within
  unfold Combine.new
  cases x with
  | Special s =>
    have hq : q = specialIn K s := hx
    subst hq
    cases s
    · refine Ev.bind_sat (Cfg.csub_sat (safe _)) ?_
      rintro _ ⟨rfl, g1⟩
      refine Ev.bind_sat (Cfg.csub_sat (safe _)) ?_
      rintro _ ⟨rfl, g2⟩
      refine Ev.bind_sat (Cfg.csub_sat (safe _)) ?_
      rintro _ ⟨rfl, g3⟩
      refine Ev.bind_sat (Cfg.csub_sat (safe _)) ?_
      rintro _ ⟨rfl, g4⟩
      refine hH hy g1 g2 g3 g4 ?_ ?_ <;>
        simp only [specialIn, Coef8.numIn, Coef8.denIn] <;> push_cast <;> ring
    · refine hH hy fc fd fg fh ?_ ?_ <;>
        simp only [specialIn, Coef8.numIn, Coef8.denIn] <;> ring
    · refine Ev.bind_sat (Cfg.cadd_sat (safe _)) ?_
      rintro _ ⟨rfl, g1⟩
      refine Ev.bind_sat (Cfg.cadd_sat (safe _)) ?_
      rintro _ ⟨rfl, g2⟩
      refine Ev.bind_sat (Cfg.cadd_sat (safe _)) ?_
      rintro _ ⟨rfl, g3⟩
      refine Ev.bind_sat (Cfg.cadd_sat (safe _)) ?_
      rintro _ ⟨rfl, g4⟩
      refine hH hy g1 g2 g3 g4 ?_ ?_ <;>
        simp only [specialIn, Coef8.numIn, Coef8.denIn] <;> push_cast <;> ring
  | Other px cx =>
    cases y with
    | Special s =>
      have hr : r = specialIn K s := hy
      subst hr
      cases s
      · refine Ev.bind_sat (Cfg.csub_sat (safe _)) ?_
        rintro _ ⟨rfl, g1⟩
        refine Ev.bind_sat (Cfg.csub_sat (safe _)) ?_
        rintro _ ⟨rfl, g2⟩
        refine Ev.bind_sat (Cfg.csub_sat (safe _)) ?_
        rintro _ ⟨rfl, g3⟩
        refine Ev.bind_sat (Cfg.csub_sat (safe _)) ?_
        rintro _ ⟨rfl, g4⟩
        refine hH hx g1 g2 g3 g4 ?_ ?_ <;>
          simp only [specialIn, Coef8.numIn, Coef8.denIn] <;> push_cast <;> ring
      · refine hH hx fb fd ff fh ?_ ?_ <;>
          simp only [specialIn, Coef8.numIn, Coef8.denIn] <;> ring
      · refine Ev.bind_sat (Cfg.cadd_sat (safe _)) ?_
        rintro _ ⟨rfl, g1⟩
        refine Ev.bind_sat (Cfg.cadd_sat (safe _)) ?_
        rintro _ ⟨rfl, g2⟩
        refine Ev.bind_sat (Cfg.cadd_sat (safe _)) ?_
        rintro _ ⟨rfl, g3⟩
        refine Ev.bind_sat (Cfg.cadd_sat (safe _)) ?_
        rintro _ ⟨rfl, g4⟩
        refine hH hx g1 g2 g3 g4 ?_ ?_ <;>
          simp only [specialIn, Coef8.numIn, Coef8.denIn] <;> push_cast <;> ring
    | Other py cy =>
      obtain ⟨u, hu, rfl⟩ := hx
      obtain ⟨v, hv, rfl⟩ := hy
      refine Ev.bind_sat (Coef8.absorbPrimerX_sat px (hs M) hk) ?_
      intro k1 h1
      refine Ev.bind_sat (Coef8.absorbPrimerY_sat py (hs M) (h1.within hk)) ?_
      intro k2 h2
      refine hC (s := ⟨cx, cy, k2⟩) hu hv (Or.imp (·.of_primer) (·.of_primer)) ?_
      obtain ⟨t1, n1, a1, b1⟩ := h1.sameIn hu.1 (primerIn py v)
      obtain ⟨t2, n2, a2, b2⟩ := h2.sameIn hv.1 u
      exact ⟨t2 * t1, mul_ne_zero n2 n1, by simp only; rw [a2, a1, mul_assoc],
        by simp only; rw [b2, b1, mul_assoc]⟩

/-- Away from poles, `combine::new` gives the value of the map. -/
theorem new_ev_in {cfg : Cfg} {A : Panic → Prop} (hs : ∀ M, cfg.SafeUpTo A M)
    (hc : cfg.overflowChecks = true)
    {x y : Number} {q r : K} {k : Coef8}
    (hx : Number.Tracks cfg A x q) (hy : Number.Tracks cfg A y r) (hf : k.Fits cfg)
    (hD : k.denIn q r ≠ 0) (hW : NotFraction (k.valIn q r)) (hq : IsFraction q ∨ IsFraction r) :
    Ev A (fun f j => Combine.new cfg (Clog.egest cfg f) j x y k)
      (fun t => DescribesTot cfg A t (k.valIn q r)) := by
  refine new_any_ev_in hs hx hy hf ?_ ?_
  · intro z t nx n dx d hz f1 f2 f3 f4 e1 e2
    refine asHomographic_ev_in hs hc hz f1 f2 f3 f4 (by rw [e2]; exact hD) ?_ hW
    rw [e1, e2]; rfl
  · intro u v s hx hy hsh hsame
    obtain ⟨n, hn⟩ : ∃ n, Short n u ∨ Short n v := by
      rcases hsh hq with h | h
      · obtain ⟨n, hn⟩ := h.short hx.1 hx.2.1
        exact ⟨n, .inl hn⟩
      · obtain ⟨n, hn⟩ := h.short hy.1 hy.2.1
        exact ⟨n, .inr hn⟩
    have := prime_ev_in hs hc hx hy (fun h => hD (hsame.den.1 h)) (by rw [hsame.val]; exact hW) hn
    rwa [hsame.val] at this

end Combine

/-! ## `Number::combine` -/

theorem Number.combine_ends_in {cfg : Cfg} {A : Panic → Prop} (hs : ∀ M, cfg.SafeUpTo A M)
    (hc : cfg.overflowChecks = true)
    {x y : Number} {q r : K} {a b c d e f' g h : Int}
    (hx : Number.Tracks cfg A x q) (hy : Number.Tracks cfg A y r)
    (hf : (⟨a, b, c, d, e, f', g, h⟩ : Coef8).Fits cfg)
    (hD : (e : K) * q * r + f' * q + g * r + h ≠ 0) (hq : IsFraction q ∨ IsFraction r)
    (hW : NotFraction ((a * q * r + b * q + c * r + d) / (e * q * r + f' * q + g * r + h))) :
    Ends A (fun f => Number.combine cfg f x y a b c d e f' g h)
      (fun t => Number.Tracks cfg A t
        ((a * q * r + b * q + c * r + d) / (e * q * r + f' * q + g * r + h))) := by
  unfold Number.combine
  refine Ends.bind (Combine.new_ev_in hs hc hx hy hf hD hW hq).ends ?_
  rintro t (⟨t', ht, rfl⟩ | ⟨p, s, w, rfl, hh, hq⟩)
  · rcases ht.tracks hs with ⟨s, rfl, hq⟩ | ⟨p, r, w, rfl, hr, hq⟩ | ⟨p, h, w, rfl, hh, hq⟩
    · exact Ends.of_sat (Sat.pure hq)
    · exact Ends.of_sat (Sat.pure ⟨w, hr, hq⟩)
    · exact Ends.of_sat (Sat.pure ⟨w, hh, hq⟩)
  · exact Ends.of_sat (Sat.pure ⟨w, hh.tracks hs hc, hq⟩)

end

end Clarith
