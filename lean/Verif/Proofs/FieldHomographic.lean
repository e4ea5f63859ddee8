import Verif.Proofs.Field

/-! # `Homographic` follows the value of its map, in any ordered field -/

namespace Clarith

open Out Spec

variable {K : Type*} [Field K] [LinearOrder K] [IsStrictOrderedRing K]

/-- `Clog::egest` on top of `Strategy::egest`. -/
theorem Clog.egest_maybe {cfg : Cfg} {A : Panic → Prop} {s : Strategy}
    {Q : Egested × Strategy → Prop} {P : Option Reduction × Clog → Prop}
    (hE : ∀ f j, Maybe A (Strategy.egest cfg (Clog.egest cfg f) j s) Q)
    (hok : ∀ red s', Q (.ok red, s') → P (red, s'))
    (herr : ∀ new s', Q (.err new, s') → ∀ f, Maybe A (Clog.egest cfg f new) P) (f : Nat) :
    Maybe A (Clog.egest cfg f s) P := by
  cases f with
  | zero => trivial
  | succ f =>
    simp only [Clog.egest]
    refine Maybe.bind (hE f f) ?_
    rintro ⟨e, s'⟩ hQ
    cases e with
    | ok red => exact Maybe.pure (hok red s' hQ)
    | err new => exact herr new s' hQ f

namespace Homographic

/-- The input follows an element of the field at which the map has the value `w`. -/
structure OKIn (cfg : Cfg) (A : Panic → Prop) (h : Homographic) (w : K) : Prop where
  intro ::
  ex : ∃ v : K, Clog.Follows cfg A h.x v ∧ h.k.Inv ∧ w = h.k.valIn v

/-- Outcome of `Homographic::egest`. -/
def EgestIn (cfg : Cfg) (A : Panic → Prop) (w : K) (r : Egested × Homographic) : Prop :=
  (∃ red, r.1 = .ok red ∧ red = symIn w ∧ OKIn cfg A r.2 (nextIn w)) ∨
  (∃ q : Ratio, r.1 = .err (.ratio q) ∧ q.OK cfg ∧ (q.val : K) = w)

/-- The operand follows `v`, and one of its symbols has been read. -/
theorem reductionIngest_maybe {cfg : Cfg} {A : Panic → Prop} (hs : ∀ M, cfg.SafeUpTo A M)
    {h : Homographic} {v : K} (hx : Clog.Follows cfg A h.x v) (hI : h.k.Inv) (f : Nat) :
    Maybe A (reductionIngest cfg (Clog.egest cfg f) h) (fun r =>
      (∃ q : Ratio, r.1 = some q ∧ q.OK cfg ∧ (q.val : K) = h.k.valIn v) ∨
      (r.1 = none ∧ ∃ v' : K, Clog.Follows cfg A r.2.x v' ∧ r.2.k.Inv ∧
        r.2.k.valIn v' = h.k.valIn v)) := by
  obtain ⟨M, hb⟩ := h.k.exists_bounded
  unfold reductionIngest
  refine Maybe.bind (hx.step f) ?_
  rintro ⟨r, x⟩ ⟨hr, hx'⟩
  simp only at hr hx'
  subst hr
  rcases lt_trichotomy v (1 / 2) with hv | rfl | hv
  · rw [symIn_lt hv]
    rw [nextIn_lt hv] at hx'
    refine Maybe.bind_sat (Coef4.ingestAmplify_sat (hs M) hb) ?_
    intro k' hk
    exact Maybe.pure (.inr ⟨rfl, _, hx', Coef4.inv_ingestAmplify hk hI,
      (Coef4.same_ingestAmplify hk).val⟩)
  · rw [symIn_half]
    refine Maybe.bind_sat (Coef4.valueAtOneHalf_sat (hs M) hb) ?_
    rintro ⟨a, b⟩ ⟨hc, f1, f2, g1, g2, g3, g4⟩
    have hv := Coef4.val_half hc
    have hm := hI.val_mem (v := 1 / 2) (by norm_num) (by norm_num)
    simp only at f1 f2 g1 g2 g3 g4 ⊢
    have hb0 : b ≠ 0 := by
      rintro rfl
      simp at hv
      rw [one_div, ← hv] at hm; linarith [hm.1]
    refine Maybe.bind_sat (Ratio.newI_sat hb0 f1 f2 ((hs M).lin (by omega) (by omega))
      ((hs M).lin (by omega) (by omega))) ?_
    rintro t ht
    rw [hv] at ht
    rcases ht with ⟨s, rfl, hs'⟩ | ⟨p, q, rfl, hq, hs'⟩
    · exfalso
      rw [hs'] at hm
      cases s <;> simp only [specialValue] at hm <;> linarith [hm.1, hm.2]
    · have hqm := hq.val_mem
      rcases p with _ | p
      · refine Maybe.pure (.inl ⟨q, rfl, hq, ?_⟩)
        rw [← half_cast (K := K), Coef4.valIn_cast, hs']
        rfl
      · exfalso
        rw [hs'] at hm
        cases p <;> simp only [applyPrimer] at hm
        · have : 1 < 1 / q.val := by rw [lt_div_iff₀ hqm.1]; linarith
          linarith
        · linarith
        · have : 0 < 1 / q.val := div_pos one_pos hqm.1
          linarith
  · rw [symIn_gt hv]
    rw [nextIn_gt hv] at hx'
    refine Maybe.bind_sat (Coef4.ingestUncover_sat (hs M) hb) ?_
    rintro _ rfl
    exact Maybe.pure (.inr ⟨rfl, _, hx', Coef4.inv_ingestUncover hI,
      (Coef4.same_ingestUncover hx.1.ne').val⟩)

theorem egest_maybe {cfg : Cfg} {A : Panic → Prop} (hs : ∀ M, cfg.SafeUpTo A M) (f j : Nat) :
    ∀ {h : Homographic} {v : K}, Clog.Follows cfg A h.x v → h.k.Inv →
    Maybe A (Homographic.egest cfg (Clog.egest cfg f) j h) (EgestIn cfg A (h.k.valIn v)) := by
  induction j with
  | zero => intros; trivial
  | succ j ih =>
    intro h v hx hI
    obtain ⟨M, hb⟩ := h.k.exists_bounded
    simp only [Homographic.egest]
    refine Maybe.bind_sat (Coef4.reductionAttempt_sat (hs M) hb hI.1) ?_
    rintro (_ | ⟨red, k'⟩) hr
    · refine Maybe.bind (reductionIngest_maybe hs hx hI f) ?_
      rintro ⟨o, h'⟩ (⟨q, rfl, hq, e⟩ | ⟨rfl, v', h1, h2, h3⟩)
      · exact Maybe.pure (.inr ⟨q, rfl, hq, e⟩)
      · simp only at h1 h2 h3 ⊢
        rw [← h3]
        exact ih h1 h2
    · have h1 := Coef4.red_step_in hx.1 hx.2.1 hI.2 (hr red k' rfl)
      have h2 := Coef4.red_step (v := 1 / 2) (by norm_num) (by norm_num) hI.2 hb (hr red k' rfl)
      exact Maybe.pure (.inl ⟨red, rfl, h1.1, ⟨v, hx, h2.2.1, h1.2.symm⟩⟩)

/-- A primed `Homographic` follows the value of its map at its input. -/
theorem OKIn.follows {cfg : Cfg} {A : Panic → Prop} (hs : ∀ M, cfg.SafeUpTo A M)
    {h : Homographic} {w : K} (hh : OKIn cfg A h w) : Clog.Follows cfg A h.box w := by
  refine Clog.Follows.coind (fun c w => Clog.Follows cfg A c w ∨
    ∃ h : Homographic, c = h.box ∧ OKIn cfg A h w) ?_ (.inr ⟨h, rfl, hh⟩)
  rintro c w (hd | ⟨h, rfl, hh⟩)
  · exact ⟨hd.1, hd.2.1, fun f => (hd.step f).mono fun r hr => ⟨hr.1, .inl hr.2⟩⟩
  · obtain ⟨v, hd, hI, rfl⟩ := hh
    have hm := hI.valIn_mem hd.1 hd.2.1
    refine ⟨hm.1, hm.2, ?_⟩
    refine Clog.egest_maybe (Q := fun r => (∃ red h', r = (.ok red, h'.box) ∧
        red = symIn (h.k.valIn v) ∧ OKIn cfg A h' (nextIn (h.k.valIn v))) ∨
      (∃ (q : Ratio) (s : Strategy), r = (.err (.ratio q), s) ∧ q.OK cfg ∧
        (q.val : K) = h.k.valIn v)) ?_ ?_ ?_
    · intro f j
      simp only [Strategy.egest, Homographic.box]
      refine Maybe.bind (egest_maybe hs f j hd hI) ?_
      rintro ⟨e, h'⟩ (⟨red, rfl, h1, h2⟩ | ⟨q, rfl, h1, h2⟩)
      · exact Maybe.pure (.inl ⟨red, h', rfl, h1, h2⟩)
      · exact Maybe.pure (.inr ⟨q, _, rfl, h1, h2⟩)
    · rintro red s' (⟨red', h', e, h1, h2⟩ | ⟨q, s, e, _⟩)
      · simp only [Prod.mk.injEq, Egested.ok.injEq] at e
        obtain ⟨rfl, rfl⟩ := e
        exact ⟨h1, .inr ⟨h', rfl, h2⟩⟩
      · simp at e
    · rintro new s' (⟨red', h', e, h1, h2⟩ | ⟨q, s, e, h1, h2⟩) f
      · simp at e
      · simp only [Prod.mk.injEq, Egested.err.injEq] at e
        obtain ⟨rfl, rfl⟩ := e
        have := (Ratio.denotes (A := A) h1).follows (K := K) |>.step f
        rw [h2] at this
        exact this.mono fun r hr => ⟨hr.1, .inl hr.2⟩

/-! ## Construction -/

/-- The result tuple of `homographic::new` describes `q`. -/
def DescribesIn (cfg : Cfg) (A : Panic → Prop) (t : Homographic.Primed) (q : K) : Prop :=
  (∃ s, t = (some s, none, none, none) ∧ q = specialIn K s) ∨
  (∃ p r, t = (none, p, some r, none) ∧ r.OK cfg ∧ q = primerIn p (r.val : K)) ∨
  (∃ p h w, t = (none, p, none, some h) ∧ OKIn cfg A h w ∧ q = primerIn p w)

theorem _root_.Clarith.Ratio.Describes.homographicIn {cfg : Cfg} {A : Panic → Prop} {t q}
    (h : Ratio.Describes cfg t q) : DescribesIn cfg A (t.1, t.2.1, t.2.2, none) (q : K) := by
  rcases h with ⟨s, rfl, rfl⟩ | ⟨p, r, rfl, hr, rfl⟩
  · exact .inl ⟨s, rfl, (specialIn_cast s).symm⟩
  · exact .inr (.inl ⟨p, r, rfl, hr, (primerIn_cast p r.val).symm⟩)

/-- The operand follows `v`, and one of its symbols has been read. -/
theorem primeIngest_maybe {cfg : Cfg} {A : Panic → Prop} (hs : ∀ M, cfg.SafeUpTo A M)
    {h : Homographic} {v : K} (hx : Clog.Follows cfg A h.x v) (hD : h.k.denIn v ≠ 0) (f : Nat) :
    Maybe A (primeIngest cfg (Clog.egest cfg f) h) (fun r =>
      (∃ t, r.1 = some t ∧ DescribesIn cfg A (t.1, t.2.1, t.2.2, none) (h.k.valIn v)) ∨
      (r.1 = none ∧ ∃ v' : K, Clog.Follows cfg A r.2.x v' ∧ Coef4.SameIn h.k v r.2.k v')) := by
  obtain ⟨M, hb⟩ := h.k.exists_bounded
  unfold primeIngest
  refine Maybe.bind (hx.step f) ?_
  rintro ⟨r, x⟩ ⟨hr, hx'⟩
  simp only at hr hx'
  subst hr
  rcases lt_trichotomy v (1 / 2) with hv | rfl | hv
  · rw [symIn_lt hv]
    rw [nextIn_lt hv] at hx'
    refine Maybe.bind_sat (Coef4.ingestAmplify_sat (hs M) hb) ?_
    intro k' hk
    exact Maybe.pure (.inr ⟨rfl, _, hx', Coef4.same_ingestAmplify hk⟩)
  · rw [symIn_half]
    refine Maybe.bind_sat (Coef4.valueAtOneHalf_sat (hs M) hb) ?_
    rintro ⟨a, b⟩ ⟨hc, f1, f2, g1, g2, g3, g4⟩
    have hv := Coef4.val_half hc
    simp only at f1 f2 g1 g2 g3 g4 hc ⊢
    have hb0 : b ≠ 0 := by
      rintro rfl
      obtain ⟨c, _, _, hc⟩ := hc
      apply hD
      have : (h.k.dx : K) + 2 * h.k.d = 0 := by
        have : h.k.dx + 2 * h.k.d = 0 := by rw [← hc]; simp
        exact_mod_cast this
      unfold Coef4.denIn; linarith
    refine Maybe.bind_sat (Ratio.newI_sat hb0 f1 f2 ((hs M).lin (by omega) (by omega))
      ((hs M).lin (by omega) (by omega))) ?_
    rintro t ht
    rw [hv] at ht
    refine Maybe.pure (.inl ⟨t, rfl, ?_⟩)
    rw [← half_cast (K := K), Coef4.valIn_cast]
    exact ht.homographicIn
  · rw [symIn_gt hv]
    rw [nextIn_gt hv] at hx'
    refine Maybe.bind_sat (Coef4.ingestUncover_sat (hs M) hb) ?_
    rintro _ rfl
    exact Maybe.pure (.inr ⟨rfl, _, hx', Coef4.same_ingestUncover hx.1.ne'⟩)

theorem prime_maybe {cfg : Cfg} {A : Panic → Prop} (hs : ∀ M, cfg.SafeUpTo A M) (f j : Nat) :
    ∀ {h : Homographic} {v : K}, Clog.Follows cfg A h.x v → h.k.denIn v ≠ 0 →
    Maybe A (Homographic.prime cfg (Clog.egest cfg f) j h)
      (fun t => DescribesIn cfg A t (h.k.valIn v)) := by
  induction j with
  | zero => intros; trivial
  | succ j ih =>
    intro h v hx hD
    obtain ⟨M, hb⟩ := h.k.exists_bounded
    simp only [Homographic.prime]
    refine Maybe.bind_sat (Coef4.primerAttempt_sat (hs M) hb) ?_
    rintro (_ | ⟨p, k'⟩) hr
    · refine Maybe.bind (primeIngest_maybe hs hx hD f) ?_
      rintro ⟨o, h'⟩ (⟨⟨t1, t2, t3⟩, rfl, ht⟩ | ⟨rfl, v', h1, h2⟩)
      · exact Maybe.pure ht
      · simp only at h1 h2 ⊢
        rw [← h2.val]
        exact ih h1 fun e => hD (h2.den.1 e)
    · obtain ⟨hr, _⟩ := hr p k' rfl
      refine Maybe.pure (.inr (.inr ⟨p, _, _, rfl, ⟨v, hx, ⟨hr.inv, fun hz => ?_⟩, rfl⟩,
        hr.rel.valIn v⟩))
      obtain ⟨z1, z2⟩ := hr.zero hz
      apply hD
      simp [Coef4.denIn, z1, z2]

theorem asRatio_maybe {cfg : Cfg} {A : Panic → Prop} (hs : ∀ M, cfg.SafeUpTo A M)
    {n d : Int} {w : K} (hd : d ≠ 0)
    (hn : cfg.Fits n) (hdf : cfg.Fits d) (hw : w = (n : K) / d) :
    Maybe A (asRatio cfg n d) (fun t => DescribesIn cfg A t w) := by
  unfold asRatio
  have safe : ∀ z : Int, cfg.Safe A z := fun z => (hs |z|).1 z (by have := abs_nonneg z; omega)
  refine Maybe.bind_sat (Ratio.newI_sat hd hn hdf (safe _) (safe _)) ?_
  rintro ⟨s, p, r⟩ ht
  refine Maybe.pure ?_
  have := ht.homographicIn (K := K) (A := A)
  rw [hw]
  push_cast at this
  exact this

/-- What the absorbed coefficients are, as functions. -/
theorem absorbedIn {k k' : Coef4} {p : Option Primer} {v : K} (hv : 0 < v)
    (h : (p = none ∧ k' = k) ∨ (p = some .Turn ∧ k' = ⟨k.n, k.nx, k.d, k.dx⟩) ∨
      (p = some .Reflect ∧ k' = ⟨-k.nx, k.n, -k.dx, k.d⟩) ∨
      (p = some .Ground ∧ k' = ⟨k.n, -k.nx, k.d, -k.dx⟩)) :
    Coef4.SameIn k (primerIn p v) k' v := by
  have hv' := hv.ne'
  rcases h with ⟨rfl, rfl⟩ | ⟨rfl, rfl⟩ | ⟨rfl, rfl⟩ | ⟨rfl, rfl⟩ <;>
    simp only [Coef4.SameIn, primerIn, Coef4.numIn, Coef4.denIn]
  · exact ⟨1, one_ne_zero, by ring, by ring⟩
  · exact ⟨v, hv', by field_simp; ring, by field_simp; ring⟩
  · exact ⟨1, one_ne_zero, by push_cast; ring, by push_cast; ring⟩
  · exact ⟨v, hv', by push_cast; field_simp; ring, by push_cast; field_simp; ring⟩

/-- Away from poles, `homographic::new` gives the value of the map. -/
theorem new_maybe {cfg : Cfg} {A : Panic → Prop} (hs : ∀ M, cfg.SafeUpTo A M)
    {x : Number} {q : K} {nx n dx d : Int} (hx : Number.Follows cfg A x q)
    (f1 : cfg.Fits nx) (f2 : cfg.Fits n) (f3 : cfg.Fits dx) (f4 : cfg.Fits d)
    (hD : (dx : K) * q + d ≠ 0) (f j : Nat) :
    Maybe A (Homographic.new cfg (Clog.egest cfg f) j x nx n dx d)
      (fun t => DescribesIn cfg A t ((nx * q + n) / (dx * q + d))) := by
  have safe : ∀ z : Int, cfg.Safe A z := fun z => (hs |z|).1 z (by have := abs_nonneg z; omega)
  unfold Homographic.new
  by_cases h0 : nx = 0 ∧ dx = 0
  · simp only [if_pos h0]
    obtain ⟨rfl, rfl⟩ := h0
    exact asRatio_maybe hs (by rintro rfl; simp at hD) f2 f4 (by simp)
  simp only [if_neg h0]
  cases x with
  | Special s =>
    obtain rfl : q = specialIn K s := hx
    cases s
    · refine Maybe.bind_sat (Cfg.csub_sat (safe _)) ?_
      rintro _ ⟨rfl, g1⟩
      refine Maybe.bind_sat (Cfg.csub_sat (safe _)) ?_
      rintro _ ⟨rfl, g2⟩
      simp only [specialIn] at hD ⊢
      refine asRatio_maybe hs ?_ g1 g2 ?_
      · intro h
        apply hD
        have : (d : K) - dx = 0 := by exact_mod_cast h
        linarith
      · push_cast
        rw [show (nx : K) * -1 + n = n - nx by ring, show (dx : K) * -1 + d = d - dx by ring]
    · simp only [specialIn] at hD ⊢
      exact asRatio_maybe hs (by rintro rfl; simp at hD) f2 f4 (by simp)
    · refine Maybe.bind_sat (Cfg.cadd_sat (safe _)) ?_
      rintro _ ⟨rfl, g1⟩
      refine Maybe.bind_sat (Cfg.cadd_sat (safe _)) ?_
      rintro _ ⟨rfl, g2⟩
      simp only [specialIn] at hD ⊢
      refine asRatio_maybe hs ?_ g1 g2 ?_
      · intro h
        apply hD
        have : (d : K) + dx = 0 := by exact_mod_cast h
        linarith
      · push_cast
        rw [show (nx : K) * 1 + n = n + nx by ring, show (dx : K) * 1 + d = d + dx by ring]
  | Other p c =>
    obtain ⟨v, hv, rfl⟩ := hx
    refine Maybe.bind_sat (absorbPrimer_sat (safe _) (safe _)) ?_
    intro k' hk
    have hsame := absorbedIn hv.1 hk
    have := prime_maybe hs f j (h := ⟨c, k'⟩) hv (fun e => hD (hsame.den.1 e))
    rw [hsame.val] at this
    exact this

/-- What a description says about the number made from it. -/
theorem DescribesIn.follows {cfg : Cfg} {A : Panic → Prop} (hs : ∀ M, cfg.SafeUpTo A M)
    {t : Homographic.Primed} {q : K} (h : DescribesIn cfg A t q) :
    (∃ s, t = (some s, none, none, none) ∧ q = specialIn K s) ∨
    (∃ p r x, t = (none, p, some r, none) ∧ Clog.Follows cfg A (.ratio r) x ∧ q = primerIn p x) ∨
    (∃ p h x, t = (none, p, none, some h) ∧ Clog.Follows cfg A h.box x ∧ q = primerIn p x) := by
  rcases h with h | ⟨p, r, e, hr, hq⟩ | ⟨p, h, w, e, hh, hq⟩
  · exact .inl h
  · exact .inr (.inl ⟨p, r, _, e, (Ratio.denotes hr).follows, hq⟩)
  · exact .inr (.inr ⟨p, h, w, e, hh.follows hs, hq⟩)

end Homographic

/-! ## `Number::homographic` -/

theorem Number.homographic_maybe {cfg : Cfg} {A : Panic → Prop} (hs : ∀ M, cfg.SafeUpTo A M)
    {x : Number} {q : K} {nx n dx d : Int} (hx : Number.Follows cfg A x q)
    (f1 : cfg.Fits nx) (f2 : cfg.Fits n) (f3 : cfg.Fits dx) (f4 : cfg.Fits d)
    (hD : (dx : K) * q + d ≠ 0) :
    May A (fun f => Number.homographic cfg f x nx n dx d)
      (fun t => Number.Follows cfg A t ((nx * q + n) / (dx * q + d))) := by
  refine may_iff.2 fun f => ?_
  unfold Number.homographic
  refine Maybe.bind (Homographic.new_maybe hs hx f1 f2 f3 f4 hD f f) ?_
  intro t ht
  rcases ht.follows hs with ⟨s, rfl, hq⟩ | ⟨p, r, w, rfl, hr, hq⟩ | ⟨p, h, w, rfl, hh, hq⟩
  · exact Maybe.pure hq
  · exact Maybe.pure ⟨w, hr, hq⟩
  · exact Maybe.pure ⟨w, hh, hq⟩

end Clarith
