import Verif.Proofs.Total

/-! # `Homographic` ends unless its map is constant -/

namespace Clarith

open Out Spec Support

section

variable {K : Type*} [Field K] [LinearOrder K] [IsStrictOrderedRing K]

/-! ## Clogs that track an element of an ordered field -/

omit [IsStrictOrderedRing K] in
/-- Coinduction. -/
theorem Clog.Tracks.coind {cfg : Cfg} {A : Panic → Prop} (R : Clog → K → Prop)
    (hR : ∀ c x, R c x → 0 < x ∧ x < 1 ∧
      Ends A (fun f => Clog.egest cfg f c) (fun r => r.1 = symIn x ∧ R r.2 (nextIn x)))
    {c : Clog} {x : K} (h : R c x) : Clog.Tracks cfg A c x := by
  refine ⟨(hR c x h).1, (hR c x h).2.1, fun k => ?_⟩
  induction k generalizing c x with
  | zero => exact Ends.of_sat (Sat.pure rfl)
  | succ k ih =>
    obtain ⟨h0, h1, hE⟩ := hR c x h
    simp only [egests_succ]
    refine Ends.bind hE ?_
    rintro ⟨r, c'⟩ ⟨hr, hc⟩
    refine Ends.bind (ih hc) ?_
    rintro ⟨rs, c''⟩ hrs
    refine Ends.of_sat (Sat.pure ?_)
    simp only at hr hrs ⊢
    rw [symbolsIn_succ, hr, hrs]

/-- One call on a clog that tracks `x`. -/
theorem Clog.Tracks.step {cfg : Cfg} {A : Panic → Prop} {c : Clog} {x : K}
    (h : Clog.Tracks cfg A c x) :
    Ends A (fun f => Clog.egest cfg f c)
      (fun r => r.1 = symIn x ∧ Clog.Tracks cfg A r.2 (nextIn x)) := by
  obtain ⟨h0, h1, hk⟩ := h
  rcases hk 1 with ⟨⟨l, c'⟩, ⟨f₀, hf⟩, hl⟩ | ⟨p, ⟨f₀, hf⟩, hp⟩
  · have key : ∀ f ≥ f₀, ∃ r, Clog.egest cfg f c = .ok (r, c') ∧ l = [r] := by
      intro f hge
      have := hf f hge
      simp only [egests_succ] at this
      cases hE : Clog.egest cfg f c with
      | ok rc =>
        obtain ⟨r, c1⟩ := rc
        simp [hE, Clog.egests] at this
        obtain ⟨rfl, rfl⟩ := this
        exact ⟨r, rfl, rfl⟩
      | panic p => simp [hE] at this
      | timeout => simp [hE] at this
    obtain ⟨r, _, hr⟩ := key f₀ le_rfl
    have hret : Returns (fun f => Clog.egest cfg f c) (r, c') := by
      refine ⟨f₀, fun f hge => ?_⟩
      obtain ⟨r', h', hr'⟩ := key f hge
      have : r = r' := by simpa using hr.symm.trans hr'
      simpa [this] using h'
    have hsym : r = symIn x := by
      simp only at hl
      rw [hl, symbolsIn_succ] at hr
      simpa using (List.cons.inj hr).1.symm
    refine .inl ⟨(r, c'), hret, hsym, ?_⟩
    have hn := nextIn_mem h0 h1
    refine ⟨hn.1, hn.2, fun k => ?_⟩
    obtain ⟨f₁, hret⟩ := hret
    rcases hk (k + 1) with ⟨⟨l2, c2⟩, ⟨f₂, hf2⟩, hl2⟩ | ⟨p, ⟨f₂, hf2⟩, hp⟩
    · have key2 : ∀ f ≥ max f₁ f₂, ∃ rs, Clog.egests cfg f k c' = .ok (rs, c2) ∧ l2 = r :: rs := by
        intro f hge
        have h2 := hf2 f (by omega)
        simp only [egests_succ, hret f (by omega)] at h2
        simp only [ok_bind] at h2
        cases hE : Clog.egests cfg f k c' with
        | ok rc =>
          obtain ⟨rs, c1⟩ := rc
          simp [hE] at h2
          obtain ⟨rfl, rfl⟩ := h2
          exact ⟨rs, rfl, rfl⟩
        | panic p => simp [hE] at h2
        | timeout => simp [hE] at h2
      obtain ⟨rs, _, hrs⟩ := key2 _ le_rfl
      refine .inl ⟨(rs, c2), ⟨max f₁ f₂, fun f hge => ?_⟩, ?_⟩
      · obtain ⟨rs', h', hrs'⟩ := key2 f hge
        have : rs = rs' := by simpa using hrs.symm.trans hrs'
        simpa [this] using h'
      · simp only at hl2 ⊢
        rw [hl2, symbolsIn_succ] at hrs
        exact (List.cons.inj hrs).2.symm
    · refine .inr ⟨p, ⟨max f₁ f₂, fun f hge => ?_⟩, hp⟩
      have h2 := hf2 f (by omega)
      simp only [egests_succ, hret f (by omega)] at h2
      simp only [ok_bind] at h2
      cases hE : Clog.egests cfg f k c' with
      | ok rc => simp [hE] at h2
      | panic p => simpa [hE] using h2
      | timeout => simp [hE] at h2
  · refine .inr ⟨p, ⟨f₀, fun f hge => ?_⟩, hp⟩
    have := hf f hge
    simp only [egests_succ] at this
    cases hE : Clog.egest cfg f c with
    | ok rc => simp [hE, Clog.egests] at this
    | panic p => simpa [hE] using this
    | timeout => simp [hE] at this

theorem Clog.Tracks.ev {cfg : Cfg} {A : Panic → Prop} {c : Clog} {x : K}
    (h : Clog.Tracks cfg A c x) :
    Ev A (fun f (_ : Nat) => Clog.egest cfg f c)
      (fun r => r.1 = symIn x ∧ Clog.Tracks cfg A r.2 (nextIn x)) := h.step.ev

omit [IsStrictOrderedRing K] in
theorem Clog.Tracks.follows {cfg : Cfg} {A : Panic → Prop} {c : Clog} {x : K}
    (h : Clog.Tracks cfg A c x) : Clog.Follows cfg A c x :=
  ⟨h.1, h.2.1, fun k => (h.2.2 k).may fun _ _ hf => Clog.egests_le hf k c⟩

omit [IsStrictOrderedRing K] in
theorem Number.Tracks.follows {cfg : Cfg} {A : Panic → Prop} {n : Number} {q : K}
    (h : Number.Tracks cfg A n q) : Number.Follows cfg A n q := by
  cases n with
  | Special s => exact h
  | Other p c => obtain ⟨x, hx, hq⟩ := h; exact ⟨x, hx.follows, hq⟩

theorem Clog.Denotes.tracks {cfg : Cfg} {A : Panic → Prop} {c : Clog} {x : ℚ}
    (h : Clog.Denotes cfg A c x) : Clog.Tracks cfg A c (x : K) := by
  refine ⟨by exact_mod_cast h.1, by exact_mod_cast h.2.1, fun k => ?_⟩
  simp only [symbolsIn_cast]
  exact h.2.2 k

theorem Number.Denotes.tracks {cfg : Cfg} {A : Panic → Prop} {n : Number} {q : ℚ}
    (h : Number.Denotes cfg A n q) : Number.Tracks cfg A n (q : K) := by
  cases n with
  | Special s =>
    obtain rfl : q = specialValue s := h
    exact (specialIn_cast s).symm
  | Other p c =>
    obtain ⟨x, hx, rfl⟩ := h
    exact ⟨x, hx.tracks, (primerIn_cast p x).symm⟩

theorem Clog.AmplifiesForever.tracks {cfg : Cfg} {A : Panic → Prop} {c : Clog} {x : K}
    (h : Clog.AmplifiesForever cfg A c) (hx : Infinitesimal x) : Clog.Tracks cfg A c x := by
  refine ⟨hx.1, by linarith [hx.lt_half], fun k => ?_⟩
  simp only [hx.symbols]
  exact h k

/-! ## Determinants -/

namespace Coef4

theorem det_opp (k : Coef4) : k.opp.det = k.det := by
  unfold det opp; ring

theorem ReductionRel.det_ne {k k' : Coef4} {r} (h : ReductionRel k r k') (hk : k.det ≠ 0) :
    k'.det ≠ 0 := by
  rcases h with ⟨_, rfl, _⟩ | ⟨_, ⟨c, hc, h1, h2, h3, h4⟩, _⟩ | ⟨_, rfl, _⟩
  · exact hk
  · intro e
    apply hk
    have : 2 * k.det = c * c * k'.det := by
      unfold det
      linear_combination c * k'.dx * h1 + 2 * k.n * h4 - 2 * k.nx * h3 - c * k'.d * h2
    rw [e] at this
    omega
  · unfold det at hk ⊢
    intro e
    apply hk
    simp only at e
    linear_combination -e

theorem red_det_ne {k k' : Coef4} {r}
    (h : (PosW k ∧ ReductionRel k r k') ∨ (PosW k.opp ∧ ReductionRel k.opp r k'.opp))
    (hk : k.det ≠ 0) : k'.det ≠ 0 := by
  rcases h with ⟨_, h⟩ | ⟨_, h⟩
  · exact h.det_ne hk
  · rw [← det_opp] at hk ⊢
    exact h.det_ne hk

theorem PrimerRel.det_ne {k k' : Coef4} {p} (h : PrimerRel k p k') (hk : k.det ≠ 0) :
    k'.det ≠ 0 := by
  unfold det at hk ⊢
  rcases h with ⟨_, rfl⟩ | ⟨_, rfl⟩ | ⟨_, rfl⟩ | ⟨_, rfl⟩ <;>
    (intro e; apply hk; (try simp only at e); first | linear_combination e | linear_combination -e)

end Coef4

namespace Homographic

/-- The input tracks an element of the field at which the map, which is not constant, has the
value `w`. -/
structure OKTot (cfg : Cfg) (A : Panic → Prop) (h : Homographic) (w : K) : Prop where
  intro ::
  ex : ∃ v : K, Clog.Tracks cfg A h.x v ∧ h.k.Inv ∧ h.k.Fits cfg ∧ h.k.det ≠ 0 ∧ w = h.k.valIn v

/-- Outcome of `Homographic::egest`. -/
def EgestTot (cfg : Cfg) (A : Panic → Prop) (w : K) (r : Egested × Homographic) : Prop :=
  (∃ red, r.1 = .ok red ∧ red = symIn w ∧ OKTot cfg A r.2 (nextIn w)) ∨
  (∃ q : Ratio, r.1 = .err (.ratio q) ∧ q.OK cfg ∧ (q.val : K) = w)

/-- The operand tracks `v`, and one of its symbols has been read. -/
theorem reductionIngest_ev_in {cfg : Cfg} {A : Panic → Prop} (hs : ∀ M, cfg.SafeUpTo A M)
    {h : Homographic} {v : K} (hx : Clog.Tracks cfg A h.x v) (hI : h.k.Inv) (hF : h.k.Fits cfg) :
    Ev A (fun f _ => reductionIngest cfg (Clog.egest cfg f) h) (fun r =>
      (∃ q : Ratio, r.1 = some q ∧ q.OK cfg ∧ (q.val : K) = h.k.valIn v) ∨
      (r.1 = none ∧ ∃ v' : K, Clog.Tracks cfg A r.2.x v' ∧ r.2.k.Inv ∧ r.2.k.Fits cfg ∧
        Coef4.Ing h.k r.2.k ∧ r.2.k.valIn v' = h.k.valIn v)) := by
  obtain ⟨M, hb⟩ := h.k.exists_bounded
  unfold reductionIngest
  refine Ev.bind hx.ev ?_
  rintro ⟨r, x⟩ ⟨hr, hx'⟩
  simp only at hr hx'
  subst hr
  rcases lt_trichotomy v (1 / 2) with hv | rfl | hv
  · rw [symIn_lt hv]
    rw [nextIn_lt hv] at hx'
    refine Ev.bind_sat ((Coef4.ingestAmplify_sat (hs M) hb).and_maybe
      (Coef4.ingestAmplify_fits hF)) ?_
    rintro k' ⟨hk, hf⟩
    exact Ev.pure (.inr ⟨rfl, _, hx', Coef4.inv_ingestAmplify hk hI, hf, .inl hk,
      (Coef4.same_ingestAmplify hk).val⟩)
  · rw [symIn_half]
    refine Ev.bind_sat (Coef4.valueAtOneHalf_sat (hs M) hb) ?_
    rintro ⟨a, b⟩ ⟨hc, f1, f2, g1, g2, g3, g4⟩
    have hv := Coef4.val_half hc
    have hm := hI.val_mem (v := 1 / 2) (by norm_num) (by norm_num)
    simp only at f1 f2 g1 g2 g3 g4 ⊢
    have hb0 : b ≠ 0 := by
      rintro rfl
      simp at hv
      rw [one_div, ← hv] at hm; linarith [hm.1]
    refine Ev.bind_sat (Ratio.newI_sat hb0 f1 f2 ((hs M).lin (by omega) (by omega))
      ((hs M).lin (by omega) (by omega))) ?_
    rintro t ht
    rw [hv] at ht
    rcases ht with ⟨s, rfl, hs'⟩ | ⟨p, q, rfl, hq, hs'⟩
    · exfalso
      rw [hs'] at hm
      cases s <;> simp only [specialValue] at hm <;> linarith [hm.1, hm.2]
    · have hqm := hq.val_mem
      rcases p with _ | p
      · refine Ev.pure (.inl ⟨q, rfl, hq, ?_⟩)
        rw [← half_cast (K := K), Coef4.valIn_cast, hs']
        rfl
      · exfalso
        rw [hs'] at hm
        cases p <;> simp only [applyPrimer] at hm
        · have : 1 < 1 / q.val := by rw [lt_div_iff₀ hqm.1]; linarith
          linarith
        · linarith
        · have : 0 < 1 / q.val := div_pos one_pos hqm.1
          linarith
  · rw [symIn_gt hv]
    rw [nextIn_gt hv] at hx'
    refine Ev.bind_sat ((Coef4.ingestUncover_sat (hs M) hb).and_maybe
      (Coef4.ingestUncover_fits hF)) ?_
    rintro _ ⟨rfl, hf⟩
    exact Ev.pure (.inr ⟨rfl, _, hx', Coef4.inv_ingestUncover hI, hf, .inr rfl,
      (Coef4.same_ingestUncover hx.1.ne').val⟩)

/-- `Homographic::egest` ends. -/
theorem egest_ev_in {cfg : Cfg} {A : Panic → Prop} (hs : ∀ M, cfg.SafeUpTo A M)
    {h : Homographic} {v : K} (hx : Clog.Tracks cfg A h.x v) (hI : h.k.Inv) (hF : h.k.Fits cfg)
    (hdet : h.k.det ≠ 0) :
    Ev A (fun f j => Homographic.egest cfg (Clog.egest cfg f) j h)
      (EgestTot cfg A (h.k.valIn v)) := by
  suffices H : ∀ k : Coef4, k.Fits cfg → k.det ≠ 0 → ∀ (x : Clog) (v : K),
      Clog.Tracks cfg A x v → k.Inv →
      Ev A (fun f j => Homographic.egest cfg (Clog.egest cfg f) j ⟨x, k⟩)
        (EgestTot cfg A (k.valIn v)) from H h.k hF hdet h.x v hx hI
  refine Coef4.ing_induction ?_
  intro k hF hdet ih x v hx hI
  obtain ⟨M, hb⟩ := k.exists_bounded
  refine Ev.succ ?_
  simp only [Homographic.egest]
  refine Ev.bind_sat ((Coef4.reductionAttempt_sat (hs M) hb hI.1).and_maybe
    (Coef4.reductionAttempt_fits hF)) ?_
  rintro (_ | ⟨red, k'⟩) ⟨hr, hf⟩
  · refine Ev.bind (reductionIngest_ev_in hs (h := ⟨x, k⟩) hx hI hF) ?_
    rintro ⟨o, h'⟩ (⟨q, rfl, hq, e⟩ | ⟨rfl, v', h1, h2, h3, h4, h5⟩)
    · exact Ev.pure (.inr ⟨q, rfl, hq, e⟩)
    · simp only at h1 h2 h3 h4 h5 ⊢
      rw [← h5]
      exact ih h'.k h3 h4 h'.x v' h1 h2
  · have h1 := Coef4.red_step_in hx.1 hx.2.1 hI.2 (hr red k' rfl)
    have h2 := Coef4.red_step (v := 1 / 2) (by norm_num) (by norm_num) hI.2 hb (hr red k' rfl)
    exact Ev.pure (.inl ⟨red, rfl, h1.1, ⟨v, hx, h2.2.1, hf red k' rfl,
      Coef4.red_det_ne (hr red k' rfl) hdet, h1.2.symm⟩⟩)

/-- A primed `Homographic` tracks the value of its map at its input. -/
theorem OKTot.tracks {cfg : Cfg} {A : Panic → Prop} (hs : ∀ M, cfg.SafeUpTo A M)
    {h : Homographic} {w : K} (hh : OKTot cfg A h w) : Clog.Tracks cfg A h.box w := by
  refine Clog.Tracks.coind (fun c w => Clog.Tracks cfg A c w ∨
    ∃ h : Homographic, c = h.box ∧ OKTot cfg A h w) ?_ (.inr ⟨h, rfl, hh⟩)
  rintro c w (hd | ⟨h, rfl, hh⟩)
  · exact ⟨hd.1, hd.2.1, hd.step.mono fun r hr => ⟨hr.1, .inl hr.2⟩⟩
  · obtain ⟨v, hd, hI, hF, hdet, rfl⟩ := hh
    have hm := hI.valIn_mem hd.1 hd.2.1
    refine ⟨hm.1, hm.2, ?_⟩
    refine Clog.egest_ends (Q := fun r => (∃ red h', r = (.ok red, h'.box) ∧
        red = symIn (h.k.valIn v) ∧ OKTot cfg A h' (nextIn (h.k.valIn v))) ∨
      (∃ (q : Ratio) (s : Strategy), r = (.err (.ratio q), s) ∧ q.OK cfg ∧
        (q.val : K) = h.k.valIn v)) ?_ ?_ ?_
    · simp only [Strategy.egest, Homographic.box]
      refine Ev.bind (egest_ev_in hs hd hI hF hdet) ?_
      rintro ⟨e, h'⟩ (⟨red, rfl, h1, h2⟩ | ⟨q, rfl, h1, h2⟩)
      · exact Ev.pure (.inl ⟨red, h', rfl, h1, h2⟩)
      · exact Ev.pure (.inr ⟨q, _, rfl, h1, h2⟩)
    · rintro red s' (⟨red', h', e, h1, h2⟩ | ⟨q, s, e, _⟩)
      · simp only [Prod.mk.injEq, Egested.ok.injEq] at e
        obtain ⟨rfl, rfl⟩ := e
        exact ⟨h1, .inr ⟨h', rfl, h2⟩⟩
      · simp at e
    · rintro new s' (⟨red', h', e, h1, h2⟩ | ⟨q, s, e, h1, h2⟩)
      · simp at e
      · simp only [Prod.mk.injEq, Egested.err.injEq] at e
        obtain ⟨rfl, rfl⟩ := e
        have := (Ratio.denotes (A := A) h1).tracks (K := K) |>.step
        rw [h2] at this
        exact this.mono fun r hr => ⟨hr.1, .inl hr.2⟩

/-! ## Construction -/

/-- The result tuple of `homographic::new` describes `q`. -/
def DescribesTot (cfg : Cfg) (A : Panic → Prop) (t : Homographic.Primed) (q : K) : Prop :=
  (∃ s, t = (some s, none, none, none) ∧ q = specialIn K s) ∨
  (∃ p r, t = (none, p, some r, none) ∧ r.OK cfg ∧ q = primerIn p (r.val : K)) ∨
  (∃ p h w, t = (none, p, none, some h) ∧ OKTot cfg A h w ∧ q = primerIn p w)

theorem _root_.Clarith.Ratio.Describes.homographicTot {cfg : Cfg} {A : Panic → Prop} {t q}
    (h : Ratio.Describes cfg t q) : DescribesTot cfg A (t.1, t.2.1, t.2.2, none) (q : K) := by
  rcases h with ⟨s, rfl, rfl⟩ | ⟨p, r, rfl, hr, rfl⟩
  · exact .inl ⟨s, rfl, (specialIn_cast s).symm⟩
  · exact .inr (.inl ⟨p, r, rfl, hr, (primerIn_cast p r.val).symm⟩)

/-- The operand tracks `v`, and one of its symbols has been read. -/
theorem primeIngest_ev_in {cfg : Cfg} {A : Panic → Prop} (hs : ∀ M, cfg.SafeUpTo A M)
    {h : Homographic} {v : K} (hx : Clog.Tracks cfg A h.x v) (hD : h.k.denIn v ≠ 0)
    (hF : h.k.Fits cfg) :
    Ev A (fun f _ => primeIngest cfg (Clog.egest cfg f) h) (fun r =>
      (∃ t, r.1 = some t ∧ DescribesTot cfg A (t.1, t.2.1, t.2.2, none) (h.k.valIn v)) ∨
      (r.1 = none ∧ ∃ v' : K, Clog.Tracks cfg A r.2.x v' ∧ r.2.k.Fits cfg ∧
        Coef4.Ing h.k r.2.k ∧ Coef4.SameIn h.k v r.2.k v')) := by
  obtain ⟨M, hb⟩ := h.k.exists_bounded
  unfold primeIngest
  refine Ev.bind hx.ev ?_
  rintro ⟨r, x⟩ ⟨hr, hx'⟩
  simp only at hr hx'
  subst hr
  rcases lt_trichotomy v (1 / 2) with hv | rfl | hv
  · rw [symIn_lt hv]
    rw [nextIn_lt hv] at hx'
    refine Ev.bind_sat ((Coef4.ingestAmplify_sat (hs M) hb).and_maybe
      (Coef4.ingestAmplify_fits hF)) ?_
    rintro k' ⟨hk, hf⟩
    exact Ev.pure (.inr ⟨rfl, _, hx', hf, .inl hk, Coef4.same_ingestAmplify hk⟩)
  · rw [symIn_half]
    refine Ev.bind_sat (Coef4.valueAtOneHalf_sat (hs M) hb) ?_
    rintro ⟨a, b⟩ ⟨hc, f1, f2, g1, g2, g3, g4⟩
    have hv := Coef4.val_half hc
    simp only at f1 f2 g1 g2 g3 g4 hc ⊢
    have hb0 : b ≠ 0 := by
      rintro rfl
      obtain ⟨c, _, _, hc⟩ := hc
      apply hD
      have : (h.k.dx : K) + 2 * h.k.d = 0 := by
        have : h.k.dx + 2 * h.k.d = 0 := by rw [← hc]; simp
        exact_mod_cast this
      unfold Coef4.denIn; linarith
    refine Ev.bind_sat (Ratio.newI_sat hb0 f1 f2 ((hs M).lin (by omega) (by omega))
      ((hs M).lin (by omega) (by omega))) ?_
    rintro t ht
    rw [hv] at ht
    refine Ev.pure (.inl ⟨t, rfl, ?_⟩)
    rw [← half_cast (K := K), Coef4.valIn_cast]
    exact ht.homographicTot
  · rw [symIn_gt hv]
    rw [nextIn_gt hv] at hx'
    refine Ev.bind_sat ((Coef4.ingestUncover_sat (hs M) hb).and_maybe
      (Coef4.ingestUncover_fits hF)) ?_
    rintro _ ⟨rfl, hf⟩
    exact Ev.pure (.inr ⟨rfl, _, hx', hf, .inr rfl, Coef4.same_ingestUncover hx.1.ne'⟩)

/-- `Homographic::prime` ends. -/
theorem prime_ev_in {cfg : Cfg} {A : Panic → Prop} (hc : cfg.overflowChecks = true)
    (hs : ∀ M, cfg.SafeUpTo A M) {h : Homographic} {v : K} (hx : Clog.Tracks cfg A h.x v)
    (hD : h.k.denIn v ≠ 0) (hF : h.k.Fits cfg) (hdet : h.k.det ≠ 0) :
    Ev A (fun f j => Homographic.prime cfg (Clog.egest cfg f) j h)
      (fun t => DescribesTot cfg A t (h.k.valIn v)) := by
  suffices H : ∀ k : Coef4, k.Fits cfg → k.det ≠ 0 → ∀ (x : Clog) (v : K),
      Clog.Tracks cfg A x v → k.denIn v ≠ 0 →
      Ev A (fun f j => Homographic.prime cfg (Clog.egest cfg f) j ⟨x, k⟩)
        (fun t => DescribesTot cfg A t (k.valIn v)) from H h.k hF hdet h.x v hx hD
  refine Coef4.ing_induction ?_
  intro k hF hdet ih x v hx hD
  obtain ⟨M, hb⟩ := k.exists_bounded
  refine Ev.succ ?_
  simp only [Homographic.prime]
  refine Ev.bind_sat ((Coef4.primerAttempt_sat (hs M) hb).and_maybe
    (Coef4.primerAttempt_fits hc hF)) ?_
  rintro (_ | ⟨p, k'⟩) ⟨hr, hf⟩
  · refine Ev.bind (primeIngest_ev_in hs (h := ⟨x, k⟩) hx hD hF) ?_
    rintro ⟨o, h'⟩ (⟨⟨t1, t2, t3⟩, rfl, ht⟩ | ⟨rfl, v', h1, h2, h3, h4⟩)
    · exact Ev.pure ht
    · simp only at h1 h2 h3 h4 ⊢
      rw [← h4.val]
      exact ih h'.k h2 h3 h'.x v' h1 fun e => hD (h4.den.1 e)
  · obtain ⟨hr, _⟩ := hr p k' rfl
    refine Ev.pure (.inr (.inr ⟨p, _, _, rfl, ⟨v, hx, ⟨hr.inv, fun hz => ?_⟩, hf p k' rfl,
      hr.rel.det_ne hdet, rfl⟩, hr.rel.valIn v⟩))
    obtain ⟨z1, z2⟩ := hr.zero hz
    apply hD
    simp [Coef4.denIn, z1, z2]

theorem asRatio_sat_in {cfg : Cfg} {A : Panic → Prop} (hs : ∀ M, cfg.SafeUpTo A M)
    {n d : Int} {w : K} (hd : d ≠ 0)
    (hn : cfg.Fits n) (hdf : cfg.Fits d) (hw : w = (n : K) / d) :
    Sat A (asRatio cfg n d) (fun t => DescribesTot cfg A t w) := by
  unfold asRatio
  have safe : ∀ z : Int, cfg.Safe A z := fun z => (hs |z|).1 z (by have := abs_nonneg z; omega)
  refine Sat.bind (Ratio.newI_sat hd hn hdf (safe _) (safe _)) ?_
  rintro ⟨s, p, r⟩ ht
  refine Sat.pure ?_
  have := ht.homographicTot (K := K) (A := A)
  rw [hw]
  push_cast at this
  exact this

theorem absorbPrimer_fits {cfg : Cfg} (hc : cfg.overflowChecks = true) {p : Option Primer}
    {k : Coef4} (hk : k.Fits cfg) :
    Maybe AnyPanic (absorbPrimer cfg p k) (fun k' => k'.Fits cfg) := by
  obtain ⟨h1, h2, h3, h4⟩ := hk
  unfold absorbPrimer
  rcases p with _ | p
  · exact Maybe.pure ⟨h1, h2, h3, h4⟩
  · cases p
    · exact Maybe.pure ⟨h2, h1, h4, h3⟩
    · refine Maybe.bind (cfg.unchecked_maybe hc _) fun n hn => ?_
      refine Maybe.bind (cfg.unchecked_maybe hc _) fun d hd => ?_
      exact Maybe.pure ⟨hn, h2, hd, h4⟩
    · refine Maybe.bind (cfg.unchecked_maybe hc _) fun n hn => ?_
      refine Maybe.bind (cfg.unchecked_maybe hc _) fun d hd => ?_
      exact Maybe.pure ⟨h2, hn, h4, hd⟩

theorem absorbed_det {k k' : Coef4} {p : Option Primer}
    (h : (p = none ∧ k' = k) ∨ (p = some .Turn ∧ k' = ⟨k.n, k.nx, k.d, k.dx⟩) ∨
      (p = some .Reflect ∧ k' = ⟨-k.nx, k.n, -k.dx, k.d⟩) ∨
      (p = some .Ground ∧ k' = ⟨k.n, -k.nx, k.d, -k.dx⟩)) (hk : k.det ≠ 0) : k'.det ≠ 0 := by
  unfold Coef4.det at hk ⊢
  rcases h with ⟨_, rfl⟩ | ⟨_, rfl⟩ | ⟨_, rfl⟩ | ⟨_, rfl⟩ <;>
    (intro e; apply hk; (try simp only at e); first | linear_combination e | linear_combination -e)

/-- Away from poles, `homographic::new` gives the value of the map. -/
theorem new_ev_in {cfg : Cfg} {A : Panic → Prop} (hc : cfg.overflowChecks = true)
    (hs : ∀ M, cfg.SafeUpTo A M)
    {x : Number} {q : K} {nx n dx d : Int} (hx : Number.Tracks cfg A x q)
    (f1 : cfg.Fits nx) (f2 : cfg.Fits n) (f3 : cfg.Fits dx) (f4 : cfg.Fits d)
    (hD : (dx : K) * q + d ≠ 0) 
    (hdet : nx * d - n * dx ≠ 0) :
    Ev A (fun f j => Homographic.new cfg (Clog.egest cfg f) j x nx n dx d)
      (fun t => DescribesTot cfg A t ((nx * q + n) / (dx * q + d))) := by
  have safe : ∀ z : Int, cfg.Safe A z := fun z => (hs |z|).1 z (by have := abs_nonneg z; omega)
  unfold Homographic.new
  by_cases h0 : nx = 0 ∧ dx = 0
  · simp only [if_pos h0]
    obtain ⟨rfl, rfl⟩ := h0
    exact Ev.of_sat (asRatio_sat_in hs (by rintro rfl; simp at hD) f2 f4 (by simp))
  simp only [if_neg h0]
  cases x with
  | Special s =>
    obtain rfl : q = specialIn K s := hx
    cases s
    · refine Ev.bind_sat (Cfg.csub_sat (safe _)) ?_
      rintro _ ⟨rfl, g1⟩
      refine Ev.bind_sat (Cfg.csub_sat (safe _)) ?_
      rintro _ ⟨rfl, g2⟩
      simp only [specialIn] at hD ⊢
      refine Ev.of_sat (asRatio_sat_in hs ?_ g1 g2 ?_)
      · intro h
        apply hD
        have : (d : K) - dx = 0 := by exact_mod_cast h
        linarith
      · push_cast
        rw [show (nx : K) * -1 + n = n - nx by ring, show (dx : K) * -1 + d = d - dx by ring]
    · simp only [specialIn] at hD ⊢
      exact Ev.of_sat (asRatio_sat_in hs (by rintro rfl; simp at hD) f2 f4 (by simp))
    · refine Ev.bind_sat (Cfg.cadd_sat (safe _)) ?_
      rintro _ ⟨rfl, g1⟩
      refine Ev.bind_sat (Cfg.cadd_sat (safe _)) ?_
      rintro _ ⟨rfl, g2⟩
      simp only [specialIn] at hD ⊢
      refine Ev.of_sat (asRatio_sat_in hs ?_ g1 g2 ?_)
      · intro h
        apply hD
        have : (d : K) + dx = 0 := by exact_mod_cast h
        linarith
      · push_cast
        rw [show (nx : K) * 1 + n = n + nx by ring, show (dx : K) * 1 + d = d + dx by ring]
  | Other p c =>
    obtain ⟨v, hv, rfl⟩ := hx
    refine Ev.bind_sat ((absorbPrimer_sat (safe _) (safe _)).and_maybe
      (absorbPrimer_fits hc (k := ⟨nx, n, dx, d⟩) ⟨f1, f2, f3, f4⟩)) ?_
    rintro k' ⟨hk, hf⟩
    have hsame := absorbedIn hv.1 hk
    have := prime_ev_in hc hs (h := ⟨c, k'⟩) hv (fun e => hD (hsame.den.1 e)) hf
      (absorbed_det hk hdet)
    rw [hsame.val] at this
    exact this

/-- What a description says about the number made from it. -/
theorem DescribesTot.tracks {cfg : Cfg} {A : Panic → Prop} (hs : ∀ M, cfg.SafeUpTo A M)
    {t : Homographic.Primed} {q : K} (h : DescribesTot cfg A t q) :
    (∃ s, t = (some s, none, none, none) ∧ q = specialIn K s) ∨
    (∃ p r x, t = (none, p, some r, none) ∧ Clog.Tracks cfg A (.ratio r) x ∧ q = primerIn p x) ∨
    (∃ p h x, t = (none, p, none, some h) ∧ Clog.Tracks cfg A h.box x ∧ q = primerIn p x) := by
  rcases h with h | ⟨p, r, e, hr, hq⟩ | ⟨p, h, w, e, hh, hq⟩
  · exact .inl h
  · exact .inr (.inl ⟨p, r, _, e, (Ratio.denotes hr).tracks, hq⟩)
  · exact .inr (.inr ⟨p, h, w, e, hh.tracks hs, hq⟩)

end Homographic

/-! ## `Number::homographic` -/

theorem Number.homographic_ends_in {cfg : Cfg} {A : Panic → Prop} (hc : cfg.overflowChecks = true)
    (hs : ∀ M, cfg.SafeUpTo A M)
    {x : Number} {q : K} {nx n dx d : Int} (hx : Number.Tracks cfg A x q)
    (f1 : cfg.Fits nx) (f2 : cfg.Fits n) (f3 : cfg.Fits dx) (f4 : cfg.Fits d)
    (hD : (dx : K) * q + d ≠ 0) (hdet : nx * d - n * dx ≠ 0) :
    Ends A (fun f => Number.homographic cfg f x nx n dx d)
      (fun t => Number.Tracks cfg A t ((nx * q + n) / (dx * q + d))) := by
  unfold Number.homographic
  refine Ends.bind (Homographic.new_ev_in hc hs hx f1 f2 f3 f4 hD hdet).ends ?_
  intro t ht
  rcases ht.tracks hs with ⟨s, rfl, hq⟩ | ⟨p, r, w, rfl, hr, hq⟩ | ⟨p, h, w, rfl, hh, hq⟩
  · exact Ends.of_sat (Sat.pure hq)
  · exact Ends.of_sat (Sat.pure ⟨w, hr, hq⟩)
  · exact Ends.of_sat (Sat.pure ⟨w, hh, hq⟩)

end

end Clarith
