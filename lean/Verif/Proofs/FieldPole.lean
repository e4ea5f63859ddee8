import Verif.Proofs.FieldCombine

/-! # Poles, in any ordered field -/

namespace Clarith

open Out Spec

variable {K : Type*} [Field K] [LinearOrder K] [IsStrictOrderedRing K]

namespace Homographic

/-- A decided primer at a pole means that the denominator is identically zero. -/
theorem primed_pole {v : K} {k k' : Coef4} {p} (h0 : 0 < v) (h1 : v < 1) (hz : k.denIn v = 0)
    (h : Coef4.Primed k p k' ∧ Coef4.Amen k.d (k.d + k.dx)) :
    k.d = 0 ∧ k.dx = 0 ∧ (p = some .Turn ∨ p = some .Ground) ∧ k'.InvW ∧ k'.n = 0 ∧ k'.nx = 0 := by
  obtain ⟨hp, ham⟩ := h
  have hd : k.d = 0 ∧ k.d + k.dx = 0 := by
    by_contra hne
    rcases (show (0 ≤ k.d ∧ 0 ≤ k.d + k.dx) ∨ (0 ≤ -k.d ∧ 0 ≤ -k.d + -k.dx) by
      unfold Coef4.Amen at ham; omega) with h | h
    · have := Coef4.lin_pos_in h0 h1 h.1 h.2 hne
      unfold Coef4.denIn at hz; linarith
    · have := Coef4.lin_pos_in (a := -k.dx) (b := -k.d) h0 h1 h.1 h.2 (by omega)
      unfold Coef4.denIn at hz; push_cast at this; linarith
  have hi := hp.inv
  refine ⟨hd.1, by omega, ?_, hi, ?_, ?_⟩
  · rcases hp.rel with ⟨rfl, _⟩ | ⟨rfl, _⟩ | ⟨rfl, rfl⟩ | ⟨rfl, rfl⟩
    · exact .inr rfl
    · exact .inl rfl
    · exfalso; unfold Coef4.InvW Coef4.PosW Coef4.opp at hi; simp only at hi; omega
    · exfalso; unfold Coef4.InvW Coef4.PosW Coef4.opp at hi; simp only at hi; omega
  · rcases hp.rel with ⟨rfl, rfl⟩ | ⟨rfl, rfl⟩ | ⟨rfl, rfl⟩ | ⟨rfl, rfl⟩ <;> (try simp only)
    · omega
    · omega
    · exfalso; unfold Coef4.InvW Coef4.PosW Coef4.opp at hi; simp only at hi; omega
    · exfalso; unfold Coef4.InvW Coef4.PosW Coef4.opp at hi; simp only at hi; omega
  · rcases hp.rel with ⟨rfl, rfl⟩ | ⟨rfl, rfl⟩ | ⟨rfl, rfl⟩ | ⟨rfl, rfl⟩ <;> (try simp only)
    · omega
    · omega
    · exfalso; unfold Coef4.InvW Coef4.PosW Coef4.opp at hi; simp only at hi; omega
    · exfalso; unfold Coef4.InvW Coef4.PosW Coef4.opp at hi; simp only at hi; omega

theorem primeIngest_pole_maybe {cfg : Cfg} {A : Panic → Prop} (hA : A .divisionByZero)
    (hs : ∀ M, cfg.SafeUpTo A M) {h : Homographic} {v : K} (hx : Clog.Follows cfg A h.x v)
    (hD : h.k.denIn v = 0) (f : Nat) :
    Maybe A (primeIngest cfg (Clog.egest cfg f) h) (fun r =>
      r.1 = none ∧ ∃ v' : K, Clog.Follows cfg A r.2.x v' ∧ Coef4.SameIn h.k v r.2.k v' ∧
        (r.2.k.d = 0 → r.2.k.dx = 0 → h.k.d = 0 ∧ h.k.dx = 0)) := by
  obtain ⟨M, hb⟩ := h.k.exists_bounded
  unfold primeIngest
  refine Maybe.bind (hx.step f) ?_
  rintro ⟨r, x⟩ ⟨hr, hx'⟩
  simp only at hr hx'
  subst hr
  rcases lt_trichotomy v (1 / 2) with hv | rfl | hv
  · rw [symIn_lt hv]
    rw [nextIn_lt hv] at hx'
    refine Maybe.bind_sat (Coef4.ingestAmplify_sat (hs M) hb) ?_
    intro k' hk
    refine Maybe.pure ⟨rfl, _, hx', Coef4.same_ingestAmplify hk, ?_⟩
    obtain ⟨c, hc, _, _, e1, e2⟩ := hk
    simp only
    rintro z1 z2
    rw [z1] at e1; rw [z2] at e2
    constructor <;> omega
  · rw [symIn_half]
    refine Maybe.bind_sat (Coef4.valueAtOneHalf_sat (hs M) hb) ?_
    rintro ⟨a, b⟩ ⟨hc, f1, f2, g1, g2, g3, g4⟩
    simp only at f1 f2 g1 g2 g3 g4 hc ⊢
    have hb0 : b = 0 := by
      obtain ⟨c, hc', _, hc⟩ := hc
      have : (h.k.dx : K) + 2 * h.k.d = 0 := by
        unfold Coef4.denIn at hD; linarith
      have : h.k.dx + 2 * h.k.d = 0 := by exact_mod_cast this
      rw [this] at hc
      rcases hc' with rfl | rfl <;> omega
    subst hb0
    refine Maybe.bind_sat (Ratio.newI_zero f1 ((hs M).lin (by omega) (by omega)) hA) ?_
    exact fun _ h => h.elim
  · rw [symIn_gt hv]
    rw [nextIn_gt hv] at hx'
    refine Maybe.bind_sat (Coef4.ingestUncover_sat (hs M) hb) ?_
    rintro _ rfl
    refine Maybe.pure ⟨rfl, _, hx', Coef4.same_ingestUncover hx.1.ne', ?_⟩
    simp only
    rintro z1 z2
    constructor <;> omega

theorem prime_pole_maybe {cfg : Cfg} {A B : Panic → Prop} (hA : A .divisionByZero)
    (hs : ∀ M, cfg.SafeUpTo A M) (hB : ∀ M, cfg.SafeUpTo B M) (f j : Nat) :
    ∀ {h : Homographic} {v : K}, Clog.Follows cfg A h.x v → h.k.denIn v = 0 →
    Maybe A (Homographic.prime cfg (Clog.egest cfg f) j h)
      (fun t => h.k.d = 0 ∧ h.k.dx = 0 ∧ ∃ p h', t = (none, p, none, some h') ∧
        (p = some .Turn ∨ p = some .Ground) ∧ Clog.AmplifiesForever cfg B h'.box) := by
  induction j with
  | zero => intros; trivial
  | succ j ih =>
    intro h v hx hD
    obtain ⟨M, hb⟩ := h.k.exists_bounded
    simp only [Homographic.prime]
    refine Maybe.bind_sat (Coef4.primerAttempt_sat (hs M) hb) ?_
    rintro (_ | ⟨p, k'⟩) hr
    · refine Maybe.bind (primeIngest_pole_maybe hA hs hx hD f) ?_
      rintro ⟨o, h'⟩ ⟨rfl, v', h1, h2, h3⟩
      simp only at h1 h2 h3 ⊢
      refine (ih h1 (h2.den.2 hD)).mono ?_
      rintro t ⟨z1, z2, ht⟩
      obtain ⟨z3, z4⟩ := h3 z1 z2
      exact ⟨z3, z4, ht⟩
    · obtain ⟨z1, z2, hp, i1, i2, i3⟩ := primed_pole hx.1 hx.2.1 hD (hr p k' rfl)
      obtain ⟨M', hb'⟩ := k'.exists_bounded
      exact Maybe.pure ⟨z1, z2, p, _, rfl, hp,
        fun m => Homographic.amplifies (hB M') m hb' i1 i2 i3⟩

theorem asRatio_zero_maybe {cfg : Cfg} {A : Panic → Prop} {n : Int} {P}
    (hn : cfg.Fits n) (hn' : cfg.Safe A (-n)) (hA : A .divisionByZero) :
    Maybe A (asRatio cfg n 0) P := by
  unfold asRatio
  refine Maybe.bind_sat (Ratio.newI_zero hn hn' hA) ?_
  exact fun _ h => h.elim

theorem new_pole_maybe {cfg : Cfg} {A B : Panic → Prop} (hA : A .divisionByZero)
    (hs : ∀ M, cfg.SafeUpTo A M) (hB : ∀ M, cfg.SafeUpTo B M) {x : Number} {q : K} {nx n dx d : Int}
    (hx : Number.Follows cfg A x q) (f2 : cfg.Fits n)
    (hD : (dx : K) * q + d = 0) (f j : Nat) :
    Maybe A (Homographic.new cfg (Clog.egest cfg f) j x nx n dx d)
      (fun t => d = 0 ∧ dx = 0 ∧ ∃ p h', t = (none, p, none, some h') ∧
        (p = some .Turn ∨ p = some .Ground) ∧ Clog.AmplifiesForever cfg B h'.box) := by
  have safe : ∀ z : Int, cfg.Safe A z := fun z => (hs |z|).1 z (by have := abs_nonneg z; omega)
  unfold Homographic.new
  by_cases h0 : nx = 0 ∧ dx = 0
  · simp only [if_pos h0]
    obtain ⟨rfl, rfl⟩ := h0
    have : d = 0 := by simpa using hD
    subst this
    exact asRatio_zero_maybe f2 (safe _) hA
  simp only [if_neg h0]
  cases x with
  | Special s =>
    obtain rfl : q = specialIn K s := hx
    cases s
    · refine Maybe.bind_sat (Cfg.csub_sat (safe _)) ?_
      rintro _ ⟨rfl, g1⟩
      refine Maybe.bind_sat (Cfg.csub_sat (safe _)) ?_
      rintro _ ⟨rfl, g2⟩
      simp only [specialIn] at hD
      have hne : d - dx = 0 := by
        have : (d : K) - dx = 0 := by linarith
        exact_mod_cast this
      rw [hne]
      exact asRatio_zero_maybe g1 (safe _) hA
    · simp only [specialIn] at hD
      have : d = 0 := by simpa using hD
      subst this
      exact asRatio_zero_maybe f2 (safe _) hA
    · refine Maybe.bind_sat (Cfg.cadd_sat (safe _)) ?_
      rintro _ ⟨rfl, g1⟩
      refine Maybe.bind_sat (Cfg.cadd_sat (safe _)) ?_
      rintro _ ⟨rfl, g2⟩
      simp only [specialIn] at hD
      have hne : d + dx = 0 := by
        have : (d : K) + dx = 0 := by linarith
        exact_mod_cast this
      rw [hne]
      exact asRatio_zero_maybe g1 (safe _) hA
  | Other p c =>
    obtain ⟨v, hv, rfl⟩ := hx
    refine Maybe.bind_sat (absorbPrimer_sat (safe _) (safe _)) ?_
    intro k' hk
    refine (prime_pole_maybe hA hs hB f j (h := ⟨c, k'⟩) hv
      ((absorbedIn hv.1 hk).den.2 hD)).mono ?_
    rintro t ⟨z1, z2, ht⟩
    have hz : d = 0 ∧ dx = 0 := by
      rcases hk with ⟨_, rfl⟩ | ⟨_, rfl⟩ | ⟨_, rfl⟩ | ⟨_, rfl⟩ <;> simp only at z1 z2 <;> omega
    exact ⟨hz.1, hz.2, ht⟩

end Homographic

namespace Combine

theorem primeIngest_pole_maybe {cfg : Cfg} {A B : Panic → Prop} (hA : A .divisionByZero)
    (hs : ∀ M, cfg.SafeUpTo A M) (hB : ∀ M, cfg.SafeUpTo B M)
    {u v : K} {s : Combine} (hx : Clog.Follows cfg A s.x u) (hy : Clog.Follows cfg A s.y v)
    (hD : s.k.denIn u v = 0) (f j : Nat) :
    Maybe A (primeIngest cfg (Clog.egest cfg f) j s) (fun r =>
      (∃ t, r = .inl t ∧ Amplifying cfg B t) ∨
      (∃ s', r = .inr s' ∧ ∃ u' v' : K, Clog.Follows cfg A s'.x u' ∧ Clog.Follows cfg A s'.y v' ∧
        s'.k.denIn u' v' = 0)) := by
  obtain ⟨M, hb⟩ := s.k.exists_bounded
  have hH : ∀ {c : Clog} {w : K} {k : Coef4}, Clog.Follows cfg A c w → k.Fits cfg →
      k.denIn w = 0 →
      Maybe A (Homographic.new cfg (Clog.egest cfg f) j (.Other none c) k.nx k.n k.dx k.d)
        (Amplifying cfg B) := by
    intro c w k hc hf hD
    exact (Homographic.new_pole_maybe (x := .Other none c) (q := w) hA hs hB ⟨w, hc, rfl⟩ hf.2.1 hD
      f j).mono fun t ht => ht.2.2
  unfold primeIngest
  refine Maybe.bind (hx.step f) ?_
  rintro ⟨r, x⟩ ⟨hr, hx'⟩
  simp only at hr hx'
  cases r with
  | none =>
    have hu : u = 1 / 2 := symIn_none hr.symm
    subst hu
    refine Maybe.bind_sat (Coef8.valueAtEndOfX_sat (hs M) hb) ?_
    rintro k' ⟨he, hf⟩
    refine Maybe.bind (hH hy hf ((he.sameIn v).den.2 hD)) ?_
    intro t ht
    exact Maybe.pure (.inl ⟨t, rfl, ht⟩)
  | some a =>
    refine Maybe.bind_sat (Coef8.ingestX_sat a (hs M) hb) ?_
    intro k1 hk1
    have hb1 := hk1.bounded hb
    have hv1 := hk1.sameIn (v := v) hr.symm
    refine Maybe.bind (hy.step f) ?_
    rintro ⟨r, y⟩ ⟨hr', hy'⟩
    simp only at hr' hy'
    cases r with
    | none =>
      have hv : v = 1 / 2 := symIn_none hr'.symm
      subst hv
      refine Maybe.bind_sat (Coef8.valueAtEndOfY_sat (hs _) hb1) ?_
      rintro k' ⟨he, hf⟩
      refine Maybe.bind (hH hx' hf ((he.sameIn (nextIn u)).den.2 (hv1.den.2 hD))) ?_
      intro t ht
      exact Maybe.pure (.inl ⟨t, rfl, ht⟩)
    | some b =>
      refine Maybe.bind_sat (Coef8.ingestY_sat b (hs _) hb1) ?_
      intro k2 hk2
      have hv2 := hk2.sameIn (u := nextIn u) hr'.symm
      exact Maybe.pure (.inr ⟨_, rfl, _, _, hx', hy', hv2.den.2 (hv1.den.2 hD)⟩)

theorem prime_pole_maybe {cfg : Cfg} {A B : Panic → Prop} (hA : A .divisionByZero)
    (hs : ∀ M, cfg.SafeUpTo A M) (hB : ∀ M, cfg.SafeUpTo B M) (f j : Nat) :
    ∀ {u v : K} {s : Combine}, Clog.Follows cfg A s.x u → Clog.Follows cfg A s.y v →
    s.k.denIn u v = 0 →
    Maybe A (Combine.prime cfg (Clog.egest cfg f) j s)
      (fun t => ∃ t', Amplifying cfg B t' ∧ t = (t'.1, t'.2.1, t'.2.2.1, t'.2.2.2, none)) := by
  induction j with
  | zero => intros; trivial
  | succ j ih =>
    intro u v s hx hy hD
    obtain ⟨M, hb⟩ := s.k.exists_bounded
    simp only [Combine.prime]
    refine Maybe.bind_sat (Coef8.primerAttempt_sat (hs M) hb) ?_
    rintro (_ | ⟨p, k'⟩) hr
    · refine Maybe.bind (primeIngest_pole_maybe hA hs hB hx hy hD f j) ?_
      rintro r (⟨⟨t1, t2, t3, t4⟩, rfl, ht⟩ | ⟨s', rfl, u', v', g1, g2, g3⟩)
      · exact Maybe.pure ⟨_, ht, rfl⟩
      · exact ih g1 g2 g3
    · exact absurd hD ((hr p k' rfl).2.2.ne_in hx.1 hx.2.1 hy.1 hy.2.1)

theorem new_pole_maybe {cfg : Cfg} {A B : Panic → Prop} (hA : A .divisionByZero)
    (hs : ∀ M, cfg.SafeUpTo A M) (hB : ∀ M, cfg.SafeUpTo B M) {x y : Number} {q r : K} {k : Coef8}
    (hx : Number.Follows cfg A x q) (hy : Number.Follows cfg A y r) (hf : k.Fits cfg)
    (hD : k.denIn q r = 0) (f j : Nat) :
    Maybe A (Combine.new cfg (Clog.egest cfg f) j x y k)
      (fun t => ∃ t', Amplifying cfg B t' ∧ t = (t'.1, t'.2.1, t'.2.2.1, t'.2.2.2, none)) := by
  refine new_any_maybe hs hx hy hf f j ?_ ?_
  · intro z t nx n dx d hz f1 f2 f3 f4 e1 e2
    unfold asHomographic
    refine Maybe.bind (Homographic.new_pole_maybe hA hs hB hz f2 (by rw [e2]; exact hD) f j) ?_
    rintro ⟨t1, t2, t3, t4⟩ ⟨_, _, ht⟩
    exact Maybe.pure ⟨_, ht, rfl⟩
  · intro u v s hx hy hsame
    exact prime_pole_maybe hA hs hB f j hx hy (hsame.den.2 hD)

end Combine

theorem Number.homographic_pole_maybe {cfg : Cfg} {A B : Panic → Prop} (hA : A .divisionByZero)
    (hs : ∀ M, cfg.SafeUpTo A M) (hB : ∀ M, cfg.SafeUpTo B M) {x : Number} {q : K} {nx n dx d : Int}
    (hx : Number.Follows cfg A x q) (f2 : cfg.Fits n) (hD : (dx : K) * q + d = 0) :
    May A (fun f => Number.homographic cfg f x nx n dx d)
      (fun r => d = 0 ∧ dx = 0 ∧ ∃ p c, r = .Other p c ∧ (p = some .Turn ∨ p = some .Ground) ∧
        Clog.AmplifiesForever cfg B c) := by
  refine may_iff.2 fun f => ?_
  unfold Number.homographic
  refine Maybe.bind (Homographic.new_pole_maybe hA hs hB hx f2 hD f f) ?_
  rintro t ⟨z1, z2, p, h, rfl, hp, ha⟩
  exact Maybe.pure ⟨z1, z2, p, _, rfl, hp, ha⟩

theorem Number.combine_pole_maybe {cfg : Cfg} {A B : Panic → Prop} (hA : A .divisionByZero)
    (hs : ∀ M, cfg.SafeUpTo A M) (hB : ∀ M, cfg.SafeUpTo B M) {x y : Number} {q r : K} {a b c d e f' g h : Int}
    (hx : Number.Follows cfg A x q) (hy : Number.Follows cfg A y r)
    (hf : (⟨a, b, c, d, e, f', g, h⟩ : Coef8).Fits cfg)
    (hD : (e : K) * q * r + f' * q + g * r + h = 0) :
    May A (fun f => Number.combine cfg f x y a b c d e f' g h)
      (fun t => ∃ p c, t = .Other p c ∧ (p = some .Turn ∨ p = some .Ground) ∧
        Clog.AmplifiesForever cfg B c) := by
  refine may_iff.2 fun f => ?_
  unfold Number.combine
  refine Maybe.bind (Combine.new_pole_maybe hA hs hB hx hy hf hD f f) ?_
  rintro t ⟨t', ⟨p, h', rfl, hp, ha⟩, rfl⟩
  exact Maybe.pure ⟨p, _, rfl, hp, ha⟩

end Clarith
