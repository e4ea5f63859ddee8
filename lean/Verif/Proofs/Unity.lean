import Verif.Proofs.HomographicNew
import Verif.Proofs.Wider

/-! # Maps whose coefficients stay small

`homographic` with the identity, negation, doubling, halving or reciprocal map.  Each step on a
particular state is run on a 16 bit machine with overflow checks, where it does not overflow;
so it is the same on every machine. -/

namespace Clarith

open Out Spec

/-- The narrowest machine, with overflow checks. -/
def narrowest : Cfg := ⟨16, le_rfl, true⟩

theorem narrowest_wider (cfg : Cfg) : narrowest.Wider cfg := ⟨cfg.hbits, rfl⟩

theorem Out.Widens.ok {α : Type} {a b : Out α} {x : α} (h : Widens a b) (e : a = .ok x) :
    b = .ok x := by
  rcases h with ⟨p, _, rfl⟩ | rfl
  · cases e
  · exact e

theorem Out.Sat.of_eq {α : Type} {A : Panic → Prop} {o : Out α} {x : α} (h : o = .ok x) :
    Sat A o (fun y => y = x) := by
  subst h; exact Sat.ok rfl

theorem ratio_half_ok (cfg : Cfg) : (⟨1, 2⟩ : Ratio).OK cfg := by
  have h : (2 : Nat) ^ 15 ≤ 2 ^ (cfg.bits - 1) :=
    Nat.pow_le_pow_right (by norm_num) (by have := cfg.hbits; omega)
  have h' : (2 : Nat) ^ 16 ≤ 2 ^ cfg.bits := Nat.pow_le_pow_right (by norm_num) cfg.hbits
  refine ⟨by norm_num, by norm_num, ?_⟩
  simp only [Cfg.umax]
  omega

variable {cfg : Cfg} {A : Panic → Prop}

/-! ## The state of the identity -/

/-- The two states of the identity. -/
def Coef4.Identity (k : Coef4) : Prop := k = ⟨1, 0, 0, 1⟩ ∨ k = ⟨-1, 0, 0, -1⟩

theorem Coef4.reductionAttempt_ok {k : Coef4} {r} (h : k.reductionAttempt narrowest = .ok r) :
    k.reductionAttempt cfg = .ok r := (reductionAttempt_widens (narrowest_wider cfg) k).ok h

theorem Coef4.primerAttempt_ok {k : Coef4} {r} (h : k.primerAttempt narrowest = .ok r) :
    k.primerAttempt cfg = .ok r := (primerAttempt_widens (narrowest_wider cfg) k).ok h

theorem Coef4.ingestAmplify_ok {k k' : Coef4} (h : k.ingestAmplify narrowest = .ok k') :
    k.ingestAmplify cfg = .ok k' := (ingestAmplify_widens (narrowest_wider cfg) k).ok h

theorem Coef4.ingestUncover_ok {k k' : Coef4} (h : k.ingestUncover narrowest = .ok k') :
    k.ingestUncover cfg = .ok k' := (ingestUncover_widens (narrowest_wider cfg) k).ok h

theorem Coef4.valueAtOneHalf_ok {k : Coef4} {r} (h : k.valueAtOneHalf narrowest = .ok r) :
    k.valueAtOneHalf cfg = .ok r := (valueAtOneHalf_widens (narrowest_wider cfg) k).ok h

theorem Ratio.newI_ok {n d : Int} {r} (hn : narrowest.Fits n) (hd : narrowest.Fits d)
    (h : Ratio.newI narrowest n d = .ok r) : Ratio.newI cfg n d = .ok r :=
  (newI_widens (narrowest_wider cfg) hn hd).ok h

/-- What one call answers in the state of the identity. -/
theorem Homographic.egest_identity {c : Clog} {x : ℚ} {k : Coef4} (hd : Clog.Denotes cfg A c x)
    (hk : k.Identity) :
    Ev A (fun f j => Homographic.egest cfg (Clog.egest cfg f) j ⟨c, k⟩)
      (fun r => (∃ c' k', r = (.ok (sym x), ⟨c', k'⟩) ∧ Clog.Denotes cfg A c' (next x) ∧
          k'.Identity) ∨ (x = 1 / 2 ∧ r.1 = .err (.ratio ⟨1, 2⟩))) := by
  have a1 : k.reductionAttempt cfg = .ok none :=
    Coef4.reductionAttempt_ok (by rcases hk with rfl | rfl <;> decide)
  refine Ev.succ ?_
  simp only [Homographic.egest, a1, ok_bind, Homographic.reductionIngest]
  rcases lt_trichotomy x (1 / 2) with h | h | h
  · refine Ev.bind (Q := fun r => r.1 = none ∧ Clog.Denotes cfg A r.2.x (2 * x) ∧
      ∃ k', k'.Identity ∧ r.2.k.reductionAttempt cfg = .ok (some (some .Amplify, k'))) ?_ ?_
    · refine Ev.bind hd.ev ?_
      rintro ⟨r, c'⟩ ⟨hr, hc⟩
      rw [sym_lt h] at hr
      rw [next_lt h] at hc
      simp only at hr
      subst hr
      rcases hk with rfl | rfl
      · refine Ev.bind_sat (Sat.of_eq (Coef4.ingestAmplify_ok (k' := ⟨1, 0, 0, 2⟩) (by decide))) ?_
        rintro _ rfl
        exact Ev.pure ⟨rfl, hc, ⟨1, 0, 0, 1⟩, .inl rfl,
          Coef4.reductionAttempt_ok (k := ⟨1, 0, 0, 2⟩) (by decide)⟩
      · refine Ev.bind_sat (Sat.of_eq (Coef4.ingestAmplify_ok (k' := ⟨-1, 0, 0, -2⟩) (by decide))) ?_
        rintro _ rfl
        exact Ev.pure ⟨rfl, hc, ⟨-1, 0, 0, -1⟩, .inr rfl,
          Coef4.reductionAttempt_ok (k := ⟨-1, 0, 0, -2⟩) (by decide)⟩
    · rintro ⟨o, c', k1⟩ ⟨rfl, hc, k', hk', e⟩
      refine Ev.succ ?_
      simp only at e
      simp only [Homographic.egest, e, ok_bind]
      exact Ev.pure (.inl ⟨c', k', by rw [sym_lt h], by rwa [next_lt h], hk'⟩)
  · refine Ev.bind (Q := fun r => r.1 = some ⟨1, 2⟩) ?_ ?_
    · refine Ev.bind hd.ev ?_
      rintro ⟨r, c'⟩ ⟨hr, -⟩
      rw [h, sym_half] at hr
      simp only at hr
      subst hr
      rcases hk with rfl | rfl
      · refine Ev.bind_sat (Sat.of_eq (Coef4.valueAtOneHalf_ok (r := (1, 2)) (by decide))) ?_
        rintro _ rfl
        refine Ev.bind_sat (Sat.of_eq (Ratio.newI_ok (r := (none, none, some ⟨1, 2⟩))
          (by decide) (by decide) (by decide))) ?_
        rintro _ rfl
        exact Ev.pure rfl
      · refine Ev.bind_sat (Sat.of_eq (Coef4.valueAtOneHalf_ok (r := (-1, -2)) (by decide))) ?_
        rintro _ rfl
        refine Ev.bind_sat (Sat.of_eq (Ratio.newI_ok (r := (none, none, some ⟨1, 2⟩))
          (by decide) (by decide) (by decide))) ?_
        rintro _ rfl
        exact Ev.pure rfl
    · rintro ⟨o, h'⟩ rfl
      exact Ev.pure (.inr ⟨h, rfl⟩)
  · refine Ev.bind (Q := fun r => r.1 = none ∧ Clog.Denotes cfg A r.2.x (1 / x - 1) ∧
      ∃ k', k'.Identity ∧ r.2.k.reductionAttempt cfg = .ok (some (some .Uncover, k'))) ?_ ?_
    · refine Ev.bind hd.ev ?_
      rintro ⟨r, c'⟩ ⟨hr, hc⟩
      rw [sym_gt h] at hr
      rw [next_gt h] at hc
      simp only at hr
      subst hr
      rcases hk with rfl | rfl
      · refine Ev.bind_sat (Sat.of_eq (Coef4.ingestUncover_ok (k' := ⟨0, 1, 1, 1⟩) (by decide))) ?_
        rintro _ rfl
        exact Ev.pure ⟨rfl, hc, ⟨1, 0, 0, 1⟩, .inl rfl,
          Coef4.reductionAttempt_ok (k := ⟨0, 1, 1, 1⟩) (by decide)⟩
      · refine Ev.bind_sat (Sat.of_eq
          (Coef4.ingestUncover_ok (k' := ⟨0, -1, -1, -1⟩) (by decide))) ?_
        rintro _ rfl
        exact Ev.pure ⟨rfl, hc, ⟨-1, 0, 0, -1⟩, .inr rfl,
          Coef4.reductionAttempt_ok (k := ⟨0, -1, -1, -1⟩) (by decide)⟩
    · rintro ⟨o, c', k1⟩ ⟨rfl, hc, k', hk', e⟩
      refine Ev.succ ?_
      simp only at e
      simp only [Homographic.egest, e, ok_bind]
      exact Ev.pure (.inl ⟨c', k', by rw [sym_gt h], by rwa [next_gt h], hk'⟩)

/-- A strategy in the state of the identity denotes what its input denotes. -/
theorem Clog.Denotes.identity {c : Clog} {x : ℚ} {k : Coef4} (hd : Clog.Denotes cfg A c x)
    (hk : k.Identity) : Clog.Denotes cfg A (Homographic.box ⟨c, k⟩) x := by
  refine Clog.Denotes.coind (fun c x => Clog.Denotes cfg A c x ∨
    ∃ c' k, c = Homographic.box ⟨c', k⟩ ∧ Clog.Denotes cfg A c' x ∧ k.Identity) ?_
    (.inr ⟨c, k, rfl, hd, hk⟩)
  rintro c x (hd | ⟨c, k, rfl, hd, hk⟩)
  · exact ⟨hd.1, hd.2.1, hd.step.mono fun r hr => ⟨hr.1, .inl hr.2⟩⟩
  · refine ⟨hd.1, hd.2.1, ?_⟩
    refine Clog.egest_ends (Q := fun r => (∃ c' k', r = (.ok (sym x), Homographic.box ⟨c', k'⟩) ∧
        Clog.Denotes cfg A c' (next x) ∧ k'.Identity) ∨
      (x = 1 / 2 ∧ r.1 = .err (.ratio ⟨1, 2⟩))) ?_ ?_ ?_
    · simp only [Strategy.egest, Homographic.box]
      refine Ev.bind (Homographic.egest_identity hd hk) ?_
      rintro ⟨e, h'⟩ (⟨c', k', e, h1, h2⟩ | ⟨h1, h2⟩)
      · cases e
        exact Ev.pure (.inl ⟨c', k', rfl, h1, h2⟩)
      · exact Ev.pure (.inr ⟨h1, h2⟩)
    · rintro red s' (⟨c', k', e, h1, h2⟩ | ⟨_, e⟩)
      · cases e
        exact ⟨rfl, .inr ⟨c', k', rfl, h1, h2⟩⟩
      · simp at e
    · rintro new s' (⟨c', k', e, h1, h2⟩ | ⟨h1, e⟩)
      · simp at e
      · simp only [Egested.err.injEq] at e
        subst e
        have := (Ratio.denotes (A := A) (ratio_half_ok cfg)).step
        rw [h1]
        norm_num [Ratio.val] at this ⊢
        exact this.mono fun r hr => ⟨hr.1, .inl hr.2⟩

/-- A state that answers at once, and goes to the state of the identity. -/
theorem Clog.Denotes.to_identity {c : Clog} {x y : ℚ} {k k' : Coef4} {red : Option Reduction}
    (hd : Clog.Denotes cfg A c x) (hk : k'.Identity) (h0 : 0 < y) (h1 : y < 1)
    (e : k.reductionAttempt narrowest = .ok (some (red, k'))) (hs : red = sym y) (hn : x = next y) :
    Clog.Denotes cfg A (Homographic.box ⟨c, k⟩) y := by
  refine Clog.Denotes.coind (fun c' x' => Clog.Denotes cfg A c' x' ∨
    (c' = Homographic.box ⟨c, k⟩ ∧ x' = y)) ?_ (.inr ⟨rfl, rfl⟩)
  rintro c₁ x₁ (hd | ⟨rfl, rfl⟩)
  · exact ⟨hd.1, hd.2.1, hd.step.mono fun r hr => ⟨hr.1, .inl hr.2⟩⟩
  · refine ⟨h0, h1, ?_⟩
    refine Clog.egest_ends (Q := fun r => r = (.ok red, Homographic.box ⟨c, k'⟩)) ?_ ?_ ?_
    · simp only [Strategy.egest, Homographic.box]
      refine Ev.bind (Q := fun r => r = (.ok red, ⟨c, k'⟩)) (Ev.succ ?_) ?_
      · simp only [Homographic.egest, Coef4.reductionAttempt_ok (cfg := cfg) e, ok_bind]
        exact Ev.pure rfl
      · rintro _ rfl
        exact Ev.pure rfl
    · rintro red s' h
      cases h
      exact ⟨hs, .inl (hn ▸ hd.identity hk)⟩
    · rintro new s' h
      cases h

/-! ## The construction -/

namespace Number

variable {c : Clog} {p p' : Option Primer} {nx n dx d : Int} {k k1 k' : Coef4} {v : ℚ}

/-- The primer is found at once. -/
theorem homographic_now (h0 : ¬(nx = 0 ∧ dx = 0))
    (ha : Homographic.absorbPrimer narrowest p ⟨nx, n, dx, d⟩ = .ok k)
    (hp : k.primerAttempt narrowest = .ok (some (p', k'))) :
    Ends A (fun f => Number.homographic cfg f (.Other p c) nx n dx d)
      (fun r => r = .Other p' (Homographic.box ⟨c, k'⟩)) := by
  unfold Number.homographic
  refine Ends.bind (Q := fun t => t = (none, p', none, some ⟨c, k'⟩)) ?_ ?_
  · simp only [Homographic.new, if_neg h0,
      (Homographic.absorbPrimer_widens (narrowest_wider cfg) _ _).ok ha, ok_bind]
    refine Ev.ends (m := fun f j => Homographic.prime cfg (Clog.egest cfg f) j ⟨c, k⟩) (Ev.succ ?_)
    simp only [Homographic.prime, Coef4.primerAttempt_ok (cfg := cfg) hp, ok_bind]
    exact Ev.pure rfl
  · rintro _ rfl
    exact Ends.of_sat (Sat.pure rfl)

/-- The primer is found after one symbol. -/
theorem homographic_next (h0 : ¬(nx = 0 ∧ dx = 0)) (hd : Clog.Denotes cfg A c v)
    (ha : Homographic.absorbPrimer narrowest p ⟨nx, n, dx, d⟩ = .ok k)
    (hp : k.primerAttempt narrowest = .ok none)
    (hi : (sym v = some .Amplify ∧ k.ingestAmplify narrowest = .ok k1) ∨
      (sym v = some .Uncover ∧ k.ingestUncover narrowest = .ok k1))
    (hp1 : k1.primerAttempt narrowest = .ok (some (p', k'))) :
    Ends A (fun f => Number.homographic cfg f (.Other p c) nx n dx d)
      (fun r => ∃ c', r = .Other p' (Homographic.box ⟨c', k'⟩) ∧
        Clog.Denotes cfg A c' (next v)) := by
  unfold Number.homographic
  refine Ends.bind (Q := fun t => ∃ c', t = (none, p', none, some ⟨c', k'⟩) ∧
    Clog.Denotes cfg A c' (next v)) ?_ ?_
  · simp only [Homographic.new, if_neg h0,
      (Homographic.absorbPrimer_widens (narrowest_wider cfg) _ _).ok ha, ok_bind]
    refine Ev.ends (m := fun f j => Homographic.prime cfg (Clog.egest cfg f) j ⟨c, k⟩) (Ev.succ ?_)
    simp only [Homographic.prime, Coef4.primerAttempt_ok (cfg := cfg) hp, ok_bind,
      Homographic.primeIngest]
    refine Ev.bind (Q := fun r => ∃ c', r = (none, ⟨c', k1⟩) ∧ Clog.Denotes cfg A c' (next v)) ?_ ?_
    · refine Ev.bind hd.ev ?_
      rintro ⟨r, c'⟩ ⟨hr, hc⟩
      simp only at hr
      rcases hi with ⟨hv, hi⟩ | ⟨hv, hi⟩
      · rw [hv] at hr
        subst hr
        refine Ev.bind_sat (Sat.of_eq (Coef4.ingestAmplify_ok hi)) ?_
        rintro _ rfl
        exact Ev.pure ⟨c', rfl, hc⟩
      · rw [hv] at hr
        subst hr
        refine Ev.bind_sat (Sat.of_eq (Coef4.ingestUncover_ok hi)) ?_
        rintro _ rfl
        exact Ev.pure ⟨c', rfl, hc⟩
    · rintro _ ⟨c', rfl, hc⟩
      refine Ev.succ ?_
      simp only [Homographic.prime, Coef4.primerAttempt_ok (cfg := cfg) hp1, ok_bind]
      exact Ev.pure ⟨c', rfl, hc⟩
  · rintro _ ⟨c', rfl, hc⟩
    exact Ends.of_sat (Sat.pure ⟨c', rfl, hc⟩)

/-- The input is one half, up to its primer. -/
theorem homographic_half {a b : Int} {s : Option Clarith.Special} {r : Option Ratio}
    (h0 : ¬(nx = 0 ∧ dx = 0)) (hd : Clog.Denotes cfg A c (1 / 2))
    (ha : Homographic.absorbPrimer narrowest p ⟨nx, n, dx, d⟩ = .ok k)
    (hp : k.primerAttempt narrowest = .ok none)
    (hv : k.valueAtOneHalf narrowest = .ok (a, b)) (h1 : narrowest.Fits a) (h2 : narrowest.Fits b)
    (hr : Ratio.newI narrowest a b = .ok (s, p', r)) :
    Ends A (fun f => Homographic.new cfg (Clog.egest cfg f) f (.Other p c) nx n dx d)
      (fun t => t = (s, p', r, none)) := by
  simp only [Homographic.new, if_neg h0,
    (Homographic.absorbPrimer_widens (narrowest_wider cfg) _ _).ok ha, ok_bind]
  refine Ev.ends (m := fun f j => Homographic.prime cfg (Clog.egest cfg f) j ⟨c, k⟩) (Ev.succ ?_)
  simp only [Homographic.prime, Coef4.primerAttempt_ok (cfg := cfg) hp, ok_bind,
    Homographic.primeIngest]
  refine Ev.bind (Q := fun t => t.1 = some (s, p', r)) ?_ ?_
  · refine Ev.bind hd.ev ?_
    rintro ⟨r, c'⟩ ⟨hr', -⟩
    rw [sym_half] at hr'
    simp only at hr'
    subst hr'
    refine Ev.bind_sat (Sat.of_eq (Coef4.valueAtOneHalf_ok hv)) ?_
    rintro _ rfl
    refine Ev.bind_sat (Sat.of_eq (Ratio.newI_ok h1 h2 hr)) ?_
    rintro _ rfl
    exact Ev.pure rfl
  · rintro ⟨_, h'⟩ rfl
    exact Ev.pure rfl

/-- The input is one half up to its primer, and the result is special. -/
theorem homographic_half_special {a b : Int} {s : Clarith.Special}
    (h0 : ¬(nx = 0 ∧ dx = 0)) (hd : Clog.Denotes cfg A c (1 / 2))
    (ha : Homographic.absorbPrimer narrowest p ⟨nx, n, dx, d⟩ = .ok k)
    (hp : k.primerAttempt narrowest = .ok none)
    (hv : k.valueAtOneHalf narrowest = .ok (a, b)) (h1 : narrowest.Fits a) (h2 : narrowest.Fits b)
    (hr : Ratio.newI narrowest a b = .ok (some s, none, none)) :
    Ends A (fun f => Number.homographic cfg f (.Other p c) nx n dx d)
      (fun r => r = .Special s) := by
  unfold Number.homographic
  refine Ends.bind (homographic_half h0 hd ha hp hv h1 h2 hr) ?_
  rintro _ rfl
  exact Ends.of_sat (Sat.pure rfl)

/-- The input is one half up to its primer, and the result a ratio. -/
theorem homographic_half_ratio {a b : Int} {r : Ratio}
    (h0 : ¬(nx = 0 ∧ dx = 0)) (hd : Clog.Denotes cfg A c (1 / 2))
    (ha : Homographic.absorbPrimer narrowest p ⟨nx, n, dx, d⟩ = .ok k)
    (hp : k.primerAttempt narrowest = .ok none)
    (hv : k.valueAtOneHalf narrowest = .ok (a, b)) (h1 : narrowest.Fits a) (h2 : narrowest.Fits b)
    (hr : Ratio.newI narrowest a b = .ok (none, p', some r)) :
    Ends A (fun f => Number.homographic cfg f (.Other p c) nx n dx d)
      (fun y => y = .Other p' (.ratio r)) := by
  unfold Number.homographic
  refine Ends.bind (homographic_half h0 hd ha hp hv h1 h2 hr) ?_
  rintro _ rfl
  exact Ends.of_sat (Sat.pure rfl)

/-- Special inputs. -/
theorem homographic_special {s : Clarith.Special} {q : ℚ} (hq : q = specialValue s)
    (hb : ∀ z ∈ [nx, n, dx, d], -2 ≤ z ∧ z ≤ 2) (hD : (dx : ℚ) * q + d ≠ 0) :
    Ends A (fun f => Number.homographic cfg f (.Special s) nx n dx d)
      (fun r => Number.Denotes cfg A r ((nx * q + n) / (dx * q + d))) := by
  have hf : ∀ z : Int, -1000 ≤ z → z ≤ 1000 → cfg.Fits z := by
    intro z h1 h2
    have : (2 : Int) ^ 15 ≤ 2 ^ (cfg.bits - 1) :=
      pow_le_pow_right₀ (by norm_num) (by have := cfg.hbits; omega)
    constructor
    · simp only [Cfg.imin]; omega
    · simp only [Cfg.imax]; omega
  obtain ⟨a1, a2⟩ := hb nx (by simp)
  obtain ⟨b1, b2⟩ := hb n (by simp)
  obtain ⟨c1, c2⟩ := hb dx (by simp)
  obtain ⟨d1, d2⟩ := hb d (by simp)
  refine Number.homographic_ends (L := 0) (M := 2) hq
    ⟨by norm_num, hf _ (by omega) (by omega), hf _ (by omega) (by omega), hf _ (by omega) (by omega),
      hf _ (by omega) (by omega), a1, a2, b1, b2, c1, c2, d1, d2⟩ ?_ hD
  refine ⟨fun z hz => .inl (hf z ?_ ?_), fun z hz => .inl (hf z ?_ ?_)⟩
  · have := (abs_le.1 hz).1; norm_num at this; omega
  · have := (abs_le.1 hz).2; norm_num at this; omega
  · have := (abs_le.1 hz).1; norm_num at this; omega
  · have := (abs_le.1 hz).2; norm_num at this; omega

end Number

end Clarith
