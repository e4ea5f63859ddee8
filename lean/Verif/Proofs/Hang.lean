import Verif.Proofs.TotalCombine
import Verif.Proofs.TotalConsume

/-! # Calls that never return -/

namespace Clarith

open Out Spec Support

theorem Out.Maybe.diverges {α : Type} {m : Nat → Out α}
    (h : ∀ f, Maybe NoPanic (m f) (fun _ => False)) : Diverges m := by
  intro f
  have := h f
  cases e : m f with
  | ok a => rw [e] at this; exact this.elim
  | panic p => rw [e] at this; exact this.elim
  | timeout => rfl

theorem Out.Maybe.and {α : Type} {A B : Panic → Prop} {m : Out α} {P Q : α → Prop}
    (h : Maybe A m P) (h' : Maybe B m Q) : Maybe A m (fun a => P a ∧ Q a) := by
  cases m with
  | ok a => exact ⟨h, h'⟩
  | panic p => exact h
  | timeout => trivial

section

variable {K : Type*} [Field K] [LinearOrder K] [IsStrictOrderedRing K]

theorem Number.Follows.special {cfg : Cfg} {A : Panic → Prop}
    {t : Number} {s : Clarith.Special} (h : Number.Follows cfg A t (specialIn K s)) : t = .Special s := by
  cases t with
  | Special s' =>
    have e : specialIn K s = specialIn K s' := h
    cases s <;> cases s' <;> first | rfl | (simp only [specialIn] at e; exfalso; linarith)
  | Other p c =>
    exfalso
    obtain ⟨x, ⟨h0, h1, _⟩, e⟩ := h
    have hi : 1 < 1 / x := by rw [lt_div_iff₀ h0]; linarith
    rcases p with _ | (_ | _ | _) <;> cases s <;> simp only [specialIn, primerIn] at e <;> linarith

omit [IsStrictOrderedRing K] in
theorem Clog.Follows.any {cfg : Cfg} {A : Panic → Prop} {c : Clog} {x : K}
    (h : Clog.Follows cfg A c x) : Clog.Follows cfg AnyPanic c x :=
  ⟨h.1, h.2.1, fun k f => ⟨(h.2.2 k f).1, fun _ _ => trivial⟩⟩

/-! ## `compare` -/

theorem Compare.compareClogs_never {cfg : Cfg} {A : Panic → Prop} (f j : Nat) :
    ∀ {c1 c2 : Clog} {x y : K}, Clog.Follows cfg A c1 x → Clog.Follows cfg A c2 y →
    (∀ k, symbolsIn k x = symbolsIn k y) → (∀ k, none ∉ symbolsIn k x) → ∀ polarity : Bool,
    Maybe A (Compare.compareClogs cfg (Clog.egest cfg f) j c1 c2 polarity) (fun _ => False) := by
  induction j with
  | zero => intros; trivial
  | succ j ih =>
    intro c1 c2 x y h1 h2 he hn polarity
    simp only [Compare.compareClogs]
    refine Maybe.bind (h1.step f) ?_
    rintro ⟨e1, c1'⟩ ⟨he1, hd1⟩
    refine Maybe.bind (h2.step f) ?_
    rintro ⟨e2, c2'⟩ ⟨he2, hd2⟩
    simp only at he1 he2 hd1 hd2 ⊢
    subst he1 he2
    have hs : symIn x = symIn y := by
      have := he 1
      simp only [symbolsIn_succ] at this
      exact (List.cons.inj this).1
    have he' : ∀ k, symbolsIn k (nextIn x) = symbolsIn k (nextIn y) := fun k => by
      have := he (k + 1)
      simp only [symbolsIn_succ] at this
      exact (List.cons.inj this).2
    have hn' : ∀ k, none ∉ symbolsIn k (nextIn x) := fun k h => hn (k + 1) (by
      rw [symbolsIn_succ]; exact List.mem_cons_of_mem _ h)
    rw [if_neg (by simp [hs])]
    cases ex : symIn x with
    | none => exact absurd (by simp [symbolsIn_succ, ex]) (hn 1)
    | some r =>
      cases r
      · exact ih hd1 hd2 he' hn' _
      · exact ih hd1 hd2 he' hn' _

/-! ## `homographic` -/

theorem NotFraction.sym {v : K} (h : NotFraction v) : symIn v ≠ none := fun e =>
  h ⟨1 / 2, by rw [symIn_none e]; norm_num⟩

namespace Homographic

/-- While the operand goes on, `prime` returns no special value and no ratio. -/
theorem prime_shape {cfg : Cfg} {A : Panic → Prop} (f j : Nat) (hA : ∀ p, A p) :
    ∀ {h : Homographic} {v : K}, Clog.Follows cfg A h.x v → NotFraction v →
    Maybe A (Homographic.prime cfg (Clog.egest cfg f) j h)
      (fun t => t.1 = none) := by
  induction j with
  | zero => intros; trivial
  | succ j ih =>
    intro h v hx hv
    simp only [Homographic.prime]
    refine Maybe.bind (Maybe.any hA (P := fun _ => True) fun _ => trivial) ?_
    rintro (_ | ⟨p, k'⟩) -
    · unfold primeIngest
      refine Maybe.bind (Q := fun r => r.1 = none ∧ Clog.Follows cfg A r.2.x (nextIn v)) ?_ ?_
      · refine Maybe.bind (hx.step f) ?_
        rintro ⟨r, x⟩ ⟨hr, hx'⟩
        simp only at hr hx'
        cases r with
        | none => exact absurd hr.symm hv.sym
        | some r =>
          cases r
          · exact Maybe.bind (Maybe.any hA (P := fun _ => True) fun _ => trivial)
              fun k _ => Maybe.pure ⟨rfl, hx'⟩
          · exact Maybe.bind (Maybe.any hA (P := fun _ => True) fun _ => trivial)
              fun k _ => Maybe.pure ⟨rfl, hx'⟩
      · rintro ⟨o, h'⟩ ⟨e, hx'⟩
        simp only at e hx'
        subst e
        exact ih hx' hv.next
    · exact Maybe.pure rfl

/-- `nx*x/(dx*x)` at a clog that amplifies: the range of values is undetermined at 0, and no symbol
changes that. -/
theorem prime_stuck {cfg : Cfg} {A : Panic → Prop} (f j : Nat) :
    ∀ {h : Homographic} {v : K}, Clog.Follows cfg A h.x v → Infinitesimal v →
    h.k.n = 0 → h.k.d = 0 → 
    Maybe A (Homographic.prime cfg (Clog.egest cfg f) j h) (fun _ => False) := by
  induction j with
  | zero => intros; trivial
  | succ j ih =>
    intro ⟨x, k⟩ v hx hv hn hd
    simp only at hn hd hx
    have e : k.primerAttempt cfg = .ok none := by
      simp [Coef4.primerAttempt, Coef4.areSingularitiesOutsideDomain, Coef4.isZeroOutsideDomain,
        Coef4.isPoleOutsideDomain, Coef4.isDomainAmenable, hn, hd, Coef4.primerEgest,
        Coef4.imageExtremes, Coef4.valueAtZero, Out.and]
    simp only [Homographic.prime, e, primeIngest]
    refine Maybe.bind (Q := fun o => o = none) (Maybe.pure rfl) ?_
    rintro _ rfl
    refine Maybe.bind (Q := fun r => r.1 = none ∧ Clog.Follows cfg A r.2.x (2 * v) ∧
      r.2.k.n = 0 ∧ r.2.k.d = 0) ?_ ?_
    · refine Maybe.bind (hx.step f) ?_
      rintro ⟨r, x'⟩ ⟨hr, hx'⟩
      simp only at hr hx'
      rw [symIn_lt hv.lt_half] at hr
      rw [nextIn_lt hv.lt_half] at hx'
      subst hr
      have e2 : k.ingestAmplify cfg = .ok ⟨k.nx, 0, k.dx, 0⟩ ∨
          k.ingestAmplify cfg = .ok ⟨half k.nx, 0, half k.dx, 0⟩ := by
        unfold Coef4.ingestAmplify
        have h0 : cfg.Fits 0 := by have := cfg.imax_ge; have := cfg.imin_eq; unfold Cfg.Fits; omega
        split_ifs
        · exact .inl (by simp [hn, hd, Cfg.cmul, Cfg.checked, h0])
        · exact .inr (by simp [hn, hd])
      rcases e2 with e2 | e2 <;> simp only [e2]
      · exact Maybe.pure ⟨rfl, hx', rfl, rfl⟩
      · exact Maybe.pure ⟨rfl, hx', rfl, rfl⟩
    · rintro ⟨o, h'⟩ ⟨e, hx', h1, h2⟩
      simp only at e hx' h1 h2
      subst e
      exact ih hx' hv.double h1 h2

end Homographic

/-! ## `combine` -/

namespace Coef8

theorem corner_primerAttempt {cfg : Cfg} {k : Coef8} (h : k.d = 0 ∨ k.h = 0) :
    Maybe AnyPanic (k.primerAttempt cfg) (fun o => o = none) := by
  unfold primerAttempt
  refine Maybe.bind (Q := fun b => b = false) ?_ ?_
  · unfold areSingularitiesOutsideDomain Out.and
    rcases h with h | h
    · refine Maybe.bind (Q := fun b => b = false) ?_ ?_
      · unfold isZeroOutsideDomain isDomainAmenable
        simp [h, Maybe]
      · rintro _ rfl; exact Maybe.pure rfl
    · refine Maybe.bind (Maybe.any (fun _ => trivial) (P := fun _ => True) fun _ => trivial) ?_
      rintro (_ | _) -
      · exact Maybe.pure rfl
      · unfold isPoleOutsideDomain isDomainAmenable
        simp [h, Maybe]
  · rintro _ rfl
    exact Maybe.pure rfl

theorem cmul_zero {cfg : Cfg} (z : Int) :
    Maybe AnyPanic (cfg.cmul z 2) (fun r => z = 0 → r = 0) := by
  unfold Cfg.cmul Cfg.checked
  split_ifs
  · intro h; simp [h]
  · trivial

theorem corner_amplifyX {cfg : Cfg} {k : Coef8} (h : k.d = 0 ∨ k.h = 0) :
    Maybe AnyPanic (k.amplifyX cfg) (fun k' => k'.d = 0 ∨ k'.h = 0) := by
  unfold amplifyX
  split_ifs
  · exact Maybe.pure h
  · refine Maybe.bind (cmul_zero _) fun _ _ => ?_
    refine Maybe.bind (cmul_zero _) fun _ h1 => ?_
    refine Maybe.bind (cmul_zero _) fun _ _ => ?_
    refine Maybe.bind (cmul_zero _) fun _ h2 => ?_
    exact Maybe.pure (h.imp h1 h2)

theorem corner_amplifyY {cfg : Cfg} {k : Coef8} (h : k.d = 0 ∨ k.h = 0) :
    Maybe AnyPanic (k.amplifyY cfg) (fun k' => k'.d = 0 ∨ k'.h = 0) := by
  unfold amplifyY
  split_ifs
  · exact Maybe.pure h
  · refine Maybe.bind (cmul_zero _) fun _ _ => ?_
    refine Maybe.bind (cmul_zero _) fun _ h1 => ?_
    refine Maybe.bind (cmul_zero _) fun _ _ => ?_
    refine Maybe.bind (cmul_zero _) fun _ h2 => ?_
    exact Maybe.pure (h.imp h1 h2)

/-- The two coefficients of the numerator, and of the denominator, that become those at (u,0). -/
def cornerX (p : Option Primer) (k : Coef8) : (Int × Int) × (Int × Int) :=
  if p = some .Turn ∨ p = some .Ground then ((k.a, k.b), (k.e, k.f)) else ((k.c, k.d), (k.g, k.h))

theorem absorbX_corner {cfg : Cfg} (p : Option Primer) (k : Coef8) :
    Maybe AnyPanic (k.absorbPrimerX cfg p) (fun k' => ((k'.c, k'.d), (k'.g, k'.h)) = cornerX p k) := by
  have key : ∀ k : Coef8, Maybe AnyPanic (k.reflectX cfg)
      (fun k' => ((k'.c, k'.d), (k'.g, k'.h)) = ((k.c, k.d), (k.g, k.h))) := by
    intro k
    unfold reflectX
    iterate 4
      refine Maybe.bind (Maybe.any (fun _ => trivial) (P := fun _ => True) fun _ => trivial) ?_
      intro _ _
    exact Maybe.pure rfl
  rcases p with _ | (_ | _ | _)
  · exact Maybe.pure rfl
  · exact Maybe.pure rfl
  · exact key _
  · exact key _

theorem absorbY_corner {cfg : Cfg} (p : Option Primer) (k : Coef8) :
    Maybe AnyPanic (k.absorbPrimerY cfg p) (fun k' =>
      k'.d = (if p = some .Turn ∨ p = some .Ground then k.c else k.d) ∧
      k'.h = (if p = some .Turn ∨ p = some .Ground then k.g else k.h)) := by
  have key : ∀ k : Coef8, Maybe AnyPanic (k.reflectY cfg)
      (fun k' => k'.d = k.d ∧ k'.h = k.h) := by
    intro k
    unfold reflectY
    iterate 4
      refine Maybe.bind (Maybe.any (fun _ => trivial) (P := fun _ => True) fun _ => trivial) ?_
      intro _ _
    exact Maybe.pure ⟨rfl, rfl⟩
  rcases p with _ | (_ | _ | _)
  · exact Maybe.pure ⟨rfl, rfl⟩
  · exact Maybe.pure ⟨rfl, rfl⟩
  · exact key _
  · exact key _

end Coef8

namespace Combine

/-- `prime` at two clogs that amplify: it decides nothing while the value at (0,0) is 0 or a
pole. -/
theorem prime_stuck {cfg : Cfg} (f j : Nat) :
    ∀ {s : Combine} {u v : K}, Clog.Follows cfg AnyPanic s.x u → Clog.Follows cfg AnyPanic s.y v →
    Infinitesimal u → Infinitesimal v → s.k.d = 0 ∨ s.k.h = 0 →
    Maybe AnyPanic (Combine.prime cfg (Clog.egest cfg f) j s) (fun _ => False) := by
  induction j with
  | zero => intros; trivial
  | succ j ih =>
    intro s u v hx hy hu hv hk
    simp only [Combine.prime]
    refine Maybe.bind (Coef8.corner_primerAttempt hk) ?_
    rintro _ rfl
    refine Maybe.bind (Q := fun r => ∃ s' : Combine, r = .inr s' ∧
      Clog.Follows cfg AnyPanic s'.x (2 * u) ∧ Clog.Follows cfg AnyPanic s'.y (2 * v) ∧
      (s'.k.d = 0 ∨ s'.k.h = 0)) ?_ ?_
    · unfold primeIngest
      refine Maybe.bind (hx.step f) ?_
      rintro ⟨r, x⟩ ⟨hr, hx'⟩
      simp only at hr hx'
      rw [symIn_lt hu.lt_half] at hr
      rw [nextIn_lt hu.lt_half] at hx'
      subst hr
      refine Maybe.bind (Coef8.corner_amplifyX hk) fun k1 h1 => ?_
      refine Maybe.bind (hy.step f) ?_
      rintro ⟨r, y⟩ ⟨hr, hy'⟩
      simp only at hr hy'
      rw [symIn_lt hv.lt_half] at hr
      rw [nextIn_lt hv.lt_half] at hy'
      subst hr
      refine Maybe.bind (Coef8.corner_amplifyY h1) fun k2 h2 => ?_
      exact Maybe.pure ⟨_, rfl, hx', hy', h2⟩
    · rintro _ ⟨s', rfl, h1, h2, h3⟩
      exact ih h1 h2 hu.double hv.double h3

/-- `x/y` at two infinite numbers: the coefficients come back after each pair of symbols. -/
theorem prime_cycle {cfg : Cfg} (f j : Nat) :
    ∀ {x y : Clog} {u v : K}, Clog.Follows cfg NoPanic x u → Clog.Follows cfg NoPanic y v →
    Infinitesimal u → Infinitesimal v →
    Maybe NoPanic (Combine.prime cfg (Clog.egest cfg f) j ⟨x, y, ⟨0, 0, 1, 0, 0, 1, 0, 0⟩⟩)
      (fun _ => False) := by
  have hM := cfg.imax_ge
  have hm := cfg.imin_eq
  induction j with
  | zero => intros; trivial
  | succ j ih =>
    intro x y u v hx hy hu hv
    have e : (⟨0, 0, 1, 0, 0, 1, 0, 0⟩ : Coef8).primerAttempt cfg = .ok none := by
      simp [Coef8.primerAttempt, Coef8.areSingularitiesOutsideDomain, Coef8.isZeroOutsideDomain,
        Coef8.isDomainAmenable, Out.and]
    have ex : (⟨0, 0, 1, 0, 0, 1, 0, 0⟩ : Coef8).amplifyX cfg = .ok ⟨0, 0, 2, 0, 0, 1, 0, 0⟩ := by
      have h0 : cfg.Fits 0 := by unfold Cfg.Fits; omega
      have h2 : cfg.Fits 2 := by unfold Cfg.Fits; omega
      simp [Coef8.amplifyX, isEven, Cfg.cmul, Cfg.checked, h0, h2]
    have ey : (⟨0, 0, 2, 0, 0, 1, 0, 0⟩ : Coef8).amplifyY cfg = .ok ⟨0, 0, 1, 0, 0, 1, 0, 0⟩ := by
      simp [Coef8.amplifyY, isEven, half]
    simp only [Combine.prime, e]
    refine Maybe.bind (Q := fun o => o = none) (Maybe.pure rfl) ?_
    rintro _ rfl
    refine Maybe.bind (Q := fun r => ∃ x' y', r = .inr ⟨x', y', ⟨0, 0, 1, 0, 0, 1, 0, 0⟩⟩ ∧
      Clog.Follows cfg NoPanic x' (2 * u) ∧ Clog.Follows cfg NoPanic y' (2 * v)) ?_ ?_
    · unfold primeIngest
      refine Maybe.bind (hx.step f) ?_
      rintro ⟨r, x⟩ ⟨hr, hx'⟩
      simp only at hr hx'
      rw [symIn_lt hu.lt_half] at hr
      rw [nextIn_lt hu.lt_half] at hx'
      subst hr
      simp only [Coef8.ingestX, Coef8.ingestY, ex]
      refine Maybe.bind (Q := fun k => k = ⟨0, 0, 2, 0, 0, 1, 0, 0⟩) (Maybe.pure rfl) ?_
      rintro _ rfl
      refine Maybe.bind (hy.step f) ?_
      rintro ⟨r, y⟩ ⟨hr, hy'⟩
      simp only at hr hy'
      rw [symIn_lt hv.lt_half] at hr
      rw [nextIn_lt hv.lt_half] at hy'
      subst hr
      simp only [ey]
      exact Maybe.pure ⟨_, _, rfl, hx', hy'⟩
    · rintro _ ⟨x', y', rfl, h1, h2⟩
      exact ih h1 h2 hu.double hv.double

end Combine

end

end Clarith
