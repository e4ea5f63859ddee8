import Verif.Proofs.Fuel
import Verif.Proofs.Clog
import Verif.Proofs.Depth

/-! # Exchanging a clog for one with the same answers

`Agree c c'`: whatever `c` answers, up to its end, `c'` answers too. -/

namespace Clarith

open Out Spec

variable {cfg : Cfg}

/-! ## Simulation of outcomes -/

/-- If `o` is an outcome, `m` has a corresponding one for all large fuels. -/
def Sim {α β : Type} (Q : α → β → Prop) (o : Out α) (m : Nat → Nat → Out β) : Prop :=
  match o with
  | .timeout => True
  | .panic p => ∃ f₀, ∀ f ≥ f₀, ∀ j ≥ f₀, m f j = .panic p
  | .ok a => ∃ b, Q a b ∧ ∃ f₀, ∀ f ≥ f₀, ∀ j ≥ f₀, m f j = .ok b

theorem Sim.ok {α β : Type} {Q : α → β → Prop} {a : α} {b : β} (h : Q a b) :
    Sim Q (.ok a) (fun _ _ => .ok b) := ⟨b, h, 0, fun _ _ _ _ => rfl⟩

theorem Sim.pure {α β : Type} {Q : α → β → Prop} {a : α} {b : β} (h : Q a b) :
    Sim Q (Pure.pure a) (fun _ _ => Pure.pure b) := Sim.ok h

theorem Sim.panic {α β : Type} {Q : α → β → Prop} {p : Panic} :
    Sim Q (.panic p) (fun _ _ => .panic p) := ⟨0, fun _ _ _ _ => rfl⟩

theorem Sim.same {α : Type} (o : Out α) : Sim Eq o (fun _ _ => o) := by
  cases o with
  | ok a => exact Sim.ok rfl
  | panic p => exact Sim.panic
  | timeout => trivial

theorem Sim.bind {α β γ δ : Type} {Q : α → β → Prop} {P : γ → δ → Prop} {o : Out α}
    {m : Nat → Nat → Out β} {g : α → Out γ} {g' : Nat → Nat → β → Out δ} (h : Sim Q o m)
    (hg : ∀ a b, Q a b → Sim P (g a) (fun f j => g' f j b)) :
    Sim P (o >>= g) (fun f j => m f j >>= g' f j) := by
  cases o with
  | timeout => trivial
  | panic p =>
    obtain ⟨f₀, h⟩ := h
    exact ⟨f₀, fun f hf j hj => by simp [h f hf j hj]⟩
  | ok a =>
    obtain ⟨b, hab, f₀, h⟩ := h
    have := hg a b hab
    show Sim P (g a) _
    revert this
    cases g a with
    | timeout => exact fun _ => trivial
    | panic p =>
      rintro ⟨f₁, h'⟩
      exact ⟨max f₀ f₁, fun f hf j hj => by
        simp [h f (by omega) j (by omega), h' f (by omega) j (by omega)]⟩
    | ok c =>
      rintro ⟨d, hcd, f₁, h'⟩
      exact ⟨d, hcd, max f₀ f₁, fun f hf j hj => by
        simp [h f (by omega) j (by omega), h' f (by omega) j (by omega)]⟩

theorem Sim.bind_same {α γ δ : Type} {P : γ → δ → Prop} {o : Out α}
    {g : α → Out γ} {g' : Nat → Nat → α → Out δ}
    (hg : ∀ a, Sim P (g a) (fun f j => g' f j a)) :
    Sim P (o >>= g) (fun f j => o >>= g' f j) :=
  Sim.bind (Sim.same o) (by rintro a _ rfl; exact hg a)

theorem Sim.bind_sat {α γ δ : Type} {A : Panic → Prop} {Q : α → Prop} {P : γ → δ → Prop} {o : Out α}
    {g : α → Out γ} {g' : Nat → Nat → α → Out δ} (ho : Sat A o Q)
    (hg : ∀ a, Q a → Sim P (g a) (fun f j => g' f j a)) :
    Sim P (o >>= g) (fun f j => o >>= g' f j) := by
  cases o with
  | timeout => trivial
  | panic p => exact ⟨0, fun _ _ _ _ => rfl⟩
  | ok a => exact hg a ho

theorem Sim.mono {α β : Type} {Q P : α → β → Prop} {o : Out α} {m : Nat → Nat → Out β}
    (h : Sim Q o m) (hQ : ∀ a b, Q a b → P a b) : Sim P o m := by
  cases o with
  | timeout => trivial
  | panic p => exact h
  | ok a =>
    obtain ⟨b, hab, h⟩ := h
    exact ⟨b, hQ a b hab, h⟩

theorem Sim.succ {α β : Type} {Q : α → β → Prop} {o : Out α} {m : Nat → Nat → Out β}
    (h : Sim Q o (fun f j => m f (j + 1))) : Sim Q o m := by
  cases o with
  | timeout => trivial
  | panic p =>
    obtain ⟨f₀, h⟩ := h
    refine ⟨f₀ + 1, fun f hf j hj => ?_⟩
    obtain ⟨j, rfl⟩ : ∃ i, j = i + 1 := ⟨j - 1, by omega⟩
    exact h f (by omega) j (by omega)
  | ok a =>
    obtain ⟨b, hab, f₀, h⟩ := h
    refine ⟨b, hab, f₀ + 1, fun f hf j hj => ?_⟩
    obtain ⟨j, rfl⟩ : ∃ i, j = i + 1 := ⟨j - 1, by omega⟩
    exact h f (by omega) j (by omega)

/-- Equal fuels, the outer one larger by one. -/
theorem Sim.diag {α β : Type} {Q : α → β → Prop} {o : Out α} {m : Nat → Nat → Out β}
    (h : Sim Q o m) : Sim Q o (fun f _ => m f f) := by
  cases o with
  | timeout => trivial
  | panic p =>
    obtain ⟨f₀, h⟩ := h
    exact ⟨f₀, fun f hf j hj => h f hf f hf⟩
  | ok a =>
    obtain ⟨b, hab, f₀, h⟩ := h
    exact ⟨b, hab, f₀, fun f hf j hj => h f hf f hf⟩

theorem Sim.succ_outer {α β : Type} {Q : α → β → Prop} {o : Out α} {m : Nat → Out β}
    (h : Sim Q o (fun f _ => m (f + 1))) : Sim Q o (fun f _ => m f) := by
  cases o with
  | timeout => trivial
  | panic p =>
    obtain ⟨f₀, h⟩ := h
    refine ⟨f₀ + 1, fun f hf j hj => ?_⟩
    obtain ⟨f, rfl⟩ : ∃ i, f = i + 1 := ⟨f - 1, by omega⟩
    exact h f (by omega) f₀ le_rfl
  | ok a =>
    obtain ⟨b, hab, f₀, h⟩ := h
    refine ⟨b, hab, f₀ + 1, fun f hf j hj => ?_⟩
    obtain ⟨f, rfl⟩ : ∃ i, f = i + 1 := ⟨f - 1, by omega⟩
    exact h f (by omega) f₀ le_rfl

/-- An outcome at one fuel is the outcome at all larger ones. -/
theorem Sim.of_mono {α : Type} {m : Nat → Out α} (hm : FuelMono m) (f : Nat) :
    Sim Eq (m f) (fun f _ => m f) := by
  cases h : m f with
  | timeout => trivial
  | panic p => exact ⟨f, fun f' hf _ _ => (hm f f' hf).panic h⟩
  | ok a => exact ⟨a, rfl, f, fun f' hf _ _ => (hm f f' hf).ok h⟩

/-! ## Agreement -/

/-- One call on `c`, and the corresponding one on `c'`, with `R` for what is left. -/
def AgreeStep (cfg : Cfg) (R : Clog → Clog → Prop) (c c' : Clog) : Prop :=
  ∀ f, Sim (fun a b : Option Reduction × Clog => a.1 = b.1 ∧ (a.1 ≠ none → R a.2 b.2))
    (Clog.egest cfg f c) (fun f _ => Clog.egest cfg f c')

/-- Agreement on the first `n` answers. -/
def AgreeN (cfg : Cfg) : Nat → Clog → Clog → Prop
  | 0, _, _ => True
  | n + 1, c, c' => AgreeStep cfg (AgreeN cfg n) c c'

/-- Whatever `c` answers, up to its end, `c'` answers too. -/
def Agree (cfg : Cfg) (c c' : Clog) : Prop := ∀ n, AgreeN cfg n c c'

theorem Agree.coind (R : Clog → Clog → Prop) (hR : ∀ c c', R c c' → AgreeStep cfg R c c')
    {c c' : Clog} (h : R c c') : Agree cfg c c' := by
  intro n
  induction n generalizing c c' with
  | zero => trivial
  | succ n ih => exact fun f => (hR c c' h f).mono fun a b hab => ⟨hab.1, fun h => ih (hab.2 h)⟩

theorem Agree.step {c c' : Clog} (h : Agree cfg c c') : AgreeStep cfg (Agree cfg) c c' := by
  intro f
  cases hf : Clog.egest cfg f c with
  | timeout => trivial
  | panic p =>
    have := h 1 f
    rw [hf] at this
    exact this
  | ok a =>
    have h1 := h 1 f
    rw [hf] at h1
    obtain ⟨b, ⟨hab, -⟩, f₀, hb⟩ := h1
    refine ⟨b, ⟨hab, fun hn n => ?_⟩, f₀, hb⟩
    have h2 := h (n + 1) f
    rw [hf] at h2
    obtain ⟨b', ⟨-, hb2⟩, f₁, hb'⟩ := h2
    have : b = b' := by
      have e1 := hb (max f₀ f₁) (by omega) (max f₀ f₁) (by omega)
      have e2 := hb' (max f₀ f₁) (by omega) (max f₀ f₁) (by omega)
      rw [e1] at e2
      exact Out.ok.inj e2
    subst this
    exact hb2 hn

theorem Agree.refl (c : Clog) : Agree cfg c c :=
  Agree.coind Eq (by
    rintro c _ rfl f
    refine (Sim.of_mono (Clog.egest_mono cfg c) f).mono ?_
    rintro a _ rfl
    exact ⟨rfl, fun _ => rfl⟩) rfl

/-- The same as `Agree`, for numbers. -/
def Number.Agree (cfg : Cfg) : Number → Number → Prop
  | .Special s, .Special s' => s = s'
  | .Other p c, .Other p' c' => p = p' ∧ Clarith.Agree cfg c c'
  | _, _ => False

/-! ## Homographic -/

namespace Homographic

/-- Equal coefficients and agreeing operands. -/
def Same (cfg : Cfg) (h h' : Homographic) : Prop := h.k = h'.k ∧ Agree cfg h.x h'.x

theorem primeIngest_sim {h h' : Homographic} (hh : Same cfg h h') (F : Nat) :
    Sim (fun a b => a.1 = b.1 ∧ (∀ t, a.1 = some t → t.1 ≠ none ∨ t.2.2 ≠ none) ∧
        (a.1 = none → Same cfg a.2 b.2))
      (primeIngest cfg (Clog.egest cfg F) h)
      (fun f _ => primeIngest cfg (Clog.egest cfg f) h') := by
  obtain ⟨hk, hx⟩ := hh
  unfold primeIngest
  refine Sim.bind (hx.step F) ?_
  rintro ⟨r, x⟩ ⟨r', x'⟩ ⟨e, hx'⟩
  simp only at e hx'
  subst e
  rw [hk]
  cases r with
  | none =>
    refine Sim.bind_same fun nd => Sim.bind_sat (Ratio.newI_some cfg _ _) fun res hres => ?_
    exact Sim.pure ⟨rfl, fun t ht => by cases ht; exact hres, by rintro ⟨⟩⟩
  | some r =>
    cases r with
    | Amplify => exact Sim.bind_same fun k => Sim.pure ⟨rfl, by rintro _ ⟨⟩, fun _ => ⟨rfl, hx' (by simp)⟩⟩
    | Uncover => exact Sim.bind_same fun k => Sim.pure ⟨rfl, by rintro _ ⟨⟩, fun _ => ⟨rfl, hx' (by simp)⟩⟩

/-- Corresponding results of `prime`. -/
def PrimedSame (cfg : Cfg) (a b : Primed) : Prop :=
  a.1 = b.1 ∧ a.2.1 = b.2.1 ∧ a.2.2.1 = b.2.2.1 ∧ Option.Rel (Same cfg) a.2.2.2 b.2.2.2 ∧
    (a.2.2.2 = none → a.1 ≠ none ∨ a.2.2.1 ≠ none)

theorem prime_sim (F : Nat) (J : Nat) : ∀ {h h' : Homographic}, Same cfg h h' →
    Sim (PrimedSame cfg) (prime cfg (Clog.egest cfg F) J h)
      (fun f j => prime cfg (Clog.egest cfg f) j h') := by
  induction J with
  | zero => exact fun _ => trivial
  | succ J ih =>
    intro h h' hh
    refine Sim.succ ?_
    simp only [prime]
    rw [hh.1]
    refine Sim.bind_same fun t => ?_
    cases t with
    | some t =>
      exact Sim.pure ⟨rfl, rfl, rfl, .some ⟨rfl, hh.2⟩, by rintro ⟨⟩⟩
    | none =>
      simp only
      refine Sim.bind (primeIngest_sim hh F) ?_
      rintro ⟨a, h1⟩ ⟨b, h1'⟩ ⟨e, ht, hs⟩
      simp only at e ht hs
      subst e
      cases a with
      | some t => exact Sim.pure ⟨rfl, rfl, rfl, .none, fun _ => ht t rfl⟩
      | none => exact ih (hs rfl)

theorem reductionIngest_sim {h h' : Homographic} (hh : Same cfg h h') (F : Nat) :
    Sim (fun a b => a.1 = b.1 ∧ (a.1 = none → Same cfg a.2 b.2))
      (reductionIngest cfg (Clog.egest cfg F) h)
      (fun f _ => reductionIngest cfg (Clog.egest cfg f) h') := by
  obtain ⟨hk, hx⟩ := hh
  unfold reductionIngest
  refine Sim.bind (hx.step F) ?_
  rintro ⟨r, x⟩ ⟨r', x'⟩ ⟨e, hx'⟩
  simp only at e hx'
  subst e
  rw [hk]
  cases r with
  | none =>
    refine Sim.bind_same fun nd => Sim.bind_same fun res => ?_
    rcases res with ⟨_ | s, _ | p, _ | r⟩
    all_goals first
      | exact Sim.panic
      | exact Sim.pure ⟨rfl, by rintro ⟨⟩⟩
  | some r =>
    cases r with
    | Amplify => exact Sim.bind_same fun k => Sim.pure ⟨rfl, fun _ => ⟨rfl, hx' (by simp)⟩⟩
    | Uncover => exact Sim.bind_same fun k => Sim.pure ⟨rfl, fun _ => ⟨rfl, hx' (by simp)⟩⟩

/-- Corresponding results of `egest`: the same symbol and state, or the same replacement. -/
theorem egest_sim (F : Nat) (J : Nat) : ∀ {h h' : Homographic}, Same cfg h h' →
    Sim (fun a b => (∃ r, a.1 = .ok r ∧ b.1 = .ok r ∧ Same cfg a.2 b.2) ∨
        (∃ s, a.1 = .err s ∧ b.1 = .err s))
      (egest cfg (Clog.egest cfg F) J h)
      (fun f j => egest cfg (Clog.egest cfg f) j h') := by
  induction J with
  | zero => exact fun _ => trivial
  | succ J ih =>
    intro h h' hh
    refine Sim.succ ?_
    simp only [egest]
    rw [hh.1]
    refine Sim.bind_same fun t => ?_
    cases t with
    | some t => exact Sim.pure (.inl ⟨_, rfl, rfl, rfl, hh.2⟩)
    | none =>
      simp only
      refine Sim.bind (reductionIngest_sim hh F) ?_
      rintro ⟨a, h1⟩ ⟨b, h1'⟩ ⟨e, hs⟩
      simp only at e hs
      subst e
      cases a with
      | some t => exact Sim.pure (.inr ⟨_, rfl, rfl⟩)
      | none => exact ih (hs rfl)

theorem asRatio_sim {n d : Int} :
    Sim (PrimedSame cfg) (asRatio cfg n d) (fun _ _ => asRatio cfg n d) := by
  unfold asRatio
  exact Sim.bind_sat (Ratio.newI_some cfg _ _) fun t ht =>
    Sim.pure ⟨rfl, rfl, rfl, .none, fun _ => ht⟩

theorem new_sim {x x' : Number} (hx : x.Agree cfg x') (F J : Nat) (nx n dx d : Int) :
    Sim (PrimedSame cfg) (new cfg (Clog.egest cfg F) J x nx n dx d)
      (fun f j => new cfg (Clog.egest cfg f) j x' nx n dx d) := by
  unfold new
  by_cases h0 : nx = 0 ∧ dx = 0
  · simp only [if_pos h0]
    exact asRatio_sim
  · simp only [if_neg h0]
    cases x with
    | Special s =>
      cases x' with
      | Special s' =>
        obtain rfl : s = s' := hx
        cases s with
        | NegOne => exact Sim.bind_same fun _ => Sim.bind_same fun _ => asRatio_sim
        | Zero => exact asRatio_sim
        | PosOne => exact Sim.bind_same fun _ => Sim.bind_same fun _ => asRatio_sim
      | Other p c => exact hx.elim
    | Other p c =>
      cases x' with
      | Special s => exact hx.elim
      | Other p' c' =>
        obtain ⟨rfl, hc⟩ := hx
        exact Sim.bind_same fun k => prime_sim F J ⟨rfl, hc⟩

end Homographic

/-! ## Combine -/

namespace Combine

/-- Equal coefficients and agreeing operands. -/
def Same (cfg : Cfg) (s s' : Combine) : Prop :=
  s.k = s'.k ∧ Agree cfg s.x s'.x ∧ Agree cfg s.y s'.y

theorem primeIngest_sim {s s' : Combine} (hs : Same cfg s s') (F J : Nat) :
    Sim (fun a b => (∃ t t', a = .inl t ∧ b = .inl t' ∧ Homographic.PrimedSame cfg t t') ∨
        (∃ t t', a = .inr t ∧ b = .inr t' ∧ Same cfg t t'))
      (primeIngest cfg (Clog.egest cfg F) J s)
      (fun f j => primeIngest cfg (Clog.egest cfg f) j s') := by
  obtain ⟨hk, hx, hy⟩ := hs
  unfold primeIngest
  refine Sim.bind (hx.step F) ?_
  rintro ⟨r, x⟩ ⟨r', x'⟩ ⟨e, hx'⟩
  simp only at e hx'
  subst e
  rw [hk]
  cases r with
  | none =>
    refine Sim.bind_same fun k => ?_
    refine Sim.bind (Homographic.new_sim (x := .Other none s.y) (x' := .Other none s'.y)
      ⟨rfl, hy⟩ F J k.nx k.n k.dx k.d) ?_
    intro t t' ht
    exact Sim.pure (.inl ⟨t, t', rfl, rfl, ht⟩)
  | some rx =>
    refine Sim.bind_same fun k => ?_
    refine Sim.bind (hy.step F) ?_
    rintro ⟨r, y⟩ ⟨r', y'⟩ ⟨e, hy'⟩
    simp only at e hy'
    subst e
    cases r with
    | none =>
      refine Sim.bind_same fun k => ?_
      refine Sim.bind (Homographic.new_sim (x := .Other none x) (x' := .Other none x')
        ⟨rfl, hx' (by simp)⟩ F J k.nx k.n k.dx k.d) ?_
      intro t t' ht
      exact Sim.pure (.inl ⟨t, t', rfl, rfl, ht⟩)
    | some ry =>
      exact Sim.bind_same fun k => Sim.pure (.inr ⟨_, _, rfl, rfl, rfl, hx' (by simp), hy' (by simp)⟩)

/-- Corresponding results of `prime`. -/
def PrimedSame (cfg : Cfg) (a b : Primed) : Prop :=
  a.1 = b.1 ∧ a.2.1 = b.2.1 ∧ a.2.2.1 = b.2.2.1 ∧
    Option.Rel (Homographic.Same cfg) a.2.2.2.1 b.2.2.2.1 ∧
    Option.Rel (Same cfg) a.2.2.2.2 b.2.2.2.2

theorem prime_sim (F : Nat) (J : Nat) : ∀ {s s' : Combine}, Same cfg s s' →
    Sim (PrimedSame cfg) (prime cfg (Clog.egest cfg F) J s)
      (fun f j => prime cfg (Clog.egest cfg f) j s') := by
  induction J with
  | zero => exact fun _ => trivial
  | succ J ih =>
    intro s s' hs
    refine Sim.succ ?_
    simp only [prime]
    rw [hs.1]
    refine Sim.bind_same fun t => ?_
    cases t with
    | some t => exact Sim.pure ⟨rfl, rfl, rfl, .none, .some ⟨rfl, hs.2⟩⟩
    | none =>
      simp only
      refine Sim.bind (primeIngest_sim hs F J) ?_
      rintro a b (⟨⟨t1, t2, t3, t4⟩, ⟨u1, u2, u3, u4⟩, rfl, rfl, ht⟩ | ⟨t, t', rfl, rfl, ht⟩)
      · exact Sim.pure ⟨ht.1, ht.2.1, ht.2.2.1, ht.2.2.2.1, .none⟩
      · exact ih ht

theorem reductionIngest_sim {s s' : Combine} (hs : Same cfg s s') (F J : Nat) :
    Sim (fun a b => a.1.1 = b.1.1 ∧ Option.Rel (Homographic.Same cfg) a.1.2 b.1.2 ∧
        (a.1 = (none, none) → Same cfg a.2 b.2))
      (reductionIngest cfg (Clog.egest cfg F) J s)
      (fun f j => reductionIngest cfg (Clog.egest cfg f) j s') := by
  obtain ⟨hk, hx, hy⟩ := hs
  unfold reductionIngest
  refine Sim.bind (hx.step F) ?_
  rintro ⟨r, x⟩ ⟨r', x'⟩ ⟨e, hx'⟩
  simp only at e hx'
  subst e
  rw [hk]
  cases r with
  | none =>
    refine Sim.bind_same fun k => ?_
    refine Sim.bind (Homographic.new_sim (x := .Other none s.y) (x' := .Other none s'.y)
      ⟨rfl, hy⟩ F J k.nx k.n k.dx k.d) ?_
    rintro ⟨t1, t2, t3, t4⟩ ⟨u1, u2, u3, u4⟩ ⟨e1, e2, e3, e4, e5⟩
    simp only at e1 e2 e3 e4 e5
    subst e1 e2 e3
    rcases t1 with _ | t1 <;> rcases t2 with _ | t2
    · exact Sim.pure ⟨rfl, e4, fun h => by
        cases h; exact absurd rfl ((e5 rfl).resolve_left (by simp))⟩
    all_goals exact Sim.panic
  | some rx =>
    refine Sim.bind_same fun k => ?_
    refine Sim.bind (hy.step F) ?_
    rintro ⟨r, y⟩ ⟨r', y'⟩ ⟨e, hy'⟩
    simp only at e hy'
    subst e
    cases r with
    | none =>
      refine Sim.bind_same fun k => ?_
      refine Sim.bind (Homographic.new_sim (x := .Other none x) (x' := .Other none x')
        ⟨rfl, hx' (by simp)⟩ F J k.nx k.n k.dx k.d) ?_
      rintro ⟨t1, t2, t3, t4⟩ ⟨u1, u2, u3, u4⟩ ⟨e1, e2, e3, e4, e5⟩
      simp only at e1 e2 e3 e4 e5
      subst e1 e2 e3
      rcases t1 with _ | t1 <;> rcases t2 with _ | t2
      · exact Sim.pure ⟨rfl, e4, fun h => by
        cases h; exact absurd rfl ((e5 rfl).resolve_left (by simp))⟩
      all_goals exact Sim.panic
    | some ry =>
      exact Sim.bind_same fun k => Sim.pure ⟨rfl, .none, fun _ => ⟨rfl, hx' (by simp), hy' (by simp)⟩⟩

/-- Corresponding results of `egest`. -/
theorem egest_sim (F : Nat) (J : Nat) : ∀ {s s' : Combine}, Same cfg s s' →
    Sim (fun a b => (∃ r, a.1 = .ok r ∧ b.1 = .ok r ∧ Same cfg a.2 b.2) ∨
        (∃ r, a.1 = .err (.ratio r) ∧ b.1 = .err (.ratio r)) ∨
        (∃ h h' : Homographic, a.1 = .err h.box ∧ b.1 = .err h'.box ∧ Homographic.Same cfg h h'))
      (egest cfg (Clog.egest cfg F) J s)
      (fun f j => egest cfg (Clog.egest cfg f) j s') := by
  induction J with
  | zero => exact fun _ => trivial
  | succ J ih =>
    intro s s' hs
    refine Sim.succ ?_
    simp only [egest]
    rw [hs.1]
    refine Sim.bind_same fun t => ?_
    cases t with
    | some t => exact Sim.pure (.inl ⟨_, rfl, rfl, rfl, hs.2⟩)
    | none =>
      simp only
      refine Sim.bind (reductionIngest_sim hs F J) ?_
      rintro ⟨⟨a1, a2⟩, s1⟩ ⟨⟨b1, b2⟩, s1'⟩ ⟨e1, e2, e3⟩
      simp only at e1 e2 e3
      subst e1
      cases e2 with
      | some h => exact Sim.pure (.inr (.inr ⟨_, _, rfl, rfl, h⟩))
      | none =>
        cases a1 with
        | some r => exact Sim.pure (.inr (.inl ⟨_, rfl, rfl⟩))
        | none => exact ih (e3 rfl)

theorem asHomographic_sim {x x' : Number} (hx : x.Agree cfg x') (F J : Nat) (nx n dx d : Int) :
    Sim (PrimedSame cfg) (asHomographic cfg (Clog.egest cfg F) J x nx n dx d)
      (fun f j => asHomographic cfg (Clog.egest cfg f) j x' nx n dx d) := by
  unfold asHomographic
  refine Sim.bind (Homographic.new_sim hx F J nx n dx d) ?_
  rintro ⟨t1, t2, t3, t4⟩ ⟨u1, u2, u3, u4⟩ ht
  exact Sim.pure ⟨ht.1, ht.2.1, ht.2.2.1, ht.2.2.2.1, .none⟩

theorem new_sim {x x' y y' : Number} (hx : x.Agree cfg x') (hy : y.Agree cfg y') (F J : Nat)
    (k : Coef8) :
    Sim (PrimedSame cfg) (new cfg (Clog.egest cfg F) J x y k)
      (fun f j => new cfg (Clog.egest cfg f) j x' y' k) := by
  unfold new
  cases x with
  | Special s =>
    cases x' with
    | Other p c => exact hx.elim
    | Special s' =>
      obtain rfl : s = s' := hx
      cases s with
      | NegOne =>
        exact Sim.bind_same fun _ => Sim.bind_same fun _ => Sim.bind_same fun _ =>
          Sim.bind_same fun _ => asHomographic_sim hy F J _ _ _ _
      | Zero => exact asHomographic_sim hy F J _ _ _ _
      | PosOne =>
        exact Sim.bind_same fun _ => Sim.bind_same fun _ => Sim.bind_same fun _ =>
          Sim.bind_same fun _ => asHomographic_sim hy F J _ _ _ _
  | Other p c =>
    cases x' with
    | Special s => exact hx.elim
    | Other p' c' =>
      cases y with
      | Special s =>
        cases y' with
        | Other p c => exact hy.elim
        | Special s' =>
          obtain rfl : s = s' := hy
          cases s with
          | NegOne =>
            exact Sim.bind_same fun _ => Sim.bind_same fun _ => Sim.bind_same fun _ =>
              Sim.bind_same fun _ => asHomographic_sim hx F J _ _ _ _
          | Zero => exact asHomographic_sim hx F J _ _ _ _
          | PosOne =>
            exact Sim.bind_same fun _ => Sim.bind_same fun _ => Sim.bind_same fun _ =>
              Sim.bind_same fun _ => asHomographic_sim hx F J _ _ _ _
      | Other q d =>
        cases y' with
        | Special s => exact hy.elim
        | Other q' d' =>
          obtain ⟨rfl, hc⟩ := hx
          obtain ⟨rfl, hd⟩ := hy
          exact Sim.bind_same fun _ => Sim.bind_same fun _ => prime_sim F J ⟨rfl, hc, hd⟩

end Combine

/-! ## Clogs made of agreeing operands -/

/-- Made in the same way from agreeing operands. -/
inductive Alike (cfg : Cfg) : Clog → Clog → Prop
  | of {c c' : Clog} (h : Agree cfg c c') : Alike cfg c c'
  | homographic {h h' : Homographic} (hh : Homographic.Same cfg h h') : Alike cfg h.box h'.box
  | combine {s s' : Combine} (hs : Combine.Same cfg s s') : Alike cfg s.box s'.box

theorem Alike.step {c c' : Clog} (h : Alike cfg c c') : AgreeStep cfg (Alike cfg) c c' := by
  intro F
  induction F generalizing c c' with
  | zero => trivial
  | succ F ih =>
    cases h with
    | of h => exact (h.step (F + 1)).mono fun a b hab => ⟨hab.1, fun hn => .of (hab.2 hn)⟩
    | @homographic h h' hh =>
      refine Sim.succ_outer ?_
      show Sim _ (((do
        let (res, h) ← Homographic.egest cfg (Clog.egest cfg F) F h
        pure (res, h.box)) : Out _) >>= _) (fun f _ => ((do
          let (res, h) ← Homographic.egest cfg (Clog.egest cfg f) f h'
          pure (res, h.box)) : Out _) >>= _)
      refine Sim.bind (Q := fun a b : Egested × Strategy =>
        (∃ r, a.1 = .ok r ∧ b.1 = .ok r ∧ Alike cfg a.2 b.2) ∨ (∃ s, a.1 = .err s ∧ b.1 = .err s))
        ?_ ?_
      · refine Sim.bind (Homographic.egest_sim F F hh).diag ?_
        rintro ⟨a, h1⟩ ⟨b, h2⟩ (⟨r, rfl, rfl, h⟩ | ⟨s, rfl, rfl⟩)
        · exact Sim.pure (.inl ⟨r, rfl, rfl, .homographic h⟩)
        · exact Sim.pure (.inr ⟨s, rfl, rfl⟩)
      · rintro ⟨a, h1⟩ ⟨b, h2⟩ (⟨r, rfl, rfl, h⟩ | ⟨s, rfl, rfl⟩)
        · exact Sim.pure ⟨rfl, fun _ => h⟩
        · exact ih (.of (Agree.refl s))
    | @combine s s' hs =>
      refine Sim.succ_outer ?_
      show Sim _ (((do
        let (res, h) ← Combine.egest cfg (Clog.egest cfg F) F s
        pure (res, h.box)) : Out _) >>= _) (fun f _ => ((do
          let (res, h) ← Combine.egest cfg (Clog.egest cfg f) f s'
          pure (res, h.box)) : Out _) >>= _)
      refine Sim.bind (Q := fun a b : Egested × Strategy =>
        (∃ r, a.1 = .ok r ∧ b.1 = .ok r ∧ Alike cfg a.2 b.2) ∨
          (∃ s s', a.1 = .err s ∧ b.1 = .err s' ∧ Alike cfg s s')) ?_ ?_
      · refine Sim.bind (Combine.egest_sim F F hs).diag ?_
        rintro ⟨a, h1⟩ ⟨b, h2⟩ (⟨r, rfl, rfl, h⟩ | ⟨r, rfl, rfl⟩ | ⟨h, h', rfl, rfl, hh⟩)
        · exact Sim.pure (.inl ⟨r, rfl, rfl, .combine h⟩)
        · exact Sim.pure (.inr ⟨_, _, rfl, rfl, .of (Agree.refl _)⟩)
        · exact Sim.pure (.inr ⟨_, _, rfl, rfl, .homographic hh⟩)
      · rintro ⟨a, h1⟩ ⟨b, h2⟩ (⟨r, rfl, rfl, h⟩ | ⟨s, s', rfl, rfl, h⟩)
        · exact Sim.pure ⟨rfl, fun _ => h⟩
        · exact ih h

theorem Alike.agree {c c' : Clog} (h : Alike cfg c c') : Agree cfg c c' :=
  Agree.coind (Alike cfg) (fun _ _ => Alike.step) h

/-! ## The API -/

theorem Number.homographic_sim {x x' : Number} (hx : x.Agree cfg x') (F : Nat) (nx n dx d : Int) :
    Sim (Number.Agree cfg) (Number.homographic cfg F x nx n dx d)
      (fun f _ => Number.homographic cfg f x' nx n dx d) := by
  unfold Number.homographic
  refine Sim.bind (Homographic.new_sim hx F F nx n dx d).diag ?_
  rintro ⟨t1, t2, t3, t4⟩ ⟨u1, u2, u3, u4⟩ ⟨e1, e2, e3, e4, -⟩
  simp only at e1 e2 e3 e4
  subst e1 e2 e3
  rcases t1 with _ | s
  · rcases t3 with _ | r
    · cases e4 with
      | none => exact Sim.panic
      | some h => exact Sim.pure ⟨rfl, (Alike.homographic h).agree⟩
    · exact Sim.pure ⟨rfl, Agree.refl _⟩
  · exact Sim.pure rfl

theorem Number.combine_sim {x x' y y' : Number} (hx : x.Agree cfg x') (hy : y.Agree cfg y')
    (F : Nat) (a b c d e f g h : Int) :
    Sim (Number.Agree cfg) (Number.combine cfg F x y a b c d e f g h)
      (fun i _ => Number.combine cfg i x' y' a b c d e f g h) := by
  unfold Number.combine
  refine Sim.bind (Combine.new_sim hx hy F F _).diag ?_
  rintro ⟨t1, t2, t3, t4, t5⟩ ⟨u1, u2, u3, u4, u5⟩ ⟨e1, e2, e3, e4, e5⟩
  simp only at e1 e2 e3 e4 e5
  subst e1 e2 e3
  rcases t1 with _ | s
  · rcases t3 with _ | r
    · cases e4 with
      | none =>
        cases e5 with
        | none => exact Sim.panic
        | some h => exact Sim.pure ⟨rfl, (Alike.combine h).agree⟩
      | some h => exact Sim.pure ⟨rfl, (Alike.homographic h).agree⟩
    · exact Sim.pure ⟨rfl, Agree.refl _⟩
  · exact Sim.pure rfl

theorem Compare.compareClogs_sim (F J : Nat) : ∀ {c d c' d' : Clog}, Agree cfg c c' →
    Agree cfg d d' → ∀ b : Bool,
    Sim Eq (compareClogs cfg (Clog.egest cfg F) J c d b)
      (fun f j => compareClogs cfg (Clog.egest cfg f) j c' d' b) := by
  induction J with
  | zero => exact fun _ _ _ => trivial
  | succ J ih =>
    intro c d c' d' hc hd b
    refine Sim.succ ?_
    simp only [compareClogs]
    refine Sim.bind (hc.step F) ?_
    rintro ⟨e1, c1⟩ ⟨e1', c1'⟩ ⟨h1, hc1⟩
    simp only at h1 hc1
    subst h1
    refine Sim.bind (hd.step F) ?_
    rintro ⟨e2, d1⟩ ⟨e2', d1'⟩ ⟨h2, hd1⟩
    simp only at h2 hd1
    subst h2
    by_cases he : e1 ≠ e2
    · simp only [if_pos he]
      exact Sim.pure rfl
    · simp only [if_neg he]
      rw [not_not] at he
      subst he
      rcases e1 with _ | _ | _
      · exact Sim.pure rfl
      · exact ih (hc1 (by simp)) (hd1 (by simp)) _
      · exact ih (hc1 (by simp)) (hd1 (by simp)) _

theorem Number.compare_sim {x x' y y' : Number} (hx : x.Agree cfg x') (hy : y.Agree cfg y')
    (F : Nat) : Sim Eq (Number.compare cfg F x y) (fun f _ => Number.compare cfg f x' y') := by
  cases x with
  | Special s =>
    cases x' with
    | Other p c => exact hx.elim
    | Special s' =>
      obtain rfl : s = s' := hx
      cases y with
      | Special t =>
        cases y' with
        | Other p c => exact hy.elim
        | Special t' =>
          obtain rfl : t = t' := hy
          exact Sim.pure rfl
      | Other q d =>
        cases y' with
        | Special s => exact hy.elim
        | Other q' d' =>
          obtain ⟨rfl, hd⟩ := hy
          exact Sim.pure rfl
  | Other p c =>
    cases x' with
    | Special s => exact hx.elim
    | Other p' c' =>
      obtain ⟨rfl, hc⟩ := hx
      cases y with
      | Special t =>
        cases y' with
        | Other p c => exact hy.elim
        | Special t' =>
          obtain rfl : t = t' := hy
          exact Sim.pure rfl
      | Other q d =>
        cases y' with
        | Special s => exact hy.elim
        | Other q' d' =>
          obtain ⟨rfl, hd⟩ := hy
          simp only [Number.compare, Compare.compareOthers]
          refine Sim.bind (Compare.compareClogs_sim F F hc hd _).diag ?_
          rintro o _ rfl
          exact Sim.pure rfl

theorem Consume.consume_sim (F J : Nat) : ∀ {c c' : Clog}, Agree cfg c c' → ∀ k : Coef4,
    Sim (fun a b => Option.Rel (Agree cfg) a.1 b.1 ∧ a.2 = b.2)
      (consume cfg (Clog.egest cfg F) J c k)
      (fun f j => consume cfg (Clog.egest cfg f) j c' k) := by
  induction J with
  | zero => exact fun _ _ => trivial
  | succ J ih =>
    intro c c' hc k
    refine Sim.succ ?_
    simp only [consume]
    refine Sim.bind (hc.step F) ?_
    rintro ⟨e1, c1⟩ ⟨e1', c1'⟩ ⟨h1, hc1⟩
    simp only at h1 hc1
    subst h1
    cases e1 with
    | none => exact Sim.pure ⟨.none, rfl⟩
    | some r =>
      refine Sim.bind_same fun k => Sim.bind_same fun b => ?_
      cases b with
      | true => exact Sim.pure ⟨.some (hc1 (by simp)), rfl⟩
      | false => exact ih (hc1 (by simp)) k

theorem Number.consume_sim {x x' : Number} (hx : x.Agree cfg x') (F : Nat) :
    Sim (fun a b => Option.Rel (Number.Agree cfg) a.1 b.1 ∧ a.2 = b.2)
      (Number.consume cfg F x) (fun f _ => Number.consume cfg f x') := by
  unfold Number.consume
  refine Sim.bind (Q := fun a b => Option.Rel (Clarith.Agree cfg) a.1 b.1 ∧ a.2 = b.2) ?_ ?_
  · cases x with
    | Special s =>
      cases x' with
      | Other p c => exact hx.elim
      | Special s' =>
        obtain rfl : s = s' := hx
        cases s <;> exact Sim.pure ⟨.none, rfl⟩
    | Other p c =>
      cases x' with
      | Special s => exact hx.elim
      | Other p' c' =>
        obtain ⟨rfl, hc⟩ := hx
        exact Sim.bind_same fun k => (Consume.consume_sim F F hc k).diag
  · rintro ⟨a1, a2⟩ ⟨b1, b2⟩ ⟨h1, h2⟩
    simp only at h1 h2
    subst h2
    cases h1 with
    | none => exact Sim.pure ⟨.none, rfl⟩
    | some h => exact Sim.pure ⟨.some ⟨rfl, h⟩, rfl⟩

end Clarith
