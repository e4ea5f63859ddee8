import Verif.Proofs.StepsHeap

/-! # The two models agree on every method -/

namespace Clarith.Steps

open Mut

/-- What an attempt does to the coefficients, in terms of the first model. -/
def Attempted {α κ : Type} (k : κ) (a : Option α) (t : κ) : Option (α × κ) → Prop
  | some (p, k') => a = some p ∧ t = k'
  | none => a = none ∧ t = k

theorem Agree.attempt {α κ : Type} {m : Mut κ (Option α)} {k : κ} {A : Out (Option (α × κ))}
    (h : Agree m k (A >>= attempt k)) :
    Sim m k A (fun _ => True) (Attempted k) := by
  unfold Agree Sim at h
  unfold Sim
  revert h
  generalize m k = r
  obtain ⟨r, t⟩ := r
  cases A with
  | ok b =>
    rcases b with _ | ⟨p, k'⟩
    · cases r with
      | ok a =>
        rintro ⟨b, e1, e2⟩
        have e3 : (none, k) = b := by injection e1
        rw [← e3] at e2
        injection e2 with e4 e5
        exact ⟨none, rfl, e4.symm, e5.symm⟩
      | panic p => exact fun h => by simp [Steps.attempt, Pure.pure, Bind.bind, Out.bind] at h
      | shared => exact id
      | timeout => exact fun h => by simp [Steps.attempt, Pure.pure, Bind.bind, Out.bind] at h
    · cases r with
      | ok a =>
        rintro ⟨b, e1, e2⟩
        have e3 : (some p, k') = b := by injection e1
        rw [← e3] at e2
        injection e2 with e4 e5
        exact ⟨some (p, k'), rfl, e4.symm, e5.symm⟩
      | panic p => exact fun h => by simp [Steps.attempt, Pure.pure, Bind.bind, Out.bind] at h
      | shared => exact id
      | timeout => exact fun h => by simp [Steps.attempt, Pure.pure, Bind.bind, Out.bind] at h
  | panic q =>
    cases r with
    | ok a => exact fun ⟨b, e1, _⟩ => by simp [Bind.bind, Out.bind] at e1
    | panic p =>
      rintro ⟨h, -⟩
      have e : q = p := by injection h
      exact ⟨by rw [e], trivial⟩
    | shared => exact id
    | timeout => exact fun h => by simp [Bind.bind, Out.bind] at h
  | timeout =>
    cases r with
    | ok a => exact fun ⟨b, e1, _⟩ => by simp [Bind.bind, Out.bind] at e1
    | panic p => exact fun h => by simp [Bind.bind, Out.bind] at h
    | shared => exact id
    | timeout => exact fun _ => ⟨rfl, trivial⟩

/-! ## `Homographic` -/

namespace Homographic

/-- What a panic leaves of a `Homographic`. -/
def Left (w : World) (fp : Nat → Prop) (t : Homographic × World) : Prop :=
  ∃ s, Kept w fp t.2 t.1.x s

theorem onK_sim {α : Type} {s : Homographic × World} {m : Mut Coef4 α} {o : Out (α × Coef4)}
    {J : Homographic × World → Prop} (h : Agree m s.1.k o)
    (hJ : ∀ k, J ({ s.1 with k := k }, s.2)) :
    Sim (onK m) s o J (fun a t b => a = b.1 ∧ t = ({ s.1 with k := b.2 }, s.2)) := by
  refine (Sim.part (s := s) (get := fun s => s.1.k)
    (put := fun k s => ({ s.1 with k := k }, s.2)) h).mono ?_ ?_
  · rintro t ⟨k, rfl, -⟩
    exact hJ k
  · rintro a t b ⟨k, rfl, rfl⟩
    exact ⟨rfl, rfl⟩

theorem onK_attempt {α : Type} {s : Homographic × World} {m : Mut Coef4 (Option α)}
    {A : Out (Option (α × Coef4))} {J : Homographic × World → Prop}
    (h : Agree m s.1.k (A >>= attempt s.1.k)) (hJ : ∀ k, J ({ s.1 with k := k }, s.2)) :
    Sim (onK m) s A J (fun a t b => t = ({ s.1 with k := t.1.k }, s.2) ∧
      Attempted s.1.k a t.1.k b) := by
  refine (Sim.part (s := s) (get := fun s => s.1.k)
    (put := fun k s => ({ s.1 with k := k }, s.2)) h.attempt).mono ?_ ?_
  · rintro t ⟨k, rfl, -⟩
    exact hJ k
  · rintro a t b ⟨k, rfl, h⟩
    exact ⟨rfl, h⟩

theorem onX_sim {eg : EgestFn} {eg₀ : Clarith.EgestFn} (hE : EgSim eg eg₀) {h : Homographic}
    {w : World} {X : Strategy} {fp : Nat → Prop} (hR : Rep w h.x X fp) (hB : Bound w fp) :
    Sim (onX eg) (h, w) (eg₀ X) (Left w fp)
      (fun a t b => a = b.1 ∧ t.1.k = h.k ∧ Kept w fp t.2 t.1.x b.2) := by
  refine (Sim.part (s := (h, w)) (get := fun s => (s.1.x, s.2))
    (put := fun t s => ({ s.1 with x := t.1 }, t.2)) (hE h.x w X fp hR hB)).mono ?_ ?_
  · rintro t ⟨⟨o, w'⟩, rfl, hk⟩
    exact hk
  · rintro a t b ⟨⟨o, w'⟩, rfl, e, hk⟩
    exact ⟨e, rfl, hk⟩

theorem primeIngest_sim (cfg : Cfg) {eg : EgestFn} {eg₀ : Clarith.EgestFn} (hE : EgSim eg eg₀)
    {h : Homographic} {w : World} {X : Strategy} {fp : Nat → Prop} (hR : Rep w h.x X fp)
    (hB : Bound w fp) :
    Sim (primeIngest cfg eg) (h, w) (Clarith.Homographic.primeIngest cfg eg₀ ⟨X, h.k⟩) (Left w fp)
      (fun a t b => a = b.1 ∧ t.1.k = b.2.k ∧ Kept w fp t.2 t.1.x b.2.x) := by
  unfold primeIngest Clarith.Homographic.primeIngest
  refine (onX_sim hE hR hB).bind ?_
  rintro a t ⟨r, x⟩ ⟨rfl, ek, hk⟩
  dsimp only
  rcases a with _ | _ | _
  · refine Sim.get_bind ?_
    rw [ek]
    refine Sim.eval_bind ⟨_, hk⟩ ?_
    rintro ⟨num, den⟩ -
    refine Sim.eval_bind ⟨_, hk⟩ fun _ _ => ?_
    exact Sim.pure ⟨rfl, ek, hk⟩
  · have h1 := onK_sim (s := t) (J := Left w fp) (Coef4.ingestAmplify_agree cfg t.1.k)
      fun k => ⟨_, hk⟩
    have h2 := Sim.bind (g := fun _ => pure none)
      (q := fun b => pure (none, ⟨x, b.2⟩))
      (R' := fun (a : Option (Option Special × Option Primer × Option Ratio))
        (t : Homographic × World) (b : Option (Option Special × Option Primer × Option Ratio) ×
          Clarith.Homographic) => a = b.1 ∧ t.1.k = b.2.k ∧ Kept w fp t.2 t.1.x b.2.x) h1
      (by rintro a u b ⟨rfl, rfl⟩; exact Sim.pure ⟨rfl, rfl, hk⟩)
    rw [ek] at h2
    simpa only [out_bind_assoc, out_pure_bind] using h2
  · have h1 := onK_sim (s := t) (J := Left w fp) (Coef4.ingestUncover_agree cfg t.1.k)
      fun k => ⟨_, hk⟩
    have h2 := Sim.bind (g := fun _ => pure none)
      (q := fun b => pure (none, ⟨x, b.2⟩))
      (R' := fun (a : Option (Option Special × Option Primer × Option Ratio))
        (t : Homographic × World) (b : Option (Option Special × Option Primer × Option Ratio) ×
          Clarith.Homographic) => a = b.1 ∧ t.1.k = b.2.k ∧ Kept w fp t.2 t.1.x b.2.x) h1
      (by rintro a u b ⟨rfl, rfl⟩; exact Sim.pure ⟨rfl, rfl, hk⟩)
    rw [ek] at h2
    simpa only [out_bind_assoc, out_pure_bind] using h2

theorem reductionIngest_sim (cfg : Cfg) {eg : EgestFn} {eg₀ : Clarith.EgestFn} (hE : EgSim eg eg₀)
    {h : Homographic} {w : World} {X : Strategy} {fp : Nat → Prop} (hR : Rep w h.x X fp)
    (hB : Bound w fp) :
    Sim (reductionIngest cfg eg) (h, w) (Clarith.Homographic.reductionIngest cfg eg₀ ⟨X, h.k⟩)
      (Left w fp) (fun a t b => a = b.1 ∧ t.1.k = b.2.k ∧ Kept w fp t.2 t.1.x b.2.x) := by
  unfold reductionIngest Clarith.Homographic.reductionIngest
  refine (onX_sim hE hR hB).bind ?_
  rintro a t ⟨r, x⟩ ⟨rfl, ek, hk⟩
  dsimp only
  rcases a with _ | _ | _
  · refine Sim.get_bind ?_
    rw [ek]
    refine Sim.eval_bind ⟨_, hk⟩ ?_
    rintro ⟨num, den⟩ -
    refine Sim.eval_bind ⟨_, hk⟩ ?_
    rintro ⟨_ | _, _ | _, _ | _⟩ -
    · exact Sim.panic ⟨_, hk⟩
    · exact Sim.pure ⟨rfl, ek, hk⟩
    all_goals exact Sim.panic ⟨_, hk⟩
  · have h1 := onK_sim (s := t) (J := Left w fp) (Coef4.ingestAmplify_agree cfg t.1.k)
      fun k => ⟨_, hk⟩
    have h2 := Sim.bind (g := fun _ => pure none)
      (q := fun b => pure (none, ⟨x, b.2⟩))
      (R' := fun (a : Option Ratio) (t : Homographic × World) (b : Option Ratio ×
          Clarith.Homographic) => a = b.1 ∧ t.1.k = b.2.k ∧ Kept w fp t.2 t.1.x b.2.x) h1
      (by rintro a u b ⟨rfl, rfl⟩; exact Sim.pure ⟨rfl, rfl, hk⟩)
    rw [ek] at h2
    simpa only [out_bind_assoc, out_pure_bind] using h2
  · have h1 := onK_sim (s := t) (J := Left w fp) (Coef4.ingestUncover_agree cfg t.1.k)
      fun k => ⟨_, hk⟩
    have h2 := Sim.bind (g := fun _ => pure none)
      (q := fun b => pure (none, ⟨x, b.2⟩))
      (R' := fun (a : Option Ratio) (t : Homographic × World) (b : Option Ratio ×
          Clarith.Homographic) => a = b.1 ∧ t.1.k = b.2.k ∧ Kept w fp t.2 t.1.x b.2.x) h1
      (by rintro a u b ⟨rfl, rfl⟩; exact Sim.pure ⟨rfl, rfl, hk⟩)
    rw [ek] at h2
    simpa only [out_bind_assoc, out_pure_bind] using h2

/-- The result of `new` or `prime` stands for the result in the first model. -/
def PrimedRep (w : World) (fp : Nat → Prop) (a : Primed) (t : World)
    (b : Clarith.Homographic.Primed) : Prop :=
  a.1 = b.1 ∧ a.2.1 = b.2.1 ∧ a.2.2.1 = b.2.2.1 ∧
    match a.2.2.2, b.2.2.2 with
    | some h, some H => Kept w fp t h.box H.box
    | none, none => Grow w fp t nowhere
    | _, _ => False

/-- A method that works in place never loses what was there before. -/
theorem Left.trans {w w' : World} {fp fp' : Nat → Prop} (h : Grow w fp w' fp')
    {t : Homographic × World} (h' : Left w' fp' t) : Left w fp t := by
  obtain ⟨s, h'⟩ := h'
  exact ⟨s, h'.trans h⟩

theorem Kept.grow {w w' : World} {fp : Nat → Prop} {o : Obj} {s : Strategy}
    (h : Kept w fp w' o s) : Grow w fp w' nowhere := by
  obtain ⟨_, _, g⟩ := h
  exact g.shrink fun _ h => h.elim

theorem box_rep {w : World} {h : Homographic} {X : Strategy} {fp : Nat → Prop}
    (hR : Rep w h.x X fp) : Rep w h.box (.homographic X h.k) fp := .homographic h.k hR

theorem PrimedRep.trans {w w' t : World} {fp fp' : Nat → Prop} {a : Primed}
    {b : Clarith.Homographic.Primed} (g : Grow w fp w' fp') (h : PrimedRep w' fp' a t b) :
    PrimedRep w fp a t b := by
  obtain ⟨a1, a2, a3, a4⟩ := a
  obtain ⟨b1, b2, b3, b4⟩ := b
  obtain ⟨h1, h2, h3, h4⟩ := h
  refine ⟨h1, h2, h3, ?_⟩
  cases a4 <;> cases b4
  · exact g.trans h4
  · exact h4.elim
  · exact h4.elim
  · exact h4.trans g

/-- Printing changes no allocation. -/
theorem println_rep {w : World} {o : Obj} {X : Strategy} {fp : Nat → Prop}
    (hR : Rep w o X fp) (hB : Bound w fp) (l : List Coef4) :
    Rep { w with printed := l } o X fp ∧ Grow w fp { w with printed := l } fp :=
  ⟨hR.frame fun _ _ => rfl, ⟨Nat.le_refl _, fun _ _ _ => rfl, fun _ h => .inl h, hB⟩⟩

theorem prime_sim (cfg : Cfg) {eg : EgestFn} {eg₀ : Clarith.EgestFn} (hE : EgSim eg eg₀)
    (f : Nat) : ∀ {h : Homographic} {w : World} {X : Strategy} {fp : Nat → Prop},
    Rep w h.x X fp → Bound w fp →
    Sim (prime cfg eg f) (h, w) (Clarith.Homographic.prime cfg eg₀ f ⟨X, h.k⟩) (Left w fp)
      (fun a t b => PrimedRep w fp a t.2 b) := by
  induction f with
  | zero =>
    intro h w X fp hR hB
    exact Sim.timeout ⟨X, fp, hR, .refl hB⟩
  | succ f ih =>
    intro h w X fp hR hB
    unfold prime Clarith.Homographic.prime
    refine Sim.modify_bind ?_
    obtain ⟨hR', hG⟩ := println_rep hR hB (w.printed ++ [h.k])
    refine Sim.bind (onK_attempt (s := (h, { w with printed := w.printed ++ [h.k] }))
      (Coef4.primerAttempt_agree cfg h.k) fun k => ⟨X, fp, hR', hG⟩) ?_
    rintro a ⟨⟨x, k⟩, w1⟩ b ⟨e, ha⟩
    injection e with e1 e2
    injection e1 with e3 e4
    subst e2 e3
    rcases b with _ | ⟨p, k'⟩
    · obtain ⟨rfl, rfl⟩ := ha
      refine Sim.bind ((primeIngest_sim cfg hE hR' hG.bound).mono
        (fun t ht => ht.trans hG) fun _ _ _ h => h) ?_
      rintro a ⟨⟨x', k'⟩, w'⟩ ⟨r, ⟨X', k''⟩⟩ ⟨e1, e2, fp', hR2, hG2⟩
      dsimp only at e1 e2 hR2 hG2
      subst e1 e2
      rcases a with _ | ⟨special, primer, ratio⟩
      · exact (ih (h := ⟨x', k'⟩) hR2 hG2.bound).mono (fun t ht => (ht.trans hG2).trans hG)
          fun _ _ _ h => (h.trans hG2).trans hG
      · exact Sim.pure ⟨rfl, rfl, rfl, (hG.trans hG2).shrink fun _ h => h.elim⟩
    · obtain ⟨rfl, rfl⟩ := ha
      refine Sim.get_bind (Sim.pure ⟨rfl, rfl, rfl, fp, ?_, hG⟩)
      exact .homographic k hR'

/-- The answer of `Strategy::egest` stands for the answer in the first model; a new strategy owns
its region. -/
def Answer (w : World) (fp : Nat → Prop) (a : Option Reduction ⊕ Obj) (t : World)
    (b : Egested) : Prop :=
  match a, b with
  | .inl r, .ok r' => r = r'
  | .inr o, .err s => Kept w fp t o s
  | _, _ => False

theorem Answer.trans {w w' t : World} {fp fp' : Nat → Prop} {a : Option Reduction ⊕ Obj}
    {b : Egested} (g : Grow w fp w' fp') (h : Answer w' fp' a t b) : Answer w fp a t b := by
  cases a <;> cases b
  · exact h
  · exact h.elim
  · exact h.elim
  · exact Kept.trans g h

theorem egest_sim (cfg : Cfg) {eg : EgestFn} {eg₀ : Clarith.EgestFn} (hE : EgSim eg eg₀)
    (f : Nat) : ∀ {h : Homographic} {w : World} {X : Strategy} {fp : Nat → Prop},
    Rep w h.x X fp → Bound w fp →
    Sim (egest cfg eg f) (h, w) (Clarith.Homographic.egest cfg eg₀ f ⟨X, h.k⟩) (Left w fp)
      (fun a t b => t.1.k = b.2.k ∧ Kept w fp t.2 t.1.x b.2.x ∧ Answer w fp a t.2 b.1) := by
  induction f with
  | zero =>
    intro h w X fp hR hB
    exact Sim.timeout ⟨X, fp, hR, .refl hB⟩
  | succ f ih =>
    intro h w X fp hR hB
    unfold egest Clarith.Homographic.egest
    refine Sim.modify_bind ?_
    obtain ⟨hR', hG⟩ := println_rep hR hB (w.printed ++ [h.k])
    refine Sim.bind (onK_attempt (s := (h, { w with printed := w.printed ++ [h.k] }))
      (Coef4.reductionAttempt_agree cfg h.k) fun k => ⟨X, fp, hR', hG⟩) ?_
    rintro a ⟨⟨x, k⟩, w1⟩ b ⟨e, ha⟩
    injection e with e1 e2
    injection e1 with e3 e4
    subst e2 e3
    rcases b with _ | ⟨p, k'⟩
    · obtain ⟨rfl, rfl⟩ := ha
      refine Sim.bind ((reductionIngest_sim cfg hE hR' hG.bound).mono
        (fun t ht => ht.trans hG) fun _ _ _ h => h) ?_
      rintro a ⟨⟨x', k'⟩, w'⟩ ⟨r, ⟨X', k''⟩⟩ ⟨e1, e2, fp', hR2, hG2⟩
      dsimp only at e1 e2 hR2 hG2
      subst e1 e2
      rcases a with _ | ratio
      · exact (ih (h := ⟨x', k'⟩) hR2 hG2.bound).mono (fun t ht => (ht.trans hG2).trans hG)
          fun _ _ _ h => ⟨h.1, (h.2.1.trans hG2).trans hG, (h.2.2.trans hG2).trans hG⟩
      · exact Sim.pure ⟨rfl, ⟨fp', hR2, hG.trans hG2⟩, fp', .ratio _ _, hG.trans hG2⟩
    · obtain ⟨rfl, rfl⟩ := ha
      exact Sim.pure ⟨rfl, ⟨fp, hR', hG⟩, rfl⟩

theorem asRatio_sim (cfg : Cfg) (n d : Int) {w : World} {fp : Nat → Prop} (hB : Bound w fp) :
    Sim (asRatio cfg n d) w (Clarith.Homographic.asRatio cfg n d) (fun t => Grow w fp t nowhere)
      (fun a t b => PrimedRep w fp a t b) := by
  have g : Grow w fp w nowhere := (Grow.refl hB).shrink fun _ h => h.elim
  unfold asRatio Clarith.Homographic.asRatio
  refine Sim.eval_bind g ?_
  rintro ⟨s, p, r⟩ -
  exact Sim.pure ⟨rfl, rfl, rfl, g⟩

end Homographic

/-- A number stands for a number of the first model. -/
inductive NumRep (w : World) (fp : Nat → Prop) : Number → Clarith.Number → Prop
  | special (s : Special) : NumRep w fp (.Special s) (.Special s)
  | other (p : Option Primer) {c : Obj} {C : Strategy} (h : Rep w c C fp) :
    NumRep w fp (.Other p c) (.Other p C)

theorem owned_sim {σ α β : Type} {s : σ} {m : Mut (σ × World) α} {w : World} {o : Out β}
    {J : World → Prop} {R : α → World → β → Prop}
    (h : Sim m (s, w) o (fun t => J t.2) (fun a t b => R a t.2 b)) :
    Sim (Homographic.owned s m) w o J R := by
  unfold Sim Homographic.owned at *
  revert h
  generalize m (s, w) = r
  obtain ⟨r, t⟩ := r
  cases r <;> exact id

namespace Homographic

theorem new_sim (cfg : Cfg) {eg : EgestFn} {eg₀ : Clarith.EgestFn} (hE : EgSim eg eg₀)
    (f : Nat) {x : Number} {x₀ : Clarith.Number} (nx n dx d : Int) {w : World} {fp : Nat → Prop}
    (hx : NumRep w fp x x₀) (hB : Bound w fp) :
    Sim (new cfg eg f x nx n dx d) w (Clarith.Homographic.new cfg eg₀ f x₀ nx n dx d)
      (fun t => Grow w fp t nowhere) (fun a t b => PrimedRep w fp a t b) := by
  have g : Grow w fp w nowhere := (Grow.refl hB).shrink fun _ h => h.elim
  unfold new Clarith.Homographic.new
  refine Sim.ite (fun _ => asRatio_sim cfg n d hB) fun _ => ?_
  cases hx with
  | special s =>
    cases s
    · exact Sim.eval_bind g fun _ _ => Sim.eval_bind g fun _ _ => asRatio_sim cfg _ _ hB
    · exact asRatio_sim cfg _ _ hB
    · exact Sim.eval_bind g fun _ _ => Sim.eval_bind g fun _ _ => asRatio_sim cfg _ _ hB
  | other p h =>
    refine Sim.eval_bind g fun k _ => ?_
    refine owned_sim ((prime_sim cfg hE f (h := ⟨_, k⟩) h hB).mono ?_ fun _ _ _ h => h)
    rintro t ⟨s, h⟩
    exact Kept.grow h

end Homographic

/-! ## `Combine` -/

namespace Combine

/-- What a panic leaves of a `Combine`. -/
def Left (w : World) (fp : Nat → Prop) (t : Combine × World) : Prop :=
  ∃ X Y, Kept w fp t.2 (.combine t.1.x t.1.y t.1.k) (.combine X Y t.1.k)

theorem Left.trans {w w' : World} {fp fp' : Nat → Prop} (h : Grow w fp w' fp')
    {t : Combine × World} (h' : Left w' fp' t) : Left w fp t := by
  obtain ⟨X, Y, h'⟩ := h'
  exact ⟨X, Y, h'.trans h⟩

theorem onK_sim {α : Type} {s : Combine × World} {m : Mut Coef8 α} {o : Out (α × Coef8)}
    {J : Combine × World → Prop} (h : Agree m s.1.k o)
    (hJ : ∀ k, J ({ s.1 with k := k }, s.2)) :
    Sim (onK m) s o J (fun a t b => a = b.1 ∧ t = ({ s.1 with k := b.2 }, s.2)) := by
  refine (Sim.part (s := s) (get := fun s => s.1.k)
    (put := fun k s => ({ s.1 with k := k }, s.2)) h).mono ?_ ?_
  · rintro t ⟨k, rfl, -⟩
    exact hJ k
  · rintro a t b ⟨k, rfl, rfl⟩
    exact ⟨rfl, rfl⟩

/-- The change of the coefficients by a symbol of an operand. -/
theorem onK_ingest {s : Combine × World} {m : Mut Coef8 Unit} {o : Out Coef8}
    {J : Combine × World → Prop} (h : Agree m s.1.k (o >>= fun k => pure ((), k)))
    (hJ : ∀ k, J ({ s.1 with k := k }, s.2)) :
    Sim (onK m) s o J (fun _ t b => t = ({ s.1 with k := b }, s.2)) := by
  have h1 := onK_sim (J := J) h hJ
  unfold Sim at h1 ⊢
  revert h1
  generalize onK m s = r
  obtain ⟨r, t⟩ := r
  cases o with
  | ok b =>
    cases r with
    | ok a =>
      rintro ⟨b', e1, -, e2⟩
      have e3 : ((), b) = b' := by injection e1
      rw [← e3] at e2
      exact ⟨b, rfl, e2⟩
    | panic p => exact fun h => by simp [Pure.pure, Bind.bind, Out.bind] at h
    | shared => exact id
    | timeout => exact fun h => by simp [Pure.pure, Bind.bind, Out.bind] at h
  | panic q =>
    cases r with
    | ok a => exact fun ⟨b, e1, _⟩ => by simp [Bind.bind, Out.bind] at e1
    | panic p =>
      rintro ⟨h, hj⟩
      have e : q = p := by injection h
      exact ⟨by rw [e], hj⟩
    | shared => exact id
    | timeout => exact fun h => by simp [Bind.bind, Out.bind] at h
  | timeout =>
    cases r with
    | ok a => exact fun ⟨b, e1, _⟩ => by simp [Bind.bind, Out.bind] at e1
    | panic p => exact fun h => by simp [Bind.bind, Out.bind] at h
    | shared => exact id
    | timeout => exact fun h => ⟨rfl, h.2⟩

theorem onK_attempt {α : Type} {s : Combine × World} {m : Mut Coef8 (Option α)}
    {A : Out (Option (α × Coef8))} {J : Combine × World → Prop}
    (h : Agree m s.1.k (A >>= attempt s.1.k)) (hJ : ∀ k, J ({ s.1 with k := k }, s.2)) :
    Sim (onK m) s A J (fun a t b => t = ({ s.1 with k := t.1.k }, s.2) ∧
      Attempted s.1.k a t.1.k b) := by
  refine (Sim.part (s := s) (get := fun s => s.1.k)
    (put := fun k s => ({ s.1 with k := k }, s.2)) h.attempt).mono ?_ ?_
  · rintro t ⟨k, rfl, -⟩
    exact hJ k
  · rintro a t b ⟨k, rfl, h⟩
    exact ⟨rfl, h⟩

theorem onW_sim {α β : Type} {c : Combine} {w : World} {m : Mut World α} {o : Out β}
    {J : World → Prop} {R : α → World → β → Prop} (h : Sim m w o J R) :
    Sim (onW m) (c, w) o (fun t => t.1 = c ∧ J t.2) (fun a t b => t.1 = c ∧ R a t.2 b) := by
  refine (Sim.part (s := (c, w)) (get := fun s => s.2) (put := fun w s => (s.1, w)) h).mono ?_ ?_
  · rintro t ⟨v, rfl, h⟩
    exact ⟨rfl, h⟩
  · rintro a t b ⟨v, rfl, h⟩
    exact ⟨rfl, h⟩

/-- The result of `prime_ingest` stands for the result in the first model. -/
def IngestRep (w : World) (fp : Nat → Prop) (a : Option Homographic.Primed) (t : Combine × World)
    (b : Clarith.Homographic.Primed ⊕ Clarith.Combine) : Prop :=
  match a, b with
  | some p, .inl P => Homographic.PrimedRep w fp p t.2 P
  | none, .inr C => t.1.k = C.k ∧
    Kept w fp t.2 (.combine t.1.x t.1.y t.1.k) (.combine C.x C.y t.1.k)
  | _, _ => False

theorem primeIngest_sim (cfg : Cfg) {eg : EgestFn} {eg₀ : Clarith.EgestFn} (hE : EgSim eg eg₀)
    (f : Nat) {c : Combine} {w : World} {X Y : Strategy} {fp : Nat → Prop}
    (hR : Rep w (.combine c.x c.y c.k) (.combine X Y c.k) fp) (hB : Bound w fp) :
    Sim (primeIngest cfg eg f) (c, w) (Clarith.Combine.primeIngest cfg eg₀ f ⟨X, Y, c.k⟩)
      (fun t => Grow w fp t.2 nowhere) (IngestRep w fp) := by
  unfold primeIngest Clarith.Combine.primeIngest
  refine Sim.get_bind ?_
  refine Sim.bind ((onW_sim (rcGetMut_x hE hR hB)).mono ?_ fun _ _ _ h => h) ?_
  · rintro t ⟨-, X', h⟩
    exact Homographic.Kept.grow h
  rintro a ⟨c', w'⟩ ⟨r, X'⟩ ⟨e, e', fp', hR', hG⟩
  dsimp only at e e' hR' hG
  subst e e'
  have g : Grow w fp w' nowhere := hG.shrink fun _ h => h.elim
  rcases a with _ | rx
  · refine Sim.get_bind (Sim.eval_bind g fun k _ => ?_)
    obtain ⟨oy, w2, fy, e, r2, g2⟩ := rcTryUnwrap_y hR' hG.bound
    refine Sim.run_bind (onW_run e) ?_
    refine Sim.bind ((onW_sim (Homographic.new_sim cfg hE f k.nx k.n k.dx k.d (.other none r2)
      g2.bound)).mono ?_ fun _ _ _ h => h) ?_
    · rintro t ⟨-, h⟩
      exact (hG.trans g2).trans h
    · rintro a t b ⟨-, h⟩
      exact Sim.pure (h.trans (hG.trans g2))
  · refine Sim.bind (onK_ingest (Coef8.ingestX_agree cfg rx c'.k) fun k => g) ?_
    rintro - t k rfl
    refine Sim.get_bind ?_
    refine Sim.bind ((onW_sim (rcGetMut_y hE (hR'.coef k) hG.bound)).mono ?_ fun _ _ _ h => h) ?_
    · rintro t ⟨-, Y', h⟩
      exact hG.trans (Homographic.Kept.grow h)
    rintro a ⟨c2, w2⟩ ⟨r, Y'⟩ ⟨e, e', fp2, hR2, hG2⟩
    dsimp only at e e' hR2 hG2
    subst e e'
    have g2 : Grow w fp w2 nowhere := (hG.trans hG2).shrink fun _ h => h.elim
    rcases a with _ | ry
    · refine Sim.get_bind (Sim.eval_bind g2 fun k _ => ?_)
      obtain ⟨ox, w3, fx, e, r3, g3⟩ := rcTryUnwrap_x hR2 hG2.bound
      refine Sim.run_bind (onW_run e) ?_
      refine Sim.bind ((onW_sim (Homographic.new_sim cfg hE f k.nx k.n k.dx k.d (.other none r3)
        g3.bound)).mono ?_ fun _ _ _ h => h) ?_
      · rintro t ⟨-, h⟩
        exact ((hG.trans hG2).trans g3).trans h
      · rintro a t b ⟨-, h⟩
        exact Sim.pure (h.trans ((hG.trans hG2).trans g3))
    · refine Sim.bind (onK_ingest (Coef8.ingestY_agree cfg ry k) fun k => g2) ?_
      rintro - t k' rfl
      exact Sim.pure ⟨rfl, fp2, hR2.coef k', hG.trans hG2⟩

/-- The result of `new` or `prime` stands for the result in the first model. -/
def PrimedRep (w : World) (fp : Nat → Prop) (a : Primed) (t : World)
    (b : Clarith.Combine.Primed) : Prop :=
  a.1 = b.1 ∧ a.2.1 = b.2.1 ∧ a.2.2.1 = b.2.2.1 ∧
    match a.2.2.2.1, b.2.2.2.1, a.2.2.2.2, b.2.2.2.2 with
    | some h, some H, none, none => Kept w fp t h.box H.box
    | none, none, some c, some C => Kept w fp t c.box C.box
    | none, none, none, none => Grow w fp t nowhere
    | _, _, _, _ => False

theorem PrimedRep.of_homographic {w t : World} {fp : Nat → Prop} {s : Option Special}
    {p : Option Primer} {r : Option Ratio} {h : Option Homographic}
    {b : Clarith.Homographic.Primed} (e : Homographic.PrimedRep w fp (s, p, r, h) t b) :
    PrimedRep w fp (s, p, r, h, none) t (b.1, b.2.1, b.2.2.1, b.2.2.2, none) := by
  obtain ⟨b1, b2, b3, b4⟩ := b
  obtain ⟨h1, h2, h3, h4⟩ := e
  refine ⟨h1, h2, h3, ?_⟩
  cases h <;> cases b4
  · exact h4
  · exact h4.elim
  · exact h4.elim
  · exact h4

theorem PrimedRep.trans {w w' t : World} {fp fp' : Nat → Prop} {a : Primed}
    {b : Clarith.Combine.Primed} (g : Grow w fp w' fp') (h : PrimedRep w' fp' a t b) :
    PrimedRep w fp a t b := by
  obtain ⟨a1, a2, a3, a4, a5⟩ := a
  obtain ⟨b1, b2, b3, b4, b5⟩ := b
  obtain ⟨h1, h2, h3, h4⟩ := h
  refine ⟨h1, h2, h3, ?_⟩
  cases a4 <;> cases b4 <;> cases a5 <;> cases b5 <;> first
    | exact h4.elim
    | exact Kept.trans g h4
    | exact g.trans h4

theorem prime_sim (cfg : Cfg) {eg : EgestFn} {eg₀ : Clarith.EgestFn} (hE : EgSim eg eg₀)
    (f : Nat) : ∀ {c : Combine} {w : World} {X Y : Strategy} {fp : Nat → Prop},
    Rep w (.combine c.x c.y c.k) (.combine X Y c.k) fp → Bound w fp →
    Sim (prime cfg eg f) (c, w) (Clarith.Combine.prime cfg eg₀ f ⟨X, Y, c.k⟩)
      (fun t => Grow w fp t.2 nowhere) (fun a t b => PrimedRep w fp a t.2 b) := by
  induction f with
  | zero =>
    intro c w X Y fp hR hB
    exact Sim.timeout ((Grow.refl hB).shrink fun _ h => h.elim)
  | succ f ih =>
    intro c w X Y fp hR hB
    have g : Grow w fp w nowhere := (Grow.refl hB).shrink fun _ h => h.elim
    unfold prime Clarith.Combine.prime
    refine Sim.bind (onK_attempt (s := (c, w)) (Coef8.primerAttempt_agree cfg c.k) fun k => g) ?_
    rintro a ⟨⟨x, y, k⟩, w1⟩ b ⟨e, ha⟩
    injection e with e1 e2
    injection e1 with e3 e4 e5
    subst e2 e3 e4
    rcases b with _ | ⟨p, k'⟩
    · obtain ⟨rfl, rfl⟩ := ha
      refine Sim.bind (primeIngest_sim cfg hE f hR hB) ?_
      rintro a ⟨⟨x', y', k'⟩, w'⟩ b h
      rcases a with _ | ⟨special, primer, ratio, homographic⟩
      · rcases b with b | ⟨X', Y', k''⟩
        · exact h.elim
        · obtain ⟨e, fp', hR', hG⟩ := h
          dsimp only at e hR' hG
          subst e
          exact (ih (c := ⟨x', y', k'⟩) hR' hG.bound).mono (fun t ht => hG.trans ht)
            fun _ _ _ h => h.trans hG
      · rcases b with ⟨b1, b2, b3, b4⟩ | b
        · exact Sim.pure (PrimedRep.of_homographic h)
        · exact h.elim
    · obtain ⟨rfl, rfl⟩ := ha
      exact Sim.get_bind (Sim.pure ⟨rfl, rfl, rfl, fp, hR.coef k, .refl hB⟩)

/-- The result of `reduction_ingest` stands for the result in the first model. -/
def ReducedRep (w : World) (fp : Nat → Prop) (a : Option Ratio × Option Homographic)
    (t : Combine × World)
    (b : (Option Ratio × Option Clarith.Homographic) × Clarith.Combine) : Prop :=
  t.1.k = b.2.k ∧ Kept w fp t.2 (.combine t.1.x t.1.y t.1.k) (.combine b.2.x b.2.y t.1.k) ∧
    a.1 = b.1.1 ∧
    match a.2, b.1.2 with
    | some h, some H => Kept w fp t.2 h.box H.box
    | none, none => True
    | _, _ => False

/-- An object out of the region of a change is kept. -/
theorem Kept.beside {w w' t : World} {fp fp' fq : Nat → Prop} {o : Obj} {s : Strategy}
    (h : Rep w' o s fp') (g : Grow w fp w' fp') (gf : Grow w fp w' fq) (sep : ∀ n, fq n → ¬ fp' n)
    (gq : Grow w' fq t nowhere) : Kept w fp t o s :=
  ⟨fp', h.frame fun n hn => gq.frame n (g.bound n hn) fun h => sep n h hn,
    ⟨(gf.trans gq).le, (gf.trans gq).frame, g.new,
      fun n hn => Nat.lt_of_lt_of_le (g.bound n hn) gq.le⟩⟩

theorem PrimedRep.grow {w t : World} {fp : Nat → Prop} {a : Homographic.Primed}
    {b : Clarith.Homographic.Primed} (h : Homographic.PrimedRep w fp a t b) :
    Grow w fp t nowhere := by
  obtain ⟨a1, a2, a3, a4⟩ := a
  obtain ⟨b1, b2, b3, b4⟩ := b
  obtain ⟨-, -, -, h4⟩ := h
  cases a4 <;> cases b4
  · exact h4
  · exact h4.elim
  · exact h4.elim
  · exact Homographic.Kept.grow h4

/-- The end of `reduction_ingest` after an input has been shut down. -/
theorem shut_sim (cfg : Cfg) {eg : EgestFn} {eg₀ : Clarith.EgestFn} (hE : EgSim eg eg₀)
    (f : Nat) {c : Combine} {w w' : World} {o : Obj} {s X Y : Strategy}
    {fp fo fp' : Nat → Prop} (k : Coef4)
    (ho : Rep w' o s fo) (hR : Rep w' (.combine c.x c.y c.k) (.combine X Y c.k) fp')
    (sep : ∀ n, fo n → ¬ fp' n) (go : Grow w fp w' fo) (gp : Grow w fp w' fp') :
    Sim (do
      match ← onW (Homographic.new cfg eg f (.Other none o) k.nx k.n k.dx k.d) with
      | (none, none, ratio, homographic) => pure (ratio, homographic)
      | _ => panic .logicError) (c, w')
      (do
        match ← Clarith.Homographic.new cfg eg₀ f (.Other none s) k.nx k.n k.dx k.d with
        | (none, none, ratio, homographic) => pure ((ratio, homographic), ⟨X, Y, c.k⟩)
        | _ => .panic .logicError)
      (Left w fp) (ReducedRep w fp) := by
  refine Sim.bind ((onW_sim (Homographic.new_sim cfg hE f k.nx k.n k.dx k.d (.other none ho)
    go.bound)).mono ?_ fun _ _ _ h => h) ?_
  · rintro ⟨c', t⟩ ⟨rfl, h⟩
    exact ⟨X, Y, Kept.beside hR gp go sep h⟩
  · rintro ⟨a1, a2, a3, a4⟩ ⟨c', t⟩ ⟨b1, b2, b3, b4⟩ ⟨rfl, h⟩
    have hk : Kept w fp t (.combine c'.x c'.y c'.k) (.combine X Y c'.k) :=
      Kept.beside hR gp go sep (PrimedRep.grow h)
    obtain ⟨h1, h2, h3, h4⟩ := h
    dsimp only at h1 h2 h3
    subst h1 h2 h3
    rcases a1 with _ | a1
    · rcases a2 with _ | a2
      · refine Sim.pure ⟨rfl, hk, rfl, ?_⟩
        cases a4 <;> cases b4
        · trivial
        · exact h4.elim
        · exact h4.elim
        · exact Kept.trans go h4
      · exact Sim.panic ⟨X, Y, hk⟩
    · exact Sim.panic ⟨X, Y, hk⟩

theorem reductionIngest_sim (cfg : Cfg) {eg : EgestFn} {eg₀ : Clarith.EgestFn} (hE : EgSim eg eg₀)
    (f : Nat) {c : Combine} {w : World} {X Y : Strategy} {fp : Nat → Prop}
    (hR : Rep w (.combine c.x c.y c.k) (.combine X Y c.k) fp) (hB : Bound w fp) :
    Sim (reductionIngest cfg eg f) (c, w) (Clarith.Combine.reductionIngest cfg eg₀ f ⟨X, Y, c.k⟩)
      (Left w fp) (ReducedRep w fp) := by
  unfold reductionIngest Clarith.Combine.reductionIngest
  refine Sim.get_bind ?_
  refine Sim.bind ((onW_sim (rcGetMut_x hE hR hB)).mono ?_ fun _ _ _ h => h) ?_
  · rintro ⟨c', t⟩ ⟨rfl, X', h⟩
    exact ⟨X', Y, h⟩
  rintro a ⟨c', w'⟩ ⟨r, X'⟩ ⟨e, e', fp', hR', hG⟩
  dsimp only at e e' hR' hG
  subst e e'
  obtain ⟨x, y, k0⟩ := c'
  have g : Left w fp (⟨x, y, k0⟩, w') := ⟨_, _, fp', hR', hG⟩
  rcases a with _ | rx
  · refine Sim.get_bind (Sim.eval_bind g fun k _ => ?_)
    obtain ⟨oy, w2, fy, fp2, e, r2, r3, sep, g2, g3⟩ := shutdownY_rep hR' hG.bound
    refine Sim.run_bind e ?_
    exact shut_sim cfg hE f k r2 r3 sep (hG.trans g2) (hG.trans g3)
  · refine Sim.bind (onK_ingest (Coef8.ingestX_agree cfg rx k0) fun k =>
      ⟨_, _, fp', hR'.coef k, hG⟩) ?_
    rintro - t k rfl
    refine Sim.get_bind ?_
    refine Sim.bind ((onW_sim (rcGetMut_y hE (hR'.coef k) hG.bound)).mono ?_ fun _ _ _ h => h) ?_
    · rintro ⟨c', t⟩ ⟨rfl, Y', h⟩
      exact ⟨X', Y', h.trans hG⟩
    rintro a ⟨c2, w2⟩ ⟨r, Y'⟩ ⟨e, e', fp2, hR2, hG2⟩
    dsimp only at e e' hR2 hG2
    subst e e'
    have g2 : Left w fp (⟨x, y, k⟩, w2) := ⟨_, _, fp2, hR2, hG.trans hG2⟩
    rcases a with _ | ry
    · refine Sim.get_bind (Sim.eval_bind g2 fun k4 _ => ?_)
      obtain ⟨ox, w3, fx, fp3, e, r3, r4, sep, g3, g4⟩ := shutdownX_rep hR2 hG2.bound
      refine Sim.run_bind e ?_
      exact shut_sim cfg hE f k4 r3 r4 sep ((hG.trans hG2).trans g3) ((hG.trans hG2).trans g4)
    · refine Sim.bind (onK_ingest (Coef8.ingestY_agree cfg ry k) fun k =>
        ⟨_, _, fp2, hR2.coef k, hG.trans hG2⟩) ?_
      rintro - t k' rfl
      exact Sim.pure ⟨rfl, ⟨fp2, hR2.coef k', hG.trans hG2⟩, rfl, trivial⟩

theorem egest_sim (cfg : Cfg) {eg : EgestFn} {eg₀ : Clarith.EgestFn} (hE : EgSim eg eg₀)
    (f : Nat) : ∀ {c : Combine} {w : World} {X Y : Strategy} {fp : Nat → Prop},
    Rep w (.combine c.x c.y c.k) (.combine X Y c.k) fp → Bound w fp →
    Sim (egest cfg eg f) (c, w) (Clarith.Combine.egest cfg eg₀ f ⟨X, Y, c.k⟩) (Left w fp)
      (fun a t b => Kept w fp t.2 t.1.box b.2.box ∧ Homographic.Answer w fp a t.2 b.1) := by
  induction f with
  | zero =>
    intro c w X Y fp hR hB
    exact Sim.timeout ⟨X, Y, fp, hR, .refl hB⟩
  | succ f ih =>
    intro c w X Y fp hR hB
    unfold egest Clarith.Combine.egest
    refine Sim.bind (onK_attempt (s := (c, w)) (Coef8.reductionAttempt_agree cfg c.k) fun k =>
      ⟨X, Y, fp, hR.coef k, .refl hB⟩) ?_
    rintro a ⟨⟨x, y, k⟩, w1⟩ b ⟨e, ha⟩
    injection e with e1 e2
    injection e1 with e3 e4 e5
    subst e2 e3 e4
    rcases b with _ | ⟨p, k'⟩
    · obtain ⟨rfl, rfl⟩ := ha
      refine Sim.bind (reductionIngest_sim cfg hE f hR hB) ?_
      rintro ⟨ratio, homographic⟩ ⟨⟨x', y', k'⟩, w'⟩ ⟨⟨b1, b2⟩, ⟨X', Y', k''⟩⟩ ⟨e1, hk, e2, h⟩
      dsimp only at e1 e2 hk h
      subst e1 e2
      rcases homographic with _ | homographic
      · rcases b2 with _ | b2
        · rcases ratio with _ | ratio
          · obtain ⟨fp', hR', hG⟩ := hk
            exact (ih (c := ⟨x', y', k'⟩) hR' hG.bound).mono (fun t ht => ht.trans hG)
              fun _ _ _ h => ⟨h.1.trans hG, h.2.trans hG⟩
          · refine Sim.pure ⟨hk, ?_⟩
            obtain ⟨fp', hR', hG⟩ := hk
            exact ⟨fp', .ratio _ _, hG⟩
        · exact h.elim
      · rcases b2 with _ | b2
        · exact h.elim
        · rcases ratio with _ | ratio <;> exact Sim.pure ⟨hk, h⟩
    · obtain ⟨rfl, rfl⟩ := ha
      exact Sim.pure ⟨⟨fp, hR.coef k, .refl hB⟩, rfl⟩

theorem asHomographic_sim (cfg : Cfg) {eg : EgestFn} {eg₀ : Clarith.EgestFn} (hE : EgSim eg eg₀)
    (f : Nat) {x : Number} {x₀ : Clarith.Number} (nx n dx d : Int) {w : World} {fp : Nat → Prop}
    (hx : NumRep w fp x x₀) (hB : Bound w fp) :
    Sim (asHomographic cfg eg f x nx n dx d) w
      (Clarith.Combine.asHomographic cfg eg₀ f x₀ nx n dx d)
      (fun t => Grow w fp t nowhere) (fun a t b => PrimedRep w fp a t b) := by
  refine Sim.bind (Homographic.new_sim cfg hE f nx n dx d hx hB) ?_
  rintro ⟨a1, a2, a3, a4⟩ t ⟨b1, b2, b3, b4⟩ h
  exact Sim.pure (PrimedRep.of_homographic h)

end Combine

theorem NumRep.sub {w : World} {fp fp' : Nat → Prop} {x : Number} {x₀ : Clarith.Number}
    (h : NumRep w fp x x₀) (e : ∀ n, fp n → fp' n) : NumRep w fp' x x₀ := by
  cases h with
  | special s => exact .special s
  | other p h => exact .other p (h.sub e)

namespace Combine

theorem new_sim (cfg : Cfg) {eg : EgestFn} {eg₀ : Clarith.EgestFn} (hE : EgSim eg eg₀)
    (f : Nat) {x y : Number} {x₀ y₀ : Clarith.Number} (k : Coef8) {w : World}
    {fx fy : Nat → Prop} (hx : NumRep w fx x x₀) (hy : NumRep w fy y y₀)
    (sep : ∀ n, fx n → ¬ fy n) (hBx : Bound w fx) (hBy : Bound w fy) :
    Sim (new cfg eg f x y k) w (Clarith.Combine.new cfg eg₀ f x₀ y₀ k)
      (fun t => Grow w (fun n => fx n ∨ fy n) t nowhere)
      (fun a t b => PrimedRep w (fun n => fx n ∨ fy n) a t b) := by
  have hB : Bound w (fun n => fx n ∨ fy n) := fun n h => h.elim (hBx n) (hBy n)
  have g : Grow w (fun n => fx n ∨ fy n) w nowhere := (Grow.refl hB).shrink fun _ h => h.elim
  have hx' := hx.sub (fp' := fun n => fx n ∨ fy n) fun n h => .inl h
  have hy' := hy.sub (fp' := fun n => fx n ∨ fy n) fun n h => .inr h
  cases hx with
  | special s =>
    cases s
    · exact Sim.eval_bind g fun _ _ => Sim.eval_bind g fun _ _ => Sim.eval_bind g fun _ _ =>
        Sim.eval_bind g fun _ _ => asHomographic_sim cfg hE f _ _ _ _ hy' hB
    · exact asHomographic_sim cfg hE f _ _ _ _ hy' hB
    · exact Sim.eval_bind g fun _ _ => Sim.eval_bind g fun _ _ => Sim.eval_bind g fun _ _ =>
        Sim.eval_bind g fun _ _ => asHomographic_sim cfg hE f _ _ _ _ hy' hB
  | @other px cx CX rx =>
    cases hy with
    | special s =>
      cases s
      · exact Sim.eval_bind g fun _ _ => Sim.eval_bind g fun _ _ => Sim.eval_bind g fun _ _ =>
          Sim.eval_bind g fun _ _ => asHomographic_sim cfg hE f _ _ _ _ hx' hB
      · exact asHomographic_sim cfg hE f _ _ _ _ hx' hB
      · exact Sim.eval_bind g fun _ _ => Sim.eval_bind g fun _ _ => Sim.eval_bind g fun _ _ =>
          Sim.eval_bind g fun _ _ => asHomographic_sim cfg hE f _ _ _ _ hx' hB
    | @other py cy CY ry =>
      refine Sim.eval_bind g fun k1 _ => Sim.eval_bind g fun k2 _ => ?_
      let w1 : World := { w.put w.fresh (some ⟨1, cx⟩) with fresh := w.fresh + 1 }
      let w2 : World := { w1.put (w.fresh + 1) (some ⟨1, cy⟩) with fresh := w.fresh + 1 + 1 }
      refine Sim.run_bind (t := w1) (a := w.fresh) rfl ?_
      refine Sim.run_bind (t := w2) (a := w.fresh + 1) rfl ?_
      have old : ∀ n, n < w.fresh → w2.cells n = w.cells n := by
        intro n hn
        show (w1.put (w.fresh + 1) _).cells n = _
        rw [put_other _ _ (by omega)]
        show (w.put w.fresh _).cells n = _
        rw [put_other _ _ (by omega)]
      have c1 : w2.cells w.fresh = some ⟨1, cx⟩ := by
        show (w1.put (w.fresh + 1) _).cells w.fresh = _
        rw [put_other _ _ (by omega)]
        exact put_self _ _ _
      have c2 : w2.cells (w.fresh + 1) = some ⟨1, cy⟩ := put_self _ _ _
      let fp : Nat → Prop := fun n => fx n ∨ fy n ∨ n = w.fresh ∨ n = w.fresh + 1
      have hR : Rep w2 (.combine w.fresh (w.fresh + 1) k2) (.combine CX CY k2) fp := by
        refine .combine k2 (ox := cx) (oy := cy) (fx := fx) (fy := fy) c1 c2 (by omega)
          (rx.frame fun n hn => old n (hBx n hn)) (ry.frame fun n hn => old n (hBy n hn))
          ?_ ?_ ?_ ?_ sep (fun n h => .inl h) (fun n h => .inr (.inl h)) (.inr (.inr (.inl rfl)))
          (.inr (.inr (.inr rfl)))
        · exact fun h => by have := hBx _ h; omega
        · exact fun h => by have := hBy _ h; omega
        · exact fun h => by have := hBx _ h; omega
        · exact fun h => by have := hBy _ h; omega
      have hG : Grow w (fun n => fx n ∨ fy n) w2 fp := by
        refine ⟨?_, fun n hn _ => old n hn, ?_, ?_⟩
        · show w.fresh ≤ w.fresh + 1 + 1
          omega
        · rintro n (h | h | rfl | rfl)
          · exact .inl (.inl h)
          · exact .inl (.inr h)
          · exact .inr (Nat.le_refl _)
          · exact .inr (Nat.le_succ _)
        · show ∀ n, fp n → n < w.fresh + 1 + 1
          rintro n (h | h | rfl | rfl)
          · have := hBx n h
            omega
          · have := hBy n h
            omega
          · omega
          · omega
      exact owned_sim ((prime_sim cfg hE f (c := ⟨w.fresh, w.fresh + 1, k2⟩) hR hG.bound).mono
        (fun t ht => hG.trans ht) fun _ _ _ h => h.trans hG)

end Combine

/-! ## `Clog` -/

theorem strategyEgest_sim (cfg : Cfg) {eg : EgestFn} {eg₀ : Clarith.EgestFn} (hE : EgSim eg eg₀)
    (f : Nat) {o : Obj} {w : World} {s : Strategy} {fp : Nat → Prop} (hR : Rep w o s fp)
    (hB : Bound w fp) :
    Sim (strategyEgest cfg eg f) (o, w) (Strategy.egest cfg eg₀ f s)
      (fun t => ∃ s', Kept w fp t.2 t.1 s')
      (fun a t b => Kept w fp t.2 t.1 b.2 ∧ Homographic.Answer w fp a t.2 b.1) := by
  cases hR with
  | ratio r fp =>
    have h := Ratio.egest_agree cfg r
    unfold Agree Sim at h
    unfold Sim strategyEgest Strategy.egest
    dsimp only
    revert h
    generalize Ratio.egest cfg r = q
    obtain ⟨q, t⟩ := q
    cases q with
    | ok a =>
      rintro ⟨b, e, rfl⟩
      rw [e]
      exact ⟨_, rfl, ⟨fp, .ratio _ _, .refl hB⟩, rfl⟩
    | panic p =>
      rintro ⟨e, -⟩
      rw [e]
      exact ⟨rfl, _, fp, .ratio _ _, .refl hB⟩
    | shared => exact id
    | timeout =>
      rintro ⟨e, -⟩
      rw [e]
      exact ⟨rfl, _, fp, .ratio _ _, .refl hB⟩
  | @homographic x X _ k h =>
    have h := Homographic.egest_sim cfg hE f (h := ⟨x, k⟩) h hB
    unfold Sim at h
    unfold Sim strategyEgest Strategy.egest
    dsimp only at h ⊢
    revert h
    generalize Homographic.egest cfg eg f (⟨x, k⟩, w) = q
    obtain ⟨q, ⟨x', k'⟩, w'⟩ := q
    cases q with
    | ok a =>
      rintro ⟨⟨b, ⟨X', k''⟩⟩, e, e1, ⟨fp', r, g⟩, h⟩
      dsimp only at e1 r
      subst e1
      rw [e]
      exact ⟨_, rfl, ⟨fp', .homographic k' r, g⟩, h⟩
    | panic p =>
      rintro ⟨e, s', fp', r, g⟩
      rw [e]
      exact ⟨rfl, _, fp', .homographic k' r, g⟩
    | shared => exact id
    | timeout =>
      rintro ⟨e, s', fp', r, g⟩
      rw [e]
      exact ⟨rfl, _, fp', .homographic k' r, g⟩
  | @combine x y ox oy X Y fx fy _ k hi hj hij rx ry ix iy jx jy sep sx sy mi mj =>
    have hR : Rep w (.combine x y k) (.combine X Y k) fp :=
      .combine k hi hj hij rx ry ix iy jx jy sep sx sy mi mj
    have h := Combine.egest_sim cfg hE f (c := ⟨x, y, k⟩) hR hB
    unfold Sim at h
    unfold Sim strategyEgest Strategy.egest
    dsimp only at h ⊢
    revert h
    generalize Combine.egest cfg eg f (⟨x, y, k⟩, w) = q
    obtain ⟨q, c', w'⟩ := q
    cases q with
    | ok a =>
      rintro ⟨⟨b, C⟩, e, h1, h2⟩
      rw [e]
      exact ⟨_, rfl, h1, h2⟩
    | panic p =>
      rintro ⟨e, X', Y', h⟩
      rw [e]
      exact ⟨rfl, _, h⟩
    | shared => exact id
    | timeout =>
      rintro ⟨e, X', Y', h⟩
      rw [e]
      exact ⟨rfl, _, h⟩

/-- `Clog::egest` agrees with the first model. -/
theorem egest_sim (cfg : Cfg) (f : Nat) : EgSim (egest cfg f) (Clog.egest cfg f) := by
  induction f with
  | zero =>
    intro o w s fp hR hB
    exact Sim.timeout ⟨s, fp, hR, .refl hB⟩
  | succ f ih =>
    intro o w s fp hR hB
    unfold egest Clog.egest
    refine Sim.bind (strategyEgest_sim cfg ih f hR hB) ?_
    rintro a ⟨o', w'⟩ ⟨b, s'⟩ ⟨hk, h⟩
    rcases a with r | o2
    · cases b with
      | ok r' =>
        obtain rfl : r = r' := h
        exact Sim.pure ⟨rfl, hk⟩
      | err s2 => exact h.elim
    · cases b with
      | ok r' => exact h.elim
      | err s2 =>
        obtain ⟨fp2, r2, g2⟩ := h
        refine Sim.modify_bind ?_
        exact (ih o2 w' s2 fp2 r2 g2.bound).mono
          (fun t ⟨s3, h⟩ => ⟨s3, h.trans g2⟩) fun _ _ _ h => ⟨h.1, h.2.trans g2⟩

end Clarith.Steps
