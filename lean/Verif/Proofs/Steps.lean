import Verif.Model.Steps

/-! # The statement-by-statement model agrees with the first model

`Sim m s o J R` compares a piece of code `m` started in `s` with an outcome `o` of the first model:
the same panics, the same fuel, never a failed `unwrap` of an `Rc`; `R` relates the results; `J`
holds of the state that a panic leaves behind. -/

namespace Clarith.Steps

open Mut

theorem out_bind_assoc {α β γ : Type} (o : Out α) (q : α → Out β) (r : β → Out γ) :
    ((o >>= q) >>= r) = (o >>= fun a => q a >>= r) := by
  cases o <;> rfl

theorem out_pure_bind {α β : Type} (a : α) (q : α → Out β) : ((pure a : Out α) >>= q) = q a := rfl

theorem out_panic_bind {α β : Type} (p : Panic) (q : α → Out β) :
    ((Out.panic p : Out α) >>= q) = .panic p := rfl

theorem out_ite_bind {α β : Type} (c : Prop) [Decidable c] (a b : Out α) (q : α → Out β) :
    ((if c then a else b) >>= q) = if c then a >>= q else b >>= q := by
  split <;> rfl

theorem out_bind_pure {α : Type} (o : Out α) : (o >>= fun a => pure a) = o := by
  cases o <;> rfl

/-- See above. -/
def Sim {σ α β : Type} (m : Mut σ α) (s : σ) (o : Out β) (J : σ → Prop)
    (R : α → σ → β → Prop) : Prop :=
  match m s with
  | (.ok a, t) => ∃ b, o = .ok b ∧ R a t b
  | (.panic p, t) => o = .panic p ∧ J t
  | (.shared, _) => False
  | (.timeout, t) => o = .timeout ∧ J t

namespace Sim

variable {σ α β γ δ : Type} {m : Mut σ α} {s : σ} {o : Out β} {J : σ → Prop}
  {R : α → σ → β → Prop}

theorem pure {a : α} {b : β} (h : R a s b) : Sim (Pure.pure a) s (Pure.pure b) J R := ⟨b, rfl, h⟩

theorem panic {p : Panic} (h : J s) : Sim (Mut.panic p) s (.panic p) J R := ⟨rfl, h⟩

theorem timeout (h : J s) : Sim Mut.timeout s .timeout J R := ⟨rfl, h⟩

theorem mono {J' : σ → Prop} {R' : α → σ → β → Prop} (h : Sim m s o J R) (hJ : ∀ t, J t → J' t)
    (hR : ∀ a t b, R a t b → R' a t b) : Sim m s o J' R' := by
  unfold Sim at h ⊢
  revert h
  generalize m s = r
  obtain ⟨r, t⟩ := r
  cases r with
  | ok a => exact fun ⟨b, e, h⟩ => ⟨b, e, hR _ _ _ h⟩
  | panic p => exact fun ⟨e, h⟩ => ⟨e, hJ _ h⟩
  | shared => exact id
  | timeout => exact fun ⟨e, h⟩ => ⟨e, hJ _ h⟩

theorem bind {g : α → Mut σ γ} {q : β → Out δ} {R' : γ → σ → δ → Prop}
    (h : Sim m s o J R) (k : ∀ a t b, R a t b → Sim (g a) t (q b) J R') :
    Sim (m >>= g) s (o >>= q) J R' := by
  have e : (m >>= g) s = Mut.bind m g s := rfl
  unfold Sim at h ⊢
  rw [e, Mut.bind]
  revert h
  generalize m s = r
  obtain ⟨r, t⟩ := r
  cases r with
  | ok a =>
    rintro ⟨b, rfl, h⟩
    exact k a t b h
  | panic p =>
    rintro ⟨rfl, h⟩
    exact ⟨rfl, h⟩
  | shared => exact fun h => h.elim
  | timeout =>
    rintro ⟨rfl, h⟩
    exact ⟨rfl, h⟩

theorem get_bind {g : σ → Mut σ α} (h : Sim (g s) s o J R) : Sim (get >>= g) s o J R := h

theorem modify_bind {f : σ → σ} {g : Unit → Mut σ α} (h : Sim (g ()) (f s) o J R) :
    Sim (modify f >>= g) s o J R := h

theorem modify {f : σ → σ} {b : β} {R : Unit → σ → β → Prop} (h : R () (f s) b) :
    Sim (Mut.modify f) s (Pure.pure b) J R := ⟨b, rfl, h⟩

theorem eval_bind {u : Out γ} {g : γ → Mut σ α} {q : γ → Out β} (hJ : J s)
    (k : ∀ c, u = .ok c → Sim (g c) s (q c) J R) :
    Sim (Mut.eval u >>= g) s (u >>= q) J R := by
  cases u with
  | ok a => exact k a rfl
  | panic p => exact ⟨rfl, hJ⟩
  | timeout => exact ⟨rfl, hJ⟩

theorem ite {c : Prop} [Decidable c] {m m' : Mut σ α} {o o' : Out β}
    (h : c → Sim m s o J R) (h' : ¬ c → Sim m' s o' J R) :
    Sim (if c then m else m') s (if c then o else o') J R := by
  by_cases hc : c
  · rw [if_pos hc, if_pos hc]
    exact h hc
  · rw [if_neg hc, if_neg hc]
    exact h' hc

end Sim

/-- Agreement of code that works on plain data. -/
def Agree {σ α : Type} (m : Mut σ α) (s : σ) (o : Out (α × σ)) : Prop :=
  Sim m s o (fun _ => True) (fun a t b => b = (a, t))

theorem Agree.step {σ α β : Type} {m : Mut σ Unit} {s : σ} {o : Out σ} {g : Unit → Mut σ α}
    {q : σ → Out β} {R : α → σ → β → Prop} (h : Agree m s (o >>= fun k => pure ((), k)))
    (k : ∀ t, Sim (g ()) t (q t) (fun _ => True) R) :
    Sim (m >>= g) s (o >>= q) (fun _ => True) R := by
  have h' := Sim.bind (g := g) (q := fun b => q b.2) (R' := R) h
    (by rintro a t _ rfl; exact k t)
  simpa only [out_bind_assoc, out_pure_bind] using h'

theorem Agree.move {σ α β : Type} {m : Mut σ Unit} {s t : σ} {o : Out β} {g : Unit → Mut σ α}
    {R : α → σ → β → Prop} (h : Agree m s (pure ((), t)))
    (k : Sim (g ()) t o (fun _ => True) R) : Sim (m >>= g) s o (fun _ => True) R := by
  have e : (m >>= g) s = Mut.bind m g s := rfl
  unfold Agree Sim at h
  unfold Sim at k ⊢
  rw [e, Mut.bind]
  revert h
  generalize m s = r
  obtain ⟨r, u⟩ := r
  cases r with
  | ok a =>
    rintro ⟨b, h1, h2⟩
    obtain rfl : ((), t) = b := by injection h1
    obtain rfl : t = u := by injection h2
    exact k
  | panic p => exact fun h => by simp [Pure.pure] at h
  | shared => exact fun h => h.elim
  | timeout => exact fun h => by simp [Pure.pure] at h

/-- One step of the proof of an agreement. -/
macro "agree_step" : tactic => `(tactic| first
  | with_reducible refine Sim.ite (fun _ => ?_) (fun _ => ?_)
  | with_reducible refine Sim.get_bind ?_
  | with_reducible refine Sim.modify_bind ?_
  | with_reducible refine Sim.eval_bind trivial (fun _ _ => ?_)
  | with_reducible exact Sim.panic trivial
  | with_reducible refine Sim.pure ?_; rfl
  | with_reducible refine Sim.modify ?_; rfl
  | dsimp only)

macro "agree" : tactic => `(tactic| repeat' agree_step)

theorem Ratio.egest_agree (cfg : Cfg) (r : Ratio) :
    Agree (Ratio.egest cfg) r (r.egest cfg) := by
  unfold Agree Ratio.egest Clarith.Ratio.egest
  refine Sim.get_bind ?_
  by_cases h : r.num > r.den / 2
  · rw [if_pos h, if_pos h]
    refine Sim.modify_bind (Sim.get_bind (Sim.eval_bind trivial fun _ _ => ?_))
    exact Sim.modify_bind (Sim.pure rfl)
  · rw [if_neg h, if_neg h]
    by_cases h2 : r.den % 2 = 0
    · rw [if_pos h2, if_pos h2]
      refine Sim.modify_bind (Sim.get_bind ?_)
      by_cases h3 : r.num = r.den / 2
      · simp only [if_pos h3]
        refine Sim.eval_bind trivial fun _ _ => ?_
        exact Sim.modify_bind (Sim.pure rfl)
      · simp only [if_neg h3]
        exact Sim.pure rfl
    · rw [if_neg h2, if_neg h2]
      refine Sim.eval_bind trivial fun _ _ => ?_
      exact Sim.modify_bind (Sim.pure rfl)

namespace Coef4

theorem ingestAmplify_agree (cfg : Cfg) (k : Clarith.Coef4) :
    Agree (ingestAmplify cfg) k (k.ingestAmplify cfg >>= fun k => pure ((), k)) := by
  unfold Agree ingestAmplify Clarith.Coef4.ingestAmplify
  refine Sim.get_bind ?_
  split <;> simp only [out_bind_assoc, out_pure_bind] <;> agree

theorem ingestUncover_agree (cfg : Cfg) (k : Clarith.Coef4) :
    Agree (ingestUncover cfg) k (k.ingestUncover cfg >>= fun k => pure ((), k)) := by
  unfold Agree ingestUncover Clarith.Coef4.ingestUncover
  simp only [out_bind_assoc, out_pure_bind]
  agree

theorem ground_agree (cfg : Cfg) (k : Clarith.Coef4) :
    Agree (ground cfg) k (k.ground cfg >>= fun k => pure ((), k)) := by
  unfold Agree ground Clarith.Coef4.ground
  simp only [out_bind_assoc, out_pure_bind]
  agree

theorem reflect_agree (cfg : Cfg) (k : Clarith.Coef4) :
    Agree (reflect cfg) k (k.reflect cfg >>= fun k => pure ((), k)) := by
  unfold Agree reflect Clarith.Coef4.reflect
  simp only [out_bind_assoc, out_pure_bind]
  agree

theorem turn_agree (k : Clarith.Coef4) : Agree turn k (pure ((), k.turn)) := by
  unfold Agree turn Clarith.Coef4.turn
  agree

theorem uncover_agree (cfg : Cfg) (k : Clarith.Coef4) :
    Agree (uncover cfg) k (k.uncover cfg >>= fun k => pure ((), k)) := by
  unfold Agree uncover Clarith.Coef4.uncover
  simp only [out_bind_assoc, out_pure_bind]
  agree

theorem amplify_agree (cfg : Cfg) (k : Clarith.Coef4) :
    Agree (amplify cfg) k (k.amplify cfg >>= fun k => pure ((), k)) := by
  unfold Agree amplify Clarith.Coef4.amplify
  refine Sim.get_bind ?_
  split <;> simp only [out_bind_assoc, out_pure_bind] <;> agree

end Coef4

/-- The result of an attempt in the first model, in the form of the second: `none` leaves the
coefficients as they are. -/
def attempt {α κ : Type} (k : κ) : Option (α × κ) → Out (Option α × κ)
  | some (a, k) => pure (some a, k)
  | none => pure (none, k)

theorem attempt_some {α κ : Type} (k : κ) (a : α) (k' : κ) :
    attempt k (some (a, k')) = pure (some a, k') := rfl

theorem attempt_none {α κ : Type} (k : κ) :
    attempt k (none : Option (α × κ)) = pure (none, k) := rfl

namespace Coef4

theorem primerEgest_agree (cfg : Cfg) (k : Clarith.Coef4) :
    Agree (primerEgest cfg) k (k.primerEgest cfg >>= attempt k) := by
  unfold Agree primerEgest Clarith.Coef4.primerEgest
  simp only [out_bind_assoc, out_pure_bind, out_ite_bind, attempt_some, attempt_none]
  refine Sim.get_bind (Sim.eval_bind trivial fun c _ => ?_)
  obtain ⟨nmin, dmin, nmax, dmax⟩ := c
  refine Sim.ite (fun _ => Sim.pure rfl) fun _ => ?_
  refine Sim.eval_bind trivial fun _ _ => ?_
  refine Sim.ite (fun _ => Sim.pure rfl) fun _ => ?_
  refine Sim.eval_bind trivial fun _ _ => ?_
  refine Sim.ite (fun _ => ?_) fun _ => ?_
  · exact (ground_agree cfg k).step fun _ => Sim.pure rfl
  refine Sim.ite (fun _ => ?_) fun _ => ?_
  · exact (turn_agree k).move (Sim.pure rfl)
  refine Sim.eval_bind trivial fun _ _ => ?_
  refine Sim.ite (fun _ => ?_) fun _ => ?_
  · exact (reflect_agree cfg k).step fun _ => Sim.pure rfl
  agree

theorem reductionEgest_agree (cfg : Cfg) (k : Clarith.Coef4) :
    Agree (reductionEgest cfg) k (k.reductionEgest cfg >>= attempt k) := by
  unfold Agree reductionEgest Clarith.Coef4.reductionEgest
  simp only [out_bind_assoc, out_pure_bind, out_ite_bind, attempt_some, attempt_none,
    out_panic_bind]
  refine Sim.get_bind (Sim.eval_bind trivial fun c _ => ?_)
  obtain ⟨nmin, dmin, nmax, dmax⟩ := c
  refine Sim.ite (fun _ => Sim.panic trivial) fun _ => ?_
  refine Sim.ite (fun _ => Sim.panic trivial) fun _ => ?_
  refine Sim.eval_bind trivial fun _ _ => ?_
  refine Sim.ite (fun _ => Sim.pure rfl) fun _ => ?_
  refine Sim.eval_bind trivial fun _ _ => ?_
  refine Sim.ite (fun _ => ?_) fun _ => ?_
  · exact (amplify_agree cfg k).step fun _ => Sim.pure rfl
  refine Sim.eval_bind trivial fun _ _ => ?_
  refine Sim.ite (fun _ => ?_) fun _ => Sim.pure rfl
  exact (uncover_agree cfg k).step fun _ => Sim.pure rfl

theorem primerAttempt_agree (cfg : Cfg) (k : Clarith.Coef4) :
    Agree (primerAttempt cfg) k (k.primerAttempt cfg >>= attempt k) := by
  unfold Agree primerAttempt Clarith.Coef4.primerAttempt
  simp only [out_bind_assoc, out_pure_bind, out_ite_bind, attempt_none]
  refine Sim.get_bind (Sim.eval_bind trivial fun c _ => ?_)
  exact Sim.ite (fun _ => primerEgest_agree cfg k) fun _ => Sim.pure rfl

theorem reductionAttempt_agree (cfg : Cfg) (k : Clarith.Coef4) :
    Agree (reductionAttempt cfg) k (k.reductionAttempt cfg >>= attempt k) := by
  unfold Agree reductionAttempt Clarith.Coef4.reductionAttempt
  simp only [out_bind_assoc, out_pure_bind, out_ite_bind, attempt_none]
  refine Sim.get_bind (Sim.eval_bind trivial fun c _ => ?_)
  exact Sim.ite (fun _ => reductionEgest_agree cfg k) fun _ => Sim.pure rfl

end Coef4

namespace Coef8

theorem turn_agree (k : Clarith.Coef8) : Agree turn k (pure ((), k.turn)) := by
  unfold Agree turn Clarith.Coef8.turn
  agree

theorem reflect_agree (cfg : Cfg) (k : Clarith.Coef8) :
    Agree (reflect cfg) k (k.reflect cfg >>= fun k => pure ((), k)) := by
  unfold Agree reflect Clarith.Coef8.reflect
  simp only [out_bind_assoc, out_pure_bind]
  agree

theorem ground_agree (cfg : Cfg) (k : Clarith.Coef8) :
    Agree (ground cfg) k (k.ground cfg >>= fun k => pure ((), k)) :=
  reflect_agree cfg k.turn

theorem shift_agree (cfg : Cfg) (k : Clarith.Coef8) :
    Agree (shift cfg) k (k.shift cfg >>= fun k => pure ((), k)) := by
  unfold Agree shift Clarith.Coef8.shift
  simp only [out_bind_assoc, out_pure_bind]
  agree

theorem shiftX_agree (cfg : Cfg) (k : Clarith.Coef8) :
    Agree (shiftX cfg) k (k.shiftX cfg >>= fun k => pure ((), k)) := by
  unfold Agree shiftX Clarith.Coef8.shiftX
  simp only [out_bind_assoc, out_pure_bind]
  agree

theorem shiftY_agree (cfg : Cfg) (k : Clarith.Coef8) :
    Agree (shiftY cfg) k (k.shiftY cfg >>= fun k => pure ((), k)) := by
  unfold Agree shiftY Clarith.Coef8.shiftY
  simp only [out_bind_assoc, out_pure_bind]
  agree

theorem uncover_agree (cfg : Cfg) (k : Clarith.Coef8) :
    Agree (uncover cfg) k (k.uncover cfg >>= fun k => pure ((), k)) :=
  shift_agree cfg k.turn

theorem amplify_agree (cfg : Cfg) (k : Clarith.Coef8) :
    Agree (amplify cfg) k (k.amplify cfg >>= fun k => pure ((), k)) := by
  unfold Agree amplify Clarith.Coef8.amplify
  simp only [out_bind_assoc, out_pure_bind, out_ite_bind]
  agree

theorem ingestX_agree (cfg : Cfg) (r : Reduction) (k : Clarith.Coef8) :
    Agree (ingestX cfg r) k (k.ingestX cfg r >>= fun k => pure ((), k)) := by
  cases r with
  | Amplify =>
    unfold Agree ingestX Clarith.Coef8.ingestX amplifyX Clarith.Coef8.amplifyX
    simp only [out_bind_assoc, out_pure_bind, out_ite_bind]
    agree
  | Uncover => exact shiftX_agree cfg k.turnX

theorem ingestY_agree (cfg : Cfg) (r : Reduction) (k : Clarith.Coef8) :
    Agree (ingestY cfg r) k (k.ingestY cfg r >>= fun k => pure ((), k)) := by
  cases r with
  | Amplify =>
    unfold Agree ingestY Clarith.Coef8.ingestY amplifyY Clarith.Coef8.amplifyY
    simp only [out_bind_assoc, out_pure_bind, out_ite_bind]
    agree
  | Uncover => exact shiftY_agree cfg k.turnY

theorem primerEgest_agree (cfg : Cfg) (k : Clarith.Coef8) :
    Agree (primerEgest cfg) k (k.primerEgest cfg >>= attempt k) := by
  unfold Agree primerEgest Clarith.Coef8.primerEgest
  simp only [out_bind_assoc, out_pure_bind, out_ite_bind, attempt_some, attempt_none]
  refine Sim.get_bind (Sim.eval_bind trivial fun c _ => ?_)
  obtain ⟨nmin, dmin, nmax, dmax⟩ := c
  refine Sim.eval_bind trivial fun _ _ => ?_
  refine Sim.ite (fun _ => ?_) fun _ => ?_
  · exact (ground_agree cfg k).step fun _ => Sim.pure rfl
  refine Sim.eval_bind trivial fun _ _ => ?_
  refine Sim.ite (fun _ => ?_) fun _ => ?_
  · exact (reflect_agree cfg k).step fun _ => Sim.pure rfl
  refine Sim.ite (fun _ => Sim.pure rfl) fun _ => ?_
  refine Sim.ite (fun _ => ?_) fun _ => Sim.pure rfl
  exact (turn_agree k).move (Sim.pure rfl)

theorem reductionEgest_agree (cfg : Cfg) (k : Clarith.Coef8) :
    Agree (reductionEgest cfg) k (k.reductionEgest cfg >>= attempt k) := by
  unfold Agree reductionEgest Clarith.Coef8.reductionEgest
  simp only [out_bind_assoc, out_pure_bind, out_ite_bind, attempt_some, attempt_none,
    out_panic_bind]
  refine Sim.get_bind (Sim.eval_bind trivial fun c _ => ?_)
  obtain ⟨nmin, dmin, nmax, dmax⟩ := c
  refine Sim.ite (fun _ => Sim.panic trivial) fun _ => ?_
  refine Sim.ite (fun _ => Sim.panic trivial) fun _ => ?_
  refine Sim.eval_bind trivial fun _ _ => ?_
  refine Sim.ite (fun _ => ?_) fun _ => ?_
  · exact (amplify_agree cfg k).step fun _ => Sim.pure rfl
  refine Sim.eval_bind trivial fun _ _ => ?_
  refine Sim.ite (fun _ => ?_) fun _ => Sim.pure rfl
  exact (uncover_agree cfg k).step fun _ => Sim.pure rfl

theorem primerAttempt_agree (cfg : Cfg) (k : Clarith.Coef8) :
    Agree (primerAttempt cfg) k (k.primerAttempt cfg >>= attempt k) := by
  unfold Agree primerAttempt Clarith.Coef8.primerAttempt
  simp only [out_bind_assoc, out_pure_bind, out_ite_bind, attempt_none]
  refine Sim.get_bind (Sim.eval_bind trivial fun c _ => ?_)
  exact Sim.ite (fun _ => primerEgest_agree cfg k) fun _ => Sim.pure rfl

theorem reductionAttempt_agree (cfg : Cfg) (k : Clarith.Coef8) :
    Agree (reductionAttempt cfg) k (k.reductionAttempt cfg >>= attempt k) := by
  unfold Agree reductionAttempt Clarith.Coef8.reductionAttempt
  simp only [out_bind_assoc, out_pure_bind, out_ite_bind, attempt_none]
  refine Sim.get_bind (Sim.eval_bind trivial fun c _ => ?_)
  exact Sim.ite (fun _ => reductionEgest_agree cfg k) fun _ => Sim.pure rfl

end Coef8

end Clarith.Steps
