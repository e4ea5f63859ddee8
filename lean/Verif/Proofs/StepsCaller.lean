import Verif.Model.Plain
import Verif.Proofs.StepsSim

/-! # A caller that catches panics, in both models -/

namespace Clarith.Steps

open Mut

/-! ## The public functions -/

theorem NumRep.frame {w w' : World} {fp : Nat → Prop} {x : Number} {x₀ : Clarith.Number}
    (h : NumRep w fp x x₀) (e : ∀ n, fp n → w'.cells n = w.cells n) : NumRep w' fp x x₀ := by
  cases h with
  | special s => exact .special s
  | other p h => exact .other p (h.frame e)

/-- The number made by a call stands for `b`. -/
def Made (w : World) (fp : Nat → Prop) (a : Number) (t : World) (b : Clarith.Number) : Prop :=
  ∃ fp', NumRep t fp' a b ∧ Grow w fp t fp'

theorem Grow.none {w : World} {fp : Nat → Prop} (hB : Bound w fp) : Grow w fp w nowhere :=
  (Grow.refl hB).shrink fun _ h => h.elim

namespace Number

theorem ratioU_sim (positive : Bool) (num den : Nat) {w : World} {fp : Nat → Prop}
    (hB : Bound w fp) :
    Sim (ratioU positive num den) w (Clarith.Number.ratioU positive num den)
      (fun t => Grow w fp t nowhere) (Made w fp) := by
  have g := Grow.none hB
  refine Sim.eval_bind g ?_
  rintro ⟨_ | s, p, _ | r⟩ -
  · exact Sim.panic g
  · exact Sim.pure ⟨nowhere, .other p (.ratio _ _), g⟩
  · exact Sim.pure ⟨nowhere, .special s, g⟩
  · exact Sim.pure ⟨nowhere, .special s, g⟩

theorem ratio_sim (cfg : Cfg) (num den : Int) {w : World} {fp : Nat → Prop} (hB : Bound w fp) :
    Sim (ratio cfg num den) w (Clarith.Number.ratio cfg num den)
      (fun t => Grow w fp t nowhere) (Made w fp) := by
  have g := Grow.none hB
  exact Sim.eval_bind g fun _ _ => Sim.eval_bind g fun _ _ => ratioU_sim _ _ _ hB

theorem homographic_sim (cfg : Cfg) (f : Nat) {x : Number} {x₀ : Clarith.Number}
    (nx n dx d : Int) {w : World} {fp : Nat → Prop} (hx : NumRep w fp x x₀) (hB : Bound w fp) :
    Sim (homographic cfg f x nx n dx d) w (Clarith.Number.homographic cfg f x₀ nx n dx d)
      (fun t => Grow w fp t nowhere) (Made w fp) := by
  refine Sim.bind (Homographic.new_sim cfg (Steps.egest_sim cfg f) f nx n dx d hx hB) ?_
  rintro ⟨a1, a2, a3, a4⟩ t ⟨b1, b2, b3, b4⟩ h
  have g := Combine.PrimedRep.grow h
  obtain ⟨h1, h2, h3, h4⟩ := h
  dsimp only at h1 h2 h3
  subst h1 h2 h3
  rcases a1 with _ | s
  · rcases a3 with _ | r
    · cases a4 <;> cases b4
      · exact Sim.panic g
      · exact h4.elim
      · exact h4.elim
      · obtain ⟨fp', h5, h6⟩ := h4
        exact Sim.pure ⟨fp', .other _ h5, h6⟩
    · exact Sim.pure ⟨nowhere, .other a2 (.ratio _ _), g⟩
  · exact Sim.pure ⟨nowhere, .special s, g⟩

theorem combine_sim (cfg : Cfg) (f : Nat) {x y : Number} {x₀ y₀ : Clarith.Number}
    (nxy nx ny n dxy dx dy d : Int) {w : World} {fx fy : Nat → Prop} (hx : NumRep w fx x x₀)
    (hy : NumRep w fy y y₀) (sep : ∀ n, fx n → ¬ fy n) (hBx : Bound w fx) (hBy : Bound w fy) :
    Sim (combine cfg f x y nxy nx ny n dxy dx dy d) w
      (Clarith.Number.combine cfg f x₀ y₀ nxy nx ny n dxy dx dy d)
      (fun t => Grow w (fun n => fx n ∨ fy n) t nowhere) (Made w (fun n => fx n ∨ fy n)) := by
  refine Sim.bind (Combine.new_sim cfg (Steps.egest_sim cfg f) f _ hx hy sep hBx hBy) ?_
  rintro ⟨a1, a2, a3, a4, a5⟩ t ⟨b1, b2, b3, b4, b5⟩ h
  have g : Grow w (fun n => fx n ∨ fy n) t nowhere := by
    obtain ⟨-, -, -, h4⟩ := h
    cases a4 <;> cases b4 <;> cases a5 <;> cases b5 <;> first
      | exact h4.elim
      | exact Homographic.Kept.grow h4
      | exact h4
  obtain ⟨h1, h2, h3, h4⟩ := h
  dsimp only at h1 h2 h3
  subst h1 h2 h3
  rcases a1 with _ | s
  · rcases a3 with _ | r
    · cases a4 <;> cases b4 <;> cases a5 <;> cases b5 <;> first
        | exact h4.elim
        | exact Sim.panic g
        | (obtain ⟨fp', h5, h6⟩ := h4
           exact Sim.pure ⟨fp', .other _ h5, h6⟩)
    · exact Sim.pure ⟨nowhere, .other a2 (.ratio _ _), g⟩
  · exact Sim.pure ⟨nowhere, .special s, g⟩

end Number

theorem Consume.consume_sim (cfg : Cfg) {eg : EgestFn} {eg₀ : Clarith.EgestFn}
    (hE : EgSim eg eg₀) (f : Nat) : ∀ (k : Coef4) {o : Obj} {w : World} {s : Strategy}
    {fp : Nat → Prop}, Rep w o s fp → Bound w fp →
    Sim (Consume.consume cfg eg f k) (o, w) (Clarith.Consume.consume cfg eg₀ f s k)
      (fun t => Grow w fp t.2 nowhere)
      (fun a t b => a.2 = b.2 ∧ match a.1, b.1 with
        | some o', some s' => Kept w fp t.2 o' s'
        | none, none => Grow w fp t.2 nowhere
        | _, _ => False) := by
  induction f with
  | zero =>
    intro k o w s fp hR hB
    exact Sim.timeout (Grow.none hB)
  | succ f ih =>
    intro k o w s fp hR hB
    unfold Consume.consume Clarith.Consume.consume
    refine Sim.bind ((hE o w s fp hR hB).mono (fun t ⟨s', h⟩ => Homographic.Kept.grow h)
      fun _ _ _ h => h) ?_
    rintro a ⟨o', w'⟩ ⟨r, s'⟩ ⟨e, fp', hR', hG⟩
    dsimp only at e hR' hG
    subst e
    have g : Grow w fp w' nowhere := hG.shrink fun _ h => h.elim
    rcases a with _ | red
    · exact Sim.pure ⟨rfl, g⟩
    · refine Sim.eval_bind g fun k' _ => ?_
      refine Sim.eval_bind g fun u _ => ?_
      refine Sim.ite (fun _ => ?_) fun _ => ?_
      · exact Sim.get_bind (Sim.pure ⟨rfl, fp', hR', hG⟩)
      · refine (ih k' hR' hG.bound).mono (fun t ht => hG.trans ht) ?_
        rintro ⟨a1, a2⟩ t ⟨b1, b2⟩ ⟨h1, h2⟩
        refine ⟨h1, ?_⟩
        cases a1 <;> cases b1
        · exact hG.trans h2
        · exact h2.elim
        · exact h2.elim
        · exact Kept.trans hG h2

theorem Number.consume_sim (cfg : Cfg) (f : Nat) {x : Number} {x₀ : Clarith.Number} {w : World}
    {fp : Nat → Prop} (hx : NumRep w fp x x₀) (hB : Bound w fp) :
    Sim (Number.consume cfg f x) w (Clarith.Number.consume cfg f x₀)
      (fun t => Grow w fp t nowhere)
      (fun a t b => a.2 = b.2 ∧ match a.1, b.1 with
        | some o', some s' => Made w fp o' t s'
        | none, none => Grow w fp t nowhere
        | _, _ => False) := by
  have g := Grow.none hB
  unfold Number.consume Clarith.Number.consume
  refine Sim.bind (R := fun a t b => a.2 = b.2 ∧ match a.1, b.1 with
        | some o', some s' => Kept w fp t o' s'
        | none, none => Grow w fp t nowhere
        | _, _ => False) ?_ ?_
  · cases hx with
    | special s =>
      cases s
      · exact Sim.pure ⟨rfl, g⟩
      · exact Sim.pure ⟨rfl, g⟩
      · exact Sim.pure ⟨rfl, g⟩
    | other p h =>
      exact Sim.eval_bind g fun k _ => owned_sim (Consume.consume_sim cfg (Steps.egest_sim cfg f)
        f k h hB)
  · rintro ⟨a1, a2⟩ t ⟨b1, b2⟩ ⟨h1, h2⟩
    dsimp only at h1
    subst h1
    refine Sim.pure ⟨rfl, ?_⟩
    cases a1 <;> cases b1
    · exact h2
    · exact h2.elim
    · exact h2.elim
    · obtain ⟨fp', r, g⟩ := h2
      exact ⟨fp', .other none r, g⟩

namespace Compare

theorem compareClogs_sim (cfg : Cfg) {eg : EgestFn} {eg₀ : Clarith.EgestFn}
    (hE : EgSim eg eg₀) (f : Nat) : ∀ (pol : Bool) {o1 o2 : Obj} {w : World} {s1 s2 : Strategy}
    {f1 f2 : Nat → Prop}, Rep w o1 s1 f1 → Rep w o2 s2 f2 → (∀ n, f1 n → ¬ f2 n) → Bound w f1 →
    Bound w f2 →
    Sim (compareClogs cfg eg f pol) ((o1, o2), w) (Clarith.Compare.compareClogs cfg eg₀ f s1 s2 pol)
      (fun t => Grow w (fun n => f1 n ∨ f2 n) t.2 nowhere)
      (fun a t b => a = b ∧ Grow w (fun n => f1 n ∨ f2 n) t.2 nowhere) := by
  induction f with
  | zero =>
    intro pol o1 o2 w s1 s2 f1 f2 h1 h2 sep b1 b2
    exact Sim.timeout (Grow.none fun n h => h.elim (b1 n) (b2 n))
  | succ f ih =>
    intro pol o1 o2 w s1 s2 f1 f2 h1 h2 sep b1 b2
    unfold compareClogs Clarith.Compare.compareClogs
    refine Sim.bind ((Sim.part (s := ((o1, o2), w)) (get := fun s => (s.1.1, s.2))
      (put := fun t s => ((t.1, s.1.2), t.2)) (hE o1 w s1 f1 h1 b1)).mono ?_ fun _ _ _ h => h) ?_
    · rintro t ⟨⟨o', w'⟩, rfl, s', fp', r, g⟩
      exact ⟨g.le, fun n hn hf => g.frame n hn fun h => hf (.inl h), fun n h => h.elim,
        fun n h => h.elim⟩
    rintro a t ⟨r, s1'⟩ ⟨⟨o1', w1⟩, rfl, e, f1', h1', g1⟩
    dsimp only at e h1' g1
    subst e
    have h2' : Rep w1 o2 s2 f2 := h2.frame fun n hn => g1.frame n (b2 n hn) fun h => sep n h hn
    have b2' : Bound w1 f2 := fun n hn => Nat.lt_of_lt_of_le (b2 n hn) g1.le
    have sep' : ∀ n, f1' n → ¬ f2 n := by
      intro n h h'
      rcases g1.new n h with h | h
      · exact sep n h h'
      · have := b2 n h'
        omega
    refine Sim.bind ((Sim.part (s := ((o1', o2), w1)) (get := fun s => (s.1.2, s.2))
      (put := fun t s => ((s.1.1, t.1), t.2)) (hE o2 w1 s2 f2 h2' b2')).mono ?_
      fun _ _ _ h => h) ?_
    · rintro t ⟨⟨o', w'⟩, rfl, s', fp', r, g⟩
      refine ⟨Nat.le_trans g1.le g.le, fun n hn hf => ?_, fun n h => h.elim, fun n h => h.elim⟩
      dsimp only
      rw [g.frame n (Nat.lt_of_lt_of_le hn g1.le) fun h => hf (.inr h),
        g1.frame n hn fun h => hf (.inl h)]
    rintro b t ⟨r, s2'⟩ ⟨⟨o2', w2⟩, rfl, e, f2', h2'', g2⟩
    dsimp only at e h2'' g2
    subst e
    have hG : Grow w (fun n => f1 n ∨ f2 n) w2 (fun n => f1' n ∨ f2' n) := by
      refine ⟨Nat.le_trans g1.le g2.le, fun n hn hf => ?_, ?_, ?_⟩
      · rw [g2.frame n (Nat.lt_of_lt_of_le hn g1.le) fun h => hf (.inr h),
          g1.frame n hn fun h => hf (.inl h)]
      · rintro n (h | h)
        · rcases g1.new n h with h | h
          · exact .inl (.inl h)
          · exact .inr h
        · rcases g2.new n h with h | h
          · exact .inl (.inr h)
          · exact .inr (Nat.le_trans g1.le h)
      · rintro n (h | h)
        · exact Nat.lt_of_lt_of_le (g1.bound n h) g2.le
        · exact g2.bound n h
    have h1'' : Rep w2 o1' s1' f1' := h1'.frame fun n hn => g2.frame n (g1.bound n hn) (sep' n hn)
    have sep'' : ∀ n, f1' n → ¬ f2' n := by
      intro n h h'
      rcases g2.new n h' with h' | h'
      · exact sep' n h h'
      · have := g1.bound n h
        omega
    have hB1 : Bound w2 f1' := fun n h => hG.bound n (.inl h)
    have g := hG.shrink (fp'' := nowhere) fun _ h => h.elim
    refine Sim.ite (fun _ => Sim.pure ⟨rfl, g⟩) fun _ => ?_
    rcases a with _ | _ | _
    · exact Sim.pure ⟨rfl, g⟩
    · exact (ih _ h1'' h2'' sep'' hB1 g2.bound).mono (fun t ht => hG.trans ht)
        fun _ _ _ h => ⟨h.1, hG.trans h.2⟩
    · exact (ih _ h1'' h2'' sep'' hB1 g2.bound).mono (fun t ht => hG.trans ht)
        fun _ _ _ h => ⟨h.1, hG.trans h.2⟩

end Compare

theorem Number.compare_sim (cfg : Cfg) (f : Nat) {x y : Number} {x₀ y₀ : Clarith.Number}
    {w : World} {fx fy : Nat → Prop} (hx : NumRep w fx x x₀)
    (hy : NumRep w fy y y₀) (sep : ∀ n, fx n → ¬ fy n) (hBx : Bound w fx) (hBy : Bound w fy) :
    Sim (Number.compare cfg f x y) w (Clarith.Number.compare cfg f x₀ y₀)
      (fun t => Grow w (fun n => fx n ∨ fy n) t nowhere)
      (fun a t b => a = b ∧ Grow w (fun n => fx n ∨ fy n) t nowhere) := by
  have g : Grow w (fun n => fx n ∨ fy n) w nowhere := Grow.none fun n h => h.elim (hBx n) (hBy n)
  cases hx with
  | special s =>
    cases hy with
    | special s' => exact Sim.pure ⟨rfl, g⟩
    | other p' h' => exact Sim.pure ⟨rfl, g⟩
  | other p h =>
    cases hy with
    | special s' => exact Sim.pure ⟨rfl, g⟩
    | other p' h' =>
      refine Sim.bind (owned_sim (R := fun a t b => a = b ∧
        Grow w (fun n => fx n ∨ fy n) t nowhere)
        (Compare.compareClogs_sim cfg (Steps.egest_sim cfg f) f _ h h' sep hBx hBy)) ?_
      rintro a t b ⟨rfl, h⟩
      exact Sim.pure ⟨rfl, h⟩

/-! ## The caller -/

/-- A variable and its counterpart in the first model. -/
def Slot (w : World) (fp : Nat → Prop) : Option Number → Option Clarith.Number → Prop
  | some x, some x₀ => NumRep w fp x x₀
  | none, none => True
  | _, _ => False

/-- The variables of the two callers hold the same numbers, in separate regions. -/
structure Inv (c : Caller) (b : Plain) (fps : Nat → Nat → Prop) : Prop where
  next : c.next = b.next
  slot : ∀ i, Slot c.world (fps i) (c.held i) (b.held i)
  sep : ∀ i j, i ≠ j → ∀ n, fps i n → ¬ fps j n
  bound : ∀ i, Bound c.world (fps i)

/-- Some variables of `b` have been emptied. -/
structure Under (b b' : Plain) : Prop where
  next : b.next = b'.next
  held : ∀ i, b.held i = none ∨ b.held i = b'.held i

theorem Under.refl (b : Plain) : Under b b := ⟨rfl, fun _ => .inr rfl⟩

/-- Set one region. -/
def setRegion (fps : Nat → Nat → Prop) (i : Nat) (fp : Nat → Prop) : Nat → Nat → Prop :=
  fun j => if j = i then fp else fps j

theorem Inv.set {c : Caller} {b : Plain} {fps : Nat → Nat → Prop} (h : Inv c b fps) (i : Nat)
    {v : Option Number} {v₀ : Option Clarith.Number} {fp : Nat → Prop} (hs : Slot c.world fp v v₀)
    (hB : Bound c.world fp) (hd : ∀ j, j ≠ i → ∀ n, fps j n → ¬ fp n) :
    Inv (c.set i v) (b.set i v₀) (setRegion fps i fp) where
  next := h.next
  slot j := by
    by_cases e : j = i
    · simpa [Caller.set, Plain.set, setRegion, e] using hs
    · simpa [Caller.set, Plain.set, setRegion, e] using h.slot j
  sep j k hjk n := by
    by_cases e : j = i
    · have e' : k ≠ i := fun e' => hjk (e.trans e'.symm)
      simp only [setRegion, if_pos e, if_neg e']
      exact fun h1 h2 => hd k e' n h2 h1
    · by_cases e' : k = i
      · simp only [setRegion, if_neg e, if_pos e']
        exact hd j e n
      · simp only [setRegion, if_neg e, if_neg e']
        exact h.sep j k hjk n
  bound j := by
    by_cases e : j = i
    · simp only [setRegion, if_pos e]; exact hB
    · simp only [setRegion, if_neg e]; exact h.bound j

theorem Inv.move {c : Caller} {b : Plain} {fps : Nat → Nat → Prop} (h : Inv c b fps) (i : Nat) :
    Inv (c.set i none) (b.set i none) (setRegion fps i nowhere) :=
  h.set i trivial (fun _ h => h.elim) fun _ _ _ _ h => h

theorem Slot.frame {w w' : World} {fp : Nat → Prop} {x : Option Number}
    {x₀ : Option Clarith.Number} (h : Slot w fp x x₀)
    (e : ∀ n, fp n → w'.cells n = w.cells n) : Slot w' fp x x₀ := by
  cases x <;> cases x₀
  · trivial
  · exact h.elim
  · exact h.elim
  · exact NumRep.frame h e

theorem Inv.world {c : Caller} {b : Plain} {fps : Nat → Nat → Prop} (h : Inv c b fps)
    {fp fp' : Nat → Prop} {w' : World} (hd : ∀ i n, fps i n → ¬ fp n)
    (hG : Grow c.world fp w' fp') : Inv { c with world := w' } b fps where
  next := h.next
  slot i := (h.slot i).frame fun n hn => hG.frame n (h.bound i n hn) (hd i n hn)
  sep := h.sep
  bound i n hn := Nat.lt_of_lt_of_le (h.bound i n hn) hG.le

/-- After a call that returns nothing has been emptied. -/
def Left (r : Res Answer) (b b' : Plain) : Prop :=
  Under b b' ∧ ((∀ p, r ≠ .panic p) → r ≠ .timeout → b = b')

theorem Left.refl {r : Res Answer} (b : Plain) : Left r b b := ⟨.refl b, fun _ _ => rfl⟩

/-- The end of a call in the two models. -/
def Same (r : Res Answer × Caller) (r₀ : Res Answer × Plain) : Prop :=
  r.1 = r₀.1 ∧ r.1 ≠ .shared ∧ ∃ b fps, Inv r.2 b fps ∧ Left r.1 r₀.2 b

theorem keep_same {c : Caller} {b : Plain} {fps : Nat → Nat → Prop} (h : Inv c b fps)
    {v : Number} {v₀ : Clarith.Number} {fp : Nat → Prop} (hv : NumRep c.world fp v v₀)
    (hB : Bound c.world fp) (hd : ∀ i n, fps i n → ¬ fp n) :
    ∃ fps', Inv { c.set c.next (some v) with next := c.next + 1 }
      { b.set b.next (some v₀) with next := b.next + 1 } fps' := by
  have h1 := h.set c.next (v := some v) (v₀ := some v₀) hv hB fun j _ => hd j
  refine ⟨_, ⟨by show c.next + 1 = b.next + 1; rw [h.next], ?_, h1.sep, h1.bound⟩⟩
  intro i
  have := h1.slot i
  rw [h.next] at this ⊢
  exact this

theorem face_eq {w : World} {fp : Nat → Prop} {v : Number} {v₀ : Clarith.Number}
    (h : NumRep w fp v v₀) : v.face = face v₀ := by
  cases h <;> rfl

/-- A call of a function, and what the caller does with its answer. -/
theorem onWorld_same {α β : Type} {c : Caller} {b : Plain} {fps : Nat → Nat → Prop}
    (h : Inv c b fps) {m : Mut World α} {o : Out β} {fp : Nat → Prop}
    (hd : ∀ i n, fps i n → ¬ fp n) {R : α → World → β → Prop}
    (hs : Sim m c.world o (fun t => Grow c.world fp t nowhere) R)
    {g : α → Mut Caller Answer} {g₀ : β → Mut Plain Answer}
    (k : ∀ a t a₀, R a t a₀ → Same (g a { c with world := t }) (g₀ a₀ b)) :
    Same ((Caller.onWorld m >>= g) c) ((Mut.eval o >>= g₀) b) := by
  have e1 : (Caller.onWorld m >>= g) c = Mut.bind (Caller.onWorld m) g c := rfl
  have e2 : (Mut.eval o >>= g₀) b = Mut.bind (Mut.eval o) g₀ b := rfl
  unfold Sim at hs
  rw [e1, e2, Mut.bind, Mut.bind, Caller.onWorld, Mut.part]
  revert hs
  generalize m c.world = r
  obtain ⟨r, t⟩ := r
  cases r with
  | ok v =>
    rintro ⟨v₀, rfl, hR⟩
    exact k v t v₀ hR
  | panic p =>
    rintro ⟨rfl, hG⟩
    exact ⟨rfl, (by intro e; cases e), _, fps, h.world hd hG, .refl _⟩
  | shared => exact fun h => h.elim
  | timeout =>
    rintro ⟨rfl, hG⟩
    exact ⟨rfl, (by intro e; cases e), _, fps, h.world hd hG, .refl _⟩

/-- Keep a number that a call has made. -/
theorem kept_same {c : Caller} {b : Plain} {fps : Nat → Nat → Prop} (h : Inv c b fps)
    {fp : Nat → Prop} (hd : ∀ i n, fps i n → ¬ fp n) {v : Number} {t : World}
    {v₀ : Clarith.Number} (hm : Made c.world fp v t v₀) {a a₀ : Answer} (e : a = a₀) :
    Same ((Caller.keep v >>= fun _ => pure a) { c with world := t })
      ((Plain.keep v₀ >>= fun _ => pure a₀) b) := by
  obtain ⟨fp', hv, hG⟩ := hm
  obtain ⟨fps', h2⟩ := keep_same (h.world hd hG) hv hG.bound (by
    intro i n h3 h4
    rcases hG.new n h4 with h5 | h5
    · exact hd i n h3 h5
    · have := h.bound i n h3
      omega)
  exact ⟨congrArg Res.ok e, (by intro e; cases e), _, fps', h2, .refl _⟩

theorem make_same {c : Caller} {b : Plain} {fps : Nat → Nat → Prop} (h : Inv c b fps)
    {m : Mut World Number} {o : Out Clarith.Number} {fp : Nat → Prop}
    (hd : ∀ i n, fps i n → ¬ fp n)
    (hs : Sim m c.world o (fun t => Grow c.world fp t nowhere) (Made c.world fp)) :
    Same (Caller.make m c) (Plain.make o b) :=
  onWorld_same h hd hs fun v t v₀ hm => kept_same h hd hm (by
    obtain ⟨fp', hv, -⟩ := hm
    rw [face_eq hv])

/-- A call that first moves a number. -/
theorem move_same {c : Caller} {b : Plain} {fps : Nat → Nat → Prop} (h : Inv c b fps) (x : Nat)
    {g : Option Number → Mut Caller Answer} {g₀ : Option Clarith.Number → Mut Plain Answer}
    (k0 : Same (g none (c.set x none)) (g₀ none (b.set x none)))
    (k : ∀ v v₀, c.held x = some v → b.held x = some v₀ → NumRep c.world (fps x) v v₀ →
      Same (g (some v) (c.set x none)) (g₀ (some v₀) (b.set x none))) :
    Same ((Caller.move x >>= g) c) ((Plain.move x >>= g₀) b) := by
  have e1 : (Caller.move x >>= g) c = g (c.held x) (c.set x none) := rfl
  have e2 : (Plain.move x >>= g₀) b = g₀ (b.held x) (b.set x none) := rfl
  rw [e1, e2]
  have hs := h.slot x
  revert hs k
  generalize c.held x = v
  generalize b.held x = v₀
  intro k hs
  cases v <;> cases v₀
  · exact k0
  · exact hs.elim
  · exact hs.elim
  · exact k _ _ rfl rfl hs

theorem refused_same {c : Caller} {b : Plain} {fps : Nat → Nat → Prop} (h : Inv c b fps) :
    Same ((pure .refused : Mut Caller Answer) c) ((pure .refused : Mut Plain Answer) b) :=
  ⟨rfl, (by intro e; cases e), b, fps, h, .refl _⟩

/-- After moving `x` the region of `x` is apart from the others. -/
theorem Inv.apart {c : Caller} {b : Plain} {fps : Nat → Nat → Prop} (h : Inv c b fps) (x : Nat) :
    ∀ i n, setRegion fps x nowhere i n → ¬ fps x n := by
  intro i n h1 h2
  by_cases e : i = x
  · simp only [setRegion, if_pos e] at h1
    exact h1
  · simp only [setRegion, if_neg e] at h1
    exact h.sep i x e n h1 h2

/-- After moving `x` and `y` their regions are apart from the others. -/
theorem Inv.apart2 {c : Caller} {b : Plain} {fps : Nat → Nat → Prop} (h : Inv c b fps) (x y : Nat) :
    ∀ i n, setRegion (setRegion fps x nowhere) y nowhere i n → ¬ (fps x n ∨ fps y n) := by
  intro i n h1 h2
  by_cases e : i = y
  · simp only [setRegion, if_pos e] at h1
    exact h1
  · by_cases e' : i = x
    · simp only [setRegion, if_neg e, if_pos e'] at h1
      exact h1
    · simp only [setRegion, if_neg e, if_neg e'] at h1
      exact h2.elim (h.sep i x e' n h1) (h.sep i y e n h1)

theorem egestAt_same (cfg : Cfg) (f x : Nat) {c : Caller} {b : Plain} {fps : Nat → Nat → Prop}
    (h : Inv c b fps) : Same (Caller.egestAt cfg f x c) (Plain.egestAt cfg f x b) := by
  have hs := h.slot x
  unfold Caller.egestAt Plain.egestAt
  cases hc : c.held x with
  | none =>
    cases hb : b.held x with
    | none => exact refused_same h
    | some v₀ => rw [hc, hb] at hs; exact hs.elim
  | some v =>
    cases hb : b.held x with
    | none => rw [hc, hb] at hs; exact hs.elim
    | some v₀ =>
      rw [hc, hb] at hs
      cases (show NumRep c.world (fps x) v v₀ from hs) with
      | special s => exact refused_same h
      | @other p o s hr =>
        have he := egest_sim cfg f o c.world s (fps x) hr (h.bound x)
        dsimp only
        unfold Sim at he
        revert he
        generalize Steps.egest cfg f (o, c.world) = r
        obtain ⟨r, o', w'⟩ := r
        have key : ∀ {s'}, Kept c.world (fps x) w' o' s' →
            ∃ fps', Inv { c.set x (some (.Other p o')) with world := w' }
              (b.set x (some (.Other p s'))) fps' := by
          rintro s' ⟨fp', hr', hG⟩
          have h1 := (h.move x).world (h.apart x) hG
          have h2 := h1.set x (v := some (.Other p o')) (v₀ := some (.Other p s')) (fp := fp')
            (NumRep.other p hr') hG.bound (by
              intro j hj n h3 h4
              simp only [setRegion, if_neg hj] at h3
              rcases hG.new n h4 with h5 | h5
              · exact h.sep j x hj n h3 h5
              · have := h.bound j n h3
                omega)
          refine ⟨_, ⟨h2.next, fun i => ?_, h2.sep, h2.bound⟩⟩
          have h3 := h2.slot i
          by_cases e : i = x
          · simpa [Caller.set, Plain.set, e] using h3
          · simpa [Caller.set, Plain.set, e] using h3
        cases r with
        | ok a =>
          rintro ⟨⟨r, s'⟩, e, e', hk⟩
          dsimp only at e' hk ⊢
          subst e'
          rw [e]
          obtain ⟨fps', hI⟩ := key hk
          exact ⟨rfl, (by intro e; cases e), _, fps', hI, .refl _⟩
        | panic q =>
          rintro ⟨e, s', hk⟩
          dsimp only at hk ⊢
          rw [e]
          obtain ⟨fps', hI⟩ := key hk
          refine ⟨rfl, (by intro e; cases e), _, fps', hI, ⟨rfl, fun i => ?_⟩, fun h h' => ?_⟩
          · by_cases e : i = x
            · exact .inl (by simp [Plain.set, e])
            · exact .inr (by simp [Plain.set, e])
          · exact absurd rfl (h q)
        | shared => exact fun h => h.elim
        | timeout =>
          rintro ⟨e, s', hk⟩
          dsimp only at hk ⊢
          rw [e]
          obtain ⟨fps', hI⟩ := key hk
          refine ⟨rfl, (by intro e; cases e), _, fps', hI, ⟨rfl, fun i => ?_⟩, fun h h' => ?_⟩
          · by_cases e : i = x
            · exact .inl (by simp [Plain.set, e])
            · exact .inr (by simp [Plain.set, e])
          · exact absurd rfl h'

/-- A call answers the same in the two models. -/
theorem call_same (cfg : Cfg) (f : Nat) (a : Call) {c : Caller} {b : Plain}
    {fps : Nat → Nat → Prop} (h : Inv c b fps) :
    Same (Caller.call cfg f a c) (Plain.call cfg f a b) := by
  have none_apart : ∀ i n, fps i n → ¬ nowhere n := fun _ _ _ h => h
  have two : ∀ {x y : Nat} {v₀ w₀ : Clarith.Number}, b.held x = some v₀ →
      (b.set x none).held y = some w₀ → x ≠ y ∧ b.held y = some w₀ := by
    intro x y v₀ w₀ h1 h2
    by_cases e : y = x
    · simp [Plain.set, e] at h2
    · exact ⟨Ne.symm e, by simpa [Plain.set, e] using h2⟩
  cases a with
  | ratio num den =>
    exact make_same h none_apart (Number.ratio_sim cfg num den fun _ h => h.elim)
  | ratioU positive num den =>
    exact make_same h none_apart (Number.ratioU_sim positive num den fun _ h => h.elim)
  | homographic x nx n dx d =>
    refine move_same h x (refused_same (h.move x)) fun v v₀ _ _ hv => ?_
    exact make_same (h.move x) (h.apart x)
      (Number.homographic_sim cfg f nx n dx d hv (h.bound x))
  | combine x y nxy nx ny n dxy dx dy d =>
    refine move_same h x (refused_same (h.move x)) fun v v₀ _ hb hv => ?_
    refine move_same (h.move x) y (refused_same ((h.move x).move y)) fun v' v₀' _ hb' hv' => ?_
    obtain ⟨hxy, -⟩ := two hb hb'
    have hv'' : NumRep c.world (fps y) v' v₀' := by
      have : setRegion fps x nowhere y = fps y := if_neg (Ne.symm hxy)
      rw [this] at hv'
      exact hv'
    exact make_same ((h.move x).move y) (h.apart2 x y)
      (Number.combine_sim cfg f nxy nx ny n dxy dx dy d hv hv'' (h.sep x y hxy) (h.bound x)
        (h.bound y))
  | egest x => exact egestAt_same cfg f x h
  | consume x =>
    refine move_same h x (refused_same (h.move x)) fun v v₀ _ _ hv => ?_
    refine onWorld_same (h.move x) (h.apart x) (Number.consume_sim cfg f hv (h.bound x))
      fun a t a₀ hR => ?_
    obtain ⟨y, k⟩ := a
    obtain ⟨y₀, k₀⟩ := a₀
    obtain ⟨rfl, hR⟩ := hR
    cases y <;> cases y₀
    · exact ⟨rfl, (by intro e; cases e), _, _, (h.move x).world (h.apart x) hR, .refl _⟩
    · exact hR.elim
    · exact hR.elim
    · refine kept_same (h.move x) (h.apart x) hR ?_
      obtain ⟨fp', hv, -⟩ := hR
      rw [face_eq hv]
  | compare x y =>
    refine move_same h x (refused_same (h.move x)) fun v v₀ _ hb hv => ?_
    refine move_same (h.move x) y (refused_same ((h.move x).move y)) fun v' v₀' _ hb' hv' => ?_
    obtain ⟨hxy, -⟩ := two hb hb'
    have hv'' : NumRep c.world (fps y) v' v₀' := by
      have : setRegion fps x nowhere y = fps y := if_neg (Ne.symm hxy)
      rw [this] at hv'
      exact hv'
    refine onWorld_same ((h.move x).move y) (h.apart2 x y)
      (Number.compare_sim cfg f hv hv'' (h.sep x y hxy) (h.bound x) (h.bound y))
      fun a t a₀ hR => ?_
    obtain ⟨rfl, hG⟩ := hR
    exact ⟨rfl, (by intro e; cases e), _, _, ((h.move x).move y).world (h.apart2 x y) hG, .refl _⟩
  | special s =>
    exact make_same h none_apart ⟨_, rfl, nowhere, .special s, .none fun _ h => h.elim⟩
  | reprime x p =>
    refine move_same h x (refused_same (h.move x)) fun v v₀ _ _ hv => ?_
    refine make_same (h.move x) (h.apart x) ?_
    cases hv with
    | special s => exact ⟨rfl, .none (h.bound x)⟩
    | other p' hr => exact ⟨_, rfl, fps x, .other p hr, .refl (h.bound x)⟩
  | unwrapSpecial x =>
    refine move_same h x (refused_same (h.move x)) fun v v₀ _ _ hv => ?_
    refine onWorld_same (h.move x) (h.apart x) (R := fun a t b => a = b ∧ t = c.world) ?_
      fun a t a₀ hR => ?_
    · cases hv with
      | special s => exact ⟨_, rfl, rfl, rfl⟩
      | other p' hr => exact ⟨rfl, .none (h.bound x)⟩
    · obtain ⟨rfl, rfl⟩ := hR
      exact ⟨rfl, (by intro e; cases e), _, _, h.move x, .refl _⟩

/-- A call that is not refused does not look at the variables that have been emptied. -/
theorem call_under (cfg : Cfg) (f : Nat) (a : Call) {b b' : Plain} (h : Under b b')
    (hr : (Plain.call cfg f a b).1 ≠ .ok .refused) :
    (Plain.call cfg f a b').1 = (Plain.call cfg f a b).1 ∧
      Under (Plain.call cfg f a b).2 (Plain.call cfg f a b').2 := by
  have set : ∀ {b b' : Plain}, Under b b' → ∀ i v, Under (b.set i v) (b'.set i v) := by
    intro b b' h i v
    refine ⟨h.next, fun j => ?_⟩
    by_cases e : j = i
    · exact .inr (by simp [Plain.set, e])
    · simpa [Plain.set, e] using h.held j
  have keep : ∀ {b b' : Plain}, Under b b' → ∀ v,
      Under { b.set b.next (some v) with next := b.next + 1 }
        { b'.set b'.next (some v) with next := b'.next + 1 } := by
    intro b b' h v
    refine ⟨congrArg (· + 1) h.next, ?_⟩
    rw [← h.next]
    exact (set h b.next (some v)).held
  have eval : ∀ {β : Type} {b b' : Plain} (o : Out β) (g : β → Mut Plain Answer), Under b b' →
      (∀ a, (g a b').1 = (g a b).1 ∧ Under (g a b).2 (g a b').2) →
      ((Mut.eval o >>= g) b').1 = ((Mut.eval o >>= g) b).1 ∧
        Under ((Mut.eval o >>= g) b).2 ((Mut.eval o >>= g) b').2 := by
    intro β b b' o g h k
    cases o with
    | ok a => exact k a
    | panic p => exact ⟨rfl, h⟩
    | timeout => exact ⟨rfl, h⟩
  have make : ∀ {b b' : Plain} (o : Out Clarith.Number), Under b b' →
      (Plain.make o b').1 = (Plain.make o b).1 ∧
        Under (Plain.make o b).2 (Plain.make o b').2 :=
    fun o h => eval o _ h fun v => ⟨rfl, keep h v⟩
  have move : ∀ {b b' : Plain} (x : Nat) (g : Option Clarith.Number → Mut Plain Answer),
      Under b b' → (g none = pure .refused) → ((Plain.move x >>= g) b).1 ≠ .ok .refused →
      (∀ v, (g (some v) (b.set x none)).1 ≠ .ok .refused →
        (g (some v) (b'.set x none)).1 = (g (some v) (b.set x none)).1 ∧
          Under (g (some v) (b.set x none)).2 (g (some v) (b'.set x none)).2) →
      ((Plain.move x >>= g) b').1 = ((Plain.move x >>= g) b).1 ∧
        Under ((Plain.move x >>= g) b).2 ((Plain.move x >>= g) b').2 := by
    intro b b' x g h h0 hr k
    have e : ∀ b, (Plain.move x >>= g) b = g (b.held x) (b.set x none) := fun _ => rfl
    rw [e] at hr
    rw [e, e]
    cases hx : b.held x with
    | none =>
      rw [hx, h0] at hr
      exact absurd rfl hr
    | some v =>
      have hx' : b'.held x = some v := by
        rcases h.held x with h1 | h1
        · rw [hx] at h1; cases h1
        · rw [← h1, hx]
      rw [hx] at hr
      rw [hx']
      exact k v hr
  cases a with
  | ratio num den => exact make _ h
  | ratioU positive num den => exact make _ h
  | homographic x nx n dx d =>
    exact move x _ h rfl hr fun v _ => make _ (set h x none)
  | combine x y nxy nx ny n dxy dx dy d =>
    exact move x _ h rfl hr fun v hr => move y _ (set h x none) rfl hr fun v' _ =>
      make _ (set (set h x none) y none)
  | egest x =>
    change (Plain.egestAt cfg f x b).1 ≠ _ at hr
    change (Plain.egestAt cfg f x b').1 = (Plain.egestAt cfg f x b).1 ∧ Under
      (Plain.egestAt cfg f x b).2 (Plain.egestAt cfg f x b').2
    unfold Plain.egestAt at hr ⊢
    rcases h.held x with h1 | h1
    · rw [h1] at hr
      exact absurd rfl hr
    · rw [← h1]
      revert hr
      cases b.held x with
      | none => exact fun hr => absurd rfl hr
      | some v =>
        cases v with
        | Special s => exact fun hr => absurd rfl hr
        | Other p s =>
          intro _
          dsimp only
          cases Clog.egest cfg f s with
          | ok a => exact ⟨rfl, set h x _⟩
          | panic p => exact ⟨rfl, set h x _⟩
          | timeout => exact ⟨rfl, set h x _⟩
  | consume x =>
    refine move x _ h rfl hr fun v _ => eval _ _ (set h x none) fun a => ?_
    obtain ⟨y, k⟩ := a
    cases y with
    | none => exact ⟨rfl, set h x none⟩
    | some y => exact ⟨rfl, keep (set h x none) y⟩
  | compare x y =>
    exact move x _ h rfl hr fun v hr => move y _ (set h x none) rfl hr fun v' _ =>
      eval _ _ (set (set h x none) y none) fun a => ⟨rfl, set (set h x none) y none⟩
  | special s => exact make _ h
  | reprime x p => exact move x _ h rfl hr fun v _ => make _ (set h x none)
  | unwrapSpecial x =>
    exact move x _ h rfl hr fun v _ => eval _ _ (set h x none) fun _ => ⟨rfl, set h x none⟩

/-- No reference is ever shared. -/
theorem session_owned (cfg : Cfg) (f : Nat) (calls : List Call) {c : Caller} {b : Plain}
    {fps : Nat → Nat → Prop} (h : Inv c b fps) : Res.shared ∉ Caller.session cfg f calls c := by
  induction calls generalizing c b fps with
  | nil => exact fun h => nomatch h
  | cons a calls ih =>
    obtain ⟨-, hs, b', fps', hI, -⟩ := call_same cfg f a h
    unfold Caller.session
    revert hs hI
    generalize Caller.call cfg f a c = r
    obtain ⟨r, c'⟩ := r
    intro hs hI
    cases r with
    | timeout => simp
    | shared => exact absurd rfl hs
    | ok a => simpa using ih hI
    | panic p => simpa using ih hI

/-- The session of the first model. -/
theorem session_same (cfg : Cfg) (f : Nat) (calls : List Call) {c : Caller} {b b' : Plain}
    {fps : Nat → Nat → Prop} (h : Inv c b' fps) (hu : Under b b')
    (hr : Res.ok .refused ∉ Plain.session cfg f calls b) :
    Caller.session cfg f calls c = Plain.session cfg f calls b := by
  induction calls generalizing c b b' fps with
  | nil => rfl
  | cons a calls ih =>
    obtain ⟨he, hs, b₁, fps', hI, hu₁, -⟩ := call_same cfg f a h
    have hr1 : (Plain.call cfg f a b).1 ≠ .ok .refused := by
      intro e
      apply hr
      unfold Plain.session
      revert e
      generalize Plain.call cfg f a b = r
      obtain ⟨r, b₂⟩ := r
      rintro rfl
      exact List.mem_cons_self
    obtain ⟨he', hu'⟩ := call_under cfg f a hu hr1
    have hu2 : Under (Plain.call cfg f a b).2 b₁ := by
      refine ⟨hu'.next.trans hu₁.next, fun i => ?_⟩
      rcases hu'.held i with e | e
      · exact .inl e
      · rcases hu₁.held i with e' | e'
        · exact .inl (e.trans e')
        · exact .inr (e.trans e')
    have e3 := he.trans he'
    unfold Plain.session at hr
    unfold Caller.session Plain.session
    revert hs hI hu2 e3 hr
    generalize Caller.call cfg f a c = r
    generalize Plain.call cfg f a b = r₀
    obtain ⟨r, c'⟩ := r
    obtain ⟨r₀, b''⟩ := r₀
    intro hs hI hu2 e3 hr
    change r = r₀ at e3
    subst e3
    cases r with
    | timeout => rfl
    | shared => exact absurd rfl hs
    | ok a => exact congrArg _ (ih hI hu2 fun h => hr (List.mem_cons_of_mem _ h))
    | panic p => exact congrArg _ (ih hI hu2 fun h => hr (List.mem_cons_of_mem _ h))

/-- The session of the first model, when nothing panics. -/
theorem session_same_of_no_panic (cfg : Cfg) (f : Nat) (calls : List Call) {c : Caller}
    {b : Plain} {fps : Nat → Nat → Prop} (h : Inv c b fps)
    (hr : ∀ p, Res.panic p ∉ Plain.session cfg f calls b) :
    Caller.session cfg f calls c = Plain.session cfg f calls b := by
  induction calls generalizing c b fps with
  | nil => rfl
  | cons a calls ih =>
    obtain ⟨he, hs, b₁, fps', hI, -, hl⟩ := call_same cfg f a h
    unfold Plain.session at hr
    unfold Caller.session Plain.session
    revert he hs hI hl hr
    generalize Caller.call cfg f a c = r
    generalize Plain.call cfg f a b = r₀
    obtain ⟨r, c'⟩ := r
    obtain ⟨r₀, b''⟩ := r₀
    intro he hs hI hl hr
    change r = r₀ at he
    subst he
    cases r with
    | timeout => rfl
    | shared => exact absurd rfl hs
    | ok a =>
      obtain rfl : b'' = b₁ := hl (fun p e => nomatch e) fun e => nomatch e
      exact congrArg _ (ih hI fun p h => hr p (List.mem_cons_of_mem _ h))
    | panic p => exact absurd List.mem_cons_self (hr p)

/-- At the start. -/
theorem Inv.start : Inv Caller.start Plain.start fun _ => nowhere :=
  ⟨rfl, fun _ => trivial, fun _ _ _ _ h => h.elim, fun _ _ h => h.elim⟩

end Clarith.Steps
