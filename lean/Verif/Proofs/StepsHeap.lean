import Verif.Proofs.Steps

/-! # Ownership of the `Rc`s in the statement-by-statement model

`Rep w o s fp`: in the world `w` the object `o` stands for the clog `s` of the first model, and all
the allocations it reaches are in the region `fp`; each of them is reached by one pointer only, and
its strong count is 1. -/

namespace Clarith.Steps

open Mut

/-- See above. -/
inductive Rep (w : World) : Obj → Strategy → (Nat → Prop) → Prop
  | ratio (r : Ratio) (fp : Nat → Prop) : Rep w (.ratio r) (.ratio r) fp
  | homographic {x : Obj} {X : Strategy} {fp : Nat → Prop} (k : Coef4) (h : Rep w x X fp) :
    Rep w (.homographic x k) (.homographic X k) fp
  | combine {i j : Nat} {ox oy : Obj} {X Y : Strategy} {fx fy fp : Nat → Prop} (k : Coef8)
    (hi : w.cells i = some ⟨1, ox⟩) (hj : w.cells j = some ⟨1, oy⟩) (hij : i ≠ j)
    (rx : Rep w ox X fx) (ry : Rep w oy Y fy)
    (ix : ¬ fx i) (iy : ¬ fy i) (jx : ¬ fx j) (jy : ¬ fy j) (sep : ∀ n, fx n → ¬ fy n)
    (sx : ∀ n, fx n → fp n) (sy : ∀ n, fy n → fp n) (mi : fp i) (mj : fp j) :
    Rep w (.combine i j k) (.combine X Y k) fp

theorem Rep.frame {w w' : World} {o : Obj} {s : Strategy} {fp : Nat → Prop} (h : Rep w o s fp)
    (e : ∀ n, fp n → w'.cells n = w.cells n) : Rep w' o s fp := by
  induction h with
  | ratio r fp => exact .ratio r fp
  | homographic k _ ih => exact .homographic k (ih e)
  | combine k hi hj hij _ _ ix iy jx jy sep sx sy mi mj ihx ihy =>
    exact .combine k ((e _ mi).trans hi) ((e _ mj).trans hj) hij (ihx fun n h => e n (sx n h))
      (ihy fun n h => e n (sy n h)) ix iy jx jy sep sx sy mi mj

theorem Rep.sub {w : World} {o : Obj} {s : Strategy} {fp fp' : Nat → Prop} (h : Rep w o s fp)
    (e : ∀ n, fp n → fp' n) : Rep w o s fp' := by
  induction h generalizing fp' with
  | ratio r fp => exact .ratio r fp'
  | homographic k _ ih => exact .homographic k (ih e)
  | combine k hi hj hij rx ry ix iy jx jy sep sx sy mi mj _ _ =>
    exact .combine k hi hj hij rx ry ix iy jx jy sep (fun n h => e n (sx n h))
      (fun n h => e n (sy n h)) (e _ mi) (e _ mj)

theorem Rep.swap {w : World} {i j : Nat} {k : Coef8} {X Y : Strategy} {fp : Nat → Prop}
    (h : Rep w (.combine i j k) (.combine X Y k) fp) :
    Rep w (.combine j i k) (.combine Y X k) fp := by
  cases h with
  | combine _ hi hj hij rx ry ix iy jx jy sep sx sy mi mj =>
    exact .combine k hj hi (Ne.symm hij) ry rx jy jx iy ix (fun n h h' => sep n h' h) sy sx mj mi

theorem Rep.coef {w : World} {i j : Nat} {k : Coef8} {X Y : Strategy} {fp : Nat → Prop}
    (h : Rep w (.combine i j k) (.combine X Y k) fp) (k' : Coef8) :
    Rep w (.combine i j k') (.combine X Y k') fp := by
  cases h with
  | combine _ hi hj hij rx ry ix iy jx jy sep sx sy mi mj =>
    exact .combine k' hi hj hij rx ry ix iy jx jy sep sx sy mi mj

/-- From `w` to `w'` only allocations in the region `fp` and new ones have changed, and the region
`fp'` consists of such allocations. -/
structure Grow (w : World) (fp : Nat → Prop) (w' : World) (fp' : Nat → Prop) : Prop where
  le : w.fresh ≤ w'.fresh
  frame : ∀ n, n < w.fresh → ¬ fp n → w'.cells n = w.cells n
  new : ∀ n, fp' n → fp n ∨ w.fresh ≤ n
  bound : ∀ n, fp' n → n < w'.fresh

/-- The region is below the next free address. -/
def Bound (w : World) (fp : Nat → Prop) : Prop := ∀ n, fp n → n < w.fresh

theorem Grow.refl {w : World} {fp : Nat → Prop} (h : Bound w fp) : Grow w fp w fp :=
  ⟨Nat.le_refl _, fun _ _ _ => rfl, fun _ h => .inl h, h⟩

theorem Grow.trans {w w' w'' : World} {fp fp' fp'' : Nat → Prop} (h : Grow w fp w' fp')
    (h' : Grow w' fp' w'' fp'') : Grow w fp w'' fp'' where
  le := Nat.le_trans h.le h'.le
  frame n hn hf := by
    rw [h'.frame n (Nat.lt_of_lt_of_le hn h.le), h.frame n hn hf]
    intro hf'
    rcases h.new n hf' with h1 | h1
    · exact hf h1
    · omega
  new n hn := by
    rcases h'.new n hn with h1 | h1
    · exact h.new n h1
    · exact .inr (Nat.le_trans h.le h1)
  bound := h'.bound

theorem Grow.shrink {w w' : World} {fp fp' fp'' : Nat → Prop} (h : Grow w fp w' fp')
    (e : ∀ n, fp'' n → fp' n) : Grow w fp w' fp'' :=
  ⟨h.le, h.frame, fun n hn => h.new n (e n hn), fun n hn => h.bound n (e n hn)⟩

/-- The empty region. -/
def nowhere : Nat → Prop := fun _ => False

/-- The object stands for `s` after the change of the world. -/
def Kept (w : World) (fp : Nat → Prop) (w' : World) (o : Obj) (s : Strategy) : Prop :=
  ∃ fp', Rep w' o s fp' ∧ Grow w fp w' fp'

theorem Kept.trans {w w' w'' : World} {fp fp' : Nat → Prop} {o : Obj} {s : Strategy}
    (h : Grow w fp w' fp') (h' : Kept w' fp' w'' o s) : Kept w fp w'' o s := by
  obtain ⟨f, r, g⟩ := h'
  exact ⟨f, r, h.trans g⟩

/-- A model of `Clog::egest` that agrees with one of the first model. -/
def EgSim (eg : EgestFn) (eg₀ : Clarith.EgestFn) : Prop :=
  ∀ (o : Obj) (w : World) (s : Strategy) (fp : Nat → Prop), Rep w o s fp → Bound w fp →
    Sim eg (o, w) (eg₀ s) (fun t => ∃ s', Kept w fp t.2 t.1 s')
      (fun a t b => a = b.1 ∧ Kept w fp t.2 t.1 b.2)

namespace Sim

variable {σ α β γ : Type} {s t : σ} {o : Out β} {J : σ → Prop} {R : γ → σ → β → Prop}

theorem run_bind {m : Mut σ α} {g : α → Mut σ γ} {a : α} (e : m s = (.ok a, t))
    (h : Sim (g a) t o J R) : Sim (m >>= g) s o J R := by
  have e' : (m >>= g) s = Mut.bind m g s := rfl
  have : (m >>= g) s = g a t := by rw [e', Mut.bind, e]
  unfold Sim at h ⊢
  rw [this]
  exact h

theorem part {τ : Type} {get : σ → τ} {put : τ → σ → σ} {m : Mut τ α} {Jt : τ → Prop}
    {Rt : α → τ → β → Prop} (h : Sim m (get s) o Jt Rt) :
    Sim (Mut.part get put m) s o (fun u => ∃ v, u = put v s ∧ Jt v)
      (fun a u b => ∃ v, u = put v s ∧ Rt a v b) := by
  unfold Sim Mut.part at *
  revert h
  generalize m (get s) = r
  obtain ⟨r, v⟩ := r
  cases r with
  | ok a => exact fun ⟨b, e, h⟩ => ⟨b, e, v, rfl, h⟩
  | panic p => exact fun ⟨e, h⟩ => ⟨e, v, rfl, h⟩
  | shared => exact id
  | timeout => exact fun ⟨e, h⟩ => ⟨e, v, rfl, h⟩

end Sim

/-! ## `Rc` -/

theorem put_self (w : World) (i : Nat) (c : Option Cell) : (w.put i c).cells i = c := by
  simp [World.put]

theorem put_other (w : World) {i n : Nat} (c : Option Cell) (h : n ≠ i) :
    (w.put i c).cells n = w.cells n := by
  simp [World.put, h]

theorem put_fresh (w : World) (i : Nat) (c : Option Cell) : (w.put i c).fresh = w.fresh := rfl

/-- The world after a method has run on the clog behind `x`. -/
theorem Rep.putX {w w' : World} {x y : Nat} {k : Coef8} {ox oy o' : Obj} {X' Y : Strategy}
    {fx fy fp : Nat → Prop} (hB : Bound w fp)
    (hi : w.cells x = some ⟨1, ox⟩) (hj : w.cells y = some ⟨1, oy⟩) (hij : x ≠ y)
    (ry : Rep w oy Y fy)
    (ix : ¬ fx x) (iy : ¬ fy x) (jx : ¬ fx y) (jy : ¬ fy y) (sep : ∀ n, fx n → ¬ fy n)
    (sx : ∀ n, fx n → fp n) (sy : ∀ n, fy n → fp n) (mi : fp x) (mj : fp y)
    (h : Kept w fx w' o' X') :
    Kept w fp (w'.put x (some ⟨1, o'⟩)) (.combine x y k) (.combine X' Y k) := by
  obtain ⟨fx', r, g⟩ := h
  have hx := hB x mi
  have hy := hB y mj
  have nx : ¬ fx' x := fun h => by
    rcases g.new _ h with h | h
    · exact ix h
    · omega
  have ny : ¬ fx' y := fun h => by
    rcases g.new _ h with h | h
    · exact jx h
    · omega
  refine ⟨fun n => fx' n ∨ fy n ∨ n = x ∨ n = y, ?_, ?_⟩
  · refine .combine k (ox := o') (oy := oy) (fx := fx') (fy := fy) (put_self _ _ _) ?_ hij ?_ ?_ nx
      iy ny jy ?_ (fun n h => .inl h) (fun n h => .inr (.inl h)) (.inr (.inr (.inl rfl)))
      (.inr (.inr (.inr rfl)))
    · rw [put_other _ _ (Ne.symm hij), g.frame y hy jx, hj]
    · exact r.frame fun n hn => put_other _ _ fun e => nx (e ▸ hn)
    · refine ry.frame fun n hn => ?_
      rw [put_other _ _ fun e : n = x => iy (e ▸ hn), g.frame n (hB n (sy n hn)) fun h => sep n h hn]
    · intro n h h'
      rcases g.new n h with h | h
      · exact sep n h h'
      · have := hB n (sy n h')
        omega
  · refine ⟨g.le, ?_, ?_, ?_⟩
    · intro n hn hf
      rw [put_other _ _ fun e : n = x => hf (e ▸ mi), g.frame n hn fun h => hf (sx n h)]
    · rintro n (h | h | rfl | rfl)
      · rcases g.new n h with h | h
        · exact .inl (sx n h)
        · exact .inr h
      · exact .inl (sy n h)
      · exact .inl mi
      · exact .inl mj
    · rw [put_fresh]
      have := g.le
      rintro n (h | h | rfl | rfl)
      · exact g.bound n h
      · have := hB n (sy n h)
        omega
      · omega
      · omega

theorem rcGetMut_x {eg : EgestFn} {eg₀ : Clarith.EgestFn} (hE : EgSim eg eg₀) {w : World}
    {x y : Nat} {k : Coef8} {X Y : Strategy} {fp : Nat → Prop}
    (h : Rep w (.combine x y k) (.combine X Y k) fp) (hB : Bound w fp) :
    Sim (rcGetMut x eg) w (eg₀ X)
      (fun t => ∃ X', Kept w fp t (.combine x y k) (.combine X' Y k))
      (fun a t b => a = b.1 ∧ Kept w fp t (.combine x y k) (.combine b.2 Y k)) := by
  cases h with
  | @combine _ _ ox oy _ _ fx fy _ _ hi hj hij rx ry ix iy jx jy sep sx sy mi mj =>
    have hs := hE ox w X fx rx fun n h => hB n (sx n h)
    have e : rcGetMut x eg w =
        ((eg (ox, w)).1, (eg (ox, w)).2.2.put x (some ⟨1, (eg (ox, w)).2.1⟩)) := by
      simp only [rcGetMut, hi]
    unfold Sim at hs ⊢
    rw [e]
    revert hs
    generalize eg (ox, w) = r
    obtain ⟨r, o', w'⟩ := r
    cases r with
    | ok a =>
      rintro ⟨b, e, h1, h2⟩
      exact ⟨b, e, h1, Rep.putX hB hi hj hij ry ix iy jx jy sep sx sy mi mj h2⟩
    | panic p =>
      rintro ⟨e, X', h2⟩
      exact ⟨e, X', Rep.putX hB hi hj hij ry ix iy jx jy sep sx sy mi mj h2⟩
    | shared => exact id
    | timeout =>
      rintro ⟨e, X', h2⟩
      exact ⟨e, X', Rep.putX hB hi hj hij ry ix iy jx jy sep sx sy mi mj h2⟩

theorem Kept.swap {w w' : World} {i j : Nat} {k : Coef8} {X Y : Strategy} {fp : Nat → Prop}
    (h : Kept w fp w' (.combine i j k) (.combine X Y k)) :
    Kept w fp w' (.combine j i k) (.combine Y X k) := by
  obtain ⟨f, r, g⟩ := h
  exact ⟨f, r.swap, g⟩

theorem Kept.coef {w w' : World} {i j : Nat} {k : Coef8} {X Y : Strategy} {fp : Nat → Prop}
    (h : Kept w fp w' (.combine i j k) (.combine X Y k)) (k' : Coef8) :
    Kept w fp w' (.combine i j k') (.combine X Y k') := by
  obtain ⟨f, r, g⟩ := h
  exact ⟨f, r.coef k', g⟩

theorem rcGetMut_y {eg : EgestFn} {eg₀ : Clarith.EgestFn} (hE : EgSim eg eg₀) {w : World}
    {x y : Nat} {k : Coef8} {X Y : Strategy} {fp : Nat → Prop}
    (h : Rep w (.combine x y k) (.combine X Y k) fp) (hB : Bound w fp) :
    Sim (rcGetMut y eg) w (eg₀ Y)
      (fun t => ∃ Y', Kept w fp t (.combine x y k) (.combine X Y' k))
      (fun a t b => a = b.1 ∧ Kept w fp t (.combine x y k) (.combine X b.2 k)) :=
  (rcGetMut_x hE h.swap hB).mono (fun _ ⟨Y', h⟩ => ⟨Y', h.swap⟩) fun _ _ _ ⟨e, h⟩ => ⟨e, h.swap⟩

theorem rcTryUnwrap_y {w : World} {x y : Nat} {k : Coef8} {X Y : Strategy} {fp : Nat → Prop}
    (h : Rep w (.combine x y k) (.combine X Y k) fp) (hB : Bound w fp) :
    ∃ oy w' fy, rcTryUnwrap y w = (.ok oy, w') ∧ Rep w' oy Y fy ∧ Grow w fp w' fy := by
  cases h with
  | @combine _ _ ox oy _ _ fx fy _ _ hi hj hij rx ry ix iy jx jy sep sx sy mi mj =>
    refine ⟨oy, w.put y none, fy, ?_, ?_, ?_⟩
    · simp only [rcTryUnwrap, hj]
    · exact ry.frame fun n hn => put_other _ _ fun e => jy (e ▸ hn)
    · exact ⟨Nat.le_refl _, fun n hn hf => put_other _ _ fun e => hf (e ▸ mj),
        fun n hn => .inl (sy n hn), fun n hn => hB n (sy n hn)⟩

theorem rcTryUnwrap_x {w : World} {x y : Nat} {k : Coef8} {X Y : Strategy} {fp : Nat → Prop}
    (h : Rep w (.combine x y k) (.combine X Y k) fp) (hB : Bound w fp) :
    ∃ ox w' fx, rcTryUnwrap x w = (.ok ox, w') ∧ Rep w' ox X fx ∧ Grow w fp w' fx :=
  rcTryUnwrap_y h.swap hB

namespace Combine

theorem mut_bind_run {σ α β : Type} {m : Mut σ α} {g : α → Mut σ β} {s t : σ} {a : α}
    (e : m s = (.ok a, t)) : (m >>= g) s = g a t := by
  have e' : (m >>= g) s = Mut.bind m g s := rfl
  rw [e', Mut.bind, e]

theorem onW_run {α : Type} {m : Mut World α} {c : Combine} {w w' : World} {a : α}
    (e : m w = (.ok a, w')) : onW m (c, w) = (.ok a, (c, w')) := by
  simp only [onW, Mut.part, e]

/-- What `shutdown_y` does. -/
theorem shutdownY_run {c : Combine} {w : World} {oy : Obj}
    (hj : w.cells c.y = some ⟨1, oy⟩) (hy : c.y < w.fresh) :
    ∃ w', shutdownY (c, w) = (.ok (.Other none oy), ({ c with y := w.fresh }, w')) ∧
      w'.fresh = w.fresh + 1 ∧ w'.cells w.fresh = some ⟨1, .ratio ⟨1, 2⟩⟩ ∧
      ∀ n, n ≠ c.y → n ≠ w.fresh → w'.cells n = w.cells n := by
  have hne : c.y ≠ w.fresh := by omega
  let w1 := w.put c.y (some ⟨2, oy⟩)
  let w2 : World := { w1.put w1.fresh (some ⟨1, .ratio ⟨1, 2⟩⟩) with fresh := w1.fresh + 1 }
  let w3 := w2.put c.y (some ⟨1, oy⟩)
  have c2 : w2.cells c.y = some ⟨2, oy⟩ := by
    show (w1.put w.fresh _).cells c.y = _
    rw [put_other _ _ hne]
    exact put_self _ _ _
  refine ⟨w3.put c.y none, ?_, rfl, ?_, ?_⟩
  · unfold shutdownY
    have e1 : rcClone c.y w = (.ok c.y, w1) := by simp only [rcClone, hj]; rfl
    have e2 : simpleClog w1 = (.ok w.fresh, w2) := rfl
    have e3 : rcDrop c.y w2 = (.ok (), w3) := by simp only [rcDrop, c2]; rfl
    have e4 : rcTryUnwrap c.y w3 = (.ok oy, w3.put c.y none) := by
      have : w3.cells c.y = some ⟨1, oy⟩ := put_self _ _ _
      simp only [rcTryUnwrap, this]
    rw [mut_bind_run (m := get) (s := (c, w)) (a := (c, w)) (t := (c, w)) rfl]
    rw [mut_bind_run (onW_run e1), mut_bind_run (onW_run e2)]
    rw [mut_bind_run (m := get) (s := (c, w2)) (a := (c, w2)) (t := (c, w2)) rfl]
    rw [mut_bind_run (onW_run e3)]
    rw [mut_bind_run (m := Mut.modify _) (s := (c, w3)) (a := ())
      (t := ({ c with y := w.fresh }, w3)) rfl]
    rw [mut_bind_run (onW_run e4)]
    rfl
  · rw [put_other _ _ (Ne.symm hne)]
    show (w2.put c.y _).cells w.fresh = _
    rw [put_other _ _ (Ne.symm hne)]
    exact put_self _ _ _
  · intro n h1 h2
    rw [put_other _ _ h1]
    show (w2.put c.y _).cells n = _
    rw [put_other _ _ h1]
    show (w1.put w.fresh _).cells n = _
    rw [put_other _ _ h2]
    exact put_other _ _ h1

/-- What `shutdown_x` does. -/
theorem shutdownX_run {c : Combine} {w : World} {ox : Obj}
    (hi : w.cells c.x = some ⟨1, ox⟩) (hx : c.x < w.fresh) :
    ∃ w', shutdownX (c, w) = (.ok (.Other none ox), ({ c with x := w.fresh }, w')) ∧
      w'.fresh = w.fresh + 1 ∧ w'.cells w.fresh = some ⟨1, .ratio ⟨1, 2⟩⟩ ∧
      ∀ n, n ≠ c.x → n ≠ w.fresh → w'.cells n = w.cells n := by
  have hne : c.x ≠ w.fresh := by omega
  let w1 := w.put c.x (some ⟨2, ox⟩)
  let w2 : World := { w1.put w1.fresh (some ⟨1, .ratio ⟨1, 2⟩⟩) with fresh := w1.fresh + 1 }
  let w3 := w2.put c.x (some ⟨1, ox⟩)
  have c2 : w2.cells c.x = some ⟨2, ox⟩ := by
    show (w1.put w.fresh _).cells c.x = _
    rw [put_other _ _ hne]
    exact put_self _ _ _
  refine ⟨w3.put c.x none, ?_, rfl, ?_, ?_⟩
  · unfold shutdownX
    have e1 : rcClone c.x w = (.ok c.x, w1) := by simp only [rcClone, hi]; rfl
    have e2 : simpleClog w1 = (.ok w.fresh, w2) := rfl
    have e3 : rcDrop c.x w2 = (.ok (), w3) := by simp only [rcDrop, c2]; rfl
    have e4 : rcTryUnwrap c.x w3 = (.ok ox, w3.put c.x none) := by
      have : w3.cells c.x = some ⟨1, ox⟩ := put_self _ _ _
      simp only [rcTryUnwrap, this]
    rw [mut_bind_run (m := get) (s := (c, w)) (a := (c, w)) (t := (c, w)) rfl]
    rw [mut_bind_run (onW_run e1), mut_bind_run (onW_run e2)]
    rw [mut_bind_run (m := get) (s := (c, w2)) (a := (c, w2)) (t := (c, w2)) rfl]
    rw [mut_bind_run (onW_run e3)]
    rw [mut_bind_run (m := Mut.modify _) (s := (c, w3)) (a := ())
      (t := ({ c with x := w.fresh }, w3)) rfl]
    rw [mut_bind_run (onW_run e4)]
    rfl
  · rw [put_other _ _ (Ne.symm hne)]
    show (w2.put c.x _).cells w.fresh = _
    rw [put_other _ _ (Ne.symm hne)]
    exact put_self _ _ _
  · intro n h1 h2
    rw [put_other _ _ h1]
    show (w2.put c.x _).cells n = _
    rw [put_other _ _ h1]
    show (w1.put w.fresh _).cells n = _
    rw [put_other _ _ h2]
    exact put_other _ _ h1

/-- After `shutdown_y` the clog moved out and `self` own separate regions. -/
theorem shutdownY_rep {x y : Nat} {k : Coef8} {w : World} {X Y : Strategy} {fp : Nat → Prop}
    (h : Rep w (.combine x y k) (.combine X Y k) fp) (hB : Bound w fp) :
    ∃ oy w' fy fp', shutdownY (⟨x, y, k⟩, w) = (.ok (.Other none oy), (⟨x, w.fresh, k⟩, w')) ∧
      Rep w' oy Y fy ∧ Rep w' (.combine x w.fresh k) (.combine X (.ratio ⟨1, 2⟩) k) fp' ∧
      (∀ n, fy n → ¬ fp' n) ∧ Grow w fp w' fy ∧ Grow w fp w' fp' := by
  cases h with
  | @combine _ _ ox oy _ _ fx fy _ _ hi hj hij rx ry ix iy jx jy sep sx sy mi mj =>
    have hx := hB x mi
    have hy := hB y mj
    obtain ⟨w', e, h1, h2, h3⟩ := shutdownY_run (c := ⟨x, y, k⟩) hj hy
    refine ⟨oy, w', fy, fun n => fx n ∨ n = x ∨ n = w.fresh, e, ?_, ?_, ?_, ?_, ?_⟩
    · refine ry.frame fun n hn => h3 n (fun e : n = y => jy (e ▸ hn)) ?_
      have := hB n (sy n hn)
      omega
    · refine .combine k (ox := ox) (oy := .ratio ⟨1, 2⟩) (fx := fx) (fy := nowhere) ?_ h2
        (by omega) ?_ (.ratio _ _) ix id ?_ id (fun _ _ => id) (fun n h => .inl h)
        (fun n h => h.elim) (.inr (.inl rfl)) (.inr (.inr rfl))
      · rw [h3 x hij (by omega), hi]
      · refine rx.frame fun n hn => h3 n (fun e : n = y => jx (e ▸ hn)) ?_
        have := hB n (sx n hn)
        omega
      · intro h
        have := hB _ (sx _ h)
        omega
    · rintro n hn (h | rfl | rfl)
      · exact sep n h hn
      · exact iy hn
      · have := hB _ (sy _ hn)
        omega
    · refine ⟨by omega, fun n hn hf => h3 n (fun e : n = y => hf (e ▸ mj)) (by omega),
        fun n hn => .inl (sy n hn), fun n hn => ?_⟩
      have := hB _ (sy _ hn)
      omega
    · refine ⟨by omega, fun n hn hf => h3 n (fun e : n = y => hf (e ▸ mj)) (by omega), ?_, ?_⟩
      · rintro n (h | rfl | rfl)
        · exact .inl (sx n h)
        · exact .inl mi
        · exact .inr (Nat.le_refl _)
      · rintro n (h | rfl | rfl)
        · have := hB _ (sx _ h)
          omega
        · omega
        · omega

/-- After `shutdown_x` the clog moved out and `self` own separate regions. -/
theorem shutdownX_rep {x y : Nat} {k : Coef8} {w : World} {X Y : Strategy} {fp : Nat → Prop}
    (h : Rep w (.combine x y k) (.combine X Y k) fp) (hB : Bound w fp) :
    ∃ ox w' fx fp', shutdownX (⟨x, y, k⟩, w) = (.ok (.Other none ox), (⟨w.fresh, y, k⟩, w')) ∧
      Rep w' ox X fx ∧ Rep w' (.combine w.fresh y k) (.combine (.ratio ⟨1, 2⟩) Y k) fp' ∧
      (∀ n, fx n → ¬ fp' n) ∧ Grow w fp w' fx ∧ Grow w fp w' fp' := by
  cases h with
  | @combine _ _ ox oy _ _ fx fy _ _ hi hj hij rx ry ix iy jx jy sep sx sy mi mj =>
    have hx := hB x mi
    have hy := hB y mj
    obtain ⟨w', e, h1, h2, h3⟩ := shutdownX_run (c := ⟨x, y, k⟩) hi hx
    refine ⟨ox, w', fx, fun n => fy n ∨ n = y ∨ n = w.fresh, e, ?_, ?_, ?_, ?_, ?_⟩
    · refine rx.frame fun n hn => h3 n (fun e : n = x => ix (e ▸ hn)) ?_
      have := hB n (sx n hn)
      omega
    · refine .combine k (ox := .ratio ⟨1, 2⟩) (oy := oy) (fx := nowhere) (fy := fy) h2 ?_
        (by omega) (.ratio _ _) ?_ id ?_ id jy (fun _ h => h.elim) (fun n h => h.elim)
        (fun n h => .inl h) (.inr (.inr rfl)) (.inr (.inl rfl))
      · rw [h3 y (Ne.symm hij) (by omega), hj]
      · refine ry.frame fun n hn => h3 n (fun e : n = x => iy (e ▸ hn)) ?_
        have := hB n (sy n hn)
        omega
      · intro h
        have := hB _ (sy _ h)
        omega
    · rintro n hn (h | rfl | rfl)
      · exact sep n hn h
      · exact jx hn
      · have := hB _ (sx _ hn)
        omega
    · refine ⟨by omega, fun n hn hf => h3 n (fun e : n = x => hf (e ▸ mi)) (by omega),
        fun n hn => .inl (sx n hn), fun n hn => ?_⟩
      have := hB _ (sx _ hn)
      omega
    · refine ⟨by omega, fun n hn hf => h3 n (fun e : n = x => hf (e ▸ mi)) (by omega), ?_, ?_⟩
      · rintro n (h | rfl | rfl)
        · exact .inl (sy n h)
        · exact .inl mj
        · exact .inr (Nat.le_refl _)
      · rintro n (h | rfl | rfl)
        · have := hB _ (sy _ h)
          omega
        · omega
        · omega

end Combine
end Clarith.Steps
