import Verif.Model.Memory

/-! # Dropping changes nothing but the allocations

`Model/Memory.lean` and `Model/Steps.lean` run side by side.  Every allocation of the first is in the
second, the same, with one pointer; the second has some more, which are never looked at.  As long as the
first finds no shared pointer, both give the same answers and print the same lines. -/

namespace Clarith.Steps.Memory

open Mut

/-- The allocations of `w` are among those of `W`, with one pointer each. -/
structure Below (w W : World) : Prop where
  fresh : w.fresh = W.fresh
  printed : w.printed = W.printed
  cells : ∀ n c, w.cells n = some c → W.cells n = some c ∧ c.count = 1

namespace Below

variable {w W : World}

theorem put_same (h : Below w W) (i : Nat) (o : Obj) :
    Below (w.put i (some ⟨1, o⟩)) (W.put i (some ⟨1, o⟩)) := by
  refine ⟨h.fresh, h.printed, fun n c e => ?_⟩
  unfold World.put at e ⊢
  dsimp only at e ⊢
  split at e
  · cases e
    exact ⟨by rw [if_pos ‹_›], rfl⟩
  · rw [if_neg ‹_›]
    exact h.cells n c e

theorem put_none (h : Below w W) (i : Nat) : Below (w.put i none) W := by
  refine ⟨h.fresh, h.printed, fun n c e => ?_⟩
  unfold World.put at e
  dsimp only at e
  split at e
  · cases e
  · exact h.cells n c e

theorem put_both (h : Below w W) (i : Nat) : Below (w.put i none) (W.put i none) := by
  refine ⟨h.fresh, h.printed, fun n c e => ?_⟩
  unfold World.put at e ⊢
  dsimp only at e ⊢
  split at e
  · cases e
  · rw [if_neg ‹_›]
    exact h.cells n c e

theorem releaseRc {inner : Obj → World → World}
    (hi : ∀ o w, Below w W → Below (inner o w) W) (h : Below w W) (i : Nat) :
    Below (releaseRc inner i w) W := by
  unfold Memory.releaseRc
  split
  · rename_i c e
    rw [if_pos (by have := (h.cells i c e).2; omega)]
    exact hi _ _ (h.put_none i)
  · exact h

theorem releaseObj {inner : Obj → World → World}
    (hi : ∀ o w, Below w W → Below (inner o w) W) (h : Below w W) (o : Obj) :
    Below (releaseObj inner o w) W := by
  induction o with
  | ratio r => exact h
  | homographic x k ih => exact ih
  | combine x y k => exact (h.releaseRc hi x).releaseRc hi y

theorem releaseUpTo (f : Nat) (h : Below w W) (o : Obj) : Below (releaseUpTo f o w) W := by
  induction f generalizing w o with
  | zero => exact h.releaseObj (fun _ _ h => h) o
  | succ f ih => exact h.releaseObj (fun o _ h => ih h o) o

theorem release (h : Below w W) (o : Obj) : Below (release o w) W := h.releaseUpTo _ o

theorem releaseNumber (h : Below w W) (x : Number) : Below (releaseNumber x w) W := by
  cases x with
  | Special s => exact h
  | Other p c => exact h.release c

theorem releaseRc' (h : Below w W) (i : Nat) :
    Below (Memory.releaseRc Memory.release i w) W :=
  h.releaseRc (fun o _ h => h.release o) i

theorem discard (h : Below w W) (x : Option Homographic) : Below (Homographic.discard x w) W := by
  cases x with
  | none => exact h
  | some x => exact h.release x.x

theorem discardC (h : Below w W) (x : Option Combine) : Below (Number.discard x w) W := by
  cases x with
  | none => exact h
  | some x => exact h.release x.box

end Below

/-- The same object, and the allocations as in `Below`. -/
def Same {σ : Type} (t s : σ × World) : Prop := t.1 = s.1 ∧ Below t.2 s.2

/-- `m'` ends as `m` does, unless it finds a shared pointer. -/
def Twin {S' S α β : Type} (Q : S' → S → Prop) (m' : Mut S' α) (m : Mut S β) (J : S' → S → Prop)
    (R : α → β → S' → S → Prop) : Prop :=
  ∀ t s, Q t s →
    match m' t with
    | (.ok a, t') => ∃ b s', m s = (.ok b, s') ∧ R a b t' s'
    | (.panic p, t') => ∃ s', m s = (.panic p, s') ∧ J t' s'
    | (.shared, _) => True
    | (.timeout, _) => ∃ s', m s = (.timeout, s')

/-- The same answer, and the same relation at the end. -/
def Alike {S' S α : Type} (L : S' → S → Prop) (m' : Mut S' α) (m : Mut S α) : Prop :=
  Twin L m' m L (fun a b t s => a = b ∧ L t s)

namespace Twin

variable {S' S α β α' β' : Type} {Q J : S' → S → Prop} {R : α → β → S' → S → Prop}
  {R' : α' → β' → S' → S → Prop} {m' : Mut S' α} {m : Mut S β}

theorem bind {g' : α → Mut S' α'} {g : β → Mut S β'} (h : Twin Q m' m J R)
    (k : ∀ a b, Twin (R a b) (g' a) (g b) J R') : Twin Q (m' >>= g') (m >>= g) J R' := by
  intro t s hQ
  have h1 := h t s hQ
  have e' : (m' >>= g') t = match m' t with
      | (.ok a, s) => g' a s
      | (.panic p, s) => (.panic p, s)
      | (.shared, s) => (.shared, s)
      | (.timeout, s) => (.timeout, s) := rfl
  have e : (m >>= g) s = match m s with
      | (.ok a, s) => g a s
      | (.panic p, s) => (.panic p, s)
      | (.shared, s) => (.shared, s)
      | (.timeout, s) => (.timeout, s) := rfl
  rw [e', e]
  revert h1
  generalize m' t = r
  obtain ⟨r, t'⟩ := r
  cases r with
  | ok a =>
    rintro ⟨b, s', h1, h2⟩
    rw [h1]
    exact k a b t' s' h2
  | panic p =>
    rintro ⟨s', h1, h2⟩
    rw [h1]
    exact ⟨s', rfl, h2⟩
  | shared => exact fun _ => trivial
  | timeout =>
    rintro ⟨s', h1⟩
    rw [h1]
    exact ⟨s', rfl⟩

theorem pure {a : α} {b : β} (h : ∀ t s, Q t s → R a b t s) :
    Twin Q (Pure.pure a) (Pure.pure b) J R := fun t s hQ => ⟨b, s, rfl, h t s hQ⟩

theorem panic {p : Panic} (h : ∀ t s, Q t s → J t s) :
    Twin Q (Mut.panic p : Mut S' α) (Mut.panic p : Mut S β) J R := fun t s hQ => ⟨s, rfl, h t s hQ⟩

theorem timeout : Twin Q (Mut.timeout : Mut S' α) (Mut.timeout : Mut S β) J R :=
  fun _ s _ => ⟨s, rfl⟩

theorem conseq {Q₁ J₁ : S' → S → Prop} {R₁ : α → β → S' → S → Prop} (h : Twin Q m' m J R)
    (hQ : ∀ t s, Q₁ t s → Q t s) (hJ : ∀ t s, J t s → J₁ t s)
    (hR : ∀ a b t s, R a b t s → R₁ a b t s) : Twin Q₁ m' m J₁ R₁ := by
  intro t s h1
  have h2 := h t s (hQ _ _ h1)
  revert h2
  generalize m' t = r
  obtain ⟨r, t'⟩ := r
  cases r with
  | ok a => exact fun ⟨b, s', h1, h2⟩ => ⟨b, s', h1, hR _ _ _ _ h2⟩
  | panic p => exact fun ⟨s', h1, h2⟩ => ⟨s', h1, hJ _ _ h2⟩
  | shared => exact id
  | timeout => exact id

theorem eval {o : Out α} {R : α → α → S' → S → Prop} (hJ : ∀ t s, Q t s → J t s)
    (hR : ∀ a t s, Q t s → R a a t s) : Twin Q (Mut.eval o) (Mut.eval o) J R := by
  intro t s h
  cases o with
  | ok a => exact ⟨a, s, rfl, hR a t s h⟩
  | panic p => exact ⟨s, rfl, hJ t s h⟩
  | timeout => exact ⟨s, rfl⟩

/-- What happens only in the first. -/
theorem modify_left {d : S' → S'} {k' : Mut S' α} (h : Twin Q k' m J R)
    (hd : ∀ t s, Q t s → Q (d t) s) : Twin Q (do Mut.modify d; k') m J R :=
  fun t s hQ => h (d t) s (hd t s hQ)

end Twin

namespace Alike

variable {S' S α β : Type} {L : S' → S → Prop} {m' : Mut S' α} {m : Mut S α}

theorem bind {g' : α → Mut S' β} {g : α → Mut S β} (h : Alike L m' m)
    (k : ∀ a, Alike L (g' a) (g a)) : Alike L (m' >>= g') (m >>= g) :=
  Twin.bind h fun a b t s h => by
    obtain ⟨rfl, h⟩ := h
    exact k a t s h

theorem pure {a : α} : Alike L (Pure.pure a) (Pure.pure a) := Twin.pure fun _ _ h => ⟨rfl, h⟩

theorem panic {p : Panic} : Alike L (Mut.panic p : Mut S' α) (Mut.panic p) :=
  Twin.panic fun _ _ h => h

theorem timeout : Alike L (Mut.timeout : Mut S' α) Mut.timeout := Twin.timeout

theorem eval {o : Out α} : Alike L (Mut.eval o) (Mut.eval o) :=
  Twin.eval (fun _ _ h => h) fun _ _ _ h => ⟨rfl, h⟩

theorem get {σ : Type} {g' g : σ × World → Mut (σ × World) β}
    (k : ∀ c w W, Alike Same (g' (c, w)) (g (c, W))) :
    Alike Same (Mut.get >>= g') (Mut.get >>= g) := by
  rintro ⟨c, w⟩ ⟨c', W⟩ ⟨h1, h2⟩
  obtain rfl : c = c' := h1
  exact k c w W (c, w) (c, W) ⟨rfl, h2⟩

theorem modify {d' : S' → S'} {d : S → S} (h : ∀ t s, L t s → L (d' t) (d s)) :
    Alike L (Mut.modify d') (Mut.modify d) := fun t s hL => ⟨(), d s, rfl, rfl, h t s hL⟩

theorem ite {c : Prop} [Decidable c] {n' : Mut S' α} {n : Mut S α} (h : c → Alike L m' m)
    (h' : ¬ c → Alike L n' n) : Alike L (if c then m' else n') (if c then m else n) := by
  split
  · exact h ‹_›
  · exact h' ‹_›

theorem left {d : S' → S'} (h : Alike L m' m) (hd : ∀ t s, L t s → L (d t) s) :
    Alike L (do Mut.modify d; m') m := Twin.modify_left h hd

/-- A part of the state that has nothing to do with the world. -/
theorem plain {σ κ : Type} {get : σ → κ} {put : κ → σ → σ} {m : Mut κ α} :
    Alike Same (part (fun s : σ × World => get s.1) (fun k s => (put k s.1, s.2)) m)
      (part (fun s : σ × World => get s.1) (fun k s => (put k s.1, s.2)) m) := by
  rintro ⟨c, w⟩ ⟨c', W⟩ ⟨h1, h2⟩
  obtain rfl : c = c' := h1
  unfold part
  dsimp only
  cases h : (m (get c)).1 with
  | ok a => exact ⟨a, _, rfl, rfl, rfl, h2⟩
  | panic p => exact ⟨_, rfl, rfl, h2⟩
  | shared => trivial
  | timeout => exact ⟨_, rfl⟩

/-- A part of the state that has the world in it. -/
theorem part {σ τ : Type} {get : σ → τ} {put : τ → σ → σ} {m' m : Mut (τ × World) α}
    (h : Alike Same m' m) :
    Alike Same (Mut.part (fun s : σ × World => (get s.1, s.2)) (fun t s => (put t.1 s.1, t.2)) m')
      (Mut.part (fun s : σ × World => (get s.1, s.2)) (fun t s => (put t.1 s.1, t.2)) m) := by
  rintro ⟨c, w⟩ ⟨c', W⟩ ⟨h1, h2⟩
  obtain rfl : c = c' := h1
  have h3 := h (get c, w) (get c, W) ⟨rfl, h2⟩
  unfold Mut.part
  dsimp only
  revert h3
  generalize m' (get c, w) = r
  obtain ⟨r, t⟩ := r
  cases r with
  | ok a =>
    rintro ⟨_, s, e, rfl, h4, h5⟩
    rw [e]
    exact ⟨a, _, rfl, rfl, congrArg (put · c) h4, h5⟩
  | panic p =>
    rintro ⟨s, e, h4, h5⟩
    rw [e]
    exact ⟨_, rfl, congrArg (put · c) h4, h5⟩
  | shared => exact id
  | timeout =>
    rintro ⟨s, e⟩
    rw [e]
    exact ⟨_, rfl⟩

theorem onW {m' m : Mut World α} (h : Alike Below m' m) :
    Alike Same (Combine.onW m') (Combine.onW m) := by
  rintro ⟨c, w⟩ ⟨c', W⟩ ⟨h1, h2⟩
  obtain rfl : c = c' := h1
  have h3 := h w W h2
  unfold Combine.onW Mut.part
  dsimp only
  revert h3
  generalize m' w = r
  obtain ⟨r, t⟩ := r
  cases r with
  | ok a =>
    rintro ⟨_, s, e, rfl, h4⟩
    rw [e]
    exact ⟨a, _, rfl, rfl, rfl, h4⟩
  | panic p =>
    rintro ⟨s, e, h4⟩
    rw [e]
    exact ⟨_, rfl, rfl, h4⟩
  | shared => exact id
  | timeout =>
    rintro ⟨s, e⟩
    rw [e]
    exact ⟨_, rfl⟩

theorem unwind {m' m : Mut World α} {d : World → World} (h : Alike Below m' m)
    (hd : ∀ w W, Below w W → Below (d w) W) : Alike Below (Memory.unwind d m') m := by
  intro w W hB
  have h1 := h w W hB
  unfold Memory.unwind
  revert h1
  generalize m' w = r
  obtain ⟨r, t⟩ := r
  cases r with
  | ok a => exact id
  | panic p => exact fun ⟨s, e, h1⟩ => ⟨s, e, hd _ _ h1⟩
  | shared => exact id
  | timeout => exact id

theorem scope {m' m : Mut World α} {d : World → World} (h : Alike Below m' m)
    (hd : ∀ w W, Below w W → Below (d w) W) : Alike Below (Memory.scope d m') m := by
  intro w W hB
  have h1 := h w W hB
  unfold Memory.scope
  revert h1
  generalize m' w = r
  obtain ⟨r, t⟩ := r
  cases r with
  | ok a => exact fun ⟨b, s, e, h0, h1⟩ => ⟨b, s, e, h0, hd _ _ h1⟩
  | panic p => exact fun ⟨s, e, h1⟩ => ⟨s, e, hd _ _ h1⟩
  | shared => exact id
  | timeout => exact id

theorem owned {σ : Type} {s : σ} {m' m : Mut (σ × World) α} {d : σ → World → World}
    {moved : α → Bool} (h : Alike Same m' m) (hd : ∀ s w W, Below w W → Below (d s w) W) :
    Alike Below (Memory.owned d moved s m') (Homographic.owned s m) := by
  intro w W hB
  have h1 := h (s, w) (s, W) ⟨rfl, hB⟩
  unfold Memory.owned Homographic.owned
  revert h1
  generalize m' (s, w) = r
  obtain ⟨r, s', t⟩ := r
  dsimp only
  cases r with
  | ok a =>
    rintro ⟨_, S, e, rfl, h1, h2⟩
    rw [e]
    refine ⟨a, _, rfl, rfl, ?_⟩
    dsimp only
    split
    · exact h2
    · exact hd _ _ _ h2
  | panic p =>
    rintro ⟨S, e, h1, h2⟩
    rw [e]
    exact ⟨_, rfl, hd _ _ _ h2⟩
  | shared => exact id
  | timeout =>
    rintro ⟨S, e⟩
    rw [e]
    exact ⟨_, rfl⟩

end Alike

/-! ## `Rc` -/

theorem rcGetMut_some {α : Type} {m : Mut (Obj × World) α} {i : Nat} {w : World} {o : Obj}
    (h : w.cells i = some ⟨1, o⟩) :
    rcGetMut i m w = ((m (o, w)).1, (m (o, w)).2.2.put i (some ⟨1, (m (o, w)).2.1⟩)) := by
  simp only [rcGetMut, h]

theorem rcGetMut_none {α : Type} {m : Mut (Obj × World) α} {i : Nat} {w : World}
    (h : w.cells i = none) : rcGetMut i m w = (.shared, w) := by
  unfold rcGetMut
  rw [h]

theorem rcGetMut_alike {α : Type} {m' m : Mut (Obj × World) α} (h : Alike Same m' m) (i : Nat) :
    Alike Below (rcGetMut i m') (rcGetMut i m) := by
  intro w W hB
  rcases hc : w.cells i with _ | ⟨n, o⟩
  · rw [rcGetMut_none hc]
    trivial
  · obtain ⟨h1, h2⟩ := hB.cells i _ hc
    obtain rfl : n = 1 := h2
    rw [rcGetMut_some hc, rcGetMut_some h1]
    have h3 := h (o, w) (o, W) ⟨rfl, hB⟩
    revert h3
    generalize m' (o, w) = r
    obtain ⟨r, o', t⟩ := r
    cases r with
    | ok a =>
      rintro ⟨_, ⟨o2, s⟩, e, rfl, h4, h5⟩
      obtain rfl : o' = o2 := h4
      rw [e]
      exact ⟨a, _, rfl, rfl, h5.put_same i o'⟩
    | panic p =>
      rintro ⟨⟨o2, s⟩, e, h4, h5⟩
      obtain rfl : o' = o2 := h4
      rw [e]
      exact ⟨_, rfl, h5.put_same i o'⟩
    | shared => exact id
    | timeout =>
      rintro ⟨s, e⟩
      rw [e]
      exact ⟨_, rfl⟩

theorem rcTryUnwrap_alike (i : Nat) : Alike Below (rcTryUnwrap i) (rcTryUnwrap i) := by
  intro w W hB
  unfold rcTryUnwrap
  rcases hc : w.cells i with _ | ⟨n, o⟩
  · trivial
  · obtain ⟨h1, h2⟩ := hB.cells i _ hc
    obtain rfl : n = 1 := h2
    rw [h1]
    exact ⟨o, _, rfl, rfl, hB.put_both i⟩

theorem rcNew_alike (o : Obj) : Alike Below (rcNew o) (rcNew o) := by
  intro w W hB
  refine ⟨_, _, rfl, hB.fresh, ?_⟩
  have h := hB.put_same w.fresh o
  refine ⟨?_, h.printed, ?_⟩
  · show w.fresh + 1 = W.fresh + 1
    rw [hB.fresh]
  · intro n c e
    rw [← hB.fresh]
    exact h.cells n c e

/-! ## `Homographic` -/

namespace Homographic

theorem println_alike : Alike Same (println fine) Steps.Homographic.println :=
  .modify fun t s ⟨h1, h2⟩ => ⟨h1, h2.fresh, by
    show t.2.printed ++ [t.1.k] = s.2.printed ++ [s.1.k]
    rw [h1, h2.printed], h2.cells⟩

theorem onK_alike {α : Type} (m : Mut Coef4 α) : Alike Same (Homographic.onK m) (Homographic.onK m) :=
  .plain (get := fun s : Homographic => s.k) (put := fun k s => { s with k := k })

theorem onX_alike {eg' eg : EgestFn} (hE : Alike Same eg' eg) :
    Alike Same (Homographic.onX eg') (Homographic.onX eg) :=
  .part (get := fun s : Homographic => s.x) (put := fun x s => { s with x := x }) hE

theorem primeIngest_alike (cfg : Cfg) {eg' eg : EgestFn} (hE : Alike Same eg' eg) :
    Alike Same (Homographic.primeIngest cfg eg') (Homographic.primeIngest cfg eg) := by
  unfold Homographic.primeIngest
  refine (onX_alike hE).bind fun a => ?_
  rcases a with _ | _ | _
  · exact .get fun c w W => Alike.eval.bind fun _ => Alike.eval.bind fun _ => .pure
  · exact (onK_alike _).bind fun _ => .pure
  · exact (onK_alike _).bind fun _ => .pure

theorem reductionIngest_alike (cfg : Cfg) {eg' eg : EgestFn} (hE : Alike Same eg' eg) :
    Alike Same (Homographic.reductionIngest cfg eg') (Homographic.reductionIngest cfg eg) := by
  unfold Homographic.reductionIngest
  refine (onX_alike hE).bind fun a => ?_
  rcases a with _ | _ | _
  · refine .get fun c w W => Alike.eval.bind fun _ => Alike.eval.bind fun r => ?_
    obtain ⟨_ | _, _ | _, _ | _⟩ := r
    · exact .panic
    · exact .pure
    all_goals exact .panic
  · exact (onK_alike _).bind fun _ => .pure
  · exact (onK_alike _).bind fun _ => .pure

theorem prime_alike (cfg : Cfg) {eg' eg : EgestFn} (hE : Alike Same eg' eg) (f : Nat) :
    Alike Same (Homographic.prime cfg fine eg' f) (Steps.Homographic.prime cfg eg f) := by
  induction f with
  | zero => exact .timeout
  | succ f ih =>
    unfold prime Steps.Homographic.prime
    refine println_alike.bind fun _ => (onK_alike _).bind fun a => ?_
    rcases a with _ | p
    · refine (primeIngest_alike cfg hE).bind fun a => ?_
      rcases a with _ | ⟨_, _, _⟩
      · exact ih
      · exact .pure
    · exact .get fun c w W => .pure

theorem egest_alike (cfg : Cfg) {eg' eg : EgestFn} (hE : Alike Same eg' eg) (f : Nat) :
    Alike Same (Homographic.egest cfg fine eg' f) (Steps.Homographic.egest cfg eg f) := by
  induction f with
  | zero => exact .timeout
  | succ f ih =>
    unfold egest Steps.Homographic.egest
    refine println_alike.bind fun _ => (onK_alike _).bind fun a => ?_
    rcases a with _ | p
    · refine (reductionIngest_alike cfg hE).bind fun a => ?_
      rcases a with _ | _
      · exact ih
      · exact .pure
    · exact .pure

theorem asRatio_alike (cfg : Cfg) (n d : Int) :
    Alike Below (Homographic.asRatio cfg n d) (Homographic.asRatio cfg n d) :=
  Alike.eval.bind fun _ => .pure

theorem new_alike (cfg : Cfg) {eg' eg : EgestFn} (hE : Alike Same eg' eg) (f : Nat) (x : Number)
    (nx n dx d : Int) :
    Alike Below (new cfg fine eg' f x nx n dx d) (Steps.Homographic.new cfg eg f x nx n dx d) := by
  unfold new Steps.Homographic.new
  refine .ite (fun _ => (asRatio_alike cfg n d).scope fun _ _ h => h.releaseNumber x) fun _ => ?_
  rcases x with (_ | _ | _) | ⟨p, c⟩
  · exact Alike.eval.bind fun _ => Alike.eval.bind fun _ => asRatio_alike cfg _ _
  · exact asRatio_alike cfg _ _
  · exact Alike.eval.bind fun _ => Alike.eval.bind fun _ => asRatio_alike cfg _ _
  · exact (Alike.eval.unwind fun _ _ h => h.release c).bind fun k =>
      (prime_alike cfg hE f).owned fun s _ _ h => h.release s.x

end Homographic

/-! ## `Combine` -/

namespace Combine

theorem onK_alike {α : Type} (m : Mut Coef8 α) : Alike Same (Combine.onK m) (Combine.onK m) :=
  .plain (get := fun s : Combine => s.k) (put := fun k s => { s with k := k })

/-- The object is a value in the first, and the state of the second. -/
def At (c : Combine) (w : World) (s : Combine × World) : Prop := s.1 = c ∧ Below w s.2

/-- Only the worlds matter. -/
def Gone (w : World) (s : Combine × World) : Prop := Below w s.2

theorem onW_at {α : Type} {m' m : Mut World α} (c : Combine) (h : Alike Below m' m) :
    Twin (At c) m' (Combine.onW m) Gone (fun a b w s => a = b ∧ At c w s) := by
  rintro w ⟨c', W⟩ ⟨h1, h2⟩
  obtain rfl : c' = c := h1
  have h3 := h w W h2
  unfold Combine.onW Mut.part
  dsimp only
  revert h3
  generalize m' w = r
  obtain ⟨r, t⟩ := r
  cases r with
  | ok a =>
    rintro ⟨_, s, e, rfl, h4⟩
    rw [e]
    exact ⟨a, _, rfl, rfl, rfl, h4⟩
  | panic p =>
    rintro ⟨s, e, h4⟩
    rw [e]
    exact ⟨_, rfl, h4⟩
  | shared => exact id
  | timeout =>
    rintro ⟨s, e⟩
    rw [e]
    exact ⟨_, rfl⟩

theorem onK_at {α : Type} (m : Mut Coef8 α) (o : Obj) (c : Combine) :
    Twin (At c) (unwind (release o) (onCopy c.k m)) (Combine.onK m) Gone
      (fun a b w s => a.1 = b ∧ At { c with k := a.2 } w s) := by
  rintro w ⟨c', W⟩ ⟨h1, h2⟩
  obtain rfl : c' = c := h1
  unfold unwind onCopy Combine.onK Mut.part
  dsimp only
  generalize m c'.k = r
  obtain ⟨r, k⟩ := r
  cases r with
  | ok a => exact ⟨a, _, rfl, rfl, rfl, h2⟩
  | panic p => exact ⟨_, rfl, h2.release _⟩
  | shared => trivial
  | timeout => exact ⟨_, rfl⟩

theorem get_at {α β : Type} {c : Combine} {m' : Mut World α} {g : Combine × World → Mut (Combine × World) β}
    {J : World → Combine × World → Prop} {R : α → β → World → Combine × World → Prop}
    (h : ∀ W, Twin (At c) m' (g (c, W)) J R) : Twin (At c) m' (Mut.get >>= g) J R := by
  rintro w ⟨c', W⟩ ⟨h1, h2⟩
  obtain rfl : c' = c := h1
  exact h W w (c', W) ⟨rfl, h2⟩

theorem bind_eq {α β γ : Type} {c : Combine} {m' : Mut World α} {m : Mut (Combine × World) α}
    {g' : α → Mut World β} {g : α → Mut (Combine × World) γ}
    {R : β → γ → World → Combine × World → Prop}
    (h : Twin (At c) m' m Gone (fun a b w s => a = b ∧ At c w s))
    (k : ∀ a, Twin (At c) (g' a) (g a) Gone R) :
    Twin (At c) (m' >>= g') (m >>= g) Gone R :=
  h.bind fun a b t s h => by
    obtain ⟨rfl, h⟩ := h
    exact k a t s h

theorem eval_at {α : Type} (c : Combine) (v : Obj) (o : Out α) :
    Twin (At c) (unwind (release v) (eval o)) (eval o) Gone
      (fun a b w s => a = b ∧ At c w s) := by
  rintro w s ⟨h1, h2⟩
  cases o with
  | ok a => exact ⟨a, s, rfl, rfl, h1, h2⟩
  | panic p => exact ⟨s, rfl, h2.release _⟩
  | timeout => exact ⟨s, rfl⟩

theorem primeIngest_twin (cfg : Cfg) {eg' eg : EgestFn} (hE : Alike Same eg' eg) (f : Nat)
    (c : Combine) :
    Twin (At c) (primeIngest cfg fine eg' f c) (Steps.Combine.primeIngest cfg eg f) Gone (fun a b w s =>
      (∃ r, a = .inl r ∧ b = some r ∧ Gone w s) ∨ (∃ c', a = .inr c' ∧ b = none ∧ At c' w s)) := by
  unfold primeIngest Steps.Combine.primeIngest
  refine get_at fun W => bind_eq (onW_at c ((rcGetMut_alike hE c.x).unwind fun _ _ h =>
    h.release c.box)) fun a => ?_
  rcases a with _ | rx
  · refine get_at fun W => bind_eq (eval_at c _ _) fun k => ?_
    refine bind_eq (onW_at c ((rcTryUnwrap_alike c.y).unwind fun _ _ h => h.releaseRc' c.x))
      fun y => ?_
    refine bind_eq (onW_at c ((Homographic.new_alike cfg hE f _ _ _ _ _).scope fun _ _ h =>
      h.releaseRc' c.x)) fun r => ?_
    exact .pure fun w s h => .inl ⟨r, rfl, rfl, h.2⟩
  · refine (onK_at _ _ c).bind fun a b => ?_
    obtain ⟨⟨⟩, k⟩ := a
    obtain ⟨⟩ := b
    refine Twin.conseq (Q := At { c with k := k }) ?_ (fun _ _ h => h.2) (fun _ _ h => h)
      (fun _ _ _ _ h => h)
    refine get_at fun W => bind_eq (onW_at _ ((rcGetMut_alike hE c.y).unwind fun _ _ h =>
      h.release c.box)) fun a => ?_
    rcases a with _ | ry
    · refine get_at fun W => bind_eq (eval_at _ _ _) fun k => ?_
      refine bind_eq (onW_at _ ((rcTryUnwrap_alike c.x).unwind fun _ _ h => h.releaseRc' c.y))
        fun y => ?_
      refine bind_eq (onW_at _ ((Homographic.new_alike cfg hE f _ _ _ _ _).scope fun _ _ h =>
        h.releaseRc' c.y)) fun r => ?_
      exact .pure fun w s h => .inl ⟨r, rfl, rfl, h.2⟩
    · refine (onK_at _ _ { c with k := k }).bind fun a b => ?_
      obtain ⟨⟨⟩, k⟩ := a
      obtain ⟨⟩ := b
      exact .pure fun w s h => .inr ⟨_, rfl, rfl, h.2⟩

theorem prime_twin (cfg : Cfg) {eg' eg : EgestFn} (hE : Alike Same eg' eg) (f : Nat)
    (c : Combine) :
    Twin (At c) (prime cfg fine eg' f c) (Steps.Combine.prime cfg eg f) Gone
      (fun a b w s => a = b ∧ Gone w s) := by
  induction f generalizing c with
  | zero => exact .timeout
  | succ f ih =>
    unfold prime Steps.Combine.prime
    refine (onK_at _ _ c).bind fun a b => ?_
    rintro w s ⟨rfl, h⟩
    obtain ⟨_ | p, k⟩ := a
    · refine (primeIngest_twin cfg hE f { c with k := k }).bind (fun a b => ?_) w s h
      rintro w s (⟨r, rfl, rfl, h⟩ | ⟨c', rfl, rfl, h⟩)
      · exact ⟨_, s, rfl, rfl, h⟩
      · exact ih c' w s h
    · obtain ⟨c', W⟩ := s
      obtain ⟨h1, h2⟩ := h
      obtain rfl : c' = _ := h1
      exact ⟨_, _, rfl, rfl, h2⟩

theorem shutdownY_alike : Alike Same Combine.shutdownY Combine.shutdownY := by
  rintro ⟨c, w⟩ ⟨c', W⟩ ⟨h1, h2⟩
  obtain rfl : c = c' := h1
  rcases hc : w.cells c.y with _ | ⟨n, o⟩
  · have e : (Combine.shutdownY (c, w)).1 = .shared := by
      simp [Combine.shutdownY, Mut.get, Bind.bind, Mut.bind, Combine.onW, Mut.part, rcClone, hc]
    revert e
    generalize Combine.shutdownY (c, w) = r
    obtain ⟨r, t⟩ := r
    rintro ⟨⟩
    trivial
  · obtain ⟨h3, h4⟩ := h2.cells c.y _ hc
    obtain rfl : n = 1 := h4
    by_cases hf : c.y = w.fresh
    · have hc' : w.cells w.fresh = some ⟨1, o⟩ := by rw [← hf, hc]
      have e : (Combine.shutdownY (c, w)).1 = .shared := by
        simp [Combine.shutdownY, Mut.get, Mut.modify, Bind.bind, Mut.bind, Combine.onW, Mut.part,
          rcClone, hc', Combine.simpleClog, rcNew, rcDrop, World.put, rcTryUnwrap, hf]
      revert e
      generalize Combine.shutdownY (c, w) = r
      obtain ⟨r, t⟩ := r
      rintro ⟨⟩
      trivial
    · have e : ∀ W : World, W.cells c.y = some ⟨1, o⟩ → W.fresh = w.fresh →
          Combine.shutdownY (c, W) = (.ok (.Other none o), { c with y := w.fresh },
            { (W.put c.y none).put w.fresh (some ⟨1, .ratio ⟨1, 2⟩⟩) with fresh := w.fresh + 1 }) := by
        intro W e1 e2
        simp only [Combine.shutdownY, Mut.get, Mut.modify, Bind.bind, Mut.bind, Combine.onW, Mut.part,
          rcClone, e1, Combine.simpleClog, rcNew, rcDrop, World.put, rcTryUnwrap, e2, hf, Pure.pure,
          if_true, if_false]
        simp
        funext j
        by_cases h5 : j = c.y
        · simp [h5, hf]
        · simp [h5]
      rw [e w hc rfl, e W h3 h2.fresh.symm]
      refine ⟨_, _, rfl, rfl, rfl, rfl, h2.printed, ?_⟩
      exact ((h2.put_both c.y).put_same w.fresh _).cells

theorem shutdownX_alike : Alike Same Combine.shutdownX Combine.shutdownX := by
  rintro ⟨c, w⟩ ⟨c', W⟩ ⟨h1, h2⟩
  obtain rfl : c = c' := h1
  rcases hc : w.cells c.x with _ | ⟨n, o⟩
  · have e : (Combine.shutdownX (c, w)).1 = .shared := by
      simp [Combine.shutdownX, Mut.get, Bind.bind, Mut.bind, Combine.onW, Mut.part, rcClone, hc]
    revert e
    generalize Combine.shutdownX (c, w) = r
    obtain ⟨r, t⟩ := r
    rintro ⟨⟩
    trivial
  · obtain ⟨h3, h4⟩ := h2.cells c.x _ hc
    obtain rfl : n = 1 := h4
    by_cases hf : c.x = w.fresh
    · have hc' : w.cells w.fresh = some ⟨1, o⟩ := by rw [← hf, hc]
      have e : (Combine.shutdownX (c, w)).1 = .shared := by
        simp [Combine.shutdownX, Mut.get, Mut.modify, Bind.bind, Mut.bind, Combine.onW, Mut.part,
          rcClone, hc', Combine.simpleClog, rcNew, rcDrop, World.put, rcTryUnwrap, hf]
      revert e
      generalize Combine.shutdownX (c, w) = r
      obtain ⟨r, t⟩ := r
      rintro ⟨⟩
      trivial
    · have e : ∀ W : World, W.cells c.x = some ⟨1, o⟩ → W.fresh = w.fresh →
          Combine.shutdownX (c, W) = (.ok (.Other none o), { c with x := w.fresh },
            { (W.put c.x none).put w.fresh (some ⟨1, .ratio ⟨1, 2⟩⟩) with fresh := w.fresh + 1 }) := by
        intro W e1 e2
        simp only [Combine.shutdownX, Mut.get, Mut.modify, Bind.bind, Mut.bind, Combine.onW, Mut.part,
          rcClone, e1, Combine.simpleClog, rcNew, rcDrop, World.put, rcTryUnwrap, e2, hf, Pure.pure,
          if_true, if_false]
        simp
        funext j
        by_cases h5 : j = c.x
        · simp [h5, hf]
        · simp [h5]
      rw [e w hc rfl, e W h3 h2.fresh.symm]
      refine ⟨_, _, rfl, rfl, rfl, rfl, h2.printed, ?_⟩
      exact ((h2.put_both c.x).put_same w.fresh _).cells

theorem shut_alike (cfg : Cfg) {eg' eg : EgestFn} (hE : Alike Same eg' eg) (f : Nat) (y : Number)
    (k : Coef4) : Alike Same (do
      match ← Combine.onW (Homographic.new cfg fine eg' f y k.nx k.n k.dx k.d) with
      | (none, none, ratio, homographic) => pure (ratio, homographic)
      | (_, _, _, homographic) => do
        Combine.onW (modify (Homographic.discard homographic))
        panic .logicError : Mut (Combine × World) (Option Ratio × Option Homographic)) (do
      match ← Combine.onW (Steps.Homographic.new cfg eg f y k.nx k.n k.dx k.d) with
      | (none, none, ratio, homographic) => pure (ratio, homographic)
      | _ => panic .logicError) := by
  refine (Homographic.new_alike cfg hE f y _ _ _ _).onW.bind fun r => ?_
  have fail : ∀ h : Option Homographic, Alike Same (do
      Combine.onW (modify (Homographic.discard h))
      panic .logicError : Mut (Combine × World) (Option Ratio × Option Homographic))
      (panic .logicError) := fun h t s hs =>
    ⟨s, rfl, hs.1, hs.2.discard h⟩
  obtain ⟨_ | _, _ | _, r, h⟩ := r
  · exact .pure
  · exact fail h
  · exact fail h
  · exact fail h

theorem reductionIngest_alike (cfg : Cfg) {eg' eg : EgestFn} (hE : Alike Same eg' eg) (f : Nat) :
    Alike Same (reductionIngest cfg fine eg' f) (Steps.Combine.reductionIngest cfg eg f) := by
  unfold reductionIngest Steps.Combine.reductionIngest
  refine .get fun c w W => (rcGetMut_alike hE c.x).onW.bind fun a => ?_
  rcases a with _ | rx
  · refine .get fun c w W => Alike.eval.bind fun k => shutdownY_alike.bind fun y => ?_
    exact shut_alike cfg hE f y k
  · refine (onK_alike _).bind fun _ => .get fun c w W => (rcGetMut_alike hE c.y).onW.bind fun a => ?_
    rcases a with _ | ry
    · refine .get fun c w W => Alike.eval.bind fun k => shutdownX_alike.bind fun y => ?_
      exact shut_alike cfg hE f y k
    · exact (onK_alike _).bind fun _ => .pure

theorem egest_alike (cfg : Cfg) {eg' eg : EgestFn} (hE : Alike Same eg' eg) (f : Nat) :
    Alike Same (egest cfg fine eg' f) (Steps.Combine.egest cfg eg f) := by
  induction f with
  | zero => exact .timeout
  | succ f ih =>
    unfold egest Steps.Combine.egest
    refine (onK_alike _).bind fun a => ?_
    rcases a with _ | p
    · refine (reductionIngest_alike cfg hE f).bind fun a => ?_
      obtain ⟨_ | _, _ | _⟩ := a
      · exact ih
      · exact .pure
      · exact .pure
      · exact .pure
    · exact .pure

theorem asHomographic_alike (cfg : Cfg) {eg' eg : EgestFn} (hE : Alike Same eg' eg) (f : Nat)
    (x : Number) (nx n dx d : Int) :
    Alike Below (asHomographic cfg fine eg' f x nx n dx d) (Steps.Combine.asHomographic cfg eg f x nx n dx d) :=
  (Homographic.new_alike cfg hE f x nx n dx d).bind fun _ => .pure

theorem new_alike (cfg : Cfg) {eg' eg : EgestFn} (hE : Alike Same eg' eg) (f : Nat) (x y : Number)
    (k : Coef8) : Alike Below (new cfg fine eg' f x y k) (Steps.Combine.new cfg eg f x y k) := by
  have evals : ∀ {α : Type} (o : Out α) (v : Number),
      Alike Below (unwind (releaseNumber v) (eval o)) (eval o) := fun o v =>
    Alike.eval.unwind fun _ _ h => h.releaseNumber v
  have evals' : ∀ {α : Type} (o : Out α) (v : Obj),
      Alike Below (unwind (release v) (eval o)) (eval o) := fun o v =>
    Alike.eval.unwind fun _ _ h => h.release v
  rcases x with (_ | _ | _) | ⟨px, cx⟩
  · exact (evals _ y).bind fun _ => (evals _ y).bind fun _ => (evals _ y).bind fun _ =>
      (evals _ y).bind fun _ => asHomographic_alike cfg hE f y _ _ _ _
  · exact asHomographic_alike cfg hE f y _ _ _ _
  · exact (evals _ y).bind fun _ => (evals _ y).bind fun _ => (evals _ y).bind fun _ =>
      (evals _ y).bind fun _ => asHomographic_alike cfg hE f y _ _ _ _
  · rcases y with (_ | _ | _) | ⟨py, cy⟩
    · exact (evals' _ cx).bind fun _ => (evals' _ cx).bind fun _ => (evals' _ cx).bind fun _ =>
        (evals' _ cx).bind fun _ => asHomographic_alike cfg hE f _ _ _ _ _
    · exact asHomographic_alike cfg hE f _ _ _ _ _
    · exact (evals' _ cx).bind fun _ => (evals' _ cx).bind fun _ => (evals' _ cx).bind fun _ =>
        (evals' _ cx).bind fun _ => asHomographic_alike cfg hE f _ _ _ _ _
    · have two : ∀ {α : Type} (o : Out α),
          Alike Below (unwind (fun w => release cx (release cy w)) (eval o)) (eval o) := fun o =>
        Alike.eval.unwind fun _ _ h => (h.release cy).release cx
      refine (two _).bind fun k => (two _).bind fun k => (rcNew_alike cx).bind fun i =>
        (rcNew_alike cy).bind fun j => ?_
      intro w W hB
      have h := prime_twin cfg hE f ⟨i, j, k⟩ w (⟨i, j, k⟩, W) ⟨rfl, hB⟩
      unfold Homographic.owned
      revert h
      generalize prime cfg fine eg' f ⟨i, j, k⟩ w = r
      obtain ⟨r, t⟩ := r
      cases r with
      | ok a =>
        rintro ⟨_, s, e, rfl, h⟩
        rw [e]
        exact ⟨a, _, rfl, rfl, h⟩
      | panic p =>
        rintro ⟨s, e, h⟩
        rw [e]
        exact ⟨_, rfl, h⟩
      | shared => exact id
      | timeout =>
        rintro ⟨s, e⟩
        rw [e]
        exact ⟨_, rfl⟩

end Combine

/-! ## `Clog` -/

theorem strategyEgest_alike (cfg : Cfg) {eg' eg : EgestFn} (hE : Alike Same eg' eg) (f : Nat) :
    Alike Same (strategyEgest cfg fine eg' f) (Steps.strategyEgest cfg eg f) := by
  rintro ⟨o, w⟩ ⟨o', W⟩ ⟨h1, h2⟩
  obtain rfl : o = o' := h1
  rcases o with r | ⟨x, k⟩ | ⟨x, y, k⟩
  · unfold strategyEgest Steps.strategyEgest
    dsimp only
    generalize Ratio.egest cfg r = q
    obtain ⟨q, r'⟩ := q
    cases q with
    | ok a => exact ⟨_, _, rfl, rfl, rfl, h2⟩
    | panic p => exact ⟨_, rfl, rfl, h2⟩
    | shared => trivial
    | timeout => exact ⟨_, rfl⟩
  · have h := Homographic.egest_alike cfg hE f (⟨x, k⟩, w) (⟨x, k⟩, W) ⟨rfl, h2⟩
    unfold strategyEgest Steps.strategyEgest
    dsimp only
    revert h
    generalize Homographic.egest cfg fine eg' f (⟨x, k⟩, w) = q
    obtain ⟨q, x', w'⟩ := q
    cases q with
    | ok a =>
      rintro ⟨_, ⟨s, W'⟩, e, rfl, h3, h4⟩
      obtain rfl : x' = s := h3
      rw [e]
      exact ⟨_, _, rfl, rfl, rfl, h4⟩
    | panic p =>
      rintro ⟨⟨s, W'⟩, e, h3, h4⟩
      obtain rfl : x' = s := h3
      rw [e]
      exact ⟨_, rfl, rfl, h4⟩
    | shared => exact id
    | timeout =>
      rintro ⟨s, e⟩
      rw [e]
      exact ⟨_, rfl⟩
  · have h := Combine.egest_alike cfg hE f (⟨x, y, k⟩, w) (⟨x, y, k⟩, W) ⟨rfl, h2⟩
    unfold strategyEgest Steps.strategyEgest
    dsimp only
    revert h
    generalize Combine.egest cfg fine eg' f (⟨x, y, k⟩, w) = q
    obtain ⟨q, x', w'⟩ := q
    cases q with
    | ok a =>
      rintro ⟨_, ⟨s, W'⟩, e, rfl, h3, h4⟩
      obtain rfl : x' = s := h3
      rw [e]
      exact ⟨_, _, rfl, rfl, rfl, h4⟩
    | panic p =>
      rintro ⟨⟨s, W'⟩, e, h3, h4⟩
      obtain rfl : x' = s := h3
      rw [e]
      exact ⟨_, rfl, rfl, h4⟩
    | shared => exact id
    | timeout =>
      rintro ⟨s, e⟩
      rw [e]
      exact ⟨_, rfl⟩

theorem egest_alike (cfg : Cfg) (f : Nat) : Alike Same (egest cfg fine f) (Steps.egest cfg f) := by
  induction f with
  | zero => exact .timeout
  | succ f ih =>
    unfold egest Steps.egest
    refine (strategyEgest_alike cfg ih f).bind fun a => ?_
    rcases a with a | o
    · exact .pure
    · exact (Alike.modify fun t s h => ⟨rfl, h.2.release t.1⟩).bind fun _ => ih

/-! ## `Number` -/

namespace Number

theorem homographic_alike (cfg : Cfg) (f : Nat) (x : Number) (nx n dx d : Int) :
    Alike Below (homographic cfg fine f x nx n dx d) (Steps.Number.homographic cfg f x nx n dx d) := by
  unfold homographic Steps.Number.homographic
  refine (Homographic.new_alike cfg (egest_alike cfg f) f x nx n dx d).bind fun r => ?_
  obtain ⟨_ | s, p, _ | r, h⟩ := r
  · cases h with
    | none => exact .panic
    | some h => exact .pure
  · exact Alike.pure.left fun _ _ b => b.discard h
  · exact Alike.pure.left fun _ _ b => b.discard h
  · exact Alike.pure.left fun _ _ b => b.discard h

theorem combine_alike (cfg : Cfg) (f : Nat) (x y : Number) (nxy nx ny n dxy dx dy d : Int) :
    Alike Below (combine cfg fine f x y nxy nx ny n dxy dx dy d)
      (Steps.Number.combine cfg f x y nxy nx ny n dxy dx dy d) := by
  unfold combine Steps.Number.combine
  refine (Combine.new_alike cfg (egest_alike cfg f) f x y _).bind fun r => ?_
  obtain ⟨_ | s, p, _ | r, h, c⟩ := r
  · cases h with
    | none =>
      cases c with
      | none => exact .panic
      | some c => exact .pure
    | some h => exact Alike.pure.left fun _ _ b => b.discardC c
  · exact (Alike.pure.left fun _ _ b => b.discardC c).left fun _ _ b => b.discard h
  · exact (Alike.pure.left fun _ _ b => b.discardC c).left fun _ _ b => b.discard h
  · exact (Alike.pure.left fun _ _ b => b.discardC c).left fun _ _ b => b.discard h

theorem consumeLoop_alike (cfg : Cfg) {eg' eg : EgestFn} (hE : Alike Same eg' eg) (f : Nat)
    (k : Coef4) : Alike Same (Consume.consume cfg eg' f k) (Consume.consume cfg eg f k) := by
  induction f generalizing k with
  | zero => exact .timeout
  | succ f ih =>
    unfold Consume.consume
    refine Alike.bind hE fun a => ?_
    rcases a with _ | red
    · exact .pure
    · exact Alike.eval.bind fun k => Alike.eval.bind fun b =>
        .ite (fun _ => .get fun c w W => .pure) fun _ => ih k

theorem consume_alike (cfg : Cfg) (f : Nat) (x : Number) :
    Alike Below (consume cfg fine f x) (Steps.Number.consume cfg f x) := by
  rcases x with (_ | _ | _) | ⟨p, c⟩
  · exact .pure
  · exact .pure
  · exact .pure
  · have e : Steps.Number.consume cfg f (.Other p c) = (do
        let k ← eval (Clarith.Consume.start cfg p)
        let (co, k) ← Homographic.owned c (Consume.consume cfg (Steps.egest cfg f) f k)
        pure (co.map (Number.Other none), k)) := by
      funext w
      show Mut.bind (Mut.bind _ _) _ w = Mut.bind _ _ w
      unfold Mut.bind
      cases eval (Clarith.Consume.start cfg p) w with
      | mk r t => cases r <;> rfl
    rw [e]
    exact (Alike.eval.unwind fun _ _ b => b.release c).bind fun k =>
      ((consumeLoop_alike cfg (egest_alike cfg f) f k).owned fun s _ _ b => b.release s).bind
        fun _ => .pure

theorem first_alike {eg' eg : EgestFn} (hE : Alike Same eg' eg) :
    Alike Same (Compare.first eg') (Compare.first eg) :=
  .part (get := fun s : Obj × Obj => s.1) (put := fun x s => (x, s.2)) hE

theorem second_alike {eg' eg : EgestFn} (hE : Alike Same eg' eg) :
    Alike Same (Compare.second eg') (Compare.second eg) :=
  .part (get := fun s : Obj × Obj => s.2) (put := fun x s => (s.1, x)) hE

theorem compareClogs_alike (cfg : Cfg) {eg' eg : EgestFn} (hE : Alike Same eg' eg) (f : Nat)
    (b : Bool) :
    Alike Same (Compare.compareClogs cfg eg' f b) (Compare.compareClogs cfg eg f b) := by
  induction f generalizing b with
  | zero => exact .timeout
  | succ f ih =>
    unfold Compare.compareClogs
    refine (first_alike hE).bind fun e1 => (second_alike hE).bind fun e2 => ?_
    refine .ite (fun _ => .pure) fun _ => ?_
    rcases e1 with _ | _ | _
    · exact .pure
    · exact ih _
    · exact ih _

theorem compare_alike (cfg : Cfg) (f : Nat) (x y : Number) :
    Alike Below (compare cfg fine f x y) (Steps.Number.compare cfg f x y) := by
  rcases x with s1 | ⟨p1, c1⟩ <;> rcases y with s2 | ⟨p2, c2⟩
  · exact .pure
  · exact Alike.pure.scope fun _ _ b => b.release c2
  · exact Alike.pure.scope fun _ _ b => b.release c1
  · exact ((compareClogs_alike cfg (egest_alike cfg f) f _).owned fun s _ _ b =>
      (b.release s.2).release s.1).bind fun _ => .pure

theorem unwrapSpecial_alike (x : Number) :
    Alike Below (unwrapSpecial x) (Steps.Number.unwrapSpecial x) := by
  refine Alike.unwind ?_ fun _ _ b => b.releaseNumber x
  rcases x with s | ⟨p, c⟩
  · exact .pure
  · exact .panic

theorem ratioU_alike (b : Bool) (num den : Nat) :
    Alike Below (Number.ratioU b num den) (Number.ratioU b num den) := by
  unfold Number.ratioU
  refine Alike.eval.bind fun r => ?_
  obtain ⟨_ | s, p, _ | r⟩ := r
  · exact .panic
  · exact .pure
  · exact .pure
  · exact .pure

theorem ratio_alike (cfg : Cfg) (num den : Int) :
    Alike Below (Number.ratio cfg num den) (Number.ratio cfg num den) :=
  Alike.eval.bind fun _ => Alike.eval.bind fun _ => ratioU_alike _ _ _

end Number

/-! ## The caller -/

namespace Caller

/-- The same numbers in the variables, and the allocations as in `Below`. -/
def Like (t s : Caller) : Prop := t.held = s.held ∧ t.next = s.next ∧ Below t.world s.world

theorem move_alike (x : Nat) : Alike Like (Caller.move x) (Caller.move x) := by
  rintro t s ⟨h1, h2, h3⟩
  refine ⟨_, _, rfl, by rw [h1], ?_, h2, h3⟩
  show (fun j => if j = x then none else t.held j) = _
  rw [h1]
  rfl

theorem keep_alike (v : Number) : Alike Like (Caller.keep v) (Caller.keep v) := by
  rintro t s ⟨h1, h2, h3⟩
  refine ⟨_, _, rfl, rfl, ?_, ?_, h3⟩
  · show (fun j => if j = t.next then some v else t.held j) = _
    rw [h1, h2]
    rfl
  · show t.next + 1 = s.next + 1
    rw [h2]

theorem onWorld_alike {α : Type} {m' m : Mut World α} (h : Alike Below m' m) :
    Alike Like (Caller.onWorld m') (Caller.onWorld m) := by
  rintro t s ⟨h1, h2, h3⟩
  have h4 := h t.world s.world h3
  unfold Caller.onWorld Mut.part
  revert h4
  generalize m' t.world = r
  obtain ⟨r, w⟩ := r
  cases r with
  | ok a =>
    rintro ⟨_, W, e, rfl, h4⟩
    rw [e]
    exact ⟨a, _, rfl, rfl, h1, h2, h4⟩
  | panic p =>
    rintro ⟨W, e, h4⟩
    rw [e]
    exact ⟨_, rfl, h1, h2, h4⟩
  | shared => exact id
  | timeout =>
    rintro ⟨W, e⟩
    rw [e]
    exact ⟨_, rfl⟩

theorem make_alike {m' m : Mut World Number} (h : Alike Below m' m) :
    Alike Like (Caller.make m') (Caller.make m) :=
  (onWorld_alike h).bind fun v => (keep_alike v).bind fun _ => .pure

theorem egestAt_alike (cfg : Cfg) (f x : Nat) :
    Alike Like (egestAt cfg fine f x) (Steps.Caller.egestAt cfg f x) := by
  rintro t s ⟨h1, h2, h3⟩
  unfold egestAt Steps.Caller.egestAt
  rw [← h1]
  rcases t.held x with _ | _ | ⟨p, o⟩
  · exact ⟨_, _, rfl, rfl, h1, h2, h3⟩
  · exact ⟨_, _, rfl, rfl, h1, h2, h3⟩
  · have h4 := egest_alike cfg f (o, t.world) (o, s.world) ⟨rfl, h3⟩
    dsimp only
    revert h4
    generalize egest cfg fine f (o, t.world) = r
    obtain ⟨r, o', w⟩ := r
    have like : ∀ W, Below w W → Like { t.set x (some (.Other p o')) with world := w }
        { s.set x (some (.Other p o')) with world := W } := by
      intro W hB
      refine ⟨?_, h2, hB⟩
      show (fun j => if j = x then _ else t.held j) = fun j => if j = x then _ else s.held j
      rw [h1]
    cases r with
    | ok a =>
      rintro ⟨_, ⟨o2, W⟩, e, rfl, h5, h6⟩
      obtain rfl : o' = o2 := h5
      rw [e]
      exact ⟨_, _, rfl, rfl, like W h6⟩
    | panic p =>
      rintro ⟨⟨o2, W⟩, e, h5, h6⟩
      obtain rfl : o' = o2 := h5
      rw [e]
      exact ⟨_, rfl, like W h6⟩
    | shared => exact id
    | timeout =>
      rintro ⟨W, e⟩
      rw [e]
      exact ⟨_, rfl⟩

theorem refuse_alike (x : Number) : Alike Like (do
    Caller.onWorld (modify (releaseNumber x))
    pure Answer.refused) (pure Answer.refused) := by
  rintro t s ⟨h1, h2, h3⟩
  exact ⟨_, _, rfl, rfl, h1, h2, h3.releaseNumber x⟩

theorem call_alike (cfg : Cfg) (f : Nat) (a : Call) :
    Alike Like (call cfg fine f a) (Steps.Caller.call cfg f a) := by
  cases a with
  | ratio num den => exact make_alike (Number.ratio_alike cfg num den)
  | ratioU b num den => exact make_alike (Number.ratioU_alike b num den)
  | homographic x nx n dx d =>
    refine (move_alike x).bind fun o => ?_
    rcases o with _ | x
    · exact .pure
    · exact make_alike (Number.homographic_alike cfg f x nx n dx d)
  | combine x y nxy nx ny n dxy dx dy d =>
    refine (move_alike x).bind fun o => ?_
    rcases o with _ | x
    · exact .pure
    · refine (move_alike y).bind fun o => ?_
      rcases o with _ | y
      · exact refuse_alike x
      · exact make_alike (Number.combine_alike cfg f x y nxy nx ny n dxy dx dy d)
  | egest x => exact egestAt_alike cfg f x
  | consume x =>
    refine (move_alike x).bind fun o => ?_
    rcases o with _ | x
    · exact .pure
    · refine (onWorld_alike (Number.consume_alike cfg f x)).bind fun r => ?_
      obtain ⟨_ | y, k⟩ := r
      · exact .pure
      · exact (keep_alike y).bind fun _ => .pure
  | compare x y =>
    refine (move_alike x).bind fun o => ?_
    rcases o with _ | x
    · exact .pure
    · refine (move_alike y).bind fun o => ?_
      rcases o with _ | y
      · exact refuse_alike x
      · exact (onWorld_alike (Number.compare_alike cfg f x y)).bind fun _ => .pure
  | special s => exact make_alike .pure
  | reprime x p =>
    refine (move_alike x).bind fun o => ?_
    rcases o with _ | x
    · exact .pure
    · refine make_alike ?_
      rcases x with s | ⟨q, c⟩
      · exact Alike.bind (m := Mut.panic _) (m' := Mut.panic _) .panic fun _ => .pure
      · exact Alike.bind (m := Pure.pure (q, c)) (m' := Pure.pure (q, c)) .pure fun _ => .pure
  | unwrapSpecial x =>
    refine (move_alike x).bind fun o => ?_
    rcases o with _ | x
    · exact .pure
    · exact (onWorld_alike (Number.unwrapSpecial_alike x)).bind fun _ => .pure

end Caller

end Clarith.Steps.Memory
