import Verif.Proofs.Stdout
import Verif.Proofs.FailStop
import Verif.SpecStdout
import Mathlib.Data.List.ReduceOption

/-! # An object without `Combine` goes on after a line that could not be written -/

namespace Clarith.Steps

open Mut

/-! ## More fuel -/

/-- `m'` ends as `m` does, where `m` ends. -/
def Up {σ α : Type} (m m' : Mut σ α) : Prop := ∀ s, (m s).1 ≠ .timeout → m' s = m s

namespace Up

variable {σ τ α β : Type}

theorem refl (m : Mut σ α) : Up m m := fun _ _ => rfl

theorem timeout (m : Mut σ α) : Up Mut.timeout m := fun _ h => absurd rfl h

theorem trans {m m' m'' : Mut σ α} (h : Up m m') (h' : Up m' m'') : Up m m'' := fun s hs => by
  have e := h s hs
  rw [← e] at hs
  rw [h' s hs, e]

theorem bind {m m' : Mut σ α} {g g' : α → Mut σ β} (h : Up m m') (hg : ∀ a, Up (g a) (g' a)) :
    Up (m >>= g) (m' >>= g') := by
  intro s hs
  have e : (m >>= g) s = Mut.bind m g s := rfl
  have e' : (m' >>= g') s = Mut.bind m' g' s := rfl
  rw [e, Mut.bind] at hs
  have hm := h s
  rw [e, e', Mut.bind, Mut.bind]
  revert hs hm
  generalize m s = r
  obtain ⟨r, t⟩ := r
  cases r with
  | ok a =>
    intro hs hm
    rw [hm nofun]
    exact hg a t hs
  | panic p =>
    intro hs hm
    rw [hm nofun]
  | shared =>
    intro hs hm
    rw [hm nofun]
  | timeout => exact fun hs => absurd rfl hs

theorem bind_left {m m' : Mut σ α} {g : α → Mut σ β} (h : Up m m') : Up (m >>= g) (m' >>= g) :=
  h.bind fun _ => refl _

theorem bind_right {m : Mut σ α} {g g' : α → Mut σ β} (hg : ∀ a, Up (g a) (g' a)) :
    Up (m >>= g) (m >>= g') := (refl m).bind hg

theorem part {get : σ → τ} {put : τ → σ → σ} {m m' : Mut τ α} (h : Up m m') :
    Up (Mut.part get put m) (Mut.part get put m') := by
  intro s hs
  have e := h (get s) hs
  show ((m' (get s)).1, put (m' (get s)).2 s) = _
  rw [e]
  rfl

theorem owned {s : σ} {m m' : Mut (σ × World) α} (h : Up m m') :
    Up (Homographic.owned s m) (Homographic.owned s m') := by
  intro w hw
  have e := h (s, w) hw
  show ((m' (s, w)).1, (m' (s, w)).2.2) = _
  rw [e]
  rfl

theorem rcGetMut {i : Nat} {m m' : Mut (Obj × World) α} (h : Up m m') :
    Up (Steps.rcGetMut i m) (Steps.rcGetMut i m') := by
  intro w
  unfold Steps.rcGetMut
  rcases w.cells i with _ | ⟨_ | _ | c, o⟩
  · exact fun _ => rfl
  · exact fun _ => rfl
  · intro hw
    simp only at hw ⊢
    rw [h (o, w) hw]
  · exact fun _ => rfl

end Up

namespace Homographic

variable {eg eg' : EgestFn} (hE : Up eg eg')
include hE

theorem primeIngest_up (cfg : Cfg) : Up (primeIngest cfg eg) (primeIngest cfg eg') :=
  (Up.part hE).bind_left

theorem reductionIngest_up (cfg : Cfg) : Up (reductionIngest cfg eg) (reductionIngest cfg eg') :=
  (Up.part hE).bind_left

theorem prime_up (cfg : Cfg) {f f' : Nat} (hf : f ≤ f') :
    Up (prime cfg eg f) (prime cfg eg' f') := by
  induction f generalizing f' with
  | zero => exact Up.timeout _
  | succ f ih =>
    obtain ⟨f', rfl⟩ : ∃ g, f' = g + 1 := ⟨f' - 1, by omega⟩
    unfold prime
    refine .bind_right fun _ => .bind_right fun a => ?_
    rcases a with _ | _
    · refine (primeIngest_up hE cfg).bind fun b => ?_
      rcases b with _ | _
      · exact ih (by omega)
      · exact .refl _
    · exact .refl _

theorem egest_up (cfg : Cfg) {f f' : Nat} (hf : f ≤ f') :
    Up (egest cfg eg f) (egest cfg eg' f') := by
  induction f generalizing f' with
  | zero => exact Up.timeout _
  | succ f ih =>
    obtain ⟨f', rfl⟩ : ∃ g, f' = g + 1 := ⟨f' - 1, by omega⟩
    unfold egest
    refine .bind_right fun _ => .bind_right fun a => ?_
    rcases a with _ | _
    · refine (reductionIngest_up hE cfg).bind fun b => ?_
      rcases b with _ | _
      · exact ih (by omega)
      · exact .refl _
    · exact .refl _

theorem new_up (cfg : Cfg) {f f' : Nat} (hf : f ≤ f') (x : Number) (nx n dx d : Int) :
    Up (new cfg eg f x nx n dx d) (new cfg eg' f' x nx n dx d) := by
  unfold new
  split
  · exact .refl _
  · rcases x with (_ | _ | _) | ⟨p, c⟩
    · exact .refl _
    · exact .refl _
    · exact .refl _
    · exact .bind_right fun _ => .owned (prime_up hE cfg hf)

end Homographic

namespace Combine

variable {eg eg' : EgestFn} (hE : Up eg eg')
include hE

theorem reductionIngest_up (cfg : Cfg) {f f' : Nat} (hf : f ≤ f') :
    Up (reductionIngest cfg eg f) (reductionIngest cfg eg' f') := by
  unfold reductionIngest
  refine .bind_right fun s => .bind (.part (.rcGetMut hE)) fun a => ?_
  rcases a with _ | rx
  · exact .bind_right fun s => .bind_right fun k => .bind_right fun y =>
      (Up.part (Homographic.new_up hE cfg hf _ _ _ _ _)).bind_left
  · refine .bind_right fun _ => .bind_right fun s => .bind (.part (.rcGetMut hE)) fun b => ?_
    rcases b with _ | ry
    · exact .bind_right fun s => .bind_right fun k => .bind_right fun y =>
        (Up.part (Homographic.new_up hE cfg hf _ _ _ _ _)).bind_left
    · exact .refl _

theorem egest_up (cfg : Cfg) {f f' : Nat} (hf : f ≤ f') :
    Up (egest cfg eg f) (egest cfg eg' f') := by
  induction f generalizing f' with
  | zero => exact Up.timeout _
  | succ f ih =>
    obtain ⟨f', rfl⟩ : ∃ g, f' = g + 1 := ⟨f' - 1, by omega⟩
    unfold egest
    refine .bind_right fun a => ?_
    rcases a with _ | _
    · refine (reductionIngest_up hE cfg (by omega)).bind fun b => ?_
      rcases b with ⟨_ | _, _ | _⟩
      · exact ih (by omega)
      · exact .refl _
      · exact .refl _
      · exact .refl _
    · exact .refl _

end Combine

theorem strategyEgest_up {eg eg' : EgestFn} (hE : Up eg eg') (cfg : Cfg) {f f' : Nat}
    (hf : f ≤ f') : Up (strategyEgest cfg eg f) (strategyEgest cfg eg' f') := by
  rintro ⟨o, w⟩ h
  rcases o with r | ⟨x, k⟩ | ⟨x, y, k⟩
  · rfl
  · unfold strategyEgest at h ⊢
    simp only at h ⊢
    rw [Homographic.egest_up hE cfg hf _ h]
  · unfold strategyEgest at h ⊢
    simp only at h ⊢
    rw [Combine.egest_up hE cfg hf _ h]

theorem egest_up (cfg : Cfg) {f f' : Nat} (hf : f ≤ f') : Up (egest cfg f) (egest cfg f') := by
  induction f generalizing f' with
  | zero => exact Up.timeout _
  | succ f ih =>
    obtain ⟨f', rfl⟩ : ∃ g, f' = g + 1 := ⟨f' - 1, by omega⟩
    unfold egest
    refine (strategyEgest_up (ih (by omega)) cfg (by omega)).bind fun a => ?_
    rcases a with _ | _
    · exact .refl _
    · exact .bind_right fun _ => ih (by omega)

/-! ## The rest of the world does not matter -/

open Spec

/-- `m` on `h` with `C` does the same whatever the world is, and keeps `C`; its results have `R`. -/
def Blind {τ α : Type} (C : τ → Prop) (R : α → Prop) (m : Mut (τ × World) α) : Prop :=
  ∀ h, C h → ∀ w w₂, (m (h, w)).1 = (m (h, w₂)).1 ∧ (m (h, w)).2.1 = (m (h, w₂)).2.1 ∧
    C (m (h, w)).2.1 ∧ ∀ a, (m (h, w)).1 = .ok a → R a

namespace Blind

variable {τ α β : Type} {C : τ → Prop} {R : α → Prop} {S : β → Prop}

theorem bind {m : Mut (τ × World) α} {g : α → Mut (τ × World) β} (h : Blind C R m)
    (hg : ∀ a, R a → Blind C S (g a)) : Blind C S (m >>= g) := by
  intro t ht w w₂
  obtain ⟨h1, h2, h3, h4⟩ := h t ht w w₂
  have e : ∀ w, (m >>= g) (t, w) = Mut.bind m g (t, w) := fun _ => rfl
  rw [e, e, Mut.bind, Mut.bind]
  revert h1 h2 h3 h4
  generalize m (t, w) = r
  generalize m (t, w₂) = r₂
  obtain ⟨r, u, v⟩ := r
  obtain ⟨r₂, u₂, v₂⟩ := r₂
  rintro rfl rfl h3 h4
  simp only at h3 h4
  cases r with
  | ok a => exact hg a (h4 a rfl) u h3 v v₂
  | panic p => exact ⟨rfl, rfl, h3, nofun⟩
  | shared => exact ⟨rfl, rfl, h3, nofun⟩
  | timeout => exact ⟨rfl, rfl, h3, nofun⟩

theorem pure {a : α} (h : R a) : Blind C R (Pure.pure a) := by
  intro t ht w w₂
  refine ⟨rfl, rfl, ht, ?_⟩
  rintro _ ⟨⟩
  exact h

theorem timeout : Blind C R (Mut.timeout : Mut (τ × World) α) := fun _ ht _ _ =>
  ⟨rfl, rfl, ht, nofun⟩

theorem panic (p : Panic) : Blind C R (Mut.panic p : Mut (τ × World) α) := fun _ ht _ _ =>
  ⟨rfl, rfl, ht, nofun⟩

theorem eval (o : Out α) (h : ∀ a, R a) : Blind C R (Mut.eval o : Mut (τ × World) α) := by
  intro t ht w w₂
  cases o with
  | ok a => exact ⟨rfl, rfl, ht, fun a _ => h a⟩
  | panic p => exact ⟨rfl, rfl, ht, nofun⟩
  | timeout => exact ⟨rfl, rfl, ht, nofun⟩

end Blind

namespace Homographic

/-- The operand is made of `Ratio` and `Homographic` alone. -/
def Simple (h : Homographic) : Prop := NoCombine h.x

/-- What is done with the answer of the operand: `reduction_ingest` (homographic.rs:1061-1076). -/
def rest (cfg : Cfg) : Option Reduction → Mut (Homographic × World) (Option Ratio)
  | none => do
    let s ← get
    let (num, den) ← eval (s.1.k.valueAtOneHalf cfg)
    match ← eval (Clarith.Ratio.newI cfg num den) with
    | (none, none, some ratio) => pure (some ratio)
    | _ => panic .logicError
  | some .Amplify => do
    onK (Coef4.ingestAmplify cfg)
    pure none
  | some .Uncover => do
    onK (Coef4.ingestUncover cfg)
    pure none

theorem reductionIngest_eq (cfg : Cfg) (eg : EgestFn) :
    reductionIngest cfg eg = (onX eg >>= rest cfg) := by
  unfold reductionIngest
  congr 1

/-- A round of `egest` (homographic.rs:1138-1152) after the operand has answered. -/
def go (cfg : Cfg) (eg : EgestFn) (j : Nat) (a : Option Reduction) :
    Mut (Homographic × World) (Option Reduction ⊕ Obj) := do
  match ← rest cfg a with
  | some ratio => pure (.inr (.ratio ratio))
  | none => egest cfg eg j

theorem onK_blind {α : Type} (m : Mut Coef4 α) : Blind Simple (fun _ => True) (onK m) :=
  fun _ ht _ _ => ⟨rfl, rfl, ht, fun _ _ => trivial⟩

theorem println_blind : Blind Simple (fun _ => True) println :=
  fun _ ht _ _ => ⟨rfl, rfl, ht, fun _ _ => trivial⟩

theorem onX_blind {α : Type} {R : α → Prop} {m : Mut (Obj × World) α} (h : Blind NoCombine R m) :
    Blind Simple R (onX m) := by
  intro t ht w w₂
  obtain ⟨h1, h2, h3, h4⟩ := h t.x ht w w₂
  exact ⟨h1, congrArg (fun x => ({ t with x := x } : Homographic)) h2, h3, h4⟩

theorem rest_blind (cfg : Cfg) (a : Option Reduction) :
    Blind Simple (fun _ => True) (rest cfg a) := by
  rcases a with _ | _ | _
  · have h : ∀ k : Coef4, Blind Simple (fun _ => True)
        ((do
          let (num, den) ← eval (k.valueAtOneHalf cfg)
          match ← eval (Clarith.Ratio.newI cfg num den) with
          | (none, none, some ratio) => pure (some ratio)
          | _ => panic .logicError) : Mut (Homographic × World) (Option Ratio)) := by
      intro k
      refine (Blind.eval (R := fun _ => True) _ fun _ => trivial).bind fun a _ =>
        (Blind.eval (R := fun _ => True) _ fun _ => trivial).bind fun r _ => ?_
      rcases r with ⟨_ | _, _ | _, _ | _⟩
      all_goals first
        | exact .pure trivial
        | exact .panic _
    intro t ht w w₂
    exact h t.k t ht w w₂
  · exact (onK_blind _).bind fun _ _ => .pure trivial
  · exact (onK_blind _).bind fun _ _ => .pure trivial

/-- What `egest` hands over instead of a symbol is made of `Ratio` and `Homographic` alone. -/
def Handed (a : Option Reduction ⊕ Obj) : Prop := ∀ o, a = .inr o → ∃ q, o = .ratio q

variable {eg : EgestFn} (hE : Blind NoCombine (fun _ => True) eg)
include hE

theorem egest_blind (cfg : Cfg) (j : Nat) : Blind Simple Handed (egest cfg eg j) := by
  induction j with
  | zero => exact .timeout
  | succ j ih =>
    unfold egest
    rw [reductionIngest_eq]
    refine println_blind.bind fun _ _ => (onK_blind _).bind fun a _ => ?_
    rcases a with _ | _
    · refine Blind.bind (R := fun _ => True)
        ((onX_blind hE).bind fun a _ => rest_blind cfg a) fun b _ => ?_
      rcases b with _ | _
      · exact ih
      · refine .pure ?_
        rintro _ ⟨⟩
        exact ⟨_, rfl⟩
    · refine .pure ?_
      rintro _ ⟨⟩

theorem go_blind (cfg : Cfg) (j : Nat) (a : Option Reduction) :
    Blind Simple Handed (go cfg eg j a) := by
  unfold go
  refine (rest_blind cfg a).bind fun b _ => ?_
  rcases b with _ | _
  · exact egest_blind hE cfg j
  · refine .pure ?_
    rintro _ ⟨⟩
    exact ⟨_, rfl⟩

end Homographic

theorem egest_blind (cfg : Cfg) (f : Nat) : Blind NoCombine (fun _ => True) (egest cfg f) := by
  induction f with
  | zero => exact .timeout
  | succ f ih =>
    have h : Blind NoCombine Homographic.Handed (strategyEgest cfg (egest cfg f) f) := by
      rintro (r | ⟨x, k⟩ | ⟨x, y, k⟩) ht w w₂
      · unfold strategyEgest
        simp only
        generalize Ratio.egest cfg r = q
        rcases q with ⟨_ | _ | _ | _, r⟩
        · refine ⟨rfl, rfl, trivial, ?_⟩
          rintro _ ⟨⟩ _ ⟨⟩
        · exact ⟨rfl, rfl, trivial, nofun⟩
        · exact ⟨rfl, rfl, trivial, nofun⟩
        · exact ⟨rfl, rfl, trivial, nofun⟩
      · obtain ⟨h1, h2, h3, h4⟩ := Homographic.egest_blind ih cfg f ⟨x, k⟩ ht w w₂
        exact ⟨h1, congrArg Homographic.box h2, h3, h4⟩
      · exact ht.elim
    unfold egest
    refine h.bind fun a ha => ?_
    rcases a with _ | o
    · exact .pure trivial
    · obtain ⟨q, rfl⟩ := ha o rfl
      intro t _ w w₂
      exact ih (.ratio q) trivial w w₂

/-- One run tells what `egest` answers. -/
theorem answersWith_of_run {cfg : Cfg} {f : Nat} {o o' : Obj} {w w' : World}
    {a : Res (Option Reduction)} (ho : NoCombine o) (h : egest cfg f (o, w) = (a, (o', w')))
    (ha : a ≠ .timeout) : AnswersWith cfg o a o' ∧ NoCombine o' := by
  have hb := egest_blind cfg f o ho w
  rw [h] at hb
  refine ⟨⟨f, fun f' hf w₂ => ?_⟩, (hb w).2.2.1⟩
  obtain ⟨h1, h2, h3, h4⟩ := hb w₂
  rw [egest_up cfg hf _ (by rw [← h1]; exact ha)]
  exact ⟨(egest cfg f (o, w₂)).2.2, Prod.ext h1.symm (Prod.ext h2.symm rfl)⟩

theorem Spec.AnswersWith.unique {cfg : Cfg} {o o₁ o₂ : Obj} {a b : Res (Option Reduction)}
    (h : AnswersWith cfg o a o₁) (h' : AnswersWith cfg o b o₂) : a = b ∧ o₁ = o₂ := by
  obtain ⟨F, h⟩ := h
  obtain ⟨F', h'⟩ := h'
  obtain ⟨_, e⟩ := h (F + F') (by omega) ⟨fun _ => none, 0, []⟩
  obtain ⟨_, e'⟩ := h' (F + F') (by omega) ⟨fun _ => none, 0, []⟩
  rw [e] at e'
  simp only [Prod.mk.injEq] at e'
  exact ⟨e'.1, e'.2.1⟩

/-! ## Two objects that answer alike -/

/-- `egest` on `o` and on `o₁` end alike and leave the same behind. -/
def Alike (cfg : Cfg) (o o₁ : Obj) : Prop :=
  ∀ a o', a ≠ .timeout → (AnswersWith cfg o a o' ↔ AnswersWith cfg o₁ a o')

theorem Alike.refl (cfg : Cfg) (o : Obj) : Alike cfg o o := fun _ _ _ => .rfl

theorem Alike.trans {cfg : Cfg} {o o₁ o₂ : Obj} (h : Alike cfg o o₁) (h' : Alike cfg o₁ o₂) :
    Alike cfg o o₂ := fun a o' ha => (h a o' ha).trans (h' a o' ha)

/-- src/lib.rs:49-54: what `Clog::egest` makes of the end of the strategy. -/
def finish (cfg : Cfg) (f : Nat) :
    Res (Option Reduction ⊕ Obj) × (Homographic × World) → Res (Option Reduction) × (Obj × World)
  | (.ok (.inl red), (h, w)) => (.ok red, (h.box, w))
  | (.ok (.inr o), (_, w)) => egest cfg f (o, w)
  | (.panic p, (h, w)) => (.panic p, (h.box, w))
  | (.shared, (h, w)) => (.shared, (h.box, w))
  | (.timeout, (h, w)) => (.timeout, (h.box, w))

theorem egest_finish (cfg : Cfg) (f : Nat) (x : Obj) (k : Coef4) (w : World) :
    egest cfg (f + 1) (.homographic x k, w) =
      finish cfg f (Homographic.egest cfg (egest cfg f) f (⟨x, k⟩, w)) := by
  have e : egest cfg (f + 1) (.homographic x k, w) =
      Mut.bind (strategyEgest cfg (egest cfg f) f) (fun a => match a with
        | .inl reduction => pure reduction
        | .inr strategy => do
          modify fun s => (strategy, s.2)
          egest cfg f) (.homographic x k, w) := rfl
  rw [e, Mut.bind]
  unfold strategyEgest
  simp only
  generalize Homographic.egest cfg (egest cfg f) f (⟨x, k⟩, w) = r
  obtain ⟨(red | o) | p | _ | _, h, w⟩ := r <;> rfl

theorem finish_up {cfg : Cfg} {f f' : Nat} (hf : f ≤ f')
    {r : Res (Option Reduction ⊕ Obj) × (Homographic × World)} (h : (finish cfg f r).1 ≠ .timeout) :
    finish cfg f' r = finish cfg f r := by
  obtain ⟨(red | o) | p | _ | _, t, w⟩ := r
  · rfl
  · exact egest_up cfg hf _ h
  · rfl
  · rfl
  · rfl

theorem finish_ends {cfg : Cfg} {f : Nat}
    {r : Res (Option Reduction ⊕ Obj) × (Homographic × World)} (h : (finish cfg f r).1 ≠ .timeout) :
    r.1 ≠ .timeout := by
  obtain ⟨(red | o) | p | _ | _, t, w⟩ := r <;> simp [finish] at h ⊢

/-- Pulling one symbol of the operand into the coefficients. -/
def Coef4.take (cfg : Cfg) : Reduction → Mut Clarith.Coef4 Unit
  | .Amplify => ingestAmplify cfg
  | .Uncover => ingestUncover cfg

theorem Homographic.egest_round {cfg : Cfg} {eg : EgestFn} {j : Nat} {x x' : Obj} {k k' : Coef4}
    {w w' : World} {b : Reduction} (h : Coef4.reductionAttempt cfg k = (.ok none, k))
    (he : eg (x, printed w k) = (.ok (some b), (x', w')))
    (hi : Coef4.take cfg b k = (.ok (), k')) :
    egest cfg eg (j + 1) (⟨x, k⟩, w) = egest cfg eg j (⟨x', k'⟩, w') := by
  cases b with
  | Amplify => exact egest_amplify h he hi
  | Uncover => exact egest_uncover h he hi

theorem Alike.round {cfg : Cfg} {x x' : Obj} {k k' : Coef4} {b : Reduction} (hx : NoCombine x)
    (hx' : NoCombine x') (h : Coef4.reductionAttempt cfg k = (.ok none, k))
    (he : AnswersWith cfg x (.ok (some b)) x') (hi : Coef4.take cfg b k = (.ok (), k')) :
    Alike cfg (.homographic x k) (.homographic x' k') := by
  intro a o' ha
  obtain ⟨F, he⟩ := he
  constructor
  · rintro ⟨F', h'⟩
    obtain ⟨w', e⟩ := h' (F + F' + 2) (by omega) ⟨fun _ => none, 0, []⟩
    obtain ⟨v, e'⟩ := he (F + F' + 1) (by omega) (Homographic.printed ⟨fun _ => none, 0, []⟩ k)
    rw [egest_finish, Homographic.egest_round h e' hi] at e
    have hne : (finish cfg (F + F' + 1) (Homographic.egest cfg (egest cfg (F + F' + 1)) (F + F')
        (⟨x', k'⟩, v))).1 ≠ .timeout := by rw [e]; exact ha
    have e2 := Homographic.egest_up (.refl (egest cfg (F + F' + 1))) cfg
      (show F + F' ≤ F + F' + 1 by omega) (⟨x', k'⟩, v) (finish_ends hne)
    rw [← e2, ← egest_finish] at e
    exact (answersWith_of_run (o := .homographic x' k') hx' e ha).1
  · rintro ⟨F', h'⟩
    obtain ⟨v, e'⟩ := he (F + F' + 1) (by omega) (Homographic.printed ⟨fun _ => none, 0, []⟩ k)
    obtain ⟨w', e⟩ := h' (F + F' + 1) (by omega) v
    rw [egest_finish] at e
    have hne : (finish cfg (F + F') (Homographic.egest cfg (egest cfg (F + F')) (F + F')
        (⟨x', k'⟩, v))).1 ≠ .timeout := by rw [e]; exact ha
    have e2 := Homographic.egest_up (egest_up cfg (show F + F' ≤ F + F' + 1 by omega)) cfg
      (le_refl (F + F')) (⟨x', k'⟩, v) (finish_ends hne)
    rw [← finish_up (show F + F' ≤ F + F' + 1 by omega) hne, ← e2,
      ← Homographic.egest_round h e' hi, ← egest_finish] at e
    exact (answersWith_of_run (o := .homographic x k) hx e ha).1

theorem Homographic.egest_go {cfg : Cfg} {eg : EgestFn} {j : Nat} {x : Obj} {k : Coef4} {w : World}
    (h : Coef4.reductionAttempt cfg k = (.ok none, k)) :
    egest cfg eg (j + 1) (⟨x, k⟩, w) = (onX eg >>= go cfg eg j) (⟨x, k⟩, printed w k) := by
  have e : egest cfg eg (j + 1) (⟨x, k⟩, w) =
      (reductionIngest cfg eg >>= fun b => match b with
        | some ratio => pure (.inr (.ratio ratio))
        | none => egest cfg eg j) (⟨x, k⟩, printed w k) := by
    simp only [egest, Bind.bind, Mut.bind, println, Mut.modify, onK, part, h]
    rfl
  rw [e, reductionIngest_eq]
  simp only [Bind.bind, Mut.bind, onX, part]
  rcases eg (x, printed w k) with ⟨_ | _ | _ | _, t⟩ <;> rfl

theorem Alike.operand {cfg : Cfg} {x x₁ : Obj} {k : Coef4} (hx : NoCombine x) (hx₁ : NoCombine x₁)
    (h : Coef4.reductionAttempt cfg k = (.ok none, k)) (hA : Alike cfg x x₁) :
    Alike cfg (.homographic x k) (.homographic x₁ k) := by
  have key : ∀ {x x₁ : Obj}, NoCombine x → NoCombine x₁ → Alike cfg x x₁ → ∀ a o', a ≠ .timeout →
      AnswersWith cfg (.homographic x k) a o' → AnswersWith cfg (.homographic x₁ k) a o' := by
    intro x x₁ hx hx₁ hA a o' ha ⟨F, hF⟩
    let w : World := ⟨fun _ => none, 0, []⟩
    obtain ⟨w', e⟩ := hF (F + 2) (by omega) w
    rw [egest_finish, Homographic.egest_go h] at e
    have hne : (finish cfg (F + 1) ((Homographic.onX (egest cfg (F + 1)) >>=
        Homographic.go cfg (egest cfg (F + 1)) F) (⟨x, k⟩, Homographic.printed w k))).1 ≠
          .timeout := by rw [e]; exact ha
    have hne := finish_ends hne
    obtain ⟨r, x', v, hr⟩ : ∃ r x' v, egest cfg (F + 1) (x, Homographic.printed w k) = (r, (x', v)) :=
      ⟨_, _, _, rfl⟩
    have hrt : r ≠ .timeout := by
      rintro rfl
      apply hne
      simp only [Bind.bind, Mut.bind, Homographic.onX, part, hr]
    obtain ⟨hxr, hx'⟩ := answersWith_of_run hx hr hrt
    obtain ⟨F', h'⟩ := (hA r x' hrt).1 hxr
    obtain ⟨v₁, e₁⟩ := h' (F + F' + 1) (by omega) (Homographic.printed w k)
    obtain ⟨w'', e₂⟩ := hF (F + F' + 2) (by omega) w
    have hr₂ := egest_up cfg (show F + 1 ≤ F + F' + 1 by omega) (x, Homographic.printed w k)
      (by rw [hr]; exact hrt)
    rw [hr] at hr₂
    rw [egest_finish, Homographic.egest_go h] at e₂
    have e₃ : ∃ w₃, egest cfg (F + F' + 2) (.homographic x₁ k, w) = (a, (o', w₃)) := by
      rw [egest_finish, Homographic.egest_go h]
      simp only [Bind.bind, Mut.bind, Homographic.onX, part, hr₂] at e₂
      simp only [Bind.bind, Mut.bind, Homographic.onX, part, e₁]
      cases r with
      | ok s =>
        simp only at e₂ ⊢
        obtain ⟨h1, h2, h3, h4⟩ := Homographic.go_blind (egest_blind cfg (F + F' + 1)) cfg (F + F') s
          ⟨x', k⟩ hx' v v₁
        revert e₂ h1 h2 h3 h4
        generalize Homographic.go cfg (egest cfg (F + F' + 1)) (F + F') s (⟨x', k⟩, v) = q
        generalize Homographic.go cfg (egest cfg (F + F' + 1)) (F + F') s (⟨x', k⟩, v₁) = q₁
        obtain ⟨q, u, z⟩ := q
        obtain ⟨q₁, u₁, z₁⟩ := q₁
        intro e₂ h1 h2 h3 h4
        simp only at h1 h2 h3 h4
        subst h1 h2
        rcases q with (red | o) | p | _ | _
        · simp only [finish, Prod.mk.injEq] at e₂ ⊢
          exact ⟨z₁, e₂.1, e₂.2.1, rfl⟩
        · obtain ⟨q, rfl⟩ := h4 _ rfl o rfl
          obtain ⟨h1, h2, -⟩ := egest_blind cfg (F + F' + 1) (.ratio q) trivial z z₁
          simp only [finish] at e₂ ⊢
          rw [e₂] at h1 h2
          exact ⟨(egest cfg (F + F' + 1) (.ratio q, z₁)).2.2,
            Prod.ext h1.symm (Prod.ext h2.symm rfl)⟩
        · simp only [finish, Prod.mk.injEq] at e₂ ⊢
          exact ⟨z₁, e₂.1, e₂.2.1, rfl⟩
        · simp only [finish, Prod.mk.injEq] at e₂ ⊢
          exact ⟨z₁, e₂.1, e₂.2.1, rfl⟩
        · simp only [finish, Prod.mk.injEq] at e₂ ⊢
          exact ⟨z₁, e₂.1, e₂.2.1, rfl⟩
      | panic p =>
        simp only [finish, Prod.mk.injEq] at e₂ ⊢
        exact ⟨v₁, e₂.1, e₂.2.1, rfl⟩
      | shared =>
        simp only [finish, Prod.mk.injEq] at e₂ ⊢
        exact ⟨v₁, e₂.1, e₂.2.1, rfl⟩
      | timeout => exact absurd rfl hrt
    obtain ⟨w₃, e₃⟩ := e₃
    exact (answersWith_of_run (o := .homographic x₁ k) hx₁ e₃ ha).1
  exact fun a o' ha => ⟨key hx hx₁ hA a o' ha,
    key hx₁ hx (fun a o' ha => (hA a o' ha).symm) a o' ha⟩

theorem Coef4.reductionAttempt_none {cfg : Cfg} {k k' : Clarith.Coef4}
    (h : reductionAttempt cfg k = (.ok none, k')) : k' = k := by
  have hA := reductionAttempt_agree cfg k
  unfold Agree Sim at hA
  rw [h] at hA
  obtain ⟨b, h1, rfl⟩ := hA
  revert h1
  rcases k.reductionAttempt cfg with (_ | ⟨a, t⟩) | p | _
  · intro h1
    injection h1 with h1
    injection h1 with _ h1
    exact h1.symm
  · intro h1
    injection h1 with h1
    injection h1 with h1
    exact nomatch h1
  · exact nofun
  · exact nofun

/-! ## After a line that could not be written -/

namespace Stdout

open Prog

theorem Tracks.some {σ α : Type} {P : σ → List Coef4} {ok : Nat → Bool} {m : Mut σ α}
    {m' : Prog σ α} (h : Tracks P ok m m') {s t : σ} {r : Res α} (e : m' s = (some r, t)) :
    m s = (r, t) := by
  obtain ⟨new, h1, h2, h3⟩ := h s
  by_cases H : ∀ i, i < new.length → ok ((P s).length + i) = true
  · have e' := h2 H
    rw [e] at e'
    simp only [Prod.mk.injEq, Option.some.injEq] at e'
    exact Prod.ext e'.1.symm e'.2.symm
  · have H' : ∃ i, i < new.length ∧ ok ((P s).length + i) = false := by
      simpa using H
    classical
    obtain ⟨n1, n2⟩ := Nat.find_spec H'
    have := (h3 (Nat.find H') n1 n2 fun j hj => by
      by_contra hc
      exact Nat.find_min H' hj ⟨by omega, by simpa using hc⟩).1
    rw [e] at this
    exact nomatch this

/-- `m` never ends with the panic of a `println!`. -/
theorem Silent.never {σ α : Type} {m : Mut σ α} {s t : σ} (h : quiet m s = (none, t)) : False := by
  simp [quiet] at h

theorem bind_none {σ α β : Type} {m : Prog σ α} {g : α → Prog σ β} {s t : σ}
    (h : (m >>= g) s = (none, t)) :
    m s = (none, t) ∨ ∃ a u, m s = (some (.ok a), u) ∧ g a u = (none, t) := by
  have e : (m >>= g) s = Prog.bind m g s := rfl
  rw [e, Prog.bind] at h
  revert h
  generalize m s = r
  obtain ⟨_ | (a | p | _ | _), u⟩ := r
  · intro h
    injection h with _ h
    subst h
    exact .inl rfl
  · exact fun h => .inr ⟨a, u, rfl, h⟩
  · exact fun h => by simp at h
  · exact fun h => by simp at h
  · exact fun h => by simp at h

theorem quiet_bind_none {σ α β : Type} {m : Mut σ α} {g : α → Prog σ β} {s t : σ}
    (h : (quiet m >>= g) s = (none, t)) : ∃ a u, m s = (.ok a, u) ∧ g a u = (none, t) := by
  rcases bind_none h with h | ⟨a, u, h1, h2⟩
  · exact (Silent.never h).elim
  · refine ⟨a, u, ?_, h2⟩
    simp only [quiet, Prod.mk.injEq, Option.some.injEq] at h1
    exact Prod.ext h1.1 h1.2

theorem ratio_never (cfg : Cfg) (ok : Nat → Bool) (f : Nat) (r : Ratio) (w : World)
    (t : Obj × World) : egest cfg ok f (.ratio r, w) ≠ (none, t) := by
  intro h
  cases f with
  | zero => exact Silent.never h
  | succ f =>
    unfold egest at h
    have hs : ∀ u, strategyEgest cfg ok (egest cfg ok f) f (.ratio r, w) ≠ (none, u) ∧
        ∀ o, strategyEgest cfg ok (egest cfg ok f) f (.ratio r, w) ≠ (some (.ok (.inr o)), u) := by
      intro u
      unfold strategyEgest
      simp only
      generalize Ratio.egest cfg r = q
      rcases q with ⟨_ | _ | _ | _, r⟩ <;> simp
    rcases bind_none h with h | ⟨a, u, h1, h2⟩
    · exact (hs t).1 h
    · rcases a with a | o
      · simp [Pure.pure] at h2
      · exact (hs u).2 o h1

theorem Homographic.reductionIngest_none {cfg : Cfg} {eg : EgestFn} {x : Obj} {k : Coef4}
    {w : World} {t : Homographic × World}
    (h : reductionIngest cfg eg (⟨x, k⟩, w) = (none, t)) :
    eg (x, w) = (none, (t.1.x, t.2)) ∧ t.1.k = k := by
  unfold reductionIngest at h
  rcases bind_none h with h | ⟨a, u, h1, h2⟩
  · simp only [onX, Prog.part, Prod.mk.injEq] at h
    obtain ⟨h1, h2⟩ := h
    subst h2
    exact ⟨Prod.ext h1 rfl, rfl⟩
  · rcases a with _ | _ | _
    · obtain ⟨s, u, h1, h2⟩ := quiet_bind_none h2
      obtain ⟨s, u, h1, h2⟩ := quiet_bind_none h2
      obtain ⟨s, u, h1, h2⟩ := quiet_bind_none h2
      rcases s with ⟨_ | _, _ | _, _ | _⟩ <;> simp [Pure.pure, quiet] at h2
    · obtain ⟨s, u, h1, h2⟩ := quiet_bind_none h2
      simp [Pure.pure] at h2
    · obtain ⟨s, u, h1, h2⟩ := quiet_bind_none h2
      simp [Pure.pure] at h2

theorem Homographic.reductionIngest_round {cfg : Cfg} {eg : EgestFn} {x : Obj} {k : Coef4}
    {w : World} {t : Homographic × World}
    (h : reductionIngest cfg eg (⟨x, k⟩, w) = (some (.ok none), t)) :
    ∃ b, eg (x, w) = (some (.ok (some b)), (t.1.x, t.2)) ∧
      Coef4.take cfg b k = (.ok (), t.1.k) := by
  obtain ⟨a, u, h1, h2⟩ : ∃ a u, onX eg (⟨x, k⟩, w) = (some (.ok a), u) ∧
      (match a with
      | none => (do
        let s ← quiet Mut.get
        let (num, den) ← quiet (Mut.eval (s.1.k.valueAtOneHalf cfg))
        match ← quiet (Mut.eval (Clarith.Ratio.newI cfg num den)) with
        | (none, none, some ratio) => pure (some ratio)
        | _ => quiet (Mut.panic .logicError))
      | some .Amplify => (do
        quiet (Homographic.onK (Coef4.ingestAmplify cfg))
        pure none)
      | some .Uncover => (do
        quiet (Homographic.onK (Coef4.ingestUncover cfg))
        pure none) : Prog (Homographic × World) (Option Ratio)) u = (some (.ok none), t) := by
    have e : reductionIngest cfg eg (⟨x, k⟩, w) = Prog.bind (onX eg) _ (⟨x, k⟩, w) := rfl
    rw [e, Prog.bind] at h
    revert h
    generalize onX eg (⟨x, k⟩, w) = r
    obtain ⟨_ | (a | p | _ | _), u⟩ := r
    · exact fun h => by simp at h
    · exact fun h => ⟨a, u, rfl, h⟩
    · exact fun h => by simp at h
    · exact fun h => by simp at h
    · exact fun h => by simp at h
  simp only [onX, Prog.part, Prod.mk.injEq] at h1
  obtain ⟨h1, rfl⟩ := h1
  rcases a with _ | _ | _
  · exfalso
    simp only [Bind.bind, Prog.bind, quiet, Mut.get] at h2
    revert h2
    generalize k.valueAtOneHalf cfg = o
    rcases o with ⟨n, d⟩ | p | _
    · simp only [Mut.eval]
      generalize Clarith.Ratio.newI cfg n d = o
      rcases o with ⟨_ | _, _ | _, _ | _⟩ | p | _ <;> simp [Pure.pure, quiet, Mut.panic]
    · simp [Mut.eval]
    · simp [Mut.eval]
  · refine ⟨.Amplify, ?_⟩
    simp only [Bind.bind, Prog.bind, quiet, Homographic.onK, Mut.part] at h2
    have et : Coef4.take cfg .Amplify k = Coef4.ingestAmplify cfg k := rfl
    revert h2
    rw [et]
    generalize Coef4.ingestAmplify cfg k = q
    obtain ⟨_ | p | _ | _, k'⟩ := q
    · simp only [Pure.pure, Prod.mk.injEq, true_and]
      rintro rfl
      exact ⟨Prod.ext h1 rfl, rfl⟩
    · exact fun h => by simp at h
    · exact fun h => by simp at h
    · exact fun h => by simp at h
  · refine ⟨.Uncover, ?_⟩
    simp only [Bind.bind, Prog.bind, quiet, Homographic.onK, Mut.part] at h2
    have et : Coef4.take cfg .Uncover k = Coef4.ingestUncover cfg k := rfl
    revert h2
    rw [et]
    generalize Coef4.ingestUncover cfg k = q
    obtain ⟨_ | p | _ | _, k'⟩ := q
    · simp only [Pure.pure, Prod.mk.injEq, true_and]
      rintro rfl
      exact ⟨Prod.ext h1 rfl, rfl⟩
    · exact fun h => by simp at h
    · exact fun h => by simp at h
    · exact fun h => by simp at h

/-- A failed `println!` leaves an object without `Combine` as good as before. -/
def Resumes (cfg : Cfg) (eg : EgestFn) : Prop :=
  ∀ o w o₁ w₁, NoCombine o → eg (o, w) = (none, (o₁, w₁)) → NoCombine o₁ ∧ Alike cfg o o₁

theorem Homographic.egest_resumes {cfg : Cfg} {ok : Nat → Bool} {f : Nat}
    (hE : Resumes cfg (Stdout.egest cfg ok f)) (j : Nat) : ∀ {x x₁ : Obj} {k k₁ : Coef4}
    {w w₁ : World}, NoCombine x →
      egest cfg ok (Stdout.egest cfg ok f) j (⟨x, k⟩, w) = (none, (⟨x₁, k₁⟩, w₁)) →
        NoCombine x₁ ∧ Alike cfg (.homographic x k) (.homographic x₁ k₁) := by
  induction j with
  | zero => exact fun _ h => (Silent.never h).elim
  | succ j ih =>
    intro x x₁ k k₁ w w₁ hx h
    unfold egest at h
    rcases bind_none h with h | ⟨_, u, h1, h⟩
    · simp only [println, Prod.mk.injEq] at h
      obtain ⟨rfl, rfl⟩ := Homographic.mk.inj h.2.1
      exact ⟨hx, .refl _ _⟩
    · simp only [println, Prod.mk.injEq] at h1
      obtain ⟨-, rfl⟩ := h1
      obtain ⟨a, u, h1, h⟩ := quiet_bind_none h
      simp only [Homographic.onK, Mut.part, Prod.mk.injEq] at h1
      obtain ⟨h1, rfl⟩ := h1
      rcases a with _ | a
      · have hk : Coef4.reductionAttempt cfg k = (.ok none, k) := by
          have : Coef4.reductionAttempt cfg k = (.ok none, (Coef4.reductionAttempt cfg k).2) :=
            Prod.ext h1 rfl
          rw [Coef4.reductionAttempt_none this] at this
          exact this
        rw [hk] at h
        rcases bind_none h with h | ⟨b, u, h2, h⟩
        · obtain ⟨h3, rfl⟩ := reductionIngest_none h
          obtain ⟨n1, n2⟩ := hE _ _ _ _ hx h3
          exact ⟨n1, .operand hx n1 hk n2⟩
        · rcases b with _ | b
          · obtain ⟨b, h3, h4⟩ := reductionIngest_round h2
            have h5 := (Stdout.egest_tracks cfg ok f).some h3
            obtain ⟨n1, n2⟩ := answersWith_of_run hx h5 nofun
            obtain ⟨⟨x', k'⟩, w'⟩ := u
            obtain ⟨n3, n4⟩ := ih n2 h
            exact ⟨n3, (Alike.round hx n2 hk n1 h4).trans n4⟩
          · simp [Pure.pure] at h
      · simp [Pure.pure] at h

theorem egest_resumes (cfg : Cfg) (ok : Nat → Bool) (f : Nat) :
    Resumes cfg (egest cfg ok f) := by
  induction f with
  | zero => exact fun _ _ _ _ _ h => (Silent.never h).elim
  | succ f ih =>
    rintro (r | ⟨x, k⟩ | ⟨x, y, k⟩) w o₁ w₁ ho h
    · exact (ratio_never _ _ _ _ _ _ h).elim
    · unfold egest at h
      rcases bind_none h with h | ⟨a, u, h1, h⟩
      · unfold strategyEgest at h
        simp only [Prod.mk.injEq] at h
        obtain ⟨h1, rfl, rfl⟩ := h
        exact Homographic.egest_resumes ih f (x := x) (k := k) (w := w) ho
          (Prod.ext h1 (Prod.ext rfl rfl))
      · rcases a with a | o
        · simp [Pure.pure] at h
        · have h2 := (strategyEgest_tracks (egest_tracks cfg ok f) cfg f).some h1
          unfold Steps.strategyEgest at h2
          simp only [Prod.mk.injEq] at h2
          obtain ⟨q, rfl⟩ := (Homographic.egest_blind (egest_blind cfg f) cfg f ⟨x, k⟩ ho w w).2.2.2
            _ h2.1 o rfl
          obtain ⟨_, v, h3, h4⟩ := quiet_bind_none h
          simp only [Mut.modify, Prod.mk.injEq] at h3
          obtain ⟨-, rfl⟩ := h3
          exact (ratio_never _ _ _ _ _ _ h4).elim
    · exact ho.elim

/-! ## More fuel, with lines that cannot be written -/

/-- `m'` ends as `m` does, where `m` ends. -/
def Up {σ α : Type} (m m' : Prog σ α) : Prop := ∀ s, (m s).1 ≠ some .timeout → m' s = m s

namespace Up

variable {σ τ α β : Type}

theorem refl (m : Prog σ α) : Up m m := fun _ _ => rfl

theorem timeout (m : Prog σ α) : Up (quiet Mut.timeout) m := fun _ h => absurd rfl h

theorem bind {m m' : Prog σ α} {g g' : α → Prog σ β} (h : Up m m') (hg : ∀ a, Up (g a) (g' a)) :
    Up (m >>= g) (m' >>= g') := by
  intro s hs
  have e : (m >>= g) s = Prog.bind m g s := rfl
  have e' : (m' >>= g') s = Prog.bind m' g' s := rfl
  rw [e, Prog.bind] at hs
  have hm := h s
  rw [e, e', Prog.bind, Prog.bind]
  revert hs hm
  generalize m s = r
  obtain ⟨_ | (a | p | _ | _), t⟩ := r
  · intro hs hm
    rw [hm nofun]
  · intro hs hm
    rw [hm nofun]
    exact hg a t hs
  · intro hs hm
    rw [hm nofun]
  · intro hs hm
    rw [hm nofun]
  · exact fun hs => absurd rfl hs

theorem bind_left {m m' : Prog σ α} {g : α → Prog σ β} (h : Up m m') : Up (m >>= g) (m' >>= g) :=
  h.bind fun _ => refl _

theorem bind_right {m : Prog σ α} {g g' : α → Prog σ β} (hg : ∀ a, Up (g a) (g' a)) :
    Up (m >>= g) (m >>= g') := (refl m).bind hg

theorem part {get : σ → τ} {put : τ → σ → σ} {m m' : Prog τ α} (h : Up m m') :
    Up (Prog.part get put m) (Prog.part get put m') := by
  intro s hs
  have e := h (get s) hs
  show ((m' (get s)).1, put (m' (get s)).2 s) = _
  rw [e]
  rfl

theorem owned {s : σ} {m m' : Prog (σ × World) α} (h : Up m m') :
    Up (Stdout.owned s m) (Stdout.owned s m') := by
  intro w hw
  have e := h (s, w) hw
  show ((m' (s, w)).1, (m' (s, w)).2.2) = _
  rw [e]
  rfl

theorem rcGetMut {i : Nat} {m m' : Prog (Obj × World) α} (h : Up m m') :
    Up (Stdout.rcGetMut i m) (Stdout.rcGetMut i m') := by
  intro w
  unfold Stdout.rcGetMut
  rcases w.cells i with _ | ⟨_ | _ | c, o⟩
  · exact fun _ => rfl
  · exact fun _ => rfl
  · intro hw
    simp only at hw ⊢
    rw [h (o, w) hw]
  · exact fun _ => rfl

end Up

namespace Homographic

variable {ok : Nat → Bool} {eg eg' : EgestFn} (hE : Up eg eg')
include hE

theorem primeIngest_up (cfg : Cfg) : Up (primeIngest cfg eg) (primeIngest cfg eg') :=
  (Up.part hE).bind_left

theorem reductionIngest_up (cfg : Cfg) : Up (reductionIngest cfg eg) (reductionIngest cfg eg') :=
  (Up.part hE).bind_left

theorem prime_up (cfg : Cfg) {f f' : Nat} (hf : f ≤ f') :
    Up (prime cfg ok eg f) (prime cfg ok eg' f') := by
  induction f generalizing f' with
  | zero => exact Up.timeout _
  | succ f ih =>
    obtain ⟨f', rfl⟩ : ∃ g, f' = g + 1 := ⟨f' - 1, by omega⟩
    unfold prime
    refine .bind_right fun _ => .bind_right fun a => ?_
    rcases a with _ | _
    · refine (primeIngest_up hE cfg).bind fun b => ?_
      rcases b with _ | _
      · exact ih (by omega)
      · exact .refl _
    · exact .refl _

theorem egest_up (cfg : Cfg) {f f' : Nat} (hf : f ≤ f') :
    Up (egest cfg ok eg f) (egest cfg ok eg' f') := by
  induction f generalizing f' with
  | zero => exact Up.timeout _
  | succ f ih =>
    obtain ⟨f', rfl⟩ : ∃ g, f' = g + 1 := ⟨f' - 1, by omega⟩
    unfold egest
    refine .bind_right fun _ => .bind_right fun a => ?_
    rcases a with _ | _
    · refine (reductionIngest_up hE cfg).bind fun b => ?_
      rcases b with _ | _
      · exact ih (by omega)
      · exact .refl _
    · exact .refl _

theorem new_up (cfg : Cfg) {f f' : Nat} (hf : f ≤ f') (x : Number) (nx n dx d : Int) :
    Up (new cfg ok eg f x nx n dx d) (new cfg ok eg' f' x nx n dx d) := by
  unfold new
  split
  · exact .refl _
  · rcases x with (_ | _ | _) | ⟨p, c⟩
    · exact .refl _
    · exact .refl _
    · exact .refl _
    · exact .bind_right fun _ => .owned (prime_up hE cfg hf)

end Homographic

namespace Combine

variable {ok : Nat → Bool} {eg eg' : EgestFn} (hE : Up eg eg')
include hE

theorem reductionIngest_up (cfg : Cfg) {f f' : Nat} (hf : f ≤ f') :
    Up (reductionIngest cfg ok eg f) (reductionIngest cfg ok eg' f') := by
  unfold reductionIngest
  refine .bind_right fun s => .bind (.part (.rcGetMut hE)) fun a => ?_
  rcases a with _ | rx
  · exact .bind_right fun s => .bind_right fun k => .bind_right fun y =>
      (Up.part (Homographic.new_up hE cfg hf _ _ _ _ _)).bind_left
  · refine .bind_right fun _ => .bind_right fun s => .bind (.part (.rcGetMut hE)) fun b => ?_
    rcases b with _ | ry
    · exact .bind_right fun s => .bind_right fun k => .bind_right fun y =>
        (Up.part (Homographic.new_up hE cfg hf _ _ _ _ _)).bind_left
    · exact .refl _

theorem egest_up (cfg : Cfg) {f f' : Nat} (hf : f ≤ f') :
    Up (egest cfg ok eg f) (egest cfg ok eg' f') := by
  induction f generalizing f' with
  | zero => exact Up.timeout _
  | succ f ih =>
    obtain ⟨f', rfl⟩ : ∃ g, f' = g + 1 := ⟨f' - 1, by omega⟩
    unfold egest
    refine .bind_right fun a => ?_
    rcases a with _ | _
    · refine (reductionIngest_up hE cfg (by omega)).bind fun b => ?_
      rcases b with ⟨_ | _, _ | _⟩
      · exact ih (by omega)
      · exact .refl _
      · exact .refl _
      · exact .refl _
    · exact .refl _

end Combine

theorem strategyEgest_up {ok : Nat → Bool} {eg eg' : EgestFn} (hE : Up eg eg') (cfg : Cfg)
    {f f' : Nat} (hf : f ≤ f') : Up (strategyEgest cfg ok eg f) (strategyEgest cfg ok eg' f') := by
  rintro ⟨o, w⟩ h
  rcases o with r | ⟨x, k⟩ | ⟨x, y, k⟩
  · rfl
  · unfold strategyEgest at h ⊢
    simp only at h ⊢
    rw [Homographic.egest_up hE cfg hf _ h]
  · unfold strategyEgest at h ⊢
    simp only at h ⊢
    rw [Combine.egest_up hE cfg hf _ h]

theorem egest_up (cfg : Cfg) (ok : Nat → Bool) {f f' : Nat} (hf : f ≤ f') :
    Up (egest cfg ok f) (egest cfg ok f') := by
  induction f generalizing f' with
  | zero => exact Up.timeout _
  | succ f ih =>
    obtain ⟨f', rfl⟩ : ∃ g, f' = g + 1 := ⟨f' - 1, by omega⟩
    unfold egest
    refine (strategyEgest_up (ih (by omega)) cfg (by omega)).bind fun a => ?_
    rcases a with _ | _
    · exact .refl _
    · exact .bind_right fun _ => ih (by omega)

/-! ## The answers of many calls -/

/-- `l` are the answers of the calls of `egest` on `o`. -/
inductive Trace (cfg : Cfg) : Obj → List (Res (Option Reduction)) → Prop
  | nil (o : Obj) : Trace cfg o []
  | cons {o o' : Obj} {a : Res (Option Reduction)} {l : List (Res (Option Reduction))}
      (ha : a ≠ .timeout) (h : AnswersWith cfg o a o') (hl : Trace cfg o' l) : Trace cfg o (a :: l)

theorem Trace.alike {cfg : Cfg} {o o₁ : Obj} {l : List (Res (Option Reduction))}
    (h : Trace cfg o₁ l) (hA : Alike cfg o o₁) : Trace cfg o l := by
  cases h with
  | nil => exact .nil o
  | cons ha h hl => exact .cons ha ((hA _ _ ha).2 h) hl

theorem Trace.caught {cfg : Cfg} {o : Obj} {l : List (Res (Option Reduction))}
    (h : Trace cfg o l) : ∃ F, ∀ f, F ≤ f → ∀ w, caught cfg f l.length o w = l := by
  induction h with
  | nil o => exact ⟨0, fun _ _ _ => rfl⟩
  | cons ha h hl ih =>
    obtain ⟨F, h⟩ := h
    obtain ⟨F', ih⟩ := ih
    refine ⟨F + F', fun f hf w => ?_⟩
    obtain ⟨w', e⟩ := h f (by omega) w
    simp only [List.length_cons, Spec.caught, e, ih f (by omega)]

theorem Trace.of_caughtOn {cfg : Cfg} {ok : Nat → Bool} {f : Nat} (m : Nat) : ∀ {o : Obj}
    {w : World}, NoCombine o → some .timeout ∉ caughtOn cfg ok f m o w →
      Trace cfg o (caughtOn cfg ok f m o w).reduceOption := by
  induction m with
  | zero => exact fun _ _ => .nil _
  | succ m ih =>
    intro o w ho h
    rw [caughtOn, List.mem_cons, not_or] at h
    obtain ⟨h1, h2⟩ := h
    rw [caughtOn]
    obtain ⟨r, o', w', e⟩ : ∃ r o' w', egest cfg ok f (o, w) = (r, (o', w')) := ⟨_, _, _, rfl⟩
    rw [e] at h1 h2 ⊢
    cases r with
    | none =>
      obtain ⟨n1, n2⟩ := egest_resumes cfg ok f _ _ _ _ ho e
      rw [List.reduceOption_cons_of_none]
      exact (ih n1 h2).alike n2
    | some a =>
      obtain ⟨n1, n2⟩ := answersWith_of_run ho ((egest_tracks cfg ok f).some e)
        fun h => h1 (by rw [h])
      rw [List.reduceOption_cons_of_some]
      exact .cons (fun h => h1 (by rw [h])) n1 (ih n2 h2)

/-- If `egest` always ends on what comes of `o`, then it also does with lines that cannot be
written. -/
theorem caughtOn_ends {cfg : Cfg} {ok : Nat → Bool} {D : Obj → Prop}
    (hD : ∀ o, D o → NoCombine o ∧ ∃ a o', a ≠ .timeout ∧ AnswersWith cfg o a o' ∧ D o') (m : Nat) :
    ∀ {o : Obj} (w : World), (NoCombine o ∧ ∃ o', D o' ∧ Alike cfg o' o) →
      ∃ F, ∀ f, F ≤ f → some .timeout ∉ caughtOn cfg ok f m o w := by
  induction m with
  | zero => exact fun _ _ => ⟨0, fun _ _ => List.not_mem_nil⟩
  | succ m ih =>
    intro o w ⟨ho, o₁, h1, h2⟩
    obtain ⟨h3, a, o', ha, h4, h5⟩ := hD o₁ h1
    obtain ⟨F, h6⟩ := (h2 a o' ha).1 h4
    obtain ⟨v, e⟩ := h6 F le_rfl w
    obtain ⟨r, t, w', e'⟩ : ∃ r t w', egest cfg ok F (o, w) = (r, (t, w')) := ⟨_, _, _, rfl⟩
    have hr : r ≠ some .timeout := by
      rintro rfl
      have := (egest_tracks cfg ok F).some e'
      rw [e] at this
      simp only [Prod.mk.injEq] at this
      exact ha this.1
    have hnext : NoCombine t ∧ ∃ o', D o' ∧ Alike cfg o' t := by
      cases r with
      | none =>
        obtain ⟨n1, n2⟩ := egest_resumes cfg ok F _ _ _ _ ho e'
        exact ⟨n1, o₁, h1, h2.trans n2⟩
      | some b =>
        have := (egest_tracks cfg ok F).some e'
        rw [e] at this
        simp only [Prod.mk.injEq] at this
        obtain ⟨-, rfl, -⟩ := this
        exact ⟨(hD _ h5).1, o', h5, .refl _ _⟩
    obtain ⟨F', ih⟩ := ih w' hnext
    refine ⟨F + F', fun f hf => ?_⟩
    have e2 := egest_up cfg ok (show F ≤ f by omega) (o, w) (by rw [e']; exact hr)
    rw [e'] at e2
    rw [caughtOn, e2, List.mem_cons, not_or]
    exact ⟨fun h => hr h.symm, ih f (by omega)⟩

/-! ## Numbers made by `homographic` -/

theorem Homographic.prime_simple {eg : Steps.EgestFn} (hE : Blind NoCombine (fun _ => True) eg)
    (cfg : Cfg) (j : Nat) : Blind Homographic.Simple
      (fun r : Homographic.Primed => ∀ h, r.2.2.2 = some h → NoCombine h.x)
      (Steps.Homographic.prime cfg eg j) := by
  induction j with
  | zero => exact .timeout
  | succ j ih =>
    unfold Steps.Homographic.prime
    refine Steps.Homographic.println_blind.bind fun _ _ =>
      (Steps.Homographic.onK_blind _).bind fun a _ => ?_
    rcases a with _ | p
    · refine Blind.bind (R := fun _ => True) ?_ fun b _ => ?_
      · unfold Steps.Homographic.primeIngest
        refine (Steps.Homographic.onX_blind hE).bind fun a _ => ?_
        rcases a with _ | _ | _
        · have h : ∀ k : Coef4, Blind Steps.Homographic.Simple (fun _ => True)
              ((do
                let (num, den) ← Mut.eval (k.valueAtOneHalf cfg)
                let res ← Mut.eval (Clarith.Ratio.newI cfg num den)
                pure (some res)) : Mut (Steps.Homographic × World)
                  (Option (Option Special × Option Primer × Option Ratio))) := fun k =>
            (Blind.eval (R := fun _ => True) _ fun _ => trivial).bind fun a _ =>
              (Blind.eval (R := fun _ => True) _ fun _ => trivial).bind fun r _ => .pure trivial
          intro t ht w w₂
          exact h t.k t ht w w₂
        · exact (Steps.Homographic.onK_blind _).bind fun _ _ => .pure trivial
        · exact (Steps.Homographic.onK_blind _).bind fun _ _ => .pure trivial
      · rcases b with _ | ⟨s, p, q⟩
        · exact ih
        · exact .pure nofun
    · intro t ht w w₂
      refine ⟨rfl, rfl, ht, ?_⟩
      rintro _ ⟨⟩ _ ⟨⟩
      exact ht

/-- The values of `m` have `R`. -/
def Gives {σ α : Type} (R : α → Prop) (m : Mut σ α) : Prop := ∀ s a, (m s).1 = .ok a → R a

theorem Gives.bind {σ α β : Type} {R : α → Prop} {S : β → Prop} {m : Mut σ α} {g : α → Mut σ β}
    (h : Gives R m) (hg : ∀ a, R a → Gives S (g a)) : Gives S (m >>= g) := by
  intro s b hb
  have e : (m >>= g) s = Mut.bind m g s := rfl
  rw [e, Mut.bind] at hb
  have h' := h s
  revert hb h'
  generalize m s = r
  obtain ⟨r, t⟩ := r
  intro hb h'
  cases r with
  | ok a => exact hg a (h' a rfl) t b hb
  | panic p => cases hb
  | shared => cases hb
  | timeout => cases hb

theorem Gives.pure {σ α : Type} {R : α → Prop} {a : α} (h : R a) :
    Gives R (Pure.pure a : Mut σ α) := by
  rintro s _ ⟨⟩
  exact h

theorem Gives.all {σ α : Type} (m : Mut σ α) : Gives (fun _ => True) m := fun _ _ _ => trivial

theorem Number.ratio_noCombine (cfg : Cfg) (num den : Int) :
    Gives NoCombineNumber (Steps.Number.ratio cfg num den) := by
  unfold Steps.Number.ratio Steps.Number.ratioU
  refine (Gives.all _).bind fun a _ => (Gives.all _).bind fun b _ => (Gives.all _).bind fun c _ => ?_
  obtain ⟨_ | _, p, _ | _⟩ := c
  · rintro _ _ ⟨⟩
  all_goals exact .pure trivial

theorem Number.homographic_noCombine (cfg : Cfg) (f : Nat) {x : Steps.Number} (nx n dx d : Int)
    (hx : NoCombineNumber x) :
    Gives NoCombineNumber (Steps.Number.homographic cfg f x nx n dx d) := by
  have hr : ∀ n d, Gives (fun r : Steps.Homographic.Primed => ∀ h, r.2.2.2 = some h → NoCombine h.x)
      (Steps.Homographic.asRatio cfg n d) := fun n d => (Gives.all _).bind fun _ _ => .pure nofun
  unfold Steps.Number.homographic
  refine Gives.bind (R := fun r : Steps.Homographic.Primed =>
    ∀ h, r.2.2.2 = some h → NoCombine h.x) ?_ fun r h => ?_
  · unfold Steps.Homographic.new
    split_ifs
    · exact hr _ _
    · rcases x with (_ | _ | _) | ⟨p, c⟩
      · exact (Gives.all _).bind fun _ _ => (Gives.all _).bind fun _ _ => hr _ _
      · exact hr _ _
      · exact (Gives.all _).bind fun _ _ => (Gives.all _).bind fun _ _ => hr _ _
      · refine (Gives.all _).bind fun k _ => fun w a e => ?_
        exact (Homographic.prime_simple (egest_blind cfg f) cfg f ⟨c, k⟩ hx w w).2.2.2 a e
  · obtain ⟨_ | _, p, _ | _, _ | h'⟩ := r
    · rintro _ _ ⟨⟩
    · exact .pure (h _ rfl)
    all_goals exact .pure trivial

end Stdout

end Clarith.Steps
