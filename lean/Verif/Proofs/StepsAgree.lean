import Verif.SpecSession
import Verif.Proofs.Release
import Verif.Proofs.Wider

/-! # Two builds do the same, statement by statement

The first build either stops with a panic of a chosen kind, or the second build does the same and
leaves everything in the same state. -/

namespace Clarith

/-- The second outcome is the first one, unless that is a panic in `P`. -/
def Out.Near (P : Panic → Prop) {α : Type} (a b : Out α) : Prop :=
  (∃ p, P p ∧ a = .panic p) ∨ a = b

namespace Out.Near

variable {P : Panic → Prop}

theorem refl {α : Type} (a : Out α) : Near P a a := .inr rfl

theorem bind {α β : Type} {a a' : Out α} {g g' : α → Out β} (h : Near P a a')
    (hg : ∀ x, Near P (g x) (g' x)) : Near P (a >>= g) (a' >>= g') := by
  rcases h with ⟨p, hp, rfl⟩ | rfl
  · exact .inl ⟨p, hp, rfl⟩
  · cases a with
    | ok x => exact hg x
    | panic p => exact .inr rfl
    | timeout => exact .inr rfl

theorem andB {a a' b b' : Out Bool} (h : Near P a a') (h' : Near P b b') :
    Near P (Out.and a b) (Out.and a' b') := by
  refine bind h fun x => ?_
  cases x
  · exact .refl _
  · exact h'

theorem notB {a a' : Out Bool} (h : Near P a a') : Near P (Out.not a) (Out.not a') :=
  bind h fun _ => .refl _

theorem of_follows {α : Type} {a b : Out α} (h : Out.Follows a b) :
    Near (· = .arithOverflow) a b := by
  rcases h with h | h
  · exact .inl ⟨_, rfl, h⟩
  · exact .inr h

theorem of_widens {α : Type} {a b : Out α} (h : Out.Widens a b) : Near Overflow a b := h

end Out.Near

/-- Everything that the two models share, except for `consume`. -/
structure Cfg.Near (P : Panic → Prop) (cfg cfg' : Cfg) : Prop where
  neg : ∀ x, Out.Near P (cfg.neg x) (cfg'.neg x)
  umul : ∀ x y, Out.Near P (cfg.umul x y) (cfg'.umul x y)
  usub : ∀ x y, Out.Near P (cfg.usub x y) (cfg'.usub x y)
  cadd : ∀ x y, Out.Near P (cfg.cadd x y) (cfg'.cadd x y)
  csub : ∀ x y, Out.Near P (cfg.csub x y) (cfg'.csub x y)
  cmul : ∀ x y, Out.Near P (cfg.cmul x y) (cfg'.cmul x y)
  magnitude : ∀ z, cfg.Fits z → Out.Near P (Ratio.magnitude cfg z) (Ratio.magnitude cfg' z)
  newI : ∀ n d, cfg.Fits n → cfg.Fits d →
    Out.Near P (Ratio.newI cfg n d) (Ratio.newI cfg' n d)
  isSpecial : ∀ n d, Out.Near P (Support.isSpecial cfg n d) (Support.isSpecial cfg' n d)
  greaterThanMinusOne : ∀ n d,
    Out.Near P (Support.greaterThanMinusOne cfg n d) (Support.greaterThanMinusOne cfg' n d)
  lessThanMinusOne : ∀ n d,
    Out.Near P (Support.lessThanMinusOne cfg n d) (Support.lessThanMinusOne cfg' n d)
  equalToOneHalf : ∀ n d,
    Out.Near P (Support.equalToOneHalf cfg n d) (Support.equalToOneHalf cfg' n d)
  greaterThanOneHalf : ∀ n d,
    Out.Near P (Support.greaterThanOneHalf cfg n d) (Support.greaterThanOneHalf cfg' n d)
  lessThanOneHalf : ∀ n d,
    Out.Near P (Support.lessThanOneHalf cfg n d) (Support.lessThanOneHalf cfg' n d)
  extremes4 : ∀ k : Coef4, Out.Near P (k.imageExtremes cfg) (k.imageExtremes cfg')
  outside4 : ∀ k : Coef4, Out.Near P (k.areSingularitiesOutsideDomain cfg)
    (k.areSingularitiesOutsideDomain cfg')
  half4 : ∀ k : Coef4, Out.Near P (k.valueAtOneHalf cfg) (k.valueAtOneHalf cfg')
  absorb : ∀ p k, Out.Near P (Homographic.absorbPrimer cfg p k) (Homographic.absorbPrimer cfg' p k)
  extremes8 : ∀ k : Coef8, Out.Near P (k.imageExtremes cfg) (k.imageExtremes cfg')
  outside8 : ∀ k : Coef8, Out.Near P (k.areSingularitiesOutsideDomain cfg)
    (k.areSingularitiesOutsideDomain cfg')
  endOfX : ∀ k : Coef8, Out.Near P (k.valueAtEndOfX cfg) (k.valueAtEndOfX cfg')
  endOfY : ∀ k : Coef8, Out.Near P (k.valueAtEndOfY cfg) (k.valueAtEndOfY cfg')
  absorbX : ∀ p (k : Coef8), Out.Near P (k.absorbPrimerX cfg p) (k.absorbPrimerX cfg' p)
  absorbY : ∀ p (k : Coef8), Out.Near P (k.absorbPrimerY cfg p) (k.absorbPrimerY cfg' p)

/-- What `consume` needs besides. -/
structure Cfg.NearConsume (P : Panic → Prop) (cfg cfg' : Cfg) : Prop where
  ingest : ∀ r k, Out.Near P (Consume.ingest cfg r k) (Consume.ingest cfg' r k)
  isStateUnsafe : ∀ k, Out.Near P (Consume.isStateUnsafe cfg k) (Consume.isStateUnsafe cfg' k)
  start : ∀ p, Out.Near P (Consume.start cfg p) (Consume.start cfg' p)

open Out.Near in
theorem Cfg.near_release (cfg : Cfg) : cfg.Near (· = .arithOverflow) cfg.release where
  neg x := of_follows (cfg.neg_follows x)
  umul x y := of_follows (cfg.umul_follows x y)
  usub x y := of_follows (cfg.usub_follows x y)
  cadd _ _ := .inr rfl
  csub _ _ := .inr rfl
  cmul _ _ := .inr rfl
  magnitude z _ := of_follows (Ratio.magnitude_follows z)
  newI n d _ _ := of_follows (Ratio.newI_follows n d)
  isSpecial n d := of_follows (Support.isSpecial_follows n d)
  greaterThanMinusOne n d := of_follows (Support.greaterThanMinusOne_follows n d)
  lessThanMinusOne n d := of_follows (Support.lessThanMinusOne_follows n d)
  equalToOneHalf _ _ := .inr rfl
  greaterThanOneHalf _ _ := .inr rfl
  lessThanOneHalf _ _ := .inr rfl
  extremes4 k := of_follows (Coef4.imageExtremes_follows k)
  outside4 _ := .inr rfl
  half4 _ := .inr rfl
  absorb p k := of_follows (Homographic.absorbPrimer_follows p k)
  extremes8 k := of_follows (Coef8.imageExtremes_follows k)
  outside8 _ := .inr rfl
  endOfX _ := .inr rfl
  endOfY _ := .inr rfl
  absorbX p k := of_follows (Coef8.absorbPrimerX_follows p k)
  absorbY p k := of_follows (Coef8.absorbPrimerY_follows p k)

open Out.Near in
theorem Cfg.nearConsume_release (cfg : Cfg) : cfg.NearConsume (· = .arithOverflow) cfg.release where
  ingest r k := of_follows (Consume.ingest_follows r k)
  isStateUnsafe k := of_follows (Consume.isStateUnsafe_follows k)
  start p := of_follows (Consume.start_follows p)

open Out.Near in
theorem Cfg.Wider.near {cfg cfg' : Cfg} (w : cfg.Wider cfg') : cfg.Near Overflow cfg' where
  neg x := of_widens (w.neg x)
  umul x y := of_widens (w.umul x y)
  usub x y := of_widens (w.usub x y)
  cadd x y := of_widens (w.cadd x y)
  csub x y := of_widens (w.csub x y)
  cmul x y := of_widens (w.cmul x y)
  magnitude _ h := of_widens (Ratio.magnitude_widens w h)
  newI _ _ h h' := of_widens (Ratio.newI_widens w h h')
  isSpecial n d := of_widens (Support.isSpecial_widens w n d)
  greaterThanMinusOne n d := of_widens (Support.greaterThanMinusOne_widens w n d)
  lessThanMinusOne n d := of_widens (Support.lessThanMinusOne_widens w n d)
  equalToOneHalf n d := of_widens (Support.equalToOneHalf_widens w n d)
  greaterThanOneHalf n d := of_widens (Support.greaterThanOneHalf_widens w n d)
  lessThanOneHalf n d := of_widens (Support.lessThanOneHalf_widens w n d)
  extremes4 k := of_widens (Coef4.imageExtremes_widens w k)
  outside4 k := of_widens (Coef4.areSingularitiesOutsideDomain_widens w k)
  half4 k := of_widens (Coef4.valueAtOneHalf_widens w k)
  absorb p k := of_widens (Homographic.absorbPrimer_widens w p k)
  extremes8 k := of_widens (Coef8.imageExtremes_widens w k)
  outside8 k := of_widens (Coef8.areSingularitiesOutsideDomain_widens w k)
  endOfX k := of_widens (Coef8.valueAtEndOfX_widens w k)
  endOfY k := of_widens (Coef8.valueAtEndOfY_widens w k)
  absorbX p k := of_widens (Coef8.absorbPrimerX_widens w p k)
  absorbY p k := of_widens (Coef8.absorbPrimerY_widens w p k)

namespace Steps

open Mut

/-- The second piece of code does what the first does, to the state too, unless the first panics
with a panic in `P`. -/
def Agrees (P : Panic → Prop) {σ α : Type} (m m' : Mut σ α) : Prop :=
  ∀ s, (∃ p, P p ∧ (m s).1 = .panic p) ∨ m s = m' s

namespace Agrees

variable {P : Panic → Prop}

theorem refl {σ α : Type} (m : Mut σ α) : Agrees P m m := fun _ => .inr rfl

theorem bind_ok {σ α β : Type} {m m' : Mut σ α} {g g' : α → Mut σ β} (h : Agrees P m m')
    (hg : ∀ s a, (m s).1 = .ok a → Agrees P (g a) (g' a)) : Agrees P (m >>= g) (m' >>= g') := by
  intro s
  show (∃ p, P p ∧ (Mut.bind m g s).1 = _) ∨ Mut.bind m g s = Mut.bind m' g' s
  unfold Mut.bind
  rcases h s with ⟨p, hp, h⟩ | h
  · rcases hm : m s with ⟨r, t⟩
    rw [hm] at h
    simp only at h
    subst h
    exact .inl ⟨p, hp, rfl⟩
  · rw [← h]
    rcases hm : m s with ⟨_ | _ | _ | _, t⟩
    · exact hg s _ (by rw [hm]) t
    · exact .inr rfl
    · exact .inr rfl
    · exact .inr rfl

theorem bind {σ α β : Type} {m m' : Mut σ α} {g g' : α → Mut σ β} (h : Agrees P m m')
    (hg : ∀ a, Agrees P (g a) (g' a)) : Agrees P (m >>= g) (m' >>= g') :=
  h.bind_ok fun _ a _ => hg a

theorem eval {σ α : Type} {o o' : Out α} (h : Out.Near P o o') :
    Agrees P (Mut.eval o : Mut σ α) (Mut.eval o') := by
  intro s
  rcases h with ⟨p, hp, rfl⟩ | rfl
  · exact .inl ⟨p, hp, rfl⟩
  · exact .inr rfl

theorem eval_bind {σ α β : Type} {o o' : Out α} {g g' : α → Mut σ β} (h : Out.Near P o o')
    (hg : ∀ a, o = .ok a → Agrees P (g a) (g' a)) :
    Agrees P (Mut.eval o >>= g) (Mut.eval o' >>= g') := by
  refine (eval h).bind_ok fun s a ha => hg a ?_
  cases o with
  | ok b => cases ha; rfl
  | panic p => cases ha
  | timeout => cases ha

theorem ite {σ α : Type} {c : Prop} [Decidable c] {m m' n n' : Mut σ α} (h : Agrees P m m')
    (h' : Agrees P n n') : Agrees P (if c then m else n) (if c then m' else n') := by
  split
  · exact h
  · exact h'

theorem part {σ τ α : Type} (get : σ → τ) (put : τ → σ → σ) {m m' : Mut τ α}
    (h : Agrees P m m') : Agrees P (Mut.part get put m) (Mut.part get put m') := by
  intro s
  rcases h (get s) with ⟨p, hp, h⟩ | h
  · exact .inl ⟨p, hp, h⟩
  · refine .inr ?_
    unfold Mut.part
    rw [h]

theorem owned {σ α : Type} (s : σ) {m m' : Mut (σ × World) α} (h : Agrees P m m') :
    Agrees P (Homographic.owned s m) (Homographic.owned s m') := by
  intro w
  rcases h (s, w) with ⟨p, hp, h⟩ | h
  · exact .inl ⟨p, hp, h⟩
  · refine .inr ?_
    unfold Homographic.owned
    rw [h]

theorem getMut {α : Type} (i : Nat) {m m' : Mut (Obj × World) α} (h : Agrees P m m') :
    Agrees P (rcGetMut i m) (rcGetMut i m') := by
  intro w
  unfold rcGetMut
  split
  · rename_i o ho
    rcases h (o, w) with ⟨p, hp, h⟩ | h
    · exact .inl ⟨p, hp, h⟩
    · refine .inr ?_
      rw [h]
  · exact .inr rfl

end Agrees

/-- Goes through statements; `w` is the hypothesis on the two builds. -/
macro "agree " w:term : tactic => `(tactic|
  repeat' with_reducible first
    | exact Agrees.refl _
    | assumption
    | exact Agrees.eval (Cfg.Near.neg $w _)
    | exact Agrees.eval (Cfg.Near.umul $w _ _)
    | exact Agrees.eval (Cfg.Near.usub $w _ _)
    | exact Agrees.eval (Cfg.Near.cadd $w _ _)
    | exact Agrees.eval (Cfg.Near.csub $w _ _)
    | exact Agrees.eval (Cfg.Near.cmul $w _ _)
    | exact Agrees.eval (Cfg.Near.isSpecial $w _ _)
    | exact Agrees.eval (Cfg.Near.greaterThanMinusOne $w _ _)
    | exact Agrees.eval (Cfg.Near.lessThanMinusOne $w _ _)
    | exact Agrees.eval (Cfg.Near.greaterThanOneHalf $w _ _)
    | exact Agrees.eval (Cfg.Near.lessThanOneHalf $w _ _)
    | (refine Agrees.bind (Agrees.eval (Cfg.Near.extremes4 $w _)) ?_; rintro ⟨_, _, _, _⟩)
    | (refine Agrees.bind (Agrees.eval (Cfg.Near.extremes8 $w _)) ?_; rintro ⟨_, _, _, _⟩)
    | exact Agrees.eval (Cfg.Near.outside4 $w _)
    | exact Agrees.eval (Cfg.Near.outside8 $w _)
    | exact Agrees.eval (Out.Near.andB (.refl _) (Cfg.Near.isSpecial $w _ _))
    | exact Agrees.eval (Out.Near.andB (Out.Near.notB (Cfg.Near.lessThanMinusOne $w _ _)) (.refl _))
    | exact Agrees.eval (Out.Near.andB (Cfg.Near.greaterThanMinusOne $w _ _) (.refl _))
    | exact Agrees.eval (Out.Near.andB (Cfg.Near.equalToOneHalf $w _ _)
        (Cfg.Near.equalToOneHalf $w _ _))
    | refine Agrees.bind ?_ ?_
    | refine Agrees.ite ?_ ?_
    | intro _)

section

variable {P : Panic → Prop} {cfg cfg' : Cfg} (w : cfg.Near P cfg')
include w

theorem Ratio.egest_agrees : Agrees P (Ratio.egest cfg) (Ratio.egest cfg') := by
  unfold Ratio.egest
  agree w

namespace Coef4

theorem ingestAmplify_agrees : Agrees P (ingestAmplify cfg) (ingestAmplify cfg') := by
  unfold ingestAmplify
  agree w

theorem ingestUncover_agrees : Agrees P (ingestUncover cfg) (ingestUncover cfg') := by
  unfold ingestUncover
  agree w

theorem primerEgest_agrees : Agrees P (primerEgest cfg) (primerEgest cfg') := by
  unfold primerEgest ground reflect
  agree w

theorem reductionEgest_agrees : Agrees P (reductionEgest cfg) (reductionEgest cfg') := by
  unfold reductionEgest amplify uncover
  agree w

theorem primerAttempt_agrees : Agrees P (primerAttempt cfg) (primerAttempt cfg') := by
  have := primerEgest_agrees w
  unfold primerAttempt
  agree w

theorem reductionAttempt_agrees : Agrees P (reductionAttempt cfg) (reductionAttempt cfg') := by
  have := reductionEgest_agrees w
  unfold reductionAttempt
  agree w

end Coef4

namespace Coef8

theorem primerEgest_agrees : Agrees P (primerEgest cfg) (primerEgest cfg') := by
  unfold primerEgest ground reflect
  agree w

theorem reductionEgest_agrees : Agrees P (reductionEgest cfg) (reductionEgest cfg') := by
  unfold reductionEgest amplify uncover shift
  agree w

theorem primerAttempt_agrees : Agrees P (primerAttempt cfg) (primerAttempt cfg') := by
  have := primerEgest_agrees w
  unfold primerAttempt
  agree w

theorem reductionAttempt_agrees : Agrees P (reductionAttempt cfg) (reductionAttempt cfg') := by
  have := reductionEgest_agrees w
  unfold reductionAttempt
  agree w

theorem ingestX_agrees (r : Reduction) : Agrees P (ingestX cfg r) (ingestX cfg' r) := by
  cases r
  · show Agrees P (amplifyX cfg) (amplifyX cfg')
    unfold amplifyX
    agree w
  · show Agrees P (turnX >>= fun _ => shiftX cfg) (turnX >>= fun _ => shiftX cfg')
    unfold shiftX
    agree w

theorem ingestY_agrees (r : Reduction) : Agrees P (ingestY cfg r) (ingestY cfg' r) := by
  cases r
  · show Agrees P (amplifyY cfg) (amplifyY cfg')
    unfold amplifyY
    agree w
  · show Agrees P (turnY >>= fun _ => shiftY cfg) (turnY >>= fun _ => shiftY cfg')
    unfold shiftY
    agree w

end Coef8

variable {eg eg' : EgestFn} (he : Agrees P eg eg')

namespace Homographic

include he

theorem primeIngest_agrees : Agrees P (primeIngest cfg eg) (primeIngest cfg' eg') := by
  refine Agrees.bind (Agrees.part _ _ he) ?_
  rintro (_ | _ | _)
  · refine Agrees.bind (.refl _) fun s => Agrees.eval_bind (w.half4 _) ?_
    rintro ⟨n, d⟩ h
    obtain ⟨f1, f2⟩ := Clarith.Coef4.valueAtOneHalf_fits h
    exact Agrees.bind (Agrees.eval (w.newI _ _ f1 f2)) fun _ => .refl _
  · exact Agrees.bind (Agrees.part _ _ (Coef4.ingestAmplify_agrees w)) fun _ => .refl _
  · exact Agrees.bind (Agrees.part _ _ (Coef4.ingestUncover_agrees w)) fun _ => .refl _

theorem reductionIngest_agrees :
    Agrees P (reductionIngest cfg eg) (reductionIngest cfg' eg') := by
  refine Agrees.bind (Agrees.part _ _ he) ?_
  rintro (_ | _ | _)
  · refine Agrees.bind (.refl _) fun s => Agrees.eval_bind (w.half4 _) ?_
    rintro ⟨n, d⟩ h
    obtain ⟨f1, f2⟩ := Clarith.Coef4.valueAtOneHalf_fits h
    exact Agrees.bind (Agrees.eval (w.newI _ _ f1 f2)) fun _ => .refl _
  · exact Agrees.bind (Agrees.part _ _ (Coef4.ingestAmplify_agrees w)) fun _ => .refl _
  · exact Agrees.bind (Agrees.part _ _ (Coef4.ingestUncover_agrees w)) fun _ => .refl _

theorem prime_agrees (f : Nat) : Agrees P (prime cfg eg f) (prime cfg' eg' f) := by
  induction f with
  | zero => exact .refl _
  | succ f ih =>
    refine Agrees.bind (.refl _) fun _ =>
      Agrees.bind (Agrees.part _ _ (Coef4.primerAttempt_agrees w)) ?_
    rintro (_ | p)
    · refine Agrees.bind (primeIngest_agrees w he) ?_
      rintro (_ | r)
      · exact ih
      · exact .refl _
    · exact .refl _

theorem egest_agrees (f : Nat) : Agrees P (egest cfg eg f) (egest cfg' eg' f) := by
  induction f with
  | zero => exact .refl _
  | succ f ih =>
    refine Agrees.bind (.refl _) fun _ =>
      Agrees.bind (Agrees.part _ _ (Coef4.reductionAttempt_agrees w)) ?_
    rintro (_ | p)
    · refine Agrees.bind (reductionIngest_agrees w he) ?_
      rintro (_ | r)
      · exact ih
      · exact .refl _
    · exact .refl _

omit he in
theorem asRatio_agrees {n d : Int} (hn : cfg.Fits n) (hd : cfg.Fits d) :
    Agrees P (asRatio cfg n d) (asRatio cfg' n d) :=
  Agrees.bind (Agrees.eval (w.newI _ _ hn hd)) fun _ => .refl _

theorem new_agrees (f : Nat) (x : Number) (nx : Int) {n : Int} (dx : Int) {d : Int}
    (hn : cfg.Fits n) (hd : cfg.Fits d) :
    Agrees P (new cfg eg f x nx n dx d) (new cfg' eg' f x nx n dx d) := by
  unfold new
  refine Agrees.ite (asRatio_agrees w hn hd) ?_
  rcases x with (_ | _ | _) | ⟨p, c⟩
  · exact Agrees.eval_bind (w.csub ..) fun _ h1 => Agrees.eval_bind (w.csub ..) fun _ h2 =>
      asRatio_agrees w (Cfg.checked_fits h1) (Cfg.checked_fits h2)
  · exact asRatio_agrees w hn hd
  · exact Agrees.eval_bind (w.cadd ..) fun _ h1 => Agrees.eval_bind (w.cadd ..) fun _ h2 =>
      asRatio_agrees w (Cfg.checked_fits h1) (Cfg.checked_fits h2)
  · exact Agrees.bind (Agrees.eval (w.absorb ..)) fun _ => Agrees.owned _ (prime_agrees w he f)

end Homographic

namespace Combine

include he

theorem primeIngest_agrees (f : Nat) :
    Agrees P (primeIngest cfg eg f) (primeIngest cfg' eg' f) := by
  refine Agrees.bind (.refl _) fun s => Agrees.bind (Agrees.part _ _ (Agrees.getMut _ he)) ?_
  rintro (_ | r)
  · refine Agrees.bind (.refl _) fun s => Agrees.eval_bind (w.endOfX _) fun k hk => ?_
    obtain ⟨f1, f2⟩ := Clarith.Coef8.valueAtEndOfX_fits hk
    exact Agrees.bind (.refl _) fun y =>
      Agrees.bind (Agrees.part _ _ (Homographic.new_agrees w he _ _ _ _ f1 f2)) fun _ => .refl _
  · refine Agrees.bind (Agrees.part _ _ (Coef8.ingestX_agrees w r)) fun _ =>
      Agrees.bind (.refl _) fun s => Agrees.bind (Agrees.part _ _ (Agrees.getMut _ he)) ?_
    rintro (_ | r)
    · refine Agrees.bind (.refl _) fun s => Agrees.eval_bind (w.endOfY _) fun k hk => ?_
      obtain ⟨f1, f2⟩ := Clarith.Coef8.valueAtEndOfY_fits hk
      exact Agrees.bind (.refl _) fun y =>
        Agrees.bind (Agrees.part _ _ (Homographic.new_agrees w he _ _ _ _ f1 f2)) fun _ => .refl _
    · exact Agrees.bind (Agrees.part _ _ (Coef8.ingestY_agrees w r)) fun _ => .refl _

theorem prime_agrees (f : Nat) : Agrees P (prime cfg eg f) (prime cfg' eg' f) := by
  induction f with
  | zero => exact .refl _
  | succ f ih =>
    refine Agrees.bind (Agrees.part _ _ (Coef8.primerAttempt_agrees w)) ?_
    rintro (_ | p)
    · refine Agrees.bind (primeIngest_agrees w he f) ?_
      rintro (_ | r)
      · exact ih
      · exact .refl _
    · exact .refl _

theorem reductionIngest_agrees (f : Nat) :
    Agrees P (reductionIngest cfg eg f) (reductionIngest cfg' eg' f) := by
  refine Agrees.bind (.refl _) fun s => Agrees.bind (Agrees.part _ _ (Agrees.getMut _ he)) ?_
  rintro (_ | r)
  · refine Agrees.bind (.refl _) fun s => Agrees.eval_bind (w.endOfX _) fun k hk => ?_
    obtain ⟨f1, f2⟩ := Clarith.Coef8.valueAtEndOfX_fits hk
    exact Agrees.bind (.refl _) fun y =>
      Agrees.bind (Agrees.part _ _ (Homographic.new_agrees w he _ _ _ _ f1 f2)) fun _ => .refl _
  · refine Agrees.bind (Agrees.part _ _ (Coef8.ingestX_agrees w r)) fun _ =>
      Agrees.bind (.refl _) fun s => Agrees.bind (Agrees.part _ _ (Agrees.getMut _ he)) ?_
    rintro (_ | r)
    · refine Agrees.bind (.refl _) fun s => Agrees.eval_bind (w.endOfY _) fun k hk => ?_
      obtain ⟨f1, f2⟩ := Clarith.Coef8.valueAtEndOfY_fits hk
      exact Agrees.bind (.refl _) fun y =>
        Agrees.bind (Agrees.part _ _ (Homographic.new_agrees w he _ _ _ _ f1 f2)) fun _ => .refl _
    · exact Agrees.bind (Agrees.part _ _ (Coef8.ingestY_agrees w r)) fun _ => .refl _

theorem egest_agrees (f : Nat) : Agrees P (egest cfg eg f) (egest cfg' eg' f) := by
  induction f with
  | zero => exact .refl _
  | succ f ih =>
    refine Agrees.bind (Agrees.part _ _ (Coef8.reductionAttempt_agrees w)) ?_
    rintro (_ | p)
    · refine Agrees.bind (reductionIngest_agrees w he f) ?_
      rintro ⟨_ | r, _ | h⟩
      · exact ih
      · exact .refl _
      · exact .refl _
      · exact .refl _
    · exact .refl _

theorem asHomographic_agrees (f : Nat) (x : Number) (nx : Int) {n : Int} (dx : Int) {d : Int}
    (hn : cfg.Fits n) (hd : cfg.Fits d) :
    Agrees P (asHomographic cfg eg f x nx n dx d) (asHomographic cfg' eg' f x nx n dx d) :=
  Agrees.bind (Homographic.new_agrees w he f x nx dx hn hd) fun _ => .refl _

theorem new_agrees (f : Nat) (x y : Number) (k : Coef8) (hd : cfg.Fits k.d) (hh : cfg.Fits k.h) :
    Agrees P (new cfg eg f x y k) (new cfg' eg' f x y k) := by
  have minus : ∀ (z : Number) (a b c d e g h i : Int), Agrees P
      (do let nx ← Mut.eval (cfg.csub a b); let n ← Mut.eval (cfg.csub c d)
          let dx ← Mut.eval (cfg.csub e g); let d ← Mut.eval (cfg.csub h i)
          asHomographic cfg eg f z nx n dx d)
      (do let nx ← Mut.eval (cfg'.csub a b); let n ← Mut.eval (cfg'.csub c d)
          let dx ← Mut.eval (cfg'.csub e g); let d ← Mut.eval (cfg'.csub h i)
          asHomographic cfg' eg' f z nx n dx d) :=
    fun z a b c d e g h i => Agrees.bind (Agrees.eval (w.csub ..)) fun _ =>
      Agrees.eval_bind (w.csub ..) fun _ h1 => Agrees.bind (Agrees.eval (w.csub ..)) fun _ =>
      Agrees.eval_bind (w.csub ..) fun _ h2 =>
      asHomographic_agrees w he _ _ _ _ (Cfg.checked_fits h1) (Cfg.checked_fits h2)
  have plus : ∀ (z : Number) (a b c d e g h i : Int), Agrees P
      (do let nx ← Mut.eval (cfg.cadd a b); let n ← Mut.eval (cfg.cadd c d)
          let dx ← Mut.eval (cfg.cadd e g); let d ← Mut.eval (cfg.cadd h i)
          asHomographic cfg eg f z nx n dx d)
      (do let nx ← Mut.eval (cfg'.cadd a b); let n ← Mut.eval (cfg'.cadd c d)
          let dx ← Mut.eval (cfg'.cadd e g); let d ← Mut.eval (cfg'.cadd h i)
          asHomographic cfg' eg' f z nx n dx d) :=
    fun z a b c d e g h i => Agrees.bind (Agrees.eval (w.cadd ..)) fun _ =>
      Agrees.eval_bind (w.cadd ..) fun _ h1 => Agrees.bind (Agrees.eval (w.cadd ..)) fun _ =>
      Agrees.eval_bind (w.cadd ..) fun _ h2 =>
      asHomographic_agrees w he _ _ _ _ (Cfg.checked_fits h1) (Cfg.checked_fits h2)
  rcases x with (_ | _ | _) | ⟨p, c⟩
  · exact minus _ _ _ _ _ _ _ _ _
  · exact asHomographic_agrees w he _ _ _ _ hd hh
  · exact plus _ _ _ _ _ _ _ _ _
  · rcases y with (_ | _ | _) | ⟨p', c'⟩
    · exact minus _ _ _ _ _ _ _ _ _
    · exact asHomographic_agrees w he _ _ _ _ hd hh
    · exact plus _ _ _ _ _ _ _ _ _
    · exact Agrees.bind (Agrees.eval (w.absorbX ..)) fun _ =>
        Agrees.bind (Agrees.eval (w.absorbY ..)) fun _ => Agrees.bind (.refl _) fun _ =>
        Agrees.bind (.refl _) fun _ => Agrees.owned _ (prime_agrees w he f)

end Combine

include he in
theorem strategyEgest_agrees (f : Nat) :
    Agrees P (strategyEgest cfg eg f) (strategyEgest cfg' eg' f) := by
  rintro ⟨r | ⟨x, k⟩ | ⟨x, y, k⟩, v⟩
  · unfold strategyEgest
    rcases Ratio.egest_agrees w r with ⟨p, hp, h⟩ | h
    · refine .inl ⟨p, hp, ?_⟩
      rcases hr : Ratio.egest cfg r with ⟨o, t⟩
      rw [hr] at h
      simp only at h
      subst h
      simp only [hr]
    · refine .inr ?_
      simp only [h]
  · unfold strategyEgest
    rcases Homographic.egest_agrees w he f (⟨x, k⟩, v) with ⟨p, hp, h⟩ | h
    · exact .inl ⟨p, hp, h⟩
    · refine .inr ?_
      simp only [h]
  · unfold strategyEgest
    rcases Combine.egest_agrees w he f (⟨x, y, k⟩, v) with ⟨p, hp, h⟩ | h
    · exact .inl ⟨p, hp, h⟩
    · refine .inr ?_
      simp only [h]

theorem egest_agrees (f : Nat) : Agrees P (egest cfg f) (egest cfg' f) := by
  induction f with
  | zero => exact .refl _
  | succ f ih =>
    refine Agrees.bind (strategyEgest_agrees w ih f) ?_
    rintro (r | s)
    · exact .refl _
    · exact Agrees.bind (.refl _) fun _ => ih

namespace Number

theorem ratio_agrees {n d : Int} (hn : cfg.Fits n) (hd : cfg.Fits d) :
    Agrees P (ratio cfg n d) (ratio cfg' n d) :=
  Agrees.bind (Agrees.eval (w.magnitude _ hn)) fun _ =>
    Agrees.bind (Agrees.eval (w.magnitude _ hd)) fun _ => .refl _

theorem homographic_agrees (f : Nat) (x : Number) (nx : Int) {n : Int} (dx : Int) {d : Int}
    (hn : cfg.Fits n) (hd : cfg.Fits d) :
    Agrees P (homographic cfg f x nx n dx d) (homographic cfg' f x nx n dx d) :=
  Agrees.bind (Homographic.new_agrees w (egest_agrees w f) f x nx dx hn hd) fun _ => .refl _

theorem combine_agrees (f : Nat) (x y : Number) (nxy nx ny : Int) {n : Int} (dxy dx dy : Int)
    {d : Int} (hn : cfg.Fits n) (hd : cfg.Fits d) :
    Agrees P (combine cfg f x y nxy nx ny n dxy dx dy d)
      (combine cfg' f x y nxy nx ny n dxy dx dy d) :=
  Agrees.bind (Combine.new_agrees w (egest_agrees w f) f x y _ hn hd) fun _ => .refl _

theorem compare_agrees (f : Nat) (x y : Number) :
    Agrees P (compare cfg f x y) (compare cfg' f x y) := by
  have loop : ∀ g b, Agrees P (Compare.compareClogs cfg (egest cfg f) g b)
      (Compare.compareClogs cfg' (egest cfg' f) g b) := by
    intro g
    induction g with
    | zero => exact fun _ => .refl _
    | succ g ih =>
      intro b
      refine Agrees.bind (Agrees.part _ _ (egest_agrees w f)) fun e1 =>
        Agrees.bind (Agrees.part _ _ (egest_agrees w f)) fun e2 => Agrees.ite (.refl _) ?_
      rcases e1 with _ | _ | _
      · exact .refl _
      · exact ih _
      · exact ih _
  cases x <;> cases y
  · exact .refl _
  · exact .refl _
  · exact .refl _
  · exact Agrees.bind (Agrees.owned _ (loop _ _)) fun _ => .refl _

theorem consume_agrees (v : cfg.NearConsume P cfg') (f : Nat) (x : Number) :
    Agrees P (consume cfg f x) (consume cfg' f x) := by
  have loop : ∀ g k, Agrees P (Consume.consume cfg (egest cfg f) g k)
      (Consume.consume cfg' (egest cfg' f) g k) := by
    intro g
    induction g with
    | zero => exact fun _ => .refl _
    | succ g ih =>
      intro k
      refine Agrees.bind (egest_agrees w f) ?_
      rintro (_ | r)
      · exact .refl _
      · refine Agrees.bind (Agrees.eval (v.ingest ..)) fun k =>
          Agrees.bind (Agrees.eval (v.isStateUnsafe _)) fun b => Agrees.ite (.refl _) (ih k)
  refine Agrees.bind ?_ fun _ => .refl _
  rcases x with (_ | _ | _) | ⟨p, c⟩
  · exact .refl _
  · exact .refl _
  · exact .refl _
  · exact Agrees.bind (Agrees.eval (v.start _)) fun _ => Agrees.owned _ (loop _ _)

end Number

end

namespace Caller

open Spec

theorem make_agrees {P : Panic → Prop} {m m' : Mut World Number} (h : Agrees P m m') :
    Agrees P (make m) (make m') :=
  Agrees.bind (Agrees.part _ _ h) fun _ => .refl _

section

variable {P : Panic → Prop} {cfg cfg' : Cfg} (w : cfg.Near P cfg')
include w

theorem egestAt_agrees (f x : Nat) : Agrees P (egestAt cfg f x) (egestAt cfg' f x) := by
  intro c
  unfold egestAt
  split
  · rename_i p o _
    rcases egest_agrees w f (o, c.world) with ⟨q, hq, h⟩ | h
    · exact .inl ⟨q, hq, by simp only [h]⟩
    · exact .inr (by simp only [h])
  · exact .inr rfl

theorem call_agrees (f : Nat) (a : Call) (hm : MachineCall cfg a)
    (hc : (∃ x, a = .consume x) → cfg.NearConsume P cfg') :
    Agrees P (call cfg f a) (call cfg' f a) := by
  cases a with
  | ratio n d => exact make_agrees (Number.ratio_agrees w (hm n (by simp)) (hm d (by simp)))
  | ratioU b n d => exact .refl _
  | homographic x nx n dx d =>
    refine Agrees.bind (.refl _) ?_
    rintro (_ | x)
    · exact .refl _
    · exact make_agrees (Number.homographic_agrees w f x nx dx (hm n (by simp)) (hm d (by simp)))
  | combine x y nxy nx ny n dxy dx dy d =>
    refine Agrees.bind (.refl _) ?_
    rintro (_ | x)
    · exact .refl _
    refine Agrees.bind (.refl _) ?_
    rintro (_ | y)
    · exact .refl _
    · exact make_agrees (Number.combine_agrees w f x y nxy nx ny dxy dx dy (hm n (by simp))
        (hm d (by simp)))
  | egest x => exact egestAt_agrees w f x
  | consume x =>
    refine Agrees.bind (.refl _) ?_
    rintro (_ | y)
    · exact .refl _
    · exact Agrees.bind (Agrees.part _ _ (Number.consume_agrees w (hc ⟨x, rfl⟩) f y))
        fun _ => .refl _
  | compare x y =>
    refine Agrees.bind (.refl _) ?_
    rintro (_ | x)
    · exact .refl _
    refine Agrees.bind (.refl _) ?_
    rintro (_ | y)
    · exact .refl _
    · exact Agrees.bind (Agrees.part _ _ (Number.compare_agrees w f x y)) fun _ => .refl _
  | special s => exact .refl _
  | reprime x p => exact .refl _
  | unwrapSpecial x => exact .refl _

theorem session_agrees (f : Nat) (calls : List Call) (hm : ∀ a ∈ calls, MachineCall cfg a)
    (hc : (∃ x, .consume x ∈ calls) → cfg.NearConsume P cfg') (c : Caller)
    (hp : ∀ p, P p → .panic p ∉ session cfg f calls c) :
    session cfg' f calls c = session cfg f calls c ∧ after cfg' f calls c = after cfg f calls c := by
  induction calls generalizing c with
  | nil => exact ⟨rfl, rfl⟩
  | cons a calls ih =>
    have ha := call_agrees w f a (hm a (by simp))
      (fun ⟨x, hx⟩ => hc ⟨x, by rw [hx]; simp⟩) c
    have hn : call cfg f a c = call cfg' f a c := by
      rcases ha with ⟨p, h, h'⟩ | h
      · refine absurd ?_ (hp p h)
        unfold session
        rcases hr : call cfg f a c with ⟨r, t⟩
        rw [hr] at h'
        simp only at h'
        subst h'
        simp
      · exact h
    have step : ∀ t, (∀ p, P p → .panic p ∉ session cfg f calls t) → _ := fun t ht =>
      ih (fun b hb => hm b (by simp [hb])) (fun ⟨x, hx⟩ => hc ⟨x, by simp [hx]⟩) t ht
    unfold session at hp ⊢
    unfold after
    rw [← hn]
    rcases hr : call cfg f a c with ⟨r, t⟩
    rw [hr] at hp
    rcases r with _ | _ | _ | _
    · obtain ⟨h1, h2⟩ := step t fun p h h' => hp p h (List.mem_cons_of_mem _ h')
      exact ⟨congrArg _ h1, h2⟩
    · obtain ⟨h1, h2⟩ := step t fun p h h' => hp p h (List.mem_cons_of_mem _ h')
      exact ⟨congrArg _ h1, h2⟩
    · obtain ⟨h1, h2⟩ := step t fun p h h' => hp p h (List.mem_cons_of_mem _ h')
      exact ⟨congrArg _ h1, h2⟩
    · exact ⟨rfl, rfl⟩

end

end Caller

end Steps

end Clarith
