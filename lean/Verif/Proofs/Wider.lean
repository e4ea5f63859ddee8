import Verif.Spec
import Verif.Proofs.Logic

/-! # A wider machine follows a narrower one

Every outcome of a build with overflow checks, other than an integer overflow, is the outcome of
every build for a machine with words at least as wide. -/

namespace Clarith

namespace Out

/-- The second outcome is the first one, unless that is an integer overflow. -/
def Widens {α : Type} (a b : Out α) : Prop := (∃ p, Overflow p ∧ a = .panic p) ∨ a = b

theorem Widens.refl {α : Type} (a : Out α) : Widens a a := .inr rfl

theorem Widens.of_eq {α : Type} {a b : Out α} (h : a = b) : Widens a b := .inr h

theorem Widens.bind_ok {α β : Type} {a a' : Out α} {g g' : α → Out β} (h : Widens a a')
    (hg : ∀ x, a = .ok x → Widens (g x) (g' x)) : Widens (a >>= g) (a' >>= g') := by
  rcases h with ⟨p, hp, rfl⟩ | rfl
  · exact .inl ⟨p, hp, rfl⟩
  · cases a with
    | ok x => exact hg x rfl
    | panic p => exact .inr rfl
    | timeout => exact .inr rfl

theorem Widens.bind {α β : Type} {a a' : Out α} {g g' : α → Out β} (h : Widens a a')
    (hg : ∀ x, Widens (g x) (g' x)) : Widens (a >>= g) (a' >>= g') :=
  h.bind_ok fun x _ => hg x

theorem Widens.ite {α : Type} {c : Prop} [Decidable c] {a a' b b' : Out α} (h : Widens a a')
    (h' : Widens b b') : Widens (if c then a else b) (if c then a' else b') := by
  split
  · exact h
  · exact h'

theorem Widens.andB {a a' b b' : Out Bool} (h : Widens a a') (h' : Widens b b') :
    Widens (Out.and a b) (Out.and a' b') :=
  Widens.bind h fun _ => Widens.ite h' (.refl _)

theorem Widens.notB {a a' : Out Bool} (h : Widens a a') : Widens (Out.not a) (Out.not a') :=
  Widens.bind h fun _ => .refl _

end Out

open Out

/-- `cfg'` has words at least as wide as `cfg`, and `cfg` checks for overflow. -/
structure Cfg.Wider (cfg cfg' : Cfg) : Prop where
  bits : cfg.bits ≤ cfg'.bits
  checks : cfg.overflowChecks = true

namespace Cfg.Wider

variable {cfg cfg' : Cfg} (w : Cfg.Wider cfg cfg')
include w

theorem fits {z : Int} (h : cfg.Fits z) : cfg'.Fits z := by
  have h1 : (2 : Int) ^ (cfg.bits - 1) ≤ 2 ^ (cfg'.bits - 1) :=
    pow_le_pow_right₀ (by norm_num) (Nat.sub_le_sub_right w.bits 1)
  obtain ⟨a, b⟩ := h
  simp only [Cfg.imin, Cfg.imax] at a b
  constructor <;> simp only [Cfg.imin, Cfg.imax] <;> omega

theorem umax_le : cfg.umax ≤ cfg'.umax := by
  have h1 : (2 : Nat) ^ cfg.bits ≤ 2 ^ cfg'.bits := Nat.pow_le_pow_right (by norm_num) w.bits
  simp only [Cfg.umax]; omega

theorem checked (z : Int) : Widens (cfg.checked z) (cfg'.checked z) := by
  unfold Cfg.checked
  by_cases h : cfg.Fits z
  · simp only [if_pos h, if_pos (w.fits h)]; exact .refl _
  · simp only [if_neg h]; exact .inl ⟨_, .inl rfl, rfl⟩

theorem unchecked (z : Int) : Widens (cfg.unchecked z) (cfg'.unchecked z) := by
  unfold Cfg.unchecked
  by_cases h : cfg.Fits z
  · simp only [if_pos h, if_pos (w.fits h)]; exact .refl _
  · simp only [if_neg h, w.checks, if_true]; exact .inl ⟨_, .inr rfl, rfl⟩

theorem uunchecked (z : Int) : Widens (cfg.uunchecked z) (cfg'.uunchecked z) := by
  unfold Cfg.uunchecked
  by_cases h : 0 ≤ z ∧ z ≤ cfg.umax
  · have h' : 0 ≤ z ∧ z ≤ cfg'.umax := ⟨h.1, h.2.trans (by exact_mod_cast w.umax_le)⟩
    simp only [if_pos h, if_pos h']; exact .refl _
  · simp only [if_neg h, w.checks, if_true]; exact .inl ⟨_, .inr rfl, rfl⟩

theorem neg (x : Int) : Widens (cfg.neg x) (cfg'.neg x) := w.unchecked _
theorem add (x y : Int) : Widens (cfg.add x y) (cfg'.add x y) := w.unchecked _
theorem mul (x y : Int) : Widens (cfg.mul x y) (cfg'.mul x y) := w.unchecked _
theorem umul (x y : Nat) : Widens (cfg.umul x y) (cfg'.umul x y) := w.uunchecked _
theorem usub (x y : Nat) : Widens (cfg.usub x y) (cfg'.usub x y) := w.uunchecked _
theorem cadd (x y : Int) : Widens (cfg.cadd x y) (cfg'.cadd x y) := w.checked _
theorem csub (x y : Int) : Widens (cfg.csub x y) (cfg'.csub x y) := w.checked _
theorem cmul (x y : Int) : Widens (cfg.cmul x y) (cfg'.cmul x y) := w.checked _

end Cfg.Wider

theorem Cfg.checked_fits {cfg : Cfg} {z x : Int} (h : cfg.checked z = .ok x) : cfg.Fits x := by
  unfold Cfg.checked at h
  split at h
  · cases h; assumption
  · cases h

theorem Out.bind_eq_ok {α β : Type} {a : Out α} {g : α → Out β} {b : β} (h : a >>= g = .ok b) :
    ∃ x, a = .ok x ∧ g x = .ok b := by
  cases a with
  | ok x => exact ⟨x, rfl, h⟩
  | panic p => cases h
  | timeout => cases h

section

variable {cfg cfg' : Cfg}

/-! ## ratio.rs -/

theorem Cfg.asUsize_of_fits {z : Int} (h0 : 0 ≤ z) (h : cfg.Fits z) : cfg.asUsize z = z.toNat := by
  have h1 : (2 : Int) ^ (cfg.bits - 1) ≤ 2 ^ cfg.bits :=
    pow_le_pow_right₀ (by norm_num) (Nat.sub_le _ _)
  have h2 := h.2
  simp only [Cfg.imax] at h2
  show (z % _).toNat = _
  rw [Int.emod_eq_of_lt h0 (by omega)]

theorem Ratio.magnitude_widens (w : cfg.Wider cfg') {z : Int} (hz : cfg.Fits z) :
    Widens (Ratio.magnitude cfg z) (Ratio.magnitude cfg' z) := by
  unfold magnitude
  by_cases h : z ≥ 0
  · simp only [if_pos h]
    refine .of_eq ?_
    show Out.ok _ = Out.ok _
    rw [Cfg.asUsize_of_fits h hz, Cfg.asUsize_of_fits h (w.fits hz)]
  · simp only [if_neg h]
    refine Widens.bind_ok (w.neg z) fun a ha => .of_eq ?_
    have : a = -z ∧ cfg.Fits a := by
      unfold Cfg.neg Cfg.unchecked at ha
      rw [w.checks] at ha
      split at ha
      · cases ha; exact ⟨rfl, by assumption⟩
      · cases ha
    show Out.ok _ = Out.ok _
    rw [Cfg.asUsize_of_fits (by omega) this.2, Cfg.asUsize_of_fits (by omega) (w.fits this.2)]

theorem Ratio.newI_widens (w : cfg.Wider cfg') {n d : Int} (hn : cfg.Fits n) (hd : cfg.Fits d) :
    Widens (Ratio.newI cfg n d) (Ratio.newI cfg' n d) :=
  Widens.bind (magnitude_widens w hn) fun _ => Widens.bind (magnitude_widens w hd) fun _ => .refl _

/-- Walk through a straight-line program. -/
macro "widen " w:ident : tactic => `(tactic| repeat' first
  | with_reducible exact Widens.refl _
  | with_reducible exact Cfg.Wider.neg $w _
  | with_reducible exact Cfg.Wider.add $w _ _
  | with_reducible exact Cfg.Wider.mul $w _ _
  | with_reducible exact Cfg.Wider.umul $w _ _
  | with_reducible exact Cfg.Wider.usub $w _ _
  | with_reducible exact Cfg.Wider.cadd $w _ _
  | with_reducible exact Cfg.Wider.csub $w _ _
  | with_reducible exact Cfg.Wider.cmul $w _ _
  | with_reducible refine Widens.bind ?_ ?_
  | with_reducible refine Widens.ite ?_ ?_
  | intro _)

theorem Ratio.egest_widens (w : cfg.Wider cfg') (r : Ratio) :
    Widens (r.egest cfg) (r.egest cfg') := by
  unfold Ratio.egest; simp only; widen w

/-! ## support.rs -/

namespace Support

theorem greaterThanMinusOne_widens (w : cfg.Wider cfg') (n d : Int) :
    Widens (greaterThanMinusOne cfg n d) (greaterThanMinusOne cfg' n d) := by
  unfold greaterThanMinusOne; widen w

theorem lessThanMinusOne_widens (w : cfg.Wider cfg') (n d : Int) :
    Widens (lessThanMinusOne cfg n d) (lessThanMinusOne cfg' n d) := by
  unfold lessThanMinusOne; widen w

theorem doubled_widens (w : cfg.Wider cfg') (n d : Int) :
    Widens (doubled cfg n d) (doubled cfg' n d) := by
  unfold doubled; widen w

theorem equalToOneHalf_widens (w : cfg.Wider cfg') (n d : Int) :
    Widens (equalToOneHalf cfg n d) (equalToOneHalf cfg' n d) :=
  Widens.bind (doubled_widens w n d) fun _ => .refl _

theorem greaterThanOneHalf_widens (w : cfg.Wider cfg') (n d : Int) :
    Widens (greaterThanOneHalf cfg n d) (greaterThanOneHalf cfg' n d) :=
  Widens.bind (doubled_widens w n d) fun _ => .refl _

theorem lessThanOneHalf_widens (w : cfg.Wider cfg') (n d : Int) :
    Widens (lessThanOneHalf cfg n d) (lessThanOneHalf cfg' n d) :=
  Widens.bind (doubled_widens w n d) fun _ => .refl _

theorem compareReduce_widens (w : cfg.Wider cfg') (a b c d : Int) :
    Widens (compareReduce cfg a b c d) (compareReduce cfg' a b c d) := by
  unfold compareReduce; widen w

theorem lessThan_widens (w : cfg.Wider cfg') (a b c d : Int) :
    Widens (lessThan cfg a b c d) (lessThan cfg' a b c d) :=
  Widens.bind (compareReduce_widens w ..) fun _ => .refl _

theorem greaterThan_widens (w : cfg.Wider cfg') (a b c d : Int) :
    Widens (greaterThan cfg a b c d) (greaterThan cfg' a b c d) :=
  Widens.bind (compareReduce_widens w ..) fun _ => .refl _

theorem normalise_widens (w : cfg.Wider cfg') (n d : Int) :
    Widens (normalise cfg n d) (normalise cfg' n d) := by
  unfold normalise; simp only; widen w

theorem updatedRange_widens (w : cfg.Wider cfg') (a b c d e f : Int) :
    Widens (updatedRange cfg a b c d e f) (updatedRange cfg' a b c d e f) :=
  Widens.bind (normalise_widens w _ _) fun _ => Widens.bind (normalise_widens w _ _) fun _ =>
    Widens.bind (normalise_widens w _ _) fun _ => Widens.bind (lessThan_widens w ..) fun _ =>
      Widens.ite (.refl _) (Widens.bind (greaterThan_widens w ..) fun _ => .refl _)

theorem equalToMinusOne_widens (w : cfg.Wider cfg') (n d : Int) :
    Widens (equalToMinusOne cfg n d) (equalToMinusOne cfg' n d) := by
  unfold equalToMinusOne; widen w

theorem isSpecial_widens (w : cfg.Wider cfg') (n d : Int) :
    Widens (isSpecial cfg n d) (isSpecial cfg' n d) :=
  Widens.ite (.refl _) (Widens.bind (equalToMinusOne_widens w n d) fun _ => .refl _)

end Support

open Support

/-! ## homographic.rs -/

namespace Coef4

theorem valueAtOne_widens (w : cfg.Wider cfg') (k : Coef4) :
    Widens (k.valueAtOne cfg) (k.valueAtOne cfg') := by
  unfold valueAtOne; widen w

theorem valueAtOneHalf_widens (w : cfg.Wider cfg') (k : Coef4) :
    Widens (k.valueAtOneHalf cfg) (k.valueAtOneHalf cfg') := by
  unfold valueAtOneHalf; widen w

theorem valueAtOneHalf_fits {k : Coef4} {r : Int × Int} (h : k.valueAtOneHalf cfg = .ok r) :
    cfg.Fits r.1 ∧ cfg.Fits r.2 := by
  unfold valueAtOneHalf at h
  split at h
  · obtain ⟨_, _, h⟩ := Out.bind_eq_ok h
    obtain ⟨_, h1, h⟩ := Out.bind_eq_ok h
    obtain ⟨_, _, h⟩ := Out.bind_eq_ok h
    obtain ⟨_, h2, h⟩ := Out.bind_eq_ok h
    cases h
    exact ⟨Cfg.checked_fits h1, Cfg.checked_fits h2⟩
  · obtain ⟨_, h1, h⟩ := Out.bind_eq_ok h
    obtain ⟨_, h2, h⟩ := Out.bind_eq_ok h
    cases h
    exact ⟨Cfg.checked_fits h1, Cfg.checked_fits h2⟩

theorem ingestAmplify_widens (w : cfg.Wider cfg') (k : Coef4) :
    Widens (k.ingestAmplify cfg) (k.ingestAmplify cfg') := by
  unfold ingestAmplify; widen w

theorem ingestUncover_widens (w : cfg.Wider cfg') (k : Coef4) :
    Widens (k.ingestUncover cfg) (k.ingestUncover cfg') := by
  unfold ingestUncover; widen w

theorem isDomainAmenable_widens (w : cfg.Wider cfg') (mx m : Int) :
    Widens (isDomainAmenable cfg mx m) (isDomainAmenable cfg' mx m) := by
  unfold isDomainAmenable; simp only; widen w

theorem areSingularitiesOutsideDomain_widens (w : cfg.Wider cfg') (k : Coef4) :
    Widens (k.areSingularitiesOutsideDomain cfg) (k.areSingularitiesOutsideDomain cfg') :=
  Widens.andB (isDomainAmenable_widens w ..) (isDomainAmenable_widens w ..)

theorem imageExtremes_widens (w : cfg.Wider cfg') (k : Coef4) :
    Widens (k.imageExtremes cfg) (k.imageExtremes cfg') := by
  unfold imageExtremes
  simp only
  exact Widens.ite (.refl _) (Widens.bind (valueAtOne_widens w k) fun a =>
    Widens.ite (.refl _) (updatedRange_widens w ..))

theorem ground_widens (w : cfg.Wider cfg') (k : Coef4) : Widens (k.ground cfg) (k.ground cfg') := by
  unfold ground; widen w

theorem reflect_widens (w : cfg.Wider cfg') (k : Coef4) :
    Widens (k.reflect cfg) (k.reflect cfg') := by
  unfold reflect; widen w

theorem amplify_widens (w : cfg.Wider cfg') (k : Coef4) :
    Widens (k.amplify cfg) (k.amplify cfg') := by
  unfold amplify; widen w

theorem uncover_widens (w : cfg.Wider cfg') (k : Coef4) :
    Widens (k.uncover cfg) (k.uncover cfg') := by
  unfold uncover; widen w

theorem primerEgest_widens (w : cfg.Wider cfg') (k : Coef4) :
    Widens (k.primerEgest cfg) (k.primerEgest cfg') := by
  refine Widens.bind (imageExtremes_widens w k) ?_
  rintro ⟨nmin, dmin, nmax, dmax⟩
  refine Widens.ite (.refl _) (Widens.bind (Widens.andB (.refl _) (isSpecial_widens w ..)) ?_)
  intro same
  refine Widens.ite (.refl _) (Widens.bind (greaterThanMinusOne_widens w ..) fun b => ?_)
  refine Widens.ite (Widens.bind (ground_widens w k) fun _ => .refl _) (Widens.ite (.refl _) ?_)
  refine Widens.bind (Widens.andB (Widens.notB (lessThanMinusOne_widens w ..)) (.refl _)) fun b => ?_
  exact Widens.ite (Widens.bind (reflect_widens w k) fun _ => .refl _) (.refl _)

theorem reductionEgest_widens (w : cfg.Wider cfg') (k : Coef4) :
    Widens (k.reductionEgest cfg) (k.reductionEgest cfg') := by
  refine Widens.bind (imageExtremes_widens w k) ?_
  rintro ⟨nmin, dmin, nmax, dmax⟩
  refine Widens.ite (.refl _) (Widens.ite (.refl _) ?_)
  refine Widens.bind (Widens.andB (equalToOneHalf_widens w ..) (equalToOneHalf_widens w ..)) fun b => ?_
  refine Widens.ite (.refl _) (Widens.bind (greaterThanOneHalf_widens w ..) fun b => ?_)
  refine Widens.ite (Widens.bind (amplify_widens w k) fun _ => .refl _) ?_
  refine Widens.bind (lessThanOneHalf_widens w ..) fun b => ?_
  exact Widens.ite (Widens.bind (uncover_widens w k) fun _ => .refl _) (.refl _)

theorem primerAttempt_widens (w : cfg.Wider cfg') (k : Coef4) :
    Widens (k.primerAttempt cfg) (k.primerAttempt cfg') :=
  Widens.bind (areSingularitiesOutsideDomain_widens w k) fun _ =>
    Widens.ite (primerEgest_widens w k) (.refl _)

theorem reductionAttempt_widens (w : cfg.Wider cfg') (k : Coef4) :
    Widens (k.reductionAttempt cfg) (k.reductionAttempt cfg') :=
  Widens.bind (areSingularitiesOutsideDomain_widens w k) fun _ =>
    Widens.ite (reductionEgest_widens w k) (.refl _)

end Coef4

/-- Pointwise `Widens` on models of `Clog::egest`. -/
def EgestFn.Widens (eg eg' : EgestFn) : Prop := ∀ c, Out.Widens (eg c) (eg' c)

namespace Homographic

variable {eg eg' : EgestFn}

theorem primeIngest_widens (w : cfg.Wider cfg') (he : EgestFn.Widens eg eg') (h : Homographic) :
    Widens (primeIngest cfg eg h) (primeIngest cfg' eg' h) := by
  refine Widens.bind (he _) ?_
  rintro ⟨_ | _ | _, x⟩
  · refine Widens.bind_ok (Coef4.valueAtOneHalf_widens w _) fun r hr => ?_
    obtain ⟨f1, f2⟩ := Coef4.valueAtOneHalf_fits hr
    exact Widens.bind (Ratio.newI_widens w f1 f2) fun _ => .refl _
  · exact Widens.bind (Coef4.ingestAmplify_widens w _) fun _ => .refl _
  · exact Widens.bind (Coef4.ingestUncover_widens w _) fun _ => .refl _

theorem reductionIngest_widens (w : cfg.Wider cfg') (he : EgestFn.Widens eg eg') (h : Homographic) :
    Widens (reductionIngest cfg eg h) (reductionIngest cfg' eg' h) := by
  refine Widens.bind (he _) ?_
  rintro ⟨_ | _ | _, x⟩
  · refine Widens.bind_ok (Coef4.valueAtOneHalf_widens w _) fun r hr => ?_
    obtain ⟨f1, f2⟩ := Coef4.valueAtOneHalf_fits hr
    exact Widens.bind (Ratio.newI_widens w f1 f2) fun _ => .refl _
  · exact Widens.bind (Coef4.ingestAmplify_widens w _) fun _ => .refl _
  · exact Widens.bind (Coef4.ingestUncover_widens w _) fun _ => .refl _

theorem prime_widens (w : cfg.Wider cfg') (he : EgestFn.Widens eg eg') (f : Nat) (h : Homographic) :
    Widens (prime cfg eg f h) (prime cfg' eg' f h) := by
  induction f generalizing h with
  | zero => exact .refl _
  | succ f ih =>
    refine Widens.bind (Coef4.primerAttempt_widens w _) ?_
    rintro (_ | ⟨p, k⟩)
    · refine Widens.bind (primeIngest_widens w he h) ?_
      rintro ⟨_ | ⟨a, b, c⟩, h⟩
      · exact ih h
      · exact .refl _
    · exact .refl _

theorem egest_widens (w : cfg.Wider cfg') (he : EgestFn.Widens eg eg') (f : Nat) (h : Homographic) :
    Widens (egest cfg eg f h) (egest cfg' eg' f h) := by
  induction f generalizing h with
  | zero => exact .refl _
  | succ f ih =>
    refine Widens.bind (Coef4.reductionAttempt_widens w _) ?_
    rintro (_ | ⟨p, k⟩)
    · refine Widens.bind (reductionIngest_widens w he h) ?_
      rintro ⟨_ | r, h⟩
      · exact ih h
      · exact .refl _
    · exact .refl _

theorem absorbPrimer_widens (w : cfg.Wider cfg') (p : Option Primer) (k : Coef4) :
    Widens (absorbPrimer cfg p k) (absorbPrimer cfg' p k) := by
  rcases p with _ | _ | _ | _ <;> (unfold absorbPrimer; widen w)

theorem asRatio_widens (w : cfg.Wider cfg') {n d : Int} (hn : cfg.Fits n) (hd : cfg.Fits d) :
    Widens (asRatio cfg n d) (asRatio cfg' n d) :=
  Widens.bind (Ratio.newI_widens w hn hd) fun _ => .refl _

theorem new_widens (w : cfg.Wider cfg') (he : EgestFn.Widens eg eg') (f : Nat) (x : Number)
    (nx : Int) {n : Int} (dx : Int) {d : Int} (hn : cfg.Fits n) (hd : cfg.Fits d) :
    Widens (new cfg eg f x nx n dx d) (new cfg' eg' f x nx n dx d) := by
  unfold new
  refine Widens.ite (asRatio_widens w hn hd) ?_
  rcases x with (_ | _ | _) | ⟨p, c⟩
  · exact Widens.bind_ok (w.csub ..) fun _ h1 => Widens.bind_ok (w.csub ..) fun _ h2 =>
      asRatio_widens w (Cfg.checked_fits h1) (Cfg.checked_fits h2)
  · exact asRatio_widens w hn hd
  · exact Widens.bind_ok (w.cadd ..) fun _ h1 => Widens.bind_ok (w.cadd ..) fun _ h2 =>
      asRatio_widens w (Cfg.checked_fits h1) (Cfg.checked_fits h2)
  · exact Widens.bind (absorbPrimer_widens w ..) fun _ => prime_widens w he f _

end Homographic

/-! ## combine.rs -/

namespace Coef8

theorem isDomainAmenable_widens (w : cfg.Wider cfg') (a b c d : Int) :
    Widens (isDomainAmenable cfg a b c d) (isDomainAmenable cfg' a b c d) := by
  unfold isDomainAmenable; simp only; widen w

theorem areSingularitiesOutsideDomain_widens (w : cfg.Wider cfg') (k : Coef8) :
    Widens (k.areSingularitiesOutsideDomain cfg) (k.areSingularitiesOutsideDomain cfg') :=
  Widens.andB (isDomainAmenable_widens w ..) (isDomainAmenable_widens w ..)

theorem imageExtremes_widens (w : cfg.Wider cfg') (k : Coef8) :
    Widens (k.imageExtremes cfg) (k.imageExtremes cfg') := by
  have h01 : Widens (k.valueAt01 cfg) (k.valueAt01 cfg') := by unfold valueAt01; widen w
  have h10 : Widens (k.valueAt10 cfg) (k.valueAt10 cfg') := by unfold valueAt10; widen w
  have h11 : Widens (k.valueAt11 cfg) (k.valueAt11 cfg') := by unfold valueAt11; widen w
  exact Widens.bind h01 fun _ => Widens.bind (updatedRange_widens w ..) fun _ =>
    Widens.bind h10 fun _ => Widens.bind (updatedRange_widens w ..) fun _ =>
      Widens.bind h11 fun _ => updatedRange_widens w ..

theorem reflect_widens (w : cfg.Wider cfg') (k : Coef8) :
    Widens (k.reflect cfg) (k.reflect cfg') := by
  unfold reflect; widen w

theorem primerEgest_widens (w : cfg.Wider cfg') (k : Coef8) :
    Widens (k.primerEgest cfg) (k.primerEgest cfg') := by
  refine Widens.bind (imageExtremes_widens w k) ?_
  rintro ⟨nmin, dmin, nmax, dmax⟩
  refine Widens.bind (lessThanMinusOne_widens w ..) fun b => ?_
  refine Widens.ite (Widens.bind (reflect_widens w _) fun _ => .refl _) ?_
  refine Widens.bind (Widens.andB (greaterThanMinusOne_widens w ..) (.refl _)) fun b => ?_
  exact Widens.ite (Widens.bind (reflect_widens w k) fun _ => .refl _) (.refl _)

theorem amplify_widens (w : cfg.Wider cfg') (k : Coef8) :
    Widens (k.amplify cfg) (k.amplify cfg') := by
  unfold amplify; widen w

theorem uncover_widens (w : cfg.Wider cfg') (k : Coef8) :
    Widens (k.uncover cfg) (k.uncover cfg') := by
  unfold uncover shift; widen w

theorem reductionEgest_widens (w : cfg.Wider cfg') (k : Coef8) :
    Widens (k.reductionEgest cfg) (k.reductionEgest cfg') := by
  refine Widens.bind (imageExtremes_widens w k) ?_
  rintro ⟨nmin, dmin, nmax, dmax⟩
  refine Widens.ite (.refl _) (Widens.ite (.refl _) ?_)
  refine Widens.bind (lessThanOneHalf_widens w ..) fun b => ?_
  refine Widens.ite (Widens.bind (amplify_widens w k) fun _ => .refl _) ?_
  refine Widens.bind (greaterThanOneHalf_widens w ..) fun b => ?_
  exact Widens.ite (Widens.bind (uncover_widens w k) fun _ => .refl _) (.refl _)

theorem primerAttempt_widens (w : cfg.Wider cfg') (k : Coef8) :
    Widens (k.primerAttempt cfg) (k.primerAttempt cfg') :=
  Widens.bind (areSingularitiesOutsideDomain_widens w k) fun _ =>
    Widens.ite (primerEgest_widens w k) (.refl _)

theorem reductionAttempt_widens (w : cfg.Wider cfg') (k : Coef8) :
    Widens (k.reductionAttempt cfg) (k.reductionAttempt cfg') :=
  Widens.bind (areSingularitiesOutsideDomain_widens w k) fun _ =>
    Widens.ite (reductionEgest_widens w k) (.refl _)

theorem absorbPrimerX_widens (w : cfg.Wider cfg') (p : Option Primer) (k : Coef8) :
    Widens (k.absorbPrimerX cfg p) (k.absorbPrimerX cfg' p) := by
  rcases p with _ | _ | _ | _ <;> (unfold absorbPrimerX; try unfold reflectX) <;> widen w

theorem absorbPrimerY_widens (w : cfg.Wider cfg') (p : Option Primer) (k : Coef8) :
    Widens (k.absorbPrimerY cfg p) (k.absorbPrimerY cfg' p) := by
  rcases p with _ | _ | _ | _ <;> (unfold absorbPrimerY; try unfold reflectY) <;> widen w

theorem ingestX_widens (w : cfg.Wider cfg') (r : Reduction) (k : Coef8) :
    Widens (k.ingestX cfg r) (k.ingestX cfg' r) := by
  cases r
  · show Widens (k.amplifyX cfg) (k.amplifyX cfg')
    unfold amplifyX; widen w
  · show Widens (k.turnX.shiftX cfg) (k.turnX.shiftX cfg')
    unfold shiftX; widen w

theorem ingestY_widens (w : cfg.Wider cfg') (r : Reduction) (k : Coef8) :
    Widens (k.ingestY cfg r) (k.ingestY cfg' r) := by
  cases r
  · show Widens (k.amplifyY cfg) (k.amplifyY cfg')
    unfold amplifyY; widen w
  · show Widens (k.turnY.shiftY cfg) (k.turnY.shiftY cfg')
    unfold shiftY; widen w

theorem valueAtEndOfX_widens (w : cfg.Wider cfg') (k : Coef8) :
    Widens (k.valueAtEndOfX cfg) (k.valueAtEndOfX cfg') := by
  unfold valueAtEndOfX; widen w

theorem valueAtEndOfY_widens (w : cfg.Wider cfg') (k : Coef8) :
    Widens (k.valueAtEndOfY cfg) (k.valueAtEndOfY cfg') := by
  unfold valueAtEndOfY; widen w

theorem valueAtEndOfX_fits {k : Coef8} {r : Coef4} (h : k.valueAtEndOfX cfg = .ok r) :
    cfg.Fits r.n ∧ cfg.Fits r.d := by
  unfold valueAtEndOfX at h
  split at h
  · obtain ⟨_, _, h⟩ := Out.bind_eq_ok h
    obtain ⟨_, h1, h⟩ := Out.bind_eq_ok h
    obtain ⟨_, _, h⟩ := Out.bind_eq_ok h
    obtain ⟨_, h2, h⟩ := Out.bind_eq_ok h
    cases h
    exact ⟨Cfg.checked_fits h1, Cfg.checked_fits h2⟩
  · obtain ⟨_, _, h⟩ := Out.bind_eq_ok h
    obtain ⟨_, _, h⟩ := Out.bind_eq_ok h
    obtain ⟨_, _, h⟩ := Out.bind_eq_ok h
    obtain ⟨_, h1, h⟩ := Out.bind_eq_ok h
    obtain ⟨_, _, h⟩ := Out.bind_eq_ok h
    obtain ⟨_, _, h⟩ := Out.bind_eq_ok h
    obtain ⟨_, _, h⟩ := Out.bind_eq_ok h
    obtain ⟨_, h2, h⟩ := Out.bind_eq_ok h
    cases h
    exact ⟨Cfg.checked_fits h1, Cfg.checked_fits h2⟩

theorem valueAtEndOfY_fits {k : Coef8} {r : Coef4} (h : k.valueAtEndOfY cfg = .ok r) :
    cfg.Fits r.n ∧ cfg.Fits r.d := by
  unfold valueAtEndOfY at h
  split at h
  · obtain ⟨_, _, h⟩ := Out.bind_eq_ok h
    obtain ⟨_, h1, h⟩ := Out.bind_eq_ok h
    obtain ⟨_, _, h⟩ := Out.bind_eq_ok h
    obtain ⟨_, h2, h⟩ := Out.bind_eq_ok h
    cases h
    exact ⟨Cfg.checked_fits h1, Cfg.checked_fits h2⟩
  · obtain ⟨_, _, h⟩ := Out.bind_eq_ok h
    obtain ⟨_, _, h⟩ := Out.bind_eq_ok h
    obtain ⟨_, _, h⟩ := Out.bind_eq_ok h
    obtain ⟨_, h1, h⟩ := Out.bind_eq_ok h
    obtain ⟨_, _, h⟩ := Out.bind_eq_ok h
    obtain ⟨_, _, h⟩ := Out.bind_eq_ok h
    obtain ⟨_, _, h⟩ := Out.bind_eq_ok h
    obtain ⟨_, h2, h⟩ := Out.bind_eq_ok h
    cases h
    exact ⟨Cfg.checked_fits h1, Cfg.checked_fits h2⟩

end Coef8

namespace Combine

variable {eg eg' : EgestFn}

theorem primeIngest_widens (w : cfg.Wider cfg') (he : EgestFn.Widens eg eg') (f : Nat)
    (s : Combine) : Widens (primeIngest cfg eg f s) (primeIngest cfg' eg' f s) := by
  refine Widens.bind (he _) ?_
  rintro ⟨_ | r, x⟩
  · refine Widens.bind_ok (Coef8.valueAtEndOfX_widens w _) fun k hk => ?_
    obtain ⟨f1, f2⟩ := Coef8.valueAtEndOfX_fits hk
    exact Widens.bind (Homographic.new_widens w he _ _ _ _ f1 f2) fun _ => .refl _
  · refine Widens.bind (Coef8.ingestX_widens w r _) fun k => Widens.bind (he _) ?_
    rintro ⟨_ | r, y⟩
    · refine Widens.bind_ok (Coef8.valueAtEndOfY_widens w _) fun k hk => ?_
      obtain ⟨f1, f2⟩ := Coef8.valueAtEndOfY_fits hk
      exact Widens.bind (Homographic.new_widens w he _ _ _ _ f1 f2) fun _ => .refl _
    · exact Widens.bind (Coef8.ingestY_widens w r _) fun _ => .refl _

theorem reductionIngest_widens (w : cfg.Wider cfg') (he : EgestFn.Widens eg eg') (f : Nat)
    (s : Combine) : Widens (reductionIngest cfg eg f s) (reductionIngest cfg' eg' f s) := by
  refine Widens.bind (he _) ?_
  rintro ⟨_ | r, x⟩
  · refine Widens.bind_ok (Coef8.valueAtEndOfX_widens w _) fun k hk => ?_
    obtain ⟨f1, f2⟩ := Coef8.valueAtEndOfX_fits hk
    exact Widens.bind (Homographic.new_widens w he _ _ _ _ f1 f2) fun _ => .refl _
  · refine Widens.bind (Coef8.ingestX_widens w r _) fun k => Widens.bind (he _) ?_
    rintro ⟨_ | r, y⟩
    · refine Widens.bind_ok (Coef8.valueAtEndOfY_widens w _) fun k hk => ?_
      obtain ⟨f1, f2⟩ := Coef8.valueAtEndOfY_fits hk
      exact Widens.bind (Homographic.new_widens w he _ _ _ _ f1 f2) fun _ => .refl _
    · exact Widens.bind (Coef8.ingestY_widens w r _) fun _ => .refl _

theorem prime_widens (w : cfg.Wider cfg') (he : EgestFn.Widens eg eg') (f : Nat) (s : Combine) :
    Widens (prime cfg eg f s) (prime cfg' eg' f s) := by
  induction f generalizing s with
  | zero => exact .refl _
  | succ f ih =>
    refine Widens.bind (Coef8.primerAttempt_widens w _) ?_
    rintro (_ | ⟨p, k⟩)
    · refine Widens.bind (primeIngest_widens w he f s) ?_
      rintro (⟨a, b, c, d⟩ | s)
      · exact .refl _
      · exact ih s
    · exact .refl _

theorem egest_widens (w : cfg.Wider cfg') (he : EgestFn.Widens eg eg') (f : Nat) (s : Combine) :
    Widens (egest cfg eg f s) (egest cfg' eg' f s) := by
  induction f generalizing s with
  | zero => exact .refl _
  | succ f ih =>
    refine Widens.bind (Coef8.reductionAttempt_widens w _) ?_
    rintro (_ | ⟨p, k⟩)
    · refine Widens.bind (reductionIngest_widens w he f s) ?_
      rintro ⟨⟨_ | r, _ | h⟩, s⟩
      · exact ih s
      · exact .refl _
      · exact .refl _
      · exact .refl _
    · exact .refl _

theorem asHomographic_widens (w : cfg.Wider cfg') (he : EgestFn.Widens eg eg') (f : Nat)
    (x : Number) (nx : Int) {n : Int} (dx : Int) {d : Int} (hn : cfg.Fits n) (hd : cfg.Fits d) :
    Widens (asHomographic cfg eg f x nx n dx d) (asHomographic cfg' eg' f x nx n dx d) :=
  Widens.bind (Homographic.new_widens w he _ _ _ _ hn hd) fun _ => .refl _

theorem new_widens (w : cfg.Wider cfg') (he : EgestFn.Widens eg eg') (f : Nat) (x y : Number)
    (k : Coef8) (hd : cfg.Fits k.d) (hh : cfg.Fits k.h) :
    Widens (new cfg eg f x y k) (new cfg' eg' f x y k) := by
  rcases x with (_ | _ | _) | ⟨px, cx⟩
  · exact Widens.bind (w.csub ..) fun _ => Widens.bind_ok (w.csub ..) fun _ h1 =>
      Widens.bind (w.csub ..) fun _ => Widens.bind_ok (w.csub ..) fun _ h2 =>
        asHomographic_widens w he _ _ _ _ (Cfg.checked_fits h1) (Cfg.checked_fits h2)
  · exact asHomographic_widens w he _ _ _ _ hd hh
  · exact Widens.bind (w.cadd ..) fun _ => Widens.bind_ok (w.cadd ..) fun _ h1 =>
      Widens.bind (w.cadd ..) fun _ => Widens.bind_ok (w.cadd ..) fun _ h2 =>
        asHomographic_widens w he _ _ _ _ (Cfg.checked_fits h1) (Cfg.checked_fits h2)
  · rcases y with (_ | _ | _) | ⟨py, cy⟩
    · exact Widens.bind (w.csub ..) fun _ => Widens.bind_ok (w.csub ..) fun _ h1 =>
        Widens.bind (w.csub ..) fun _ => Widens.bind_ok (w.csub ..) fun _ h2 =>
          asHomographic_widens w he _ _ _ _ (Cfg.checked_fits h1) (Cfg.checked_fits h2)
    · exact asHomographic_widens w he _ _ _ _ hd hh
    · exact Widens.bind (w.cadd ..) fun _ => Widens.bind_ok (w.cadd ..) fun _ h1 =>
        Widens.bind (w.cadd ..) fun _ => Widens.bind_ok (w.cadd ..) fun _ h2 =>
          asHomographic_widens w he _ _ _ _ (Cfg.checked_fits h1) (Cfg.checked_fits h2)
    · exact Widens.bind (Coef8.absorbPrimerX_widens w ..) fun _ =>
        Widens.bind (Coef8.absorbPrimerY_widens w ..) fun _ => prime_widens w he f _

end Combine

/-! ## lib.rs -/

theorem Strategy.egest_widens {eg eg' : EgestFn} (w : cfg.Wider cfg') (he : EgestFn.Widens eg eg')
    (f : Nat) (s : Strategy) : Widens (Strategy.egest cfg eg f s) (Strategy.egest cfg' eg' f s) := by
  cases s with
  | ratio r => exact Widens.bind (Ratio.egest_widens w r) fun _ => .refl _
  | homographic x k => exact Widens.bind (Homographic.egest_widens w he f _) fun _ => .refl _
  | combine x y k => exact Widens.bind (Combine.egest_widens w he f _) fun _ => .refl _

theorem Clog.egest_widens (w : cfg.Wider cfg') (f : Nat) :
    EgestFn.Widens (Clog.egest cfg f) (Clog.egest cfg' f) := by
  induction f with
  | zero => exact fun _ => .refl _
  | succ f ih =>
    intro c
    refine Widens.bind (Strategy.egest_widens w ih f c) ?_
    rintro ⟨r | s, _⟩
    · exact .refl _
    · exact ih s

theorem Clog.egests_widens (w : cfg.Wider cfg') (f k : Nat) (c : Clog) :
    Widens (Clog.egests cfg f k c) (Clog.egests cfg' f k c) := by
  induction k generalizing c with
  | zero => exact .refl _
  | succ k ih =>
    exact Widens.bind (Clog.egest_widens w f c) fun _ => Widens.bind (ih _) fun _ => .refl _

namespace Number

theorem ratio_widens (w : cfg.Wider cfg') {n d : Int} (hn : cfg.Fits n) (hd : cfg.Fits d) :
    Widens (Number.ratio cfg n d) (Number.ratio cfg' n d) :=
  Widens.bind (Ratio.magnitude_widens w hn) fun _ =>
    Widens.bind (Ratio.magnitude_widens w hd) fun _ => .refl _

theorem homographic_widens (w : cfg.Wider cfg') (f : Nat) (x : Number) (nx : Int) {n : Int}
    (dx : Int) {d : Int} (hn : cfg.Fits n) (hd : cfg.Fits d) :
    Widens (Number.homographic cfg f x nx n dx d) (Number.homographic cfg' f x nx n dx d) :=
  Widens.bind (Homographic.new_widens w (Clog.egest_widens w f) _ _ _ _ hn hd) fun _ => .refl _

theorem combine_widens (w : cfg.Wider cfg') (f : Nat) (x y : Number) (a b c : Int) {d : Int}
    (e g h : Int) {i : Int} (hd : cfg.Fits d) (hi : cfg.Fits i) :
    Widens (Number.combine cfg f x y a b c d e g h i)
      (Number.combine cfg' f x y a b c d e g h i) :=
  Widens.bind (Combine.new_widens w (Clog.egest_widens w f) _ _ _ _ hd hi) fun _ => .refl _

end Number

theorem Compare.compareClogs_widens {eg eg' : EgestFn} (he : EgestFn.Widens eg eg') (f : Nat)
    (c1 c2 : Clog) (b : Bool) :
    Widens (compareClogs cfg eg f c1 c2 b) (compareClogs cfg' eg' f c1 c2 b) := by
  induction f generalizing c1 c2 b with
  | zero => exact .refl _
  | succ f ih =>
    refine Widens.bind (he c1) ?_
    rintro ⟨e1, c1⟩
    refine Widens.bind (he c2) ?_
    rintro ⟨e2, c2⟩
    refine Widens.ite (.refl _) ?_
    rcases e1 with _ | _ | _
    · exact .refl _
    · exact ih ..
    · exact ih ..

theorem Number.compare_widens (w : cfg.Wider cfg') (f : Nat) (x y : Number) :
    Widens (Number.compare cfg f x y) (Number.compare cfg' f x y) := by
  cases x <;> cases y
  · exact .refl _
  · exact .refl _
  · exact .refl _
  · exact Widens.bind (Compare.compareClogs_widens (Clog.egest_widens w f) ..) fun _ => .refl _

theorem Main.logn_widens (w : cfg.Wider cfg') (f : Nat) (x : Number) :
    Widens (Main.logn cfg f x) (Main.logn cfg' f x) := by
  cases x with
  | Special s => exact .refl _
  | Other p c =>
    refine Widens.bind ?_ fun _ => .refl _
    have key : ∀ g c, Widens (Main.logc cfg (Clog.egest cfg f) g c)
        (Main.logc cfg' (Clog.egest cfg' f) g c) := by
      intro g
      induction g with
      | zero => exact fun _ => .refl _
      | succ g ih =>
        intro c
        refine Widens.bind (Clog.egest_widens w f c) ?_
        rintro ⟨_ | r, c⟩
        · exact .refl _
        · exact Widens.bind (ih c) fun _ => .refl _
    exact key f c

/-! ## Calls -/

theorem Out.Widens.returns {α : Type} {m m' : Nat → Out α} (h : ∀ f, Widens (m f) (m' f)) {a : α}
    (hr : Returns m a) : Returns m' a := by
  obtain ⟨f₀, hf⟩ := hr
  refine ⟨f₀, fun f hge => ?_⟩
  rcases h f with ⟨p, _, h⟩ | h
  · rw [hf f hge] at h; cases h
  · rw [← h, hf f hge]

theorem Out.Widens.panics {α : Type} {m m' : Nat → Out α} (h : ∀ f, Widens (m f) (m' f))
    {p : Panic} (hp : ¬Overflow p) (hr : Panics m p) : Panics m' p := by
  obtain ⟨f₀, hf⟩ := hr
  refine ⟨f₀, fun f hge => ?_⟩
  rcases h f with ⟨q, hq, h⟩ | h
  · rw [hf f hge] at h; cases h; exact absurd hq hp
  · rw [← h, hf f hge]

end

end Clarith
