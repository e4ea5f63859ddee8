import Verif.Spec
import Verif.Proofs.Logic

/-! # The build without overflow checks follows the build with them

Every outcome of the checked build other than an arithmetic overflow is the outcome of the
unchecked build. -/

namespace Clarith

/-- The same machine, built without overflow checks. -/
def Cfg.release (cfg : Cfg) : Cfg := { cfg with overflowChecks := false }

namespace Out

/-- The second outcome is the first one, unless that is an arithmetic overflow. -/
def Follows {α : Type} (a b : Out α) : Prop := a = .panic .arithOverflow ∨ a = b

theorem Follows.refl {α : Type} (a : Out α) : Follows a a := .inr rfl

theorem Follows.of_eq {α : Type} {a b : Out α} (h : a = b) : Follows a b := .inr h

theorem Follows.bind {α β : Type} {a a' : Out α} {g g' : α → Out β} (h : Follows a a')
    (hg : ∀ x, Follows (g x) (g' x)) : Follows (a >>= g) (a' >>= g') := by
  rcases h with rfl | rfl
  · exact .inl rfl
  · cases a with
    | ok x => exact hg x
    | panic p => exact .inr rfl
    | timeout => exact .inr rfl

theorem Follows.ite {α : Type} {c : Prop} [Decidable c] {a a' b b' : Out α} (h : Follows a a')
    (h' : Follows b b') : Follows (if c then a else b) (if c then a' else b') := by
  split
  · exact h
  · exact h'

theorem Follows.andB {a a' b b' : Out Bool} (h : Follows a a') (h' : Follows b b') :
    Follows (Out.and a b) (Out.and a' b') :=
  Follows.bind h fun _ => Follows.ite h' (.refl _)

theorem Follows.notB {a a' : Out Bool} (h : Follows a a') : Follows (Out.not a) (Out.not a') :=
  Follows.bind h fun _ => .refl _

end Out

open Out

variable {cfg : Cfg}

theorem Cfg.unchecked_follows (z : Int) : Follows (cfg.unchecked z) (cfg.release.unchecked z) := by
  unfold Cfg.unchecked
  by_cases h : cfg.Fits z
  · have h' : cfg.release.Fits z := h
    simp only [if_pos h, if_pos h']; exact .refl _
  · have h' : ¬cfg.release.Fits z := h
    simp only [if_neg h, if_neg h']
    split
    · exact .inl rfl
    · exact .of_eq rfl

theorem Cfg.uunchecked_follows (z : Int) :
    Follows (cfg.uunchecked z) (cfg.release.uunchecked z) := by
  unfold Cfg.uunchecked
  by_cases h : 0 ≤ z ∧ z ≤ cfg.umax
  · have h' : 0 ≤ z ∧ z ≤ cfg.release.umax := h
    simp only [if_pos h, if_pos h']; exact .refl _
  · have h' : ¬(0 ≤ z ∧ z ≤ cfg.release.umax) := h
    simp only [if_neg h, if_neg h']
    split
    · exact .inl rfl
    · exact .of_eq rfl

theorem Cfg.neg_follows (x : Int) : Follows (cfg.neg x) (cfg.release.neg x) :=
  cfg.unchecked_follows _
theorem Cfg.add_follows (x y : Int) : Follows (cfg.add x y) (cfg.release.add x y) :=
  cfg.unchecked_follows _
theorem Cfg.mul_follows (x y : Int) : Follows (cfg.mul x y) (cfg.release.mul x y) :=
  cfg.unchecked_follows _
theorem Cfg.umul_follows (x y : Nat) : Follows (cfg.umul x y) (cfg.release.umul x y) :=
  cfg.uunchecked_follows _
theorem Cfg.usub_follows (x y : Nat) : Follows (cfg.usub x y) (cfg.release.usub x y) :=
  cfg.uunchecked_follows _

/-! ## ratio.rs -/

theorem Ratio.magnitude_follows (z : Int) :
    Follows (Ratio.magnitude cfg z) (Ratio.magnitude cfg.release z) := by
  unfold magnitude
  by_cases h : z ≥ 0
  · simp only [if_pos h]; exact .of_eq rfl
  · simp only [if_neg h]
    exact Follows.bind (cfg.neg_follows z) fun a => .of_eq rfl

theorem Ratio.newI_follows (n d : Int) : Follows (Ratio.newI cfg n d) (Ratio.newI cfg.release n d) :=
  Follows.bind (magnitude_follows n) fun _ => Follows.bind (magnitude_follows d) fun _ => .refl _

theorem Ratio.egest_follows (r : Ratio) : Follows (r.egest cfg) (r.egest cfg.release) := by
  unfold Ratio.egest
  refine Follows.ite (Follows.bind (cfg.usub_follows _ _) fun _ => .refl _) (Follows.ite ?_ ?_)
  · exact Follows.ite (Follows.bind (cfg.umul_follows _ _) fun _ => .refl _) (.refl _)
  · exact Follows.bind (cfg.umul_follows _ _) fun _ => .refl _

/-! ## support.rs -/

namespace Support

theorem greaterThanMinusOne_follows (n d : Int) :
    Follows (greaterThanMinusOne cfg n d) (greaterThanMinusOne cfg.release n d) :=
  Follows.ite (Follows.bind (cfg.neg_follows d) fun _ => .refl _)
    (Follows.ite (Follows.bind (cfg.neg_follows d) fun _ => .refl _) (.refl _))

theorem lessThanMinusOne_follows (n d : Int) :
    Follows (lessThanMinusOne cfg n d) (lessThanMinusOne cfg.release n d) :=
  Follows.ite (Follows.bind (cfg.neg_follows d) fun _ => .refl _)
    (Follows.ite (Follows.bind (cfg.neg_follows d) fun _ => .refl _) (.refl _))

theorem normalise_follows (n d : Int) :
    Follows (normalise cfg n d) (normalise cfg.release n d) := by
  unfold normalise
  simp only
  refine Follows.ite ?_ (.refl _)
  exact Follows.bind (cfg.mul_follows _ _) fun _ => Follows.bind (cfg.mul_follows _ _) fun _ => .refl _

theorem updatedRange_follows (a b c d e f : Int) :
    Follows (updatedRange cfg a b c d e f) (updatedRange cfg.release a b c d e f) :=
  Follows.bind (normalise_follows _ _) fun _ => Follows.bind (normalise_follows _ _) fun _ =>
    Follows.bind (normalise_follows _ _) fun _ => .of_eq rfl

theorem equalToMinusOne_follows (n d : Int) :
    Follows (equalToMinusOne cfg n d) (equalToMinusOne cfg.release n d) :=
  Follows.ite (Follows.bind (cfg.neg_follows d) fun _ => .refl _) (.refl _)

theorem isSpecial_follows (n d : Int) :
    Follows (isSpecial cfg n d) (isSpecial cfg.release n d) :=
  Follows.ite (.refl _) (Follows.bind (equalToMinusOne_follows n d) fun _ => .refl _)

end Support

open Support

/-! ## homographic.rs -/

namespace Coef4

theorem imageExtremes_follows (k : Coef4) :
    Follows (k.imageExtremes cfg) (k.imageExtremes cfg.release) := by
  unfold imageExtremes
  simp only
  refine Follows.ite (.refl _) (Follows.bind (.of_eq rfl) fun a => Follows.ite (.refl _) ?_)
  exact updatedRange_follows ..

theorem ground_follows (k : Coef4) : Follows (k.ground cfg) (k.ground cfg.release) :=
  Follows.bind (cfg.neg_follows _) fun _ => Follows.bind (cfg.neg_follows _) fun _ => .refl _

theorem reflect_follows (k : Coef4) : Follows (k.reflect cfg) (k.reflect cfg.release) :=
  Follows.bind (cfg.neg_follows _) fun _ => Follows.bind (cfg.neg_follows _) fun _ => .refl _

theorem primerEgest_follows (k : Coef4) :
    Follows (k.primerEgest cfg) (k.primerEgest cfg.release) := by
  refine Follows.bind (imageExtremes_follows k) ?_
  rintro ⟨nmin, dmin, nmax, dmax⟩
  refine Follows.ite (.refl _) (Follows.bind (Follows.andB (.refl _) (isSpecial_follows ..)) ?_)
  intro same
  refine Follows.ite (.refl _) (Follows.bind (greaterThanMinusOne_follows ..) fun b => ?_)
  refine Follows.ite (Follows.bind (ground_follows k) fun _ => .refl _) (Follows.ite (.refl _) ?_)
  refine Follows.bind (Follows.andB (Follows.notB (lessThanMinusOne_follows ..)) (.refl _)) fun b => ?_
  exact Follows.ite (Follows.bind (reflect_follows k) fun _ => .refl _) (.refl _)

theorem reductionEgest_follows (k : Coef4) :
    Follows (k.reductionEgest cfg) (k.reductionEgest cfg.release) := by
  refine Follows.bind (imageExtremes_follows k) ?_
  rintro ⟨nmin, dmin, nmax, dmax⟩
  exact .of_eq rfl

theorem primerAttempt_follows (k : Coef4) :
    Follows (k.primerAttempt cfg) (k.primerAttempt cfg.release) :=
  Follows.bind (.of_eq rfl) fun _ => Follows.ite (primerEgest_follows k) (.refl _)

theorem reductionAttempt_follows (k : Coef4) :
    Follows (k.reductionAttempt cfg) (k.reductionAttempt cfg.release) :=
  Follows.bind (.of_eq rfl) fun _ => Follows.ite (reductionEgest_follows k) (.refl _)

end Coef4

/-- Pointwise `Follows` on models of `Clog::egest`. -/
def EgestFn.Follows (eg eg' : EgestFn) : Prop := ∀ c, Out.Follows (eg c) (eg' c)

namespace Homographic

variable {eg eg' : EgestFn}

theorem primeIngest_follows (he : EgestFn.Follows eg eg') (h : Homographic) :
    Follows (primeIngest cfg eg h) (primeIngest cfg.release eg' h) := by
  refine Follows.bind (he _) ?_
  rintro ⟨_ | _ | _, x⟩
  · exact Follows.bind (.of_eq rfl) fun _ => Follows.bind (Ratio.newI_follows ..) fun _ => .refl _
  · exact .of_eq rfl
  · exact .of_eq rfl

theorem reductionIngest_follows (he : EgestFn.Follows eg eg') (h : Homographic) :
    Follows (reductionIngest cfg eg h) (reductionIngest cfg.release eg' h) := by
  refine Follows.bind (he _) ?_
  rintro ⟨_ | _ | _, x⟩
  · exact Follows.bind (.of_eq rfl) fun _ => Follows.bind (Ratio.newI_follows ..) fun _ => .refl _
  · exact .of_eq rfl
  · exact .of_eq rfl

theorem prime_follows (he : EgestFn.Follows eg eg') (f : Nat) (h : Homographic) :
    Follows (prime cfg eg f h) (prime cfg.release eg' f h) := by
  induction f generalizing h with
  | zero => exact .refl _
  | succ f ih =>
    refine Follows.bind (Coef4.primerAttempt_follows _) ?_
    rintro (_ | ⟨p, k⟩)
    · refine Follows.bind (primeIngest_follows he h) ?_
      rintro ⟨_ | ⟨a, b, c⟩, h⟩
      · exact ih h
      · exact .refl _
    · exact .refl _

theorem egest_follows (he : EgestFn.Follows eg eg') (f : Nat) (h : Homographic) :
    Follows (egest cfg eg f h) (egest cfg.release eg' f h) := by
  induction f generalizing h with
  | zero => exact .refl _
  | succ f ih =>
    refine Follows.bind (Coef4.reductionAttempt_follows _) ?_
    rintro (_ | ⟨p, k⟩)
    · refine Follows.bind (reductionIngest_follows he h) ?_
      rintro ⟨_ | r, h⟩
      · exact ih h
      · exact .refl _
    · exact .refl _

theorem absorbPrimer_follows (p : Option Primer) (k : Coef4) :
    Follows (absorbPrimer cfg p k) (absorbPrimer cfg.release p k) := by
  rcases p with _ | _ | _ | _
  · exact .refl _
  · exact .refl _
  · exact Follows.bind (cfg.neg_follows _) fun _ => Follows.bind (cfg.neg_follows _) fun _ => .refl _
  · exact Follows.bind (cfg.neg_follows _) fun _ => Follows.bind (cfg.neg_follows _) fun _ => .refl _

theorem asRatio_follows (n d : Int) : Follows (asRatio cfg n d) (asRatio cfg.release n d) :=
  Follows.bind (Ratio.newI_follows n d) fun _ => .refl _

theorem new_follows (he : EgestFn.Follows eg eg') (f : Nat) (x : Number) (nx n dx d : Int) :
    Follows (new cfg eg f x nx n dx d) (new cfg.release eg' f x nx n dx d) := by
  unfold new
  refine Follows.ite (asRatio_follows n d) ?_
  rcases x with (_ | _ | _) | ⟨p, c⟩
  · exact Follows.bind (.of_eq rfl) fun _ => Follows.bind (.of_eq rfl) fun _ => asRatio_follows ..
  · exact asRatio_follows ..
  · exact Follows.bind (.of_eq rfl) fun _ => Follows.bind (.of_eq rfl) fun _ => asRatio_follows ..
  · exact Follows.bind (absorbPrimer_follows ..) fun _ => prime_follows he f _

end Homographic

/-! ## combine.rs -/

namespace Coef8

theorem imageExtremes_follows (k : Coef8) :
    Follows (k.imageExtremes cfg) (k.imageExtremes cfg.release) :=
  Follows.bind (.of_eq rfl) fun _ => Follows.bind (updatedRange_follows ..) fun _ =>
    Follows.bind (.of_eq rfl) fun _ => Follows.bind (updatedRange_follows ..) fun _ =>
      Follows.bind (.of_eq rfl) fun _ => updatedRange_follows ..

theorem reflect_follows (k : Coef8) : Follows (k.reflect cfg) (k.reflect cfg.release) :=
  Follows.bind (cfg.neg_follows _) fun _ => Follows.bind (cfg.neg_follows _) fun _ =>
    Follows.bind (cfg.neg_follows _) fun _ => Follows.bind (cfg.neg_follows _) fun _ => .refl _

theorem primerEgest_follows (k : Coef8) :
    Follows (k.primerEgest cfg) (k.primerEgest cfg.release) := by
  refine Follows.bind (imageExtremes_follows k) ?_
  rintro ⟨nmin, dmin, nmax, dmax⟩
  refine Follows.bind (lessThanMinusOne_follows ..) fun b => ?_
  refine Follows.ite (Follows.bind (reflect_follows _) fun _ => .refl _) ?_
  refine Follows.bind (Follows.andB (greaterThanMinusOne_follows ..) (.refl _)) fun b => ?_
  exact Follows.ite (Follows.bind (reflect_follows k) fun _ => .refl _) (.refl _)

theorem reductionEgest_follows (k : Coef8) :
    Follows (k.reductionEgest cfg) (k.reductionEgest cfg.release) := by
  refine Follows.bind (imageExtremes_follows k) ?_
  rintro ⟨nmin, dmin, nmax, dmax⟩
  exact .of_eq rfl

theorem primerAttempt_follows (k : Coef8) :
    Follows (k.primerAttempt cfg) (k.primerAttempt cfg.release) :=
  Follows.bind (.of_eq rfl) fun _ => Follows.ite (primerEgest_follows k) (.refl _)

theorem reductionAttempt_follows (k : Coef8) :
    Follows (k.reductionAttempt cfg) (k.reductionAttempt cfg.release) :=
  Follows.bind (.of_eq rfl) fun _ => Follows.ite (reductionEgest_follows k) (.refl _)

theorem reflectX_follows (k : Coef8) : Follows (k.reflectX cfg) (k.reflectX cfg.release) :=
  Follows.bind (cfg.mul_follows _ _) fun _ => Follows.bind (cfg.mul_follows _ _) fun _ =>
    Follows.bind (cfg.mul_follows _ _) fun _ => Follows.bind (cfg.mul_follows _ _) fun _ => .refl _

theorem reflectY_follows (k : Coef8) : Follows (k.reflectY cfg) (k.reflectY cfg.release) :=
  Follows.bind (cfg.mul_follows _ _) fun _ => Follows.bind (cfg.mul_follows _ _) fun _ =>
    Follows.bind (cfg.mul_follows _ _) fun _ => Follows.bind (cfg.mul_follows _ _) fun _ => .refl _

theorem absorbPrimerX_follows (p : Option Primer) (k : Coef8) :
    Follows (k.absorbPrimerX cfg p) (k.absorbPrimerX cfg.release p) := by
  rcases p with _ | _ | _ | _
  · exact .refl _
  · exact .refl _
  · exact reflectX_follows _
  · exact reflectX_follows _

theorem absorbPrimerY_follows (p : Option Primer) (k : Coef8) :
    Follows (k.absorbPrimerY cfg p) (k.absorbPrimerY cfg.release p) := by
  rcases p with _ | _ | _ | _
  · exact .refl _
  · exact .refl _
  · exact reflectY_follows _
  · exact reflectY_follows _

end Coef8

namespace Combine

variable {eg eg' : EgestFn}

theorem primeIngest_follows (he : EgestFn.Follows eg eg') (f : Nat) (s : Combine) :
    Follows (primeIngest cfg eg f s) (primeIngest cfg.release eg' f s) := by
  refine Follows.bind (he _) ?_
  rintro ⟨_ | r, x⟩
  · exact Follows.bind (.of_eq rfl) fun k =>
      Follows.bind (Homographic.new_follows he ..) fun _ => .refl _
  · refine Follows.bind (.of_eq rfl) fun k => Follows.bind (he _) ?_
    rintro ⟨_ | r, y⟩
    · exact Follows.bind (.of_eq rfl) fun k =>
        Follows.bind (Homographic.new_follows he ..) fun _ => .refl _
    · exact Follows.bind (.of_eq rfl) fun _ => .refl _

theorem reductionIngest_follows (he : EgestFn.Follows eg eg') (f : Nat) (s : Combine) :
    Follows (reductionIngest cfg eg f s) (reductionIngest cfg.release eg' f s) := by
  refine Follows.bind (he _) ?_
  rintro ⟨_ | r, x⟩
  · exact Follows.bind (.of_eq rfl) fun k =>
      Follows.bind (Homographic.new_follows he ..) fun _ => .refl _
  · refine Follows.bind (.of_eq rfl) fun k => Follows.bind (he _) ?_
    rintro ⟨_ | r, y⟩
    · exact Follows.bind (.of_eq rfl) fun k =>
        Follows.bind (Homographic.new_follows he ..) fun _ => .refl _
    · exact Follows.bind (.of_eq rfl) fun _ => .refl _

theorem prime_follows (he : EgestFn.Follows eg eg') (f : Nat) (s : Combine) :
    Follows (prime cfg eg f s) (prime cfg.release eg' f s) := by
  induction f generalizing s with
  | zero => exact .refl _
  | succ f ih =>
    refine Follows.bind (Coef8.primerAttempt_follows _) ?_
    rintro (_ | ⟨p, k⟩)
    · refine Follows.bind (primeIngest_follows he f s) ?_
      rintro (⟨a, b, c, d⟩ | s)
      · exact .refl _
      · exact ih s
    · exact .refl _

theorem egest_follows (he : EgestFn.Follows eg eg') (f : Nat) (s : Combine) :
    Follows (egest cfg eg f s) (egest cfg.release eg' f s) := by
  induction f generalizing s with
  | zero => exact .refl _
  | succ f ih =>
    refine Follows.bind (Coef8.reductionAttempt_follows _) ?_
    rintro (_ | ⟨p, k⟩)
    · refine Follows.bind (reductionIngest_follows he f s) ?_
      rintro ⟨⟨_ | r, _ | h⟩, s⟩
      · exact ih s
      · exact .refl _
      · exact .refl _
      · exact .refl _
    · exact .refl _

theorem asHomographic_follows (he : EgestFn.Follows eg eg') (f : Nat) (x : Number)
    (nx n dx d : Int) :
    Follows (asHomographic cfg eg f x nx n dx d) (asHomographic cfg.release eg' f x nx n dx d) :=
  Follows.bind (Homographic.new_follows he ..) fun _ => .refl _

theorem new_follows (he : EgestFn.Follows eg eg') (f : Nat) (x y : Number) (k : Coef8) :
    Follows (new cfg eg f x y k) (new cfg.release eg' f x y k) := by
  have four : ∀ {α : Type} {g g' : Int → Int → Int → Int → Out α} (a b c d a' b' c' d' : Int)
      (o : Cfg → Int → Int → Out Int), o cfg = o cfg.release →
      (∀ a b c d, Follows (g a b c d) (g' a b c d)) →
      Follows (do
          let w ← o cfg a a'
          let x ← o cfg b b'
          let y ← o cfg c c'
          let z ← o cfg d d'
          g w x y z)
        (do
          let w ← o cfg.release a a'
          let x ← o cfg.release b b'
          let y ← o cfg.release c c'
          let z ← o cfg.release d d'
          g' w x y z) := by
    intro α g g' a b c d a' b' c' d' o ho h
    rw [ho]
    exact Follows.bind (.refl _) fun _ => Follows.bind (.refl _) fun _ =>
      Follows.bind (.refl _) fun _ => Follows.bind (.refl _) fun _ => h _ _ _ _
  rcases x with (_ | _ | _) | ⟨px, cx⟩
  · exact four _ _ _ _ _ _ _ _ Cfg.csub rfl fun _ _ _ _ => asHomographic_follows he ..
  · exact asHomographic_follows he ..
  · exact four _ _ _ _ _ _ _ _ Cfg.cadd rfl fun _ _ _ _ => asHomographic_follows he ..
  · rcases y with (_ | _ | _) | ⟨py, cy⟩
    · exact four _ _ _ _ _ _ _ _ Cfg.csub rfl fun _ _ _ _ => asHomographic_follows he ..
    · exact asHomographic_follows he ..
    · exact four _ _ _ _ _ _ _ _ Cfg.cadd rfl fun _ _ _ _ => asHomographic_follows he ..
    · exact Follows.bind (Coef8.absorbPrimerX_follows ..) fun _ =>
        Follows.bind (Coef8.absorbPrimerY_follows ..) fun _ => prime_follows he f _

end Combine

/-! ## lib.rs -/

theorem Strategy.egest_follows {eg eg' : EgestFn} (he : EgestFn.Follows eg eg') (f : Nat)
    (s : Strategy) : Follows (Strategy.egest cfg eg f s) (Strategy.egest cfg.release eg' f s) := by
  cases s with
  | ratio r => exact Follows.bind (Ratio.egest_follows r) fun _ => .refl _
  | homographic x k => exact Follows.bind (Homographic.egest_follows he f _) fun _ => .refl _
  | combine x y k => exact Follows.bind (Combine.egest_follows he f _) fun _ => .refl _

theorem Clog.egest_follows (f : Nat) :
    EgestFn.Follows (Clog.egest cfg f) (Clog.egest cfg.release f) := by
  induction f with
  | zero => exact fun _ => .refl _
  | succ f ih =>
    intro c
    refine Follows.bind (Strategy.egest_follows ih f c) ?_
    rintro ⟨r | s, _⟩
    · exact .refl _
    · exact ih s

theorem Clog.egests_follows (f k : Nat) (c : Clog) :
    Follows (Clog.egests cfg f k c) (Clog.egests cfg.release f k c) := by
  induction k generalizing c with
  | zero => exact .refl _
  | succ k ih => exact Follows.bind (Clog.egest_follows f c) fun _ => Follows.bind (ih _) fun _ => .refl _

namespace Number

theorem ratio_follows (n d : Int) : Follows (Number.ratio cfg n d) (Number.ratio cfg.release n d) :=
  Follows.bind (Ratio.magnitude_follows n) fun _ =>
    Follows.bind (Ratio.magnitude_follows d) fun _ => .refl _

theorem homographic_follows (f : Nat) (x : Number) (nx n dx d : Int) :
    Follows (Number.homographic cfg f x nx n dx d) (Number.homographic cfg.release f x nx n dx d) :=
  Follows.bind (Homographic.new_follows (Clog.egest_follows f) ..) fun _ => .refl _

theorem combine_follows (f : Nat) (x y : Number) (a b c d e g h i : Int) :
    Follows (Number.combine cfg f x y a b c d e g h i)
      (Number.combine cfg.release f x y a b c d e g h i) :=
  Follows.bind (Combine.new_follows (Clog.egest_follows f) ..) fun _ => .refl _

end Number

namespace Consume

variable {eg eg' : EgestFn}

theorem ingest_follows (r : Reduction) (k : Coef4) :
    Follows (ingest cfg r k) (ingest cfg.release r k) := by
  cases r with
  | Amplify =>
    exact Follows.ite (Follows.bind (cfg.mul_follows _ _) fun _ =>
      Follows.bind (cfg.mul_follows _ _) fun _ => .refl _) (.refl _)
  | Uncover =>
    exact Follows.bind (cfg.add_follows _ _) fun _ =>
      Follows.bind (cfg.add_follows _ _) fun _ => .refl _

theorem abs_follows (z : Int) : Follows (abs cfg z) (abs cfg.release z) :=
  Follows.ite (cfg.neg_follows z) (.refl _)

theorem isStateUnsafe_follows (k : Coef4) :
    Follows (isStateUnsafe cfg k) (isStateUnsafe cfg.release k) :=
  Follows.bind (abs_follows _) fun _ => Follows.ite (.refl _)
    (Follows.bind (abs_follows _) fun _ => Follows.ite (.refl _)
      (Follows.bind (abs_follows _) fun _ => Follows.ite (.refl _)
        (Follows.bind (abs_follows _) fun _ => .refl _)))

theorem consume_follows (he : EgestFn.Follows eg eg') (f : Nat) (c : Clog) (k : Coef4) :
    Follows (consume cfg eg f c k) (consume cfg.release eg' f c k) := by
  induction f generalizing c k with
  | zero => exact .refl _
  | succ f ih =>
    refine Follows.bind (he c) ?_
    rintro ⟨_ | r, c⟩
    · exact .refl _
    · refine Follows.bind (ingest_follows r k) fun k => Follows.bind (isStateUnsafe_follows k) ?_
      exact fun b => Follows.ite (.refl _) (ih c k)

theorem start_follows (p : Option Primer) : Follows (start cfg p) (start cfg.release p) := by
  rcases p with _ | _ | _ | _
  · exact .refl _
  · exact .refl _
  · exact Follows.bind (cfg.neg_follows _) fun _ => Follows.bind (cfg.neg_follows _) fun _ => .refl _
  · exact Follows.bind (cfg.neg_follows _) fun _ => Follows.bind (cfg.neg_follows _) fun _ => .refl _

end Consume

theorem Number.consume_follows (f : Nat) (x : Number) :
    Follows (Number.consume cfg f x) (Number.consume cfg.release f x) := by
  refine Follows.bind ?_ fun _ => .refl _
  rcases x with (_ | _ | _) | ⟨p, c⟩
  · exact .refl _
  · exact .refl _
  · exact .refl _
  · exact Follows.bind (Consume.start_follows p) fun k =>
      Consume.consume_follows (Clog.egest_follows f) f c k

theorem Compare.compareClogs_follows {eg eg' : EgestFn} (he : EgestFn.Follows eg eg') (f : Nat)
    (c1 c2 : Clog) (b : Bool) :
    Follows (compareClogs cfg eg f c1 c2 b) (compareClogs cfg.release eg' f c1 c2 b) := by
  induction f generalizing c1 c2 b with
  | zero => exact .refl _
  | succ f ih =>
    refine Follows.bind (he c1) ?_
    rintro ⟨e1, c1⟩
    refine Follows.bind (he c2) ?_
    rintro ⟨e2, c2⟩
    refine Follows.ite (.refl _) ?_
    rcases e1 with _ | _ | _
    · exact .refl _
    · exact ih ..
    · exact ih ..

theorem Number.compare_follows (f : Nat) (x y : Number) :
    Follows (Number.compare cfg f x y) (Number.compare cfg.release f x y) := by
  cases x <;> cases y
  · exact .refl _
  · exact .refl _
  · exact .refl _
  · exact Follows.bind (Compare.compareClogs_follows (Clog.egest_follows f) ..) fun _ => .refl _

theorem Main.logn_follows (f : Nat) (x : Number) :
    Follows (Main.logn cfg f x) (Main.logn cfg.release f x) := by
  cases x with
  | Special s => exact .refl _
  | Other p c =>
    refine Follows.bind ?_ fun _ => .refl _
    have key : ∀ g c, Follows (Main.logc cfg (Clog.egest cfg f) g c)
        (Main.logc cfg.release (Clog.egest cfg.release f) g c) := by
      intro g
      induction g with
      | zero => exact fun _ => .refl _
      | succ g ih =>
        intro c
        refine Follows.bind (Clog.egest_follows f c) ?_
        rintro ⟨_ | r, c⟩
        · exact .refl _
        · exact Follows.bind (ih c) fun _ => .refl _
    exact key f c

/-! ## Calls -/

theorem Out.Follows.returns {α : Type} {m m' : Nat → Out α} (h : ∀ f, Follows (m f) (m' f)) {a : α}
    (hr : Returns m a) : Returns m' a := by
  obtain ⟨f₀, hf⟩ := hr
  refine ⟨f₀, fun f hge => ?_⟩
  rcases h f with h | h
  · rw [hf f hge] at h; cases h
  · rw [← h, hf f hge]

theorem Out.Follows.panics {α : Type} {m m' : Nat → Out α} (h : ∀ f, Follows (m f) (m' f))
    {p : Panic} (hp : p ≠ .arithOverflow) (hr : Panics m p) : Panics m' p := by
  obtain ⟨f₀, hf⟩ := hr
  refine ⟨f₀, fun f hge => ?_⟩
  rcases h f with h | h
  · rw [hf f hge] at h; cases h; exact absurd rfl hp
  · rw [← h, hf f hge]

end Clarith
