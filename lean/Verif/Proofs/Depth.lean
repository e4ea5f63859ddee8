import Verif.Proofs.Clog
import Verif.Proofs.Fuel
import Verif.Model.Compare

/-! # How deep the recursion goes

Fuel bounds the recursion depth: a call that does not run out of fuel `f` recurses at most `f`
deep.  Here explicit amounts of fuel are shown to suffice, in terms of the number of symbols of
the operands. -/

namespace Clarith

open Out Spec

namespace Out

/-- The outcome is a value or a panic. -/
structure Total {α : Type} (o : Out α) : Prop where
  ne : o ≠ .timeout

namespace Total

theorem ok {α : Type} (a : α) : Total (.ok a) := ⟨by simp⟩
theorem pure {α : Type} (a : α) : Total (Pure.pure a : Out α) := ⟨by simp⟩
theorem panic {α : Type} (p : Panic) : Total (.panic p : Out α) := ⟨by simp⟩

theorem bind {α β : Type} {m : Out α} {g : α → Out β} (hm : Total m) (hg : ∀ a, Total (g a)) :
    Total (m >>= g) := by
  cases m with
  | ok a => exact hg a
  | panic p => exact .panic p
  | timeout => exact absurd rfl hm.ne

theorem andB {a b : Out Bool} (ha : Total a) (hb : Total b) : Total (Out.and a b) :=
  ha.bind fun r => by cases r <;> first | exact hb | exact .pure _

theorem notB {a : Out Bool} (ha : Total a) : Total (Out.not a) := ha.bind fun _ => .pure _

theorem checked (cfg : Cfg) (z : Int) : Total (cfg.checked z) := by
  unfold Cfg.checked; split <;> constructor <;> simp

theorem unchecked (cfg : Cfg) (z : Int) : Total (cfg.unchecked z) := by
  unfold Cfg.unchecked; split_ifs <;> constructor <;> simp

theorem uunchecked (cfg : Cfg) (z : Int) : Total (cfg.uunchecked z) := by
  unfold Cfg.uunchecked; split_ifs <;> constructor <;> simp

theorem sat {α : Type} {m : Out α} (h : Total m) : Sat (fun _ => True) m (fun _ => True) := by
  cases m with
  | ok a => trivial
  | panic p => trivial
  | timeout => exact absurd rfl h.ne

end Total

theorem Sat.ne_timeout {α : Type} {A : Panic → Prop} {m : Out α} {P : α → Prop} (h : Sat A m P) :
    m ≠ .timeout := by
  rintro rfl; exact h

end Out

/-- Closes `Total` goals with the lemmas registered for it. -/
syntax "total_base" : tactic

macro_rules
  | `(tactic| total_base) => `(tactic| with_reducible first
    | exact Total.pure _ | exact Total.ok _ | exact Total.panic _ | exact Total.checked _ _
    | exact Total.unchecked _ _ | exact Total.uunchecked _ _)

/-- Proves that a straight-line piece of the model does not run out of fuel. -/
syntax "total" : tactic

macro_rules
  | `(tactic| total) => `(tactic| repeat' first
    | total_base | with_reducible apply Total.bind | with_reducible apply Total.andB
    | with_reducible apply Total.notB | split | intro _ | dsimp only)

namespace Cfg

variable (cfg : Cfg) (x y : Int)

theorem cadd_total : Total (cfg.cadd x y) := .checked _ _
theorem csub_total : Total (cfg.csub x y) := .checked _ _
theorem cmul_total : Total (cfg.cmul x y) := .checked _ _
theorem neg_total : Total (cfg.neg x) := .unchecked _ _
theorem add_total : Total (cfg.add x y) := .unchecked _ _
theorem mul_total : Total (cfg.mul x y) := .unchecked _ _
theorem umul_total (x y : Nat) : Total (cfg.umul x y) := .uunchecked _ _
theorem usub_total (x y : Nat) : Total (cfg.usub x y) := .uunchecked _ _

end Cfg

macro_rules
  | `(tactic| total_base) => `(tactic| with_reducible first
    | exact Cfg.cadd_total _ _ _ | exact Cfg.csub_total _ _ _ | exact Cfg.cmul_total _ _ _
    | exact Cfg.neg_total _ _ | exact Cfg.add_total _ _ _ | exact Cfg.mul_total _ _ _
    | exact Cfg.umul_total _ _ _ | exact Cfg.usub_total _ _ _)

namespace Ratio

theorem magnitude_total (cfg : Cfg) (z : Int) : Total (magnitude cfg z) := by
  unfold magnitude; total

theorem new_total (p : Bool) (n d : Nat) : Total (new p n d) := by unfold new; total

theorem newI_total (cfg : Cfg) (n d : Int) : Total (newI cfg n d) :=
  (magnitude_total _ _).bind fun _ => (magnitude_total _ _).bind fun _ => new_total _ _ _

/-- The answer of `new_i` is a special or a ratio. -/
theorem newI_some (cfg : Cfg) (n d : Int) :
    Sat (fun _ => True) (newI cfg n d) (fun r => r.1 ≠ none ∨ r.2.2 ≠ none) := by
  refine Sat.bind (magnitude_total _ _).sat fun _ _ =>
    Sat.bind (magnitude_total _ _).sat fun _ _ => ?_
  unfold new
  split_ifs <;> simp [Sat]

theorem egest_total (cfg : Cfg) (r : Ratio) : Total (r.egest cfg) := by unfold egest; total

end Ratio

namespace Support

variable (cfg : Cfg) (n d n' d' : Int)

theorem greaterThanMinusOne_total : Total (greaterThanMinusOne cfg n d) := by
  unfold greaterThanMinusOne; total
theorem lessThanMinusOne_total : Total (lessThanMinusOne cfg n d) := by
  unfold lessThanMinusOne; total
theorem doubled_total : Total (doubled cfg n d) := by unfold doubled; total
theorem equalToOneHalf_total : Total (equalToOneHalf cfg n d) :=
  (doubled_total _ _ _).bind fun _ => by total
theorem greaterThanOneHalf_total : Total (greaterThanOneHalf cfg n d) :=
  (doubled_total _ _ _).bind fun _ => by total
theorem lessThanOneHalf_total : Total (lessThanOneHalf cfg n d) :=
  (doubled_total _ _ _).bind fun _ => by total
theorem compareReduce_total : Total (compareReduce cfg n d n' d') := by unfold compareReduce; total
theorem lessThan_total : Total (lessThan cfg n d n' d') :=
  (compareReduce_total _ _ _ _ _).bind fun _ => by total
theorem greaterThan_total : Total (greaterThan cfg n d n' d') :=
  (compareReduce_total _ _ _ _ _).bind fun _ => by total
theorem normalise_total : Total (normalise cfg n d) := by unfold normalise; total
theorem equalToMinusOne_total : Total (equalToMinusOne cfg n d) := by unfold equalToMinusOne; total

end Support

macro_rules
  | `(tactic| total_base) => `(tactic| with_reducible first
    | exact Ratio.newI_total _ _ _ | exact Ratio.new_total _ _ _ | exact Ratio.egest_total _ _
    | exact Support.greaterThanMinusOne_total _ _ _ | exact Support.lessThanMinusOne_total _ _ _
    | exact Support.equalToOneHalf_total _ _ _ | exact Support.greaterThanOneHalf_total _ _ _
    | exact Support.lessThanOneHalf_total _ _ _ | exact Support.lessThan_total _ _ _ _ _
    | exact Support.greaterThan_total _ _ _ _ _ | exact Support.normalise_total _ _ _
    | exact Support.equalToMinusOne_total _ _ _)

namespace Support

theorem isSpecial_total (cfg : Cfg) (n d : Int) : Total (isSpecial cfg n d) := by
  unfold isSpecial; total
theorem updatedRange_total (cfg : Cfg) (a b c d e f : Int) :
    Total (updatedRange cfg a b c d e f) := by unfold updatedRange; total

end Support

macro_rules
  | `(tactic| total_base) => `(tactic| with_reducible first
    | exact Support.isSpecial_total _ _ _ | exact Support.updatedRange_total _ _ _ _ _ _ _)

namespace Coef4

variable (cfg : Cfg) (k : Coef4)

theorem valueAtOne_total : Total (k.valueAtOne cfg) := by unfold valueAtOne; total
theorem valueAtOneHalf_total : Total (k.valueAtOneHalf cfg) := by unfold valueAtOneHalf; total
theorem ingestAmplify_total : Total (k.ingestAmplify cfg) := by unfold ingestAmplify; total
theorem ingestUncover_total : Total (k.ingestUncover cfg) := by unfold ingestUncover; total
theorem isDomainAmenable_total (a b : Int) : Total (isDomainAmenable cfg a b) := by
  unfold isDomainAmenable; total
theorem areSingularitiesOutsideDomain_total : Total (k.areSingularitiesOutsideDomain cfg) :=
  (isDomainAmenable_total _ _ _).andB (isDomainAmenable_total _ _ _)
theorem imageExtremes_total : Total (k.imageExtremes cfg) := by
  unfold imageExtremes valueAtZero
  simp only
  split
  · exact .pure _
  · refine (valueAtOne_total _ _).bind fun _ => ?_
    total
theorem ground_total : Total (k.ground cfg) := by unfold ground; total
theorem reflect_total : Total (k.reflect cfg) := by unfold reflect; total
theorem uncover_total : Total (k.uncover cfg) := by unfold uncover; total
theorem amplify_total : Total (k.amplify cfg) := by unfold amplify; total

end Coef4

macro_rules
  | `(tactic| total_base) => `(tactic| with_reducible first
    | exact Coef4.valueAtOneHalf_total _ _ | exact Coef4.ingestAmplify_total _ _
    | exact Coef4.ingestUncover_total _ _ | exact Coef4.areSingularitiesOutsideDomain_total _ _
    | exact Coef4.imageExtremes_total _ _ | exact Coef4.ground_total _ _
    | exact Coef4.reflect_total _ _ | exact Coef4.uncover_total _ _ | exact Coef4.amplify_total _ _)

namespace Coef4

variable (cfg : Cfg) (k : Coef4)

theorem primerEgest_total : Total (k.primerEgest cfg) := by unfold primerEgest; total
theorem reductionEgest_total : Total (k.reductionEgest cfg) := by unfold reductionEgest; total
theorem primerAttempt_total : Total (k.primerAttempt cfg) :=
  (areSingularitiesOutsideDomain_total _ _).bind fun b => by
    cases b <;> first | exact primerEgest_total _ _ | exact .pure _
theorem reductionAttempt_total : Total (k.reductionAttempt cfg) :=
  (areSingularitiesOutsideDomain_total _ _).bind fun b => by
    cases b <;> first | exact reductionEgest_total _ _ | exact .pure _

end Coef4

theorem Homographic.absorbPrimer_total (cfg : Cfg) (p : Option Primer) (k : Coef4) :
    Total (Homographic.absorbPrimer cfg p k) := by
  unfold Homographic.absorbPrimer; total

theorem Homographic.asRatio_total (cfg : Cfg) (n d : Int) : Total (Homographic.asRatio cfg n d) := by
  unfold Homographic.asRatio; total

namespace Coef8

variable (cfg : Cfg) (k : Coef8)

theorem isDomainAmenable_total (a b c d : Int) : Total (isDomainAmenable cfg a b c d) := by
  unfold isDomainAmenable; total
theorem areSingularitiesOutsideDomain_total : Total (k.areSingularitiesOutsideDomain cfg) :=
  (isDomainAmenable_total _ _ _ _ _).andB (isDomainAmenable_total _ _ _ _ _)
theorem valueAt01_total : Total (k.valueAt01 cfg) := by unfold valueAt01; total
theorem valueAt10_total : Total (k.valueAt10 cfg) := by unfold valueAt10; total
theorem valueAt11_total : Total (k.valueAt11 cfg) := by unfold valueAt11; total

end Coef8

macro_rules
  | `(tactic| total_base) => `(tactic| with_reducible first
    | exact Coef8.valueAt01_total _ _ | exact Coef8.valueAt10_total _ _
    | exact Coef8.valueAt11_total _ _)

namespace Coef8

variable (cfg : Cfg) (k : Coef8)

theorem imageExtremes_total : Total (k.imageExtremes cfg) := by unfold imageExtremes; total
theorem reflect_total : Total (k.reflect cfg) := by unfold reflect; total
theorem ground_total : Total (k.ground cfg) := reflect_total _ _
theorem valueAtEndOfX_total : Total (k.valueAtEndOfX cfg) := by unfold valueAtEndOfX; total
theorem valueAtEndOfY_total : Total (k.valueAtEndOfY cfg) := by unfold valueAtEndOfY; total
theorem amplifyX_total : Total (k.amplifyX cfg) := by unfold amplifyX; total
theorem amplifyY_total : Total (k.amplifyY cfg) := by unfold amplifyY; total
theorem shiftX_total : Total (k.shiftX cfg) := by unfold shiftX; total
theorem shiftY_total : Total (k.shiftY cfg) := by unfold shiftY; total
theorem ingestX_total (r : Reduction) : Total (k.ingestX cfg r) := by
  cases r <;> first | exact amplifyX_total _ _ | exact shiftX_total _ _
theorem ingestY_total (r : Reduction) : Total (k.ingestY cfg r) := by
  cases r <;> first | exact amplifyY_total _ _ | exact shiftY_total _ _
theorem reflectX_total : Total (k.reflectX cfg) := by unfold reflectX; total
theorem reflectY_total : Total (k.reflectY cfg) := by unfold reflectY; total
theorem absorbPrimerX_total (p : Option Primer) : Total (k.absorbPrimerX cfg p) := by
  unfold absorbPrimerX
  split <;> first | exact .pure _ | exact reflectX_total _ _
theorem absorbPrimerY_total (p : Option Primer) : Total (k.absorbPrimerY cfg p) := by
  unfold absorbPrimerY
  split <;> first | exact .pure _ | exact reflectY_total _ _
theorem shift_total : Total (k.shift cfg) := by unfold shift; total
theorem uncover_total : Total (k.uncover cfg) := shift_total _ _
theorem amplify_total : Total (k.amplify cfg) := by unfold amplify; total

end Coef8

macro_rules
  | `(tactic| total_base) => `(tactic| with_reducible first
    | exact Coef8.imageExtremes_total _ _ | exact Coef8.ground_total _ _
    | exact Coef8.reflect_total _ _ | exact Coef8.uncover_total _ _ | exact Coef8.amplify_total _ _)

namespace Coef8

variable (cfg : Cfg) (k : Coef8)

theorem primerEgest_total : Total (k.primerEgest cfg) := by unfold primerEgest; total
theorem reductionEgest_total : Total (k.reductionEgest cfg) := by unfold reductionEgest; total
theorem primerAttempt_total : Total (k.primerAttempt cfg) :=
  (areSingularitiesOutsideDomain_total _ _).bind fun b => by
    cases b <;> first | exact primerEgest_total _ _ | exact .pure _
theorem reductionAttempt_total : Total (k.reductionAttempt cfg) :=
  (areSingularitiesOutsideDomain_total _ _).bind fun b => by
    cases b <;> first | exact reductionEgest_total _ _ | exact .pure _

end Coef8

namespace Consume

theorem ingest_total (cfg : Cfg) (r : Reduction) (k : Coef4) : Total (ingest cfg r k) := by
  cases r <;> simp only [ingest, amplifyX, uncoverX] <;> total
theorem abs_total (cfg : Cfg) (x : Int) : Total (abs cfg x) := by unfold abs; total
theorem isStateUnsafe_total (cfg : Cfg) (k : Coef4) : Total (isStateUnsafe cfg k) := by
  unfold isStateUnsafe
  repeat' first
    | exact abs_total _ _ | total_base | with_reducible apply Total.bind | split | intro _
theorem start_total (cfg : Cfg) (p : Option Primer) : Total (start cfg p) := by
  unfold start; total

end Consume

/-! ## Operands -/

/-- Reading any number of symbols from `c` never recurses deeper than `F`. -/
def Clog.ReadsWithin (cfg : Cfg) (F : Nat) (c : Clog) : Prop :=
  ∀ k, Clog.egests cfg F k c ≠ .timeout

/-- Reading a `Number` never recurses deeper than `F`. -/
def Number.ReadsWithin (cfg : Cfg) (F : Nat) : Number → Prop
  | .Special _ => True
  | .Other _ c => Clog.ReadsWithin cfg F c

namespace Clog.ReadsWithin

variable {cfg : Cfg} {F F' : Nat} {c c' : Clog}

theorem head (h : ReadsWithin cfg F c) : Clog.egest cfg F c ≠ .timeout := by
  intro e
  exact h 1 (by simp [egests_succ, e])

theorem tail (h : ReadsWithin cfg F c) {r} (e : Clog.egest cfg F c = .ok (r, c')) :
    ReadsWithin cfg F c' := by
  intro k e'
  exact h (k + 1) (by simp [egests_succ, e, e'])

theorem mono (h : ReadsWithin cfg F c) (hF : F ≤ F') : ReadsWithin cfg F' c := by
  intro k e
  rcases Clog.egests_le (cfg := cfg) hF k c with e' | e'
  · exact h k e'
  · exact h k (e'.trans e)

/-- An invariant of the states that is kept by `egest` shows `ReadsWithin`. -/
theorem coind (R : Clog → Prop)
    (hR : ∀ c, R c → Sat (fun _ => True) (Clog.egest cfg F c) (fun r => R r.2)) {c : Clog}
    (h : R c) : ReadsWithin cfg F c := by
  intro k
  induction k generalizing c with
  | zero => simp [Clog.egests]
  | succ k ih =>
    have := hR c h
    cases e : Clog.egest cfg F c with
    | ok r =>
      rw [e] at this
      have := ih this
      simp only [egests_succ, e, ok_bind]
      cases e' : Clog.egests cfg F k r.2 with
      | ok a => simp
      | panic p => simp
      | timeout => exact absurd e' this
    | panic p => simp [egests_succ, e]
    | timeout => rw [e] at this; exact this.elim

end Clog.ReadsWithin

theorem Number.ReadsWithin.mono {cfg : Cfg} {F F' : Nat} {x : Number}
    (h : Number.ReadsWithin cfg F x) (hF : F ≤ F') : Number.ReadsWithin cfg F' x := by
  cases x with
  | Special s => trivial
  | Other p c => exact Clog.ReadsWithin.mono h hF

/-- `c` denotes a number with the symbols `l` and reading it recurses at most `F` deep. -/
structure Clog.Operand (cfg : Cfg) (A : Panic → Prop) (F : Nat) (c : Clog) (l : List Reduction) :
    Prop where
  denotes : ∃ x, Clog.Denotes cfg A c x ∧ Expands x l
  within : Clog.ReadsWithin cfg F c

/-- One symbol of an operand. -/
theorem Clog.Operand.egest {cfg : Cfg} {A : Panic → Prop} {F : Nat} {c : Clog}
    {l : List Reduction} {eg : EgestFn} (h : Clog.Operand cfg A F c l)
    (hE : EgestFn.Le (Clog.egest cfg F) eg) :
    Sat (fun _ => True) (eg c) (fun r => match l, r with
      | [], (s, c') => s = none ∧ Clog.Operand cfg A F c' []
      | s :: l, (s', c') => s' = some s ∧ Clog.Operand cfg A F c' l) := by
  rw [← (hE c).resolve_left h.within.head]
  obtain ⟨x, hx, he⟩ := h.denotes
  rcases hx.step with ⟨⟨r, c'⟩, ⟨f, hf⟩, hr, hd⟩ | ⟨p, ⟨f, hf⟩, hp⟩
  · rcases (Clog.egest_mono cfg c).ok_or_timeout (hf f le_rfl) F with e | e
    · exact absurd e h.within.head
    · have hw := h.within.tail e
      rw [show Clog.egest cfg F c = .ok (r, c') from e]
      cases he with
      | half => exact ⟨hr.trans sym_half, ⟨_, next_half ▸ hd, .half⟩, hw⟩
      | amplify h0 h1 he =>
        exact ⟨hr.trans (sym_lt h1), ⟨_, next_lt h1 ▸ hd, he⟩, hw⟩
      | uncover h0 h1 he =>
        exact ⟨hr.trans (sym_gt h0), ⟨_, next_gt h0 ▸ hd, he⟩, hw⟩
  · cases e : Clog.egest cfg F c with
    | ok a =>
      have h1 : Clog.egest cfg f c = .timeout ∨ Clog.egest cfg f c = .ok a :=
        (Clog.egest_mono cfg c).ok_or_timeout e f
      have h2 : Clog.egest cfg f c = .panic p := hf f le_rfl
      rw [h2] at h1
      simp at h1
    | panic p => trivial
    | timeout => exact absurd e h.within.head

theorem Clog.Operand.mono {cfg : Cfg} {A : Panic → Prop} {F F' : Nat} {c : Clog}
    {l : List Reduction} (h : Clog.Operand cfg A F c l) (hF : F ≤ F') :
    Clog.Operand cfg A F' c l := ⟨h.denotes, h.within.mono hF⟩

/-! ## `Homographic` -/

namespace Homographic

variable {cfg : Cfg} {A : Panic → Prop} {F : Nat} {eg : EgestFn}

/-- `egest` needs one unit of fuel per symbol of the operand, and one more. -/
theorem egest_depth (hE : EgestFn.Le (Clog.egest cfg F) eg) {l : List Reduction} : ∀ {h : Homographic} {j : Nat},
    Clog.Operand cfg A F h.x l → l.length < j →
    Sat (fun _ => True) (egest cfg eg j h) (fun r => match r.1 with
      | .ok _ => ∃ l', Clog.Operand cfg A F r.2.x l' ∧ l'.length ≤ l.length
      | .err s => ∃ r, s = .ratio r) := by
  induction l with
  | nil =>
    intro h j hx hj
    obtain ⟨j, rfl⟩ : ∃ i, j = i + 1 := ⟨j - 1, by omega⟩
    refine Sat.bind (h.k.reductionAttempt_total cfg).sat fun a _ => ?_
    rcases a with _ | ⟨red, k⟩
    · refine Sat.bind (Q := fun r => ∃ t, r.1 = some t) ?_ ?_
      · refine Sat.bind (hx.egest hE) ?_
        rintro ⟨r, c⟩ ⟨rfl, -⟩
        refine Sat.bind (h.k.valueAtOneHalf_total cfg).sat fun _ _ => ?_
        refine Sat.bind (Ratio.newI_total cfg _ _).sat fun _ _ => ?_
        split
        · exact Sat.pure ⟨_, rfl⟩
        · trivial
      · rintro ⟨_, h'⟩ ⟨t, rfl⟩
        exact Sat.pure ⟨_, rfl⟩
    · exact Sat.pure ⟨[], hx, le_rfl⟩
  | cons s l ih =>
    intro h j hx hj
    obtain ⟨j, rfl⟩ : ∃ i, j = i + 1 := ⟨j - 1, by omega⟩
    refine Sat.bind (h.k.reductionAttempt_total cfg).sat fun a _ => ?_
    rcases a with _ | ⟨red, k⟩
    · refine Sat.bind (Q := fun r => r.1 = none ∧ Clog.Operand cfg A F r.2.x l) ?_ ?_
      · refine Sat.bind (hx.egest hE) ?_
        rintro ⟨r, c⟩ ⟨rfl, hc⟩
        cases s with
        | Amplify =>
          exact Sat.bind (h.k.ingestAmplify_total cfg).sat fun _ _ => Sat.pure ⟨rfl, hc⟩
        | Uncover =>
          exact Sat.bind (h.k.ingestUncover_total cfg).sat fun _ _ => Sat.pure ⟨rfl, hc⟩
      · rintro ⟨_, h'⟩ ⟨rfl, hc⟩
        refine (ih (j := j) hc (by simp at hj; omega)).mono fun r hr => ?_
        rcases r with ⟨(_ | _), _⟩
        · obtain ⟨l', h1, h2⟩ := hr
          exact ⟨l', h1, by simp; omega⟩
        · exact hr
    · exact Sat.pure ⟨_, hx, le_rfl⟩

/-- The result of `prime` or `new` is a special, a ratio, or a homographic function of an operand
with at most `L` symbols. -/
def Primed.Within (cfg : Cfg) (A : Panic → Prop) (F L : Nat) (r : Primed) : Prop :=
  match r.2.2.2 with
  | some h' => ∃ l', Clog.Operand cfg A F h'.x l' ∧ l'.length ≤ L
  | none => r.1 ≠ none ∨ r.2.2.1 ≠ none

/-- `prime` needs one unit of fuel per symbol of the operand, and one more. -/
theorem prime_depth (hE : EgestFn.Le (Clog.egest cfg F) eg) {l : List Reduction} : ∀ {h : Homographic} {j : Nat},
    Clog.Operand cfg A F h.x l → l.length < j →
    Sat (fun _ => True) (prime cfg eg j h)
      (Primed.Within cfg A F l.length) := by
  induction l with
  | nil =>
    intro h j hx hj
    obtain ⟨j, rfl⟩ : ∃ i, j = i + 1 := ⟨j - 1, by omega⟩
    refine Sat.bind (h.k.primerAttempt_total cfg).sat fun a _ => ?_
    rcases a with _ | ⟨red, k⟩
    · refine Sat.bind (Q := fun r => ∃ t, r.1 = some t ∧ (t.1 ≠ none ∨ t.2.2 ≠ none)) ?_ ?_
      · refine Sat.bind (hx.egest hE) ?_
        rintro ⟨r, c⟩ ⟨rfl, -⟩
        refine Sat.bind (h.k.valueAtOneHalf_total cfg).sat fun _ _ => ?_
        exact Sat.bind (Ratio.newI_some cfg _ _) fun _ h => Sat.pure ⟨_, rfl, h⟩
      · rintro ⟨_, h'⟩ ⟨t, rfl, ht⟩
        exact Sat.pure ht
    · exact Sat.pure ⟨[], hx, le_rfl⟩
  | cons s l ih =>
    intro h j hx hj
    obtain ⟨j, rfl⟩ : ∃ i, j = i + 1 := ⟨j - 1, by omega⟩
    refine Sat.bind (h.k.primerAttempt_total cfg).sat fun a _ => ?_
    rcases a with _ | ⟨red, k⟩
    · refine Sat.bind (Q := fun r => r.1 = none ∧ Clog.Operand cfg A F r.2.x l) ?_ ?_
      · refine Sat.bind (hx.egest hE) ?_
        rintro ⟨r, c⟩ ⟨rfl, hc⟩
        cases s with
        | Amplify =>
          exact Sat.bind (h.k.ingestAmplify_total cfg).sat fun _ _ => Sat.pure ⟨rfl, hc⟩
        | Uncover =>
          exact Sat.bind (h.k.ingestUncover_total cfg).sat fun _ _ => Sat.pure ⟨rfl, hc⟩
      · rintro ⟨_, h'⟩ ⟨rfl, hc⟩
        refine (ih (j := j) hc (by simp at hj; omega)).mono fun r hr => ?_
        rcases r with ⟨_, _, _, _ | _⟩
        · exact hr
        · obtain ⟨l', h1, h2⟩ := hr
          exact ⟨l', h1, by simp; omega⟩
    · exact Sat.pure ⟨_, hx, le_rfl⟩

/-- The fuel for `new` on a clog. -/
theorem new_depth (hE : EgestFn.Le (Clog.egest cfg F) eg) {l : List Reduction} {j : Nat} {p : Option Primer} {c : Clog}
    (hx : Clog.Operand cfg A F c l) (hj : l.length < j) (nx n dx d : Int) :
    Sat (fun _ => True) (new cfg eg j (.Other p c) nx n dx d)
      (Primed.Within cfg A F l.length) := by
  unfold new
  split
  · exact Sat.bind (Ratio.newI_some cfg _ _) fun _ h => h
  · exact Sat.bind (absorbPrimer_total cfg _ _).sat fun _ _ => prime_depth hE hx hj

end Homographic

theorem Clog.egest_ratio {cfg : Cfg} (f : Nat) (r : Ratio) :
    Clog.egest cfg (f + 1) (.ratio r) = (do let (red, r) ← r.egest cfg; pure (red, .ratio r)) := by
  simp only [Clog.egest, Strategy.egest]
  cases r.egest cfg <;> rfl

theorem Clog.readsWithin_ratio (cfg : Cfg) (r : Ratio) : Clog.ReadsWithin cfg 1 (.ratio r) := by
  refine ReadsWithin.coind (fun c => ∃ r, c = .ratio r) ?_ ⟨r, rfl⟩
  rintro _ ⟨r, rfl⟩
  rw [Clog.egest_ratio]
  exact Sat.bind (r.egest_total cfg).sat fun _ _ => Sat.pure ⟨_, rfl⟩

theorem Clog.readsWithin_homographic {cfg : Cfg} {A : Panic → Prop} {F : Nat} {c : Clog}
    {l : List Reduction} (h : Clog.Operand cfg A F c l) (hF : l.length < F) (k : Coef4) :
    Clog.ReadsWithin cfg (F + 1) (.homographic c k) := by
  refine ReadsWithin.coind (fun s => (∃ r, s = .ratio r) ∨
    ∃ c k l, s = .homographic c k ∧ Clog.Operand cfg A F c l ∧ l.length < F) ?_
    (.inr ⟨c, k, l, rfl, h, hF⟩)
  rintro _ (⟨r, rfl⟩ | ⟨c, k, l, rfl, h, hF⟩)
  · rw [Clog.egest_ratio]
    exact Sat.bind (r.egest_total cfg).sat fun _ _ => Sat.pure (.inl ⟨_, rfl⟩)
  · refine Sat.bind (Q := fun r => match r.1 with
      | .ok _ => ∃ c k l, r.2 = .homographic c k ∧ Clog.Operand cfg A F c l ∧ l.length < F
      | .err s => ∃ r, s = .ratio r) ?_ ?_
    · refine Sat.bind (Homographic.egest_depth (EgestFn.Le.refl _) h hF) ?_
      rintro ⟨(_ | _), h'⟩ hr
      · obtain ⟨l', h1, h2⟩ := hr
        exact Sat.pure ⟨_, _, _, rfl, h1, h2.trans_lt hF⟩
      · exact Sat.pure hr
    · rintro ⟨(_ | s), s'⟩ hr
      · exact Sat.pure (.inr hr)
      · obtain ⟨r, rfl⟩ := hr
        obtain ⟨F, rfl⟩ : ∃ i, F = i + 1 := ⟨F - 1, by omega⟩
        show Sat _ (Clog.egest cfg (F + 1) (.ratio r)) _
        rw [Clog.egest_ratio]
        exact Sat.bind (r.egest_total cfg).sat fun _ _ => Sat.pure (.inl ⟨_, rfl⟩)

/-! ## `Combine` -/

/-- `s` is a ratio, or a homographic function of an operand with at most `L` symbols. -/
def Strategy.Reduced (cfg : Cfg) (A : Panic → Prop) (F L : Nat) (s : Strategy) : Prop :=
  (∃ r, s = .ratio r) ∨
  ∃ c k l, s = .homographic c k ∧ Clog.Operand cfg A F c l ∧ l.length ≤ L

theorem Strategy.Reduced.mono {cfg : Cfg} {A : Panic → Prop} {F L L' : Nat} {s : Strategy}
    (h : s.Reduced cfg A F L) (hL : L ≤ L') : s.Reduced cfg A F L' := by
  rcases h with h | ⟨c, k, l, h1, h2, h3⟩
  · exact .inl h
  · exact .inr ⟨c, k, l, h1, h2, h3.trans hL⟩

namespace Combine

variable {cfg : Cfg} {A : Panic → Prop} {F : Nat} {eg : EgestFn}

/-- What `reduction_ingest` leaves. -/
theorem reductionIngest_depth (hE : EgestFn.Le (Clog.egest cfg F) eg)
    {lx ly : List Reduction} {s : Combine} {j : Nat}
    (hx : Clog.Operand cfg A F s.x lx) (hy : Clog.Operand cfg A F s.y ly)
    (hj : max lx.length ly.length < j) :
    Sat (fun _ => True) (reductionIngest cfg eg j s) (fun r => match r.1 with
      | (_, some h) => ∃ l, Clog.Operand cfg A F h.x l ∧ l.length ≤ max lx.length ly.length
      | (some _, none) => True
      | (none, none) => ∃ a b lx' ly', lx = a :: lx' ∧ ly = b :: ly' ∧
          Clog.Operand cfg A F r.2.x lx' ∧ Clog.Operand cfg A F r.2.y ly') := by
  refine Sat.bind (hx.egest hE) ?_
  cases lx with
  | nil =>
    rintro ⟨_, x⟩ ⟨rfl, hx⟩
    refine Sat.bind (s.k.valueAtEndOfX_total cfg).sat fun k _ => ?_
    refine Sat.bind (Homographic.new_depth hE hy (by omega) _ _ _ _) ?_
    rintro ⟨sp, pr, ra, ho⟩ hr
    rcases sp with _ | _ <;> rcases pr with _ | _ <;> try trivial
    rcases ho with _ | h
    · rcases ra with _ | _
      · exact absurd hr (by simp [Homographic.Primed.Within])
      · trivial
    · obtain ⟨l, h1, h2⟩ := hr
      exact Sat.pure ⟨l, h1, by omega⟩
  | cons a lx =>
    rintro ⟨_, x⟩ ⟨rfl, hx⟩
    refine Sat.bind (s.k.ingestX_total cfg a).sat fun k _ => ?_
    refine Sat.bind (hy.egest hE) ?_
    cases ly with
    | nil =>
      rintro ⟨_, y⟩ ⟨rfl, hy⟩
      refine Sat.bind (k.valueAtEndOfY_total cfg).sat fun k' _ => ?_
      refine Sat.bind (Homographic.new_depth hE hx (by simp at hj; omega) _ _ _ _) ?_
      rintro ⟨sp, pr, ra, ho⟩ hr
      rcases sp with _ | _ <;> rcases pr with _ | _ <;> try trivial
      rcases ho with _ | h
      · rcases ra with _ | _
        · exact absurd hr (by simp [Homographic.Primed.Within])
        · trivial
      · obtain ⟨l, h1, h2⟩ := hr
        exact Sat.pure ⟨l, h1, by simp; omega⟩
    | cons b ly =>
      rintro ⟨_, y⟩ ⟨rfl, hy⟩
      refine Sat.bind (k.ingestY_total cfg b).sat fun k' _ => ?_
      exact Sat.pure ⟨a, b, lx, ly, rfl, rfl, hx, hy⟩

/-- `egest` needs one unit of fuel per symbol of the longer operand, and two more. -/
theorem egest_depth (hE : EgestFn.Le (Clog.egest cfg F) eg) {lx : List Reduction} : ∀ {ly : List Reduction} {s : Combine} {j : Nat},
    Clog.Operand cfg A F s.x lx → Clog.Operand cfg A F s.y ly →
    max lx.length ly.length + 1 < j →
    Sat (fun _ => True) (egest cfg eg j s) (fun r => match r.1 with
      | .ok _ => ∃ lx' ly', Clog.Operand cfg A F r.2.x lx' ∧ Clog.Operand cfg A F r.2.y ly' ∧
          max lx'.length ly'.length ≤ max lx.length ly.length
      | .err t => t.Reduced cfg A F (max lx.length ly.length)) := by
  induction lx with
  | nil =>
    intro ly s j hx hy hj
    obtain ⟨j, rfl⟩ : ∃ i, j = i + 1 := ⟨j - 1, by omega⟩
    refine Sat.bind (s.k.reductionAttempt_total cfg).sat fun a _ => ?_
    rcases a with _ | ⟨red, k⟩
    · refine Sat.bind (reductionIngest_depth hE hx hy (by omega)) ?_
      rintro ⟨⟨ra, ho⟩, s'⟩ hr
      rcases ho with _ | h
      · rcases ra with _ | r
        · obtain ⟨_, _, _, _, h, _⟩ := hr
          cases h
        · exact Sat.pure (.inl ⟨_, rfl⟩)
      · obtain ⟨l, h1, h2⟩ := hr
        cases ra <;> exact Sat.pure (.inr ⟨_, _, l, rfl, h1, h2⟩)
    · exact Sat.pure ⟨_, _, hx, hy, le_rfl⟩
  | cons a lx ih =>
    intro ly s j hx hy hj
    obtain ⟨j, rfl⟩ : ∃ i, j = i + 1 := ⟨j - 1, by omega⟩
    refine Sat.bind (s.k.reductionAttempt_total cfg).sat fun a _ => ?_
    rcases a with _ | ⟨red, k⟩
    · refine Sat.bind (reductionIngest_depth hE hx hy (by omega)) ?_
      rintro ⟨⟨ra, ho⟩, s'⟩ hr
      rcases ho with _ | h
      · rcases ra with _ | r
        · obtain ⟨_, b, lx', ly', h, rfl, hx', hy'⟩ := hr
          obtain ⟨rfl, rfl⟩ := List.cons_eq_cons.1 h
          simp only [List.length_cons] at hj ⊢
          refine (ih (j := j) hx' hy' (by omega)).mono ?_
          rintro ⟨(_ | _), s''⟩ hr
          · obtain ⟨l1, l2, h1, h2, h3⟩ := hr
            exact ⟨l1, l2, h1, h2, by omega⟩
          · exact Strategy.Reduced.mono hr (by omega)
        · exact Sat.pure (.inl ⟨_, rfl⟩)
      · obtain ⟨l, h1, h2⟩ := hr
        cases ra <;> exact Sat.pure (.inr ⟨_, _, l, rfl, h1, h2⟩)
    · exact Sat.pure ⟨_, _, hx, hy, le_rfl⟩

/-- The result of `prime` or `new` is a special, a ratio, a homographic function of an operand with
at most `L` symbols, or a combination of two such. -/
def Primed.Within (cfg : Cfg) (A : Panic → Prop) (F L : Nat) (r : Primed) : Prop :=
  (∀ h, r.2.2.2.1 = some h → ∃ l, Clog.Operand cfg A F h.x l ∧ l.length ≤ L) ∧
  (∀ c, r.2.2.2.2 = some c → ∃ lx ly, Clog.Operand cfg A F c.x lx ∧ Clog.Operand cfg A F c.y ly ∧
    max lx.length ly.length ≤ L)

theorem Primed.Within.mono {L L' : Nat} {r : Primed} (h : Primed.Within cfg A F L r)
    (hL : L ≤ L') : Primed.Within cfg A F L' r := by
  refine ⟨fun h' e => ?_, fun c e => ?_⟩
  · obtain ⟨l, h1, h2⟩ := h.1 h' e
    exact ⟨l, h1, h2.trans hL⟩
  · obtain ⟨lx, ly, h1, h2, h3⟩ := h.2 c e
    exact ⟨lx, ly, h1, h2, h3.trans hL⟩

theorem primed_of_homographic {L : Nat} {sp pr ra ho}
    (h : Homographic.Primed.Within cfg A F L (sp, pr, ra, ho)) :
    Primed.Within cfg A F L (sp, pr, ra, ho, none) := by
  refine ⟨?_, by simp⟩
  rintro _ ⟨⟩
  exact h

theorem primeIngest_depth (hE : EgestFn.Le (Clog.egest cfg F) eg)
    {lx ly : List Reduction} {s : Combine} {j : Nat}
    (hx : Clog.Operand cfg A F s.x lx) (hy : Clog.Operand cfg A F s.y ly)
    (hj : max lx.length ly.length < j) :
    Sat (fun _ => True) (primeIngest cfg eg j s) (fun r => match r with
      | .inl p => Homographic.Primed.Within cfg A F (max lx.length ly.length) p
      | .inr s => ∃ a b lx' ly', lx = a :: lx' ∧ ly = b :: ly' ∧
          Clog.Operand cfg A F s.x lx' ∧ Clog.Operand cfg A F s.y ly') := by
  have key : ∀ {r : Homographic.Primed} {L L' : Nat}, Homographic.Primed.Within cfg A F L r →
      L ≤ L' → Homographic.Primed.Within cfg A F L' r := by
    rintro ⟨_, _, _, _ | h⟩ L L' hr hL
    · exact hr
    · obtain ⟨l, h1, h2⟩ := hr
      exact ⟨l, h1, h2.trans hL⟩
  refine Sat.bind (hx.egest hE) ?_
  cases lx with
  | nil =>
    rintro ⟨_, x⟩ ⟨rfl, hx⟩
    refine Sat.bind (s.k.valueAtEndOfX_total cfg).sat fun k _ => ?_
    exact Sat.bind (Homographic.new_depth hE hy (by omega) _ _ _ _) fun r hr =>
      Sat.pure (key hr (by omega))
  | cons a lx =>
    rintro ⟨_, x⟩ ⟨rfl, hx⟩
    refine Sat.bind (s.k.ingestX_total cfg a).sat fun k _ => ?_
    refine Sat.bind (hy.egest hE) ?_
    cases ly with
    | nil =>
      rintro ⟨_, y⟩ ⟨rfl, hy⟩
      refine Sat.bind (k.valueAtEndOfY_total cfg).sat fun k' _ => ?_
      exact Sat.bind (Homographic.new_depth hE hx (by simp at hj; omega) _ _ _ _) fun r hr =>
        Sat.pure (key hr (by simp))
    | cons b ly =>
      rintro ⟨_, y⟩ ⟨rfl, hy⟩
      refine Sat.bind (k.ingestY_total cfg b).sat fun k' _ => ?_
      exact Sat.pure ⟨a, b, lx, ly, rfl, rfl, hx, hy⟩

/-- `prime` needs one unit of fuel per symbol of the longer operand, and two more. -/
theorem prime_depth (hE : EgestFn.Le (Clog.egest cfg F) eg) {lx : List Reduction} : ∀ {ly : List Reduction} {s : Combine} {j : Nat},
    Clog.Operand cfg A F s.x lx → Clog.Operand cfg A F s.y ly →
    max lx.length ly.length + 1 < j →
    Sat (fun _ => True) (prime cfg eg j s)
      (Primed.Within cfg A F (max lx.length ly.length)) := by
  induction lx with
  | nil =>
    intro ly s j hx hy hj
    obtain ⟨j, rfl⟩ : ∃ i, j = i + 1 := ⟨j - 1, by omega⟩
    refine Sat.bind (s.k.primerAttempt_total cfg).sat fun a _ => ?_
    rcases a with _ | ⟨red, k⟩
    · refine Sat.bind (primeIngest_depth hE hx hy (by omega)) ?_
      rintro (⟨sp, pr, ra, ho⟩ | s') hr
      · exact Sat.pure (primed_of_homographic hr)
      · obtain ⟨_, _, _, _, h, _⟩ := hr
        cases h
    · exact Sat.pure ⟨by simp, by rintro _ ⟨⟩; exact ⟨_, _, hx, hy, le_rfl⟩⟩
  | cons a lx ih =>
    intro ly s j hx hy hj
    obtain ⟨j, rfl⟩ : ∃ i, j = i + 1 := ⟨j - 1, by omega⟩
    refine Sat.bind (s.k.primerAttempt_total cfg).sat fun a _ => ?_
    rcases a with _ | ⟨red, k⟩
    · refine Sat.bind (primeIngest_depth hE hx hy (by omega)) ?_
      rintro (⟨sp, pr, ra, ho⟩ | s') hr
      · exact Sat.pure (primed_of_homographic hr)
      · obtain ⟨_, b, lx', ly', h, rfl, hx', hy'⟩ := hr
        obtain ⟨rfl, rfl⟩ := List.cons_eq_cons.1 h
        simp only [List.length_cons] at hj ⊢
        exact (ih (j := j) hx' hy' (by omega)).mono fun r hr => hr.mono (by omega)
    · exact Sat.pure ⟨by simp, by rintro _ ⟨⟩; exact ⟨_, _, hx, hy, le_rfl⟩⟩

end Combine

/-- Reading a ratio or a homographic function takes one more than reading the operand. -/
theorem Strategy.Reduced.readsWithin {cfg : Cfg} {A : Panic → Prop} {F L : Nat} {s : Strategy}
    (h : s.Reduced cfg A F L) (hL : L < F) : Clog.ReadsWithin cfg (F + 1) s := by
  rcases h with ⟨r, rfl⟩ | ⟨c, k, l, rfl, h1, h2⟩
  · exact (Clog.readsWithin_ratio cfg r).mono (by omega)
  · exact Clog.readsWithin_homographic h1 (by omega) k

/-- Reading a combination takes two more than reading the operands. -/
theorem Clog.readsWithin_combine {cfg : Cfg} {A : Panic → Prop} {F : Nat} {x y : Clog}
    {lx ly : List Reduction} (hx : Clog.Operand cfg A F x lx) (hy : Clog.Operand cfg A F y ly)
    (hF : max lx.length ly.length < F) (k : Coef8) :
    Clog.ReadsWithin cfg (F + 2) (.combine x y k) := by
  refine ReadsWithin.coind (fun s => Clog.ReadsWithin cfg (F + 1) s ∨
    ∃ x y k lx ly, s = .combine x y k ∧ Clog.Operand cfg A F x lx ∧
      Clog.Operand cfg A F y ly ∧ max lx.length ly.length < F) ?_
    (.inr ⟨x, y, k, lx, ly, rfl, hx, hy, hF⟩)
  have key : ∀ s f, F + 1 ≤ f → Clog.ReadsWithin cfg (F + 1) s →
      Sat (fun _ => True) (Clog.egest cfg f s) (fun r => Clog.ReadsWithin cfg (F + 1) r.2) := by
    intro s f hf hs
    rw [← (Clog.egest_le (cfg := cfg) hf s).resolve_left hs.head]
    cases e : Clog.egest cfg (F + 1) s with
    | ok r => exact hs.tail e
    | panic p => trivial
    | timeout => exact hs.head e
  rintro s (hs | ⟨x, y, k, lx, ly, rfl, hx, hy, hF⟩)
  · exact (key s (F + 2) (by omega) hs).mono fun r hr => .inl hr
  · refine Sat.bind (Q := fun r => match r.1 with
      | .ok _ => ∃ x y k lx ly, r.2 = .combine x y k ∧ Clog.Operand cfg A F x lx ∧
          Clog.Operand cfg A F y ly ∧ max lx.length ly.length < F
      | .err s => Clog.ReadsWithin cfg (F + 1) s) ?_ ?_
    · refine Sat.bind (Combine.egest_depth (Clog.egest_le (cfg := cfg) (Nat.le_succ F)) hx hy
        (by simp only [Nat.lt_add_one_iff]; omega)) ?_
      rintro ⟨(_ | s), c'⟩ hr
      · obtain ⟨lx', ly', h1, h2, h3⟩ := hr
        exact Sat.pure ⟨_, _, _, lx', ly', rfl, h1, h2, by omega⟩
      · exact Sat.pure (Strategy.Reduced.readsWithin hr hF)
    · rintro ⟨(_ | s), s'⟩ hr
      · exact Sat.pure (.inr hr)
      · exact (key s (F + 1) le_rfl hr).mono fun r hr => .inl hr

/-! ## `consume` and `compare` -/

/-- `consume` needs one unit of fuel per symbol, and one more. -/
theorem Consume.consume_depth {cfg : Cfg} {A : Panic → Prop} {F : Nat} {eg : EgestFn}
    (hE : EgestFn.Le (Clog.egest cfg F) eg) {l : List Reduction} : ∀ {c : Clog} {k : Coef4} {j : Nat},
    Clog.Operand cfg A F c l → l.length < j →
    Sat (fun _ => True) (consume cfg eg j c k)
      (fun r => ∀ c', r.1 = some c' → ∃ l', Clog.Operand cfg A F c' l' ∧ l'.length ≤ l.length) := by
  induction l with
  | nil =>
    intro c k j hc hj
    obtain ⟨j, rfl⟩ : ∃ i, j = i + 1 := ⟨j - 1, by omega⟩
    refine Sat.bind (hc.egest hE) ?_
    rintro ⟨r, c⟩ ⟨rfl, -⟩
    exact Sat.pure (by simp)
  | cons s l ih =>
    intro c k j hc hj
    obtain ⟨j, rfl⟩ : ∃ i, j = i + 1 := ⟨j - 1, by omega⟩
    refine Sat.bind (hc.egest hE) ?_
    rintro ⟨r, c⟩ ⟨rfl, hc⟩
    refine Sat.bind (ingest_total cfg s k).sat fun k' _ => ?_
    refine Sat.bind (isStateUnsafe_total cfg k').sat fun b _ => ?_
    cases b
    · refine (ih (j := j) hc (by simp at hj; omega)).mono fun r hr c' e => ?_
      obtain ⟨l', h1, h2⟩ := hr c' e
      exact ⟨l', h1, by simp; omega⟩
    · refine Sat.pure ?_
      rintro _ ⟨⟩
      exact ⟨l, hc, by simp⟩

/-- `compare_clogs` needs one unit of fuel per symbol of the shorter operand, and one more. -/
theorem Compare.compareClogs_depth {cfg : Cfg} {A : Panic → Prop} {F : Nat} {eg : EgestFn}
    (hE : EgestFn.Le (Clog.egest cfg F) eg) {l1 : List Reduction} :
    ∀ {l2 : List Reduction} {c1 c2 : Clog} {b : Bool} {j : Nat},
    Clog.Operand cfg A F c1 l1 → Clog.Operand cfg A F c2 l2 → min l1.length l2.length < j →
    Total (compareClogs cfg eg j c1 c2 b) := by
  induction l1 with
  | nil =>
    intro l2 c1 c2 b j h1 h2 hj
    obtain ⟨j, rfl⟩ : ∃ i, j = i + 1 := ⟨j - 1, by omega⟩
    refine ⟨Sat.ne_timeout (A := fun _ => True) (P := fun _ => True) ?_⟩
    refine Sat.bind (h1.egest hE) ?_
    rintro ⟨r, c1⟩ ⟨rfl, -⟩
    refine Sat.bind (h2.egest hE) ?_
    rintro ⟨r, c2⟩ -
    dsimp only
    split
    · trivial
    · trivial
  | cons s l1 ih =>
    intro l2 c1 c2 b j h1 h2 hj
    obtain ⟨j, rfl⟩ : ∃ i, j = i + 1 := ⟨j - 1, by omega⟩
    refine ⟨Sat.ne_timeout (A := fun _ => True) (P := fun _ => True) ?_⟩
    refine Sat.bind (h1.egest hE) ?_
    rintro ⟨r, c1⟩ ⟨rfl, h1'⟩
    refine Sat.bind (h2.egest hE) ?_
    cases l2 with
    | nil =>
      rintro ⟨r, c2⟩ ⟨rfl, h2⟩
      trivial
    | cons s2 l2 =>
      rintro ⟨r, c2⟩ ⟨rfl, h2⟩
      dsimp only
      split
      · trivial
      · have hj' : min l1.length l2.length < j := by simp at hj; omega
        cases s
        · exact (ih h1' h2 hj').sat
        · exact (ih h1' h2 hj').sat

end Clarith
