import Verif.SpecSession
import Verif.Proofs.StepsCaller
import Verif.Properties.Consume
import Verif.Properties.Ratio

/-! # Every session is right -/

namespace Clarith.Steps

open Spec Mut

/-! ## The shape of a rational -/

theorem shape_special (s : Special) : shape (specialValue s) = .inl s := by
  cases s <;> norm_num [shape, specialValue]

theorem shape_gt {y : ℚ} (h : 1 < y) : shape y = .inr (some .Turn, 1 / y) := by
  rw [shape, if_neg (by linarith), if_neg (by linarith), if_neg (by linarith), if_pos h]

theorem shape_unit {y : ℚ} (h0 : 0 < y) (h1 : y < 1) : shape y = .inr (none, y) := by
  rw [shape, if_neg (by linarith), if_neg (by linarith), if_neg (by linarith),
    if_neg (by linarith), if_pos h0]

theorem shape_neg {y : ℚ} (h0 : -1 < y) (h1 : y < 0) : shape y = .inr (some .Reflect, -y) := by
  rw [shape, if_neg (by linarith), if_neg (by linarith), if_neg (by linarith),
    if_neg (by linarith), if_neg (by linarith), if_pos h0]

theorem shape_lt {y : ℚ} (h : y < -1) : shape y = .inr (some .Ground, -(1 / y)) := by
  rw [shape, if_neg (by linarith), if_neg (by linarith), if_neg (by linarith),
    if_neg (by linarith), if_neg (by linarith), if_neg (by linarith)]

theorem shape_other (p : Option Primer) {x : ℚ} (h0 : 0 < x) (h1 : x < 1) :
    shape (applyPrimer p x) = .inr (p, x) := by
  have hi : 1 < 1 / x := by rwa [lt_div_iff₀ h0, one_mul]
  rcases p with - | - | - | -
  · exact shape_unit h0 h1
  · exact (shape_gt hi).trans (by rw [one_div_one_div])
  · exact (shape_neg (y := -x) (by linarith) (by linarith)).trans (by rw [neg_neg])
  · exact (shape_lt (y := -(1 / x)) (by linarith)).trans
      (by rw [one_div_neg_eq_neg_one_div, one_div_one_div, neg_neg])

theorem face_of_denotes {cfg : Cfg} {A : Panic → Prop} {n : Clarith.Number} {q : ℚ}
    (h : Clarith.Number.Denotes cfg A n q) : face n = faceOf q := by
  cases n with
  | Special s =>
    change q = _ at h
    rw [h]
    simp only [faceOf, shape_special, face]
  | Other p c =>
    obtain ⟨x, hx, rfl⟩ := h
    simp only [faceOf, shape_other p hx.1 hx.2.1, face]

/-! ## Tables and variables -/

/-- The panics allowed when reading a number. -/
def may (exact : Bool) (p : Panic) : Prop := exact = false ∧ Overflow p

theorem may_overflow {e : Bool} (p : Panic) (h : may e p) : Overflow p := h.2

/-- The table is right about the variables. -/
structure Knows (cfg : Cfg) (t : Table) (b : Plain) : Prop where
  next : b.next = t.next
  none : ∀ i, t.var i = none → b.held i = none
  some : ∀ i q, t.var i = some q →
    ∃ n, b.held i = some n ∧ Clarith.Number.Denotes cfg (may q.exact) n q.value

theorem Knows.start (cfg : Cfg) : Knows cfg Table.start Plain.start :=
  ⟨rfl, fun _ _ => rfl, fun _ _ h => nomatch h⟩

theorem Knows.clear {cfg : Cfg} {t : Table} {b : Plain} (h : Knows cfg t b) (i : Nat) :
    Knows cfg (t.set i .none) (b.set i .none) where
  next := h.next
  none j hj := by
    by_cases e : j = i
    · simp [Plain.set, e]
    · simp only [Plain.set, if_neg e]
      exact h.none j (by simpa [Table.set, e] using hj)
  some j q hj := by
    by_cases e : j = i
    · simp [Table.set, e] at hj
    · simp only [Plain.set, if_neg e]
      exact h.some j q (by simpa [Table.set, e] using hj)

theorem Knows.put {cfg : Cfg} {t : Table} {b : Plain} (h : Knows cfg t b) (i : Nat)
    {n : Clarith.Number} {q : Known}
    (hn : Clarith.Number.Denotes cfg (may q.exact) n q.value) :
    Knows cfg (t.set i (.some q)) (b.set i (.some n)) where
  next := h.next
  none j hj := by
    by_cases e : j = i
    · simp [Table.set, e] at hj
    · simp only [Plain.set, if_neg e]
      exact h.none j (by simpa [Table.set, e] using hj)
  some j q hj := by
    by_cases e : j = i
    · simp only [Table.set, if_pos e, Option.some.injEq] at hj
      subst hj
      exact ⟨n, by simp [Plain.set, e], hn⟩
    · simp only [Plain.set, if_neg e]
      exact h.some j q (by simpa [Table.set, e] using hj)

/-- A new number. -/
theorem Knows.push {cfg : Cfg} {t : Table} {b : Plain} (h : Knows cfg t b)
    {n : Clarith.Number} {q : Known}
    (hn : Clarith.Number.Denotes cfg (may q.exact) n q.value) :
    Knows cfg (t.push (.some q)) { b.set b.next (.some n) with next := b.next + 1 } := by
  have h1 := h.put t.next hn
  rw [Table.push, h.next]
  exact ⟨rfl, h1.none, h1.some⟩

/-- A new number about which nothing is known. -/
theorem Knows.push_none {cfg : Cfg} {t : Table} {b : Plain} (h : Knows cfg t b) :
    Knows cfg (t.push .none) { b.set b.next .none with next := b.next + 1 } := by
  have h1 := h.clear t.next
  rw [Table.push, h.next]
  exact ⟨rfl, h1.none, h1.some⟩

/-- Empty some variables. -/
def forget (b : Plain) : List Nat → Plain
  | [] => b
  | i :: l => forget (b.set i .none) l

theorem Knows.forget {cfg : Cfg} {t : Table} {b : Plain} (h : Knows cfg t b) (l : List Nat) :
    Knows cfg (t.forget l) (Steps.forget b l) := by
  induction l generalizing t b with
  | nil => exact h
  | cons i l ih => exact ih (h.clear i)

/-! ## Calls about which something is promised -/

/-- With enough fuel, always the same end satisfying `Q`; with less fuel, the same end or a
timeout. -/
def Settles (F : Nat → Res Answer × Plain) (Q : Res Answer → Plain → Prop) : Prop :=
  ∃ r b f₀, r ≠ .timeout ∧ Q r b ∧ (∀ f ≥ f₀, F f = (r, b)) ∧
    ∀ f, (F f).1 = .timeout ∨ F f = (r, b)

theorem Settles.of_ends {α : Type} {A : Panic → Prop} {m : Nat → Out α} {P : α → Prop}
    {F : Nat → Res Answer × Plain} {Q : Res Answer → Plain → Prop}
    (hE : Ends A m P) (hM : FuelMono m) (hg : ∀ a, P a → ∃ r b, r ≠ .timeout ∧ Q r b ∧
      ∀ f, m f = .ok a → F f = (r, b))
    (hp : ∀ p, A p → ∃ b, Q (.panic p) b ∧ ∀ f, m f = .panic p → F f = (.panic p, b))
    (ht : ∀ f, m f = .timeout → (F f).1 = .timeout) : Settles F Q := by
  rcases hE with ⟨a, ⟨f₀, ha⟩, hP⟩ | ⟨p, ⟨f₀, hpf⟩, hA⟩
  · obtain ⟨r, b, hr, hQ, hF⟩ := hg a hP
    refine ⟨r, b, f₀, hr, hQ, fun f hf => hF f (ha f hf), fun f => ?_⟩
    rcases hM.ok_or_timeout (ha f₀ le_rfl) f with e | e
    · exact .inl (ht f e)
    · exact .inr (hF f e)
  · obtain ⟨b, hQ, hF⟩ := hp p hA
    refine ⟨_, b, f₀, (by intro e; cases e), hQ, fun f hf => hF f (hpf f hf), fun f => ?_⟩
    rcases hm : m f with a | q | -
    · exact absurd (⟨f₀, hpf⟩ : Panics m p) ((hM.returns f hm).not_panics)
    · rw [(hM.panics f hm).unique ⟨f₀, hpf⟩] at hm
      exact .inr (hF f hm)
    · exact .inl (ht f hm)

theorem Settles.const {r : Res Answer} {b : Plain} {Q : Res Answer → Plain → Prop}
    {F : Nat → Res Answer × Plain} (hr : r ≠ .timeout) (hQ : Q r b) (hF : ∀ f, F f = (r, b)) :
    Settles F Q := ⟨r, b, 0, hr, hQ, fun f _ => hF f, fun f => .inr (hF f)⟩

theorem may_false {p : Panic} (h : Overflow p) : may false p := ⟨rfl, h⟩

theorem call_homographic {cfg : Cfg} {b : Plain} {x : Nat} {v : Clarith.Number}
    (hb : b.held x = some v) (f : Nat) (nx n dx d : Int) :
    Plain.call cfg f (.homographic x nx n dx d) b =
      Plain.make (Clarith.Number.homographic cfg f v nx n dx d) (b.set x none) := by
  change (match b.held x with
    | none => (pure .refused : Mut Plain Answer)
    | some v => Plain.make (Clarith.Number.homographic cfg f v nx n dx d)) (b.set x none) = _
  rw [hb]

theorem call_combine {cfg : Cfg} {b : Plain} {x y : Nat} {v w : Clarith.Number}
    (hb : b.held x = some v) (hy : b.held y = some w) (hxy : x ≠ y) (f : Nat)
    (nxy nx ny n dxy dx dy d : Int) :
    Plain.call cfg f (.combine x y nxy nx ny n dxy dx dy d) b =
      Plain.make (Clarith.Number.combine cfg f v w nxy nx ny n dxy dx dy d)
        ((b.set x none).set y none) := by
  change (match b.held x with
    | none => (pure .refused : Mut Plain Answer)
    | some v => (do
      match ← Plain.move y with
      | none => pure .refused
      | some w => Plain.make (Clarith.Number.combine cfg f v w nxy nx ny n dxy dx dy d)))
        (b.set x none) = _
  rw [hb]
  have hy' : (b.set x none).held y = some w := by simp [Plain.set, hxy.symm, hy]
  change (match (b.set x none).held y with
    | none => (pure .refused : Mut Plain Answer)
    | some w => Plain.make (Clarith.Number.combine cfg f v w nxy nx ny n dxy dx dy d))
      ((b.set x none).set y none) = _
  rw [hy']

theorem call_consume {cfg : Cfg} {b : Plain} {x : Nat} {v : Clarith.Number}
    (hb : b.held x = some v) (f : Nat) :
    Plain.call cfg f (.consume x) b =
      (match Clarith.Number.consume cfg f v with
      | .ok (none, k) => (.ok (.consumed none k), b.set x none)
      | .ok (some y, k) => (.ok (.consumed (some (face y)) k),
        { (b.set x none).set b.next (some y) with next := b.next + 1 })
      | .panic p => (.panic p, b.set x none)
      | .timeout => (.timeout, b.set x none)) := by
  change (match b.held x with
    | none => (pure .refused : Mut Plain Answer)
    | some v => (do
      let (y, k) ← eval (Clarith.Number.consume cfg f v)
      match y with
      | none => pure (.consumed none k)
      | some y => do
        Plain.keep y
        pure (.consumed (some (face y)) k))) (b.set x none) = _
  rw [hb]
  dsimp only
  rcases Clarith.Number.consume cfg f v with ⟨y | y, k⟩ | p | - <;> rfl

theorem call_compare {cfg : Cfg} {b : Plain} {x y : Nat} {v w : Clarith.Number}
    (hb : b.held x = some v) (hy : b.held y = some w) (hxy : x ≠ y) (f : Nat) :
    Plain.call cfg f (.compare x y) b =
      (match Clarith.Number.compare cfg f v w with
      | .ok o => (.ok (.order o), (b.set x none).set y none)
      | .panic p => (.panic p, (b.set x none).set y none)
      | .timeout => (.timeout, (b.set x none).set y none)) := by
  change (match b.held x with
    | none => (pure .refused : Mut Plain Answer)
    | some v => (do
      match ← Plain.move y with
      | none => pure .refused
      | some w => do
        let o ← eval (Clarith.Number.compare cfg f v w)
        pure (.order o))) (b.set x none) = _
  rw [hb]
  have hy' : (b.set x none).held y = some w := by simp [Plain.set, hxy.symm, hy]
  change (match (b.set x none).held y with
    | none => (pure .refused : Mut Plain Answer)
    | some w => (do
        let o ← eval (Clarith.Number.compare cfg f v w)
        pure (.order o))) ((b.set x none).set y none) = _
  rw [hy']
  dsimp only
  rcases Clarith.Number.compare cfg f v w with o | p | - <;> rfl

theorem call_egest {cfg : Cfg} {b : Plain} {x : Nat} {p : Option Primer} {s : Clog}
    (hb : b.held x = some (.Other p s)) (f : Nat) :
    Plain.call cfg f (.egest x) b =
      (match Clog.egest cfg f s with
      | .ok (r, s) => (.ok (.symbol r), b.set x (some (.Other p s)))
      | .panic q => (.panic q, b.set x none)
      | .timeout => (.timeout, b.set x none)) := by
  change Plain.egestAt cfg f x b = _
  unfold Plain.egestAt
  rw [hb]
  rfl

/-- A call that makes a number. -/
theorem make_settles {cfg : Cfg} {t : Table} {b : Plain} {a : Call} {v : Known}
    {sure : Bool} (h : Knows cfg (t.forget (operands a)) b) (ho : outcome cfg t a = .makes v sure)
    {m : Nat → Out Clarith.Number} (hM : FuelMono m)
    (hE : Ends (may sure) m fun n => Clarith.Number.Denotes cfg (may v.exact) n v.value)
    {F : Nat → Res Answer × Plain} (hF : ∀ f, F f = Plain.make (m f) b) :
    Settles F fun r b' => r ≠ .ok .refused ∧ ∃ t', Right cfg t a r t' ∧ Knows cfg t' b' := by
  refine .of_ends hE hM (fun n hn => ?_) (fun p hp => ?_) fun f e => ?_
  · refine ⟨.ok (.made (face n)), { b.set b.next (some n) with next := b.next + 1 },
      (by intro e; cases e), ⟨(by intro e; cases e), _, ?_, h.push hn⟩, fun f e => ?_⟩
    · unfold Right; rw [ho]
      exact .inl ⟨by rw [face_of_denotes hn], rfl⟩
    · rw [hF, e]
      rfl
  · refine ⟨b, ⟨(by intro e; cases e), _, ?_, h⟩, fun f e => ?_⟩
    · unfold Right; rw [ho]
      exact .inr ⟨⟨hp.1, p, rfl, hp.2⟩, rfl⟩
    · rw [hF, e]
      rfl
  · rw [hF, e]
    rfl

theorem fuelMono_const {α : Type} (o : Out α) : FuelMono fun _ => o := fun _ _ _ => .inr rfl

theorem ratio_min {cfg : Cfg} (hc : cfg.overflowChecks = true) {num den : Int}
    (hn : cfg.Fits num) (h : num = cfg.imin ∨ den = cfg.imin) :
    Clarith.Number.ratio cfg num den = .panic .arithOverflow := by
  unfold Clarith.Number.ratio
  by_cases e : num = cfg.imin
  · rw [e, Ratio.magnitude_min hc]; rfl
  · rw [(Ratio.magnitude_exact hn fun _ => e).1, h.resolve_left e, Ratio.magnitude_min hc]; rfl

/-- A call about which something is promised keeps the promise, and does not look at variables
that are not in the table. -/
theorem call_settles {cfg : Cfg} (hc : cfg.overflowChecks = true) {t : Table} {b : Plain}
    (h : Knows cfg t b) (a : Call) (ha : MachineCall cfg a) (hf : outcome cfg t a ≠ .free)
    (hf' : outcome cfg t a ≠ .refuse) :
    Settles (fun f => Plain.call cfg f a b) fun r b' =>
      r ≠ .ok .refused ∧ ∃ t', Right cfg t a r t' ∧ Knows cfg t' b' := by
  cases a with
  | ratio num den =>
    have hn : cfg.Fits num := ha _ (by simp)
    have hd : cfg.Fits den := ha _ (by simp)
    by_cases h1 : num = cfg.imin ∨ den = cfg.imin
    · have ho : outcome cfg t (.ratio num den) = .reject .arithOverflow := if_pos h1
      refine .const (r := .panic .arithOverflow) (b := b) (by intro e; cases e)
        ⟨(by intro e; cases e), t, ?_, h⟩ fun f => ?_
      · unfold Right; rw [ho]; exact ⟨rfl, rfl⟩
      · change Plain.make (Clarith.Number.ratio cfg num den) b = _
        rw [ratio_min hc hn h1]; rfl
    by_cases h2 : den = 0
    · have ho : outcome cfg t (.ratio num den) = .reject .divisionByZero :=
        (if_neg h1).trans (if_pos h2)
      refine .const (r := .panic .divisionByZero) (b := b) (by intro e; cases e)
        ⟨(by intro e; cases e), t, ?_, h⟩ fun f => ?_
      · unfold Right; rw [ho]; exact ⟨rfl, rfl⟩
      · change Plain.make (Clarith.Number.ratio cfg num den) b = _
        rw [h2, C03_zero_denominator cfg num hn, if_neg fun e => h1 (.inl e.2)]; rfl
    · have ho : outcome cfg t (.ratio num den) = .makes ⟨(num : ℚ) / den, true⟩ true :=
        (if_neg h1).trans (if_neg h2)
      push Not at h1
      obtain ⟨v, e, hv⟩ := C01_ratio_exact cfg num den hn hd h2 fun _ => h1
      exact make_settles h ho (fuelMono_const _)
        (.inl ⟨v, ⟨0, fun _ _ => e⟩, hv.weaken fun _ h => h.elim⟩) fun f => rfl
  | ratioU positive num den =>
    by_cases h2 : den = 0
    · have ho : outcome cfg t (.ratioU positive num den) = .reject .divisionByZero := if_pos h2
      refine .const (r := .panic .divisionByZero) (b := b) (by intro e; cases e)
        ⟨(by intro e; cases e), t, ?_, h⟩ fun f => ?_
      · unfold Right; rw [ho]; exact ⟨rfl, rfl⟩
      · change Plain.make (Clarith.Number.ratioU positive num den) b = _
        rw [h2, C03_zero_denominator_u]; rfl
    · have ho : outcome cfg t (.ratioU positive num den) =
        .makes ⟨(if positive then 1 else -1) * ((num : ℚ) / den), true⟩ true := if_neg h2
      obtain ⟨v, e, hv⟩ := C02_ratio_u_exact cfg positive num den ha.1 ha.2 h2
      exact make_settles h ho (fuelMono_const _)
        (.inl ⟨v, ⟨0, fun _ _ => e⟩, hv.weaken fun _ h => h.elim⟩) fun f => rfl
  | homographic x nx n dx d =>
    cases hx : t.var x with
    | none => exact absurd (by simp only [outcome, hx]) hf
    | some q =>
      obtain ⟨v, hb, hv⟩ := h.some x q hx
      by_cases hD : (dx : ℚ) * q.value + d = 0
      · exact absurd (by simp only [outcome, hx, if_pos hD]) hf
      refine make_settles (sure := false) (v := ⟨(nx * q.value + n) / (dx * q.value + d), false⟩) (h.clear x)
        (by simp only [outcome, hx, if_neg hD])
        (Clarith.Number.homographic_mono cfg v nx n dx d) ?_
        fun f => call_homographic hb f nx n dx d
      refine ((C16_homographic cfg hc v q.value (hv.weaken may_overflow) nx n dx d
        (ha _ (by simp)) (ha _ (by simp)) (ha _ (by simp)) (ha _ (by simp)) hD).weaken
          fun _ => may_false).mono fun r hr => hr.weaken fun _ => may_false
  | combine x y nxy nx ny n dxy dx dy d =>
    by_cases hxy : x = y
    · exact absurd (by simp only [outcome, if_pos hxy]) hf
    cases hx : t.var x with
    | none => exact absurd (by simp only [outcome, hx, if_neg hxy]) hf
    | some q =>
      cases hy : t.var y with
      | none => exact absurd (by simp only [outcome, hx, hy, if_neg hxy]) hf
      | some r =>
        obtain ⟨v, hb, hv⟩ := h.some x q hx
        obtain ⟨w, hb', hw⟩ := h.some y r hy
        by_cases hD : (dxy : ℚ) * q.value * r.value + dx * q.value + dy * r.value + d = 0
        · exact absurd (by simp only [outcome, hx, hy, if_neg hxy, if_pos hD]) hf
        refine make_settles (sure := false) (v := ⟨(nxy * q.value * r.value + nx * q.value + ny * r.value + n) /
          (dxy * q.value * r.value + dx * q.value + dy * r.value + d), false⟩)
          ((h.clear x).clear y)
          (by simp only [outcome, hx, hy, if_neg hxy, if_neg hD])
          (Clarith.Number.combine_mono cfg v w nxy nx ny n dxy dx dy d) ?_
          fun f => call_combine hb hb' hxy f nxy nx ny n dxy dx dy d
        refine ((C20_combine cfg hc v w q.value r.value (hv.weaken may_overflow)
          (hw.weaken may_overflow) nxy nx ny n dxy dx dy d ha hD).weaken
            fun _ => may_false).mono fun r hr => hr.weaken fun _ => may_false
  | egest x =>
    cases hx : t.var x with
    | none => exact absurd (by simp only [outcome, hx]) hf
    | some q =>
      obtain ⟨v, hb, hv⟩ := h.some x q hx
      cases v with
      | Special s =>
        change q.value = _ at hv
        exact absurd (by simp only [outcome, hx, hv, shape_special]) hf'
      | Other p c =>
        obtain ⟨z, hz, hq⟩ := hv
        have ho : outcome cfg t (.egest x) = .reads x p z q.exact := by
          simp only [outcome, hx, hq, shape_other p hz.1 hz.2.1]
        refine .of_ends hz.step (Clog.egest_mono cfg c) (fun r hr => ?_) (fun e he => ?_)
          fun f e => ?_
        · refine ⟨.ok (.symbol r.1), b.set x (some (.Other p r.2)), (by intro e; cases e),
            ⟨(by intro e; cases e), t.set x (some ⟨applyPrimer p (afterSymbol z), q.exact⟩), ?_,
              h.put x ⟨afterSymbol z, hr.2, rfl⟩⟩, fun f e => ?_⟩
          · unfold Right; rw [ho]
            exact .inl ⟨by rw [hr.1]; rfl, rfl⟩
          · rw [call_egest hb, e]
        · refine ⟨b.set x none, ⟨(by intro e; cases e), _, ?_, h.clear x⟩, fun f e => ?_⟩
          · unfold Right; rw [ho]
            exact .inr ⟨⟨he.1, e, rfl, he.2⟩, rfl⟩
          · rw [call_egest hb, e]
        · rw [call_egest hb, e]
  | consume x =>
    cases hx : t.var x with
    | none => exact absurd (by simp only [outcome, hx]) hf
    | some q =>
      obtain ⟨v, hb, hv⟩ := h.some x q hx
      have ho : outcome cfg t (.consume x) = .consumes q := by simp only [outcome, hx]
      refine .of_ends (Number.consume_ends cfg _ v q.value hv) (Number.consume_mono cfg v)
        (fun r hr => ?_) (fun e he => ?_) fun f e => ?_
      · obtain ⟨y, k⟩ := r
        obtain ⟨⟨z, hz, hd, hq⟩, -, hl⟩ := hr
        cases y with
        | none =>
          change z = _ at hz
          subst hz
          refine ⟨.ok (.consumed none k), b.set x none, (by intro e; cases e),
            ⟨(by intro e; cases e), _, ?_, h.clear x⟩, fun f e => ?_⟩
          · unfold Right; rw [ho]
            rw [mul_one_div] at hd hq
            rw [mul_one_div] at hq
            exact .inl ⟨k, rfl, hd, hq, rfl⟩
          · rw [call_consume hb, e]
        | some y =>
          obtain ⟨-, p, c, m, rs, c', -, rfl, -⟩ := hl
          obtain ⟨z', hz', e'⟩ := hz
          change z = z' at e'
          subst e'
          refine ⟨.ok (.consumed (some (.other none)) k), _, (by intro e; cases e),
            ⟨(by intro e; cases e), _, ?_, (h.clear x).push (n := .Other none c')
              (q := ⟨z, q.exact⟩) ⟨z, hz', rfl⟩⟩, fun f e => ?_⟩
          · unfold Right; rw [ho]
            exact .inr (.inl ⟨k, z, rfl, hz'.1, hz'.2.1, hd, hq, rfl⟩)
          · rw [call_consume hb, e]
            rfl
      · refine ⟨b.set x none, ⟨(by intro e; cases e), _, ?_, h.clear x⟩, fun f e => ?_⟩
        · unfold Right; rw [ho]
          exact .inr (.inr ⟨⟨he.1, e, rfl, he.2⟩, rfl⟩)
        · rw [call_consume hb, e]
      · rw [call_consume hb, e]
  | compare x y =>
    by_cases hxy : x = y
    · exact absurd (by simp only [outcome, if_pos hxy]) hf
    cases hx : t.var x with
    | none => exact absurd (by simp only [outcome, hx, if_neg hxy]) hf
    | some q =>
      cases hy : t.var y with
      | none => exact absurd (by simp only [outcome, hx, hy, if_neg hxy]) hf
      | some r =>
        obtain ⟨v, hb, hv⟩ := h.some x q hx
        obtain ⟨w, hb', hw⟩ := h.some y r hy
        have ho : outcome cfg t (.compare x y) =
            .orders (order q.value r.value) (q.exact && r.exact) := by
          simp only [outcome, hx, hy, if_neg hxy]
        have weak1 : ∀ p, may q.exact p → may (q.exact && r.exact) p :=
          fun p h => ⟨by rw [h.1]; rfl, h.2⟩
        have weak2 : ∀ p, may r.exact p → may (q.exact && r.exact) p :=
          fun p h => ⟨by rw [h.1, Bool.and_false], h.2⟩
        refine .of_ends (C13_compare cfg _ v w q.value r.value (hv.weaken weak1)
          (hw.weaken weak2)) (Number.compare_mono cfg v w) (fun o hr => ?_) (fun e he => ?_)
          fun f e => ?_
        · refine ⟨.ok (.order o), (b.set x none).set y none, (by intro e; cases e),
            ⟨(by intro e; cases e), _, ?_, (h.clear x).clear y⟩, fun f e => ?_⟩
          · unfold Right; rw [ho]
            refine .inl ⟨?_, rfl⟩
            congr 2
            unfold order
            split_ifs with h1 h2
            · exact hr.1.2 h1
            · exact hr.2.1.2 h2
            · exact hr.2.2.2 (lt_of_le_of_ne (not_lt.1 h1) (Ne.symm h2))
          · rw [call_compare hb hb' hxy, e]
        · refine ⟨(b.set x none).set y none, ⟨(by intro e; cases e), _, ?_,
            (h.clear x).clear y⟩, fun f e => ?_⟩
          · unfold Right; rw [ho]
            exact .inr ⟨⟨he.1, e, rfl, he.2⟩, rfl⟩
          · rw [call_compare hb hb' hxy, e]
        · rw [call_compare hb hb' hxy, e]
  | special s =>
    exact make_settles (sure := true) (v := ⟨specialValue s, true⟩) h rfl (fuelMono_const _)
      (.inl ⟨.Special s, ⟨0, fun _ _ => rfl⟩, rfl⟩) fun f => rfl
  | reprime x p =>
    cases hx : t.var x with
    | none => exact absurd (by simp only [outcome, hx]) hf
    | some q =>
      obtain ⟨v, hb, hv⟩ := h.some x q hx
      have hcall : ∀ f, Plain.call cfg f (.reprime x p) b = Plain.make (do
          let (_, c) ← v.unwrapOther
          pure (.Other p c)) (b.set x none) := by
        intro f
        change (match b.held x with
          | none => (pure .refused : Mut Plain Answer)
          | some v => Plain.make (do
            let (_, c) ← v.unwrapOther
            pure (.Other p c))) (b.set x none) = _
        rw [hb]
      cases v with
      | Special s =>
        change q.value = _ at hv
        have ho : outcome cfg t (.reprime x p) = .reject .notOther := by
          simp only [outcome, hx, hv, shape_special]
        refine .const (r := .panic .notOther) (b := b.set x none) (by intro e; cases e)
          ⟨(by intro e; cases e), _, ?_, h.clear x⟩ hcall
        unfold Right; rw [ho]; exact ⟨rfl, rfl⟩
      | Other p' c =>
        obtain ⟨z, hz, hq⟩ := hv
        have ho : outcome cfg t (.reprime x p) = .makes ⟨applyPrimer p z, q.exact⟩ true := by
          simp only [outcome, hx, hq, shape_other p' hz.1 hz.2.1]
        exact make_settles (h.clear x) ho (fuelMono_const _)
          (.inl ⟨.Other p c, ⟨0, fun _ _ => rfl⟩, z, hz, rfl⟩) hcall
  | unwrapSpecial x =>
    cases hx : t.var x with
    | none => exact absurd (by simp only [outcome, hx]) hf
    | some q =>
      obtain ⟨v, hb, hv⟩ := h.some x q hx
      have hcall : ∀ f, Plain.call cfg f (.unwrapSpecial x) b = (do
          let s ← eval v.unwrapSpecial
          pure (.fixed s) : Mut Plain Answer) (b.set x none) := by
        intro f
        change (match b.held x with
          | none => (pure .refused : Mut Plain Answer)
          | some v => (do
            let s ← eval v.unwrapSpecial
            pure (.fixed s))) (b.set x none) = _
        rw [hb]
      cases v with
      | Special s =>
        change q.value = _ at hv
        have ho : outcome cfg t (.unwrapSpecial x) = .fixes s := by
          simp only [outcome, hx, hv, shape_special]
        refine .const (r := .ok (.fixed s)) (b := b.set x none) (by intro e; cases e)
          ⟨(by intro e; cases e), _, ?_, h.clear x⟩ hcall
        unfold Right; rw [ho]; exact ⟨rfl, rfl⟩
      | Other p' c =>
        obtain ⟨z, hz, hq⟩ := hv
        have ho : outcome cfg t (.unwrapSpecial x) = .reject .notSpecial := by
          simp only [outcome, hx, hq, shape_other p' hz.1 hz.2.1]
        refine .const (r := .panic .notSpecial) (b := b.set x none) (by intro e; cases e)
          ⟨(by intro e; cases e), _, ?_, h.clear x⟩ hcall
        unfold Right; rw [ho]; exact ⟨rfl, rfl⟩

/-! ## Calls about which nothing is promised -/

theorem Under.trans {b b' b'' : Plain} (h : Under b b') (h' : Under b' b'') : Under b b'' where
  next := h.next.trans h'.next
  held i := by
    rcases h.held i with e | e
    · exact .inl e
    · rw [e]
      exact h'.held i

theorem Under.clear {b b' : Plain} (h : Under b b') (i : Nat) :
    Under (b.set i none) (b'.set i none) where
  next := h.next
  held j := by
    by_cases e : j = i
    · exact .inl (by simp [Plain.set, e])
    · simpa [Plain.set, e] using h.held j

theorem Under.drop {b b' : Plain} (h : Under b b') (i : Nat) (v : Option Clarith.Number) :
    Under (b.set i none) (b'.set i v) where
  next := h.next
  held j := by
    by_cases e : j = i
    · exact .inl (by simp [Plain.set, e])
    · simpa [Plain.set, e] using h.held j

theorem Under.drop_left {b b' : Plain} (h : Under b b') (i : Nat) : Under (b.set i none) b' where
  next := h.next
  held j := by
    by_cases e : j = i
    · exact .inl (by simp [Plain.set, e])
    · simpa [Plain.set, e] using h.held j

/-- The variables after a call about which nothing is promised. -/
def vague (b : Plain) (l : List Nat) (r : Res Answer) : Plain :=
  if bears r then { (forget b l).set (forget b l).next none with next := (forget b l).next + 1 }
  else forget b l

theorem push_under {b b' : Plain} (h : Under b b') (v : Option Clarith.Number) :
    Under { b.set b.next none with next := b.next + 1 }
      { b'.set b'.next v with next := b'.next + 1 } := by
  have := h.drop b.next v
  refine ⟨congrArg (· + 1) h.next, fun i => ?_⟩
  rw [← h.next]
  exact this.held i

theorem make_under {b b' : Plain} (h : Under b b') (o : Out Clarith.Number) :
    Under (vague b [] (Plain.make o b').1) (Plain.make o b').2 := by
  cases o with
  | ok v => exact push_under h (some v)
  | panic p => exact h
  | timeout => exact h

theorem move_under {b b' : Plain} (h : Under b b') (i : Nat) (l : List Nat)
    {g : Option Clarith.Number → Mut Plain Answer} (h0 : g none = pure .refused)
    (hu : Under (forget (b.set i none) l) (b'.set i none))
    (hg : ∀ v, Under (b.set i none) (b'.set i none) →
      Under (vague (b.set i none) l (g (some v) (b'.set i none)).1) (g (some v) (b'.set i none)).2) :
    Under (vague b (i :: l) ((Plain.move i >>= g) b').1) ((Plain.move i >>= g) b').2 := by
  have e : (Plain.move i >>= g) b' = g (b'.held i) (b'.set i none) := rfl
  rw [e]
  cases b'.held i with
  | none => rw [h0]; exact hu
  | some v => exact hg v (h.clear i)

theorem call_vague (cfg : Cfg) (f : Nat) (a : Call) {b b' : Plain} (h : Under b b') :
    Under (vague b (operands a) (Plain.call cfg f a b').1) (Plain.call cfg f a b').2 := by
  cases a with
  | ratio num den => exact make_under h _
  | ratioU positive num den => exact make_under h _
  | homographic x nx n dx d =>
    exact move_under h x [] rfl (h.clear x) fun v h => make_under h _
  | combine x y nxy nx ny n dxy dx dy d =>
    exact move_under h x [y] rfl ((h.clear x).drop_left y) fun v h =>
      move_under h y [] rfl (h.clear y) fun w h => make_under h _
  | egest x =>
    change Under (vague b [x] (Plain.egestAt cfg f x b').1) (Plain.egestAt cfg f x b').2
    unfold Plain.egestAt
    cases b'.held x with
    | none => exact h.drop_left x
    | some v =>
      cases v with
      | Special s => exact h.drop_left x
      | Other p s =>
        dsimp only
        cases Clog.egest cfg f s with
        | ok r => exact h.drop x _
        | panic p => exact h.clear x
        | timeout => exact h.clear x
  | consume x =>
    refine move_under h x [] rfl (h.clear x) fun v h => ?_
    dsimp only
    rcases Clarith.Number.consume cfg f v with ⟨y | y, k⟩ | p | -
    · exact h
    · exact push_under h _
    · exact h
    · exact h
  | compare x y =>
    refine move_under h x [y] rfl ((h.clear x).drop_left y) fun v h =>
      move_under h y [] rfl (h.clear y) fun w h => ?_
    dsimp only
    rcases Clarith.Number.compare cfg f v w with o | p | -
    · exact h
    · exact h
    · exact h
  | special s => exact make_under h _
  | reprime x p => exact move_under h x [] rfl (h.clear x) fun v h => make_under h _
  | unwrapSpecial x =>
    refine move_under h x [] rfl (h.clear x) fun v h => ?_
    cases v with
    | Special s => exact h
    | Other p c => exact h

/-! ## One call -/

/-- Where the caller stands: its variables hold the numbers of the table, and maybe others. -/
def At (cfg : Cfg) (t : Table) (k : Plain) (c : Caller) : Prop :=
  Knows cfg t k ∧ ∃ b fps, Inv c b fps ∧ Under k b

theorem egest_special {cfg : Cfg} {t : Table} {a : Call} (h : outcome cfg t a = .refuse) :
    ∃ x q s, a = .egest x ∧ t.var x = some q ∧ shape q.value = .inl s := by
  cases a with
  | ratio num den =>
    simp only [outcome] at h
    split_ifs at h
  | ratioU positive num den =>
    simp only [outcome] at h
    split_ifs at h
  | homographic x nx n dx d =>
    simp only [outcome] at h
    split at h
    · split_ifs at h
    · cases h
  | combine x y nxy nx ny n dxy dx dy d =>
    simp only [outcome] at h
    split_ifs at h
    split at h
    · split_ifs at h
    · cases h
  | egest x =>
    simp only [outcome] at h
    split at h
    · rename_i q hq
      split at h
      · rename_i s hs
        exact ⟨x, q, s, rfl, hq, hs⟩
      · cases h
    · cases h
  | consume x =>
    simp only [outcome] at h
    split at h
    · cases h
    · cases h
  | compare x y =>
    simp only [outcome] at h
    split_ifs at h
    split at h
    · cases h
    · cases h
  | special s => cases h
  | reprime x p =>
    simp only [outcome] at h
    split at h
    · split at h
      · cases h
      · cases h
    · cases h
  | unwrapSpecial x =>
    simp only [outcome] at h
    split at h
    · split at h
      · cases h
      · cases h
    · cases h

/-- One call: the answer is right, and the new table is one of finitely many that depend only on
the numbers in the table; with enough fuel only calls about which nothing is promised time out. -/
theorem call_right {cfg : Cfg} (hc : cfg.overflowChecks = true) {t : Table} {k : Plain}
    (h : Knows cfg t k) (a : Call) (ha : MachineCall cfg a) :
    ∃ (l : List (Table × Plain)) (f₀ : Nat), ∀ f c, At cfg t k c →
      ((Caller.call cfg f a c).1 = .timeout ∧ (f₀ ≤ f → outcome cfg t a = .free)) ∨
      ((Caller.call cfg f a c).1 ≠ .timeout ∧ ∃ s ∈ l, Right cfg t a (Caller.call cfg f a c).1 s.1 ∧
        At cfg s.1 s.2 (Caller.call cfg f a c).2) := by
  by_cases hf : outcome cfg t a = .free
  · refine ⟨[((t.forget (operands a)).push none, { (forget k (operands a)).set
        (forget k (operands a)).next none with next := (forget k (operands a)).next + 1 }),
      (t.forget (operands a), forget k (operands a))], 0, fun f c hA => ?_⟩
    by_cases ht : (Caller.call cfg f a c).1 = .timeout
    · exact .inl ⟨ht, fun _ => hf⟩
    obtain ⟨-, b, fps, hI, hu⟩ := hA
    obtain ⟨he, hs, b₁, fps', hI', hu', -⟩ := call_same cfg f a hI
    have hv := (call_vague cfg f a hu).trans hu'
    rw [← he] at hv
    refine .inr ⟨ht, ?_⟩
    have hk := h.forget (operands a)
    unfold vague at hv
    split_ifs at hv with hb
    · refine ⟨_, List.mem_cons_self, ?_, hk.push_none, b₁, fps', hI', hv⟩
      unfold Right
      rw [hf]
      exact ⟨hs, (if_pos hb).symm⟩
    · refine ⟨_, List.mem_cons_of_mem _ List.mem_cons_self, ?_, hk, b₁, fps', hI', hv⟩
      unfold Right
      rw [hf]
      exact ⟨hs, (if_neg hb).symm⟩
  by_cases hf' : outcome cfg t a = .refuse
  · refine ⟨[(t, k)], 0, fun f c hA => .inr ?_⟩
    obtain ⟨x, q, s, rfl, hq, hsh⟩ := egest_special hf'
    obtain ⟨n, hn, hd⟩ := h.some x q hq
    obtain ⟨-, b, fps, hI, hu⟩ := hA
    have hb : b.held x = some n := by
      rcases hu.held x with e | e
      · rw [hn] at e; cases e
      · rw [← e, hn]
    have hr : Plain.call cfg f (.egest x) b = (.ok .refused, b) := by
      change Plain.egestAt cfg f x b = _
      unfold Plain.egestAt
      rw [hb]
      cases n with
      | Special s => rfl
      | Other p c =>
        obtain ⟨z, hz, e⟩ := hd
        rw [e, shape_other p hz.1 hz.2.1] at hsh
        cases hsh
    obtain ⟨he, hs, b₁, fps', hI', hu', -⟩ := call_same cfg f (.egest x) hI
    rw [hr] at he hu'
    change _ = Res.ok Answer.refused at he
    refine ⟨(by rw [he]; intro e; cases e), _, List.mem_cons_self, ?_, h, b₁, fps', hI',
      hu.trans hu'⟩
    unfold Right
    rw [hf']
    exact ⟨he, rfl⟩
  obtain ⟨r, k', f₀, hr, ⟨hr', t', hR, hk'⟩, hF, hF'⟩ := call_settles hc h a ha hf hf'
  refine ⟨[(t', k')], f₀, fun f c hA => ?_⟩
  obtain ⟨-, b, fps, hI, hu⟩ := hA
  obtain ⟨he, hs, b₁, fps', hI', hu', -⟩ := call_same cfg f a hI
  have hrf : (Plain.call cfg f a k).1 ≠ .ok .refused := by
    rcases hF' f with e | e
    · intro e'
      have := e.symm.trans e'
      cases this
    · intro e'
      change Plain.call cfg f a k = _ at e
      rw [e] at e'
      exact hr' e'
  obtain ⟨h1, h2⟩ := call_under cfg f a hu hrf
  rcases hF' f with e | e
  · refine .inl ⟨he.trans (h1.trans e), fun hf => ?_⟩
    have e' := hF f hf
    change Plain.call cfg f a k = _ at e'
    change (Plain.call cfg f a k).1 = _ at e
    rw [e'] at e
    exact absurd e hr
  · change Plain.call cfg f a k = _ at e
    rw [e] at h1 h2
    refine .inr ⟨?_, (t', k'), List.mem_cons_self, ?_, hk', b₁, fps', hI', h2.trans hu'⟩
    · rw [he, h1]
      exact hr
    · rw [he, h1]
      exact hR

/-! ## Sessions -/

theorem session_cons (cfg : Cfg) (f : Nat) (a : Call) (calls : List Call) (c : Caller) :
    Caller.session cfg f (a :: calls) c =
      if (Caller.call cfg f a c).1 = .timeout then [.timeout]
      else (Caller.call cfg f a c).1 :: Caller.session cfg f calls (Caller.call cfg f a c).2 := by
  conv_lhs => unfold Caller.session
  generalize Caller.call cfg f a c = r
  obtain ⟨r, c'⟩ := r
  cases r with
  | timeout => exact (if_pos rfl).symm
  | shared => exact (if_neg (by intro e; cases e)).symm
  | ok a => exact (if_neg (by intro e; cases e)).symm
  | panic p => exact (if_neg (by intro e; cases e)).symm

/-- Every answer of a session is right. -/
theorem session_rights {cfg : Cfg} (hc : cfg.overflowChecks = true) (f : Nat) (calls : List Call)
    (hm : ∀ a ∈ calls, MachineCall cfg a) {t : Table} {k : Plain} {c : Caller}
    (h : At cfg t k c) : Rights cfg false t calls (Caller.session cfg f calls c) := by
  induction calls generalizing t k c with
  | nil => rfl
  | cons a calls ih =>
    obtain ⟨l, f₀, hl⟩ := call_right hc h.1 a (hm a List.mem_cons_self)
    rw [session_cons]
    rcases hl f c h with ⟨ht, -⟩ | ⟨ht, s, -, hR, hA⟩
    · rw [if_pos ht]
      exact .inl ⟨rfl, fun e => nomatch e⟩
    · rw [if_neg ht]
      exact .inr ⟨_, s.1, _, rfl, ht, hR, ih (fun a h => hm a (List.mem_cons_of_mem _ h)) hA⟩

theorem common_fuel {α : Type*} (l : List α) {P : α → Nat → Prop}
    (h : ∀ s ∈ l, ∃ f₀, ∀ f ≥ f₀, P s f) : ∃ f₀, ∀ f ≥ f₀, ∀ s ∈ l, P s f := by
  induction l with
  | nil => exact ⟨0, fun _ _ _ h => nomatch h⟩
  | cons s l ih =>
    obtain ⟨f₁, h1⟩ := h s List.mem_cons_self
    obtain ⟨f₂, h2⟩ := ih fun s hs => h s (List.mem_cons_of_mem _ hs)
    refine ⟨max f₁ f₂, fun f hf s' hs => ?_⟩
    rcases List.mem_cons.1 hs with rfl | hs
    · exact h1 f ((le_max_left _ _).trans hf)
    · exact h2 f ((le_max_right _ _).trans hf) s' hs

/-- With enough fuel only a call about which nothing is promised times out. -/
theorem session_patient {cfg : Cfg} (hc : cfg.overflowChecks = true) (calls : List Call)
    (hm : ∀ a ∈ calls, MachineCall cfg a) (t : Table) (k : Plain) :
    ∃ f₀, ∀ f ≥ f₀, ∀ c, At cfg t k c →
      Rights cfg true t calls (Caller.session cfg f calls c) := by
  induction calls generalizing t k with
  | nil => exact ⟨0, fun _ _ _ _ => rfl⟩
  | cons a calls ih =>
    by_cases hk : Knows cfg t k
    swap
    · exact ⟨0, fun _ _ _ h => absurd h.1 hk⟩
    obtain ⟨l, f₀, hl⟩ := call_right hc hk a (hm a List.mem_cons_self)
    obtain ⟨f₁, h1⟩ := common_fuel l (P := fun s f => ∀ c, At cfg s.1 s.2 c →
      Rights cfg true s.1 calls (Caller.session cfg f calls c)) fun s _ =>
        ih (fun a h => hm a (List.mem_cons_of_mem _ h)) s.1 s.2
    refine ⟨max f₀ f₁, fun f hf c h => ?_⟩
    rw [session_cons]
    rcases hl f c h with ⟨ht, hfree⟩ | ⟨ht, s, hs, hR, hA⟩
    · rw [if_pos ht]
      exact .inl ⟨rfl, fun _ => hfree ((le_max_left _ _).trans hf)⟩
    · rw [if_neg ht]
      exact .inr ⟨_, s.1, _, rfl, ht, hR, h1 f ((le_max_right _ _).trans hf) s hs _ hA⟩

theorem At.start (cfg : Cfg) : At cfg Table.start Plain.start Caller.start :=
  ⟨Knows.start cfg, _, _, Inv.start, .refl _⟩

end Clarith.Steps
