import Verif.Model.Timed
import Verif.Proofs.Fuel

/-! # Counting rounds -/

namespace Clarith

open Out

namespace Timed

variable {α β : Type}

/-! ## Without the count it is the model -/

@[simp] theorem out_pure (a : α) : (pure a : Timed α).out = .ok a := rfl

@[simp] theorem out_lift (m : Out α) : (liftM m : Timed α).out = m := rfl

@[simp] theorem out_round : round.out = .ok () := rfl

@[simp] theorem out_timeout : (timeout : Timed α).out = .timeout := rfl

@[simp] theorem out_bind (m : Timed α) (g : α → Timed β) :
    (m >>= g).out = m.out >>= fun a => (g a).out := by
  show (Timed.bind m g).out = Out.bind m.out fun a => (g a).out
  unfold Timed.bind
  cases m.out <;> rfl

/-- The counted function does the same as the one of the model. -/
def Same (eg : EgestFn) (eg' : Clarith.EgestFn) : Prop := ∀ c, (eg c).out = eg' c

variable {cfg : Cfg} {eg : EgestFn} {eg' : Clarith.EgestFn}

theorem bind_congr {m : Out α} {g g' : α → Out β} (h : ∀ a, g a = g' a) : m >>= g = m >>= g' := by
  rw [funext h]

theorem Homographic.primeIngest_out (he : Same eg eg') (h : Homographic) :
    (Homographic.primeIngest cfg eg h).out = Clarith.Homographic.primeIngest cfg eg' h := by
  unfold Homographic.primeIngest Clarith.Homographic.primeIngest
  simp only [out_bind, he h.x]
  refine bind_congr ?_
  rintro ⟨r, x⟩
  rcases r with _ | _ | _ <;> simp

theorem Homographic.reductionIngest_out (he : Same eg eg') (h : Homographic) :
    (Homographic.reductionIngest cfg eg h).out = Clarith.Homographic.reductionIngest cfg eg' h := by
  unfold Homographic.reductionIngest Clarith.Homographic.reductionIngest
  simp only [out_bind, he h.x]
  refine bind_congr ?_
  rintro ⟨r, x⟩
  rcases r with _ | _ | _
  · simp only [out_bind, out_lift]
    refine bind_congr ?_
    rintro ⟨num, den⟩
    refine bind_congr ?_
    rintro ⟨_ | _, _ | _, _ | _⟩ <;> rfl
  all_goals simp

theorem Homographic.prime_out (he : Same eg eg') (f : Nat) (h : Homographic) :
    (Homographic.prime cfg eg f h).out = Clarith.Homographic.prime cfg eg' f h := by
  induction f generalizing h with
  | zero => rfl
  | succ f ih =>
    unfold Homographic.prime Clarith.Homographic.prime
    simp only [out_bind, out_round, out_lift, ok_bind]
    refine bind_congr ?_
    rintro (_ | ⟨p, k⟩)
    · simp only [out_bind, Homographic.primeIngest_out he]
      refine bind_congr ?_
      rintro ⟨_ | ⟨s, p, r⟩, h⟩
      · exact ih h
      · rfl
    · rfl

theorem Homographic.egest_out (he : Same eg eg') (f : Nat) (h : Homographic) :
    (Homographic.egest cfg eg f h).out = Clarith.Homographic.egest cfg eg' f h := by
  induction f generalizing h with
  | zero => rfl
  | succ f ih =>
    unfold Homographic.egest Clarith.Homographic.egest
    simp only [out_bind, out_round, out_lift, ok_bind]
    refine bind_congr ?_
    rintro (_ | ⟨p, k⟩)
    · simp only [out_bind, Homographic.reductionIngest_out he]
      refine bind_congr ?_
      rintro ⟨_ | r, h⟩
      · exact ih h
      · rfl
    · rfl

theorem Homographic.new_out (he : Same eg eg') (f : Nat) (x : Number) (nx n dx d : Int) :
    (Homographic.new cfg eg f x nx n dx d).out = Clarith.Homographic.new cfg eg' f x nx n dx d := by
  unfold Homographic.new Clarith.Homographic.new
  split_ifs
  · rfl
  · rcases x with (_ | _ | _) | ⟨p, c⟩
    · simp only [out_bind, out_lift]
    · rfl
    · simp only [out_bind, out_lift]
    · simp only [out_bind, out_lift, Homographic.prime_out he]

theorem Combine.primeIngest_out (he : Same eg eg') (f : Nat) (s : Combine) :
    (Combine.primeIngest cfg eg f s).out = Clarith.Combine.primeIngest cfg eg' f s := by
  unfold Combine.primeIngest Clarith.Combine.primeIngest
  simp only [out_bind, he s.x]
  refine bind_congr ?_
  rintro ⟨_ | rx, x⟩
  · simp only [out_bind, out_lift, Homographic.new_out he, out_pure]; rfl
  · simp only [out_bind, out_lift, he s.y]
    refine bind_congr fun k => bind_congr ?_
    rintro ⟨_ | ry, y⟩
    · simp only [out_bind, out_lift, Homographic.new_out he, out_pure]; rfl
    · simp only [out_bind, out_lift, out_pure]; rfl

theorem Combine.prime_out (he : Same eg eg') (f : Nat) (s : Combine) :
    (Combine.prime cfg eg f s).out = Clarith.Combine.prime cfg eg' f s := by
  induction f generalizing s with
  | zero => rfl
  | succ f ih =>
    unfold Combine.prime Clarith.Combine.prime
    simp only [out_bind, out_round, out_lift, ok_bind]
    refine bind_congr ?_
    rintro (_ | ⟨p, k⟩)
    · simp only [out_bind, Combine.primeIngest_out he]
      refine bind_congr ?_
      rintro (⟨s, p, r, h⟩ | s)
      · rfl
      · exact ih s
    · rfl

theorem Combine.reductionIngest_out (he : Same eg eg') (f : Nat) (s : Combine) :
    (Combine.reductionIngest cfg eg f s).out = Clarith.Combine.reductionIngest cfg eg' f s := by
  unfold Combine.reductionIngest Clarith.Combine.reductionIngest
  simp only [out_bind, he s.x]
  refine bind_congr ?_
  rintro ⟨_ | rx, x⟩
  · simp only [out_bind, out_lift, Homographic.new_out he]
    refine bind_congr fun k => bind_congr ?_
    rintro ⟨_ | _, _ | _, _, _⟩ <;> rfl
  · simp only [out_bind, out_lift, he s.y]
    refine bind_congr fun k => bind_congr ?_
    rintro ⟨_ | ry, y⟩
    · simp only [out_bind, out_lift, Homographic.new_out he]
      refine bind_congr fun k => bind_congr ?_
      rintro ⟨_ | _, _ | _, _, _⟩ <;> rfl
    · simp only [out_bind, out_lift, out_pure]; rfl

theorem Combine.egest_out (he : Same eg eg') (f : Nat) (s : Combine) :
    (Combine.egest cfg eg f s).out = Clarith.Combine.egest cfg eg' f s := by
  induction f generalizing s with
  | zero => rfl
  | succ f ih =>
    unfold Combine.egest Clarith.Combine.egest
    simp only [out_bind, out_round, out_lift, ok_bind]
    refine bind_congr ?_
    rintro (_ | ⟨p, k⟩)
    · simp only [out_bind, Combine.reductionIngest_out he]
      refine bind_congr ?_
      rintro ⟨⟨_ | r, _ | h⟩, s⟩
      · exact ih s
      all_goals rfl
    · rfl

theorem Combine.asHomographic_out (he : Same eg eg') (f : Nat) (x : Number) (nx n dx d : Int) :
    (Combine.asHomographic cfg eg f x nx n dx d).out =
      Clarith.Combine.asHomographic cfg eg' f x nx n dx d := by
  unfold Combine.asHomographic Clarith.Combine.asHomographic
  simp only [out_bind, Homographic.new_out he]
  rfl

theorem Combine.new_out (he : Same eg eg') (f : Nat) (x y : Number) (k : Coef8) :
    (Combine.new cfg eg f x y k).out = Clarith.Combine.new cfg eg' f x y k := by
  unfold Combine.new Clarith.Combine.new
  rcases x with (_ | _ | _) | ⟨p, c⟩
  · simp only [out_bind, out_lift, Combine.asHomographic_out he]
  · exact Combine.asHomographic_out he ..
  · simp only [out_bind, out_lift, Combine.asHomographic_out he]
  · rcases y with (_ | _ | _) | ⟨p, c⟩
    · simp only [out_bind, out_lift, Combine.asHomographic_out he]
    · exact Combine.asHomographic_out he ..
    · simp only [out_bind, out_lift, Combine.asHomographic_out he]
    · simp only [out_bind, out_lift, Combine.prime_out he]

theorem Strategy.egest_out (he : Same eg eg') (f : Nat) (s : Strategy) :
    (Strategy.egest cfg eg f s).out = Clarith.Strategy.egest cfg eg' f s := by
  cases s with
  | ratio r => simp only [Strategy.egest, Clarith.Strategy.egest, out_bind, out_round, ok_bind, out_lift]; rfl
  | homographic x k =>
    simp only [Strategy.egest, Clarith.Strategy.egest, out_bind, Homographic.egest_out he]; rfl
  | combine x y k =>
    simp only [Strategy.egest, Clarith.Strategy.egest, out_bind, Combine.egest_out he]; rfl

theorem Clog.egest_out (cfg : Cfg) (f : Nat) : Same (Clog.egest cfg f) (Clarith.Clog.egest cfg f) := by
  induction f with
  | zero => exact fun _ => rfl
  | succ f ih =>
    intro c
    unfold Clog.egest Clarith.Clog.egest
    simp only [out_bind, Strategy.egest_out ih]
    refine bind_congr ?_
    rintro ⟨r | s, s'⟩
    · rfl
    · exact ih s

theorem Number.homographic_out (cfg : Cfg) (f : Nat) (x : Number) (nx n dx d : Int) :
    (Number.homographic cfg f x nx n dx d).out = Clarith.Number.homographic cfg f x nx n dx d := by
  unfold Number.homographic Clarith.Number.homographic
  simp only [out_bind, Homographic.new_out (Clog.egest_out cfg f)]
  refine bind_congr ?_
  rintro ⟨_ | _, _, _ | _, _ | _⟩ <;> rfl

theorem Number.combine_out (cfg : Cfg) (f : Nat) (x y : Number) (a b c d e g h i : Int) :
    (Number.combine cfg f x y a b c d e g h i).out =
      Clarith.Number.combine cfg f x y a b c d e g h i := by
  unfold Number.combine Clarith.Number.combine
  simp only [out_bind, Combine.new_out (Clog.egest_out cfg f)]
  refine bind_congr ?_
  rintro ⟨_ | _, _, _ | _, _ | _, _ | _⟩ <;> rfl

theorem Consume.consume_out (he : Same eg eg') (f : Nat) (c : Clog) (k : Coef4) :
    (Consume.consume cfg eg f c k).out = Clarith.Consume.consume cfg eg' f c k := by
  induction f generalizing c k with
  | zero => rfl
  | succ f ih =>
    unfold Consume.consume Clarith.Consume.consume
    simp only [out_bind, out_round, ok_bind, he c]
    refine bind_congr ?_
    rintro ⟨_ | r, x⟩
    · rfl
    · simp only [out_bind, out_lift]
      refine bind_congr fun k => bind_congr ?_
      rintro (_ | _)
      · exact ih x k
      · rfl

theorem Number.consume_out (cfg : Cfg) (f : Nat) (x : Number) :
    (Number.consume cfg f x).out = Clarith.Number.consume cfg f x := by
  unfold Number.consume Clarith.Number.consume
  rcases x with (_ | _ | _) | ⟨p, c⟩
  · rfl
  · rfl
  · rfl
  · simp only [Consume.new, Clarith.Consume.new, out_bind, out_lift,
      Consume.consume_out (Clog.egest_out cfg f)]
    rfl

theorem Compare.compareClogs_out (he : Same eg eg') (f : Nat) (c1 c2 : Clog) (b : Bool) :
    (Compare.compareClogs cfg eg f c1 c2 b).out = Clarith.Compare.compareClogs cfg eg' f c1 c2 b := by
  induction f generalizing c1 c2 b with
  | zero => rfl
  | succ f ih =>
    unfold Compare.compareClogs Clarith.Compare.compareClogs
    simp only [out_bind, out_round, ok_bind, he c1, he c2]
    refine bind_congr ?_
    rintro ⟨e1, c1⟩
    refine bind_congr ?_
    rintro ⟨e2, c2⟩
    dsimp only
    split_ifs
    · rfl
    · rfl
    · rcases e1 with _ | _ | _
      · rfl
      · exact ih c1 c2 _
      · exact ih c1 c2 _

theorem Number.compare_out (cfg : Cfg) (f : Nat) (x y : Number) :
    (Number.compare cfg f x y).out = Clarith.Number.compare cfg f x y := by
  rcases x with s | ⟨p, c⟩ <;> rcases y with s' | ⟨p', c'⟩
  · rfl
  · rfl
  · rfl
  · simp only [Number.compare, Clarith.Number.compare, Compare.compareOthers,
      Clarith.Compare.compareOthers, out_bind, Compare.compareClogs_out (Clog.egest_out cfg f)]
    rfl

/-! ## Credits -/

/-- With `N` rounds to spend, `m` does not run out, and if it returns then `Q` holds of the answer and
of the rounds that are left. -/
def Within (m : Timed α) (N : Nat) (Q : α → Nat → Prop) : Prop :=
  m.rounds ≤ N ∧ ∀ a, m.out = .ok a → Q a (N - m.rounds)

theorem Within.pure {a : α} {N : Nat} {Q : α → Nat → Prop} (h : Q a N) :
    Within (pure a : Timed α) N Q :=
  ⟨Nat.zero_le _, fun b e => by cases e; exact h⟩

theorem Within.lift {m : Out α} {N : Nat} {Q : α → Nat → Prop} (h : ∀ a, m = .ok a → Q a N) :
    Within (liftM m : Timed α) N Q :=
  ⟨Nat.zero_le _, fun b e => h b e⟩

theorem Within.timeout {N : Nat} {Q : α → Nat → Prop} : Within (timeout : Timed α) N Q :=
  ⟨Nat.zero_le _, fun b e => by cases e⟩

theorem Within.bind {m : Timed α} {g : α → Timed β} {N : Nat} {P : α → Nat → Prop}
    {Q : β → Nat → Prop} (h : Within m N P) (hg : ∀ a r, m.out = .ok a → P a r → Within (g a) r Q) :
    Within (m >>= g) N Q := by
  obtain ⟨h1, h2⟩ := h
  show Within (Timed.bind m g) N Q
  unfold Timed.bind Within
  cases e : m.out with
  | ok a =>
    obtain ⟨h3, h4⟩ := hg a _ e (h2 a e)
    refine ⟨by dsimp only; omega, fun b hb => ?_⟩
    have := h4 b hb
    rwa [show N - m.rounds - (g a).rounds = N - (m.rounds + (g a).rounds) by omega] at this
  | panic p => exact ⟨h1, fun b hb => by cases hb⟩
  | timeout => exact ⟨h1, fun b hb => by cases hb⟩

theorem Within.lift_bind {m : Out α} {g : α → Timed β} {N : Nat} {Q : β → Nat → Prop}
    (hg : ∀ a, m = .ok a → Within (g a) N Q) : Within ((liftM m : Timed α) >>= g) N Q :=
  Within.bind (P := fun a r => m = .ok a ∧ r = N) (.lift fun _ e => ⟨e, rfl⟩)
    fun a _ _ ⟨e, hr⟩ => hr ▸ hg a e

theorem Within.round_bind {g : Unit → Timed β} {N : Nat} {Q : β → Nat → Prop}
    (hg : Within (g ()) N Q) : Within (round >>= g) (N + 1) Q :=
  Within.bind (P := fun _ r => r = N) ⟨by simp [round], fun _ _ => by simp [round]⟩
    fun _ _ _ e => e ▸ hg

theorem Within.mono {m : Timed α} {N : Nat} {P Q : α → Nat → Prop} (h : Within m N P)
    (hq : ∀ a r, m.out = .ok a → P a r → Q a r) : Within m N Q :=
  ⟨h.1, fun a e => hq a _ e (h.2 a e)⟩

/-- More rounds to spend are left over. -/
theorem Within.more {m : Timed α} {N : Nat} {P : α → Nat → Prop} (h : Within m N P) (K : Nat) :
    Within m (N + K) (fun a r => ∃ r', r = r' + K ∧ P a r') :=
  ⟨h.1.trans (Nat.le_add_right _ _), fun a e => ⟨_, by have := h.1; omega, h.2 a e⟩⟩

end Timed

/-! ## Budgets -/

/-- At most `L` symbols come before the end of the clog, if it gets there. -/
def Clog.EndsWithin (cfg : Cfg) : Nat → Clog → Prop
  | 0, c => ∀ f r, Clog.egest cfg f c = .ok r → r.1 = none
  | L + 1, c => ∀ f r, Clog.egest cfg f c = .ok r → r.1 = none ∨ EndsWithin cfg L r.2

theorem Clog.EndsWithin.next {cfg : Cfg} {L f : Nat} {c : Clog} {s : Reduction} {c' : Clog}
    (h : EndsWithin cfg L c) (e : Clog.egest cfg f c = .ok (some s, c')) :
    ∃ L', L = L' + 1 ∧ EndsWithin cfg L' c' := by
  cases L with
  | zero => cases h f _ e
  | succ L =>
    rcases h f _ e with h | h
    · cases h
    · exact ⟨L, rfl, h⟩

/-- In any number of calls of `egest`, of which the first `m` are looked at, each takes one round and
they take at most `n` rounds beyond these. -/
def Clog.CostsFor (cfg : Cfg) : Nat → Nat → Clog → Prop
  | 0, _, _ => True
  | m + 1, n, c => ∀ f, (Timed.Clog.egest cfg f c).rounds ≤ n + 1 ∧
      ∀ r, (Timed.Clog.egest cfg f c).out = .ok r →
        CostsFor cfg m (n + 1 - (Timed.Clog.egest cfg f c).rounds) r.2

/-- However often the clog is read, this takes at most `n` rounds beyond one for each call of
`egest`. -/
def Clog.Costs (cfg : Cfg) (n : Nat) (c : Clog) : Prop := ∀ m, Clog.CostsFor cfg m n c

theorem Clog.CostsFor.mono {cfg : Cfg} {m n n' : Nat} {c : Clog} (h : CostsFor cfg m n c)
    (hn : n ≤ n') : CostsFor cfg m n' c := by
  induction m generalizing n n' c with
  | zero => trivial
  | succ m ih =>
    exact fun f => ⟨(h f).1.trans (by omega), fun r e => ih ((h f).2 r e) (by omega)⟩

theorem Clog.Costs.mono {cfg : Cfg} {n n' : Nat} {c : Clog} (h : Costs cfg n c) (hn : n ≤ n') :
    Costs cfg n' c := fun m => (h m).mono hn

/-- A number of rounds that pays for everything below the top of the clog: two for each symbol of the
operand of a `Homographic` and two for its end; one for each symbol of an operand of a `Combine`, one for
each pair, and five for the ends and the conversions. -/
inductive Clog.Budget (cfg : Cfg) : Nat → Clog → Prop
  | given {n : Nat} {c : Clog} (h : Clog.Costs cfg n c) : Budget cfg n c
  | ratio (n : Nat) (r : Ratio) : Budget cfg n (.ratio r)
  | homographic {n L m : Nat} {x : Clog} (k : Coef4) (hx : Budget cfg n x)
      (hL : Clog.EndsWithin cfg L x) (hm : n + 2 * (L + 1) ≤ m) : Budget cfg m (.homographic x k)
  | combine {n n' L L' m : Nat} {x y : Clog} (k : Coef8) (hx : Budget cfg n x) (hy : Budget cfg n' y)
      (hL : Clog.EndsWithin cfg L x) (hL' : Clog.EndsWithin cfg L' y)
      (hm : n + n' + L + L' + max L L' + 5 ≤ m) : Budget cfg m (.combine x y k)

theorem Clog.Budget.mono {cfg : Cfg} {n m : Nat} {c : Clog} (h : Budget cfg n c) (hm : n ≤ m) :
    Budget cfg m c := by
  cases h with
  | given h => exact .given (h.mono hm)
  | ratio _ r => exact .ratio _ r
  | homographic k hx hL h => exact .homographic k hx hL (h.trans hm)
  | combine k hx hy hL hL' h => exact .combine k hx hy hL hL' (h.trans hm)

namespace Timed

variable {cfg : Cfg} {eg : EgestFn} {F : Nat}

/-- What a counted `egest` must satisfy. -/
structure Thrifty (cfg : Cfg) (eg : EgestFn) (F : Nat) : Prop where
  same : Same eg (Clarith.Clog.egest cfg F)
  pays : ∀ {n c}, Clog.Budget cfg n c → Within (eg c) (n + 1) (fun r m => Clog.Budget cfg m r.2)

theorem Ratio.newI_some {a b : Int} {s : Option Special} {p : Option Primer}
    (h : Ratio.newI cfg a b = .ok (s, p, none)) : s ≠ none := by
  rintro rfl
  unfold Ratio.newI at h
  cases e1 : Ratio.magnitude cfg a with
  | ok n =>
    cases e2 : Ratio.magnitude cfg b with
    | ok d =>
      rw [e1, e2, ok_bind, ok_bind] at h
      unfold Ratio.new at h
      split_ifs at h <;> cases h
    | panic p => rw [e1, e2] at h; cases h
    | timeout => rw [e1, e2] at h; cases h
  | panic p => rw [e1] at h; cases h
  | timeout => rw [e1] at h; cases h

/-- What `homographic::new` makes: a special number, a `Ratio`, or a `Homographic` that the rest pays for. -/
def Made (cfg : Cfg) (r : Homographic.Primed) (m : Nat) : Prop :=
  (∀ h', r.2.2.2 = some h' → Clog.Budget cfg m h'.box) ∧
    (r.2.2.2 = none → r.1 = none → r.2.2.1 ≠ none)

theorem Made.mono {r : Homographic.Primed} {m m' : Nat} (h : Made cfg r m) (hm : m ≤ m') :
    Made cfg r m' := ⟨fun h' e => (h.1 h' e).mono hm, h.2⟩

theorem Homographic.primeIngest_within (he : Thrifty cfg eg F) {n L : Nat} {h : Homographic}
    (hx : Clog.Budget cfg n h.x) (hL : Clog.EndsWithin cfg L h.x) :
    Within (Homographic.primeIngest cfg eg h) (n + 2 * (L + 1))
      (fun r m => (r.1 = none → ∃ n' L', Clog.Budget cfg n' r.2.x ∧ Clog.EndsWithin cfg L' r.2.x ∧
        m = n' + 2 * (L' + 1) + 1) ∧ ∀ t, r.1 = some t → t.1 = none → t.2.2 ≠ none) := by
  unfold Homographic.primeIngest
  rw [show n + 2 * (L + 1) = n + 1 + (2 * L + 1) by ring]
  refine ((he.pays hx).more (2 * L + 1)).bind ?_
  rintro ⟨r, x⟩ _ e ⟨n', rfl, hb⟩
  rw [he.same] at e
  rcases r with _ | s
  · refine Within.lift_bind fun a _ => Within.lift_bind fun b hb => Within.pure ⟨?_, ?_⟩
    · rintro ⟨⟩
    · rintro ⟨s, p, r⟩ ⟨⟩ h1 h2
      dsimp only at h1 h2
      subst h2
      exact Ratio.newI_some hb h1
  · obtain ⟨L', rfl, hL'⟩ := hL.next e
    cases s <;> exact Within.lift_bind fun a _ => Within.pure
      ⟨fun _ => ⟨n', L', hb, hL', by ring⟩, fun _ h => by cases h⟩

theorem Homographic.reductionIngest_within (he : Thrifty cfg eg F) {n L : Nat} {h : Homographic}
    (hx : Clog.Budget cfg n h.x) (hL : Clog.EndsWithin cfg L h.x) :
    Within (Homographic.reductionIngest cfg eg h) (n + 2 * (L + 1))
      (fun r m => 1 ≤ m ∧ (r.1 = none → ∃ n' L', Clog.Budget cfg n' r.2.x ∧
        Clog.EndsWithin cfg L' r.2.x ∧ m = n' + 2 * (L' + 1) + 1)) := by
  unfold Homographic.reductionIngest
  rw [show n + 2 * (L + 1) = n + 1 + (2 * L + 1) by ring]
  refine ((he.pays hx).more (2 * L + 1)).bind ?_
  rintro ⟨r, x⟩ _ e ⟨n', rfl, hb⟩
  rw [he.same] at e
  rcases r with _ | s
  · refine Within.lift_bind fun a _ => Within.lift_bind ?_
    rintro ⟨_ | _, _ | _, _ | _⟩ _
    case none.none.some => exact Within.pure ⟨by omega, fun h => by cases h⟩
    all_goals exact Within.lift fun a e => by cases e
  · obtain ⟨L', rfl, hL'⟩ := hL.next e
    cases s <;> exact Within.lift_bind fun a _ => Within.pure ⟨by omega, fun _ =>
      ⟨n', L', hb, hL', by ring⟩⟩

theorem Homographic.prime_within (he : Thrifty cfg eg F) (f : Nat) {n L : Nat} {h : Homographic}
    (hx : Clog.Budget cfg n h.x) (hL : Clog.EndsWithin cfg L h.x) :
    Within (Homographic.prime cfg eg f h) (n + 2 * (L + 1) + 1)
      (Made cfg) := by
  induction f generalizing n L h with
  | zero => exact .timeout
  | succ f ih =>
    unfold Homographic.prime
    refine Within.round_bind (Within.lift_bind ?_)
    rintro (_ | ⟨p, k⟩) _
    · refine (Homographic.primeIngest_within he hx hL).bind ?_
      rintro ⟨_ | ⟨s, p, r⟩, h'⟩ m _ ⟨hm, ht⟩
      · obtain ⟨n', L', h1, h2, rfl⟩ := hm rfl
        exact ih h1 h2
      · refine Within.pure ⟨?_, fun _ => ht _ rfl⟩
        rintro h' ⟨⟩
    · refine Within.pure ⟨?_, fun h => by cases h⟩
      rintro h' ⟨⟩
      exact .homographic _ hx hL le_rfl

/-- What is left after `Strategy::egest`. -/
def Left (cfg : Cfg) (r : Egested) (s : Clog) (m : Nat) : Prop :=
  match r with
  | .ok _ => Clog.Budget cfg m s
  | .err s' => ∃ m', m = m' + 1 ∧ Clog.Budget cfg m' s'

theorem Homographic.egest_within (he : Thrifty cfg eg F) (f : Nat) {n L : Nat} {h : Homographic}
    (hx : Clog.Budget cfg n h.x) (hL : Clog.EndsWithin cfg L h.x) :
    Within (Homographic.egest cfg eg f h) (n + 2 * (L + 1) + 1)
      (fun r m => Left cfg r.1 r.2.box m) := by
  induction f generalizing n L h with
  | zero => exact .timeout
  | succ f ih =>
    unfold Homographic.egest
    refine Within.round_bind (Within.lift_bind ?_)
    rintro (_ | ⟨p, k⟩) _
    · refine (Homographic.reductionIngest_within he hx hL).bind ?_
      rintro ⟨_ | r, h'⟩ m _ ⟨h0, hm⟩
      · obtain ⟨n', L', h1, h2, rfl⟩ := hm rfl
        exact ih h1 h2
      · exact Within.pure ⟨m - 1, by omega, .ratio _ r⟩
    · exact Within.pure (Clog.Budget.homographic _ hx hL le_rfl)

theorem Homographic.new_within (he : Thrifty cfg eg F) (f : Nat) {n L : Nat} {x : Number}
    (hx : ∀ p c, x = .Other p c → Clog.Budget cfg n c ∧ Clog.EndsWithin cfg L c) (nx c dx d : Int) :
    Within (Homographic.new cfg eg f x nx c dx d) (n + 2 * (L + 1) + 1)
      (Made cfg) := by
  have ratio (a b : Int) (N : Nat) : Within (liftM (Homographic.asRatio cfg a b) : Timed _) N
      (Made cfg) := by
    refine Within.lift fun t e => ?_
    unfold Homographic.asRatio at e
    cases e1 : Ratio.newI cfg a b with
    | ok t' =>
      rw [e1] at e
      cases e
      obtain ⟨s, p, r⟩ := t'
      refine ⟨fun _ h => (by cases h), fun _ h1 h2 => ?_⟩
      dsimp only at h1 h2
      subst h2
      exact Ratio.newI_some e1 h1
    | panic p => rw [e1] at e; cases e
    | timeout => rw [e1] at e; cases e
  unfold Homographic.new
  split_ifs
  · exact ratio ..
  · rcases x with (_ | _ | _) | ⟨p, c⟩
    · exact Within.lift_bind fun a _ => Within.lift_bind fun b _ => ratio ..
    · exact ratio ..
    · exact Within.lift_bind fun a _ => Within.lift_bind fun b _ => ratio ..
    · obtain ⟨h1, h2⟩ := hx p c rfl
      exact Within.lift_bind fun a _ => Homographic.prime_within he f h1 h2

theorem Combine.primeIngest_within (he : Thrifty cfg eg F) (f : Nat) {n n' L L' : Nat} {s : Combine}
    (hx : Clog.Budget cfg n s.x) (hy : Clog.Budget cfg n' s.y) (hL : Clog.EndsWithin cfg L s.x)
    (hL' : Clog.EndsWithin cfg L' s.y) :
    Within (Combine.primeIngest cfg eg f s) (n + n' + L + L' + max L L' + 5)
      (fun r m => match r with
        | .inl t => Made cfg t m
        | .inr s' => ∃ a b M M', Clog.Budget cfg a s'.x ∧ Clog.Budget cfg b s'.y ∧
            Clog.EndsWithin cfg M s'.x ∧ Clog.EndsWithin cfg M' s'.y ∧
            a + b + M + M' + max M M' + 6 ≤ m) := by
  unfold Combine.primeIngest
  rw [show n + n' + L + L' + max L L' + 5 = n + 1 + (n' + L + L' + max L L' + 4) by ring]
  refine ((he.pays hx).more _).bind ?_
  rintro ⟨r, x⟩ _ e ⟨a, rfl, ha⟩
  rw [he.same] at e
  rcases r with _ | rx
  · refine Within.lift_bind fun k _ => ?_
    rw [show a + (n' + L + L' + max L L' + 4) =
      n' + 2 * (L' + 1) + 1 + (a + L + (max L L' - L') + 1) by omega]
    refine ((Homographic.new_within he f (n := n') (L := L') (x := .Other none s.y)
      (fun p c hc => by cases hc; exact ⟨hy, hL'⟩) _ _ _ _).more _).bind ?_
    rintro t _ _ ⟨m, rfl, ht⟩
    exact Within.pure (ht.mono (by omega))
  · obtain ⟨M, rfl, hM⟩ := hL.next e
    refine Within.lift_bind fun k _ => ?_
    dsimp only
    rw [show a + (n' + (M + 1) + L' + max (M + 1) L' + 4) =
      n' + 1 + (a + (M + 1) + L' + max (M + 1) L' + 3) by ring]
    refine ((he.pays hy).more _).bind ?_
    rintro ⟨r, y⟩ _ e ⟨b, rfl, hb⟩
    rw [he.same] at e
    rcases r with _ | ry
    · refine Within.lift_bind fun k _ => ?_
      rw [show b + (a + (M + 1) + L' + max (M + 1) L' + 3) =
        a + 2 * (M + 1) + 1 + (b + L' + (max (M + 1) L' - (M + 1)) + 2) by omega]
      refine ((Homographic.new_within he f (n := a) (L := M) (x := .Other none x)
        (fun p c hc => by cases hc; exact ⟨ha, hM⟩) _ _ _ _).more _).bind ?_
      rintro t _ _ ⟨m, rfl, ht⟩
      exact Within.pure (ht.mono (by omega))
    · obtain ⟨M', rfl, hM'⟩ := hL'.next e
      exact Within.lift_bind fun k _ => Within.pure ⟨a, b, M, M', ha, hb, hM, hM', by omega⟩

theorem Combine.prime_within (he : Thrifty cfg eg F) (f : Nat) {n n' L L' : Nat} {s : Combine}
    (hx : Clog.Budget cfg n s.x) (hy : Clog.Budget cfg n' s.y) (hL : Clog.EndsWithin cfg L s.x)
    (hL' : Clog.EndsWithin cfg L' s.y) {N : Nat}
    (hN : n + n' + L + L' + max L L' + 6 ≤ N) :
    Within (Combine.prime cfg eg f s) N
      (fun r m => (∀ h', r.2.2.2.1 = some h' → Clog.Budget cfg m h'.box) ∧
        (∀ s', r.2.2.2.2 = some s' → Clog.Budget cfg m s'.box)) := by
  induction f generalizing n n' L L' s N with
  | zero => exact .timeout
  | succ f ih =>
    unfold Combine.prime
    obtain ⟨K, rfl⟩ := Nat.exists_eq_add_of_le hN
    rw [show n + n' + L + L' + max L L' + 6 + K = n + n' + L + L' + max L L' + 5 + K + 1 by ring]
    refine Within.round_bind (Within.lift_bind ?_)
    rintro (_ | ⟨p, k⟩) _
    · refine ((Combine.primeIngest_within he f hx hy hL hL').more K).bind ?_
      rintro (⟨t, p, r, h'⟩ | s') _ _ ⟨m, rfl, hm⟩
      · refine Within.pure ⟨fun h'' hh => ?_, fun _ hh => by cases hh⟩
        exact (hm.1 h'' hh).mono (by omega)
      · obtain ⟨a, b, M, M', h1, h2, h3, h4, h5⟩ := hm
        exact ih h1 h2 h3 h4 (by omega)
    · refine Within.pure ⟨fun _ hh => (by cases hh), fun s' hh => ?_⟩
      cases hh
      exact .combine _ hx hy hL hL' (by omega)

theorem Combine.reductionIngest_within (he : Thrifty cfg eg F) (f : Nat) {n n' L L' : Nat}
    {s : Combine} (hx : Clog.Budget cfg n s.x) (hy : Clog.Budget cfg n' s.y)
    (hL : Clog.EndsWithin cfg L s.x) (hL' : Clog.EndsWithin cfg L' s.y) :
    Within (Combine.reductionIngest cfg eg f s) (n + n' + L + L' + max L L' + 5)
      (fun r m => match r with
        | ((none, none), s') => ∃ a b M M', Clog.Budget cfg a s'.x ∧ Clog.Budget cfg b s'.y ∧
            Clog.EndsWithin cfg M s'.x ∧ Clog.EndsWithin cfg M' s'.y ∧
            a + b + M + M' + max M M' + 6 ≤ m
        | ((_, some h'), _) => ∃ m', m = m' + 1 ∧ Clog.Budget cfg m' h'.box
        | ((some _, none), _) => 1 ≤ m) := by
  unfold Combine.reductionIngest
  rw [show n + n' + L + L' + max L L' + 5 = n + 1 + (n' + L + L' + max L L' + 4) by ring]
  refine ((he.pays hx).more _).bind ?_
  rintro ⟨r, x⟩ _ e ⟨a, rfl, ha⟩
  rw [he.same] at e
  rcases r with _ | rx
  · refine Within.lift_bind fun k _ => ?_
    rw [show a + (n' + L + L' + max L L' + 4) =
      n' + 2 * (L' + 1) + 1 + (a + L + (max L L' - L') + 1) by omega]
    refine ((Homographic.new_within he f (n := n') (L := L') (x := .Other none s.y)
      (fun p c hc => by cases hc; exact ⟨hy, hL'⟩) _ _ _ _).more _).bind ?_
    rintro ⟨_ | _, _ | _, _ | r, _ | h'⟩ _ _ ⟨m, rfl, ht⟩
    case none.none.none.none => exact absurd rfl (ht.2 rfl rfl)
    case none.none.none.some => exact Within.pure ⟨m + (a + L + (max L L' - L')), by omega, (ht.1 _ rfl).mono (by omega)⟩
    case none.none.some.none => exact Within.pure (by dsimp only; omega)
    case none.none.some.some => exact Within.pure ⟨m + (a + L + (max L L' - L')), by omega, (ht.1 _ rfl).mono (by omega)⟩
    all_goals exact Within.lift fun a e => by cases e
  · obtain ⟨M, rfl, hM⟩ := hL.next e
    refine Within.lift_bind fun k _ => ?_
    rw [show a + (n' + (M + 1) + L' + max (M + 1) L' + 4) =
      n' + 1 + (a + (M + 1) + L' + max (M + 1) L' + 3) by ring]
    refine ((he.pays hy).more _).bind ?_
    rintro ⟨r, y⟩ _ e ⟨b, rfl, hb⟩
    rw [he.same] at e
    rcases r with _ | ry
    · refine Within.lift_bind fun k _ => ?_
      rw [show b + (a + (M + 1) + L' + max (M + 1) L' + 3) =
        a + 2 * (M + 1) + 1 + (b + L' + (max (M + 1) L' - (M + 1)) + 2) by omega]
      refine ((Homographic.new_within he f (n := a) (L := M) (x := .Other none x)
        (fun p c hc => by cases hc; exact ⟨ha, hM⟩) _ _ _ _).more _).bind ?_
      rintro ⟨_ | _, _ | _, _ | r, _ | h'⟩ _ _ ⟨m, rfl, ht⟩
      case none.none.none.none => exact absurd rfl (ht.2 rfl rfl)
      case none.none.none.some =>
        exact Within.pure ⟨m + (b + L' + (max (M + 1) L' - (M + 1)) + 1), by omega, (ht.1 _ rfl).mono (by omega)⟩
      case none.none.some.none => exact Within.pure (by dsimp only; omega)
      case none.none.some.some =>
        exact Within.pure ⟨m + (b + L' + (max (M + 1) L' - (M + 1)) + 1), by omega, (ht.1 _ rfl).mono (by omega)⟩
      all_goals exact Within.lift fun a e => by cases e
    · obtain ⟨M', rfl, hM'⟩ := hL'.next e
      exact Within.lift_bind fun k _ => Within.pure ⟨a, b, M, M', ha, hb, hM, hM', by omega⟩

theorem Combine.egest_within (he : Thrifty cfg eg F) (f : Nat) {n n' L L' : Nat} {s : Combine}
    (hx : Clog.Budget cfg n s.x) (hy : Clog.Budget cfg n' s.y) (hL : Clog.EndsWithin cfg L s.x)
    (hL' : Clog.EndsWithin cfg L' s.y) {N : Nat}
    (hN : n + n' + L + L' + max L L' + 6 ≤ N) :
    Within (Combine.egest cfg eg f s) N (fun r m => Left cfg r.1 r.2.box m) := by
  induction f generalizing n n' L L' s N with
  | zero => exact .timeout
  | succ f ih =>
    unfold Combine.egest
    obtain ⟨K, rfl⟩ := Nat.exists_eq_add_of_le hN
    rw [show n + n' + L + L' + max L L' + 6 + K = n + n' + L + L' + max L L' + 5 + K + 1 by ring]
    refine Within.round_bind (Within.lift_bind ?_)
    rintro (_ | ⟨p, k⟩) _
    · refine ((Combine.reductionIngest_within he f hx hy hL hL').more K).bind ?_
      rintro ⟨⟨_ | r, _ | h'⟩, s'⟩ _ _ ⟨m, rfl, hm⟩
      · obtain ⟨a, b, M, M', h1, h2, h3, h4, h5⟩ := hm
        exact ih h1 h2 h3 h4 (by omega)
      · obtain ⟨m', rfl, hb⟩ := hm
        exact Within.pure ⟨m' + K, by omega, hb.mono (by omega)⟩
      · exact Within.pure ⟨m - 1 + K, by dsimp only at hm; omega, .ratio _ r⟩
      · obtain ⟨m', rfl, hb⟩ := hm
        exact Within.pure ⟨m' + K, by omega, hb.mono (by omega)⟩
    · exact Within.pure (Clog.Budget.combine _ hx hy hL hL' (by omega))

theorem Strategy.egest_within (he : Thrifty cfg eg F) (f : Nat) {n : Nat} {c : Clog}
    (hc : Clog.Budget cfg n c) (hn : ¬Clog.Costs cfg n c) :
    Within (Strategy.egest cfg eg f c) (n + 1) (fun r m => Left cfg r.1 r.2 m) := by
  cases hc with
  | given h => exact absurd h hn
  | ratio _ r =>
    unfold Strategy.egest
    exact Within.round_bind (Within.lift_bind fun a _ => Within.pure (Clog.Budget.ratio _ _))
  | @homographic n' L _ x k hx hL hm =>
    obtain ⟨K, rfl⟩ := Nat.exists_eq_add_of_le hm
    unfold Strategy.egest
    rw [show n' + 2 * (L + 1) + K + 1 = n' + 2 * (L + 1) + 1 + K by ring]
    refine ((Homographic.egest_within he f (h := ⟨x, k⟩) hx hL).more K).bind ?_
    rintro ⟨r | s, h⟩ _ _ ⟨m, rfl, hl⟩
    · exact Within.pure (Clog.Budget.mono hl (by omega))
    · obtain ⟨m', rfl, hb⟩ := hl
      exact Within.pure ⟨m' + K, by omega, hb.mono (by omega)⟩
  | @combine n1 n2 L L' _ x y k hx hy hL hL' hm =>
    unfold Strategy.egest
    refine (Combine.egest_within he f (s := ⟨x, y, k⟩) hx hy hL hL' (by omega)).bind ?_
    rintro ⟨r | s, h⟩ _ _ hl
    · exact Within.pure hl
    · exact Within.pure hl

theorem Clog.egest_thrifty (cfg : Cfg) (f : Nat) : Thrifty cfg (Clog.egest cfg f) f := by
  refine ⟨Clog.egest_out cfg f, ?_⟩
  induction f with
  | zero => exact fun _ => .timeout
  | succ f ih =>
    intro n c hc
    by_cases hn : Clog.Costs cfg n c
    · exact ⟨(hn 1 (f + 1)).1, fun r e => .given fun m => (hn (m + 1) (f + 1)).2 r e⟩
    unfold Clog.egest
    refine (Strategy.egest_within ⟨Clog.egest_out cfg f, ih⟩ f hc hn).bind ?_
    rintro ⟨r | s, s'⟩ m _ hl
    · exact Within.pure hl
    · obtain ⟨m', rfl, hb⟩ := hl
      exact ih hb

/-- A budget is all that reading costs. -/
theorem _root_.Clarith.Clog.Budget.costs {n : Nat} {c : Clog} (h : Clog.Budget cfg n c) :
    Clog.Costs cfg n c := by
  intro m
  induction m generalizing n c with
  | zero => trivial
  | succ m ih =>
    exact fun f => ⟨((Clog.egest_thrifty cfg f).pays h).1,
      fun r e => ih (((Clog.egest_thrifty cfg f).pays h).2 r e)⟩

/-! ## The functions of the library -/

end Timed

/-- A budget for the clog of the number. -/
def Number.Budget (cfg : Cfg) (n : Nat) : Number → Prop
  | .Special _ => True
  | .Other _ c => Clog.Budget cfg n c

/-- At most `L` symbols come before the end of the clog of the number. -/
def Number.EndsWithin (cfg : Cfg) (L : Nat) : Number → Prop
  | .Special _ => True
  | .Other _ c => Clog.EndsWithin cfg L c

theorem Number.Budget.mono {cfg : Cfg} {n m : Nat} {x : Number} (h : x.Budget cfg n) (hm : n ≤ m) :
    x.Budget cfg m := by
  cases x with
  | Special s => trivial
  | Other p c => exact Clog.Budget.mono h hm

namespace Timed

variable {cfg : Cfg}

theorem Number.homographic_within (f : Nat) {n L : Nat} {x : Number} (hx : x.Budget cfg n)
    (hL : x.EndsWithin cfg L) (nx c dx d : Int) :
    Within (Number.homographic cfg f x nx c dx d) (n + 2 * (L + 1) + 1)
      (fun r m => r.Budget cfg m) := by
  unfold Number.homographic
  refine (Homographic.new_within (Clog.egest_thrifty cfg f) f (n := n) (L := L)
    (fun p c e => by subst e; exact ⟨hx, hL⟩) nx c dx d).bind ?_
  rintro ⟨_ | s, p, _ | r, _ | h⟩ m _ hm
  case none.none.none => exact Within.lift fun a e => by cases e
  case none.none.some => exact Within.pure (hm.1 _ rfl)
  case none.some.none => exact Within.pure (Clog.Budget.ratio _ _)
  case none.some.some => exact Within.pure (Clog.Budget.ratio _ _)
  all_goals exact Within.pure trivial

theorem Combine.new_within {eg : EgestFn} {F : Nat} (he : Thrifty cfg eg F) (f : Nat)
    {n n' L L' : Nat} {x y : Number}
    (hx : x.Budget cfg n) (hy : y.Budget cfg n') (hL : x.EndsWithin cfg L) (hL' : y.EndsWithin cfg L')
    (k : Coef8) :
    Within (Combine.new cfg eg f x y k)
      (n + n' + L + L' + max L L' + 6)
      (fun r m => (∀ h', r.2.2.2.1 = some h' → Clog.Budget cfg m h'.box) ∧
        (∀ s', r.2.2.2.2 = some s' → Clog.Budget cfg m s'.box)) := by
  have one {n L N : Nat} {x : Number} (hx : x.Budget cfg n) (hL : x.EndsWithin cfg L)
      (hN : n + 2 * (L + 1) + 1 ≤ N) (nx c dx d : Int) :
      Within (Combine.asHomographic cfg eg f x nx c dx d) N
      (fun r m => (∀ h', r.2.2.2.1 = some h' → Clog.Budget cfg m h'.box) ∧
        (∀ s', r.2.2.2.2 = some s' → Clog.Budget cfg m s'.box)) := by
    unfold Combine.asHomographic
    obtain ⟨K, rfl⟩ := Nat.exists_eq_add_of_le hN
    refine ((Homographic.new_within he f (n := n) (L := L)
      (fun p c e => by subst e; exact ⟨hx, hL⟩) nx c dx d).more K).bind ?_
    rintro ⟨s, p, r, h⟩ _ _ ⟨m, rfl, hm⟩
    exact Within.pure ⟨fun h' e => (hm.1 h' e).mono (by omega), fun _ e => by cases e⟩
  unfold Combine.new
  rcases x with (_ | _ | _) | ⟨p, c⟩
  · exact Within.lift_bind fun _ _ => Within.lift_bind fun _ _ => Within.lift_bind fun _ _ =>
      Within.lift_bind fun _ _ => one hy hL' (by omega) _ _ _ _
  · exact one hy hL' (by omega) _ _ _ _
  · exact Within.lift_bind fun _ _ => Within.lift_bind fun _ _ => Within.lift_bind fun _ _ =>
      Within.lift_bind fun _ _ => one hy hL' (by omega) _ _ _ _
  · rcases y with (_ | _ | _) | ⟨p', c'⟩
    · exact Within.lift_bind fun _ _ => Within.lift_bind fun _ _ => Within.lift_bind fun _ _ =>
        Within.lift_bind fun _ _ => one hx hL (by omega) _ _ _ _
    · exact one hx hL (by omega) _ _ _ _
    · exact Within.lift_bind fun _ _ => Within.lift_bind fun _ _ => Within.lift_bind fun _ _ =>
        Within.lift_bind fun _ _ => one hx hL (by omega) _ _ _ _
    · exact Within.lift_bind fun _ _ => Within.lift_bind fun k _ =>
        Combine.prime_within he f (s := ⟨c, c', k⟩) hx hy hL hL' le_rfl

theorem Number.combine_within (f : Nat) {n n' L L' : Nat} {x y : Number}
    (hx : x.Budget cfg n) (hy : y.Budget cfg n') (hL : x.EndsWithin cfg L) (hL' : y.EndsWithin cfg L')
    (nxy nx ny c dxy dx dy d : Int) :
    Within (Number.combine cfg f x y nxy nx ny c dxy dx dy d)
      (n + n' + L + L' + max L L' + 6) (fun r m => r.Budget cfg m) := by
  unfold Number.combine
  refine (Combine.new_within (Clog.egest_thrifty cfg f) f hx hy hL hL' _).bind ?_
  rintro ⟨_ | s, p, _ | r, _ | h, _ | t⟩ m _ ⟨h1, h2⟩
  case none.none.none.none => exact Within.lift fun a e => by cases e
  case none.none.none.some => exact Within.pure (h2 _ rfl)
  case none.none.some.none => exact Within.pure (h1 _ rfl)
  case none.none.some.some => exact Within.pure (h1 _ rfl)
  case none.some.none.none => exact Within.pure (Clog.Budget.ratio _ _)
  case none.some.none.some => exact Within.pure (Clog.Budget.ratio _ _)
  case none.some.some.none => exact Within.pure (Clog.Budget.ratio _ _)
  case none.some.some.some => exact Within.pure (Clog.Budget.ratio _ _)
  all_goals exact Within.pure trivial

theorem Consume.consume_within {eg : EgestFn} {F : Nat} (he : Thrifty cfg eg F) (f : Nat) {n L : Nat}
    {c : Clog} (hc : Clog.Budget cfg n c) (hL : Clog.EndsWithin cfg L c) (k : Coef4) :
    Within (Consume.consume cfg eg f c k) (n + 2 * (L + 1))
      (fun r m => ∀ c', r.1 = some c' → ∃ n' L', Clog.Budget cfg n' c' ∧ Clog.EndsWithin cfg L' c' ∧
        m = n' + 2 * (L' + 1)) := by
  induction f generalizing n L c k with
  | zero => exact .timeout
  | succ f ih =>
    unfold Consume.consume
    rw [show n + 2 * (L + 1) = n + 1 + 2 * L + 1 by ring]
    refine Within.round_bind (((he.pays hc).more _).bind ?_)
    rintro ⟨_ | s, x⟩ _ e ⟨n', rfl, hb⟩
    · exact Within.pure fun _ h => by cases h
    · rw [he.same] at e
      obtain ⟨L', rfl, hL'⟩ := hL.next e
      refine Within.lift_bind fun k' _ => Within.lift_bind ?_
      rintro (_ | _) _
      · exact ih hb hL' k'
      · refine Within.pure ?_
        rintro _ ⟨⟩
        exact ⟨n', L', hb, hL', rfl⟩

theorem Number.consume_within (f : Nat) {n L : Nat} {x : Number} (hx : x.Budget cfg n)
    (hL : x.EndsWithin cfg L) :
    Within (Number.consume cfg f x) (n + 2 * (L + 1))
      (fun r m => ∀ y, r.1 = some y → ∃ n' L', y.Budget cfg n' ∧ y.EndsWithin cfg L' ∧
        m = n' + 2 * (L' + 1)) := by
  unfold Number.consume
  rcases x with (_ | _ | _) | ⟨p, c⟩
  · exact Within.pure fun _ h => by cases h
  · exact Within.pure fun _ h => by cases h
  · exact Within.pure fun _ h => by cases h
  · refine Within.bind (P := fun r m => ∀ c', r.1 = some c' → ∃ n' L', Clog.Budget cfg n' c' ∧
      Clog.EndsWithin cfg L' c' ∧ m = n' + 2 * (L' + 1)) (Within.lift_bind fun k _ =>
      Consume.consume_within (Clog.egest_thrifty cfg f) f hx hL k) ?_
    rintro ⟨_ | c', k⟩ m _ hm
    · exact Within.pure fun _ h => by cases h
    · refine Within.pure ?_
      rintro _ ⟨⟩
      exact hm c' rfl

theorem Compare.compareClogs_within {eg : EgestFn} {F : Nat} (he : Thrifty cfg eg F) (f : Nat)
    {n n' L : Nat} {c c' : Clog} (hc : Clog.Budget cfg n c) (hc' : Clog.Budget cfg n' c')
    (hL : Clog.EndsWithin cfg L c ∨ Clog.EndsWithin cfg L c') (b : Bool) :
    Within (Compare.compareClogs cfg eg f c c' b) (n + n' + 3 * (L + 1)) (fun _ _ => True) := by
  induction f generalizing n n' L c c' b with
  | zero => exact .timeout
  | succ f ih =>
    unfold Compare.compareClogs
    rw [show n + n' + 3 * (L + 1) = n + 1 + (n' + 1 + 3 * L) + 1 by ring]
    refine Within.round_bind (((he.pays hc).more _).bind ?_)
    rintro ⟨e1, x⟩ _ h1 ⟨a, rfl, ha⟩
    rw [he.same] at h1
    rw [show a + (n' + 1 + 3 * L) = n' + 1 + (a + 3 * L) by ring]
    refine ((he.pays hc').more _).bind ?_
    rintro ⟨e2, y⟩ _ h2 ⟨a', rfl, ha'⟩
    rw [he.same] at h2
    dsimp only
    split_ifs with hne
    · exact Within.pure trivial
    · exact Within.pure trivial
    · have : e1 = e2 := by simpa using hne
      subst this
      rcases e1 with _ | s
      · exact Within.pure trivial
      · obtain ⟨L', rfl, hL'⟩ : ∃ L', L = L' + 1 ∧
            (Clog.EndsWithin cfg L' x ∨ Clog.EndsWithin cfg L' y) := by
          rcases hL with h | h
          · obtain ⟨L', rfl, h'⟩ := h.next h1
            exact ⟨L', rfl, .inl h'⟩
          · obtain ⟨L', rfl, h'⟩ := h.next h2
            exact ⟨L', rfl, .inr h'⟩
        rw [show a' + (a + 3 * (L' + 1)) = a + a' + 3 * (L' + 1) by ring]
        cases s <;> exact ih ha ha' hL' _

theorem Number.compare_within (f : Nat) {n n' L : Nat} {x y : Number} (hx : x.Budget cfg n)
    (hy : y.Budget cfg n') (hL : x.EndsWithin cfg L ∨ y.EndsWithin cfg L) :
    Within (Number.compare cfg f x y) (n + n' + 3 * (L + 1)) (fun _ _ => True) := by
  unfold Number.compare
  rcases x with s | ⟨p, c⟩ <;> rcases y with s' | ⟨p', c'⟩
  · exact Within.pure trivial
  · exact Within.pure trivial
  · exact Within.pure trivial
  · exact Within.bind (Compare.compareClogs_within (Clog.egest_thrifty cfg f) f hx hy hL _)
      fun _ _ _ _ => Within.pure trivial

end Timed

end Clarith
