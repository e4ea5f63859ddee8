import Verif.SpecSessionField
import Verif.Proofs.Session
import Verif.Properties.Total

/-! # Every session is right, division by zero included -/

namespace Clarith

open Spec

section

variable {K : Type*} [Field K] [LinearOrder K]

theorem Clog.Follows.weaken {cfg : Cfg} {A B : Panic → Prop} {c : Clog} {x : K}
    (h : Clog.Follows cfg A c x) (hAB : ∀ p, A p → B p) : Clog.Follows cfg B c x :=
  ⟨h.1, h.2.1, fun k f => ⟨(h.2.2 k f).1, fun p hp => hAB p ((h.2.2 k f).2 p hp)⟩⟩

theorem Number.Follows.weaken {cfg : Cfg} {A B : Panic → Prop} {n : Number} {q : K}
    (h : Number.Follows cfg A n q) (hAB : ∀ p, A p → B p) : Number.Follows cfg B n q := by
  cases n with
  | Special s => exact h
  | Other p c =>
    obtain ⟨x, hx, hq⟩ := h
    exact ⟨x, hx.weaken hAB, hq⟩

theorem Clog.Tracks.weaken {cfg : Cfg} {A B : Panic → Prop} {c : Clog} {x : K}
    (h : Clog.Tracks cfg A c x) (hAB : ∀ p, A p → B p) : Clog.Tracks cfg B c x :=
  ⟨h.1, h.2.1, fun k => (h.2.2 k).weaken hAB⟩

theorem Number.Tracks.weaken {cfg : Cfg} {A B : Panic → Prop} {n : Number} {q : K}
    (h : Number.Tracks cfg A n q) (hAB : ∀ p, A p → B p) : Number.Tracks cfg B n q := by
  cases n with
  | Special s => exact h
  | Other p c =>
    obtain ⟨x, hx, hq⟩ := h
    exact ⟨x, hx.weaken hAB, hq⟩

variable [IsStrictOrderedRing K]

/-- A number that tracks a fraction denotes it. -/
theorem Number.Tracks.denotes {cfg : Cfg} {A : Panic → Prop} {n : Number} {q : ℚ}
    (h : Number.Tracks cfg A n (q : K)) : Number.Denotes cfg A n q := by
  cases n with
  | Special s =>
    have e : (q : K) = specialIn K s := h
    rw [specialIn_cast] at e
    exact_mod_cast e
  | Other p c =>
    obtain ⟨x, hx, e⟩ := h
    obtain ⟨y, rfl⟩ : ∃ y : ℚ, x = y := by
      rcases p with _ | (_ | _ | _) <;> simp only [primerIn] at e
      · exact ⟨q, e.symm⟩
      · exact ⟨1 / q, by push_cast; rw [e, one_div_one_div]⟩
      · exact ⟨-q, by push_cast; rw [e, neg_neg]⟩
      · exact ⟨-(1 / q), by push_cast; rw [e, one_div_neg_eq_neg_one_div, one_div_one_div, neg_neg]⟩
    rw [primerIn_cast] at e
    refine ⟨y, ⟨by exact_mod_cast hx.1, by exact_mod_cast hx.2.1, fun k => ?_⟩, by exact_mod_cast e⟩
    have := hx.2.2 k
    rwa [symbolsIn_cast] at this

theorem Number.Tracks.fraction {cfg : Cfg} {A : Panic → Prop} {n : Number} {q : K}
    (h : Number.Tracks cfg A n q) (hq : IsFraction q) :
    ∃ p : ℚ, q = p ∧ Number.Denotes cfg A n p := by
  obtain ⟨p, rfl⟩ := hq
  exact ⟨p, rfl, h.denotes⟩

end

namespace SpecK

open Steps Mut

variable {K : Type*} [Field K] [LinearOrder K] [IsStrictOrderedRing K]

/-! ## Shapes -/

theorem shape_special (s : Special) : shape (specialIn K s) = .inl s := by
  cases s
  · rw [specialIn, shape, if_neg (by linarith), if_neg (by linarith), if_pos rfl]
  · rw [specialIn, shape, if_pos rfl]
  · rw [specialIn, shape, if_neg (by linarith), if_pos rfl]

theorem shape_gt {y : K} (h : 1 < y) : shape y = .inr (some .Turn, 1 / y) := by
  rw [shape, if_neg (by linarith), if_neg (by linarith), if_neg (by linarith), if_pos h]

theorem shape_unit {y : K} (h0 : 0 < y) (h1 : y < 1) : shape y = .inr (none, y) := by
  rw [shape, if_neg (by linarith), if_neg (by linarith), if_neg (by linarith),
    if_neg (by linarith), if_pos h0]

theorem shape_neg {y : K} (h0 : -1 < y) (h1 : y < 0) : shape y = .inr (some .Reflect, -y) := by
  rw [shape, if_neg (by linarith), if_neg (by linarith), if_neg (by linarith),
    if_neg (by linarith), if_neg (by linarith), if_pos h0]

theorem shape_lt {y : K} (h : y < -1) : shape y = .inr (some .Ground, -(1 / y)) := by
  rw [shape, if_neg (by linarith), if_neg (by linarith), if_neg (by linarith),
    if_neg (by linarith), if_neg (by linarith), if_neg (by linarith)]

theorem shape_other (p : Option Primer) {x : K} (h0 : 0 < x) (h1 : x < 1) :
    shape (primerIn p x) = .inr (p, x) := by
  have hi : 1 < 1 / x := by rwa [lt_div_iff₀ h0, one_mul]
  rcases p with - | - | - | -
  · exact shape_unit h0 h1
  · exact (shape_gt hi).trans (by rw [one_div_one_div])
  · exact (shape_neg (y := -x) (by linarith) (by linarith)).trans (by rw [neg_neg])
  · exact (shape_lt (y := -(1 / x)) (by linarith)).trans
      (by rw [one_div_neg_eq_neg_one_div, one_div_one_div, neg_neg])

theorem face_of_follows {cfg : Cfg} {A : Panic → Prop} {n : Clarith.Number} {q : K}
    (h : Clarith.Number.Follows cfg A n q) : face n = faceOf q := by
  cases n with
  | Special s =>
    change q = _ at h
    rw [h]
    simp only [faceOf, shape_special, face]
  | Other p c =>
    obtain ⟨x, hx, rfl⟩ := h
    simp only [faceOf, shape_other p hx.1 hx.2.1, face]

/-! ## Tables and variables -/

/-- The number is what is known about it. -/
def Holds (cfg : Cfg) (n : Clarith.Number) (q : Known K) : Prop :=
  Clarith.Number.Follows cfg (may q.exact) n q.value ∧
    (q.ends → Clarith.Number.Tracks cfg (may q.exact) n q.value)

omit [IsStrictOrderedRing K] in
theorem Holds.of_tracks {cfg : Cfg} {n : Clarith.Number} {q : Known K}
    (h : Clarith.Number.Tracks cfg (may q.exact) n q.value) : Holds cfg n q :=
  ⟨h.follows, fun _ => h⟩

/-- The table is right about the variables. -/
structure Knows (cfg : Cfg) (t : Table K) (b : Plain) : Prop where
  next : b.next = t.next
  none : ∀ i, t.var i = none → b.held i = none
  some : ∀ i q, t.var i = some q → ∃ n, b.held i = some n ∧ Holds cfg n q

omit [IsStrictOrderedRing K] in
theorem Knows.start (cfg : Cfg) : Knows cfg (Table.start K) Plain.start :=
  ⟨rfl, fun _ _ => rfl, fun _ _ h => nomatch h⟩

omit [IsStrictOrderedRing K] in
theorem Knows.clear {cfg : Cfg} {t : Table K} {b : Plain} (h : Knows cfg t b) (i : Nat) :
    Knows cfg (t.set i .none) (b.set i .none) where
  next := h.next
  none j hj := by
    by_cases e : j = i
    · simp [Plain.set, e]
    · simp only [Plain.set, if_neg e]
      exact h.none j (by simpa [Table.set, e] using hj)
  some j q hj := by
    by_cases e : j = i
    · simp [Table.set, e] at hj
    · simp only [Plain.set, if_neg e]
      exact h.some j q (by simpa [Table.set, e] using hj)

omit [IsStrictOrderedRing K] in
theorem Knows.put {cfg : Cfg} {t : Table K} {b : Plain} (h : Knows cfg t b) (i : Nat)
    {n : Clarith.Number} {q : Known K} (hn : Holds cfg n q) :
    Knows cfg (t.set i (.some q)) (b.set i (.some n)) where
  next := h.next
  none j hj := by
    by_cases e : j = i
    · simp [Table.set, e] at hj
    · simp only [Plain.set, if_neg e]
      exact h.none j (by simpa [Table.set, e] using hj)
  some j q hj := by
    by_cases e : j = i
    · simp only [Table.set, if_pos e, Option.some.injEq] at hj
      subst hj
      exact ⟨n, by simp [Plain.set, e], hn⟩
    · simp only [Plain.set, if_neg e]
      exact h.some j q (by simpa [Table.set, e] using hj)

omit [IsStrictOrderedRing K] in
/-- A new number. -/
theorem Knows.push {cfg : Cfg} {t : Table K} {b : Plain} (h : Knows cfg t b)
    {n : Clarith.Number} {q : Known K} (hn : Holds cfg n q) :
    Knows cfg (t.push (.some q)) { b.set b.next (.some n) with next := b.next + 1 } := by
  have h1 := h.put t.next hn
  rw [Table.push, h.next]
  exact ⟨rfl, h1.none, h1.some⟩

omit [IsStrictOrderedRing K] in
/-- A new number about which nothing is known. -/
theorem Knows.push_none {cfg : Cfg} {t : Table K} {b : Plain} (h : Knows cfg t b) :
    Knows cfg (t.push .none) { b.set b.next .none with next := b.next + 1 } := by
  have h1 := h.clear t.next
  rw [Table.push, h.next]
  exact ⟨rfl, h1.none, h1.some⟩

omit [IsStrictOrderedRing K] in
theorem Knows.forget {cfg : Cfg} {t : Table K} {b : Plain} (h : Knows cfg t b) (l : List Nat) :
    Knows cfg (t.forget l) (Steps.forget b l) := by
  induction l generalizing t b with
  | nil => exact h
  | cons i l ih => exact ih (h.clear i)

omit [Field K] [LinearOrder K] [IsStrictOrderedRing K] in
theorem forget_next (t : Table K) (l : List Nat) : (t.forget l).next = t.next := by
  induction l generalizing t with
  | nil => rfl
  | cons i l ih => exact ih _

/-! ## Calls about which something is promised -/

/-- The call settles, or, if it is not sure to end, may never answer. -/
def Promises (S : Prop) (F : Nat → Res Answer × Plain) (Q : Res Answer → Plain → Prop) : Prop :=
  (¬S ∧ ∀ f, (F f).1 = .timeout) ∨ Settles F Q

theorem Promises.of_may {S : Prop} {α : Type} {A : Panic → Prop} {m : Nat → Out α} {P : α → Prop}
    {F : Nat → Res Answer × Plain} {Q : Res Answer → Plain → Prop}
    (hS : S → ¬Diverges m) (hE : May A m P) (hM : FuelMono m)
    (hg : ∀ a, P a → ∃ r b, r ≠ .timeout ∧ Q r b ∧ ∀ f, m f = .ok a → F f = (r, b))
    (hp : ∀ p, A p → ∃ b, Q (.panic p) b ∧ ∀ f, m f = .panic p → F f = (.panic p, b))
    (ht : ∀ f, m f = .timeout → (F f).1 = .timeout) : Promises S F Q := by
  rcases hM.cases with ⟨a, f₀, ha⟩ | ⟨p, f₀, ha⟩ | hd
  · exact .inr (.of_ends (.inl ⟨a, ⟨f₀, ha⟩, (hE f₀).1 a (ha f₀ le_rfl)⟩) hM hg hp ht)
  · exact .inr (.of_ends (.inr ⟨p, ⟨f₀, ha⟩, (hE f₀).2 p (ha f₀ le_rfl)⟩) hM hg hp ht)
  · exact .inl ⟨fun s => hS s hd, fun f => ht f (hd f)⟩

theorem _root_.Clarith.Ends.not_diverges {α : Type} {A : Panic → Prop} {m : Nat → Out α} {P : α → Prop}
    (h : Ends A m P) : ¬Diverges m := by
  intro hd
  rcases h with ⟨a, ⟨f, hf⟩, -⟩ | ⟨p, ⟨f, hf⟩, -⟩
  · have := (hf f le_rfl).symm.trans (hd f)
    cases this
  · have := (hf f le_rfl).symm.trans (hd f)
    cases this

/-- A call that makes a number. -/
theorem make_promises {cfg : Cfg} {ω : Nat → K} {t : Table K} {b : Plain} {a : Call} {v : Known K}
    {sure : Bool} {S : Prop} (h : Knows cfg (t.forget (operands a)) b)
    (ho : outcome cfg t a = .makes v sure)
    {m : Nat → Out Clarith.Number} (hM : FuelMono m) (hS : S → ¬Diverges m)
    (hE : May (may sure) m fun n => Holds cfg n v)
    {F : Nat → Res Answer × Plain} (hF : ∀ f, F f = Plain.make (m f) b) :
    Promises S F fun r b' =>
      r ≠ .ok .refused ∧ ∃ t', Right cfg ω t a r t' ∧ Knows cfg t' b' := by
  refine .of_may hS hE hM (fun n hn => ?_) (fun p hp => ?_) fun f e => ?_
  · refine ⟨.ok (.made (face n)), { b.set b.next (some n) with next := b.next + 1 },
      (by intro e; cases e), ⟨(by intro e; cases e), _, ?_, h.push hn⟩, fun f e => ?_⟩
    · unfold Right; rw [ho]
      exact .inl ⟨by rw [face_of_follows hn.1], rfl⟩
    · rw [hF, e]
      rfl
  · refine ⟨b, ⟨(by intro e; cases e), _, ?_, h⟩, fun f e => ?_⟩
    · unfold Right; rw [ho]
      exact .inr ⟨⟨hp.1, p, rfl, hp.2⟩, rfl⟩
    · rw [hF, e]
      rfl
  · rw [hF, e]
    rfl

theorem infinite_tracks {cfg : Cfg} {A : Panic → Prop} {p : Option Primer} {c : Clog} {w : K}
    (hw : Infinite w) (hp : p = some .Turn ∨ p = some .Ground)
    (hc : Clog.AmplifiesForever cfg A c) :
    ∃ v, (v = w ∨ v = -w) ∧ Clarith.Number.Tracks cfg A (.Other p c) v := by
  rcases hp with rfl | rfl
  · exact ⟨w, .inl rfl, 1 / w, hc.tracks hw.inv, by simp [primerIn]⟩
  · exact ⟨-w, .inr rfl, 1 / w, hc.tracks hw.inv, by simp [primerIn]⟩

/-- A call that divides by zero. -/
theorem pole_promises {cfg : Cfg} {ω : Nat → K} (hω : ∀ i, Infinite (ω i)) {t : Table K}
    {b : Plain} {a : Call} {possible : Prop}
    {S : Prop} (h : Knows cfg (t.forget (operands a)) b)
    (ho : outcome cfg t a = .pole possible)
    {m : Nat → Out Clarith.Number} (hM : FuelMono m) (hS : S → ¬Diverges m)
    (hE : May OverflowOrDivision m fun n => possible ∧ ∃ p c, n = .Other p c ∧
      (p = some .Turn ∨ p = some .Ground) ∧ Clog.AmplifiesForever cfg Overflow c)
    {F : Nat → Res Answer × Plain} (hF : ∀ f, F f = Plain.make (m f) b) :
    Promises S F fun r b' =>
      r ≠ .ok .refused ∧ ∃ t', Right cfg ω t a r t' ∧ Knows cfg t' b' := by
  refine .of_may hS hE hM (fun n hn => ?_) (fun p hp => ?_) fun f e => ?_
  · obtain ⟨hpos, p, c, rfl, hp, hc⟩ := hn
    obtain ⟨w, hw, ht⟩ := infinite_tracks (hω t.next) hp hc
    have ht : Clarith.Number.Tracks cfg (may false) (.Other p c) w := ht.weaken fun _ => may_false
    refine ⟨.ok (.made (face (.Other p c))),
      { b.set b.next (some (.Other p c)) with next := b.next + 1 },
      (by intro e; cases e), ⟨(by intro e; cases e),
        (t.forget (operands a)).push (some ⟨w, false, True⟩), ?_, h.push (.of_tracks ht)⟩,
      fun f e => ?_⟩
    · unfold Right; rw [ho]
      exact .inl ⟨hpos, w, hw, by rw [face_of_follows ht.follows], rfl⟩
    · rw [hF, e]
      rfl
  · refine ⟨b, ⟨(by intro e; cases e), _, ?_, h⟩, fun f e => ?_⟩
    · unfold Right; rw [ho]
      exact .inr ⟨⟨p, rfl, hp⟩, rfl⟩
    · rw [hF, e]
      rfl
  · rw [hF, e]
    rfl

/-- A call that answers at once. -/
theorem Promises.const {S : Prop} {r : Res Answer} {b : Plain} {Q : Res Answer → Plain → Prop}
    {F : Nat → Res Answer × Plain} (hr : r ≠ .timeout) (hQ : Q r b) (hF : ∀ f, F f = (r, b)) :
    Promises S F Q := .inr (.const hr hQ hF)

/-! ## Calls that are sure to end -/

theorem homographic_sure {cfg : Cfg} (hc : cfg.overflowChecks = true) {v : Clarith.Number} {q : K}
    {nx n dx d : Int} (h1 : cfg.Fits nx) (h2 : cfg.Fits n) (h3 : cfg.Fits dx) (h4 : cfg.Fits d)
    (hD : (dx : K) * q + d ≠ 0)
    (hS : (nx = 0 ∧ dx = 0) ∨ (Clarith.Number.Tracks cfg Overflow v q ∧
      (IsFraction q ∨ nx * d ≠ n * dx))) :
    Ends Overflow (fun f => Clarith.Number.homographic cfg f v nx n dx d)
      fun t => Clarith.Number.Tracks cfg Overflow t ((nx * q + n) / (dx * q + d)) := by
  rcases hS with ⟨rfl, rfl⟩ | ⟨hv, hq | hdet⟩
  · have hd : (d : ℚ) ≠ 0 := by
      rintro e
      apply hD
      have e : d = 0 := by exact_mod_cast e
      simp [e]
    have e : ∀ f, Clarith.Number.homographic cfg f v 0 n 0 d =
        Clarith.Number.homographic cfg f (.Special .Zero) 0 n 0 d := by
      intro f
      simp [Clarith.Number.homographic, Clarith.Homographic.new]
    simp only [e]
    refine (C16_homographic cfg hc (.Special .Zero) 0 rfl 0 n 0 d h1 h2 h3 h4
      (by simpa using hd)).mono fun t ht => ?_
    have := ht.tracks (K := K)
    simpa using this
  · obtain ⟨p, rfl, hp⟩ := hv.fraction hq
    refine (C16_homographic cfg hc v p hp nx n dx d h1 h2 h3 h4
      (by exact_mod_cast hD)).mono fun t ht => ?_
    have := ht.tracks (K := K)
    push_cast at this
    exact this
  · exact C55_homographic cfg hc Overflow (fun _ h => h) v q hv nx n dx d h1 h2 h3 h4 hD hdet

theorem homographic_pole_sure {cfg : Cfg} (hc : cfg.overflowChecks = true) {v : Clarith.Number}
    {q : K} {nx n dx d : Int} (h1 : cfg.Fits nx) (h2 : cfg.Fits n) (h3 : cfg.Fits dx)
    (h4 : cfg.Fits d) (hD : (dx : K) * q + d = 0)
    (hS : (nx = 0 ∧ dx = 0) ∨ (Clarith.Number.Tracks cfg Overflow v q ∧ IsFraction q)) :
    ¬Diverges (fun f => Clarith.Number.homographic cfg f v nx n dx d) := by
  rcases hS with ⟨rfl, rfl⟩ | ⟨hv, hq⟩
  · have e : ∀ f, Clarith.Number.homographic cfg f v 0 n 0 d =
        Clarith.Number.homographic cfg f (.Special .Zero) 0 n 0 d := by
      intro f
      simp [Clarith.Number.homographic, Clarith.Homographic.new]
    simp only [e]
    have hd : d = 0 := by simpa using hD
    exact (C17_homographic_pole cfg hc (.Special .Zero) 0 rfl 0 n 0 d h1 h2 h3 h4
      (by simp [hd])).not_diverges
  · obtain ⟨p, rfl, hp⟩ := hv.fraction hq
    exact (C17_homographic_pole cfg hc v p hp nx n dx d h1 h2 h3 h4
      (by exact_mod_cast hD)).not_diverges

theorem combine_sure {cfg : Cfg} (hc : cfg.overflowChecks = true) {v w : Clarith.Number} {q r : K}
    (hv : Clarith.Number.Tracks cfg Overflow v q) (hw : Clarith.Number.Tracks cfg Overflow w r)
    {nxy nx ny n dxy dx dy d : Int} (H : MachineInts cfg [nxy, nx, ny, n, dxy, dx, dy, d])
    (hD : (dxy : K) * q * r + dx * q + dy * r + d ≠ 0)
    (hS : (IsFraction q ∧ IsFraction r) ∨ ((IsFraction q ∨ IsFraction r) ∧
      NotFraction ((nxy * q * r + nx * q + ny * r + n) /
        (dxy * q * r + dx * q + dy * r + d)))) :
    Ends Overflow (fun f => Clarith.Number.combine cfg f v w nxy nx ny n dxy dx dy d)
      fun t => Clarith.Number.Tracks cfg Overflow t
        ((nxy * q * r + nx * q + ny * r + n) / (dxy * q * r + dx * q + dy * r + d)) := by
  rcases hS with ⟨hq, hr⟩ | ⟨hqr, hn⟩
  · obtain ⟨p, rfl, hp⟩ := hv.fraction hq
    obtain ⟨s, rfl, hs⟩ := hw.fraction hr
    refine (C20_combine cfg hc v w p s hp hs nxy nx ny n dxy dx dy d H
      (by exact_mod_cast hD)).mono fun t ht => ?_
    have := ht.tracks (K := K)
    push_cast at this
    exact this
  · exact C55_combine cfg hc Overflow (fun _ h => h) v w q r hv hw nxy nx ny n dxy dx dy d H hD
      hqr hn

theorem consume_face (cfg : Cfg) (f : Nat) (v : Clarith.Number) (y : Clarith.Number) (k : Coef4)
    (h : Clarith.Number.consume cfg f v = .ok (some y, k)) : ∃ c, y = .Other none c := by
  unfold Clarith.Number.consume at h
  rcases e : Clarith.Consume.new cfg (Clog.egest cfg f) f v with ⟨c, k'⟩ | p | -
  · rw [e] at h
    cases c with
    | none => cases h
    | some c =>
      refine ⟨c, ?_⟩
      cases h
      rfl
  · rw [e] at h; cases h
  · rw [e] at h; cases h

theorem compare_hybrid (cfg : Cfg) {v w : Clarith.Number}
    (h : (∃ s, v = .Special s) ∨ ∃ s, w = .Special s) :
    ¬Diverges (fun f => Clarith.Number.compare cfg f v w) := by
  intro hd
  have := hd 0
  rcases h with ⟨s, rfl⟩ | ⟨s, rfl⟩
  · cases w <;> cases this
  · cases v <;> cases this

theorem ratio_value (num den : Int) : (((num : ℚ) / den : ℚ) : K) = (num : K) / den := by
  push_cast
  rfl

/-! ## Every call keeps its promise -/

/-- A call about which something is promised keeps the promise, and does not look at variables
that are not in the table. -/
theorem call_promises {cfg : Cfg} (hc : cfg.overflowChecks = true) {ω : Nat → K}
    (hω : ∀ i, Infinite (ω i)) {t : Table K} {b : Plain}
    (h : Knows cfg t b) (a : Call) (ha : MachineCall cfg a) (hf : outcome cfg t a ≠ .free)
    (hf' : outcome cfg t a ≠ .refuse) :
    Promises (Sure t a) (fun f => Plain.call cfg f a b) fun r b' =>
      r ≠ .ok .refused ∧ ∃ t', Right cfg ω t a r t' ∧ Knows cfg t' b' := by
  cases a with
  | ratio num den =>
    have hn : cfg.Fits num := ha _ (by simp)
    have hd : cfg.Fits den := ha _ (by simp)
    by_cases h1 : num = cfg.imin ∨ den = cfg.imin
    · have ho : outcome cfg t (.ratio num den) = .reject .arithOverflow := if_pos h1
      refine .const (r := .panic .arithOverflow) (b := b) (by intro e; cases e)
        ⟨(by intro e; cases e), t, ?_, h⟩ fun f => ?_
      · unfold Right; rw [ho]; exact ⟨rfl, rfl⟩
      · change Plain.make (Clarith.Number.ratio cfg num den) b = _
        rw [ratio_min hc hn h1]; rfl
    by_cases h2 : den = 0
    · have ho : outcome cfg t (.ratio num den) = .reject .divisionByZero :=
        (if_neg h1).trans (if_pos h2)
      refine .const (r := .panic .divisionByZero) (b := b) (by intro e; cases e)
        ⟨(by intro e; cases e), t, ?_, h⟩ fun f => ?_
      · unfold Right; rw [ho]; exact ⟨rfl, rfl⟩
      · change Plain.make (Clarith.Number.ratio cfg num den) b = _
        rw [h2, C03_zero_denominator cfg num hn, if_neg fun e => h1 (.inl e.2)]; rfl
    · have ho : outcome cfg t (.ratio num den) = .makes ⟨(num : K) / den, true, True⟩ true :=
        (if_neg h1).trans (if_neg h2)
      push Not at h1
      obtain ⟨v, e, hv⟩ := C01_ratio_exact cfg num den hn hd h2 fun _ => h1
      have hv := (hv.weaken (B := may true) fun _ h => h.elim).tracks (K := K)
      rw [ratio_value] at hv
      have hE : Ends (may true) (fun _ : Nat => Clarith.Number.ratio cfg num den)
        (fun n => Holds cfg n (⟨(num : K) / den, true, True⟩ : Known K)) :=
        .inl ⟨v, ⟨0, fun _ _ => e⟩, .of_tracks hv⟩
      exact make_promises h ho (fuelMono_const _) (fun _ => hE.not_diverges)
        (hE.may (fuelMono_const _)) fun f => rfl
  | ratioU positive num den =>
    by_cases h2 : den = 0
    · have ho : outcome cfg t (.ratioU positive num den) = .reject .divisionByZero := if_pos h2
      refine .const (r := .panic .divisionByZero) (b := b) (by intro e; cases e)
        ⟨(by intro e; cases e), t, ?_, h⟩ fun f => ?_
      · unfold Right; rw [ho]; exact ⟨rfl, rfl⟩
      · change Plain.make (Clarith.Number.ratioU positive num den) b = _
        rw [h2, C03_zero_denominator_u]; rfl
    · have ho : outcome cfg t (.ratioU positive num den) =
        .makes ⟨(if positive then 1 else -1) * ((num : K) / den), true, True⟩ true := if_neg h2
      obtain ⟨v, e, hv⟩ := C02_ratio_u_exact cfg positive num den ha.1 ha.2 h2
      have hv := (hv.weaken (B := may true) fun _ h => h.elim).tracks (K := K)
      have e' : (((if positive then 1 else -1) * ((num : ℚ) / den) : ℚ) : K) =
          (if positive then 1 else -1) * ((num : K) / den) := by
        cases positive <;> simp
      rw [e'] at hv
      have hE : Ends (may true) (fun _ : Nat => Clarith.Number.ratioU positive num den)
        (fun n => Holds cfg n
          (⟨(if positive then 1 else -1) * ((num : K) / den), true, True⟩ : Known K)) :=
        .inl ⟨v, ⟨0, fun _ _ => e⟩, .of_tracks hv⟩
      exact make_promises h ho (fuelMono_const _) (fun _ => hE.not_diverges)
        (hE.may (fuelMono_const _)) fun f => rfl
  | homographic x nx n dx d =>
    cases hx : t.var x with
    | none => exact absurd (by simp only [outcome, hx]) hf
    | some q =>
      obtain ⟨v, hb, hv, hv'⟩ := h.some x q hx
      have h1 : cfg.Fits nx := ha _ (by simp)
      have h2 : cfg.Fits n := ha _ (by simp)
      have h3 : cfg.Fits dx := ha _ (by simp)
      have h4 : cfg.Fits d := ha _ (by simp)
      have hSure : Sure t (.homographic x nx n dx d) = ((nx = 0 ∧ dx = 0) ∨ (q.ends ∧
          (IsFraction q.value ∨ ((dx : K) * q.value + d ≠ 0 ∧ nx * d ≠ n * dx)))) := by
        simp only [Sure, hx]
      have hM := Clarith.Number.homographic_mono cfg v nx n dx d
      by_cases hD : (dx : K) * q.value + d = 0
      · refine pole_promises hω (possible := dx = 0 ∧ d = 0) (h.clear x)
          (by simp only [outcome, hx, if_pos hD]) hM ?_ ?_
          fun f => call_homographic hb f nx n dx d
        · rw [hSure]
          intro hS
          refine homographic_pole_sure hc h1 h2 h3 h4 hD (hS.imp_right fun hS =>
            ⟨(hv' hS.1).weaken may_overflow, hS.2.resolve_right fun e => e.1 hD⟩)
        · refine may_iff.2 fun f => (may_iff.1 (C54_homographic_pole cfg hc OverflowOrDivision
            (fun _ h => h) v q.value (hv.weaken fun p h => .inl h.2) nx n dx d h2 hD) f).mono ?_
          rintro t ⟨a, b, h⟩
          exact ⟨⟨a, b⟩, h⟩
      have ho : outcome cfg t (.homographic x nx n dx d) =
          .makes ⟨(nx * q.value + n) / (dx * q.value + d), false,
            Sure t (.homographic x nx n dx d)⟩ false := by
        simp only [outcome, hx, if_neg hD]
      have hE : Sure t (.homographic x nx n dx d) → Ends Overflow
          (fun f => Clarith.Number.homographic cfg f v nx n dx d)
          fun t => Clarith.Number.Tracks cfg Overflow t
            ((nx * q.value + n) / (dx * q.value + d)) := by
        rw [hSure]
        intro hS
        exact homographic_sure hc h1 h2 h3 h4 hD (hS.imp_right fun hS =>
          ⟨(hv' hS.1).weaken may_overflow, hS.2.imp_right And.right⟩)
      refine make_promises (h.clear x) ho hM (fun hS => (hE hS).not_diverges) ?_
        fun f => call_homographic hb f nx n dx d
      have key := may_iff.1 (C54_homographic cfg hc (may false) (fun _ => may_false) v q.value
        (hv.weaken fun p h => may_false h.2) nx n dx d h1 h2 h3 h4 hD)
      refine may_iff.2 fun f => ?_
      by_cases hS : Sure t (.homographic x nx n dx d)
      · refine (may_iff.1 ((((hE hS).weaken fun _ => may_false).mono fun t ht =>
          Holds.of_tracks (q := ⟨_, false, _⟩) (ht.weaken fun _ => may_false)).may hM) f)
      · exact (key f).mono fun t ht => ⟨ht, fun hS' => absurd hS' hS⟩
  | combine x y nxy nx ny n dxy dx dy d =>
    by_cases hxy : x = y
    · exact absurd (by simp only [outcome, if_pos hxy]) hf
    cases hx : t.var x with
    | none => exact absurd (by simp only [outcome, hx, if_neg hxy]) hf
    | some q =>
      cases hy : t.var y with
      | none => exact absurd (by simp only [outcome, hx, hy, if_neg hxy]) hf
      | some r =>
        obtain ⟨v, hb, hv, hv'⟩ := h.some x q hx
        obtain ⟨w, hb', hw, hw'⟩ := h.some y r hy
        have hSure : Sure t (.combine x y nxy nx ny n dxy dx dy d) → q.ends ∧ r.ends ∧
            ((IsFraction q.value ∧ IsFraction r.value) ∨
            ((IsFraction q.value ∨ IsFraction r.value) ∧
              (dxy : K) * q.value * r.value + dx * q.value + dy * r.value + d ≠ 0 ∧
              NotFraction ((nxy * q.value * r.value + nx * q.value + ny * r.value + n) /
                (dxy * q.value * r.value + dx * q.value + dy * r.value + d)))) := by
          simp only [Sure, hx, hy]
          exact And.right
        have hM := Clarith.Number.combine_mono cfg v w nxy nx ny n dxy dx dy d
        by_cases hD : (dxy : K) * q.value * r.value + dx * q.value + dy * r.value + d = 0
        · refine pole_promises hω (possible := True) ((h.clear x).clear y)
            (by simp only [outcome, hx, hy, if_neg hxy, if_pos hD]) hM ?_ ?_
            fun f => call_combine hb hb' hxy f nxy nx ny n dxy dx dy d
          · intro hS
            obtain ⟨e1, e2, hS⟩ := hSure hS
            obtain ⟨f1, f2⟩ := hS.resolve_right fun e => e.2.1 hD
            obtain ⟨p, ep, hp⟩ := (hv' e1).fraction f1
            obtain ⟨s, es, hs⟩ := (hw' e2).fraction f2
            rw [ep, es] at hD
            exact (C21_combine_pole cfg hc v w p s (hp.weaken may_overflow)
              (hs.weaken may_overflow) nxy nx ny n dxy dx dy d ha
              (by exact_mod_cast hD)).not_diverges
          · refine may_iff.2 fun f => (may_iff.1 (C54_combine_pole cfg hc OverflowOrDivision
              (fun _ h => h) v w q.value r.value (hv.weaken fun p h => .inl h.2)
              (hw.weaken fun p h => .inl h.2) nxy nx ny n dxy dx dy d ha hD) f).mono ?_
            exact fun t h => ⟨trivial, h⟩
        have ho : outcome cfg t (.combine x y nxy nx ny n dxy dx dy d) =
            .makes ⟨(nxy * q.value * r.value + nx * q.value + ny * r.value + n) /
              (dxy * q.value * r.value + dx * q.value + dy * r.value + d), false,
              Sure t (.combine x y nxy nx ny n dxy dx dy d)⟩ false := by
          simp only [outcome, hx, hy, if_neg hxy, if_neg hD]
        have hE : Sure t (.combine x y nxy nx ny n dxy dx dy d) → Ends Overflow
            (fun f => Clarith.Number.combine cfg f v w nxy nx ny n dxy dx dy d)
            fun t => Clarith.Number.Tracks cfg Overflow t
              ((nxy * q.value * r.value + nx * q.value + ny * r.value + n) /
              (dxy * q.value * r.value + dx * q.value + dy * r.value + d)) := by
          intro hS
          obtain ⟨e1, e2, hS⟩ := hSure hS
          exact combine_sure hc ((hv' e1).weaken may_overflow) ((hw' e2).weaken may_overflow) ha hD
            (hS.imp_right fun h => ⟨h.1, h.2.2⟩)
        refine make_promises ((h.clear x).clear y) ho hM (fun hS => (hE hS).not_diverges) ?_
          fun f => call_combine hb hb' hxy f nxy nx ny n dxy dx dy d
        have key := may_iff.1 (C54_combine cfg hc (may false) (fun _ => may_false) v w q.value
          r.value (hv.weaken fun p h => may_false h.2) (hw.weaken fun p h => may_false h.2)
          nxy nx ny n dxy dx dy d ha hD)
        refine may_iff.2 fun f => ?_
        by_cases hS : Sure t (.combine x y nxy nx ny n dxy dx dy d)
        · refine (may_iff.1 ((((hE hS).weaken fun _ => may_false).mono fun t ht =>
            Holds.of_tracks (q := ⟨_, false, _⟩) (ht.weaken fun _ => may_false)).may hM) f)
        · exact (key f).mono fun t ht => ⟨ht, fun hS' => absurd hS' hS⟩
  | egest x =>
    cases hx : t.var x with
    | none => exact absurd (by simp only [outcome, hx]) hf
    | some q =>
      obtain ⟨v, hb, hv, hv'⟩ := h.some x q hx
      cases v with
      | Special s =>
        change q.value = _ at hv
        exact absurd (by simp only [outcome, hx, hv, shape_special]) hf'
      | Other p c =>
        obtain ⟨z, hz, hq⟩ := hv
        have hsh := shape_other p hz.1 hz.2.1
        have ho : outcome cfg t (.egest x) = .reads x p z q := by
          simp only [outcome, hx, hq, hsh]
        have hz' : q.ends → Clog.Tracks cfg (may q.exact) c z := by
          intro he
          obtain ⟨z', hz', hq'⟩ := hv' he
          have : z' = z := by
            have := shape_other p hz'.1 hz'.2.1
            rw [← hq', hq, hsh] at this
            cases this
            rfl
          exact this ▸ hz'
        have hSure : Sure t (.egest x) → q.ends := by
          simp only [Sure, hx]
          rintro (h | ⟨s, h⟩)
          · exact h
          · rw [hq, hsh] at h; cases h
        have hM := Clog.egest_mono cfg c
        have hE : May (may q.exact) (fun f => Clog.egest cfg f c) fun r =>
            r.1 = firstSymbol z ∧ Clog.Follows cfg (may q.exact) r.2 (afterSymbol z) ∧
              (q.ends → Clog.Tracks cfg (may q.exact) r.2 (afterSymbol z)) := by
          refine may_iff.2 fun f => ?_
          by_cases he : q.ends
          · exact (may_iff.1 ((hz' he).step.may hM) f).mono fun r hr =>
              ⟨hr.1, hr.2.follows, fun _ => hr.2⟩
          · exact (hz.step f).mono fun r hr => ⟨hr.1, hr.2, fun he' => absurd he' he⟩
        refine .of_may (fun hS => (hz' (hSure hS)).step.not_diverges) hE hM
          (fun r hr => ?_) (fun e he => ?_) fun f e => ?_
        · refine ⟨.ok (.symbol r.1), b.set x (some (.Other p r.2)), (by intro e; cases e),
            ⟨(by intro e; cases e), t.set x (some ⟨primerIn p (afterSymbol z), q.exact, q.ends⟩),
              ?_, h.put x ⟨⟨afterSymbol z, hr.2.1, rfl⟩, fun he =>
                ⟨afterSymbol z, hr.2.2 he, rfl⟩⟩⟩, fun f e => ?_⟩
          · unfold Right; rw [ho]
            exact .inl ⟨by rw [hr.1], rfl⟩
          · rw [call_egest hb, e]
        · refine ⟨b.set x none, ⟨(by intro e; cases e), _, ?_, h.clear x⟩, fun f e => ?_⟩
          · unfold Right; rw [ho]
            exact .inr ⟨⟨he.1, e, rfl, he.2⟩, rfl⟩
          · rw [call_egest hb, e]
        · rw [call_egest hb, e]
  | consume x =>
    cases hx : t.var x with
    | none => exact absurd (by simp only [outcome, hx]) hf
    | some q =>
      obtain ⟨v, hb, hv, hv'⟩ := h.some x q hx
      have ho : outcome cfg t (.consume x) = .consumes q := by simp only [outcome, hx]
      have hSure : Sure t (.consume x) → Clarith.Number.Tracks cfg (may q.exact) v q.value := by
        simp only [Sure, hx]
        rintro (h | ⟨s, h⟩)
        · exact hv' h
        · cases v with
          | Special s => exact hv
          | Other p c =>
            obtain ⟨z, hz, hq⟩ := hv
            rw [hq, shape_other p hz.1 hz.2.1] at h
            cases h
      have hM := Clarith.Number.consume_mono cfg v
      have hE : May (may q.exact) (fun f => Clarith.Number.consume cfg f v) fun r =>
          (∀ y, r.1 = some y → ∃ c, y = .Other none c) ∧
          ∃ z : K, (match r.1 with
            | none => z = 1 / 2
            | some y => Clarith.Number.Follows cfg (may q.exact) y z ∧
              (q.ends → Clarith.Number.Tracks cfg (may q.exact) y z)) ∧
            (r.2.dx : K) * z + r.2.d ≠ 0 ∧
            (r.2.nx * z + r.2.n) / (r.2.dx * z + r.2.d) = q.value := by
        have key : ∀ f, Out.Maybe (may q.exact) (Clarith.Number.consume cfg f v) fun r =>
          ∃ z : K, (match r.1 with
            | none => z = 1 / 2
            | some y => Clarith.Number.Follows cfg (may q.exact) y z ∧
              (q.ends → Clarith.Number.Tracks cfg (may q.exact) y z)) ∧
            (r.2.dx : K) * z + r.2.d ≠ 0 ∧
            (r.2.nx * z + r.2.n) / (r.2.dx * z + r.2.d) = q.value := by
          intro f
          by_cases he : q.ends
          · refine (may_iff.1 ((C55_consume cfg _ v q.value (hv' he)).may hM) f).mono ?_
            rintro ⟨y, k⟩ ⟨z, hz, h1, h2⟩
            refine ⟨z, ?_, h1, h2⟩
            cases y with
            | none => exact hz
            | some y => exact ⟨Number.Tracks.follows hz, fun _ => hz⟩
          · refine (may_iff.1 (C54_consume cfg _ v q.value hv) f).mono ?_
            rintro ⟨y, k⟩ ⟨z, hz, h1, h2⟩
            refine ⟨z, ?_, h1, h2⟩
            cases y with
            | none => exact hz
            | some y => exact ⟨hz, fun he' => absurd he' he⟩
        refine fun f => ⟨fun r hr => ⟨fun y hy => ?_, ?_⟩, fun p hp => ?_⟩
        · obtain ⟨y', k⟩ := r
          change y' = some y at hy
          rw [hy] at hr
          exact consume_face cfg f v y k hr
        · have := key f
          simp only at hr
          rw [hr] at this
          exact this
        · have := key f
          simp only at hp
          rw [hp] at this
          exact this
      refine .of_may (fun hS => (C55_consume cfg _ v q.value (hSure hS)).not_diverges) hE hM
        (fun r hr => ?_) (fun e he => ?_) fun f e => ?_
      · obtain ⟨y, k⟩ := r
        obtain ⟨hy, z, hz, hd, hq⟩ := hr
        cases y with
        | none =>
          change z = _ at hz
          subst hz
          refine ⟨.ok (.consumed none k), b.set x none, (by intro e; cases e),
            ⟨(by intro e; cases e), _, ?_, h.clear x⟩, fun f e => ?_⟩
          · unfold Right; rw [ho]
            rw [mul_one_div] at hd hq
            rw [mul_one_div] at hq
            exact .inl ⟨k, rfl, hd, hq, rfl⟩
          · rw [call_consume hb, e]
        | some y =>
          obtain ⟨c', rfl⟩ := hy y rfl
          have h0 : 0 < z ∧ z < 1 := by
            obtain ⟨z', hz', e'⟩ := hz.1
            change z = z' at e'
            subst e'
            exact ⟨hz'.1, hz'.2.1⟩
          refine ⟨.ok (.consumed (some (.other none)) k), _, (by intro e; cases e),
            ⟨(by intro e; cases e), _, ?_, (h.clear x).push (n := .Other none c')
              (q := ⟨z, q.exact, q.ends⟩) hz⟩, fun f e => ?_⟩
          · unfold Right; rw [ho]
            exact .inr (.inl ⟨k, z, rfl, h0.1, h0.2, hd, hq, rfl⟩)
          · rw [call_consume hb, e]
            rfl
      · refine ⟨b.set x none, ⟨(by intro e; cases e), _, ?_, h.clear x⟩, fun f e => ?_⟩
        · unfold Right; rw [ho]
          exact .inr (.inr ⟨⟨he.1, e, rfl, he.2⟩, rfl⟩)
        · rw [call_consume hb, e]
      · rw [call_consume hb, e]
  | compare x y =>
    by_cases hxy : x = y
    · exact absurd (by simp only [outcome, if_pos hxy]) hf
    cases hx : t.var x with
    | none => exact absurd (by simp only [outcome, hx, if_neg hxy]) hf
    | some q =>
      cases hy : t.var y with
      | none => exact absurd (by simp only [outcome, hx, hy, if_neg hxy]) hf
      | some r =>
        obtain ⟨v, hb, hv, hv'⟩ := h.some x q hx
        obtain ⟨w, hb', hw, hw'⟩ := h.some y r hy
        have ho : outcome cfg t (.compare x y) =
            .orders (order q.value r.value) (q.exact && r.exact) := by
          simp only [outcome, hx, hy, if_neg hxy]
        have weak1 : ∀ p, may q.exact p → may (q.exact && r.exact) p :=
          fun p h => ⟨by rw [h.1]; rfl, h.2⟩
        have weak2 : ∀ p, may r.exact p → may (q.exact && r.exact) p :=
          fun p h => ⟨by rw [h.1, Bool.and_false], h.2⟩
        have hS : Sure t (.compare x y) →
            ¬Diverges (fun f => Clarith.Number.compare cfg f v w) := by
          simp only [Sure, hx, hy]
          rintro ⟨-, hS⟩
          cases v with
          | Special s => exact compare_hybrid cfg (.inl ⟨s, rfl⟩)
          | Other p c =>
            cases w with
            | Special s => exact compare_hybrid cfg (.inr ⟨s, rfl⟩)
            | Other p' c' =>
              obtain ⟨z, hz, e1⟩ := hv
              obtain ⟨z', hz', e2⟩ := hw
              have s1 := shape_other p hz.1 hz.2.1
              have s2 := shape_other p' hz'.1 hz'.2.1
              rw [← e1] at s1
              rw [← e2] at s2
              rcases hS with hS | ⟨n1, n2, hS⟩
              · rw [OneSpecial, s1, s2] at hS
                exact hS.elim
              rw [Tell, s1, s2] at hS
              obtain ⟨k, hk⟩ := hS
              obtain ⟨u, hu, e3⟩ := hv' n1
              obtain ⟨u', hu', e4⟩ := hw' n2
              have s3 := shape_other p hu.1 hu.2.1
              have s4 := shape_other p' hu'.1 hu'.2.1
              rw [← e3, s1] at s3
              rw [← e4, s2] at s4
              cases s3
              cases s4
              exact (C55_compare cfg (may (q.exact && r.exact)) p p' c c' z z' (hu.weaken weak1)
                (hu'.weaken weak2) k hk).not_diverges
        refine .of_may hS (C54_compare cfg _ v w q.value r.value (hv.weaken weak1)
          (hw.weaken weak2)) (Clarith.Number.compare_mono cfg v w) (fun o hr => ?_)
          (fun e he => ?_) fun f e => ?_
        · refine ⟨.ok (.order o), (b.set x none).set y none, (by intro e; cases e),
            ⟨(by intro e; cases e), _, ?_, (h.clear x).clear y⟩, fun f e => ?_⟩
          · unfold Right; rw [ho]
            refine .inl ⟨?_, rfl⟩
            congr 2
            unfold order
            split_ifs with h1 h2
            · exact hr.1.2 h1
            · exact hr.2.1.2 h2
            · exact hr.2.2.2 (lt_of_le_of_ne (not_lt.1 h1) (Ne.symm h2))
          · rw [call_compare hb hb' hxy, e]
        · refine ⟨(b.set x none).set y none, ⟨(by intro e; cases e), _, ?_,
            (h.clear x).clear y⟩, fun f e => ?_⟩
          · unfold Right; rw [ho]
            exact .inr ⟨⟨he.1, e, rfl, he.2⟩, rfl⟩
          · rw [call_compare hb hb' hxy, e]
        · rw [call_compare hb hb' hxy, e]
  | special s =>
    have hE : Ends (may true) (fun _ : Nat => Out.ok (Clarith.Number.Special s))
        (fun n => Holds cfg n (⟨specialIn K s, true, True⟩ : Known K)) :=
      .inl ⟨_, ⟨0, fun _ _ => rfl⟩, .of_tracks rfl⟩
    exact make_promises (v := ⟨specialIn K s, true, True⟩) (sure := true) h rfl (fuelMono_const _)
      (fun _ => hE.not_diverges) (hE.may (fuelMono_const _)) fun f => rfl
  | reprime x p =>
    cases hx : t.var x with
    | none => exact absurd (by simp only [outcome, hx]) hf
    | some q =>
      obtain ⟨v, hb, hv, hv'⟩ := h.some x q hx
      have hcall : ∀ f, Plain.call cfg f (.reprime x p) b = Plain.make (do
          let (_, c) ← v.unwrapOther
          pure (.Other p c)) (b.set x none) := by
        intro f
        change (match b.held x with
          | none => (pure .refused : Mut Plain Answer)
          | some v => Plain.make (do
            let (_, c) ← v.unwrapOther
            pure (.Other p c))) (b.set x none) = _
        rw [hb]
      cases v with
      | Special s =>
        change q.value = _ at hv
        have ho : outcome cfg t (.reprime x p) = .reject .notOther := by
          simp only [outcome, hx, hv, shape_special]
        refine .const (r := .panic .notOther) (b := b.set x none) (by intro e; cases e)
          ⟨(by intro e; cases e), _, ?_, h.clear x⟩ hcall
        unfold Right; rw [ho]; exact ⟨rfl, rfl⟩
      | Other p' c =>
        obtain ⟨z, hz, hq⟩ := hv
        have hsh := shape_other p' hz.1 hz.2.1
        have ho : outcome cfg t (.reprime x p) =
            .makes ⟨primerIn p z, q.exact, q.ends⟩ true := by
          simp only [outcome, hx, hq, hsh]
        have hE : Ends (may true) (fun _ : Nat => Out.ok (Clarith.Number.Other p c))
            (fun n => Holds cfg n (⟨primerIn p z, q.exact, q.ends⟩ : Known K)) := by
          refine .inl ⟨_, ⟨0, fun _ _ => rfl⟩, ⟨z, hz, rfl⟩, fun he => ?_⟩
          obtain ⟨z', hz', hq'⟩ := hv' he
          have s3 := shape_other p' hz'.1 hz'.2.1
          rw [← hq', hq, hsh] at s3
          cases s3
          exact ⟨z, hz', rfl⟩
        exact make_promises (h.clear x) ho (fuelMono_const _)
          (fun _ => hE.not_diverges) (hE.may (fuelMono_const _)) hcall
  | unwrapSpecial x =>
    cases hx : t.var x with
    | none => exact absurd (by simp only [outcome, hx]) hf
    | some q =>
      obtain ⟨v, hb, hv, -⟩ := h.some x q hx
      have hcall : ∀ f, Plain.call cfg f (.unwrapSpecial x) b = (do
          let s ← eval v.unwrapSpecial
          pure (.fixed s) : Mut Plain Answer) (b.set x none) := by
        intro f
        change (match b.held x with
          | none => (pure .refused : Mut Plain Answer)
          | some v => (do
            let s ← eval v.unwrapSpecial
            pure (.fixed s))) (b.set x none) = _
        rw [hb]
      cases v with
      | Special s =>
        change q.value = _ at hv
        have ho : outcome cfg t (.unwrapSpecial x) = .fixes s := by
          simp only [outcome, hx, hv, shape_special]
        refine .const (r := .ok (.fixed s)) (b := b.set x none) (by intro e; cases e)
          ⟨(by intro e; cases e), _, ?_, h.clear x⟩ hcall
        unfold Right; rw [ho]; exact ⟨rfl, rfl⟩
      | Other p' c =>
        obtain ⟨z, hz, hq⟩ := hv
        have ho : outcome cfg t (.unwrapSpecial x) = .reject .notSpecial := by
          simp only [outcome, hx, hq, shape_other p' hz.1 hz.2.1]
        refine .const (r := .panic .notSpecial) (b := b.set x none) (by intro e; cases e)
          ⟨(by intro e; cases e), _, ?_, h.clear x⟩ hcall
        unfold Right; rw [ho]; exact ⟨rfl, rfl⟩

/-! ## One call -/

/-- Where the caller stands: its variables hold the numbers of the table, and maybe others. -/
def At (cfg : Cfg) (t : Table K) (k : Plain) (c : Caller) : Prop :=
  Knows cfg t k ∧ ∃ b fps, Inv c b fps ∧ Under k b

omit [IsStrictOrderedRing K] in
/-- Calls about which nothing is promised are not sure to end. -/
theorem not_sure {cfg : Cfg} {t : Table K} {a : Call} (h : outcome cfg t a = .free) :
    ¬Sure t a := by
  cases a with
  | ratio num den =>
    simp only [outcome] at h
    split_ifs at h
  | ratioU positive num den =>
    simp only [outcome] at h
    split_ifs at h
  | homographic x nx n dx d =>
    cases hx : t.var x with
    | none => simp [Sure, hx]
    | some q =>
      simp only [outcome, hx] at h
      split_ifs at h
  | combine x y nxy nx ny n dxy dx dy d =>
    by_cases e : x = y
    · simp [Sure, e]
    cases hx : t.var x with
    | none => simp [Sure, hx]
    | some q =>
      cases hy : t.var y with
      | none => simp [Sure, hx, hy]
      | some r =>
        simp only [outcome, hx, hy, if_neg e] at h
        split_ifs at h
  | egest x =>
    cases hx : t.var x with
    | none => simp [Sure, hx]
    | some q =>
      simp only [outcome, hx] at h
      split at h <;> cases h
  | consume x =>
    cases hx : t.var x with
    | none => simp [Sure, hx]
    | some q =>
      simp only [outcome, hx] at h
      cases h
  | compare x y =>
    by_cases e : x = y
    · simp [Sure, e]
    cases hx : t.var x with
    | none => simp [Sure, hx]
    | some q =>
      cases hy : t.var y with
      | none => simp [Sure, hx, hy]
      | some r =>
        simp only [outcome, hx, hy, if_neg e] at h
        cases h
  | special s => cases h
  | reprime x p =>
    cases hx : t.var x with
    | none => simp [Sure, hx]
    | some q =>
      simp only [outcome, hx] at h
      split at h <;> cases h
  | unwrapSpecial x =>
    cases hx : t.var x with
    | none => simp [Sure, hx]
    | some q =>
      simp only [outcome, hx] at h
      split at h <;> cases h

omit [IsStrictOrderedRing K] in
theorem egest_special {cfg : Cfg} {t : Table K} {a : Call} (h : outcome cfg t a = .refuse) :
    ∃ x q s, a = .egest x ∧ t.var x = some q ∧ shape q.value = .inl s := by
  cases a with
  | ratio num den =>
    simp only [outcome] at h
    split_ifs at h
  | ratioU positive num den =>
    simp only [outcome] at h
    split_ifs at h
  | homographic x nx n dx d =>
    simp only [outcome] at h
    split at h
    · split_ifs at h
    · cases h
  | combine x y nxy nx ny n dxy dx dy d =>
    simp only [outcome] at h
    split_ifs at h
    split at h
    · split_ifs at h
    · cases h
  | egest x =>
    simp only [outcome] at h
    split at h
    · rename_i q hq
      split at h
      · rename_i s hs
        exact ⟨x, q, s, rfl, hq, hs⟩
      · cases h
    · cases h
  | consume x =>
    simp only [outcome] at h
    split at h
    · cases h
    · cases h
  | compare x y =>
    simp only [outcome] at h
    split_ifs at h
    split at h
    · cases h
    · cases h
  | special s => cases h
  | reprime x p =>
    simp only [outcome] at h
    split at h
    · split at h
      · cases h
      · cases h
    · cases h
  | unwrapSpecial x =>
    simp only [outcome] at h
    split at h
    · split at h
      · cases h
      · cases h
    · cases h

/-- One call: the answer is right, and the new table is one of finitely many that depend only on
the numbers in the table; with enough fuel no call times out that is
sure to end. -/
theorem call_right {cfg : Cfg} (hc : cfg.overflowChecks = true) {ω : Nat → K}
    (hω : ∀ i, Infinite (ω i)) {t : Table K} {k : Plain}
    (h : Knows cfg t k) (a : Call) (ha : MachineCall cfg a) :
    ∃ (l : List (Table K × Plain)) (f₀ : Nat), ∀ f c, At cfg t k c →
      ((Caller.call cfg f a c).1 = .timeout ∧ (f₀ ≤ f → ¬Sure t a)) ∨
      ((Caller.call cfg f a c).1 ≠ .timeout ∧ ∃ s ∈ l, Right cfg ω t a (Caller.call cfg f a c).1 s.1 ∧
        At cfg s.1 s.2 (Caller.call cfg f a c).2) := by
  by_cases hf : outcome cfg t a = .free
  · refine ⟨[((t.forget (operands a)).push none, { (forget k (operands a)).set
        (forget k (operands a)).next none with next := (forget k (operands a)).next + 1 }),
      (t.forget (operands a), forget k (operands a))], 0, fun f c hA => ?_⟩
    by_cases ht : (Caller.call cfg f a c).1 = .timeout
    · exact .inl ⟨ht, fun _ => not_sure hf⟩
    obtain ⟨-, b, fps, hI, hu⟩ := hA
    obtain ⟨he, hs, b₁, fps', hI', hu', -⟩ := call_same cfg f a hI
    have hv := (call_vague cfg f a hu).trans hu'
    rw [← he] at hv
    refine .inr ⟨ht, ?_⟩
    have hk := h.forget (operands a)
    unfold vague at hv
    split_ifs at hv with hb
    · refine ⟨_, List.mem_cons_self, ?_, hk.push_none, b₁, fps', hI', hv⟩
      unfold Right
      rw [hf]
      exact ⟨hs, (if_pos hb).symm⟩
    · refine ⟨_, List.mem_cons_of_mem _ List.mem_cons_self, ?_, hk, b₁, fps', hI', hv⟩
      unfold Right
      rw [hf]
      exact ⟨hs, (if_neg hb).symm⟩
  by_cases hf' : outcome cfg t a = .refuse
  · refine ⟨[(t, k)], 0, fun f c hA => .inr ?_⟩
    obtain ⟨x, q, s, rfl, hq, hsh⟩ := egest_special hf'
    obtain ⟨n, hn, hd⟩ := h.some x q hq
    obtain ⟨-, b, fps, hI, hu⟩ := hA
    have hb : b.held x = some n := by
      rcases hu.held x with e | e
      · rw [hn] at e; cases e
      · rw [← e, hn]
    have hr : Plain.call cfg f (.egest x) b = (.ok .refused, b) := by
      change Plain.egestAt cfg f x b = _
      unfold Plain.egestAt
      rw [hb]
      cases n with
      | Special s => rfl
      | Other p c =>
        obtain ⟨z, hz, e⟩ := hd.1
        rw [e, shape_other p hz.1 hz.2.1] at hsh
        cases hsh
    obtain ⟨he, hs, b₁, fps', hI', hu', -⟩ := call_same cfg f (.egest x) hI
    rw [hr] at he hu'
    change _ = Res.ok Answer.refused at he
    refine ⟨(by rw [he]; intro e; cases e), _, List.mem_cons_self, ?_, h, b₁, fps', hI',
      hu.trans hu'⟩
    unfold Right
    rw [hf']
    exact ⟨he, rfl⟩
  rcases call_promises hc hω h a ha hf hf' with ⟨hns, hto⟩ | hs
  · refine ⟨[], 0, fun f c hA => .inl ⟨?_, fun _ => hns⟩⟩
    obtain ⟨-, b, fps, hI, hu⟩ := hA
    obtain ⟨he, -⟩ := call_same cfg f a hI
    have hto : (Plain.call cfg f a k).1 = .timeout := hto f
    obtain ⟨h1, -⟩ := call_under cfg f a hu (by rw [hto]; intro e; cases e)
    exact he.trans (h1.trans hto)
  obtain ⟨r, k', f₀, hr, ⟨hr', t', hR, hk'⟩, hF, hF'⟩ := hs
  refine ⟨[(t', k')], f₀, fun f c hA => ?_⟩
  obtain ⟨-, b, fps, hI, hu⟩ := hA
  obtain ⟨he, hs, b₁, fps', hI', hu', -⟩ := call_same cfg f a hI
  have hrf : (Plain.call cfg f a k).1 ≠ .ok .refused := by
    rcases hF' f with e | e
    · intro e'
      have := e.symm.trans e'
      cases this
    · intro e'
      change Plain.call cfg f a k = _ at e
      rw [e] at e'
      exact hr' e'
  obtain ⟨h1, h2⟩ := call_under cfg f a hu hrf
  rcases hF' f with e | e
  · refine .inl ⟨he.trans (h1.trans e), fun hf => ?_⟩
    have e' := hF f hf
    change Plain.call cfg f a k = _ at e'
    change (Plain.call cfg f a k).1 = _ at e
    rw [e'] at e
    exact absurd e hr
  · change Plain.call cfg f a k = _ at e
    rw [e] at h1 h2
    refine .inr ⟨?_, (t', k'), List.mem_cons_self, ?_, hk', b₁, fps', hI', h2.trans hu'⟩
    · rw [he, h1]
      exact hr
    · rw [he, h1]
      exact hR

/-! ## Sessions -/

/-- Every answer of a session is right. -/
theorem session_rights {cfg : Cfg} (hc : cfg.overflowChecks = true) {ω : Nat → K}
    (hω : ∀ i, Infinite (ω i)) (f : Nat) (calls : List Call)
    (hm : ∀ a ∈ calls, MachineCall cfg a) {t : Table K} {k : Plain} {c : Caller}
    (h : At cfg t k c) : Rights cfg ω false t calls (Caller.session cfg f calls c) := by
  induction calls generalizing t k c with
  | nil => rfl
  | cons a calls ih =>
    obtain ⟨l, f₀, hl⟩ := call_right hc hω h.1 a (hm a List.mem_cons_self)
    rw [session_cons]
    rcases hl f c h with ⟨ht, -⟩ | ⟨ht, s, -, hR, hA⟩
    · rw [if_pos ht]
      exact .inl ⟨rfl, fun e => nomatch e⟩
    · rw [if_neg ht]
      exact .inr ⟨_, s.1, _, rfl, ht, hR, ih (fun a h => hm a (List.mem_cons_of_mem _ h)) hA⟩

/-- With enough fuel no call times out that is sure to end. -/
theorem session_patient {cfg : Cfg} (hc : cfg.overflowChecks = true) {ω : Nat → K}
    (hω : ∀ i, Infinite (ω i)) (calls : List Call)
    (hm : ∀ a ∈ calls, MachineCall cfg a) (t : Table K) (k : Plain) :
    ∃ f₀, ∀ f ≥ f₀, ∀ c, At cfg t k c →
      Rights cfg ω true t calls (Caller.session cfg f calls c) := by
  induction calls generalizing t k with
  | nil => exact ⟨0, fun _ _ _ _ => rfl⟩
  | cons a calls ih =>
    by_cases hk : Knows cfg t k
    swap
    · exact ⟨0, fun _ _ _ h => absurd h.1 hk⟩
    obtain ⟨l, f₀, hl⟩ := call_right hc hω hk a (hm a List.mem_cons_self)
    obtain ⟨f₁, h1⟩ := common_fuel l (P := fun (s : Table K × Plain) f => ∀ c, At cfg s.1 s.2 c →
      Rights cfg ω true s.1 calls (Caller.session cfg f calls c)) fun s _ =>
        ih (fun a h => hm a (List.mem_cons_of_mem _ h)) s.1 s.2
    refine ⟨max f₀ f₁, fun f hf c h => ?_⟩
    rw [session_cons]
    rcases hl f c h with ⟨ht, hfree⟩ | ⟨ht, s, hs, hR, hA⟩
    · rw [if_pos ht]
      exact .inl ⟨rfl, fun _ => hfree ((le_max_left _ _).trans hf)⟩
    · rw [if_neg ht]
      exact .inr ⟨_, s.1, _, rfl, ht, hR, h1 f ((le_max_right _ _).trans hf) s hs _ hA⟩

omit [IsStrictOrderedRing K] in
theorem At.start (cfg : Cfg) : At cfg (Table.start K) Plain.start Caller.start :=
  ⟨Knows.start cfg, _, _, Inv.start, .refl _⟩

end SpecK

end Clarith
