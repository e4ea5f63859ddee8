import Verif.SpecIdeal
import Verif.Proofs.Session
import Verif.Properties.Room
import Verif.Properties.Wider
import Mathlib.Algebra.Order.Archimedean.Basic

/-! # C78 On wide enough words every session is exact -/

namespace Clarith.Steps

open Spec Mut

variable {cfg : Cfg}

/-- All the entries of the table are of numbers that are read without panic. -/
def Sound (t : Table) : Prop := ∀ i q, t.var i = some q → q.exact = true

theorem Sound.start : Sound Table.start := fun _ _ h => nomatch h

theorem Sound.clear {t : Table} (h : Sound t) (i : Nat) : Sound (t.set i none) := by
  intro j q hj
  by_cases e : j = i
  · simp [Table.set, e] at hj
  · exact h j q (by simpa [Table.set, e] using hj)

theorem Sound.put {t : Table} (h : Sound t) (i : Nat) (q : ℚ) : Sound (t.set i (some ⟨q, true⟩)) := by
  intro j r hj
  by_cases e : j = i
  · simp only [Table.set, if_pos e, Option.some.injEq] at hj
    rw [← hj]
  · exact h j r (by simpa [Table.set, e] using hj)

theorem Sound.made {t : Table} (h : Sound t) (q : ℚ) : Sound (t.made q).2 := h.put t.next q

theorem denotes_true {n : Clarith.Number} {q : ℚ} :
    Clarith.Number.Denotes cfg (may true) n q ↔ Clarith.Number.Denotes cfg NoPanic n q :=
  ⟨fun h => h.weaken fun _ h => (nomatch h.1), fun h => h.weaken fun _ h => h.elim⟩

theorem Knows.sound {t : Table} {b : Plain} (h : Knows cfg t b) (hs : Sound t) {i : Nat} {q : Known}
    (hi : t.var i = .some q) :
    ∃ n, b.held i = .some n ∧ Clarith.Number.Denotes cfg NoPanic n q.value := by
  obtain ⟨n, hn, hd⟩ := h.some i q hi
  rw [hs i q hi, denotes_true] at hd
  exact ⟨n, hn, hd⟩

theorem Settles.of_returns {α : Type} {m : Nat → Out α} {a : α}
    {F : Nat → Res Answer × Plain} {Q : Res Answer → Plain → Prop} {r : Res Answer} {b : Plain}
    (hR : Returns m a) (hM : FuelMono m) (hr : r ≠ .timeout) (hQ : Q r b)
    (hF : ∀ f, m f = .ok a → F f = (r, b))
    (ht : ∀ f, m f = .timeout → (F f).1 = .timeout) : Settles F Q :=
  .of_ends (A := NoPanic) (P := fun x => x = a) (.inl ⟨a, hR, rfl⟩) hM
    (fun x e => ⟨r, b, hr, hQ, fun f h => hF f (by rw [h, e])⟩) (fun _ h => h.elim) ht

/-- A call that makes a number. -/
theorem make_exact {t : Table} {b : Plain} (h : Knows cfg t b) (hs : Sound t)
    {m : Nat → Out Clarith.Number} (hM : FuelMono m) {q : ℚ}
    (hE : ∃ n, Returns m n ∧ Clarith.Number.Denotes cfg NoPanic n q)
    {F : Nat → Res Answer × Plain} (hF : ∀ f, F f = Plain.make (m f) b) :
    Settles F fun r b' => r ≠ .ok .refused ∧ (t.made q).1 r ∧ Knows cfg (t.made q).2 b' ∧
      Sound (t.made q).2 := by
  obtain ⟨n, hn, hd⟩ := hE
  refine .of_returns (r := .ok (.made (face n)))
    (b := { b.set b.next (some n) with next := b.next + 1 }) hn hM (by intro e; cases e)
    ⟨(by intro e; cases e), ?_, ?_, hs.made q⟩ (fun f e => ?_) fun f e => ?_
  · change Res.ok _ = _
    rw [face_of_denotes hd]
  · exact h.push (q := ⟨q, true⟩) (denotes_true.2 hd)
  · rw [hF, e]; rfl
  · rw [hF, e]; rfl

theorem imax_rat (cfg : Cfg) {m : ℚ} (h : m + 1 ≤ 2 ^ (cfg.bits - 1)) : m ≤ cfg.imax := by
  unfold Cfg.imax
  push_cast
  linarith

/-- A call with room is exact. -/
theorem call_exact {t t' : Table} {b : Plain} (h : Knows cfg t b) (hs : Sound t) (a : Call)
    {P : Res Answer → Prop} (hi : ideal t a = some (P, t')) (hr : Room cfg.bits t a)
    (hf : ¬ P (.ok .refused)) :
    Settles (fun f => Plain.call cfg f a b) fun r b' =>
      r ≠ .ok .refused ∧ P r ∧ Knows cfg t' b' ∧ Sound t' := by
  cases a with
  | ratio num den =>
    have him : cfg.imax = 2 ^ (cfg.bits - 1) - 1 := rfl
    have him' := cfg.imin_eq
    obtain ⟨a1, a2⟩ := abs_lt.1 hr.1
    obtain ⟨a3, a4⟩ := abs_lt.1 hr.2
    have hn : cfg.Fits num := ⟨by omega, by omega⟩
    have hd : cfg.Fits den := ⟨by omega, by omega⟩
    by_cases h2 : den = 0
    · rw [ideal, if_pos h2] at hi
      cases hi
      refine .const (r := .panic .divisionByZero) (b := b) (by intro e; cases e)
        ⟨(by intro e; cases e), rfl, h, hs⟩ fun f => ?_
      change Plain.make (Clarith.Number.ratio cfg num den) b = _
      rw [h2, C03_zero_denominator cfg num hn, if_neg fun e => by omega]; rfl
    · rw [ideal, if_neg h2] at hi
      cases hi
      obtain ⟨v, e, hv⟩ := C01_ratio_exact cfg num den hn hd h2 fun _ => ⟨by omega, by omega⟩
      exact make_exact h hs (fuelMono_const _) ⟨v, ⟨0, fun _ _ => e⟩, hv⟩ fun f => rfl
  | ratioU positive num den =>
    by_cases h2 : den = 0
    · rw [ideal, if_pos h2] at hi
      cases hi
      refine .const (r := .panic .divisionByZero) (b := b) (by intro e; cases e)
        ⟨(by intro e; cases e), rfl, h, hs⟩ fun f => ?_
      change Plain.make (Clarith.Number.ratioU positive num den) b = _
      rw [h2, C03_zero_denominator_u]; rfl
    · rw [ideal, if_neg h2] at hi
      cases hi
      have hu : cfg.umax = 2 ^ cfg.bits - 1 := rfl
      obtain ⟨v, e, hv⟩ := C02_ratio_u_exact cfg positive num den
        (by have := hr.1; omega) (by have := hr.2; omega) h2
      exact make_exact h hs (fuelMono_const _) ⟨v, ⟨0, fun _ _ => e⟩, hv⟩ fun f => rfl
  | homographic x nx n dx d =>
    cases hx : t.var x with
    | none => simp [ideal, hx] at hi
    | some q =>
      by_cases hD : (dx : ℚ) * q.value + d = 0
      · simp [ideal, hx, hD] at hi
      simp only [ideal, hx, Option.bind_eq_bind, Option.bind_some, if_neg hD, Option.some.injEq] at hi
      cases hi
      obtain ⟨v, hb, hv⟩ := h.sound hs hx
      obtain ⟨S, g, hg1, h1, h2, hg, hS⟩ := hr q hx
      exact make_exact (h.clear x) (hs.clear x) (Clarith.Number.homographic_mono cfg v nx n dx d)
        (C76_homographic cfg v q.value g S nx n dx d hv hg hg1 h1 h2 (imax_rat cfg hS) hD)
        fun f => call_homographic hb f nx n dx d
  | combine x y nxy nx ny n dxy dx dy d =>
    cases hx : t.var x with
    | none => simp [ideal, hx] at hi
    | some q =>
      cases hy : t.var y with
      | none => simp [ideal, hx, hy] at hi
      | some r =>
        by_cases hD : x = y ∨ (dxy : ℚ) * q.value * r.value + dx * q.value + dy * r.value + d = 0
        · simp only [ideal, hx, hy, Option.bind_eq_bind, Option.bind_some, if_pos hD] at hi
          cases hi
        simp only [ideal, hx, hy, Option.bind_eq_bind, Option.bind_some, if_neg hD,
          Option.some.injEq] at hi
        cases hi
        push Not at hD
        obtain ⟨v, hb, hv⟩ := h.sound hs hx
        obtain ⟨w, hb', hw⟩ := h.sound hs hy
        obtain ⟨S, g, g', hg1, hg1', h1, h2, hg, hg', hS⟩ := hr q r hx hy
        exact make_exact ((h.clear x).clear y) ((hs.clear x).clear y)
          (Clarith.Number.combine_mono cfg v w nxy nx ny n dxy dx dy d)
          (C76_combine cfg v w q.value r.value g g' S nxy nx ny n dxy dx dy d hv hw hg hg' hg1 hg1'
            h1 h2 (imax_rat cfg hS) hD.2)
          fun f => call_combine hb hb' hD.1 f nxy nx ny n dxy dx dy d
  | egest x =>
    cases hx : t.var x with
    | none => simp [ideal, hx] at hi
    | some q =>
      obtain ⟨v, hb, hv⟩ := h.sound hs hx
      cases v with
      | Special s =>
        change q.value = _ at hv
        simp only [ideal, hx, Option.bind_eq_bind, Option.bind_some, hv, shape_special,
          Option.some.injEq] at hi
        cases hi
        exact absurd rfl hf
      | Other p c =>
        obtain ⟨z, hz, hq⟩ := hv
        simp only [ideal, hx, Option.bind_eq_bind, Option.bind_some, hq,
          shape_other p hz.1 hz.2.1, Option.some.injEq] at hi
        cases hi
        obtain ⟨r, hR, hr⟩ := Ends.returns hz.step
        refine .of_returns (r := .ok (.symbol r.1)) (b := b.set x (some (.Other p r.2))) hR
          (Clog.egest_mono cfg c) (by intro e; cases e)
          ⟨(by intro e; cases e), ?_, h.put x (q := ⟨_, true⟩) (denotes_true.2 ⟨_, hr.2, rfl⟩),
            hs.put x _⟩ (fun f e => ?_) fun f e => ?_
        · change Res.ok _ = _
          rw [hr.1]; rfl
        · rw [call_egest hb, e]
        · rw [call_egest hb, e]
  | consume x =>
    cases hx : t.var x with
    | none => simp [ideal, hx] at hi
    | some q =>
      simp only [ideal, hx, Option.bind_eq_bind, Option.bind_some, Option.some.injEq] at hi
      cases hi
      obtain ⟨v, hb, hv⟩ := h.sound hs hx
      obtain ⟨L, hL, hbits⟩ := hr q hx
      obtain ⟨k, hk⟩ := C26_consume_all cfg v q.value hv L hL
        (cfg.fits_pow (n := L + 3) (by omega)).2
      obtain ⟨r, hR, ⟨z, hz, hd, hq⟩⟩ := Ends.returns (C24_consume_value cfg NoPanic v q.value hv)
      obtain rfl := hk.unique hR
      change z = _ at hz
      subst hz
      rw [mul_one_div] at hd hq
      rw [mul_one_div] at hq
      refine .of_returns (r := .ok (.consumed none k)) (b := b.set x none) hk
        (Number.consume_mono cfg v) (by intro e; cases e)
        ⟨(by intro e; cases e), ⟨k, rfl, hd, hq⟩, h.clear x, hs.clear x⟩ (fun f e => ?_)
        fun f e => ?_
      · rw [call_consume hb, e]
      · rw [call_consume hb, e]
  | compare x y =>
    cases hx : t.var x with
    | none => simp [ideal, hx] at hi
    | some q =>
      cases hy : t.var y with
      | none => simp [ideal, hx, hy] at hi
      | some r =>
        by_cases hxy : x = y
        · simp only [ideal, hx, hy, Option.bind_eq_bind, Option.bind_some, if_pos hxy] at hi
          cases hi
        simp only [ideal, hx, hy, Option.bind_eq_bind, Option.bind_some, if_neg hxy,
          Option.some.injEq] at hi
        cases hi
        obtain ⟨v, hb, hv⟩ := h.sound hs hx
        obtain ⟨w, hb', hw⟩ := h.sound hs hy
        obtain ⟨o, hR, ho⟩ := Ends.returns (C13_compare cfg NoPanic v w q.value r.value hv hw)
        refine .of_returns (r := .ok (.order o)) (b := (b.set x none).set y none) hR
          (Number.compare_mono cfg v w) (by intro e; cases e)
          ⟨(by intro e; cases e), ?_, (h.clear x).clear y, (hs.clear x).clear y⟩ (fun f e => ?_)
          fun f e => ?_
        · change Res.ok _ = _
          congr 2
          unfold order
          split_ifs with h1 h2
          · exact ho.1.2 h1
          · exact ho.2.1.2 h2
          · exact ho.2.2.2 (lt_of_le_of_ne (not_lt.1 h1) (Ne.symm h2))
        · rw [call_compare hb hb' hxy, e]
        · rw [call_compare hb hb' hxy, e]
  | special s =>
    simp only [ideal, Option.some.injEq] at hi
    cases hi
    exact make_exact h hs (fuelMono_const _) ⟨.Special s, ⟨0, fun _ _ => rfl⟩, rfl⟩ fun f => rfl
  | reprime x p =>
    cases hx : t.var x with
    | none => simp [ideal, hx] at hi
    | some q =>
      obtain ⟨v, hb, hv⟩ := h.sound hs hx
      have hcall : ∀ f, Plain.call cfg f (.reprime x p) b = Plain.make (do
          let (_, c) ← v.unwrapOther
          pure (.Other p c)) (b.set x none) := by
        intro f
        change (match b.held x with
          | none => (pure .refused : Mut Plain Answer)
          | some v => Plain.make (do
            let (_, c) ← v.unwrapOther
            pure (.Other p c))) (b.set x none) = _
        rw [hb]
      cases v with
      | Special s =>
        change q.value = _ at hv
        simp only [ideal, hx, Option.bind_eq_bind, Option.bind_some, hv, shape_special,
          Option.some.injEq] at hi
        cases hi
        exact .const (r := .panic .notOther) (b := b.set x none) (by intro e; cases e)
          ⟨(by intro e; cases e), rfl, h.clear x, hs.clear x⟩ hcall
      | Other p' c =>
        obtain ⟨z, hz, hq⟩ := hv
        simp only [ideal, hx, Option.bind_eq_bind, Option.bind_some, hq,
          shape_other p' hz.1 hz.2.1, Option.some.injEq] at hi
        cases hi
        exact make_exact (h.clear x) (hs.clear x) (fuelMono_const _)
          ⟨.Other p c, ⟨0, fun _ _ => rfl⟩, z, hz, rfl⟩ hcall
  | unwrapSpecial x =>
    cases hx : t.var x with
    | none => simp [ideal, hx] at hi
    | some q =>
      obtain ⟨v, hb, hv⟩ := h.sound hs hx
      have hcall : ∀ f, Plain.call cfg f (.unwrapSpecial x) b = (do
          let s ← eval v.unwrapSpecial
          pure (.fixed s) : Mut Plain Answer) (b.set x none) := by
        intro f
        change (match b.held x with
          | none => (pure .refused : Mut Plain Answer)
          | some v => (do
            let s ← eval v.unwrapSpecial
            pure (.fixed s))) (b.set x none) = _
        rw [hb]
      cases v with
      | Special s =>
        change q.value = _ at hv
        simp only [ideal, hx, Option.bind_eq_bind, Option.bind_some, hv, shape_special,
          Option.some.injEq] at hi
        cases hi
        exact .const (r := .ok (.fixed s)) (b := b.set x none) (by intro e; cases e)
          ⟨(by intro e; cases e), rfl, h.clear x, hs.clear x⟩ hcall
      | Other p' c =>
        obtain ⟨z, hz, hq⟩ := hv
        simp only [ideal, hx, Option.bind_eq_bind, Option.bind_some, hq,
          shape_other p' hz.1 hz.2.1, Option.some.injEq] at hi
        cases hi
        exact .const (r := .panic .notSpecial) (b := b.set x none) (by intro e; cases e)
          ⟨(by intro e; cases e), rfl, h.clear x, hs.clear x⟩ hcall

theorem ideal_refused {t t' : Table} {a : Call} {P : Res Answer → Prop}
    (hi : ideal t a = some (P, t')) (h : P (.ok .refused)) :
    t' = t ∧ (∀ r, P r ↔ r = .ok .refused) ∧
      ∃ x q s, a = .egest x ∧ t.var x = some q ∧ shape q.value = .inl s := by
  cases a with
  | egest x =>
    cases hx : t.var x with
    | none => simp [ideal, hx] at hi
    | some q =>
      cases hs : shape q.value with
      | inl s =>
        simp only [ideal, hx, Option.bind_eq_bind, Option.bind_some, hs, Option.some.injEq] at hi
        cases hi
        exact ⟨rfl, fun _ => Iff.rfl, x, q, s, rfl, hx, hs⟩
      | inr s =>
        simp only [ideal, hx, Option.bind_eq_bind, Option.bind_some, hs, Option.some.injEq] at hi
        cases hi
        cases h
  | ratio num den =>
    simp only [ideal] at hi
    split_ifs at hi <;> cases hi <;> cases h
  | ratioU positive num den =>
    simp only [ideal] at hi
    split_ifs at hi <;> cases hi <;> cases h
  | homographic x nx n dx d =>
    simp only [ideal, Option.bind_eq_bind] at hi
    obtain ⟨q, -, hi⟩ := Option.bind_eq_some_iff.1 hi
    split_ifs at hi
    cases hi
    cases h
  | combine x y nxy nx ny n dxy dx dy d =>
    simp only [ideal, Option.bind_eq_bind] at hi
    obtain ⟨q, -, hi⟩ := Option.bind_eq_some_iff.1 hi
    obtain ⟨r, -, hi⟩ := Option.bind_eq_some_iff.1 hi
    split_ifs at hi
    cases hi
    cases h
  | consume x =>
    simp only [ideal, Option.bind_eq_bind] at hi
    obtain ⟨q, -, hi⟩ := Option.bind_eq_some_iff.1 hi
    cases hi
    obtain ⟨_, h, -⟩ := h
    cases h
  | compare x y =>
    simp only [ideal, Option.bind_eq_bind] at hi
    obtain ⟨q, -, hi⟩ := Option.bind_eq_some_iff.1 hi
    obtain ⟨r, -, hi⟩ := Option.bind_eq_some_iff.1 hi
    split_ifs at hi
    cases hi
    cases h
  | special s =>
    cases hi
    cases h
  | reprime x p =>
    simp only [ideal, Option.bind_eq_bind] at hi
    obtain ⟨q, -, hi⟩ := Option.bind_eq_some_iff.1 hi
    split at hi <;> cases hi <;> cases h
  | unwrapSpecial x =>
    simp only [ideal, Option.bind_eq_bind] at hi
    obtain ⟨q, -, hi⟩ := Option.bind_eq_some_iff.1 hi
    split at hi <;> cases hi <;> cases h

/-- One call, whatever else is in the variables. -/
theorem call_ideal {t t' : Table} {k : Plain} (h : Knows cfg t k) (hs : Sound t) (a : Call)
    {P : Res Answer → Prop} (hi : ideal t a = some (P, t')) (hr : Room cfg.bits t a) :
    ∃ k' f₀, Sound t' ∧ ∀ f ≥ f₀, ∀ c, At cfg t k c →
      (Caller.call cfg f a c).1 ≠ .timeout ∧ P (Caller.call cfg f a c).1 ∧
        At cfg t' k' (Caller.call cfg f a c).2 := by
  by_cases hf : P (.ok .refused)
  · obtain ⟨rfl, hP, x, q, s, rfl, hq, hsh⟩ := ideal_refused hi hf
    refine ⟨k, 0, hs, fun f _ c hA => ?_⟩
    obtain ⟨n, hn, hd⟩ := h.some x q hq
    obtain ⟨-, b, fps, hI, hu⟩ := hA
    have hb : b.held x = some n := by
      rcases hu.held x with e | e
      · rw [hn] at e; cases e
      · rw [← e, hn]
    have hr : Plain.call cfg f (.egest x) b = (.ok .refused, b) := by
      change Plain.egestAt cfg f x b = _
      unfold Plain.egestAt
      rw [hb]
      cases n with
      | Special s => rfl
      | Other p c =>
        obtain ⟨z, hz, e⟩ := hd
        rw [e, shape_other p hz.1 hz.2.1] at hsh
        cases hsh
    obtain ⟨he, -, b₁, fps', hI', hu', -⟩ := call_same cfg f (.egest x) hI
    rw [hr] at he hu'
    change _ = Res.ok Answer.refused at he
    exact ⟨(by rw [he]; intro e; cases e), (hP _).2 he, h, b₁, fps', hI', hu.trans hu'⟩
  obtain ⟨r, k', f₀, hr, ⟨hr', hP, hk', hs'⟩, hF, -⟩ := call_exact h hs a hi hr hf
  refine ⟨k', f₀, hs', fun f hf c hA => ?_⟩
  obtain ⟨-, b, fps, hI, hu⟩ := hA
  obtain ⟨he, -, b₁, fps', hI', hu', -⟩ := call_same cfg f a hI
  have e : Plain.call cfg f a k = (r, k') := hF f hf
  obtain ⟨h1, h2⟩ := call_under cfg f a hu (by rw [e]; exact hr')
  rw [e] at h1 h2
  rw [he, h1]
  exact ⟨hr, hP, hk', b₁, fps', hI', h2.trans hu'⟩

/-- Every session with room is exact. -/
theorem session_ideals (calls : List Call) {t : Table} {k : Plain} (h : Knows cfg t k) (hs : Sound t)
    (hr : Rooms cfg.bits t calls) :
    ∃ f₀, ∀ f ≥ f₀, ∀ c, At cfg t k c → Ideals t calls (Caller.session cfg f calls c) := by
  induction calls generalizing t k with
  | nil => exact ⟨0, fun _ _ _ _ => rfl⟩
  | cons a calls ih =>
    cases hi : ideal t a with
    | none => exact ⟨0, fun f _ c _ => by simp only [Ideals, hi]⟩
    | some s =>
      obtain ⟨P, t'⟩ := s
      simp only [Rooms, hi] at hr
      obtain ⟨k', f₀, hs', H⟩ := call_ideal h hs a hi hr.1
      by_cases hk : Knows cfg t' k'
      swap
      · exact ⟨f₀, fun f hf c hA => absurd (H f hf c hA).2.2.1 hk⟩
      obtain ⟨f₁, H'⟩ := ih hk hs' hr.2
      refine ⟨max f₀ f₁, fun f hf c hA => ?_⟩
      obtain ⟨h1, h2, h3⟩ := H f ((le_max_left _ _).trans hf) c hA
      simp only [Ideals, hi]
      rw [session_cons, if_neg h1]
      exact ⟨_, _, rfl, h2, H' f ((le_max_right _ _).trans hf) _ h3⟩

/-! ## Some words are wide enough -/

theorem exists_growth (q : ℚ) : ∃ g, 1 ≤ g ∧ GrowthAtMost q g := by
  refine ⟨2 ^ (max q.num.natAbs q.den * (max q.num.natAbs q.den + 1) / 2) / 2 + 1, ?_, ?_⟩
  · have : (0 : ℚ) ≤ 2 ^ (max q.num.natAbs q.den * (max q.num.natAbs q.den + 1) / 2) := by positivity
    linarith
  obtain ⟨b, hb⟩ : ∃ b, b = max q.num.natAbs q.den := ⟨_, rfl⟩
  rw [← hb]
  have h2 : b < 2 ^ b := Nat.lt_two_pow_self
  have key := C73_growth b q.num q.den (by exact_mod_cast q.den_ne_zero)
    (by rw [← Int.natCast_natAbs]; exact_mod_cast (by omega : q.num.natAbs ≤ 2 ^ b))
    (by rw [← Int.natCast_natAbs]; exact_mod_cast (by simp only [Int.natAbs_natCast]; omega : (q.den : Int).natAbs ≤ 2 ^ b))
  have e : (q.num : ℚ) / (q.den : Int) = q := by push_cast; exact Rat.num_div_den q
  rw [e] at key
  rcases key with ⟨s, hs⟩ | ⟨p, x, l, h1, h2, h3⟩
  · exact .inl ⟨s, hs⟩
  · exact .inr ⟨p, x, l, h1, h2, by linarith⟩

theorem exists_count (q : ℚ) : ∃ L, SymbolCount q L := by
  obtain ⟨g, -, ⟨s, hs⟩ | ⟨p, x, l, h1, h2, -⟩⟩ := exists_growth q
  · exact ⟨0, .inl ⟨s, hs⟩⟩
  · exact ⟨l.length, .inr ⟨p, x, l, h1, h2, le_rfl⟩⟩

theorem exists_bits (m : ℚ) : ∃ B : Nat, ∀ bits ≥ B, m ≤ 2 ^ (bits - 1) := by
  obtain ⟨n, hn⟩ := exists_nat_ge m
  refine ⟨n + 1, fun bits hb => hn.trans ?_⟩
  have h1 : n < 2 ^ n := Nat.lt_two_pow_self
  have h2 : 2 ^ n ≤ 2 ^ (bits - 1) := Nat.pow_le_pow_right (by norm_num) (by omega)
  exact_mod_cast (by omega : n ≤ 2 ^ (bits - 1))

theorem exists_room (t : Table) (a : Call) : ∃ B, ∀ bits ≥ B, Room bits t a := by
  cases a with
  | ratio num den =>
    obtain ⟨B, hB⟩ := exists_bits (|num| + |den| + 1 : Int)
    refine ⟨B, fun bits hb => ?_⟩
    have h : |num| + |den| + 1 ≤ 2 ^ (bits - 1) := by exact_mod_cast hB bits hb
    have h1 := abs_nonneg num
    have h2 := abs_nonneg den
    exact ⟨by omega, by omega⟩
  | ratioU positive num den =>
    refine ⟨num + den, fun bits hb => ?_⟩
    have h1 : bits < 2 ^ bits := Nat.lt_two_pow_self
    exact ⟨by omega, by omega⟩
  | homographic x nx n dx d =>
    cases hx : t.var x with
    | none => exact ⟨0, fun bits _ q hq => by simp [hx] at hq⟩
    | some q =>
      obtain ⟨g, hg1, hg⟩ := exists_growth q.value
      obtain ⟨B, hB⟩ := exists_bits ((2 * (|nx| + |n| + |dx| + |d| : Int) * g) ^ 2 + 1)
      refine ⟨B, fun bits hb q' hq => ?_⟩
      rw [hx, Option.some.injEq] at hq
      subst hq
      have a1 := abs_nonneg nx; have a2 := abs_nonneg n
      have a3 := abs_nonneg dx; have a4 := abs_nonneg d
      exact ⟨_, g, hg1, by omega, by omega, hg, hB bits hb⟩
  | combine x y nxy nx ny n dxy dx dy d =>
    cases hx : t.var x with
    | none => exact ⟨0, fun bits _ q r hq => by simp [hx] at hq⟩
    | some q =>
      cases hy : t.var y with
      | none => exact ⟨0, fun bits _ q r _ hr => by simp [hy] at hr⟩
      | some r =>
        obtain ⟨g, hg1, hg⟩ := exists_growth q.value
        obtain ⟨g', hg1', hg'⟩ := exists_growth r.value
        obtain ⟨B, hB⟩ := exists_bits ((4 * (|nxy| + |nx| + |ny| + |n| + (|dxy| + |dx| + |dy| + |d|) : Int)
          * g * g') ^ 2 + 1)
        refine ⟨B, fun bits hb q' r' hq hr => ?_⟩
        rw [hx, Option.some.injEq] at hq
        rw [hy, Option.some.injEq] at hr
        subst hq hr
        have a1 := abs_nonneg nx; have a2 := abs_nonneg n
        have a3 := abs_nonneg dx; have a4 := abs_nonneg d
        have a5 := abs_nonneg nxy; have a6 := abs_nonneg ny
        have a7 := abs_nonneg dxy; have a8 := abs_nonneg dy
        exact ⟨_, g, g', hg1, hg1', by omega, by omega, hg, hg', hB bits hb⟩
  | consume x =>
    cases hx : t.var x with
    | none => exact ⟨0, fun bits _ q hq => by simp [hx] at hq⟩
    | some q =>
      obtain ⟨L, hL⟩ := exists_count q.value
      refine ⟨L + 5, fun bits hb q' hq => ?_⟩
      rw [hx, Option.some.injEq] at hq
      subst hq
      exact ⟨L, hL, hb⟩
  | _ => exact ⟨0, fun _ _ => trivial⟩

end Clarith.Steps

namespace Clarith

open Out Spec Steps

/-- With enough fuel, a session for which the words have room answers, in both builds, what exact
arithmetic says: no call before the first about which nothing is said gives up. -/
theorem C78_session (cfg : Cfg) (calls : List Call) (h : Rooms cfg.bits Table.start calls) :
    ∃ f₀, ∀ f ≥ f₀, Ideals Table.start calls (Caller.session cfg f calls Caller.start) := by
  obtain ⟨f₀, H⟩ := session_ideals calls (Knows.start cfg) Sound.start h
  exact ⟨f₀, fun f hf => H f hf _ (At.start cfg)⟩

/-- All words from some size on have room for the session. -/
theorem C78_room (t : Table) (calls : List Call) : ∃ B, ∀ bits ≥ B, Rooms bits t calls := by
  induction calls generalizing t with
  | nil => exact ⟨0, fun _ _ => trivial⟩
  | cons a calls ih =>
    cases hi : ideal t a with
    | none => exact ⟨0, fun _ _ => by simp only [Rooms, hi]⟩
    | some s =>
      obtain ⟨B, hB⟩ := exists_room t a
      obtain ⟨B', hB'⟩ := ih s.2
      refine ⟨max B B', fun bits hb => ?_⟩
      simp only [Rooms, hi]
      exact ⟨hB bits ((le_max_left _ _).trans hb), hB' bits ((le_max_right _ _).trans hb)⟩

/-- For every session there is a word size from which on, in both builds, it answers what exact
arithmetic says. -/
theorem C78_wide (calls : List Call) :
    ∃ B, ∀ cfg : Cfg, B ≤ cfg.bits →
      ∃ f₀, ∀ f ≥ f₀, Ideals Table.start calls (Caller.session cfg f calls Caller.start) := by
  obtain ⟨B, hB⟩ := C78_room Table.start calls
  exact ⟨B, fun cfg h => C78_session cfg calls (hB _ h)⟩


open Spec.Expr in
/-- A program has one value. -/
theorem value_unique {val : Nat → ℚ} {e : Expr} {q r : ℚ} (hq : Value val e q) (hr : Value val e r) :
    q = r := by
  induction hq generalizing r with
  | given i => cases hr; rfl
  | ratio h => cases hr; rfl
  | ratioU h => cases hr; rfl
  | homographic he hD ih => cases hr with | homographic he' _ => rw [ih he']
  | combine he he' hD ih ih' => cases hr with | combine h1 h2 _ => rw [ih h1, ih' h2]
  | rebuild he ih => cases hr with | rebuild he' => exact ih he'
  | reread h0 h1 he ih =>
    cases hr with
    | reread h0' h1' he' => rw [(applyPrimer_inj h0 h1 h0' h1' (ih he')).2]

open Spec.Expr in
private theorem grows_of {val : Nat → ℚ} (e : Expr) :
    ∃ g, 1 ≤ g ∧ ∀ q, Value val e q → GrowthAtMost q g := by
  by_cases h : ∃ q, Value val e q
  · obtain ⟨q, hq⟩ := h
    obtain ⟨g, h1, hg⟩ := exists_growth q
    exact ⟨g, h1, fun r hr => value_unique hq hr ▸ hg⟩
  · exact ⟨1, le_rfl, fun q hq => absurd ⟨q, hq⟩ h⟩

open Spec.Expr in
/-- All words from some size on have room for the program. -/
theorem C78_programs_room (val : Nat → ℚ) (e : Expr) :
    ∃ B, ∀ cfg : Cfg, B ≤ cfg.bits → e.Roomy cfg val := by
  induction e with
  | given i => exact ⟨0, fun _ _ => trivial⟩
  | ratio num den =>
    obtain ⟨B, hB⟩ := exists_room Table.start (.ratio num den)
    refine ⟨B, fun cfg h => ?_⟩
    have := hB _ h
    have him : cfg.imax = 2 ^ (cfg.bits - 1) - 1 := rfl
    exact ⟨by have := this.1; omega, by have := this.2; omega⟩
  | ratioU positive num den =>
    obtain ⟨B, hB⟩ := exists_room Table.start (.ratioU positive num den)
    refine ⟨B, fun cfg h => ?_⟩
    have := hB _ h
    have hu : cfg.umax = 2 ^ cfg.bits - 1 := rfl
    exact ⟨by have := this.1; omega, by have := this.2; omega⟩
  | homographic e nx n dx d ih =>
    obtain ⟨B, hB⟩ := ih
    obtain ⟨g, hg1, hg⟩ := grows_of (val := val) e
    obtain ⟨B', hB'⟩ := exists_bits ((2 * (|nx| + |n| + |dx| + |d| : Int) * g) ^ 2 + 1)
    refine ⟨max B B', fun cfg h => ⟨hB cfg ((le_max_left _ _).trans h), |nx| + |n| + |dx| + |d|, g, hg1,
      ?_, ?_, hg, imax_rat cfg (hB' _ ((le_max_right _ _).trans h))⟩⟩
    all_goals
      have a1 := abs_nonneg nx; have a2 := abs_nonneg n
      have a3 := abs_nonneg dx; have a4 := abs_nonneg d
      omega
  | combine e e' nxy nx ny n dxy dx dy d ih ih' =>
    obtain ⟨B, hB⟩ := ih
    obtain ⟨C, hC⟩ := ih'
    obtain ⟨g, hg1, hg⟩ := grows_of (val := val) e
    obtain ⟨g', hg1', hg'⟩ := grows_of (val := val) e'
    obtain ⟨B', hB'⟩ := exists_bits ((4 * (|nxy| + |nx| + |ny| + |n| + (|dxy| + |dx| + |dy| + |d|) : Int)
      * g * g') ^ 2 + 1)
    refine ⟨max (max B C) B', fun cfg h => ⟨hB cfg (by omega), hC cfg (by omega),
      |nxy| + |nx| + |ny| + |n| + (|dxy| + |dx| + |dy| + |d|), g, g', hg1, hg1', ?_, ?_, hg, hg',
      imax_rat cfg (hB' _ (by omega))⟩⟩
    all_goals
      have a1 := abs_nonneg nx; have a2 := abs_nonneg n
      have a3 := abs_nonneg dx; have a4 := abs_nonneg d
      have a5 := abs_nonneg nxy; have a6 := abs_nonneg ny
      have a7 := abs_nonneg dxy; have a8 := abs_nonneg dy
      omega
  | rebuild e ih =>
    obtain ⟨B, hB⟩ := ih
    obtain ⟨L, hL⟩ : ∃ L, ∀ q, Value val e q → SymbolCount q L := by
      by_cases h : ∃ q, Value val e q
      · obtain ⟨q, hq⟩ := h
        obtain ⟨L, hL⟩ := exists_count q
        exact ⟨L, fun r hr => value_unique hq hr ▸ hL⟩
      · exact ⟨0, fun q hq => absurd ⟨q, hq⟩ h⟩
    exact ⟨max B (L + 5), fun cfg h => ⟨hB cfg (by omega), L, hL,
      (cfg.fits_pow (n := L + 3) (by omega)).2⟩⟩
  | reread p m e ih => exact ih

open Spec.Expr in
/-- For every program with a value in exact arithmetic there is a word size from which on, in both
builds and for all inputs of these values, it returns a number denoting exactly that value. -/
theorem C78_programs (val : Nat → ℚ) (e : Expr) (q : ℚ) (hv : Value val e q) :
    ∃ B, ∀ (cfg : Cfg) (env : Nat → Number), B ≤ cfg.bits →
      (∀ i, Number.Denotes cfg NoPanic (env i) (val i)) →
      ∃ x, Returns (fun f => e.run cfg f env) x ∧ Number.Denotes cfg NoPanic x q := by
  obtain ⟨B, hB⟩ := C78_programs_room val e
  exact ⟨B, fun cfg env h henv => C76_programs cfg env val henv e (hB cfg h) q hv⟩

open Spec.Expr in
private theorem machine_wider {narrow wide : Cfg} (w : Widening narrow wide) {e : Expr}
    (h : e.Machine narrow) : e.Machine wide := by
  have hu : narrow.umax ≤ wide.umax := by
    have := Nat.pow_le_pow_right (n := 2) (by norm_num) w.widerWord
    unfold Cfg.umax
    omega
  have ints : ∀ l, MachineInts narrow l → MachineInts wide l := fun l h z hz => w.wider.fits (h z hz)
  induction e with
  | given i => trivial
  | ratio num den => exact ints _ h
  | ratioU positive num den => exact ⟨h.1.trans hu, h.2.trans hu⟩
  | homographic e nx n dx d ih => exact ⟨ih h.1, ints _ h.2⟩
  | combine e e' nxy nx ny n dxy dx dy d ih ih' => exact ⟨ih h.1, ih' h.2.1, ints _ h.2.2⟩
  | rebuild e ih => exact ih h
  | reread p m e ih => exact ih h

private theorem fits_of_sum {cfg : Cfg} {S : Int} {m : ℚ} (h0 : 0 ≤ S) (h1 : (S : ℚ) ≤ m)
    (h : m ^ 2 ≤ (cfg.imax : ℚ)) {z : Int} (hz : |z| ≤ S) : cfg.Fits z := by
  have hS : S ≤ cfg.imax := by
    have h0' : (0 : ℚ) ≤ S := by exact_mod_cast h0
    have h2 : (S : ℚ) ^ 2 ≤ cfg.imax := le_trans (pow_le_pow_left₀ h0' h1 2) h
    have h3 : S ^ 2 ≤ cfg.imax := by exact_mod_cast h2
    nlinarith
  have hi := cfg.imin_eq
  obtain ⟨a, b⟩ := abs_le.1 hz
  exact ⟨by omega, by omega⟩

open Spec.Expr in
/-- What there is room for are machine integers. -/
theorem machine_of_roomy {cfg : Cfg} {val : Nat → ℚ} {e : Expr} (h : e.Roomy cfg val) :
    e.Machine cfg := by
  have hi := cfg.imin_eq
  induction e with
  | given i => trivial
  | ratio num den =>
    obtain ⟨a1, a2⟩ := abs_le.1 h.1
    obtain ⟨a3, a4⟩ := abs_le.1 h.2
    simp only [Machine, MachineInts, List.mem_cons, List.not_mem_nil, or_false, forall_eq_or_imp,
      forall_eq]
    exact ⟨⟨by omega, a2⟩, ⟨by omega, a4⟩⟩
  | ratioU positive num den => exact h
  | homographic e nx n dx d ih =>
    obtain ⟨h, S, g, hg1, h1, h2, -, hS⟩ := h
    have a1 := abs_nonneg nx; have a2 := abs_nonneg n
    have a3 := abs_nonneg dx; have a4 := abs_nonneg d
    have hS0 : (0 : ℚ) ≤ S := by exact_mod_cast (by omega : 0 ≤ S)
    have key := fun z => fits_of_sum (cfg := cfg) (S := S) (z := z) (by omega)
      (by nlinarith : (S : ℚ) ≤ 2 * S * g) hS
    refine ⟨ih h, ?_⟩
    simp only [MachineInts, List.mem_cons, List.not_mem_nil, or_false, forall_eq_or_imp, forall_eq]
    exact ⟨key _ (by omega), key _ (by omega), key _ (by omega), key _ (by omega)⟩
  | combine e e' nxy nx ny n dxy dx dy d ih ih' =>
    obtain ⟨h, h', S, g, g', hg1, hg1', h1, h2, -, -, hS⟩ := h
    have a1 := abs_nonneg nx; have a2 := abs_nonneg n
    have a3 := abs_nonneg dx; have a4 := abs_nonneg d
    have a5 := abs_nonneg nxy; have a6 := abs_nonneg ny
    have a7 := abs_nonneg dxy; have a8 := abs_nonneg dy
    have hS0 : (0 : ℚ) ≤ S := by exact_mod_cast (by omega : 0 ≤ S)
    have hgg : 1 ≤ g * g' := one_le_mul_of_one_le_of_one_le hg1 hg1'
    have key := fun z => fits_of_sum (cfg := cfg) (S := S) (z := z) (by omega)
      (by nlinarith : (S : ℚ) ≤ 4 * S * g * g') hS
    refine ⟨ih h, ih' h', ?_⟩
    simp only [MachineInts, List.mem_cons, List.not_mem_nil, or_false, forall_eq_or_imp, forall_eq]
    exact ⟨key _ (by omega), key _ (by omega), key _ (by omega), key _ (by omega), key _ (by omega),
      key _ (by omega), key _ (by omega), key _ (by omega)⟩
  | rebuild e ih => exact ih h.1
  | reread p m e ih => exact ih h

open Spec.Expr in
/-- A program without `consume` that has a value in exact arithmetic has a sharp word size: with
overflow checks it can be written for a machine, and returns there a number that denotes exactly the
value and can be read to any length, if and only if the machine has at least so many bits. -/
theorem C78_threshold (env : Nat → Number) (val : Nat → ℚ)
    (henv : ∀ (cfg : Cfg) i, Number.Denotes cfg NoPanic (env i) (val i)) (e : Expr)
    (hc : e.NoConsume) (q : ℚ) (hv : Value val e q) :
    ∃ B, ∀ cfg : Cfg, cfg.overflowChecks = true →
      ((e.Machine cfg ∧ ∃ x, Returns (fun f => e.run cfg f env) x ∧
        Number.Denotes cfg NoPanic x q) ↔ B ≤ cfg.bits) := by
  classical
  obtain ⟨P, hP⟩ : ∃ P : Nat → Prop, ∀ b, P b ↔ ∃ h : 16 ≤ b, e.Machine ⟨b, h, true⟩ ∧
      ∃ x, Returns (fun f => e.run ⟨b, h, true⟩ f env) x ∧
        Number.Denotes ⟨b, h, true⟩ NoPanic x q := ⟨_, fun _ => Iff.rfl⟩
  have hex : ∃ b, P b := by
    obtain ⟨B, hB⟩ := C78_programs_room val e
    have hr := hB ⟨max B 16, le_max_right _ _, true⟩ (le_max_left _ _)
    exact ⟨max B 16, (hP _).2 ⟨le_max_right _ _, machine_of_roomy hr,
      C76_programs _ env val (henv _) e hr q hv⟩⟩
  refine ⟨Nat.find hex, fun cfg hcfg => ?_⟩
  obtain ⟨bits, hb, checks⟩ := cfg
  simp only at hcfg
  subst hcfg
  constructor
  · intro h
    exact Nat.find_min' hex ((hP _).2 ⟨hb, h⟩)
  · intro h
    obtain ⟨h16, hm, x, hx, hd⟩ := (hP _).1 (Nat.find_spec hex)
    have w : Widening ⟨Nat.find hex, h16, true⟩ ⟨bits, hb, true⟩ := ⟨h, rfl⟩
    exact ⟨machine_wider w hm, x, (C44_history_agrees w env e hm hc).1 x hx,
      C44_denotes_agrees w x q hd⟩

/-- `255 + 1`: on a 64-bit machine it overflows (C61). -/
example := C78_threshold (fun _ => .Special .Zero) (fun _ => 0) (fun _ _ => rfl)
  (.homographic (.ratio 255 1) 1 1 0 1) trivial _ (.homographic (.ratio (by decide)) (by norm_num))

/-- 3/5 and 1/2 are made, added to 11/10, and the sum is compared with 1; the last call divides by
zero. -/
def sumCalls : List Call := [.ratio 3 5, .ratio 1 2, .combine 0 1 0 1 1 0 0 0 0 1, .special .PosOne,
  .compare 2 3, .ratio 7 0]

private theorem ideal_combine {t : Table} {x y : Nat} {q r : Known} (hx : t.var x = some q)
    (hy : t.var y = some r) (hxy : x ≠ y) {nxy nx ny n dxy dx dy d : Int}
    (hD : (dxy : ℚ) * q.value * r.value + dx * q.value + dy * r.value + d ≠ 0) :
    ideal t (.combine x y nxy nx ny n dxy dx dy d) = some (((t.set x none).set y none).made
      ((nxy * q.value * r.value + nx * q.value + ny * r.value + n) /
        (dxy * q.value * r.value + dx * q.value + dy * r.value + d))) := by
  simp only [ideal, hx, hy, Option.bind_eq_bind, Option.bind_some]
  exact if_neg (by simp only [not_or]; exact ⟨hxy, hD⟩)

theorem sumCalls_rooms : Rooms 64 Table.start sumCalls := by
  refine ⟨⟨by norm_num, by norm_num⟩, ⟨by norm_num, by norm_num⟩, ?_⟩
  unfold Rooms
  rw [ideal_combine (q := ⟨_, true⟩) (r := ⟨_, true⟩) rfl rfl (by decide) (by norm_num)]
  refine ⟨?_, trivial, trivial, ⟨by norm_num, by norm_num⟩, trivial⟩
  intro q r hq hr
  cases hq
  cases hr
  refine ⟨2, 40, 40, by norm_num, by norm_num, by decide, by decide, ?_, ?_, by norm_num⟩
  · exact (C76_growth _).2.1 ⟨3, 5, by decide, by decide, by decide, rfl⟩
  · exact (C76_growth _).2.1 ⟨1, 2, by decide, by decide, by decide, rfl⟩

example (checks : Bool) := C78_session ⟨64, by decide, checks⟩ sumCalls sumCalls_rooms

/-- What exact arithmetic says about these calls. -/
example (l : List (Res Answer)) (h : Ideals Table.start sumCalls l) :
    l = [.ok (.made (.other none)), .ok (.made (.other none)), .ok (.made (.other (some .Turn))),
      .ok (.made (.special .PosOne)), .ok (.order .gt), .panic .divisionByZero] := by
  obtain ⟨_, _, rfl, rfl, _, _, rfl, rfl, h⟩ := h
  unfold Ideals at h
  rw [ideal_combine (q := ⟨_, true⟩) (r := ⟨_, true⟩) rfl rfl (by decide) (by norm_num)] at h
  obtain ⟨_, _, rfl, rfl, _, _, rfl, rfl, _, _, rfl, rfl, _, _, rfl, rfl, rfl⟩ := h
  norm_num [faceOf, shape, specialValue, order]

/-- `255/256 + 1/3` on wide enough words; on 16 bits reading the sum overflows. -/
example := C78_wide [.ratio 255 256, .ratio 1 3, .combine 0 1 0 1 1 0 0 0 0 1, .consume 2]

example : Caller.session ⟨16, by decide, true⟩ 100
    [.ratio 255 256, .ratio 1 3, .combine 0 1 0 1 1 0 0 0 0 1, .consume 2] Caller.start =
    [.ok (.made (.other none)), .ok (.made (.other none)), .ok (.made (.other (some .Turn))),
      .panic .unwrapNone] := by
  decide +kernel

example := C78_programs (fun _ => 3 / 5)
  (.rebuild (.combine (.given 0) (.ratio 255 256) 0 1 1 0 0 0 0 1)) _
  (.rebuild (.combine (.given 0) (.ratio (by decide)) (by norm_num)))

end Clarith
