import Verif.Properties.Compare

/-! # How far `Number::compare` reads (C57)

For any two Numbers that are not special, whatever they denote and whether they denote anything:
`compare` reads both clogs in step, up to the first place where the symbols differ or where both
end, and only then looks at the primers.  So a panic or an endless read before that place decides
the call, also when the primers differ. -/

namespace Clarith

open Spec

/-! ## Specification -/

/-- The order of the four kinds of Number: below -1, between -1 and 0, between 0 and 1, above 1. -/
def Spec.primerRank : Option Primer → Nat
  | some .Ground => 0
  | some .Reflect => 1
  | none => 2
  | some .Turn => 3

/-- The order of the three kinds of clog: below 1/2, equal to 1/2, above 1/2. -/
def Spec.symbolRank : Option Reduction → Nat
  | some .Amplify => 0
  | none => 1
  | some .Uncover => 2

/-- The order of two natural numbers. -/
def Spec.natOrder (a b : Nat) : Ordering := if a < b then .lt else if a = b then .eq else .gt

/-- Whether the order is reversed: by `Reflect` (x ↦ -x) and `Turn` (x ↦ 1/x), and by every common
`Uncover` (x ↦ 1/x - 1). -/
def Spec.reversed (p : Option Primer) (l : List Reduction) : Prop :=
  ((if p = some .Reflect ∨ p = some .Turn then 1 else 0) + l.count .Uncover) % 2 = 1

instance (p : Option Primer) (l : List Reduction) : Decidable (Spec.reversed p l) :=
  inferInstanceAs (Decidable (_ = _))

/-- The answer for Numbers whose clogs have the symbols `l` in common and then `r1`, `r2`. -/
def Spec.answerAfter (p1 p2 : Option Primer) (l : List Reduction) (r1 r2 : Option Reduction) :
    Ordering :=
  if p1 = p2 then
    if reversed p1 l then natOrder (symbolRank r2) (symbolRank r1)
    else natOrder (symbolRank r1) (symbolRank r2)
  else natOrder (primerRank p1) (primerRank p2)

/-- `c1` and `c2` answer the symbols `l`, and `d1` and `d2` are left. -/
def Spec.InCommon (cfg : Cfg) (c1 c2 : Clog) (l : List Reduction) (d1 d2 : Clog) : Prop :=
  Returns (fun f => Clog.egests cfg f l.length c1) (l.map some, d1) ∧
  Returns (fun f => Clog.egests cfg f l.length c2) (l.map some, d2)

/-! ## Proof -/

namespace Compare

theorem compareClogs_common {cfg : Cfg} {f : Nat} (l : List Reduction) :
    ∀ {c1 c2 d1 d2 : Clog} {j : Nat} {b : Bool},
    Clog.egests cfg f l.length c1 = .ok (l.map some, d1) →
    Clog.egests cfg f l.length c2 = .ok (l.map some, d2) →
    compareClogs cfg (Clog.egest cfg f) (j + l.length) c1 c2 b =
      compareClogs cfg (Clog.egest cfg f) j d1 d2 (b ^^ decide (l.count .Uncover % 2 = 1)) := by
  induction l with
  | nil =>
    intro c1 c2 d1 d2 j b h1 h2
    have e1 : c1 = d1 := by simpa [Clog.egests, Out.pure_eq] using h1
    have e2 : c2 = d2 := by simpa [Clog.egests, Out.pure_eq] using h2
    simp [e1, e2]
  | cons r l ih =>
    intro c1 c2 d1 d2 j b h1 h2
    have step : ∀ {c d : Clog}, Clog.egests cfg f (r :: l).length c = .ok ((r :: l).map some, d) →
        ∃ c', Clog.egest cfg f c = .ok (some r, c') ∧
          Clog.egests cfg f l.length c' = .ok (l.map some, d) := by
      intro c d h
      rw [List.length_cons, egests_succ] at h
      cases e : Clog.egest cfg f c with
      | ok t =>
        obtain ⟨r', c'⟩ := t
        simp only [e, Out.ok_bind] at h
        cases e' : Clog.egests cfg f l.length c' with
        | ok t' =>
          obtain ⟨rs, d'⟩ := t'
          simp only [e', Out.ok_bind, Out.pure_eq, Out.ok.injEq, Prod.mk.injEq, List.map_cons,
            List.cons.injEq] at h
          obtain ⟨⟨rfl, rfl⟩, rfl⟩ := h
          exact ⟨c', rfl, e'⟩
        | panic p => simp [e'] at h
        | timeout => simp [e'] at h
      | panic p => simp [e] at h
      | timeout => simp [e] at h
    obtain ⟨c1', a1, b1⟩ := step h1
    obtain ⟨c2', a2, b2⟩ := step h2
    rw [List.length_cons, ← Nat.add_assoc]
    simp only [compareClogs, a1, a2, Out.ok_bind, ne_eq, not_true_eq_false, if_false]
    cases r with
    | Amplify =>
      rw [show List.count Reduction.Uncover (Reduction.Amplify :: l) = l.count .Uncover from
        List.count_cons_of_ne (by decide)]
      exact ih b1 b2
    | Uncover =>
      rw [ih b1 b2]
      rw [List.count_cons_self]
      rcases Nat.mod_two_eq_zero_or_one (l.count Reduction.Uncover) with h | h <;>
        simp [h, Nat.add_mod]

theorem answer_primers {p1 p2 : Option Primer} (h : p1 ≠ p2) (o : Ordering) :
    (comparePrimers p1 p2).then o = natOrder (primerRank p1) (primerRank p2) := by
  revert h
  rcases p1 with _ | _ | _ | _ <;> rcases p2 with _ | _ | _ | _ <;> intro h <;>
    first | rfl | exact absurd rfl h

theorem answer_symbols {r1 r2 : Option Reduction} (h : r1 ≠ r2) :
    symbolAnswer r1 r2 = natOrder (symbolRank r1) (symbolRank r2) ∧
    (symbolAnswer r1 r2).swap = natOrder (symbolRank r2) (symbolRank r1) := by
  revert h
  rcases r1 with _ | _ | _ <;> rcases r2 with _ | _ | _ <;> intro h <;>
    first | exact ⟨rfl, rfl⟩ | exact absurd rfl h

theorem polarity (p : Option Primer) (l : List Reduction) :
    ((p != some .Reflect && p != some .Turn) ^^ decide (l.count .Uncover % 2 = 1)) =
      decide (¬reversed p l) := by
  unfold reversed
  rcases Nat.mod_two_eq_zero_or_one (l.count Reduction.Uncover) with h | h <;>
    rcases p with _ | _ | _ | _ <;> simp [h, Nat.add_mod]

end Compare

/-! ## C57 -/

/-- After the symbols in common the next symbols are read, first of the first operand: a panic of
either read is the panic of `compare`, whatever the primers; and if the two symbols differ or both
are the end, `compare` returns the order of the primers or, if they are equal, of the symbols. -/
theorem C57_compare_reads (cfg : Cfg) (p1 p2 : Option Primer) (c1 c2 d1 d2 : Clog)
    (l : List Reduction) (hl : InCommon cfg c1 c2 l d1 d2) :
    (∀ e, Panics (fun f => Clog.egest cfg f d1) e →
      Panics (fun f => Number.compare cfg f (.Other p1 c1) (.Other p2 c2)) e) ∧
    (∀ r e d, Returns (fun f => Clog.egest cfg f d1) (r, d) →
      Panics (fun f => Clog.egest cfg f d2) e →
      Panics (fun f => Number.compare cfg f (.Other p1 c1) (.Other p2 c2)) e) ∧
    (∀ r1 r2 e1 e2, Returns (fun f => Clog.egest cfg f d1) (r1, e1) →
      Returns (fun f => Clog.egest cfg f d2) (r2, e2) → (r1 ≠ r2 ∨ r1 = none ∧ r2 = none) →
      Returns (fun f => Number.compare cfg f (.Other p1 c1) (.Other p2 c2))
        (answerAfter p1 p2 l r1 r2)) := by
  obtain ⟨⟨f1, h1⟩, f2, h2⟩ := hl
  have key : ∀ f, max (max f1 f2) (l.length + 1) ≤ f →
      Number.compare cfg f (.Other p1 c1) (.Other p2 c2) = (do
        let o ← Compare.compareClogs cfg (Clog.egest cfg f) (f - l.length - 1 + 1) d1 d2
          ((p1 != some .Reflect && p1 != some .Turn) ^^ decide (l.count .Uncover % 2 = 1))
        pure ((Compare.comparePrimers p1 p2).then o)) := by
    intro f hf
    simp only [Number.compare, Compare.compareOthers]
    rw [← Compare.compareClogs_common l (h1 f (by omega)) (h2 f (by omega))]
    rw [show f - l.length - 1 + 1 + l.length = f by omega]
  refine ⟨?_, ?_, ?_⟩
  · rintro e ⟨f3, h3⟩
    refine ⟨max (max (max f1 f2) (l.length + 1)) f3, fun f hf => ?_⟩
    have := h3 f (by omega)
    simp only at this ⊢
    rw [key f (by omega)]
    simp [Compare.compareClogs, this]
  · rintro r e d ⟨f3, h3⟩ ⟨f4, h4⟩
    refine ⟨max (max (max f1 f2) (l.length + 1)) (max f3 f4), fun f hf => ?_⟩
    have a3 := h3 f (by omega)
    have a4 := h4 f (by omega)
    simp only at a3 a4 ⊢
    rw [key f (by omega)]
    simp [Compare.compareClogs, a3, a4]
  · rintro r1 r2 e1 e2 ⟨f3, h3⟩ ⟨f4, h4⟩ hr
    refine ⟨max (max (max f1 f2) (l.length + 1)) (max f3 f4), fun f hf => ?_⟩
    have a3 := h3 f (by omega)
    have a4 := h4 f (by omega)
    simp only at a3 a4 ⊢
    rw [key f (by omega)]
    simp only [Compare.compareClogs, a3, a4, Out.ok_bind]
    by_cases hp : p1 = p2
    · subst hp
      simp only [answerAfter, if_true, Compare.polarity, decide_eq_true_eq]
      have hs : Compare.comparePrimers p1 p1 = .eq := if_pos rfl
      rcases hr with hr | ⟨rfl, rfl⟩
      · obtain ⟨s1, s2⟩ := Compare.answer_symbols hr
        rw [s1] at s2
        by_cases hv : reversed p1 l <;>
          simp only [ne_eq, hr, not_false_eq_true, if_true, hv, not_true_eq_false, if_false, hs, s1,
            s2, Out.pure_eq, Out.ok_bind, Ordering.then]
      · simp [hs, Out.pure_eq, natOrder]
    · simp only [answerAfter, if_neg hp]
      rcases hr with hr | ⟨rfl, rfl⟩
      · simp only [ne_eq, hr, not_false_eq_true, if_true, Out.pure_eq, Out.ok_bind,
          Compare.answer_primers hp]
      · simp only [ne_eq, not_true_eq_false, if_false, Out.pure_eq, Out.ok_bind,
          Compare.answer_primers hp]

/-- If the symbols agree for ever, `compare` never ends, whatever the primers. -/
theorem C57_compare_diverges (cfg : Cfg) (p1 p2 : Option Primer) (c1 c2 : Clog)
    (h : ∀ k, ∃ l d1 d2, l.length = k ∧ InCommon cfg c1 c2 l d1 d2) :
    Diverges (fun f => Number.compare cfg f (.Other p1 c1) (.Other p2 c2)) := by
  intro f
  obtain ⟨l, d1, d2, hl, ⟨f1, h1⟩, f2, h2⟩ := h f
  have a1 := h1 (max f (max f1 f2)) (by omega)
  have a2 := h2 (max f (max f1 f2)) (by omega)
  simp only at a1 a2 ⊢
  simp only [Number.compare, Compare.compareOthers]
  have hc := Compare.compareClogs_common l (j := 0)
    (b := p1 != some .Reflect && p1 != some .Turn) a1 a2
  rw [Nat.zero_add, hl] at hc
  have hle := Compare.compareClogs_le (cfg := cfg)
    (eg := Clog.egest cfg f) (eg' := Clog.egest cfg (max f (max f1 f2)))
    (fun c => Clog.egest_le (by omega) c) (le_refl f) c1 c2
    (p1 != some .Reflect && p1 != some .Turn)
  rw [hc] at hle
  rcases hle with e | e
  · rw [e]; rfl
  · rw [e]; rfl

theorem FuelMono.diverges {α : Type} {m : Nat → Out α} (h : FuelMono m) (f₀ : Nat)
    (ht : ∀ f ≥ f₀, m f = .timeout) : Diverges m := by
  intro f
  rcases h f (max f f₀) (le_max_left _ _) with e | e
  · exact e
  · exact e.trans (ht _ (le_max_right _ _))

/-- A read that never ends, at the place reached, makes `compare` never end. -/
theorem C57_compare_read_diverges (cfg : Cfg) (p1 p2 : Option Primer) (c1 c2 d1 d2 : Clog)
    (l : List Reduction) (hl : InCommon cfg c1 c2 l d1 d2)
    (h : Diverges (fun f => Clog.egest cfg f d1) ∨
      (∃ r d, Returns (fun f => Clog.egest cfg f d1) (r, d)) ∧
        Diverges (fun f => Clog.egest cfg f d2)) :
    Diverges (fun f => Number.compare cfg f (.Other p1 c1) (.Other p2 c2)) := by
  obtain ⟨⟨f1, h1⟩, f2, h2⟩ := hl
  have key : ∀ f, max (max f1 f2) (l.length + 1) ≤ f →
      Number.compare cfg f (.Other p1 c1) (.Other p2 c2) = (do
        let o ← Compare.compareClogs cfg (Clog.egest cfg f) (f - l.length - 1 + 1) d1 d2
          ((p1 != some .Reflect && p1 != some .Turn) ^^ decide (l.count .Uncover % 2 = 1))
        pure ((Compare.comparePrimers p1 p2).then o)) := by
    intro f hf
    simp only [Number.compare, Compare.compareOthers]
    rw [← Compare.compareClogs_common l (h1 f (by omega)) (h2 f (by omega))]
    rw [show f - l.length - 1 + 1 + l.length = f by omega]
  rcases h with h | ⟨⟨r, d, f3, h3⟩, h⟩
  · refine FuelMono.diverges (Number.compare_mono _ _ _) (max (max f1 f2) (l.length + 1)) ?_
    intro f hf
    have := h f
    simp only at this ⊢
    rw [key f hf]
    simp [Compare.compareClogs, this]
  · refine FuelMono.diverges (Number.compare_mono _ _ _)
      (max (max (max f1 f2) (l.length + 1)) f3) ?_
    intro f hf
    have a3 := h3 f (by omega)
    have a4 := h f
    simp only at a3 a4 ⊢
    rw [key f (by omega)]
    simp [Compare.compareClogs, a3, a4]

theorem Spec.InCommon.snoc {cfg : Cfg} {c1 c2 d1 d2 e1 e2 : Clog} {l : List Reduction}
    {r : Reduction} (h : InCommon cfg c1 c2 l d1 d2)
    (h1 : Returns (fun f => Clog.egest cfg f d1) (some r, e1))
    (h2 : Returns (fun f => Clog.egest cfg f d2) (some r, e2)) :
    InCommon cfg c1 c2 (l ++ [r]) e1 e2 := by
  have key : ∀ {c d e : Clog}, Returns (fun f => Clog.egests cfg f l.length c) (l.map some, d) →
      Returns (fun f => Clog.egest cfg f d) (some r, e) →
      Returns (fun f => Clog.egests cfg f (l ++ [r]).length c) ((l ++ [r]).map some, e) := by
    rintro c d e ⟨f1, h1⟩ ⟨f2, h2⟩
    refine ⟨max f1 f2, fun f hf => ?_⟩
    have a1 := h1 f (by omega)
    have a2 := h2 f (by omega)
    simp only at a1 a2 ⊢
    clear h1 h2 hf
    rw [List.length_append, List.map_append]
    generalize l.map some = m at a1
    generalize l.length = n at a1
    induction n generalizing c m with
    | zero =>
      simp only [Clog.egests, Out.pure_eq, Out.ok.injEq, Prod.mk.injEq] at a1
      obtain ⟨rfl, rfl⟩ := a1
      simp [Clog.egests, a2, Out.pure_eq]
    | succ n ih =>
      rw [egests_succ] at a1
      rw [show n + 1 + [r].length = n + [r].length + 1 by omega, egests_succ]
      cases e : Clog.egest cfg f c with
      | ok t =>
        obtain ⟨r', c'⟩ := t
        simp only [e, Out.ok_bind] at a1 ⊢
        cases e' : Clog.egests cfg f n c' with
        | ok t' =>
          obtain ⟨rs, d'⟩ := t'
          simp only [e', Out.ok_bind, Out.pure_eq, Out.ok.injEq, Prod.mk.injEq] at a1
          obtain ⟨rfl, rfl⟩ := a1
          rw [ih _ e']
          rfl
        | panic p => simp [e'] at a1
        | timeout => simp [e'] at a1
      | panic p => simp [e] at a1
      | timeout => simp [e] at a1
  exact ⟨key h.1 h1, key h.2 h2⟩

/-- One of the cases of the theorems above applies to any two clogs: together they say what
`compare` does. -/
theorem C57_exhaustive (cfg : Cfg) (c1 c2 : Clog) :
    (∀ k, ∃ l d1 d2, l.length = k ∧ InCommon cfg c1 c2 l d1 d2) ∨
    ∃ l d1 d2, InCommon cfg c1 c2 l d1 d2 ∧
      ((∃ e, Panics (fun f => Clog.egest cfg f d1) e) ∨
        Diverges (fun f => Clog.egest cfg f d1) ∨
        ∃ r1 e1, Returns (fun f => Clog.egest cfg f d1) (r1, e1) ∧
          ((∃ e, Panics (fun f => Clog.egest cfg f d2) e) ∨
            Diverges (fun f => Clog.egest cfg f d2) ∨
            ∃ r2 e2, Returns (fun f => Clog.egest cfg f d2) (r2, e2) ∧
              (r1 ≠ r2 ∨ r1 = none ∧ r2 = none))) := by
  by_contra hc
  rw [not_or] at hc
  obtain ⟨ha, hb⟩ := hc
  refine ha fun k => ?_
  induction k with
  | zero => exact ⟨[], c1, c2, rfl, ⟨0, fun _ _ => rfl⟩, 0, fun _ _ => rfl⟩
  | succ k ih =>
    obtain ⟨l, d1, d2, hl, h⟩ := ih
    rcases (Clog.egest_mono cfg d1).cases with ⟨⟨r1, e1⟩, h1⟩ | h1 | h1
    · rcases (Clog.egest_mono cfg d2).cases with ⟨⟨r2, e2⟩, h2⟩ | h2 | h2
      · by_cases hr : r1 = r2
        · subst hr
          rcases r1 with _ | r
          · exact absurd ⟨l, d1, d2, h, .inr (.inr ⟨_, e1, h1, .inr (.inr ⟨_, e2, h2,
              .inr ⟨rfl, rfl⟩⟩)⟩)⟩ hb
          · exact ⟨l ++ [r], e1, e2, by simp [hl], h.snoc h1 h2⟩
        · exact absurd ⟨l, d1, d2, h, .inr (.inr ⟨_, e1, h1, .inr (.inr ⟨_, e2, h2,
            .inl hr⟩)⟩)⟩ hb
      · exact absurd ⟨l, d1, d2, h, .inr (.inr ⟨_, e1, h1, .inl h2⟩)⟩ hb
      · exact absurd ⟨l, d1, d2, h, .inr (.inr ⟨_, e1, h1, .inr (.inl h2)⟩)⟩ hb
    · exact absurd ⟨l, d1, d2, h, .inl h1⟩ hb
    · exact absurd ⟨l, d1, d2, h, .inr (.inl h1)⟩ hb

/-- 3/7 and 2/5 have three symbols in common, then come `Amplify` and the end. -/
example : InCommon debug64 (.ratio ⟨3, 7⟩) (.ratio ⟨2, 5⟩) [.Amplify, .Uncover, .Amplify]
      (.ratio ⟨1, 3⟩) (.ratio ⟨1, 2⟩) ∧
    Returns (fun f => Number.compare debug64 f (.Other none (.ratio ⟨3, 7⟩))
      (.Other none (.ratio ⟨2, 5⟩))) .gt := by
  have h : InCommon debug64 (.ratio ⟨3, 7⟩) (.ratio ⟨2, 5⟩) [.Amplify, .Uncover, .Amplify]
      (.ratio ⟨1, 3⟩) (.ratio ⟨1, 2⟩) := by
    constructor <;> exact FuelMono.returns (Clog.egests_mono _ _ _) 5 (by decide)
  refine ⟨h, (C57_compare_reads debug64 none none _ _ _ _ _ h).2.2 (some .Amplify) none
    (.ratio ⟨2, 3⟩) (.ratio ⟨1, 2⟩) ?_ ?_ (.inl (by decide))⟩ <;>
  exact FuelMono.returns (Clog.egest_mono _ _) 5 (by decide)

/-- `ratio(isize::MAX, 1) + 1` and `-1/2^63` have 62 symbols in common, then the first panics: so does
`compare`, although one number is positive and the other is negative. -/
example : ∃ x c, Number.ratio debug64 debug64.imax 1 = .ok x ∧
    Returns (fun f => Number.homographic debug64 f x 1 1 0 1) (.Other (some .Turn) c) ∧
    Number.ratioU false 1 (2 ^ 63) = .ok (.Other (some .Reflect) (.ratio ⟨1, 2 ^ 63⟩)) ∧
    Panics (fun f => Number.compare debug64 f (.Other (some .Turn) c)
      (.Other (some .Reflect) (.ratio ⟨1, 2 ^ 63⟩))) .unwrapNone := by
  refine ⟨.Other (some .Turn) (.ratio ⟨1, 2 ^ 63 - 1⟩),
    .homographic (.ratio ⟨1, 2 ^ 63 - 1⟩) ⟨1, 0, 1, 1⟩, by decide,
    FuelMono.returns (Number.homographic_mono _ _ _ _ _ _) 5 (by decide +kernel), by decide, ?_⟩
  exact (C57_compare_reads debug64 _ _ _ _ (.homographic
      (.ratio ⟨4611686018427387904, 9223372036854775807⟩)
      ⟨4611686018427387904, 0, 1, 4611686018427387904⟩) (.ratio ⟨1, 2⟩)
      (List.replicate 62 .Amplify)
    ⟨FuelMono.returns (Clog.egests_mono _ _ _) 100 (by decide +kernel),
      FuelMono.returns (Clog.egests_mono _ _ _) 5 (by decide +kernel)⟩).1 _
    (FuelMono.panics (Clog.egest_mono _ _) 5 (by decide +kernel))

/-- The two infinite numbers `2/0` and `-2/0` of C38 give `Amplify` for ever. -/
example (k : Nat) : ∃ l d1 d2, l.length = k ∧ InCommon debug64
    (.homographic (.ratio ⟨1, 2⟩) ⟨0, 0, 1, 1⟩) (.homographic (.ratio ⟨1, 2⟩) ⟨0, 0, -1, -1⟩)
    l d1 d2 := by
  have key : ∀ c : Clog, Clog.egest debug64 5 c = .ok (some .Amplify, c) →
      Returns (fun f => Clog.egests debug64 f (List.replicate k Reduction.Amplify).length c)
        ((List.replicate k Reduction.Amplify).map some, c) := by
    intro c hc
    refine ⟨5, fun f hf => ?_⟩
    have := (Clog.egest_le hf c).ok hc
    simp only
    rw [List.length_replicate, List.map_replicate]
    induction k with
    | zero => rfl
    | succ k ih => simp only [egests_succ, this, Out.ok_bind, ih]; rfl
  exact ⟨List.replicate k .Amplify, _, _, List.length_replicate,
    key _ (by decide +kernel), key _ (by decide +kernel)⟩

end Clarith
