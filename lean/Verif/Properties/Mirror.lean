import Verif.Properties.Same
import Verif.Proofs.Unity

/-! # Identity, negation and reciprocal of any number (C64)

For any clog at all: also one that never ends, one that panics, one that does not return. -/

namespace Clarith

open Spec Out

/-! ## Specification -/

/-- The number with the opposite sign: the same clog after the other primer. -/
def Spec.opposite : Number → Number
  | .Special .NegOne => .Special .PosOne
  | .Special .Zero => .Special .Zero
  | .Special .PosOne => .Special .NegOne
  | .Other none c => .Other (some .Reflect) c
  | .Other (some .Reflect) c => .Other none c
  | .Other (some .Turn) c => .Other (some .Ground) c
  | .Other (some .Ground) c => .Other (some .Turn) c

/-! ## Proof -/

section
variable {cfg : Cfg}

theorem Sim.of_le {α β : Type} {Q : α → β → Prop} {o o' : Out α} {m : Nat → Nat → Out β}
    (h : Out.Le o o') (hs : Sim Q o' m) : Sim Q o m := by
  rcases h with rfl | rfl
  · trivial
  · exact hs

/-- In the state of the identity each symbol comes out as it goes in. -/
theorem Coef4.Identity.symbol {k : Coef4} (hk : k.Identity) (r : Reduction) :
    ∃ k1 k' : Coef4, k'.Identity ∧ (match r with
      | .Amplify => k.ingestAmplify cfg
      | .Uncover => k.ingestUncover cfg) = .ok k1 ∧
      k1.reductionAttempt cfg = .ok (some (some r, k')) := by
  rcases hk with rfl | rfl <;> cases r
  · exact ⟨⟨1, 0, 0, 2⟩, ⟨1, 0, 0, 1⟩, .inl rfl, Coef4.ingestAmplify_ok (by decide),
      Coef4.reductionAttempt_ok (by decide)⟩
  · exact ⟨⟨0, 1, 1, 1⟩, ⟨1, 0, 0, 1⟩, .inl rfl, Coef4.ingestUncover_ok (by decide),
      Coef4.reductionAttempt_ok (by decide)⟩
  · exact ⟨⟨-1, 0, 0, -2⟩, ⟨-1, 0, 0, -1⟩, .inr rfl, Coef4.ingestAmplify_ok (by decide),
      Coef4.reductionAttempt_ok (by decide)⟩
  · exact ⟨⟨0, -1, -1, -1⟩, ⟨-1, 0, 0, -1⟩, .inr rfl, Coef4.ingestUncover_ok (by decide),
      Coef4.reductionAttempt_ok (by decide)⟩

theorem Coef4.Identity.start {k : Coef4} (hk : k.Identity) :
    k.reductionAttempt cfg = .ok none ∧ ∃ n d, k.valueAtOneHalf cfg = .ok (n, d) ∧
      Ratio.newI cfg n d = .ok (none, none, some ⟨1, 2⟩) := by
  rcases hk with rfl | rfl
  · exact ⟨Coef4.reductionAttempt_ok (by decide), 1, 2, Coef4.valueAtOneHalf_ok (by decide),
      Ratio.newI_ok (by decide) (by decide) (by decide)⟩
  · exact ⟨Coef4.reductionAttempt_ok (by decide), -1, -2, Coef4.valueAtOneHalf_ok (by decide),
      Ratio.newI_ok (by decide) (by decide) (by decide)⟩

theorem ratio_half_egest (cfg : Cfg) : (⟨1, 2⟩ : Ratio).egest cfg = .ok (none, ⟨1, 2⟩) := by
  have h : cfg.umul 1 2 = .ok 2 := by
    have h : (2 : Nat) ^ 16 ≤ 2 ^ cfg.bits := Nat.pow_le_pow_right (by norm_num) cfg.hbits
    have h' : (1 * 2 : Nat) ≤ cfg.umax := by simp only [Cfg.umax]; omega
    unfold Cfg.umul Cfg.uunchecked
    rw [if_pos ⟨by norm_num, by exact_mod_cast h'⟩]
    rfl
  simp [Ratio.egest, h]

/-- One call in the state of the identity. -/
theorem Coef4.Identity.egest {k : Coef4} (hk : k.Identity) (c : Clog) (f : Nat) :
    (∀ p, Clog.egest cfg (f + 2) c = .panic p →
      Clog.egest cfg (f + 3) (Homographic.box ⟨c, k⟩) = .panic p) ∧
    (Clog.egest cfg (f + 2) c = .timeout →
      Clog.egest cfg (f + 3) (Homographic.box ⟨c, k⟩) = .timeout) ∧
    (∀ d, Clog.egest cfg (f + 2) c = .ok (none, d) → ∃ d',
      Clog.egest cfg (f + 3) (Homographic.box ⟨c, k⟩) = .ok (none, d')) ∧
    (∀ r d, Clog.egest cfg (f + 2) c = .ok (some r, d) → ∃ k' : Coef4, k'.Identity ∧
      Clog.egest cfg (f + 3) (Homographic.box ⟨c, k⟩) =
        .ok (some r, Homographic.box ⟨d, k'⟩)) := by
  obtain ⟨h0, n, d, h1, h2⟩ := hk.start (cfg := cfg)
  have unfold_ : Clog.egest cfg (f + 3) (Homographic.box ⟨c, k⟩) = (do
      let t ← Strategy.egest cfg (Clog.egest cfg (f + 2)) (f + 2) (Homographic.box ⟨c, k⟩)
      match t with
      | (.ok reduction, s) => pure (reduction, s)
      | (.err newStrategy, _) => Clog.egest cfg (f + 2) newStrategy) := rfl
  rw [unfold_]
  simp only [Strategy.egest, Homographic.box, Homographic.egest, h0, ok_bind,
    Homographic.reductionIngest]
  refine ⟨fun p hp => ?_, fun hp => ?_, fun e hp => ?_, fun r e hp => ?_⟩
  · simp [hp]
  · simp [hp]
  · simp only [hp, ok_bind, h1, h2, pure_eq]
    rw [Clog.egest_ratio, ratio_half_egest]
    exact ⟨_, rfl⟩
  · obtain ⟨k1, k', hk', e1, e2⟩ := hk.symbol (cfg := cfg) r
    refine ⟨k', hk', ?_⟩
    cases r <;> simp only at e1 <;> simp [hp, e1, e2, pure_eq]

theorem Coef4.Identity.agree {k : Coef4} (hk : k.Identity) (c : Clog) :
    Agree cfg c (Homographic.box ⟨c, k⟩) := by
  refine Agree.coind (fun c c' => ∃ k : Coef4, k.Identity ∧ c' = Homographic.box ⟨c, k⟩) ?_
    ⟨k, hk, rfl⟩
  rintro c _ ⟨k, hk, rfl⟩ f
  refine Sim.of_le (Clog.egest_mono cfg c f (f + 2) (by omega)) ?_
  show Sim _ (Clog.egest cfg (f + 2) c) _
  obtain ⟨h1, -, h3, h4⟩ := hk.egest (cfg := cfg) c f
  have mono := Clog.egest_mono cfg (Homographic.box ⟨c, k⟩)
  cases e : Clog.egest cfg (f + 2) c with
  | timeout => trivial
  | panic p => exact ⟨f + 3, fun g hg _ _ => (mono _ _ hg).panic (h1 p e)⟩
  | ok t =>
    obtain ⟨r, d⟩ := t
    cases r with
    | none =>
      obtain ⟨d', hd⟩ := h3 d e
      exact ⟨(none, d'), ⟨rfl, by simp⟩, f + 3, fun g hg _ _ => (mono _ _ hg).ok hd⟩
    | some r =>
      obtain ⟨k', hk', hd⟩ := h4 r d e
      exact ⟨(some r, Homographic.box ⟨d, k'⟩), ⟨rfl, fun _ => ⟨k', hk', rfl⟩⟩, f + 3, fun g hg _ _ => (mono _ _ hg).ok hd⟩

theorem Coef4.Identity.agree' {k : Coef4} (hk : k.Identity) (c : Clog) :
    Agree cfg (Homographic.box ⟨c, k⟩) c := by
  refine Agree.coind (fun c' c => ∃ k : Coef4, k.Identity ∧ c' = Homographic.box ⟨c, k⟩) ?_
    ⟨k, hk, rfl⟩
  rintro _ c ⟨k, hk, rfl⟩ f
  refine Sim.of_le (Clog.egest_mono cfg (Homographic.box ⟨c, k⟩) f (f + 3) (by omega)) ?_
  show Sim _ (Clog.egest cfg (f + 3) (Homographic.box ⟨c, k⟩)) _
  obtain ⟨h1, h2, h3, h4⟩ := hk.egest (cfg := cfg) c f
  have mono := Clog.egest_mono cfg c
  cases e : Clog.egest cfg (f + 2) c with
  | timeout => rw [h2 e]; trivial
  | panic p =>
    rw [h1 p e]
    exact ⟨f + 2, fun g hg _ _ => (mono _ _ hg).panic e⟩
  | ok t =>
    obtain ⟨r, d⟩ := t
    cases r with
    | none =>
      obtain ⟨d', hd⟩ := h3 d e
      rw [hd]
      exact ⟨(none, d), ⟨rfl, by simp⟩, f + 2, fun g hg _ _ => (mono _ _ hg).ok e⟩
    | some r =>
      obtain ⟨k', hk', hd⟩ := h4 r d e
      rw [hd]
      exact ⟨(some r, d), ⟨rfl, fun _ => ⟨k', hk', rfl⟩⟩, f + 2, fun g hg _ _ => (mono _ _ hg).ok e⟩

theorem Coef4.Identity.same {k : Coef4} (hk : k.Identity) (p : Option Primer) (c : Clog) :
    SameNumber cfg (.Other p c) (.Other p (Homographic.box ⟨c, k⟩)) :=
  ⟨rfl, SameAnswers.of_agree (hk.agree c) (hk.agree' c)⟩

theorem Number.homographic_now' {c : Clog} {p p' : Option Primer} {nx n dx d : Int} {k k' : Coef4}
    (h0 : ¬(nx = 0 ∧ dx = 0))
    (ha : Homographic.absorbPrimer narrowest p ⟨nx, n, dx, d⟩ = .ok k)
    (hp : k.primerAttempt narrowest = .ok (some (p', k'))) :
    Returns (fun f => Number.homographic cfg f (.Other p c) nx n dx d)
      (.Other p' (Homographic.box ⟨c, k'⟩)) := by
  rcases Number.homographic_now (A := NoPanic) (cfg := cfg) (c := c) h0 ha hp with
    ⟨r, h, rfl⟩ | ⟨_, _, h⟩
  · exact h
  · exact h.elim

end

/-! ## The theorems -/

/-- The identity map gives back a number with the same answers. -/
theorem C64_identity (cfg : Cfg) (x : Number) :
    ∃ x', Returns (fun f => Number.homographic cfg f x 1 0 0 1) x' ∧ SameNumber cfg x x' := by
  cases x with
  | Special s =>
    rcases Number.homographic_special (cfg := cfg) (A := NoPanic) (s := s) rfl
      (nx := 1) (n := 0) (dx := 0) (d := 1) (by decide) (by norm_num) with ⟨x', h, hx⟩ | ⟨_, _, h⟩
    · refine ⟨x', h, C63_same_value cfg _ _ (specialValue s) rfl ?_⟩
      simpa using hx
    · exact h.elim
  | Other p c =>
    rcases p with _ | _ | _ | _
    · exact ⟨_, Number.homographic_now' (by decide) (k := ⟨1, 0, 0, 1⟩) (k' := ⟨1, 0, 0, 1⟩)
        (p' := none) (by decide) (by decide), Coef4.Identity.same (.inl rfl) _ _⟩
    · exact ⟨_, Number.homographic_now' (by decide) (k := ⟨0, 1, 1, 0⟩) (k' := ⟨1, 0, 0, 1⟩)
        (p' := some .Turn) (by decide) (by decide), Coef4.Identity.same (.inl rfl) _ _⟩
    · exact ⟨_, Number.homographic_now' (by decide) (k := ⟨-1, 0, 0, 1⟩) (k' := ⟨1, 0, 0, 1⟩)
        (p' := some .Reflect) (by decide) (by decide), Coef4.Identity.same (.inl rfl) _ _⟩
    · exact ⟨_, Number.homographic_now' (by decide) (k := ⟨0, -1, 1, 0⟩) (k' := ⟨-1, 0, 0, -1⟩)
        (p' := some .Ground) (by decide) (by decide), Coef4.Identity.same (.inr rfl) _ _⟩

/-- Negation changes the primer, and no answer. -/
theorem C64_negation (cfg : Cfg) (x : Number) :
    ∃ x', Returns (fun f => Number.homographic cfg f x (-1) 0 0 1) x' ∧
      SameNumber cfg (opposite x) x' := by
  cases x with
  | Special s =>
    rcases Number.homographic_special (cfg := cfg) (A := NoPanic) (s := s) rfl
      (nx := -1) (n := 0) (dx := 0) (d := 1) (by decide) (by norm_num) with ⟨x', h, hx⟩ | ⟨_, _, h⟩
    · refine ⟨x', h, C63_same_value cfg _ _ (-specialValue s) ?_ ?_⟩
      · cases s <;> simp [opposite, Number.Denotes, specialValue]
      · simpa using hx
    · exact h.elim
  | Other p c =>
    rcases p with _ | _ | _ | _
    · exact ⟨_, Number.homographic_now' (by decide) (k := ⟨-1, 0, 0, 1⟩) (k' := ⟨1, 0, 0, 1⟩)
        (p' := some .Reflect) (by decide) (by decide), Coef4.Identity.same (.inl rfl) _ _⟩
    · exact ⟨_, Number.homographic_now' (by decide) (k := ⟨0, -1, 1, 0⟩) (k' := ⟨-1, 0, 0, -1⟩)
        (p' := some .Ground) (by decide) (by decide), Coef4.Identity.same (.inr rfl) _ _⟩
    · exact ⟨_, Number.homographic_now' (by decide) (k := ⟨1, 0, 0, 1⟩) (k' := ⟨1, 0, 0, 1⟩)
        (p' := none) (by decide) (by decide), Coef4.Identity.same (.inl rfl) _ _⟩
    · exact ⟨_, Number.homographic_now' (by decide) (k := ⟨0, 1, 1, 0⟩) (k' := ⟨1, 0, 0, 1⟩)
        (p' := some .Turn) (by decide) (by decide), Coef4.Identity.same (.inl rfl) _ _⟩

/-- Negating twice gives back a number with the same answers. -/
theorem C64_negation_twice (cfg : Cfg) (x : Number) :
    ∃ x' x'', Returns (fun f => Number.homographic cfg f x (-1) 0 0 1) x' ∧
      Returns (fun f => Number.homographic cfg f x' (-1) 0 0 1) x'' ∧ SameNumber cfg x x'' := by
  obtain ⟨x', h1, h2⟩ := C64_negation cfg x
  obtain ⟨y, h3, h4⟩ := C64_negation cfg (opposite x)
  obtain ⟨x'', h5, h6⟩ := (C63_homographic cfg _ _ h2 (-1) 0 0 1).1 y h3
  refine ⟨x', x'', h1, h5, ?_⟩
  have : opposite (opposite x) = x := by
    rcases x with (_ | _ | _) | ⟨_ | _ | _ | _, _⟩ <;> rfl
  rw [this] at h4
  exact (C63_equivalence cfg).trans h4 h6

/-- The reciprocal of a positive number changes the primer, and no answer. -/
theorem C64_reciprocal (cfg : Cfg) (c : Clog) :
    (∃ x', Returns (fun f => Number.homographic cfg f (.Other none c) 0 1 1 0) x' ∧
      SameNumber cfg (.Other (some .Turn) c) x') ∧
    (∃ x', Returns (fun f => Number.homographic cfg f (.Other (some .Turn) c) 0 1 1 0) x' ∧
      SameNumber cfg (.Other none c) x') :=
  ⟨⟨_, Number.homographic_now' (by decide) (k := ⟨0, 1, 1, 0⟩) (k' := ⟨1, 0, 0, 1⟩)
      (p' := some .Turn) (by decide) (by decide), Coef4.Identity.same (.inl rfl) _ _⟩,
    ⟨_, Number.homographic_now' (by decide) (k := ⟨1, 0, 0, 1⟩) (k' := ⟨1, 0, 0, 1⟩)
      (p' := none) (by decide) (by decide), Coef4.Identity.same (.inl rfl) _ _⟩⟩

/-! ## Examples -/

/-- A clog whose `egest` does not return (`endless`): its negation is made all the same … -/
example := C64_negation debug64 (.Other none (.combine
  (.homographic (.ratio ⟨3, 5⟩) ⟨0, 0, 1, 1⟩) (.homographic (.ratio ⟨3, 5⟩) ⟨0, 0, 1, 1⟩)
    ⟨0, 1, 2, 0, 0, 3, 3, 0⟩))

/-- … and again does not return. -/
example : ∃ c, Returns (fun f => Number.homographic debug64 f (.Other none (.combine
    (.homographic (.ratio ⟨3, 5⟩) ⟨0, 0, 1, 1⟩) (.homographic (.ratio ⟨3, 5⟩) ⟨0, 0, 1, 1⟩)
      ⟨0, 1, 2, 0, 0, 3, 3, 0⟩)) (-1) 0 0 1) (.Other (some .Reflect) c) ∧
    Diverges (fun f => Clog.egest debug64 f c) := by
  obtain ⟨x', h1, h2⟩ := C64_negation debug64 (.Other none (.combine
    (.homographic (.ratio ⟨3, 5⟩) ⟨0, 0, 1, 1⟩) (.homographic (.ratio ⟨3, 5⟩) ⟨0, 0, 1, 1⟩)
      ⟨0, 1, 2, 0, 0, 3, 3, 0⟩))
  cases x' with
  | Special s => exact h2.elim
  | Other p c =>
    obtain ⟨rfl, h⟩ := h2
    refine ⟨c, h1, ?_⟩
    obtain ⟨g1, g2⟩ := h [] _ _ (Gives.nil _) (Gives.nil _)
    rcases FuelMono.cases (Clog.egest_mono debug64 c) with ⟨⟨r, d⟩, hr⟩ | ⟨p, hp⟩ | hd
    · obtain ⟨d', f₀, hf⟩ := (g1 r).2 ⟨d, hr⟩
      exact absurd (hf f₀ le_rfl) (by simp only [endless f₀]; simp)
    · obtain ⟨f₀, hf⟩ := (g2 p).2 hp
      exact absurd (hf f₀ le_rfl) (by simp only [endless f₀]; simp)
    · exact hd

/-- Test: 3/5, -3/5, 5/3 and 1. -/
example : opposite (.Other none (.ratio ⟨3, 5⟩)) = .Other (some .Reflect) (.ratio ⟨3, 5⟩) ∧
    opposite (.Special .PosOne) = .Special .NegOne := ⟨rfl, rfl⟩

example := C64_identity release64 (.Other (some .Ground) (.ratio ⟨3, 5⟩))
example := C64_negation_twice release64 (.Other (some .Ground) (.ratio ⟨3, 5⟩))
example := C64_reciprocal debug64 (.ratio ⟨3, 5⟩)

end Clarith
