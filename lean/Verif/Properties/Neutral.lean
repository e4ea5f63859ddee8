import Verif.Properties.Mirror
import Verif.Properties.SpecialOperands

/-! # Arithmetic with 0, 1 and -1 (C92)

Sums, differences, products and quotients in which one operand is 0, 1 or -1, and the other any number
at all: a fraction or not, with or without end, panicking or never returning. -/

namespace Clarith

open Out Spec

/-- The four operations, as coefficients of `combine` (src/lib.rs:135-174). -/
inductive Spec.Op
  | sum | difference | product | quotient

/-- What the user calls for it. -/
def Spec.Op.run (cfg : Cfg) (f : Nat) (x y : Number) : Op → Out Number
  | .sum => Number.combine cfg f x y 0 1 1 0 0 0 0 1
  | .difference => Number.combine cfg f x y 0 1 (-1) 0 0 0 0 1
  | .product => Number.combine cfg f x y 1 0 0 0 0 0 0 1
  | .quotient => Number.combine cfg f x y 0 1 0 0 0 0 1 0

/-- The call returns, without panic, a number with the answers of `z`. -/
def Spec.Like (cfg : Cfg) (m : Nat → Out Number) (z : Number) : Prop :=
  ∃ z', Returns m z' ∧ SameNumber cfg z z'

variable {cfg : Cfg}

namespace Neutral

theorem fits1 {cfg : Cfg} {z : Int} (h : -1 ≤ z) (h' : z ≤ 1) : cfg.Fits z :=
  Cfg.small (by omega) (by omega)

/-- Two special operands. -/
theorem two (s t z : Special) (nxy nx ny n dxy dx dy d : Int)
    (H : ∀ c ∈ [nxy, nx, ny, n, dxy, dx, dy, d], -1 ≤ c ∧ c ≤ 1)
    (h0 : substitute t (substitute s dxy dy) (substitute s dx d) ≠ 0)
    (h : (substitute t (substitute s nxy ny) (substitute s nx n) : ℚ) /
      substitute t (substitute s dxy dy) (substitute s dx d) = specialValue z) :
    Like cfg (fun f => Number.combine cfg f (.Special s) (.Special t) nxy nx ny n dxy dx dy d)
      (.Special z) := by
  have small : ∀ {z : Int}, -4 ≤ z → z ≤ 4 → cfg.Fits z := fun h h' => Cfg.small (by omega) (by omega)
  have hs : ∀ (s : Special) (a b B : Int), -B ≤ a → a ≤ B → -B ≤ b → b ≤ B →
      -(2 * B) ≤ substitute s a b ∧ substitute s a b ≤ 2 * B := by
    intro s a b B h1 h2 h3 h4
    cases s <;> simp only [substitute] <;> omega
  simp only [List.forall_mem_cons] at H
  obtain ⟨⟨a1, a2⟩, ⟨b1, b2⟩, ⟨c1, c2⟩, ⟨d1, d2⟩, ⟨e1, e2⟩, ⟨f1, f2⟩, ⟨g1, g2⟩, ⟨i1, i2⟩, -⟩ := H
  have A := hs s nxy ny 1 a1 a2 c1 c2
  have B := hs s nx n 1 b1 b2 d1 d2
  have C := hs s dxy dy 1 e1 e2 g1 g2
  have D := hs s dx d 1 f1 f2 i1 i2
  have N := hs t _ _ 2 A.1 A.2 B.1 B.2
  have M := hs t _ _ 2 C.1 C.2 D.1 D.2
  have F : MachineInts cfg [nxy, nx, ny, n, dxy, dx, dy, d] := by
    simp only [MachineInts, List.forall_mem_cons]
    refine ⟨?_, ?_, ?_, ?_, ?_, ?_, ?_, ?_, by simp⟩ <;> exact small (by omega) (by omega)
  have hm : cfg.imin < -4 := by
    have := cfg.imax_ge
    have : cfg.imin = -cfg.imax - 1 := by unfold Cfg.imin Cfg.imax; ring
    omega
  obtain ⟨x', e, hx⟩ := C01_ratio_exact cfg _ _ (small N.1 N.2) (small M.1 M.2) h0
    (fun _ => ⟨by omega, by omega⟩)
  refine ⟨x', ⟨0, fun f _ => ?_⟩, C63_same_value cfg _ _ _ rfl (h ▸ hx)⟩
  show Number.combine cfg f (.Special s) (.Special t) nxy nx ny n dxy dx dy d = .ok x'
  rw [C62_combine_special_first cfg f s _ _ _ _ _ _ _ _ _ F,
    if_pos ⟨small (by omega) (by omega), small (by omega) (by omega), small (by omega) (by omega),
      small (by omega) (by omega)⟩,
    C62_homographic_special cfg f t _ _ _ _ (by
      simp only [MachineInts, List.forall_mem_cons]
      refine ⟨?_, ?_, ?_, ?_, by simp⟩ <;> exact small (by omega) (by omega)),
    if_pos ⟨small N.1 N.2, small M.1 M.2⟩, e]

/-- The second operand is special, the first is not. -/
theorem second (s : Special) (p : Option Primer) (c : Clog) (nxy nx ny n dxy dx dy d : Int)
    (H : ∀ c ∈ [nxy, nx, ny, n, dxy, dx, dy, d], -1 ≤ c ∧ c ≤ 1) (f : Nat) :
    Number.combine cfg f (.Other p c) (.Special s) nxy nx ny n dxy dx dy d =
      Number.homographic cfg f (.Other p c) (substitute s nxy nx) (substitute s ny n)
        (substitute s dxy dx) (substitute s dy d) := by
  have small : ∀ {z : Int}, -4 ≤ z → z ≤ 4 → cfg.Fits z := fun h h' => Cfg.small (by omega) (by omega)
  have hs : ∀ (s : Special) (a b : Int), -1 ≤ a → a ≤ 1 → -1 ≤ b → b ≤ 1 →
      cfg.Fits (substitute s a b) := by
    intro s a b h1 h2 h3 h4
    refine small ?_ ?_ <;> cases s <;> simp only [substitute] <;> omega
  simp only [List.forall_mem_cons] at H
  obtain ⟨⟨a1, a2⟩, ⟨b1, b2⟩, ⟨c1, c2⟩, ⟨d1, d2⟩, ⟨e1, e2⟩, ⟨f1, f2⟩, ⟨g1, g2⟩, ⟨i1, i2⟩, -⟩ := H
  rw [C62_combine_special_second cfg f s p c _ _ _ _ _ _ _ _ (by
      simp only [MachineInts, List.forall_mem_cons]
      refine ⟨?_, ?_, ?_, ?_, ?_, ?_, ?_, ?_, by simp⟩ <;> exact small (by omega) (by omega)),
    if_pos ⟨hs _ _ _ a1 a2 b1 b2, hs _ _ _ c1 c2 d1 d2, hs _ _ _ e1 e2 f1 f2, hs _ _ _ g1 g2 i1 i2⟩]

/-- The first operand is special. -/
theorem first (s : Special) (y : Number) (nxy nx ny n dxy dx dy d : Int)
    (H : ∀ c ∈ [nxy, nx, ny, n, dxy, dx, dy, d], -1 ≤ c ∧ c ≤ 1) (f : Nat) :
    Number.combine cfg f (.Special s) y nxy nx ny n dxy dx dy d =
      Number.homographic cfg f y (substitute s nxy ny) (substitute s nx n)
        (substitute s dxy dy) (substitute s dx d) := by
  have small : ∀ {z : Int}, -4 ≤ z → z ≤ 4 → cfg.Fits z := fun h h' => Cfg.small (by omega) (by omega)
  have hs : ∀ (s : Special) (a b : Int), -1 ≤ a → a ≤ 1 → -1 ≤ b → b ≤ 1 →
      cfg.Fits (substitute s a b) := by
    intro s a b h1 h2 h3 h4
    refine small ?_ ?_ <;> cases s <;> simp only [substitute] <;> omega
  simp only [List.forall_mem_cons] at H
  obtain ⟨⟨a1, a2⟩, ⟨b1, b2⟩, ⟨c1, c2⟩, ⟨d1, d2⟩, ⟨e1, e2⟩, ⟨f1, f2⟩, ⟨g1, g2⟩, ⟨i1, i2⟩, -⟩ := H
  rw [C62_combine_special_first cfg f s y _ _ _ _ _ _ _ _ (by
      simp only [MachineInts, List.forall_mem_cons]
      refine ⟨?_, ?_, ?_, ?_, ?_, ?_, ?_, ?_, by simp⟩ <;> exact small (by omega) (by omega)),
    if_pos ⟨hs _ _ _ a1 a2 c1 c2, hs _ _ _ b1 b2 d1 d2, hs _ _ _ e1 e2 g1 g2, hs _ _ _ f1 f2 i1 i2⟩]

end Neutral

open Neutral

/-- The coefficients of the four operations are small. -/
local macro "small" : tactic => `(tactic| (intro c hc; simp at hc; omega))

/-- Zero: `x + 0`, `0 + x` and `x - 0` give the answers of `x`, `0 - x` those of the opposite, and
`x * 0` and `0 * x` are the constant zero.  All six return without reading any symbol of `x`, so also
when `x` has no end, panics or never returns. -/
theorem C92_zero (cfg : Cfg) (x : Number) :
    Like cfg (fun f => Op.sum.run cfg f x (.Special .Zero)) x ∧
    Like cfg (fun f => Op.sum.run cfg f (.Special .Zero) x) x ∧
    Like cfg (fun f => Op.difference.run cfg f x (.Special .Zero)) x ∧
    Like cfg (fun f => Op.difference.run cfg f (.Special .Zero) x) (opposite x) ∧
    Returns (fun f => Op.product.run cfg f x (.Special .Zero)) (.Special .Zero) ∧
    Returns (fun f => Op.product.run cfg f (.Special .Zero) x) (.Special .Zero) := by
  have hr : Number.ratio cfg 0 1 = .ok (.Special .Zero) := by
    have := cfg.imax_ge
    have : cfg.imin = -cfg.imax - 1 := by unfold Cfg.imin Cfg.imax; ring
    obtain ⟨x', e, hx⟩ := C01_ratio_exact cfg 0 1 (fits1 (by decide) (by decide))
      (fits1 (by decide) (by decide)) (by decide) (fun _ => ⟨by omega, by omega⟩)
    have h := C63_same_value cfg (.Special .Zero) x' 0 rfl (by simpa using hx)
    cases x' with
    | Special s => rw [e, show Special.Zero = s from h]
    | Other p c => exact h.elim
  simp only [Op.run]
  refine ⟨?_, ?_, ?_, ?_, ?_, ?_⟩
  · cases x with
    | Special s =>
      cases s <;> exact two _ _ _ _ _ _ _ _ _ _ _ (by small) (by decide) (by norm_num [substitute, specialValue])
    | Other p c =>
      simp only [second (cfg := cfg) .Zero p c 0 1 1 0 0 0 0 1 (by small), substitute]
      exact C64_identity cfg _
  · simp only [first (cfg := cfg) .Zero x 0 1 1 0 0 0 0 1 (by small), substitute]
    exact C64_identity cfg _
  · cases x with
    | Special s =>
      cases s <;> exact two _ _ _ _ _ _ _ _ _ _ _ (by small) (by decide) (by norm_num [substitute, specialValue])
    | Other p c =>
      simp only [second (cfg := cfg) .Zero p c 0 1 (-1) 0 0 0 0 1 (by small), substitute]
      exact C64_identity cfg _
  · simp only [first (cfg := cfg) .Zero x 0 1 (-1) 0 0 0 0 1 (by small), substitute]
    exact C64_negation cfg _
  · cases x with
    | Special s =>
      simp only [first (cfg := cfg) s (.Special .Zero) 1 0 0 0 0 0 0 1 (by small)]
      refine ⟨0, fun f _ => (C62_homographic_special cfg f .Zero _ _ _ _ ?_).trans ?_⟩
      · simp only [MachineInts, List.forall_mem_cons]
        refine ⟨?_, ?_, ?_, ?_, by simp⟩ <;> cases s <;> exact fits1 (by decide) (by decide)
      · have e : substitute .Zero (substitute s 1 0) (substitute s 0 0) = 0 := by cases s <;> rfl
        have e' : substitute .Zero (substitute s 0 0) (substitute s 0 1) = 1 := by cases s <;> rfl
        rw [e, e', if_pos ⟨fits1 (by decide) (by decide), fits1 (by decide) (by decide)⟩, hr]
    | Other p c =>
      simp only [second (cfg := cfg) .Zero p c 1 0 0 0 0 0 0 1 (by small), substitute]
      exact ⟨0, fun f _ => (C62_constant cfg f _ 0 1).trans hr⟩
  · simp only [first (cfg := cfg) .Zero x 1 0 0 0 0 0 0 1 (by small), substitute]
    exact ⟨0, fun f _ => (C62_constant cfg f _ 0 1).trans hr⟩

/-- One: `x * 1`, `1 * x` and `x / 1` give the answers of `x`. -/
theorem C92_one (cfg : Cfg) (x : Number) :
    Like cfg (fun f => Op.product.run cfg f x (.Special .PosOne)) x ∧
    Like cfg (fun f => Op.product.run cfg f (.Special .PosOne) x) x ∧
    Like cfg (fun f => Op.quotient.run cfg f x (.Special .PosOne)) x := by
  simp only [Op.run]
  refine ⟨?_, ?_, ?_⟩
  · cases x with
    | Special s =>
      cases s <;> exact two _ _ _ _ _ _ _ _ _ _ _ (by small) (by decide) (by norm_num [substitute, specialValue])
    | Other p c =>
      simp only [second (cfg := cfg) .PosOne p c 1 0 0 0 0 0 0 1 (by small), substitute]
      exact C64_identity cfg _
  · simp only [first (cfg := cfg) .PosOne x 1 0 0 0 0 0 0 1 (by small), substitute]
    exact C64_identity cfg _
  · cases x with
    | Special s =>
      cases s <;> exact two _ _ _ _ _ _ _ _ _ _ _ (by small) (by decide) (by norm_num [substitute, specialValue])
    | Other p c =>
      simp only [second (cfg := cfg) .PosOne p c 0 1 0 0 0 0 1 0 (by small), substitute]
      exact C64_identity cfg _

/-- Minus one: `x * -1` and `-1 * x` give the answers of the opposite of `x`. -/
theorem C92_minus_one (cfg : Cfg) (x : Number) :
    Like cfg (fun f => Op.product.run cfg f x (.Special .NegOne)) (opposite x) ∧
    Like cfg (fun f => Op.product.run cfg f (.Special .NegOne) x) (opposite x) := by
  simp only [Op.run]
  refine ⟨?_, ?_⟩
  · cases x with
    | Special s =>
      cases s <;> exact two _ _ _ _ _ _ _ _ _ _ _ (by small) (by decide) (by norm_num [substitute, specialValue])
    | Other p c =>
      simp only [second (cfg := cfg) .NegOne p c 1 0 0 0 0 0 0 1 (by small), substitute]
      exact C64_negation cfg _
  · simp only [first (cfg := cfg) .NegOne x 1 0 0 0 0 0 0 1 (by small), substitute]
    exact C64_negation cfg _

/-- Division into one and minus one, and by minus one, in the cases in which no symbol is read:
`1 / x` for a positive number and for one less than `-1`, `-1 / x` likewise, and `x / -1` for a
number between `-1` and `1`. -/
theorem C92_quotient (cfg : Cfg) (c : Clog) :
    Like cfg (fun f => Op.quotient.run cfg f (.Special .PosOne) (.Other none c)) (.Other (some .Turn) c) ∧
    Like cfg (fun f => Op.quotient.run cfg f (.Special .PosOne) (.Other (some .Turn) c)) (.Other none c) ∧
    Like cfg (fun f => Op.quotient.run cfg f (.Special .PosOne) (.Other (some .Ground) c))
      (.Other (some .Reflect) c) ∧
    Like cfg (fun f => Op.quotient.run cfg f (.Special .NegOne) (.Other none c))
      (.Other (some .Ground) c) ∧
    Like cfg (fun f => Op.quotient.run cfg f (.Special .NegOne) (.Other (some .Turn) c))
      (.Other (some .Reflect) c) ∧
    Like cfg (fun f => Op.quotient.run cfg f (.Special .NegOne) (.Other (some .Ground) c))
      (.Other none c) ∧
    Like cfg (fun f => Op.quotient.run cfg f (.Other none c) (.Special .NegOne))
      (.Other (some .Reflect) c) ∧
    Like cfg (fun f => Op.quotient.run cfg f (.Other (some .Reflect) c) (.Special .NegOne))
      (.Other none c) := by
  simp only [Op.run]
  refine ⟨?_, ?_, ?_, ?_, ?_, ?_, ?_, ?_⟩
  · simp only [first (cfg := cfg) .PosOne _ 0 1 0 0 0 0 1 0 (by small), substitute]
    exact (C64_reciprocal cfg c).1
  · simp only [first (cfg := cfg) .PosOne _ 0 1 0 0 0 0 1 0 (by small), substitute]
    exact (C64_reciprocal cfg c).2
  · simp only [first (cfg := cfg) .PosOne _ 0 1 0 0 0 0 1 0 (by small), substitute]
    exact ⟨_, Number.homographic_now' (by decide) (k := ⟨1, 0, 0, -1⟩) (k' := ⟨-1, 0, 0, -1⟩)
      (p' := some .Reflect) (by decide) (by decide), Coef4.Identity.same (.inr rfl) _ _⟩
  · simp only [first (cfg := cfg) .NegOne _ 0 1 0 0 0 0 1 0 (by small), substitute]
    exact ⟨_, Number.homographic_now' (by decide) (k := ⟨0, -1, 1, 0⟩) (k' := ⟨-1, 0, 0, -1⟩)
      (p' := some .Ground) (by decide) (by decide), Coef4.Identity.same (.inr rfl) _ _⟩
  · simp only [first (cfg := cfg) .NegOne _ 0 1 0 0 0 0 1 0 (by small), substitute]
    exact ⟨_, Number.homographic_now' (by decide) (k := ⟨-1, 0, 0, 1⟩) (k' := ⟨1, 0, 0, 1⟩)
      (p' := some .Reflect) (by decide) (by decide), Coef4.Identity.same (.inl rfl) _ _⟩
  · simp only [first (cfg := cfg) .NegOne _ 0 1 0 0 0 0 1 0 (by small), substitute]
    exact ⟨_, Number.homographic_now' (by decide) (k := ⟨-1, 0, 0, -1⟩) (k' := ⟨-1, 0, 0, -1⟩)
      (p' := none) (by decide) (by decide), Coef4.Identity.same (.inr rfl) _ _⟩
  · simp only [second (cfg := cfg) .NegOne none c 0 1 0 0 0 0 1 0 (by small), substitute]
    exact ⟨_, Number.homographic_now' (by decide) (k := ⟨1, 0, 0, -1⟩) (k' := ⟨-1, 0, 0, -1⟩)
      (p' := some .Reflect) (by decide) (by decide), Coef4.Identity.same (.inr rfl) _ _⟩
  · simp only [second (cfg := cfg) .NegOne (some .Reflect) c 0 1 0 0 0 0 1 0 (by small), substitute]
    exact ⟨_, Number.homographic_now' (by decide) (k := ⟨-1, 0, 0, -1⟩) (k' := ⟨-1, 0, 0, -1⟩)
      (p' := none) (by decide) (by decide), Coef4.Identity.same (.inr rfl) _ _⟩

/-! ## The remaining quotients

`x / -1` for `x > 1` and `1 / x` for `x` between -1 and 0 begin with the coefficients of `1/(-x)`.
Its value at 0 counts as positive infinity, at 1 it is -1, and `primer_egest` does not answer. -/

/-- `m/(-x)` is not decided for any `m`. -/
theorem Neutral.undecided {m : Int} (h1 : 1 ≤ m) (h2 : m ≤ cfg.imax) :
    (⟨0, m, -1, 0⟩ : Coef4).primerAttempt cfg = .ok none := by
  have hi := cfg.imin_eq
  have f0 : cfg.Fits 0 := fits1 (by decide) (by decide)
  have f1 : cfg.Fits 1 := fits1 (by decide) (by decide)
  have f1' : cfg.Fits (-1) := fits1 (by decide) (by decide)
  have fm : cfg.Fits m := ⟨by omega, h2⟩
  have fm' : cfg.Fits (-m) := ⟨by omega, by omega⟩
  have hs : m.sign = 1 := Int.sign_eq_one_of_pos (by omega)
  have hm : m ≠ 0 := by omega
  have hl : ¬ 1 ≤ -m := by omega
  have hl0 : ¬ m ≤ 0 := by omega
  simp [Coef4.primerAttempt, Coef4.areSingularitiesOutsideDomain, Coef4.isZeroOutsideDomain,
    Out.and, Out.not, Coef4.isPoleOutsideDomain, Coef4.isDomainAmenable, Coef4.primerEgest,
    Coef4.imageExtremes, Coef4.valueAtZero, Coef4.valueAtOne, Support.updatedRange,
    Support.normalise, Support.lessThan, Support.greaterThan, Support.compareReduce,
    Support.areSame, Support.isSpecial, Support.equalToZero, Support.equalToOne,
    Support.equalToMinusOne, Support.greaterThanMinusOne, Support.lessThanMinusOne,
    Support.lessThanOne, Support.greaterThanZero, Support.lessThanZero, Cfg.cadd, Cfg.cmul, Cfg.mul,
    Cfg.neg, Cfg.checked, Cfg.unchecked, f0, f1, f1', fm, fm', hs, hm, hl, hl0]

/-- As long as Amplify is read, the numerator is doubled, until it overflows. -/
theorem Neutral.doubles (i : Nat) : ∀ (j : Nat) (c c' : Clog), j + 1 + i = cfg.bits - 1 →
    Gives cfg c (List.replicate (i + 1) .Amplify) c' →
    ∃ f₀, ∀ f ≥ f₀, ∀ g ≥ f₀,
      Homographic.prime cfg (Clog.egest cfg f) g ⟨c, ⟨0, 2 ^ j, -1, 0⟩⟩ = .panic .unwrapNone := by
  have hm : cfg.imax = 2 ^ (cfg.bits - 1) - 1 := rfl
  have f0 : cfg.Fits 0 := fits1 (by decide) (by decide)
  have small : ∀ j, j + 1 ≤ cfg.bits - 1 → (1 : Int) ≤ 2 ^ j ∧ (2 : Int) ^ j ≤ cfg.imax := by
    intro j hj
    have h1 : (1 : Int) ≤ 2 ^ j := one_le_pow₀ (by norm_num)
    have h2 : (2 : Int) ^ (j + 1) ≤ 2 ^ (cfg.bits - 1) := pow_le_pow_right₀ (by norm_num) hj
    rw [pow_succ] at h2
    exact ⟨h1, by omega⟩
  induction i with
  | zero =>
    intro j c c' hj hc
    obtain ⟨d, ⟨f₀, hd⟩, -⟩ := Gives.uncons hc
    obtain ⟨h1, h2⟩ := small j (by omega)
    have nf : ¬ cfg.Fits ((2 : Int) ^ j * 2) := by
      rintro ⟨-, h⟩
      rw [← pow_succ, hm, ← hj] at h
      simp only [add_zero] at h
      omega
    refine ⟨f₀ + 1, fun f hf g hg => ?_⟩
    obtain ⟨g, rfl⟩ : ∃ i, g = i + 1 := ⟨g - 1, by omega⟩
    simp [Homographic.prime, undecided h1 h2, Homographic.primeIngest, hd f (by omega), Coef4.ingestAmplify,
      isOdd, Cfg.cmul, Cfg.checked, nf]
  | succ i ih =>
    intro j c c' hj hc
    obtain ⟨d, ⟨f₀, hd⟩, hd'⟩ := Gives.uncons hc
    obtain ⟨h1, h2⟩ := small j (by omega)
    obtain ⟨f₁, h⟩ := ih (j + 1) d c' (by omega) hd'
    have nf : cfg.Fits ((2 : Int) ^ j * 2) := by
      obtain ⟨h1, h2⟩ := small (j + 1) (by omega)
      have hi := cfg.imin_eq
      rw [← pow_succ]
      exact ⟨by omega, h2⟩
    refine ⟨f₀ + f₁ + 1, fun f hf g hg => ?_⟩
    obtain ⟨g, rfl⟩ : ∃ i, g = i + 1 := ⟨g - 1, by omega⟩
    rw [← h f (by omega) g (by omega)]
    simp [Homographic.prime, undecided h1 h2, Homographic.primeIngest, hd f (by omega), Coef4.ingestAmplify,
      isOdd, Cfg.cmul, Cfg.checked, nf, f0, pow_succ]

/-- Limit: if the clog of `x` begins with `bits - 1` times Amplify, `x / -1` for `x > 1` and `1 / x`
for `-1 < x < 0` panic, though `x * -1` and `1 / -x` do not even look at the operand. -/
theorem C92_limit (cfg : Cfg) (c c' : Clog)
    (hc : Gives cfg c (List.replicate (cfg.bits - 1) .Amplify) c') :
    Panics (fun f => Op.quotient.run cfg f (.Other (some .Turn) c) (.Special .NegOne)) .unwrapNone ∧
    Panics (fun f => Op.quotient.run cfg f (.Special .PosOne) (.Other (some .Reflect) c))
      .unwrapNone := by
  have hb := cfg.hbits
  obtain ⟨f₀, h⟩ := doubles (cfg := cfg) (cfg.bits - 2) 0 c c' (by omega)
    (by rwa [show cfg.bits - 2 + 1 = cfg.bits - 1 by omega])
  have f1' : cfg.Fits (-1) := fits1 (by decide) (by decide)
  have f0 : cfg.Fits 0 := fits1 (by decide) (by decide)
  simp only [Op.run]
  constructor
  · simp only [second (cfg := cfg) .NegOne (some .Turn) c 0 1 0 0 0 0 1 0 (by small), substitute]
    refine ⟨f₀, fun f hf => ?_⟩
    have := h f hf f hf
    simp [Number.homographic, Homographic.new, Homographic.absorbPrimer] at this ⊢
    simp [this]
  · simp only [first (cfg := cfg) .PosOne _ 0 1 0 0 0 0 1 0 (by small), substitute]
    refine ⟨f₀, fun f hf => ?_⟩
    have := h f hf f hf
    simp [Number.homographic, Homographic.new, Homographic.absorbPrimer, Cfg.neg, Cfg.unchecked, f0,
      f1'] at this ⊢
    simp [this]

/-- A clog of a small value begins with Amplify. -/
theorem Neutral.amplifies (m : Nat) : ∀ (c : Clog) (v : ℚ), Clog.Denotes cfg NoPanic c v →
    v < 1 / 2 ^ m → ∃ c', Gives cfg c (List.replicate m .Amplify) c' := by
  induction m with
  | zero => exact fun c _ _ _ => ⟨c, Gives.nil c⟩
  | succ m ih =>
    intro c v h hv
    have h2 : (2 : ℚ) * v < 1 / 2 ^ m := by
      rw [pow_succ, lt_div_iff₀ (by positivity)] at hv
      rw [lt_div_iff₀ (by positivity)]
      linarith
    have h1 : (1 : ℚ) / 2 ^ m ≤ 1 := by
      rw [div_le_one (by positivity)]
      exact one_le_pow₀ (by norm_num)
    obtain ⟨d, f₀, e, hd⟩ := h.step_returns
    rw [sym_lt (by linarith)] at e
    rw [next_lt (by linarith)] at hd
    obtain ⟨c', hc'⟩ := ih d _ hd h2
    exact ⟨c', Gives.cons ⟨f₀, e⟩ hc'⟩

/-- The same for numbers of known value: `q / -1` panics for every `q` above `2^(bits-1)`, and
`1 / q` for every `q` between `-1/2^(bits-1)` and 0. -/
theorem C92_limit_value (cfg : Cfg) (x : Number) (q : ℚ) (hx : Number.Denotes cfg NoPanic x q) :
    (2 ^ (cfg.bits - 1) < q →
      Panics (fun f => Op.quotient.run cfg f x (.Special .NegOne)) .unwrapNone) ∧
    (-(1 / 2 ^ (cfg.bits - 1)) < q → q < 0 →
      Panics (fun f => Op.quotient.run cfg f (.Special .PosOne) x) .unwrapNone) := by
  have hp : (1 : ℚ) ≤ 2 ^ (cfg.bits - 1) := one_le_pow₀ (by norm_num)
  have hp' : (1 : ℚ) / 2 ^ (cfg.bits - 1) ≤ 1 := (div_le_one (by positivity)).2 hp
  cases x with
  | Special s =>
    have e : q = specialValue s := hx
    subst e
    constructor
    · intro h
      cases s <;> simp only [specialValue] at h <;> linarith
    · intro h h'
      cases s <;> simp only [specialValue] at h h' <;> linarith
  | Other p c =>
    obtain ⟨v, hv, rfl⟩ := hx
    have v0 := hv.1
    have v1 := hv.2.1
    have i1 : 1 < 1 / v := by rwa [lt_div_iff₀ v0, one_mul]
    constructor
    · intro h
      rcases p with _ | _ | _ | _ <;> simp only [applyPrimer] at h
      · linarith
      · obtain ⟨c', hc⟩ := amplifies (cfg.bits - 1) c v hv (by
          rw [lt_div_iff₀ v0] at h
          rw [lt_div_iff₀ (by positivity)]
          linarith)
        exact (C92_limit cfg c c' hc).1
      · linarith
      · linarith
    · intro h h'
      rcases p with _ | _ | _ | _ <;> simp only [applyPrimer] at h h'
      · linarith
      · linarith
      · obtain ⟨c', hc⟩ := amplifies (cfg.bits - 1) c v hv (by linarith)
        exact (C92_limit cfg c c' hc).2
      · linarith

/-! ## Examples -/

/-- A clog whose `egest` does not return, plus 0. -/
example := C92_zero debug64 (.Other (some .Turn) (.combine
  (.homographic (.ratio ⟨3, 5⟩) ⟨0, 0, 1, 1⟩) (.homographic (.ratio ⟨3, 5⟩) ⟨0, 0, 1, 1⟩)
    ⟨0, 1, 2, 0, 0, 3, 3, 0⟩))

/-- -5/3 times 1. -/
example := C92_one release64 (.Other (some .Ground) (.ratio ⟨3, 5⟩))

/-- -1 times -1. -/
example : ∃ z, Returns (fun f => Op.product.run debug64 f (.Special .NegOne) (.Special .NegOne)) z ∧
    SameNumber debug64 (.Special .PosOne) z := (C92_minus_one debug64 (.Special .NegOne)).1

/-- 1/(-5/3) -/
example := (C92_quotient debug64 (.ratio ⟨3, 5⟩)).2.2.1

/-- `(2^64-1) / (-1)` and `1/(-1/(2^64-1))`, of `Number::ratio_u`, panic on a 64-bit machine. -/
example := C92_limit debug64 (.ratio ⟨1, 2 ^ 64 - 1⟩) (.ratio ⟨2 ^ 63, 2 ^ 64 - 1⟩)
  (FuelMono.returns (Clog.egests_mono _ _ _) 1 (by decide +kernel))

/-- The number `2^64-1` by its value. -/
example : Panics (fun f => Op.quotient.run debug64 f (.Other (some .Turn) (.ratio ⟨1, 2 ^ 64 - 1⟩))
    (.Special .NegOne)) .unwrapNone :=
  (C92_limit_value debug64 (.Other (some .Turn) (.ratio ⟨1, 2 ^ 64 - 1⟩)) (1 / (1 / (2 ^ 64 - 1))) ⟨1 / (2 ^ 64 - 1), (by
    have h := Ratio.denotes (cfg := debug64) (A := NoPanic) (r := ⟨1, 2 ^ 64 - 1⟩)
      ⟨by decide, by decide, by decide⟩
    norm_num [Ratio.val] at h ⊢
    exact h), rfl⟩).1 (by norm_num [debug64])

end Clarith
