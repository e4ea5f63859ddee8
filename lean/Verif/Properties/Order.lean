import Verif.Properties.Beyond
import Verif.Properties.Compare
import Verif.Properties.History

/-! # C69 Order laws through the API

`compare` and the arithmetic of `combine` and `homographic` fit together as in an ordered field.
Every law is given twice: for numbers that denote a fraction, where the calls end, and for numbers
that follow an element of any ordered field (the reals, for instance), where they may run on.

src/lib.rs:79-171, src/compare.rs:246-361 -/

namespace Clarith
open Spec

/-- An answer of `compare` is the order of `p` and `q`. -/
def Spec.Says {K : Type} [LT K] (o : Ordering) (p q : K) : Prop :=
  (o = .lt ↔ p < q) ∧ (o = .eq ↔ p = q) ∧ (o = .gt ↔ q < p)

section
variable {K : Type} [Field K] [LinearOrder K] [IsStrictOrderedRing K]

theorem Spec.Says.cases {o : Ordering} {p q : K} (h : Says o p q) :
    o = .lt ∧ p < q ∨ o = .eq ∧ p = q ∨ o = .gt ∧ q < p := by
  cases o
  · exact .inl ⟨rfl, h.1.1 rfl⟩
  · exact .inr (.inl ⟨rfl, h.2.1.1 rfl⟩)
  · exact .inr (.inr ⟨rfl, h.2.2.1 rfl⟩)

theorem Spec.Says.same {o o' : Ordering} {p q p' q' : K} (h : Says o p q) (h' : Says o' p' q')
    (hl : p < q → p' < q') (he : p = q → p' = q') (hg : q < p → q' < p') : o' = o := by
  rcases h.cases with ⟨rfl, e⟩ | ⟨rfl, e⟩ | ⟨rfl, e⟩
  · exact h'.1.2 (hl e)
  · exact h'.2.1.2 (he e)
  · exact h'.2.2.2 (hg e)

theorem Spec.Says.swap {o : Ordering} {p q : K} (h : Says o p q) : Says o.swap q p := by
  rcases h.cases with ⟨rfl, e⟩ | ⟨rfl, e⟩ | ⟨rfl, e⟩
  · simp [Says, Ordering.swap, e, e.le, e.ne']
  · simp [Says, Ordering.swap, e]
  · simp [Says, Ordering.swap, e, e.le, e.ne]

/-- The order of two values of a map `(nx*x+n)/(dx*x+d)`: by the sign of its determinant and of the
denominators. -/
theorem Spec.map_sub (nx n dx d q r : K) (hq : dx * q + d ≠ 0) (hr : dx * r + d ≠ 0) :
    (nx * q + n) / (dx * q + d) - (nx * r + n) / (dx * r + d) =
      (nx * d - n * dx) * (q - r) / ((dx * q + d) * (dx * r + d)) := by
  rw [div_sub_div _ _ hq hr]
  congr 1
  ring

theorem Spec.map_lt {nx n dx d q r : K} (hq : dx * q + d ≠ 0) (hr : dx * r + d ≠ 0)
    (h : 0 < (nx * d - n * dx) * (dx * q + d) * (dx * r + d)) (hqr : q < r) :
    (nx * q + n) / (dx * q + d) < (nx * r + n) / (dx * r + d) := by
  rw [← sub_pos, map_sub _ _ _ _ _ _ hr hq]
  have h1 : 0 < (dx * q + d) ^ 2 * (dx * r + d) ^ 2 := by positivity
  have e : (nx * d - n * dx) * (r - q) / ((dx * r + d) * (dx * q + d)) =
      ((nx * d - n * dx) * (dx * q + d) * (dx * r + d)) * (r - q) /
        ((dx * q + d) ^ 2 * (dx * r + d) ^ 2) := by
    field_simp
  rw [e]
  exact div_pos (mul_pos h (sub_pos.2 hqr)) h1

theorem Spec.map_const {nx n dx d q r : K} (hq : dx * q + d ≠ 0) (hr : dx * r + d ≠ 0)
    (h : nx * d - n * dx = 0) : (nx * q + n) / (dx * q + d) = (nx * r + n) / (dx * r + d) := by
  rw [← sub_eq_zero, map_sub _ _ _ _ _ _ hq hr, h]
  simp

/-- What the sign of `s` makes of an answer of `compare`. -/
def Spec.bySign {K : Type} [LT K] [Zero K] [DecidableLT K] (s : K) (o : Ordering) : Ordering :=
  if 0 < s then o else if s < 0 then o.swap else .eq

theorem Spec.Says.times {o o' : Ordering} {p q s : K} (h : Says o p q)
    (h' : Says o' (p * s) (q * s)) : o' = bySign s o := by
  unfold bySign
  rcases lt_trichotomy s 0 with hs | hs | hs
  · rw [if_neg hs.not_gt, if_pos hs]
    exact h.swap.same h' (fun e => mul_lt_mul_of_neg_right e hs) (fun e => by rw [e])
      (fun e => mul_lt_mul_of_neg_right e hs)
  · rw [if_neg (by simp [hs]), if_neg (by simp [hs])]
    exact h'.2.1.2 (by simp [hs])
  · rw [if_pos hs]
    exact h.same h' (fun e => mul_lt_mul_of_pos_right e hs) (fun e => by rw [e])
      (fun e => mul_lt_mul_of_pos_right e hs)

theorem Spec.Says.map {o o' : Ordering} {nx n dx d q r : K} (hq : dx * q + d ≠ 0)
    (hr : dx * r + d ≠ 0) (h : Says o q r)
    (h' : Says o' ((nx * q + n) / (dx * q + d)) ((nx * r + n) / (dx * r + d))) :
    o' = bySign ((nx * d - n * dx) * (dx * q + d) * (dx * r + d)) o := by
  unfold bySign
  have e1 : (nx * d - n * dx) * (dx * q + d) * (dx * r + d) =
      (nx * d - n * dx) * (dx * r + d) * (dx * q + d) := by ring
  have neg : ∀ {u v : K}, dx * u + d ≠ 0 → dx * v + d ≠ 0 →
      (nx * d - n * dx) * (dx * u + d) * (dx * v + d) < 0 → u < v →
      (nx * v + n) / (dx * v + d) < (nx * u + n) / (dx * u + d) := by
    intro u v hu hv hs huv
    have := map_lt (nx := -nx) (n := -n) hu hv (by linarith) huv
    rw [← neg_lt_neg_iff]
    convert this using 1 <;> ring
  rcases lt_trichotomy ((nx * d - n * dx) * (dx * q + d) * (dx * r + d)) 0 with hs | hs | hs
  · rw [if_neg hs.not_gt, if_pos hs]
    exact h.swap.same h' (fun e => neg hr hq (e1 ▸ hs) e) (fun e => by rw [e])
      (fun e => neg hq hr hs e)
  · rw [if_neg (by simp [hs]), if_neg (by simp [hs])]
    exact h'.2.1.2 (map_const hq hr (by simpa [hq, hr] using hs))
  · rw [if_pos hs]
    exact h.same h' (fun e => map_lt hq hr hs e) (fun e => by rw [e])
      (fun e => map_lt hr hq (e1 ▸ hs) e)

end

/-- `(x + y) / 2` -/
def Spec.mean (cfg : Cfg) (f : Nat) (x y : Number) : Out Number :=
  Number.combine cfg f x y 0 1 1 0 0 0 0 2

theorem May.mono {α : Type} {A : Panic → Prop} {m : Nat → Out α} {P Q : α → Prop} (h : May A m P)
    (hpq : ∀ a, P a → Q a) : May A m Q := fun f => ⟨fun a ha => hpq a ((h f).1 a ha), (h f).2⟩

theorem May.bind {α β : Type} {A : Panic → Prop} {m : Nat → Out α} {g : Nat → α → Out β}
    {P : α → Prop} {Q : β → Prop} (h : May A m P) (hg : ∀ a, P a → May A (fun f => g f a) Q) :
    May A (fun f => m f >>= g f) Q := by
  rw [may_iff] at h ⊢
  exact fun f => (h f).bind fun a ha => (may_iff.1 (hg a ha)) f

theorem May.pure {α : Type} {A : Panic → Prop} {a : α} {P : α → Prop} (h : P a) :
    May A (fun _ => Pure.pure a) P := fun _ => ⟨fun _ e => by cases e; exact h, nofun⟩

theorem Ends.pure {α : Type} {A : Panic → Prop} {a : α} {P : α → Prop} (h : P a) :
    Ends A (fun _ => Pure.pure a) P := .inl ⟨a, ⟨0, fun _ _ => rfl⟩, h⟩

/-! ### Fractions -/

section
variable (cfg : Cfg) (hc : cfg.overflowChecks = true) (x y z : Number) (q r s : ℚ)
  (hx : Number.Denotes cfg Overflow x q) (hy : Number.Denotes cfg Overflow y r)
  (hz : Number.Denotes cfg Overflow z s)
include hc hx hy

/-- `x` and `y` compare as `x - y` and 0. -/
theorem C69_difference : Ends Overflow (fun f => do
    let o ← Number.compare cfg f x y
    let a ← minus cfg f x y
    let o' ← Number.compare cfg f a (.Special .Zero)
    pure (o, o')) (fun o => o.2 = o.1) :=
  Ends.bind (C13_compare cfg _ x y _ _ hx hy) fun _ (ho : Says _ q r) =>
    Ends.bind (C28_minus cfg hc x y q r hx hy) fun a ha =>
      Ends.bind (C13_compare cfg _ a (.Special .Zero) _ 0 ha rfl) fun _ (ho' : Says _ (q - r) 0) =>
        Ends.pure (ho.same ho' sub_neg.2 sub_eq_zero.2 sub_pos.2)

example := C69_difference debug64 rfl _ _ _ _ (denotes_three_fifths _ _)
  (denotes_minus_seven_halves _ _)

/-- The mean of two numbers lies between them. -/
theorem C69_mean : Ends Overflow (fun f => do
    let o ← Number.compare cfg f x y
    let m ← mean cfg f x y
    let o1 ← Number.compare cfg f x m
    let o2 ← Number.compare cfg f m y
    pure (o, o1, o2)) (fun o => o.2.1 = o.1 ∧ o.2.2 = o.1) :=
  Ends.bind (C13_compare cfg _ x y _ _ hx hy) fun _ (ho : Says _ q r) =>
    Ends.bind ((C20_combine cfg hc x y q r hx hy 0 1 1 0 0 0 0 2
      (fun z hz => Cfg.small (by revert z; decide) (by revert z; decide))
      (by norm_num)).mono (Q := fun t => Number.Denotes cfg Overflow t ((q + r) / 2))
        fun t ht => by convert ht using 1; push_cast; ring) fun m hm =>
      Ends.bind (C13_compare cfg _ x m _ _ hx hm) fun _ (h1 : Says _ q ((q + r) / 2)) =>
        Ends.bind (C13_compare cfg _ m y _ _ hm hy) fun _ (h2 : Says _ ((q + r) / 2) r) =>
          Ends.pure ⟨ho.same h1 (fun _ => by linarith) (fun _ => by linarith) (fun _ => by linarith),
            ho.same h2 (fun _ => by linarith) (fun _ => by linarith) (fun _ => by linarith)⟩

example := C69_mean debug64 rfl _ _ _ _ (denotes_three_fifths _ _)
  (denotes_minus_seven_halves _ _)

/-- A homographic map keeps the order, reverses it, or makes everything equal, by the sign of its
determinant and of the two denominators. -/
theorem C69_homographic (nx n dx d : Int) (h1 : cfg.Fits nx) (h2 : cfg.Fits n) (h3 : cfg.Fits dx)
    (h4 : cfg.Fits d) (hq : (dx : ℚ) * q + d ≠ 0) (hr : (dx : ℚ) * r + d ≠ 0) :
    Ends Overflow (fun f => do
      let o ← Number.compare cfg f x y
      let a ← Number.homographic cfg f x nx n dx d
      let b ← Number.homographic cfg f y nx n dx d
      let o' ← Number.compare cfg f a b
      pure (o, o'))
      (fun o => o.2 = bySign (((nx : ℚ) * d - n * dx) * (dx * q + d) * (dx * r + d)) o.1) :=
  Ends.bind (C13_compare cfg _ x y _ _ hx hy) fun _ (ho : Says _ q r) =>
    Ends.bind (C16_homographic cfg hc x q hx nx n dx d h1 h2 h3 h4 hq) fun a ha =>
      Ends.bind (C16_homographic cfg hc y r hy nx n dx d h1 h2 h3 h4 hr) fun b hb =>
        Ends.bind (C13_compare cfg _ a b _ _ ha hb) fun _ ho' =>
          Ends.pure (ho.map hq hr ho')

/-- `(2x-1)/(x+1)` at 3/5 and -7/2, which lie on different sides of the pole. -/
example := C69_homographic debug64 rfl _ _ _ _ (denotes_three_fifths _ _)
  (denotes_minus_seven_halves _ _) 2 (-1) 1 1 (by decide) (by decide) (by decide) (by decide)
  (by norm_num) (by norm_num)

include hz

/-- Adding a number keeps the order. -/
theorem C69_plus : Ends Overflow (fun f => do
    let o ← Number.compare cfg f x y
    let a ← plus cfg f x z
    let b ← plus cfg f y z
    let o' ← Number.compare cfg f a b
    pure (o, o')) (fun o => o.2 = o.1) :=
  Ends.bind (C13_compare cfg _ x y _ _ hx hy) fun _ (ho : Says _ q r) =>
    Ends.bind (C28_plus cfg hc x z q s hx hz) fun a ha =>
      Ends.bind (C28_plus cfg hc y z r s hy hz) fun b hb =>
        Ends.bind (C13_compare cfg _ a b _ _ ha hb) fun _ (ho' : Says _ (q + s) (r + s)) =>
          Ends.pure (ho.same ho' (fun _ => by linarith) (fun _ => by linarith)
            (fun _ => by linarith))

example := C69_plus debug64 rfl _ _ (.Special .NegOne) _ _ (-1) (denotes_three_fifths _ _)
  (denotes_minus_seven_halves _ _) rfl

/-- Multiplying by a number keeps the order, reverses it, or makes everything equal, by what
`compare` says of that number and 0. -/
theorem C69_times : Ends Overflow (fun f => do
    let o ← Number.compare cfg f x y
    let t ← Number.compare cfg f z (.Special .Zero)
    let a ← times cfg f x z
    let b ← times cfg f y z
    let o' ← Number.compare cfg f a b
    pure (t, o, o'))
    (fun o => o.2.2 = match o.1 with | .gt => o.2.1 | .eq => .eq | .lt => o.2.1.swap) :=
  Ends.bind (C13_compare cfg _ x y _ _ hx hy) fun _ (ho : Says _ q r) =>
    Ends.bind (C13_compare cfg _ z (.Special .Zero) s 0 hz rfl) fun _ (ht : Says _ s 0) =>
      Ends.bind (C28_times cfg hc x z q s hx hz) fun a ha =>
        Ends.bind (C28_times cfg hc y z r s hy hz) fun b hb =>
          Ends.bind (C13_compare cfg _ a b _ _ ha hb) fun _ ho' =>
            Ends.pure (by
              have e := ho.times ho'
              rcases ht.cases with ⟨rfl, h⟩ | ⟨rfl, h⟩ | ⟨rfl, h⟩ <;>
                simp [e, bySign, h, h.not_gt])

example := C69_times debug64 rfl _ _ (.Special .NegOne) _ _ (-1) (denotes_three_fifths _ _)
  (denotes_minus_seven_halves _ _) rfl

end

/-! ### Any ordered field -/

section
variable {K : Type} [Field K] [LinearOrder K] [IsStrictOrderedRing K]
variable (cfg : Cfg) (hc : cfg.overflowChecks = true) (A : Panic → Prop)
  (hA : ∀ p, Overflow p → A p) (x y z : Number) (q r s : K)
  (hx : Number.Follows cfg A x q) (hy : Number.Follows cfg A y r) (hz : Number.Follows cfg A z s)
include hc hA hx hy

theorem C69_field_difference : May A (fun f => do
    let o ← Number.compare cfg f x y
    let a ← minus cfg f x y
    let o' ← Number.compare cfg f a (.Special .Zero)
    pure (o, o')) (fun o => o.2 = o.1) :=
  May.bind (C54_compare cfg _ x y _ _ hx hy) fun _ (ho : Says _ q r) =>
    May.bind (C54_combine cfg hc A hA x y q r hx hy 0 1 (-1) 0 0 0 0 1 (smallInts cfg (by decide))
      (by norm_num)) fun a ha =>
      May.bind (C54_compare cfg _ a (.Special .Zero) _ (0 : K) ha rfl) fun _ ho' =>
        May.pure (ho.same ho' (fun _ => by norm_num; linarith) (fun _ => by norm_num; linarith)
          (fun _ => by norm_num; linarith))

theorem C69_field_mean : May A (fun f => do
    let o ← Number.compare cfg f x y
    let m ← mean cfg f x y
    let o1 ← Number.compare cfg f x m
    let o2 ← Number.compare cfg f m y
    pure (o, o1, o2)) (fun o => o.2.1 = o.1 ∧ o.2.2 = o.1) :=
  May.bind (C54_compare cfg _ x y _ _ hx hy) fun _ (ho : Says _ q r) =>
    May.bind ((C54_combine cfg hc A hA x y q r hx hy 0 1 1 0 0 0 0 2
      (fun z hz => Cfg.small (by revert z; decide) (by revert z; decide))
      (by norm_num)).mono (Q := fun t => Number.Follows cfg A t ((q + r) / 2))
        fun t ht => by convert ht using 1; push_cast; ring) fun m hm =>
      May.bind (C54_compare cfg _ x m _ _ hx hm) fun _ (h1 : Says _ q ((q + r) / 2)) =>
        May.bind (C54_compare cfg _ m y _ _ hm hy) fun _ (h2 : Says _ ((q + r) / 2) r) =>
          May.pure ⟨ho.same h1 (fun _ => by linarith) (fun _ => by linarith) (fun _ => by linarith),
            ho.same h2 (fun _ => by linarith) (fun _ => by linarith) (fun _ => by linarith)⟩

theorem C69_field_homographic (nx n dx d : Int) (h1 : cfg.Fits nx) (h2 : cfg.Fits n)
    (h3 : cfg.Fits dx) (h4 : cfg.Fits d) (hq : (dx : K) * q + d ≠ 0) (hr : (dx : K) * r + d ≠ 0) :
    May A (fun f => do
      let o ← Number.compare cfg f x y
      let a ← Number.homographic cfg f x nx n dx d
      let b ← Number.homographic cfg f y nx n dx d
      let o' ← Number.compare cfg f a b
      pure (o, o'))
      (fun o => o.2 = bySign (((nx : K) * d - n * dx) * (dx * q + d) * (dx * r + d)) o.1) :=
  May.bind (C54_compare cfg _ x y _ _ hx hy) fun _ (ho : Says _ q r) =>
    May.bind (C54_homographic cfg hc A hA x q hx nx n dx d h1 h2 h3 h4 hq) fun a ha =>
      May.bind (C54_homographic cfg hc A hA y r hy nx n dx d h1 h2 h3 h4 hr) fun b hb =>
        May.bind (C54_compare cfg _ a b _ _ ha hb) fun _ ho' =>
          May.pure (ho.map hq hr ho')

include hz

theorem C69_field_plus : May A (fun f => do
    let o ← Number.compare cfg f x y
    let a ← plus cfg f x z
    let b ← plus cfg f y z
    let o' ← Number.compare cfg f a b
    pure (o, o')) (fun o => o.2 = o.1) :=
  May.bind (C54_compare cfg _ x y _ _ hx hy) fun _ (ho : Says _ q r) =>
    May.bind (C54_combine cfg hc A hA x z q s hx hz 0 1 1 0 0 0 0 1 (smallInts cfg (by decide))
      (by norm_num)) fun a ha =>
      May.bind (C54_combine cfg hc A hA y z r s hy hz 0 1 1 0 0 0 0 1 (smallInts cfg (by decide))
        (by norm_num)) fun b hb =>
        May.bind (C54_compare cfg _ a b _ _ ha hb) fun _ ho' =>
          May.pure (ho.same ho' (fun _ => by norm_num; linarith) (fun _ => by norm_num; linarith)
            (fun _ => by norm_num; linarith))

theorem C69_field_times : May A (fun f => do
    let o ← Number.compare cfg f x y
    let t ← Number.compare cfg f z (.Special .Zero)
    let a ← times cfg f x z
    let b ← times cfg f y z
    let o' ← Number.compare cfg f a b
    pure (t, o, o'))
    (fun o => o.2.2 = match o.1 with | .gt => o.2.1 | .eq => .eq | .lt => o.2.1.swap) :=
  May.bind (C54_compare cfg _ x y _ _ hx hy) fun _ (ho : Says _ q r) =>
    May.bind (C54_compare cfg _ z (.Special .Zero) s (0 : K) hz rfl) fun _ (ht : Says _ s 0) =>
      May.bind ((C54_combine cfg hc A hA x z q s hx hz 1 0 0 0 0 0 0 1 (smallInts cfg (by decide))
        (by norm_num)).mono (Q := fun t => Number.Follows cfg A t (q * s))
          fun t ht => by convert ht using 1; push_cast; ring) fun a ha =>
        May.bind ((C54_combine cfg hc A hA y z r s hy hz 1 0 0 0 0 0 0 1
          (smallInts cfg (by decide)) (by norm_num)).mono
            (Q := fun t => Number.Follows cfg A t (r * s))
            fun t ht => by convert ht using 1; push_cast; ring) fun b hb =>
          May.bind (C54_compare cfg _ a b _ _ ha hb) fun _ ho' =>
            May.pure (by
              have e := ho.times ho'
              rcases ht.cases with ⟨rfl, h⟩ | ⟨rfl, h⟩ | ⟨rfl, h⟩ <;>
                simp [e, bySign, h, h.not_gt])

end

/-- ω and -7/2, and -1 as the third number. -/
example := C69_field_difference debug64 rfl OverflowOrDivision Overflow.or_division _ _ _ _
  boundless_follows (denotes_minus_seven_halves _ _).follows
example := C69_field_mean debug64 rfl OverflowOrDivision Overflow.or_division _ _ _ _
  boundless_follows (denotes_minus_seven_halves _ _).follows
example := C69_field_plus debug64 rfl OverflowOrDivision Overflow.or_division _ _
  (.Special .NegOne) _ _ _ boundless_follows (denotes_minus_seven_halves _ _).follows rfl
example := C69_field_times debug64 rfl OverflowOrDivision Overflow.or_division _ _
  (.Special .NegOne) _ _ _ boundless_follows (denotes_minus_seven_halves _ _).follows rfl
example := C69_field_homographic debug64 rfl OverflowOrDivision Overflow.or_division _ _ _ _
  boundless_follows (denotes_minus_seven_halves _ _).follows 2 (-1) 0 3
  (by decide) (by decide) (by decide) (by decide) (by norm_num) (by norm_num)

end Clarith
