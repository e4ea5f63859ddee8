import Verif.Properties.Homographic
import Verif.Proofs.Fuel
import Verif.Proofs.AddOne

/-! # What `Number::homographic` does not do (C32, C34) -/

namespace Clarith

open Spec

/-! ## C32 `homographic` is not total -/

/-- What the caller of src/strategy/homographic.rs:741-749 (test `add_does_not_overflow1`, ignored
as "issue #2") does: `ratio(isize::MAX, 1) + 1`, then reading symbols. -/
def Spec.maxPlusOne (cfg : Cfg) (f k : Nat) : Out (List (Option Reduction) × Clog) := do
  let x ← Number.ratio cfg cfg.imax 1
  let y ← Number.homographic cfg f x 1 1 0 1
  let (_, c) ← y.unwrapOther
  Clog.egests cfg f k c

theorem Spec.maxPlusOne_mono (cfg : Cfg) (k : Nat) : FuelMono fun f => maxPlusOne cfg f k := by
  intro f f' hf
  refine Out.Le.bind_right fun x => Out.Le.bind (Number.homographic_le hf ..) fun y => ?_
  exact Out.Le.bind_right fun r => Clog.egests_le hf k r.2

/-- Adding one to any number above `2^(bits-2)`: the result is made, and its first `bits-2` symbols
can be read, but reading one more panics with an overflow, in every build. -/
theorem C32_add_one (cfg : Cfg) (x : Number) (q : ℚ) (hx : Number.Denotes cfg NoPanic x q)
    (hq : 2 ^ (cfg.bits - 2) < q) :
    ∃ c, Returns (fun f => Number.homographic cfg f x 1 1 0 1) (.Other (some .Turn) c) ∧
      (∃ c', Returns (fun f => Clog.egests cfg f (cfg.bits - 2) c)
        (List.replicate (cfg.bits - 2) (some .Amplify), c')) ∧
      Panics (fun f => Clog.egests cfg f (cfg.bits - 1) c) .unwrapNone := by
  have hp : (1 : ℚ) ≤ 2 ^ (cfg.bits - 2) := one_le_pow₀ (by norm_num)
  cases x with
  | Special s =>
    exfalso
    obtain rfl : q = specialValue s := hx
    cases s <;> simp only [specialValue] at hq <;> linarith
  | Other p c =>
    obtain ⟨v, hv, rfl⟩ := hx
    have hv0 := hv.1
    have hv1 := hv.2.1
    have h1 : 0 < 1 / v := one_div_pos.2 hv0
    rcases p with _ | _ | _ | _ <;> simp only [applyPrimer] at hq
    · exfalso; linarith
    · obtain ⟨r, hr, rfl⟩ := (Number.homographic_now (cfg := cfg) (A := NoPanic) (c := c)
        (nx := 1) (n := 1) (dx := 0) (d := 1) (p := some .Turn)
        (p' := some .Turn) (k' := ⟨1, 0, 1, 1⟩) (k := ⟨1, 1, 1, 0⟩)
        (by decide) (by decide) (by decide)).returns
      refine ⟨_, hr, Homographic.egests_sum_first hv ?_⟩
      rwa [lt_div_iff₀ (by linarith), mul_comm, ← lt_div_iff₀ hv0]
    · exfalso; linarith
    · exfalso; linarith

theorem Spec.maxPlusOne_eq (cfg : Cfg) :
    ∃ x, Number.ratio cfg cfg.imax 1 = .ok x ∧ Number.Denotes cfg NoPanic x (cfg.imax / 1) ∧
      (2 : ℚ) ^ (cfg.bits - 2) < cfg.imax / 1 := by
  have hb := cfg.hbits
  have hm := cfg.imax_ge
  have hi := cfg.imin_eq
  obtain ⟨x, e, h⟩ := Number.ratio_denotes (cfg := cfg) (A := NoPanic) (num := cfg.imax) (den := 1)
    one_ne_zero ⟨by omega, le_rfl⟩ ⟨by omega, by omega⟩ (fun _ => ⟨by omega, by omega⟩)
  refine ⟨x, e, by simpa using h, ?_⟩
  have h2 : (2 : Int) ^ (cfg.bits - 1) = 2 * 2 ^ (cfg.bits - 2) := by
    rw [show cfg.bits - 1 = cfg.bits - 2 + 1 by omega, pow_succ]; ring
  have h3 : (2 : Int) ^ 14 ≤ 2 ^ (cfg.bits - 2) := pow_le_pow_right₀ (by norm_num) (by omega)
  have h4 : (2 : Int) ^ (cfg.bits - 2) < cfg.imax := by
    simp only [Cfg.imax]
    omega
  rw [div_one]
  exact_mod_cast h4

/-- The expectation that `homographic` on a fraction of machine integers, away from poles, never
panics is false of the code: on every machine, in every build, `ratio(isize::MAX, 1) + 1` panics
with an overflow when the last of its first `bits-1` symbols is read (the 63rd on a 64 bit
machine). -/
theorem C32_not_total (cfg : Cfg) :
    Panics (fun f => maxPlusOne cfg f (cfg.bits - 1)) .unwrapNone := by
  obtain ⟨x, e, hx, hq⟩ := maxPlusOne_eq cfg
  obtain ⟨c, ⟨f1, h1⟩, -, f2, h2⟩ := C32_add_one cfg x _ hx hq
  refine ⟨max f1 f2, fun f hf => ?_⟩
  simp only at h1 h2 ⊢
  simp only [maxPlusOne, e, Out.ok_bind, h1 f (by omega), Number.unwrapOther, Out.pure_eq,
    h2 f (by omega)]

/-- The symbols before are read. -/
theorem C32_before_the_overflow (cfg : Cfg) :
    ∃ c, Returns (fun f => maxPlusOne cfg f (cfg.bits - 2))
      (List.replicate (cfg.bits - 2) (some .Amplify), c) := by
  obtain ⟨x, e, hx, hq⟩ := maxPlusOne_eq cfg
  obtain ⟨c, ⟨f1, h1⟩, ⟨c', f2, h2⟩, -⟩ := C32_add_one cfg x _ hx hq
  refine ⟨c', max f1 f2, fun f hf => ?_⟩
  simp only at h1 h2 ⊢
  simp only [maxPlusOne, e, Out.ok_bind, h1 f (by omega), Number.unwrapOther, Out.pure_eq,
    h2 f (by omega)]

/-- At `ratio(isize::MAX, 1)` on a 64 bit machine, where it is the 63rd symbol. -/
example : ∃ x q, Number.Denotes debug64 NoPanic x q ∧ 2 ^ 62 < q ∧ debug64.bits - 1 = 63 := by
  obtain ⟨x, -, hx, hq⟩ := maxPlusOne_eq debug64
  exact ⟨x, _, hx, hq, rfl⟩

/-- Test: the number left after 62 symbols. -/
example : maxPlusOne debug64 100 62 = .ok (List.replicate 62 (some .Amplify),
    .homographic (.ratio ⟨4611686018427387904, 9223372036854775807⟩)
      ⟨4611686018427387904, 0, 1, 4611686018427387904⟩) := by
  decide +kernel

/-! ## C34 A release build can be silently wrong -/

/-- Two denotations of a clog that never panics are equal. -/
theorem Clog.Denotes.value_unique {cfg : Cfg} {A : Panic → Prop} {c : Clog} {x y : ℚ}
    (h : Clog.Denotes cfg NoPanic c x) (h' : Clog.Denotes cfg A c y) : x = y := by
  obtain ⟨l, hl⟩ := exists_expands x h.1 h.2.1
  have key : ∀ k, symbols k x = symbols k y := fun k => by
    obtain ⟨c', hr⟩ := h.returns k
    exact (h'.2.2 k).of_returns hr
  clear h
  have hy := And.intro h'.1 h'.2.1
  clear h'
  induction hl generalizing y with
  | half =>
    have := key 1
    simp only [symbols_succ, sym_half] at this
    have := (List.cons.inj this).1
    exact (sym_eq_none.1 this.symm).symm
  | @amplify x l h0 h1 h ih =>
    have k1 := fun k => key (k + 1)
    simp only [symbols_succ, sym_lt h1, next_lt h1] at k1
    have hy1 : y < 1 / 2 := sym_eq_amplify.1 (List.cons.inj (k1 0)).1.symm
    have := ih (y := 2 * y) (fun k => by
      have := (List.cons.inj (k1 k)).2
      rwa [next_lt hy1] at this) ⟨by linarith [hy.1], by linarith⟩
    linarith
  | @uncover x l h0 h1 h ih =>
    have k1 := fun k => key (k + 1)
    simp only [symbols_succ, sym_gt h0, next_gt h0] at k1
    have hy1 : 1 / 2 < y := sym_eq_uncover.1 (List.cons.inj (k1 0)).1.symm
    have hm := next_mem hy.1 hy.2
    rw [next_gt hy1] at hm
    have := ih (y := 1 / y - 1) (fun k => by
      have := (List.cons.inj (k1 k)).2
      rwa [next_gt hy1] at this) hm
    have h2 : 1 / x = 1 / y := by linarith
    rw [one_div, one_div] at h2
    exact inv_injective h2

/-- A number that never panics denotes at most one value. -/
theorem Number.Denotes.value_unique {cfg : Cfg} {A : Panic → Prop} {n : Number} {q r : ℚ}
    (h : Number.Denotes cfg NoPanic n q) (h' : Number.Denotes cfg A n r) : q = r := by
  cases n with
  | Special s => rw [show q = _ from h, show r = _ from h']
  | Other p c =>
    obtain ⟨x, hx, rfl⟩ := h
    obtain ⟨y, hy, rfl⟩ := h'
    rw [hx.value_unique hy]

/-- The expectation that a build without overflow checks never returns a wrong value is false of
the code: `homographic(-1/2, isize::MIN, 0, 0, 1)` should be `2^62`, but the release build returns
a number denoting `-2^62`, without any panic.  (The debug build panics.) -/
theorem C34_release_wrong :
    ∃ x r, Number.ratio release64 (-1) 2 = .ok x ∧
      Number.Denotes release64 NoPanic x (-1 / 2) ∧
      Returns (fun f => Number.homographic release64 f x release64.imin 0 0 1) r ∧
      Number.Denotes release64 NoPanic r (-2 ^ 62) ∧
      ((release64.imin : ℚ) * (-1 / 2) + (0 : Int)) / ((0 : Int) * (-1 / 2) + (1 : Int)) = 2 ^ 62 ∧
      ¬Number.Denotes release64 NoPanic r (2 ^ 62) ∧
      Panics (fun f => Number.homographic debug64 f x debug64.imin 0 0 1) .arithOverflow := by
  have e := release64.imin_eq
  have hr : Number.Denotes release64 NoPanic
      (.Other (some .Ground) (.ratio ⟨1, 4611686018427387904⟩)) (-2 ^ 62) := by
    refine ⟨1 / 2 ^ 62, ?_, by norm_num [applyPrimer]⟩
    have := Ratio.denotes (cfg := release64) (A := NoPanic) (r := ⟨1, 4611686018427387904⟩)
      ⟨by decide, by decide, by decide⟩
    norm_num [Ratio.val] at this ⊢
    exact this
  refine ⟨_, .Other (some .Ground) (.ratio ⟨1, 4611686018427387904⟩),
    show _ = Out.ok (Number.Other (some .Reflect) (.ratio ⟨1, 2⟩)) by decide, ?_,
    FuelMono.returns (Number.homographic_mono release64 _ _ _ _ _) 5 (by decide +kernel), hr, ?_, ?_,
    FuelMono.panics (Number.homographic_mono debug64 _ _ _ _ _) 5 (by decide +kernel)⟩
  · refine ⟨1 / 2, ?_, by norm_num [applyPrimer]⟩
    have := Ratio.denotes (cfg := release64) (A := NoPanic) (r := ⟨1, 2⟩)
      ⟨by decide, by decide, by decide⟩
    simpa [Ratio.val] using this
  · have : release64.imin = -9223372036854775808 := by decide
    rw [this]; norm_num
  · intro h
    have := hr.value_unique h
    norm_num at this

/-- Keeping `isize::MIN` out of the arguments does not help: `homographic(1/3, 2, 0, -1, -isize::MAX)`
is negative, but the release build returns a number without primer, which is positive, without any
panic at the construction or at the first 50 reads.  (The debug build panics.) -/
theorem C34_release_wrong_without_min :
    ∃ x c, Number.ratio release64 1 3 = .ok x ∧ Number.Denotes release64 NoPanic x (1 / 3) ∧
      Returns (fun f => Number.homographic release64 f x 2 0 (-1) (-release64.imax))
        (.Other none c) ∧
      (∃ c', Returns (fun f => Clog.egests release64 f 50 c)
        (List.replicate 50 (some .Amplify), c')) ∧
      ((2 : Int) * (1 / 3 : ℚ) + (0 : Int)) / ((-1 : Int) * (1 / 3) + (-release64.imax : Int)) < 0 ∧
      (∀ A v, Number.Denotes release64 A (.Other none c) v → 0 < v) ∧
      Panics (fun f => Number.homographic debug64 f x 2 0 (-1) (-debug64.imax)) .arithOverflow := by
  refine ⟨.Other none (.ratio ⟨1, 3⟩),
    .homographic (.ratio ⟨1, 3⟩) ⟨2, 0, -1, -9223372036854775807⟩, by decide, ?_,
    FuelMono.returns (Number.homographic_mono release64 _ _ _ _ _) 5 (by decide +kernel),
    ⟨.homographic (.ratio ⟨1, 3⟩) ⟨2251799813685248, 0, -1, -9223372036854775807⟩,
      FuelMono.returns (fun _ _ hf => Clog.egests_le hf 50 _) 100 (by decide +kernel)⟩, ?_, ?_,
    FuelMono.panics (Number.homographic_mono debug64 _ _ _ _ _) 5 (by decide +kernel)⟩
  · refine ⟨1 / 3, ?_, by norm_num [applyPrimer]⟩
    have := Ratio.denotes (cfg := release64) (A := NoPanic) (r := ⟨1, 3⟩)
      ⟨by decide, by decide, by decide⟩
    simpa [Ratio.val] using this
  · have : release64.imax = 9223372036854775807 := by decide
    rw [this]; norm_num
  · rintro A v ⟨x, hx, rfl⟩
    exact hx.1

/-- In a build without overflow checks the panics "logic error" can be reached by reading, although every
argument is at most `isize::MAX / 2 + 1` in magnitude: `homographic(-3, 2^62, 0, 0, -1)`.  (The debug build panics
with an overflow.) -/
theorem C34_release_logic_error :
    ∃ x c, Number.ratio release64 (-3) 1 = .ok x ∧ Number.Denotes release64 NoPanic x (-3) ∧
      Returns (fun f => Number.homographic release64 f x (2 ^ 62) 0 0 (-1)) (.Other (some .Ground) c) ∧
      Panics (fun f => Clog.egests release64 f 2 c) .logicError ∧
      Panics (fun f => Number.homographic debug64 f x (2 ^ 62) 0 0 (-1)) .arithOverflow := by
  refine ⟨.Other (some .Ground) (.ratio ⟨1, 3⟩),
    .homographic (.ratio ⟨2, 3⟩) ⟨1, 0, 0, -9223372036854775808⟩, by decide, ?_,
    FuelMono.returns (Number.homographic_mono release64 _ _ _ _ _) 5 (by decide +kernel),
    FuelMono.panics (fun _ _ hf => Clog.egests_le hf 2 _) 50 (by decide +kernel),
    FuelMono.panics (Number.homographic_mono debug64 _ _ _ _ _) 5 (by decide +kernel)⟩
  refine ⟨1 / 3, ?_, by norm_num [applyPrimer]⟩
  have := Ratio.denotes (cfg := release64) (A := NoPanic) (r := ⟨1, 3⟩)
    ⟨by decide, by decide, by decide⟩
  simpa [Ratio.val] using this

end Clarith
