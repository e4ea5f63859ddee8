import Verif.Properties.Combine
import Verif.Properties.Consume
import Verif.Properties.Compare

/-! # Properties of whole programs against the API (C35, C28) -/

namespace Clarith

open Out Spec

/-! ## Expressions -/

/-- A history of API calls.  `given i` is a number that the caller already holds; `rebuild e`
takes `e` apart with `consume` and puts it together again (as the tests of consume.rs do);
`reread p m e` unwraps the clog of `e`, reads `m` symbols and wraps the rest with primer `p`. -/
inductive Spec.Expr where
  | given (i : Nat)
  | ratio (num den : Int)
  | ratioU (positive : Bool) (num den : Nat)
  | homographic (e : Expr) (nx n dx d : Int)
  | combine (e e' : Expr) (nxy nx ny n dxy dx dy d : Int)
  | rebuild (e : Expr)
  | reread (p : Option Primer) (m : Nat) (e : Expr)

namespace Spec.Expr

/-- The calls made by the program. -/
def run (cfg : Cfg) (f : Nat) (env : Nat → Number) : Expr → Out Number
  | given i => pure (env i)
  | ratio num den => Number.ratio cfg num den
  | ratioU positive num den => Number.ratioU positive num den
  | homographic e nx n dx d => do
    let x ← e.run cfg f env
    Number.homographic cfg f x nx n dx d
  | combine e e' nxy nx ny n dxy dx dy d => do
    let x ← e.run cfg f env
    let y ← e'.run cfg f env
    Number.combine cfg f x y nxy nx ny n dxy dx dy d
  | rebuild e => do
    let x ← e.run cfg f env
    let r ← Number.consume cfg f x
    Spec.rebuild cfg f r
  | reread p m e => do
    let x ← e.run cfg f env
    let (_, c) ← x.unwrapOther
    let (_, c) ← Clog.egests cfg f m c
    pure (.Other p c)

/-- Every integer passed to the API is a machine integer. -/
def Machine (cfg : Cfg) : Expr → Prop
  | given _ => True
  | ratio num den => MachineInts cfg [num, den]
  | ratioU _ num den => num ≤ cfg.umax ∧ den ≤ cfg.umax
  | homographic e nx n dx d => e.Machine cfg ∧ MachineInts cfg [nx, n, dx, d]
  | combine e e' nxy nx ny n dxy dx dy d =>
    e.Machine cfg ∧ e'.Machine cfg ∧ MachineInts cfg [nxy, nx, ny, n, dxy, dx, dy, d]
  | rebuild e => e.Machine cfg
  | reread _ _ e => e.Machine cfg

/-- What is left of a number in (0,1) after `m` symbols. -/
def left : Nat → ℚ → ℚ
  | 0, x => x
  | m + 1, x => if x < 1 / 2 then left m (2 * x) else if 1 / 2 < x then left m (1 / x - 1) else x

/-- The value of the program in exact rational arithmetic; no value where a denominator is zero
or a special number is unwrapped as another. -/
inductive Value (val : Nat → ℚ) : Expr → ℚ → Prop
  | given (i : Nat) : Value val (.given i) (val i)
  | ratio {num den : Int} (h : den ≠ 0) : Value val (.ratio num den) (num / den)
  | ratioU {positive : Bool} {num den : Nat} (h : den ≠ 0) :
      Value val (.ratioU positive num den) ((if positive then 1 else -1) * ((num : ℚ) / den))
  | homographic {e : Expr} {q : ℚ} {nx n dx d : Int} (he : Value val e q)
      (hD : (dx : ℚ) * q + d ≠ 0) :
      Value val (.homographic e nx n dx d) ((nx * q + n) / (dx * q + d))
  | combine {e e' : Expr} {q r : ℚ} {nxy nx ny n dxy dx dy d : Int} (he : Value val e q)
      (he' : Value val e' r) (hD : (dxy : ℚ) * q * r + dx * q + dy * r + d ≠ 0) :
      Value val (.combine e e' nxy nx ny n dxy dx dy d)
        ((nxy * q * r + nx * q + ny * r + n) / (dxy * q * r + dx * q + dy * r + d))
  | rebuild {e : Expr} {q : ℚ} (he : Value val e q) : Value val (.rebuild e) q
  | reread {e : Expr} {p p' : Option Primer} {m : Nat} {x : ℚ} (h0 : 0 < x) (h1 : x < 1)
      (he : Value val e (applyPrimer p' x)) :
      Value val (.reread p m e) (applyPrimer p (left m x))

theorem left_eq (m : Nat) (x : ℚ) : left m x = next^[m] x := by
  induction m generalizing x with
  | zero => rfl
  | succ m ih =>
    rw [Function.iterate_succ_apply]
    unfold left
    split_ifs with h1 h2
    · rw [ih, next_lt h1]
    · rw [ih, next_gt h2]
    · have : x = 1 / 2 := le_antisymm (not_lt.1 h2) (not_lt.1 h1)
      subst this
      rw [next_half, ← ih]
      clear ih
      induction m with
      | zero => rfl
      | succ m ih => unfold left; norm_num

end Spec.Expr

/-! ## C35 Refinement -/

open Spec.Expr in
/-- In a build with overflow checks every program against the API that has a value in exact
arithmetic ends: it returns a number denoting that value, or panics with an integer overflow. -/
theorem C35_refinement (cfg : Cfg) (hc : cfg.overflowChecks = true) (env : Nat → Number)
    (val : Nat → ℚ) (henv : ∀ i, Number.Denotes cfg Overflow (env i) (val i)) (e : Expr)
    (hm : e.Machine cfg) (q : ℚ) (hv : Value val e q) :
    Ends Overflow (fun f => e.run cfg f env) (fun x => Number.Denotes cfg Overflow x q) := by
  induction hv with
  | given i => exact Ends.of_sat (Sat.pure (henv i))
  | @ratio num den h =>
    have hn : cfg.Fits num := hm _ (by simp)
    have hd : cfg.Fits den := hm _ (by simp)
    by_cases hmin : num = cfg.imin ∨ den = cfg.imin
    · simp only [run, C40_min_checked cfg hc num den hn hmin]
      exact Ends.of_sat (.inr rfl)
    · push Not at hmin
      obtain ⟨x, hx, hd⟩ := C01_ratio_exact cfg num den hn hd h fun _ => hmin
      simp only [run, hx]
      exact Ends.of_sat (hd.weaken fun _ h => h.elim)
  | @ratioU positive num den h =>
    obtain ⟨x, hx, hd⟩ := C02_ratio_u_exact cfg positive num den hm.1 hm.2 h
    simp only [run, hx]
    exact Ends.of_sat (hd.weaken fun _ h => h.elim)
  | @homographic e q nx n dx d he hD ih =>
    obtain ⟨h1, h2⟩ := hm
    refine Ends.bind (ih h1) fun x hx => ?_
    exact C16_homographic cfg hc x q hx nx n dx d (h2 _ (by simp)) (h2 _ (by simp))
      (h2 _ (by simp)) (h2 _ (by simp)) hD
  | @combine e e' q r nxy nx ny n dxy dx dy d he he' hD ih ih' =>
    obtain ⟨h1, h2, h3⟩ := hm
    refine Ends.bind (ih h1) fun x hx => Ends.bind (ih' h2) fun y hy => ?_
    exact C20_combine cfg hc x y q r hx hy nxy nx ny n dxy dx dy d h3 hD
  | @rebuild e q he ih =>
    exact Ends.bind (ih hm) fun x hx => C27_consume_rebuild cfg hc x q hx
  | @reread e p p' m x h0 h1 he ih =>
    refine Ends.bind (ih hm) fun y hy => ?_
    cases y with
    | Special s =>
      exact absurd (show applyPrimer p' x = specialValue s from hy) (applyPrimer_ne_special h0 h1)
    | Other p₁ c =>
      obtain ⟨x', hx', e'⟩ := hy
      obtain ⟨-, rfl⟩ := applyPrimer_inj h0 h1 hx'.1 hx'.2.1 e'
      simp only [Number.unwrapOther, pure_eq, ok_bind]
      refine Ends.bind (hx'.after m) fun r hr => ?_
      exact Ends.of_sat (Sat.pure ⟨_, by rw [left_eq]; exact hr.2, rfl⟩)

/-- The caller holds 3/5, and adds one half to twice that number. -/
example := C35_refinement debug64 rfl (fun _ => .Other none (.ratio ⟨3, 5⟩)) (fun _ => 3 / 5)
  (fun _ => denotes_three_fifths _ _)
  (.combine (.homographic (.given 0) 2 0 0 1) (.ratio 1 2) 0 1 1 0 0 0 0 1)
  (by simp only [Expr.Machine, MachineInts]; decide) _
  (.combine (.homographic (.given 0) (by norm_num)) (.ratio (by decide)) (by norm_num))

/-- `compare` orders the results of two programs as their values, unless one of the calls panics
with an integer overflow. -/
theorem C35_compare (cfg : Cfg) (hc : cfg.overflowChecks = true) (env : Nat → Number)
    (val : Nat → ℚ) (henv : ∀ i, Number.Denotes cfg Overflow (env i) (val i)) (e e' : Expr)
    (hm : e.Machine cfg) (hm' : e'.Machine cfg) (q q' : ℚ) (hv : e.Value val q)
    (hv' : e'.Value val q') :
    Ends Overflow (fun f => do
        let x ← e.run cfg f env
        let y ← e'.run cfg f env
        Number.compare cfg f x y)
      (fun o => (o = .lt ↔ q < q') ∧ (o = .eq ↔ q = q') ∧ (o = .gt ↔ q' < q)) :=
  Ends.bind (C35_refinement cfg hc env val henv e hm q hv) fun x hx =>
    Ends.bind (C35_refinement cfg hc env val henv e' hm' q' hv') fun y hy =>
      C13_compare cfg Overflow x y q q' hx hy

open Spec.Expr in
/-- A program that uses every constructor has a value: ((3/5 read by one symbol) with primer Turn,
rebuilt) * x + 1/y with x = 3/5 and y = -7/2. -/
example : Spec.Expr.Value (fun i => if i = 0 then 3 / 5 else -(7 / 2))
    (.combine (.rebuild (.reread (some .Turn) 1 (.ratio 3 5)))
      (.combine (.given 0) (.homographic (.given 1) 0 1 1 0) 0 1 1 0 0 0 0 1) 1 0 0 0 0 0 0 1)
    (33 / 70) := by
  have h1 := Value.rebuild (Value.reread (val := fun i => if i = 0 then (3 / 5 : ℚ) else -(7 / 2))
    (p := some .Turn) (p' := none) (m := 1) (x := 3 / 5) (by norm_num) (by norm_num)
    (e := .ratio 3 5) (by have := Value.ratio (val := fun i => if i = 0 then (3 / 5 : ℚ) else -(7 / 2))
                            (num := 3) (den := 5) (by decide)
                          simpa [applyPrimer] using this))
  have h2 := Value.homographic (nx := 0) (n := 1) (dx := 1) (d := 0)
    (Value.given (val := fun i => if i = 0 then (3 / 5 : ℚ) else -(7 / 2)) 1) (by norm_num)
  have h3 := Value.combine (nxy := 0) (nx := 1) (ny := 1) (n := 0) (dxy := 0) (dx := 0) (dy := 0)
    (d := 1) (Value.given (val := fun i => if i = 0 then (3 / 5 : ℚ) else -(7 / 2)) 0) h2 (by norm_num)
  have h4 := Value.combine (nxy := 1) (nx := 0) (ny := 0) (n := 0) (dxy := 0) (dx := 0) (dy := 0)
    (d := 1) h1 h3 (by norm_num)
  norm_num [left, applyPrimer] at h4
  exact h4

/-! ## C28 Field laws -/

/-- `x + y` -/
def Spec.plus (cfg : Cfg) (f : Nat) (x y : Number) : Out Number :=
  Number.combine cfg f x y 0 1 1 0 0 0 0 1
/-- `x - y` -/
def Spec.minus (cfg : Cfg) (f : Nat) (x y : Number) : Out Number :=
  Number.combine cfg f x y 0 1 (-1) 0 0 0 0 1
/-- `x * y` -/
def Spec.times (cfg : Cfg) (f : Nat) (x y : Number) : Out Number :=
  Number.combine cfg f x y 1 0 0 0 0 0 0 1
/-- `x / y` -/
def Spec.over (cfg : Cfg) (f : Nat) (x y : Number) : Out Number :=
  Number.combine cfg f x y 0 1 0 0 0 0 1 0

section
variable (cfg : Cfg) (hc : cfg.overflowChecks = true) (x y z : Number) (q r s : ℚ)
  (hx : Number.Denotes cfg Overflow x q) (hy : Number.Denotes cfg Overflow y r)
  (hz : Number.Denotes cfg Overflow z s)
theorem Spec.smallInts (cfg : Cfg) {a b c d e f g h : Int} (H : ∀ z ∈ [a, b, c, d, e, f, g, h], -1 ≤ z ∧ z ≤ 1) :
    MachineInts cfg [a, b, c, d, e, f, g, h] :=
  fun z hz => Cfg.small (by linarith [(H z hz).1]) (by linarith [(H z hz).2])

include hc hx hy

theorem C28_plus : Ends Overflow (fun f => plus cfg f x y)
    (fun t => Number.Denotes cfg Overflow t (q + r)) := by
  refine (C20_combine cfg hc x y q r hx hy 0 1 1 0 0 0 0 1 (smallInts cfg (by decide))
    (by norm_num)).mono fun t ht => ?_
  convert ht using 1; push_cast; ring

example := C28_plus debug64 rfl _ _ _ _ (denotes_three_fifths _ _)
  (denotes_minus_seven_halves _ _)

theorem C28_minus : Ends Overflow (fun f => minus cfg f x y)
    (fun t => Number.Denotes cfg Overflow t (q - r)) := by
  refine (C20_combine cfg hc x y q r hx hy 0 1 (-1) 0 0 0 0 1 (smallInts cfg (by decide))
    (by norm_num)).mono fun t ht => ?_
  convert ht using 1; push_cast; ring

example := C28_minus debug64 rfl _ _ _ _ (denotes_three_fifths _ _)
  (denotes_minus_seven_halves _ _)

theorem C28_times : Ends Overflow (fun f => times cfg f x y)
    (fun t => Number.Denotes cfg Overflow t (q * r)) := by
  refine (C20_combine cfg hc x y q r hx hy 1 0 0 0 0 0 0 1 (smallInts cfg (by decide))
    (by norm_num)).mono fun t ht => ?_
  convert ht using 1; push_cast; ring

example := C28_times debug64 rfl _ _ _ _ (denotes_three_fifths _ _)
  (denotes_minus_seven_halves _ _)

theorem C28_over (hr : r ≠ 0) : Ends Overflow (fun f => over cfg f x y)
    (fun t => Number.Denotes cfg Overflow t (q / r)) := by
  refine (C20_combine cfg hc x y q r hx hy 0 1 0 0 0 0 1 0 (smallInts cfg (by decide))
    (by simpa using hr)).mono fun t ht => ?_
  convert ht using 1; push_cast; ring

example := C28_over debug64 rfl _ _ _ _ (denotes_three_fifths _ _)
  (denotes_minus_seven_halves _ _) (by norm_num)

/-- `x + y = y + x` -/
theorem C28_plus_comm : Ends Overflow (fun f => do
    let a ← plus cfg f x y
    let b ← plus cfg f y x
    Number.compare cfg f a b) (· = .eq) :=
  Ends.bind (C28_plus cfg hc x y q r hx hy) fun a ha =>
    Ends.bind (C28_plus cfg hc y x r q hy hx) fun b hb =>
      (C13_compare cfg _ a b _ _ ha hb).mono fun _ h => h.2.1.2 (add_comm q r)

example := C28_plus_comm debug64 rfl _ _ _ _ (denotes_three_fifths _ _)
  (denotes_minus_seven_halves _ _)

/-- `x * y = y * x` -/
theorem C28_times_comm : Ends Overflow (fun f => do
    let a ← times cfg f x y
    let b ← times cfg f y x
    Number.compare cfg f a b) (· = .eq) :=
  Ends.bind (C28_times cfg hc x y q r hx hy) fun a ha =>
    Ends.bind (C28_times cfg hc y x r q hy hx) fun b hb =>
      (C13_compare cfg _ a b _ _ ha hb).mono fun _ h => h.2.1.2 (mul_comm q r)

example := C28_times_comm debug64 rfl _ _ _ _ (denotes_three_fifths _ _)
  (denotes_minus_seven_halves _ _)

/-- `(x - y) + y = x` -/
theorem C28_minus_plus : Ends Overflow (fun f => do
    let a ← minus cfg f x y
    let b ← plus cfg f a y
    Number.compare cfg f b x) (· = .eq) :=
  Ends.bind (C28_minus cfg hc x y q r hx hy) fun a ha =>
    Ends.bind (C28_plus cfg hc a y _ r ha hy) fun b hb =>
      (C13_compare cfg _ b x _ _ hb hx).mono fun _ h => h.2.1.2 (sub_add_cancel q r)

example := C28_minus_plus debug64 rfl _ _ _ _ (denotes_three_fifths _ _)
  (denotes_minus_seven_halves _ _)

/-- `(x / y) * y = x` for `y ≠ 0` -/
theorem C28_over_times (hr : r ≠ 0) : Ends Overflow (fun f => do
    let a ← over cfg f x y
    let b ← times cfg f a y
    Number.compare cfg f b x) (· = .eq) :=
  Ends.bind (C28_over cfg hc x y q r hx hy hr) fun a ha =>
    Ends.bind (C28_times cfg hc a y _ r ha hy) fun b hb =>
      (C13_compare cfg _ b x _ _ hb hx).mono fun _ h => h.2.1.2 (div_mul_cancel₀ q hr)

example := C28_over_times debug64 rfl _ _ _ _ (denotes_three_fifths _ _)
  (denotes_minus_seven_halves _ _) (by norm_num)

include hz

/-- `(x + y) + z = x + (y + z)` -/
theorem C28_plus_assoc : Ends Overflow (fun f => do
    let a ← plus cfg f x y
    let a ← plus cfg f a z
    let b ← plus cfg f y z
    let b ← plus cfg f x b
    Number.compare cfg f a b) (· = .eq) :=
  Ends.bind (C28_plus cfg hc x y q r hx hy) fun a ha =>
    Ends.bind (C28_plus cfg hc a z _ s ha hz) fun a ha =>
      Ends.bind (C28_plus cfg hc y z r s hy hz) fun b hb =>
        Ends.bind (C28_plus cfg hc x b q _ hx hb) fun b hb =>
          (C13_compare cfg _ a b _ _ ha hb).mono fun _ h => h.2.1.2 (add_assoc q r s)

example := C28_plus_assoc debug64 rfl _ _ (.Special .NegOne) _ _ (-1) (denotes_three_fifths _ _)
  (denotes_minus_seven_halves _ _) rfl

/-- `(x * y) * z = x * (y * z)` -/
theorem C28_times_assoc : Ends Overflow (fun f => do
    let a ← times cfg f x y
    let a ← times cfg f a z
    let b ← times cfg f y z
    let b ← times cfg f x b
    Number.compare cfg f a b) (· = .eq) :=
  Ends.bind (C28_times cfg hc x y q r hx hy) fun a ha =>
    Ends.bind (C28_times cfg hc a z _ s ha hz) fun a ha =>
      Ends.bind (C28_times cfg hc y z r s hy hz) fun b hb =>
        Ends.bind (C28_times cfg hc x b q _ hx hb) fun b hb =>
          (C13_compare cfg _ a b _ _ ha hb).mono fun _ h => h.2.1.2 (mul_assoc q r s)

example := C28_times_assoc debug64 rfl _ _ (.Special .NegOne) _ _ (-1) (denotes_three_fifths _ _)
  (denotes_minus_seven_halves _ _) rfl

/-- `x * (y + z) = x * y + x * z` -/
theorem C28_distributive : Ends Overflow (fun f => do
    let a ← plus cfg f y z
    let a ← times cfg f x a
    let b ← times cfg f x y
    let c ← times cfg f x z
    let b ← plus cfg f b c
    Number.compare cfg f a b) (· = .eq) :=
  Ends.bind (C28_plus cfg hc y z r s hy hz) fun a ha =>
    Ends.bind (C28_times cfg hc x a q _ hx ha) fun a ha =>
      Ends.bind (C28_times cfg hc x y q r hx hy) fun b hb =>
        Ends.bind (C28_times cfg hc x z q s hx hz) fun c hc' =>
          Ends.bind (C28_plus cfg hc b c _ _ hb hc') fun b hb =>
            (C13_compare cfg _ a b _ _ ha hb).mono fun _ h => h.2.1.2 (mul_add q r s)

example := C28_distributive debug64 rfl _ _ (.Special .NegOne) _ _ (-1) (denotes_three_fifths _ _)
  (denotes_minus_seven_halves _ _) rfl

end

example : Number.Denotes debug64 Overflow (.Other none (.ratio ⟨3, 5⟩)) (3 / 5) ∧
    Number.Denotes debug64 Overflow (.Other (some .Ground) (.ratio ⟨2, 7⟩)) (-7 / 2) ∧
    Number.Denotes debug64 Overflow (.Special .NegOne) (-1) :=
  ⟨denotes_three_fifths _ _, denotes_minus_seven_halves _ _, rfl⟩

/-- The sum 3/5 + (-7/2), computed by the model, is equal to -29/10 and did not overflow. -/
example : (do
    let a ← plus debug64 20 (.Other none (.ratio ⟨3, 5⟩)) (.Other (some .Ground) (.ratio ⟨2, 7⟩))
    let b ← Number.ratio debug64 (-29) 10
    Number.compare debug64 20 a b) = .ok .eq := by decide +kernel

end Clarith
