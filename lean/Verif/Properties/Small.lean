import Verif.Properties.History
import Verif.Properties.Length
import Verif.Properties.Compare

/-! # Programs on small fractions never panic (C47) -/

namespace Clarith

open Out Spec

/-- `q` is a fraction of integers below `2^b` in magnitude. -/
def Spec.SmallFraction (b : Nat) (q : ℚ) : Prop :=
  ∃ num den : Int, den ≠ 0 ∧ |num| < 2 ^ b ∧ |den| < 2 ^ b ∧ q = num / den

/-- The numbers in the program are small: no argument of `ratio` is `isize::MIN`, and at every call
of `homographic` or `combine` the operands are fractions of integers below `2^b`, and the
coefficients at most `M` in magnitude, for a `b` and `M` that are small for the machine; what
`consume` takes apart is a fraction of integers below `2^b` too. -/
def Spec.Expr.Small (cfg : Cfg) (val : Nat → ℚ) : Expr → Prop
  | .given _ => True
  | .ratio num den => |num| ≤ cfg.imax ∧ |den| ≤ cfg.imax
  | .ratioU _ num den => num ≤ cfg.umax ∧ den ≤ cfg.umax
  | .homographic e nx n dx d => e.Small cfg val ∧ ∃ b M,
      (∀ z ∈ [nx, n, dx, d], |z| ≤ M) ∧ (∀ q, Value val e q → SmallFraction b q) ∧
      (M * 2 ^ (longest b - 1 + 1)) ^ 2 ≤ cfg.imax
  | .combine e e' nxy nx ny n dxy dx dy d => e.Small cfg val ∧ e'.Small cfg val ∧ ∃ b b' M,
      (∀ z ∈ [nxy, nx, ny, n, dxy, dx, dy, d], |z| ≤ M) ∧
      (∀ q, Value val e q → SmallFraction b q) ∧ (∀ q, Value val e' q → SmallFraction b' q) ∧
      (M * 2 ^ (longest b - 1 + (longest b' - 1) + 3)) ^ 2 ≤ cfg.imax
  | .rebuild e => e.Small cfg val ∧ ∃ b, (∀ q, Value val e q → SmallFraction b q) ∧
      2 ^ (longest b - 1 + 3) ≤ cfg.imax
  | .reread _ _ e => e.Small cfg val

theorem Spec.SmallFraction.count {b : Nat} {q : ℚ} (h : SmallFraction b q) :
    SymbolCount q (longest b - 1) := by
  obtain ⟨num, den, h0, h1, h2, rfl⟩ := h
  exact (C45_symbol_count b num den h0 h1.le h2.le).2 h1.ne h2.ne

open Spec.Expr in
/-- In every build, a program whose numbers are small and that has a value in
exact arithmetic returns a number denoting exactly that value: it never panics, and no later `egest`
on the result does. -/
theorem C47_small_programs (cfg : Cfg) (env : Nat → Number) (val : Nat → ℚ)
    (henv : ∀ i, Number.Denotes cfg NoPanic (env i) (val i)) (e : Expr) (hs : e.Small cfg val)
    (q : ℚ) (hv : Value val e q) : ∃ x, Returns (fun f => e.run cfg f env) x ∧ Number.Denotes cfg NoPanic x q := by
  suffices h : Ends NoPanic (fun f => e.run cfg f env) (fun x => Number.Denotes cfg NoPanic x q) by
    rcases h with h | ⟨_, _, hp⟩
    · exact h
    · exact hp.elim
  induction hv with
  | given i => exact Ends.of_sat (Sat.pure (henv i))
  | @ratio num den h =>
    have hi := cfg.imin_eq
    obtain ⟨a1, a2⟩ := abs_le.1 hs.1
    obtain ⟨a3, a4⟩ := abs_le.1 hs.2
    obtain ⟨x, e1, hx⟩ := C01_ratio_exact cfg num den ⟨by omega, a2⟩ ⟨by omega, a4⟩ h
      fun _ => ⟨by omega, by omega⟩
    simp only [run, e1]
    exact Ends.of_sat (Sat.pure hx)
  | @ratioU positive num den h =>
    obtain ⟨x, e1, hx⟩ := C02_ratio_u_exact cfg positive num den hs.1 hs.2 h
    simp only [run, e1]
    exact Ends.of_sat (Sat.pure hx)
  | @homographic e q nx n dx d he hD ih =>
    obtain ⟨hs, b, M, hk, hq, hM⟩ := hs
    refine Ends.bind (ih hs) fun x hx => ?_
    obtain ⟨r, hr, hd⟩ := C31_safe_size cfg x q hx _ (hq q he).count M nx n dx d
      (hk _ (by simp)) (hk _ (by simp)) (hk _ (by simp)) (hk _ (by simp)) hM hD
    exact .inl ⟨r, hr, hd⟩
  | @combine e e' q r nxy nx ny n dxy dx dy d he he' hD ih ih' =>
    obtain ⟨hs, hs', b, b', M, hk, hq, hq', hM⟩ := hs
    refine Ends.bind (ih hs) fun x hx => Ends.bind (ih' hs') fun y hy => ?_
    obtain ⟨t, ht, hd⟩ := C42_safe_size cfg x y q r hx hy _ _ (hq q he).count (hq' r he').count M
      nxy nx ny n dxy dx dy d hk hM hD
    exact .inl ⟨t, ht, hd⟩
  | @rebuild e q he ih =>
    obtain ⟨hs, b, hq, hM⟩ := hs
    refine Ends.bind (ih hs) fun x hx => ?_
    obtain ⟨k, hk⟩ := C26_consume_all cfg x q hx _ (hq q he).count hM
    obtain ⟨r, hr, hd⟩ := C27_consume_rebuild_exact cfg x q hx k hk
    refine Ends.bind (Q := fun t => t = (none, k)) (.inl ⟨_, hk, rfl⟩) ?_
    rintro _ rfl
    simp only [hr]
    exact Ends.of_sat hd
  | @reread e p p' m x h0 h1 he ih =>
    refine Ends.bind (ih hs) fun y hy => ?_
    cases y with
    | Special s =>
      exact absurd (show applyPrimer p' x = specialValue s from hy) (applyPrimer_ne_special h0 h1)
    | Other p₁ c =>
      obtain ⟨x', hx', e'⟩ := hy
      obtain ⟨-, rfl⟩ := applyPrimer_inj h0 h1 hx'.1 hx'.2.1 e'
      simp only [Number.unwrapOther, pure_eq, ok_bind]
      refine Ends.bind (hx'.after m) fun r hr => ?_
      exact Ends.of_sat (Sat.pure ⟨_, by rw [left_eq]; exact hr.2, rfl⟩)

/-- The values of the program `rebuild ((2 * (1/3) + 1) / 2) - 3/4` meet the hypotheses on 64 bits,
in a debug and in a release build. -/
example (checks : Bool) := C47_small_programs ⟨64, by decide, checks⟩
  (fun _ => .Other none (.ratio ⟨3, 5⟩)) (fun _ => 3 / 5) (fun _ => denotes_three_fifths _ _)
  (.combine (.rebuild (.homographic (.ratio 1 3) 2 1 0 2)) (.ratio 3 4) 0 1 (-1) 0 0 0 0 1)
  ⟨⟨⟨(by decide : |(1 : Int)| ≤ 2 ^ 63 - 1 ∧ |(3 : Int)| ≤ 2 ^ 63 - 1), 2, 2, by decide,
      by rintro _ ⟨⟩; exact ⟨1, 3, by decide, by decide, by decide, rfl⟩,
      (by decide : ((2 : Int) * 2 ^ (longest 2 - 1 + 1)) ^ 2 ≤ 2 ^ 63 - 1)⟩, 3,
      by
        intro _ h; cases h with | homographic h _ => cases h with
          | ratio _ => exact ⟨5, 6, by decide, by decide, by decide, by norm_num⟩,
      (by decide : (2 : Int) ^ (longest 3 - 1 + 3) ≤ 2 ^ 63 - 1)⟩,
    (by decide : |(3 : Int)| ≤ 2 ^ 63 - 1 ∧ |(4 : Int)| ≤ 2 ^ 63 - 1), 3, 3, 1, by decide,
    by
      intro _ h; cases h with | rebuild h => cases h with | homographic h _ => cases h with
        | ratio _ => exact ⟨5, 6, by decide, by decide, by decide, by norm_num⟩,
    by rintro _ ⟨⟩; exact ⟨3, 4, by decide, by decide, by decide, by norm_num⟩,
    (by decide : ((1 : Int) * 2 ^ (longest 3 - 1 + (longest 3 - 1) + 3)) ^ 2 ≤ 2 ^ 63 - 1)⟩ _
  (.combine (.rebuild (.homographic (.ratio (by decide)) (by norm_num))) (.ratio (by decide))
    (by norm_num))

/-- The results of two such programs compare, without panic, as their values do. -/
theorem C47_small_compare (cfg : Cfg) (env : Nat → Number) (val : Nat → ℚ)
    (henv : ∀ i, Number.Denotes cfg NoPanic (env i) (val i)) (e e' : Expr) (hs : e.Small cfg val)
    (hs' : e'.Small cfg val) (q q' : ℚ) (hv : Expr.Value val e q) (hv' : Expr.Value val e' q') :
    Returns (fun f => do Number.compare cfg f (← e.run cfg f env) (← e'.run cfg f env))
      (order q q') := by
  obtain ⟨x, hx, dx⟩ := C47_small_programs cfg env val henv e hs q hv
  obtain ⟨y, hy, dy⟩ := C47_small_programs cfg env val henv e' hs' q' hv'
  have h : Ends NoPanic
      (fun f => do Number.compare cfg f (← e.run cfg f env) (← e'.run cfg f env))
      (fun o => o = order q q') := by
    refine Ends.bind (Q := fun t => t = x) (.inl ⟨_, hx, rfl⟩) ?_
    rintro _ rfl
    refine Ends.bind (Q := fun t => t = y) (.inl ⟨_, hy, rfl⟩) ?_
    rintro _ rfl
    refine (C13_compare cfg NoPanic _ _ _ _ dx dy).mono fun o ⟨l1, l2, l3⟩ => ?_
    unfold order
    split_ifs with g1 g2
    · exact l1.2 g1
    · exact l2.2 g2
    · exact l3.2 (lt_of_le_of_ne (not_lt.1 g1) (Ne.symm g2))
  rcases h with ⟨o, ho, rfl⟩ | ⟨_, _, hp⟩
  · exact ho
  · exact hp.elim

/-- Doubling 1/3 and comparing with 3/4. -/
example (checks : Bool) := C47_small_compare ⟨64, by decide, checks⟩
  (fun _ => .Other none (.ratio ⟨3, 5⟩)) (fun _ => 3 / 5) (fun _ => denotes_three_fifths _ _)
  (.homographic (.ratio 1 3) 2 0 0 1) (.ratio 3 4)
  ⟨(by decide : |(1 : Int)| ≤ 2 ^ 63 - 1 ∧ |(3 : Int)| ≤ 2 ^ 63 - 1), 2, 2, by decide,
    by rintro _ ⟨⟩; exact ⟨1, 3, by decide, by decide, by decide, rfl⟩,
    (by decide : ((2 : Int) * 2 ^ (longest 2 - 1 + 1)) ^ 2 ≤ 2 ^ 63 - 1)⟩
  (by decide : |(3 : Int)| ≤ 2 ^ 63 - 1 ∧ |(4 : Int)| ≤ 2 ^ 63 - 1) _ _
  (.homographic (.ratio (by decide)) (by norm_num)) (.ratio (by decide))

/-- The four operations on two fractions of integers below `2^b`: exact and without panic, in every
build, for `b` up to 2 on 16 bits, 3 on 32 bits and 4 on 64 bits. -/
theorem C47_four_operations (cfg : Cfg) (b : Nat)
    (hb : ((2 : Int) ^ (2 * (longest b - 1) + 3)) ^ 2 ≤ cfg.imax) (x y : Number) (q r : ℚ)
    (hx : Number.Denotes cfg NoPanic x q) (hy : Number.Denotes cfg NoPanic y r)
    (hq : SmallFraction b q) (hr : SmallFraction b r) :
    (∃ t, Returns (fun f => plus cfg f x y) t ∧ Number.Denotes cfg NoPanic t (q + r)) ∧
    (∃ t, Returns (fun f => minus cfg f x y) t ∧ Number.Denotes cfg NoPanic t (q - r)) ∧
    (∃ t, Returns (fun f => times cfg f x y) t ∧ Number.Denotes cfg NoPanic t (q * r)) ∧
    (r ≠ 0 → ∃ t, Returns (fun f => over cfg f x y) t ∧ Number.Denotes cfg NoPanic t (q / r)) := by
  have key := C42_safe_size cfg x y q r hx hy _ _ hq.count hr.count 1
  have hM : (1 * (2 : Int) ^ (longest b - 1 + (longest b - 1) + 3)) ^ 2 ≤ cfg.imax := by
    rw [one_mul, ← two_mul]; exact hb
  refine ⟨?_, ?_, ?_, fun h0 => ?_⟩
  · obtain ⟨t, ht, h⟩ := key 0 1 1 0 0 0 0 1 (by decide) hM (by norm_num)
    exact ⟨t, ht, by convert h using 1; push_cast; ring⟩
  · obtain ⟨t, ht, h⟩ := key 0 1 (-1) 0 0 0 0 1 (by decide) hM (by norm_num)
    exact ⟨t, ht, by convert h using 1; push_cast; ring⟩
  · obtain ⟨t, ht, h⟩ := key 1 0 0 0 0 0 0 1 (by decide) hM (by norm_num)
    exact ⟨t, ht, by convert h using 1; push_cast; ring⟩
  · obtain ⟨t, ht, h⟩ := key 0 1 0 0 0 0 1 0 (by decide) hM (by simpa using h0)
    exact ⟨t, ht, by convert h using 1; push_cast; ring⟩

/-- 3/5 and -7/2 on a 32 bit machine; the sizes on 16 and 64 bits. -/
example (checks : Bool) := C47_four_operations ⟨32, by decide, checks⟩ 3
  (by decide : ((2 : Int) ^ (2 * (longest 3 - 1) + 3)) ^ 2 ≤ 2 ^ 31 - 1) _ _ _ _
  (denotes_three_fifths _ _) (denotes_minus_seven_halves _ _)
  ⟨3, 5, by decide, by decide, by decide, by norm_num⟩
  ⟨-7, 2, by decide, by decide, by decide, by norm_num⟩
example : ((2 : Int) ^ (2 * (longest 2 - 1) + 3)) ^ 2 ≤ 2 ^ 15 - 1 ∧
    ((2 : Int) ^ (2 * (longest 4 - 1) + 3)) ^ 2 ≤ 2 ^ 63 - 1 := by decide

/-- The call returns a number, and reading its symbols panics with an overflow. -/
def Spec.PanicsLater (cfg : Cfg) (m : Nat → Out Number) : Prop :=
  ∃ p c k, Returns m (.Other p c) ∧ Panics (fun f => Clog.egests cfg f k c) .unwrapNone

/-- Twice or four times these sizes is too much: 1/7 + 6/7 panics on 16 bits, 1/15 + 15 on 32 bits
(when its symbols are read), 1/63 + 62/63, 127 / 127 and (when the symbols are read) 127 - 95 and
127 * 127 on 64 bits. -/
theorem C47_limit :
    Panics (fun f => plus ⟨16, by decide, true⟩ f (.Other none (.ratio ⟨1, 7⟩))
      (.Other none (.ratio ⟨6, 7⟩))) .unwrapNone ∧
    PanicsLater ⟨32, by decide, true⟩ (fun f => plus ⟨32, by decide, true⟩ f
      (.Other none (.ratio ⟨1, 15⟩)) (.Other (some .Turn) (.ratio ⟨1, 15⟩))) ∧
    Panics (fun f => plus debug64 f (.Other none (.ratio ⟨1, 63⟩))
      (.Other none (.ratio ⟨62, 63⟩))) .unwrapNone ∧
    Panics (fun f => over debug64 f (.Other (some .Turn) (.ratio ⟨1, 127⟩))
      (.Other (some .Turn) (.ratio ⟨1, 127⟩))) .unwrapNone ∧
    PanicsLater debug64 (fun f => minus debug64 f (.Other (some .Turn) (.ratio ⟨1, 127⟩))
      (.Other (some .Turn) (.ratio ⟨1, 95⟩))) ∧
    PanicsLater debug64 (fun f => times debug64 f (.Other (some .Turn) (.ratio ⟨1, 127⟩))
      (.Other (some .Turn) (.ratio ⟨1, 127⟩))) := by
  have later {cfg : Cfg} {x y : Number} {a b c d e g h i : Int} (p : Option Primer) (r : Clog)
      (k : Nat) (h1 : Number.combine cfg 100 x y a b c d e g h i = .ok (.Other p r))
      (h2 : Clog.egests cfg 100 k r = .panic .unwrapNone) :
      PanicsLater cfg (fun f => Number.combine cfg f x y a b c d e g h i) :=
    ⟨p, r, k, FuelMono.returns (Number.combine_mono _ _ _ _ _ _ _ _ _ _ _) 100 h1,
      FuelMono.panics (Clog.egests_mono _ _ _) 100 h2⟩
  exact ⟨FuelMono.panics (Number.combine_mono _ _ _ _ _ _ _ _ _ _ _) 100 (by decide +kernel),
    later (some .Turn) (.combine (.ratio ⟨7, 8⟩) (.ratio ⟨7, 8⟩) ⟨0, 8, 0, 8, 64, 64, 64, 65⟩) 8
      (by decide +kernel) (by decide +kernel),
    FuelMono.panics (Number.combine_mono _ _ _ _ _ _ _ _ _ _ _) 100 (by decide +kernel),
    FuelMono.panics (Number.combine_mono _ _ _ _ _ _ _ _ _ _ _) 100 (by decide +kernel),
    later (some .Turn) (.combine (.ratio ⟨2, 63⟩) (.ratio ⟨1, 31⟩) ⟨1, 1, 2, 2, 0, -32, 128, 64⟩) 5
      (by decide +kernel) (by decide +kernel),
    later (some .Turn) (.combine (.ratio ⟨63, 64⟩) (.ratio ⟨63, 64⟩)
      ⟨0, 0, 0, 1, 4096, 4096, 4096, 4096⟩) 38 (by decide +kernel) (by decide +kernel)⟩

end Clarith
