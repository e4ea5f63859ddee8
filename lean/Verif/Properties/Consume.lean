import Verif.Proofs.Consume
import Verif.Proofs.Fuel
import Verif.Properties.Homographic

/-! # Properties of `Number::consume` (C24-C27) -/

namespace Clarith

open Spec Out

/-- The value of `(ny*y+n)/(dy*y+d)`, where a missing `y` counts as one half, is `q`. -/
def Spec.Stands (cfg : Cfg) (A : Panic → Prop) (y : Option Number) (k : Coef4) (q : ℚ) : Prop :=
  ∃ v : ℚ, (match y with
    | none => v = 1 / 2
    | some y => Number.Denotes cfg A y v) ∧
    (k.dx : ℚ) * v + k.d ≠ 0 ∧ (k.nx * v + k.n) / (k.dx * v + k.d) = q

theorem Consume.below_small {cfg : Cfg} (k : Coef4) (h : |k.nx| ≤ 1) (h1 : |k.n| ≤ 1)
    (h2 : |k.dx| ≤ 1) (h3 : |k.d| ≤ 1) : Consume.Below (Consume.lim cfg) k := by
  have := Consume.lim_bounds cfg
  exact ⟨by omega, by omega, by omega, by omega⟩

/-- Everything `consume` promises, used for the four properties below. -/
def Number.Consumed (cfg : Cfg) (A : Panic → Prop) (x : Number) (q : ℚ)
    (r : Option Number × Coef4) : Prop :=
  Stands cfg A r.1 r.2 q ∧ Consume.Below (2 * Consume.lim cfg) r.2 ∧
  (match r.1 with
  | none => Consume.Below (Consume.lim cfg) r.2 ∧
      ((∃ s, x = .Special s) ∨ ∃ p c m rs c', x = .Other p c ∧
        Returns (fun f => Clog.egests cfg f m c) (rs ++ [none], c'))
  | some y => ¬Consume.Below (Consume.lim cfg) r.2 ∧
      ∃ p c m rs c', x = .Other p c ∧ y = .Other none c' ∧
        Returns (fun f => Clog.egests cfg f m c) (rs, c'))

theorem Number.consume_ends (cfg : Cfg) (A : Panic → Prop) (x : Number) (q : ℚ)
    (hx : Number.Denotes cfg A x q) :
    Ends A (fun f => Number.consume cfg f x) (Number.Consumed cfg A x q) := by
  have hlim := Consume.lim_bounds cfg
  have grow : ∀ {k}, Consume.Below (Consume.lim cfg) k → Consume.Below (2 * Consume.lim cfg) k :=
    fun ⟨a, b, c, d⟩ => ⟨by omega, by omega, by omega, by omega⟩
  cases x with
  | Special s =>
    obtain rfl : q = specialValue s := hx
    have hb : ∀ n : Int, |n| ≤ 1 → Consume.Below (Consume.lim cfg) ⟨0, n, 0, 1⟩ := fun n hn =>
      Consume.below_small _ (by simp) hn (by simp) (by simp)
    have key : ∀ n : Int, |n| ≤ 1 → (n : ℚ) = specialValue s →
        Number.consume cfg 0 (.Special s) = .ok (none, ⟨0, n, 0, 1⟩) →
        Ends A (fun f => Number.consume cfg f (.Special s))
          (Number.Consumed cfg A (.Special s) (specialValue s)) := fun n hn he hc =>
      .inl ⟨_, FuelMono.returns (Number.consume_mono _ _) 0 hc,
        ⟨1 / 2, rfl, by norm_num, by simpa using he⟩, grow (hb n hn), hb n hn, .inl ⟨_, rfl⟩⟩
    cases s
    · exact key (-1) (by simp) (by simp [specialValue]) rfl
    · exact key 0 (by simp) (by simp [specialValue]) rfl
    · exact key 1 (by simp) (by simp [specialValue]) rfl
  | Other p c =>
    obtain ⟨v, hv, rfl⟩ := hx
    obtain ⟨l, hl⟩ := exists_expands v hv.1 hv.2.1
    simp only [Number.consume, Consume.new]
    refine Ends.bind (Q := fun r => Consume.Post cfg A c (applyPrimer p v) r) ?_ ?_
    · refine Ends.bind (Ends.of_sat (Consume.start_sat hv.1)) ?_
      rintro k ⟨⟨b1, b2, b3, b4⟩, hD, hw⟩
      have hb : Consume.Below (Consume.lim cfg) k := ⟨by omega, by omega, by omega, by omega⟩
      exact (Consume.consume_ev hv hl hb hD hw).ends
    · rintro ⟨_ | y, k⟩ hp
      · obtain ⟨p1, p2, p3, m, rs, c', p4⟩ := hp
        exact Ends.of_sat (Sat.pure ⟨⟨1 / 2, rfl, p2, p3⟩, grow p1, p1,
          .inr ⟨p, c, m, rs, c', rfl, p4⟩⟩)
      · obtain ⟨p1, p2, v, p3, p4, p5, m, rs, p6⟩ := hp
        exact Ends.of_sat (Sat.pure ⟨⟨v, ⟨v, p3, rfl⟩, p4, p5⟩, p1, p2,
          p, c, m, rs, y, rfl, rfl, p6⟩)

/-- A number with few symbols is read completely. -/
theorem Number.consume_all (cfg : Cfg) (A : Panic → Prop) (x : Number) (q : ℚ)
    (hx : Number.Denotes cfg A x q) (L : Nat) (hL : SymbolCount q L)
    (hM : 2 ^ (L + 3) ≤ cfg.imax) :
    Ends A (fun f => Number.consume cfg f x) (fun r => r.1 = none) := by
  have hlim : 2 * 2 ^ L ≤ Consume.lim cfg := by
    unfold Consume.lim
    rw [Int.tdiv_eq_ediv_of_nonneg (by have := cfg.imax_ge; omega)]
    rw [pow_add] at hM
    omega
  cases x with
  | Special s =>
    obtain ⟨r, hr⟩ : ∃ k, ∀ f, Number.consume cfg f (.Special s) = .ok (none, k) := by
      cases s <;> exact ⟨_, fun _ => rfl⟩
    simp only [hr]
    exact Ends.of_sat rfl
  | Other p c =>
    obtain ⟨v, l, hv, hl, hlen, _⟩ := hx.in_count hL
    simp only [Number.consume, Consume.new]
    refine Ends.bind (Q := fun r => r.1 = none) ?_ ?_
    · refine Ends.bind (Ends.of_sat (Consume.start_sat hv.1)) ?_
      rintro k ⟨hb, hD, hw⟩
      refine (Consume.consume_all_ev hv hl hb ?_ hD).ends
      have : (2 : Int) ^ l.length ≤ 2 ^ L := pow_le_pow_right₀ (by norm_num) hlen
      omega
    · rintro ⟨_, k⟩ rfl
      exact Ends.of_sat (Sat.pure rfl)

/-! ## C24 `consume` preserves the value -/

/-- For every number denoting `q`, in every build, `consume` ends and its result stands for `q`
(or an `egest` of the input panics). -/
theorem C24_consume_value (cfg : Cfg) (A : Panic → Prop) (x : Number) (q : ℚ)
    (hx : Number.Denotes cfg A x q) :
    Ends A (fun f => Number.consume cfg f x) (fun r => Stands cfg A r.1 r.2 q) :=
  (Number.consume_ends cfg A x q hx).mono fun _ h => h.1

example : Number.Denotes release64 NoPanic (.Other none (.ratio ⟨3, 5⟩)) (3 / 5) :=
  denotes_three_fifths _ _

/-! ## C25 `consume` never overflows -/

/-- If no `egest` of the input panics, `consume` does not panic, in any build, and the
coefficients it returns are below `isize::MAX / 2` in magnitude. -/
theorem C25_consume_no_overflow (cfg : Cfg) (x : Number) (q : ℚ)
    (hx : Number.Denotes cfg NoPanic x q) :
    ∃ y k, Returns (fun f => Number.consume cfg f x) (y, k) ∧
      2 * |k.nx| < cfg.imax ∧ 2 * |k.n| < cfg.imax ∧ 2 * |k.dx| < cfg.imax ∧
      2 * |k.d| < cfg.imax := by
  have hlim := Consume.lim_bounds cfg
  rcases Number.consume_ends cfg NoPanic x q hx with ⟨⟨y, k⟩, hr, _, ⟨a, b, c, d⟩, _⟩ | ⟨_, _, hp⟩
  · simp only at a b c d
    exact ⟨y, k, hr, by omega, by omega, by omega, by omega⟩
  · exact hp.elim

/-- At 3/5. -/
example := C25_consume_no_overflow release64 _ _ (denotes_three_fifths _ _)

/-- Panics of `consume` are panics of the input's `egest`: if those are all in `A`, so is a
panic of `consume`. -/
theorem C25_consume_panics_of_input (cfg : Cfg) (A : Panic → Prop) (x : Number) (q : ℚ)
    (hx : Number.Denotes cfg A x q) (p : Panic)
    (hp : Panics (fun f => Number.consume cfg f x) p) : A p :=
  (Number.consume_ends cfg A x q hx).of_panic hp

example : Number.Denotes debug64 NoPanic (.Other none (.ratio ⟨3, 5⟩)) (3 / 5) :=
  denotes_three_fifths _ _

/-! ## C26 Why `consume` stops -/

/-- `None` for `y` means that the input is special, or that its clog has been read up to and
including the final `None`.  `Some(y)` means that some coefficient has reached
`isize::MAX / 4`, and `y` is exactly the clog left after the symbols read so far. -/
theorem C26_consume_stops (cfg : Cfg) (A : Panic → Prop) (x : Number) (q : ℚ)
    (hx : Number.Denotes cfg A x q) (y : Option Number) (k : Coef4)
    (hr : Returns (fun f => Number.consume cfg f x) (y, k)) :
    (y = none → (∃ s, x = .Special s) ∨ ∃ p c m rs c', x = .Other p c ∧
      Returns (fun f => Clog.egests cfg f m c) (rs ++ [none], c')) ∧
    (∀ n, y = some n →
      (cfg.imax.tdiv 4 ≤ |k.nx| ∨ cfg.imax.tdiv 4 ≤ |k.n| ∨ cfg.imax.tdiv 4 ≤ |k.dx| ∨
        cfg.imax.tdiv 4 ≤ |k.d|) ∧
      ∃ p c m rs c', x = .Other p c ∧ n = .Other none c' ∧
        Returns (fun f => Clog.egests cfg f m c) (rs, c')) := by
  obtain ⟨_, _, h⟩ := (Number.consume_ends cfg A x q hx).of_returns hr
  constructor
  · rintro rfl
    exact h.2
  · rintro n rfl
    obtain ⟨h1, h2⟩ := h
    refine ⟨?_, h2⟩
    by_contra hc
    push Not at hc
    exact h1 hc

example : Returns (fun f => Number.consume debug64 f (.Other none (.ratio ⟨3, 5⟩)))
    (none, ⟨1, 1, 1, 2⟩) :=
  FuelMono.returns (Number.consume_mono _ _) 5 (by decide +kernel)

/-- If the number has at most `L` symbols and `2^(L+3)` is a machine integer, everything is read:
no number is left over. -/
theorem C26_consume_all (cfg : Cfg) (x : Number) (q : ℚ) (hx : Number.Denotes cfg NoPanic x q)
    (L : Nat) (hL : SymbolCount q L) (hM : 2 ^ (L + 3) ≤ cfg.imax) :
    ∃ k, Returns (fun f => Number.consume cfg f x) (none, k) := by
  rcases Number.consume_all cfg NoPanic x q hx L hL hM with ⟨⟨_, k⟩, hr, rfl⟩ | ⟨_, _, hp⟩
  · exact ⟨k, hr⟩
  · exact hp.elim

/-- 3/5 has two symbols. -/
example := C26_consume_all debug64 _ _ (denotes_three_fifths _ _) 2 (by
  refine .inr ⟨none, 3 / 5, [.Uncover, .Uncover], rfl, ?_, le_rfl⟩
  refine .uncover (by norm_num) (by norm_num) (.uncover (by norm_num) (by norm_num) ?_)
  have : (1 : ℚ) / (1 / (3 / 5) - 1) - 1 = 1 / 2 := by norm_num
  rw [this]; exact .half) (by decide)

/-! ## C27 Consume, then rebuild -/

/-- What a user does with the result of `consume` (as in the tests of consume.rs:38-43 and
52-62): with no remaining number, `ratio(ny + 2*n, dy + 2*d)`; otherwise `homographic`. -/
def Spec.rebuild (cfg : Cfg) (f : Nat) : Option Number × Coef4 → Out Number
  | (none, k) => do
    let t ← cfg.mul 2 k.n
    let num ← cfg.add k.nx t
    let t ← cfg.mul 2 k.d
    let den ← cfg.add k.dx t
    Number.ratio cfg num den
  | (some y, k) => Number.homographic cfg f y k.nx k.n k.dx k.d

theorem Spec.rebuild_none {cfg : Cfg} {A B : Panic → Prop} {k : Coef4} {q : ℚ}
    (hk : Consume.Below (Consume.lim cfg) k) (hs : Stands cfg B none k q) :
    ∃ r, (∀ f, rebuild cfg f (none, k) = .ok r) ∧ Number.Denotes cfg A r q := by
  obtain ⟨v, rfl, hD, hq⟩ := hs
  have hlim := Consume.lim_bounds cfg
  obtain ⟨a, b, c, d⟩ := hk
  have hF : ∀ {z : Int}, |z| ≤ cfg.imax → cfg.Fits z := Consume.fits_of_abs
  have b1 : |2 * k.n| = 2 * |k.n| := by rw [abs_mul]; rfl
  have d1 : |2 * k.d| = 2 * |k.d| := by rw [abs_mul]; rfl
  have b2 := abs_add_le k.nx (2 * k.n)
  have d2 := abs_add_le k.dx (2 * k.d)
  have f1 : cfg.Fits (2 * k.n) := hF (by omega)
  have f2 : cfg.Fits (k.nx + 2 * k.n) := hF (by omega)
  have f3 : cfg.Fits (2 * k.d) := hF (by omega)
  have f4 : cfg.Fits (k.dx + 2 * k.d) := hF (by omega)
  have hi := cfg.imin_eq
  have hm := cfg.imax_ge
  have eD : ((k.dx + 2 * k.d : Int) : ℚ) = 2 * (k.dx * (1 / 2) + k.d) := by push_cast; ring
  have eN : ((k.nx + 2 * k.n : Int) : ℚ) = 2 * (k.nx * (1 / 2) + k.n) := by push_cast; ring
  have hd0 : k.dx + 2 * k.d ≠ 0 := by
    intro h
    apply hD
    have : ((k.dx + 2 * k.d : Int) : ℚ) = 0 := by rw [h]; rfl
    linarith
  have m1 := abs_le.1 (show |k.nx + 2 * k.n| ≤ cfg.imax by omega)
  have m2 := abs_le.1 (show |k.dx + 2 * k.d| ≤ cfg.imax by omega)
  obtain ⟨r, hr, hd⟩ := Number.ratio_denotes (A := A) hd0 f2 f4
    (fun _ => ⟨by omega, by omega⟩)
  refine ⟨r, fun f => ?_, ?_⟩
  · simp only [rebuild, Cfg.mul, Cfg.add, Cfg.unchecked, f1, f2, f3, f4, if_true, ok_bind, hr]
  · rwa [eN, eD, mul_div_mul_left _ _ two_ne_zero, hq] at hd

/-- With overflow checks, consuming a number and rebuilding it denotes the original value, or
panics with an overflow. -/
theorem C27_consume_rebuild (cfg : Cfg) (hc : cfg.overflowChecks = true) (x : Number) (q : ℚ)
    (hx : Number.Denotes cfg Overflow x q) :
    Ends Overflow (fun f => do
        let r ← Number.consume cfg f x
        rebuild cfg f r)
      (fun r => Number.Denotes cfg Overflow r q) := by
  have hlim := Consume.lim_bounds cfg
  refine Ends.bind (Number.consume_ends cfg Overflow x q hx) ?_
  rintro ⟨_ | y, k⟩ ⟨hs, hb, h⟩
  · obtain ⟨r, hr, hd⟩ := rebuild_none (A := Overflow) h.1 hs
    simp only [hr]
    exact Ends.of_sat hd
  · obtain ⟨v, hv, hD, rfl⟩ := hs
    obtain ⟨a, b, c, d⟩ := hb
    simp only at a b c d hv hD
    have hF : ∀ {z : Int}, |z| ≤ cfg.imax → cfg.Fits z := Consume.fits_of_abs
    exact C16_homographic cfg hc y v hv k.nx k.n k.dx k.d (hF (by omega)) (hF (by omega))
      (hF (by omega)) (hF (by omega)) hD

/-- At 3/5. -/
example := C27_consume_rebuild debug64 rfl _ _ (denotes_three_fifths _ _)

/-- When everything has been read, rebuilding is exact in every build. -/
theorem C27_consume_rebuild_exact (cfg : Cfg) (x : Number) (q : ℚ)
    (hx : Number.Denotes cfg NoPanic x q) (k : Coef4)
    (hr : Returns (fun f => Number.consume cfg f x) (none, k)) :
    ∃ r, (∀ f, rebuild cfg f (none, k) = .ok r) ∧ Number.Denotes cfg NoPanic r q := by
  obtain ⟨hs, _, h⟩ := (Number.consume_ends cfg NoPanic x q hx).of_returns hr
  exact rebuild_none h.1 hs

example : Number.Denotes debug64 Overflow (.Other none (.ratio ⟨3, 5⟩)) (3 / 5) :=
  denotes_three_fifths _ _

end Clarith
