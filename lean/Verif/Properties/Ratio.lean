import Verif.Proofs.Observe

/-! # Properties of ratio-built numbers and of reading a clog (C01-C07, C36, C37, C40) -/

namespace Clarith

open Spec

/-! ## C01 `Number::ratio` is exact -/

/-- For machine integers `num`, `den` with `den ≠ 0` (neither being `isize::MIN` when
overflow checks are on), `Number::ratio` returns a number that denotes `num / den`, none of
whose later `egest` calls ever panics. -/
theorem C01_ratio_exact (cfg : Cfg) (num den : Int) (hn : cfg.Fits num) (hd : cfg.Fits den)
    (hd0 : den ≠ 0) (hmin : cfg.overflowChecks = true → num ≠ cfg.imin ∧ den ≠ cfg.imin) :
    ∃ x, Number.ratio cfg num den = .ok x ∧
      Number.Denotes cfg NoPanic x ((num : ℚ) / den) :=
  Number.ratio_denotes hd0 hn hd hmin

example : debug64.Fits (-314) ∧ debug64.Fits 100 ∧ (100 : Int) ≠ 0 ∧
    (debug64.overflowChecks = true → (-314 : Int) ≠ debug64.imin ∧ (100 : Int) ≠ debug64.imin) := by
  decide

/-- The answer for -314/100, computed by the model. -/
example : Number.ratio debug64 (-314) 100 = .ok (.Other (some .Ground) (.ratio ⟨100, 314⟩)) := by
  decide

/-! ## C02 `Number::ratio_u` is exact -/

theorem C02_ratio_u_exact (cfg : Cfg) (positive : Bool) (num den : Nat) (hn : num ≤ cfg.umax)
    (hd : den ≤ cfg.umax) (hd0 : den ≠ 0) :
    ∃ x, Number.ratioU positive num den = .ok x ∧
      Number.Denotes cfg NoPanic x ((if positive then 1 else -1) * ((num : ℚ) / den)) :=
  Number.ratioU_denotes hd0 hn hd

example : (18446744073709551615 : Nat) ≤ debug64.umax ∧ (7 : Nat) ≤ debug64.umax ∧ (7 : Nat) ≠ 0 := by
  decide

/-! ## C03 Zero denominators are rejected -/

theorem C03_zero_denominator (cfg : Cfg) (num : Int) (hn : cfg.Fits num) :
    Number.ratio cfg num 0 =
      if cfg.overflowChecks = true ∧ num = cfg.imin then .panic .arithOverflow
      else .panic .divisionByZero := by
  have h0 : cfg.Fits 0 := by
    have := cfg.imax_ge; have := cfg.imin_eq
    constructor <;> omega
  have h0' : (0 : Int) ≠ cfg.imin := by
    have := cfg.imax_ge; have := cfg.imin_eq
    omega
  unfold Number.ratio
  split_ifs with h
  · rw [h.2, Ratio.magnitude_min h.1]; rfl
  · rw [(Ratio.magnitude_exact hn fun hc e => h ⟨hc, e⟩).1,
      (Ratio.magnitude_exact h0 fun _ => h0').1]
    simp [Number.ratioU, Ratio.new]

example := C03_zero_denominator debug64 (-5) (by decide)

theorem C03_zero_denominator_u (positive : Bool) (num : Nat) :
    Number.ratioU positive num 0 = .panic .divisionByZero := by
  simp [Number.ratioU, Ratio.new]

example : debug64.Fits (-5) ∧ Number.ratio debug64 (-5) 0 = .panic .divisionByZero := by decide

/-! ## C04 Ratio streams end -/

/-- For every rational `q` there is one finite list of symbols that every ratio-built number
with value `q` emits, followed by `None` for as many calls as one likes. -/
theorem C04_ratio_finite (q : ℚ) : ∃ l : List Reduction,
    ∀ (cfg : Cfg) (num den : Int), cfg.Fits num → cfg.Fits den → den ≠ 0 → (num : ℚ) / den = q →
    ∀ p c, Number.ratio cfg num den = .ok (.Other p c) →
    ∀ k, ∃ c', Returns (fun f => Clog.egests cfg f (l.length + k) c)
      (l.map some ++ List.replicate k none, c') := by
  rcases decompose q with ⟨s, rfl⟩ | ⟨p, x, h0, h1, rfl⟩
  · refine ⟨[], fun cfg num den hn hd hd0 hq p c hr k => ?_⟩
    exfalso
    by_cases hmin : cfg.overflowChecks = true ∧ (num = cfg.imin ∨ den = cfg.imin)
    · unfold Number.ratio at hr
      rcases hmin with ⟨hc, rfl | rfl⟩
      · rw [Ratio.magnitude_min hc] at hr; simp at hr
      · rw [Ratio.magnitude_min hc] at hr
        cases hm : Ratio.magnitude cfg num <;> simp [hm] at hr
    · obtain ⟨n, e, hden⟩ := C01_ratio_exact cfg num den hn hd hd0 (by tauto)
      rw [e] at hr
      simp only [Out.ok.injEq] at hr
      subst hr
      obtain ⟨y, hy, hyq⟩ := hden
      rw [hq] at hyq
      exact applyPrimer_ne_special hy.1 hy.2.1 hyq.symm
  · obtain ⟨l, hl⟩ := exists_expands x h0 h1
    refine ⟨l, fun cfg num den hn hd hd0 hq p' c hr k => ?_⟩
    by_cases hmin : cfg.overflowChecks = true ∧ (num = cfg.imin ∨ den = cfg.imin)
    · exfalso
      unfold Number.ratio at hr
      rcases hmin with ⟨hc, rfl | rfl⟩
      · rw [Ratio.magnitude_min hc] at hr; simp at hr
      · rw [Ratio.magnitude_min hc] at hr
        cases hm : Ratio.magnitude cfg num <;> simp [hm] at hr
    · obtain ⟨n, e, hden⟩ := C01_ratio_exact cfg num den hn hd hd0 (by tauto)
      rw [e] at hr
      simp only [Out.ok.injEq] at hr
      subst hr
      obtain ⟨y, hy, hyq⟩ := hden
      rw [hq] at hyq
      obtain ⟨_, rfl⟩ := applyPrimer_inj h0 h1 hy.1 hy.2.1 hyq
      have := hy.returns (l.length + k)
      rwa [hl.symbols k] at this

/-- 1/10 and 2/20 both emit A A A U A and then end. -/
example : Clog.egests debug64 3 7 (.ratio ⟨2, 20⟩) =
    .ok (([.Amplify, .Amplify, .Amplify, .Uncover, .Amplify] : List Reduction).map some ++
      [none, none], .ratio ⟨1, 2⟩) := by decide

/-! ## C05 `None` is final -/

/-- If one of the first `m` answers of a clog that denotes a number is `None`, then all later
calls answer `None` (or panic with a panic in `A`). -/
theorem C05_none_final (cfg : Cfg) (A : Panic → Prop) (c c' : Clog) (x : ℚ)
    (h : Clog.Denotes cfg A c x) (m : Nat) (rs : List (Option Reduction))
    (hr : Returns (fun f => Clog.egests cfg f m c) (rs, c')) (hnone : none ∈ rs) (k : Nat) :
    Ends A (fun f => Clog.egests cfg f k c') (fun r => r.1 = List.replicate k none) := by
  obtain ⟨rfl, h'⟩ := h.of_returns hr
  rw [none_mem_symbols hnone] at h'
  refine (h'.2.2 k).mono fun r hr => ?_
  rw [hr, symbols_half]

example : Clog.Denotes debug64 NoPanic (.ratio ⟨3, 5⟩) (3 / 5) ∧
    Returns (fun f => Clog.egests debug64 f 3 (.ratio ⟨3, 5⟩))
      ([some .Uncover, some .Uncover, none], .ratio ⟨1, 2⟩) := by
  refine ⟨?_, 1, fun f hf => ?_⟩
  · have := Ratio.denotes (cfg := debug64) (A := NoPanic) (r := ⟨3, 5⟩) ⟨by decide, by decide, by decide⟩
    simpa [Ratio.val] using this
  · obtain ⟨f, rfl⟩ : ∃ g, f = g + 1 := ⟨f - 1, by omega⟩
    rfl

/-! ## C06 Meaning of one `egest` -/

/-- One call on a clog denoting `x`: `None` iff `x = 1/2`, `Amplify` iff `x < 1/2`, `Uncover` iff
`x > 1/2`, and the clog is left denoting `1/2`, `2x`, `1/x - 1` respectively. -/
theorem C06_egest_meaning (cfg : Cfg) (A : Panic → Prop) (c : Clog) (x : ℚ)
    (h : Clog.Denotes cfg A c x) :
    Ends A (fun f => Clog.egest cfg f c) (fun r =>
      (x = 1 / 2 ∧ r.1 = none ∧ Clog.Denotes cfg A r.2 (1 / 2)) ∨
      (x < 1 / 2 ∧ r.1 = some .Amplify ∧ Clog.Denotes cfg A r.2 (2 * x)) ∨
      (1 / 2 < x ∧ r.1 = some .Uncover ∧ Clog.Denotes cfg A r.2 (1 / x - 1))) := by
  refine h.step.mono ?_
  rintro ⟨r, c'⟩ ⟨hr, hc⟩
  simp only at hr hc ⊢
  rcases lt_trichotomy x (1 / 2) with hx | hx | hx
  · rw [sym_lt hx] at hr; rw [next_lt hx] at hc
    exact .inr (.inl ⟨hx, hr, hc⟩)
  · subst hx
    rw [sym_half] at hr; rw [next_half] at hc
    exact .inl ⟨rfl, hr, hc⟩
  · rw [sym_gt hx] at hr; rw [next_gt hx] at hc
    exact .inr (.inr ⟨hx, hr, hc⟩)

/-- In particular for ratio-built clogs no panic is possible. -/
example : Clog.Denotes release64 NoPanic (.ratio ⟨567, 1000⟩) (567 / 1000) := by
  have := Ratio.denotes (cfg := release64) (A := NoPanic) (r := ⟨567, 1000⟩)
    ⟨by decide, by decide, by decide⟩
  simpa [Ratio.val] using this

/-! ## C07 Observation depends only on the value -/

theorem C07_same_observation (cfg : Cfg) (n1 d1 n2 d2 : Int)
    (h1 : cfg.Fits n1) (h2 : cfg.Fits d1) (h3 : cfg.Fits n2) (h4 : cfg.Fits d2)
    (hd1 : d1 ≠ 0) (hd2 : d2 ≠ 0) (hcross : n1 * d2 = n2 * d1) (a b : Number)
    (ha : Number.ratio cfg n1 d1 = .ok a) (hb : Number.ratio cfg n2 d2 = .ok b) (k : Nat) :
    ∃ o, Returns (fun f => Number.observe cfg f k a) o ∧
      Returns (fun f => Number.observe cfg f k b) o := by
  have nomin : ∀ {n d : Int} {x : Number}, Number.ratio cfg n d = .ok x →
      cfg.overflowChecks = true → n ≠ cfg.imin ∧ d ≠ cfg.imin := by
    intro n d x hr hc
    constructor
    · rintro rfl
      unfold Number.ratio at hr
      rw [Ratio.magnitude_min hc] at hr; simp at hr
    · rintro rfl
      unfold Number.ratio at hr
      rw [Ratio.magnitude_min hc] at hr
      cases hm : Ratio.magnitude cfg n <;> simp [hm] at hr
  have hq : (n1 : ℚ) / d1 = (n2 : ℚ) / d2 := by
    rw [div_eq_div_iff (by exact_mod_cast hd1) (by exact_mod_cast hd2)]
    exact_mod_cast hcross
  obtain ⟨a', e1, da⟩ := C01_ratio_exact cfg n1 d1 h1 h2 hd1 (nomin ha)
  obtain ⟨b', e2, db⟩ := C01_ratio_exact cfg n2 d2 h3 h4 hd2 (nomin hb)
  rw [ha] at e1; rw [hb] at e2
  simp only [Out.ok.injEq] at e1 e2
  subst e1 e2
  rw [hq] at da
  have obs : ∀ {p c x}, Clog.Denotes cfg NoPanic c x →
      Returns (fun f => Number.observe cfg f k (.Other p c)) (none, p, symbols k x) := by
    intro p c x hx
    obtain ⟨c', f0, hf⟩ := hx.returns k
    exact ⟨f0, fun f hge => by simp [Number.observe, hf f hge]⟩
  cases a with
  | Special s =>
    cases b with
    | Special t =>
      have : s = t := specialValue_inj (Eq.trans (Eq.symm da) db)
      subst this
      exact ⟨(some s, none, []), ⟨0, fun _ _ => rfl⟩, ⟨0, fun _ _ => rfl⟩⟩
    | Other p c =>
      obtain ⟨x, hx, e⟩ := db
      exact (applyPrimer_ne_special hx.1 hx.2.1 (e.symm.trans da)).elim
  | Other p c =>
    obtain ⟨x, hx, e⟩ := da
    cases b with
    | Special t => exact (applyPrimer_ne_special hx.1 hx.2.1 (e.symm.trans db)).elim
    | Other p' c' =>
      obtain ⟨y, hy, e'⟩ := db
      obtain ⟨rfl, rfl⟩ := applyPrimer_inj hx.1 hx.2.1 hy.1 hy.2.1 (e.symm.trans e')
      exact ⟨(none, p, symbols k x), obs hx, obs hy⟩

example : (-12 : Int) * (-15) = 20 * 9 ∧
    Number.ratio debug64 (-12) 9 = .ok (.Other (some .Ground) (.ratio ⟨9, 12⟩)) ∧
    Number.ratio debug64 20 (-15) = .ok (.Other (some .Ground) (.ratio ⟨15, 20⟩)) := by
  decide

/-! ## C36 A partly read clog is still a number -/

/-- After `m` calls the clog left, wrapped with any primer `p`, denotes `p` applied to what is
left of the value; it can be used like any other number. -/
theorem C36_partly_read (cfg : Cfg) (A : Panic → Prop) (c c' : Clog) (x : ℚ)
    (h : Clog.Denotes cfg A c x) (m : Nat) (rs : List (Option Reduction))
    (hr : Returns (fun f => Clog.egests cfg f m c) (rs, c')) :
    ∃ y, 0 < y ∧ y < 1 ∧ (∀ k, symbols (m + k) x = rs ++ symbols k y) ∧
      ∀ p, Number.Denotes cfg A (.Other p c') (applyPrimer p y) := by
  obtain ⟨rfl, h'⟩ := h.of_returns hr
  refine ⟨next^[m] x, h'.1, h'.2.1, fun k => ?_, fun p => ⟨_, h', rfl⟩⟩
  clear h h' hr
  induction m generalizing x with
  | zero => simp [symbols]
  | succ m ih =>
    rw [Nat.add_right_comm, symbols_succ, symbols_succ, ih, Function.iterate_succ_apply]; rfl

/-- 3/5 after one symbol is 2/3, so with primer `Turn` it is 3/2. -/
example : Returns (fun f => Clog.egests debug64 f 1 (.ratio ⟨3, 5⟩)) ([some .Uncover], .ratio ⟨2, 3⟩) := by
  refine ⟨1, fun f hf => ?_⟩
  obtain ⟨f, rfl⟩ : ∃ g, f = g + 1 := ⟨f - 1, by omega⟩
  rfl

/-! ## C37 `unwrap_special` and `unwrap_other` -/

theorem C37_unwrap_special (n : Number) (s : Special) :
    (n.unwrapSpecial = .ok s ↔ n = .Special s) ∧
    (n.unwrapSpecial = .panic .notSpecial ↔ ∃ p c, n = .Other p c) := by
  cases n <;> simp [Number.unwrapSpecial]

theorem C37_unwrap_other (n : Number) (p : Option Primer) (c : Clog) :
    (n.unwrapOther = .ok (p, c) ↔ n = .Other p c) ∧
    (n.unwrapOther = .panic .notOther ↔ ∃ s, n = .Special s) := by
  cases n <;> simp [Number.unwrapOther]

example : (Number.Special .Zero).unwrapSpecial = .ok .Zero ∧
    (Number.Special .Zero).unwrapOther = .panic .notOther := by decide

/-! ## C40 `isize::MIN` in `Number::ratio` -/

theorem C40_min_checked (cfg : Cfg) (hc : cfg.overflowChecks = true) (num den : Int)
    (hn : cfg.Fits num) (hmin : num = cfg.imin ∨ den = cfg.imin) :
    Number.ratio cfg num den = .panic .arithOverflow := by
  unfold Number.ratio
  by_cases h : num = cfg.imin
  · rw [h, Ratio.magnitude_min hc]; rfl
  · rw [(Ratio.magnitude_exact hn fun _ => h).1, hmin.resolve_left h, Ratio.magnitude_min hc]; rfl

example := C40_min_checked debug64 rfl 5 debug64.imin (by decide) (.inr rfl)

theorem C40_min_unchecked (cfg : Cfg) (hc : cfg.overflowChecks = false) (num den : Int)
    (hn : cfg.Fits num) (hd : cfg.Fits den) (hd0 : den ≠ 0) :
    ∃ x, Number.ratio cfg num den = .ok x ∧
      Number.Denotes cfg NoPanic x ((num : ℚ) / den) :=
  C01_ratio_exact cfg num den hn hd hd0 (by simp [hc])

example : Number.ratio debug64 debug64.imin 6 = .panic .arithOverflow ∧
    Number.ratio release64 release64.imin 6 =
      .ok (.Other (some .Ground) (.ratio ⟨6, 9223372036854775808⟩)) := by
  decide

end Clarith
