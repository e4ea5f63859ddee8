import Verif.Proofs.Length
import Verif.Properties.Ratio
import Verif.Properties.Combine
import Mathlib.Algebra.Order.Ring.Abs

/-! # How long it takes to read a fraction (C45) -/

namespace Clarith

open Spec

/-- The largest number of symbols of a fraction of integers up to `2^b` in magnitude. -/
def Spec.longest (b : Nat) : Nat := (b - 1) * (b + 4) / 2

theorem Spec.longest_eq {b : Nat} (hb : 1 ≤ b) : 2 * longest b + 4 = b * (b + 3) := by
  obtain ⟨a, rfl⟩ : ∃ a, b = a + 1 := ⟨b - 1, by omega⟩
  unfold longest
  have h2 : 2 ∣ (a + 1 - 1) * (a + 1 + 4) := by
    rw [Nat.add_sub_cancel]
    rcases Nat.even_or_odd a with ⟨c, hc⟩ | ⟨c, hc⟩
    · exact ⟨c * (a + 1 + 4), by rw [hc]; ring⟩
    · exact ⟨a * (c + 3), by rw [hc]; ring⟩
  rw [Nat.mul_div_cancel' h2, Nat.add_sub_cancel]; ring

example : longest 64 = 2142 ∧ longest 63 = 2077 ∧ longest 31 = 525 ∧ longest 6 = 25 := by decide

/-- Every fraction in (0,1) with a denominator up to `2^b` has at most `longest b` symbols, and
only `(2^b - 1) / 2^b` has that many. -/
theorem C45_fraction (b p q : Nat) (hp : 0 < p) (h : p < q) (hq : q ≤ 2 ^ b)
    (l : List Reduction) (hl : Expands ((p : ℚ) / q) l) :
    l.length ≤ longest b ∧ (l.length = longest b → q = 2 ^ b ∧ p + 1 = 2 ^ b) := by
  have hb : 1 ≤ b := by
    by_contra hc
    have : b = 0 := by omega
    subst this; simp at hq; omega
  have := lengthBound b p q hp h hq l hl
  have := longest_eq hb
  omega

/-- The hypotheses are met by 3/7 with `b = 3`: it has five symbols, and seven is the bound. -/
example : Expands (((3 : Nat) : ℚ) / (7 : Nat))
    [.Amplify, .Uncover, .Amplify, .Amplify, .Uncover] ∧ longest 3 = 7 := by
  refine ⟨?_, by decide⟩
  refine .amplify (by norm_num) (by norm_num) (.uncover (by norm_num) (by norm_num) ?_)
  refine .amplify (by norm_num) (by norm_num) (.amplify (by norm_num) (by norm_num) ?_)
  refine .uncover (by norm_num) (by norm_num) ?_
  norm_num
  exact .half

/-- The bound is reached, for every `b`, and without the denominator `2^b` it is one less and
reached by `1 / (2^b - 1)`. -/
theorem C45_fraction_reached (b : Nat) (hb : 2 ≤ b) :
    (∃ l, Expands (((2 ^ b - 1 : Nat) : ℚ) / (2 ^ b : Nat)) l ∧ l.length = longest b) ∧
    (∃ l, Expands ((1 : ℚ) / (2 ^ b - 1 : Nat)) l ∧ l.length + 1 = longest b) := by
  obtain ⟨h1, h2⟩ := expands_worst b (by omega)
  have h3 := worst_length b (by omega)
  have h4 := longest_eq (b := b) (by omega)
  have h5 : 2 * 5 ≤ b * (b + 3) := Nat.mul_le_mul hb (by omega)
  refine ⟨⟨_, h1, by omega⟩, _, h2 hb, ?_⟩
  rw [List.length_tail]
  omega

example := C45_fraction_reached 63 (by decide)

/-- A signed fraction of natural numbers up to `2^b`. -/
theorem symbolCount_nat (b : Nat) (positive : Bool) (num den : Nat) (hd : den ≠ 0)
    (h1 : num ≤ 2 ^ b) (h2 : den ≤ 2 ^ b) :
    SymbolCount ((if positive then 1 else -1) * ((num : ℚ) / den)) (longest b) ∧
    (num ≠ 2 ^ b → den ≠ 2 ^ b →
      SymbolCount ((if positive then 1 else -1) * ((num : ℚ) / den)) (longest b - 1)) := by
  have hd' : (den : ℚ) ≠ 0 := by exact_mod_cast hd
  have key : ∀ p q : Nat, 0 < p → p < q → q ≤ 2 ^ b →
      ∃ l, Expands ((p : ℚ) / q) l ∧ l.length ≤ longest b ∧
        (q ≠ 2 ^ b → l.length ≤ longest b - 1) := by
    intro p q hp h hq
    have hp' : (0 : ℚ) < p := by exact_mod_cast hp
    have hq' : (0 : ℚ) < q := by exact_mod_cast (by omega : 0 < q)
    have hpq : (p : ℚ) < q := by exact_mod_cast h
    obtain ⟨l, hl⟩ := exists_expands ((p : ℚ) / q) (div_pos hp' hq')
      (by rw [div_lt_iff₀ hq', one_mul]; exact hpq)
    have := C45_fraction b p q hp h hq l hl
    exact ⟨l, hl, this.1, by omega⟩
  rcases Nat.eq_zero_or_pos num with rfl | hn
  · exact ⟨.inl ⟨.Zero, by simp [specialValue]⟩, fun _ _ => .inl ⟨.Zero, by simp [specialValue]⟩⟩
  have hn' : (num : ℚ) ≠ 0 := by exact_mod_cast hn.ne'
  rcases lt_trichotomy num den with h | h | h
  · obtain ⟨l, hl, h3, h4⟩ := key num den hn h h2
    cases positive
    · exact ⟨.inr ⟨some .Reflect, _, l, by simp [applyPrimer], hl, h3⟩,
        fun _ h5 => .inr ⟨some .Reflect, _, l, by simp [applyPrimer], hl, h4 h5⟩⟩
    · exact ⟨.inr ⟨none, _, l, by simp [applyPrimer], hl, h3⟩,
        fun _ h5 => .inr ⟨none, _, l, by simp [applyPrimer], hl, h4 h5⟩⟩
  · subst h
    cases positive
    · exact ⟨.inl ⟨.NegOne, by simp [specialValue, hd']⟩,
        fun _ _ => .inl ⟨.NegOne, by simp [specialValue, hd']⟩⟩
    · exact ⟨.inl ⟨.PosOne, by simp [specialValue, hd']⟩,
        fun _ _ => .inl ⟨.PosOne, by simp [specialValue, hd']⟩⟩
  · obtain ⟨l, hl, h3, h4⟩ := key den num (by omega) h h1
    cases positive
    · exact ⟨.inr ⟨some .Ground, _, l, by simp [applyPrimer], hl, h3⟩,
        fun h5 _ => .inr ⟨some .Ground, _, l, by simp [applyPrimer], hl, h4 h5⟩⟩
    · exact ⟨.inr ⟨some .Turn, _, l, by simp [applyPrimer], hl, h3⟩,
        fun h5 _ => .inr ⟨some .Turn, _, l, by simp [applyPrimer], hl, h4 h5⟩⟩

/-- Every fraction of integers up to `2^b` in magnitude has at most `longest b` symbols, and fewer
if neither is `2^b` in magnitude. -/
theorem C45_symbol_count (b : Nat) (num den : Int) (hd : den ≠ 0) (h1 : |num| ≤ 2 ^ b)
    (h2 : |den| ≤ 2 ^ b) : SymbolCount ((num : ℚ) / den) (longest b) ∧
      (|num| ≠ 2 ^ b → |den| ≠ 2 ^ b → SymbolCount ((num : ℚ) / den) (longest b - 1)) := by
  by_cases hn : num = 0
  · exact ⟨.inl ⟨.Zero, by simp [specialValue, hn]⟩,
      fun _ _ => .inl ⟨.Zero, by simp [specialValue, hn]⟩⟩
  rw [← Int.natCast_natAbs] at h1 h2
  rw [← Int.natCast_natAbs, ← Int.natCast_natAbs]
  have e1 : num.natAbs ≤ 2 ^ b := by exact_mod_cast h1
  have e2 : den.natAbs ≤ 2 ^ b := by exact_mod_cast h2
  have := symbolCount_nat b (Ratio.sameSign num den) num.natAbs den.natAbs (by omega) e1 e2
  rw [Ratio.sign_mul_natAbs hd hn] at this
  exact ⟨this.1, fun h3 h4 => this.2 (by exact_mod_cast h3) (by exact_mod_cast h4)⟩

/-- The hypotheses are met by -45/64, which has at most 25 symbols. -/
example : (64 : Int) ≠ 0 ∧ |(-45 : Int)| ≤ 2 ^ 6 ∧ |(64 : Int)| ≤ 2 ^ 6 := by decide

/-- `None` is reached after exactly `n` calls of `egest` that answer symbols, and from then on
every answer is `None`. -/
def Clog.ReadsIn (cfg : Cfg) (c : Clog) (n : Nat) : Prop :=
  ∃ l : List Reduction, l.length = n ∧
    ∀ k, ∃ c', Returns (fun f => Clog.egests cfg f (n + k) c)
      (l.map some ++ List.replicate k none, c')

/-- What a bound on the number of symbols means for a user who reads them. -/
theorem Number.Denotes.read {cfg : Cfg} {p : Option Primer} {c : Clog} {q : ℚ} {L : Nat}
    (h : Number.Denotes cfg NoPanic (.Other p c) q) (hL : SymbolCount q L) :
    ∃ n ≤ L, Clog.ReadsIn cfg c n := by
  obtain ⟨v, l, hv, hl, hlen, _⟩ := h.in_count hL
  refine ⟨l.length, hlen, l, rfl, fun k => ?_⟩
  obtain ⟨c', hr⟩ := hv.returns (l.length + k)
  rw [hl.symbols k] at hr
  exact ⟨c', hr⟩

theorem Clog.Denotes.reads {cfg : Cfg} {c : Clog} {x : ℚ} {l : List Reduction}
    (h : Clog.Denotes cfg NoPanic c x) (hl : Expands x l) : Clog.ReadsIn cfg c l.length := by
  refine ⟨l, rfl, fun k => ?_⟩
  obtain ⟨c', hr⟩ := h.returns (l.length + k)
  rw [hl.symbols k] at hr
  exact ⟨c', hr⟩

/-- Reading a number built by `ratio_u` reaches `None` after at most `longest bits - 1` symbols
(2141 on a 64-bit machine). -/
theorem C45_ratio_u (cfg : Cfg) (positive : Bool) (num den : Nat) (hn : num ≤ cfg.umax)
    (hd : den ≤ cfg.umax) (hd0 : den ≠ 0) (p : Option Primer) (c : Clog)
    (hr : Number.ratioU positive num den = .ok (.Other p c)) :
    ∃ n ≤ longest cfg.bits - 1, Clog.ReadsIn cfg c n := by
  obtain ⟨x, hx, hden⟩ := C02_ratio_u_exact cfg positive num den hn hd hd0
  rw [hr] at hx
  cases hx
  have h1 : (1 : Nat) ≤ 2 ^ cfg.bits := Nat.one_le_two_pow
  unfold Cfg.umax at hn hd
  exact hden.read ((symbolCount_nat cfg.bits positive num den hd0 (by omega) (by omega)).2
    (by omega) (by omega))

/-- The hypotheses are met by 3/7. -/
example : (3 : Nat) ≤ debug64.umax ∧ (7 : Nat) ≤ debug64.umax ∧
    ∃ p c, Number.ratioU true 3 7 = .ok (.Other p c) := ⟨by decide, by decide, _, _, rfl⟩

/-- Reading a number built by `ratio` reaches `None` after at most `longest (bits - 1)` symbols
(2077 on a 64-bit machine), and one less unless an argument is `isize::MIN`. -/
theorem C45_ratio (cfg : Cfg) (num den : Int) (hn : cfg.Fits num) (hd : cfg.Fits den)
    (hd0 : den ≠ 0) (p : Option Primer) (c : Clog)
    (hr : Number.ratio cfg num den = .ok (.Other p c)) :
    ∃ n ≤ longest (cfg.bits - 1), Clog.ReadsIn cfg c n ∧
      (num ≠ cfg.imin → den ≠ cfg.imin → n ≤ longest (cfg.bits - 1) - 1) := by
  have hmin : cfg.overflowChecks = true → num ≠ cfg.imin ∧ den ≠ cfg.imin := by
    intro hc
    by_contra h
    rw [C40_min_checked cfg hc num den hn (by tauto)] at hr
    cases hr
  obtain ⟨x, hx, hden⟩ := C01_ratio_exact cfg num den hn hd hd0 hmin
  rw [hr] at hx
  cases hx
  unfold Cfg.Fits Cfg.imin Cfg.imax at hn hd
  unfold Cfg.imin
  have h := C45_symbol_count (cfg.bits - 1) num den hd0 (abs_le.2 ⟨by omega, by omega⟩)
    (abs_le.2 ⟨by omega, by omega⟩)
  by_cases hm : num ≠ -2 ^ (cfg.bits - 1) ∧ den ≠ -2 ^ (cfg.bits - 1)
  · obtain ⟨n, h1, h2⟩ := hden.read (h.2
      (fun he => by rcases (abs_eq (by positivity)).1 he with h | h <;> omega)
      (fun he => by rcases (abs_eq (by positivity)).1 he with h | h <;> omega))
    exact ⟨n, by omega, h2, fun _ _ => h1⟩
  · obtain ⟨n, h1, h2⟩ := hden.read h.1
    exact ⟨n, h1, h2, fun h3 h4 => absurd ⟨h3, h4⟩ hm⟩

/-- The hypotheses are met by -22/7. -/
example : debug64.Fits (-22) ∧ debug64.Fits 7 ∧
    ∃ p c, Number.ratio debug64 (-22) 7 = .ok (.Other p c) := ⟨by decide, by decide, _, _, rfl⟩

/-- The bound is reached: in every build, reading `ratio(isize::MAX, 1)` takes exactly
`longest (bits - 1) - 1` symbols (2076 on a 64-bit machine), and where `isize::MIN` is accepted
`ratio(isize::MIN, isize::MAX)` takes one more. -/
theorem C45_ratio_reached (cfg : Cfg) :
    (∃ p c, Number.ratio cfg cfg.imax 1 = .ok (.Other p c) ∧
      Clog.ReadsIn cfg c (longest (cfg.bits - 1) - 1)) ∧
    (cfg.overflowChecks = false →
      ∃ p c, Number.ratio cfg cfg.imin cfg.imax = .ok (.Other p c) ∧
        Clog.ReadsIn cfg c (longest (cfg.bits - 1))) := by
  have hb := cfg.hbits
  obtain ⟨⟨l₁, hl₁, e₁⟩, l₂, hl₂, e₂⟩ := C45_fraction_reached (cfg.bits - 1) (by omega)
  have hmax := cfg.imax_ge
  have hmin := cfg.imin_eq
  have hN : ((2 ^ (cfg.bits - 1) - 1 : Nat) : ℚ) = (cfg.imax : ℚ) := by
    have h1 : (1 : Nat) ≤ 2 ^ (cfg.bits - 1) := Nat.one_le_two_pow
    rw [Nat.cast_sub h1]; unfold Cfg.imax; push_cast; rfl
  have hN' : ((2 ^ (cfg.bits - 1) : Nat) : ℚ) = -(cfg.imin : ℚ) := by
    unfold Cfg.imin; push_cast; ring
  rw [hN, hN'] at hl₁
  rw [hN] at hl₂
  have fits : ∀ z : Int, cfg.imin ≤ z → z ≤ cfg.imax → cfg.Fits z := fun z a b => ⟨a, b⟩
  have hM0 : (cfg.imax : ℚ) ≠ 0 := by exact_mod_cast (by omega : cfg.imax ≠ 0)
  constructor
  · obtain ⟨x, hx, hden⟩ := C01_ratio_exact cfg cfg.imax 1 (fits _ (by omega) le_rfl)
      (fits _ (by omega) (by omega)) (by norm_num) (fun _ => ⟨by omega, by omega⟩)
    have e : ((cfg.imax : ℚ) / (1 : Int)) = applyPrimer (some .Turn) (1 / cfg.imax) := by
      simp [applyPrimer]
    rw [e] at hden
    cases x with
    | Special s => exact absurd hden (fun h => applyPrimer_ne_special hl₂.mem.1 hl₂.mem.2 h)
    | Other p c =>
      obtain ⟨v, hv, he⟩ := hden
      obtain ⟨_, rfl⟩ := applyPrimer_inj hl₂.mem.1 hl₂.mem.2 hv.1 hv.2.1 he
      refine ⟨p, c, hx, ?_⟩
      have := hv.reads hl₂
      rwa [show l₂.length = longest (cfg.bits - 1) - 1 by omega] at this
  · intro hc
    obtain ⟨x, hx, hden⟩ := C01_ratio_exact cfg cfg.imin cfg.imax (fits _ le_rfl (by omega))
      (fits _ (by omega) le_rfl) (by omega) (fun h => by rw [hc] at h; cases h)
    have e : ((cfg.imin : ℚ) / cfg.imax) =
        applyPrimer (some .Ground) (cfg.imax / -cfg.imin) := by
      simp only [applyPrimer]; rw [one_div_div]; ring
    rw [e] at hden
    cases x with
    | Special s => exact absurd hden (fun h => applyPrimer_ne_special hl₁.mem.1 hl₁.mem.2 h)
    | Other p c =>
      obtain ⟨v, hv, he⟩ := hden
      obtain ⟨_, rfl⟩ := applyPrimer_inj hl₁.mem.1 hl₁.mem.2 hv.1 hv.2.1 he
      refine ⟨p, c, hx, ?_⟩
      have := hv.reads hl₁
      rwa [e₁] at this

/-- A size of operands and coefficients, without any mention of symbols, for which `homographic`
on a fraction is exact and never panics. -/
theorem C45_homographic_size (cfg : Cfg) (b : Nat) (num den : Int) (hn : |num| < 2 ^ b)
    (hd : |den| < 2 ^ b) (hd0 : den ≠ 0) (x : Number)
    (hx : Number.Denotes cfg NoPanic x ((num : ℚ) / den)) (M nx n dx d : Int) (h1 : |nx| ≤ M)
    (h2 : |n| ≤ M) (h3 : |dx| ≤ M) (h4 : |d| ≤ M)
    (hM : (M * 2 ^ (longest b - 1 + 1)) ^ 2 ≤ cfg.imax) (hD : dx * num + d * den ≠ 0) :
    ∃ r, Returns (fun f => Number.homographic cfg f x nx n dx d) r ∧
      Number.Denotes cfg NoPanic r
        (((nx * num + n * den : Int) : ℚ) / (dx * num + d * den : Int)) := by
  have hd' : (den : ℚ) ≠ 0 := by exact_mod_cast hd0
  have hD' : (dx : ℚ) * num + d * den ≠ 0 := by exact_mod_cast hD
  have e1 : (dx : ℚ) * (num / den) + d = (dx * num + d * den) / den := by field_simp
  have e2 : (nx : ℚ) * (num / den) + n = (nx * num + n * den) / den := by field_simp
  have := C31_safe_size cfg x _ hx _
    ((C45_symbol_count b num den hd0 hn.le hd.le).2 hn.ne hd.ne) M nx n dx d h1 h2 h3 h4 hM
    (by rw [e1]; exact div_ne_zero hD' hd')
  rw [e1, e2, div_div_div_cancel_right₀ hd'] at this
  push_cast
  exact this

/-- On a 64-bit machine: numerator and denominator up to 31 and coefficients up to 4096. -/
example : ((4096 : Int) * 2 ^ (longest 5 - 1 + 1)) ^ 2 ≤ debug64.imax := by decide

end Clarith
