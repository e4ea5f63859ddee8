import Verif.Properties.Combine
import Verif.Properties.Limits

/-! # When a build without overflow checks can be trusted (C46)

C34 shows that without overflow checks `homographic` can return wrong numbers.  Here is a bound
below which it cannot, in any build: it is linear in the size of the coefficients, where the bound
below which nothing panics (C31, C42) is quadratic. -/

namespace Clarith

open Spec

/-- The only panic is the unwrapping of a failed `checked_*` operation. -/
def CheckedOverflow : Panic → Prop := fun p => p = .unwrapNone

/-- The same, or the "division by zero" panic. -/
def CheckedOverflowOrDivision : Panic → Prop := fun p => p = .unwrapNone ∨ p = .divisionByZero

theorem safeUpTo_checked {cfg : Cfg} {A : Panic → Prop} {M : Int} (hA : A .unwrapNone)
    (hM : 4 * M ≤ cfg.imax) : cfg.SafeUpTo A M := by
  have hi := cfg.imin_eq
  refine ⟨fun z hz => .inl ?_, fun z _ => .inr hA⟩
  obtain ⟨a, b⟩ := abs_le.1 hz
  exact ⟨by omega, by omega⟩

/-- The arguments of `homographic` are machine integers below a size. -/
theorem Homographic.Args.of_abs {cfg : Cfg} {M nx n dx d : Int} (hM1 : 1 ≤ M) (hM : M ≤ cfg.imax)
    (hk : ∀ z ∈ [nx, n, dx, d], |z| ≤ M) : Homographic.Args cfg M nx n dx d := by
  have hi := cfg.imin_eq
  have h := fun z hz => abs_le.1 (hk z hz)
  have hf : ∀ z ∈ [nx, n, dx, d], cfg.Fits z := fun z hz => by
    obtain ⟨a, b⟩ := h z hz
    exact ⟨by omega, by omega⟩
  constructor <;> first
    | exact hM1 | exact (h _ (by simp)).1 | exact (h _ (by simp)).2 | exact hf _ (by simp)

theorem linear_size {cfg : Cfg} {M : Int} {L : Nat} (hM1 : 1 ≤ M)
    (hM : M * 2 ^ (L + 3) ≤ cfg.imax) : 4 * (2 * M * 2 ^ L) ≤ cfg.imax ∧ M ≤ cfg.imax := by
  have e : M * 2 ^ (L + 3) = 8 * (M * 2 ^ L) := by rw [pow_add]; ring
  have : (1 : Int) ≤ 2 ^ L := one_le_pow₀ (by norm_num)
  constructor
  · rw [e] at hM; linarith
  · nlinarith

/-- 3/5 has two symbols. -/
theorem symbolCount_three_fifths : SymbolCount (3 / 5) 2 := by
  refine .inr ⟨none, 3 / 5, [.Uncover, .Uncover], rfl, ?_, le_rfl⟩
  refine .uncover (by norm_num) (by norm_num) (.uncover (by norm_num) (by norm_num) ?_)
  have : (1 : ℚ) / (1 / (3 / 5) - 1) - 1 = 1 / 2 := by norm_num
  rw [this]; exact .half

/-- If the coefficients are at most `M` in magnitude, `x` has at most `L` symbols, and
`M * 2^(L+3)` is a machine integer, then in every build `homographic`, away from a pole, ends; it
returns a number denoting the exact value, or panics with a failed checked operation, and the
same holds for every later `egest`. -/
theorem C46_homographic (cfg : Cfg) (x : Number) (q : ℚ)
    (hx : Number.Denotes cfg CheckedOverflow x q) (L : Nat) (hL : SymbolCount q L)
    (M nx n dx d : Int) (hM1 : 1 ≤ M) (hk : ∀ z ∈ [nx, n, dx, d], |z| ≤ M)
    (hM : M * 2 ^ (L + 3) ≤ cfg.imax) (hD : (dx : ℚ) * q + d ≠ 0) :
    Ends CheckedOverflow (fun f => Number.homographic cfg f x nx n dx d)
      (fun t => Number.Denotes cfg CheckedOverflow t ((nx * q + n) / (dx * q + d))) := by
  obtain ⟨h1, h2⟩ := linear_size hM1 hM
  exact Number.homographic_ends (hx.in_count hL) (.of_abs hM1 h2 hk) (safeUpTo_checked rfl h1) hD

/-- In a release build, 3/5 with coefficients up to `2^57`. -/
example := C46_homographic release64 _ _ (denotes_three_fifths _ _) 2 symbolCount_three_fifths (2 ^ 57)
  (2 ^ 57) (-3) 7 (2 ^ 57) (by decide) (by decide) (by decide) (by norm_num)

/-- Under the same bound, at a pole every build panics with "division by zero" or a failed checked
operation or, only when `dx = d = 0`, returns a number that amplifies forever. -/
theorem C46_homographic_pole (cfg : Cfg) (x : Number) (q : ℚ)
    (hx : Number.Denotes cfg CheckedOverflow x q) (L : Nat) (hL : SymbolCount q L)
    (M nx n dx d : Int) (hM1 : 1 ≤ M) (hk : ∀ z ∈ [nx, n, dx, d], |z| ≤ M)
    (hM : M * 2 ^ (L + 3) ≤ cfg.imax) (hD : (dx : ℚ) * q + d = 0) :
    Ends CheckedOverflowOrDivision (fun f => Number.homographic cfg f x nx n dx d)
      (fun t => dx = 0 ∧ d = 0 ∧ ∃ p c, t = .Other p c ∧ (p = some .Turn ∨ p = some .Ground) ∧
        Clog.AmplifiesForever cfg CheckedOverflowOrDivision c) := by
  obtain ⟨h1, h2⟩ := linear_size hM1 hM
  refine (Number.homographic_pole_ends (.inr rfl)
    ((hx.weaken fun p hp => .inl hp).in_count hL) (.of_abs hM1 h2 hk)
    (safeUpTo_checked (.inl rfl) h1) hD).mono ?_
  rintro r ⟨a, b, h⟩
  exact ⟨b, a, h⟩

/-- The pole `-5 x + 3 = 0`. -/
example := C46_homographic_pole release64 _ _ (denotes_three_fifths _ _) 2 symbolCount_three_fifths (2 ^ 57)
  (2 ^ 57) 1 (-5) 3 (by decide) (by decide) (by decide) (by norm_num)

/-- Likewise for `combine`, if `M * 2^(Lx+Ly+5)` is a machine integer. -/
theorem C46_combine (cfg : Cfg) (x y : Number) (q r : ℚ)
    (hx : Number.Denotes cfg CheckedOverflow x q) (hy : Number.Denotes cfg CheckedOverflow y r)
    (Lx Ly : Nat) (hLx : SymbolCount q Lx) (hLy : SymbolCount r Ly)
    (M nxy nx ny n dxy dx dy d : Int) (hM1 : 1 ≤ M)
    (hk : ∀ z ∈ [nxy, nx, ny, n, dxy, dx, dy, d], |z| ≤ M)
    (hM : M * 2 ^ (Lx + Ly + 5) ≤ cfg.imax)
    (hD : (dxy : ℚ) * q * r + dx * q + dy * r + d ≠ 0) :
    Ends CheckedOverflow (fun f => Number.combine cfg f x y nxy nx ny n dxy dx dy d)
      (fun t => Number.Denotes cfg CheckedOverflow t
        ((nxy * q * r + nx * q + ny * r + n) / (dxy * q * r + dx * q + dy * r + d))) := by
  have hi := cfg.imin_eq
  have e : M * 2 ^ (Lx + Ly + 5) = 4 * (4 * M * 2 ^ (Lx + Ly + 1)) := by
    rw [show Lx + Ly + 5 = Lx + Ly + 1 + 4 by omega, pow_add]; ring
  have hle : M ≤ 4 * M * 2 ^ (Lx + Ly + 1) := by
    have : (1 : Int) ≤ 2 ^ (Lx + Ly + 1) := one_le_pow₀ (by norm_num)
    nlinarith
  rw [e] at hM
  have h := fun z hz => abs_le.1 (hk z hz)
  have hf : (⟨nxy, nx, ny, n, dxy, dx, dy, d⟩ : Coef8).Fits cfg :=
    .of_list fun z hz => by
      obtain ⟨a, b⟩ := h z hz
      exact ⟨by omega, by omega⟩
  have hw : (⟨nxy, nx, ny, n, dxy, dx, dy, d⟩ : Coef8).Within M := by
    constructor <;> first | exact hM1 | exact (h _ (by simp)).1 | exact (h _ (by simp)).2
  exact Number.combine_ends (hx.in_count hLx) (hy.in_count hLy) hw hf (safeUpTo_checked rfl hM) hD

/-- In a release build, both operands 3/5, with coefficients up to `2^53`. -/
example := C46_combine release64 _ _ _ _ (denotes_three_fifths _ _) (denotes_three_fifths _ _) 2 2
  symbolCount_three_fifths symbolCount_three_fifths (2 ^ 53) (2 ^ 53) 1 (-1) 0 4 (2 ^ 53) 0 1
  (by decide) (by decide) (by decide) (by norm_num)

/-- Under the same bound, at a pole of `combine`. -/
theorem C46_combine_pole (cfg : Cfg) (x y : Number) (q r : ℚ)
    (hx : Number.Denotes cfg CheckedOverflow x q) (hy : Number.Denotes cfg CheckedOverflow y r)
    (Lx Ly : Nat) (hLx : SymbolCount q Lx) (hLy : SymbolCount r Ly)
    (M nxy nx ny n dxy dx dy d : Int) (hM1 : 1 ≤ M)
    (hk : ∀ z ∈ [nxy, nx, ny, n, dxy, dx, dy, d], |z| ≤ M)
    (hM : M * 2 ^ (Lx + Ly + 5) ≤ cfg.imax)
    (hD : (dxy : ℚ) * q * r + dx * q + dy * r + d = 0) :
    Ends CheckedOverflowOrDivision (fun f => Number.combine cfg f x y nxy nx ny n dxy dx dy d)
      (fun t => ∃ p c, t = .Other p c ∧ (p = some .Turn ∨ p = some .Ground) ∧
        Clog.AmplifiesForever cfg CheckedOverflowOrDivision c) := by
  have hi := cfg.imin_eq
  have e : M * 2 ^ (Lx + Ly + 5) = 4 * (4 * M * 2 ^ (Lx + Ly + 1)) := by
    rw [show Lx + Ly + 5 = Lx + Ly + 1 + 4 by omega, pow_add]; ring
  have hle : M ≤ 4 * M * 2 ^ (Lx + Ly + 1) := by
    have : (1 : Int) ≤ 2 ^ (Lx + Ly + 1) := one_le_pow₀ (by norm_num)
    nlinarith
  rw [e] at hM
  have h := fun z hz => abs_le.1 (hk z hz)
  have hf : (⟨nxy, nx, ny, n, dxy, dx, dy, d⟩ : Coef8).Fits cfg :=
    .of_list fun z hz => by
      obtain ⟨a, b⟩ := h z hz
      exact ⟨by omega, by omega⟩
  have hw : (⟨nxy, nx, ny, n, dxy, dx, dy, d⟩ : Coef8).Within M := by
    constructor <;> first | exact hM1 | exact (h _ (by simp)).1 | exact (h _ (by simp)).2
  exact Number.combine_pole_ends (.inr rfl) ((hx.weaken fun p hp => .inl hp).in_count hLx)
    ((hy.weaken fun p hp => .inl hp).in_count hLy) hw hf (safeUpTo_checked (.inl rfl) hM) hD

/-- The pole `25 x y - 9 = 0`. -/
example := C46_combine_pole release64 _ _ _ _ (denotes_three_fifths _ _) (denotes_three_fifths _ _) 2 2
  symbolCount_three_fifths symbolCount_three_fifths (2 ^ 53) (2 ^ 53) 1 (-1) 0 25 0 0 (-9)
  (by decide) (by decide) (by decide) (by norm_num)

end Clarith
