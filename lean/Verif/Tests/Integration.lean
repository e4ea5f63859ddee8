import Verif.Properties.Combine
import Verif.Properties.Compare

/-! # The integration tests of `tests/compare.rs`

The three tests loop over ranges of fractions and coefficients.  Here every case of every loop is
derived from the property theorems (and the first and third hold for every machine and build). -/

namespace Clarith.Tests

open Spec

/-- The symbols of `x`, if there are fewer than the given number. -/
def expand : Nat → ℚ → Option (List Reduction)
  | 0, _ => none
  | f + 1, x =>
    if x = 1 / 2 then some []
    else if 0 < x ∧ x < 1 / 2 then (expand f (2 * x)).map (.Amplify :: ·)
    else if 1 / 2 < x ∧ x < 1 then (expand f (1 / x - 1)).map (.Uncover :: ·)
    else none

theorem expand_sound {f : Nat} {x : ℚ} {l : List Reduction} (h : expand f x = some l) :
    Expands x l ∧ l.length < f := by
  induction f generalizing x l with
  | zero => simp [expand] at h
  | succ f ih =>
    unfold expand at h
    split at h
    · rename_i e
      simp only [Option.some.injEq] at h
      subst h e
      exact ⟨.half, by simp⟩
    split at h
    · rename_i e
      obtain ⟨l', hl, rfl⟩ := Option.map_eq_some_iff.mp h
      have := ih hl
      exact ⟨.amplify e.1 e.2 this.1, by simpa using this.2⟩
    split at h
    · rename_i e
      obtain ⟨l', hl, rfl⟩ := Option.map_eq_some_iff.mp h
      have := ih hl
      exact ⟨.uncover e.1 e.2 this.1, by simpa using this.2⟩
    · simp at h

/-- A decision procedure for `SymbolCount`. -/
def counts (L : Nat) (q : ℚ) : Bool :=
  q = 0 || q = 1 || q = -1 || (expand (L + 1) q).isSome || (expand (L + 1) (-q)).isSome ||
    (expand (L + 1) (1 / q)).isSome || (expand (L + 1) (-(1 / q))).isSome

theorem counts_sound {L : Nat} {q : ℚ} (h : counts L q = true) : SymbolCount q L := by
  have key : ∀ (p : Option Primer) (x : ℚ), (expand (L + 1) x).isSome = true →
      q = applyPrimer p x → SymbolCount q L := by
    intro p x hx e
    obtain ⟨l, hl⟩ := Option.isSome_iff_exists.mp hx
    have := expand_sound hl
    exact .inr ⟨p, x, l, e, this.1, by omega⟩
  simp only [counts, Bool.or_eq_true, decide_eq_true_eq] at h
  rcases h with ((((((h | h) | h) | h) | h) | h) | h)
  · exact .inl ⟨.Zero, h⟩
  · exact .inl ⟨.PosOne, h⟩
  · exact .inl ⟨.NegOne, h⟩
  · exact key none q h rfl
  · exact key (some .Reflect) _ h (by simp [applyPrimer])
  · exact key (some .Turn) _ h (by simp [applyPrimer])
  · exact key (some .Ground) _ h (by simp [applyPrimer, div_neg, neg_neg])

/-- The fractions of the second test. -/
theorem small_fractions : ∀ a ∈ List.range 13, ∀ b ∈ List.range 13,
    ((b : Int) - 6 = 0 ∨ counts 5 ((((a : Int) - 6 : Int) : ℚ) / (((b : Int) - 6 : Int) : ℚ)) = true) := by
  decide +kernel

theorem _root_.Clarith.Returns.bind {α β : Type} {m : Nat → Out α} {g : Nat → α → Out β} {a : α}
    {b : β} (h : Returns m a) (h' : Returns (fun f => g f a) b) :
    Returns (fun f => m f >>= g f) b := by
  obtain ⟨f₀, h⟩ := h
  obtain ⟨f₁, h'⟩ := h'
  refine ⟨max f₀ f₁, fun f hf => ?_⟩
  show (m f >>= g f) = _
  rw [h f (le_trans (le_max_left ..) hf)]
  exact h' f (le_trans (le_max_right ..) hf)

/-- tests/compare.rs:24-50 `test_compare`: any fractions of magnitudes the machine has. -/
theorem test_compare (cfg : Cfg) (n1 d1 n2 d2 : Int) (h1 : -25 ≤ n1 ∧ n1 < 25)
    (h2 : -25 ≤ d1 ∧ d1 < 25) (h3 : -25 ≤ n2 ∧ n2 < 25) (h4 : -25 ≤ d2 ∧ d2 < 25)
    (hd1 : d1 ≠ 0) (hd2 : d2 ≠ 0) :
    ∃ x y, Number.ratio cfg n1 d1 = .ok x ∧ Number.ratio cfg n2 d2 = .ok y ∧
      Returns (fun f => Number.compare cfg f x y) (order (n1 / d1) (n2 / d2)) := by
  have hm := cfg.imax_ge
  have hi := cfg.imin_eq
  exact C14_total_order cfg n1 d1 n2 d2 hd1 hd2 ⟨by omega, by omega⟩ ⟨by omega, by omega⟩
    ⟨by omega, by omega⟩ ⟨by omega, by omega⟩ fun _ => ⟨by omega, by omega, by omega, by omega⟩

/-- tests/compare.rs:52-93 `compare_homographics`, on machines of at least 32 bits: every case in
which the expected result is not a division by zero. -/
theorem compare_homographics (cfg : Cfg) (hb : 32 ≤ cfg.bits) (nx n dx d xn xd rn rd : Int)
    (h1 : -6 ≤ nx ∧ nx < 6) (h2 : -6 ≤ n ∧ n < 6) (h3 : -6 ≤ dx ∧ dx < 6) (h4 : -6 ≤ d ∧ d < 6)
    (hn : -6 ≤ xn ∧ xn < 6) (hd : -6 ≤ xd ∧ xd < 6) (hd0 : xd ≠ 0)
    (hD : (dx : ℚ) * (xn / xd) + d ≠ 0) (h5 : -cfg.imax ≤ rn ∧ rn ≤ cfg.imax)
    (h6 : -cfg.imax ≤ rd ∧ rd ≤ cfg.imax) (hr0 : rd ≠ 0)
    (hr : (rn : ℚ) / rd = (nx * (xn / xd) + n) / (dx * (xn / xd) + d)) :
    ∃ x y, Number.ratio cfg xn xd = .ok x ∧ Number.ratio cfg rn rd = .ok y ∧
      Returns (fun f => do
        let z ← Number.homographic cfg f x nx n dx d
        Number.compare cfg f z y) .eq := by
  have hi := cfg.imin_eq
  have hmax : (2 ^ 31 - 1 : Int) ≤ cfg.imax := by
    unfold Cfg.imax
    have : (2 : Int) ^ 31 ≤ 2 ^ (cfg.bits - 1) := pow_le_pow_right₀ (by norm_num) (by omega)
    omega
  obtain ⟨x, ex, hx⟩ := C01_ratio_exact cfg xn xd ⟨by omega, by omega⟩ ⟨by omega, by omega⟩ hd0
    fun _ => ⟨by omega, by omega⟩
  obtain ⟨y, ey, hy⟩ := C01_ratio_exact cfg rn rd ⟨by omega, by omega⟩ ⟨by omega, by omega⟩ hr0
    fun _ => ⟨by omega, by omega⟩
  refine ⟨x, y, ex, ey, ?_⟩
  have hc : SymbolCount ((xn : ℚ) / xd) 5 := by
    have := small_fractions (xn + 6).toNat (List.mem_range.mpr (by omega)) (xd + 6).toNat
      (List.mem_range.mpr (by omega))
    rw [Int.toNat_of_nonneg (by omega), Int.toNat_of_nonneg (by omega)] at this
    simp only [add_sub_cancel_right] at this
    exact counts_sound (this.resolve_left hd0)
  obtain ⟨z, ez, hz⟩ := C31_safe_size cfg x _ hx 5 hc 6 nx n dx d (abs_le.mpr ⟨by omega, by omega⟩)
    (abs_le.mpr ⟨by omega, by omega⟩) (abs_le.mpr ⟨by omega, by omega⟩)
    (abs_le.mpr ⟨by omega, by omega⟩) (by omega) hD
  rcases C13_compare cfg NoPanic z y _ _ hz hy with ⟨o, ho, h⟩ | ⟨_, _, h⟩
  · have : o = .eq := h.2.1.mpr hr.symm
    subst this
    exact Returns.bind ez ho
  · exact h.elim

/-- tests/compare.rs:95-115 `compare_combines`, 138-203 `compare_combine`: every case in which the expected result is not a
division by zero. -/
theorem compare_combines (cfg : Cfg) (x y : Int × Int)
    (hx : x ∈ [(-2, 1), (-1, 1), (-2, 3), (-1, 2), (-1, 4), (0, 1), (1, 4), (1, 2), (2, 3), (1, 1),
      (2, 1)])
    (hy : y ∈ [(-2, 1), (-1, 1), (-2, 3), (-1, 2), (-1, 4), (0, 1), (1, 4), (1, 2), (2, 3), (1, 1),
      (2, 1)])
    (nxy nx ny n dxy dx dy d : Int) (hk : ∀ z ∈ [nxy, nx, ny, n, dxy, dx, dy, d], -1 ≤ z ∧ z ≤ 2)
    (q r : ℚ) (hq : q = x.1 / x.2) (hr : r = y.1 / y.2)
    (hD : (dxy : ℚ) * q * r + dx * q + dy * r + d ≠ 0) (rn rd : Int)
    (h5 : -cfg.imax ≤ rn ∧ rn ≤ cfg.imax) (h6 : -cfg.imax ≤ rd ∧ rd ≤ cfg.imax) (hr0 : rd ≠ 0)
    (hv : (rn : ℚ) / rd =
      (nxy * q * r + nx * q + ny * r + n) / (dxy * q * r + dx * q + dy * r + d)) :
    ∃ a b c, Number.ratio cfg x.1 x.2 = .ok a ∧ Number.ratio cfg y.1 y.2 = .ok b ∧
      Number.ratio cfg rn rd = .ok c ∧
      Returns (fun f => do
        let z ← Number.combine cfg f a b nxy nx ny n dxy dx dy d
        Number.compare cfg f z c) .eq := by
  have hi := cfg.imin_eq
  have hm := cfg.imax_ge
  have input : ∀ z : Int × Int, z ∈ [((-2 : Int), (1 : Int)), (-1, 1), (-2, 3), (-1, 2), (-1, 4),
      (0, 1), (1, 4), (1, 2), (2, 3), (1, 1), (2, 1)] →
      (-2 ≤ z.1 ∧ z.1 ≤ 2 ∧ 1 ≤ z.2 ∧ z.2 ≤ 4) ∧ counts 1 ((z.1 : ℚ) / z.2) = true := by
    decide +kernel
  obtain ⟨bx, cx⟩ := input x hx
  obtain ⟨bY, cy⟩ := input y hy
  obtain ⟨a, ea, ha⟩ := C01_ratio_exact cfg x.1 x.2 ⟨by omega, by omega⟩ ⟨by omega, by omega⟩
    (by omega) fun _ => ⟨by omega, by omega⟩
  obtain ⟨b, eb, hb⟩ := C01_ratio_exact cfg y.1 y.2 ⟨by omega, by omega⟩ ⟨by omega, by omega⟩
    (by omega) fun _ => ⟨by omega, by omega⟩
  obtain ⟨c, ec, hc⟩ := C01_ratio_exact cfg rn rd ⟨by omega, by omega⟩ ⟨by omega, by omega⟩ hr0
    fun _ => ⟨by omega, by omega⟩
  rw [← hq] at ha cx
  rw [← hr] at hb cy
  obtain ⟨z, ez, hz⟩ := C42_safe_size cfg a b q r ha hb 1 1 (counts_sound cx) (counts_sound cy) 2
    nxy nx ny n dxy dx dy d (fun z hz => abs_le.mpr ⟨by have := hk z hz; omega, (hk z hz).2⟩)
    (by omega) hD
  refine ⟨a, b, c, ea, eb, ec, ?_⟩
  rcases C13_compare cfg NoPanic z c _ _ hz hc with ⟨o, ho, h⟩ | ⟨_, _, h⟩
  · have : o = .eq := h.2.1.mpr hv.symm
    subst this
    exact Returns.bind ez ho
  · exact h.elim

end Clarith.Tests
