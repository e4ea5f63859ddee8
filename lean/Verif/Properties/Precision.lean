import Verif.Proofs.Rate
import Verif.Properties.CompareReach

/-! # C83 How precisely the symbols of a number determine it, exactly -/

namespace Clarith

open Out Spec

private theorem seen_id (x y : ℝ) : seen 0 1 x y = |x - y| := by simp [seen]

private theorem weight_id (a : ℝ) {b : ℝ} (hb : 1 ≤ b) (i : Nat) : 1 ≤ weight a b i 0 1 := by
  simp only [weight, mul_zero, zero_div, add_zero, one_pow, mul_one]
  exact one_le_pow₀ hb

/-- Two reals with the same first `n` symbols are no further apart than 9/8 times the fourth root of
`1 / (5 + 2√6)^n`: each symbol gives at least 0.826 bits. -/
theorem C83_worst_case (n : Nat) (x y : ℝ) (hx0 : 0 < x) (hx1 : x < 1) (hy0 : 0 < y) (hy1 : y < 1)
    (h : symbolsR n x = symbolsR n y) : (8 / 9 * |x - y|) ^ 4 * (5 + 2 * √6) ^ n ≤ 1 := by
  have hp := worstRate_pos
  obtain ⟨i, hi, hw⟩ := worst.seen n hx0 hx1 hy0 hy1 h (c := 0) (d := 1) le_rfl one_pos zero_le_one
  have e : 2 / (2 / worstRate) = worstRate := by field_simp
  rw [e, seen_id] at hw
  have h1 := weight_id (2 * √6 - 4) (b := 2 / worstRate) (by linarith [worst.b_lo]) i
  have h0 : 0 ≤ |x - y| * worstRate ^ n := by positivity
  have h2 : 8 / 9 * |x - y| * worstRate ^ n ≤ 1 := by nlinarith
  have h3 := pow_le_one₀ (n := 4) (by positivity : 0 ≤ 8 / 9 * |x - y| * worstRate ^ n) h2
  rw [mul_pow, ← pow_mul, mul_comm n 4, pow_mul, worstRate_pow] at h3
  exact h3

/-- These two have 32 symbols in common, and are not the same. -/
private theorem in_common :
    symbolsR 32 ((17389 / 18418 : ℚ) : ℝ) = symbolsR 32 ((20566 / 21783 : ℚ) : ℝ) := by
  rw [symbolsR_cast, symbolsR_cast]
  decide +kernel

example := C83_worst_case 32 ((17389 / 18418 : ℚ) : ℝ) ((20566 / 21783 : ℚ) : ℝ) (by norm_num)
  (by norm_num) (by norm_num) (by norm_num) in_common

example : (17389 / 18418 : ℚ) ≠ 20566 / 21783 := by norm_num

/-- So reading `4 n` symbols pins a number in (0,1) down to within `9/8 / (5 + 2√6)^n`, where
`5 + 2√6` is 9.8989…. -/
theorem C83_worst_case_four (n : Nat) (x y : ℝ) (hx0 : 0 < x) (hx1 : x < 1) (hy0 : 0 < y) (hy1 : y < 1)
    (h : symbolsR (4 * n) x = symbolsR (4 * n) y) : |x - y| ≤ 9 / 8 / (5 + 2 * √6) ^ n := by
  have h4 := C83_worst_case (4 * n) x y hx0 hx1 hy0 hy1 h
  rw [mul_comm 4 n, pow_mul, ← mul_pow] at h4
  have h1 := (pow_le_one_iff_of_nonneg (by positivity) (by norm_num : (4 : Nat) ≠ 0)).1 h4
  rw [le_div_iff₀ (by positivity)]
  linarith

example := C83_worst_case_four 8 ((17389 / 18418 : ℚ) : ℝ) ((20566 / 21783 : ℚ) : ℝ) (by norm_num)
  (by norm_num) (by norm_num) (by norm_num) in_common

/-- The same for two clogs of the library, whatever strategies they use. -/
theorem C83_worst_case_clogs (cfg : Cfg) (A : Panic → Prop) (n : Nat) (a b a' b' : Clog) (x y : ℚ)
    (rs : List (Option Reduction)) (ha : Clog.Denotes cfg A a x) (hb : Clog.Denotes cfg A b y)
    (hra : Returns (fun f => Clog.egests cfg f (4 * n) a) (rs, a'))
    (hrb : Returns (fun f => Clog.egests cfg f (4 * n) b) (rs, b')) :
    |(x : ℝ) - y| ≤ 9 / 8 / (5 + 2 * √6) ^ n := by
  have h1 := (ha.2.2 (4 * n)).of_returns hra
  have h2 := (hb.2.2 (4 * n)).of_returns hrb
  exact C83_worst_case_four n x y (by exact_mod_cast ha.1) (by exact_mod_cast ha.2.1)
    (by exact_mod_cast hb.1) (by exact_mod_cast hb.2.1)
    (by rw [symbolsR_cast, symbolsR_cast]; exact h1.symm.trans h2)

example := C83_worst_case_clogs debug64 NoPanic 8 (.ratio ⟨17389, 18418⟩) (.ratio ⟨20566, 21783⟩)
  (.ratio ⟨1, 4⟩) (.ratio ⟨1, 2⟩) _ _ (symbols 32 (17389 / 18418))
  (Ratio.denotes ⟨by decide, by decide, by decide⟩) (Ratio.denotes ⟨by decide, by decide, by decide⟩)
  (FuelMono.returns (Clog.egests_mono _ _ _) 40 (by decide +kernel))
  (FuelMono.returns (Clog.egests_mono _ _ _) 40 (by decide +kernel))

/-- This is the exact rate of the worst case: for every `n` there are numbers with the same first `4 n`
symbols (`Uncover`, `Amplify`, `Amplify`, `Amplify`, repeated) that are more than
`3/4 / (5 + 2√6)^n` apart. -/
theorem C83_worst_case_attained (n : Nat) : ∃ x y : ℝ, 0 < x ∧ x < 1 ∧ 0 < y ∧ y < 1 ∧
    symbolsR (4 * n) x = symbolsR (4 * n) y ∧ 3 / 4 / (5 + 2 * √6) ^ n < |x - y| := by
  obtain ⟨⟨⟨h1, h2⟩, h3, h4⟩, h5, h6⟩ := seen_iterate n (c := 0) (d := 1) le_rfl one_pos
    (z := 49 / 50) (z' := 1 / 50) (by norm_num) (by norm_num) (by norm_num) (by norm_num)
  refine ⟨_, _, h1, h2, h3, h4, h5, ?_⟩
  rw [seen_id, mul_zero, add_zero, one_pow, mul_one] at h6
  rw [div_lt_iff₀ (by positivity)]
  refine lt_of_lt_of_le ?_ h6
  have := worst_facts.2.2.1
  rw [show |(49 / 50 : ℝ) - 1 / 50| = 24 / 25 by norm_num [abs_of_pos]]
  nlinarith

example := C83_worst_case_attained 8

/-- On the other hand `n` symbols never say more than `1/6 / ((3 + √5)/2)^n`: whatever they are, there is
another number with the same first `n` symbols that is further away than that.  Each symbol gives at most
1.389 bits. -/
theorem C83_best_case (n : Nat) (x : ℝ) (hx0 : 0 < x) (hx1 : x < 1) (h : none ∉ symbolsR n x) :
    ∃ y : ℝ, 0 < y ∧ y < 1 ∧ symbolsR n y = symbolsR n x ∧
      1 / 6 / ((3 + √5) / 2) ^ n ≤ |x - y| := by
  obtain ⟨g1, g2, g3, g4⟩ := golden_facts
  obtain ⟨y, hy0, hy1, hy, hk⟩ := best_far n hx0 hx1 h g1 g3
  refine ⟨y, hy0, hy1, hy, ?_⟩
  have hk := hk 0 1 le_rfl one_pos
  rw [seen_id, g2, zero_add, mul_one] at hk
  rw [div_le_iff₀ (by positivity)]
  have h0 : 0 ≤ |x - y| * ((3 + √5) / 2) ^ n := by positivity
  have h2 : ((1 + √5) / 2) ^ 2 ≤ 2.89 := by nlinarith
  nlinarith

example := C83_best_case 32 ((17389 / 18418 : ℚ) : ℝ) (by norm_num) (by norm_num)
  (by rw [symbolsR_cast]; decide +kernel)

/-- Nor is this more than is attained: a number with the same first `n` symbols as `(√5 - 1)/2`, all of
them `Uncover`, is nearer to it than `(3 + √5)/2 / ((3 + √5)/2)^n`. -/
theorem C83_best_case_attained (n : Nat) :
    symbolsR n ((√5 - 1) / 2) = List.replicate n (some .Uncover) ∧
    ∀ y : ℝ, 0 < y → y < 1 → symbolsR n y = symbolsR n ((√5 - 1) / 2) →
      |(√5 - 1) / 2 - y| ≤ (3 + √5) / 2 / ((3 + √5) / 2) ^ n := by
  obtain ⟨g1, g2, g3, g4⟩ := golden_facts
  have h0 : 0 < (√5 - 1) / 2 := by linarith
  have h1 : (√5 - 1) / 2 < 1 := by linarith
  have hs : ∀ n, symbolsR n ((√5 - 1) / 2) = List.replicate n (some .Uncover) := by
    intro n
    induction n with
    | zero => rfl
    | succ n ih =>
      have hh : 1 / 2 < (√5 - 1) / 2 := by linarith
      rw [symbolsR_succ, symR_gt hh, nextR_gt hh, List.replicate_succ, ← ih]
      congr 2
      rw [sub_eq_iff_eq_add, div_eq_iff h0.ne']
      have h : √5 ^ 2 = 5 := Real.sq_sqrt (by norm_num)
      linear_combination (-1 / 4) * h
  refine ⟨hs n, fun y hy0 hy1 hy => ?_⟩
  have hk := best_near n h0 h1 hy0 hy1 (hs n) (hy.trans (hs n)) g1 g3 (c := 0) (d := 1) le_rfl one_pos
    zero_le_one
  rw [seen_id, zero_add, mul_one, g2, show (1 + (1 + √5) / 2) = (3 + √5) / 2 by ring] at hk
  have hp : 0 < (3 + √5) / 2 := by positivity
  rw [le_div_iff₀ (by positivity)]
  rw [sq ((3 + √5) / 2)] at hk
  exact le_of_mul_le_mul_right hk hp

example := C83_best_case_attained 8



/-- `5 + 2√6` is a little more than 9.898. -/
theorem C83_rate : 9898 / 1000 < 5 + 2 * √6 ∧ 5 + 2 * √6 < 9899 / 1000 := by
  have h : √6 ^ 2 = 6 := Real.sq_sqrt (by norm_num)
  have h0 : 0 ≤ √6 := Real.sqrt_nonneg 6
  constructor <;> nlinarith

/-- `compare` of two clogs more than `9/8 / (5 + 2√6)^n` apart reads fewer than `4 n` symbols in common,
then one more of each, which are different, and returns.  (C79 says fewer than `3 n` for `1 / 4^n`; a
given distance allows fewer symbols by this statement than by that one, once it is small.) -/
theorem C83_compare (cfg : Cfg) (p1 p2 : Option Primer) (c1 c2 : Clog) (x y : ℚ)
    (h1 : Clog.Denotes cfg NoPanic c1 x) (h2 : Clog.Denotes cfg NoPanic c2 y) (n : Nat)
    (h : 9 / 8 / (5 + 2 * √6) ^ n < |(x : ℝ) - y|) :
    ∃ (l : List Reduction) (d1 d2 e1 e2 : Clog) (r1 r2 : Option Reduction), l.length < 4 * n ∧
      InCommon cfg c1 c2 l d1 d2 ∧ Returns (fun f => Clog.egest cfg f d1) (r1, e1) ∧
      Returns (fun f => Clog.egest cfg f d2) (r2, e2) ∧ r1 ≠ r2 ∧
      Returns (fun f => Number.compare cfg f (.Other p1 c1) (.Other p2 c2))
        (answerAfter p1 p2 l r1 r2) := by
  refine compare_differs cfg p1 p2 c1 c2 x y h1 h2 _ fun e => ?_
  have := C83_worst_case_four n x y (by exact_mod_cast h1.1) (by exact_mod_cast h1.2.1)
    (by exact_mod_cast h2.1) (by exact_mod_cast h2.2.1) (by rw [symbolsR_cast, symbolsR_cast, e])
  linarith

/-- So for numbers with parts up to `2^b`, whatever the strategies inside, `compare` reads fewer than `4 n`
symbols in common when `9 / 8 * 4^b < 9.898^n`: for parts of a 64-bit machine (`b = 63`) that is fewer than
156, and about `2.42 b` in general. -/
theorem C83_compare_size (cfg : Cfg) (p1 p2 : Option Primer) (c1 c2 : Clog) (q r : ℚ) (b n : Nat)
    (h1 : Number.Denotes cfg NoPanic (.Other p1 c1) q)
    (h2 : Number.Denotes cfg NoPanic (.Other p2 c2) r) (hq : Parts (2 ^ b) q) (hr : Parts (2 ^ b) r)
    (hne : |q| ≠ |r|) (hinv : |q * r| ≠ 1) (hn : 9 * 4 ^ b * 1000 ^ n < 8 * 9898 ^ n) :
    ∃ (l : List Reduction) (d1 d2 e1 e2 : Clog) (r1 r2 : Option Reduction), l.length < 4 * n ∧
      InCommon cfg c1 c2 l d1 d2 ∧ Returns (fun f => Clog.egest cfg f d1) (r1, e1) ∧
      Returns (fun f => Clog.egest cfg f d2) (r2, e2) ∧ r1 ≠ r2 ∧
      Returns (fun f => Number.compare cfg f (.Other p1 c1) (.Other p2 c2))
        (answerAfter p1 p2 l r1 r2) := by
  obtain ⟨x, y, hx, hy, h⟩ := clogs_apart cfg p1 p2 c1 c2 q r b h1 h2 hq hr hne hinv
  refine C83_compare cfg p1 p2 c1 c2 x y hx hy n ?_
  have h' : ((1 / 4 ^ b : ℚ) : ℝ) ≤ ((|x - y| : ℚ) : ℝ) := by exact_mod_cast h
  push_cast at h'
  refine lt_of_lt_of_le ?_ h'
  have hp : ((9898 : ℝ) / 1000) ^ n ≤ (5 + 2 * √6) ^ n := pow_le_pow_left₀ (by norm_num) C83_rate.1.le n
  rw [div_lt_div_iff₀ (by positivity) (by positivity), one_mul]
  refine lt_of_lt_of_le ?_ hp
  rw [div_pow, lt_div_iff₀ (by positivity)]
  have hn' : (9 : ℝ) * 4 ^ b * 1000 ^ n < 8 * 9898 ^ n := by exact_mod_cast hn
  linarith
/-- So `compare` of two numbers made by `ratio` on a 64-bit machine reads at most 155 symbols in common, and
on a 16-bit machine at most 39. -/
theorem C83_compare_ratio (cfg : Cfg) (n : Nat) (num den num' den' : Int)
    (hn : |num| ≤ cfg.imax) (hd : |den| ≤ cfg.imax) (hn' : |num'| ≤ cfg.imax) (hd' : |den'| ≤ cfg.imax) (h0 : den ≠ 0)
    (h0' : den' ≠ 0) (p1 p2 : Option Primer) (c1 c2 : Clog)
    (h1 : Number.ratio cfg num den = .ok (.Other p1 c1))
    (h2 : Number.ratio cfg num' den' = .ok (.Other p2 c2))
    (hne : |num * den'| ≠ |den * num'|) (hinv : |num * num'| ≠ |den * den'|)
    (hk : 9 * 4 ^ (cfg.bits - 1) * 1000 ^ n < 8 * 9898 ^ n) :
    ∃ (l : List Reduction) (d1 d2 e1 e2 : Clog) (r1 r2 : Option Reduction),
      l.length < 4 * n ∧
      InCommon cfg c1 c2 l d1 d2 ∧ Returns (fun f => Clog.egest cfg f d1) (r1, e1) ∧
      Returns (fun f => Clog.egest cfg f d2) (r2, e2) ∧ r1 ≠ r2 ∧
      Returns (fun f => Number.compare cfg f (.Other p1 c1) (.Other p2 c2))
        (answerAfter p1 p2 l r1 r2) := by
  have him : cfg.imax = 2 ^ (cfg.bits - 1) - 1 := rfl
  have hi := cfg.imin_eq
  obtain ⟨a1, a2⟩ := abs_le.1 hn
  obtain ⟨a3, a4⟩ := abs_le.1 hd
  obtain ⟨a5, a6⟩ := abs_le.1 hn'
  obtain ⟨a7, a8⟩ := abs_le.1 hd'
  obtain ⟨x, ex, hx⟩ := C01_ratio_exact cfg num den ⟨by omega, a2⟩ ⟨by omega, a4⟩ h0
    fun _ => ⟨by omega, by omega⟩
  obtain ⟨y, ey, hy⟩ := C01_ratio_exact cfg num' den' ⟨by omega, a6⟩ ⟨by omega, a8⟩ h0'
    fun _ => ⟨by omega, by omega⟩
  rw [h1] at ex
  rw [h2] at ey
  cases ex
  cases ey
  have b0 : (den : ℚ) ≠ 0 := by exact_mod_cast h0
  have b0' : (den' : ℚ) ≠ 0 := by exact_mod_cast h0'
  refine C83_compare_size cfg p1 p2 c1 c2 _ _ (cfg.bits - 1) n hx hy
    ⟨num, den, h0, by omega, by omega, rfl⟩ ⟨num', den', h0', by omega, by omega, rfl⟩ ?_ ?_ hk
  · intro e
    rw [abs_div, abs_div, div_eq_div_iff (abs_ne_zero.2 b0) (abs_ne_zero.2 b0')] at e
    refine hne ?_
    rw [abs_mul, abs_mul, mul_comm |den|]
    exact_mod_cast e
  · intro e
    rw [div_mul_div_comm, abs_div, div_eq_one_iff_eq (abs_ne_zero.2 (mul_ne_zero b0 b0'))] at e
    exact hinv (by exact_mod_cast e)

/-- These two have 32 symbols in common. -/
example := C83_compare_ratio ⟨16, by decide, true⟩ 10 17389 18418 20566 21783 (by decide) (by decide)
  (by decide) (by decide) (by decide) (by decide) none none (.ratio ⟨17389, 18418⟩)
  (.ratio ⟨20566, 21783⟩) (by decide) (by decide) (by decide) (by decide) (by decide)

example := C83_compare_ratio ⟨64, by decide, true⟩ 39 (2 ^ 62 + 1) (2 ^ 63 - 1) (2 ^ 62) (2 ^ 63 - 3)
  (by decide) (by decide) (by decide) (by decide) (by decide) (by decide) none none _ _ rfl rfl
  (by decide) (by decide) (by decide)

end Clarith
