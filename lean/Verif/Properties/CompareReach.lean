import Verif.Properties.CompareReads
import Verif.Properties.Reals
import Verif.Properties.Room

/-! # C79 How many symbols `compare` reads, by the distance of the operands -/

namespace Clarith

open Out Spec

/-- Two numbers whose first symbols are not the same have some first symbols in common, and then
different ones. -/
private theorem first_difference (m : Nat) (x y : ℚ) (h : symbols m x ≠ symbols m y) :
    ∃ l : List Reduction, l.length < m ∧ symbols l.length x = l.map some ∧
      symbols l.length y = l.map some ∧ sym (next^[l.length] x) ≠ sym (next^[l.length] y) := by
  induction m generalizing x y with
  | zero => exact absurd rfl h
  | succ m ih =>
    by_cases e : sym x = sym y
    · cases hx : sym x with
      | none =>
        rw [hx] at e
        rw [sym_eq_none.1 hx, sym_eq_none.1 e.symm] at h
        exact absurd rfl h
      | some r =>
        rw [symbols_succ, symbols_succ, ← e] at h
        obtain ⟨l, h1, h2, h3, h4⟩ := ih (next x) (next y) fun e' => h (by rw [e'])
        refine ⟨r :: l, by simpa using h1, ?_, ?_, ?_⟩
        · rw [List.length_cons, symbols_succ, h2, hx]; rfl
        · rw [List.length_cons, symbols_succ, h3, ← e, hx]; rfl
        · rw [List.length_cons, Function.iterate_succ_apply, Function.iterate_succ_apply]
          exact h4
    · exact ⟨[], by simp, rfl, rfl, e⟩

/-- `compare` of two clogs whose first `m` symbols are not the same reads fewer than `m` symbols in
common, then one more of each, which are different, and returns. -/
theorem compare_differs (cfg : Cfg) (p1 p2 : Option Primer) (c1 c2 : Clog) (x y : ℚ)
    (h1 : Clog.Denotes cfg NoPanic c1 x) (h2 : Clog.Denotes cfg NoPanic c2 y) (m : Nat)
    (hne : symbols m x ≠ symbols m y) :
    ∃ (l : List Reduction) (d1 d2 e1 e2 : Clog) (r1 r2 : Option Reduction), l.length < m ∧
      InCommon cfg c1 c2 l d1 d2 ∧ Returns (fun f => Clog.egest cfg f d1) (r1, e1) ∧
      Returns (fun f => Clog.egest cfg f d2) (r2, e2) ∧ r1 ≠ r2 ∧
      Returns (fun f => Number.compare cfg f (.Other p1 c1) (.Other p2 c2))
        (answerAfter p1 p2 l r1 r2) := by
  obtain ⟨l, hl, e1, e2, hs⟩ := first_difference _ x y hne
  obtain ⟨⟨l1, d1⟩, hr1, hl1, hd1⟩ := (h1.after l.length).returns
  obtain ⟨⟨l2, d2⟩, hr2, hl2, hd2⟩ := (h2.after l.length).returns
  simp only at hl1 hl2 hd1 hd2
  rw [hl1, e1] at hr1
  rw [hl2, e2] at hr2
  obtain ⟨⟨r1, e1⟩, hs1, hq1, -⟩ := hd1.step.returns
  obtain ⟨⟨r2, e2⟩, hs2, hq2, -⟩ := hd2.step.returns
  simp only at hq1 hq2
  rw [← hq1, ← hq2] at hs
  exact ⟨l, d1, d2, e1, e2, r1, r2, hl, ⟨hr1, hr2⟩, hs1, hs2, hs,
    (C57_compare_reads cfg p1 p2 c1 c2 d1 d2 l ⟨hr1, hr2⟩).2.2 r1 r2 e1 e2 hs1 hs2 (.inl hs)⟩

/-- `compare` of two clogs at least `1 / 4 ^ n` apart reads fewer than `3 n` symbols in common, then
one more of each, which are different, and returns. -/
theorem C79_apart (cfg : Cfg) (p1 p2 : Option Primer) (c1 c2 : Clog) (x y : ℚ)
    (h1 : Clog.Denotes cfg NoPanic c1 x) (h2 : Clog.Denotes cfg NoPanic c2 y) (n : Nat)
    (h : 1 / 4 ^ n ≤ |x - y|) :
    ∃ (l : List Reduction) (d1 d2 e1 e2 : Clog) (r1 r2 : Option Reduction), l.length < 3 * n ∧
      InCommon cfg c1 c2 l d1 d2 ∧ Returns (fun f => Clog.egest cfg f d1) (r1, e1) ∧
      Returns (fun f => Clog.egest cfg f d2) (r2, e2) ∧ r1 ≠ r2 ∧
      Returns (fun f => Number.compare cfg f (.Other p1 c1) (.Other p2 c2))
        (answerAfter p1 p2 l r1 r2) := by
  have hne : symbols (3 * n) x ≠ symbols (3 * n) y := by
    intro e
    have := C41_precision_three n x y (by exact_mod_cast h1.1) (by exact_mod_cast h1.2.1)
      (by exact_mod_cast h2.1) (by exact_mod_cast h2.2.1) (by rw [symbolsR_cast, symbolsR_cast, e])
    have h' : ((1 / 4 ^ n : ℚ) : ℝ) ≤ ((|x - y| : ℚ) : ℝ) := by exact_mod_cast h
    push_cast at h'
    linarith
  exact compare_differs cfg p1 p2 c1 c2 x y h1 h2 _ hne

/-- The number in (0,1) behind a primer. -/
private theorem unprimed {p : Option Primer} {x q : ℚ} (h0 : 0 < x) (e : q = applyPrimer p x) :
    x = |q| ∨ q ≠ 0 ∧ x = 1 / |q| := by
  have hi : 0 < 1 / x := by positivity
  rcases p with - | - | - | -
  · exact .inl (by rw [e]; exact (abs_of_pos h0).symm)
  · exact .inr ⟨by rw [e]; exact hi.ne', by
      rw [e]; change x = 1 / |1 / x|; rw [abs_of_pos hi, one_div_one_div]⟩
  · exact .inl (by rw [e]; change x = |(-x)|; rw [abs_neg, abs_of_pos h0])
  · exact .inr ⟨by rw [e]; change -(1 / x) ≠ 0; linarith, by
      rw [e]; change x = 1 / |(-(1 / x))|; rw [abs_neg, abs_of_pos hi, one_div_one_div]⟩

private theorem parts_unprimed {p : Option Primer} {x q : ℚ} (h0 : 0 < x) (e : q = applyPrimer p x)
    {N : Int} (h : Parts N q) : ∃ a b : Nat, b ≠ 0 ∧ (b : Int) ≤ N ∧ x = (a : ℚ) / b := by
  obtain ⟨num, den, hd, h1, h2, e'⟩ := h
  rw [← Int.natCast_natAbs] at h1 h2
  have hq : |q| = (num.natAbs : ℚ) / den.natAbs := by
    rw [e', abs_div, Nat.cast_natAbs, Nat.cast_natAbs]; push_cast; rfl
  rcases unprimed h0 e with hx | ⟨hq0, hx⟩
  · exact ⟨num.natAbs, den.natAbs, by omega, h2, hx.trans hq⟩
  · have hn : num.natAbs ≠ 0 := by
      intro hn
      rw [hn] at hq
      simp at hq
      exact hq0 hq
    exact ⟨den.natAbs, num.natAbs, hn, h1, by rw [hx, hq, one_div_div]⟩

/-- Two numbers with parts up to `2^b`, not equal, opposite or inverse up to the sign, have clogs at least
`1 / 4 ^ b` apart. -/
theorem clogs_apart (cfg : Cfg) (p1 p2 : Option Primer) (c1 c2 : Clog) (q r : ℚ) (b : Nat)
    (h1 : Number.Denotes cfg NoPanic (.Other p1 c1) q)
    (h2 : Number.Denotes cfg NoPanic (.Other p2 c2) r) (hq : Parts (2 ^ b) q) (hr : Parts (2 ^ b) r)
    (hne : |q| ≠ |r|) (hinv : |q * r| ≠ 1) :
    ∃ x y : ℚ, Clog.Denotes cfg NoPanic c1 x ∧ Clog.Denotes cfg NoPanic c2 y ∧
      1 / 4 ^ b ≤ |x - y| := by
  obtain ⟨x, hx, ex⟩ := h1
  obtain ⟨y, hy, ey⟩ := h2
  have hxy : x ≠ y := by
    intro e
    have hx' := unprimed hx.1 ex
    have hy' := unprimed hy.1 ey
    rw [← e] at hy'
    rw [abs_mul] at hinv
    rcases hx' with hx' | ⟨h0, hx'⟩ <;> rcases hy' with hy' | ⟨h0', hy'⟩
    · exact hne (hx'.symm.trans hy')
    · refine hinv ?_
      rw [← hx', hy', one_div_mul_cancel (abs_ne_zero.2 h0')]
    · refine hinv ?_
      rw [← hy', hx', mul_one_div_cancel (abs_ne_zero.2 h0)]
    · refine hne ?_
      have := hx'.symm.trans hy'
      rw [one_div, one_div] at this
      exact inv_injective this
  obtain ⟨m, n, hn, hn', e1⟩ := parts_unprimed hx.1 ex hq
  obtain ⟨m', n', hn0, hn0', e2⟩ := parts_unprimed hy.1 ey hr
  refine ⟨x, y, hx, hy, ?_⟩
  have p1 : (0 : ℚ) < n := by exact_mod_cast Nat.pos_of_ne_zero hn
  have p2 : (0 : ℚ) < n' := by exact_mod_cast Nat.pos_of_ne_zero hn0
  have hz : ((m * n' : Int) - n * m' : Int) ≠ 0 := by
    intro e
    refine hxy ?_
    rw [e1, e2, div_eq_div_iff p1.ne' p2.ne']
    have : (m : ℚ) * n' - n * m' = 0 := by exact_mod_cast e
    linarith
  have hz' : (1 : ℚ) ≤ |(m : ℚ) * n' - n * m'| := by
    have := Int.one_le_abs hz
    exact_mod_cast this
  have hd : (n : ℚ) * n' ≤ 4 ^ b := by
    have a1 : (n : ℚ) ≤ 2 ^ b := by exact_mod_cast hn'
    have a2 : (n' : ℚ) ≤ 2 ^ b := by exact_mod_cast hn0'
    calc (n : ℚ) * n' ≤ 2 ^ b * 2 ^ b := by gcongr
      _ = 4 ^ b := by rw [← mul_pow]; norm_num
  rw [e1, e2, div_sub_div _ _ p1.ne' p2.ne', abs_div, abs_of_pos (mul_pos p1 p2)]
  exact div_le_div₀ (by positivity) hz' (mul_pos p1 p2) hd

/-- `compare` of two numbers with parts up to `2^b`, whatever the strategies inside, reads fewer than
`3 b` symbols in common, then two different ones, and returns; except when the numbers are equal,
opposite or inverse up to the sign. -/
theorem C79_size (cfg : Cfg) (p1 p2 : Option Primer) (c1 c2 : Clog) (q r : ℚ) (b : Nat)
    (h1 : Number.Denotes cfg NoPanic (.Other p1 c1) q)
    (h2 : Number.Denotes cfg NoPanic (.Other p2 c2) r) (hq : Parts (2 ^ b) q) (hr : Parts (2 ^ b) r)
    (hne : |q| ≠ |r|) (hinv : |q * r| ≠ 1) :
    ∃ (l : List Reduction) (d1 d2 e1 e2 : Clog) (r1 r2 : Option Reduction), l.length < 3 * b ∧
      InCommon cfg c1 c2 l d1 d2 ∧ Returns (fun f => Clog.egest cfg f d1) (r1, e1) ∧
      Returns (fun f => Clog.egest cfg f d2) (r2, e2) ∧ r1 ≠ r2 ∧
      Returns (fun f => Number.compare cfg f (.Other p1 c1) (.Other p2 c2))
        (answerAfter p1 p2 l r1 r2) := by
  obtain ⟨x, y, hx, hy, h⟩ := clogs_apart cfg p1 p2 c1 c2 q r b h1 h2 hq hr hne hinv
  exact C79_apart cfg p1 p2 c1 c2 x y hx hy b h

/-- So `compare` of two numbers made by `ratio` reads fewer than `3 * (bits - 1)` symbols in common:
188 at most on a 64-bit machine, although such a number can have more than 2000 symbols. -/
theorem C79_ratio (cfg : Cfg) (num den num' den' : Int) (hn : |num| ≤ cfg.imax)
    (hd : |den| ≤ cfg.imax) (hn' : |num'| ≤ cfg.imax) (hd' : |den'| ≤ cfg.imax) (h0 : den ≠ 0)
    (h0' : den' ≠ 0) (p1 p2 : Option Primer) (c1 c2 : Clog)
    (h1 : Number.ratio cfg num den = .ok (.Other p1 c1))
    (h2 : Number.ratio cfg num' den' = .ok (.Other p2 c2))
    (hne : |num * den'| ≠ |den * num'|) (hinv : |num * num'| ≠ |den * den'|) :
    ∃ (l : List Reduction) (d1 d2 e1 e2 : Clog) (r1 r2 : Option Reduction),
      l.length < 3 * (cfg.bits - 1) ∧
      InCommon cfg c1 c2 l d1 d2 ∧ Returns (fun f => Clog.egest cfg f d1) (r1, e1) ∧
      Returns (fun f => Clog.egest cfg f d2) (r2, e2) ∧ r1 ≠ r2 ∧
      Returns (fun f => Number.compare cfg f (.Other p1 c1) (.Other p2 c2))
        (answerAfter p1 p2 l r1 r2) := by
  have him : cfg.imax = 2 ^ (cfg.bits - 1) - 1 := rfl
  have hi := cfg.imin_eq
  obtain ⟨a1, a2⟩ := abs_le.1 hn
  obtain ⟨a3, a4⟩ := abs_le.1 hd
  obtain ⟨a5, a6⟩ := abs_le.1 hn'
  obtain ⟨a7, a8⟩ := abs_le.1 hd'
  obtain ⟨x, ex, hx⟩ := C01_ratio_exact cfg num den ⟨by omega, a2⟩ ⟨by omega, a4⟩ h0
    fun _ => ⟨by omega, by omega⟩
  obtain ⟨y, ey, hy⟩ := C01_ratio_exact cfg num' den' ⟨by omega, a6⟩ ⟨by omega, a8⟩ h0'
    fun _ => ⟨by omega, by omega⟩
  rw [h1] at ex
  rw [h2] at ey
  cases ex
  cases ey
  have b0 : (den : ℚ) ≠ 0 := by exact_mod_cast h0
  have b0' : (den' : ℚ) ≠ 0 := by exact_mod_cast h0'
  refine C79_size cfg p1 p2 c1 c2 _ _ (cfg.bits - 1) hx hy
    ⟨num, den, h0, by omega, by omega, rfl⟩ ⟨num', den', h0', by omega, by omega, rfl⟩ ?_ ?_
  · intro e
    rw [abs_div, abs_div, div_eq_div_iff (abs_ne_zero.2 b0) (abs_ne_zero.2 b0')] at e
    refine hne ?_
    rw [abs_mul, abs_mul, mul_comm |den|]
    exact_mod_cast e
  · intro e
    rw [div_mul_div_comm, abs_div, div_eq_one_iff_eq (abs_ne_zero.2 (mul_ne_zero b0 b0'))] at e
    exact hinv (by exact_mod_cast e)

/-- On 16 bits at most 44 symbols in common: these two have 32. -/
example := C79_ratio ⟨16, by decide, true⟩ 17389 18418 20566 21783 (by decide) (by decide) (by decide)
  (by decide) (by decide) (by decide) none none (.ratio ⟨17389, 18418⟩) (.ratio ⟨20566, 21783⟩)
  (by decide) (by decide) (by decide) (by decide)

example : ∃ (l : List Reduction) (d1 d2 : Clog), l.length = 32 ∧
    InCommon ⟨16, by decide, true⟩ (.ratio ⟨17389, 18418⟩) (.ratio ⟨20566, 21783⟩) l d1 d2 := by
  refine ⟨[.Uncover, .Amplify, .Amplify, .Amplify, .Amplify, .Uncover, .Amplify, .Amplify, .Amplify,
    .Amplify, .Uncover, .Amplify, .Amplify, .Amplify, .Uncover, .Amplify, .Amplify, .Amplify, .Uncover,
    .Amplify, .Amplify, .Amplify, .Uncover, .Amplify, .Amplify, .Amplify, .Amplify, .Uncover, .Amplify,
    .Amplify, .Amplify, .Uncover], .ratio ⟨1, 4⟩, .ratio ⟨1, 2⟩, rfl, ?_, ?_⟩ <;>
  exact FuelMono.returns (Clog.egests_mono _ _ _) 40 (by decide +kernel)

/-- The exception: a number and its opposite have all their symbols in common, here those of 1/4096
and -1/4096. -/
example : InCommon ⟨16, by decide, true⟩ (.ratio ⟨1, 4096⟩) (.ratio ⟨1, 4096⟩)
    (List.replicate 11 .Amplify) (.ratio ⟨1, 2⟩) (.ratio ⟨1, 2⟩) := by
  constructor <;> exact FuelMono.returns (Clog.egests_mono _ _ _) 40 (by decide +kernel)

end Clarith
