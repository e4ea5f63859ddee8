import Verif.Properties.Quotient
import Verif.Properties.Small
import Verif.Properties.Same

/-! # C76 The room that the four operations need -/

namespace Clarith

open Out Spec

variable {cfg : Cfg}

/-- The symbols of a number whose growth is known. -/
theorem Number.Denotes.by_growth {A : Panic → Prop} {x : Number} {q g : ℚ}
    (hx : Number.Denotes cfg A x q) (hg : GrowthAtMost q g) :
    Number.DenotesBy cfg A x q (fun l => ∃ v, Expands v l ∧ growth v l ≤ g) := by
  cases x with
  | Special s => exact hx
  | Other p c =>
    obtain ⟨v, hv, e⟩ := hx
    rcases hg with ⟨s, e'⟩ | ⟨p', u, l, e', hl, hG⟩
    · exact absurd (e.symm.trans e') (applyPrimer_ne_special hv.1 hv.2.1)
    · obtain ⟨-, rfl⟩ := applyPrimer_inj hv.1 hv.2.1 hl.mem.1 hl.mem.2 (e.symm.trans e')
      exact ⟨v, l, hv, hl, ⟨v, hl, hG⟩, e⟩

/-- Forms that start at `S` end at `2*S*g`. -/
private theorem total_grows {v g : ℚ} {l : List Reduction} (hl : Expands v l) (hg : growth v l ≤ g)
    {S : Int} (hS : 0 ≤ S) : (total l S S : ℚ) ≤ 2 * S * g := by
  rw [total_growth hl]
  have : (0 : ℚ) ≤ S := by exact_mod_cast hS
  nlinarith

private theorem safe_of_rat {M : Int} {m : ℚ} (h0 : 0 ≤ M) (h1 : (M : ℚ) ≤ m)
    (h : m ^ 2 ≤ cfg.imax) : cfg.SafeUpTo NoPanic M := by
  refine safeUpTo_of_sq_le h0 ?_
  have h0' : (0 : ℚ) ≤ M := by exact_mod_cast h0
  have : (M : ℚ) * M ≤ cfg.imax := by nlinarith
  exact_mod_cast this

private theorem safe_peak {v g : ℚ} {l : List Reduction} (hl : Expands v l) (hg : growth v l ≤ g)
    {S : Int} (hS : 1 ≤ S) {m : ℚ} (hm : 2 * S * g ≤ m) (h : m ^ 2 ≤ cfg.imax) :
    cfg.SafeUpTo NoPanic (peak l S S) := by
  have h1 := (le_peak l (a := S) (b := S) (by omega) (by omega)).1
  have h2 := peak_le_total l (a := S) (b := S) (by omega) (by omega)
  have h3 := total_grows hl hg (S := S) (by omega)
  have h4 : (peak l S S : ℚ) ≤ total l S S := by exact_mod_cast h2
  exact safe_of_rat (by omega) (by linarith) h

/-- `homographic` of a number whose representation grows at most by `g`, with coefficients whose
magnitudes add up to at most `S` in the numerator and in the denominator, gives the exact value
without any panic whenever `(2*S*g)^2` is at most `isize::MAX`. -/
theorem C76_homographic (cfg : Cfg) (x : Number) (q g : ℚ) (S nx n dx d : Int)
    (hx : Number.Denotes cfg NoPanic x q) (hg : GrowthAtMost q g) (hg1 : 1 ≤ g)
    (h1 : |nx| + |n| ≤ S) (h2 : |dx| + |d| ≤ S) (h : (2 * S * g) ^ 2 ≤ (cfg.imax : ℚ))
    (hD : dx * q + d ≠ 0) :
    ∃ t, Returns (fun f => Number.homographic cfg f x nx n dx d) t ∧
      Number.Denotes cfg NoPanic t ((nx * q + n) / (dx * q + d)) := by
  have hS : 1 ≤ S := by
    by_contra hc
    have e1 : dx = 0 := abs_nonpos_iff.1 (by have := abs_nonneg d; omega)
    have e2 : d = 0 := abs_nonpos_iff.1 (by have := abs_nonneg dx; omega)
    simp [e1, e2] at hD
  have hS' : (1 : ℚ) ≤ S := by exact_mod_cast hS
  have hs : cfg.SafeUpTo NoPanic S := safe_of_rat (by omega) (by nlinarith) h
  have hfit : ∀ z : Int, |z| ≤ S → cfg.Fits z := fun z hz =>
    (hs.1 z (by omega)).resolve_right fun h => h.1.elim
  have a1 := abs_nonneg nx; have a2 := abs_nonneg n; have a3 := abs_nonneg dx; have a4 := abs_nonneg d
  have b1 := abs_le.1 ((abs_add_le n nx).trans ((add_comm _ _).trans_le h1))
  have b2 := abs_le.1 ((abs_sub n nx).trans ((add_comm _ _).trans_le h1))
  have b3 := abs_le.1 ((abs_add_le d dx).trans ((add_comm _ _).trans_le h2))
  have b4 := abs_le.1 ((abs_sub d dx).trans ((add_comm _ _).trans_le h2))
  have ha : Homographic.Sums cfg S nx n dx d :=
    ⟨hS, hfit _ (by omega), hfit _ (by omega), hfit _ (by omega), hfit _ (by omega), b1.1, b1.2, b2.1,
      b2.2, b3.1, b3.2, b4.1, b4.2⟩
  exact (Number.homographic_sums_ends (hx.by_growth hg) ha hs
    (fun l ⟨v, hl, hG⟩ => safe_peak hl hG hS le_rfl h) hD).returns

/-- `combine` of two numbers whose representations grow at most by `gx` and `gy`, with coefficients
whose magnitudes add up to at most `S` in the numerator and in the denominator, gives the exact value
without any panic whenever `(4*S*gx*gy)^2` is at most `isize::MAX`. -/
theorem C76_combine (cfg : Cfg) (x y : Number) (q r gx gy : ℚ) (S nxy nx ny n dxy dx dy d : Int)
    (hx : Number.Denotes cfg NoPanic x q) (hy : Number.Denotes cfg NoPanic y r)
    (hgx : GrowthAtMost q gx) (hgy : GrowthAtMost r gy) (hx1 : 1 ≤ gx) (hy1 : 1 ≤ gy)
    (h1 : |nxy| + |nx| + |ny| + |n| ≤ S) (h2 : |dxy| + |dx| + |dy| + |d| ≤ S)
    (h : (4 * S * gx * gy) ^ 2 ≤ (cfg.imax : ℚ)) (hD : dxy * q * r + dx * q + dy * r + d ≠ 0) :
    ∃ t, Returns (fun f => Number.combine cfg f x y nxy nx ny n dxy dx dy d) t ∧
      Number.Denotes cfg NoPanic t
        ((nxy * q * r + nx * q + ny * r + n) / (dxy * q * r + dx * q + dy * r + d)) := by
  have a1 := abs_nonneg nxy; have a2 := abs_nonneg nx; have a3 := abs_nonneg ny
  have a4 := abs_nonneg n; have a5 := abs_nonneg dxy; have a6 := abs_nonneg dx
  have a7 := abs_nonneg dy; have a8 := abs_nonneg d
  have hS : 1 ≤ S := by
    by_contra hc
    have e1 : dxy = 0 := abs_nonpos_iff.1 (by omega)
    have e2 : dx = 0 := abs_nonpos_iff.1 (by omega)
    have e3 : dy = 0 := abs_nonpos_iff.1 (by omega)
    have e4 : d = 0 := abs_nonpos_iff.1 (by omega)
    simp [e1, e2, e3, e4] at hD
  have hS' : (1 : ℚ) ≤ S := by exact_mod_cast hS
  have hSx : S ≤ S * gx := le_mul_of_one_le_right (by linarith) hx1
  have hSy : S ≤ S * gy := le_mul_of_one_le_right (by linarith) hy1
  have hSxy : S * gx ≤ S * gx * gy := le_mul_of_one_le_right (by linarith) hy1
  have hSyx : S * gy ≤ S * gx * gy := mul_le_mul_of_nonneg_right hSx (by linarith)
  have hs : cfg.SafeUpTo NoPanic S := safe_of_rat (by omega) (by nlinarith) h
  have hfit : ∀ z : Int, |z| ≤ S → cfg.Fits z := fun z hz =>
    (hs.1 z (by omega)).resolve_right fun h => h.1.elim
  have hf : (⟨nxy, nx, ny, n, dxy, dx, dy, d⟩ : Coef8).Fits cfg := by
    constructor <;> exact hfit _ (by simp only; omega)
  have hk : (⟨nxy, nx, ny, n, dxy, dx, dy, d⟩ : Coef8).Sums S := by
    refine ⟨hS, ?_, ?_⟩ <;> simp only [Int.natCast_natAbs] <;> assumption
  have prod : ∀ {lu lv : List Reduction} {a b : Int}, 0 ≤ a → 0 ≤ b → (a : ℚ) ≤ 2 * S * gx →
      (b : ℚ) ≤ 2 * gy → cfg.SafeUpTo NoPanic (a * b) := by
    intro lu lv a b ha hb ha' hb'
    have hb0 : (0 : ℚ) ≤ b := by exact_mod_cast hb
    refine safe_of_rat (mul_nonneg ha hb) ?_ h
    push_cast
    calc (a : ℚ) * b ≤ (2 * S * gx) * (2 * gy) :=
          mul_le_mul ha' hb' hb0 (by linarith)
      _ = 4 * S * gx * gy := by ring
  refine (Number.combine_sums_ends (hx.by_growth hgx) (hy.by_growth hgy) hk hf
    ⟨hs, ?_, ?_, ?_⟩ hD).returns
  · rintro l ⟨v, hl, hG⟩
    exact safe_peak hl hG hS (by linarith) h
  · rintro l ⟨v, hl, hG⟩
    exact safe_peak hl hG hS (by linarith) h
  · rintro lu lv ⟨u, hu, hGu⟩ ⟨v, hv, hGv⟩
    have p1 := (le_peak lu (a := S) (b := S) (by omega) (by omega)).1
    have p2 := (le_peak lv (a := 1) (b := 1) (by omega) (by omega)).1
    have p3 := peak_le_total lu (a := S) (b := S) (by omega) (by omega)
    have p4 := peak_le_total lv (a := 1) (b := 1) (by omega) (by omega)
    have t1 := total_grows hu hGu (S := S) (by omega)
    have t2 := total_grows hv hGv (S := 1) (by omega)
    have p3' : (peak lu S S : ℚ) ≤ total lu S S := by exact_mod_cast p3
    have p4' : (peak lv 1 1 : ℚ) ≤ total lv 1 1 := by exact_mod_cast p4
    push_cast at t2
    exact ⟨prod (lu := lu) (lv := lv) (by omega) (by omega) t1 (by linarith),
      prod (lu := lu) (lv := lv) (by omega) (by omega) (by linarith) (by linarith)⟩

/-- The four operations on two numbers by their growths: `(8*gx*gy)^2` for sums and differences and
`(4*gx*gy)^2` for products and quotients must be at most `isize::MAX`. -/
theorem C76_four_operations (cfg : Cfg) (x y : Number) (q r gx gy : ℚ)
    (hx : Number.Denotes cfg NoPanic x q) (hy : Number.Denotes cfg NoPanic y r)
    (hgx : GrowthAtMost q gx) (hgy : GrowthAtMost r gy) (hx1 : 1 ≤ gx) (hy1 : 1 ≤ gy) :
    ((8 * gx * gy) ^ 2 ≤ (cfg.imax : ℚ) →
      (∃ t, Returns (fun f => plus cfg f x y) t ∧ Number.Denotes cfg NoPanic t (q + r)) ∧
      (∃ t, Returns (fun f => minus cfg f x y) t ∧ Number.Denotes cfg NoPanic t (q - r))) ∧
    ((4 * gx * gy) ^ 2 ≤ (cfg.imax : ℚ) →
      (∃ t, Returns (fun f => times cfg f x y) t ∧ Number.Denotes cfg NoPanic t (q * r)) ∧
      (r ≠ 0 → ∃ t, Returns (fun f => over cfg f x y) t ∧ Number.Denotes cfg NoPanic t (q / r))) := by
  have key := C76_combine cfg x y q r gx gy
  refine ⟨fun h => ⟨?_, ?_⟩, fun h => ⟨?_, fun h0 => ?_⟩⟩
  · obtain ⟨t, ht, h⟩ := key 2 0 1 1 0 0 0 0 1 hx hy hgx hgy hx1 hy1 (by decide) (by decide)
      (by push_cast; norm_num; exact h) (by norm_num)
    exact ⟨t, ht, by convert h using 1; push_cast; ring⟩
  · obtain ⟨t, ht, h⟩ := key 2 0 1 (-1) 0 0 0 0 1 hx hy hgx hgy hx1 hy1 (by decide) (by decide)
      (by push_cast; norm_num; exact h) (by norm_num)
    exact ⟨t, ht, by convert h using 1; push_cast; ring⟩
  · obtain ⟨t, ht, h⟩ := key 1 1 0 0 0 0 0 0 1 hx hy hgx hgy hx1 hy1 (by decide) (by decide)
      (by push_cast; norm_num; exact h) (by norm_num)
    exact ⟨t, ht, by convert h using 1; push_cast; ring⟩
  · obtain ⟨t, ht, h⟩ := key 1 0 1 0 0 0 0 1 0 hx hy hgx hgy hx1 hy1 (by decide) (by decide)
      (by push_cast; norm_num; exact h) (by simpa using h0)
    exact ⟨t, ht, by convert h using 1; push_cast; ring⟩

/-- A fraction of integers of magnitude at most `n`. -/
def Spec.Parts (n : Int) (q : ℚ) : Prop :=
  ∃ num den : Int, den ≠ 0 ∧ |num| ≤ n ∧ |den| ≤ n ∧ q = num / den

/-- Fractions with parts up to `2^b`: sums and differences on words of `2*b*(b+1)+4` bits, products
and quotients on words of `2*b*(b+1)+2` bits. -/
theorem C76_size (cfg : Cfg) (x y : Number) (b : Nat) (q r : ℚ)
    (hx : Number.Denotes cfg NoPanic x q) (hy : Number.Denotes cfg NoPanic y r)
    (hq : Parts (2 ^ b) q) (hr : Parts (2 ^ b) r) :
    (2 * b * (b + 1) + 4 ≤ cfg.bits →
      (∃ t, Returns (fun f => plus cfg f x y) t ∧ Number.Denotes cfg NoPanic t (q + r)) ∧
      (∃ t, Returns (fun f => minus cfg f x y) t ∧ Number.Denotes cfg NoPanic t (q - r))) ∧
    (2 * b * (b + 1) + 2 ≤ cfg.bits →
      (∃ t, Returns (fun f => times cfg f x y) t ∧ Number.Denotes cfg NoPanic t (q * r)) ∧
      (r ≠ 0 → ∃ t, Returns (fun f => over cfg f x y) t ∧ Number.Denotes cfg NoPanic t (q / r))) := by
  wlog hb : 1 ≤ b generalizing b
  · obtain rfl : b = 0 := by omega
    have up : ∀ {q}, Parts (2 ^ 0) q → Parts (2 ^ 1) q := by
      rintro q ⟨num, den, h0, h1, h2, e⟩
      exact ⟨num, den, h0, h1.trans (by norm_num), h2.trans (by norm_num), e⟩
    have h16 := cfg.hbits
    have := this 1 (up hq) (up hr) le_rfl
    exact ⟨fun _ => this.1 (by omega), fun _ => this.2 (by omega)⟩
  obtain ⟨num, den, h0, h1, h2, rfl⟩ := hq
  obtain ⟨num', den', h0', h1', h2', rfl⟩ := hr
  obtain ⟨t, ht⟩ := Nat.even_mul_succ_self b
  have e : b * (b + 1) / 2 = t := by omega
  have e2 : 2 * b * (b + 1) = 4 * t := by rw [mul_assoc]; omega
  have ht1 : 1 ≤ t := by nlinarith
  have g1 : (1 : ℚ) ≤ 2 ^ t / 2 := by
    have : (2 : ℚ) ^ 1 ≤ 2 ^ t := pow_le_pow_right₀ (by norm_num) ht1
    linarith
  have hg := C73_growth b num den h0 h1 h2
  have hg' := C73_growth b num' den' h0' h1' h2'
  rw [e] at hg hg'
  have := C76_four_operations cfg x y _ _ _ _ hx hy hg hg' g1 g1
  have fits : ∀ n, n + 2 ≤ cfg.bits → (2 : ℚ) ^ n ≤ cfg.imax := fun n hn => by
    exact_mod_cast (cfg.fits_pow (n := n) (by omega)).2
  refine ⟨fun h => this.1 ?_, fun h => this.2 ?_⟩
  · have h3 := fits (4 * t + 2) (by omega)
    have : (8 * ((2 : ℚ) ^ t / 2) * (2 ^ t / 2)) ^ 2 = 2 ^ (4 * t + 2) := by
      rw [pow_add, pow_mul']; ring
    rw [this]; exact h3
  · have h3 := fits (4 * t) (by omega)
    have : (4 * ((2 : ℚ) ^ t / 2) * (2 ^ t / 2)) ^ 2 = 2 ^ (4 * t) := by
      rw [pow_mul']; ring
    rw [this]; exact h3

/-- Whether `p/q` grows by at most `t/s`. -/
private def grows : Nat → Nat → Nat → Nat → Nat → Bool
  | 0, _, _, _, _ => false
  | f + 1, p, q, t, s =>
    if 2 * p = q then s ≤ t
    else if 2 * p < q then grows f (2 * p) q t (2 * s)
    else grows f (q - p) p (t * p) (s * q)

private theorem grows_sound : ∀ (f p q t s : Nat), 0 < p → p < q → 0 < s → grows f p q t s = true →
    ∃ l, Expands ((p : ℚ) / q) l ∧ s * growth ((p : ℚ) / q) l ≤ t
  | 0, _, _, _, _, _, _, _, h => by simp [grows] at h
  | f + 1, p, q, t, s, hp, hq, hs, h => by
    have hp' : (0 : ℚ) < p := by exact_mod_cast hp
    have hq' : (0 : ℚ) < q := by exact_mod_cast (by omega : 0 < q)
    rw [grows] at h
    split_ifs at h with h1 h2
    · have e : (p : ℚ) / q = 1 / 2 := by
        rw [← h1]; push_cast; field_simp
      rw [e]
      refine ⟨[], .half, ?_⟩
      simp only [growth, mul_one]
      exact_mod_cast of_decide_eq_true h
    · obtain ⟨l, hl, hG⟩ := grows_sound f (2 * p) q t (2 * s) (by omega) h2 (by omega) h
      rw [← frac_double] at hl hG
      refine ⟨.Amplify :: l, .amplify (div_pos hp' hq') ?_ hl, ?_⟩
      · rw [div_lt_div_iff₀ hq' (by norm_num)]; exact_mod_cast (by omega : p * 2 < 1 * q)
      · simp only [growth]; push_cast at hG; linarith
    · obtain ⟨l, hl, hG⟩ := grows_sound f (q - p) p (t * p) (s * q) (by omega) (by omega)
        (Nat.mul_pos hs (by omega)) h
      rw [← frac_uncover hp hq] at hl hG
      refine ⟨.Uncover :: l, .uncover ?_ ?_ hl, ?_⟩
      · rw [div_lt_div_iff₀ (by norm_num) hq']; exact_mod_cast (by omega : 1 * q < p * 2)
      · rw [div_lt_one hq']; exact_mod_cast hq
      · simp only [growth]
        rw [one_div_div] at hG ⊢
        push_cast at hG
        obtain ⟨G, hG'⟩ : ∃ G, G = growth ((q : ℚ) / p - 1) l := ⟨_, rfl⟩
        rw [← hG'] at hG ⊢
        have : (p : ℚ) * (s * (q / p * G)) ≤ p * t := by
          calc (p : ℚ) * (s * (q / p * G)) = s * q * G := by field_simp
            _ ≤ t * p := hG
            _ = p * t := by ring
        exact le_of_mul_le_mul_left this hp'

/-- The finite table of all fractions below one with parts up to `n`. -/
private def growTable (n g : Nat) : Bool :=
  (List.range (n + 1)).all fun q => (List.range q).all fun p => p == 0 || grows 64 p q g 1

private theorem growTable_sound {n g : Nat} (h : growTable n g = true) {q : ℚ} (hq : Parts n q) :
    GrowthAtMost q g := by
  have frac : ∀ p q : Nat, 0 < p → p < q → q ≤ n →
      ∃ l, Expands ((p : ℚ) / q) l ∧ growth ((p : ℚ) / q) l ≤ g := by
    intro p q hp hpq hqn
    simp only [growTable, List.all_eq_true, List.mem_range, Bool.or_eq_true, beq_iff_eq] at h
    obtain ⟨l, hl, hG⟩ := grows_sound 64 p q g 1 hp hpq one_pos
      ((h q (by omega) p hpq).resolve_left (by omega))
    exact ⟨l, hl, by push_cast at hG; linarith⟩
  obtain ⟨num, den, hd, h1, h2, rfl⟩ := hq
  by_cases hn : num = 0
  · exact .inl ⟨.Zero, by simp [specialValue, hn]⟩
  have hs := Ratio.sign_mul_natAbs hd hn
  have hd' : (den.natAbs : ℚ) ≠ 0 := by exact_mod_cast (by omega : den.natAbs ≠ 0)
  rw [← Int.natCast_natAbs] at h1 h2
  rw [← hs]
  rcases lt_trichotomy num.natAbs den.natAbs with h | h | h
  · obtain ⟨l, hl, h3⟩ := frac _ _ (by omega) h (by omega)
    split_ifs
    · exact .inr ⟨none, _, l, by simp [applyPrimer], hl, h3⟩
    · exact .inr ⟨some .Reflect, _, l, by simp [applyPrimer], hl, h3⟩
  · rw [h, div_self hd']
    split_ifs
    · exact .inl ⟨.PosOne, by simp [specialValue]⟩
    · exact .inl ⟨.NegOne, by simp [specialValue]⟩
  · obtain ⟨l, hl, h3⟩ := frac _ _ (by omega) h (by omega)
    split_ifs
    · exact .inr ⟨some .Turn, _, l, by simp [applyPrimer], hl, h3⟩
    · exact .inr ⟨some .Ground, _, l, by simp [applyPrimer], hl, h3⟩

/-- The growth of all fractions with small parts. -/
theorem C76_growth (q : ℚ) :
    (Parts 4 q → GrowthAtMost q 4) ∧ (Parts 10 q → GrowthAtMost q 40) ∧
    (Parts 14 q → GrowthAtMost q 96) ∧ (Parts 46 q → GrowthAtMost q 16384) := by
  refine ⟨fun h => ?_, fun h => ?_, fun h => ?_, fun h => ?_⟩
  · exact growTable_sound (n := 4) (g := 4) (by decide +kernel) h
  · exact growTable_sound (n := 10) (g := 40) (by decide +kernel) h
  · exact growTable_sound (n := 14) (g := 96) (by decide +kernel) h
  · exact growTable_sound (n := 46) (g := 16384) (by decide +kernel) h

/-- The four operations on fractions with parts up to `n`: exact and without panic, in every build,
for sums and differences with parts up to 4 on 16 bits, 10 on 32 bits and 46 on 64 bits, and for
products and quotients with parts up to 4, 14 and 46. -/
theorem C76_words (cfg : Cfg) (x y : Number) (q r : ℚ)
    (hx : Number.Denotes cfg NoPanic x q) (hy : Number.Denotes cfg NoPanic y r) :
    ((cfg.bits = 16 ∧ Parts 4 q ∧ Parts 4 r ∨ cfg.bits = 32 ∧ Parts 10 q ∧ Parts 10 r ∨
        cfg.bits = 64 ∧ Parts 46 q ∧ Parts 46 r) →
      (∃ t, Returns (fun f => plus cfg f x y) t ∧ Number.Denotes cfg NoPanic t (q + r)) ∧
      (∃ t, Returns (fun f => minus cfg f x y) t ∧ Number.Denotes cfg NoPanic t (q - r))) ∧
    ((cfg.bits = 16 ∧ Parts 4 q ∧ Parts 4 r ∨ cfg.bits = 32 ∧ Parts 14 q ∧ Parts 14 r ∨
        cfg.bits = 64 ∧ Parts 46 q ∧ Parts 46 r) →
      (∃ t, Returns (fun f => times cfg f x y) t ∧ Number.Denotes cfg NoPanic t (q * r)) ∧
      (r ≠ 0 → ∃ t, Returns (fun f => over cfg f x y) t ∧ Number.Denotes cfg NoPanic t (q / r))) := by
  have use := fun g (hg1 : (1 : ℚ) ≤ g) (hq : GrowthAtMost q g) (hr : GrowthAtMost r g) =>
    C76_four_operations cfg x y q r g g hx hy hq hr hg1 hg1
  obtain ⟨q1, q2, q3, q4⟩ := C76_growth q
  obtain ⟨r1, r2, r3, r4⟩ := C76_growth r
  have im : (cfg.imax : ℚ) = 2 ^ (cfg.bits - 1) - 1 := by unfold Cfg.imax; push_cast; rfl
  constructor <;> rintro (⟨hb, hq, hr⟩ | ⟨hb, hq, hr⟩ | ⟨hb, hq, hr⟩)
  · exact (use 4 (by norm_num) (q1 hq) (r1 hr)).1 (by rw [im, hb]; norm_num)
  · exact (use 40 (by norm_num) (q2 hq) (r2 hr)).1 (by rw [im, hb]; norm_num)
  · exact (use 16384 (by norm_num) (q4 hq) (r4 hr)).1 (by rw [im, hb]; norm_num)
  · exact (use 4 (by norm_num) (q1 hq) (r1 hr)).2 (by rw [im, hb]; norm_num)
  · exact (use 96 (by norm_num) (q3 hq) (r3 hr)).2 (by rw [im, hb]; norm_num)
  · exact (use 16384 (by norm_num) (q4 hq) (r4 hr)).2 (by rw [im, hb]; norm_num)

private theorem combine_panics_of {x y x' y' : Number} {q r : ℚ} {k : Coef8}
    (hx : Number.Denotes cfg NoPanic x q) (hy : Number.Denotes cfg NoPanic y r)
    (hx' : Number.Denotes cfg NoPanic x' q) (hy' : Number.Denotes cfg NoPanic y' r)
    (h : Number.combine cfg 100 x' y' k.a k.b k.c k.d k.e k.f k.g k.h = .panic .unwrapNone) :
    Panics (fun f => Number.combine cfg f x y k.a k.b k.c k.d k.e k.f k.g k.h) .unwrapNone :=
  ((C63_combine cfg x x' y y' (C63_same_value cfg x x' q hx hx') (C63_same_value cfg y y' r hy hy')
    k.a k.b k.c k.d k.e k.f k.g k.h).2.2 _).2
    (FuelMono.panics (Number.combine_mono _ _ _ _ _ _ _ _ _ _ _) 100 h)

private theorem denotes_ratio (cfg : Cfg) (p : Option Primer) {n d : Nat} (h0 : 0 < n) (h1 : n < d)
    (h2 : d < 100) {q : ℚ} (e : q = applyPrimer p ((n : ℚ) / d)) :
    Number.Denotes cfg NoPanic (.Other p (.ratio ⟨n, d⟩)) q := by
  have h3 := cfg.imax_ge
  have h4 := cfg.umax_eq
  refine ⟨_, Ratio.denotes (r := ⟨n, d⟩) ⟨?_, ?_, ?_⟩, ?_⟩
  all_goals first | (simp only; omega) | simp [Ratio.val, e]

/-- The limits: on 16 bits 1/7 + 6/7 and 7/8 * 8/7 overflow, on 32 bits 1/30 + 29/30 and 1/31 * 31,
on 64 bits 1/63 + 62/63 and 63/64 * 64/63, however the operands were computed. -/
theorem C76_limit (cfg : Cfg) (x y : Number) (q r : ℚ)
    (hx : Number.Denotes cfg NoPanic x q) (hy : Number.Denotes cfg NoPanic y r) :
    ((cfg.bits = 16 ∧ q = 1 / 7 ∧ r = 6 / 7 ∨ cfg.bits = 32 ∧ q = 1 / 30 ∧ r = 29 / 30 ∨
        cfg.bits = 64 ∧ q = 1 / 63 ∧ r = 62 / 63) →
      Panics (fun f => plus cfg f x y) .unwrapNone) ∧
    ((cfg.bits = 16 ∧ q = 7 / 8 ∧ r = 8 / 7 ∨ cfg.bits = 32 ∧ q = 1 / 31 ∧ r = 31 ∨
        cfg.bits = 64 ∧ q = 63 / 64 ∧ r = 64 / 63) →
      Panics (fun f => times cfg f x y) .unwrapNone) := by
  obtain ⟨bits, hbits, checks⟩ := cfg
  constructor <;> rintro (⟨rfl, rfl, rfl⟩ | ⟨rfl, rfl, rfl⟩ | ⟨rfl, rfl, rfl⟩)
  · exact combine_panics_of (k := ⟨0, 1, 1, 0, 0, 0, 0, 1⟩) hx hy
      (denotes_ratio _ none (n := 1) (d := 7) (by decide) (by decide) (by decide) (by norm_num [applyPrimer]))
      (denotes_ratio _ none (n := 6) (d := 7) (by decide) (by decide) (by decide) (by norm_num [applyPrimer]))
      (by clear hx hy; revert hbits checks; decide +kernel)
  · exact combine_panics_of (k := ⟨0, 1, 1, 0, 0, 0, 0, 1⟩) hx hy
      (denotes_ratio _ none (n := 1) (d := 30) (by decide) (by decide) (by decide) (by norm_num [applyPrimer]))
      (denotes_ratio _ none (n := 29) (d := 30) (by decide) (by decide) (by decide) (by norm_num [applyPrimer]))
      (by clear hx hy; revert hbits checks; decide +kernel)
  · exact combine_panics_of (k := ⟨0, 1, 1, 0, 0, 0, 0, 1⟩) hx hy
      (denotes_ratio _ none (n := 1) (d := 63) (by decide) (by decide) (by decide) (by norm_num [applyPrimer]))
      (denotes_ratio _ none (n := 62) (d := 63) (by decide) (by decide) (by decide) (by norm_num [applyPrimer]))
      (by clear hx hy; revert hbits checks; decide +kernel)
  · exact combine_panics_of (k := ⟨1, 0, 0, 0, 0, 0, 0, 1⟩) hx hy
      (denotes_ratio _ none (n := 7) (d := 8) (by decide) (by decide) (by decide) (by norm_num [applyPrimer]))
      (denotes_ratio _ (some .Turn) (n := 7) (d := 8) (by decide) (by decide) (by decide) (by norm_num [applyPrimer]))
      (by clear hx hy; revert hbits checks; decide +kernel)
  · exact combine_panics_of (k := ⟨1, 0, 0, 0, 0, 0, 0, 1⟩) hx hy
      (denotes_ratio _ none (n := 1) (d := 31) (by decide) (by decide) (by decide) (by norm_num [applyPrimer]))
      (denotes_ratio _ (some .Turn) (n := 1) (d := 31) (by decide) (by decide) (by decide) (by norm_num [applyPrimer]))
      (by clear hx hy; revert hbits checks; decide +kernel)
  · exact combine_panics_of (k := ⟨1, 0, 0, 0, 0, 0, 0, 1⟩) hx hy
      (denotes_ratio _ none (n := 63) (d := 64) (by decide) (by decide) (by decide) (by norm_num [applyPrimer]))
      (denotes_ratio _ (some .Turn) (n := 63) (d := 64) (by decide) (by decide) (by decide) (by norm_num [applyPrimer]))
      (by clear hx hy; revert hbits checks; decide +kernel)

/-- There is room for the numbers in the program: no argument of `ratio` is `isize::MIN`, and at every
call of `homographic` or `combine` the growths of the operands and the magnitudes of the coefficients
are small for the machine; what `consume` takes apart has few symbols. -/
def Spec.Expr.Roomy (cfg : Cfg) (val : Nat → ℚ) : Expr → Prop
  | .given _ => True
  | .ratio num den => |num| ≤ cfg.imax ∧ |den| ≤ cfg.imax
  | .ratioU _ num den => num ≤ cfg.umax ∧ den ≤ cfg.umax
  | .homographic e nx n dx d => e.Roomy cfg val ∧ ∃ (S : Int) (g : ℚ), 1 ≤ g ∧
      |nx| + |n| ≤ S ∧ |dx| + |d| ≤ S ∧ (∀ q, Value val e q → GrowthAtMost q g) ∧
      (2 * S * g) ^ 2 ≤ (cfg.imax : ℚ)
  | .combine e e' nxy nx ny n dxy dx dy d => e.Roomy cfg val ∧ e'.Roomy cfg val ∧
      ∃ (S : Int) (g g' : ℚ), 1 ≤ g ∧ 1 ≤ g' ∧ |nxy| + |nx| + |ny| + |n| ≤ S ∧
      |dxy| + |dx| + |dy| + |d| ≤ S ∧ (∀ q, Value val e q → GrowthAtMost q g) ∧
      (∀ q, Value val e' q → GrowthAtMost q g') ∧ (4 * S * g * g') ^ 2 ≤ (cfg.imax : ℚ)
  | .rebuild e => e.Roomy cfg val ∧ ∃ L, (∀ q, Value val e q → SymbolCount q L) ∧
      2 ^ (L + 3) ≤ cfg.imax
  | .reread _ _ e => e.Roomy cfg val

open Spec.Expr in
/-- In every build, a program with room for its numbers and a value in exact arithmetic returns a
number denoting exactly that value: it never panics, and no later `egest` on the result does. -/
theorem C76_programs (cfg : Cfg) (env : Nat → Number) (val : Nat → ℚ)
    (henv : ∀ i, Number.Denotes cfg NoPanic (env i) (val i)) (e : Expr) (hs : e.Roomy cfg val)
    (q : ℚ) (hv : Value val e q) :
    ∃ x, Returns (fun f => e.run cfg f env) x ∧ Number.Denotes cfg NoPanic x q := by
  suffices h : Ends NoPanic (fun f => e.run cfg f env) (fun x => Number.Denotes cfg NoPanic x q) from
    h.returns
  induction hv with
  | given i => exact Ends.of_sat (Sat.pure (henv i))
  | @ratio num den h =>
    have hi := cfg.imin_eq
    obtain ⟨a1, a2⟩ := abs_le.1 hs.1
    obtain ⟨a3, a4⟩ := abs_le.1 hs.2
    obtain ⟨x, e1, hx⟩ := C01_ratio_exact cfg num den ⟨by omega, a2⟩ ⟨by omega, a4⟩ h
      fun _ => ⟨by omega, by omega⟩
    simp only [run, e1]
    exact Ends.of_sat (Sat.pure hx)
  | @ratioU positive num den h =>
    obtain ⟨x, e1, hx⟩ := C02_ratio_u_exact cfg positive num den hs.1 hs.2 h
    simp only [run, e1]
    exact Ends.of_sat (Sat.pure hx)
  | @homographic e q nx n dx d he hD ih =>
    obtain ⟨hs, S, g, hg, h1, h2, hq, hM⟩ := hs
    refine Ends.bind (ih hs) fun x hx => ?_
    exact .inl (C76_homographic cfg x q g S nx n dx d hx (hq q he) hg h1 h2 hM hD)
  | @combine e e' q r nxy nx ny n dxy dx dy d he he' hD ih ih' =>
    obtain ⟨hs, hs', S, g, g', hg, hg', h1, h2, hq, hq', hM⟩ := hs
    refine Ends.bind (ih hs) fun x hx => Ends.bind (ih' hs') fun y hy => ?_
    exact .inl (C76_combine cfg x y q r g g' S nxy nx ny n dxy dx dy d hx hy (hq q he) (hq' r he')
      hg hg' h1 h2 hM hD)
  | @rebuild e q he ih =>
    obtain ⟨hs, L, hq, hM⟩ := hs
    refine Ends.bind (ih hs) fun x hx => ?_
    obtain ⟨k, hk⟩ := C26_consume_all cfg x q hx _ (hq q he) hM
    obtain ⟨r, hr, hd⟩ := C27_consume_rebuild_exact cfg x q hx k hk
    refine Ends.bind (Q := fun t => t = (none, k)) (.inl ⟨_, hk, rfl⟩) ?_
    rintro _ rfl
    simp only [hr]
    exact Ends.of_sat hd
  | @reread e p p' m x h0 h1 he ih =>
    refine Ends.bind (ih hs) fun y hy => ?_
    cases y with
    | Special s =>
      exact absurd (show applyPrimer p' x = specialValue s from hy) (applyPrimer_ne_special h0 h1)
    | Other p₁ c =>
      obtain ⟨x', hx', e'⟩ := hy
      obtain ⟨-, rfl⟩ := applyPrimer_inj h0 h1 hx'.1 hx'.2.1 e'
      simp only [Number.unwrapOther, pure_eq, ok_bind]
      refine Ends.bind (hx'.after m) fun r hr => ?_
      exact Ends.of_sat (Sat.pure ⟨_, by rw [left_eq]; exact hr.2, rfl⟩)

/-- Hypotheses met: `(5/9 + 7/8) * 18/103 - 1/46` on 64 bits. -/
example (checks : Bool) := C76_programs ⟨64, by decide, checks⟩
  (fun _ => .Other none (.ratio ⟨3, 5⟩)) (fun _ => 3 / 5) (fun _ => denotes_three_fifths _ _)
  (.combine (.homographic (.combine (.ratio 5 9) (.ratio 7 8) 0 1 1 0 0 0 0 1) 18 0 0 103)
    (.ratio 1 46) 0 1 (-1) 0 0 0 0 1)
  ⟨⟨⟨(by decide : |(5 : Int)| ≤ 2 ^ 63 - 1 ∧ |(9 : Int)| ≤ 2 ^ 63 - 1),
      (by decide : |(7 : Int)| ≤ 2 ^ 63 - 1 ∧ |(8 : Int)| ≤ 2 ^ 63 - 1),
      2, 40, 40, by norm_num, by norm_num, by decide, by decide,
      (by rintro _ ⟨⟩; exact (C76_growth _).2.1 ⟨5, 9, by decide, by decide, by decide, rfl⟩),
      (by rintro _ ⟨⟩; exact (C76_growth _).2.1 ⟨7, 8, by decide, by decide, by decide, rfl⟩),
      (by rw [show (Cfg.imax ⟨64, by decide, checks⟩) = 2 ^ 63 - 1 from rfl]; norm_num)⟩,
      103, 824, by norm_num, by decide, by decide, (by
        intro _ h; cases h with | combine h h' _ => cases h with | ratio _ => cases h' with
          | ratio _ =>
            obtain ⟨l, hl, hG⟩ := grows_sound 64 72 103 824 1 (by decide) (by decide) (by decide)
              (by decide +kernel)
            exact .inr ⟨some .Turn, _, l, by norm_num [applyPrimer], hl, by
              push_cast at hG ⊢; linarith⟩),
      (by rw [show (Cfg.imax ⟨64, by decide, checks⟩) = 2 ^ 63 - 1 from rfl]; norm_num)⟩,
    (by decide : |(1 : Int)| ≤ 2 ^ 63 - 1 ∧ |(46 : Int)| ≤ 2 ^ 63 - 1),
    2, 16384, 16384, by norm_num, by norm_num, by decide, by decide,
    (by
      intro _ h; cases h with | homographic h _ => cases h with | combine h h' _ => cases h with
        | ratio _ => cases h' with | ratio _ =>
          exact (C76_growth _).2.2.2 ⟨1, 4, by decide, by decide, by decide, by norm_num⟩),
    (by rintro _ ⟨⟩; exact (C76_growth _).2.2.2 ⟨1, 46, by decide, by decide, by decide, rfl⟩),
    (by rw [show (Cfg.imax ⟨64, by decide, checks⟩) = 2 ^ 63 - 1 from rfl]; norm_num)⟩ _
  (.combine (.homographic (.combine (.ratio (by decide)) (.ratio (by decide)) (by norm_num))
    (by norm_num)) (.ratio (by decide)) (by norm_num))

/-- Hypotheses met: 45/46 and -46/45 on 64 bits, in both builds. -/
example (checks : Bool) : Parts 46 (45 / 46) ∧ Parts 46 (-46 / 45) ∧
    ∃ x y t, Number.ratio ⟨64, by decide, checks⟩ 45 46 = .ok x ∧
      Number.ratio ⟨64, by decide, checks⟩ (-46) 45 = .ok y ∧
      Returns (fun f => plus ⟨64, by decide, checks⟩ f x y) t ∧
      Number.Denotes ⟨64, by decide, checks⟩ NoPanic t (-91 / 2070) := by
  have p1 : Parts 46 (45 / 46) := ⟨45, 46, by decide, by decide, by decide, by norm_num⟩
  have p2 : Parts 46 (-46 / 45) := ⟨-46, 45, by decide, by decide, by decide, by norm_num⟩
  refine ⟨p1, p2, .Other none (.ratio ⟨45, 46⟩), .Other (some .Ground) (.ratio ⟨45, 46⟩), ?_⟩
  obtain ⟨t, ht, hd⟩ := ((C76_words ⟨64, by decide, checks⟩ _ _ _ _
    (denotes_ratio _ none (n := 45) (d := 46) (q := 45 / 46) (by decide) (by decide) (by decide)
      (by norm_num [applyPrimer]))
    (denotes_ratio _ (some .Ground) (n := 45) (d := 46) (q := -46 / 45) (by decide) (by decide)
      (by decide) (by norm_num [applyPrimer]))).1 (.inr (.inr ⟨rfl, p1, p2⟩))).1
  refine ⟨t, ?_, ?_, ht, ?_⟩
  · cases checks <;> decide +kernel
  · cases checks <;> decide +kernel
  · convert hd using 1; norm_num

/-- Hypotheses met: 3/4 grows by 4, so that `(1000000*x+3)/(5*x-7)` is safe on 64 bits. -/
example (checks : Bool) : ∃ t,
    Returns (fun f => Number.homographic ⟨64, by decide, checks⟩ f (.Other none (.ratio ⟨3, 4⟩))
      1000000 3 5 (-7)) t ∧
    Number.Denotes ⟨64, by decide, checks⟩ NoPanic t (-3000012 / 13) := by
  obtain ⟨t, ht, hd⟩ := C76_homographic ⟨64, by decide, checks⟩ (.Other none (.ratio ⟨3, 4⟩)) (3 / 4) 4
    1000003 1000000 3 5 (-7) (denotes_ratio _ none (by decide) (by decide) (by decide)
      (by norm_num [applyPrimer]))
    ((C76_growth _).1 ⟨3, 4, by decide, by decide, by decide, by norm_num⟩) (by norm_num) (by decide)
    (by decide) (by rw [show (Cfg.imax ⟨64, by decide, checks⟩) = 2 ^ 63 - 1 from rfl]; norm_num)
    (by norm_num)
  exact ⟨t, ht, by convert hd using 1; norm_num⟩

/-- Hypotheses met: `(x*y + 100)/(x + 50)` of 3/4 and -4/3 on 64 bits. -/
example (checks : Bool) : ∃ t,
    Returns (fun f => Number.combine ⟨64, by decide, checks⟩ f (.Other none (.ratio ⟨3, 4⟩))
      (.Other (some .Ground) (.ratio ⟨3, 4⟩)) 1 0 0 100 0 1 0 50) t ∧
    Number.Denotes ⟨64, by decide, checks⟩ NoPanic t (396 / 203) := by
  obtain ⟨t, ht, hd⟩ := C76_combine ⟨64, by decide, checks⟩ (.Other none (.ratio ⟨3, 4⟩))
    (.Other (some .Ground) (.ratio ⟨3, 4⟩)) (3 / 4) (-4 / 3) 4 4 101 1 0 0 100 0 1 0 50
    (denotes_ratio _ none (by decide) (by decide) (by decide) (by norm_num [applyPrimer]))
    (denotes_ratio _ _ (by decide) (by decide) (by decide) (by norm_num [applyPrimer]))
    ((C76_growth _).1 ⟨3, 4, by decide, by decide, by decide, by norm_num⟩)
    ((C76_growth _).1 ⟨-4, 3, by decide, by decide, by decide, by norm_num⟩) (by norm_num)
    (by norm_num) (by decide) (by decide)
    (by rw [show (Cfg.imax ⟨64, by decide, checks⟩) = 2 ^ 63 - 1 from rfl]; norm_num) (by norm_num)
  exact ⟨t, ht, by convert hd using 1; norm_num⟩

/-- Hypotheses met: 25/32 times -32/7 on words of 62 bits, and their sum on words of 64. -/
example : Parts (2 ^ 5) (25 / 32) ∧ Parts (2 ^ 5) (-32 / 7) ∧ 2 * 5 * (5 + 1) + 2 = 62 ∧
    2 * 5 * (5 + 1) + 4 = 64 :=
  ⟨⟨25, 32, by decide, by decide, by decide, by norm_num⟩,
    ⟨-32, 7, by decide, by decide, by decide, by norm_num⟩, rfl, rfl⟩

/-- Hypotheses met: the operands of the six calls that overflow. -/
example (checks : Bool) : Panics (fun f => plus ⟨32, by decide, checks⟩ f
    (.Other none (.ratio ⟨2, 60⟩)) (.Other none (.ratio ⟨87, 90⟩))) .unwrapNone :=
  (C76_limit ⟨32, by decide, checks⟩ _ _ _ _
    (denotes_ratio _ none (by decide) (by decide) (by decide) rfl)
    (denotes_ratio _ _ (by decide) (by decide) (by decide) rfl)).1
    (.inr (.inl ⟨rfl, by norm_num [applyPrimer], by norm_num [applyPrimer]⟩))

end Clarith
