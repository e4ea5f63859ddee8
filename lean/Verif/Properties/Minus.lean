import Verif.Properties.Length
import Verif.Proofs.MinusExact

/-! # C73 A number minus itself -/

namespace Clarith

open Out Spec

variable {cfg : Cfg}

/-- The two programs: `x - y` of equal numbers, and `x + y` of opposite ones.  The coefficients once
both primers are absorbed. -/
private def Zeros (mk : Option Primer → Option Primer) (k : Coef8) : Prop :=
  ∀ {cfg : Cfg} {A : Panic → Prop} {p : Option Primer} {cx cy : Clog}
    {P : Combine.Primed → Prop}, (∀ σ s e h : Int, (s = 1 ∨ s = -1) →
      (σ = 1 ∧ e = 0 ∧ h = 1 ∧ (p = none ∨ p = some .Reflect)) ∨
        ((σ = 1 ∨ σ = -1) ∧ e = 1 ∧ h = 0 ∧ (p = some .Turn ∨ p = some .Ground)) →
      Ev A (fun i j => Combine.prime cfg (Clog.egest cfg i) j ⟨cx, cy, Coef8.diff σ s e 0 h⟩) P) →
    Ev A (fun i j => Combine.new cfg (Clog.egest cfg i) j (.Other p cx) (.Other (mk p) cy) k) P

/-- Both primers are absorbed, on the narrowest machine and so on all. -/
theorem Combine.new_absorb {A : Panic → Prop} {p p' : Option Primer} {cx cy : Clog}
    {P : Combine.Primed → Prop} (k k1 k2 : Coef8)
    (e1 : k.absorbPrimerX narrowest p = .ok k1) (e2 : k1.absorbPrimerY narrowest p' = .ok k2)
    (h : Ev A (fun i j => Combine.prime cfg (Clog.egest cfg i) j ⟨cx, cy, k2⟩) P) :
    Ev A (fun i j => Combine.new cfg (Clog.egest cfg i) j (.Other p cx) (.Other p' cy) k) P := by
  have e1 := (Coef8.absorbPrimerX_widens (narrowest_wider cfg) p k).ok e1
  have e2 := (Coef8.absorbPrimerY_widens (narrowest_wider cfg) p' k1).ok e2
  simp only [Combine.new, e1, e2, ok_bind]
  exact h

private theorem zeros_minus : Zeros id ⟨0, 1, -1, 0, 0, 0, 0, 1⟩ := by
  intro cfg A p cx cy P h
  rcases p with _ | _ | _ | _
  · exact Combine.new_absorb _ ⟨0, 1, -1, 0, 0, 0, 0, 1⟩ (Coef8.diff 1 1 0 0 1) (by decide)
      (by decide) (h 1 1 0 1 (.inl rfl) (.inl ⟨rfl, rfl, rfl, .inl rfl⟩))
  · exact Combine.new_absorb _ ⟨-1, 0, 0, 1, 0, 1, 0, 0⟩ (Coef8.diff 1 (-1) 1 0 0) (by decide)
      (by decide) (h 1 (-1) 1 0 (.inr rfl) (.inr ⟨.inl rfl, rfl, rfl, .inl rfl⟩))
  · exact Combine.new_absorb _ ⟨0, -1, -1, 0, 0, 0, 0, 1⟩ (Coef8.diff 1 (-1) 0 0 1) (by decide)
      (by decide) (h 1 (-1) 0 1 (.inr rfl) (.inl ⟨rfl, rfl, rfl, .inr rfl⟩))
  · exact Combine.new_absorb _ ⟨1, 0, 0, 1, 0, -1, 0, 0⟩ (Coef8.diff 1 1 1 0 0) (by decide)
      (by decide) (h 1 1 1 0 (.inl rfl) (.inr ⟨.inl rfl, rfl, rfl, .inr rfl⟩))

/-- The primer of the opposite. -/
private def opposite : Option Primer → Option Primer
  | none => some .Reflect
  | some .Turn => some .Ground
  | some .Reflect => none
  | some .Ground => some .Turn

private theorem zeros_plus : Zeros opposite ⟨0, 1, 1, 0, 0, 0, 0, 1⟩ := by
  intro cfg A p cx cy P h
  rcases p with _ | _ | _ | _
  · exact Combine.new_absorb _ ⟨0, 1, 1, 0, 0, 0, 0, 1⟩ (Coef8.diff 1 1 0 0 1) (by decide)
      (by decide) (h 1 1 0 1 (.inl rfl) (.inl ⟨rfl, rfl, rfl, .inl rfl⟩))
  · exact Combine.new_absorb _ ⟨1, 0, 0, 1, 0, 1, 0, 0⟩ (Coef8.diff (-1) 1 1 0 0) (by decide)
      (by decide) (h (-1) 1 1 0 (.inl rfl) (.inr ⟨.inr rfl, rfl, rfl, .inl rfl⟩))
  · exact Combine.new_absorb _ ⟨0, -1, 1, 0, 0, 0, 0, 1⟩ (Coef8.diff 1 (-1) 0 0 1) (by decide)
      (by decide) (h 1 (-1) 0 1 (.inr rfl) (.inl ⟨rfl, rfl, rfl, .inr rfl⟩))
  · exact Combine.new_absorb _ ⟨-1, 0, 0, 1, 0, -1, 0, 0⟩ (Coef8.diff (-1) (-1) 1 0 0) (by decide)
      (by decide) (h (-1) (-1) 1 0 (.inr rfl) (.inr ⟨.inr rfl, rfl, rfl, .inr rfl⟩))

private theorem Number.combine_zero {A : Panic → Prop} {x y : Number} {k : Coef8} {Q : Prop}
    (h : Ends A (fun f => Combine.new cfg (Clog.egest cfg f) f x y k)
      (fun t => t = (some .Zero, none, none, none, none) ∧ Q)) :
    Ends A (fun f => Number.combine cfg f x y k.a k.b k.c k.d k.e k.f k.g k.h)
      (fun r => r = .Special .Zero ∧ Q) := by
  unfold Number.combine
  refine Ends.bind h ?_
  rintro _ ⟨rfl, hQ⟩
  exact Ends.of_sat (Sat.pure ⟨rfl, hQ⟩)

/-- The opposite special value. -/
private def turned : Clarith.Special → Clarith.Special
  | .NegOne => .PosOne
  | .Zero => .Zero
  | .PosOne => .NegOne

/-- Two `Special`s of the same value, and of opposite values. -/
private theorem Number.combine_specials (s : Clarith.Special) :
    Returns (fun f => Number.combine cfg f (.Special s) (.Special s) 0 1 (-1) 0 0 0 0 1)
      (.Special .Zero) ∧
    Returns (fun f => Number.combine cfg f (.Special s) (.Special (turned s)) 0 1 1 0 0 0 0 1)
      (.Special .Zero) := by
  have small : ∀ {z : Int}, -32767 ≤ z → z ≤ 32767 → cfg.checked z = .ok z :=
    fun h h' => cfg.checked_eq (cfg.fits_small h h')
  have hi := cfg.imin_eq
  have hm := cfg.imax_ge
  have hz : Ratio.newI cfg 0 1 = .ok (some .Zero, none, none) :=
    Ratio.newI_nought (by norm_num) (cfg.fits_small (by norm_num) (by norm_num)) (by omega)
  constructor <;> refine ⟨0, fun f _ => ?_⟩ <;> cases s <;>
    simp only [Number.combine, Combine.new, Combine.asHomographic, Homographic.new, Cfg.csub,
      Cfg.cadd, Homographic.asRatio, sub_zero, zero_sub, add_zero, zero_add, sub_self, turned,
      add_neg_cancel, neg_add_cancel, small, ok_bind, Int.reduceNeg, Int.reduceLE, hz, pure_eq,
      reduceCtorEq, false_and, if_false, one_ne_zero]

private theorem applyPrimer_opposite (p : Option Primer) (v : ℚ) :
    -(applyPrimer p v) = applyPrimer (opposite p) v := by
  rcases p with _ | _ | _ | _ <;> simp [applyPrimer, opposite]

private theorem special_opposite (s : Clarith.Special) :
    -(specialValue s) = specialValue (turned s) := by
  cases s <;> norm_num [specialValue, turned]

/-- The primer and the value of both. -/
theorem Number.Denotes.same {A : Panic → Prop} {x y : Number} {q : ℚ}
    (hx : Number.Denotes cfg A x q) (hy : Number.Denotes cfg A y q) :
    (∃ s, x = .Special s ∧ y = .Special s) ∨
    (∃ p cx cy v, x = .Other p cx ∧ y = .Other p cy ∧ q = applyPrimer p v ∧
      Clog.Denotes cfg A cx v ∧ Clog.Denotes cfg A cy v) := by
  cases x with
  | Special s =>
    have hx : q = specialValue s := hx
    cases y with
    | Special s' =>
      have hy : q = specialValue s' := hy
      refine .inl ⟨s, rfl, ?_⟩
      rw [hx] at hy
      cases s <;> cases s' <;> first | rfl | (simp only [specialValue] at hy; norm_num at hy)
    | Other p c =>
      obtain ⟨v, hv, e⟩ := hy
      exact absurd (e.symm.trans hx) (applyPrimer_ne_special hv.1 hv.2.1)
  | Other p c =>
    obtain ⟨u, hu, e⟩ := hx
    cases y with
    | Special s' =>
      have hy : q = specialValue s' := hy
      exact absurd (e.symm.trans hy) (applyPrimer_ne_special hu.1 hu.2.1)
    | Other p' c' =>
      obtain ⟨v, hv, e'⟩ := hy
      obtain ⟨rfl, rfl⟩ := applyPrimer_inj hu.1 hu.2.1 hv.1 hv.2.1 (e.symm.trans e')
      exact .inr ⟨p, c, c', u, rfl, rfl, e, hu, hv⟩

/-- The primer and the value of two opposite numbers. -/
private theorem Number.Denotes.opposites {A : Panic → Prop} {x y : Number} {q : ℚ}
    (hx : Number.Denotes cfg A x q) (hy : Number.Denotes cfg A y (-q)) :
    (∃ s, x = .Special s ∧ y = .Special (turned s)) ∨
    (∃ p cx cy v, x = .Other p cx ∧ y = .Other (opposite p) cy ∧ q = applyPrimer p v ∧
      Clog.Denotes cfg A cx v ∧ Clog.Denotes cfg A cy v) := by
  cases x with
  | Special s =>
    have hx : q = specialValue s := hx
    rw [hx, special_opposite] at hy
    rcases Number.Denotes.same (x := .Special (turned s)) rfl hy with
      ⟨s', h1, h2⟩ | ⟨p, cx, cy, v, h1, -⟩
    · cases h1
      exact .inl ⟨s, rfl, h2⟩
    · cases h1
  | Other p c =>
    obtain ⟨u, hu, e⟩ := hx
    have e1 : -q = applyPrimer (opposite p) u := by rw [e, applyPrimer_opposite]
    cases y with
    | Special s' =>
      have hy : -q = specialValue s' := hy
      exact absurd (e1.symm.trans hy) (applyPrimer_ne_special hu.1 hu.2.1)
    | Other p' c' =>
      obtain ⟨v, hv, e'⟩ := hy
      obtain ⟨rfl, rfl⟩ := applyPrimer_inj hu.1 hu.2.1 hv.1 hv.2.1 (e1.symm.trans e')
      exact .inr ⟨p, c, c', u, rfl, rfl, e, hu, hv⟩

private theorem Number.zeros {mk : Option Primer → Option Primer} {k : Coef8} (hk : Zeros mk k)
    {p : Option Primer} {cx cy : Clog} {v g : ℚ} (hcx : Clog.Denotes cfg NoPanic cx v)
    (hcy : Clog.Denotes cfg NoPanic cy v) (hg : GrowthAtMost (applyPrimer p v) g)
    (h : 4 * g ^ 2 ≤ cfg.imax) :
    Returns (fun f => Number.combine cfg f (.Other p cx) (.Other (mk p) cy) k.a k.b k.c k.d k.e k.f
      k.g k.h) (.Special .Zero) := by
  obtain ⟨l, hl, hG⟩ : ∃ l, Expands v l ∧ growth v l ≤ g := by
    rcases hg with ⟨s, e⟩ | ⟨p', u, l, e, hl, hG⟩
    · exact absurd e (applyPrimer_ne_special hcx.1 hcx.2.1)
    · obtain ⟨-, rfl⟩ := applyPrimer_inj hcx.1 hcx.2.1 hl.mem.1 hl.mem.2 e
      exact ⟨l, hl, hG⟩
  have g1 := one_le_growth hl
  have g2 : growth v l ^ 2 ≤ g ^ 2 := pow_le_pow_left₀ (by linarith) hG 2
  have hm := cfg.imax_ge
  have hi := cfg.imin_eq
  have fit : cfg.Fits cfg.imax := ⟨by omega, le_rfl⟩
  have v2 : v ^ 2 ≤ 1 := pow_le_one₀ hcx.1.le hcx.2.1.le
  have v20 : 0 ≤ v ^ 2 := by positivity
  obtain ⟨r, hr, rfl, -⟩ := (Number.combine_zero (cfg := cfg) (A := NoPanic) (k := k)
    (x := .Other p cx) (y := .Other (mk p) cy) (Q := True) (Ev.ends
      (m := fun i j => Combine.new cfg (Clog.egest cfg i) j (.Other p cx) (.Other (mk p) cy) k)
      (hk (fun σ s e h' hs he => by
        have hs1 : |(s : ℚ)| = 1 := by rcases hs with rfl | rfl <;> norm_num
        refine (Combine.prime_diff (w := cfg.imax) ?_ (.inl fit) l v cx cy s e 0 h' hl hcx hcy
          (by omega) (by omega) le_rfl (by omega) (by omega) ?_ ?_).mono fun _ h => ⟨h, trivial⟩
        · rcases he with ⟨rfl, -⟩ | ⟨h, -⟩
          · exact .inl rfl
          · exact h.imp_right fun e => ⟨e, fit⟩
        · rw [hs1]; linarith
        · rcases he with ⟨-, rfl, rfl, -⟩ | ⟨-, rfl, rfl, -⟩ <;> push_cast
          · linarith
          · nlinarith)))).returns
  exact hr

/-- For all numbers denoting the same rational, and for all numbers denoting a rational and its
opposite: if the growth `g` of the representation satisfies `4*g^2 ≤ isize::MAX`, then the difference
respectively the sum is the special zero, without any panic. -/
theorem C73_zero (cfg : Cfg) (x y : Number) (q g : ℚ) (hx : Number.Denotes cfg NoPanic x q)
    (hg : GrowthAtMost q g) (h : 4 * g ^ 2 ≤ cfg.imax) :
    (Number.Denotes cfg NoPanic y q →
      Returns (fun f => Number.combine cfg f x y 0 1 (-1) 0 0 0 0 1) (.Special .Zero)) ∧
    (Number.Denotes cfg NoPanic y (-q) →
      Returns (fun f => Number.combine cfg f x y 0 1 1 0 0 0 0 1) (.Special .Zero)) := by
  constructor <;> intro hy
  · rcases hx.same hy with ⟨s, rfl, rfl⟩ | ⟨p, cx, cy, v, rfl, rfl, rfl, hcx, hcy⟩
    · exact (Number.combine_specials s).1
    · exact Number.zeros zeros_minus hcx hcy hg h
  · rcases hx.opposites hy with ⟨s, rfl, rfl⟩ | ⟨p, cx, cy, v, rfl, rfl, rfl, hcx, hcy⟩
    · exact (Number.combine_specials s).2
    · exact Number.zeros zeros_plus hcx hcy hg h

/-- A fraction below one. -/
private theorem growth_frac (b p q : Nat) (hp : 0 < p) (h : p < q) (hq : q ≤ 2 ^ b) :
    ∃ l, Expands ((p : ℚ) / q) l ∧ growth ((p : ℚ) / q) l ≤ 2 ^ (b * (b + 1) / 2) / 2 := by
  have hp' : (0 : ℚ) < p := by exact_mod_cast hp
  have hq' : (0 : ℚ) < q := by exact_mod_cast (by omega : 0 < q)
  have hpq : (p : ℚ) < q := by exact_mod_cast h
  obtain ⟨l, hl⟩ := exists_expands ((p : ℚ) / q) (div_pos hp' hq')
    (by rw [div_lt_iff₀ hq', one_mul]; exact hpq)
  refine ⟨l, hl, ?_⟩
  have h1 := growthBound b p q hp h hq l hl
  have h2 : (q : ℚ) ≤ 2 ^ b := by exact_mod_cast hq
  have h3 : b * (b + 1) / 2 = tri b + b := by
    have := tri_eq b
    have e : b * (b + 1) = 2 * (tri b + b) := by linarith
    rw [e, Nat.mul_div_cancel_left _ (by norm_num)]
  have h4 : (2 : ℚ) ^ tri b * q ≤ 2 ^ tri b * 2 ^ b := mul_le_mul_of_nonneg_left h2 (by positivity)
  rw [h3, pow_add]
  linarith

/-- The growth of all fractions of integers up to `2^b` in magnitude. -/
theorem C73_growth (b : Nat) (num den : Int) (hd : den ≠ 0) (h1 : |num| ≤ 2 ^ b)
    (h2 : |den| ≤ 2 ^ b) : GrowthAtMost ((num : ℚ) / den) (2 ^ (b * (b + 1) / 2) / 2) := by
  by_cases hn : num = 0
  · exact .inl ⟨.Zero, by simp [specialValue, hn]⟩
  rw [← Int.natCast_natAbs] at h1 h2
  have e1 : num.natAbs ≤ 2 ^ b := by exact_mod_cast h1
  have e2 : den.natAbs ≤ 2 ^ b := by exact_mod_cast h2
  have hs := Ratio.sign_mul_natAbs hd hn
  have hd' : (den.natAbs : ℚ) ≠ 0 := by exact_mod_cast (by omega : den.natAbs ≠ 0)
  rw [← hs]
  have hn' : (num.natAbs : ℚ) ≠ 0 := by exact_mod_cast (by omega : num.natAbs ≠ 0)
  rcases lt_trichotomy num.natAbs den.natAbs with h | h | h
  · obtain ⟨l, hl, h3⟩ := growth_frac b _ _ (by omega) h e2
    split_ifs
    · exact .inr ⟨none, _, l, by simp [applyPrimer], hl, h3⟩
    · exact .inr ⟨some .Reflect, _, l, by simp [applyPrimer], hl, h3⟩
  · rw [h, div_self hd']
    split_ifs
    · exact .inl ⟨.PosOne, by simp [specialValue]⟩
    · exact .inl ⟨.NegOne, by simp [specialValue]⟩
  · obtain ⟨l, hl, h3⟩ := growth_frac b _ _ (by omega) h e1
    split_ifs
    · exact .inr ⟨some .Turn, _, l, by simp [applyPrimer], hl, h3⟩
    · exact .inr ⟨some .Ground, _, l, by simp [applyPrimer], hl, h3⟩

/-- All fractions of integers up to `2^b` in magnitude can be subtracted from themselves, and added
to their opposites, on words of `b*(b+1)+2` bits. -/
theorem C73_size (cfg : Cfg) (x y : Number) (b : Nat) (num den : Int)
    (hx : Number.Denotes cfg NoPanic x ((num : ℚ) / den)) (hd : den ≠ 0) (h1 : |num| ≤ 2 ^ b)
    (h2 : |den| ≤ 2 ^ b) (h : b * (b + 1) + 2 ≤ cfg.bits) :
    (Number.Denotes cfg NoPanic y ((num : ℚ) / den) →
      Returns (fun f => Number.combine cfg f x y 0 1 (-1) 0 0 0 0 1) (.Special .Zero)) ∧
    (Number.Denotes cfg NoPanic y (-((num : ℚ) / den)) →
      Returns (fun f => Number.combine cfg f x y 0 1 1 0 0 0 0 1) (.Special .Zero)) := by
  refine C73_zero cfg x y _ _ hx (C73_growth b num den hd h1 h2) ?_
  obtain ⟨t, ht⟩ := Nat.even_mul_succ_self b
  have e : b * (b + 1) / 2 = t := by omega
  have hf := (cfg.fits_pow (n := b * (b + 1)) (by omega)).2
  rw [e]
  have h3 : (4 : ℚ) * (2 ^ t / 2) ^ 2 = ((2 ^ (b * (b + 1)) : Int) : ℚ) := by
    push_cast
    rw [show b * (b + 1) = t + t from ht, pow_add]; ring
  rw [h3]
  exact_mod_cast hf

/-- `(2^b-1)/2^b` and its opposite. -/
private theorem Number.worst_minus {mk : Option Primer → Option Primer} {k : Coef8}
    (hk : Zeros mk k) {A : Panic → Prop} {p : Option Primer} {cx cy : Clog} {v : ℚ} {b : Nat}
    (hb : 2 ≤ b) (hq : |applyPrimer p v| = (2 ^ b - 1) / 2 ^ b) (hcx : Clog.Denotes cfg A cx v)
    (hcy : Clog.Denotes cfg A cy v) (hA : cfg.CheckSafe A (2 ^ (b * (b + 1) - 2))) :
    Ends A (fun f => Number.combine cfg f (.Other p cx) (.Other (mk p) cy) k.a k.b k.c k.d k.e k.f
      k.g k.h) (fun r => r = .Special .Zero ∧ cfg.Fits (2 ^ (b * (b + 1) - 2))) := by
  have hN : (4 : ℚ) ≤ 2 ^ b := by
    calc (4 : ℚ) = 2 ^ 2 := by norm_num
      _ ≤ 2 ^ b := pow_le_pow_right₀ (by norm_num) hb
  have w0 : (0 : ℚ) < (2 ^ b - 1) / 2 ^ b := div_pos (by linarith) (by linarith)
  have w1 : ((2 : ℚ) ^ b - 1) / 2 ^ b < 1 := by rw [div_lt_one (by linarith)]; linarith
  have hpv : ∃ p', (p' = none ∨ p' = some .Reflect) ∧
      applyPrimer p v = applyPrimer p' ((2 ^ b - 1) / 2 ^ b) := by
    rcases abs_choice (applyPrimer p v) with e | e <;> rw [e] at hq
    · exact ⟨none, .inl rfl, hq⟩
    · exact ⟨some .Reflect, .inr rfl, by rw [← hq]; simp [applyPrimer]⟩
  obtain ⟨p', hp, e⟩ := hpv
  obtain ⟨rfl, rfl⟩ := applyPrimer_inj hcx.1 hcx.2.1 w0 w1 e
  refine Number.combine_zero (Ev.ends (m := fun i j => Combine.new cfg (Clog.egest cfg i) j
    (.Other p cx) (.Other (mk p) cy) k) (hk ?_))
  rintro σ s e h hs (⟨rfl, rfl, rfl, -⟩ | ⟨-, -, -, rfl | rfl⟩)
  · refine Combine.prime_diff_worst hA b (by omega) s 0 0 1 cx cy hcx hcy (by omega) le_rfl le_rfl
      (by norm_num) (by rcases hs with rfl | rfl <;> norm_num) (by norm_num) (by norm_num)
      (by norm_num) (.inr hb) ?_
    have h1 := tri_eq b
    have h2 : 2 ≤ b * (b + 1) := by nlinarith
    have h3 : 2 + (b * (b + 1) - 2) = b * 2 + 2 * tri b := by
      have : b * (b + 1) = b * b + b := by ring
      omega
    have h4 : (4 : Int) ^ tri b = 2 ^ (2 * tri b) := by rw [pow_mul]; norm_num
    rw [h4, show (4 : Int) = 2 ^ 2 by norm_num, ← pow_add, h3, pow_add, pow_mul]
    ring
  · simp at hp
  · simp at hp

/-- The worst fractions: `(2^b-1)/2^b` and its opposite can be subtracted from themselves, and added
to each other, exactly when words have at least `b*(b+1)` bits. -/
theorem C73_exact (cfg : Cfg) (x y : Number) (b : Nat) (q : ℚ) (hb : 2 ≤ b)
    (hq : |q| = (2 ^ b - 1) / 2 ^ b) (hx : Number.Denotes cfg NoPanic x q) :
    (b * (b + 1) ≤ cfg.bits →
      (Number.Denotes cfg NoPanic y q →
        Returns (fun f => Number.combine cfg f x y 0 1 (-1) 0 0 0 0 1) (.Special .Zero)) ∧
      (Number.Denotes cfg NoPanic y (-q) →
        Returns (fun f => Number.combine cfg f x y 0 1 1 0 0 0 0 1) (.Special .Zero))) ∧
    (cfg.bits < b * (b + 1) →
      (Number.Denotes cfg NoPanic y q →
        Panics (fun f => Number.combine cfg f x y 0 1 (-1) 0 0 0 0 1) .unwrapNone) ∧
      (Number.Denotes cfg NoPanic y (-q) →
        Panics (fun f => Number.combine cfg f x y 0 1 1 0 0 0 0 1) .unwrapNone)) := by
  have hN : (4 : ℚ) ≤ 2 ^ b := by
    calc (4 : ℚ) = 2 ^ 2 := by norm_num
      _ ≤ 2 ^ b := pow_le_pow_right₀ (by norm_num) hb
  have w0 : (0 : ℚ) < (2 ^ b - 1) / 2 ^ b := div_pos (by linarith) (by linarith)
  have w1 : ((2 : ℚ) ^ b - 1) / 2 ^ b < 1 := by rw [div_lt_one (by linarith)]; linarith
  have ns : ∀ s, q ≠ specialValue s := by
    rintro s rfl
    cases s <;> norm_num [specialValue] at hq <;> linarith
  have weak : ∀ p, NoPanic p → p = .unwrapNone := fun _ h => h.elim
  have ret : ∀ {mk : Option Primer → Option Primer} {k : Coef8}, Zeros mk k →
      ∀ {p : Option Primer} {cx cy : Clog} {v : ℚ}, q = applyPrimer p v →
      Clog.Denotes cfg NoPanic cx v → Clog.Denotes cfg NoPanic cy v → b * (b + 1) ≤ cfg.bits →
      Returns (fun f => Number.combine cfg f (.Other p cx) (.Other (mk p) cy) k.a k.b k.c k.d k.e
        k.f k.g k.h) (.Special .Zero) := by
    intro mk k hk p cx cy v e hcx hcy h
    obtain ⟨r, hr, rfl, -⟩ := (Number.worst_minus hk hb (e ▸ hq) hcx hcy
      (.inl (cfg.fits_pow (by omega)))).returns
    exact hr
  have pan : ∀ {mk : Option Primer → Option Primer} {k : Coef8}, Zeros mk k →
      ∀ {p : Option Primer} {cx cy : Clog} {v : ℚ}, q = applyPrimer p v →
      Clog.Denotes cfg NoPanic cx v → Clog.Denotes cfg NoPanic cy v → cfg.bits < b * (b + 1) →
      Panics (fun f => Number.combine cfg f (.Other p cx) (.Other (mk p) cy) k.a k.b k.c k.d k.e
        k.f k.g k.h) .unwrapNone := by
    intro mk k hk p cx cy v e hcx hcy h
    rcases Number.worst_minus (A := (· = .unwrapNone)) hk hb (e ▸ hq) (hcx.weaken weak)
      (hcy.weaken weak) (.inr rfl) with ⟨r, -, -, hf⟩ | ⟨p, hp, rfl⟩
    · exact absurd hf (cfg.not_fits_pow (by omega))
    · exact hp
  refine ⟨fun h => ⟨fun hy => ?_, fun hy => ?_⟩, fun h => ⟨fun hy => ?_, fun hy => ?_⟩⟩
  · rcases hx.same hy with ⟨s, rfl, rfl⟩ | ⟨p, cx, cy, v, rfl, rfl, e, hcx, hcy⟩
    · exact absurd hx (ns s)
    · exact ret zeros_minus e hcx hcy h
  · rcases hx.opposites hy with ⟨s, rfl, rfl⟩ | ⟨p, cx, cy, v, rfl, rfl, e, hcx, hcy⟩
    · exact absurd hx (ns s)
    · exact ret zeros_plus e hcx hcy h
  · rcases hx.same hy with ⟨s, rfl, rfl⟩ | ⟨p, cx, cy, v, rfl, rfl, e, hcx, hcy⟩
    · exact absurd hx (ns s)
    · exact pan zeros_minus e hcx hcy h
  · rcases hx.opposites hy with ⟨s, rfl, rfl⟩ | ⟨p, cx, cy, v, rfl, rfl, e, hcx, hcy⟩
    · exact absurd hx (ns s)
    · exact pan zeros_plus e hcx hcy h

/-- On 64 bits: all fractions with parts up to 128 in magnitude give zero, while 255/256 does not. -/
theorem C73_64 (cfg : Cfg) (h : cfg.bits = 64) (x y : Number) (q : ℚ)
    (hx : Number.Denotes cfg NoPanic x q) :
    ((∃ num den : Int, q = (num : ℚ) / den ∧ den ≠ 0 ∧ |num| ≤ 128 ∧ |den| ≤ 128) →
      (Number.Denotes cfg NoPanic y q →
        Returns (fun f => Number.combine cfg f x y 0 1 (-1) 0 0 0 0 1) (.Special .Zero)) ∧
      (Number.Denotes cfg NoPanic y (-q) →
        Returns (fun f => Number.combine cfg f x y 0 1 1 0 0 0 0 1) (.Special .Zero))) ∧
    (q = 255 / 256 →
      (Number.Denotes cfg NoPanic y q →
        Panics (fun f => Number.combine cfg f x y 0 1 (-1) 0 0 0 0 1) .unwrapNone) ∧
      (Number.Denotes cfg NoPanic y (-q) →
        Panics (fun f => Number.combine cfg f x y 0 1 1 0 0 0 0 1) .unwrapNone)) := by
  constructor
  · rintro ⟨num, den, rfl, hd, h1, h2⟩
    exact C73_size cfg x y 7 num den hx hd (by norm_num; exact h1) (by norm_num; exact h2)
      (by rw [h]; norm_num)
  · rintro rfl
    exact (C73_exact cfg x y 8 _ (by norm_num) (by norm_num [abs_of_pos]) hx).2 (by rw [h]; norm_num)

example : ∃ x, Number.ratio ⟨64, by decide, true⟩ 100 128 = .ok x ∧
    Returns (fun f => Number.combine ⟨64, by decide, true⟩ f x x 0 1 (-1) 0 0 0 0 1)
      (.Special .Zero) := by
  obtain ⟨x, e, hx⟩ := Number.ratio_denotes (cfg := ⟨64, by decide, true⟩) (A := NoPanic)
    (num := 100) (den := 128) (by decide) (by decide) (by decide) (by decide)
  exact ⟨x, e, ((C73_64 _ rfl x x _ hx).1 ⟨100, 128, rfl, by decide, by decide, by decide⟩).1 hx⟩

example : ∃ x, Number.ratio ⟨64, by decide, true⟩ (-255) 256 = .ok x ∧
    Panics (fun f => Number.combine ⟨64, by decide, true⟩ f x x 0 1 (-1) 0 0 0 0 1)
      .unwrapNone := by
  obtain ⟨x, e, hx⟩ := Number.ratio_denotes (cfg := ⟨64, by decide, true⟩) (A := NoPanic)
    (num := -255) (den := 256) (by decide) (by decide) (by decide) (by decide)
  exact ⟨x, e, ((C73_exact _ x x 8 _ (by norm_num) (by norm_num [abs_of_pos]) hx).2 (by decide)).1 hx⟩

/-- Hypotheses met: 15/16 on words of 16 bits would need `4*5 = 20`, 7/8 needs `3*4 = 12`. -/
example : ∃ x, Number.ratio ⟨16, by decide, false⟩ 7 8 = .ok x ∧
    Returns (fun f => Number.combine ⟨16, by decide, false⟩ f x x 0 1 (-1) 0 0 0 0 1)
      (.Special .Zero) := by
  obtain ⟨x, e, hx⟩ := Number.ratio_denotes (cfg := ⟨16, by decide, false⟩) (A := NoPanic)
    (num := 7) (den := 8) (by decide) (by decide) (by decide) (by decide)
  exact ⟨x, e, ((C73_exact _ x x 3 _ (by norm_num) (by norm_num [abs_of_pos]) hx).1 (by decide)).1 hx⟩

/-- Hypotheses met: 100/3 and -100/3 on 64 bits. -/
example : ∃ x y, Number.ratio ⟨64, by decide, true⟩ 100 3 = .ok x ∧
    Number.ratio ⟨64, by decide, true⟩ 100 (-3) = .ok y ∧
    Returns (fun f => Number.combine ⟨64, by decide, true⟩ f x y 0 1 1 0 0 0 0 1)
      (.Special .Zero) := by
  obtain ⟨x, e, hx⟩ := Number.ratio_denotes (cfg := ⟨64, by decide, true⟩) (A := NoPanic)
    (num := 100) (den := 3) (by decide) (by decide) (by decide) (by decide)
  obtain ⟨y, e', hy⟩ := Number.ratio_denotes (cfg := ⟨64, by decide, true⟩) (A := NoPanic)
    (num := 100) (den := -3) (by decide) (by decide) (by decide) (by decide)
  refine ⟨x, y, e, e', ((C73_64 _ rfl x y _ hx).1 ⟨100, 3, rfl, by decide, by decide, by decide⟩).2 ?_⟩
  rw [show -(((100 : Int) : ℚ) / (3 : Int)) = ((100 : Int) : ℚ) / (-3 : Int) by norm_num]
  exact hy

/-- Test: the model run on 15/16 minus itself with words of 16 bits. -/
example : (Number.ratio ⟨16, by decide, true⟩ 15 16).bind
    (fun x => Number.combine ⟨16, by decide, true⟩ 40 x x 0 1 (-1) 0 0 0 0 1) =
    .panic .unwrapNone := by decide +kernel

/-- Test: the model run on 7/8 minus itself with words of 16 bits. -/
example : (Number.ratio ⟨16, by decide, true⟩ 7 8).bind
    (fun x => Number.combine ⟨16, by decide, true⟩ 40 x x 0 1 (-1) 0 0 0 0 1) =
    .ok (.Special .Zero) := by decide +kernel

/-- Test: the model run on 15/16 plus -15/16, and on 16/15 plus -16/15, with words of 16 bits. -/
example : ((Number.ratio ⟨16, by decide, true⟩ 15 16).bind fun x =>
      (Number.ratio ⟨16, by decide, true⟩ (-15) 16).bind
        (fun y => Number.combine ⟨16, by decide, true⟩ 40 x y 0 1 1 0 0 0 0 1)) =
      .panic .unwrapNone ∧
    ((Number.ratio ⟨16, by decide, true⟩ 16 15).bind fun x =>
      (Number.ratio ⟨16, by decide, true⟩ (-16) 15).bind
        (fun y => Number.combine ⟨16, by decide, true⟩ 40 x y 0 1 1 0 0 0 0 1)) =
      .ok (.Special .Zero) := by decide +kernel

/-- Hypotheses met: the growth of 3/4 is 4. -/
example : GrowthAtMost (3 / 4) 4 := by
  have := C73_growth 2 3 4 (by norm_num) (by norm_num) (by norm_num)
  norm_num at this ⊢
  exact this

end Clarith
