import Verif.Properties.Minus
import Verif.Proofs.QuotientExact

/-! # C74 A number divided by itself, or multiplied by its inverse -/

namespace Clarith

open Out Spec

variable {cfg : Cfg}

/-- The two programs: `x / y` of equal numbers, and `x * y` of inverse ones.  The coefficients once
both primers are absorbed. -/
private def Ones (mk : Option Primer → Option Primer) (k : Coef8) : Prop :=
  ∀ {cfg : Cfg} {A : Panic → Prop} {p : Option Primer} {cx cy : Clog}
    {P : Combine.Primed → Prop}, (∀ σ b c : Int, Combine.QuotStart σ b c →
      Ev A (fun i j => Combine.prime cfg (Clog.egest cfg i) j ⟨cx, cy, Coef8.quot σ 0 b c 0⟩) P) →
    Ev A (fun i j => Combine.new cfg (Clog.egest cfg i) j (.Other p cx) (.Other (mk p) cy) k) P

private theorem ones_absorb {A : Panic → Prop} {p p' : Option Primer} {cx cy : Clog}
    {P : Combine.Primed → Prop} (k k1 k2 : Coef8)
    (e1 : k.absorbPrimerX narrowest p = .ok k1) (e2 : k1.absorbPrimerY narrowest p' = .ok k2)
    (h : Ev A (fun i j => Combine.prime cfg (Clog.egest cfg i) j ⟨cx, cy, k2⟩) P) :
    Ev A (fun i j => Combine.new cfg (Clog.egest cfg i) j (.Other p cx) (.Other p' cy) k) P := by
  have e1 := (Coef8.absorbPrimerX_widens (narrowest_wider cfg) p k).ok e1
  have e2 := (Coef8.absorbPrimerY_widens (narrowest_wider cfg) p' k1).ok e2
  simp only [Combine.new, e1, e2, ok_bind]
  exact h

private theorem ones_div : Ones id ⟨0, 1, 0, 0, 0, 0, 1, 0⟩ := by
  intro cfg A p cx cy P h
  rcases p with _ | _ | _ | _
  · exact ones_absorb _ ⟨0, 1, 0, 0, 0, 0, 1, 0⟩ (Coef8.quot 1 0 1 0 0) (by decide) (by decide)
      (h 1 1 0 (by unfold Combine.QuotStart; decide))
  · exact ones_absorb _ ⟨0, 0, 0, 1, 1, 0, 0, 0⟩ (Coef8.quot 1 0 0 1 0) (by decide) (by decide)
      (h 1 0 1 (by unfold Combine.QuotStart; decide))
  · exact ones_absorb _ ⟨0, -1, 0, 0, 0, 0, 1, 0⟩ (Coef8.quot (-1) 0 1 0 0) (by decide) (by decide)
      (h (-1) 1 0 (by unfold Combine.QuotStart; decide))
  · exact ones_absorb _ ⟨0, 0, 0, 1, -1, 0, 0, 0⟩ (Coef8.quot (-1) 0 0 1 0) (by decide) (by decide)
      (h (-1) 0 1 (by unfold Combine.QuotStart; decide))

/-- The primer of the inverse. -/
private def inverse : Option Primer → Option Primer
  | none => some .Turn
  | some .Turn => none
  | some .Reflect => some .Ground
  | some .Ground => some .Reflect

private theorem ones_mul : Ones inverse ⟨1, 0, 0, 0, 0, 0, 0, 1⟩ := by
  intro cfg A p cx cy P h
  rcases p with _ | _ | _ | _
  · exact ones_absorb _ ⟨1, 0, 0, 0, 0, 0, 0, 1⟩ (Coef8.quot 1 0 1 0 0) (by decide) (by decide)
      (h 1 1 0 (by unfold Combine.QuotStart; decide))
  · exact ones_absorb _ ⟨0, 0, 1, 0, 0, 1, 0, 0⟩ (Coef8.quot 1 0 0 1 0) (by decide) (by decide)
      (h 1 0 1 (by unfold Combine.QuotStart; decide))
  · exact ones_absorb _ ⟨-1, 0, 0, 0, 0, 0, 0, 1⟩ (Coef8.quot (-1) 0 1 0 0) (by decide) (by decide)
      (h (-1) 1 0 (by unfold Combine.QuotStart; decide))
  · exact ones_absorb _ ⟨0, 0, 1, 0, 0, -1, 0, 0⟩ (Coef8.quot (-1) 0 0 1 0) (by decide) (by decide)
      (h (-1) 0 1 (by unfold Combine.QuotStart; decide))

private theorem Number.combine_one {A : Panic → Prop} {x y : Number} {k : Coef8} {Q : Prop}
    (h : Ends A (fun f => Combine.new cfg (Clog.egest cfg f) f x y k)
      (fun t => t = (some .PosOne, none, none, none, none) ∧ Q)) :
    Ends A (fun f => Number.combine cfg f x y k.a k.b k.c k.d k.e k.f k.g k.h)
      (fun r => r = .Special .PosOne ∧ Q) := by
  unfold Number.combine
  refine Ends.bind h ?_
  rintro _ ⟨rfl, hQ⟩
  exact Ends.of_sat (Sat.pure ⟨rfl, hQ⟩)

/-- Two `Special`s of the same value. -/
private theorem Number.one_specials (s : Clarith.Special) (hs : s ≠ .Zero) :
    Returns (fun f => Number.combine cfg f (.Special s) (.Special s) 0 1 0 0 0 0 1 0)
      (.Special .PosOne) ∧
    Returns (fun f => Number.combine cfg f (.Special s) (.Special s) 1 0 0 0 0 0 0 1)
      (.Special .PosOne) := by
  have small : ∀ {z : Int}, -32767 ≤ z → z ≤ 32767 → cfg.checked z = .ok z :=
    fun h h' => cfg.checked_eq (cfg.fits_small h h')
  have hi := cfg.imin_eq
  have hm := cfg.imax_ge
  have o1 : Ratio.newI cfg 1 1 = .ok (some .PosOne, none, none) :=
    Ratio.newI_same (by norm_num) (cfg.fits_small (by norm_num) (by norm_num)) (by omega)
  have o2 : Ratio.newI cfg (-1) (-1) = .ok (some .PosOne, none, none) :=
    Ratio.newI_same (by norm_num) (cfg.fits_small (by norm_num) (by norm_num)) (by omega)
  constructor <;> refine ⟨0, fun f _ => ?_⟩ <;> cases s <;> first | exact absurd rfl hs |
    simp only [Number.combine, Combine.new, Combine.asHomographic, Homographic.new, Cfg.csub,
      Cfg.cadd, Homographic.asRatio, sub_zero, zero_sub, add_zero, zero_add, sub_self, neg_neg, small, ok_bind, Int.reduceNeg, Int.reduceLE, o1, o2, pure_eq,
      false_and, if_false, one_ne_zero, and_false, neg_eq_zero]

private theorem applyPrimer_inverse (p : Option Primer) (v : ℚ) :
    (applyPrimer p v)⁻¹ = applyPrimer (inverse p) v := by
  rcases p with _ | _ | _ | _ <;> simp [applyPrimer, inverse]

private theorem special_inverse {s : Clarith.Special} (h : s ≠ .Zero) :
    (specialValue s)⁻¹ = specialValue s := by
  cases s <;> first | exact absurd rfl h | norm_num [specialValue]

/-- The primer and the value of both. -/
private theorem Number.Denotes.inverses {A : Panic → Prop} {x y : Number} {q : ℚ} (hq : q ≠ 0)
    (hx : Number.Denotes cfg A x q) (hy : Number.Denotes cfg A y q⁻¹) :
    (∃ s, s ≠ .Zero ∧ x = .Special s ∧ y = .Special s) ∨
    (∃ p cx cy v, x = .Other p cx ∧ y = .Other (inverse p) cy ∧ q = applyPrimer p v ∧
      Clog.Denotes cfg A cx v ∧ Clog.Denotes cfg A cy v) := by
  cases x with
  | Special s =>
    have hx' : q = specialValue s := hx
    have hs : s ≠ .Zero := by
      rintro rfl
      exact hq hx'
    have e : q⁻¹ = q := by rw [hx', special_inverse hs]
    rw [e] at hy
    rcases hx.same hy with ⟨s', h1, h2⟩ | ⟨p, cx, cy, v, h1, -⟩
    · cases h1
      exact .inl ⟨s, hs, rfl, h2⟩
    · cases h1
  | Other p c =>
    obtain ⟨u, hu, e⟩ := hx
    have e1 : q⁻¹ = applyPrimer (inverse p) u := by rw [e, applyPrimer_inverse]
    cases y with
    | Special s' =>
      have hy : q⁻¹ = specialValue s' := hy
      exact absurd (e1.symm.trans hy) (applyPrimer_ne_special hu.1 hu.2.1)
    | Other p' c' =>
      obtain ⟨v, hv, e'⟩ := hy
      obtain ⟨rfl, rfl⟩ := applyPrimer_inj hu.1 hu.2.1 hv.1 hv.2.1 (e1.symm.trans e')
      exact .inr ⟨p, c, c', u, rfl, rfl, e, hu, hv⟩

private theorem Number.ones {mk : Option Primer → Option Primer} {k : Coef8} (hk : Ones mk k)
    {p : Option Primer} {cx cy : Clog} {v g : ℚ} (hcx : Clog.Denotes cfg NoPanic cx v)
    (hcy : Clog.Denotes cfg NoPanic cy v) (hg : GrowthAtMost (applyPrimer p v) g)
    (h : 8 * g ^ 4 ≤ cfg.imax) :
    Returns (fun f => Number.combine cfg f (.Other p cx) (.Other (mk p) cy) k.a k.b k.c k.d k.e k.f
      k.g k.h) (.Special .PosOne) := by
  obtain ⟨l, hl, hG⟩ : ∃ l, Expands v l ∧ growth v l ≤ g := by
    rcases hg with ⟨s, e⟩ | ⟨p', u, l, e, hl, hG⟩
    · exact absurd e (applyPrimer_ne_special hcx.1 hcx.2.1)
    · obtain ⟨-, rfl⟩ := applyPrimer_inj hcx.1 hcx.2.1 hl.mem.1 hl.mem.2 e
      exact ⟨l, hl, hG⟩
  have g1 := one_le_growth hl
  have g2 : (growth v l ^ 2) ^ 2 ≤ g ^ 4 := by
    rw [← pow_mul]; exact pow_le_pow_left₀ (by linarith) hG 4
  have hm := cfg.imax_ge
  have hi := cfg.imin_eq
  have fit : cfg.Fits cfg.imax := ⟨by omega, le_rfl⟩
  obtain ⟨r, hr, rfl, -⟩ := (Number.combine_one (cfg := cfg) (A := NoPanic) (k := k)
    (x := .Other p cx) (y := .Other (mk p) cy) (Q := True) (Ev.ends
      (m := fun i j => Combine.new cfg (Clog.egest cfg i) j (.Other p cx) (.Other (mk p) cy) k)
      (hk (fun σ b c hs =>
        (Combine.prime_quot_start (w := cfg.imax) hs (hs.1.imp_right fun e => ⟨e, fit⟩) (by omega)
          (.inl fit) l v cx cy hl hcx hcy (by linarith)).mono fun _ h => ⟨h, trivial⟩)))).returns
  exact hr

/-- For all numbers denoting the same rational other than zero, and for all numbers denoting a
rational and its inverse: if the growth `g` of the representation satisfies `8*g^4 ≤ isize::MAX`,
then the quotient respectively the product is the special one, without any panic. -/
theorem C74_one (cfg : Cfg) (x y : Number) (q g : ℚ) (hq : q ≠ 0)
    (hx : Number.Denotes cfg NoPanic x q) (hg : GrowthAtMost q g) (h : 8 * g ^ 4 ≤ cfg.imax) :
    (Number.Denotes cfg NoPanic y q →
      Returns (fun f => Number.combine cfg f x y 0 1 0 0 0 0 1 0) (.Special .PosOne)) ∧
    (Number.Denotes cfg NoPanic y q⁻¹ →
      Returns (fun f => Number.combine cfg f x y 1 0 0 0 0 0 0 1) (.Special .PosOne)) := by
  constructor <;> intro hy
  · rcases hx.same hy with ⟨s, rfl, rfl⟩ | ⟨p, cx, cy, v, rfl, rfl, rfl, hcx, hcy⟩
    · refine (Number.one_specials s ?_).1
      rintro rfl
      exact hq hx
    · exact Number.ones ones_div hcx hcy hg h
  · rcases hx.inverses hq hy with ⟨s, hs, rfl, rfl⟩ | ⟨p, cx, cy, v, rfl, rfl, rfl, hcx, hcy⟩
    · exact (Number.one_specials s hs).2
    · exact Number.ones ones_mul hcx hcy hg h

/-- All fractions of integers up to `2^b` in magnitude can be divided by themselves, and multiplied
by their inverses, on words of `2*b*(b+1)+1` bits. -/
theorem C74_size (cfg : Cfg) (x y : Number) (b : Nat) (num den : Int)
    (hx : Number.Denotes cfg NoPanic x ((num : ℚ) / den)) (hn : num ≠ 0) (hd : den ≠ 0)
    (h1 : |num| ≤ 2 ^ b) (h2 : |den| ≤ 2 ^ b) (h : 2 * b * (b + 1) + 1 ≤ cfg.bits) :
    (Number.Denotes cfg NoPanic y ((num : ℚ) / den) →
      Returns (fun f => Number.combine cfg f x y 0 1 0 0 0 0 1 0) (.Special .PosOne)) ∧
    (Number.Denotes cfg NoPanic y ((den : ℚ) / num) →
      Returns (fun f => Number.combine cfg f x y 1 0 0 0 0 0 0 1) (.Special .PosOne)) := by
  have hn' : (num : ℚ) ≠ 0 := by exact_mod_cast hn
  have hd' : (den : ℚ) ≠ 0 := by exact_mod_cast hd
  obtain ⟨t, ht⟩ := Nat.even_mul_succ_self b
  have e : b * (b + 1) / 2 = t := by omega
  have h3 : 2 * b * (b + 1) = 4 * t := by
    rw [mul_assoc]; omega
  have := C74_one cfg x y ((num : ℚ) / den) _ (div_ne_zero hn' hd') hx
    (C73_growth b num den hd h1 h2) ?_
  · rwa [inv_div] at this
  rw [e]
  have h4 : (8 : ℚ) * (2 ^ t / 2) ^ 4 = 2 ^ (4 * t) / 2 := by
    rw [pow_mul', div_pow]; ring
  rw [h4]
  rcases Nat.eq_zero_or_pos t with rfl | ht0
  · have := cfg.imax_ge
    have : (32767 : ℚ) ≤ cfg.imax := by exact_mod_cast this
    norm_num
    linarith
  · have hf := (cfg.fits_pow (n := 4 * t - 1) (by omega)).2
    have : (2 : ℚ) ^ (4 * t) / 2 = ((2 ^ (4 * t - 1) : Int) : ℚ) := by
      push_cast
      rw [show 4 * t = 4 * t - 1 + 1 by omega, pow_succ, Nat.add_sub_cancel]
      ring
    rw [this]
    exact_mod_cast hf

/-- `(2^b-1)/2^b`, its inverse, and their opposites. -/
private theorem Number.worst_quot {mk : Option Primer → Option Primer} {k : Coef8} (hk : Ones mk k)
    {A : Panic → Prop} {p : Option Primer} {cx cy : Clog} {v : ℚ} {b : Nat} (hb : 3 ≤ b)
    (hv : v = (2 ^ b - 1) / 2 ^ b) (hcx : Clog.Denotes cfg A cx v) (hcy : Clog.Denotes cfg A cy v)
    (hA : cfg.Fits (2 ^ (2 * b * b - 1) - 1) ∨ A .unwrapNone) :
    Ends A (fun f => Number.combine cfg f (.Other p cx) (.Other (mk p) cy) k.a k.b k.c k.d k.e k.f
      k.g k.h) (fun r => r = .Special .PosOne ∧ cfg.Fits (2 ^ (2 * b * b - 2))) := by
  subst hv
  refine Number.combine_one (Ev.ends (m := fun i j => Combine.new cfg (Clog.egest cfg i) j
    (.Other p cx) (.Other (mk p) cy) k) (hk ?_))
  intro σ b' c' hs
  exact Combine.prime_quot_exact hs b hb hA hcx hcy

/-- The worst fractions without their primers. -/
private theorem worst_value {b : Nat} (hb : 3 ≤ b) {q v : ℚ} {p : Option Primer} (v0 : 0 < v)
    (v1 : v < 1) (e : q = applyPrimer p v)
    (hq : |q| = (2 ^ b - 1) / 2 ^ b ∨ |q| = 2 ^ b / (2 ^ b - 1)) : v = (2 ^ b - 1) / 2 ^ b := by
  have hN : (8 : ℚ) ≤ 2 ^ b := by
    calc (8 : ℚ) = 2 ^ 3 := by norm_num
      _ ≤ 2 ^ b := pow_le_pow_right₀ (by norm_num) hb
  have w0 : (0 : ℚ) < (2 ^ b - 1) / 2 ^ b := div_pos (by linarith) (by linarith)
  have w1 : ((2 : ℚ) ^ b - 1) / 2 ^ b < 1 := by rw [div_lt_one (by linarith)]; linarith
  have key : ∀ p', q = applyPrimer p' ((2 ^ b - 1) / 2 ^ b) → v = (2 ^ b - 1) / 2 ^ b :=
    fun p' e' => (applyPrimer_inj v0 v1 w0 w1 (e.symm.trans e')).2
  rcases hq with hq | hq <;> rcases abs_choice q with a | a <;> rw [a] at hq
  · exact key none hq
  · exact key (some .Reflect) (by rw [← neg_neg q, hq]; simp [applyPrimer])
  · exact key (some .Turn) (by rw [hq]; simp [applyPrimer])
  · exact key (some .Ground) (by rw [← neg_neg q, hq]; simp [applyPrimer])

/-- The worst fractions: `(2^b-1)/2^b`, its inverse and their opposites can be divided by themselves
when words have at least `2*b^2` bits, and cannot when words have fewer bits.  The same for the
product of two which are inverses of each other. -/
theorem C74_exact (cfg : Cfg) (x y : Number) (b : Nat) (q : ℚ) (hb : 3 ≤ b)
    (hq : |q| = (2 ^ b - 1) / 2 ^ b ∨ |q| = 2 ^ b / (2 ^ b - 1))
    (hx : Number.Denotes cfg NoPanic x q) :
    (2 * b * b ≤ cfg.bits →
      (Number.Denotes cfg NoPanic y q →
        Returns (fun f => Number.combine cfg f x y 0 1 0 0 0 0 1 0) (.Special .PosOne)) ∧
      (Number.Denotes cfg NoPanic y q⁻¹ →
        Returns (fun f => Number.combine cfg f x y 1 0 0 0 0 0 0 1) (.Special .PosOne))) ∧
    (cfg.bits < 2 * b * b →
      (Number.Denotes cfg NoPanic y q →
        Panics (fun f => Number.combine cfg f x y 0 1 0 0 0 0 1 0) .unwrapNone) ∧
      (Number.Denotes cfg NoPanic y q⁻¹ →
        Panics (fun f => Number.combine cfg f x y 1 0 0 0 0 0 0 1) .unwrapNone)) := by
  have hN : (8 : ℚ) ≤ 2 ^ b := by
    calc (8 : ℚ) = 2 ^ 3 := by norm_num
      _ ≤ 2 ^ b := pow_le_pow_right₀ (by norm_num) hb
  have w0 : (0 : ℚ) < (2 ^ b - 1) / 2 ^ b := div_pos (by linarith) (by linarith)
  have w1 : ((2 : ℚ) ^ b - 1) / 2 ^ b < 1 := by rw [div_lt_one (by linarith)]; linarith
  have w2 : (1 : ℚ) < 2 ^ b / (2 ^ b - 1) := by rw [lt_div_iff₀ (by linarith)]; linarith
  have q0 : q ≠ 0 := by
    rintro rfl
    rw [abs_zero] at hq
    rcases hq with hq | hq <;> linarith
  have ns : ∀ s, q ≠ specialValue s := by
    rintro s rfl
    cases s <;> norm_num [specialValue] at hq <;> rcases hq with hq | hq <;> linarith
  have weak : ∀ p, NoPanic p → p = .unwrapNone := fun _ h => h.elim
  have up : 2 * b * b ≤ cfg.bits → cfg.Fits (2 ^ (2 * b * b - 1) - 1) := by
    intro h
    have h18 : 18 ≤ 2 * b * b := by nlinarith
    have h1 := cfg.fits_pow (n := 2 * b * b - 2) (by omega)
    have h0 : (1 : Int) ≤ 2 ^ (2 * b * b - 1) := one_le_pow₀ (by norm_num)
    have hi := cfg.imin_eq
    have hm := cfg.imax_ge
    refine ⟨by omega, ?_⟩
    have : (2 : Int) ^ (2 * b * b - 1) ≤ 2 ^ (cfg.bits - 1) :=
      pow_le_pow_right₀ (by norm_num) (by omega)
    unfold Cfg.imax
    omega
  have ret : ∀ {mk : Option Primer → Option Primer} {k : Coef8}, Ones mk k →
      ∀ {p : Option Primer} {cx cy : Clog} {v : ℚ}, q = applyPrimer p v →
      Clog.Denotes cfg NoPanic cx v → Clog.Denotes cfg NoPanic cy v → 2 * b * b ≤ cfg.bits →
      Returns (fun f => Number.combine cfg f (.Other p cx) (.Other (mk p) cy) k.a k.b k.c k.d k.e
        k.f k.g k.h) (.Special .PosOne) := by
    intro mk k hk p cx cy v e hcx hcy h
    obtain ⟨r, hr, rfl, -⟩ := (Number.worst_quot hk hb (worst_value hb hcx.1 hcx.2.1 e hq) hcx hcy
      (.inl (up h))).returns
    exact hr
  have pan : ∀ {mk : Option Primer → Option Primer} {k : Coef8}, Ones mk k →
      ∀ {p : Option Primer} {cx cy : Clog} {v : ℚ}, q = applyPrimer p v →
      Clog.Denotes cfg NoPanic cx v → Clog.Denotes cfg NoPanic cy v → cfg.bits < 2 * b * b →
      Panics (fun f => Number.combine cfg f (.Other p cx) (.Other (mk p) cy) k.a k.b k.c k.d
        k.e k.f k.g k.h) .unwrapNone := by
    intro mk k hk p cx cy v e hcx hcy h
    rcases Number.worst_quot (A := (· = .unwrapNone)) hk hb (worst_value hb hcx.1 hcx.2.1 e hq)
      (hcx.weaken weak) (hcy.weaken weak) (.inr rfl) with ⟨r, -, -, hf⟩ | ⟨p, hp, rfl⟩
    · exact absurd hf (cfg.not_fits_pow (by omega))
    · exact hp
  refine ⟨fun h => ⟨fun hy => ?_, fun hy => ?_⟩, fun h => ⟨fun hy => ?_, fun hy => ?_⟩⟩
  · rcases hx.same hy with ⟨s, rfl, rfl⟩ | ⟨p, cx, cy, v, rfl, rfl, e, hcx, hcy⟩
    · exact absurd hx (ns s)
    · exact ret ones_div e hcx hcy h
  · rcases hx.inverses q0 hy with ⟨s, -, rfl, rfl⟩ | ⟨p, cx, cy, v, rfl, rfl, e, hcx, hcy⟩
    · exact absurd hx (ns s)
    · exact ret ones_mul e hcx hcy h
  · rcases hx.same hy with ⟨s, rfl, rfl⟩ | ⟨p, cx, cy, v, rfl, rfl, e, hcx, hcy⟩
    · exact absurd hx (ns s)
    · exact pan ones_div e hcx hcy h
  · rcases hx.inverses q0 hy with ⟨s, -, rfl, rfl⟩ | ⟨p, cx, cy, v, rfl, rfl, e, hcx, hcy⟩
    · exact absurd hx (ns s)
    · exact pan ones_mul e hcx hcy h

/-- On 64 bits: all fractions with parts up to 32 in magnitude divided by themselves give one, while
63/64, 64/63 and their opposites do not; the same for the product with the inverse. -/
theorem C74_64 (cfg : Cfg) (h : cfg.bits = 64) (x y : Number) (q : ℚ)
    (hx : Number.Denotes cfg NoPanic x q) :
    ((∃ num den : Int, q = (num : ℚ) / den ∧ num ≠ 0 ∧ den ≠ 0 ∧ |num| ≤ 32 ∧ |den| ≤ 32) →
      (Number.Denotes cfg NoPanic y q →
        Returns (fun f => Number.combine cfg f x y 0 1 0 0 0 0 1 0) (.Special .PosOne)) ∧
      (Number.Denotes cfg NoPanic y q⁻¹ →
        Returns (fun f => Number.combine cfg f x y 1 0 0 0 0 0 0 1) (.Special .PosOne))) ∧
    (|q| = 63 / 64 ∨ |q| = 64 / 63 →
      (Number.Denotes cfg NoPanic y q →
        Panics (fun f => Number.combine cfg f x y 0 1 0 0 0 0 1 0) .unwrapNone) ∧
      (Number.Denotes cfg NoPanic y q⁻¹ →
        Panics (fun f => Number.combine cfg f x y 1 0 0 0 0 0 0 1) .unwrapNone)) := by
  constructor
  · rintro ⟨num, den, rfl, hn, hd, h1, h2⟩
    rw [inv_div]
    exact C74_size cfg x y 5 num den hx hn hd (by norm_num; exact h1) (by norm_num; exact h2)
      (by rw [h]; norm_num)
  · intro hq
    exact (C74_exact cfg x y 6 q (by norm_num) (by norm_num; exact hq) hx).2
      (by rw [h]; norm_num)

/-- Hypotheses met: 25/32 divided by itself, and times 32/25, on 64 bits. -/
example : ∃ x y, Number.ratio ⟨64, by decide, true⟩ 25 32 = .ok x ∧
    Number.ratio ⟨64, by decide, true⟩ 32 25 = .ok y ∧
    Returns (fun f => Number.combine ⟨64, by decide, true⟩ f x x 0 1 0 0 0 0 1 0)
      (.Special .PosOne) ∧
    Returns (fun f => Number.combine ⟨64, by decide, true⟩ f x y 1 0 0 0 0 0 0 1)
      (.Special .PosOne) := by
  obtain ⟨x, e, hx⟩ := Number.ratio_denotes (cfg := ⟨64, by decide, true⟩) (A := NoPanic)
    (num := 25) (den := 32) (by decide) (by decide) (by decide) (by decide)
  obtain ⟨y, e', hy⟩ := Number.ratio_denotes (cfg := ⟨64, by decide, true⟩) (A := NoPanic)
    (num := 32) (den := 25) (by decide) (by decide) (by decide) (by decide)
  have hs : ∃ num den : Int, (((25 : Int) : ℚ) / (32 : Int)) = (num : ℚ) / den ∧ num ≠ 0 ∧ den ≠ 0 ∧
      |num| ≤ 32 ∧ |den| ≤ 32 := ⟨25, 32, rfl, by decide, by decide, by decide, by decide⟩
  exact ⟨x, y, e, e', ((C74_64 _ rfl x x _ hx).1 hs).1 hx, ((C74_64 _ rfl x y _ hx).1 hs).2
    (by rw [inv_div]; exact hy)⟩

/-- Hypotheses met: -63/64 divided by itself on 64 bits, without overflow checks. -/
example : ∃ x, Number.ratio ⟨64, by decide, false⟩ (-63) 64 = .ok x ∧
    Panics (fun f => Number.combine ⟨64, by decide, false⟩ f x x 0 1 0 0 0 0 1 0) .unwrapNone := by
  obtain ⟨x, e, hx⟩ := Number.ratio_denotes (cfg := ⟨64, by decide, false⟩) (A := NoPanic)
    (num := -63) (den := 64) (by decide) (by decide) (by decide) (by decide)
  exact ⟨x, e, ((C74_64 _ rfl x x _ hx).2 (.inl (by norm_num [abs_of_neg]))).1 hx⟩

/-- Hypotheses met: -32/31 divided by itself on 64 bits, which is more than `2*5*5`. -/
example : ∃ x, Number.ratio ⟨64, by decide, false⟩ (-32) 31 = .ok x ∧
    Returns (fun f => Number.combine ⟨64, by decide, false⟩ f x x 0 1 0 0 0 0 1 0)
      (.Special .PosOne) := by
  obtain ⟨x, e, hx⟩ := Number.ratio_denotes (cfg := ⟨64, by decide, false⟩) (A := NoPanic)
    (num := -32) (den := 31) (by decide) (by decide) (by decide) (by decide)
  exact ⟨x, e, ((C74_exact _ x x 5 _ (by norm_num) (.inr (by norm_num [abs_of_neg])) hx).1
    (by decide)).1 hx⟩

/-- Test: the model run on 7/8 divided by itself with words of 16 bits. -/
example : (Number.ratio ⟨16, by decide, true⟩ 7 8).bind
    (fun x => Number.combine ⟨16, by decide, true⟩ 40 x x 0 1 0 0 0 0 1 0) =
    .panic .unwrapNone := by decide +kernel

/-- Test: the model run on 7/8 divided by itself with words of 18 bits. -/
example : (Number.ratio ⟨18, by decide, true⟩ 7 8).bind
    (fun x => Number.combine ⟨18, by decide, true⟩ 40 x x 0 1 0 0 0 0 1 0) =
    .ok (.Special .PosOne) := by decide +kernel

/-- Test: the model run on -8/7 times -7/8 with words of 17 and 18 bits. -/
example : ((Number.ratio ⟨17, by decide, true⟩ (-8) 7).bind fun x =>
      (Number.ratio ⟨17, by decide, true⟩ (-7) 8).bind
        (fun y => Number.combine ⟨17, by decide, true⟩ 40 x y 1 0 0 0 0 0 0 1)) =
      .panic .unwrapNone ∧
    ((Number.ratio ⟨18, by decide, true⟩ (-8) 7).bind fun x =>
      (Number.ratio ⟨18, by decide, true⟩ (-7) 8).bind
        (fun y => Number.combine ⟨18, by decide, true⟩ 40 x y 1 0 0 0 0 0 0 1)) =
      .ok (.Special .PosOne) := by decide +kernel

end Clarith
