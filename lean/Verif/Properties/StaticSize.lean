import Verif.Properties.Room
import Verif.Properties.Length
import Mathlib.Data.Nat.Log

/-! # Room for a program, from its text alone (C80) -/

namespace Clarith

open Out Spec

/-- A bound for the numerator and the denominator of what the program computes, read off its text;
`size i` bounds those of the `i`-th given number. -/
def Spec.Expr.parts (size : Nat → Nat) : Expr → Nat
  | .given i => size i
  | .ratio num den => max num.natAbs den.natAbs
  | .ratioU _ num den => max num den
  | .homographic e nx n dx d =>
    max (nx.natAbs + n.natAbs) (dx.natAbs + d.natAbs) * e.parts size
  | .combine e e' nxy nx ny n dxy dx dy d =>
    max (nxy.natAbs + nx.natAbs + ny.natAbs + n.natAbs)
      (dxy.natAbs + dx.natAbs + dy.natAbs + d.natAbs) * (e.parts size * e'.parts size)
  | .rebuild e => e.parts size
  | .reread _ _ e => e.parts size

/-- The number of binary digits that the bound takes, at least 1. -/
def Spec.Expr.digits (size : Nat → Nat) (e : Expr) : Nat := max 1 (Nat.clog 2 (e.parts size))

/-- A check of the text of a program for words of this many bits. -/
def Spec.Expr.fits (bits : Nat) (size : Nat → Nat) : Expr → Bool
  | .given _ => true
  | .ratio num den => num.natAbs < 2 ^ (bits - 1) && den.natAbs < 2 ^ (bits - 1)
  | .ratioU _ num den => num < 2 ^ bits && den < 2 ^ bits
  | .homographic e nx n dx d => e.fits bits size &&
      max (nx.natAbs + n.natAbs) (dx.natAbs + d.natAbs) ^ 2 *
        2 ^ (e.digits size * (e.digits size + 1)) < 2 ^ (bits - 1)
  | .combine e e' nxy nx ny n dxy dx dy d => e.fits bits size && e'.fits bits size &&
      max (nxy.natAbs + nx.natAbs + ny.natAbs + n.natAbs)
        (dxy.natAbs + dx.natAbs + dy.natAbs + d.natAbs) ^ 2 *
        2 ^ (e.digits size * (e.digits size + 1) + e'.digits size * (e'.digits size + 1)) <
          2 ^ (bits - 1)
  | .rebuild e => e.fits bits size && longest (e.digits size) + 5 ≤ bits
  | .reread _ _ e => e.fits bits size

/-! ## Parts -/

private theorem Spec.Parts.nonneg {n : Int} {q : ℚ} (h : Parts n q) : 0 ≤ n := by
  obtain ⟨a, _, _, h1, _⟩ := h
  exact (abs_nonneg a).trans h1

private theorem Spec.Parts.mono {n m : Int} {q : ℚ} (h : Parts n q) (hm : n ≤ m) : Parts m q := by
  obtain ⟨a, b, h0, h1, h2, e⟩ := h
  exact ⟨a, b, h0, h1.trans hm, h2.trans hm, e⟩

private theorem Spec.Parts.neg {n : Int} {q : ℚ} (h : Parts n q) : Parts n (-q) := by
  obtain ⟨a, b, h0, h1, h2, e⟩ := h
  exact ⟨-a, b, h0, by simpa using h1, h2, by rw [e]; push_cast; ring⟩

private theorem Spec.Parts.inv {n : Int} {q : ℚ} (h : Parts n q) (hq : q ≠ 0) : Parts n (1 / q) := by
  obtain ⟨a, b, h0, h1, h2, e⟩ := h
  refine ⟨b, a, ?_, h2, h1, by rw [e]; simp⟩
  rintro rfl
  simp [e] at hq

private theorem Spec.Parts.primer {n : Int} {x : ℚ} (p : Option Primer) (hx : 0 < x) :
    Parts n (applyPrimer p x) ↔ Parts n x := by
  have hx0 : x ≠ 0 := hx.ne'
  rcases p with _ | _ | _ | _
  · exact Iff.rfl
  · refine ⟨fun h => ?_, fun h => h.inv hx0⟩
    have := Parts.inv h (by simpa [applyPrimer] using hx0)
    simpa [applyPrimer] using this
  · refine ⟨fun h => ?_, fun h => h.neg⟩
    simpa [applyPrimer] using Parts.neg h
  · refine ⟨fun h => ?_, fun h => ?_⟩
    · have := Parts.inv (Parts.neg h) (by simpa [applyPrimer] using hx0)
      simpa [applyPrimer] using this
    · have := Parts.neg (Parts.inv h hx0)
      simpa [applyPrimer, neg_div] using this

private theorem Spec.Parts.doubled {n : Int} {x : ℚ} (h : Parts n x) (h0 : 0 < x) (h1 : x < 1 / 2) :
    Parts n (2 * x) := by
  obtain ⟨a, b, hb, h2, h3, rfl⟩ := h
  refine ⟨2 * a, b, hb, le_trans ?_ h3, h3, by push_cast; ring⟩
  have hb' : (0 : ℚ) < |(b : ℚ)| := abs_pos.2 (by exact_mod_cast hb)
  have : |(a : ℚ)| / |(b : ℚ)| < 1 / 2 := by rwa [← abs_div, abs_of_pos h0]
  rw [div_lt_iff₀ hb'] at this
  have : (|2 * a| : ℚ) < |(b : ℚ)| := by rw [abs_mul, abs_two]; linarith
  exact_mod_cast this.le

private theorem Spec.Parts.uncovered {n : Int} {x : ℚ} (h : Parts n x) (h0 : 0 < x) (h1 : x < 1) :
    Parts n (1 / x - 1) := by
  obtain ⟨a, b, hb, h2, h3, rfl⟩ := h
  have hb' : (b : ℚ) ≠ 0 := by exact_mod_cast hb
  have ha : (a : ℚ) ≠ 0 := by
    intro e
    rw [e] at h0
    simp at h0
  refine ⟨b - a, a, by exact_mod_cast ha, le_trans ?_ h3, h2, by push_cast; field_simp⟩
  have : (|b - a| : ℚ) ≤ |(b : ℚ)| := by
    have e : (b : ℚ) - a = b * (1 - a / b) := by field_simp
    rw [e, abs_mul, abs_of_pos (by linarith : (0 : ℚ) < 1 - a / b)]
    nlinarith [abs_nonneg (b : ℚ)]
  exact_mod_cast this

private theorem Spec.Parts.left {n : Int} (m : Nat) {x : ℚ} (h : Parts n x) (h0 : 0 < x) (h1 : x < 1) :
    0 < Expr.left m x ∧ Parts n (Expr.left m x) := by
  induction m generalizing x with
  | zero => exact ⟨h0, h⟩
  | succ m ih =>
    unfold Expr.left
    split_ifs with h2 h3
    · exact ih (h.doubled h0 h2) (by linarith) (by linarith)
    · refine ih (h.uncovered h0 h1) ?_ ?_
      · rw [sub_pos, lt_div_iff₀ h0]; linarith
      · rw [sub_lt_iff_lt_add, div_lt_iff₀ h0]; linarith
    · exact ⟨h0, h⟩

private theorem form_le {a b P Q : Int} (h : |b| ≤ Q) (hP : |a| ≤ P) : |a * b| ≤ P * Q := by
  rw [abs_mul]
  exact mul_le_mul hP h (abs_nonneg _) ((abs_nonneg _).trans hP)

private theorem form4 {a b c d N : Int} (h1 : |c| ≤ N) (h2 : |d| ≤ N) :
    |a * c + b * d| ≤ (|a| + |b|) * N := by
  have e1 := form_le (a := a) h1 le_rfl
  have e2 := form_le (a := b) h2 le_rfl
  have := abs_add_le (a * c) (b * d)
  linarith

private theorem form8 {a b c d p q r s N : Int} (h1 : |p| ≤ N) (h2 : |q| ≤ N) (h3 : |r| ≤ N)
    (h4 : |s| ≤ N) :
    |a * p + b * q + c * r + d * s| ≤ (|a| + |b| + |c| + |d|) * N := by
  have e1 := form4 (a := a) (b := b) h1 h2
  have e2 := form4 (a := c) (b := d) h3 h4
  have := abs_add_le (a * p + b * q) (c * r + d * s)
  rw [show a * p + b * q + c * r + d * s = a * p + b * q + (c * r + d * s) by ring]
  linarith

open Spec.Expr in
/-- The bound read off the text is right. -/
theorem C80_parts (val : Nat → ℚ) (size : Nat → Nat) (hval : ∀ i, Parts (size i) (val i)) (e : Expr)
    (q : ℚ) (hv : Value val e q) : Parts (e.parts size) q := by
  induction hv with
  | given i => exact hval i
  | @ratio num den h =>
    refine ⟨num, den, h, ?_, ?_, rfl⟩ <;> simp only [parts] <;> push_cast [Int.natCast_natAbs]
    · exact le_max_left _ _
    · exact le_max_right _ _
  | @ratioU positive num den h =>
    have hp : Parts (max num den : Nat) ((num : ℚ) / den) :=
      ⟨num, den, by exact_mod_cast h, by simp, by simp, by push_cast; rfl⟩
    cases positive
    · simpa [parts] using hp.neg
    · simpa [parts] using hp
  | @homographic e q nx n dx d he hD ih =>
    obtain ⟨a, b, hb, h1, h2, rfl⟩ := ih
    have hb' : (b : ℚ) ≠ 0 := by exact_mod_cast hb
    have hN : (0 : Int) ≤ e.parts size := Int.natCast_nonneg _
    refine ⟨nx * a + n * b, dx * a + d * b, ?_, ?_, ?_, ?_⟩
    · intro h0
      apply hD
      have : (dx : ℚ) * a + d * b = 0 := by exact_mod_cast h0
      field_simp
      linear_combination this
    · refine (form4 h1 h2).trans ?_
      simp only [parts]
      push_cast [Int.natCast_natAbs]
      exact mul_le_mul_of_nonneg_right (le_max_left _ _) hN
    · refine (form4 h1 h2).trans ?_
      simp only [parts]
      push_cast [Int.natCast_natAbs]
      exact mul_le_mul_of_nonneg_right (le_max_right _ _) hN
    · push_cast
      rw [show (nx : ℚ) * (a / b) + n = (nx * a + n * b) / b by field_simp,
        show (dx : ℚ) * (a / b) + d = (dx * a + d * b) / b by field_simp, div_div_div_cancel_right₀ hb']
  | @combine e e' q r nxy nx ny n dxy dx dy d he he' hD ih ih' =>
    obtain ⟨a, b, hb, h1, h2, rfl⟩ := ih
    obtain ⟨a', b', hb0, h1', h2', rfl⟩ := ih'
    have k1 : (b : ℚ) ≠ 0 := by exact_mod_cast hb
    have k2 : (b' : ℚ) ≠ 0 := by exact_mod_cast hb0
    have k3 : (b : ℚ) * b' ≠ 0 := mul_ne_zero k1 k2
    have hN : (0 : Int) ≤ e.parts size * e'.parts size :=
      mul_nonneg (Int.natCast_nonneg _) (Int.natCast_nonneg _)
    have key (u v w z : Int) :=
      form8 (a := u) (b := v) (c := w) (d := z) (form_le h1' h1) (form_le h2' h1) (form_le h1' h2)
        (form_le h2' h2)
    refine ⟨nxy * (a * a') + nx * (a * b') + ny * (b * a') + n * (b * b'),
      dxy * (a * a') + dx * (a * b') + dy * (b * a') + d * (b * b'), ?_, ?_, ?_, ?_⟩
    · intro h0
      apply hD
      have : (dxy : ℚ) * (a * a') + dx * (a * b') + dy * (b * a') + d * (b * b') = 0 := by
        exact_mod_cast h0
      field_simp
      linear_combination this
    · refine (key nxy nx ny n).trans ?_
      simp only [parts]
      push_cast [Int.natCast_natAbs]
      exact mul_le_mul_of_nonneg_right (le_max_left _ _) hN
    · refine (key dxy dx dy d).trans ?_
      simp only [parts]
      push_cast [Int.natCast_natAbs]
      exact mul_le_mul_of_nonneg_right (le_max_right _ _) hN
    · push_cast
      rw [show (nxy : ℚ) * (a / b) * (a' / b') + nx * (a / b) + ny * (a' / b') + n =
          (nxy * (a * a') + nx * (a * b') + ny * (b * a') + n * (b * b')) / (b * b') by field_simp,
        show (dxy : ℚ) * (a / b) * (a' / b') + dx * (a / b) + dy * (a' / b') + d =
          (dxy * (a * a') + dx * (a * b') + dy * (b * a') + d * (b * b')) / (b * b') by field_simp,
        div_div_div_cancel_right₀ k3]
  | rebuild _ ih => exact ih
  | @reread e p p' m x h0 h1 he ih =>
    obtain ⟨k0, k1⟩ := Spec.Parts.left m ((Spec.Parts.primer p' h0).1 ih) h0 h1
    exact (Spec.Parts.primer p k0).2 k1

private theorem digits_pos (size : Nat → Nat) (e : Expr) : 1 ≤ e.digits size := le_max_left _ _

theorem Spec.Parts.digits {size : Nat → Nat} {e : Expr} {q : ℚ} (h : Parts (e.parts size) q) :
    Parts (2 ^ e.digits size) q := by
  refine h.mono ?_
  have h1 : e.parts size ≤ 2 ^ Nat.clog 2 (e.parts size) := Nat.le_pow_clog (by norm_num) _
  have h2 : 2 ^ Nat.clog 2 (e.parts size) ≤ 2 ^ e.digits size :=
    Nat.pow_le_pow_right (by norm_num) (le_max_right _ _)
  exact_mod_cast h1.trans h2

private theorem Spec.Parts.growth {b : Nat} {q : ℚ} (h : Parts (2 ^ b) q) :
    GrowthAtMost q (2 ^ (b * (b + 1) / 2) / 2) := by
  obtain ⟨num, den, h0, h1, h2, rfl⟩ := h
  exact C73_growth b num den h0 h1 h2

private theorem half_square (b : Nat) : ((2 : ℚ) ^ (b * (b + 1) / 2)) ^ 2 = 2 ^ (b * (b + 1)) := by
  rw [← pow_mul, Nat.div_mul_cancel (Nat.even_mul_succ_self b).two_dvd]

private theorem half_ge (b : Nat) (hb : 1 ≤ b) : (1 : ℚ) ≤ 2 ^ (b * (b + 1) / 2) / 2 := by
  have : 1 ≤ b * (b + 1) / 2 := by
    have : 2 ≤ b * (b + 1) := by nlinarith
    omega
  have := pow_le_pow_right₀ (by norm_num : (1 : ℚ) ≤ 2) this
  linarith

private theorem cfg_lt {cfg : Cfg} {n : Nat} (h : n < 2 ^ (cfg.bits - 1)) : (n : Int) ≤ cfg.imax := by
  have : (n : Int) < 2 ^ (cfg.bits - 1) := by exact_mod_cast h
  unfold Cfg.imax
  omega

open Spec.Expr in
/-- A program that passes the check has room for its numbers. -/
theorem C80_fits_roomy (cfg : Cfg) (val : Nat → ℚ) (size : Nat → Nat)
    (hval : ∀ i, Parts (size i) (val i)) (e : Expr) (h : e.fits cfg.bits size = true) :
    e.Roomy cfg val := by
  have grow (e : Expr) (q : ℚ) (hq : Value val e q) :
      GrowthAtMost q (2 ^ (e.digits size * (e.digits size + 1) / 2) / 2) :=
    (C80_parts val size hval e q hq).digits.growth
  induction e with
  | given i => trivial
  | ratio num den =>
    simp only [fits, Bool.and_eq_true, decide_eq_true_eq] at h
    simp only [Roomy, ← Int.natCast_natAbs]
    exact ⟨cfg_lt h.1, cfg_lt h.2⟩
  | ratioU positive num den =>
    simp only [fits, Bool.and_eq_true, decide_eq_true_eq] at h
    simp only [Roomy, Cfg.umax]
    omega
  | homographic e nx n dx d ih =>
    simp only [fits, Bool.and_eq_true, decide_eq_true_eq] at h
    refine ⟨ih h.1, (max (nx.natAbs + n.natAbs) (dx.natAbs + d.natAbs) : Nat), _,
      half_ge _ (digits_pos size _), ?_, ?_, grow e, ?_⟩
    · push_cast [Int.natCast_natAbs]; exact le_max_left _ _
    · push_cast [Int.natCast_natAbs]; exact le_max_right _ _
    · have := cfg_lt h.2
      generalize max (nx.natAbs + n.natAbs) (dx.natAbs + d.natAbs) = S at this ⊢
      have h3 : ((S ^ 2 * 2 ^ (e.digits size * (e.digits size + 1)) : Nat) : ℚ) ≤ cfg.imax := by
        exact_mod_cast this
      refine le_of_eq_of_le ?_ h3
      push_cast
      rw [← half_square]
      ring
  | combine e e' nxy nx ny n dxy dx dy d ih ih' =>
    simp only [fits, Bool.and_eq_true, decide_eq_true_eq] at h
    refine ⟨ih h.1.1, ih' h.1.2, (max (nxy.natAbs + nx.natAbs + ny.natAbs + n.natAbs)
        (dxy.natAbs + dx.natAbs + dy.natAbs + d.natAbs) : Nat), _, _,
      half_ge _ (digits_pos size _), half_ge _ (digits_pos size _), ?_, ?_, grow e, grow e', ?_⟩
    · push_cast [Int.natCast_natAbs]; exact le_max_left _ _
    · push_cast [Int.natCast_natAbs]; exact le_max_right _ _
    · have := cfg_lt h.2
      generalize max (nxy.natAbs + nx.natAbs + ny.natAbs + n.natAbs)
        (dxy.natAbs + dx.natAbs + dy.natAbs + d.natAbs) = S at this ⊢
      have h3 : ((S ^ 2 * 2 ^ (e.digits size * (e.digits size + 1) +
          e'.digits size * (e'.digits size + 1)) : Nat) : ℚ) ≤ cfg.imax := by
        exact_mod_cast this
      refine le_of_eq_of_le ?_ h3
      push_cast
      rw [pow_add, ← half_square, ← half_square]
      ring
  | rebuild e ih =>
    simp only [fits, Bool.and_eq_true, decide_eq_true_eq] at h
    refine ⟨ih h.1, longest (e.digits size), fun q hq => ?_, ?_⟩
    · obtain ⟨num, den, h0, h1, h2, rfl⟩ := (C80_parts val size hval e q hq).digits
      exact (C45_symbol_count _ num den h0 h1 h2).1
    · exact (cfg.fits_pow (by omega)).2
  | reread p m e ih =>
    simp only [fits] at h
    exact ih h

open Spec.Expr in
/-- In every build, a program that passes the check on its text, and that has a value in exact
arithmetic, returns a number denoting exactly that value, without panic then or at any later
`egest`. -/
theorem C80_text (cfg : Cfg) (env : Nat → Number) (val : Nat → ℚ) (size : Nat → Nat)
    (hval : ∀ i, Parts (size i) (val i)) (henv : ∀ i, Number.Denotes cfg NoPanic (env i) (val i))
    (e : Expr) (h : e.fits cfg.bits size = true) (q : ℚ) (hv : Value val e q) :
    ∃ x, Returns (fun f => e.run cfg f env) x ∧ Number.Denotes cfg NoPanic x q :=
  C76_programs cfg env val henv e (C80_fits_roomy cfg val size hval e h) q hv

/-! ## Sums, products and polynomials -/

/-- The sum of the fractions, the last two added first. -/
def Spec.sumOf (a : Int × Int) : List (Int × Int) → Expr
  | [] => .ratio a.1 a.2
  | c :: l => .combine (.ratio a.1 a.2) (sumOf c l) 0 1 1 0 0 0 0 1

/-- The product of the fractions, the last two multiplied first. -/
def Spec.productOf (a : Int × Int) : List (Int × Int) → Expr
  | [] => .ratio a.1 a.2
  | c :: l => .combine (.ratio a.1 a.2) (productOf c l) 1 0 0 0 0 0 0 1

/-- The polynomial with these coefficients, the constant one first, at the fraction `a`, by Horner's
rule: one `combine` for each coefficient. -/
def Spec.polynomialAt (a : Int × Int) : List Int → Expr
  | [] => .ratio 0 1
  | c :: l => .combine (polynomialAt a l) (.ratio a.1 a.2) 1 0 0 c 0 0 0 1

/-- The value of a pair as a fraction. -/
def Spec.pairValue (a : Int × Int) : ℚ := a.1 / a.2

private theorem value_sumOf (val : Nat → ℚ) (a : Int × Int) (l : List (Int × Int))
    (h : ∀ c ∈ a :: l, c.2 ≠ 0) : Expr.Value val (sumOf a l) ((a :: l).map pairValue).sum := by
  induction l generalizing a with
  | nil => simpa [sumOf, pairValue] using Expr.Value.ratio (val := val) (num := a.1) (h a (by simp))
  | cons c l ih =>
    have := Expr.Value.combine (nxy := 0) (nx := 1) (ny := 1) (n := 0) (dxy := 0) (dx := 0) (dy := 0)
      (d := 1) (Expr.Value.ratio (val := val) (num := a.1) (h a (by simp)))
      (ih c (fun x hx => h x (List.mem_cons_of_mem _ hx))) (by norm_num)
    simpa [sumOf, pairValue] using this

private theorem value_productOf (val : Nat → ℚ) (a : Int × Int) (l : List (Int × Int))
    (h : ∀ c ∈ a :: l, c.2 ≠ 0) : Expr.Value val (productOf a l) ((a :: l).map pairValue).prod := by
  induction l generalizing a with
  | nil => simpa [productOf, pairValue] using Expr.Value.ratio (val := val) (num := a.1) (h a (by simp))
  | cons c l ih =>
    have := Expr.Value.combine (nxy := 1) (nx := 0) (ny := 0) (n := 0) (dxy := 0) (dx := 0) (dy := 0)
      (d := 1) (Expr.Value.ratio (val := val) (num := a.1) (h a (by simp)))
      (ih c (fun x hx => h x (List.mem_cons_of_mem _ hx))) (by norm_num)
    simpa [productOf, pairValue] using this

private theorem value_polynomialAt (val : Nat → ℚ) (a : Int × Int) (l : List Int) (h : a.2 ≠ 0) :
    Expr.Value val (polynomialAt a l) (l.foldr (fun (c : Int) (v : ℚ) => v * pairValue a + c) 0) := by
  induction l with
  | nil => simpa [polynomialAt] using Expr.Value.ratio (val := val) (num := 0) (den := 1) (by decide)
  | cons c l ih =>
    have := Expr.Value.combine (nxy := 1) (nx := 0) (ny := 0) (n := c) (dxy := 0) (dx := 0) (dy := 0)
      (d := 1) ih (Expr.Value.ratio (val := val) (num := a.1) h) (by norm_num)
    simpa [polynomialAt, pairValue] using this

private theorem parts_ratio {size : Nat → Nat} {b : Nat} {a : Int × Int} (h1 : |a.1| ≤ 2 ^ b)
    (h2 : |a.2| ≤ 2 ^ b) : (Expr.ratio a.1 a.2).parts size ≤ 2 ^ b := by
  simp only [Expr.parts]
  rw [← Int.natCast_natAbs] at h1 h2
  exact max_le (by exact_mod_cast h1) (by exact_mod_cast h2)

private theorem digits_le {size : Nat → Nat} {e : Expr} {b : Nat} (h : e.parts size ≤ 2 ^ b)
    (hb : 1 ≤ b) : e.digits size ≤ b :=
  max_le hb (Nat.clog_le_of_le_pow h)

private theorem fits_ratio {bits : Nat} {size : Nat → Nat} {b : Nat} {a : Int × Int}
    (h1 : |a.1| ≤ 2 ^ b) (h2 : |a.2| ≤ 2 ^ b) (h : b + 2 ≤ bits) :
    (Expr.ratio a.1 a.2).fits bits size = true := by
  simp only [Expr.fits, Bool.and_eq_true, decide_eq_true_eq]
  rw [← Int.natCast_natAbs] at h1 h2
  have hp : 2 ^ b < 2 ^ (bits - 1) := Nat.pow_lt_pow_right (by norm_num) (by omega)
  exact ⟨lt_of_le_of_lt (by exact_mod_cast h1) hp, lt_of_le_of_lt (by exact_mod_cast h2) hp⟩

private theorem fits_combine {bits : Nat} {size : Nat → Nat} {e e' : Expr} {b b' s : Nat}
    {nxy nx ny n dxy dx dy d : Int} (h : e.fits bits size = true) (h' : e'.fits bits size = true)
    (he : e.parts size ≤ 2 ^ b) (he' : e'.parts size ≤ 2 ^ b') (hb : 1 ≤ b) (hb' : 1 ≤ b')
    (h1 : nxy.natAbs + nx.natAbs + ny.natAbs + n.natAbs ≤ 2 ^ s)
    (h2 : dxy.natAbs + dx.natAbs + dy.natAbs + d.natAbs ≤ 2 ^ s)
    (hs : 2 * s + b * (b + 1) + b' * (b' + 1) + 2 ≤ bits) :
    (Expr.combine e e' nxy nx ny n dxy dx dy d).fits bits size = true := by
  simp only [Expr.fits, Bool.and_eq_true, decide_eq_true_eq]
  refine ⟨⟨h, h'⟩, ?_⟩
  have d1 := digits_le he hb
  have d2 := digits_le he' hb'
  have m1 := Nat.mul_le_mul d1 (Nat.succ_le_succ d1)
  have m2 := Nat.mul_le_mul d2 (Nat.succ_le_succ d2)
  have k1 := Nat.pow_le_pow_left (max_le h1 h2) 2
  have k2 := Nat.pow_le_pow_right (n := 2) (by norm_num) (Nat.add_le_add m1 m2)
  refine lt_of_le_of_lt (Nat.mul_le_mul k1 k2) ?_
  rw [← pow_mul, ← pow_add]
  exact Nat.pow_lt_pow_right (by norm_num) (by simp only [Nat.succ_eq_add_one]; omega)

private theorem sumOf_fits {bits : Nat} {size : Nat → Nat} {b : Nat} (hb : 1 ≤ b) (a : Int × Int)
    (l : List (Int × Int)) (h : ∀ c ∈ a :: l, |c.1| ≤ 2 ^ b ∧ |c.2| ≤ 2 ^ b)
    (hs : b * (b + 1) + ((b + 1) * l.length - 1) * ((b + 1) * l.length) + 4 ≤ bits) :
    (sumOf a l).parts size ≤ 2 ^ ((b + 1) * (l.length + 1) - 1) ∧
      (sumOf a l).fits bits size = true := by
  obtain ⟨h1, h2⟩ := h a (by simp)
  have hbb : b ≤ b * (b + 1) := Nat.le_mul_of_pos_right _ (by omega)
  have hr := fits_ratio (size := size) h1 h2 (show b + 2 ≤ bits by omega)
  induction l generalizing a with
  | nil => exact ⟨by simpa [sumOf] using parts_ratio h1 h2, hr⟩
  | cons c l ih =>
    have hc := h c (by simp)
    have hlen : (b + 1) * (c :: l).length = (b + 1) * l.length + (b + 1) := by
      rw [List.length_cons]; ring
    rw [hlen] at hs
    have hmono : ((b + 1) * l.length - 1) * ((b + 1) * l.length) ≤
        ((b + 1) * l.length + (b + 1) - 1) * ((b + 1) * l.length + (b + 1)) :=
      Nat.mul_le_mul (by omega) (by omega)
    obtain ⟨k1, k2⟩ := ih c (fun x hx => h x (List.mem_cons_of_mem _ hx)) (by omega) hc.1 hc.2
      (fits_ratio hc.1 hc.2 (by omega))
    have hlen2 : (b + 1) * (l.length + 1) = (b + 1) * l.length + (b + 1) := by ring
    have hlen3 : (b + 1) * ((c :: l).length + 1) = (b + 1) * l.length + (b + 1) + (b + 1) := by
      rw [List.length_cons]; ring
    rw [hlen2] at k1
    rw [hlen3]
    obtain ⟨B, hB⟩ : ∃ B, B = (b + 1) * l.length + (b + 1) - 1 := ⟨_, rfl⟩
    rw [show (b + 1) * l.length + (b + 1) = B + 1 by omega] at hs k1 ⊢
    rw [Nat.add_sub_cancel] at hs k1
    refine ⟨?_, ?_⟩
    · have e : (2 : Nat) ^ (B + 1 + (b + 1) - 1) = 2 * (2 ^ b * 2 ^ B) := by
        rw [show B + 1 + (b + 1) - 1 = B + b + 1 by omega]; ring
      rw [e]
      simp only [sumOf, Expr.parts] at k1 ⊢
      exact Nat.mul_le_mul (by decide) (Nat.mul_le_mul (parts_ratio (size := size) h1 h2) k1)
    · exact fits_combine (s := 1) (b := b) (b' := B) hr k2 (parts_ratio h1 h2) k1 hb (by omega)
        (by decide) (by decide) (by omega)

private theorem productOf_fits {bits : Nat} {size : Nat → Nat} {b : Nat} (hb : 1 ≤ b) (a : Int × Int)
    (l : List (Int × Int)) (h : ∀ c ∈ a :: l, |c.1| ≤ 2 ^ b ∧ |c.2| ≤ 2 ^ b)
    (hs : b * (b + 1) + b * l.length * (b * l.length + 1) + 2 ≤ bits) :
    (productOf a l).parts size ≤ 2 ^ (b * (l.length + 1)) ∧
      (productOf a l).fits bits size = true := by
  obtain ⟨h1, h2⟩ := h a (by simp)
  have hbb : b ≤ b * (b + 1) := Nat.le_mul_of_pos_right _ (by omega)
  have hr := fits_ratio (size := size) h1 h2 (show b + 2 ≤ bits by omega)
  induction l generalizing a with
  | nil => exact ⟨by simpa [productOf] using parts_ratio h1 h2, hr⟩
  | cons c l ih =>
    have hc := h c (by simp)
    have hlen : b * (c :: l).length = b * (l.length + 1) := by rw [List.length_cons]
    rw [hlen] at hs
    have hmono : b * l.length * (b * l.length + 1) ≤ b * (l.length + 1) * (b * (l.length + 1) + 1) :=
      Nat.mul_le_mul (Nat.mul_le_mul le_rfl (by omega))
        (Nat.succ_le_succ (Nat.mul_le_mul le_rfl (by omega)))
    obtain ⟨k1, k2⟩ := ih c (fun x hx => h x (List.mem_cons_of_mem _ hx)) (by omega) hc.1 hc.2
      (fits_ratio hc.1 hc.2 (by omega))
    refine ⟨?_, ?_⟩
    · have e : (2 : Nat) ^ (b * ((c :: l).length + 1)) = 1 * (2 ^ b * 2 ^ (b * (l.length + 1))) := by
        rw [List.length_cons]; ring
      rw [e]
      simp only [productOf, Expr.parts] at k1 ⊢
      exact Nat.mul_le_mul (by decide) (Nat.mul_le_mul (parts_ratio (size := size) h1 h2) k1)
    · exact fits_combine (s := 0) (b := b) (b' := b * (l.length + 1)) hr k2 (parts_ratio h1 h2) k1 hb
        (Nat.mul_pos (by omega) (by omega)) (by decide) (by decide) (by omega)

private theorem polynomialAt_fits {bits : Nat} {size : Nat → Nat} {b m : Nat} (hb : 1 ≤ b)
    (a : Int × Int) (l : List Int) (h1 : |a.1| ≤ 2 ^ b) (h2 : |a.2| ≤ 2 ^ b)
    (h : ∀ c ∈ l, |c| < 2 ^ m)
    (hs : 2 * m + b * (b + 1) + ((b + m) * (l.length - 1) + 1) * ((b + m) * (l.length - 1) + 2) + 2
      ≤ bits) :
    (polynomialAt a l).parts size ≤ 2 ^ ((b + m) * l.length) ∧
      (polynomialAt a l).fits bits size = true := by
  have hbb : b ≤ b * (b + 1) := Nat.le_mul_of_pos_right _ (by omega)
  have hr := fits_ratio (size := size) h1 h2 (show b + 2 ≤ bits by omega)
  induction l with
  | nil =>
    refine ⟨by simp [polynomialAt, Expr.parts], ?_⟩
    exact fits_ratio (a := (0, 1)) (b := b) (by simp) (by simp [one_le_pow₀]) (by omega)
  | cons c l ih =>
    have hc := h c (by simp)
    rw [List.length_cons, Nat.add_sub_cancel] at hs
    have hlt : (b + m) * (l.length - 1) ≤ (b + m) * l.length := Nat.mul_le_mul le_rfl (by omega)
    have hmono := Nat.mul_le_mul (Nat.add_le_add_right hlt 1) (Nat.add_le_add_right hlt 2)
    obtain ⟨k1, k2⟩ := ih (fun x hx => h x (List.mem_cons_of_mem _ hx)) (by omega)
    have hS : (1 : Int).natAbs + (0 : Int).natAbs + (0 : Int).natAbs + c.natAbs ≤ 2 ^ m := by
      rw [← Int.natCast_natAbs] at hc
      have : c.natAbs < 2 ^ m := by exact_mod_cast hc
      simp only [Int.natAbs_one, Int.natAbs_zero]
      omega
    have hS' : (0 : Int).natAbs + (0 : Int).natAbs + (0 : Int).natAbs + (1 : Int).natAbs ≤ 2 ^ m := by
      simpa using Nat.one_le_two_pow
    refine ⟨?_, ?_⟩
    · have e : (2 : Nat) ^ ((b + m) * (c :: l).length) = 2 ^ m * (2 ^ ((b + m) * l.length) * 2 ^ b) := by
        rw [List.length_cons, ← pow_add, ← pow_add]; congr 1; ring
      rw [e]
      simp only [polynomialAt, Expr.parts] at k1 ⊢
      exact Nat.mul_le_mul (max_le hS hS') (Nat.mul_le_mul k1 (parts_ratio (size := size) h1 h2))
    · exact fits_combine (s := m) (b := (b + m) * l.length + 1) (b' := b) k2 hr
        (k1.trans (Nat.pow_le_pow_right (by norm_num) (by omega))) (parts_ratio h1 h2) (by omega) hb
        hS hS' (by rw [show (b + m) * l.length + 1 + 1 = (b + m) * l.length + 2 by ring]; omega)

private theorem sumOf_run (cfg : Cfg) (f : Nat) (env env' : Nat → Number) (a : Int × Int) (l : List (Int × Int)) :
    (sumOf a l).run cfg f env = (sumOf a l).run cfg f env' := by
  induction l generalizing a with
  | nil => rfl
  | cons c l ih => simp only [sumOf, Expr.run, ih]

private theorem productOf_run (cfg : Cfg) (f : Nat) (env env' : Nat → Number) (a : Int × Int) (l : List (Int × Int)) :
    (productOf a l).run cfg f env = (productOf a l).run cfg f env' := by
  induction l generalizing a with
  | nil => rfl
  | cons c l ih => simp only [productOf, Expr.run, ih]

private theorem polynomialAt_run (cfg : Cfg) (f : Nat) (env env' : Nat → Number) (a : Int × Int) (l : List Int) :
    (polynomialAt a l).run cfg f env = (polynomialAt a l).run cfg f env' := by
  induction l with
  | nil => rfl
  | cons c l ih => simp only [polynomialAt, Expr.run, ih]

/-- The sum of `k + 1` fractions with parts up to `2^b`, one after the other: exact and without panic on
words of `b(b+1) + B(B+1) + 4` bits, where `B + 1 = (b+1)k`. -/
theorem C80_sum (cfg : Cfg) (env : Nat → Number) (b : Nat) (hb : 1 ≤ b) (a : Int × Int)
    (l : List (Int × Int)) (h : ∀ c ∈ a :: l, c.2 ≠ 0 ∧ |c.1| ≤ 2 ^ b ∧ |c.2| ≤ 2 ^ b)
    (hs : b * (b + 1) + ((b + 1) * l.length - 1) * ((b + 1) * l.length) + 4 ≤ cfg.bits) :
    ∃ x, Returns (fun f => (sumOf a l).run cfg f env) x ∧
      Number.Denotes cfg NoPanic x ((a :: l).map pairValue).sum := by
  have hv := value_sumOf (fun _ => 0) a l fun c hc => (h c hc).1
  have hf := (sumOf_fits (size := fun _ => 1) hb a l (fun c hc => (h c hc).2) hs).2
  obtain ⟨x, hx, hd⟩ := C80_text cfg (fun _ => .Special .Zero) _ _
    (fun _ => ⟨0, 1, by decide, by decide, by decide, by norm_num⟩) (fun _ => by simp [Number.Denotes, specialValue]) _ hf _ hv
  exact ⟨x, by simpa only [sumOf_run cfg _ env (fun _ => .Special .Zero)] using hx, hd⟩

/-- The product of `k + 1` fractions with parts up to `2^b`, one after the other: exact and without panic
on words of `b(b+1) + bk(bk+1) + 2` bits. -/
theorem C80_product (cfg : Cfg) (env : Nat → Number) (b : Nat) (hb : 1 ≤ b) (a : Int × Int)
    (l : List (Int × Int)) (h : ∀ c ∈ a :: l, c.2 ≠ 0 ∧ |c.1| ≤ 2 ^ b ∧ |c.2| ≤ 2 ^ b)
    (hs : b * (b + 1) + b * l.length * (b * l.length + 1) + 2 ≤ cfg.bits) :
    ∃ x, Returns (fun f => (productOf a l).run cfg f env) x ∧
      Number.Denotes cfg NoPanic x ((a :: l).map pairValue).prod := by
  have hv := value_productOf (fun _ => 0) a l fun c hc => (h c hc).1
  have hf := (productOf_fits (size := fun _ => 1) hb a l (fun c hc => (h c hc).2) hs).2
  obtain ⟨x, hx, hd⟩ := C80_text cfg (fun _ => .Special .Zero) _ _
    (fun _ => ⟨0, 1, by decide, by decide, by decide, by norm_num⟩) (fun _ => by simp [Number.Denotes, specialValue]) _ hf _ hv
  exact ⟨x, by simpa only [productOf_run cfg _ env (fun _ => .Special .Zero)] using hx, hd⟩

/-- A polynomial of degree `k` with integer coefficients below `2^m` at a fraction with parts up to
`2^b`, by Horner's rule: exact and without panic on words of `2m + b(b+1) + (B+1)(B+2) + 2` bits, where
`B = (b+m)k`. -/
theorem C80_polynomial (cfg : Cfg) (env : Nat → Number) (b m : Nat) (hb : 1 ≤ b) (a : Int × Int)
    (l : List Int) (h0 : a.2 ≠ 0) (h1 : |a.1| ≤ 2 ^ b) (h2 : |a.2| ≤ 2 ^ b) (h : ∀ c ∈ l, |c| < 2 ^ m)
    (hs : 2 * m + b * (b + 1) + ((b + m) * (l.length - 1) + 1) * ((b + m) * (l.length - 1) + 2) + 2
      ≤ cfg.bits) :
    ∃ x, Returns (fun f => (polynomialAt a l).run cfg f env) x ∧
      Number.Denotes cfg NoPanic x (l.foldr (fun (c : Int) (v : ℚ) => v * pairValue a + c) 0) := by
  have hv := value_polynomialAt (fun _ => 0) a l h0
  have hf := (polynomialAt_fits (size := fun _ => 1) hb a l h1 h2 h hs).2
  obtain ⟨x, hx, hd⟩ := C80_text cfg (fun _ => .Special .Zero) _ _
    (fun _ => ⟨0, 1, by decide, by decide, by decide, by norm_num⟩) (fun _ => by simp [Number.Denotes, specialValue]) _ hf _ hv
  exact ⟨x, by simpa only [polynomialAt_run cfg _ env (fun _ => .Special .Zero)] using hx, hd⟩

/-- Example: on 64 bits, `1/4 + 3/4 - 4/3` and `2/3 * 1/4 * 4 * 3/2` (parts up to 4), and
`1 - 3x + 2x^2` at `2/1`, are computed without panic. -/
example (checks : Bool) :
    (∃ x, Returns (fun f => (sumOf (1, 4) [(3, 4), (-4, 3)]).run ⟨64, by decide, checks⟩ f
      fun _ => .Special .Zero) x ∧ Number.Denotes ⟨64, by decide, checks⟩ NoPanic x (-1 / 3)) ∧
    (∃ x, Returns (fun f => (productOf (2, 3) [(1, 4), (4, 1), (3, 2)]).run ⟨64, by decide, checks⟩ f
      fun _ => .Special .Zero) x ∧ Number.Denotes ⟨64, by decide, checks⟩ NoPanic x 1) ∧
    (∃ x, Returns (fun f => (polynomialAt (2, 1) [1, -3, 2]).run ⟨64, by decide, checks⟩ f
      fun _ => .Special .Zero) x ∧ Number.Denotes ⟨64, by decide, checks⟩ NoPanic x 3) := by
  refine ⟨?_, ?_, ?_⟩
  · have := C80_sum ⟨64, by decide, checks⟩ (fun _ => .Special .Zero) 2 (by decide) (1, 4)
      [(3, 4), (-4, 3)] (by decide) (by show _ ≤ 64; decide)
    convert this using 3
    norm_num [pairValue]
  · have := C80_product ⟨64, by decide, checks⟩ (fun _ => .Special .Zero) 2 (by decide) (2, 3)
      [(1, 4), (4, 1), (3, 2)] (by decide) (by show _ ≤ 64; decide)
    convert this using 3
    norm_num [pairValue]
  · have := C80_polynomial ⟨64, by decide, checks⟩ (fun _ => .Special .Zero) 1 2 (by decide) (2, 1)
      [1, -3, 2] (by decide) (by decide) (by decide) (by decide) (by show _ ≤ 64; decide)
    convert this using 3
    norm_num [pairValue]

/-- Example: the check accepts, for 64 bits, a program that reads two symbols of `5/8 + x` for a given
`x` with parts up to 8, takes what is left apart and builds it again; and it refuses it for 32 bits. -/
example : (Expr.rebuild (.reread (some .Turn) 2 (.combine (.ratio 5 8) (.given 0)
      0 1 1 0 0 0 0 1))).fits 64 (fun _ => 8) = true ∧
    (Expr.rebuild (.reread (some .Turn) 2 (.combine (.ratio 5 8) (.given 0)
      0 1 1 0 0 0 0 1))).fits 32 (fun _ => 8) = false := by
  decide +kernel

/-- Example: with 1/8 for `x` this program returns, on 64 bits, a number denoting 3/2. -/
example (checks : Bool) (env : Nat → Number)
    (henv : ∀ i, Number.Denotes ⟨64, by decide, checks⟩ NoPanic (env i) (1 / 8)) :
    ∃ x, Returns (fun f => (Expr.rebuild (.reread (some .Turn) 2 (.combine (.ratio 5 8) (.given 0)
      0 1 1 0 0 0 0 1))).run ⟨64, by decide, checks⟩ f env) x ∧
      Number.Denotes ⟨64, by decide, checks⟩ NoPanic x (3 / 2) := by
  refine C80_text ⟨64, by decide, checks⟩ env (fun _ => 1 / 8) (fun _ => 8)
    (fun _ => ⟨1, 8, by decide, by decide, by decide, by norm_num⟩) henv _ (by show Expr.fits 64 _ _ = true; decide +kernel) _ ?_
  have h := Expr.Value.combine (nxy := 0) (nx := 1) (ny := 1) (n := 0) (dxy := 0) (dx := 0) (dy := 0)
    (d := 1) (Expr.Value.ratio (val := fun _ => 1 / 8) (num := 5) (den := 8) (by decide)) (.given 0)
    (by norm_num)
  have h' := Expr.Value.reread (p := some .Turn) (p' := none) (m := 2) (x := 3 / 4) (by norm_num)
    (by norm_num) (by convert h using 1; norm_num [applyPrimer])
  convert Expr.Value.rebuild h' using 1
  norm_num [applyPrimer, Expr.left]

end Clarith
