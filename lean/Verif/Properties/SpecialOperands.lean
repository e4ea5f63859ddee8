import Verif.Properties.Powers
import Verif.Properties.Combine

/-! # C62 The operands `-1`, `0` and `1` are put in exactly -/

namespace Clarith

open Out Spec

variable {cfg : Cfg}

/-- The integer `a * s + b`, for `s` one of `-1`, `0` and `1`. -/
def Spec.substitute (s : Special) (a b : Int) : Int :=
  match s with
  | .NegOne => -a + b
  | .Zero => b
  | .PosOne => a + b

/-- That is what it is. -/
theorem Spec.substitute_eq (s : Special) (a b : Int) :
    (substitute s a b : ℚ) = a * specialValue s + b := by
  cases s <;> simp [substitute, specialValue]

private theorem checked_fits {z : Int} (h : cfg.Fits z) : cfg.checked z = .ok z := if_pos h
private theorem checked_not {z : Int} (h : ¬cfg.Fits z) : cfg.checked z = .panic .unwrapNone :=
  if_neg h

/-- Four checked results in a row. -/
private theorem four_checked {α : Type} {a b c d : Int} (g : Int → Int → Int → Int → Out α) :
    (cfg.checked a >>= fun a => cfg.checked b >>= fun b => cfg.checked c >>= fun c =>
      cfg.checked d >>= fun d => g a b c d) =
    if cfg.Fits a ∧ cfg.Fits b ∧ cfg.Fits c ∧ cfg.Fits d then g a b c d
    else .panic .unwrapNone := by
  by_cases ha : cfg.Fits a
  · by_cases hb : cfg.Fits b
    · by_cases hc : cfg.Fits c
      · by_cases hd : cfg.Fits d
        · simp [checked_fits, ha, hb, hc, hd]
        · simp [checked_fits, checked_not, ha, hb, hc, hd]
      · simp [checked_fits, checked_not, ha, hb, hc]
    · simp [checked_fits, checked_not, ha, hb]
  · simp [checked_not, ha]

private theorem two_checked {α : Type} {a b : Int} (g : Int → Int → Out α) :
    (cfg.checked a >>= fun a => cfg.checked b >>= fun b => g a b) =
    if cfg.Fits a ∧ cfg.Fits b then g a b else .panic .unwrapNone := by
  by_cases ha : cfg.Fits a
  · by_cases hb : cfg.Fits b
    · simp [checked_fits, ha, hb]
    · simp [checked_fits, checked_not, ha, hb]
  · simp [checked_not, ha]

private theorem ite_bind {α β : Type} {P : Prop} [Decidable P] (m : Out α) (p : Panic)
    (g : α → Out β) : (if P then m else .panic p) >>= g = if P then m >>= g else .panic p := by
  split <;> rfl

/-- The result of a strategy made of a `Ratio`. -/
private theorem ratio_result {n d : Int} :
    (do
      let (special, primer, ratio, homographic) ← Homographic.asRatio cfg n d
      match special with
      | some fixed => pure (.Special fixed)
      | none =>
        match ratio with
        | some ratio => pure (.Other primer (.ratio ratio))
        | none =>
          match homographic with
          | some h => pure (.Other primer h.box)
          | none => .panic .unwrapMissing : Out Number) = Number.ratio cfg n d := by
  unfold Homographic.asRatio Ratio.newI Number.ratio Number.ratioU
  rcases Ratio.magnitude cfg n with a | p | _
  · rcases Ratio.magnitude cfg d with b | p | _
    · simp only [ok_bind]
      rcases Ratio.new (Ratio.sameSign n d) a b with ⟨s, q, r⟩ | p | _
      · simp only [ok_bind, pure_eq]
        cases s <;> cases r <;> rfl
      · rfl
      · rfl
    · rfl
    · rfl
  · rfl
  · rfl

/-- A map that does not depend on its operand: the operand is not read. -/
theorem C62_constant (cfg : Cfg) (f : Nat) (x : Number) (n d : Int) :
    Number.homographic cfg f x 0 n 0 d = Number.ratio cfg n d := by
  unfold Number.homographic Homographic.new
  rw [if_pos ⟨rfl, rfl⟩]
  exact ratio_result

/-- `homographic` of `-1`, `0` or `1` is the fraction `(nx*s + n)/(dx*s + d)`, exactly as
`Number::ratio` makes it (also its division by zero), or an overflow if one of the two is not a
machine integer. -/
theorem C62_homographic_special (cfg : Cfg) (f : Nat) (s : Special) (nx n dx d : Int)
    (H : MachineInts cfg [nx, n, dx, d]) :
    Number.homographic cfg f (.Special s) nx n dx d =
      if cfg.Fits (substitute s nx n) ∧ cfg.Fits (substitute s dx d) then
        Number.ratio cfg (substitute s nx n) (substitute s dx d)
      else .panic .unwrapNone := by
  simp only [MachineInts, List.forall_mem_cons] at H
  obtain ⟨-, hn, -, hd, -⟩ := H
  by_cases h0 : nx = 0 ∧ dx = 0
  · obtain ⟨rfl, rfl⟩ := h0
    have e : ∀ b, substitute s 0 b = b := fun b => by cases s <;> simp [substitute]
    rw [C62_constant, e, e, if_pos ⟨hn, hd⟩]
  · unfold Number.homographic Homographic.new
    rw [if_neg h0]
    cases s with
    | NegOne =>
      simp only [Cfg.csub, two_checked, ite_bind, substitute, sub_eq_neg_add]
      exact if_congr Iff.rfl ratio_result rfl
    | Zero =>
      simp only [substitute, hn, hd, and_self, if_true]
      exact ratio_result
    | PosOne =>
      simp only [Cfg.cadd, two_checked, ite_bind, substitute, add_comm]
      exact if_congr Iff.rfl ratio_result rfl

/-- The result of `combine` made of a `Homographic` or a `Ratio`. -/
private theorem homographic_result {f : Nat} {x : Number} {nx n dx d : Int} :
    (do
      let (special, primer, ratio, homographic, combine) ←
        Combine.asHomographic cfg (Clog.egest cfg f) f x nx n dx d
      match special with
      | some fixed => pure (.Special fixed)
      | none =>
        match ratio with
        | some ratio => pure (.Other primer (.ratio ratio))
        | none =>
          match homographic with
          | some h => pure (.Other primer h.box)
          | none =>
            match combine with
            | some c => pure (.Other primer c.box)
            | none => .panic .unwrapMissing : Out Number) =
      Number.homographic cfg f x nx n dx d := by
  unfold Combine.asHomographic Number.homographic
  rcases Homographic.new cfg (Clog.egest cfg f) f x nx n dx d with ⟨s, p, r, h⟩ | p | _
  · cases s <;> cases r <;> cases h <;> rfl
  · rfl
  · rfl

/-- `combine` with `-1`, `0` or `1` for its first operand is `homographic` of the second one, with
that operand put into the coefficients: the same result, the same panics, or an overflow if one of
the four coefficients is not a machine integer. -/
theorem C62_combine_special_first (cfg : Cfg) (f : Nat) (s : Special) (y : Number)
    (nxy nx ny n dxy dx dy d : Int) (H : MachineInts cfg [nxy, nx, ny, n, dxy, dx, dy, d]) :
    Number.combine cfg f (.Special s) y nxy nx ny n dxy dx dy d =
      if cfg.Fits (substitute s nxy ny) ∧ cfg.Fits (substitute s nx n) ∧
          cfg.Fits (substitute s dxy dy) ∧ cfg.Fits (substitute s dx d) then
        Number.homographic cfg f y (substitute s nxy ny) (substitute s nx n)
          (substitute s dxy dy) (substitute s dx d)
      else .panic .unwrapNone := by
  simp only [MachineInts, List.forall_mem_cons] at H
  obtain ⟨-, -, hny, hn, -, -, hdy, hd, -⟩ := H
  unfold Number.combine Combine.new
  cases s with
  | NegOne =>
    simp only [Cfg.csub, four_checked, ite_bind, substitute, sub_eq_neg_add]
    exact if_congr Iff.rfl homographic_result rfl
  | Zero =>
    simp only [substitute, hny, hn, hdy, hd, and_self, if_true]
    exact homographic_result
  | PosOne =>
    simp only [Cfg.cadd, four_checked, ite_bind, substitute, add_comm]
    exact if_congr Iff.rfl homographic_result rfl

/-- The same for the second operand, the first one having a primer and a clog. -/
theorem C62_combine_special_second (cfg : Cfg) (f : Nat) (s : Special) (p : Option Primer)
    (c : Clog) (nxy nx ny n dxy dx dy d : Int)
    (H : MachineInts cfg [nxy, nx, ny, n, dxy, dx, dy, d]) :
    Number.combine cfg f (.Other p c) (.Special s) nxy nx ny n dxy dx dy d =
      if cfg.Fits (substitute s nxy nx) ∧ cfg.Fits (substitute s ny n) ∧
          cfg.Fits (substitute s dxy dx) ∧ cfg.Fits (substitute s dy d) then
        Number.homographic cfg f (.Other p c) (substitute s nxy nx) (substitute s ny n)
          (substitute s dxy dx) (substitute s dy d)
      else .panic .unwrapNone := by
  simp only [MachineInts, List.forall_mem_cons] at H
  obtain ⟨-, hnx, -, hn, -, hdx, -, hd, -⟩ := H
  unfold Number.combine Combine.new
  cases s with
  | NegOne =>
    simp only [Cfg.csub, four_checked, ite_bind, substitute, sub_eq_neg_add]
    exact if_congr Iff.rfl homographic_result rfl
  | Zero =>
    simp only [substitute, hnx, hn, hdx, hd, and_self, if_true]
    exact homographic_result
  | PosOne =>
    simp only [Cfg.cadd, four_checked, ite_bind, substitute, add_comm]
    exact if_congr Iff.rfl homographic_result rfl

/-- With machine integers: `x*y + 1` at `y = 1` is `x + 1`, here for the `x` of C61. -/
example : MachineInts debug64 [1, 0, 0, 1, 0, 0, 0, 1] ∧
    substitute .PosOne 1 0 = 1 ∧ substitute .PosOne 0 1 = 1 := by
  refine ⟨?_, by decide⟩
  unfold MachineInts; decide

/-- The four sums need not be machine integers: `isize::MAX * x * y + x` at `y = 1`. -/
example : MachineInts debug64 [debug64.imax, 1, 0, 0, 0, 0, 0, 1] ∧
    ¬debug64.Fits (substitute .PosOne debug64.imax 1) := by
  refine ⟨?_, by decide⟩
  unfold MachineInts; decide

/-- So the sum of two numbers, one of which is `1`, is the `x + 1` of C61, and `255 + 1` overflows
there too. -/
theorem C62_sum_of_255_and_1 (cfg : Cfg) (h64 : cfg.bits = 64) :
    ∃ x y c, Number.ratio cfg 255 1 = .ok x ∧ Number.ratio cfg 1 1 = .ok y ∧
      Returns (fun f => Number.combine cfg f x y 0 1 1 0 0 0 0 1) (.Other (some .Turn) c) ∧
      Panics (fun f => Clog.egests cfg f 8 c) .unwrapNone := by
  obtain ⟨x, c, e, hx, h1, -, h2⟩ := C61_255 cfg h64
  have fits : ∀ z ∈ [(0 : Int), 1, 1, 0, 0, 0, 0, 1], cfg.Fits z := fun z hz =>
    cfg.fits_small (by simp at hz; omega) (by simp at hz; omega)
  cases x with
  | Special s =>
    exfalso
    have hq : (255 : ℚ) = specialValue s := hx
    cases s <;> norm_num [specialValue] at hq
  | Other p cx =>
    have e1 : Number.ratio cfg 1 1 = .ok (.Special .PosOne) := by
      have h : Ratio.magnitude cfg 1 = .ok 1 := by
        unfold Ratio.magnitude Cfg.asUsize
        have : (1 : Int).emod (2 ^ cfg.bits) = 1 :=
          Int.emod_eq_of_lt (by norm_num) (one_lt_pow₀ (by norm_num) (by omega))
        simp [this, pure_eq]
      simp only [Number.ratio, h, ok_bind]
      rfl
    refine ⟨_, _, c, e, e1, ?_, h2⟩
    obtain ⟨f₀, h1⟩ := h1
    refine ⟨f₀, fun f hf => ?_⟩
    simp only at h1 ⊢
    rw [C62_combine_special_second cfg f .PosOne p cx 0 1 1 0 0 0 0 1 fits]
    have hf1 : cfg.Fits 1 := fits 1 (by simp)
    have hf0 : cfg.Fits 0 := fits 0 (by simp)
    simp only [substitute, zero_add, add_zero, hf0, hf1, and_self, if_true]
    exact h1 f hf

end Clarith
