import Verif.Proofs.FailStop
import Verif.Properties.Unchecked
import Verif.Properties.Length
import Verif.Properties.Steps

/-! # After a caught overflow (C70)

C51 showed that `egest` called again after a caught panic may answer wrongly.  Here: the numbers on
which it cannot, and how little it takes for `combine`. -/

namespace Clarith

open Out Spec Steps

/-- What a caller sees that catches every panic and goes on calling `egest` on a fail-stop number:
`r` right symbols, and after them nothing but overflow panics. -/
theorem C70_answers (cfg : Cfg) (p : Option Primer) (o : Obj) (q : ℚ)
    (h : FailStopNumber cfg (.Other p o) q) :
    ∃ v, 0 < v ∧ v < 1 ∧ q = applyPrimer p v ∧ ∀ m, ∃ r, r ≤ m ∧ ∃ F, ∀ f, F ≤ f → ∀ w,
      caught cfg f m o w =
        (symbols r v).map .ok ++ List.replicate (m - r) (.panic .unwrapNone) := by
  obtain ⟨v, h0, h1, hv, rfl⟩ := h
  exact ⟨v, h0, h1, rfl, fun m => hv.caught m⟩

/-- 3/5 is such a number; no case of `r < m` here, but see 255 + 1 below. -/
theorem failStop_three_fifths (cfg : Cfg) :
    FailStopNumber cfg (.Other none (.ratio ⟨3, 5⟩)) (3 / 5) := by
  have hr : (⟨3, 5⟩ : Ratio).OK cfg := ⟨by decide, by decide, by
    have h1 := cfg.umax_eq
    have h2 := cfg.imax_ge
    simp only
    omega⟩
  have := Ratio.failStop hr
  rw [show (⟨3, 5⟩ : Ratio).val = 3 / 5 by norm_num [Ratio.val]] at this
  exact ⟨3 / 5, by norm_num, by norm_num, this, rfl⟩

example := C70_answers debug64 _ _ _ (failStop_three_fifths debug64)

/-- Fractions are fail-stop.  (By C15 they do not even panic.) -/
theorem C70_ratio (cfg : Cfg) (num den : Int) (hn : cfg.Fits num) (hd : cfg.Fits den)
    (hd0 : den ≠ 0) (hmin : cfg.overflowChecks = true → num ≠ cfg.imin ∧ den ≠ cfg.imin) :
    ∃ x, FailStopNumber cfg x ((num : ℚ) / den) ∧
      ∀ w, Steps.Number.ratio cfg num den w = (.ok x, w) := by
  obtain ⟨e1, b1⟩ := Ratio.magnitude_exact hn fun h => (hmin h).1
  obtain ⟨e2, b2⟩ := Ratio.magnitude_exact hd fun h => (hmin h).2
  have h := Ratio.new_signed (A := NoPanic) hd0 b1 b2
  cases e : Clarith.Ratio.new (Ratio.sameSign num den) num.natAbs den.natAbs with
  | panic p =>
    rw [e] at h
    exact h.elim
  | timeout =>
    rw [e] at h
    exact h.elim
  | ok t =>
    rw [e] at h
    rcases h with ⟨s, rfl, hq⟩ | ⟨p, r, rfl, hr, hq⟩
    · refine ⟨.Special s, hq, fun w => ?_⟩
      simp only [Steps.Number.ratio, Steps.Number.ratioU, Bind.bind, Mut.bind, Mut.eval, e1, e2, e]
      rfl
    · refine ⟨.Other p (.ratio r), ⟨r.val, hr.val_mem.1, hr.val_mem.2, Ratio.failStop hr, hq⟩,
        fun w => ?_⟩
      simp only [Steps.Number.ratio, Steps.Number.ratioU, Bind.bind, Mut.bind, Mut.eval, e1, e2, e]
      rfl

/-- -22/7. -/
example := C70_ratio debug64 (-22) 7 (by decide) (by decide) (by decide) (by decide)

/-- `homographic` of a fail-stop number: the call panics with overflow, or the result is fail-stop.
The condition is that of C46: the operand has at most `L` symbols, the coefficients are at most
`M` in magnitude, and `M` can be doubled `L + 3` times.  So the range checks, which multiply two
coefficients, may overflow; they leave everything as it was, and fail again. -/
theorem C70_homographic (cfg : Cfg) (x : Steps.Number) (q : ℚ) (hx : FailStopNumber cfg x q)
    (L : Nat) (hL : SymbolCount q L) (M nx n dx d : Int) (hM1 : 1 ≤ M)
    (hk : ∀ z ∈ [nx, n, dx, d], |z| ≤ M) (hM : M * 2 ^ (L + 3) ≤ cfg.imax)
    (hD : (dx : ℚ) * q + d ≠ 0) :
    (∃ F, ∀ f, F ≤ f → ∀ w, ∃ w',
      Steps.Number.homographic cfg f x nx n dx d w = (.panic .unwrapNone, w')) ∨
    ∃ y, FailStopNumber cfg y ((nx * q + n) / (dx * q + d)) ∧ ∃ F, ∀ f, F ≤ f → ∀ w, ∃ w',
      Steps.Number.homographic cfg f x nx n dx d w = (.ok y, w') := by
  obtain ⟨h1, h2⟩ := linear_size hM1 hM
  have hi := cfg.imin_eq
  exact Steps.Number.homographic_makes hx hL (.of_abs hM1 h2 hk)
    (fun z hz hz' => ⟨by omega, by omega⟩) hD

/-- 3/5 with coefficients up to `2^57`. -/
example := C70_homographic release64 _ _ (failStop_three_fifths _) 2 symbolCount_three_fifths
  (2 ^ 57) (2 ^ 57) (-3) 7 (2 ^ 57) (by decide) (by decide) (by decide) (by norm_num)

/-- For fractions: numerator and denominator up to `2^b`, the coefficients up to `M`, and `M` can be
doubled `longest b + 3` times.  With 64 bits: parts up to 512 and coefficients up to 255. -/
theorem C70_fraction (cfg : Cfg) (b : Nat) (num den M nx n dx d : Int) (hd0 : den ≠ 0)
    (hn : |num| ≤ 2 ^ b) (hd : |den| ≤ 2 ^ b) (hM1 : 1 ≤ M)
    (hk : ∀ z ∈ [nx, n, dx, d], |z| ≤ M) (hM : M * 2 ^ (longest b + 3) ≤ cfg.imax)
    (hD : (dx : ℚ) * (num / den) + d ≠ 0) :
    ∃ x, (∀ w, Steps.Number.ratio cfg num den w = (.ok x, w)) ∧
      ((∃ F, ∀ f, F ≤ f → ∀ w, ∃ w',
        Steps.Number.homographic cfg f x nx n dx d w = (.panic .unwrapNone, w')) ∨
      ∃ y, FailStopNumber cfg y ((nx * (num / den) + n) / (dx * (num / den) + d)) ∧
        ∃ F, ∀ f, F ≤ f → ∀ w, ∃ w',
          Steps.Number.homographic cfg f x nx n dx d w = (.ok y, w')) := by
  have hi := cfg.imin_eq
  have hb : (2 : Int) ^ b ≤ cfg.imax := by
    refine le_trans ?_ hM
    have h1 : (2 : Int) ^ b ≤ 2 ^ (longest b + 3) := by
      refine pow_le_pow_right₀ (by norm_num) ?_
      rcases Nat.eq_zero_or_pos b with rfl | h
      · exact Nat.zero_le _
      · have := longest_eq h
        nlinarith
    exact h1.trans (le_mul_of_one_le_left (by positivity) hM1)
  obtain ⟨n1, n2⟩ := abs_le.1 hn
  obtain ⟨d1, d2⟩ := abs_le.1 hd
  obtain ⟨x, hx, e⟩ := C70_ratio cfg num den ⟨by omega, by omega⟩ ⟨by omega, by omega⟩ hd0
    (fun _ => ⟨by omega, by omega⟩)
  exact ⟨x, e, C70_homographic cfg x _ hx _ (C45_symbol_count b num den hd0 hn hd).1 M nx n dx d hM1
    hk hM hD⟩

/-- 511/512, and a map with coefficients up to 255, in a release build. -/
example := C70_fraction release64 9 511 512 255 255 (-3) 7 254 (by decide) (by decide) (by decide)
  (by decide) (by decide) (by decide) (by norm_num)

/-- 255 + 1 on 64 bits is such a case, and the panic happens (C61). -/
example := C70_fraction debug64 8 255 1 1 1 1 0 1 (by decide) (by decide) (by decide)
  (by decide) (by decide) (by decide) (by norm_num)

/-- Test: seven right symbols of 1/256, then nothing but panics. -/
example : Caller.session debug64 60 ([.ratio 255 1, .homographic 0 1 1 0 1] ++
      List.replicate 20 (.egest 1)) Caller.start =
    [.ok (.made (.other (some .Turn))), .ok (.made (.other (some .Turn)))] ++
    List.replicate 7 (.ok (.symbol (some .Amplify))) ++
    List.replicate 13 (.panic .unwrapNone) := by
  decide +kernel

/-- The condition of `C70_homographic` has to say something about the size of the coefficients:
in C51 the second call answers `Uncover` about a number below one half. -/
example := C51_not_without_restriction

/-! ## `combine` is not fail-stop -/

/-- The symbols in the answers to the calls of `egest`, panics left out. -/
def symbolsAnswered (l : List (Res Answer)) : List (Option Reduction) :=
  l.filterMap fun
    | .ok (.symbol s) => some s
    | _ => none

/-- (66342/66315) / (130080/117631), and 34 calls of `egest`. -/
def quotientSession : List Call :=
  [.ratio 66342 66315, .ratio 130080 117631, .combine 0 1 0 1 0 0 0 0 1 0] ++
    List.replicate 34 (.egest 2)

/-- `combine` is not: on a 64 bit machine the quotient of the fractions 66342/66315 and
130080/117631 panics after 31 right symbols; the next answer is right, the one after that is wrong.
When one operand has ended, `Combine::reduction_ingest` moves the other one out of the object, leaves
a dummy (1/2) in its place and calls `homographic::new`, which is where the overflow happens; the
next `egest` computes with the dummy. -/
theorem C70_not_combine (cfg : Cfg) (h : cfg = debug64 ∨ cfg = release64) :
    let answers := Caller.session cfg 100 quotientSession Caller.start
    let q : ℚ := 66342 / 66315 / (130080 / 117631)
    answers.take 3 = [.ok (.made (.other (some .Turn))), .ok (.made (.other (some .Turn))),
      .ok (.made (.other none))] ∧
    (answers.drop 3).take 31 = (symbols 31 q).map (fun s => .ok (.symbol s)) ∧
    answers.drop 34 = [.panic .unwrapNone, .ok (.symbol (some .Uncover)),
      .ok (.symbol (some .Uncover))] ∧
    (0 < q ∧ q < 1) ∧ (symbols 33 q).drop 31 = [some .Uncover, some .Amplify] := by
  rcases h with rfl | rfl <;> decide +kernel

/-- 3/11 - 8/11 on a 16 bit machine: the first call panics, and the later ones answer as if the
difference were not -5/11. -/
example :
    let answers := Caller.session ⟨16, by decide, true⟩ 60
      ([.ratio 3 11, .ratio 8 11, .combine 0 1 0 1 (-1) 0 0 0 0 1] ++ List.replicate 9 (.egest 2))
      Caller.start
    answers.drop 2 = .ok (.made (.other (some .Reflect))) :: .panic .unwrapNone ::
      ([some .Amplify, some .Uncover, some .Amplify, some .Amplify, some .Amplify, some .Uncover,
        some .Amplify, some .Uncover].map fun s => .ok (.symbol s)) ∧
    symbols 8 (5 / 11) = [some .Amplify, some .Uncover, some .Amplify, some .Amplify, some .Amplify,
      some .Uncover, some .Amplify, none] := by
  decide +kernel

/-- Test: `combine` may also go on rightly after a panic.  7 + 7/12 on a 16 bit machine. -/
example :
    let answers := Caller.session ⟨16, by decide, true⟩ 60
      ([.ratio 7 1, .ratio 7 12, .combine 0 1 0 1 1 0 0 0 0 1] ++ List.replicate 20 (.egest 2))
      Caller.start
    .panic .unwrapNone ∈ answers.drop 3 ∧
    symbolsAnswered answers =
      symbols ((answers.drop 3).countP (· ≠ .panic .unwrapNone)) (12 / 91) := by
  decide +kernel

end Clarith
