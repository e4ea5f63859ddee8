import Verif.Proofs.Compare
import Verif.Proofs.Fuel
import Verif.Properties.Ratio

/-! # Properties of `Number::compare` (C13, C14, C15, C38) -/

namespace Clarith

open Spec

/-! ## C13 `compare` is numeric order -/

/-- For numbers denoting `p` and `q`, `compare` ends: it answers `Less`, `Equal`, `Greater`
exactly as `p < q`, `p = q`, `p > q`, or panics with a panic of an operand's `egest`. -/
theorem C13_compare (cfg : Cfg) (A : Panic → Prop) (n1 n2 : Number) (p q : ℚ)
    (h1 : Number.Denotes cfg A n1 p) (h2 : Number.Denotes cfg A n2 q) :
    Ends A (fun f => Number.compare cfg f n1 n2)
      (fun o => (o = .lt ↔ p < q) ∧ (o = .eq ↔ p = q) ∧ (o = .gt ↔ q < p)) := by
  refine (Number.compare_ends h1 h2).mono fun o ho => ?_
  cases o <;> simp only [Ordering.Compares] at ho <;>
    simp only [true_iff, reduceCtorEq, false_iff, not_lt] <;>
    refine ⟨?_, ?_, ?_⟩ <;>
    first | exact ho | exact ho.le | exact ho.ne | exact ho.ne' | exact ho.symm.le

/-- 2/7 read by the user and -5/3 as operands. -/
example : Number.Denotes debug64 NoPanic (.Other none (.ratio ⟨2, 7⟩)) (2 / 7) ∧
    Number.Denotes debug64 NoPanic (.Other (some .Ground) (.ratio ⟨3, 5⟩)) (-5 / 3) := by
  constructor
  · refine ⟨2 / 7, ?_, rfl⟩
    have := Ratio.denotes (cfg := debug64) (A := NoPanic) (r := ⟨2, 7⟩)
      ⟨by decide, by decide, by decide⟩
    simpa [Ratio.val] using this
  · refine ⟨3 / 5, ?_, by norm_num [applyPrimer]⟩
    have := Ratio.denotes (cfg := debug64) (A := NoPanic) (r := ⟨3, 5⟩)
      ⟨by decide, by decide, by decide⟩
    simpa [Ratio.val] using this

/-! ## C14 `compare` is a total order on fractions -/

/-- The order of two rationals. -/
def Spec.order (p q : ℚ) : Ordering := if p < q then .lt else if p = q then .eq else .gt

/-- On numbers built by `ratio`, `compare` returns without panic the order of the values, in
every build: so it is reflexive, answers the reverse when the arguments are swapped, is
transitive, and answers `Equal` only for equal fractions. -/
theorem C14_total_order (cfg : Cfg) (a b c d : Int) (hb : b ≠ 0) (hd : d ≠ 0)
    (ha' : cfg.Fits a) (hb' : cfg.Fits b) (hc' : cfg.Fits c) (hd' : cfg.Fits d)
    (hmin : cfg.overflowChecks = true →
      a ≠ cfg.imin ∧ b ≠ cfg.imin ∧ c ≠ cfg.imin ∧ d ≠ cfg.imin) :
    ∃ n1 n2, Number.ratio cfg a b = .ok n1 ∧ Number.ratio cfg c d = .ok n2 ∧
      Returns (fun f => Number.compare cfg f n1 n2) (order (a / b) (c / d)) := by
  obtain ⟨n1, e1, h1⟩ := Number.ratio_denotes (A := NoPanic) hb ha' hb'
    fun h => ⟨(hmin h).1, (hmin h).2.1⟩
  obtain ⟨n2, e2, h2⟩ := Number.ratio_denotes (A := NoPanic) hd hc' hd'
    fun h => ⟨(hmin h).2.2.1, (hmin h).2.2.2⟩
  refine ⟨n1, n2, e1, e2, ?_⟩
  rcases C13_compare cfg NoPanic n1 n2 _ _ h1 h2 with ⟨o, ho, l1, l2, l3⟩ | ⟨_, _, hp⟩
  · convert ho using 1
    unfold order
    split_ifs with g1 g2
    · exact (l1.2 g1).symm
    · exact (l2.2 g2).symm
    · exact (l3.2 (lt_of_le_of_ne (not_lt.1 g1) (Ne.symm g2))).symm
  · exact hp.elim

/-- At the fractions -22 / 7 and 333 / (-106). -/
example := C14_total_order debug64 (-22) 7 333 (-106) (by decide) (by decide) (by decide) (by decide)
  (by decide) (by decide) (by decide)

/-- The order of rationals is a total order, so the answers of `compare` are. -/
theorem C14_order_laws (p q r : ℚ) :
    order p p = .eq ∧ order q p = (order p q).swap ∧
    (order p q = .eq → p = q) ∧
    (order p q ≠ .gt → order q r ≠ .gt → order p r ≠ .gt) := by
  refine ⟨by simp [order], ?_, ?_, ?_⟩
  · unfold order
    rcases lt_trichotomy p q with h | h | h
    · simp [h, h.not_gt, h.ne']
    · simp [h]
    · simp [h, h.not_gt, h.ne']
  · unfold order; split_ifs <;> simp_all
  · unfold order
    intro h1 h2
    have h1' : p ≤ q := by
      by_contra h
      rw [not_le] at h
      exact h1 (by simp [h.not_gt, h.ne'])
    have h2' : q ≤ r := by
      by_contra h
      rw [not_le] at h
      exact h2 (by simp [h.not_gt, h.ne'])
    rcases (h1'.trans h2').lt_or_eq with h | h
    · simp [h]
    · simp [h]

example : debug64.Fits (-22) ∧ debug64.Fits 7 ∧ debug64.Fits 333 ∧ debug64.Fits (-106) ∧
    (debug64.overflowChecks = true → (-22 : Int) ≠ debug64.imin ∧ (7 : Int) ≠ debug64.imin ∧
      (333 : Int) ≠ debug64.imin ∧ (-106 : Int) ≠ debug64.imin) := by decide

/-! ## C15 `compare` terminates -/

/-- `compare` on numbers denoting rationals never diverges. -/
theorem C15_compare_terminates (cfg : Cfg) (A : Panic → Prop) (n1 n2 : Number) (p q : ℚ)
    (h1 : Number.Denotes cfg A n1 p) (h2 : Number.Denotes cfg A n2 q) :
    ¬Diverges (fun f => Number.compare cfg f n1 n2) := by
  intro hd
  rcases Number.compare_ends h1 h2 with ⟨o, ⟨f, hf⟩, _⟩ | ⟨o, ⟨f, hf⟩, _⟩ <;>
  · have := hf f le_rfl
    have h' := hd f
    simp only at this h'
    rw [h'] at this
    cases this

example : Number.Denotes debug64 NoPanic (.Special .Zero) 0 := rfl

/-! ## C38 `compare` reads clogs although the primers decide -/

theorem Compare.compareClogs_stuck {cfg : Cfg} {c1 c2 : Clog} {f₀ : Nat}
    (h1 : Clog.egest cfg f₀ c1 = .ok (some .Amplify, c1))
    (h2 : Clog.egest cfg f₀ c2 = .ok (some .Amplify, c2)) (f j : Nat) (b : Bool) :
    Compare.compareClogs cfg (Clog.egest cfg f) j c1 c2 b = .timeout := by
  induction j generalizing b with
  | zero => rfl
  | succ j ih =>
    rcases (Clog.egest_mono cfg c1).ok_or_timeout h1 f with e1 | e1
    · simp [Compare.compareClogs, e1]
    · rcases (Clog.egest_mono cfg c2).ok_or_timeout h2 f with e2 | e2
      · simp [Compare.compareClogs, e1, e2]
      · simp [Compare.compareClogs, e1, e2, ih]

/-- The expectation "when the primers already decide, `compare` does not depend on the clogs"
is false.  (1) There are numbers returned by `homographic` with different primers, one positive
and one negative, on which `compare` never ends.  (2) There are numbers 'x' and '-x', returned by
`homographic`, on which `compare` panics with an overflow. -/
theorem C38_compare_reads_clogs :
    (∃ n1 n2 p1 p2 c1 c2, Returns (fun f => Number.homographic debug64 f
        (.Other none (.ratio ⟨1, 2⟩)) 1 1 0 0) n1 ∧
      Returns (fun f => Number.homographic debug64 f
        (.Other none (.ratio ⟨1, 2⟩)) (-1) (-1) 0 0) n2 ∧
      n1 = .Other p1 c1 ∧ n2 = .Other p2 c2 ∧ p1 ≠ p2 ∧
      Diverges (fun f => Number.compare debug64 f n1 n2)) ∧
    (∃ n1 n2 p1 p2 c1 c2, Returns (fun f => Number.homographic debug64 f
        (.Other none (.ratio ⟨3, 4⟩)) (2 ^ 31) 1 (2 ^ 31 + 5) 7) n1 ∧
      Returns (fun f => Number.homographic debug64 f
        (.Other none (.ratio ⟨3, 4⟩)) (-(2 ^ 31)) (-1) (2 ^ 31 + 5) 7) n2 ∧
      n1 = .Other p1 c1 ∧ n2 = .Other p2 c2 ∧ p1 ≠ p2 ∧
      Panics (fun f => Number.compare debug64 f n1 n2) .unwrapNone) := by
  have R := fun x nx n dx d r => FuelMono.returns (a := r)
    (Number.homographic_mono debug64 x nx n dx d) 5
  refine ⟨⟨.Other (some .Turn) (.homographic (.ratio ⟨1, 2⟩) ⟨0, 0, 1, 1⟩),
    .Other (some .Ground) (.homographic (.ratio ⟨1, 2⟩) ⟨0, 0, -1, -1⟩), _, _, _, _,
    R _ _ _ _ _ _ (by decide +kernel), R _ _ _ _ _ _ (by decide +kernel), rfl, rfl, by decide, ?_⟩,
    ⟨.Other none (.homographic (.ratio ⟨3, 4⟩) ⟨2 ^ 31, 1, 2 ^ 31 + 5, 7⟩),
    .Other (some .Reflect) (.homographic (.ratio ⟨3, 4⟩) ⟨2 ^ 31, 1, 2 ^ 31 + 5, 7⟩), _, _, _, _,
    R _ _ _ _ _ _ (by decide +kernel), R _ _ _ _ _ _ (by decide +kernel), rfl, rfl, by decide, ?_⟩⟩
  · intro f
    simp only [Number.compare, Compare.compareOthers]
    rw [Compare.compareClogs_stuck (f₀ := 5) (by decide +kernel) (by decide +kernel)]
    rfl
  · exact FuelMono.panics (Number.compare_mono _ _ _) 200 (by decide +kernel)

end Clarith
