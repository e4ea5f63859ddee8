import Verif.Properties.History
import Verif.Properties.Minus

/-! # C75 The order of the operands of `combine` -/

namespace Clarith

open Out Spec Support

variable {cfg : Cfg}

/-! ## Specification -/

/-- Construct the combination of `x` and `y`, and read the special value, or the primer and the
answers of `k` successive calls of `egest`. -/
def Spec.combineRead (cfg : Cfg) (k : Nat) (x y : Number) (nxy nx ny n dxy dx dy d : Int) (f : Nat) :
    Out (Option Special × Option Primer × List (Option Reduction)) := do
  let r ← Number.combine cfg f x y nxy nx ny n dxy dx dy d
  Number.observe cfg f k r

/-! ## Proof -/

/-- Two numbers denoting the same are read alike, as far as neither panics. -/
private theorem Number.Denotes.observe_unique {A : Panic → Prop} {a b : Number} {q : ℚ} {k : Nat}
    (ha : Number.Denotes cfg A a q) (hb : Number.Denotes cfg A b q) :
    ∃ o, Ends A (fun f => Number.observe cfg f k a) (· = o) ∧
      Ends A (fun f => Number.observe cfg f k b) (· = o) := by
  rcases ha.same hb with ⟨s, rfl, rfl⟩ | ⟨p, cx, cy, v, rfl, rfl, -, hcx, hcy⟩
  · exact ⟨(some s, none, []), Ends.of_sat (Sat.pure rfl), Ends.of_sat (Sat.pure rfl)⟩
  · refine ⟨(none, p, symbols k v), Ends.bind (hcx.2.2 k) ?_, Ends.bind (hcy.2.2 k) ?_⟩ <;>
    · rintro ⟨rs, c⟩ h
      exact Ends.of_sat (Sat.pure (by rw [show rs = _ from h]))

private theorem ends_eq {α : Type} {A : Panic → Prop} {m : Nat → Out α} {a o : α}
    (h : Ends A m (· = o)) (hr : Returns m a) : a = o := by
  rcases h with ⟨b, hb, rfl⟩ | ⟨p, hp, -⟩
  · exact hr.unique hb
  · exact absurd hp (hr.not_panics)

/-- Swapping the operands, and their coefficients, changes no answer: if both can be read so far, the
same is read. -/
theorem C75_same_answers (cfg : Cfg) (hc : cfg.overflowChecks = true) (x y : Number) (q r : ℚ)
    (hx : Number.Denotes cfg Overflow x q) (hy : Number.Denotes cfg Overflow y r)
    (nxy nx ny n dxy dx dy d : Int) (H : MachineInts cfg [nxy, nx, ny, n, dxy, dx, dy, d])
    (hD : (dxy : ℚ) * q * r + dx * q + dy * r + d ≠ 0) (k : Nat)
    (o o' : Option Special × Option Primer × List (Option Reduction))
    (h : Returns (combineRead cfg k x y nxy nx ny n dxy dx dy d) o)
    (h' : Returns (combineRead cfg k y x nxy ny nx n dxy dy dx d) o') : o = o' := by
  have H' : MachineInts cfg [nxy, ny, nx, n, dxy, dy, dx, d] := by
    intro z hz
    apply H z
    simp only [List.mem_cons, List.not_mem_nil, or_false] at hz ⊢
    tauto
  -- what a returned program has read
  have run : ∀ {u v : Number} {a b c d' e f g h' : Int} {t : ℚ} {o},
      Ends Overflow (fun i => Number.combine cfg i u v a b c d' e f g h')
        (fun z => Number.Denotes cfg Overflow z t) →
      Returns (combineRead cfg k u v a b c d' e f g h') o →
      ∃ z, Number.Denotes cfg Overflow z t ∧ Returns (fun i => Number.observe cfg i k z) o := by
    rintro u v a b c d' e f g h' t o (⟨z, ⟨F, hz⟩, hd⟩ | ⟨p, ⟨F, hp⟩, -⟩) ⟨G, hG⟩
    · refine ⟨z, hd, max F G, fun i hi => ?_⟩
      have := hG i (by omega)
      simp only [combineRead, hz i (by omega), ok_bind] at this
      exact this
    · have := hG (max F G) (by omega)
      simp only [combineRead, hp (max F G) (by omega)] at this
      exact absurd this (by simp)
  obtain ⟨a, ha, oa⟩ := run (C20_combine cfg hc x y q r hx hy _ _ _ _ _ _ _ _ H hD) h
  obtain ⟨b, hb, ob⟩ := run (C20_combine cfg hc y x r q hy hx _ _ _ _ _ _ _ _ H'
    (by rwa [show (dxy : ℚ) * r * q + dy * r + dx * q + d = dxy * q * r + dx * q + dy * r + d by
      ring])) h'
  rw [show ((nxy : ℚ) * r * q + ny * r + nx * q + n) / (dxy * r * q + dy * r + dx * q + d) =
    (nxy * q * r + nx * q + ny * r + n) / (dxy * q * r + dx * q + dy * r + d) by ring_nf] at hb
  obtain ⟨w, h1, h2⟩ := ha.observe_unique (k := k) hb
  exact (ends_eq h1 oa).trans (ends_eq h2 ob).symm

/-- `(2*y-1)*(x+K)` at `y = 1/2`, with `K` a power of two, on every machine: with `x` first, `0 < x <
1/2`, the construction panics with an overflow; with `y` first it returns zero. -/
theorem C75_order_matters (cfg : Cfg) (x y : Number) (q : ℚ) (h0 : 0 < q) (h1 : q < 1 / 2)
    (hx : Number.Denotes cfg NoPanic x q) (hy : Number.Denotes cfg NoPanic y (1 / 2)) :
    Panics (fun f => Number.combine cfg f x y 2 (-1) (2 ^ (cfg.bits - 2)) (-2 ^ (cfg.bits - 3))
      0 0 0 1) .unwrapNone ∧
    Returns (fun f => Number.combine cfg f y x 2 (2 ^ (cfg.bits - 2)) (-1) (-2 ^ (cfg.bits - 3))
      0 0 0 1) (.Special .Zero) := by
  have hb := cfg.hbits
  obtain ⟨M, hM⟩ : ∃ M : Int, M = 2 ^ (cfg.bits - 3) := ⟨_, rfl⟩
  have hM2 : (2 : Int) ^ (cfg.bits - 2) = 2 * M := by
    rw [hM, ← pow_succ']; congr 1; omega
  have hM4 : (2 : Int) ^ (cfg.bits - 1) = 4 * M := by
    rw [hM, show cfg.bits - 1 = cfg.bits - 3 + 2 by omega, pow_add]; ring
  have hM0 : 2 < M := by
    rw [hM]
    calc (2 : Int) < 2 ^ 2 := by norm_num
      _ ≤ 2 ^ (cfg.bits - 3) := pow_le_pow_right₀ (by norm_num) (by omega)
  have nf : ¬cfg.Fits (2 * M * 2) := by
    have := cfg.not_fits_pow (n := cfg.bits - 1) le_rfl
    rwa [hM4, show 4 * M = 2 * M * 2 by ring] at this
  have fM : cfg.Fits (2 * M) := hM2 ▸ cfg.fits_pow (by omega)
  have hi := cfg.imin_eq
  have hmx := cfg.imax_ge
  rw [hM2, ← hM]
  -- the operands
  have weak : ∀ p, NoPanic p → p = Panic.unwrapNone := fun _ h => h.elim
  obtain ⟨cx, rfl, hcx⟩ : ∃ cx, x = .Other none cx ∧ Clog.Denotes cfg NoPanic cx q := by
    cases x with
    | Special s =>
      have hx : q = specialValue s := hx
      cases s <;> norm_num [specialValue] at hx <;> linarith
    | Other p c =>
      obtain ⟨u, hu, e⟩ := hx
      obtain ⟨rfl, rfl⟩ := applyPrimer_inj (p := none) h0 (by linarith) hu.1 hu.2.1 e
      exact ⟨c, rfl, hu⟩
  obtain ⟨cy, rfl, hcy⟩ : ∃ cy, y = .Other none cy ∧ Clog.Denotes cfg NoPanic cy (1 / 2) := by
    cases y with
    | Special s =>
      have hy : (1 / 2 : ℚ) = specialValue s := hy
      cases s <;> norm_num [specialValue] at hy
    | Other p c =>
      obtain ⟨u, hu, e⟩ := hy
      obtain ⟨rfl, rfl⟩ := applyPrimer_inj (p := none) (x := 1 / 2) (by norm_num) (by norm_num)
        hu.1 hu.2.1 e
      exact ⟨c, rfl, hu⟩
  have fits : ∀ z : Int, -(2 * M) ≤ z → z ≤ 2 * M → cfg.checked z = .ok z := by
    intro z h h'
    apply cfg.checked_eq
    unfold Cfg.Fits at fM ⊢
    omega
  have sM : Int.sign (-M) = -1 := Int.sign_eq_neg_one_of_neg (by omega)
  have sP : ∀ z : Int, 0 < z → Int.sign z = 1 := fun z h => Int.sign_eq_one_of_pos h
  have sN : ∀ z : Int, z < 0 → Int.sign z = -1 := fun z h => Int.sign_eq_neg_one_of_neg h
  have e1 : cfg.cadd (-M) (-1) = .ok (-M + -1) := fits _ (by omega) (by omega)
  have e2 : cfg.cadd (-M) (2 * M) = .ok (-M + 2 * M) := fits _ (by omega) (by omega)
  have s2 := sP (-M + 2 * M) (by omega)
  constructor
  · have ha : (⟨2, -1, 2 * M, -M, 0, 0, 0, 1⟩ : Coef8).primerAttempt cfg = .ok none := by
      simp [Coef8.primerAttempt, Coef8.areSingularitiesOutsideDomain, Coef8.isZeroOutsideDomain,
        Coef8.isDomainAmenable, Out.and, sM, e1, e2, s2]
    have hp : cfg.cmul (2 * M) 2 = .panic .unwrapNone := by
      unfold Cfg.cmul Cfg.checked
      rw [if_neg nf]
    have hing : (⟨2, -1, 2 * M, -M, 0, 0, 0, 1⟩ : Coef8).amplifyX cfg = .panic .unwrapNone := by
      unfold Coef8.amplifyX
      rw [if_neg (by dsimp only; decide)]
      simp only [hp]
      rfl
    have key : Ev (· = .unwrapNone) (fun i j => Combine.new cfg (Clog.egest cfg i) j (.Other none cx)
        (.Other none cy) ⟨2, -1, 2 * M, -M, 0, 0, 0, 1⟩) (fun _ => False) := by
      simp only [Combine.new, Coef8.absorbPrimerX, Coef8.absorbPrimerY, pure_eq, ok_bind]
      refine Ev.succ ?_
      simp only [Combine.prime, ha, ok_bind, Combine.primeIngest]
      refine Ev.bind (Q := fun _ => False) ?_ fun _ h => h.elim
      refine Ev.bind (hcx.weaken weak).ev ?_
      rintro ⟨r', cx'⟩ ⟨hr', hc⟩
      rw [sym_lt h1] at hr'
      simp only at hr'
      subst hr'
      refine Ev.bind_sat (Q := fun _ => False) ?_ fun _ h => h.elim
      simp only [Coef8.ingestX, hing]
      exact rfl
    have := Ev.ends key
    have : Ends (· = .unwrapNone) (fun f => Number.combine cfg f (.Other none cx) (.Other none cy)
        2 (-1) (2 * M) (-M) 0 0 0 1) (fun _ => False) := by
      unfold Number.combine
      exact Ends.bind this fun _ h => h.elim
    rcases this with ⟨_, -, h⟩ | ⟨p, hp, rfl⟩
    · exact h.elim
    · exact hp
  · have ha : (⟨2, 2 * M, -1, -M, 0, 0, 0, 1⟩ : Coef8).primerAttempt cfg = .ok none := by
      simp [Coef8.primerAttempt, Coef8.areSingularitiesOutsideDomain, Coef8.isZeroOutsideDomain,
        Coef8.isDomainAmenable, Out.and, sM, e2, s2]
    have hend : (⟨2, 2 * M, -1, -M, 0, 0, 0, 1⟩ : Coef8).valueAtEndOfX cfg = .ok ⟨0, 0, 0, 1⟩ := by
      have ev : isEven (2 * M) = true := by simp [isEven]
      have e0 : half (2 * M) = M := by simp [half]
      have f1 : cfg.checked (-1 + 1) = .ok 0 := fits 0 (by omega) (by omega)
      have f2 : cfg.checked (-M + M) = .ok 0 := by
        rw [show -M + M = 0 by ring]; exact fits 0 (by omega) (by omega)
      have f3 : cfg.checked (0 + 0) = .ok 0 := fits 0 (by omega) (by omega)
      have f4 : cfg.checked (1 + 0) = .ok 1 := fits 1 (by omega) (by omega)
      unfold Coef8.valueAtEndOfX
      rw [if_pos (by simp only [ev]; decide)]
      simp only [e0, Cfg.cadd, f2, show half 2 = 1 from rfl, show half 0 = 0 from rfl, f1, f3, f4,
        ok_bind, pure_eq]
    have hz : Ratio.newI cfg 0 1 = .ok (some .Zero, none, none) :=
      Ratio.newI_nought (by norm_num) (cfg.fits_small (by norm_num) (by norm_num)) (by omega)
    have key : Ev NoPanic (fun i j => Combine.new cfg (Clog.egest cfg i) j (.Other none cy)
        (.Other none cx) ⟨2, 2 * M, -1, -M, 0, 0, 0, 1⟩)
        (fun t => t = (some .Zero, none, none, none, none)) := by
      simp only [Combine.new, Coef8.absorbPrimerX, Coef8.absorbPrimerY, pure_eq, ok_bind]
      refine Ev.succ ?_
      simp only [Combine.prime, ha, ok_bind, Combine.primeIngest]
      refine Ev.bind (Q := fun t => t = .inl (some .Zero, none, none, none)) ?_ ?_
      · refine Ev.bind hcy.ev ?_
        rintro ⟨r', cx'⟩ ⟨hr', hc⟩
        rw [sym_half] at hr'
        simp only at hr'
        subst hr'
        simp only [hend, ok_bind, Homographic.new, and_self, if_true, Homographic.asRatio, hz]
        exact Ev.pure rfl
      · rintro _ rfl
        exact Ev.pure rfl
    obtain ⟨_, hr, rfl⟩ := (show Ends NoPanic (fun f => Number.combine cfg f (.Other none cy)
        (.Other none cx) 2 (2 * M) (-1) (-M) 0 0 0 1) (· = .Special .Zero) by
      unfold Number.combine
      refine Ends.bind (Ev.ends key) ?_
      rintro _ rfl
      exact Ends.of_sat (Sat.pure rfl)).returns
    exact hr

/-- Hypotheses met: 1/3 and 1/2 on 64 bits. -/
example : ∃ x y, Number.ratio debug64 1 3 = .ok x ∧ Number.ratio debug64 1 2 = .ok y ∧
    Panics (fun f => Number.combine debug64 f x y 2 (-1) (2 ^ 62) (-2 ^ 61) 0 0 0 1) .unwrapNone ∧
    Returns (fun f => Number.combine debug64 f y x 2 (2 ^ 62) (-1) (-2 ^ 61) 0 0 0 1)
      (.Special .Zero) := by
  obtain ⟨x, e, hx⟩ := Number.ratio_denotes (cfg := debug64) (A := NoPanic) (num := 1) (den := 3)
    (by decide) (by decide) (by decide) (by decide)
  obtain ⟨y, e', hy⟩ := Number.ratio_denotes (cfg := debug64) (A := NoPanic) (num := 1) (den := 2)
    (by decide) (by decide) (by decide) (by decide)
  exact ⟨x, y, e, e', C75_order_matters debug64 x y _ (by norm_num) (by norm_num) hx
    (by simpa using hy)⟩

/-- Hypotheses met: 3/5 plus -7/2 and -7/2 plus 3/5, ten answers. -/
example := C75_same_answers debug64 rfl _ _ _ _ (denotes_three_fifths _ _)
  (denotes_minus_seven_halves _ _) 0 1 1 0 0 0 0 1 (smallInts _ (by decide)) (by norm_num) 10

private theorem combineRead_mono (k : Nat) (x y : Number) (a b c d e f g h : Int) :
    FuelMono (combineRead cfg k x y a b c d e f g h) := by
  intro i j hij
  refine Out.Le.bind (Number.combine_le hij _ _ _ _ _ _ _ _ _ _) fun r => ?_
  cases r with
  | Special s => exact .refl _
  | Other p c => exact Out.Le.bind (Clog.egests_le hij k c) fun _ => .refl _

/-- The same number and the same answers, up to the end. -/
private def sums (n : Nat) (cfg : Cfg) (x y z : Number) (k : Nat) : Bool :=
  match combineRead cfg k x y 0 1 1 0 0 0 0 1 n, Number.observe cfg n k z with
  | .ok o, .ok o' => decide (o = o') && decide (o.2.2.getLast? = some none)
  | _, _ => false

private theorem sums_iff {n : Nat} {x y z : Number} {k : Nat} (h : sums n cfg x y z k = true) :
    ∃ o, Returns (combineRead cfg k x y 0 1 1 0 0 0 0 1) o ∧
      Number.observe cfg n k z = .ok o ∧ o.2.2.getLast? = some none := by
  unfold sums at h
  split at h
  · rename_i o o' h1 h2
    simp only [Bool.and_eq_true, decide_eq_true_eq] at h
    exact ⟨o, FuelMono.returns (combineRead_mono k x y _ _ _ _ _ _ _ _) n h1, by rw [h2, h.1], h.2⟩
  · simp at h

/-- Sums of small fractions (witnesses by evaluation).  On 64 bits 32/63 + 63 can be read to its end,
like 4001/63, and 63 + 32/63 panics at the 13th symbol; on 32 bits 2/15 + 30 and 30 + 2/15; on 16
bits 10/11 + 7/8 and 7/8 + 10/11. -/
theorem C75_sums :
    (∀ cfg ∈ [debug64, release64], ∀ x y z, Number.ratio cfg 32 63 = .ok x →
      Number.ratio cfg 63 1 = .ok y → Number.ratio cfg 4001 63 = .ok z →
      (∃ o, Returns (combineRead cfg 40 x y 0 1 1 0 0 0 0 1) o ∧
        Number.observe cfg 200 40 z = .ok o ∧ o.2.2.getLast? = some none) ∧
      Panics (combineRead cfg 13 y x 0 1 1 0 0 0 0 1) .unwrapNone) ∧
    (∀ x y z, Number.ratio ⟨32, by decide, true⟩ 2 15 = .ok x →
      Number.ratio ⟨32, by decide, true⟩ 30 1 = .ok y →
      Number.ratio ⟨32, by decide, true⟩ 452 15 = .ok z →
      (∃ o, Returns (combineRead ⟨32, by decide, true⟩ 40 x y 0 1 1 0 0 0 0 1) o ∧
        Number.observe ⟨32, by decide, true⟩ 200 40 z = .ok o ∧ o.2.2.getLast? = some none) ∧
      Panics (combineRead ⟨32, by decide, true⟩ 9 y x 0 1 1 0 0 0 0 1) .unwrapNone) ∧
    (∀ x y z, Number.ratio ⟨16, by decide, true⟩ 10 11 = .ok x →
      Number.ratio ⟨16, by decide, true⟩ 7 8 = .ok y →
      Number.ratio ⟨16, by decide, true⟩ 157 88 = .ok z →
      (∃ o, Returns (combineRead ⟨16, by decide, true⟩ 40 x y 0 1 1 0 0 0 0 1) o ∧
        Number.observe ⟨16, by decide, true⟩ 200 40 z = .ok o ∧ o.2.2.getLast? = some none) ∧
      Panics (combineRead ⟨16, by decide, true⟩ 4 y x 0 1 1 0 0 0 0 1) .unwrapNone) := by
  have fin : ∀ {cfg : Cfg} {a b c d e f : Int} {k : Nat} {x' y' z' : Number},
      Number.ratio cfg a b = .ok x' → Number.ratio cfg c d = .ok y' →
      Number.ratio cfg e f = .ok z' → sums 200 cfg x' y' z' 40 = true →
      combineRead cfg k y' x' 0 1 1 0 0 0 0 1 200 = .panic .unwrapNone →
      ∀ x y z, Number.ratio cfg a b = .ok x → Number.ratio cfg c d = .ok y →
      Number.ratio cfg e f = .ok z →
      (∃ o, Returns (combineRead cfg 40 x y 0 1 1 0 0 0 0 1) o ∧
        Number.observe cfg 200 40 z = .ok o ∧ o.2.2.getLast? = some none) ∧
      Panics (combineRead cfg k y x 0 1 1 0 0 0 0 1) .unwrapNone := by
    intro cfg a b c d e f k x' y' z' h1 h2 h3 h4 h5 x y z g1 g2 g3
    obtain rfl : x' = x := by simpa using h1.symm.trans g1
    obtain rfl : y' = y := by simpa using h2.symm.trans g2
    obtain rfl : z' = z := by simpa using h3.symm.trans g3
    exact ⟨sums_iff h4, FuelMono.panics (combineRead_mono k _ _ _ _ _ _ _ _ _ _) 200 h5⟩
  refine ⟨?_, ?_, ?_⟩
  · intro cfg hc
    simp only [List.mem_cons, List.not_mem_nil, or_false] at hc
    rcases hc with rfl | rfl
    · exact fin (x' := .Other none (.ratio ⟨32, 63⟩)) (y' := .Other (some .Turn) (.ratio ⟨1, 63⟩))
        (z' := .Other (some .Turn) (.ratio ⟨63, 4001⟩)) (by decide) (by decide) (by decide)
        (by decide +kernel) (by decide +kernel)
    · exact fin (x' := .Other none (.ratio ⟨32, 63⟩)) (y' := .Other (some .Turn) (.ratio ⟨1, 63⟩))
        (z' := .Other (some .Turn) (.ratio ⟨63, 4001⟩)) (by decide) (by decide) (by decide)
        (by decide +kernel) (by decide +kernel)
  · exact fin (x' := .Other none (.ratio ⟨2, 15⟩)) (y' := .Other (some .Turn) (.ratio ⟨1, 30⟩))
      (z' := .Other (some .Turn) (.ratio ⟨15, 452⟩)) (by decide) (by decide) (by decide)
      (by decide +kernel) (by decide +kernel)
  · exact fin (x' := .Other none (.ratio ⟨10, 11⟩)) (y' := .Other none (.ratio ⟨7, 8⟩))
      (z' := .Other (some .Turn) (.ratio ⟨88, 157⟩)) (by decide) (by decide) (by decide)
      (by decide +kernel) (by decide +kernel)

end Clarith
