import Verif.Proofs.FieldCombine
import Mathlib.Data.Fintype.Card
import Mathlib.Order.Interval.Finset.Basic
import Mathlib.Data.Int.Interval
import Mathlib.Data.Finite.Prod
import Mathlib.Logic.Relation

/-! # Calls that end because machine integers are finitely many -/

namespace Clarith

open Out Spec Support

/-! ## What an operation returns, whatever its panics -/

namespace Out

theorem Maybe.any {α : Type} {A : Panic → Prop} (hA : ∀ p, A p) {m : Out α} {P : α → Prop}
    (h : ∀ a, P a) : Maybe A m P := by
  cases m with
  | ok a => exact h a
  | panic p => exact hA p
  | timeout => trivial

theorem Sat.and_maybe {α : Type} {A B : Panic → Prop} {m : Out α} {P Q : α → Prop}
    (h : Sat A m P) (h' : Maybe B m Q) : Sat A m (fun a => P a ∧ Q a) := by
  cases m with
  | ok a => exact ⟨h, h'⟩
  | panic p => exact h
  | timeout => exact h

end Out

/-- Every panic. -/
def AnyPanic : Panic → Prop := fun _ => True

theorem Cfg.checked_maybe (cfg : Cfg) (z : Int) :
    Maybe AnyPanic (cfg.checked z) (fun r => cfg.Fits r) := by
  unfold Cfg.checked
  split_ifs with h
  · exact h
  · trivial

theorem Cfg.unchecked_maybe {cfg : Cfg} (hc : cfg.overflowChecks = true) (z : Int) :
    Maybe AnyPanic (cfg.unchecked z) (fun r => cfg.Fits r) := by
  unfold Cfg.unchecked
  split_ifs with h
  · exact h
  · trivial

theorem Cfg.Fits.half {cfg : Cfg} {z : Int} (h : cfg.Fits z) : cfg.Fits (Clarith.half z) := by
  have := cfg.imax_ge; have := cfg.imin_eq
  unfold Cfg.Fits at *
  unfold Clarith.half
  rcases le_or_gt 0 z with hz | hz
  · rw [Int.tdiv_eq_ediv_of_nonneg hz]; omega
  · have h1 : z.tdiv 2 = -((-z).tdiv 2) := by rw [Int.neg_tdiv, neg_neg]
    rw [h1, Int.tdiv_eq_ediv_of_nonneg (by omega)]; omega

namespace Coef4

theorem ingestAmplify_fits {cfg : Cfg} {k : Coef4} (hk : k.Fits cfg) :
    Maybe AnyPanic (k.ingestAmplify cfg) (fun r => r.Fits cfg) := by
  obtain ⟨h1, h2, h3, h4⟩ := hk
  unfold ingestAmplify
  split_ifs
  · refine Maybe.bind (cfg.checked_maybe _) fun n hn => ?_
    refine Maybe.bind (cfg.checked_maybe _) fun d hd => ?_
    exact Maybe.pure ⟨h1, hn, h3, hd⟩
  · exact Maybe.pure ⟨h1.half, h2, h3.half, h4⟩

theorem ingestUncover_fits {cfg : Cfg} {k : Coef4} (hk : k.Fits cfg) :
    Maybe AnyPanic (k.ingestUncover cfg) (fun r => r.Fits cfg) := by
  obtain ⟨h1, h2, h3, h4⟩ := hk
  unfold ingestUncover
  refine Maybe.bind (cfg.checked_maybe _) fun n hn => ?_
  refine Maybe.bind (cfg.checked_maybe _) fun d hd => ?_
  exact Maybe.pure ⟨h2, hn, h4, hd⟩

theorem amplify_fits {cfg : Cfg} {k : Coef4} (hk : k.Fits cfg) :
    Maybe AnyPanic (k.amplify cfg) (fun r => r.Fits cfg) := by
  obtain ⟨h1, h2, h3, h4⟩ := hk
  unfold amplify
  split_ifs
  · refine Maybe.bind (cfg.checked_maybe _) fun n hn => ?_
    refine Maybe.bind (cfg.checked_maybe _) fun d hd => ?_
    exact Maybe.pure ⟨hn, hd, h3, h4⟩
  · exact Maybe.pure ⟨h1, h2, h3.half, h4.half⟩

theorem uncover_fits {cfg : Cfg} {k : Coef4} (hk : k.Fits cfg) :
    Maybe AnyPanic (k.uncover cfg) (fun r => r.Fits cfg) := by
  obtain ⟨h1, h2, h3, h4⟩ := hk
  unfold uncover
  refine Maybe.bind (cfg.checked_maybe _) fun n hn => ?_
  refine Maybe.bind (cfg.checked_maybe _) fun d hd => ?_
  exact Maybe.pure ⟨hn, hd, h1, h2⟩

theorem ground_fits {cfg : Cfg} (hc : cfg.overflowChecks = true) {k : Coef4} (hk : k.Fits cfg) :
    Maybe AnyPanic (k.ground cfg) (fun r => r.Fits cfg) := by
  obtain ⟨h1, h2, h3, h4⟩ := hk
  unfold ground
  refine Maybe.bind (cfg.unchecked_maybe hc _) fun n hn => ?_
  refine Maybe.bind (cfg.unchecked_maybe hc _) fun d hd => ?_
  exact Maybe.pure ⟨hn, hd, h1, h2⟩

theorem reflect_fits {cfg : Cfg} (hc : cfg.overflowChecks = true) {k : Coef4} (hk : k.Fits cfg) :
    Maybe AnyPanic (k.reflect cfg) (fun r => r.Fits cfg) := by
  obtain ⟨h1, h2, h3, h4⟩ := hk
  unfold reflect
  refine Maybe.bind (cfg.unchecked_maybe hc _) fun n hn => ?_
  refine Maybe.bind (cfg.unchecked_maybe hc _) fun d hd => ?_
  exact Maybe.pure ⟨hn, hd, h3, h4⟩

private theorem some_fits {cfg : Cfg} {α : Type} {p : α} {k : Coef4} (hk : k.Fits cfg) :
    ∀ p' k', some (p, k) = some (p', k') → k'.Fits cfg := by
  rintro _ _ e
  simp only [Option.some.injEq, Prod.mk.injEq] at e
  rwa [← e.2]

theorem primerAttempt_fits {cfg : Cfg} (hc : cfg.overflowChecks = true) {k : Coef4}
    (hk : k.Fits cfg) :
    Maybe AnyPanic (k.primerAttempt cfg) (fun r => ∀ p k', r = some (p, k') → k'.Fits cfg) := by
  have any := fun {α : Type} {m : Out α} =>
    Maybe.any (A := AnyPanic) (fun _ => trivial) (m := m) (P := fun _ => True) fun _ => trivial
  unfold primerAttempt primerEgest
  refine Maybe.bind any fun b _ => ?_
  split
  · refine Maybe.bind any fun t _ => ?_
    obtain ⟨nmin, dmin, nmax, dmax⟩ := t
    simp only
    split
    · exact Maybe.pure (by simp)
    · refine Maybe.bind any fun b _ => ?_
      split
      · exact Maybe.pure (by simp)
      · refine Maybe.bind any fun b _ => ?_
        split
        · exact Maybe.bind (ground_fits hc hk) fun k' hk' => Maybe.pure (some_fits hk')
        split
        · exact Maybe.pure (some_fits ⟨hk.2.2.1, hk.2.2.2, hk.1, hk.2.1⟩)
        · refine Maybe.bind any fun b _ => ?_
          split
          · exact Maybe.bind (reflect_fits hc hk) fun k' hk' => Maybe.pure (some_fits hk')
          split
          · exact Maybe.pure (some_fits hk)
          · exact Maybe.pure (by simp)
  · exact Maybe.pure (by simp)

theorem reductionAttempt_fits {cfg : Cfg} {k : Coef4} (hk : k.Fits cfg) :
    Maybe AnyPanic (k.reductionAttempt cfg) (fun r => ∀ p k', r = some (p, k') → k'.Fits cfg) := by
  have any := fun {α : Type} {m : Out α} =>
    Maybe.any (A := AnyPanic) (fun _ => trivial) (m := m) (P := fun _ => True) fun _ => trivial
  unfold reductionAttempt reductionEgest
  refine Maybe.bind any fun b _ => ?_
  split
  · refine Maybe.bind any fun t _ => ?_
    obtain ⟨nmin, dmin, nmax, dmax⟩ := t
    simp only
    split
    · trivial
    split
    · trivial
    · refine Maybe.bind any fun b _ => ?_
      split
      · exact Maybe.pure (some_fits hk)
      · refine Maybe.bind any fun b _ => ?_
        split
        · exact Maybe.bind (amplify_fits hk) fun k' hk' => Maybe.pure (some_fits hk')
        · refine Maybe.bind any fun b _ => ?_
          split
          · exact Maybe.bind (uncover_fits hk) fun k' hk' => Maybe.pure (some_fits hk')
          · exact Maybe.pure (by simp)
  · exact Maybe.pure (by simp)

/-! ## Reading symbols never leads back to the same coefficients -/

/-- Determinant of the map. -/
def det (k : Coef4) : Int := k.nx * k.d - k.n * k.dx

/-- Coefficients after the ingestion of an `Amplify`. -/
def IngA (k r : Coef4) : Prop :=
  ∃ c : Int, (c = 1 ∨ c = 2) ∧ c * r.n = 2 * k.n ∧ c * r.nx = k.nx ∧
    c * r.d = 2 * k.d ∧ c * r.dx = k.dx

/-- Coefficients after the ingestion of one symbol. -/
def Ing (k r : Coef4) : Prop := IngA k r ∨ r = ⟨k.n, k.nx + k.n, k.d, k.dx + k.d⟩

theorem Ing.det_ne {k r : Coef4} (h : Ing k r) (hk : k.det ≠ 0) : r.det ≠ 0 := by
  intro e
  apply hk
  rcases h with ⟨c, hc, h1, h2, h3, h4⟩ | rfl
  · have : 2 * k.det = c * c * r.det := by
      unfold det
      linear_combination c * r.dx * h1 + 2 * k.n * h4 - 2 * k.d * h2 - c * r.nx * h3
    rw [e] at this
    omega
  · unfold det at e ⊢
    simp only at e
    linear_combination -e

/-- What a positive number of ingestions does: a scaled product by a matrix that is not a multiple
of the unit matrix. -/
def Word (k r : Coef4) : Prop :=
  ∃ c p q s t : Int, 0 < c ∧ 0 ≤ p ∧ 0 ≤ q ∧ 0 ≤ s ∧ 1 ≤ t ∧
    ((q = 0 ∧ s = 0 ∧ p = 1 ∧ 2 ≤ t) ∨ 1 ≤ q) ∧
    c * r.nx = k.nx * p + k.n * s ∧ c * r.n = k.nx * q + k.n * t ∧
    c * r.dx = k.dx * p + k.d * s ∧ c * r.d = k.dx * q + k.d * t

theorem Word.single {k r : Coef4} (h : Ing k r) : Word k r := by
  rcases h with ⟨c, hc, h1, h2, h3, h4⟩ | rfl
  · exact ⟨c, 1, 0, 0, 2, by omega, by omega, by omega, by omega, by omega, by omega,
      by linarith, by linarith, by linarith, by linarith⟩
  · exact ⟨1, 0, 1, 1, 1, by omega, by omega, by omega, by omega, by omega, by omega,
      by simp, by simp, by simp, by simp⟩

theorem Word.tail {k m r : Coef4} (hw : Word k m) (h : Ing m r) : Word k r := by
  obtain ⟨b, p, q, s, t, hb, hp, hq, hs, ht, hqq, w1, w2, w3, w4⟩ := hw
  rcases h with ⟨c, hc, h1, h2, h3, h4⟩ | rfl
  · refine ⟨b * c, p, 2 * q, s, 2 * t, by rcases hc with rfl | rfl <;> omega, by omega, by omega,
      by omega, by omega, by omega, ?_, ?_, ?_, ?_⟩
    · rw [mul_assoc, h2, w1]
    · rw [mul_assoc, h1]; linear_combination 2 * w2
    · rw [mul_assoc, h4, w3]
    · rw [mul_assoc, h3]; linear_combination 2 * w4
  · refine ⟨b, q, p + q, t, s + t, hb, by omega, by omega, by omega, by omega, by omega,
      ?_, ?_, ?_, ?_⟩
    · exact w2
    · simp only; linear_combination w1 + w2
    · exact w4
    · simp only; linear_combination w3 + w4

theorem Word.irrefl {k : Coef4} (hk : k.det ≠ 0) : ¬Word k k := by
  rintro ⟨c, p, q, s, t, hc, hp, hq, hs, ht, hqq, w1, w2, w3, w4⟩
  have e1 : k.det * (c - p) = 0 := by
    unfold det; linear_combination k.d * w1 - k.n * w3
  have e2 : k.det * q = 0 := by
    unfold det; linear_combination k.n * w4 - k.d * w2
  have e3 : k.det * (c - t) = 0 := by
    unfold det; linear_combination k.nx * w4 - k.dx * w2
  have f1 := (mul_eq_zero.1 e1).resolve_left hk
  have f2 := (mul_eq_zero.1 e2).resolve_left hk
  have f3 := (mul_eq_zero.1 e3).resolve_left hk
  omega

/-- The coefficients that a machine can hold. -/
def Held (cfg : Cfg) : Type := {k : Coef4 // k.Fits cfg ∧ k.det ≠ 0}

instance (cfg : Cfg) : Finite (Held cfg) := by
  let I := Finset.Icc cfg.imin cfg.imax
  have : Function.Injective (fun k : Held cfg =>
      ((⟨k.1.nx, Finset.mem_Icc.2 k.2.1.1⟩, ⟨k.1.n, Finset.mem_Icc.2 k.2.1.2.1⟩,
        ⟨k.1.dx, Finset.mem_Icc.2 k.2.1.2.2.1⟩, ⟨k.1.d, Finset.mem_Icc.2 k.2.1.2.2.2⟩) :
        I × I × I × I)) := by
    rintro ⟨⟨a, b, c, d⟩, h⟩ ⟨⟨a', b', c', d'⟩, h'⟩ e
    simp only [Prod.mk.injEq, Subtype.mk.injEq] at e
    obtain ⟨rfl, rfl, rfl, rfl⟩ := e
    rfl
  exact Finite.of_injective _ this

/-- `k` comes from `r` by ingestions. -/
def Held.After {cfg : Cfg} (k r : Held cfg) : Prop :=
  Relation.TransGen (fun a b : Held cfg => Ing a.1 b.1) r k

theorem Held.After.word {cfg : Cfg} {k r : Held cfg} (h : Held.After k r) : Word r.1 k.1 := by
  induction h with
  | single h => exact Word.single h
  | tail _ h ih => exact ih.tail h

instance (cfg : Cfg) : IsTrans (Held cfg) Held.After := ⟨fun _ _ _ h1 h2 => h2.trans h1⟩

instance (cfg : Cfg) : Std.Irrefl (Held.After (cfg := cfg)) :=
  ⟨fun k h => Word.irrefl k.2.2 h.word⟩

theorem Held.wf (cfg : Cfg) : WellFounded (Held.After (cfg := cfg)) :=
  Finite.wellFounded_of_trans_of_irrefl _

/-- Induction over the ingestions of symbols: machine integers leave room for finitely many. -/
theorem ing_induction {cfg : Cfg} {P : Coef4 → Prop}
    (h : ∀ k : Coef4, k.Fits cfg → k.det ≠ 0 → (∀ r : Coef4, r.Fits cfg → Ing k r → P r) → P k) :
    ∀ k : Coef4, k.Fits cfg → k.det ≠ 0 → P k := by
  intro k hk hd
  have := (Held.wf cfg).induction (C := fun k => P k.1) ⟨k, hk, hd⟩ ?_
  · exact this
  · rintro ⟨k, hk, hd⟩ ih
    exact h k hk hd fun r hr hi => ih ⟨r, hr, hi.det_ne hd⟩ (.single hi)

end Coef4

end Clarith
