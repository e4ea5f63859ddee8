import Verif.SpecReal
import Verif.Proofs.Clog
import Verif.Proofs.Observe
import Mathlib.Topology.Instances.Real.Lemmas
import Mathlib.Topology.Compactness.Compact
import Mathlib.Topology.Order.Compact
import Mathlib.Tactic.Linarith
import Mathlib.Tactic.FieldSimp
import Mathlib.Tactic.Ring

/-! # The symbol sequences of real numbers -/

namespace Clarith.Spec

noncomputable section

/-- The first symbol of a real in (0,1). -/
def symR (x : ℝ) : Option Reduction :=
  if x < 1 / 2 then some .Amplify else if 1 / 2 < x then some .Uncover else none

/-- What is left of `x` after its first symbol. -/
def nextR (x : ℝ) : ℝ :=
  if x < 1 / 2 then 2 * x else if 1 / 2 < x then 1 / x - 1 else x

theorem symbolsR_succ (k : Nat) (x : ℝ) :
    symbolsR (k + 1) x = symR x :: symbolsR k (nextR x) := by
  simp only [symbolsR, symR, nextR]
  split_ifs <;> rfl

theorem symR_lt {x : ℝ} (h : x < 1 / 2) : symR x = some .Amplify := if_pos h
theorem nextR_lt {x : ℝ} (h : x < 1 / 2) : nextR x = 2 * x := if_pos h
theorem symR_gt {x : ℝ} (h : 1 / 2 < x) : symR x = some .Uncover := by
  simp only [symR, if_neg (not_lt.2 h.le), if_pos h]
theorem nextR_gt {x : ℝ} (h : 1 / 2 < x) : nextR x = 1 / x - 1 := by
  simp only [nextR, if_neg (not_lt.2 h.le), if_pos h]
theorem symR_half : symR (1 / 2) = none := by simp [symR]
theorem nextR_half : nextR (1 / 2) = 1 / 2 := by simp [nextR]

theorem symR_eq_amplify {x : ℝ} (h : symR x = some .Amplify) : x < 1 / 2 := by
  unfold symR at h; split_ifs at h with h1 h2
  · exact h1
  · simp at h
theorem symR_eq_uncover {x : ℝ} (h : symR x = some .Uncover) : 1 / 2 < x := by
  unfold symR at h; split_ifs at h with h1 h2
  · simp at h
  · exact h2
theorem symR_eq_none {x : ℝ} (h : symR x = none) : x = 1 / 2 := by
  unfold symR at h; split_ifs at h with h1 h2
  exact le_antisymm (not_lt.1 h2) (not_lt.1 h1)

theorem nextR_mem {x : ℝ} (h0 : 0 < x) (h1 : x < 1) : 0 < nextR x ∧ nextR x < 1 := by
  unfold nextR
  split_ifs with h2 h3
  · constructor <;> linarith
  · have a : 1 < 1 / x := by rw [lt_div_iff₀ h0]; linarith
    have b : 1 / x < 2 := by rw [div_lt_iff₀ h0]; linarith
    constructor <;> linarith
  · exact ⟨h0, h1⟩

/-! ## Rational numbers inside the reals -/

theorem symR_cast (x : ℚ) : symR x = sym x := by
  have a : ((x : ℝ) < 1 / 2) ↔ x < 1 / 2 := by
    rw [show (1 / 2 : ℝ) = ((1 / 2 : ℚ) : ℝ) by norm_num]; exact Rat.cast_lt
  have b : ((1 / 2 : ℝ) < x) ↔ 1 / 2 < x := by
    rw [show (1 / 2 : ℝ) = ((1 / 2 : ℚ) : ℝ) by norm_num]; exact Rat.cast_lt
  unfold symR sym
  simp only [a, b]

theorem nextR_cast (x : ℚ) : nextR x = ((next x : ℚ) : ℝ) := by
  have a : ((x : ℝ) < 1 / 2) ↔ x < 1 / 2 := by
    rw [show (1 / 2 : ℝ) = ((1 / 2 : ℚ) : ℝ) by norm_num]; exact Rat.cast_lt
  have b : ((1 / 2 : ℝ) < x) ↔ 1 / 2 < x := by
    rw [show (1 / 2 : ℝ) = ((1 / 2 : ℚ) : ℝ) by norm_num]; exact Rat.cast_lt
  unfold nextR next
  simp only [a, b]
  split_ifs <;> push_cast <;> rfl

theorem symbolsR_cast (k : Nat) (x : ℚ) : symbolsR k x = symbols k x := by
  induction k generalizing x with
  | zero => rfl
  | succ k ih => rw [symbolsR_succ, symbols_succ, symR_cast, nextR_cast, ih]

/-! ## Different numbers have different sequences -/

/-- One symbol never decreases a distance. -/
theorem dist_step {x y : ℝ} (hx0 : 0 < x) (hx1 : x < 1) (hy0 : 0 < y) (hy1 : y < 1)
    (h : symR x = symR y) : |x - y| ≤ |nextR x - nextR y| := by
  cases hs : symR x with
  | none =>
    rw [symR_eq_none hs, symR_eq_none (h.symm.trans hs)]; simp
  | some r =>
    cases r with
    | Amplify =>
      rw [nextR_lt (symR_eq_amplify hs), nextR_lt (symR_eq_amplify (h.symm.trans hs)), ← mul_sub, abs_mul,
        abs_of_pos (by norm_num : (0 : ℝ) < 2)]
      linarith [abs_nonneg (x - y)]
    | Uncover =>
      rw [nextR_gt (symR_eq_uncover hs), nextR_gt (symR_eq_uncover (h.symm.trans hs))]
      have e : 1 / x - 1 - (1 / y - 1) = (y - x) * (1 / (x * y)) := by field_simp; ring
      have hxy : x * y ≤ 1 := by nlinarith
      have : 1 ≤ 1 / (x * y) := by rw [le_div_iff₀ (by positivity)]; linarith
      rw [e, abs_mul, abs_of_pos (show 0 < 1 / (x * y) by positivity), abs_sub_comm y x]
      nlinarith [abs_nonneg (x - y)]

/-- Two symbols at least double a distance. -/
theorem dist_step_two {x y : ℝ} (hx0 : 0 < x) (hx1 : x < 1) (hy0 : 0 < y) (hy1 : y < 1)
    (h : symR x = symR y) (h' : symR (nextR x) = symR (nextR y)) :
    2 * |x - y| ≤ |nextR (nextR x) - nextR (nextR y)| := by
  have mx := nextR_mem hx0 hx1
  have my := nextR_mem hy0 hy1
  have s1 := dist_step hx0 hx1 hy0 hy1 h
  have s2 := dist_step mx.1 mx.2 my.1 my.2 h'
  cases hs : symR x with
  | none =>
    rw [symR_eq_none hs, symR_eq_none (h.symm.trans hs)]; simp
  | some r =>
    cases r with
    | Amplify =>
      have : |nextR x - nextR y| = 2 * |x - y| := by
        rw [nextR_lt (symR_eq_amplify hs), nextR_lt (symR_eq_amplify (h.symm.trans hs)), ← mul_sub, abs_mul,
          abs_of_pos (by norm_num : (0 : ℝ) < 2)]
      linarith
    | Uncover =>
      have ux := symR_eq_uncover hs
      have uy := symR_eq_uncover (h.symm.trans hs)
      have nx := nextR_gt ux
      have ny := nextR_gt uy
      have e : nextR x - nextR y = (y - x) * (1 / (x * y)) := by rw [nx, ny]; field_simp; ring
      cases hs' : symR (nextR x) with
      | none =>
        have a := symR_eq_none hs'
        have b := symR_eq_none (h'.symm.trans hs')
        rw [a, b, sub_self] at s1
        simp only [abs_zero] at s1
        have : |x - y| = 0 := le_antisymm s1 (abs_nonneg _)
        rw [this]; simp
      | some r' =>
        cases r' with
        | Amplify =>
          have : |nextR (nextR x) - nextR (nextR y)| = 2 * |nextR x - nextR y| := by
            rw [nextR_lt (x := nextR x) (symR_eq_amplify hs'), nextR_lt (symR_eq_amplify (h'.symm.trans hs')), ← mul_sub,
              abs_mul, abs_of_pos (by norm_num : (0 : ℝ) < 2)]
          linarith
        | Uncover =>
          have a := symR_eq_uncover hs'
          have b := symR_eq_uncover (h'.symm.trans hs')
          rw [nx] at a
          rw [ny] at b
          have a' : 3 / 2 < 1 / x := by linarith
          have b' : 3 / 2 < 1 / y := by linarith
          rw [lt_div_iff₀ hx0] at a'
          rw [lt_div_iff₀ hy0] at b'
          have hxy : x * y ≤ 1 / 2 := by nlinarith
          have : 2 ≤ 1 / (x * y) := by rw [le_div_iff₀ (by positivity)]; linarith
          have : 2 * |x - y| ≤ |nextR x - nextR y| := by
            rw [e, abs_mul, abs_of_pos (show 0 < 1 / (x * y) by positivity), abs_sub_comm y x]
            nlinarith [abs_nonneg (x - y)]
          linarith

theorem symbolsR_two {x y : ℝ} {n : Nat} (h : symbolsR (n + 2) x = symbolsR (n + 2) y) :
    symR x = symR y ∧ symR (nextR x) = symR (nextR y) ∧
      symbolsR n (nextR (nextR x)) = symbolsR n (nextR (nextR y)) := by
  simp only [symbolsR_succ, List.cons.injEq] at h
  exact h

theorem dist_of_symbolsR (n : Nat) {x y : ℝ} (hx0 : 0 < x) (hx1 : x < 1) (hy0 : 0 < y) (hy1 : y < 1)
    (h : symbolsR (2 * n) x = symbolsR (2 * n) y) : 2 ^ n * |x - y| < 1 := by
  induction n generalizing x y with
  | zero =>
    rw [pow_zero, one_mul, abs_lt]; constructor <;> linarith
  | succ n ih =>
    obtain ⟨h1, h2, h3⟩ := symbolsR_two (n := 2 * n) h
    have mx := nextR_mem hx0 hx1
    have my := nextR_mem hy0 hy1
    have mx' := nextR_mem mx.1 mx.2
    have my' := nextR_mem my.1 my.2
    have := ih mx'.1 mx'.2 my'.1 my'.2 h3
    have := dist_step_two hx0 hx1 hy0 hy1 h1 h2
    have h2n : (0 : ℝ) < 2 ^ n := by positivity
    rw [pow_succ]
    nlinarith

theorem symbolsR_injective {x y : ℝ} (hx0 : 0 < x) (hx1 : x < 1) (hy0 : 0 < y) (hy1 : y < 1)
    (h : ∀ k, symbolsR k x = symbolsR k y) : x = y := by
  by_contra hne
  have hpos : 0 < |x - y| := abs_pos.2 (sub_ne_zero.2 hne)
  obtain ⟨n, hn⟩ := pow_unbounded_of_one_lt (1 / |x - y|) (by norm_num : (1 : ℝ) < 2)
  rw [div_lt_iff₀ hpos] at hn
  exact absurd (dist_of_symbolsR n hx0 hx1 hy0 hy1 (h _)) (not_lt.2 hn.le)

/-! ## Finite exactly for rationals -/

theorem rational_of_none {k : Nat} {x : ℝ} (h : none ∈ symbolsR k x) : ∃ q : ℚ, x = q := by
  induction k generalizing x with
  | zero => simp [symbolsR] at h
  | succ k ih =>
    rw [symbolsR_succ] at h
    rcases List.mem_cons.1 h with h | h
    · exact ⟨1 / 2, by rw [symR_eq_none h.symm]; norm_num⟩
    · obtain ⟨q, hq⟩ := ih h
      unfold nextR at hq
      split_ifs at hq with h1 h2
      · exact ⟨q / 2, by push_cast; linarith⟩
      · refine ⟨1 / (q + 1), ?_⟩
        have : (1 : ℝ) / x = q + 1 := by linarith
        push_cast
        rw [← this, one_div_one_div]
      · exact ⟨q, hq⟩

theorem none_of_rational {q : ℚ} (h0 : 0 < q) (h1 : q < 1) : ∃ k, none ∈ symbolsR k (q : ℝ) := by
  obtain ⟨l, hl⟩ := exists_expands q h0 h1
  refine ⟨l.length + 1, ?_⟩
  rw [symbolsR_cast, hl.symbols]
  simp

/-! ## Infinite sequences -/

theorem SequenceOf.tail {x : ℝ} {s : Nat → Reduction} (h : SequenceOf x s) :
    symR x = some (s 0) ∧ SequenceOf (nextR x) fun i => s (i + 1) := by
  have key : ∀ k, symR x = some (s 0) ∧
      symbolsR k (nextR x) = (List.range k).map fun i => some (s (i + 1)) := by
    intro k
    have := h (k + 1)
    rw [symbolsR_succ, List.range_succ_eq_map, List.map_cons, List.map_map] at this
    exact List.cons.inj this
  exact ⟨(key 0).1, fun k => (key k).2⟩

theorem SequenceOf.drop {x : ℝ} {s : Nat → Reduction} (h0 : 0 < x) (h1 : x < 1)
    (h : SequenceOf x s) (n : Nat) :
    ∃ y, 0 < y ∧ y < 1 ∧ SequenceOf y fun i => s (i + n) := by
  induction n with
  | zero => exact ⟨x, h0, h1, h⟩
  | succ n ih =>
    obtain ⟨y, a, b, hy⟩ := ih
    refine ⟨nextR y, (nextR_mem a b).1, (nextR_mem a b).2, ?_⟩
    have := hy.tail.2
    intro k
    rw [this k]
    simp only [Nat.add_right_comm, Nat.add_assoc]

/-- No number in (0,1) amplifies forever. -/
theorem not_forever_amplify {x : ℝ} (h0 : 0 < x) :
    ¬SequenceOf x fun _ => .Amplify := by
  intro h
  have key : ∀ n : Nat, SequenceOf (2 ^ n * x) fun _ => .Amplify := by
    intro n
    induction n with
    | zero => simpa using h
    | succ n ih =>
      have := ih.tail
      rw [nextR_lt (symR_eq_amplify this.1)] at this
      rw [pow_succ, mul_comm _ (2 : ℝ), mul_assoc]
      exact this.2
  obtain ⟨n, hn⟩ := pow_unbounded_of_one_lt (1 / x) (by norm_num : (1 : ℝ) < 2)
  rw [div_lt_iff₀ h0] at hn
  have := symR_eq_amplify (key n).tail.1
  linarith

theorem SequenceOf.not_eventually_amplify {x : ℝ} {s : Nat → Reduction} (h0 : 0 < x) (h1 : x < 1)
    (h : SequenceOf x s) : ¬∃ n, ∀ i ≥ n, s i = .Amplify := by
  rintro ⟨n, hn⟩
  obtain ⟨y, a, _, hy⟩ := h.drop h0 h1 n
  refine not_forever_amplify a ?_
  intro k
  rw [hy k]
  simp only [hn _ (Nat.le_add_left n _)]

/-- The relation between a number and what is left of it, with closed ends. -/
def Linked (r : Reduction) (x y : ℝ) : Prop :=
  match r with
  | .Amplify => 2 * x = y
  | .Uncover => x * (1 + y) = 1

/-- Sequences in [0,1] linked by the first `n` symbols of `s`. -/
def Chains (s : Nat → Reduction) (n : Nat) : Set (Nat → ℝ) :=
  {u | (∀ i, u i ∈ Set.Icc (0 : ℝ) 1) ∧ ∀ i < n, Linked (s i) (u i) (u (i + 1))}

theorem Chains.nonempty (n : Nat) (s : Nat → Reduction) : (Chains s n).Nonempty := by
  induction n generalizing s with
  | zero => exact ⟨fun _ => 0, fun _ => ⟨le_refl _, zero_le_one⟩, fun i hi => absurd hi (by omega)⟩
  | succ n ih =>
    obtain ⟨u, h1, h2⟩ := ih fun i => s (i + 1)
    have hu := h1 0
    obtain ⟨v, hv, hl⟩ : ∃ v, v ∈ Set.Icc (0 : ℝ) 1 ∧ Linked (s 0) v (u 0) := by
      cases s 0 with
      | Amplify => exact ⟨u 0 / 2, ⟨by linarith [hu.1], by linarith [hu.2]⟩, by simp [Linked]; ring⟩
      | Uncover =>
        have : 0 < 1 + u 0 := by linarith [hu.1]
        refine ⟨1 / (1 + u 0), ⟨by positivity, ?_⟩, by simp only [Linked]; field_simp⟩
        rw [div_le_iff₀ this]; linarith [hu.1]
    refine ⟨fun i => match i with | 0 => v | i + 1 => u i, ?_, ?_⟩
    · rintro (_ | i)
      · exact hv
      · exact h1 i
    · rintro (_ | i) hi
      · exact hl
      · exact h2 i (by omega)

theorem Chains.antitone (s : Nat → Reduction) {m n : Nat} (h : m ≤ n) : Chains s n ⊆ Chains s m :=
  fun _ hu => ⟨hu.1, fun i hi => hu.2 i (by omega)⟩

theorem Chains.isClosed (s : Nat → Reduction) (n : Nat) : IsClosed (Chains s n) := by
  have e : Chains s n = (⋂ i, {u : Nat → ℝ | u i ∈ Set.Icc (0 : ℝ) 1}) ∩
      ⋂ i, ⋂ _ : i < n, {u : Nat → ℝ | Linked (s i) (u i) (u (i + 1))} := by
    ext u; simp [Chains]
  rw [e]
  refine IsClosed.inter (isClosed_iInter fun i => ?_) (isClosed_iInter fun i => isClosed_iInter fun _ => ?_)
  · exact isClosed_Icc.preimage (continuous_apply i)
  · cases s i with
    | Amplify => exact isClosed_eq (continuous_const.mul (continuous_apply i)) (continuous_apply _)
    | Uncover =>
      exact isClosed_eq ((continuous_apply i).mul (continuous_const.add (continuous_apply (i + 1))))
        continuous_const

theorem Chains.isCompact (s : Nat → Reduction) (n : Nat) : IsCompact (Chains s n) := by
  refine IsCompact.of_isClosed_subset (isCompact_univ_pi fun _ : Nat => isCompact_Icc (a := (0 : ℝ)) (b := 1))
    (Chains.isClosed s n) ?_
  intro u hu
  exact fun i _ => hu.1 i

/-- Every infinite sequence of symbols links some sequence in [0,1]. -/
theorem exists_chain (s : Nat → Reduction) :
    ∃ u : Nat → ℝ, (∀ i, u i ∈ Set.Icc (0 : ℝ) 1) ∧ ∀ i, Linked (s i) (u i) (u (i + 1)) := by
  obtain ⟨u, hu⟩ := IsCompact.nonempty_iInter_of_directed_nonempty_isCompact_isClosed (Chains s)
    (fun m n => ⟨max m n, Chains.antitone s (by omega), Chains.antitone s (by omega)⟩)
    (fun n => Chains.nonempty n s) (Chains.isCompact s) (Chains.isClosed s)
  rw [Set.mem_iInter] at hu
  exact ⟨u, (hu 0).1, fun i => (hu (i + 1)).2 i (by omega)⟩

theorem exists_sequenceOf {s : Nat → Reduction} (hs : ¬∃ n, ∀ i ≥ n, s i = .Amplify) :
    ∃ x, 0 < x ∧ x < 1 ∧ SequenceOf x s := by
  obtain ⟨u, hI, hL⟩ := exists_chain s
  have h0 : ∀ i, u i ≠ 0 := by
    intro n hn
    refine hs ⟨n, ?_⟩
    have key : ∀ j, u (n + j) = 0 := by
      intro j
      induction j with
      | zero => exact hn
      | succ j ih =>
        have := hL (n + j)
        rw [ih] at this
        cases hc : s (n + j) with
        | Amplify => rw [hc] at this; simp only [Linked, mul_zero] at this; exact this.symm
        | Uncover => rw [hc] at this; simp only [Linked, zero_mul] at this; norm_num at this
    intro i hi
    obtain ⟨j, rfl⟩ : ∃ j, i = n + j := ⟨i - n, by omega⟩
    have := hL (n + j)
    rw [key j] at this
    cases hc : s (n + j) with
    | Amplify => rfl
    | Uncover => rw [hc] at this; simp only [Linked, zero_mul] at this; norm_num at this
  have h1 : ∀ i, u i ≠ 1 := by
    intro n hn
    have := hL n
    rw [hn] at this
    have hm := hI (n + 1)
    cases hc : s n with
    | Amplify => rw [hc] at this; simp only [Linked] at this; linarith [hm.2]
    | Uncover =>
      rw [hc] at this; simp only [Linked] at this
      exact h0 (n + 1) (by linarith)
  have hpos : ∀ i, 0 < u i := fun i => lt_of_le_of_ne (hI i).1 (h0 i).symm
  have hlt : ∀ i, u i < 1 := fun i => lt_of_le_of_ne (hI i).2 (h1 i)
  have hstep : ∀ i, symR (u i) = some (s i) ∧ nextR (u i) = u (i + 1) := by
    intro i
    have := hL i
    have p1 := hpos (i + 1)
    have p2 := hlt (i + 1)
    have p0 := hpos i
    cases hc : s i with
    | Amplify =>
      rw [hc] at this; simp only [Linked] at this
      have : u i < 1 / 2 := by linarith
      exact ⟨symR_lt this, by rw [nextR_lt this]; linarith⟩
    | Uncover =>
      rw [hc] at this; simp only [Linked] at this
      have hg : 1 / 2 < u i := by nlinarith
      refine ⟨symR_gt hg, ?_⟩
      rw [nextR_gt hg]
      field_simp
      linarith
  refine ⟨u 0, hpos 0, hlt 0, ?_⟩
  have key : ∀ k n, symbolsR k (u n) = (List.range k).map fun i => some (s (i + n)) := by
    intro k
    induction k with
    | zero => intro n; rfl
    | succ k ih =>
      intro n
      rw [symbolsR_succ, (hstep n).1, (hstep n).2, ih, List.range_succ_eq_map, List.map_cons,
        List.map_map]
      congr 1
      · simp
      · refine List.map_congr_left fun i _ => ?_
        simp only [Function.comp_apply, Nat.succ_eq_add_one]
        congr 2; omega
  exact fun k => key k 0

/-! ## The whole line -/

theorem decomposeR (x : ℝ) : (∃ s, x = specialValueR s) ∨
    ∃ p y, 0 < y ∧ y < 1 ∧ x = applyPrimerR p y := by
  have inv : ∀ {z : ℝ}, 1 < z → 0 < 1 / z ∧ 1 / z < 1 := by
    intro z hz
    exact ⟨by positivity, by rw [div_lt_one (by linarith)]; exact hz⟩
  rcases lt_trichotomy x 0 with h | h | h
  · rcases lt_trichotomy x (-1) with h1 | h1 | h1
    · have := inv (z := -x) (by linarith)
      refine .inr ⟨some .Ground, 1 / -x, this.1, this.2, ?_⟩
      simp only [applyPrimerR, one_div_one_div, neg_neg]
    · exact .inl ⟨.NegOne, h1⟩
    · exact .inr ⟨some .Reflect, -x, by linarith, by linarith, by simp [applyPrimerR]⟩
  · exact .inl ⟨.Zero, h⟩
  · rcases lt_trichotomy x 1 with h1 | h1 | h1
    · exact .inr ⟨none, x, h, h1, rfl⟩
    · exact .inl ⟨.PosOne, h1⟩
    · have := inv h1
      exact .inr ⟨some .Turn, 1 / x, this.1, this.2, by simp only [applyPrimerR, one_div_one_div]⟩

theorem applyPrimerR_inj {p p' : Option Primer} {x y : ℝ} (hx0 : 0 < x) (hx1 : x < 1)
    (hy0 : 0 < y) (hy1 : y < 1) (h : applyPrimerR p x = applyPrimerR p' y) : p = p' ∧ x = y := by
  have ix : 1 < 1 / x := by rw [lt_div_iff₀ hx0]; linarith
  have iy : 1 < 1 / y := by rw [lt_div_iff₀ hy0]; linarith
  have hi : 1 / x = 1 / y → x = y := by
    intro h
    rw [one_div, one_div] at h
    exact inv_injective h
  rcases p with _ | p <;> rcases p' with _ | p' <;> (try cases p) <;> (try cases p') <;>
    simp only [applyPrimerR] at h <;> first
      | (exfalso; linarith)
      | exact ⟨rfl, h⟩
      | exact ⟨rfl, hi h⟩
      | exact ⟨rfl, neg_injective h⟩
      | exact ⟨rfl, hi (neg_injective h)⟩

theorem applyPrimerR_ne_special {p : Option Primer} {x : ℝ} (hx0 : 0 < x) (hx1 : x < 1)
    {s : Special} : applyPrimerR p x ≠ specialValueR s := by
  have ix : 1 < 1 / x := by rw [lt_div_iff₀ hx0]; linarith
  intro h
  rcases p with _ | p
  · cases s <;> simp only [applyPrimerR, specialValueR] at h <;> linarith
  · cases p <;> cases s <;> simp only [applyPrimerR, specialValueR] at h <;> linarith

theorem specialValueR_inj {s t : Special} (h : specialValueR s = specialValueR t) : s = t := by
  cases s <;> cases t <;> simp only [specialValueR] at h <;> first | rfl | (norm_num at h)

end

end Clarith.Spec
