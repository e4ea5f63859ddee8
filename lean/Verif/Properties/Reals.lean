import Verif.Proofs.Reals
import Verif.Proofs.Contract
import Verif.Properties.Limits

/-! # The number representation over the reals (C08, C10, C11, C12, C41) -/

namespace Clarith

open Spec

/-! ## C08 One-to-one -/

/-- Two reals in (0,1) with the same symbols are equal. -/
theorem C08_reals (x y : ℝ) (hx0 : 0 < x) (hx1 : x < 1) (hy0 : 0 < y) (hy1 : y < 1)
    (h : ∀ k, symbolsR k x = symbolsR k y) : x = y :=
  symbolsR_injective hx0 hx1 hy0 hy1 h

example := C08_reals (3 / 5) (6 / 10) (by norm_num) (by norm_num) (by norm_num) (by norm_num)
  fun k => by norm_num

/-- Two different reals (of any sign and size) differ in the special value, the primer or some
symbol. -/
theorem C08_whole_line (p p' : Option Primer) (x y : ℝ) (hx0 : 0 < x) (hx1 : x < 1) (hy0 : 0 < y)
    (hy1 : y < 1) (hne : applyPrimerR p x ≠ applyPrimerR p' y) :
    p ≠ p' ∨ ∃ k, symbolsR k x ≠ symbolsR k y := by
  by_contra hcon
  push Not at hcon
  obtain ⟨rfl, h⟩ := hcon
  exact hne (by rw [symbolsR_injective hx0 hx1 hy0 hy1 h])

/-- -5/3 and 2/3. -/
example := C08_whole_line (some .Ground) none (3 / 5) (2 / 3) (by norm_num) (by norm_num) (by norm_num)
  (by norm_num) (by norm_num [applyPrimerR])

/-- Numbers built by the library that look the same (special value, primer and every symbol read
with `egest`) denote the same rational. -/
theorem C08_observation (cfg : Cfg) (a b : Number) (q r : ℚ)
    (ha : Number.Denotes cfg NoPanic a q) (hb : Number.Denotes cfg NoPanic b r)
    (h : ∀ k o o', Returns (fun f => Number.observe cfg f k a) o →
      Returns (fun f => Number.observe cfg f k b) o' → o = o') : q = r := by
  have obs : ∀ (p : Option Primer) (c : Clog) (x : ℚ) (k : Nat), Clog.Denotes cfg NoPanic c x →
      Returns (fun f => Number.observe cfg f k (.Other p c)) (none, p, symbols k x) := by
    intro p c x k hc
    obtain ⟨c', f₀, hr⟩ := hc.returns k
    refine ⟨f₀, fun f hf => ?_⟩
    simp only [Number.observe]
    have := hr f hf
    simp only at this
    rw [this]; rfl
  have obsS : ∀ (s : Clarith.Special) (k : Nat),
      Returns (fun f => Number.observe cfg f k (.Special s)) (some s, none, []) :=
    fun s k => ⟨0, fun _ _ => rfl⟩
  cases a with
  | Special s =>
    cases b with
    | Special t =>
      have := h 0 _ _ (obsS s 0) (obsS t 0)
      simp only [Prod.mk.injEq, Option.some.injEq, and_true] at this
      rw [show q = _ from ha, show r = _ from hb, this]
    | Other p c =>
      obtain ⟨y, hy, rfl⟩ := hb
      have := h 0 _ _ (obsS s 0) (obs p c y 0 hy)
      simp at this
  | Other p c =>
    obtain ⟨x, hx, rfl⟩ := ha
    cases b with
    | Special t =>
      have := h 0 _ _ (obs p c x 0 hx) (obsS t 0)
      simp at this
    | Other p' c' =>
      obtain ⟨y, hy, rfl⟩ := hb
      have key : ∀ k, p = p' ∧ symbols k x = symbols k y := by
        intro k
        have := h k _ _ (obs p c x k hx) (obs p' c' y k hy)
        simpa using this
      have e : (x : ℝ) = y := symbolsR_injective (by exact_mod_cast hx.1) (by exact_mod_cast hx.2.1)
        (by exact_mod_cast hy.1) (by exact_mod_cast hy.2.1) fun k => by
          rw [symbolsR_cast, symbolsR_cast, (key k).2]
      have e' : x = y := by exact_mod_cast e
      rw [(key 0).1, e']

example : Number.Denotes debug64 NoPanic (.Other none (.ratio ⟨3, 5⟩)) (3 / 5) :=
  denotes_three_fifths _ _

/-- 3/5 and 2/3 differ in the second symbol. -/
example : symbols 2 (3 / 5) = [some .Uncover, some .Uncover] ∧
    symbols 2 (2 / 3) = [some .Uncover, none] := by
  constructor <;> norm_num [symbols]

/-! ## C10 Finite iff rational -/

/-- The symbols of a real in (0,1) end if and only if the real is rational. -/
theorem C10_finite_iff_rational (x : ℝ) (h0 : 0 < x) (h1 : x < 1) :
    (∃ k, none ∈ symbolsR k x) ↔ ∃ q : ℚ, x = q := by
  constructor
  · rintro ⟨k, h⟩
    exact rational_of_none h
  · rintro ⟨q, rfl⟩
    exact none_of_rational (by exact_mod_cast h0) (by exact_mod_cast h1)

example := C10_finite_iff_rational (3 / 5) (by norm_num) (by norm_num)

/-- The symbols never end if and only if the real is irrational. -/
theorem C10_infinite_iff_irrational (x : ℝ) (h0 : 0 < x) (h1 : x < 1) :
    (∀ k, none ∉ symbolsR k x) ↔ Irrational x := by
  have := C10_finite_iff_rational x h0 h1
  constructor
  · rintro h ⟨q, hq⟩
    obtain ⟨k, hk⟩ := this.2 ⟨q, hq.symm⟩
    exact h k hk
  · intro h k hk
    obtain ⟨q, hq⟩ := this.1 ⟨k, hk⟩
    exact h ⟨q, hq.symm⟩

/-- 3/5 is in (0,1) and rational, and its third symbol is `None`. -/
example : (0 : ℝ) < 3 / 5 ∧ (3 / 5 : ℝ) < 1 ∧ none ∈ symbolsR 3 (3 / 5) := by
  norm_num [symbolsR]

/-! ## C11 Infinite sequences -/

/-- An infinite sequence of symbols is the sequence of a number in (0,1) exactly when it does not
end in `Amplify` forever; the number is then unique and irrational. -/
theorem C11_infinite_sequences (s : Nat → Reduction) :
    ((∃ x : ℝ, 0 < x ∧ x < 1 ∧ SequenceOf x s) ↔ ¬∃ n, ∀ i ≥ n, s i = .Amplify) ∧
    (∀ x y : ℝ, 0 < x → x < 1 → 0 < y → y < 1 → SequenceOf x s → SequenceOf y s → x = y) ∧
    (∀ x : ℝ, 0 < x → x < 1 → SequenceOf x s → Irrational x) := by
  refine ⟨⟨?_, exists_sequenceOf⟩, ?_, ?_⟩
  · rintro ⟨x, h0, h1, h⟩
    exact h.not_eventually_amplify h0 h1
  · intro x y hx0 hx1 hy0 hy1 hx hy
    exact symbolsR_injective hx0 hx1 hy0 hy1 fun k => by rw [hx k, hy k]
  · intro x h0 h1 h
    refine (C10_infinite_iff_irrational x h0 h1).1 fun k hk => ?_
    rw [h k] at hk
    simp at hk

/-- `Uncover` forever does not end in `Amplify` forever. -/
example : ¬∃ n, ∀ i ≥ n, (fun _ : Nat => Reduction.Uncover) i = .Amplify := by
  rintro ⟨n, h⟩
  simpa using h n le_rfl

/-! ## C12 The whole line -/

/-- Every real is a special value or a primer applied to a number in (0,1); never both; and the
special value, the primer and the number are unique. -/
theorem C12_cover (x : ℝ) :
    ((∃ s, x = specialValueR s) ∨ ∃ p y, 0 < y ∧ y < 1 ∧ x = applyPrimerR p y) ∧
    ¬((∃ s, x = specialValueR s) ∧ ∃ p y, 0 < y ∧ y < 1 ∧ x = applyPrimerR p y) ∧
    (∀ s t, x = specialValueR s → x = specialValueR t → s = t) ∧
    (∀ p y p' y', 0 < y → y < 1 → 0 < y' → y' < 1 → x = applyPrimerR p y →
      x = applyPrimerR p' y' → p = p' ∧ y = y') := by
  refine ⟨decomposeR x, ?_, ?_, ?_⟩
  · rintro ⟨⟨s, hs⟩, p, y, h0, h1, hp⟩
    exact applyPrimerR_ne_special h0 h1 (hp.symm.trans hs)
  · intro s t hs ht
    exact specialValueR_inj (hs.symm.trans ht)
  · intro p y p' y' h0 h1 h0' h1' h h'
    exact applyPrimerR_inj h0 h1 h0' h1' (h.symm.trans h')

/-- -5/3 is `Ground` applied to 3/5. -/
example : (-5 / 3 : ℝ) = applyPrimerR (some .Ground) (3 / 5) := by norm_num [applyPrimerR]

/-! ## C41 Precision -/

/-- Reading `2 n` symbols pins a number in (0,1) down to within `2 ^ -n`: two reals with the same
first `2 n` symbols are less than `1 / 2 ^ n` apart. -/
theorem C41_precision (n : Nat) (x y : ℝ) (hx0 : 0 < x) (hx1 : x < 1) (hy0 : 0 < y) (hy1 : y < 1)
    (h : symbolsR (2 * n) x = symbolsR (2 * n) y) : |x - y| < 1 / 2 ^ n := by
  have := dist_of_symbolsR n hx0 hx1 hy0 hy1 h
  rw [lt_div_iff₀ (by positivity)]
  linarith

/-- 3/5 and 5/8 share their first two symbols. -/
example := C41_precision 1 (3 / 5) (5 / 8) (by norm_num) (by norm_num) (by norm_num) (by norm_num)
  (by norm_num [symbolsR])

/-- The same for two clogs of the library, whatever strategies they use. -/
theorem C41_precision_clogs (cfg : Cfg) (A : Panic → Prop) (n : Nat) (a b a' b' : Clog) (x y : ℚ)
    (rs : List (Option Reduction)) (ha : Clog.Denotes cfg A a x) (hb : Clog.Denotes cfg A b y)
    (hra : Returns (fun f => Clog.egests cfg f (2 * n) a) (rs, a'))
    (hrb : Returns (fun f => Clog.egests cfg f (2 * n) b) (rs, b')) : |x - y| < 1 / 2 ^ n := by
  have h1 := (ha.2.2 (2 * n)).of_returns hra
  have h2 := (hb.2.2 (2 * n)).of_returns hrb
  have := C41_precision n x y (by exact_mod_cast ha.1) (by exact_mod_cast ha.2.1)
    (by exact_mod_cast hb.1) (by exact_mod_cast hb.2.1)
    (by rw [symbolsR_cast, symbolsR_cast]; exact h1.symm.trans h2)
  refine Rat.cast_lt (K := ℝ) |>.1 ?_
  push_cast
  exact this

/-- 3/5 and 5/8 share their first two symbols, and are less than 1/2 apart. -/
example : symbols 2 (3 / 5) = symbols 2 (5 / 8) := by norm_num [symbols]

/-- Three symbols more make it four times better: two reals with the same first `3 n` symbols are
less than `1 / 4 ^ n` apart. -/
theorem C41_precision_three (n : Nat) (x y : ℝ) (hx0 : 0 < x) (hx1 : x < 1) (hy0 : 0 < y)
    (hy1 : y < 1) (h : symbolsR (3 * n) x = symbolsR (3 * n) y) : |x - y| < 1 / 4 ^ n := by
  have := dist_of_symbolsR_three n hx0 hx1 hy0 hy1 h
  rw [lt_div_iff₀ (by positivity)]
  linarith

/-- 2/9 and 3/13 share their first three symbols. -/
example := C41_precision_three 1 (2 / 9) (3 / 13) (by norm_num) (by norm_num) (by norm_num)
  (by norm_num) (by norm_num [symbolsR])

/-- The same for two clogs of the library. -/
theorem C41_precision_three_clogs (cfg : Cfg) (A : Panic → Prop) (n : Nat) (a b a' b' : Clog)
    (x y : ℚ) (rs : List (Option Reduction)) (ha : Clog.Denotes cfg A a x)
    (hb : Clog.Denotes cfg A b y)
    (hra : Returns (fun f => Clog.egests cfg f (3 * n) a) (rs, a'))
    (hrb : Returns (fun f => Clog.egests cfg f (3 * n) b) (rs, b')) : |x - y| < 1 / 4 ^ n := by
  have h1 := (ha.2.2 (3 * n)).of_returns hra
  have h2 := (hb.2.2 (3 * n)).of_returns hrb
  have := C41_precision_three n x y (by exact_mod_cast ha.1) (by exact_mod_cast ha.2.1)
    (by exact_mod_cast hb.1) (by exact_mod_cast hb.2.1)
    (by rw [symbolsR_cast, symbolsR_cast]; exact h1.symm.trans h2)
  refine Rat.cast_lt (K := ℝ) |>.1 ?_
  push_cast
  exact this

/-- 2/9 and 3/13 share their first three symbols, and are less than 1/4 apart. -/
example : symbols 3 (2 / 9) = symbols 3 (3 / 13) := by norm_num [symbols]

/-- `n` symbols alone never say more than `1 / 2 ^ n`: near that distance there are two numbers
whose first `n` symbols are the same, namely `Amplify`. -/
theorem C41_precision_limit (n : Nat) (ε : ℝ) (h0 : 0 < ε) (h1 : ε < 1) :
    ∃ x y : ℝ, 0 < x ∧ x < 1 ∧ 0 < y ∧ y < 1 ∧ symbolsR n x = symbolsR n y ∧
      (1 - ε) / 2 ^ n ≤ |x - y| := by
  have key : ∀ (n : Nat) (z : ℝ), z < 1 → symbolsR n (z / 2 ^ n) = List.replicate n (some .Amplify) := by
    intro n
    induction n with
    | zero => intro z _; rfl
    | succ n ih =>
      intro z hz
      have hlt : z / 2 ^ (n + 1) < 1 / 2 := by
        rw [pow_succ, div_lt_iff₀ (by positivity)]
        have : (1 : ℝ) ≤ 2 ^ n := one_le_pow₀ (by norm_num)
        linarith
      rw [symbolsR_succ, symR_lt hlt, nextR_lt hlt, List.replicate_succ, ← ih z hz]
      congr 2
      rw [pow_succ]
      field_simp
  have hp : (1 : ℝ) ≤ 2 ^ n := one_le_pow₀ (by norm_num)
  refine ⟨(1 - ε / 2) / 2 ^ n, (ε / 2) / 2 ^ n, by apply div_pos <;> linarith, ?_,
    by apply div_pos <;> linarith, ?_, by rw [key n _ (by linarith), key n _ (by linarith)], ?_⟩
  · rw [div_lt_one (by linarith)]; linarith
  · rw [div_lt_one (by linarith)]; linarith
  · rw [← sub_div, abs_div, abs_of_pos (a := (2 : ℝ) ^ n) (by linarith)]
    refine div_le_div_of_nonneg_right ?_ (by linarith)
    exact le_trans (by linarith) (le_abs_self _)

example := C41_precision_limit 12 (1 / 10) (by norm_num) (by norm_num)

end Clarith
