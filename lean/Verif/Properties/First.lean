import Mathlib.Tactic.IntervalCases
import Verif.Properties.SpecialOperands
import Verif.Properties.Wider
import Verif.Properties.Same
import Verif.Properties.Minus

/-! # C61, continued: the first number that cannot be incremented

For the word sizes up to 69 bits, `2^b - 1` of C61 is the smallest positive number that cannot be
incremented.  A finite lemma: the numbers below are evaluated on the narrowest such machine, and by
C44 the answers are the same on wider ones. -/

namespace Clarith

open Out Spec

variable {cfg : Cfg}

/-- A machine with overflow checks. -/
private def checked (b : Nat) (h : 16 ≤ b) : Cfg := ⟨b, h, true⟩

/-- `n + 1` is constructed and read until `None`. -/
private def increments (cfg : Cfg) (n : Nat) : Bool :=
  match Number.homographic cfg 60 (.Other (some .Turn) (.ratio ⟨1, n⟩)) 1 1 0 1 with
  | .ok (.Other _ c) =>
    match Clog.egests cfg 60 50 c with
    | .ok (l, .ratio r) =>
      r.num * 2 == r.den && decide (0 < r.num) && decide (r.den ≤ cfg.umax) && decide (none ∈ l)
    | _ => false
  | _ => false

set_option maxRecDepth 100000

/-- Finite lemmas, by evaluation. -/
private theorem below15 :
    ((List.range 13).all fun n => increments (checked 16 (by decide)) (n + 2)) = true := by
  decide +kernel

private theorem below31 :
    ((List.range 16).all fun n => increments (checked 18 (by decide)) (n + 15)) = true := by
  decide +kernel

private theorem below63 :
    ((List.range 32).all fun n => increments (checked 28 (by decide)) (n + 31)) = true := by
  decide +kernel

private theorem below127 :
    ((List.range 64).all fun n => increments (checked 40 (by decide)) (n + 63)) = true := by
  decide +kernel

private theorem below255 :
    ((List.range 128).all fun n => increments (checked 54 (by decide)) (n + 127)) = true := by
  decide +kernel

private theorem natural_denotes {A : Panic → Prop} {n : Nat} (h2 : 2 ≤ n) (hn : n ≤ 32767) :
    Number.Denotes cfg A (.Other (some .Turn) (.ratio ⟨1, n⟩)) n := by
  have hm := cfg.imax_ge
  have hu : (32767 : Int) ≤ cfg.umax := by have := cfg.umax_eq; omega
  refine ⟨1 / n, ?_, by simp [applyPrimer]⟩
  have := Ratio.denotes (cfg := cfg) (A := A) (r := ⟨1, n⟩) ⟨by dsimp only; omega,
    by dsimp only; omega, by dsimp only; omega⟩
  simpa [Ratio.val] using this

/-- A clog that has been read without panics is as good as what is left of it. -/
private theorem Clog.Denotes.of_rest {A : Panic → Prop} (m : Nat) :
    ∀ {c c' : Clog} {v : ℚ} {l : List (Option Reduction)}, Clog.Denotes cfg A c v →
      Returns (fun f => Clog.egests cfg f m c) (l, c') →
      Clog.Denotes cfg NoPanic c' (next^[m] v) → Clog.Denotes cfg NoPanic c v := by
  induction m with
  | zero =>
    rintro c c' v l - ⟨F, hF⟩ h
    have := hF F le_rfl
    simp only [Clog.egests] at this
    cases this
    exact h
  | succ m ih =>
    rintro c c' v l hd ⟨F, hF⟩ h
    rcases hd.step with ⟨⟨r, d⟩, ⟨G, hG⟩, hr, hd'⟩ | ⟨p, ⟨G, hG⟩, -⟩
    · have hl : ∃ l', Returns (fun f => Clog.egests cfg f m d) (l', c') := by
        have key : ∀ f ≥ max F G, ∃ l', Clog.egests cfg f m d = .ok (l', c') ∧ l = r :: l' := by
          intro f hf
          have := hF f (by omega)
          have e : Clog.egest cfg f c = .ok (r, d) := hG f (by omega)
          simp only [egests_succ, e, ok_bind] at this
          cases hm : Clog.egests cfg f m d with
          | ok a => rw [hm] at this; simp at this; exact ⟨a.1, by rw [← this.2], this.1.symm⟩
          | panic p => rw [hm] at this; simp at this
          | timeout => rw [hm] at this; simp at this
        obtain ⟨l', -, e⟩ := key _ le_rfl
        refine ⟨l', max F G, fun f hf => ?_⟩
        obtain ⟨l'', h1, e'⟩ := key f hf
        rw [e] at e'
        rw [(List.cons.inj e').2]
        exact h1
      obtain ⟨l', hl'⟩ := hl
      exact Clog.Denotes.of_step hd.1 hd.2.1 (.inl ⟨(r, d), ⟨G, hG⟩, hr, ih hd' hl' h⟩)
    · have := hF (max F G) (by omega)
      have e : Clog.egest cfg (max F G) c = .panic p := hG _ (by omega)
      simp [egests_succ, e] at this

/-- What was evaluated. -/
private theorem increments_denotes {narrow : Cfg} (hc : narrow.overflowChecks = true) {n : Nat}
    (h2 : 2 ≤ n) (hn : n ≤ 32767) (h : increments narrow n = true) :
    ∃ r, Returns (fun f => Number.homographic narrow f (.Other (some .Turn) (.ratio ⟨1, n⟩)) 1 1 0 1)
      r ∧ Number.Denotes narrow NoPanic r (n + 1) := by
  unfold increments at h
  split at h
  · rename_i p c hr
    split at h
    · rename_i l r hl
      simp only [Bool.and_eq_true, beq_iff_eq, decide_eq_true_eq] at h
      obtain ⟨⟨⟨h1, h3⟩, h4⟩, h5⟩ := h
      have hr := FuelMono.returns (Number.homographic_mono _ _ _ _ _ _) 60 hr
      have hl := FuelMono.returns (Clog.egests_mono _ _ _) 60 hl
      have fit : ∀ {z : Int}, -32767 ≤ z → z ≤ 32767 → narrow.Fits z :=
        fun h h' => narrow.fits_small h h'
      refine ⟨_, hr, ?_⟩
      rcases C16_homographic narrow hc _ _ (natural_denotes (A := Overflow) h2 hn) 1 1 0 1
        (fit (by norm_num) (by norm_num)) (fit (by norm_num) (by norm_num))
        (fit (by norm_num) (by norm_num)) (fit (by norm_num) (by norm_num)) (by norm_num) with
        ⟨r', hr', hd⟩ | ⟨p, hp, -⟩
      · obtain rfl := hr.unique hr'
        obtain ⟨v, hv, e⟩ := hd
        refine ⟨v, ?_, by rw [← e]; norm_num⟩
        obtain ⟨rfl, -⟩ := hv.of_returns hl
        refine Clog.Denotes.of_rest 50 hv hl ?_
        rw [none_mem_symbols h5]
        have := Ratio.denotes (cfg := narrow) (A := NoPanic) (r := r) ⟨h3, by omega, h4⟩
        rwa [show r.val = 1 / 2 by
          have : (r.num : ℚ) ≠ 0 := by exact_mod_cast h3.ne'
          rw [Ratio.val, ← h1]; push_cast; field_simp] at this
      · exact absurd hp hr.not_panics
    · simp at h
  · simp at h

/-- For every word size up to 69 bits and the `b` of C61, that is the smallest `b` with
`bits + 3 ≤ b*(b+1)`: all numbers from 1 to `2^b - 2` can be incremented, without any panic, and
`2^b - 1` cannot.  In the first part `x + 1` has the answers of the fraction `n + 1`.  (The finite
table is complete for these word sizes.  For wider words the first part is not proved.) -/
theorem C61_first_on_usual_words (cfg : Cfg) (b : Nat) (h69 : cfg.bits ≤ 69) (hb : cfg.bits + 3 ≤ b * (b + 1))
    (hmin : (b - 1) * b < cfg.bits + 3) (n : Nat) (x : Number)
    (hx : Number.Denotes cfg NoPanic x n) (h1 : 1 ≤ n) :
    (n < 2 ^ b - 1 → ∃ r z, Returns (fun f => Number.homographic cfg f x 1 1 0 1) r ∧
      Number.ratio cfg (n + 1) 1 = .ok z ∧ SameNumber cfg r z) ∧
    (n = 2 ^ b - 1 → ¬∃ r, Returns (fun f => Number.homographic cfg f x 1 1 0 1) r ∧
      Number.Denotes cfg NoPanic r (n + 1)) := by
  have hi := cfg.imin_eq
  have hm := cfg.imax_ge
  have hbits := cfg.hbits
  have b4 : 4 ≤ b := by
    by_contra h
    have : b ≤ 3 := by omega
    interval_cases b <;> omega
  have b8 : b ≤ 8 := by
    by_contra h
    have : 8 * 9 ≤ (b - 1) * b := Nat.mul_le_mul (by omega) (by omega)
    omega
  have fit : ∀ {z : Int}, -32767 ≤ z → z ≤ 32767 → cfg.Fits z := fun h h' => cfg.fits_small h h'
  constructor
  · intro hn
    have n254 : n ≤ 254 := by
      have : 2 ^ b ≤ 2 ^ 8 := Nat.pow_le_pow_right (by norm_num) b8
      omega
    obtain ⟨z, hz, hzd⟩ := Number.ratio_denotes (cfg := cfg) (A := NoPanic) (num := n + 1) (den := 1)
      one_ne_zero (fit (by omega) (by omega)) (fit (by norm_num) (by norm_num))
      (fun _ => ⟨by omega, by omega⟩)
    by_cases e1 : n = 1
    · subst e1
      have hs : x = .Special .PosOne := by
        rcases hx.same (y := .Special .PosOne) (by norm_num [Number.Denotes, specialValue]) with
          ⟨s, rfl, e⟩ | ⟨p, cx, cy, v, -, e, -⟩
        · exact e.symm
        · cases e
      subst hs
      refine ⟨z, z, ⟨0, fun f _ => ?_⟩, hz, C63_same_value cfg z z _ hzd hzd⟩
      have := C62_homographic_special cfg f .PosOne 1 1 0 1 (fun z hz => by
        simp only [List.mem_cons, List.not_mem_nil, or_false] at hz
        exact fit (by omega) (by omega))
      simp only
      rw [this, if_pos ⟨fit (by decide) (by decide), fit (by decide) (by decide)⟩]
      exact hz
    · have h2 : 2 ≤ n := by omega
      -- the narrow machine
      have key : ∃ narrow : Cfg, narrow.overflowChecks = true ∧ narrow.bits ≤ cfg.bits ∧
          increments narrow n = true := by
        have use : ∀ {B : Nat} {hB : 16 ≤ B} {k m : Nat},
            ((List.range k).all fun n => increments (checked B hB) (n + m)) = true →
            m ≤ n → n < k + m → B ≤ cfg.bits → ∃ narrow : Cfg, narrow.overflowChecks = true ∧
            narrow.bits ≤ cfg.bits ∧ increments narrow n = true := by
          intro B hB k m h h1 h2 h3
          rw [List.all_eq_true] at h
          have := h (n - m) (List.mem_range.2 (by omega))
          rw [Nat.sub_add_cancel h1] at this
          exact ⟨checked B hB, rfl, h3, this⟩
        by_cases c1 : n < 15
        · exact use below15 h2 (by omega) (by omega)
        by_cases c2 : n < 31
        · refine use below31 (by omega) (by omega) ?_
          by_contra hh
          interval_cases b <;> omega
        by_cases c3 : n < 63
        · refine use below63 (by omega) (by omega) ?_
          by_contra hh
          interval_cases b <;> omega
        by_cases c4 : n < 127
        · refine use below127 (by omega) (by omega) ?_
          by_contra hh
          interval_cases b <;> omega
        · refine use below255 (by omega) (by omega) ?_
          by_contra hh
          interval_cases b <;> omega
      obtain ⟨narrow, hc, hw, hinc⟩ := key
      obtain ⟨r, hr, hd⟩ := increments_denotes hc h2 (by omega) hinc
      have W : Widening narrow cfg := ⟨hw, hc⟩
      have hr' := (SameUnlessOverflow.of_widens fun f => Number.homographic_widens W.wider f
        (.Other (some .Turn) (.ratio ⟨1, n⟩)) 1 0 (narrow.fits_small (by decide) (by decide))
        (narrow.fits_small (by decide) (by decide))).1 r hr
      have hd' := C44_denotes_agrees W r _ hd
      have hx0 := C63_same_value cfg _ _ _ (natural_denotes (cfg := cfg) (A := NoPanic) h2 (by omega)) hx
      obtain ⟨r2, h3, h4⟩ := (C63_homographic cfg _ _ hx0 1 1 0 1).1 r hr'
      refine ⟨r2, z, h3, hz, ?_⟩
      refine (C63_equivalence cfg).trans ((C63_equivalence cfg).symm h4) ?_
      refine C63_same_value cfg r z _ hd' ?_
      convert hzd using 1
      push_cast; ring
  · rintro rfl
    have h2b : 1 ≤ 2 ^ b := Nat.one_le_two_pow
    rw [Nat.cast_sub h2b] at hx ⊢
    push_cast at hx ⊢
    have := (not_congr (C61_exact cfg b (by omega) (by nlinarith) x hx)).2 (by omega)
    simpa using this

/-- Hypotheses met: 191 on 64 bits, where `b` is 8. -/
example : ∃ x r z, Number.ratio debug64 191 1 = .ok x ∧
    Returns (fun f => Number.homographic debug64 f x 1 1 0 1) r ∧
    Number.ratio debug64 192 1 = .ok z ∧ SameNumber debug64 r z := by
  obtain ⟨x, e, hx⟩ := Number.ratio_denotes (cfg := debug64) (A := NoPanic) (num := 191) (den := 1)
    one_ne_zero (by decide) (by decide) (by decide)
  obtain ⟨r, z, h⟩ := (C61_first_on_usual_words debug64 8 (by decide) (by decide) (by decide) 191 x
    (by simpa using hx) (by norm_num)).1 (by norm_num)
  exact ⟨x, r, z, e, h⟩

end Clarith
