import Verif.Properties.Broken
import Verif.Properties.First
import Verif.Properties.Neutral

/-! # A counter (C95)

The program `let mut x = 0; loop { x = x + 1 }` of a user of the library.  Every addition returns; but from
`2^b` on, `b` being 4, 6 and 8 for machine integers of 16, 32 and 64 bits, the counter cannot be read. -/

namespace Clarith

open Out Spec

/-! ## Specification -/

/-- The counter after `n` additions of one: `Number::combine` (src/lib.rs:136-174) with the coefficients of the
sum, the constants being `Special` values. -/
def Spec.count (cfg : Cfg) (f : Nat) : Nat → Out Number
  | 0 => pure (.Special .Zero)
  | n + 1 => do
    let x ← count cfg f n
    Op.sum.run cfg f x (.Special .PosOne)

/-- The counter has, after `n` additions, the answers of the fraction `n/1`. -/
def Spec.CountsTo (cfg : Cfg) (n : Nat) : Prop :=
  ∃ z, Number.ratio cfg n 1 = .ok z ∧ Like cfg (fun f => count cfg f n) z

/-! ## Proof -/

namespace Counter

variable {cfg : Cfg}

theorem SameAnswers.trans {c c' c'' : Clog} (h : SameAnswers cfg c c') (h' : SameAnswers cfg c' c'') :
    SameAnswers cfg c c'' := by
  intro l d d'' g g''
  obtain ⟨d', g', -⟩ := C63_gives cfg c c' d h l g
  obtain ⟨a, p⟩ := h l d d' g g'
  obtain ⟨a', p'⟩ := h' l d' d'' g' g''
  exact ⟨fun r => (a r).trans (a' r), fun r => (p r).trans (p' r)⟩

theorem SameNumber.trans {x x' x'' : Number} (h : SameNumber cfg x x') (h' : SameNumber cfg x' x'') :
    SameNumber cfg x x'' := by
  cases x <;> cases x' <;> cases x'' <;> simp only [SameNumber] at h h' ⊢
  · exact h.trans h'
  · exact ⟨h.1.trans h'.1, SameAnswers.trans h.2 h'.2⟩

theorem SameNumber.symm {x x' : Number} (h : SameNumber cfg x x') : SameNumber cfg x' x :=
  SameNumber.of_agree (SameNumber.agree h).2 (SameNumber.agree h).1

theorem fit {z : Int} (h : -4 ≤ z) (h' : z ≤ 4) : cfg.Fits z := cfg.fits_small (by omega) (by omega)

theorem run_other (f : Nat) (p : Option Primer) (c : Clog) :
    Op.sum.run cfg f (.Other p c) (.Special .PosOne) = Number.homographic cfg f (.Other p c) 1 1 0 1 := by
  show Number.combine _ _ _ _ _ _ _ _ _ _ _ _ = _
  rw [Neutral.second _ _ _ _ _ _ _ _ _ _ _ (by simp)]
  rfl

theorem run_special (f : Nat) (s : Special) :
    Op.sum.run cfg f (.Special s) (.Special .PosOne) = Number.homographic cfg f (.Special .PosOne)
      1 (substitute s 1 0) 0 1 := by
  show Number.combine _ _ _ _ _ _ _ _ _ _ _ _ = _
  rw [C62_combine_special_first cfg f s _ _ _ _ _ _ _ _ _ (by
    simp only [MachineInts, List.forall_mem_cons]
    exact ⟨fit (by decide) (by decide), fit (by decide) (by decide), fit (by decide) (by decide),
      fit (by decide) (by decide), fit (by decide) (by decide), fit (by decide) (by decide),
      fit (by decide) (by decide), fit (by decide) (by decide), by simp⟩), if_pos]
  · cases s <;> rfl
  · cases s <;> exact ⟨fit (by decide) (by decide), fit (by decide) (by decide),
      fit (by decide) (by decide), fit (by decide) (by decide)⟩

theorem next {n : Nat} {x r : Number} (hn : Returns (fun f => count cfg f n) x)
    (hr : Returns (fun f => Op.sum.run cfg f x (.Special .PosOne)) r) :
    Returns (fun f => count cfg f (n + 1)) r := by
  obtain ⟨f₀, hn⟩ := hn
  obtain ⟨f₁, hr⟩ := hr
  refine ⟨f₀ + f₁, fun f hf => ?_⟩
  have e : count cfg f n = .ok x := hn f (by omega)
  show count cfg f n >>= _ = _
  rw [e]
  exact hr f (by omega)

/-- The fraction `n/1`. -/
theorem ratio (n : Nat) (hn : (n : Int) ≤ cfg.imax) :
    ∃ z, Number.ratio cfg n 1 = .ok z ∧ Number.Denotes cfg NoPanic z n := by
  have hi := cfg.imin_eq
  have hm := cfg.imax_ge
  have := C01_ratio_exact cfg n 1 ⟨by omega, hn⟩ (fit (by decide) (by decide)) one_ne_zero
    (fun _ => ⟨by omega, by omega⟩)
  simpa using this

theorem one : Returns (fun f => count cfg f 1) (.Special .PosOne) := by
  refine next (x := .Special .Zero) ⟨0, fun _ _ => rfl⟩ ⟨0, fun f _ => ?_⟩
  show Op.sum.run cfg f _ _ = _
  rw [run_special, C62_homographic_special cfg f _ _ _ _ _ (by
    simp only [MachineInts, List.forall_mem_cons]
    exact ⟨fit (by decide) (by decide), fit (by decide) (by decide), fit (by decide) (by decide),
      fit (by decide) (by decide), by simp⟩),
    if_pos ⟨fit (by decide) (by decide), fit (by decide) (by decide)⟩]
  obtain ⟨z, h, hz⟩ := ratio (cfg := cfg) 1 (by have := cfg.imax_ge; omega)
  rcases hz.same (y := .Special .PosOne) (by norm_num [Number.Denotes, specialValue]) with
    ⟨s, rfl, e⟩ | ⟨p, cx, cy, v, -, e, -⟩
  · rw [e]; exact h
  · cases e

theorem run_one {x : Number} (h : x = .Special .PosOne ∨ ∃ p c, x = .Other p c) (f : Nat) :
    Op.sum.run cfg f x (.Special .PosOne) = Number.homographic cfg f x 1 1 0 1 := by
  rcases h with rfl | ⟨p, c, rfl⟩
  · exact run_special f _
  · exact run_other f p c

theorem large {x : Number} {q : ℚ} (hx : Number.Denotes cfg NoPanic x q) (hq : 1 ≤ q) :
    x = .Special .PosOne ∨ ∃ p c, x = .Other p c := by
  cases x with
  | Special s =>
    have e : q = specialValue s := hx
    cases s
    · norm_num [specialValue] at e; linarith
    · norm_num [specialValue] at e; linarith
    · exact .inl rfl
  | Other p c => exact .inr ⟨p, c, rfl⟩

theorem large_same {x z : Number} (h : SameNumber cfg z x)
    (hz : z = .Special .PosOne ∨ ∃ p c, z = .Other p c) : x = .Special .PosOne ∨ ∃ p c, x = .Other p c := by
  rcases hz with rfl | ⟨p, c, rfl⟩ <;> cases x
  · exact .inl (by rw [show _ = _ from h])
  · exact h.elim
  · exact h.elim
  · exact .inr ⟨_, _, rfl⟩

/-- A number greater than one has the primer Turn. -/
theorem turn {x : Number} {q : ℚ} (hx : Number.Denotes cfg NoPanic x q) (hq : 1 < q) :
    ∃ c, x = .Other (some .Turn) c := by
  cases x with
  | Special s =>
    have e : q = specialValue s := hx
    cases s <;> norm_num [specialValue] at e <;> linarith
  | Other p c =>
    obtain ⟨v, hv, e⟩ := hx
    have h0 := hv.1
    have h1 := hv.2.1
    have hi : 0 < 1 / v := by positivity
    rcases p with _ | (_ | _ | _) <;> simp only [applyPrimer] at e
    · linarith
    · exact ⟨c, rfl⟩
    · linarith
    · linarith

/-- Adding one to a number with the primer Turn returns at once. -/
theorem add_one (c : Clog) : Returns (fun f => Op.sum.run cfg f (.Other (some .Turn) c) (.Special .PosOne))
    (.Other (some .Turn) (Homographic.box ⟨c, ⟨1, 0, 1, 1⟩⟩)) := by
  have := Number.homographic_now (cfg := cfg) (A := NoPanic) (c := c) (p := some .Turn) (nx := 1) (n := 1) (dx := 0)
    (d := 1) (k := ⟨1, 1, 1, 0⟩) (p' := some .Turn) (k' := ⟨1, 0, 1, 1⟩) (by decide) (by decide) (by decide)
  rcases this with ⟨r, hr, rfl⟩ | ⟨p, -, hp⟩
  · simpa only [run_other] using hr
  · exact hp.elim

end Counter

/-! ## C95 -/

open Counter

/-- All additions return, and from the second on the counter is a number with the primer Turn. -/
theorem C95_returns (cfg : Cfg) (n : Nat) :
    ∃ c, Returns (fun f => count cfg f (n + 2)) (.Other (some .Turn) c) := by
  induction n with
  | zero =>
    obtain ⟨z, h, hz⟩ := ratio (cfg := cfg) 2 (by have := cfg.imax_ge; omega)
    obtain ⟨c, rfl⟩ := turn hz (by norm_num)
    refine ⟨c, next one ⟨0, fun f _ => ?_⟩⟩
    show Op.sum.run cfg f _ _ = _
    rw [run_special, C62_homographic_special cfg f _ _ _ _ _ (by
      simp only [MachineInts, List.forall_mem_cons]
      exact ⟨fit (by decide) (by decide), fit (by decide) (by decide), fit (by decide) (by decide),
        fit (by decide) (by decide), by simp⟩),
      if_pos ⟨fit (by decide) (by decide), fit (by decide) (by decide)⟩]
    exact h
  | succ n ih =>
    obtain ⟨c, h⟩ := ih
    exact ⟨_, next h (add_one c)⟩

example := C95_returns debug64 1000

/-- For machine integers of up to 69 bits and the smallest `b` with `bits + 3 ≤ b*(b+1)` the counter is right
below `2^b`. -/
theorem C95_counts (cfg : Cfg) (b : Nat) (h69 : cfg.bits ≤ 69) (hb : cfg.bits + 3 ≤ b * (b + 1))
    (hmin : (b - 1) * b < cfg.bits + 3) (n : Nat) (hn : n < 2 ^ b) : CountsTo cfg n := by
  have hm := cfg.imax_ge
  have b8 : b ≤ 8 := by
    by_contra h
    have : 8 * 9 ≤ (b - 1) * b := Nat.mul_le_mul (by omega) (by omega)
    omega
  have n8 : 2 ^ b ≤ 2 ^ 8 := Nat.pow_le_pow_right (by norm_num) b8
  induction n with
  | zero =>
    obtain ⟨z, h, hz⟩ := ratio (cfg := cfg) 0 (by omega)
    exact ⟨z, h, .Special .Zero, ⟨0, fun _ _ => rfl⟩,
      C63_same_value cfg _ _ _ hz (by norm_num [Number.Denotes, specialValue])⟩
  | succ n ih =>
    rcases Nat.eq_zero_or_pos n with rfl | h0
    · obtain ⟨z, h, hz⟩ := ratio (cfg := cfg) 1 (by omega)
      exact ⟨z, h, .Special .PosOne, one,
        C63_same_value cfg _ _ _ hz (by norm_num [Number.Denotes, specialValue])⟩
    · obtain ⟨z, h, x, hx, hs⟩ := ih (by omega)
      obtain ⟨z', h', hz⟩ := ratio (cfg := cfg) n (by omega)
      obtain rfl : z = z' := by rw [h] at h'; exact Out.ok.inj h'
      obtain ⟨r, w, hr, hw, hrw⟩ := (C61_first_on_usual_words cfg b h69 hb hmin n z hz h0).1 (by omega)
      obtain ⟨r', hr', hrr⟩ := (C63_homographic cfg z x hs 1 1 0 1).1 r hr
      refine ⟨w, by exact_mod_cast hw, r', next hx ?_, SameNumber.trans (SameNumber.symm hrw) hrr⟩
      have hl := large_same hs (large hz (by exact_mod_cast h0))
      simpa only [run_one hl] using hr'

example := C95_counts debug64 8 (by decide) (by decide) (by decide) 255 (by decide)

/-- For all word sizes: if the counter is right at `2^b - 1`, where `bits + 3 ≤ b*(b+1)`, then the number it
holds after one more addition gives `b - 1` of its symbols, and panics when the `b`th is read. -/
theorem C95_limit (cfg : Cfg) (b : Nat) (h2 : 2 ≤ b) (hb : cfg.bits + 3 ≤ b * (b + 1)) (hb' : b < cfg.bits)
    (h : CountsTo cfg (2 ^ b - 1)) :
    ∃ c, Returns (fun f => count cfg f (2 ^ b)) (.Other (some .Turn) c) ∧ ∃ d,
      Gives cfg c (List.replicate (b - 1) .Amplify) d ∧ Panics (fun f => Clog.egest cfg f d) .unwrapNone := by
  have p4 : 2 ^ 2 ≤ 2 ^ b := Nat.pow_le_pow_right (by norm_num) h2
  obtain ⟨z, h, x, hx, hs⟩ := h
  have hlt : ((2 ^ b - 1 : Nat) : Int) ≤ cfg.imax := by
    have e : cfg.imax = 2 ^ (cfg.bits - 1) - 1 := rfl
    have : (2 : Int) ^ b ≤ 2 ^ (cfg.bits - 1) := pow_le_pow_right₀ (by norm_num) (by omega)
    rw [e, Nat.cast_sub (by omega)]
    push_cast
    omega
  obtain ⟨z', h', hz⟩ := ratio (cfg := cfg) (2 ^ b - 1) hlt
  obtain rfl : z = z' := by rw [h] at h'; exact Out.ok.inj h'
  have hz' : Number.Denotes cfg NoPanic z (2 ^ b - 1) := by
    rw [Nat.cast_sub (by omega)] at hz
    exact_mod_cast hz
  obtain ⟨c, hc, -, h3⟩ := C61_power_plus_one cfg b h2 hb' z hz'
  obtain ⟨⟨d, hd⟩, hp⟩ := h3 hb
  have hg : Gives cfg c (List.replicate (b - 1) .Amplify) d := by
    simpa [Gives] using hd
  have hq := Broken.panics_after (p := .unwrapNone) hg (by
    rw [List.length_replicate, Nat.sub_add_cancel (by omega)]; exact hp)
  obtain ⟨r, hr, hrr⟩ := (C63_homographic cfg z x hs 1 1 0 1).1 _ hc
  cases r with
  | Special s => exact hrr.elim
  | Other p' c' =>
    obtain ⟨rfl, ha⟩ := hrr
    obtain ⟨d', hg', hd'⟩ := C63_gives cfg c c' d ha _ hg
    have e : 2 ^ b = 2 ^ b - 1 + 1 := by omega
    refine ⟨c', ?_, d', hg', ((ha _ _ _ hg hg').2 _).1 hq⟩
    rw [e]
    refine next hx ?_
    have hl := large_same hs (large hz (by exact_mod_cast (by omega : 1 ≤ 2 ^ b - 1)))
    simpa only [run_one hl] using hr

example := C95_limit debug64 8 (by decide) (by decide) (by decide)
  (C95_counts debug64 8 (by decide) (by decide) (by decide) 255 (by decide))

/-- With overflow checks the counter stays unreadable: after `2^b` or more additions the number it holds never
answers `None`. -/
theorem C95_beyond (cfg : Cfg) (hc : cfg.overflowChecks = true) (b : Nat) (h2 : 2 ≤ b)
    (hb : cfg.bits + 3 ≤ b * (b + 1)) (hb' : b < cfg.bits) (h : CountsTo cfg (2 ^ b - 1)) (n : Nat)
    (hn : 2 ^ b ≤ n) : ∃ r, Returns (fun f => count cfg f n) r ∧ NeverEnds cfg r := by
  obtain ⟨k, rfl⟩ := Nat.exists_eq_add_of_le hn
  suffices H : ∃ c, Returns (fun f => count cfg f (2 ^ b + k)) (.Other (some .Turn) c) ∧
      ∃ w : ℝ, Irrational w ∧ Number.Follows cfg AnyPanic (.Other (some .Turn) c) w by
    obtain ⟨c, hr, w, hw, hf⟩ := H
    exact ⟨_, hr, Broken.never_ends hf hw⟩
  clear hn
  induction k with
  | zero =>
    obtain ⟨c, hr, d, hg, hp⟩ := C95_limit cfg b h2 hb hb' h
    exact ⟨c, hr, Broken.breaksOff_follows ⟨_, d, _, hg, hp⟩⟩
  | succ k ih =>
    obtain ⟨c, hr, w, hw, hf⟩ := ih
    have ha := add_one (cfg := cfg) c
    refine ⟨_, next hr ha, Broken.homographic_follows (nx := 1) (n := 1) (dx := 0) (d := 1) hc hw hf ?_ (by decide) ?_⟩
    · simp only [MachineInts, List.forall_mem_cons]
      exact ⟨fit (by decide) (by decide), fit (by decide) (by decide), fit (by decide) (by decide),
        fit (by decide) (by decide), by simp⟩
    · simpa only [run_other] using ha

/-- 1000 on 64 bits. -/
example := C95_beyond debug64 rfl 8 (by decide) (by decide) (by decide)
  (C95_counts debug64 8 (by decide) (by decide) (by decide) 255 (by decide)) 1000 (by decide)

end Clarith
