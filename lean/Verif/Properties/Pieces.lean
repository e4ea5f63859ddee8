import Verif.Properties.Rebuild
import Verif.Properties.Length
import Verif.Proofs.Contract

/-! # Consuming a number piece by piece (C77)

`consume` gives up when a coefficient has reached a quarter of `isize::MAX`, and returns what is
left of the operand (consume.rs:128-145).  What is left can be consumed again.  Here is how much of the
operand every call reads, and how many calls there are. -/

namespace Clarith

open Spec Out

variable {cfg : Cfg}

/-! ## Specification -/

/-- `c` answers exactly the symbols `l`, and then `None`. -/
def Spec.Whole (cfg : Cfg) (c : Clog) (l : List Reduction) : Prop :=
  ∃ c', Returns (fun f => Clog.egests cfg f (l.length + 1) c) (l.map some ++ [none], c')

/-- Calling `consume` for `x`, then for what is left, and so on until nothing is left, returns the
coefficients `ks` one after the other. -/
inductive Spec.Consumes (cfg : Cfg) : Number → List Coef4 → Prop
  | last {x k} (h : Returns (fun f => Number.consume cfg f x) (none, k)) : Consumes cfg x [k]
  | more {x y k ks} (h : Returns (fun f => Number.consume cfg f x) (some y, k))
      (hs : Consumes cfg y ks) : Consumes cfg x (k :: ks)

/-- The maps with the coefficients `ks`, the last one first, lead from `v` to `q`. -/
def Spec.Leads : List Coef4 → ℚ → ℚ → Prop
  | [], v, q => v = q
  | k :: ks, v, q => ∃ w, Leads ks v w ∧ (k.dx : ℚ) * w + k.d ≠ 0 ∧
      (k.nx * w + k.n) / (k.dx * w + k.d) = q

/-! ## Proof -/

theorem egests_cons {c e : Clog} {m : Nat} {r : Option Reduction} {rs : List (Option Reduction)} :
    Returns (fun f => Clog.egests cfg f (m + 1) c) (r :: rs, e) ↔
      ∃ d, Returns (fun f => Clog.egest cfg f c) (r, d) ∧
        Returns (fun f => Clog.egests cfg f m d) (rs, e) := by
  constructor
  · rintro ⟨f, hf⟩
    have h := hf f le_rfl
    simp only [egests_succ] at h
    rcases h1 : Clog.egest cfg f c with ⟨r', d⟩ | p | -
    · rw [h1] at h
      simp only [ok_bind] at h
      rcases h2 : Clog.egests cfg f m d with ⟨rs', e'⟩ | p | -
      · rw [h2] at h
        simp only [ok_bind, pure_eq, Out.ok.injEq, Prod.mk.injEq, List.cons.injEq] at h
        obtain ⟨⟨rfl, rfl⟩, rfl⟩ := h
        exact ⟨d, FuelMono.returns (Clog.egest_mono cfg c) f h1,
          FuelMono.returns (Clog.egests_mono cfg m d) f h2⟩
      · rw [h2] at h; cases h
      · rw [h2] at h; cases h
    · rw [h1] at h; cases h
    · rw [h1] at h; cases h
  · rintro ⟨d, ⟨f1, h1⟩, f2, h2⟩
    refine ⟨max f1 f2, fun f hf => ?_⟩
    simp only [egests_succ, h1 f (le_trans (le_max_left ..) hf),
      h2 f (le_trans (le_max_right ..) hf), ok_bind]
    rfl

theorem Spec.Whole.uncons {c : Clog} {r : Reduction} {l : List Reduction} (h : Whole cfg c (r :: l)) :
    ∃ d, Returns (fun f => Clog.egest cfg f c) (some r, d) ∧ Whole cfg d l := by
  obtain ⟨e, h⟩ := h
  obtain ⟨d, h1, h2⟩ := egests_cons.1 h
  exact ⟨d, h1, e, h2⟩

theorem Spec.Whole.cons {c d : Clog} {r : Reduction} {l : List Reduction}
    (h1 : Returns (fun f => Clog.egest cfg f c) (some r, d)) (h2 : Whole cfg d l) :
    Whole cfg c (r :: l) := by
  obtain ⟨e, h2⟩ := h2
  exact ⟨e, egests_cons.2 ⟨d, h1, h2⟩⟩

theorem Spec.Whole.ended {c : Clog} (h : Whole cfg c []) :
    ∃ d, Returns (fun f => Clog.egest cfg f c) (none, d) := by
  obtain ⟨e, h⟩ := h
  obtain ⟨d, h1, -⟩ := egests_cons.1 h
  exact ⟨d, h1⟩

/-- After a part of the symbols the rest is left. -/
theorem Spec.Whole.drop {c c' : Clog} {l l1 : List Reduction} (h : Whole cfg c l)
    (h1 : Gives cfg c l1 c') : ∃ l2, l = l1 ++ l2 ∧ Whole cfg c' l2 := by
  induction l1 generalizing c l with
  | nil => rw [Gives.nil_eq h1]; exact ⟨l, rfl, h⟩
  | cons r l1 ih =>
    obtain ⟨d, h2, h3⟩ := Gives.uncons h1
    cases l with
    | nil =>
      obtain ⟨e, h4⟩ := h.ended
      have := h2.unique h4
      simp at this
    | cons r' l =>
      obtain ⟨d', h4, h5⟩ := h.uncons
      have := h2.unique h4
      simp only [Prod.mk.injEq, Option.some.injEq] at this
      obtain ⟨rfl, rfl⟩ := this
      obtain ⟨l2, rfl, h6⟩ := ih h5 h3
      exact ⟨l2, rfl, h6⟩

theorem Spec.Whole.prepend {c c' : Clog} {l1 l2 : List Reduction} (h1 : Gives cfg c l1 c')
    (h2 : Whole cfg c' l2) : Whole cfg c (l1 ++ l2) := by
  induction l1 generalizing c with
  | nil => rwa [Gives.nil_eq h1] at h2
  | cons r l1 ih =>
    obtain ⟨d, h3, h4⟩ := Gives.uncons h1
    exact Whole.cons h3 (ih h4)

theorem Spec.Whole.unique {c : Clog} {l l' : List Reduction} (h : Whole cfg c l) (h' : Whole cfg c l') :
    l = l' := by
  induction l generalizing c l' with
  | nil =>
    obtain ⟨d, h1⟩ := h.ended
    cases l' with
    | nil => rfl
    | cons r' l' =>
      obtain ⟨d', h2, -⟩ := h'.uncons
      have := h1.unique h2
      simp at this
  | cons r l ih =>
    obtain ⟨d, h1, h2⟩ := h.uncons
    cases l' with
    | nil =>
      obtain ⟨d', h3⟩ := h'.ended
      have := h1.unique h3
      simp at this
    | cons r' l' =>
      obtain ⟨d', h3, h4⟩ := h'.uncons
      have := h1.unique h3
      simp only [Prod.mk.injEq, Option.some.injEq] at this
      obtain ⟨rfl, rfl⟩ := this
      rw [ih h2 h4]

theorem Clog.ReadsIn.whole {c : Clog} {n : Nat} (h : Clog.ReadsIn cfg c n) :
    ∃ l, l.length = n ∧ Whole cfg c l := by
  obtain ⟨l, rfl, h⟩ := h
  obtain ⟨c', h⟩ := h 1
  exact ⟨l, rfl, c', h⟩

namespace Spec

theorem undo_cons (r : Reduction) (l : List Reduction) (y : ℚ) :
    undo (r :: l) y = undoOne r (undo l y) := by cases r <;> rfl

/-- Three symbols bring numbers nearer to each other by the factor 4 at least. -/
theorem undo_contract {y y' : ℚ} (hy : 0 < y) (hy' : 0 < y') : ∀ l : List Reduction,
    (4 : ℚ) ^ (l.length / 3) * |undo l y - undo l y'| ≤ |y - y'|
  | [] => by simp [undo]
  | [r] => by
      simpa [undo_cons, undo] using undoOne_contract r hy.le hy'.le
  | [r1, r2] => by
      have h1 := undoOne_contract r2 hy.le hy'.le
      have h2 := undoOne_contract r1 (undoOne_nonneg r2 hy.le) (undoOne_nonneg r2 hy'.le)
      simpa [undo_cons, undo] using h2.trans h1
  | r1 :: r2 :: r3 :: l => by
      have ih := undo_contract hy hy' l
      have h3 := undoOne_three r1 r2 r3 (undo_pos (l := l) hy).le (undo_pos (l := l) hy').le
      rw [undo_cons, undo_cons, undo_cons, undo_cons, undo_cons, undo_cons]
      have e : (r1 :: r2 :: r3 :: l).length / 3 = l.length / 3 + 1 := by
        simp only [List.length_cons]; omega
      rw [e, pow_succ, mul_assoc]
      exact (mul_le_mul_of_nonneg_left h3 (by positivity)).trans ih

end Spec

namespace Consume

/-- The coefficient `d` doubles at least with every three symbols. -/
theorem two_pow_le {l : List Reduction} {k : Coef4} (hu : Undoes none l k) (hdx : 0 ≤ k.dx)
    (hd : 0 < k.d) : (2 : Int) ^ (l.length / 3) ≤ k.d := by
  have hD : k.nx * k.d - k.n * k.dx ≠ 0 := by
    intro h0
    obtain ⟨a1, a2⟩ := hu 1 (by norm_num)
    obtain ⟨b1, b2⟩ := hu 2 (by norm_num)
    have : undo l 1 = undo l 2 := by
      refine applyPrimer_cancel (p := none) ?_
      rw [← a2, ← b2, div_eq_div_iff a1 b1]
      have h0' : (k.nx : ℚ) * k.d - k.n * k.dx = 0 := by exact_mod_cast h0
      linear_combination -h0'
    have := undo_inj (by norm_num) (by norm_num) this
    norm_num at this
  obtain ⟨m, hm⟩ : ∃ m, m = l.length / 3 := ⟨_, rfl⟩
  rw [← hm]
  have hdx' : (0 : ℚ) ≤ k.dx := by exact_mod_cast hdx
  have hd' : (0 : ℚ) < k.d := by exact_mod_cast hd
  have hD' : (1 : ℚ) ≤ |(k.nx : ℚ) * k.d - k.n * k.dx| := by
    have := Int.one_le_abs hD
    exact_mod_cast this
  have key : ∀ y y' : ℚ, 0 < y → y < y' →
      (4 : ℚ) ^ m ≤ (k.dx * y + k.d) * (k.dx * y' + k.d) := by
    intro y y' hy hyy
    have hy' : 0 < y' := hy.trans hyy
    have h := undo_contract hy hy' l
    rw [← hm] at h
    obtain ⟨a1, a2⟩ := hu y hy
    obtain ⟨b1, b2⟩ := hu y' hy'
    simp only [applyPrimer] at a2 b2
    have p1 : (0 : ℚ) < k.dx * y + k.d := by positivity
    have p2 : (0 : ℚ) < k.dx * y' + k.d := by positivity
    rw [← a2, ← b2, div_sub_div _ _ a1 b1,
      show ((k.nx : ℚ) * y + k.n) * (k.dx * y' + k.d) - (k.dx * y + k.d) * (k.nx * y' + k.n) =
        (k.nx * k.d - k.n * k.dx) * (y - y') by ring, abs_div, abs_mul,
      abs_of_pos (mul_pos p1 p2), ← mul_div_assoc, div_le_iff₀ (mul_pos p1 p2)] at h
    have hpos : 0 < |y - y'| := abs_pos.2 (by linarith)
    refine le_of_mul_le_mul_left ?_ hpos
    refine le_trans ?_ h
    have h4 : (0 : ℚ) < 4 ^ m := by positivity
    calc |y - y'| * 4 ^ m = 4 ^ m * (1 * |y - y'|) := by ring
      _ ≤ 4 ^ m * (|(k.nx : ℚ) * k.d - k.n * k.dx| * |y - y'|) :=
        mul_le_mul_of_nonneg_left (mul_le_mul_of_nonneg_right hD' hpos.le) h4.le
  by_contra hc
  have hc' : (k.d : ℚ) + 1 ≤ 2 ^ m := by exact_mod_cast (by omega : k.d + 1 ≤ 2 ^ m)
  have h4 : (4 : ℚ) ^ m = 2 ^ m * 2 ^ m := by rw [← mul_pow]; norm_num
  have hs : (0 : ℚ) < 1 / (4 * (k.dx + 1)) := by positivity
  have h1 := key (1 / (4 * (k.dx + 1))) (2 * (1 / (4 * (k.dx + 1)))) hs (by linarith)
  have h2 : (k.dx : ℚ) * (1 / (4 * (k.dx + 1))) ≤ 1 / 4 := by
    rw [mul_one_div, div_le_div_iff₀ (by positivity) (by norm_num)]; linarith
  have h3 : 0 ≤ (k.dx : ℚ) * (1 / (4 * (k.dx + 1))) := by positivity
  rw [h4, mul_left_comm] at h1
  generalize (k.dx : ℚ) * (1 / (4 * (k.dx + 1))) = t at h1 h2 h3
  have h5 : ((k.d : ℚ) + 1) * (k.d + 1) ≤ 2 ^ m * 2 ^ m :=
    mul_le_mul hc' hc' (by positivity) (by positivity)
  nlinarith [mul_nonneg h3 hd'.le, mul_nonneg h3 h3]

/-- While the coefficients are small, few symbols have been read. -/
theorem short_of_below {p : Option Primer} {l : List Reduction} {k : Coef4} (hu : Undoes p l k)
    (hg : Lowest k) (hq : BelowQuarter cfg k) : l.length + 10 ≤ 3 * cfg.bits := by
  obtain ⟨k0, u0, g0, -, -, hdx, hd, -⟩ := undoes_shape l
  have h1 := two_pow_le u0 hdx hd
  obtain ⟨u1, g1⟩ := withPrimer_undoes (p := p) u0 g0
  have hb := cfg.hbits
  have hd4 : |k0.d| < cfg.imax / 4 := by
    have hq' : BelowQuarter cfg (withPrimer p k0) := by
      rcases hu.unique u1 hg g1 with e | e
      · rw [e]; exact hq
      · rw [e]; simpa only [BelowQuarter, abs_neg] using hq
    obtain ⟨q1, q2, q3, q4⟩ := hq'
    rcases p with _ | p
    · exact q4
    · cases p <;> simp only [withPrimer, abs_neg] at q1 q2 q3 q4 <;> assumption
  rw [abs_of_pos hd] at hd4
  have eI : cfg.imax = 4 * 2 ^ (cfg.bits - 3) - 1 := by
    unfold Cfg.imax
    rw [show cfg.bits - 1 = 2 + (cfg.bits - 3) by omega, pow_add]
    norm_num
  have h2 : (2 : Int) ^ (l.length / 3) < 2 ^ (cfg.bits - 3) := by omega
  have h3 := (pow_lt_pow_iff_right₀ (by norm_num)).1 h2
  omega

end Consume

/-! ### Two numbers on a 16-bit machine, for the examples -/

theorem pieces_returns {x : Number} {r : Option Number × Coef4} (f : Nat)
    (h : Number.consume cfg f x = .ok r) : Returns (fun f => Number.consume cfg f x) r :=
  FuelMono.returns (Number.consume_mono _ _) f h

/-- `-32767/1000` is read in two calls. -/
theorem pieces_two : Consumes ⟨16, by decide, true⟩ (.Other (some .Ground) (.ratio ⟨1000, 32767⟩))
    [⟨-2392, -13500, 73, 412⟩, ⟨0, 2, 1, 4⟩] :=
  .more (y := .Other none (.ratio ⟨4, 9⟩)) (pieces_returns 99 (by decide +kernel)) <|
    .last (pieces_returns 99 (by decide +kernel))

/-- `-32767` is read in ten, one less than the bound in `C77_ratio`. -/
theorem pieces_ten : Consumes ⟨16, by decide, true⟩ (.Other (some .Ground) (.ratio ⟨1, 32767⟩))
    [⟨0, -8192, 1, 0⟩, ⟨1, 2048, 2, 8192⟩, ⟨1, 1024, 4, 8192⟩, ⟨1, 1024, 4, 8192⟩,
      ⟨1025, 2049, 4098, 8194⟩, ⟨1, 8, 512, 8192⟩, ⟨1, 128, 32, 8192⟩, ⟨65, 4128, 129, 8224⟩,
      ⟨2461, 4641, 4845, 9137⟩, ⟨0, 1, 2, 2⟩] :=
  .more (y := .Other none (.ratio ⟨8192, 32767⟩)) (pieces_returns 99 (by decide +kernel)) <|
  .more (y := .Other none (.ratio ⟨2048, 16383⟩)) (pieces_returns 99 (by decide +kernel)) <|
  .more (y := .Other none (.ratio ⟨1024, 8191⟩)) (pieces_returns 99 (by decide +kernel)) <|
  .more (y := .Other none (.ratio ⟨1024, 4095⟩)) (pieces_returns 99 (by decide +kernel)) <|
  .more (y := .Other none (.ratio ⟨1, 1023⟩)) (pieces_returns 99 (by decide +kernel)) <|
  .more (y := .Other none (.ratio ⟨8, 511⟩)) (pieces_returns 99 (by decide +kernel)) <|
  .more (y := .Other none (.ratio ⟨128, 255⟩)) (pieces_returns 99 (by decide +kernel)) <|
  .more (y := .Other none (.ratio ⟨32, 63⟩)) (pieces_returns 99 (by decide +kernel)) <|
  .more (y := .Other none (.ratio ⟨1, 3⟩)) (pieces_returns 99 (by decide +kernel)) <|
  .last (pieces_returns 99 (by decide +kernel))

/-! ## C77 -/

/-- A call of `consume` that leaves something has read at least `bits - 3` symbols, and at most
three times as many, of any clog and in any build. -/
theorem C77_reads_some (cfg : Cfg) (p : Option Primer) (c : Clog) (y : Number) (k : Coef4)
    (hr : Returns (fun f => Number.consume cfg f (.Other p c)) (some y, k)) :
    ∃ l c', y = .Other none c' ∧ Gives cfg c l c' ∧ Undoes p l k ∧
      cfg.bits - 3 ≤ l.length ∧ l.length ≤ 3 * (cfg.bits - 3) := by
  obtain ⟨l, hu, hg, hpre, hq, c', rfl, h⟩ := C56_consume_exact cfg p c (some y) k hr
  have h1 := Consume.long_of_not_below hu hg hq
  have hb := cfg.hbits
  refine ⟨l, c', rfl, h, hu, by omega, ?_⟩
  rcases l.eq_nil_or_concat with rfl | ⟨l', r, rfl⟩
  · simp at h1; omega
  · obtain ⟨k0, u0, g0, -⟩ := Consume.undoes_shape l'
    obtain ⟨u1, g1⟩ := Consume.withPrimer_undoes (p := p) u0 g0
    have := Consume.short_of_below u1 g1
      (hpre l' (by simp) (by simp) _ u1 g1)
    simp only [List.concat_eq_append, List.length_append, List.length_singleton] at *
    omega

/-- The first call for `-32767/1000` on a 16-bit machine. -/
example := C77_reads_some ⟨16, by decide, true⟩ (some .Ground) (.ratio ⟨1000, 32767⟩)
  (.Other none (.ratio ⟨4, 9⟩)) ⟨-2392, -13500, 73, 412⟩ (pieces_returns 99 (by decide +kernel))

/-- A call of `consume` that leaves nothing has read all symbols, and there were fewer than
`3 (bits - 3)`. -/
theorem C77_reads_last (cfg : Cfg) (p : Option Primer) (c : Clog) (k : Coef4)
    (hr : Returns (fun f => Number.consume cfg f (.Other p c)) (none, k)) :
    ∃ l, Whole cfg c l ∧ Undoes p l k ∧ l.length < 3 * (cfg.bits - 3) := by
  obtain ⟨l, hu, hg, -, hq, h⟩ := C56_consume_exact cfg p c none k hr
  have := Consume.short_of_below hu hg hq
  have hb := cfg.hbits
  exact ⟨l, h, hu, by omega⟩

/-- The second call. -/
example := C77_reads_last ⟨16, by decide, true⟩ none (.ratio ⟨4, 9⟩) ⟨0, 2, 1, 4⟩
  (pieces_returns 99 (by decide +kernel))

/-- Consuming piece by piece is deterministic. -/
theorem C77_unique (cfg : Cfg) (x : Number) (ks ks' : List Coef4) (h : Consumes cfg x ks)
    (h' : Consumes cfg x ks') : ks = ks' := by
  induction h generalizing ks' with
  | last h =>
    cases h' with
    | last h1 =>
      have := h.unique h1
      simp only [Prod.mk.injEq, true_and] at this
      rw [this]
    | more h1 _ =>
      have := h.unique h1
      simp at this
  | more h _ ih =>
    cases h' with
    | last h1 =>
      have := h.unique h1
      simp at this
    | more h1 h2 =>
      have := h.unique h1
      simp only [Prod.mk.injEq, Option.some.injEq] at this
      obtain ⟨rfl, rfl⟩ := this
      rw [ih _ h2]

example (ks : List Coef4) := C77_unique _ _ _ ks pieces_two

/-- The maps returned lead from one half to the number. -/
theorem C77_value (cfg : Cfg) (A : Panic → Prop) (x : Number) (q : ℚ) (ks : List Coef4)
    (hx : Number.Denotes cfg A x q) (h : Consumes cfg x ks) : Leads ks (1 / 2) q := by
  induction h generalizing q with
  | last h =>
    obtain ⟨v, rfl, h1, h2⟩ := (C24_consume_value cfg A _ q hx).of_returns h
    exact ⟨1 / 2, rfl, h1, h2⟩
  | more h _ ih =>
    obtain ⟨v, hv, h1, h2⟩ := (C24_consume_value cfg A _ q hx).of_returns h
    exact ⟨v, ih v hv, h1, h2⟩

/-- `-32767/1000`. -/
example : Leads [⟨-2392, -13500, 73, 412⟩, ⟨0, 2, 1, 4⟩] (1 / 2) (-32767 / 1000) := by
  obtain ⟨x, h1, h2⟩ := C01_ratio_exact ⟨16, by decide, true⟩ (-32767) 1000 (by decide) (by decide)
    (by decide) (by decide)
  have e : x = .Other (some .Ground) (.ratio ⟨1000, 32767⟩) := by
    have : Number.ratio ⟨16, by decide, true⟩ (-32767) 1000 =
      .ok (.Other (some .Ground) (.ratio ⟨1000, 32767⟩)) := by decide +kernel
    rw [this] at h1
    cases h1; rfl
  subst e
  exact_mod_cast C77_value _ _ _ _ _ h2 pieces_two

/-- For every number that can be read without a panic, consuming it piece by piece comes to an end:
no call panics, and in the end nothing is left. -/
theorem C77_ends (cfg : Cfg) (x : Number) (q : ℚ) (hx : Number.Denotes cfg NoPanic x q) :
    ∃ ks, Consumes cfg x ks := by
  have key : ∀ n p c l v, l.length ≤ n → Whole cfg c l → Clog.Denotes cfg NoPanic c v →
      ∃ ks, Consumes cfg (.Other p c) ks := by
    intro n
    induction n with
    | zero =>
      intro p c l v hl hw hv
      obtain ⟨⟨y, k⟩, hr, -⟩ := (C24_consume_value cfg NoPanic (.Other p c) _ ⟨v, hv, rfl⟩).returns
      cases y with
      | none => exact ⟨_, .last hr⟩
      | some y =>
        obtain ⟨l1, c', rfl, h1, -, h2, -⟩ := C77_reads_some cfg p c y k hr
        obtain ⟨l2, rfl, -⟩ := hw.drop h1
        have hb := cfg.hbits
        simp only [List.length_append] at hl
        omega
    | succ n ih =>
      intro p c l v hl hw hv
      obtain ⟨⟨y, k⟩, hr, -⟩ := (C24_consume_value cfg NoPanic (.Other p c) _ ⟨v, hv, rfl⟩).returns
      cases y with
      | none => exact ⟨_, .last hr⟩
      | some y =>
        obtain ⟨l1, c', rfl, h1, -, h2, -⟩ := C77_reads_some cfg p c y k hr
        obtain ⟨l2, rfl, h3⟩ := hw.drop h1
        obtain ⟨v', -, -, -, h4⟩ := C36_partly_read cfg NoPanic c c' v hv _ _ h1
        obtain ⟨w, hw', -⟩ := h4 none
        have hb := cfg.hbits
        simp only [List.length_append] at hl
        obtain ⟨ks, h5⟩ := ih none c' l2 w (by omega) h3 hw'
        exact ⟨_, .more hr h5⟩
  cases x with
  | Special s =>
    obtain ⟨k, hk⟩ : ∃ k, ∀ f, Number.consume cfg f (.Special s) = .ok (none, k) := by
      cases s <;> exact ⟨_, fun _ => rfl⟩
    exact ⟨_, .last ⟨0, fun f _ => hk f⟩⟩
  | Other p c =>
    obtain ⟨v, hv, -⟩ := hx
    obtain ⟨l, hl⟩ := exists_expands v hv.1 hv.2.1
    obtain ⟨l', e, hw⟩ := (hv.reads hl).whole
    exact key _ p c l' v le_rfl hw hv

example : ∃ ks, Consumes debug64 (.Other none (.ratio ⟨3, 5⟩)) ks :=
  C77_ends debug64 _ (3 / 5) ⟨3 / 5, by
    have h := C02_ratio_u_exact debug64 true 3 5 (by decide) (by decide) (by decide)
    obtain ⟨x, h1, h2⟩ := h
    cases h1
    obtain ⟨v, h3, h4⟩ := h2
    simp only [applyPrimer] at h4
    norm_num at h4
    rwa [h4], rfl⟩

/-- If a clog can be consumed piece by piece it has an end, and the number of its symbols tells the
number of calls, up to the factor three. -/
theorem C77_count (cfg : Cfg) (p : Option Primer) (c : Clog) (ks : List Coef4)
    (h : Consumes cfg (.Other p c) ks) :
    ∃ l, Whole cfg c l ∧ (ks.length - 1) * (cfg.bits - 3) ≤ l.length ∧
      l.length < ks.length * (3 * (cfg.bits - 3)) := by
  obtain ⟨x, hx⟩ : ∃ x, x = Number.Other p c := ⟨_, rfl⟩
  rw [← hx] at h
  induction h generalizing p c with
  | last h =>
    subst hx
    obtain ⟨l, h1, -, h2⟩ := C77_reads_last cfg p c _ h
    exact ⟨l, h1, by simp, by simpa using h2⟩
  | @more x y k ks h hs ih =>
    subst hx
    obtain ⟨l1, c', rfl, h1, -, h2, h3⟩ := C77_reads_some cfg p c _ _ h
    obtain ⟨l2, h4, h5, h6⟩ := ih none c' rfl
    refine ⟨l1 ++ l2, h4.prepend h1, ?_, ?_⟩
    · have : 1 ≤ ks.length := by cases hs <;> simp
      obtain ⟨m, hm⟩ : ∃ m, ks.length = m + 1 := ⟨_, (Nat.sub_add_cancel this).symm⟩
      rw [hm] at h5
      simp only [List.length_cons, List.length_append, hm, Nat.add_sub_cancel] at h5 ⊢
      rw [Nat.add_one_mul]
      omega
    · simp only [List.length_cons, List.length_append]
      rw [Nat.add_one_mul]
      omega

/-- `-32767` on a 16-bit machine. -/
example := C77_count _ _ _ _ pieces_ten

/-- Every number made by `ratio` is consumed in at most `bits / 2 + 3` calls (35 on a 64-bit
machine), and the maps returned lead from one half to the fraction. -/
theorem C77_ratio (cfg : Cfg) (num den : Int) (hn : cfg.Fits num) (hd : cfg.Fits den)
    (hd0 : den ≠ 0) (x : Number) (hx : Number.ratio cfg num den = .ok x) :
    ∃ ks, Consumes cfg x ks ∧ ks.length ≤ cfg.bits / 2 + 3 ∧ Leads ks (1 / 2) ((num : ℚ) / den) := by
  have hmin : cfg.overflowChecks = true → num ≠ cfg.imin ∧ den ≠ cfg.imin := by
    intro hc
    by_contra h
    rw [C40_min_checked cfg hc num den hn (by tauto)] at hx
    cases hx
  obtain ⟨x', hx', hden⟩ := C01_ratio_exact cfg num den hn hd hd0 hmin
  rw [hx] at hx'
  cases hx'
  obtain ⟨ks, hk⟩ := C77_ends cfg x _ hden
  refine ⟨ks, hk, ?_, C77_value cfg _ x _ ks hden hk⟩
  cases x with
  | Special s =>
    cases hk with
    | last h => simp
    | more h _ =>
      obtain ⟨f, hf⟩ := h
      have := hf f le_rfl
      cases s <;> cases this
  | Other p c =>
    obtain ⟨l, h1, h2, -⟩ := C77_count cfg p c ks hk
    obtain ⟨n, h3, h4, -⟩ := C45_ratio cfg num den hn hd hd0 p c hx
    obtain ⟨l', h5, h6⟩ := h4.whole
    rw [← h1.unique h6] at h5
    have hb := cfg.hbits
    have h7 := longest_eq (b := cfg.bits - 1) (by omega)
    obtain ⟨b, hb'⟩ : ∃ b, cfg.bits = b + 3 := ⟨cfg.bits - 3, by omega⟩
    rw [hb'] at h2 h3 h7 ⊢
    simp only [Nat.add_sub_cancel, show b + 3 - 1 = b + 2 by omega] at h2 h3 h7
    by_contra hc
    obtain ⟨m, hm⟩ : ∃ m, ks.length = m + 1 := ⟨ks.length - 1, by omega⟩
    rw [hm, Nat.add_sub_cancel] at h2
    have h8 : b + 8 ≤ 2 * m := by omega
    have h9 : (b + 8) * b ≤ 2 * m * b := Nat.mul_le_mul_right b h8
    nlinarith

/-- `-32767`, for which ten calls are needed on a 16-bit machine. -/
example := C77_ratio ⟨16, by decide, true⟩ (-32767) 1 (by decide) (by decide) (by decide)
  (.Other (some .Ground) (.ratio ⟨1, 32767⟩)) (by decide +kernel)

end Clarith
