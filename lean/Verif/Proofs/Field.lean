import Verif.SpecField
import Verif.Proofs.CombineNew
import Verif.Proofs.Fuel
import Mathlib.Algebra.Order.Field.Power
import Mathlib.Data.Rat.Cast.Order

/-! # Clogs that follow an element of an ordered field -/

namespace Clarith

open Out Spec

/-! ## Outcomes that may never come -/

/-- `o` is a value satisfying `P`, a panic in `A`, or not there yet. -/
def Out.Maybe {α : Type} (A : Panic → Prop) (o : Out α) (P : α → Prop) : Prop :=
  match o with
  | .ok a => P a
  | .panic p => A p
  | .timeout => True

namespace Out

theorem Sat.maybe {α : Type} {A : Panic → Prop} {o : Out α} {P : α → Prop} (h : Sat A o P) :
    Maybe A o P := by
  cases o with
  | ok a => exact h
  | panic p => exact h
  | timeout => trivial

theorem Maybe.pure {α : Type} {A : Panic → Prop} {a : α} {P : α → Prop} (h : P a) :
    Maybe A (Pure.pure a) P := h

theorem Maybe.bind {α β : Type} {A : Panic → Prop} {m : Out α} {g : α → Out β} {Q : α → Prop}
    {P : β → Prop} (hm : Maybe A m Q) (hg : ∀ a, Q a → Maybe A (g a) P) :
    Maybe A (m >>= g) P := by
  cases m with
  | ok a => exact hg a hm
  | panic p => exact hm
  | timeout => trivial

theorem Maybe.bind_sat {α β : Type} {A : Panic → Prop} {m : Out α} {g : α → Out β} {Q : α → Prop}
    {P : β → Prop} (hm : Sat A m Q) (hg : ∀ a, Q a → Maybe A (g a) P) :
    Maybe A (m >>= g) P := Maybe.bind hm.maybe hg

theorem Maybe.mono {α : Type} {A : Panic → Prop} {m : Out α} {P Q : α → Prop}
    (hm : Maybe A m P) (h : ∀ a, P a → Q a) : Maybe A m Q := by
  cases m with
  | ok a => exact h a hm
  | panic p => exact hm
  | timeout => trivial

theorem maybe_iff {α : Type} {A : Panic → Prop} {m : Out α} {P : α → Prop} :
    Maybe A m P ↔ (∀ a, m = .ok a → P a) ∧ (∀ p, m = .panic p → A p) := by
  cases m <;> simp [Maybe]

end Out

theorem may_iff {α : Type} {A : Panic → Prop} {m : Nat → Out α} {P : α → Prop} :
    May A m P ↔ ∀ f, Out.Maybe A (m f) P := forall_congr' fun _ => Out.maybe_iff.symm

/-- A call that ends does what it ends with whenever it ends. -/
theorem Ends.may {α : Type} {A : Panic → Prop} {m : Nat → Out α} {P : α → Prop}
    (hm : FuelMono m) (h : Ends A m P) : May A m P := by
  rw [may_iff]
  intro f
  rcases h with ⟨a, ⟨f₀, h⟩, ha⟩ | ⟨p, ⟨f₀, h⟩, hp⟩
  · rcases hm f (max f f₀) (by omega) with e | e
    · rw [e]; trivial
    · rw [e, h _ (by omega)]; exact ha
  · rcases hm f (max f f₀) (by omega) with e | e
    · rw [e]; trivial
    · rw [e, h _ (by omega)]; exact hp

/-! ## Symbols -/

namespace Spec

section

variable {K : Type*} [Field K] [LinearOrder K]

/-- First symbol of `x`. -/
def symIn (x : K) : Option Reduction :=
  if x < 1 / 2 then some .Amplify else if 1 / 2 < x then some .Uncover else none

/-- What is left of `x` after its first symbol. -/
def nextIn (x : K) : K :=
  if x < 1 / 2 then 2 * x else if 1 / 2 < x then 1 / x - 1 else x

theorem symbolsIn_succ (k : Nat) (x : K) :
    symbolsIn (k + 1) x = symIn x :: symbolsIn k (nextIn x) := by
  simp only [symbolsIn, symIn, nextIn]
  split_ifs <;> rfl

theorem symIn_half : symIn (1 / 2 : K) = none := by simp [symIn]
theorem nextIn_half : nextIn (1 / 2 : K) = 1 / 2 := by simp [nextIn]
theorem symIn_lt {x : K} (h : x < 1 / 2) : symIn x = some .Amplify := by
  simp only [symIn, if_pos h]
theorem nextIn_lt {x : K} (h : x < 1 / 2) : nextIn x = 2 * x := by simp only [nextIn, if_pos h]
theorem symIn_gt {x : K} (h : 1 / 2 < x) : symIn x = some .Uncover := by
  simp only [symIn, if_neg (not_lt.2 h.le), if_pos h]
theorem nextIn_gt {x : K} (h : 1 / 2 < x) : nextIn x = 1 / x - 1 := by
  simp only [nextIn, if_neg (not_lt.2 h.le), if_pos h]

theorem symIn_eq_none {x : K} : symIn x = none ↔ x = 1 / 2 := by
  unfold symIn
  split_ifs with h1 h2
  · simpa using h1.ne
  · simpa using h2.ne'
  · simpa using le_antisymm (not_lt.1 h2) (not_lt.1 h1)

theorem symIn_eq_amplify {x : K} : symIn x = some .Amplify ↔ x < 1 / 2 := by
  unfold symIn; split_ifs <;> simp_all

theorem symIn_eq_uncover {x : K} : symIn x = some .Uncover ↔ 1 / 2 < x := by
  unfold symIn; split_ifs with h1 h2
  · simpa using h1.le
  · simp_all
  · simpa using not_lt.1 h2

theorem symIn_cases {u : K} {r} (h : symIn u = some r) :
    (r = .Amplify ∧ nextIn u = 2 * u) ∨ (r = .Uncover ∧ 1 / 2 < u ∧ nextIn u = 1 / u - 1) := by
  rcases lt_trichotomy u (1 / 2) with hu | hu | hu
  · rw [symIn_lt hu] at h; exact .inl ⟨(Option.some.inj h).symm, nextIn_lt hu⟩
  · rw [hu, symIn_half] at h; cases h
  · rw [symIn_gt hu] at h; exact .inr ⟨(Option.some.inj h).symm, hu, nextIn_gt hu⟩

end

variable {K : Type*} [Field K] [LinearOrder K] [IsStrictOrderedRing K]

theorem nextIn_mem {x : K} (h0 : 0 < x) (h1 : x < 1) : 0 < nextIn x ∧ nextIn x < 1 := by
  unfold nextIn
  split_ifs with h h'
  · constructor <;> linarith
  · constructor
    · rw [sub_pos, lt_div_iff₀ h0]; linarith
    · rw [sub_lt_iff_lt_add, div_lt_iff₀ h0]; linarith
  · exact ⟨h0, h1⟩

theorem half_cast : ((1 / 2 : ℚ) : K) = 1 / 2 := by norm_num

theorem symIn_cast (x : ℚ) : symIn (x : K) = sym x := by
  unfold symIn sym
  rw [← half_cast (K := K)]
  simp only [Rat.cast_lt]

theorem nextIn_cast (x : ℚ) : nextIn (x : K) = ((next x : ℚ) : K) := by
  unfold nextIn next
  rw [← half_cast (K := K)]
  simp only [Rat.cast_lt]
  split_ifs <;> push_cast <;> rfl

theorem symbolsIn_cast (k : Nat) (x : ℚ) : symbolsIn k (x : K) = symbols k x := by
  induction k generalizing x with
  | zero => rfl
  | succ k ih => rw [symbolsIn_succ, symbols_succ, symIn_cast, nextIn_cast, ih]

theorem primerIn_cast (p : Option Primer) (x : ℚ) :
    primerIn p (x : K) = ((applyPrimer p x : ℚ) : K) := by
  rcases p with _ | p
  · rfl
  · cases p <;> simp [primerIn, applyPrimer]

omit [LinearOrder K] [IsStrictOrderedRing K] in
theorem specialIn_cast (s : Special) : specialIn K s = ((specialValue s : ℚ) : K) := by
  cases s <;> simp [specialIn, specialValue]

theorem Infinitesimal.lt_half {x : K} (h : Infinitesimal x) : x < 1 / 2 := by
  have := h.2 2
  push_cast at this
  linarith

theorem Infinitesimal.double {x : K} (h : Infinitesimal x) : Infinitesimal (2 * x) := by
  refine ⟨by linarith [h.1], fun n => ?_⟩
  have := h.2 (n * 2)
  push_cast at this
  linarith

theorem Infinitesimal.symbols {x : K} (h : Infinitesimal x) (k : Nat) :
    symbolsIn k x = List.replicate k (some .Amplify) := by
  induction k generalizing x with
  | zero => rfl
  | succ k ih =>
    rw [symbolsIn_succ, symIn_lt h.lt_half, nextIn_lt h.lt_half, ih h.double]
    rfl

end Spec

/-! ## Clogs -/

section

variable {K : Type*} [Field K] [LinearOrder K] [IsStrictOrderedRing K]

omit [IsStrictOrderedRing K] in
/-- Coinduction. -/
theorem Clog.Follows.coind {cfg : Cfg} {A : Panic → Prop} (R : Clog → K → Prop)
    (hR : ∀ c x, R c x → 0 < x ∧ x < 1 ∧
      ∀ f, Maybe A (Clog.egest cfg f c) (fun r => r.1 = symIn x ∧ R r.2 (nextIn x)))
    {c : Clog} {x : K} (h : R c x) : Clog.Follows cfg A c x := by
  refine ⟨(hR c x h).1, (hR c x h).2.1, fun k => may_iff.2 fun f => ?_⟩
  induction k generalizing c x with
  | zero => exact Maybe.pure rfl
  | succ k ih =>
    obtain ⟨h0, h1, hE⟩ := hR c x h
    simp only [egests_succ]
    refine Maybe.bind (hE f) ?_
    rintro ⟨r, c'⟩ ⟨hr, hc⟩
    refine Maybe.bind (ih hc) ?_
    rintro ⟨rs, c''⟩ hrs
    refine Maybe.pure ?_
    simp only at hr hrs ⊢
    rw [symbolsIn_succ, hr, hrs]

/-- One call on a clog that follows `x`. -/
theorem Clog.Follows.step {cfg : Cfg} {A : Panic → Prop} {c : Clog} {x : K}
    (h : Clog.Follows cfg A c x) (f : Nat) :
    Maybe A (Clog.egest cfg f c)
      (fun r => r.1 = symIn x ∧ Clog.Follows cfg A r.2 (nextIn x)) := by
  obtain ⟨h0, h1, hk⟩ := h
  cases hE : Clog.egest cfg f c with
  | timeout => trivial
  | panic p =>
    have := (hk 1 f).2 p (by simp only [egests_succ, hE, panic_bind])
    exact this
  | ok rc =>
    obtain ⟨r, c'⟩ := rc
    refine ⟨?_, (nextIn_mem h0 h1).1, (nextIn_mem h0 h1).2, fun k => may_iff.2 fun g => ?_⟩
    · have := (hk 1 f).1 ([r], c') (by simp [hE, Clog.egests])
      rw [symbolsIn_succ] at this
      exact (List.cons.inj this).1
    · have hm : Clog.egest cfg (max f g) c = .ok (r, c') :=
        (Clog.egest_le (le_max_left f g) c).ok hE
      have hl := Clog.egests_le (cfg := cfg) (le_max_right f g) k c'
      cases hG : Clog.egests cfg g k c' with
      | timeout => trivial
      | panic p =>
        refine (hk (k + 1) (max f g)).2 p ?_
        simp only [egests_succ, hm, ok_bind, hl.panic hG, panic_bind]
      | ok rs =>
        obtain ⟨rs, c''⟩ := rs
        have := (hk (k + 1) (max f g)).1 (r :: rs, c'') (by
          simp only [egests_succ, hm, ok_bind, hl.ok hG]; rfl)
        rw [symbolsIn_succ] at this
        exact (List.cons.inj this).2

theorem Clog.Denotes.follows {cfg : Cfg} {A : Panic → Prop} {c : Clog} {x : ℚ}
    (h : Clog.Denotes cfg A c x) : Clog.Follows cfg A c (x : K) := by
  refine ⟨by exact_mod_cast h.1, by exact_mod_cast h.2.1, fun k => ?_⟩
  simp only [symbolsIn_cast]
  exact (h.2.2 k).may fun _ _ hf => Clog.egests_le hf k c

theorem Number.Denotes.follows {cfg : Cfg} {A : Panic → Prop} {n : Number} {q : ℚ}
    (h : Number.Denotes cfg A n q) : Number.Follows cfg A n (q : K) := by
  cases n with
  | Special s =>
    obtain rfl : q = specialValue s := h
    exact (specialIn_cast s).symm
  | Other p c =>
    obtain ⟨x, hx, rfl⟩ := h
    exact ⟨x, hx.follows, (primerIn_cast p x).symm⟩

theorem Clog.AmplifiesForever.follows {cfg : Cfg} {A : Panic → Prop} {c : Clog} {x : K}
    (h : Clog.AmplifiesForever cfg A c) (hx : Infinitesimal x) : Clog.Follows cfg A c x := by
  refine ⟨hx.1, by linarith [hx.lt_half], fun k => ?_⟩
  simp only [hx.symbols]
  exact (h k).may fun _ _ hf => Clog.egests_le hf k c

end

/-! ## Maps of one variable -/

namespace Coef4

section

variable {K : Type*} [Field K] [LinearOrder K] [IsStrictOrderedRing K]

/-- Numerator at `v`. -/
def numIn (k : Coef4) (v : K) : K := k.nx * v + k.n
/-- Denominator at `v`. -/
def denIn (k : Coef4) (v : K) : K := k.dx * v + k.d
/-- Value at `v`. -/
def valIn (k : Coef4) (v : K) : K := k.numIn v / k.denIn v

omit [LinearOrder K] [IsStrictOrderedRing K] in
theorem valIn_opp (k : Coef4) (v : K) : k.opp.valIn v = k.valIn v := by
  simp only [valIn, numIn, denIn, opp]
  push_cast
  rw [← neg_div_neg_eq]
  congr 1 <;> ring

omit [LinearOrder K] [IsStrictOrderedRing K] in
theorem denIn_opp (k : Coef4) (v : K) : k.opp.denIn v = -k.denIn v := by
  simp only [denIn, opp]
  push_cast
  ring

/-- A linear function is a convex combination of its values at the ends. -/
theorem lin_pos_in {a b : Int} {v : K} (h0 : 0 < v) (h1 : v < 1) (ha : 0 ≤ b) (hb : 0 ≤ b + a)
    (hne : ¬(b = 0 ∧ b + a = 0)) : (0 : K) < a * v + b := by
  have ha' : (0 : K) ≤ b := by exact_mod_cast ha
  have hb' : (0 : K) ≤ (b : K) + a := by exact_mod_cast hb
  have e : (a : K) * v + b = (1 - v) * b + v * (b + a) := by ring
  rw [e]
  rcases ha.lt_or_eq with h | h
  · have : (0 : K) < b := by exact_mod_cast h
    have h3 : 0 < (1 - v) * (b : K) := mul_pos (by linarith) this
    have h4 : 0 ≤ v * ((b : K) + a) := mul_nonneg h0.le hb'
    linarith
  · have hlt : 0 < b + a := by
      rcases hb.lt_or_eq with h' | h'
      · exact h'
      · exact absurd ⟨h.symm, h'.symm⟩ hne
    have : (0 : K) < (b : K) + a := by exact_mod_cast hlt
    have h3 : 0 ≤ (1 - v) * (b : K) := mul_nonneg (by linarith) ha'
    have h4 : 0 < v * ((b : K) + a) := mul_pos h0 this
    linarith

theorem PosW.denIn_pos {k : Coef4} (h : PosW k) {v : K} (h0 : 0 < v) (h1 : v < 1) :
    0 < k.denIn v := by
  unfold PosW at h
  exact lin_pos_in h0 h1 (by omega) (by omega) (by omega)

theorem PosW.numIn_pos {k : Coef4} (h : PosW k) (hn : ¬(k.n = 0 ∧ k.n + k.nx = 0)) {v : K}
    (h0 : 0 < v) (h1 : v < 1) : 0 < k.numIn v := by
  unfold PosW at h
  exact lin_pos_in h0 h1 (by omega) (by omega) hn

theorem PosW.numIn_lt {k : Coef4} (h : PosW k) {v : K}
    (h0 : 0 < v) (h1 : v < 1) : k.numIn v < k.denIn v := by
  unfold PosW at h
  have := lin_pos_in (a := k.dx - k.nx) (b := k.d - k.n) h0 h1 (by omega) (by omega) (by omega)
  unfold numIn denIn
  push_cast at this
  linarith

theorem Inv.valIn_mem {k : Coef4} (h : Inv k) {v : K} (h0 : 0 < v) (h1 : v < 1) :
    0 < k.valIn v ∧ k.valIn v < 1 := by
  obtain ⟨hp | hp, hn⟩ := h
  · have d := hp.denIn_pos h0 h1
    exact ⟨div_pos (hp.numIn_pos hn h0 h1) d, by
      rw [valIn, div_lt_iff₀ d, one_mul]; exact hp.numIn_lt h0 h1⟩
  · have d := hp.denIn_pos h0 h1
    rw [← valIn_opp]
    refine ⟨div_pos (hp.numIn_pos ?_ h0 h1) d, by
      rw [valIn, div_lt_iff₀ d, one_mul]; exact hp.numIn_lt h0 h1⟩
    simp only [Coef4.opp]; omega

/-- `k'` at `v'` is `k` at `v`, as a pair of numerator and denominator. -/
def SameIn (k : Coef4) (v : K) (k' : Coef4) (v' : K) : Prop :=
  ∃ t : K, t ≠ 0 ∧ k'.numIn v' = t * k.numIn v ∧ k'.denIn v' = t * k.denIn v

omit [LinearOrder K] [IsStrictOrderedRing K] in
theorem SameIn.val {k k' : Coef4} {v v' : K} (h : SameIn k v k' v') :
    k'.valIn v' = k.valIn v := by
  obtain ⟨t, ht, h1, h2⟩ := h
  unfold valIn
  rw [h1, h2, mul_div_mul_left _ _ ht]

omit [LinearOrder K] [IsStrictOrderedRing K] in
theorem SameIn.den {k k' : Coef4} {v v' : K} (h : SameIn k v k' v') :
    k'.denIn v' = 0 ↔ k.denIn v = 0 := by
  obtain ⟨t, ht, h1, h2⟩ := h
  rw [h2, mul_eq_zero, or_iff_right ht]

theorem cast_ne {c : Int} (hc : c = 1 ∨ c = 2) : (c : K) ≠ 0 := by
  rcases hc with rfl | rfl
  · simp
  · simp

theorem same_ingestAmplify {k r : Coef4} {v : K}
    (h : ∃ c : Int, (c = 1 ∨ c = 2) ∧ c * r.n = 2 * k.n ∧ c * r.nx = k.nx ∧
        c * r.d = 2 * k.d ∧ c * r.dx = k.dx) : SameIn k v r (2 * v) := by
  obtain ⟨c, hc, h1, h2, h3, h4⟩ := h
  have hc' : (c : K) ≠ 0 := cast_ne hc
  have h1' : (c : K) * r.n = 2 * k.n := by exact_mod_cast h1
  have h2' : (c : K) * r.nx = k.nx := by exact_mod_cast h2
  have h3' : (c : K) * r.d = 2 * k.d := by exact_mod_cast h3
  have h4' : (c : K) * r.dx = k.dx := by exact_mod_cast h4
  refine ⟨2 / c, div_ne_zero two_ne_zero hc', ?_, ?_⟩
  · rw [div_mul_eq_mul_div, eq_div_iff hc']
    unfold numIn
    linear_combination 2 * v * h2' + h1'
  · rw [div_mul_eq_mul_div, eq_div_iff hc']
    unfold denIn
    linear_combination 2 * v * h4' + h3'

omit [LinearOrder K] [IsStrictOrderedRing K] in
theorem same_ingestUncover {k : Coef4} {v : K} (hv : v ≠ 0) :
    SameIn k v ⟨k.n, k.nx + k.n, k.d, k.dx + k.d⟩ (1 / v - 1) := by
  refine ⟨1 / v, one_div_ne_zero hv, ?_, ?_⟩
  · unfold numIn; push_cast; field_simp; ring
  · unfold denIn; push_cast; field_simp; ring

theorem numIn_cast (k : Coef4) (v : ℚ) : k.numIn (v : K) = ((k.numAt v : ℚ) : K) := by
  unfold numIn numAt; push_cast; rfl

theorem denIn_cast (k : Coef4) (v : ℚ) : k.denIn (v : K) = ((k.denAt v : ℚ) : K) := by
  unfold denIn denAt; push_cast; rfl

theorem valIn_cast (k : Coef4) (v : ℚ) : k.valIn (v : K) = ((k.val v : ℚ) : K) := by
  rw [valIn, numIn_cast, denIn_cast, val_eq]; push_cast; rfl

private theorem red_pos_in {k k' : Coef4} {r} {v : K} (h0 : 0 < v) (h1 : v < 1) (hp : PosW k)
    (hn : ¬(k.n = 0 ∧ k.n + k.nx = 0)) (h : ReductionRel k r k') :
    r = symIn (k.valIn v) ∧ k'.valIn v = nextIn (k.valIn v) := by
  have hd := hp.denIn_pos h0 h1
  have hnum := hp.numIn_pos hn h0 h1
  rcases h with ⟨rfl, rfl, e1, e2⟩ | ⟨rfl, ⟨c, hc, a1, a2, a3, a4⟩, e1, e2, e3⟩ | ⟨rfl, rfl, e1, e2, e3⟩
  · have e1' : (k'.d : K) = 2 * k'.n := by exact_mod_cast e1.symm
    have e2' : (k'.dx : K) = 2 * k'.nx := by
      have : k'.dx = 2 * k'.nx := by omega
      exact_mod_cast this
    have hv : k'.valIn v = 1 / 2 := by
      rw [valIn]
      have : k'.denIn v = 2 * k'.numIn v := by unfold denIn numIn; rw [e1', e2']; ring
      rw [this]; field_simp
    rw [hv, symIn_half, nextIn_half]
    exact ⟨rfl, rfl⟩
  · have hlt : k.valIn v < 1 / 2 := by
      rw [valIn, div_lt_div_iff₀ hd (by norm_num)]
      have := lin_pos_in (a := k.dx - 2 * k.nx) (b := k.d - 2 * k.n) h0 h1 (by omega) (by omega)
        (by omega)
      unfold numIn denIn
      push_cast at this
      linarith
    refine ⟨(symIn_lt hlt).symm, ?_⟩
    rw [nextIn_lt hlt]
    have hc' : (c : K) ≠ 0 := cast_ne hc
    have a1' : (c : K) * k'.n = 2 * k.n := by exact_mod_cast a1
    have a2' : (c : K) * k'.nx = 2 * k.nx := by exact_mod_cast a2
    have a3' : (c : K) * k'.d = k.d := by exact_mod_cast a3
    have a4' : (c : K) * k'.dx = k.dx := by exact_mod_cast a4
    unfold valIn numIn denIn
    rw [← mul_div_mul_left _ _ hc', ← mul_div_assoc]
    congr 1
    · linear_combination v * a2' + a1'
    · linear_combination v * a4' + a3'
  · have hgt : 1 / 2 < k.valIn v := by
      rw [valIn, div_lt_div_iff₀ (by norm_num) hd]
      have := lin_pos_in (a := 2 * k.nx - k.dx) (b := 2 * k.n - k.d) h0 h1 (by omega) (by omega)
        (by omega)
      unfold numIn denIn
      push_cast at this
      linarith
    refine ⟨(symIn_gt hgt).symm, ?_⟩
    rw [nextIn_gt hgt]
    have hne : k.numIn v ≠ 0 := hnum.ne'
    rw [show k.valIn v = k.numIn v / k.denIn v from rfl, one_div_div, div_sub_one hne]
    unfold valIn numIn denIn
    push_cast
    congr 1; ring

theorem red_step_in {k k' : Coef4} {r} {v : K} (h0 : 0 < v) (h1 : v < 1)
    (hn : ¬(k.n = 0 ∧ k.n + k.nx = 0))
    (h : (PosW k ∧ ReductionRel k r k') ∨ (PosW k.opp ∧ ReductionRel k.opp r k'.opp)) :
    r = symIn (k.valIn v) ∧ k'.valIn v = nextIn (k.valIn v) := by
  rcases h with ⟨hp, hr⟩ | ⟨hp, hr⟩
  · exact red_pos_in h0 h1 hp hn hr
  · have := red_pos_in h0 h1 hp (by simp only [Coef4.opp]; omega) hr
    rwa [valIn_opp, valIn_opp] at this

omit [LinearOrder K] [IsStrictOrderedRing K] in
theorem PrimerRel.valIn {k : Coef4} {p k'} (h : PrimerRel k p k') (v : K) :
    k.valIn v = primerIn p (k'.valIn v) := by
  rcases h with ⟨rfl, rfl⟩ | ⟨rfl, rfl⟩ | ⟨rfl, rfl⟩ | ⟨rfl, rfl⟩ <;>
    simp only [primerIn, Coef4.valIn, numIn, denIn]
  · rw [one_div_div, ← div_neg]
    congr 1
    push_cast; ring
  · rw [one_div_div]
  · rw [← neg_div]
    congr 1
    push_cast; ring

end

/-- Every map has a bound. -/
theorem exists_bounded (k : Coef4) : ∃ M, k.Bounded M := by
  refine ⟨1 + |k.n| + |k.n + k.nx| + |k.d| + |k.d + k.dx|, ?_⟩
  have a1 := abs_le.1 (le_refl |k.n|)
  have a2 := abs_le.1 (le_refl |k.n + k.nx|)
  have a3 := abs_le.1 (le_refl |k.d|)
  have a4 := abs_le.1 (le_refl |k.d + k.dx|)
  have := abs_nonneg k.n
  have := abs_nonneg (k.n + k.nx)
  have := abs_nonneg k.d
  have := abs_nonneg (k.d + k.dx)
  constructor <;> omega

end Coef4

end Clarith
