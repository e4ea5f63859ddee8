import Verif.Properties.Beyond
import Verif.Properties.Same
import Verif.Proofs.Hang
import Verif.Proofs.SessionField
import Mathlib.NumberTheory.Real.Irrational

/-! # A panic on reading is not lost in a result (C94)

A number whose reading panics before its end has no value.  A result that depends on it cannot be read to
its end either: arithmetic does not make a broken number whole. -/

namespace Clarith

open Spec Out

/-! ## Specification -/

/-- Reading the number gives some symbols, and then a panic. -/
def Spec.BreaksOff (cfg : Cfg) : Number → Prop
  | .Special _ => False
  | .Other _ c => ∃ l d p, Gives cfg c l d ∧ Panics (fun f => Clog.egest cfg f d) p

/-- The number is not a special one, and no calls of `egest` that return contain the answer `None`. -/
def Spec.NeverEnds (cfg : Cfg) : Number → Prop
  | .Special _ => False
  | .Other _ c => ∀ k s c', Returns (fun f => Clog.egests cfg f k c) (s, c') → none ∉ s

/-! ## Proof -/

namespace Broken

variable {cfg : Cfg}

/-- A clog that panics follows everything. -/
theorem follows_panic {d : Clog} {p : Panic} (h : Panics (fun f => Clog.egest cfg f d) p) {w : ℝ}
    (h0 : 0 < w) (h1 : w < 1) : Clog.Follows cfg AnyPanic d w := by
  refine Clog.Follows.coind (fun c x => c = d ∧ 0 < x ∧ x < 1) ?_ ⟨rfl, h0, h1⟩
  rintro c x ⟨rfl, h0, h1⟩
  refine ⟨h0, h1, fun f => ?_⟩
  have : Ends AnyPanic (fun f => Clog.egest cfg f c) fun _ => False := .inr ⟨p, h, trivial⟩
  exact (may_iff.1 (this.may (Clog.egest_mono cfg c)) f).mono fun _ h => h.elim

theorem follows_cons {c d : Clog} {r : Reduction} (h : Returns (fun f => Clog.egest cfg f c) (some r, d))
    {w v : ℝ} (hd : Clog.Follows cfg AnyPanic d w) (h0 : 0 < v) (h1 : v < 1) (hs : symIn v = some r)
    (hn : nextIn v = w) : Clog.Follows cfg AnyPanic c v := by
  refine Clog.Follows.coind
    (fun c' x => Clog.Follows cfg AnyPanic c' x ∨ (c' = c ∧ x = v)) ?_ (.inr ⟨rfl, rfl⟩)
  rintro c' x (hf | ⟨rfl, rfl⟩)
  · exact ⟨hf.1, hf.2.1, fun f => (hf.step f).mono fun _ h => ⟨h.1, .inl h.2⟩⟩
  · refine ⟨h0, h1, fun f => ?_⟩
    have : Ends AnyPanic (fun f => Clog.egest cfg f c') fun r => r.1 = symIn x ∧
        (Clog.Follows cfg AnyPanic r.2 (nextIn x) ∨ (r.2 = c' ∧ nextIn x = x)) :=
      .inl ⟨_, h, hs.symm, .inl (hn ▸ hd)⟩
    refine (may_iff.1 (this.may (Clog.egest_mono cfg c')) f).mono ?_
    rintro a ⟨h, h'⟩
    exact ⟨h, h'⟩

theorem follows_irrational {c d : Clog} {l : List Reduction} {p : Panic} (h : Gives cfg c l d)
    (hp : Panics (fun f => Clog.egest cfg f d) p) :
    ∃ w : ℝ, Irrational w ∧ Clog.Follows cfg AnyPanic c w := by
  induction l generalizing c with
  | nil =>
    rw [Gives.nil_eq h] at hp
    refine ⟨√2 - 1, by exact_mod_cast irrational_sqrt_two.sub_natCast 1, follows_panic hp ?_ ?_⟩
    · have := Real.one_lt_sqrt_two
      linarith
    · have := Real.sqrt_lt_sqrt (x := 2) (y := 4) (by norm_num) (by norm_num)
      rw [show (4 : ℝ) = 2 ^ 2 by norm_num, Real.sqrt_sq (by norm_num)] at this
      linarith
  | cons r l ih =>
    obtain ⟨c1, h1, h2⟩ := Gives.uncons h
    obtain ⟨w, hw, hf⟩ := ih h2
    have w0 := hf.1
    have w1 := hf.2.1
    cases r with
    | Amplify =>
      refine ⟨w / 2, ?_, follows_cons h1 hf (by linarith) (by linarith) (symIn_lt (by linarith)) ?_⟩
      · exact_mod_cast hw.div_natCast (m := 2) (by norm_num)
      · rw [nextIn_lt (by linarith)]; ring
    | Uncover =>
      have g : 1 / 2 < (1 + w)⁻¹ := by
        rw [← one_div]
        exact one_div_lt_one_div_of_lt (by linarith) (by linarith)
      refine ⟨(1 + w)⁻¹, ?_, follows_cons h1 hf (by positivity) (inv_lt_one_of_one_lt₀ (by linarith))
        (symIn_gt g) ?_⟩
      · exact irrational_inv_iff.2 (by exact_mod_cast hw.natCast_add 1)
      · rw [nextIn_gt g, one_div, inv_inv]; ring

theorem irrational_primer {p : Option Primer} {w : ℝ} : Irrational (primerIn p w) ↔ Irrational w := by
  rcases p with _ | (_ | _ | _) <;> simp [primerIn]

/-- An irrational number has no end. -/
theorem none_not_mem {w : ℝ} (hw : Irrational w) (k : Nat) : none ∉ symbolsIn k w := by
  induction k generalizing w with
  | zero => simp [symbolsIn]
  | succ k ih =>
    rw [symbolsIn_succ, List.mem_cons, not_or]
    have hne : w ≠ 1 / 2 := by
      rintro rfl
      exact hw ⟨1 / 2, by norm_num⟩
    refine ⟨fun h => hne (symIn_eq_none.1 h.symm), ih ?_⟩
    rcases lt_or_gt_of_ne hne with h | h
    · rw [nextIn_lt h]
      exact_mod_cast hw.natCast_mul (m := 2) (by norm_num)
    · rw [nextIn_gt h, one_div]
      exact_mod_cast (irrational_inv_iff.2 hw).sub_natCast 1

theorem never_ends {A : Panic → Prop} {n : Number} {w : ℝ} (h : Number.Follows cfg A n w) (hw : Irrational w) :
    NeverEnds cfg n := by
  cases n with
  | Special s =>
    have e : w = specialIn ℝ s := h
    subst e
    cases s <;> simp [specialIn] at hw
  | Other p c =>
    obtain ⟨x, hx, rfl⟩ := h
    rw [irrational_primer] at hw
    rintro k s c' ⟨f, hf⟩
    have := (hx.2.2 k f).1 _ (hf f le_rfl)
    simp only at this
    rw [this]
    exact none_not_mem hw k

theorem breaksOff_follows {x : Number} (h : BreaksOff cfg x) :
    ∃ w : ℝ, Irrational w ∧ Number.Follows cfg AnyPanic x w := by
  cases x with
  | Special s => exact h.elim
  | Other p c =>
    obtain ⟨l, d, q, hg, hp⟩ := h
    obtain ⟨w, hw, hf⟩ := follows_irrational hg hp
    exact ⟨primerIn p w, irrational_primer.2 hw, w, hf, rfl⟩

/-- A clog that breaks off follows at least three fractions. -/
theorem follows_three {c d : Clog} {l : List Reduction} {p : Panic} (h : Gives cfg c l d)
    (hp : Panics (fun f => Clog.egest cfg f d) p) :
    ∃ t : Fin 3 → ℚ, Function.Injective t ∧ ∀ i, Clog.Follows cfg AnyPanic c (t i : ℝ) := by
  induction l generalizing c with
  | nil =>
    rw [Gives.nil_eq h] at hp
    refine ⟨fun i => 1 / ((i : ℕ) + 2), fun i j h => ?_, fun i => follows_panic hp ?_ ?_⟩
    · simp only [one_div, inv_inj, add_left_inj, Nat.cast_inj] at h
      exact Fin.ext h
    · push_cast
      positivity
    · push_cast
      rw [div_lt_one (by positivity)]
      have : (0 : ℝ) ≤ (i : ℕ) := by positivity
      linarith
  | cons r l ih =>
    obtain ⟨c1, h1, h2⟩ := Gives.uncons h
    obtain ⟨t, ht, hf⟩ := ih h2
    cases r with
    | Amplify =>
      refine ⟨fun i => t i / 2, fun i j h => ht ?_, fun i => ?_⟩
      · simpa using h
      · have w0 := (hf i).1
        have w1 := (hf i).2.1
        push_cast
        refine follows_cons h1 (hf i) (by linarith) (by linarith) (symIn_lt (by linarith)) ?_
        rw [nextIn_lt (by linarith)]; ring
    | Uncover =>
      refine ⟨fun i => (1 + t i)⁻¹, fun i j h => ht ?_, fun i => ?_⟩
      · simpa using h
      · have w0 := (hf i).1
        have w1 := (hf i).2.1
        push_cast
        have g : 1 / 2 < (1 + (t i : ℝ))⁻¹ := by
          rw [← one_div]
          exact one_div_lt_one_div_of_lt (by linarith) (by linarith)
        refine follows_cons h1 (hf i) (by positivity) (inv_lt_one_of_one_lt₀ (by linarith)) (symIn_gt g) ?_
        rw [nextIn_gt g, one_div, inv_inv]; ring

theorem primer_inj (p : Option Primer) {v w : ℚ} (h : applyPrimer p v = applyPrimer p w) : v = w := by
  rcases p with _ | (_ | _ | _) <;> simpa [applyPrimer] using h

/-- A polynomial of degree two with three zeros is zero. -/
theorem quadratic {a b c : ℚ} {t : Fin 3 → ℚ} (ht : Function.Injective t)
    (h : ∀ i, a * t i ^ 2 + b * t i + c = 0) : a = 0 ∧ b = 0 ∧ c = 0 := by
  have h0 := h 0
  have h1 := h 1
  have h2 := h 2
  have n1 : t 0 - t 1 ≠ 0 := sub_ne_zero.2 fun e => absurd (ht e) (by decide)
  have n2 : t 0 - t 2 ≠ 0 := sub_ne_zero.2 fun e => absurd (ht e) (by decide)
  have n3 : t 1 - t 2 ≠ 0 := sub_ne_zero.2 fun e => absurd (ht e) (by decide)
  have e1 : a * (t 0 + t 1) + b = 0 := (mul_eq_zero.1
    (show (t 0 - t 1) * (a * (t 0 + t 1) + b) = 0 by linear_combination h0 - h1)).resolve_left n1
  have e2 : a * (t 0 + t 2) + b = 0 := (mul_eq_zero.1
    (show (t 0 - t 2) * (a * (t 0 + t 2) + b) = 0 by linear_combination h0 - h2)).resolve_left n2
  have ea : a = 0 := (mul_eq_zero.1 (show (t 1 - t 2) * a = 0 by linear_combination e1 - e2)).resolve_left n3
  subst ea
  have eb : b = 0 := by linarith
  subst eb
  exact ⟨rfl, rfl, by linarith⟩

/-- A number that breaks off follows a fraction that is not a zero of a polynomial of degree two. -/
theorem follows_fraction {x : Number} (h : BreaksOff cfg x) {a b c : ℚ} (h0 : ∃ q, a * q ^ 2 + b * q + c ≠ 0) :
    ∃ q : ℚ, Number.Follows cfg AnyPanic x (q : ℝ) ∧ a * q ^ 2 + b * q + c ≠ 0 := by
  cases x with
  | Special s => exact h.elim
  | Other p cl =>
    obtain ⟨l, d, e, hg, hp⟩ := h
    obtain ⟨t, ht, hf⟩ := follows_three hg hp
    by_contra hn
    obtain ⟨q, hq⟩ := h0
    obtain ⟨rfl, rfl, rfl⟩ := quadratic (t := fun i => applyPrimer p (t i)) (fun i j h => ht (primer_inj p h))
      (a := a) (b := b) (c := c) (fun i => by
        by_contra hi
        refine hn ⟨applyPrimer p (t i), ⟨t i, hf i, ?_⟩, hi⟩
        rcases p with _ | (_ | _ | _) <;> simp [applyPrimer, primerIn])
    simp at hq

theorem denominator {C D : ℚ} (h : C ≠ 0 ∨ D ≠ 0) {w : ℝ} (hw : Irrational w) : (C : ℝ) * w + D ≠ 0 := by
  intro e
  by_cases hC : C = 0
  · subst hC
    simp at e
    simp [e] at h
  · exact hw ⟨-D / C, by
      have : (C : ℝ) ≠ 0 := by exact_mod_cast hC
      push_cast
      field_simp
      linarith⟩

theorem irrational_map {A B C D : ℚ} (hdet : A * D - B * C ≠ 0) {w : ℝ} (hw : Irrational w) :
    Irrational ((A * w + B) / (C * w + D)) := by
  have hd : (C : ℝ) * w + D ≠ 0 := denominator (by
    by_contra h
    rw [not_or, not_not, not_not] at h
    rw [h.1, h.2] at hdet
    simp at hdet) hw
  rintro ⟨r, hr⟩
  rw [eq_div_iff hd] at hr
  refine denominator (C := r * C - A) (D := r * D - B) ?_ hw (by push_cast; linarith)
  by_contra h
  rw [not_or, not_not, not_not] at h
  apply hdet
  rw [show A = r * C by linarith [h.1], show B = r * D by linarith [h.2]]
  ring

theorem map_ne {A B C D : ℚ} (hdet : A * D - B * C ≠ 0) : C ≠ 0 ∨ D ≠ 0 := by
  by_contra h
  rw [not_or, not_not, not_not] at h
  rw [h.1, h.2] at hdet
  simp at hdet

theorem returned {A : Panic → Prop} {α : Type} {m : Nat → Out α} {P : α → Prop} (h : May A m P) {a : α}
    (ha : Returns m a) : P a := by
  obtain ⟨f, hf⟩ := ha
  exact (h f).1 a (hf f le_rfl)

theorem homographic_follows (hc : cfg.overflowChecks = true) {x : Number} {w : ℝ} (hw : Irrational w)
    (hx : Number.Follows cfg AnyPanic x w) {nx n dx d : Int} (H : MachineInts cfg [nx, n, dx, d])
    (hdet : nx * d - n * dx ≠ 0) {r : Number}
    (hr : Returns (fun f => Number.homographic cfg f x nx n dx d) r) :
    ∃ v : ℝ, Irrational v ∧ Number.Follows cfg AnyPanic r v := by
  simp only [MachineInts, List.forall_mem_cons] at H
  obtain ⟨h1, h2, h3, h4, -⟩ := H
  have hdet' : (nx : ℚ) * (d : ℚ) - n * dx ≠ 0 := by exact_mod_cast hdet
  have hD : (dx : ℝ) * w + d ≠ 0 := by exact_mod_cast denominator (map_ne hdet') hw
  refine ⟨_, ?_, returned (C54_homographic cfg hc AnyPanic (fun _ _ => trivial) x w hx nx n dx d h1 h2 h3 h4 hD) hr⟩
  exact_mod_cast irrational_map hdet' hw

/-- The panic of `egests` is one of `egest`. -/
theorem panics_after {c d : Clog} {l : List Reduction} {p : Panic} (h : Gives cfg c l d)
    (hp : Panics (fun f => Clog.egests cfg f (l.length + 1) c) p) :
    Panics (fun f => Clog.egest cfg f d) p := by
  induction l generalizing c with
  | nil =>
    obtain ⟨f₀, hp⟩ := hp
    rw [Gives.nil_eq h]
    refine ⟨f₀, fun f hf => ?_⟩
    have : Clog.egests cfg f 1 c = .panic p := hp f hf
    rw [egests_succ] at this
    show Clog.egest cfg f c = _
    cases e : Clog.egest cfg f c with
    | ok a => rw [e] at this; cases this
    | panic q => rw [e] at this; cases this; rfl
    | timeout => rw [e] at this; cases this
  | cons r l ih =>
    obtain ⟨c1, ⟨f₁, h1⟩, h2⟩ := Gives.uncons h
    obtain ⟨f₀, hp⟩ := hp
    refine ih h2 ⟨f₀ + f₁, fun f hf => ?_⟩
    have : Clog.egests cfg f (l.length + 1 + 1) c = .panic p := hp f (by omega)
    have e : Clog.egest cfg f c = .ok (some r, c1) := h1 f (by omega)
    rw [egests_succ, e, ok_bind] at this
    show Clog.egests cfg f (l.length + 1) c1 = _
    cases e : Clog.egests cfg f (l.length + 1) c1 with
    | ok a => simp only [e, ok_bind] at this; cases this
    | panic q => simp only [e] at this; exact this
    | timeout => simp only [e] at this; cases this

end Broken

/-! ## Examples used below -/

open Broken

/-- What `homographic` returns for 255 + 1 with 64 bits. -/
def Broken.sum : Number := .Other (some .Turn) (.homographic (.ratio ⟨1, 255⟩) ⟨1, 0, 1, 1⟩)

theorem Broken.sum_returned :
    Returns (fun f => Number.homographic debug64 f (.Other (some .Turn) (.ratio ⟨1, 255⟩)) 1 1 0 1) sum :=
  ⟨1, fun f hf => by
    obtain ⟨f, rfl⟩ : ∃ i, f = i + 1 := ⟨f - 1, by omega⟩
    rfl⟩

theorem Broken.sum_breaks : BreaksOff debug64 sum :=
  ⟨List.replicate 7 .Amplify, .homographic (.ratio ⟨128, 255⟩) ⟨128, 0, 1, 128⟩, .unwrapNone,
    FuelMono.returns (Clog.egests_mono _ _ _) 30 (by decide +kernel),
    FuelMono.panics (Clog.egest_mono _ _) 60 (by decide +kernel)⟩

/-! ## C94 -/

variable (cfg : Cfg) (hc : cfg.overflowChecks = true) (x y : Number) (hx : BreaksOff cfg x)

include hc hx

/-- `homographic` of a number that breaks off, for a map that is not constant: if it returns a number, this
number does not end. -/
theorem C94_homographic (nx n dx d : Int) (H : MachineInts cfg [nx, n, dx, d])
    (hdet : nx * d - n * dx ≠ 0) (r : Number)
    (hr : Returns (fun f => Number.homographic cfg f x nx n dx d) r) : NeverEnds cfg r := by
  obtain ⟨w, hw, hf⟩ := breaksOff_follows hx
  obtain ⟨v, hv, h⟩ := homographic_follows hc hw hf H hdet hr
  exact never_ends h hv

/-- Once more one. -/
example := C94_homographic debug64 rfl sum sum_breaks 1 1 0 1 (by unfold MachineInts; decide) (by decide)

/-- `combine` of a number that breaks off with a number of value `q`, for a map that is not constant in the
first operand beside `q`. -/
theorem C94_combine_first (A : Panic → Prop) (q : ℚ) (hy : Number.Denotes cfg A y q)
    (nxy nx ny n dxy dx dy d : Int) (H : MachineInts cfg [nxy, nx, ny, n, dxy, dx, dy, d])
    (hdet : (nxy * q + nx) * (dy * q + d) - (ny * q + n) * (dxy * q + dx) ≠ 0) (r : Number)
    (hr : Returns (fun f => Number.combine cfg f x y nxy nx ny n dxy dx dy d) r) : NeverEnds cfg r := by
  obtain ⟨w, hw, hf⟩ := breaksOff_follows hx
  have hy' : Number.Follows cfg AnyPanic y (q : ℝ) := hy.follows.weaken fun _ _ => trivial
  have hD := denominator (map_ne hdet) hw
  push_cast at hD
  refine never_ends (returned (C54_combine cfg hc AnyPanic (fun _ _ => trivial) x y w (q : ℝ) hf hy' nxy nx ny n dxy
    dx dy d H (by convert hD using 1; ring)) hr) ?_
  have := irrational_map hdet hw
  push_cast at this
  convert this using 1
  congr 1 <;> ring

/-- The difference with 3/5. -/
example := C94_combine_first debug64 rfl sum _ sum_breaks _ _ (denotes_three_fifths _ NoPanic) 0 1 (-1) 0 0 0 0 1
  (by unfold MachineInts; decide) (by norm_num)

/-- The same when the number that breaks off is the second operand. -/
theorem C94_combine_second (A : Panic → Prop) (q : ℚ) (hy : Number.Denotes cfg A y q)
    (nxy nx ny n dxy dx dy d : Int) (H : MachineInts cfg [nxy, nx, ny, n, dxy, dx, dy, d])
    (hdet : (nxy * q + ny) * (dx * q + d) - (nx * q + n) * (dxy * q + dy) ≠ 0) (r : Number)
    (hr : Returns (fun f => Number.combine cfg f y x nxy nx ny n dxy dx dy d) r) : NeverEnds cfg r := by
  obtain ⟨w, hw, hf⟩ := breaksOff_follows hx
  have hy' : Number.Follows cfg AnyPanic y (q : ℝ) := hy.follows.weaken fun _ _ => trivial
  have hD := denominator (map_ne hdet) hw
  push_cast at hD
  refine never_ends (returned (C54_combine cfg hc AnyPanic (fun _ _ => trivial) y x (q : ℝ) w hy' hf nxy nx ny n dxy
    dx dy d H (by convert hD using 1; ring)) hr) ?_
  have := irrational_map hdet hw
  push_cast at this
  convert this using 1
  congr 1 <;> ring

/-- -7/2 divided by it. -/
example := C94_combine_second debug64 rfl sum _ sum_breaks _ _ (denotes_minus_seven_halves _ NoPanic)
  0 1 0 0 0 0 1 0 (by unfold MachineInts; decide) (by norm_num)

/-- Both operands break off, and the map is not constant in the first operand. -/
theorem C94_combine_both (hy : BreaksOff cfg y)
    (nxy nx ny n dxy dx dy d : Int) (H : MachineInts cfg [nxy, nx, ny, n, dxy, dx, dy, d])
    (hdet : ∃ q : ℚ, (nxy * q + nx) * (dy * q + d) - (ny * q + n) * (dxy * q + dx) ≠ 0) (r : Number)
    (hr : Returns (fun f => Number.combine cfg f x y nxy nx ny n dxy dx dy d) r) : NeverEnds cfg r := by
  obtain ⟨w, hw, hf⟩ := breaksOff_follows hx
  obtain ⟨q, hy', hq⟩ := follows_fraction hy (a := nxy * dy - ny * dxy)
    (b := nxy * d + nx * dy - ny * dx - n * dxy) (c := nx * d - n * dx) (by
      obtain ⟨q, hq⟩ := hdet
      exact ⟨q, by convert hq using 1; ring⟩)
  replace hdet : (nxy * q + nx) * (dy * q + d) - (ny * q + n) * (dxy * q + dx) ≠ 0 := by
    convert hq using 1; ring
  have hD := denominator (map_ne hdet) hw
  push_cast at hD
  refine never_ends (returned (C54_combine cfg hc AnyPanic (fun _ _ => trivial) x y w (q : ℝ) hf hy' nxy nx ny n
    dxy dx dy d H (by convert hD using 1; ring)) hr) ?_
  have := irrational_map hdet hw
  push_cast at this
  convert this using 1
  congr 1 <;> ring

/-- The product of two of them. -/
example := C94_combine_both debug64 rfl sum sum sum_breaks sum_breaks 1 0 0 0 0 0 0 1
  (by unfold MachineInts; decide) ⟨1, by norm_num⟩

omit hc

/-- `compare` with a number of value `q` does not answer `Equal`. -/
theorem C94_compare (A : Panic → Prop) (q : ℚ) (hy : Number.Denotes cfg A y q) :
    ¬Returns (fun f => Number.compare cfg f x y) .eq ∧ ¬Returns (fun f => Number.compare cfg f y x) .eq := by
  obtain ⟨w, hw, hf⟩ := breaksOff_follows hx
  have hy' : Number.Follows cfg AnyPanic y (q : ℝ) := hy.follows.weaken fun _ _ => trivial
  constructor
  · intro h
    exact hw ⟨q, ((returned (C54_compare cfg AnyPanic x y w (q : ℝ) hf hy') h).2.1.1 rfl).symm⟩
  · intro h
    exact hw ⟨q, (returned (C54_compare cfg AnyPanic y x (q : ℝ) w hy' hf) h).2.1.1 rfl⟩

example := C94_compare debug64 sum _ sum_breaks _ _ (denotes_three_fifths _ NoPanic)

/-- Nor does it for two numbers that break off. -/
theorem C94_compare_both (hy : BreaksOff cfg y) : ¬Returns (fun f => Number.compare cfg f x y) .eq := by
  obtain ⟨w, hw, hf⟩ := breaksOff_follows hx
  obtain ⟨q, hy', -⟩ := follows_fraction hy (a := 0) (b := 0) (c := 1) ⟨0, by norm_num⟩
  intro h
  exact hw ⟨q, ((returned (C54_compare cfg AnyPanic x y w (q : ℝ) hf hy') h).2.1.1 rfl).symm⟩

example := C94_compare_both debug64 sum sum sum_breaks sum_breaks

/-- `consume`: if it returns, there is a rest, and it does not end. -/
theorem C94_consume (r : Option Number × Coef4) (hr : Returns (fun f => Number.consume cfg f x) r) :
    ∃ z, r.1 = some z ∧ NeverEnds cfg z := by
  obtain ⟨w, hw, hf⟩ := breaksOff_follows hx
  obtain ⟨v, h1, -, h3⟩ := returned (C54_consume cfg AnyPanic x w hf) hr
  have hv : Irrational v := by
    rintro ⟨t, rfl⟩
    exact hw ⟨(r.2.nx * t + r.2.n) / (r.2.dx * t + r.2.d), by rw [← h3]; push_cast; rfl⟩
  rcases h : r.1 with _ | z
  · rw [h] at h1
    subst h1
    exact absurd ⟨1 / 2, by norm_num⟩ hv
  · rw [h] at h1
    exact ⟨z, rfl, never_ends h1 hv⟩

example := C94_consume debug64 sum sum_breaks

end Clarith
