import Verif.Proofs.Reads8
import Verif.Properties.Reads
import Verif.Properties.Combine

/-! # How far `Number::combine` reads its operands (C60)

For any two operands that are not special, whatever they denote and whether they denote anything,
and for any eight coefficients.  `combine` reads its operands in pairs, a symbol of `x` and then a
symbol of `y`.  After reading the symbols `lx` and `ly` all it knows is that the operands are
numbers with these first symbols.  The primer and the first symbols of the result are *clear* from
`lx` and `ly` when they are the same for all these operands, and stay a fixed distance away from the
borders between different answers.  They come out as soon as they are clear, and not before.

This is less than `homographic` does (C59): there an answer comes out when it is the same for all
operands, even when the values come as close to a border as one likes. -/

namespace Clarith

open Spec Out

/-! ## Specification

`Spec.Clear δ l u`: `u` has the first symbols `l`, and `u` and what is left of it after each of these
symbols is at least `δ` away from 0 and from 1. -/

/-- For all operands with primers `px`, `py` whose symbols begin with `lx`, `ly`, the value of the map
is a number with primer `p'` whose first symbols are `out`, and this stays `δ` away from changing.
(The size of the denominator is taken relative to that of the operands.) -/
def Spec.ClearlySettled (px py : Option Primer) (nxy nx ny n dxy dx dy d : Int)
    (lx ly : List Reduction) (p' : Option Primer) (out : List Reduction) : Prop :=
  ∃ δ : ℚ, 0 < δ ∧ ∀ s t x y : ℚ, Begins lx s → Begins ly t → x = applyPrimer px s →
    y = applyPrimer py t →
    δ * (max 1 |x| * max 1 |y|) ≤ |dxy * x * y + dx * x + dy * y + d| ∧
    ∃ u, (nxy * x * y + nx * x + ny * y + n) / (dxy * x * y + dx * x + dy * y + d) =
      applyPrimer p' u ∧ Clear δ out u

/-! ## Proof -/

namespace Coef8

private theorem primer_size (p : Option Primer) {u : ℚ} (u0 : 0 < u) (u1 : u < 1) :
    ((p = none ∨ p = some .Reflect) → max 1 |applyPrimer p u| = 1) ∧
    ((p = some .Turn ∨ p = some .Ground) → max 1 |applyPrimer p u| = 1 / u) := by
  have h1 : 1 ≤ 1 / u := by rw [le_div_iff₀ u0]; linarith
  constructor
  · rintro (rfl | rfl)
    · simp only [applyPrimer]; rw [abs_of_pos u0, max_eq_left u1.le]
    · simp only [applyPrimer]; rw [abs_neg, abs_of_pos u0, max_eq_left u1.le]
  · rintro (rfl | rfl)
    · simp only [applyPrimer]; rw [abs_of_pos (by positivity), max_eq_right h1]
    · simp only [applyPrimer]; rw [abs_neg, abs_of_pos (by positivity), max_eq_right h1]

theorem AbsX.size {p} {k k' : Coef8} (h : AbsX p k k') {u : ℚ} (u0 : 0 < u) (u1 : u < 1) (v : ℚ) :
    ∃ c : ℚ, |c| * max 1 |applyPrimer p u| = 1 ∧ k'.numAt u v = c * k.numAt (applyPrimer p u) v ∧
      k'.denAt u v = c * k.denAt (applyPrimer p u) v := by
  have hu' := u0.ne'
  obtain ⟨s1, s2⟩ := primer_size p u0 u1
  rcases h with ⟨rfl, rfl⟩ | ⟨rfl, rfl⟩ | ⟨rfl, rfl⟩ | ⟨rfl, rfl⟩
  · exact ⟨1, by rw [s1 (.inl rfl)]; simp, by simp [applyPrimer], by simp [applyPrimer]⟩
  · refine ⟨u, by rw [s2 (.inl rfl), abs_of_pos u0, mul_one_div_cancel hu'], ?_, ?_⟩ <;>
      simp only [applyPrimer, numAt, denAt] <;> field_simp <;> ring
  · refine ⟨1, by rw [s1 (.inr rfl)]; simp, ?_, ?_⟩ <;>
      simp only [applyPrimer, numAt, denAt] <;> push_cast <;> ring
  · refine ⟨-u, by rw [s2 (.inr rfl), abs_neg, abs_of_pos u0, mul_one_div_cancel hu'], ?_, ?_⟩ <;>
      simp only [applyPrimer, numAt, denAt] <;> push_cast <;> field_simp <;> ring

theorem AbsY.size {p} {k k' : Coef8} (h : AbsY p k k') {v : ℚ} (v0 : 0 < v) (v1 : v < 1) (u : ℚ) :
    ∃ c : ℚ, |c| * max 1 |applyPrimer p v| = 1 ∧ k'.numAt u v = c * k.numAt u (applyPrimer p v) ∧
      k'.denAt u v = c * k.denAt u (applyPrimer p v) := by
  have hv' := v0.ne'
  obtain ⟨s1, s2⟩ := primer_size p v0 v1
  rcases h with ⟨rfl, rfl⟩ | ⟨rfl, rfl⟩ | ⟨rfl, rfl⟩ | ⟨rfl, rfl⟩
  · exact ⟨1, by rw [s1 (.inl rfl)]; simp, by simp [applyPrimer], by simp [applyPrimer]⟩
  · refine ⟨v, by rw [s2 (.inl rfl), abs_of_pos v0, mul_one_div_cancel hv'], ?_, ?_⟩ <;>
      simp only [applyPrimer, numAt, denAt] <;> field_simp <;> ring
  · refine ⟨1, by rw [s1 (.inr rfl)]; simp, ?_, ?_⟩ <;>
      simp only [applyPrimer, numAt, denAt] <;> push_cast <;> ring
  · refine ⟨-v, by rw [s2 (.inr rfl), abs_neg, abs_of_pos v0, mul_one_div_cancel hv'], ?_, ?_⟩ <;>
      simp only [applyPrimer, numAt, denAt] <;> push_cast <;> field_simp <;> ring

/-- Clear for the user's coefficients, and clear for those after absorbing the primers. -/
theorem clear_absorbed {px py : Option Primer} {k k1 k2 : Coef8} (hx : AbsX px k k1)
    (hy : AbsY py k1 k2) {lx ly p' out} :
    ClearlySettled px py k.a k.b k.c k.d k.e k.f k.g k.h lx ly p' out ↔ k2.IsClear lx ly p' out := by
  have key : ∀ s t : ℚ, 0 < s → s < 1 → 0 < t → t < 1 → ∃ c : ℚ,
      |c| * (max 1 |applyPrimer px s| * max 1 |applyPrimer py t|) = 1 ∧
      k2.numAt s t = c * k.numAt (applyPrimer px s) (applyPrimer py t) ∧
      k2.denAt s t = c * k.denAt (applyPrimer px s) (applyPrimer py t) := by
    intro s t s0 s1 t0 t1
    obtain ⟨c, h1, h2, h3⟩ := hy.size t0 t1 s
    obtain ⟨c', h1', h2', h3'⟩ := hx.size s0 s1 (applyPrimer py t)
    refine ⟨c * c', ?_, by rw [h2, h2']; ring, by rw [h3, h3']; ring⟩
    rw [abs_mul]
    calc |c| * |c'| * (max 1 |applyPrimer px s| * max 1 |applyPrimer py t|)
        = (|c| * max 1 |applyPrimer py t|) * (|c'| * max 1 |applyPrimer px s|) := by ring
      _ = 1 := by rw [h1, h1', one_mul]
  have iff : ∀ δ s t : ℚ, 0 < s → s < 1 → 0 < t → t < 1 →
      ((δ * (max 1 |applyPrimer px s| * max 1 |applyPrimer py t|) ≤
          |k.denAt (applyPrimer px s) (applyPrimer py t)| ↔ δ ≤ |k2.denAt s t|) ∧
        k.val (applyPrimer px s) (applyPrimer py t) = k2.val s t) := by
    intro δ s t s0 s1 t0 t1
    obtain ⟨c, h1, h2, h3⟩ := key s t s0 s1 t0 t1
    have hc : c ≠ 0 := fun e => by rw [e] at h1; simp at h1
    have hm : 0 < max 1 |applyPrimer px s| * max 1 |applyPrimer py t| := by
      have a1 : (0 : ℚ) < max 1 |applyPrimer px s| := lt_max_of_lt_left one_pos
      have a2 : (0 : ℚ) < max 1 |applyPrimer py t| := lt_max_of_lt_left one_pos
      positivity
    constructor
    · rw [h3, abs_mul, eq_div_of_mul_eq hm.ne' h1, div_mul_eq_mul_div, one_mul, le_div_iff₀ hm]
    · rw [val, val, h2, h3, mul_div_mul_left _ _ hc]
  constructor
  · rintro ⟨δ, hδ, h⟩
    refine ⟨δ, hδ, fun s t s0 s1 t0 t1 => ?_⟩
    have hs := unread_mem lx s0 s1
    have ht := unread_mem ly t0 t1
    obtain ⟨i1, i2⟩ := iff δ _ _ hs.1 hs.2 ht.1 ht.2
    obtain ⟨h1, h2⟩ := h _ _ _ _ ((symbols_iff_unread lx _).2 ⟨s, s0, s1, rfl⟩)
      ((symbols_iff_unread ly _).2 ⟨t, t0, t1, rfl⟩) rfl rfl
    rw [← i2]
    exact ⟨i1.1 h1, h2⟩
  · rintro ⟨δ, hδ, h⟩
    refine ⟨δ, hδ, ?_⟩
    rintro s t _ _ hs ht rfl rfl
    obtain ⟨s, s0, s1, rfl⟩ := (symbols_iff_unread lx s).1 hs
    obtain ⟨t, t0, t1, rfl⟩ := (symbols_iff_unread ly t).1 ht
    have hs := unread_mem lx s0 s1
    have ht := unread_mem ly t0 t1
    obtain ⟨i1, i2⟩ := iff δ _ _ hs.1 hs.2 ht.1 ht.2
    obtain ⟨h1, h2⟩ := h s t s0 s1 t0 t1
    rw [← i2] at h2
    exact ⟨i1.2 h1, h2⟩

end Coef8

/-- What is clear stays clear when more is known of the operands. -/
theorem Spec.ClearlySettled.more {px py nxy nx ny n dxy dx dy d} {lx lx' ly ly' : List Reduction}
    {p' out} (h : ClearlySettled px py nxy nx ny n dxy dx dy d lx ly p' out) :
    ClearlySettled px py nxy nx ny n dxy dx dy d (lx ++ lx') (ly ++ ly') p' out := by
  have hb : ∀ {l l' : List Reduction} {t : ℚ}, Begins (l ++ l') t → Begins l t := by
    intro l l' t ht
    obtain ⟨s, s0, s1, rfl⟩ := (symbols_iff_unread _ _).1 ht
    rw [unread_append]
    have hm := unread_mem l' s0 s1
    exact (symbols_iff_unread _ _).2 ⟨_, hm.1, hm.2, rfl⟩
  obtain ⟨δ, hδ, h⟩ := h
  exact ⟨δ, hδ, fun s t x y hs ht => h s t x y (hb hs) (hb ht)⟩

namespace Combine

/-- What `combine` does, at fuel `F`, on operands that give `lx`, `ly` and leave `x'`, `y'`. -/
def MakeReads (A : Panic → Prop) (M : Int) (cfg : Cfg) (F : Nat) (lx ly : List Reduction) (x x' y y' : Clog)
    (px py : Option Primer) (nxy nx ny n dxy dx dy d : Int) (o : Out Number) : Prop :=
  (∃ P, A P ∧ o = .panic P) ∨
  (∃ lx1 lx2 ly1 ly2 x1 y1 p1 k1, lx = lx1 ++ lx2 ∧ ly = ly1 ++ ly2 ∧ lx1.length = ly1.length ∧
    (Reads (Clog.egest cfg F) lx1 x x1 ∧ Reads (Clog.egest cfg F) lx2 x1 x') ∧
    (Reads (Clog.egest cfg F) ly1 y y1 ∧ Reads (Clog.egest cfg F) ly2 y1 y') ∧ Coef8.Inv k1 ∧
    k1.Bounded (M * 4 ^ lx1.length) ∧
    (∀ lx3 ly3 out, ClearlySettled px py nxy nx ny n dxy dx dy d (lx1 ++ lx3) (ly1 ++ ly3) p1 out ↔
      ∃ δ : ℚ, 0 < δ ∧ ∀ s t : ℚ, 0 < s → s < 1 → 0 < t → t < 1 →
        Clear δ out (k1.val (unread lx3 s) (unread ly3 t))) ∧
    (∀ lx3 ly3 p' out, ClearlySettled px py nxy nx ny n dxy dx dy d (lx1 ++ lx3) (ly1 ++ ly3) p' out →
      p' = p1) ∧
    o = .ok (.Other p1 (.combine x1 y1 k1))) ∨
  ((∀ p' out, ¬ClearlySettled px py nxy nx ny n dxy dx dy d lx ly p' out) ∧
    ∀ h, Halts (Clog.egest cfg F) x' y' h → (∃ P, A P ∧ o = .panic P) ∨ o = Out.stop h)

/-- Clear before and after the primer has been given. -/
theorem clear_after_primer {k : Coef8} {p : Option Primer} (hI : Coef8.Inv (Coef8.primed p k))
    {lx ly out} : k.IsClear lx ly p out ↔
      ∃ δ : ℚ, 0 < δ ∧ ∀ s t : ℚ, 0 < s → s < 1 → 0 < t → t < 1 →
        Clear δ out ((Coef8.primed p k).val (unread lx s) (unread ly t)) := by
  obtain ⟨δ0, hδ0, h0⟩ := Coef8.clear_primed hI
  constructor
  · rintro ⟨δ, hδ, h⟩
    refine ⟨δ, hδ, fun s t s0 s1 t0 t1 => ?_⟩
    have hs := unread_mem lx s0 s1
    have ht := unread_mem ly t0 t1
    obtain ⟨-, u, h2, h3⟩ := h s t s0 s1 t0 t1
    rw [(h0 _ _ hs.1 hs.2 ht.1 ht.2).2] at h2
    have := congrArg (applyPrimer p) h2
    rw [applyPrimer_invol, applyPrimer_invol] at this
    rw [this]
    exact h3
  · rintro ⟨δ, hδ, h⟩
    refine ⟨min δ δ0, lt_min hδ hδ0, fun s t s0 s1 t0 t1 => ?_⟩
    have hs := unread_mem lx s0 s1
    have ht := unread_mem ly t0 t1
    obtain ⟨a1, a2⟩ := h0 _ _ hs.1 hs.2 ht.1 ht.2
    exact ⟨(min_le_right _ _).trans a1, _, a2, (h s t s0 s1 t0 t1).mono (min_le_left _ _)⟩

theorem primer_unique {k : Coef8} {p p' : Option Primer} (hI : Coef8.Inv (Coef8.primed p k))
    {lx ly out} (h : k.IsClear lx ly p' out) : p' = p := by
  obtain ⟨δ0, -, h0⟩ := Coef8.clear_primed hI
  obtain ⟨δ, hδ, h⟩ := h
  have hs := unread_mem lx (s := 1 / 2) (by norm_num) (by norm_num)
  have ht := unread_mem ly (s := 1 / 2) (by norm_num) (by norm_num)
  obtain ⟨-, u, h2, h3⟩ := h (1 / 2) (1 / 2) (by norm_num) (by norm_num) (by norm_num) (by norm_num)
  rw [(h0 _ _ hs.1 hs.2 ht.1 ht.2).2] at h2
  have hv := hI.val_mem hs.1 hs.2 ht.1 ht.2
  have hm := h3.mem
  exact (applyPrimer_inj hv.1 hv.2 (by linarith) (by linarith) h2).1.symm

/-- Bounds on the coefficients the user gives. -/
structure Sums (k : Coef8) (M : Int) : Prop where
  pos : 1 ≤ M
  num : |k.a| + |k.b| + |k.c| + |k.d| ≤ M
  den : |k.e| + |k.f| + |k.g| + |k.h| ≤ M

theorem exists_sums (k : Coef8) : ∃ M, Sums k M := by
  refine ⟨1 + (|k.a| + |k.b| + |k.c| + |k.d|) + (|k.e| + |k.f| + |k.g| + |k.h|), ?_⟩
  have a1 := abs_nonneg k.a
  have a2 := abs_nonneg k.b
  have a3 := abs_nonneg k.c
  have a4 := abs_nonneg k.d
  have a5 := abs_nonneg k.e
  have a6 := abs_nonneg k.f
  have a7 := abs_nonneg k.g
  have a8 := abs_nonneg k.h
  constructor <;> omega

theorem Sums.within {k : Coef8} {M} (h : Sums k M) : k.Within M := by
  obtain ⟨h1, h2, h3⟩ := h
  have a1 := abs_le.1 (le_refl |k.a|)
  have a2 := abs_le.1 (le_refl |k.b|)
  have a3 := abs_le.1 (le_refl |k.c|)
  have a4 := abs_le.1 (le_refl |k.d|)
  have a5 := abs_le.1 (le_refl |k.e|)
  have a6 := abs_le.1 (le_refl |k.f|)
  have a7 := abs_le.1 (le_refl |k.g|)
  have a8 := abs_le.1 (le_refl |k.h|)
  constructor <;> omega

theorem Sums.bounded {k : Coef8} {M} (h : Sums k M) : k.Bounded M := by
  obtain ⟨h1, h2, h3⟩ := h
  have a1 := abs_le.1 (le_refl |k.a|)
  have a2 := abs_le.1 (le_refl |k.b|)
  have a3 := abs_le.1 (le_refl |k.c|)
  have a4 := abs_le.1 (le_refl |k.d|)
  have a5 := abs_le.1 (le_refl |k.e|)
  have a6 := abs_le.1 (le_refl |k.f|)
  have a7 := abs_le.1 (le_refl |k.g|)
  have a8 := abs_le.1 (le_refl |k.h|)
  constructor <;> omega

theorem Sums.absX {p} {k k' : Coef8} {M} (h : Sums k M) (ha : Coef8.AbsX p k k') : Sums k' M := by
  obtain ⟨h1, h2, h3⟩ := h
  rcases ha with ⟨_, rfl⟩ | ⟨_, rfl⟩ | ⟨_, rfl⟩ | ⟨_, rfl⟩ <;> refine ⟨h1, ?_, ?_⟩ <;>
    (try simp only [abs_neg]) <;> omega

theorem Sums.absY {p} {k k' : Coef8} {M} (h : Sums k M) (ha : Coef8.AbsY p k k') : Sums k' M := by
  obtain ⟨h1, h2, h3⟩ := h
  rcases ha with ⟨_, rfl⟩ | ⟨_, rfl⟩ | ⟨_, rfl⟩ | ⟨_, rfl⟩ <;> refine ⟨h1, ?_, ?_⟩ <;>
    (try simp only [abs_neg]) <;> omega

theorem make_reads {cfg : Cfg} {A} {F : Nat} {lx ly : List Reduction}
    {x x' y y' : Clog} {px py : Option Primer} {nxy nx ny n dxy dx dy d M : Int}
    (hw : Sums ⟨nxy, nx, ny, n, dxy, dx, dy, d⟩ M) (hsafe : cfg.SafeUpTo A (M * 4 ^ lx.length))
    (hF : lx.length < F) (hlen : lx.length = ly.length) (hlx : Reads (Clog.egest cfg F) lx x x')
    (hly : Reads (Clog.egest cfg F) ly y y') :
    MakeReads A M cfg F lx ly x x' y y' px py nxy nx ny n dxy dx dy d
      (Number.combine cfg F (.Other px x) (.Other py y) nxy nx ny n dxy dx dy d) := by
  simp only [Number.combine, Combine.new]
  set k : Coef8 := ⟨nxy, nx, ny, n, dxy, dx, dy, d⟩ with hk
  have hb := hw.within
  have hs := hsafe.head4 hw.pos
  have ha := Coef8.absorbPrimerX_sat px hs hb
  cases e : k.absorbPrimerX cfg px with
  | panic P => rw [e] at ha; exact .inl ⟨P, ha, rfl⟩
  | timeout => rw [e] at ha; exact ha.elim
  | ok k1 =>
    rw [e] at ha
    replace ha : Coef8.AbsX px k k1 := ha
    have hb1 := ha.within hb
    have ha' := Coef8.absorbPrimerY_sat py hs hb1
    simp only [ok_bind]
    cases e2 : k1.absorbPrimerY cfg py with
    | panic P => rw [e2] at ha'; exact .inl ⟨P, ha', rfl⟩
    | timeout => rw [e2] at ha'; exact ha'.elim
    | ok k2 =>
      rw [e2] at ha'
      replace ha' : Coef8.AbsY py k1 k2 := ha'
      have hcl : ∀ {lx ly p' out}, ClearlySettled px py nxy nx ny n dxy dx dy d lx ly p' out ↔
          k2.IsClear lx ly p' out := Coef8.clear_absorbed (k := k) ha ha'
      simp only [ok_bind]
      have h := prime_reads (F - lx.length - 1) lx (k := k2) hsafe
        ((hw.absX ha).absY ha').bounded hlen hlx hly
      rw [show F - lx.length - 1 + lx.length + 1 = F by omega] at h
      rcases h with ⟨P, hP, e'⟩ | ⟨lx1, lx2, ly1, ly2, x1, y1, k0, p1, e1, e2, e3, h1, h2, h3, hI, hb3,
        e'⟩ | ⟨h1, h2⟩
      · exact .inl ⟨P, hP, by simp only [e', panic_bind]⟩
      · refine .inr (.inl ⟨lx1, lx2, ly1, ly2, x1, y1, p1, _, e1, e2, e3, h1, h2, hI, hb3, ?_, ?_,
          by simp only [e', ok_bind]; rfl⟩)
        · intro lx3 ly3 out
          rw [hcl, ← h3.isClear]
          exact clear_after_primer hI
        · intro lx3 ly3 p' out hp
          rw [hcl, ← h3.isClear] at hp
          exact primer_unique hI hp
      · refine .inr (.inr ⟨fun p' out hp => h1 p' (hcl.1 hp).less, fun h hh => ?_⟩)
        rcases h2 h hh with ⟨P, hP, e'⟩ | e'
        · exact .inl ⟨P, hP, by simp only [e', panic_bind]⟩
        · exact .inr (by simp only [e', Out.stop_bind])

end Combine

variable {cfg : Cfg} {px py p' : Option Primer} {cx cx' cy cy' : Clog}
  {nxy nx ny n dxy dx dy d : Int} {lx ly : List Reduction} {m : Nat} {out : List Reduction}

private theorem clear_unique {δ δ' : ℚ} (h0 : 0 < δ) (h0' : 0 < δ') {u : ℚ} {out out' : List Reduction}
    (hl : out.length = out'.length) (h : Clear δ out u) (h' : Clear δ' out' u) : out = out' := by
  have h1 := h.symbols h0
  have h2 := h'.symbols h0'
  rw [← hl, h1] at h2
  exact List.map_injective_iff.2 (Option.some_injective _) h2

theorem clear_is_enough {A M} (hw : Combine.Sums ⟨nxy, nx, ny, n, dxy, dx, dy, d⟩ M)
    (hsafe : cfg.SafeUpTo A (M * 4 ^ lx.length)) (hx : Gives cfg cx lx cx')
    (hy : Gives cfg cy ly cy') (hlen : lx.length = ly.length)
    (hs : ClearlySettled px py nxy nx ny n dxy dx dy d lx ly p' out) :
    Ends A (fun f => Number.combine cfg f (.Other px cx) (.Other py cy) nxy nx ny n dxy dx dy d)
      fun v => ∃ c0, v = .Other p' c0 ∧
        Ends A (fun f => Clog.egests cfg f out.length c0) fun r =>
          r.1 = out.map some ∧ ∃ lx1 lx2 ly1 ly2 cx1 cy1 k, lx = lx1 ++ lx2 ∧ ly = ly1 ++ ly2 ∧
            lx1.length = ly1.length ∧ Gives cfg cx lx1 cx1 ∧ Gives cfg cy ly1 cy1 ∧
            ClearlySettled px py nxy nx ny n dxy dx dy d lx1 ly1 p' out ∧
            r.2 = .combine cx1 cy1 k := by
  obtain ⟨f0, hx⟩ := hx
  obtain ⟨f1, hy⟩ := hy
  set F := max (max f0 f1) (lx.length + 1) with hF
  have hX : Reads (Clog.egest cfg F) lx cx cx' := reads_iff.2 (hx F (by omega))
  have hY : Reads (Clog.egest cfg F) ly cy cy' := reads_iff.2 (hy F (by omega))
  rcases Combine.make_reads (px := px) (py := py) (nxy := nxy) (nx := nx) (ny := ny) (n := n)
    (dxy := dxy) (dx := dx) (dy := dy) (d := d) hw hsafe (by omega) hlen hX hY with ⟨P, hP, e⟩ |
    ⟨lx1, lx2, ly1, ly2, x1, y1, p1, k1, rfl, rfl, e3, h1, h2, hI, hb, h3, h4, e⟩ | ⟨h, -⟩
  · exact .inr ⟨P, FuelMono.panics (Number.combine_mono _ _ _ _ _ _ _ _ _ _ _) F e, hP⟩
  · obtain rfl := h4 _ _ _ _ hs
    refine .inl ⟨_, FuelMono.returns (Number.combine_mono _ _ _ _ _ _ _ _ _ _ _) F e, _, rfl, ?_⟩
    rw [List.length_append] at hF
    rw [List.length_append, List.length_append] at hlen
    have hs2 : cfg.SafeUpTo A (M * 4 ^ lx1.length * 4 ^ lx2.length) := by
      convert hsafe using 1; rw [List.length_append, pow_add]; ring
    rcases Clog.egests_reads8 out.length (f := F) hs2 hb (by omega) (by omega) h1.2 h2.2 hI with
      ⟨P, hP, e'⟩ | ⟨lx3, lx4, ly3, ly4, x2, y2, k2, out', rfl, rfl, g0, g1, g2, g3, g4, e'⟩ | ⟨g, -⟩
    · exact .inr ⟨P, FuelMono.panics (Clog.egests_mono _ _ _) (F + 1) e', hP⟩
    · refine .inl ⟨_, FuelMono.returns (Clog.egests_mono _ _ _) (F + 1) e', ?_⟩
      have ho : out' = out := by
        obtain ⟨δ, hδ, a1⟩ := (h3 _ _ _).1 hs
        obtain ⟨δ', hδ', a2⟩ := g4
        have hx4 := unread_mem lx4 (s := 1 / 2) (by norm_num) (by norm_num)
        have hy4 := unread_mem ly4 (s := 1 / 2) (by norm_num) (by norm_num)
        have a3 := a1 (1 / 2) (1 / 2) (by norm_num) (by norm_num) (by norm_num) (by norm_num)
        have a4 := a2 _ _ hx4.1 hx4.2 hy4.1 hy4.2
        rw [unread_append, unread_append] at a3
        exact clear_unique hδ' hδ g3 a4 a3
      subst ho
      exact ⟨rfl, lx1 ++ lx3, lx4, ly1 ++ ly3, ly4, x2, y2, k2, by rw [List.append_assoc],
        by rw [List.append_assoc], by simp [e3, g0], (h1.1.append g1.1).gives,
        (h2.1.append g2.1).gives, (h3 _ _ _).2 g4, rfl⟩
    · exact (g out rfl ((h3 _ _ _).1 hs)).elim
  · exact (h _ _ hs).elim

/-- When the primer and the first symbols of the result are clear from the first symbols `lx` and
`ly`, as many, of the operands, `combine` and calls of `egest` on the result give them without
reading more than these: the operands inside the result have given beginnings of `lx` and `ly`, as
long as each other, from which the answers are clear too. -/
theorem C60_clear_is_enough (hc : cfg.overflowChecks = true) (hx : Gives cfg cx lx cx')
    (hy : Gives cfg cy ly cy') (hlen : lx.length = ly.length)
    (hs : ClearlySettled px py nxy nx ny n dxy dx dy d lx ly p' out) :
    Ends Overflow (fun f => Number.combine cfg f (.Other px cx) (.Other py cy) nxy nx ny n dxy dx dy d)
      fun v => ∃ c0, v = .Other p' c0 ∧
        Ends Overflow (fun f => Clog.egests cfg f out.length c0) fun r =>
          r.1 = out.map some ∧ ∃ lx1 lx2 ly1 ly2 cx1 cy1 k, lx = lx1 ++ lx2 ∧ ly = ly1 ++ ly2 ∧
            lx1.length = ly1.length ∧ Gives cfg cx lx1 cx1 ∧ Gives cfg cy ly1 cy1 ∧
            ClearlySettled px py nxy nx ny n dxy dx dy d lx1 ly1 p' out ∧
            r.2 = .combine cx1 cy1 k := by
  obtain ⟨M, hw⟩ := Combine.exists_sums ⟨nxy, nx, ny, n, dxy, dx, dy, d⟩
  exact clear_is_enough hw (safeUpTo_overflow hc _) hx hy hlen hs

/-- As above, when `lx` and `ly` are the first beginnings from which the answers are clear: then
exactly `lx` and `ly` are read. -/
theorem C60_reads_exactly (hc : cfg.overflowChecks = true) (hx : Gives cfg cx lx cx')
    (hy : Gives cfg cy ly cy') (hlen : lx.length = ly.length)
    (hs : ClearlySettled px py nxy nx ny n dxy dx dy d lx ly p' out)
    (hfirst : ∀ lx1 lx2 ly1 ly2, lx = lx1 ++ lx2 → ly = ly1 ++ ly2 → lx1.length = ly1.length →
      ClearlySettled px py nxy nx ny n dxy dx dy d lx1 ly1 p' out → lx1 = lx) :
    Ends Overflow (fun f => Number.combine cfg f (.Other px cx) (.Other py cy) nxy nx ny n dxy dx dy d)
      fun v => ∃ c0, v = .Other p' c0 ∧
        Ends Overflow (fun f => Clog.egests cfg f out.length c0) fun r =>
          ∃ k, r = (out.map some, .combine cx' cy' k) := by
  refine (C60_clear_is_enough hc hx hy hlen hs).mono ?_
  rintro v ⟨c0, rfl, h⟩
  refine ⟨c0, rfl, h.mono ?_⟩
  rintro ⟨o, c2⟩ ⟨e0, lx1, lx2, ly1, ly2, cx1, cy1, k, e1, e2, e3, h1, h2, h3, e4⟩
  simp only at e0 e4
  subst e0 e4
  obtain rfl := hfirst lx1 lx2 ly1 ly2 e1 e2 e3 h3
  obtain rfl : ly1 = ly := by
    have : ly2 = [] := by
      rw [e2, List.length_append] at hlen
      exact List.length_eq_zero_iff.1 (by omega)
    rw [e2, this, List.append_nil]
  obtain ⟨f1, h1⟩ := h1
  obtain ⟨f2, hx⟩ := hx
  obtain ⟨f3, h2⟩ := h2
  obtain ⟨f4, hy⟩ := hy
  have a1 := (h1 (max f1 f2) (by omega)).symm.trans (hx (max f1 f2) (by omega))
  have a2 := (h2 (max f3 f4) (by omega)).symm.trans (hy (max f3 f4) (by omega))
  simp only [Out.ok.injEq, Prod.mk.injEq] at a1 a2
  exact ⟨k, by rw [a1.2, a2.2]⟩

/-- When the primer and the first `m` symbols of the result are not clear from `lx` and `ly`, another
symbol of `x` is asked for before they are given, and then one of `y`: if `x` panics after `lx`, or
answers and `y` panics after `ly`, so does `combine`, or the `m` calls of `egest` on the result. -/
theorem C60_unclear_reads_on (hc : cfg.overflowChecks = true) (hx : Gives cfg cx lx cx')
    (hy : Gives cfg cy ly cy') (hlen : lx.length = ly.length)
    (hs : ∀ p' out, out.length = m → ¬ClearlySettled px py nxy nx ny n dxy dx dy d lx ly p' out)
    {P : Panic} (hP : Panics (fun f => Clog.egest cfg f cx') P ∨
      ∃ r cx'', Returns (fun f => Clog.egest cfg f cx') (some r, cx'') ∧
        Panics (fun f => Clog.egest cfg f cy') P) :
    Ends (fun e => Overflow e ∨ e = P)
      (fun f => Number.combine cfg f (.Other px cx) (.Other py cy) nxy nx ny n dxy dx dy d) fun v =>
      ∃ p1 c0, v = .Other p1 c0 ∧
        Ends (fun e => Overflow e ∨ e = P) (fun f => Clog.egests cfg f m c0) fun _ => False := by
  obtain ⟨f0, hx⟩ := hx
  obtain ⟨f1, hy⟩ := hy
  obtain ⟨f2, hP⟩ : ∃ f2, ∀ f, f2 ≤ f → Halts (Clog.egest cfg f) cx' cy' (some P) := by
    rcases hP with ⟨f2, h⟩ | ⟨r, cx'', ⟨f2, h⟩, ⟨f3, h'⟩⟩
    · exact ⟨f2, fun f hf => .inl (h f hf)⟩
    · exact ⟨max f2 f3, fun f hf => .inr ⟨r, cx'', h f (by omega), h' f (by omega)⟩⟩
  set F := max (max f0 f1) (max f2 (lx.length + 1)) with hF
  have hX : Reads (Clog.egest cfg F) lx cx cx' := reads_iff.2 (hx F (by omega))
  have hY : Reads (Clog.egest cfg F) ly cy cy' := reads_iff.2 (hy F (by omega))
  have hP' := hP F (by omega)
  obtain ⟨M, hw⟩ := Combine.exists_sums ⟨nxy, nx, ny, n, dxy, dx, dy, d⟩
  rcases Combine.make_reads (px := px) (py := py) (nxy := nxy) (nx := nx) (ny := ny) (n := n)
    (dxy := dxy) (dx := dx) (dy := dy) (d := d) hw (safeUpTo_overflow hc _)
    (by omega) hlen hX hY with ⟨Q, hQ, e⟩ |
    ⟨lx1, lx2, ly1, ly2, x1, y1, p1, k1, rfl, rfl, e3, h1, h2, hI, hb, h3, h4, e⟩ | ⟨-, h⟩
  · exact .inr ⟨Q, FuelMono.panics (Number.combine_mono _ _ _ _ _ _ _ _ _ _ _) F e, .inl hQ⟩
  · refine .inl ⟨_, FuelMono.returns (Number.combine_mono _ _ _ _ _ _ _ _ _ _ _) F e, p1, _, rfl, ?_⟩
    rw [List.length_append] at hF
    rw [List.length_append, List.length_append] at hlen
    rcases Clog.egests_reads8 m (f := F) (safeUpTo_overflow hc _) hb (by omega) (by omega) h1.2 h2.2 hI with
      ⟨Q, hQ, e'⟩ | ⟨lx3, lx4, ly3, ly4, x2, y2, k2, out', rfl, rfl, g0, g1, g2, g3, g4, e'⟩ | ⟨-, g⟩
    · exact .inr ⟨Q, FuelMono.panics (Clog.egests_mono _ _ _) (F + 1) e', .inl hQ⟩
    · refine (hs p1 out' g3 ?_).elim
      rw [← List.append_assoc, ← List.append_assoc]
      exact ((h3 _ _ _).2 g4).more
    · rcases g _ hP' with ⟨Q, hQ, e'⟩ | e'
      · exact .inr ⟨Q, FuelMono.panics (Clog.egests_mono _ _ _) (F + 1) e', .inl hQ⟩
      · exact .inr ⟨P, FuelMono.panics (Clog.egests_mono _ _ _) (F + 1) e', .inr rfl⟩
  · rcases h _ hP' with ⟨Q, hQ, e'⟩ | e'
    · exact .inr ⟨Q, FuelMono.panics (Number.combine_mono _ _ _ _ _ _ _ _ _ _ _) F e', .inl hQ⟩
    · exact .inr ⟨P, FuelMono.panics (Number.combine_mono _ _ _ _ _ _ _ _ _ _ _) F e', .inr rfl⟩

/-- The same when `x` never answers after `lx`, or answers and `y` never answers after `ly`: neither
do they, unless they panic with an overflow. -/
theorem C60_unclear_waits (hc : cfg.overflowChecks = true) (hx : Gives cfg cx lx cx')
    (hy : Gives cfg cy ly cy') (hlen : lx.length = ly.length)
    (hs : ∀ p' out, out.length = m → ¬ClearlySettled px py nxy nx ny n dxy dx dy d lx ly p' out)
    (hP : Diverges (fun f => Clog.egest cfg f cx') ∨
      ∃ r cx'', Returns (fun f => Clog.egest cfg f cx') (some r, cx'') ∧
        Diverges (fun f => Clog.egest cfg f cy')) :
    May Overflow (fun f => Number.combine cfg f (.Other px cx) (.Other py cy) nxy nx ny n dxy dx dy d)
      fun v => ∃ p1 c0, v = .Other p1 c0 ∧
        May Overflow (fun f => Clog.egests cfg f m c0) fun _ => False := by
  obtain ⟨f0, hx⟩ := hx
  obtain ⟨f1, hy⟩ := hy
  obtain ⟨f2, hP⟩ : ∃ f2, ∀ f, f2 ≤ f → Halts (Clog.egest cfg f) cx' cy' none := by
    rcases hP with h | ⟨r, cx'', ⟨f2, h⟩, h'⟩
    · exact ⟨0, fun f _ => .inl (h f)⟩
    · exact ⟨f2, fun f hf => .inr ⟨r, cx'', h f hf, h' f⟩⟩
  intro f
  set F := max (max f0 f1) (max (max f f2) (lx.length + 1)) with hF
  have hX : Reads (Clog.egest cfg F) lx cx cx' := reads_iff.2 (hx F (by omega))
  have hY : Reads (Clog.egest cfg F) ly cy cy' := reads_iff.2 (hy F (by omega))
  have hmono := Number.combine_mono cfg (.Other px cx) (.Other py cy) nxy nx ny n dxy dx dy d f F
    (by omega)
  obtain ⟨M, hw⟩ := Combine.exists_sums ⟨nxy, nx, ny, n, dxy, dx, dy, d⟩
  rcases Combine.make_reads (px := px) (py := py) (nxy := nxy) (nx := nx) (ny := ny) (n := n)
    (dxy := dxy) (dx := dx) (dy := dy) (d := d) hw (safeUpTo_overflow hc _)
    (by omega) hlen hX hY with ⟨Q, hQ, e⟩ |
    ⟨lx1, lx2, ly1, ly2, x1, y1, p1, k1, rfl, rfl, e3, h1, h2, hI, hb, h3, h4, e⟩ | ⟨-, h⟩
  · constructor
    · intro v hv; cases e.symm.trans (hmono.ok hv)
    · intro Q' hv; cases e.symm.trans (hmono.panic hv); exact hQ
  · constructor
    · intro v hv
      cases e.symm.trans (hmono.ok hv)
      refine ⟨p1, _, rfl, fun g => ?_⟩
      rw [List.length_append] at hF
      rw [List.length_append, List.length_append] at hlen
      set G := max F g with hG
      have hmono' := Clog.egests_mono cfg m (.combine x1 y1 k1) g (G + 1) (by omega)
      rcases Clog.egests_reads8 m (f := G) (safeUpTo_overflow hc _) hb (by omega) (by omega) (h1.2.later (by omega))
        (h2.2.later (by omega)) hI with ⟨Q, hQ, e'⟩ |
        ⟨lx3, lx4, ly3, ly4, x2, y2, k2, out', rfl, rfl, g0, g1, g2, g3, g4, e'⟩ | ⟨-, g'⟩
      · constructor
        · intro v hv; cases e'.symm.trans (hmono'.ok hv)
        · intro Q' hv; cases e'.symm.trans (hmono'.panic hv); exact hQ
      · refine (hs p1 out' g3 ?_).elim
        rw [← List.append_assoc, ← List.append_assoc]
        exact ((h3 _ _ _).2 g4).more
      · rcases g' _ (hP G (by omega)) with ⟨Q, hQ, e'⟩ | e'
        · constructor
          · intro v hv; cases e'.symm.trans (hmono'.ok hv)
          · intro Q' hv; cases e'.symm.trans (hmono'.panic hv); exact hQ
        · constructor
          · intro v hv; cases e'.symm.trans (hmono'.ok hv)
          · intro Q' hv; cases e'.symm.trans (hmono'.panic hv)
    · intro Q' hv; cases e.symm.trans (hmono.panic hv)
  · rcases h _ (hP F (by omega)) with ⟨Q, hQ, e⟩ | e
    · constructor
      · intro v hv; cases e.symm.trans (hmono.ok hv)
      · intro Q' hv; cases e.symm.trans (hmono.panic hv); exact hQ
    · constructor
      · intro v hv; cases e.symm.trans (hmono.ok hv)
      · intro Q' hv; cases e.symm.trans (hmono.panic hv)

/-! ## Examples -/

private theorem begins_ua {t : ℚ} (h : Begins [.Uncover, .Amplify] t) : 2 / 3 < t ∧ t < 1 := by
  obtain ⟨h0, h1, h2⟩ := h
  simp only [List.length_cons, List.length_nil, List.map_cons, List.map_nil] at h2
  rw [symbols_succ, symbols_succ] at h2
  simp only [symbols, List.cons.injEq, and_true] at h2
  have hu := sym_eq_uncover.1 h2.1
  have ha := sym_eq_amplify.1 h2.2
  rw [next_gt hu] at ha
  refine ⟨?_, h1⟩
  have : 1 / t < 3 / 2 := by linarith
  rw [div_lt_iff₀ h0] at this
  linarith

private theorem begins_u {t : ℚ} (h0 : 1 / 2 < t) (h1 : t < 1) : Begins [.Uncover] t := by
  refine ⟨by linarith, h1, ?_⟩
  simp [symbols_succ, symbols, sym_gt h0]

theorem clear_sum : ClearlySettled none none 0 1 1 3 0 0 0 1 [.Uncover, .Amplify]
    [.Uncover, .Amplify] (some .Turn) [.Amplify, .Amplify] := by
  refine ⟨1 / 13, by norm_num, ?_⟩
  intro s t x y hs ht hx hy
  obtain rfl : s = x := hx.symm
  obtain rfl : t = y := hy.symm
  have hs := begins_ua hs
  have ht := begins_ua ht
  simp only [applyPrimer]
  rw [abs_of_pos (by linarith), abs_of_pos (by linarith), max_eq_left hs.2.le, max_eq_left ht.2.le]
  push_cast
  refine ⟨by norm_num, 1 / (s + t + 3), ?_, ?_⟩
  · rw [one_div_one_div]; simp
  · have hp : 0 < s + t + 3 := by linarith
    have h1 : 1 / (s + t + 3) < 3 / 13 := by rw [div_lt_div_iff₀ hp (by norm_num)]; linarith
    have h2 : 1 / 5 < 1 / (s + t + 3) := by rw [div_lt_div_iff₀ (by norm_num) hp]; linarith
    simp only [Clear]
    refine ⟨⟨?_, ?_⟩, ⟨?_, ?_⟩, ?_, ?_⟩ <;> linarith

private theorem unclear_sum (p' : Option Primer) :
    ¬ClearlySettled none none 0 1 1 3 0 0 0 1 [.Uncover] [.Uncover] p' [.Amplify, .Amplify] := by
  rintro ⟨δ, hδ, h⟩
  set e := min δ 1 / 4 with he
  have he0 : 0 < e := by
    have : 0 < min δ 1 := lt_min hδ one_pos
    positivity
  have he1 : e ≤ 1 / 4 := by
    have := min_le_right δ 1
    linarith
  have he2 : 4 * e ≤ δ := by
    have := min_le_left δ 1
    linarith
  obtain ⟨-, u, h1, h2⟩ := h (1 / 2 + e) (1 / 2 + e) _ _ (begins_u (by linarith) (by linarith))
    (begins_u (by linarith) (by linarith)) rfl rfl
  simp only [applyPrimer, Clear] at h1 h2
  push_cast at h1
  obtain ⟨⟨a1, a2⟩, -, -, a3⟩ := h2
  have hv : (0 * (1 / 2 + e) * (1 / 2 + e) + 1 * (1 / 2 + e) + 1 * (1 / 2 + e) + 3) /
      (0 * (1 / 2 + e) * (1 / 2 + e) + 0 * (1 / 2 + e) + 0 * (1 / 2 + e) + 1) = 4 + 2 * e := by ring
  rw [hv] at h1
  have hu0 : 0 < u := by linarith
  have hu : u * (4 + 2 * e) = 1 := by
    rcases p' with _ | p'
    · simp only at h1; linarith
    · cases p'
      · simp only at h1
        rw [h1, mul_one_div_cancel hu0.ne']
      · simp only at h1; linarith
      · simp only at h1
        have : 0 < 1 / u := by positivity
        linarith
  nlinarith

/-- `x+y+3` for `x` = `y` = 3/4, with symbols `Uncover`, `Amplify`, `Uncover`: the primer `Turn` and the
first symbol come out before anything is read, the second once two symbols of each operand are read. -/
example : Ends Overflow (fun f => Number.combine debug64 f (.Other none (.ratio ⟨3, 4⟩))
    (.Other none (.ratio ⟨3, 4⟩)) 0 1 1 3 0 0 0 1)
    fun v => ∃ c0, v = .Other (some .Turn) c0 ∧
      Ends Overflow (fun f => Clog.egests debug64 f 2 c0) fun r =>
        ∃ k, r = ([some .Amplify, some .Amplify], .combine (.ratio ⟨2, 3⟩) (.ratio ⟨2, 3⟩) k) := by
  refine C60_reads_exactly (lx := [.Uncover, .Amplify]) (ly := [.Uncover, .Amplify])
    (out := [.Amplify, .Amplify]) rfl
    (FuelMono.returns (Clog.egests_mono _ _ _) 5 (by decide))
    (FuelMono.returns (Clog.egests_mono _ _ _) 5 (by decide)) rfl clear_sum ?_
  intro lx1 lx2 ly1 ly2 e1 e2 e3 h
  rcases lx1 with _ | ⟨r, _ | ⟨r', lx1⟩⟩
  · obtain rfl : ly1 = [] := List.length_eq_zero_iff.1 e3.symm
    exact (unclear_sum _ (h.more (lx' := [.Uncover]) (ly' := [.Uncover]))).elim
  · obtain ⟨q, rfl⟩ : ∃ q, ly1 = [q] := List.length_eq_one_iff.1 e3.symm
    simp only [List.cons_append, List.cons.injEq] at e1 e2
    obtain ⟨rfl, -⟩ := e1
    obtain ⟨rfl, -⟩ := e2
    exact (unclear_sum _ h).elim
  · simp only [List.cons_append, List.cons.injEq] at e1
    obtain ⟨rfl, rfl, e⟩ := e1
    rw [(List.append_eq_nil_iff.1 e.symm).1]

private theorem unclear_id (p' : Option Primer) (out : List Reduction) :
    ¬ClearlySettled none none 0 1 0 0 0 0 0 1 [] [] p' out := by
  rintro ⟨δ, hδ, h⟩
  set e := min δ 1 / 2 with he
  have h0 : 0 < min δ 1 := lt_min hδ one_pos
  have he1 : e < 1 := by
    have := min_le_right δ 1
    linarith
  have he2 : e < δ := by
    have := min_le_left δ 1
    linarith
  have he0 : 0 < e := by positivity
  obtain ⟨-, u, h1, h2⟩ := h e (1 / 2) e (1 / 2) ⟨he0, he1, rfl⟩ ⟨by norm_num, by norm_num, rfl⟩
    rfl rfl
  have hm := h2.mem
  push_cast at h1
  have hv : (0 * e * (1 / 2) + 1 * e + 0 * (1 / 2) + 0) / (0 * e * (1 / 2) + 0 * e + 0 * (1 / 2) + 1) =
      e := by ring
  rw [hv] at h1
  obtain ⟨-, rfl⟩ := applyPrimer_inj (p := none) he0 he1 (by linarith : 0 < u) (by linarith) h1
  linarith

/-- `1*x + 0*y` for `x` = 1/4 and `y` what is left of `ratio(isize::MAX, 1) + 1` after 62 symbols, a
clog that panics at once: `combine` panics. -/
example := C60_unclear_reads_on (cfg := debug64) (px := none) (py := none) (nxy := 0) (nx := 1)
  (ny := 0) (n := 0) (dxy := 0) (dx := 0) (dy := 0) (d := 1) (P := .unwrapNone)
  (cx := .ratio ⟨1, 4⟩) (cy := .homographic (.ratio ⟨4611686018427387904, 9223372036854775807⟩)
      ⟨4611686018427387904, 0, 1, 4611686018427387904⟩) (lx := []) (ly := []) (m := 0) rfl
  ⟨0, fun _ _ => rfl⟩ ⟨0, fun _ _ => rfl⟩ rfl (fun p' out _ => unclear_id p' out)
  (.inr ⟨.Amplify, .ratio ⟨1, 2⟩, FuelMono.returns (Clog.egest_mono _ _) 5 (by decide),
    FuelMono.panics (Clog.egest_mono _ _) 5 (by decide +kernel)⟩)

/-- `1*x + 0*y` for `x` the clog of (ε + 2ε')/(3ε + 3ε'), which no call of this crate makes: it reads
its operands forever. -/
example (cy : Clog) := C60_unclear_waits (cfg := debug64) (px := none) (py := none) (nxy := 0)
  (nx := 1) (ny := 0) (n := 0) (dxy := 0) (dx := 0) (dy := 0) (d := 1) (cy := cy) (lx := [])
  (ly := []) (m := 0) rfl ⟨0, fun _ _ => rfl⟩ ⟨0, fun _ _ => rfl⟩ rfl
  (fun p' out _ => unclear_id p' out) (.inl endless)

/-- Being the same for all operands is not enough: `x*y` is in (0,1), so that it has no primer,
whatever `x` and `y` in (0,1) are; but of 1/16 and 1/16 `combine` reads all symbols before it says
so, and the first operand is gone from its result. -/
theorem C60_not_optimal :
    (∀ s t : ℚ, Begins [] s → Begins [] t → ∃ u, 0 < u ∧ u < 1 ∧ s * t = applyPrimer none u) ∧
    Returns (fun f => Number.combine debug64 f (.Other none (.ratio ⟨1, 16⟩))
        (.Other none (.ratio ⟨1, 16⟩)) 1 0 0 0 0 0 0 1)
      (.Other none (.homographic (.ratio ⟨1, 2⟩) ⟨1, 0, 0, 128⟩)) := by
  refine ⟨?_, FuelMono.returns (Number.combine_mono _ _ _ _ _ _ _ _ _ _ _) 20 (by decide +kernel)⟩
  rintro s t ⟨s0, s1, -⟩ ⟨t0, t1, -⟩
  exact ⟨s * t, by positivity, by nlinarith, rfl⟩

end Clarith
