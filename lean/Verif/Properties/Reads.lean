import Verif.Proofs.Reads4
import Verif.Properties.Homographic
import Verif.Properties.CompareReads

/-! # How far `Number::homographic` reads its operand (C59)

For any operand that is not special, whatever it denotes and whether it denotes anything:
`homographic` reads no symbol of its operand that it does not need.  After reading the symbols `l`
all it knows of the operand is that it is one of the numbers with these first symbols.  The primer
and the first `m` symbols of the result are *settled* by `l` when they are the same for all these
numbers.  They come out as soon as they are settled, and not before. -/

namespace Clarith

open Spec Out

/-! ## Specification -/

/-- `t` is in (0,1) and its first symbols are `l`. -/
def Spec.Begins (l : List Reduction) (t : ℚ) : Prop :=
  0 < t ∧ t < 1 ∧ symbols l.length t = l.map some

/-- For all operands with primer `p` whose symbols begin with `l`, the value of the map is a number
with primer `p'` whose first `m` symbols are `out`. -/
def Spec.Settled (p : Option Primer) (nx n dx d : Int) (l : List Reduction) (p' : Option Primer)
    (m : Nat) (out : List (Option Reduction)) : Prop :=
  ∀ t, Begins l t → dx * applyPrimer p t + d ≠ 0 ∧ ∃ u, 0 < u ∧ u < 1 ∧
    (nx * applyPrimer p t + n) / (dx * applyPrimer p t + d) = applyPrimer p' u ∧ symbols m u = out

/-- `c` answers the symbols `l`, and `c'` is left. -/
def Spec.Gives (cfg : Cfg) (c : Clog) (l : List Reduction) (c' : Clog) : Prop :=
  Returns (fun f => Clog.egests cfg f l.length c) (l.map some, c')

/-! ## Proof -/

theorem reads_iff {cfg : Cfg} {f : Nat} {l : List Reduction} {c c' : Clog} :
    Reads (Clog.egest cfg f) l c c' ↔ Clog.egests cfg f l.length c = .ok (l.map some, c') := by
  induction l generalizing c with
  | nil => simp [Reads, Clog.egests]
  | cons r l ih =>
    simp only [Reads, List.length_cons, egests_succ, List.map_cons]
    cases e : Clog.egest cfg f c with
    | ok t =>
      obtain ⟨r', c1⟩ := t
      simp only [ok_bind, Out.ok.injEq, Prod.mk.injEq]
      cases e' : Clog.egests cfg f l.length c1 with
      | ok t' =>
        obtain ⟨rs, c2⟩ := t'
        simp only [ok_bind, pure_eq, Out.ok.injEq, Prod.mk.injEq, List.cons.injEq]
        constructor
        · rintro ⟨x1, ⟨rfl, rfl⟩, h⟩
          have := ih.1 h
          rw [e'] at this
          simp only [Out.ok.injEq, Prod.mk.injEq] at this
          exact ⟨⟨rfl, this.1⟩, this.2⟩
        · rintro ⟨⟨rfl, rfl⟩, rfl⟩
          exact ⟨c1, ⟨rfl, rfl⟩, ih.2 e'⟩
      | panic p =>
        simp only [panic_bind, reduceCtorEq, iff_false]
        rintro ⟨x1, ⟨rfl, rfl⟩, h⟩
        have := ih.1 h
        rw [e'] at this
        cases this
      | timeout =>
        simp only [timeout_bind, reduceCtorEq, iff_false]
        rintro ⟨x1, ⟨rfl, rfl⟩, h⟩
        have := ih.1 h
        rw [e'] at this
        cases this
    | panic p => simp
    | timeout => simp

theorem Reads.gives {cfg : Cfg} {f : Nat} {l : List Reduction} {c c' : Clog}
    (h : Reads (Clog.egest cfg f) l c c') : Gives cfg c l c' :=
  FuelMono.returns (Clog.egests_mono cfg _ c) f (reads_iff.1 h)

theorem Reads.later {cfg : Cfg} {f f' : Nat} {l : List Reduction} {c c' : Clog}
    (h : Reads (Clog.egest cfg f) l c c') (hf : f ≤ f') : Reads (Clog.egest cfg f') l c c' :=
  reads_iff.2 ((Clog.egests_mono cfg l.length c f f' hf).ok (reads_iff.1 h))

namespace Homographic

/-- The coefficients of the user and those after absorbing the primer of the operand. -/
structure Absorbs (p : Option Primer) (nx n dx d : Int) (k : Coef4) : Prop where
  det : k.det ≠ 0
  at_ : ∀ t, 0 < t → t < 1 → ∃ c : ℚ, 0 < c ∧ k.numAt t = c * (nx * applyPrimer p t + n) ∧
    k.denAt t = c * (dx * applyPrimer p t + d)

theorem Absorbs.val {p nx n dx d k} (h : Absorbs p nx n dx d k) {t : ℚ} (t0 : 0 < t) (t1 : t < 1) :
    k.val t = (nx * applyPrimer p t + n) / (dx * applyPrimer p t + d) := by
  obtain ⟨c, c0, h1, h2⟩ := h.at_ t t0 t1
  rw [Coef4.val_eq, h1, h2, mul_div_mul_left _ _ c0.ne']

theorem Absorbs.den {p nx n dx d k} (h : Absorbs p nx n dx d k) {t : ℚ} (t0 : 0 < t) (t1 : t < 1) :
    k.denAt t ≠ 0 ↔ (dx : ℚ) * applyPrimer p t + d ≠ 0 := by
  obtain ⟨c, c0, h1, h2⟩ := h.at_ t t0 t1
  rw [h2]
  exact ⟨fun h h' => h (by rw [h', mul_zero]), fun h => mul_ne_zero c0.ne' h⟩

theorem absorbs {k k' : Coef4} {p : Option Primer} (hdet : k.det ≠ 0)
    (h : (p = none ∧ k' = k) ∨ (p = some .Turn ∧ k' = ⟨k.n, k.nx, k.d, k.dx⟩) ∨
      (p = some .Reflect ∧ k' = ⟨-k.nx, k.n, -k.dx, k.d⟩) ∨
      (p = some .Ground ∧ k' = ⟨k.n, -k.nx, k.d, -k.dx⟩)) : Absorbs p k.nx k.n k.dx k.d k' := by
  rcases h with ⟨rfl, rfl⟩ | ⟨rfl, rfl⟩ | ⟨rfl, rfl⟩ | ⟨rfl, rfl⟩
  · exact ⟨hdet, fun t t0 _ => ⟨1, one_pos, by simp [Coef4.numAt, applyPrimer],
      by simp [Coef4.denAt, applyPrimer]⟩⟩
  · refine ⟨fun e => hdet ?_, fun t t0 _ => ⟨t, t0, ?_, ?_⟩⟩
    · unfold Coef4.det at *; simp only at e; linarith
    · simp only [applyPrimer, Coef4.numAt]; field_simp; ring
    · simp only [applyPrimer, Coef4.denAt]; field_simp; ring
  · refine ⟨fun e => hdet ?_, fun t t0 _ => ⟨1, one_pos, ?_, ?_⟩⟩
    · unfold Coef4.det at *; simp only at e; linarith
    · simp only [applyPrimer, Coef4.numAt]; push_cast; ring
    · simp only [applyPrimer, Coef4.denAt]; push_cast; ring
  · refine ⟨fun e => hdet ?_, fun t t0 _ => ⟨t, t0, ?_, ?_⟩⟩
    · unfold Coef4.det at *; simp only at e; linarith
    · simp only [applyPrimer, Coef4.numAt]; push_cast; field_simp; ring
    · simp only [applyPrimer, Coef4.denAt]; push_cast; field_simp; ring

theorem Absorbs.settled {p nx n dx d k} (h : Absorbs p nx n dx d k) {l p' m out} :
    Settled p nx n dx d l p' m out ↔ ∀ s, 0 < s → s < 1 → k.denAt (unread l s) ≠ 0 ∧
      ∃ u, 0 < u ∧ u < 1 ∧ k.val (unread l s) = applyPrimer p' u ∧ symbols m u = out := by
  constructor
  · intro hs s s0 s1
    have hm := unread_mem l s0 s1
    have := hs (unread l s) ((symbols_iff_unread l _).2 ⟨s, s0, s1, rfl⟩)
    rwa [h.den hm.1 hm.2, h.val hm.1 hm.2]
  · rintro hs t ht
    obtain ⟨s, s0, s1, rfl⟩ := (symbols_iff_unread l t).1 ht
    have hm := unread_mem l s0 s1
    have := hs s s0 s1
    rwa [h.den hm.1 hm.2, h.val hm.1 hm.2] at this

/-- What `homographic` does, at fuel `F`, on an operand that gives `l` and leaves `c'`. -/
def MakeReads (A : Panic → Prop) (M : Int) (cfg : Cfg) (F : Nat) (l : List Reduction) (c c' : Clog) (p : Option Primer)
    (nx n dx d : Int) (o : Out Number) : Prop :=
  (∃ P, A P ∧ o = .panic P) ∨
  (∃ l1 l2 x1 p1 k1, l = l1 ++ l2 ∧ Reads (Clog.egest cfg F) l1 c x1 ∧
    Reads (Clog.egest cfg F) l2 x1 c' ∧ k1.Inv ∧ k1.det ≠ 0 ∧
    k1.Bounded (M * 2 ^ l1.length) ∧
    (∃ k, Absorbs p nx n dx d k ∧ ∀ s, 0 < s → s < 1 → k.denAt (unread l1 s) ≠ 0 ∧
      k.val (unread l1 s) = applyPrimer p1 (k1.val s)) ∧
    o = .ok (.Other p1 (.homographic x1 k1))) ∨
  ((∃ k k0, Absorbs p nx n dx d k ∧ k.After l k0 ∧ ∀ p σ, ¬k0.Decided p σ) ∧
    (∀ P, Clog.egest cfg F c' = .panic P → o = .panic P) ∧
    (Clog.egest cfg F c' = .timeout → o = .timeout))

theorem primed_good {k0 k1 : Coef4} {p} (h : k0.Primed p k1) (hdet : k0.det ≠ 0) :
    k1.Inv ∧ k1.det ≠ 0 ∧ ∀ s, 0 < s → s < 1 → k0.denAt s ≠ 0 := by
  have hd : k1.det ≠ 0 := by
    intro e
    apply hdet
    rcases h.rel with ⟨_, rfl⟩ | ⟨_, rfl⟩ | ⟨_, rfl⟩ | ⟨_, rfl⟩ <;>
      unfold Coef4.det at * <;> (try simp only at e) <;> linarith
  have hI : k1.Inv := by
    refine ⟨h.inv, fun hz => hd ?_⟩
    have : k1.nx = 0 := by omega
    simp [Coef4.det, hz.1, this]
  refine ⟨hI, hd, fun s s0 s1 e => ?_⟩
  have hm := (hI.val_mem s0 s1).1.ne'
  rw [Coef4.val_eq] at hm
  rcases h.rel with ⟨_, rfl⟩ | ⟨_, rfl⟩ | ⟨_, rfl⟩ | ⟨_, rfl⟩
  · apply hm
    have : Coef4.numAt ⟨-k0.dx, -k0.d, k0.nx, k0.n⟩ s = -k0.denAt s := by
      simp only [Coef4.numAt, Coef4.denAt]; push_cast; ring
    rw [this, e]; simp
  · apply hm
    have : Coef4.numAt ⟨k0.dx, k0.d, k0.nx, k0.n⟩ s = k0.denAt s := rfl
    rw [this, e]; simp
  · apply hm
    have : Coef4.denAt ⟨-k0.nx, -k0.n, k0.dx, k0.d⟩ s = k0.denAt s := rfl
    rw [this, e]; simp
  · rw [e] at hm; simp at hm

/-- Bounds on the coefficients the user gives. -/
structure Within (nx n dx d M : Int) : Prop where
  pos : 1 ≤ M
  num : |nx| + |n| ≤ M
  den : |dx| + |d| ≤ M

theorem exists_within (nx n dx d : Int) : ∃ M, Within nx n dx d M :=
  ⟨|nx| + |n| + (|dx| + |d|) + 1, by
    constructor <;> linarith [abs_nonneg nx, abs_nonneg n, abs_nonneg dx, abs_nonneg d]⟩

theorem Within.absorbed {nx n dx d M : Int} (h : Within nx n dx d M) {p : Option Primer}
    {k' : Coef4} (h' : (p = none ∧ k' = ⟨nx, n, dx, d⟩) ∨ (p = some .Turn ∧ k' = ⟨n, nx, d, dx⟩) ∨
      (p = some .Reflect ∧ k' = ⟨-nx, n, -dx, d⟩) ∨
      (p = some .Ground ∧ k' = ⟨n, -nx, d, -dx⟩)) : k'.Bounded M := by
  obtain ⟨h1, h2, h3⟩ := h
  have a1 := abs_le.1 (le_refl |nx|)
  have a2 := abs_le.1 (le_refl |n|)
  have a3 := abs_le.1 (le_refl |dx|)
  have a4 := abs_le.1 (le_refl |d|)
  rcases h' with ⟨_, rfl⟩ | ⟨_, rfl⟩ | ⟨_, rfl⟩ | ⟨_, rfl⟩ <;> constructor <;> (try simp only) <;> omega

theorem make_reads {cfg : Cfg} {A} {F : Nat} {l : List Reduction}
    {c c' : Clog} {p : Option Primer} {nx n dx d M : Int} (hw : Within nx n dx d M)
    (hs : cfg.SafeUpTo A (M * 2 ^ l.length)) (hdet : nx * d - n * dx ≠ 0)
    (hF : l.length < F) (hl : Reads (Clog.egest cfg F) l c c') :
    MakeReads A M cfg F l c c' p nx n dx d (Number.homographic cfg F (.Other p c) nx n dx d) := by
  have h0 : ¬(nx = 0 ∧ dx = 0) := by rintro ⟨rfl, rfl⟩; simp at hdet
  simp only [Number.homographic, Homographic.new, if_neg h0]
  set k : Coef4 := ⟨nx, n, dx, d⟩ with hk
  have hs0 := hs.head hw.pos
  have a1 := abs_le.1 (le_refl |nx|)
  have a3 := abs_le.1 (le_refl |dx|)
  have a2 := abs_nonneg n
  have a4 := abs_nonneg d
  have w1 := hw.pos
  have w2 := hw.num
  have w3 := hw.den
  have ha := absorbPrimer_sat (p := p) (k := k) (hs0.lin (by simp only [hk]; omega)
    (by simp only [hk]; omega)) (hs0.lin (by simp only [hk]; omega) (by simp only [hk]; omega))
  cases e : absorbPrimer cfg p k with
  | panic P => rw [e] at ha; exact .inl ⟨P, ha, rfl⟩
  | timeout => rw [e] at ha; exact ha.elim
  | ok k' =>
    rw [e] at ha
    have hA := absorbs (k := k) hdet ha
    simp only [ok_bind]
    have h := prime_reads (F - l.length - 1) l hs (hw.absorbed ha) hl hA.det
    rw [show F - l.length - 1 + l.length + 1 = F by omega] at h
    rcases h with ⟨P, hP, e'⟩ | ⟨l1, l2, x1, k0, p1, k1, e1, h1, h2, h3, h4, hb1, e'⟩ |
      ⟨⟨k0, h1, h2⟩, h3, h4⟩
    · exact .inl ⟨P, hP, by simp only [e', panic_bind]⟩
    · obtain ⟨g1, g2, g3⟩ := primed_good h4 h3.det
      refine .inr (.inl ⟨l1, l2, x1, p1, k1, e1, h1, h2, g1, g2, hb1, ⟨k', hA, fun s s0 s1 => ?_⟩,
        by simp only [e', ok_bind]; rfl⟩)
      constructor
      · obtain ⟨c, c0, _, e2⟩ := h3.at_ s s0 s1
        intro e3
        apply g3 s s0 s1
        rw [e2, e3, mul_zero]
      · rw [← h3.val s0 s1, h4.rel.val]
    · exact .inr (.inr ⟨⟨k', k0, hA, h1, h2⟩, fun P hP => by simp only [h3 P hP, panic_bind],
        fun hP => by simp only [h4 hP, timeout_bind]⟩)

end Homographic

/-- A map that is bounded on (0,1) has no pole at 0. -/
theorem Coef4.no_pole {k : Coef4} (hdet : k.det ≠ 0) {B : ℚ}
    (hd : ∀ s, 0 < s → s < 1 → k.denAt s ≠ 0) (h : ∀ s, 0 < s → s < 1 → |k.val s| ≤ B) :
    k.d ≠ 0 := by
  intro e
  have hn : (k.n : ℚ) ≠ 0 := by
    intro h0
    have : k.n = 0 := by exact_mod_cast h0
    exact hdet (by simp [Coef4.det, e, this])
  have hn0 : 0 < |(k.n : ℚ)| := abs_pos.2 hn
  have hB : 0 ≤ B := le_trans (abs_nonneg _) (h (1 / 2) (by norm_num) (by norm_num))
  set C : ℚ := B * |(k.dx : ℚ)| + |(k.nx : ℚ)| with hC
  have hC0 : 0 ≤ C := by positivity
  set s : ℚ := |(k.n : ℚ)| / (C + |(k.n : ℚ)| + 1) with hs
  have hp : 0 < C + |(k.n : ℚ)| + 1 := by positivity
  have s0 : 0 < s := by positivity
  have s1 : s < 1 := by rw [hs, div_lt_one hp]; linarith
  have h1 := h s s0 s1
  have h2 := hd s s0 s1
  rw [Coef4.val_eq, abs_div, div_le_iff₀ (abs_pos.2 h2)] at h1
  have h3 : |k.denAt s| = |(k.dx : ℚ)| * s := by
    simp [Coef4.denAt, e, abs_mul, abs_of_pos s0]
  have h4 : |(k.n : ℚ)| ≤ |k.numAt s| + |(k.nx : ℚ)| * s := by
    have : (k.n : ℚ) = k.numAt s - k.nx * s := by unfold Coef4.numAt; ring
    have h5 := abs_sub (k.numAt s) (k.nx * s)
    rw [← this, abs_mul, abs_of_pos s0] at h5
    exact h5
  have h6 : |(k.n : ℚ)| ≤ C * s := by
    rw [h3] at h1
    rw [hC]
    linarith
  have h7 : C * s < |(k.n : ℚ)| := by
    rw [hs, ← mul_div_assoc, div_lt_iff₀ hp]
    nlinarith
  linarith

theorem Coef4.tame_of_bounded {k : Coef4} (hdet : k.det ≠ 0) {B : ℚ}
    (hd : ∀ s, 0 < s → s < 1 → k.denAt s ≠ 0) (h : ∀ s, 0 < s → s < 1 → |k.val s| ≤ B) :
    k.Tame := by
  refine .inr ⟨Coef4.no_pole hdet hd h, ?_⟩
  have e1 : ∀ s, Coef4.numAt ⟨-k.nx, k.n + k.nx, -k.dx, k.d + k.dx⟩ s = k.numAt (1 - s) :=
    fun s => by simp only [Coef4.numAt]; push_cast; ring
  have e2 : ∀ s, Coef4.denAt ⟨-k.nx, k.n + k.nx, -k.dx, k.d + k.dx⟩ s = k.denAt (1 - s) :=
    fun s => by simp only [Coef4.denAt]; push_cast; ring
  refine Coef4.no_pole (k := ⟨-k.nx, k.n + k.nx, -k.dx, k.d + k.dx⟩) (B := B) ?_ ?_ ?_
  · intro e
    apply hdet
    unfold Coef4.det at *
    simp only at e
    linarith
  · intro s s0 s1
    rw [e2]
    exact hd _ (by linarith) (by linarith)
  · intro s s0 s1
    rw [Coef4.val_eq, e1, e2, ← Coef4.val_eq]
    exact h _ (by linarith) (by linarith)

variable {cfg : Cfg} {p p' : Option Primer} {c c' : Clog} {nx n dx d : Int} {l : List Reduction}
  {m : Nat} {out : List (Option Reduction)}

private theorem settled_prefix {k k1 : Coef4} {l1 l3 : List Reduction} {p1} {out : List (Option Reduction)}
    (hA : Homographic.Absorbs p nx n dx d k) (hI : k1.Inv)
    (h : ∀ s, 0 < s → s < 1 → k.denAt (unread l1 s) ≠ 0 ∧
      k.val (unread l1 s) = applyPrimer p1 (k1.val s))
    (g : ∀ s, 0 < s → s < 1 → symbols m (k1.val (unread l3 s)) = out) :
    Settled p nx n dx d (l1 ++ l3) p1 m out := by
  refine hA.settled.2 fun s s0 s1 => ?_
  have hm := unread_mem l3 s0 s1
  obtain ⟨e1, e2⟩ := h _ hm.1 hm.2
  rw [unread_append]
  have hv := hI.val_mem hm.1 hm.2
  exact ⟨e1, _, hv.1, hv.2, e2, g s s0 s1⟩

theorem settled_is_enough {A M} (hw : Homographic.Within nx n dx d M)
    (hsafe : cfg.SafeUpTo A (M * 2 ^ l.length)) (hdet : nx * d - n * dx ≠ 0)
    (hl : Gives cfg c l c') (hs : Settled p nx n dx d l p' m out)
    (hpole : (∀ t, Begins l t → 0 < dx * applyPrimer p t + d) ∨
      ∃ B : ℚ, ∀ t, Begins l t → |(nx * applyPrimer p t + n) / (dx * applyPrimer p t + d)| ≤ B) :
    Ends A (fun f => Number.homographic cfg f (.Other p c) nx n dx d) fun v =>
      ∃ c0, v = .Other p' c0 ∧ Ends A (fun f => Clog.egests cfg f m c0) fun r =>
        r.1 = out ∧ ∃ l1 l2 c1 k, l = l1 ++ l2 ∧ Gives cfg c l1 c1 ∧
          Settled p nx n dx d l1 p' m out ∧ r.2 = .homographic c1 k := by
  obtain ⟨f0, hl⟩ := hl
  set F := max f0 (l.length + 1) with hF
  have hR : Reads (Clog.egest cfg F) l c c' := reads_iff.2 (hl F (by omega))
  rcases Homographic.make_reads (p := p) hw hsafe hdet (by omega) hR with ⟨P, hP, e⟩ |
    ⟨l1, l2, x1, p1, k1, rfl, h1, h2, hI, hd, hb, ⟨k, hA, h3⟩, e⟩ | ⟨⟨k, k0, hA, ha, hn⟩, _⟩
  · exact .inr ⟨P, FuelMono.panics (Number.homographic_mono _ _ _ _ _ _) F e, hP⟩
  · have hs' := hA.settled.1 hs
    have key : ∀ s, 0 < s → s < 1 → p' = p1 ∧ symbols m (k1.val (unread l2 s)) = out := by
      intro s s0 s1
      have hm := unread_mem l2 s0 s1
      obtain ⟨-, u, u0, u1, e1, e2⟩ := hs' s s0 s1
      obtain ⟨-, e3⟩ := h3 _ hm.1 hm.2
      have hv := hI.val_mem hm.1 hm.2
      rw [unread_append, e3] at e1
      obtain ⟨e4, e5⟩ := applyPrimer_inj u0 u1 hv.1 hv.2 e1.symm
      exact ⟨e4, by rw [← e5]; exact e2⟩
    obtain rfl := (key (1 / 2) (by norm_num) (by norm_num)).1
    refine .inl ⟨_, FuelMono.returns (Number.homographic_mono _ _ _ _ _ _) F e, _, rfl, ?_⟩
    have hl2 : l2.length < F := by
      rw [List.length_append] at hF; omega
    have hs2 : cfg.SafeUpTo A (M * 2 ^ l1.length * 2 ^ l2.length) := by
      convert hsafe using 1; rw [List.length_append, pow_add]; ring
    rcases Clog.egests_reads m hs2 hb hl2 h2 hI hd with ⟨P, hP, e'⟩ |
      ⟨l3, l4, x2, k2, out', rfl, g1, g2, g3, e'⟩ | ⟨g1, _⟩
    · exact .inr ⟨P, FuelMono.panics (Clog.egests_mono _ _ _) (F + 1) e', hP⟩
    · refine .inl ⟨_, FuelMono.returns (Clog.egests_mono _ _ _) (F + 1) e', ?_⟩
      have ho : out' = out := by
        have a1 := (key (1 / 2) (by norm_num) (by norm_num)).2
        have hm := unread_mem l4 (s := 1 / 2) (by norm_num) (by norm_num)
        rw [unread_append] at a1
        rw [← a1, g3 _ hm.1 hm.2]
      subst ho
      exact ⟨rfl, l1 ++ l3, l4, x2, k2, by rw [List.append_assoc], (h1.append g1).gives,
        settled_prefix hA hI h3 g3, rfl⟩
    · exact (g1 out fun s s0 s1 => (key s s0 s1).2).elim
  · exfalso
    have hs' := hA.settled.1 hs
    have hsure : k0.Sure p' := by
      intro s s0 s1
      obtain ⟨e1, u, u0, u1, e2, -⟩ := hs' s s0 s1
      obtain ⟨c, c0, -, e3⟩ := ha.at_ s s0 s1
      exact ⟨by rw [e3]; exact mul_ne_zero c0.ne' e1, u, u0, u1, by rw [ha.val s0 s1]; exact e2⟩
    have ht : k0.Tame := by
      rcases hpole with hp | ⟨B, hB⟩
      · refine .inl fun s s0 s1 => ?_
        have hm := unread_mem l s0 s1
        obtain ⟨c, c0, -, e3⟩ := ha.at_ s s0 s1
        obtain ⟨c2, c20, -, e4⟩ := hA.at_ _ hm.1 hm.2
        have := hp _ ((symbols_iff_unread l _).2 ⟨s, s0, s1, rfl⟩)
        rw [e3, e4]; positivity
      · refine Coef4.tame_of_bounded (B := B) ha.det (fun s s0 s1 => (hsure s s0 s1).1) fun s s0 s1 => ?_
        have hm := unread_mem l s0 s1
        rw [ha.val s0 s1, hA.val hm.1 hm.2]
        exact hB _ ((symbols_iff_unread l _).2 ⟨s, s0, s1, rfl⟩)
    obtain ⟨σ, hσ⟩ := hsure.decided ht
    exact hn p' σ hσ

/-- When the primer and the first `m` symbols of the result are settled by the first symbols `l` of
the operand, `homographic` and `m` calls of `egest` on the result give them without reading more
than `l`: the operand inside the result has given a beginning `l1` of `l`, which settles the
answers too. -/
theorem C59_settled_is_enough (hc : cfg.overflowChecks = true) (hdet : nx * d - n * dx ≠ 0)
    (hl : Gives cfg c l c') (hs : Settled p nx n dx d l p' m out)
    (hpole : (∀ t, Begins l t → 0 < dx * applyPrimer p t + d) ∨
      ∃ B : ℚ, ∀ t, Begins l t → |(nx * applyPrimer p t + n) / (dx * applyPrimer p t + d)| ≤ B) :
    Ends Overflow (fun f => Number.homographic cfg f (.Other p c) nx n dx d) fun v =>
      ∃ c0, v = .Other p' c0 ∧ Ends Overflow (fun f => Clog.egests cfg f m c0) fun r =>
        r.1 = out ∧ ∃ l1 l2 c1 k, l = l1 ++ l2 ∧ Gives cfg c l1 c1 ∧
          Settled p nx n dx d l1 p' m out ∧ r.2 = .homographic c1 k := by
  obtain ⟨M, hw⟩ := Homographic.exists_within nx n dx d
  exact settled_is_enough hw (safeUpTo_overflow hc _) hdet hl hs hpole

/-- As above, when `l` is the first beginning that settles the answers: then exactly `l` is read. -/
theorem C59_reads_exactly (hc : cfg.overflowChecks = true) (hdet : nx * d - n * dx ≠ 0)
    (hl : Gives cfg c l c') (hs : Settled p nx n dx d l p' m out)
    (hpole : (∀ t, Begins l t → 0 < dx * applyPrimer p t + d) ∨
      ∃ B : ℚ, ∀ t, Begins l t → |(nx * applyPrimer p t + n) / (dx * applyPrimer p t + d)| ≤ B)
    (hfirst : ∀ l1 l2, l = l1 ++ l2 → Settled p nx n dx d l1 p' m out → l1 = l) :
    Ends Overflow (fun f => Number.homographic cfg f (.Other p c) nx n dx d) fun v =>
      ∃ c0, v = .Other p' c0 ∧ Ends Overflow (fun f => Clog.egests cfg f m c0) fun r =>
        ∃ k, r = (out, .homographic c' k) := by
  refine (C59_settled_is_enough hc hdet hl hs hpole).mono ?_
  rintro v ⟨c0, rfl, h⟩
  refine ⟨c0, rfl, h.mono ?_⟩
  rintro ⟨o, c2⟩ ⟨rfl, l1, l2, c1, k, e, h1, h2, rfl⟩
  obtain rfl := hfirst l1 l2 e h2
  obtain ⟨f1, h1⟩ := h1
  obtain ⟨f2, hl⟩ := hl
  have := (h1 (max f1 f2) (by omega)).symm.trans (hl (max f1 f2) (by omega))
  simp only [Out.ok.injEq, Prod.mk.injEq] at this
  exact ⟨k, by rw [this.2]⟩

/-- When no beginning of `l` settles the primer and the first `m` symbols of the result, more of
the operand than `l` is read before they are given: if the operand panics after `l`, so does
`homographic`, or the `m` calls of `egest` on the result. -/
theorem C59_unsettled_reads_on (hc : cfg.overflowChecks = true) (hdet : nx * d - n * dx ≠ 0)
    (hl : Gives cfg c l c') (hs : ∀ l1 l2 p' out, l = l1 ++ l2 → ¬Settled p nx n dx d l1 p' m out)
    {P : Panic} (hP : Panics (fun f => Clog.egest cfg f c') P) :
    Ends (fun e => Overflow e ∨ e = P)
      (fun f => Number.homographic cfg f (.Other p c) nx n dx d) fun v =>
      ∃ p1 c0, v = .Other p1 c0 ∧
        Ends (fun e => Overflow e ∨ e = P) (fun f => Clog.egests cfg f m c0) fun _ => False := by
  obtain ⟨f0, hl⟩ := hl
  obtain ⟨f1, hP⟩ := hP
  set F := max (max f0 f1) (l.length + 1) with hF
  have hR : Reads (Clog.egest cfg F) l c c' := reads_iff.2 (hl F (by omega))
  have hP' := hP F (by omega)
  obtain ⟨M, hw⟩ := Homographic.exists_within nx n dx d
  rcases Homographic.make_reads (p := p) hw (safeUpTo_overflow hc _) hdet (by omega) hR with ⟨Q, hQ, e⟩ |
    ⟨l1, l2, x1, p1, k1, rfl, h1, h2, hI, hd, hb, ⟨k, hA, h3⟩, e⟩ | ⟨_, h, _⟩
  · exact .inr ⟨Q, FuelMono.panics (Number.homographic_mono _ _ _ _ _ _) F e, .inl hQ⟩
  · refine .inl ⟨_, FuelMono.returns (Number.homographic_mono _ _ _ _ _ _) F e, p1, _, rfl, ?_⟩
    have hl2 : l2.length < F := by
      rw [List.length_append] at hF; omega
    rcases Clog.egests_reads m (safeUpTo_overflow hc _) hb hl2 h2 hI hd with ⟨Q, hQ, e'⟩ |
      ⟨l3, l4, x2, k2, out', rfl, g1, g2, g3, e'⟩ | ⟨_, g, _⟩
    · exact .inr ⟨Q, FuelMono.panics (Clog.egests_mono _ _ _) (F + 1) e', .inl hQ⟩
    · exact (hs (l1 ++ l3) l4 p1 out' (by rw [List.append_assoc]) (settled_prefix hA hI h3 g3)).elim
    · exact .inr ⟨P, FuelMono.panics (Clog.egests_mono _ _ _) (F + 1) (g P hP'), .inr rfl⟩
  · exact .inr ⟨P, FuelMono.panics (Number.homographic_mono _ _ _ _ _ _) F (h P hP'), .inr rfl⟩

/-- The same when the operand never answers after `l`: neither do they, unless they panic with an
overflow. -/
theorem C59_unsettled_waits (hc : cfg.overflowChecks = true) (hdet : nx * d - n * dx ≠ 0)
    (hl : Gives cfg c l c') (hs : ∀ l1 l2 p' out, l = l1 ++ l2 → ¬Settled p nx n dx d l1 p' m out)
    (hP : Diverges (fun f => Clog.egest cfg f c')) :
    May Overflow (fun f => Number.homographic cfg f (.Other p c) nx n dx d) fun v =>
      ∃ p1 c0, v = .Other p1 c0 ∧
        May Overflow (fun f => Clog.egests cfg f m c0) fun _ => False := by
  obtain ⟨f0, hl⟩ := hl
  intro f
  set F := max (max f0 f) (l.length + 1) with hF
  have hR : Reads (Clog.egest cfg F) l c c' := reads_iff.2 (hl F (by omega))
  have hmono := Number.homographic_mono cfg (.Other p c) nx n dx d f F (by omega)
  obtain ⟨M, hw⟩ := Homographic.exists_within nx n dx d
  rcases Homographic.make_reads (p := p) hw (safeUpTo_overflow hc _) hdet (by omega) hR with ⟨Q, hQ, e⟩ |
    ⟨l1, l2, x1, p1, k1, rfl, h1, h2, hI, hd, hb, ⟨k, hA, h3⟩, e⟩ | ⟨_, _, h⟩
  · constructor
    · intro v hv; cases e.symm.trans (hmono.ok hv)
    · intro Q' hv; cases e.symm.trans (hmono.panic hv); exact hQ
  · constructor
    · intro v hv
      cases e.symm.trans (hmono.ok hv)
      refine ⟨p1, _, rfl, fun g => ?_⟩
      set G := max F g with hG
      have hl2 : l2.length < G := by
        rw [List.length_append] at hF; omega
      have hmono' := Clog.egests_mono cfg m (.homographic x1 k1) g (G + 1) (by omega)
      rcases Clog.egests_reads m (safeUpTo_overflow hc _) hb hl2 (h2.later (by omega)) hI hd with ⟨Q, hQ, e'⟩ |
        ⟨l3, l4, x2, k2, out', rfl, g1, g2, g3, e'⟩ | ⟨_, _, g'⟩
      · constructor
        · intro v hv; cases e'.symm.trans (hmono'.ok hv)
        · intro Q' hv; cases e'.symm.trans (hmono'.panic hv); exact hQ
      · exact (hs (l1 ++ l3) l4 p1 out' (by rw [List.append_assoc])
          (settled_prefix hA hI h3 g3)).elim
      · have e' := g' (hP G)
        constructor
        · intro v hv; cases e'.symm.trans (hmono'.ok hv)
        · intro Q' hv; cases e'.symm.trans (hmono'.panic hv)
    · intro Q' hv; cases e.symm.trans (hmono.panic hv)
  · have e := h (hP F)
    constructor
    · intro v hv; cases e.symm.trans (hmono.ok hv)
    · intro Q' hv; cases e.symm.trans (hmono.panic hv)

/-! ## Examples -/

private theorem settled_succ : Settled none 1 1 0 1 [.Amplify] (some .Turn) 2
    [some .Uncover, some .Amplify] := by
  rintro t ⟨h0, h1, h2⟩
  have ht : t < 1 / 2 := sym_eq_amplify.1 (by simpa [symbols_succ, symbols] using h2)
  have hu : 1 / 2 < 1 / (1 + t) := by
    rw [div_lt_div_iff₀ (by norm_num) (by linarith)]; linarith
  refine ⟨by simp, 1 / (1 + t), by positivity, by rw [div_lt_one (by linarith)]; linarith, ?_, ?_⟩
  · simp only [applyPrimer, one_div_one_div]
    push_cast
    rw [zero_mul, zero_add, div_one]
    ring
  · rw [symbols_succ, sym_gt hu, next_gt hu, one_div_one_div, add_sub_cancel_left, symbols_succ,
      sym_lt ht]
    rfl

/-- `x+1` is above 1, and 1/(x+1) above 1/2, whatever `x` in (0,1) is: so `Turn` and `Uncover` come
out before anything is read.  The next symbol depends on the first symbol of `x`.  Of 3/7, with
symbols `Amplify`, `Uncover`, `Amplify`, `Amplify`, `Uncover`, `Amplify`, only the first is read. -/
example : Ends Overflow (fun f => Number.homographic debug64 f (.Other none (.ratio ⟨3, 7⟩)) 1 1 0 1)
    fun v => ∃ c0, v = .Other (some .Turn) c0 ∧
      Ends Overflow (fun f => Clog.egests debug64 f 2 c0) fun r =>
        ∃ k, r = ([some .Uncover, some .Amplify], .homographic (.ratio ⟨6, 7⟩) k) := by
  refine C59_reads_exactly (l := [.Amplify]) rfl (by decide)
    (FuelMono.returns (Clog.egests_mono _ _ _) 5 (by decide)) settled_succ
    (.inl fun t _ => by norm_num) ?_
  intro l1 l2 e h
  rcases l1 with _ | ⟨r, l1⟩
  · exfalso
    obtain ⟨-, u, u0, u1, e1, e2⟩ := h (3 / 4) ⟨by norm_num, by norm_num, rfl⟩
    simp only [applyPrimer] at e1
    have hu : u = 4 / 7 := by
      have : 1 / u = 7 / 4 := by rw [← e1]; norm_num
      have := congrArg (fun x : ℚ => 1 / x) this
      simp only [one_div_one_div] at this
      rw [this]; norm_num
    subst hu
    rw [show symbols 2 (4 / 7 : ℚ) = [some .Uncover, some .Uncover] by norm_num [symbols]] at e2
    cases e2
  · simp only [List.cons_append, List.cons.injEq] at e
    obtain ⟨rfl, e⟩ := e
    have := List.append_eq_nil_iff.1 e.symm
    rw [this.1]

private theorem unsettled_id (p : Option Primer) (out : List (Option Reduction)) :
    ¬Settled none 1 0 0 1 [] p 1 out := by
  intro h
  obtain ⟨-, u, u0, u1, e1, e2⟩ := h (1 / 4) ⟨by norm_num, by norm_num, rfl⟩
  obtain ⟨-, v, v0, v1, e3, e4⟩ := h (3 / 4) ⟨by norm_num, by norm_num, rfl⟩
  obtain ⟨rfl, rfl⟩ := applyPrimer_inj (p := none) (x := 1 / 4) (by norm_num) (by norm_num) u0 u1
    (by rw [← e1]; norm_num [applyPrimer])
  obtain ⟨-, rfl⟩ := applyPrimer_inj (p := none) (x := 3 / 4) (by norm_num) (by norm_num) v0 v1
    (by rw [← e3]; norm_num [applyPrimer])
  rw [← e4] at e2
  norm_num [symbols] at e2
  cases e2

/-- `1*x` for what is left of `ratio(isize::MAX, 1) + 1` after 62 symbols, a clog that panics at once:
the first symbol is not given. -/
example := C59_unsettled_reads_on (cfg := debug64) (p := none) (nx := 1) (n := 0) (dx := 0) (d := 1)
  (P := .unwrapNone)
  (c := .homographic (.ratio ⟨4611686018427387904, 9223372036854775807⟩)
      ⟨4611686018427387904, 0, 1, 4611686018427387904⟩) (l := []) (m := 1) rfl (by decide)
  ⟨0, fun _ _ => rfl⟩ (by
    rintro l1 l2 p' out e
    rw [(List.append_eq_nil_iff.1 e.symm).1]
    exact unsettled_id p' out)
  (FuelMono.panics (Clog.egest_mono _ _) 5 (by decide +kernel))

theorem endless : Diverges (fun f => Clog.egest debug64 f
    (.combine (.homographic (.ratio ⟨3, 5⟩) ⟨0, 0, 1, 1⟩) (.homographic (.ratio ⟨3, 5⟩) ⟨0, 0, 1, 1⟩)
      ⟨0, 1, 2, 0, 0, 3, 3, 0⟩)) := by
  refine FuelMono.diverges (Clog.egest_mono _ _) 3 fun f hf => ?_
  obtain ⟨f, rfl⟩ : ∃ f', f = f' + 1 := ⟨f - 1, by omega⟩
  have hE : Clog.egest debug64 f (.homographic (.ratio ⟨3, 5⟩) ⟨0, 0, 1, 1⟩) =
      .ok (some .Amplify, .homographic (.ratio ⟨3, 5⟩) ⟨0, 0, 1, 1⟩) :=
    (Clog.egest_mono debug64 _ 2 f (by omega)).ok rfl
  have key : ∀ j, Combine.egest debug64 (Clog.egest debug64 f) j
      ⟨.homographic (.ratio ⟨3, 5⟩) ⟨0, 0, 1, 1⟩, .homographic (.ratio ⟨3, 5⟩) ⟨0, 0, 1, 1⟩,
        ⟨0, 1, 2, 0, 0, 3, 3, 0⟩⟩ = .timeout := by
    intro j
    induction j with
    | zero => rfl
    | succ j ih =>
      have e1 : (⟨0, 1, 2, 0, 0, 3, 3, 0⟩ : Coef8).reductionAttempt debug64 = .ok none := by decide
      have e2 : (⟨0, 1, 2, 0, 0, 3, 3, 0⟩ : Coef8).ingestX debug64 .Amplify =
        .ok ⟨0, 1, 4, 0, 0, 3, 6, 0⟩ := by decide
      have e3 : (⟨0, 1, 4, 0, 0, 3, 6, 0⟩ : Coef8).ingestY debug64 .Amplify =
        .ok ⟨0, 1, 2, 0, 0, 3, 3, 0⟩ := by decide
      simp only [Combine.egest, e1, ok_bind, Combine.reductionIngest, hE, e2, e3, pure_eq, ih]
  simp only [Clog.egest, Strategy.egest, key, timeout_bind]

/-- `1*x` for the clog of (ε + 2ε')/(3ε + 3ε'), which no call of this crate makes: it reads its
operands forever. -/
example := C59_unsettled_waits (cfg := debug64) (p := none) (nx := 1) (n := 0) (dx := 0) (d := 1)
  (l := []) (m := 1) rfl (by decide) ⟨0, fun _ _ => rfl⟩ (by
    rintro l1 l2 p' out e
    rw [(List.append_eq_nil_iff.1 e.symm).1]
    exact unsettled_id p' out) endless

/-- The condition about poles is needed: 1/x is below -1 whatever `x` in (-1,0) is, but
`homographic` reads all symbols of -1/16 before it says so, and then returns a fraction. -/
theorem C59_pole_needed :
    Settled (some .Reflect) 0 1 1 0 [] (some .Ground) 0 [] ∧
    Returns (fun f => Number.homographic debug64 f (.Other (some .Reflect) (.ratio ⟨1, 16⟩)) 0 1 1 0)
      (.Other (some .Ground) (.ratio ⟨1, 16⟩)) := by
  refine ⟨?_, FuelMono.returns (Number.homographic_mono _ _ _ _ _ _) 20 (by decide +kernel)⟩
  rintro t ⟨h0, h1, -⟩
  refine ⟨by simp only [applyPrimer]; push_cast; linarith, t, h0, h1, ?_, rfl⟩
  simp only [applyPrimer]
  push_cast
  rw [zero_mul, zero_add, one_mul, add_zero, div_neg]

end Clarith
