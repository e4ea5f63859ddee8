import Verif.Proofs.Depth
import Verif.Properties.Release
import Verif.Properties.Unchecked
import Verif.Properties.Length

/-! # How deep the recursion goes (C48)

In the model every recursive call of `prime`, `egest`, `consume`, `compare_clogs` and
`Clog::egest` gets one unit of fuel less than its caller, and the operand of a strategy is read with
one unit less than the strategy.  So a call that does not time out with fuel `F` makes no chain of
more than `F` recursive calls of one of these functions and nests at most `F` strategies. -/

namespace Clarith

open Out Spec

theorem Number.operand {cfg : Cfg} {A : Panic → Prop} {F L : Nat} {p : Option Primer} {c : Clog}
    {q : ℚ} (h : Number.Denotes cfg A (.Other p c) q) (hL : SymbolCount q L)
    (hF : Number.ReadsWithin cfg F (.Other p c)) :
    ∃ l, Clog.Operand cfg A F c l ∧ l.length ≤ L := by
  obtain ⟨v, l, h1, h2, h4, -⟩ := h.in_count hL
  exact ⟨l, ⟨⟨v, h1, h2⟩, hF⟩, h4⟩

/-- Reading a number built by `ratio` or `ratio_u` recurses once: `Clog::egest` itself. -/
theorem C48_ratio_depth (cfg : Cfg) (n : Number) :
    (∀ num den, Number.ratio cfg num den = .ok n → Number.ReadsWithin cfg 1 n) ∧
    (∀ positive num den, Number.ratioU positive num den = .ok n → Number.ReadsWithin cfg 1 n) := by
  have key : ∀ positive num den, Sat (fun _ => True) (Number.ratioU positive num den)
      (Number.ReadsWithin cfg 1) := by
    intro positive num den
    refine Sat.bind (Ratio.new_total _ _ _).sat ?_
    rintro ⟨sp, pr, ra⟩ -
    rcases sp with _ | s
    · rcases ra with _ | r
      · trivial
      · exact Clog.readsWithin_ratio cfg r
    · trivial
  refine ⟨fun num den h => ?_, fun positive num den h => ?_⟩
  · have : Sat (fun _ => True) (Number.ratio cfg num den) (Number.ReadsWithin cfg 1) :=
      Sat.bind (Ratio.magnitude_total _ _).sat fun _ _ =>
        Sat.bind (Ratio.magnitude_total _ _).sat fun _ _ => key _ _ _
    rw [h] at this
    exact this
  · have := key positive num den
    rw [h] at this
    exact this

/-- -22/7. -/
example := (C48_ratio_depth debug64 (.Other (some .Ground) (.ratio ⟨7, 22⟩))).1 (-22) 7
  (by decide +kernel)

theorem Number.homographic_depth {cfg : Cfg} {A : Panic → Prop} {F L : Nat} {x : Number} {q : ℚ}
    (hx : Number.Denotes cfg A x q) (hL : SymbolCount q L) (hF : Number.ReadsWithin cfg F x)
    (hLF : L < F) (nx n dx d : Int) {f : Nat} (hf : F ≤ f) :
    Sat (fun _ => True) (Number.homographic cfg f x nx n dx d)
      (Number.ReadsWithin cfg (F + 1)) := by
  have hnew : Sat (fun _ => True) (Homographic.new cfg (Clog.egest cfg f) f x nx n dx d)
      (Homographic.Primed.Within cfg A F L) := by
    have hr : ∀ n d, Sat (fun _ => True) (Homographic.asRatio cfg n d)
        (Homographic.Primed.Within cfg A F L) := fun n d =>
      Sat.bind (Ratio.newI_some cfg n d) fun _ h => h
    cases x with
    | Special s =>
      unfold Homographic.new
      split
      · exact hr _ _
      · cases s
        · exact Sat.bind (Cfg.csub_total _ _ _).sat fun _ _ =>
            Sat.bind (Cfg.csub_total _ _ _).sat fun _ _ => hr _ _
        · exact hr _ _
        · exact Sat.bind (Cfg.cadd_total _ _ _).sat fun _ _ =>
            Sat.bind (Cfg.cadd_total _ _ _).sat fun _ _ => hr _ _
    | Other p c =>
      obtain ⟨l, hc, hl⟩ := Number.operand hx hL hF
      refine (Homographic.new_depth (Clog.egest_le hf) hc (by omega) nx n dx d).mono ?_
      rintro ⟨_, _, _, _ | h⟩ hr
      · exact hr
      · obtain ⟨l', h1, h2⟩ := hr
        exact ⟨l', h1, h2.trans hl⟩
  refine Sat.bind hnew ?_
  rintro ⟨sp, pr, ra, ho⟩ hr
  rcases sp with _ | s
  · rcases ra with _ | r
    · rcases ho with _ | h
      · trivial
      · obtain ⟨l, h1, h2⟩ := hr
        exact Clog.readsWithin_homographic h1 (by omega) h.k
    · exact (Clog.readsWithin_ratio cfg r).mono (by omega)
  · trivial

/-- If reading `x` needs depth `F` and `x` has fewer than `F` symbols, then `homographic` needs no
more than depth `F`, and reading its result no more than depth `F + 1`: for all coefficients, in
every build. -/
theorem C48_homographic_depth (cfg : Cfg) (A : Panic → Prop) (x : Number) (q : ℚ)
    (hx : Number.Denotes cfg A x q) (L : Nat) (hL : SymbolCount q L) (F : Nat)
    (hF : Number.ReadsWithin cfg F x) (hLF : L < F) (nx n dx d : Int) :
    (∀ f ≥ F, Number.homographic cfg f x nx n dx d ≠ .timeout) ∧
    (∀ f r, Number.homographic cfg f x nx n dx d = .ok r → Number.ReadsWithin cfg (F + 1) r) := by
  refine ⟨fun f hf => (Number.homographic_depth hx hL hF hLF nx n dx d hf).ne_timeout,
    fun f r h => ?_⟩
  have h1 := Number.homographic_depth hx hL hF hLF nx n dx d le_rfl
  rcases (Number.homographic_mono cfg x nx n dx d).ok_or_timeout h F with e | e
  · exact absurd e h1.ne_timeout
  · rw [show _ = Out.ok _ from e] at h1
    exact h1

/-- 3/5 has 2 symbols; depth 3 suffices for any function of it. -/
example := C48_homographic_depth debug64 NoPanic _ _ (denotes_three_fifths _ _) 2
  symbolCount_three_fifths 3 ((Clog.readsWithin_ratio _ _).mono (by decide)) (by decide) 7 (-2) 5 1

theorem Number.combine_depth {cfg : Cfg} {A : Panic → Prop} {F Lx Ly : Nat} {x y : Number}
    {q r : ℚ} (hx : Number.Denotes cfg A x q) (hy : Number.Denotes cfg A y r)
    (hLx : SymbolCount q Lx) (hLy : SymbolCount r Ly) (hFx : Number.ReadsWithin cfg F x)
    (hFy : Number.ReadsWithin cfg F y) (hLF : max Lx Ly < F) (nxy nx ny n dxy dx dy d : Int)
    {f : Nat} (hf : F < f) :
    Sat (fun _ => True) (Number.combine cfg f x y nxy nx ny n dxy dx dy d)
      (Number.ReadsWithin cfg (F + 2)) := by
  have hnew : Sat (fun _ => True)
      (Combine.new cfg (Clog.egest cfg f) f x y ⟨nxy, nx, ny, n, dxy, dx, dy, d⟩)
      (Combine.Primed.Within cfg A F (max Lx Ly)) := by
    have hh : ∀ (z : Number) (t : ℚ) (L : Nat), Number.Denotes cfg A z t → SymbolCount t L →
        Number.ReadsWithin cfg F z → L ≤ max Lx Ly → ∀ nx n dx d,
        Sat (fun _ => True) (Combine.asHomographic cfg (Clog.egest cfg f) f z nx n dx d)
          (Combine.Primed.Within cfg A F (max Lx Ly)) := by
      intro z t L hz hL hF hLM nx n dx d
      refine Sat.bind (Q := Homographic.Primed.Within cfg A F L) ?_ ?_
      · cases z with
        | Special s =>
          have hr : ∀ n d, Sat (fun _ => True) (Homographic.asRatio cfg n d)
              (Homographic.Primed.Within cfg A F L) := fun n d =>
            Sat.bind (Ratio.newI_some cfg n d) fun _ h => h
          unfold Homographic.new
          split
          · exact hr _ _
          · cases s
            · exact Sat.bind (Cfg.csub_total _ _ _).sat fun _ _ =>
                Sat.bind (Cfg.csub_total _ _ _).sat fun _ _ => hr _ _
            · exact hr _ _
            · exact Sat.bind (Cfg.cadd_total _ _ _).sat fun _ _ =>
                Sat.bind (Cfg.cadd_total _ _ _).sat fun _ _ => hr _ _
        | Other p c =>
          obtain ⟨l, hc, hl⟩ := Number.operand hz hL hF
          refine (Homographic.new_depth (Clog.egest_le hf.le) hc (by omega) nx n dx d).mono ?_
          rintro ⟨_, _, _, _ | h⟩ hr
          · exact hr
          · obtain ⟨l', h1, h2⟩ := hr
            exact ⟨l', h1, h2.trans hl⟩
      · rintro ⟨sp, pr, ra, ho⟩ hr
        exact Sat.pure ((Combine.primed_of_homographic hr).mono hLM)
    cases x with
    | Special s =>
      have hh := hh y r Ly hy hLy hFy (by omega)
      cases s
      · exact Sat.bind (Cfg.csub_total _ _ _).sat fun _ _ =>
          Sat.bind (Cfg.csub_total _ _ _).sat fun _ _ =>
          Sat.bind (Cfg.csub_total _ _ _).sat fun _ _ =>
          Sat.bind (Cfg.csub_total _ _ _).sat fun _ _ => hh _ _ _ _
      · exact hh _ _ _ _
      · exact Sat.bind (Cfg.cadd_total _ _ _).sat fun _ _ =>
          Sat.bind (Cfg.cadd_total _ _ _).sat fun _ _ =>
          Sat.bind (Cfg.cadd_total _ _ _).sat fun _ _ =>
          Sat.bind (Cfg.cadd_total _ _ _).sat fun _ _ => hh _ _ _ _
    | Other px cx =>
      cases y with
      | Special s =>
        have hh := hh (.Other px cx) q Lx hx hLx hFx (by omega)
        cases s
        · exact Sat.bind (Cfg.csub_total _ _ _).sat fun _ _ =>
            Sat.bind (Cfg.csub_total _ _ _).sat fun _ _ =>
            Sat.bind (Cfg.csub_total _ _ _).sat fun _ _ =>
            Sat.bind (Cfg.csub_total _ _ _).sat fun _ _ => hh _ _ _ _
        · exact hh _ _ _ _
        · exact Sat.bind (Cfg.cadd_total _ _ _).sat fun _ _ =>
            Sat.bind (Cfg.cadd_total _ _ _).sat fun _ _ =>
            Sat.bind (Cfg.cadd_total _ _ _).sat fun _ _ =>
            Sat.bind (Cfg.cadd_total _ _ _).sat fun _ _ => hh _ _ _ _
      | Other py cy =>
        obtain ⟨lx, hcx, hlx⟩ := Number.operand hx hLx hFx
        obtain ⟨ly, hcy, hly⟩ := Number.operand hy hLy hFy
        refine Sat.bind (Coef8.absorbPrimerX_total _ _ _).sat fun _ _ =>
          Sat.bind (Coef8.absorbPrimerY_total _ _ _).sat fun _ _ => ?_
        exact (Combine.prime_depth (Clog.egest_le hf.le) hcx hcy (by omega)).mono fun r hr =>
          hr.mono (by omega)
  refine Sat.bind hnew ?_
  rintro ⟨sp, pr, ra, ho, co⟩ ⟨h1, h2⟩
  rcases sp with _ | s
  · rcases ra with _ | r
    · rcases ho with _ | h
      · rcases co with _ | c
        · trivial
        · obtain ⟨lx, ly, h3, h4, h5⟩ := h2 c rfl
          exact Clog.readsWithin_combine h3 h4 (by omega) c.k
      · obtain ⟨l, h3, h4⟩ := h1 h rfl
        exact (Clog.readsWithin_homographic h3 (by omega) h.k).mono (by omega)
    · exact (Clog.readsWithin_ratio cfg r).mono (by omega)
  · trivial

/-- If reading `x` and `y` needs depth `F` and both have fewer than `F` symbols, then `combine`
needs no more than depth `F + 1`, and reading its result no more than depth `F + 2`. -/
theorem C48_combine_depth (cfg : Cfg) (A : Panic → Prop) (x y : Number) (q r : ℚ)
    (hx : Number.Denotes cfg A x q) (hy : Number.Denotes cfg A y r) (Lx Ly : Nat)
    (hLx : SymbolCount q Lx) (hLy : SymbolCount r Ly) (F : Nat) (hFx : Number.ReadsWithin cfg F x)
    (hFy : Number.ReadsWithin cfg F y) (hLF : max Lx Ly < F) (nxy nx ny n dxy dx dy d : Int) :
    (∀ f > F, Number.combine cfg f x y nxy nx ny n dxy dx dy d ≠ .timeout) ∧
    (∀ f t, Number.combine cfg f x y nxy nx ny n dxy dx dy d = .ok t →
      Number.ReadsWithin cfg (F + 2) t) := by
  refine ⟨fun f hf => (Number.combine_depth hx hy hLx hLy hFx hFy hLF nxy nx ny n dxy dx dy d
    hf).ne_timeout, fun f t h => ?_⟩
  have h1 := Number.combine_depth hx hy hLx hLy hFx hFy hLF nxy nx ny n dxy dx dy d
    (Nat.lt_succ_self F)
  rcases (Number.combine_mono cfg x y nxy nx ny n dxy dx dy d).ok_or_timeout h (F + 1) with e | e
  · exact absurd e h1.ne_timeout
  · rw [show _ = Out.ok _ from e] at h1
    exact h1

/-- 3/5 and the special number -1. -/
example := C48_combine_depth debug64 NoPanic _ (.Special .NegOne) _ (-1) (denotes_three_fifths _ _)
  rfl 2 0 symbolCount_three_fifths (.inl ⟨.NegOne, rfl⟩) 3
  ((Clog.readsWithin_ratio _ _).mono (by decide)) trivial (by decide) 1 2 3 4 5 6 7 8

/-- 3/5 and itself. -/
example := C48_combine_depth debug64 NoPanic _ _ _ _ (denotes_three_fifths _ _)
  (denotes_three_fifths _ _) 2 2 symbolCount_three_fifths symbolCount_three_fifths 3
  ((Clog.readsWithin_ratio _ _).mono (by decide)) ((Clog.readsWithin_ratio _ _).mono (by decide))
  (by decide) 0 1 (-1) 0 0 0 0 1

/-- If reading both operands needs depth `F` and one of them has fewer than `F` symbols, `compare`
makes fewer than `F` rounds. -/
theorem C48_compare_depth (cfg : Cfg) (A : Panic → Prop) (x y : Number) (q r : ℚ)
    (hx : Number.Denotes cfg A x q) (hy : Number.Denotes cfg A y r) (L : Nat)
    (hL : SymbolCount q L ∨ SymbolCount r L) (F : Nat) (hFx : Number.ReadsWithin cfg F x)
    (hFy : Number.ReadsWithin cfg F y) (hLF : L < F) :
    ∀ f ≥ F, Number.compare cfg f x y ≠ .timeout := by
  intro f hf
  cases x with
  | Special s => cases y <;> simp [Number.compare]
  | Other p1 c1 =>
    cases y with
    | Special s => simp [Number.compare]
    | Other p2 c2 =>
      have key : ∃ l1 l2, Clog.Operand cfg A F c1 l1 ∧ Clog.Operand cfg A F c2 l2 ∧
          min l1.length l2.length ≤ L := by
        obtain ⟨v1, h1, e1⟩ := hx
        obtain ⟨v2, h2, e2⟩ := hy
        obtain ⟨l1, hl1⟩ := exists_expands v1 h1.1 h1.2.1
        obtain ⟨l2, hl2⟩ := exists_expands v2 h2.1 h2.2.1
        rcases hL with hL | hL
        · obtain ⟨l, hc, hl⟩ := Number.operand ⟨v1, h1, e1⟩ hL hFx
          exact ⟨l, l2, hc, ⟨⟨v2, h2, hl2⟩, hFy⟩, by omega⟩
        · obtain ⟨l, hc, hl⟩ := Number.operand ⟨v2, h2, e2⟩ hL hFy
          exact ⟨l1, l, ⟨⟨v1, h1, hl1⟩, hFx⟩, hc, by omega⟩
      obtain ⟨l1, l2, h1, h2, hl⟩ := key
      exact (Total.bind (Compare.compareClogs_depth (Clog.egest_le hf) h1 h2 (by omega))
        fun _ => .pure _).ne

example := C48_compare_depth debug64 NoPanic _ _ _ _ (denotes_three_fifths _ _)
  (denotes_minus_seven_halves _ _) 2 (.inl symbolCount_three_fifths) 3
  ((Clog.readsWithin_ratio _ _).mono (by decide)) ((Clog.readsWithin_ratio _ _).mono (by decide))
  (by decide)

theorem Number.consume_depth {cfg : Cfg} {A : Panic → Prop} {F L : Nat} {x : Number} {q : ℚ}
    (hx : Number.Denotes cfg A x q) (hL : SymbolCount q L) (hF : Number.ReadsWithin cfg F x)
    (hLF : L < F) {f : Nat} (hf : F ≤ f) :
    Sat (fun _ => True) (Number.consume cfg f x) (fun r => ∀ y, r.1 = some y →
      ∃ c l, y = .Other none c ∧ Clog.Operand cfg A F c l ∧ l.length ≤ L) := by
  refine Sat.bind (Q := fun r => ∀ c, r.1 = some c →
    ∃ l, Clog.Operand cfg A F c l ∧ l.length ≤ L) ?_ ?_
  · cases x with
    | Special s => cases s <;> exact Sat.pure (by simp)
    | Other p c =>
      obtain ⟨l, hc, hl⟩ := Number.operand hx hL hF
      refine Sat.bind (Consume.start_total _ _).sat fun k _ => ?_
      refine (Consume.consume_depth (Clog.egest_le hf) hc (by omega)).mono fun r hr c' e => ?_
      obtain ⟨l', h1, h2⟩ := hr c' e
      exact ⟨l', h1, h2.trans hl⟩
  · rintro ⟨_ | c, k⟩ hr
    · exact Sat.pure (by simp)
    · refine Sat.pure ?_
      rintro _ ⟨⟩
      obtain ⟨l, h1, h2⟩ := hr c rfl
      exact ⟨c, l, rfl, h1, h2⟩

/-- If reading `x` needs depth `F` and `x` has fewer than `F` symbols, `consume` makes no more than
`F` rounds, and what is left can be read at depth `F` too. -/
theorem C48_consume_depth (cfg : Cfg) (A : Panic → Prop) (x : Number) (q : ℚ)
    (hx : Number.Denotes cfg A x q) (L : Nat) (hL : SymbolCount q L) (F : Nat)
    (hF : Number.ReadsWithin cfg F x) (hLF : L < F) :
    (∀ f ≥ F, Number.consume cfg f x ≠ .timeout) ∧
    (∀ f y k, Number.consume cfg f x = .ok (some y, k) → Number.ReadsWithin cfg F y) := by
  refine ⟨fun f hf => (Number.consume_depth hx hL hF hLF hf).ne_timeout, fun f y k h => ?_⟩
  have h1 := Number.consume_depth hx hL hF hLF le_rfl
  rcases (Number.consume_mono cfg x).ok_or_timeout h F with e | e
  · exact absurd e h1.ne_timeout
  · rw [show _ = Out.ok _ from e] at h1
    obtain ⟨c, l, rfl, h2, -⟩ := h1 y rfl
    exact h2.within

example := C48_consume_depth debug64 NoPanic _ _ (denotes_three_fifths _ _) 2
  symbolCount_three_fifths 3 ((Clog.readsWithin_ratio _ _).mono (by decide)) (by decide)

/-! ## Fractions -/

theorem Number.ratio_facts {cfg : Cfg} {num den : Int} (hn : cfg.Fits num) (hd : cfg.Fits den)
    {x : Number} (h : Number.ratio cfg num den = .ok x) :
    Number.Denotes cfg NoPanic x ((num : ℚ) / den) ∧ Number.ReadsWithin cfg 1 x ∧
      SymbolCount ((num : ℚ) / den) (longest (cfg.bits - 1)) := by
  have hd0 : den ≠ 0 := by
    rintro rfl
    rw [C03_zero_denominator cfg num hn] at h
    split at h <;> cases h
  have hmin : cfg.overflowChecks = true → num ≠ cfg.imin ∧ den ≠ cfg.imin := by
    intro hc
    by_contra hm
    rw [C40_min_checked cfg hc num den hn (by tauto)] at h
    cases h
  obtain ⟨x', e, hx⟩ := C01_ratio_exact cfg num den hn hd hd0 hmin
  rw [h] at e
  cases e
  refine ⟨hx, (C48_ratio_depth cfg x).1 num den h, (C45_symbol_count _ num den hd0 ?_ ?_).1⟩
  · exact abs_le.2 ⟨hn.1, by have := hn.2; unfold Cfg.imax at this; omega⟩
  · exact abs_le.2 ⟨hd.1, by have := hd.2; unfold Cfg.imax at this; omega⟩

/-- For fractions of machine integers: on a machine with `w` bits, depth
`longest (w - 1) + 1` (2078 for 64 bits) suffices for any call of `homographic`, and one more for a
call of `combine`; one or two more suffice for reading the result. -/
theorem C48_fraction_depth (cfg : Cfg) (num den num' den' : Int) (hn : cfg.Fits num)
    (hd : cfg.Fits den) (hn' : cfg.Fits num') (hd' : cfg.Fits den') (x y : Number)
    (hx : Number.ratio cfg num den = .ok x) (hy : Number.ratio cfg num' den' = .ok y) :
    (∀ nx n dx d, ∀ f > longest (cfg.bits - 1), Number.homographic cfg f x nx n dx d ≠ .timeout ∧
      ∀ r, Number.homographic cfg f x nx n dx d = .ok r →
        Number.ReadsWithin cfg (longest (cfg.bits - 1) + 2) r) ∧
    (∀ nxy nx ny n dxy dx dy d, ∀ f > longest (cfg.bits - 1) + 1,
      Number.combine cfg f x y nxy nx ny n dxy dx dy d ≠ .timeout ∧
      ∀ r, Number.combine cfg f x y nxy nx ny n dxy dx dy d = .ok r →
        Number.ReadsWithin cfg (longest (cfg.bits - 1) + 3) r) := by
  obtain ⟨x1, x2, x3⟩ := Number.ratio_facts hn hd hx
  obtain ⟨y1, y2, y3⟩ := Number.ratio_facts hn' hd' hy
  constructor
  · intro nx n dx d f hf
    obtain ⟨h1, h2⟩ := C48_homographic_depth cfg NoPanic x _ x1 _ x3 (longest (cfg.bits - 1) + 1)
      (x2.mono (by omega)) (by omega) nx n dx d
    exact ⟨h1 f hf, h2 f⟩
  · intro nxy nx ny n dxy dx dy d f hf
    obtain ⟨h1, h2⟩ := C48_combine_depth cfg NoPanic x y _ _ x1 y1 _ _ x3 y3
      (longest (cfg.bits - 1) + 1) (x2.mono (by omega)) (y2.mono (by omega)) (by omega)
      nxy nx ny n dxy dx dy d
    exact ⟨h1 f hf, h2 f⟩

/-- -22/7 and 3/5 on 64 bits. -/
example := C48_fraction_depth debug64 (-22) 7 3 5 (by decide) (by decide) (by decide) (by decide)
  (.Other (some .Ground) (.ratio ⟨7, 22⟩)) (.Other none (.ratio ⟨3, 5⟩)) (by decide +kernel)
  (by decide +kernel)

example : longest (64 - 1) + 1 = 2078 := by decide

/-! ## Programs -/

/-- How many calls of `homographic`, `combine` and `consume` are nested. -/
def Spec.Expr.height : Expr → Nat
  | .given _ => 0
  | .ratio _ _ => 0
  | .ratioU _ _ _ => 0
  | .homographic e _ _ _ _ => e.height + 1
  | .combine e e' _ _ _ _ _ _ _ _ => max e.height e'.height + 1
  | .rebuild e => e.height + 1
  | .reread _ _ e => e.height

/-- The operands of all calls have at most `L` symbols. -/
def Spec.Expr.Operands (val : Nat → ℚ) (L : Nat) : Expr → Prop
  | .given _ => True
  | .ratio _ _ => True
  | .ratioU _ _ _ => True
  | .homographic e _ _ _ _ => e.Operands val L ∧ ∀ q, Value val e q → SymbolCount q L
  | .combine e e' _ _ _ _ _ _ _ _ => (e.Operands val L ∧ ∀ q, Value val e q → SymbolCount q L) ∧
      e'.Operands val L ∧ ∀ q, Value val e' q → SymbolCount q L
  | .rebuild e => e.Operands val L ∧ ∀ q, Value val e q → SymbolCount q L
  | .reread _ _ e => e.Operands val L

theorem Ends.sat {α : Type} {A : Panic → Prop} {m : Nat → Out α} {P : α → Prop} (h : Ends A m P)
    (hm : FuelMono m) {f : Nat} (hf : m f ≠ .timeout) : Sat A (m f) P := by
  rcases h with ⟨a, ⟨g, hg⟩, ha⟩ | ⟨p, ⟨g, hg⟩, hp⟩
  · rcases hm.ok_or_timeout (hg g le_rfl) f with e | e
    · exact absurd e hf
    · rw [e]; exact ha
  · have h1 := hg (max f g) (le_max_right _ _)
    rcases hm f (max f g) (le_max_left _ _) with e | e
    · exact absurd e hf
    · rw [e, h1]; exact hp

theorem Out.Sat.and_sat {α : Type} {A : Panic → Prop} {m : Out α} {P Q : α → Prop}
    (h : Sat (fun _ => True) m P) (h' : m ≠ .timeout → Sat A m Q) :
    Sat (fun _ => True) m (fun a => P a ∧ Q a) := by
  have h2 := h' h.ne_timeout
  cases m with
  | ok a => exact ⟨h, h2⟩
  | panic p => trivial
  | timeout => exact h.elim

theorem Clog.ReadsWithin.after {cfg : Cfg} {F f : Nat} {c : Clog} (h : Clog.ReadsWithin cfg F c)
    (hf : F ≤ f) (m : Nat) :
    Sat (fun _ => True) (Clog.egests cfg f m c) (fun r => Clog.ReadsWithin cfg F r.2) := by
  induction m generalizing c with
  | zero => exact Sat.pure h
  | succ m ih =>
    rw [egests_succ, ← (Clog.egest_le (cfg := cfg) hf c).resolve_left h.head]
    cases e : Clog.egest cfg F c with
    | ok r =>
      rw [ok_bind]
      exact Sat.bind (ih (h.tail e)) fun r hr => Sat.pure hr
    | panic p => trivial
    | timeout => exact absurd e h.head

open Spec.Expr in
/-- In a build with overflow checks, a program whose operands have at most `L` symbols and that
starts from numbers that can be read at depth `F` needs depth `max F (L + 1)` plus two for every
nested call; so does reading its result. -/
theorem C48_program_depth (cfg : Cfg) (hc : cfg.overflowChecks = true) (env : Nat → Number)
    (val : Nat → ℚ) (henv : ∀ i, Number.Denotes cfg Overflow (env i) (val i)) (F L : Nat)
    (hF : ∀ i, Number.ReadsWithin cfg F (env i)) (e : Expr) (hm : e.Machine cfg)
    (hL : e.Operands val L) (q : ℚ) (hv : Value val e q) :
    ∀ f ≥ max F (L + 1) + 2 * e.height, e.run cfg f env ≠ .timeout ∧
      ∀ x, e.run cfg f env = .ok x → Number.ReadsWithin cfg (max F (L + 1) + 2 * e.height) x := by
  suffices h : ∀ f ≥ max F (L + 1) + 2 * e.height, Sat (fun _ => True) (e.run cfg f env)
      (fun x => Number.ReadsWithin cfg (max F (L + 1) + 2 * e.height) x) by
    intro f hf
    have := h f hf
    refine ⟨this.ne_timeout, fun x hx => ?_⟩
    rw [hx] at this
    exact this
  induction hv with
  | given i => exact fun f hf => Sat.pure ((hF i).mono (by simp [height]))
  | @ratio num den h =>
    intro f hf
    cases hr : Number.ratio cfg num den with
    | ok n =>
      simp only [run, hr]
      exact ((C48_ratio_depth cfg n).1 num den hr).mono (by omega)
    | panic p => simp only [run, hr]; trivial
    | timeout =>
      refine absurd hr (Total.ne ?_)
      refine (Ratio.magnitude_total _ _).bind fun _ => (Ratio.magnitude_total _ _).bind fun _ => ?_
      unfold Number.ratioU
      exact (Ratio.new_total _ _ _).bind fun _ => by total
  | @ratioU positive num den h =>
    intro f hf
    cases hr : Number.ratioU positive num den with
    | ok n =>
      simp only [run, hr]
      exact ((C48_ratio_depth cfg n).2 positive num den hr).mono (by omega)
    | panic p => simp only [run, hr]; trivial
    | timeout =>
      refine absurd hr (Total.ne ?_)
      unfold Number.ratioU
      exact (Ratio.new_total _ _ _).bind fun _ => by total
  | @homographic e q nx n dx d he hD ih =>
    intro f hf
    simp only [height] at hf ⊢
    have hd := C35_refinement cfg hc env val henv e hm.1 q he
    refine Sat.bind ((ih hm.1 hL.1 f (by omega)).and_sat (hd.sat (run_mono cfg env e))) ?_
    rintro x ⟨h1, h2⟩
    refine (Number.homographic_depth h2 (hL.2 q he) h1 (by omega) nx n dx d (by omega)).mono ?_
    exact fun r hr => hr.mono (by omega)
  | @combine e e' q r nxy nx ny n dxy dx dy d he he' hD ih ih' =>
    intro f hf
    simp only [height] at hf ⊢
    have hd := C35_refinement cfg hc env val henv e hm.1 q he
    have hd' := C35_refinement cfg hc env val henv e' hm.2.1 r he'
    refine Sat.bind ((ih hm.1 hL.1.1 f (by omega)).and_sat (hd.sat (run_mono cfg env e))) ?_
    rintro x ⟨h1, h2⟩
    refine Sat.bind ((ih' hm.2.1 hL.2.1 f (by omega)).and_sat (hd'.sat (run_mono cfg env e'))) ?_
    rintro y ⟨h3, h4⟩
    refine (Number.combine_depth (F := max F (L + 1) + 2 * max e.height e'.height) h2 h4
      (hL.1.2 q he) (hL.2.2 r he') (h1.mono (by omega)) (h3.mono (by omega)) (by omega)
      nxy nx ny n dxy dx dy d (by omega)).mono ?_
    exact fun r hr => hr.mono (by omega)
  | @rebuild e q he ih =>
    intro f hf
    simp only [height] at hf ⊢
    have hd := C35_refinement cfg hc env val henv e hm q he
    refine Sat.bind ((ih hm hL.1 f (by omega)).and_sat (hd.sat (run_mono cfg env e))) ?_
    rintro x ⟨h1, h2⟩
    refine Sat.bind (Number.consume_depth h2 (hL.2 q he) h1 (by omega) (f := f) (by omega)) ?_
    rintro ⟨_ | y, k⟩ hr
    · refine Sat.bind (Cfg.mul_total _ _ _).sat fun _ _ => Sat.bind (Cfg.add_total _ _ _).sat
        fun _ _ => Sat.bind (Cfg.mul_total _ _ _).sat fun _ _ => Sat.bind (Cfg.add_total _ _ _).sat
        fun den _ => ?_
      cases hr : Number.ratio cfg _ den with
      | ok n => exact ((C48_ratio_depth cfg n).1 _ _ hr).mono (by omega)
      | panic p => trivial
      | timeout =>
        refine absurd hr (Total.ne ?_)
        refine (Ratio.magnitude_total _ _).bind fun _ => (Ratio.magnitude_total _ _).bind fun _ => ?_
        unfold Number.ratioU
        exact (Ratio.new_total _ _ _).bind fun _ => by total
    · obtain ⟨c, l, rfl, hc, hl⟩ := hr y rfl
      obtain ⟨v, hv, hl'⟩ := hc.denotes
      refine (Number.homographic_depth (x := .Other none c) (q := v) (L := L) ⟨v, hv, rfl⟩
        (.inr ⟨none, v, l, rfl, hl', hl⟩) hc.within (by omega) k.nx k.n k.dx k.d (by omega)).mono ?_
      exact fun r hr => hr.mono (by omega)
  | @reread e p p' m x h0 h1 he ih =>
    intro f hf
    simp only [height] at hf ⊢
    refine Sat.bind (ih hm hL f hf) ?_
    rintro (s | ⟨p₁, c⟩) h
    · trivial
    · simp only [Number.unwrapOther, pure_eq, ok_bind]
      refine Sat.bind (Q := fun r => Clog.ReadsWithin cfg (max F (L + 1) + 2 * e.height) r.2) ?_ ?_
      · exact Clog.ReadsWithin.after h hf m
      · rintro ⟨_, c'⟩ hr
        exact Sat.pure hr

/-- 3/5 taken apart, rebuilt and doubled: depth 7 suffices. -/
example := C48_program_depth debug64 rfl (fun _ => .Other none (.ratio ⟨3, 5⟩)) (fun _ => 3 / 5)
  (fun _ => denotes_three_fifths _ _) 1 2 (fun _ => Clog.readsWithin_ratio _ _)
  (.homographic (.rebuild (.given 0)) 2 0 0 1)
  (by simp only [Expr.Machine, MachineInts]; decide)
  ⟨⟨trivial, by rintro _ ⟨⟩; exact symbolCount_three_fifths⟩, by
    intro _ h; cases h with | rebuild h => cases h; exact symbolCount_three_fifths⟩ _
  (.homographic (.rebuild (.given 0)) (by norm_num))

end Clarith
