import Verif.Proofs.Field
import Verif.Properties.History

/-! # What numbers are made of (C82)

However long a number is read, the nested strategies behind it do not grow in number or in depth, and
every field holds a machine integer: in every build, whatever the operands and coefficients are. -/

namespace Clarith

open Out

/-- The number of strategies in a clog. -/
def Spec.nodes : Clog → Nat
  | .ratio _ => 1
  | .homographic x _ => Spec.nodes x + 1
  | .combine x y _ => Spec.nodes x + Spec.nodes y + 1

/-- How deep the strategies of a clog are nested. -/
def Spec.nesting : Clog → Nat
  | .ratio _ => 1
  | .homographic x _ => Spec.nesting x + 1
  | .combine x y _ => max (Spec.nesting x) (Spec.nesting y) + 1

/-- Every field of every strategy in the clog is a machine integer of its type: `usize` in
ratio.rs:185-188, `isize` in homographic.rs:832-838 and combine.rs:619-630. -/
def Spec.WordSized (cfg : Cfg) : Clog → Prop
  | .ratio r => r.num ≤ cfg.umax ∧ r.den ≤ cfg.umax
  | .homographic x k => Spec.WordSized cfg x ∧ ∀ z ∈ [k.nx, k.n, k.dx, k.d], cfg.Fits z
  | .combine x y k => Spec.WordSized cfg x ∧ Spec.WordSized cfg y ∧
      ∀ z ∈ [k.a, k.b, k.c, k.d, k.e, k.f, k.g, k.h], cfg.Fits z

/-- The clog has machine integers in its fields, at most `n` strategies, and at most `m` of them nested
in each other. -/
structure Spec.Compact (cfg : Cfg) (n m : Nat) (c : Clog) : Prop where
  words : Spec.WordSized cfg c
  nodes : Spec.nodes c ≤ n
  nesting : Spec.nesting c ≤ m

/-- The same of a number; the special numbers have no strategy. -/
def Spec.CompactNumber (cfg : Cfg) (n m : Nat) : Number → Prop
  | .Special _ => True
  | .Other _ c => Spec.Compact cfg n m c

open Spec

namespace Space

variable {α β : Type} {cfg : Cfg}

/-- What is returned, if anything is, satisfies `P`. -/
abbrev Gives (m : Out α) (P : α → Prop) : Prop := Maybe (fun _ => True) m P

theorem Gives.any (m : Out α) : Gives m fun _ => True := by cases m <;> trivial

theorem Gives.skip {m : Out α} {g : α → Out β} {P : β → Prop} (h : ∀ a, Gives (g a) P) :
    Gives (m >>= g) P := Maybe.bind (Gives.any m) fun a _ => h a

theorem Gives.panic {p : Panic} {P : α → Prop} : Gives (Out.panic p) P := trivial

theorem Gives.ite {c : Prop} [Decidable c] {a b : Out α} {P : α → Prop} (ha : Gives a P)
    (hb : Gives b P) : Gives (if c then a else b) P := by
  split
  · exact ha
  · exact hb

/-! ## Machine integers -/

theorem wrap_fits (cfg : Cfg) (z : Int) : cfg.Fits (cfg.wrap z) := by
  have h := cfg.hbits
  have e : (2 : Int) ^ cfg.bits = 2 * 2 ^ (cfg.bits - 1) := by
    rw [← pow_succ']; congr 1; omega
  have hp : (0 : Int) < 2 ^ (cfg.bits - 1) := by positivity
  have e2 : ((2 ^ cfg.bits : Nat) : Int) = 2 * 2 ^ (cfg.bits - 1) := by push_cast; exact e
  have h1 := Int.le_bmod (x := z) (m := 2 ^ cfg.bits) (by positivity)
  have h2 := Int.bmod_lt (x := z) (m := 2 ^ cfg.bits) (by positivity)
  rw [e2] at h1 h2
  unfold Cfg.Fits Cfg.imin Cfg.imax Cfg.wrap
  omega

theorem checked_fits (z : Int) : Gives (cfg.checked z) cfg.Fits := by
  unfold Cfg.checked; split
  · assumption
  · trivial

theorem unchecked_fits (z : Int) : Gives (cfg.unchecked z) cfg.Fits := by
  unfold Cfg.unchecked
  split
  · assumption
  · split
    · trivial
    · exact wrap_fits cfg z

theorem cadd_fits (x y : Int) : Gives (cfg.cadd x y) cfg.Fits := checked_fits _
theorem csub_fits (x y : Int) : Gives (cfg.csub x y) cfg.Fits := checked_fits _
theorem cmul_fits (x y : Int) : Gives (cfg.cmul x y) cfg.Fits := checked_fits _
theorem neg_fits (x : Int) : Gives (cfg.neg x) cfg.Fits := unchecked_fits _
theorem add_fits (x y : Int) : Gives (cfg.add x y) cfg.Fits := unchecked_fits _
theorem mul_fits (x y : Int) : Gives (cfg.mul x y) cfg.Fits := unchecked_fits _

theorem half_fits {z : Int} (h : cfg.Fits z) : cfg.Fits (half z) := by
  obtain ⟨h1, h2⟩ := h
  have hp : (0 : Int) < 2 ^ (cfg.bits - 1) := by positivity
  unfold Cfg.imin at h1
  unfold Cfg.imax at h2
  unfold Cfg.Fits Cfg.imin Cfg.imax half
  rcases le_total 0 z with hz | hz
  · rw [Int.tdiv_eq_ediv_of_nonneg hz]; omega
  · have e : z.tdiv 2 = -((-z) / 2) := by
      rw [← Int.tdiv_eq_ediv_of_nonneg (by omega), Int.neg_tdiv, neg_neg]
    rw [e]; omega

theorem asUsize_le (cfg : Cfg) (z : Int) : cfg.asUsize z ≤ cfg.umax := by
  have hp : (0 : Int) < 2 ^ cfg.bits := by positivity
  have h1 := Int.emod_nonneg z hp.ne'
  have h2 := Int.emod_lt_of_pos z hp
  have e : ((2 ^ cfg.bits : Nat) : Int) = 2 ^ cfg.bits := by push_cast; rfl
  unfold Cfg.asUsize Cfg.umax
  have : (z.emod (2 ^ cfg.bits)).toNat < 2 ^ cfg.bits := by
    exact (Int.toNat_lt h1).2 (by rw [e]; exact h2)
  omega

theorem uunchecked_le (z : Int) : Gives (cfg.uunchecked z) (· ≤ cfg.umax) := by
  unfold Cfg.uunchecked
  split
  · rename_i h
    show z.toNat ≤ cfg.umax
    omega
  · split
    · trivial
    · exact asUsize_le cfg z

theorem fits4 {k : Coef4} : (∀ z ∈ [k.nx, k.n, k.dx, k.d], cfg.Fits z) ↔ k.Fits cfg := by
  simp [Coef4.Fits]

theorem fits8 {k : Coef8} :
    (∀ z ∈ [k.a, k.b, k.c, k.d, k.e, k.f, k.g, k.h], cfg.Fits z) ↔ k.Fits cfg := by
  simp only [List.mem_cons, List.not_mem_nil, or_false, forall_eq_or_imp, forall_eq]
  exact ⟨fun ⟨a, b, c, d, e, f, g, h⟩ => ⟨a, b, c, d, e, f, g, h⟩,
    fun ⟨a, b, c, d, e, f, g, h⟩ => ⟨a, b, c, d, e, f, g, h⟩⟩

/-- One arithmetic operation after another. -/
macro "ops" : tactic => `(tactic| repeat (first
  | refine Maybe.bind (cadd_fits _ _) fun _ _ => ?_
  | refine Maybe.bind (csub_fits _ _) fun _ _ => ?_
  | refine Maybe.bind (cmul_fits _ _) fun _ _ => ?_
  | refine Maybe.bind (neg_fits _) fun _ _ => ?_
  | refine Maybe.bind (add_fits _ _) fun _ _ => ?_
  | refine Maybe.bind (mul_fits _ _) fun _ _ => ?_))

/-! ## Coefficients -/

theorem valueAtOneHalf_fits (k : Coef4) : Gives (k.valueAtOneHalf cfg) fun _ => True := .any _

theorem ingestAmplify_fits {k : Coef4} (h : k.Fits cfg) :
    Gives (k.ingestAmplify cfg) (Coef4.Fits cfg) := by
  obtain ⟨h1, h2, h3, h4⟩ := h
  unfold Coef4.ingestAmplify
  refine .ite ?_ (.pure ⟨half_fits h1, h2, half_fits h3, h4⟩)
  ops
  exact .pure ⟨h1, ‹_›, h3, ‹_›⟩

theorem ingestUncover_fits {k : Coef4} (h : k.Fits cfg) :
    Gives (k.ingestUncover cfg) (Coef4.Fits cfg) := by
  obtain ⟨h1, h2, h3, h4⟩ := h
  unfold Coef4.ingestUncover
  ops
  exact .pure ⟨h2, ‹_›, h4, ‹_›⟩

theorem ground_fits {k : Coef4} (h : k.Fits cfg) : Gives (k.ground cfg) (Coef4.Fits cfg) := by
  obtain ⟨h1, h2, h3, h4⟩ := h
  unfold Coef4.ground
  ops
  exact .pure ⟨‹_›, ‹_›, h1, h2⟩

theorem reflect_fits {k : Coef4} (h : k.Fits cfg) : Gives (k.reflect cfg) (Coef4.Fits cfg) := by
  obtain ⟨h1, h2, h3, h4⟩ := h
  unfold Coef4.reflect
  ops
  exact .pure ⟨‹_›, ‹_›, h3, h4⟩

theorem uncover_fits {k : Coef4} (h : k.Fits cfg) : Gives (k.uncover cfg) (Coef4.Fits cfg) := by
  obtain ⟨h1, h2, h3, h4⟩ := h
  unfold Coef4.uncover
  ops
  exact .pure ⟨‹_›, ‹_›, h1, h2⟩

theorem amplify_fits {k : Coef4} (h : k.Fits cfg) : Gives (k.amplify cfg) (Coef4.Fits cfg) := by
  obtain ⟨h1, h2, h3, h4⟩ := h
  unfold Coef4.amplify
  refine .ite ?_ (.pure ⟨h1, h2, half_fits h3, half_fits h4⟩)
  ops
  exact .pure ⟨‹_›, ‹_›, h3, h4⟩

theorem primerAttempt_fits {k : Coef4} (h : k.Fits cfg) :
    Gives (k.primerAttempt cfg) fun r => ∀ p k', r = some (p, k') → k'.Fits cfg := by
  unfold Coef4.primerAttempt
  refine .skip fun b => .ite ?_ (.pure fun _ _ h => by cases h)
  unfold Coef4.primerEgest
  refine .skip fun r => ?_
  obtain ⟨nmin, dmin, nmax, dmax⟩ := r
  refine .ite (.pure fun _ _ h => by cases h) (.skip fun _ => .ite (.pure fun _ _ h => by cases h) ?_)
  refine .skip fun _ => .ite ?_ (.ite (.pure ?_) (.skip fun _ => .ite ?_ (.ite (.pure ?_) (.pure ?_))))
  · exact .bind (ground_fits h) fun k hk => .pure fun _ _ h => by cases h; exact hk
  · rintro _ _ ⟨⟩
    exact ⟨h.2.2.1, h.2.2.2, h.1, h.2.1⟩
  · exact .bind (reflect_fits h) fun k hk => .pure fun _ _ h => by cases h; exact hk
  · rintro _ _ ⟨⟩
    exact h
  · intro _ _ h; cases h

theorem reductionAttempt_fits {k : Coef4} (h : k.Fits cfg) :
    Gives (k.reductionAttempt cfg) fun r => ∀ p k', r = some (p, k') → k'.Fits cfg := by
  unfold Coef4.reductionAttempt
  refine .skip fun b => .ite ?_ (.pure fun _ _ h => by cases h)
  unfold Coef4.reductionEgest
  refine .skip fun r => ?_
  obtain ⟨nmin, dmin, nmax, dmax⟩ := r
  refine .ite .panic (.ite .panic (.skip fun _ => .ite (.pure ?_) (.skip fun _ => .ite ?_
    (.skip fun _ => .ite ?_ (.pure ?_)))))
  · rintro _ _ ⟨⟩
    exact h
  · exact .bind (amplify_fits h) fun k hk => .pure fun _ _ h => by cases h; exact hk
  · exact .bind (uncover_fits h) fun k hk => .pure fun _ _ h => by cases h; exact hk
  · intro _ _ h; cases h

theorem reflect8_fits {k : Coef8} (h : k.Fits cfg) : Gives (k.reflect cfg) (Coef8.Fits cfg) := by
  obtain ⟨ha, hb, hc, hd, he, hf, hg, hh⟩ := h
  unfold Coef8.reflect
  ops
  exact .pure ⟨‹_›, ‹_›, ‹_›, ‹_›, he, hf, hg, hh⟩

theorem turn8_fits {k : Coef8} (h : k.Fits cfg) : k.turn.Fits cfg :=
  ⟨h.e, h.f, h.g, h.h, h.a, h.b, h.c, h.d⟩

theorem amplify8_fits {k : Coef8} (h : k.Fits cfg) : Gives (k.amplify cfg) (Coef8.Fits cfg) := by
  obtain ⟨ha, hb, hc, hd, he, hf, hg, hh⟩ := h
  unfold Coef8.amplify
  refine .ite (.pure ⟨ha, hb, hc, hd, half_fits he, half_fits hf, half_fits hg, half_fits hh⟩) ?_
  ops
  exact .pure ⟨‹_›, ‹_›, ‹_›, ‹_›, he, hf, hg, hh⟩

theorem uncover8_fits {k : Coef8} (h : k.Fits cfg) : Gives (k.uncover cfg) (Coef8.Fits cfg) := by
  obtain ⟨ha, hb, hc, hd, he, hf, hg, hh⟩ := turn8_fits h
  unfold Coef8.uncover Coef8.shift
  ops
  exact .pure ⟨‹_›, ‹_›, ‹_›, ‹_›, he, hf, hg, hh⟩

theorem primerAttempt8_fits {k : Coef8} (h : k.Fits cfg) :
    Gives (k.primerAttempt cfg) fun r => ∀ p k', r = some (p, k') → k'.Fits cfg := by
  unfold Coef8.primerAttempt
  refine .skip fun b => .ite ?_ (.pure fun _ _ h => by cases h)
  unfold Coef8.primerEgest
  refine .skip fun r => ?_
  obtain ⟨nmin, dmin, nmax, dmax⟩ := r
  refine .skip fun _ => .ite ?_ (.skip fun _ => .ite ?_ (.ite (.pure ?_) (.ite (.pure ?_) (.pure ?_))))
  · exact .bind (reflect8_fits (turn8_fits h)) fun k hk => .pure fun _ _ h => by cases h; exact hk
  · exact .bind (reflect8_fits h) fun k hk => .pure fun _ _ h => by cases h; exact hk
  · rintro _ _ ⟨⟩
    exact h
  · rintro _ _ ⟨⟩
    exact turn8_fits h
  · intro _ _ h; cases h

theorem reductionAttempt8_fits {k : Coef8} (h : k.Fits cfg) :
    Gives (k.reductionAttempt cfg) fun r => ∀ p k', r = some (p, k') → k'.Fits cfg := by
  unfold Coef8.reductionAttempt
  refine .skip fun b => .ite ?_ (.pure fun _ _ h => by cases h)
  unfold Coef8.reductionEgest
  refine .skip fun r => ?_
  obtain ⟨nmin, dmin, nmax, dmax⟩ := r
  refine .ite .panic (.ite .panic (.skip fun _ => .ite ?_ (.skip fun _ => .ite ?_ (.pure ?_))))
  · exact .bind (amplify8_fits h) fun k hk => .pure fun _ _ h => by cases h; exact hk
  · exact .bind (uncover8_fits h) fun k hk => .pure fun _ _ h => by cases h; exact hk
  · intro _ _ h; cases h

theorem valueAtEndOfX_fits (k : Coef8) : Gives (k.valueAtEndOfX cfg) (Coef4.Fits cfg) := by
  unfold Coef8.valueAtEndOfX
  refine .ite ?_ ?_ <;> ops <;> exact .pure ⟨‹_›, ‹_›, ‹_›, ‹_›⟩

theorem valueAtEndOfY_fits (k : Coef8) : Gives (k.valueAtEndOfY cfg) (Coef4.Fits cfg) := by
  unfold Coef8.valueAtEndOfY
  refine .ite ?_ ?_ <;> ops <;> exact .pure ⟨‹_›, ‹_›, ‹_›, ‹_›⟩

theorem ingestX_fits {k : Coef8} (r : Reduction) (h : k.Fits cfg) :
    Gives (k.ingestX cfg r) (Coef8.Fits cfg) := by
  obtain ⟨ha, hb, hc, hd, he, hf, hg, hh⟩ := h
  cases r with
  | Amplify =>
    show Gives (k.amplifyX cfg) _
    unfold Coef8.amplifyX
    refine .ite (.pure ⟨half_fits ha, half_fits hb, hc, hd, half_fits he, half_fits hf, hg, hh⟩) ?_
    ops
    exact .pure ⟨ha, hb, ‹_›, ‹_›, he, hf, ‹_›, ‹_›⟩
  | Uncover =>
    show Gives (k.uncoverX cfg) _
    unfold Coef8.uncoverX Coef8.shiftX
    ops
    exact .pure ⟨hc, hd, ‹_›, ‹_›, hg, hh, ‹_›, ‹_›⟩

theorem ingestY_fits {k : Coef8} (r : Reduction) (h : k.Fits cfg) :
    Gives (k.ingestY cfg r) (Coef8.Fits cfg) := by
  obtain ⟨ha, hb, hc, hd, he, hf, hg, hh⟩ := h
  cases r with
  | Amplify =>
    show Gives (k.amplifyY cfg) _
    unfold Coef8.amplifyY
    refine .ite (.pure ⟨half_fits ha, hb, half_fits hc, hd, half_fits he, hf, half_fits hg, hh⟩) ?_
    ops
    exact .pure ⟨ha, ‹_›, hc, ‹_›, he, ‹_›, hg, ‹_›⟩
  | Uncover =>
    show Gives (k.uncoverY cfg) _
    unfold Coef8.uncoverY Coef8.shiftY
    ops
    exact .pure ⟨hb, ‹_›, hd, ‹_›, hf, ‹_›, hh, ‹_›⟩

theorem absorbPrimer_fits {k : Coef4} (p : Option Primer) (h : k.Fits cfg) :
    Gives (Homographic.absorbPrimer cfg p k) (Coef4.Fits cfg) := by
  obtain ⟨h1, h2, h3, h4⟩ := h
  rcases p with _ | (_ | _ | _)
  · exact ⟨h1, h2, h3, h4⟩
  · exact ⟨h2, h1, h4, h3⟩
  · unfold Homographic.absorbPrimer
    ops
    exact .pure ⟨‹_›, h2, ‹_›, h4⟩
  · unfold Homographic.absorbPrimer
    ops
    exact .pure ⟨h2, ‹_›, h4, ‹_›⟩

theorem reflectX_fits {k : Coef8} (h : k.Fits cfg) : Gives (k.reflectX cfg) (Coef8.Fits cfg) := by
  obtain ⟨ha, hb, hc, hd, he, hf, hg, hh⟩ := h
  unfold Coef8.reflectX
  ops
  exact .pure ⟨‹_›, ‹_›, hc, hd, ‹_›, ‹_›, hg, hh⟩

theorem reflectY_fits {k : Coef8} (h : k.Fits cfg) : Gives (k.reflectY cfg) (Coef8.Fits cfg) := by
  obtain ⟨ha, hb, hc, hd, he, hf, hg, hh⟩ := h
  unfold Coef8.reflectY
  ops
  exact .pure ⟨‹_›, hb, ‹_›, hd, ‹_›, hf, ‹_›, hh⟩

theorem absorbPrimerX_fits {k : Coef8} (p : Option Primer) (h : k.Fits cfg) :
    Gives (k.absorbPrimerX cfg p) (Coef8.Fits cfg) := by
  have ht : k.turnX.Fits cfg := ⟨h.c, h.d, h.a, h.b, h.g, h.h, h.e, h.f⟩
  rcases p with _ | (_ | _ | _)
  · exact h
  · exact ht
  · exact reflectX_fits h
  · exact reflectX_fits ht

theorem absorbPrimerY_fits {k : Coef8} (p : Option Primer) (h : k.Fits cfg) :
    Gives (k.absorbPrimerY cfg p) (Coef8.Fits cfg) := by
  have ht : k.turnY.Fits cfg := ⟨h.b, h.a, h.d, h.c, h.f, h.e, h.h, h.g⟩
  rcases p with _ | (_ | _ | _)
  · exact h
  · exact ht
  · exact reflectY_fits h
  · exact reflectY_fits ht

/-! ## Clogs -/

theorem one_le_nodes (c : Clog) : 1 ≤ nodes c := by cases c <;> simp [nodes]

theorem one_le_nesting (c : Clog) : 1 ≤ nesting c := by cases c <;> simp [nesting]

theorem _root_.Clarith.Spec.Compact.mono {n m n' m' : Nat} {c : Clog} (h : Compact cfg n m c) (hn : n ≤ n') (hm : m ≤ m') :
    Compact cfg n' m' c := ⟨h.words, h.nodes.trans hn, h.nesting.trans hm⟩

theorem _root_.Clarith.Spec.Compact.pos {n m : Nat} {c : Clog} (h : Compact cfg n m c) : 1 ≤ n ∧ 1 ≤ m :=
  ⟨(one_le_nodes c).trans h.nodes, (one_le_nesting c).trans h.nesting⟩

theorem compact_ratio {r : Ratio} {n m : Nat} (h : r.num ≤ cfg.umax ∧ r.den ≤ cfg.umax) (hn : 1 ≤ n)
    (hm : 1 ≤ m) : Compact cfg n m (.ratio r) := ⟨h, hn, hm⟩

theorem compact_homographic {c : Clog} {k : Coef4} {n m : Nat} (h : Compact cfg n m c)
    (hk : k.Fits cfg) : Compact cfg (n + 1) (m + 1) (.homographic c k) :=
  ⟨⟨h.words, fits4.2 hk⟩, Nat.succ_le_succ h.nodes, Nat.succ_le_succ h.nesting⟩

theorem compact_combine {c c' : Clog} {k : Coef8} {n n' m : Nat} (h : Compact cfg n m c)
    (h' : Compact cfg n' m c') (hk : k.Fits cfg) :
    Compact cfg (n + n' + 1) (m + 1) (.combine c c' k) := by
  refine ⟨⟨h.words, h'.words, fits8.2 hk⟩, ?_, ?_⟩
  · have := h.nodes; have := h'.nodes
    show nodes c + nodes c' + 1 ≤ _
    omega
  · have := h.nesting; have := h'.nesting
    show max (nesting c) (nesting c') + 1 ≤ _
    omega

/-- A reader of clogs that keeps them compact. -/
def Keeps (cfg : Cfg) (eg : EgestFn) : Prop :=
  ∀ c n m, Compact cfg n m c → Gives (eg c) fun r => Compact cfg n m r.2

/-- The ratio in a result has machine integers. -/
def RatioFits (cfg : Cfg) (r : Option Ratio) : Prop :=
  ∀ r', r = some r' → r'.num ≤ cfg.umax ∧ r'.den ≤ cfg.umax

theorem new_fits {positive : Bool} {n d : Nat} (hn : n ≤ cfg.umax) (hd : d ≤ cfg.umax) :
    Gives (Ratio.new positive n d) fun r => RatioFits cfg r.2.2 := by
  unfold Ratio.new
  refine .ite .panic (.ite ?_ (.ite (.ite ?_ ?_) (.ite ?_ ?_)))
  · intro _ h; cases h
  · intro _ h; cases h
  · intro _ h; cases h
  · rintro _ ⟨⟩; exact ⟨hd, hn⟩
  · rintro _ ⟨⟩; exact ⟨hn, hd⟩

theorem magnitude_fits (z : Int) : Gives (Ratio.magnitude cfg z) (· ≤ cfg.umax) := by
  unfold Ratio.magnitude
  refine .ite ?_ (Gives.skip fun a => ?_)
  · exact asUsize_le cfg z
  · exact asUsize_le cfg a

theorem newI_fits (a b : Int) : Gives (Ratio.newI cfg a b) fun r => RatioFits cfg r.2.2 := by
  unfold Ratio.newI
  exact .bind (magnitude_fits a) fun _ hn => .bind (magnitude_fits b) fun _ hd => new_fits hn hd

theorem ratio_egest_fits {r : Ratio} (h : r.num ≤ cfg.umax ∧ r.den ≤ cfg.umax) :
    Gives (r.egest cfg) fun s => s.2.num ≤ cfg.umax ∧ s.2.den ≤ cfg.umax := by
  obtain ⟨h1, h2⟩ := h
  unfold Ratio.egest
  refine .ite ?_ (.ite (.ite ?_ ?_) ?_)
  · exact .bind (uunchecked_le _) fun n hn => .pure ⟨hn, h1⟩
  · exact .bind (uunchecked_le _) fun n hn => .pure ⟨h1, hn⟩
  · exact .pure ⟨h1, (Nat.div_le_self _ _).trans h2⟩
  · exact .bind (uunchecked_le _) fun n hn => .pure ⟨hn, h2⟩

/-- What a homographic state may become. -/
def Fine (cfg : Cfg) (n m : Nat) (h : Homographic) : Prop := Compact cfg n m h.x ∧ h.k.Fits cfg

theorem Fine.box {n m : Nat} {h : Homographic} (H : Fine cfg n m h) :
    Compact cfg (n + 1) (m + 1) h.box := compact_homographic H.1 H.2

theorem primeIngest_keeps {eg : EgestFn} (he : Keeps cfg eg) {n m : Nat} {h : Homographic}
    (H : Fine cfg n m h) : Gives (Homographic.primeIngest cfg eg h) fun r =>
      (∀ s p q, r.1 = some (s, p, q) → RatioFits cfg q) ∧ Fine cfg n m r.2 := by
  unfold Homographic.primeIngest
  refine .bind (he _ _ _ H.1) fun r hr => ?_
  obtain ⟨s, x⟩ := r
  rcases s with _ | (_ | _)
  · refine Gives.skip fun v => ?_
    obtain ⟨num, den⟩ := v
    refine .bind (newI_fits _ _) fun res hres => .pure ⟨?_, hr, H.2⟩
    rintro _ _ _ ⟨⟩
    exact hres
  · exact .bind (ingestAmplify_fits H.2) fun k hk => .pure ⟨fun _ _ _ h => (by cases h), hr, hk⟩
  · exact .bind (ingestUncover_fits H.2) fun k hk => .pure ⟨fun _ _ _ h => (by cases h), hr, hk⟩

theorem reductionIngest_keeps {eg : EgestFn} (he : Keeps cfg eg) {n m : Nat} {h : Homographic}
    (H : Fine cfg n m h) : Gives (Homographic.reductionIngest cfg eg h) fun r =>
      RatioFits cfg r.1 ∧ Fine cfg n m r.2 := by
  unfold Homographic.reductionIngest
  refine .bind (he _ _ _ H.1) fun r hr => ?_
  obtain ⟨s, x⟩ := r
  rcases s with _ | (_ | _)
  · refine Gives.skip fun v => ?_
    obtain ⟨num, den⟩ := v
    refine .bind (newI_fits _ _) fun res hres => ?_
    obtain ⟨s, p, q⟩ := res
    rcases s with _ | _ <;> rcases p with _ | _ <;> rcases q with _ | _ <;>
      first | trivial | exact ⟨hres, hr, H.2⟩
  · exact .bind (ingestAmplify_fits H.2) fun k hk => .pure ⟨fun _ h => (by cases h), hr, hk⟩
  · exact .bind (ingestUncover_fits H.2) fun k hk => .pure ⟨fun _ h => (by cases h), hr, hk⟩

/-- What the constructor of a homographic strategy may return. -/
def FinePrimed (cfg : Cfg) (n m : Nat) (r : Homographic.Primed) : Prop :=
  RatioFits cfg r.2.2.1 ∧ ∀ h, r.2.2.2 = some h → Fine cfg n m h

theorem prime_keeps {eg : EgestFn} (he : Keeps cfg eg) (f : Nat) {n m : Nat} {h : Homographic}
    (H : Fine cfg n m h) : Gives (Homographic.prime cfg eg f h) (FinePrimed cfg n m) := by
  induction f generalizing h with
  | zero => trivial
  | succ f ih =>
    unfold Homographic.prime
    refine .bind (primerAttempt_fits H.2) fun r hr => ?_
    rcases r with _ | ⟨p, k⟩
    · refine .bind (primeIngest_keeps he H) fun r hr => ?_
      rcases r with ⟨_ | ⟨s, p, q⟩, h'⟩
      · exact ih hr.2
      · exact .pure ⟨hr.1 _ _ _ rfl, fun _ h => by cases h⟩
    · refine .pure ⟨fun _ h => (by cases h), ?_⟩
      rintro _ ⟨⟩
      exact ⟨H.1, hr _ _ rfl⟩

/-- What a strategy may answer. -/
def FineEgested (cfg : Cfg) (n m : Nat) (r : Egested × Clog) : Prop :=
  Compact cfg n m r.2 ∧ ∀ s, r.1 = .err s → Compact cfg n m s

theorem egest_keeps {eg : EgestFn} (he : Keeps cfg eg) (f : Nat) {n m : Nat} {h : Homographic}
    (H : Fine cfg n m h) : Gives (Homographic.egest cfg eg f h) fun r =>
      FineEgested cfg (n + 1) (m + 1) (r.1, r.2.box) := by
  induction f generalizing h with
  | zero => trivial
  | succ f ih =>
    unfold Homographic.egest
    refine .bind (reductionAttempt_fits H.2) fun r hr => ?_
    rcases r with _ | ⟨p, k⟩
    · refine .bind (reductionIngest_keeps he H) fun r hr => ?_
      rcases r with ⟨_ | q, h'⟩
      · exact ih hr.2
      · refine .pure ⟨hr.2.box, ?_⟩
        rintro _ ⟨⟩
        exact compact_ratio (hr.1 _ rfl) (by omega) (by omega)
    · exact .pure ⟨Fine.box ⟨H.1, hr _ _ rfl⟩, fun _ h => by cases h⟩

theorem asRatio_keeps (a b : Int) (n m : Nat) :
    Gives (Homographic.asRatio cfg a b) (FinePrimed cfg n m) := by
  unfold Homographic.asRatio
  exact .bind (newI_fits a b) fun r hr => .pure ⟨hr, fun _ h => by cases h⟩

theorem new_keeps {eg : EgestFn} (he : Keeps cfg eg) (f : Nat) {n m : Nat} {x : Number}
    (H : CompactNumber cfg n m x) {nx k dx d : Int} (hk : (⟨nx, k, dx, d⟩ : Coef4).Fits cfg) :
    Gives (Homographic.new cfg eg f x nx k dx d) (FinePrimed cfg n m) := by
  unfold Homographic.new
  refine .ite (asRatio_keeps _ _ _ _) ?_
  match x, H with
  | .Special .NegOne, _ => ops; exact asRatio_keeps _ _ _ _
  | .Special .Zero, _ => exact asRatio_keeps _ _ _ _
  | .Special .PosOne, _ => ops; exact asRatio_keeps _ _ _ _
  | .Other p c, H => exact .bind (absorbPrimer_fits p hk) fun k hk => prime_keeps he f ⟨H, hk⟩

/-- What a combining state may become. -/
def Fine8 (cfg : Cfg) (n n' m : Nat) (s : Combine) : Prop :=
  Compact cfg n m s.x ∧ Compact cfg n' m s.y ∧ s.k.Fits cfg

theorem Fine8.box {n n' m : Nat} {s : Combine} (H : Fine8 cfg n n' m s) :
    Compact cfg (n + n' + 1) (m + 1) s.box := compact_combine H.1 H.2.1 H.2.2

theorem FinePrimed.mono {n m n' m' : Nat} {r : Homographic.Primed} (h : FinePrimed cfg n m r)
    (hn : n ≤ n') (hm : m ≤ m') : FinePrimed cfg n' m' r :=
  ⟨h.1, fun h' e => ⟨(h.2 h' e).1.mono hn hm, (h.2 h' e).2⟩⟩

theorem primeIngest8_keeps {eg : EgestFn} (he : Keeps cfg eg) (f : Nat) {n n' m : Nat} {s : Combine}
    (H : Fine8 cfg n n' m s) : Gives (Combine.primeIngest cfg eg f s) fun r =>
      (∀ q, r = .inl q → FinePrimed cfg (n + n') m q) ∧ ∀ s', r = .inr s' → Fine8 cfg n n' m s' := by
  obtain ⟨Hx, Hy, Hk⟩ := H
  unfold Combine.primeIngest
  refine .bind (he _ _ _ Hx) fun r hx => ?_
  obtain ⟨rx, x⟩ := r
  rcases rx with _ | rx
  · refine .bind (valueAtEndOfX_fits _) fun k hk => ?_
    refine .bind (new_keeps he f (x := .Other none s.y) Hy hk) fun q hq => .pure ⟨?_, fun _ h => (by cases h)⟩
    rintro _ ⟨⟩
    exact hq.mono (by omega) le_rfl
  · refine .bind (ingestX_fits rx Hk) fun k hk => ?_
    refine .bind (he _ _ _ Hy) fun r hy => ?_
    obtain ⟨ry, y⟩ := r
    rcases ry with _ | ry
    · refine .bind (valueAtEndOfY_fits _) fun k hk => ?_
      refine .bind (new_keeps he f (x := .Other none x) hx hk) fun q hq => .pure ⟨?_, fun _ h => (by cases h)⟩
      rintro _ ⟨⟩
      exact hq.mono (by omega) le_rfl
    · refine .bind (ingestY_fits ry hk) fun k hk => .pure ⟨fun _ h => (by cases h), ?_⟩
      rintro _ ⟨⟩
      exact ⟨hx, hy, hk⟩

/-- What the constructor of a combining strategy may return. -/
def FinePrimed8 (cfg : Cfg) (n n' m : Nat) (r : Combine.Primed) : Prop :=
  RatioFits cfg r.2.2.1 ∧ (∀ h, r.2.2.2.1 = some h → Fine cfg (n + n') m h) ∧
    ∀ s, r.2.2.2.2 = some s → Fine8 cfg n n' m s

theorem prime8_keeps {eg : EgestFn} (he : Keeps cfg eg) (f : Nat) {n n' m : Nat} {s : Combine}
    (H : Fine8 cfg n n' m s) : Gives (Combine.prime cfg eg f s) (FinePrimed8 cfg n n' m) := by
  induction f generalizing s with
  | zero => trivial
  | succ f ih =>
    unfold Combine.prime
    refine .bind (primerAttempt8_fits H.2.2) fun r hr => ?_
    rcases r with _ | ⟨p, k⟩
    · refine .bind (primeIngest8_keeps he f H) fun r hr => ?_
      rcases r with ⟨s, p, q, h⟩ | s'
      · exact .pure ⟨(hr.1 _ rfl).1, (hr.1 _ rfl).2, fun _ h => by cases h⟩
      · exact ih (hr.2 _ rfl)
    · refine .pure ⟨fun _ h => (by cases h), fun _ h => (by cases h), ?_⟩
      rintro _ ⟨⟩
      exact ⟨H.1, H.2.1, hr _ _ rfl⟩

theorem simpleClog_compact {n m : Nat} (hn : 1 ≤ n) (hm : 1 ≤ m) :
    Compact cfg n m Combine.simpleClog := by
  refine compact_ratio ?_ hn hm
  have h := cfg.hbits
  have : 2 ^ 16 ≤ 2 ^ cfg.bits := Nat.pow_le_pow_right (by omega) h
  unfold Cfg.umax
  show 1 ≤ _ ∧ 2 ≤ _
  omega

theorem reductionIngest8_keeps {eg : EgestFn} (he : Keeps cfg eg) (f : Nat) {n n' m : Nat} {s : Combine}
    (H : Fine8 cfg n n' m s) : Gives (Combine.reductionIngest cfg eg f s) fun r =>
      RatioFits cfg r.1.1 ∧ (∀ h, r.1.2 = some h → Fine cfg (n + n') m h) ∧ Fine8 cfg n n' m r.2 := by
  obtain ⟨Hx, Hy, Hk⟩ := H
  unfold Combine.reductionIngest
  refine .bind (he _ _ _ Hx) fun r hx => ?_
  obtain ⟨rx, x⟩ := r
  rcases rx with _ | rx
  · refine .bind (valueAtEndOfX_fits _) fun k hk => ?_
    refine .bind (new_keeps he f (x := .Other none s.y) Hy hk) fun q hq => ?_
    obtain ⟨sp, p, q, h⟩ := q
    have hq := hq.mono (n' := n + n') (by omega) le_rfl
    rcases sp with _ | _ <;> rcases p with _ | _ <;>
      first
      | trivial
      | exact ⟨hq.1, hq.2, hx, simpleClog_compact Hy.pos.1 Hy.pos.2, Hk⟩
  · refine .bind (ingestX_fits rx Hk) fun k hk => ?_
    refine .bind (he _ _ _ Hy) fun r hy => ?_
    obtain ⟨ry, y⟩ := r
    rcases ry with _ | ry
    · refine .bind (valueAtEndOfY_fits _) fun k4 hk4 => ?_
      refine .bind (new_keeps he f (x := .Other none x) hx hk4) fun q hq => ?_
      obtain ⟨sp, p, q, h⟩ := q
      have hq := hq.mono (n' := n + n') (by omega) le_rfl
      rcases sp with _ | _ <;> rcases p with _ | _ <;>
        first
        | trivial
        | exact ⟨hq.1, hq.2, simpleClog_compact Hx.pos.1 Hx.pos.2, hy, hk⟩
    · exact .bind (ingestY_fits ry hk) fun k hk =>
        .pure ⟨fun _ h => (by cases h), fun _ h => (by cases h), hx, hy, hk⟩

theorem egest8_keeps {eg : EgestFn} (he : Keeps cfg eg) (f : Nat) {n n' m : Nat} {s : Combine}
    (H : Fine8 cfg n n' m s) : Gives (Combine.egest cfg eg f s) fun r =>
      FineEgested cfg (n + n' + 1) (m + 1) (r.1, r.2.box) := by
  induction f generalizing s with
  | zero => trivial
  | succ f ih =>
    unfold Combine.egest
    refine .bind (reductionAttempt8_fits H.2.2) fun r hr => ?_
    rcases r with _ | ⟨p, k⟩
    · refine .bind (reductionIngest8_keeps he f H) fun r hr => ?_
      rcases r with ⟨⟨q, _ | h⟩, s'⟩
      · rcases q with _ | q
        · exact ih hr.2.2
        · refine .pure ⟨hr.2.2.box, ?_⟩
          rintro _ ⟨⟩
          exact compact_ratio (hr.1 _ rfl) (by omega) (by omega)
      · refine .pure ⟨hr.2.2.box, ?_⟩
        rintro _ ⟨⟩
        exact (hr.2.1 _ rfl).box
    · exact .pure ⟨Fine8.box ⟨H.1, H.2.1, hr _ _ rfl⟩, fun _ h => by cases h⟩

theorem strategy_keeps {eg : EgestFn} (he : Keeps cfg eg) (f : Nat) {n m : Nat} {c : Clog}
    (H : Compact cfg n m c) : Gives (Strategy.egest cfg eg f c) (FineEgested cfg n m) := by
  cases c with
  | ratio r =>
    exact .bind (ratio_egest_fits H.words) fun r hr =>
      .pure ⟨⟨hr, H.nodes, H.nesting⟩, fun _ h => by cases h⟩
  | homographic x k =>
    have hx : Compact cfg (nodes x) (nesting x) x := ⟨H.words.1, le_rfl, le_rfl⟩
    refine .bind (egest_keeps he f (h := ⟨x, k⟩) ⟨hx, fits4.1 H.words.2⟩) fun r hr => .pure ?_
    exact ⟨hr.1.mono H.nodes H.nesting, fun s hs => (hr.2 s hs).mono H.nodes H.nesting⟩
  | combine x y k =>
    have hx : Compact cfg (nodes x) (max (nesting x) (nesting y)) x := ⟨H.words.1, le_rfl, by omega⟩
    have hy : Compact cfg (nodes y) (max (nesting x) (nesting y)) y := ⟨H.words.2.1, le_rfl, by omega⟩
    refine .bind (egest8_keeps he f (s := ⟨x, y, k⟩) ⟨hx, hy, fits8.1 H.words.2.2⟩) fun r hr => .pure ?_
    exact ⟨hr.1.mono H.nodes H.nesting, fun s hs => (hr.2 s hs).mono H.nodes H.nesting⟩

theorem clog_keeps (cfg : Cfg) (f : Nat) : Keeps cfg (Clog.egest cfg f) := by
  induction f with
  | zero => intro _ _ _ _; trivial
  | succ f ih =>
    have main : ∀ g ≤ f + 1, ∀ c n m, Compact cfg n m c → Gives (Clog.egest cfg g c) fun r =>
        Compact cfg n m r.2 := by
      intro g hg
      induction g with
      | zero => intro _ _ _ _; trivial
      | succ g ihg =>
        intro c n m H
        have hk : Keeps cfg (Clog.egest cfg g) := ihg (by omega)
        unfold Clog.egest
        refine .bind (strategy_keeps hk g H) fun r hr => ?_
        rcases r with ⟨_ | s, c'⟩
        · exact .pure hr.1
        · exact hk _ _ _ (hr.2 _ rfl)
    exact main _ le_rfl

/-! ## Numbers -/

theorem _root_.Clarith.Spec.CompactNumber.mono {n m n' m' : Nat} {x : Number} (h : CompactNumber cfg n m x) (hn : n ≤ n')
    (hm : m ≤ m') : CompactNumber cfg n' m' x := by
  cases x with
  | Special => trivial
  | Other p c => exact Compact.mono h hn hm

theorem ratioU_compact {positive : Bool} {n d : Nat} (hn : n ≤ cfg.umax) (hd : d ≤ cfg.umax) :
    Gives (Number.ratioU positive n d) (CompactNumber cfg 1 1) := by
  unfold Number.ratioU
  refine .bind (new_fits hn hd) fun r hr => ?_
  obtain ⟨s, p, q⟩ := r
  rcases s with _ | _
  · rcases q with _ | q
    · trivial
    · exact compact_ratio (hr _ rfl) le_rfl le_rfl
  · trivial

theorem ratio_compact (num den : Int) : Gives (Number.ratio cfg num den) (CompactNumber cfg 1 1) := by
  unfold Number.ratio
  exact .bind (magnitude_fits _) fun _ hn => .bind (magnitude_fits _) fun _ hd => ratioU_compact hn hd

theorem homographic_compact (f : Nat) {n m : Nat} {x : Number} (H : CompactNumber cfg n m x)
    {nx k dx d : Int} (hk : (⟨nx, k, dx, d⟩ : Coef4).Fits cfg) :
    Gives (Number.homographic cfg f x nx k dx d) (CompactNumber cfg (n + 1) (m + 1)) := by
  unfold Number.homographic
  refine .bind (new_keeps (clog_keeps cfg f) f H hk) fun r hr => ?_
  obtain ⟨s, p, q, h⟩ := r
  rcases s with _ | _
  · rcases q with _ | q
    · rcases h with _ | h
      · trivial
      · exact (hr.2 _ rfl).box
    · exact compact_ratio (hr.1 _ rfl) (by omega) (by omega)
  · trivial

theorem asHomographic_keeps {eg : EgestFn} (he : Keeps cfg eg) (f : Nat) {n n' m' m : Nat} {x : Number}
    (H : CompactNumber cfg m' m x) (hm : m' ≤ n + n') {nx k dx d : Int}
    (hk : (⟨nx, k, dx, d⟩ : Coef4).Fits cfg) :
    Gives (Combine.asHomographic cfg eg f x nx k dx d) (FinePrimed8 cfg n n' m) := by
  unfold Combine.asHomographic
  refine .bind (new_keeps he f H hk) fun r hr => ?_
  have hr := hr.mono hm le_rfl
  exact .pure ⟨hr.1, hr.2, fun _ h => by cases h⟩

theorem new8_keeps {eg : EgestFn} (he : Keeps cfg eg) (f : Nat) {n n' m : Nat} {x y : Number}
    (Hx : CompactNumber cfg n m x) (Hy : CompactNumber cfg n' m y) {k : Coef8} (hk : k.Fits cfg) :
    Gives (Combine.new cfg eg f x y k) (FinePrimed8 cfg n n' m) := by
  unfold Combine.new
  match x, Hx with
  | .Special .NegOne, _ =>
    ops; exact asHomographic_keeps he f Hy (by omega) ⟨‹_›, ‹_›, ‹_›, ‹_›⟩
  | .Special .Zero, _ => exact asHomographic_keeps he f Hy (by omega) ⟨hk.c, hk.d, hk.g, hk.h⟩
  | .Special .PosOne, _ =>
    ops; exact asHomographic_keeps he f Hy (by omega) ⟨‹_›, ‹_›, ‹_›, ‹_›⟩
  | .Other px cx, Hx =>
    match y, Hy with
    | .Special .NegOne, _ =>
      ops; exact asHomographic_keeps he f Hx (by omega) ⟨‹_›, ‹_›, ‹_›, ‹_›⟩
    | .Special .Zero, _ => exact asHomographic_keeps he f Hx (by omega) ⟨hk.b, hk.d, hk.f, hk.h⟩
    | .Special .PosOne, _ =>
      ops; exact asHomographic_keeps he f Hx (by omega) ⟨‹_›, ‹_›, ‹_›, ‹_›⟩
    | .Other py cy, Hy =>
      exact .bind (absorbPrimerX_fits px hk) fun k hk => .bind (absorbPrimerY_fits py hk) fun k hk =>
        prime8_keeps he f ⟨Hx, Hy, hk⟩

theorem combine_compact (f : Nat) {n n' m : Nat} {x y : Number} (Hx : CompactNumber cfg n m x)
    (Hy : CompactNumber cfg n' m y) {a b c d e g h i : Int}
    (hk : (⟨a, b, c, d, e, g, h, i⟩ : Coef8).Fits cfg) :
    Gives (Number.combine cfg f x y a b c d e g h i) (CompactNumber cfg (n + n' + 1) (m + 1)) := by
  unfold Number.combine
  refine .bind (new8_keeps (clog_keeps cfg f) f Hx Hy hk) fun r hr => ?_
  obtain ⟨s, p, q, h, c⟩ := r
  rcases s with _ | _
  · rcases q with _ | q
    · rcases h with _ | h
      · rcases c with _ | c
        · trivial
        · exact (hr.2.2 _ rfl).box
      · exact (hr.2.1 _ rfl).box
    · exact compact_ratio (hr.1 _ rfl) (by omega) (by omega)
  · trivial

theorem ingest_fits {k : Coef4} (r : Reduction) (h : k.Fits cfg) :
    Gives (Consume.ingest cfg r k) (Coef4.Fits cfg) := by
  obtain ⟨h1, h2, h3, h4⟩ := h
  cases r with
  | Amplify =>
    show Gives (Consume.amplifyX cfg k) _
    unfold Consume.amplifyX
    refine .ite ?_ (.pure ⟨half_fits h1, h2, half_fits h3, h4⟩)
    ops
    exact .pure ⟨h1, ‹_›, h3, ‹_›⟩
  | Uncover =>
    show Gives (Consume.uncoverX cfg k) _
    unfold Consume.uncoverX
    ops
    exact .pure ⟨h2, ‹_›, h4, ‹_›⟩

theorem small_fits (cfg : Cfg) {z : Int} (h : -2 ≤ z) (h' : z ≤ 2) : cfg.Fits z := by
  have hb := cfg.hbits
  have h1 : (2 : Int) ^ 15 ≤ 2 ^ (cfg.bits - 1) := by
    exact pow_le_pow_right₀ (by norm_num) (by omega)
  unfold Cfg.Fits Cfg.imin Cfg.imax
  omega

theorem consume_keeps {eg : EgestFn} (he : Keeps cfg eg) (f : Nat) {n m : Nat} {c : Clog} {k : Coef4}
    (H : Compact cfg n m c) (hk : k.Fits cfg) : Gives (Consume.consume cfg eg f c k) fun r =>
      (∀ c', r.1 = some c' → Compact cfg n m c') ∧ r.2.Fits cfg := by
  induction f generalizing c k with
  | zero => trivial
  | succ f ih =>
    unfold Consume.consume
    refine .bind (he _ _ _ H) fun r hr => ?_
    obtain ⟨s, c'⟩ := r
    rcases s with _ | s
    · exact .pure ⟨fun _ h => (by cases h), hk⟩
    · refine .bind (ingest_fits s hk) fun k hk => Gives.skip fun b =>
        .ite (.pure ⟨?_, hk⟩) (ih hr hk)
      rintro _ ⟨⟩
      exact hr

theorem consume_compact (f : Nat) {n m : Nat} {x : Number} (H : CompactNumber cfg n m x) :
    Gives (Number.consume cfg f x) fun r =>
      (∀ y, r.1 = some y → CompactNumber cfg n m y) ∧ r.2.Fits cfg := by
  have h0 := small_fits cfg (z := 0) (by omega) (by omega)
  have h1 := small_fits cfg (z := 1) (by omega) (by omega)
  have h2 := small_fits cfg (z := -1) (by omega) (by omega)
  unfold Number.consume
  suffices h : Gives (Consume.new cfg (Clog.egest cfg f) f x) fun r =>
      (∀ c', r.1 = some c' → Compact cfg n m c') ∧ r.2.Fits cfg by
    refine .bind h fun r hr => .pure ⟨?_, hr.2⟩
    obtain ⟨_ | c, k⟩ := r
    · intro _ h; cases h
    · rintro _ ⟨⟩
      exact hr.1 _ rfl
  unfold Consume.new
  match x, H with
  | .Special .NegOne, _ => exact ⟨fun _ h => (by cases h), h0, h2, h0, h1⟩
  | .Special .Zero, _ => exact ⟨fun _ h => (by cases h), h0, h0, h0, h1⟩
  | .Special .PosOne, _ => exact ⟨fun _ h => (by cases h), h0, h1, h0, h1⟩
  | .Other p c, H =>
    have hs : Gives (Consume.start cfg p) (Coef4.Fits cfg) := by
      rcases p with _ | (_ | _ | _)
      · exact ⟨h1, h0, h0, h1⟩
      · exact ⟨h0, h1, h1, h0⟩
      · unfold Consume.start
        ops
        exact .pure ⟨‹_›, h0, ‹_›, h1⟩
      · unfold Consume.start
        ops
        exact .pure ⟨h0, ‹_›, h1, ‹_›⟩
    exact .bind hs fun k hk => consume_keeps (clog_keeps cfg f) f H hk

theorem egests_compact (f i : Nat) {n m : Nat} {c : Clog} (H : Compact cfg n m c) :
    Gives (Clog.egests cfg f i c) fun r => Compact cfg n m r.2 := by
  induction i generalizing c with
  | zero => exact .pure H
  | succ i ih =>
    unfold Clog.egests
    exact .bind (clog_keeps cfg f _ _ _ H) fun r hr => .bind (ih hr) fun r' hr' => .pure hr'

theorem rebuild_compact (f : Nat) {n m : Nat} {r : Option Number × Coef4}
    (H : ∀ y, r.1 = some y → CompactNumber cfg n m y) (hk : r.2.Fits cfg) :
    Gives (Spec.rebuild cfg f r) (CompactNumber cfg (n + 1) (m + 1)) := by
  obtain ⟨_ | y, k⟩ := r
  · unfold Spec.rebuild
    ops
    exact (ratio_compact _ _).mono fun _ h => h.mono (by omega) (by omega)
  · exact homographic_compact f (H y rfl) hk

end Space

open Space

/-- The strategies behind the number that a program makes: one for each `ratio`, `homographic` and
`combine` in it. -/
def Spec.Expr.nodes (given : Nat → Nat) : Expr → Nat
  | .given i => given i
  | .ratio _ _ => 1
  | .ratioU _ _ _ => 1
  | .homographic e _ _ _ _ => e.nodes given + 1
  | .combine e e' _ _ _ _ _ _ _ _ => e.nodes given + e'.nodes given + 1
  | .rebuild e => e.nodes given + 1
  | .reread _ _ e => e.nodes given

/-- How deep these are nested. -/
def Spec.Expr.nesting (given : Nat → Nat) : Expr → Nat
  | .given i => given i
  | .ratio _ _ => 1
  | .ratioU _ _ _ => 1
  | .homographic e _ _ _ _ => e.nesting given + 1
  | .combine e e' _ _ _ _ _ _ _ _ => max (e.nesting given) (e'.nesting given) + 1
  | .rebuild e => e.nesting given + 1
  | .reread _ _ e => e.nesting given

/-! ## C82 Space -/

/-- What machine integers are: the values from `-2^(bits-1)` to `2^(bits-1) - 1` of an `isize`, and
those below `2^bits` of a `usize`. -/
theorem C82_machine_integers (cfg : Cfg) (z : Int) (n : Nat) :
    (cfg.Fits z ↔ -2 ^ (cfg.bits - 1) ≤ z ∧ z < 2 ^ (cfg.bits - 1)) ∧
      (n ≤ cfg.umax ↔ n < 2 ^ cfg.bits) := by
  have : (0 : Nat) < 2 ^ cfg.bits := by positivity
  unfold Cfg.Fits Cfg.imin Cfg.imax Cfg.umax
  omega

/-- In every build, reading a symbol leaves machine integers in all fields and does not add a strategy
or nest them deeper. -/
theorem C82_egest (cfg : Cfg) (f : Nat) (c c' : Clog) (s : Option Reduction)
    (hc : Spec.WordSized cfg c) (h : Clog.egest cfg f c = .ok (s, c')) :
    Spec.WordSized cfg c' ∧ Spec.nodes c' ≤ Spec.nodes c ∧ Spec.nesting c' ≤ Spec.nesting c := by
  have := (maybe_iff.1 (clog_keeps cfg f c _ _ ⟨hc, le_rfl, le_rfl⟩)).1 _ h
  exact ⟨this.words, this.nodes, this.nesting⟩

/-- So does reading any number of symbols. -/
theorem C82_egests (cfg : Cfg) (f i : Nat) (c c' : Clog) (l : List (Option Reduction))
    (hc : Spec.WordSized cfg c) (h : Clog.egests cfg f i c = .ok (l, c')) :
    Spec.WordSized cfg c' ∧ Spec.nodes c' ≤ Spec.nodes c ∧ Spec.nesting c' ≤ Spec.nesting c := by
  have := (maybe_iff.1 (egests_compact f i ⟨hc, le_rfl, le_rfl⟩)).1 _ h
  exact ⟨this.words, this.nodes, this.nesting⟩

/-- A number made by `ratio`, from any integers, is a single strategy with machine integers. -/
theorem C82_ratio (cfg : Cfg) (num den : Int) (x : Number) (h : Number.ratio cfg num den = .ok x) :
    CompactNumber cfg 1 1 x := (maybe_iff.1 (ratio_compact num den)).1 _ h

/-- The result of `homographic` has one strategy more than its operand at most. -/
theorem C82_homographic (cfg : Cfg) (f : Nat) (x y : Number) (n m : Nat) (hx : CompactNumber cfg n m x)
    (nx k dx d : Int) (H : MachineInts cfg [nx, k, dx, d])
    (h : Number.homographic cfg f x nx k dx d = .ok y) : CompactNumber cfg (n + 1) (m + 1) y :=
  (maybe_iff.1 (homographic_compact f hx
    ⟨H _ (by simp), H _ (by simp), H _ (by simp), H _ (by simp)⟩)).1 _ h

/-- The result of `combine` has one strategy more than its operands together at most. -/
theorem C82_combine (cfg : Cfg) (f : Nat) (x y z : Number) (n n' m : Nat)
    (hx : CompactNumber cfg n m x) (hy : CompactNumber cfg n' m y)
    (nxy nx ny k dxy dx dy d : Int) (H : MachineInts cfg [nxy, nx, ny, k, dxy, dx, dy, d])
    (h : Number.combine cfg f x y nxy nx ny k dxy dx dy d = .ok z) :
    CompactNumber cfg (n + n' + 1) (m + 1) z :=
  (maybe_iff.1 (combine_compact f hx hy (Coef8.Fits.of_list H))).1 _ h

/-- `consume` gives machine integers, and what it leaves of its operand has not grown. -/
theorem C82_consume (cfg : Cfg) (f : Nat) (x : Number) (n m : Nat) (hx : CompactNumber cfg n m x)
    (y : Option Number) (k : Coef4) (h : Number.consume cfg f x = .ok (y, k)) :
    (∀ y', y = some y' → CompactNumber cfg n m y') ∧ MachineInts cfg [k.nx, k.n, k.dx, k.d] := by
  have := (maybe_iff.1 (consume_compact f hx)).1 _ h
  exact ⟨this.1, fits4.2 this.2⟩

/-- The number that a program makes has at most one strategy for each call in the program that made
one, and machine integers in all fields: in every build, whether or not the arithmetic in it
overflows. -/
theorem C82_program (cfg : Cfg) (f : Nat) (env : Nat → Number) (n m : Nat → Nat)
    (henv : ∀ i, CompactNumber cfg (n i) (m i) (env i)) (e : Expr) (hm : e.Machine cfg) (x : Number)
    (h : e.run cfg f env = .ok x) : CompactNumber cfg (e.nodes n) (e.nesting m) x := by
  suffices H : Gives (e.run cfg f env) (CompactNumber cfg (e.nodes n) (e.nesting m)) from
    (maybe_iff.1 H).1 _ h
  clear h
  induction e with
  | given i => exact henv i
  | ratio num den => exact ratio_compact num den
  | ratioU positive num den => exact ratioU_compact hm.1 hm.2
  | homographic e nx k dx d ih =>
    obtain ⟨h1, h2⟩ := hm
    exact .bind (ih h1) fun x hx => homographic_compact f hx
      ⟨h2 _ (by simp), h2 _ (by simp), h2 _ (by simp), h2 _ (by simp)⟩
  | combine e e' nxy nx ny k dxy dx dy d ih ih' =>
    obtain ⟨h1, h2, h3⟩ := hm
    exact .bind (ih h1) fun x hx => .bind (ih' h2) fun y hy =>
      combine_compact f (hx.mono le_rfl (le_max_left _ _)) (hy.mono le_rfl (le_max_right _ _))
        (Coef8.Fits.of_list h3)
  | rebuild e ih =>
    exact .bind (ih hm) fun x hx => .bind (consume_compact f hx) fun r hr =>
      rebuild_compact f hr.1 hr.2
  | reread p i e ih =>
    refine .bind (ih hm) fun x hx => ?_
    cases x with
    | Special s => trivial
    | Other p' c =>
      refine Maybe.bind (m := Clog.egests cfg f i c) (egests_compact f i hx) fun r hr => ?_
      exact hr

/-- The bounds are met: the sum of 17/97 and 31/199 made by `combine` has three strategies, two deep.
When it has been read to its end, a single ratio is left. -/
example : (do
    let x ← Number.ratio debug64 17 97
    let y ← Number.ratio debug64 31 199
    let z ← Number.combine debug64 60 x y 0 1 1 0 0 0 0 1
    let (_, c) ← z.unwrapOther
    let (_, c') ← Clog.egests debug64 60 60 c
    pure ((Spec.nodes c, Spec.nesting c), Spec.nodes c', Spec.nesting c') : Out _) =
    .ok ((3, 2), 1, 1) := by decide +kernel

/-- The hypotheses are met by a program of four calls on a number that `combine` made. -/
example (x : Number) :=
  C82_program debug64 100
    (fun _ => .Other none (.combine (.ratio ⟨1, 3⟩) (.ratio ⟨2, 5⟩) ⟨0, 1, 1, 0, 0, 0, 0, 1⟩))
    (fun _ => 3) (fun _ => 2)
    (fun _ => ⟨⟨⟨by decide, by decide⟩, ⟨by decide, by decide⟩, by decide +kernel⟩, le_rfl, le_rfl⟩)
    (.rebuild (.combine (.homographic (.given 0) 1 2 3 4) (.ratio 7 9) 1 0 0 0 0 0 0 1))
    ⟨⟨trivial, show ∀ z ∈ _, _ by decide +kernel⟩, show ∀ z ∈ _, _ by decide +kernel,
      show ∀ z ∈ _, _ by decide +kernel⟩ x

/-- There the bounds are seven strategies, five deep. -/
example : Expr.nodes (fun _ => 3)
      (.rebuild (.combine (.homographic (.given 0) 1 2 3 4) (.ratio 7 9) 1 0 0 0 0 0 0 1)) = 7 ∧
    Expr.nesting (fun _ => 2)
      (.rebuild (.combine (.homographic (.given 0) 1 2 3 4) (.ratio 7 9) 1 0 0 0 0 0 0 1)) = 5 := by
  decide

/-- A release build keeps to machine integers where it wraps: -1/3 times the least integer is negative
there, as the opposite of the least integer is taken for itself. -/
example : (do
    let x ← Number.ratio release64 (-1) 3
    Number.homographic release64 20 x (-2 ^ 63) 0 0 1) =
      .ok (.Other (some .Ground) (.homographic (.ratio ⟨1, 2⟩) ⟨-1, -1, 0, -2 ^ 62⟩)) := by
  decide +kernel

end Clarith
