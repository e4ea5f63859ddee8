import Verif.Proofs.FieldCombine
import Verif.Properties.ReadsCombine
import Verif.Properties.Same

/-! # What `combine` reads when one of its operands ends -/

namespace Clarith

open Spec Out

theorem Gives.trans {cfg : Cfg} {c d e : Clog} {l l' : List Reduction} (h : Gives cfg c l d)
    (h' : Gives cfg d l' e) : Gives cfg c (l ++ l') e := by
  induction l generalizing c with
  | nil => rw [← Gives.nil_eq h]; exact h'
  | cons r l ih =>
    obtain ⟨c1, h1, h2⟩ := Gives.uncons h
    exact Gives.cons h1 (ih h2)

theorem Returns.ev {α : Type} {A : Panic → Prop} {m : Nat → Out α} {a : α} (h : Returns m a) :
    Ev A (fun f _ => m f) (· = a) := by
  obtain ⟨f₀, h⟩ := h
  exact .inl ⟨a, rfl, f₀, fun f hf _ _ => h f hf⟩

namespace Homographic

theorem prime_one {cfg : Cfg} {eg : EgestFn} {f : Nat} {h : Homographic} {t : Primed}
    (e : prime cfg eg f h = .ok t) : t.2.2.1 = none ∨ t.2.2.2 = none := by
  induction f generalizing h with
  | zero => simp [prime] at e
  | succ f ih =>
    simp only [prime] at e
    cases e1 : h.k.primerAttempt cfg with
    | panic p => simp [e1] at e
    | timeout => simp [e1] at e
    | ok o =>
      rcases o with _ | ⟨p, k⟩
      · cases e2 : primeIngest cfg eg h with
        | panic p => simp [e1, e2] at e
        | timeout => simp [e1, e2] at e
        | ok o =>
          rcases o with ⟨_ | ⟨s, p, r⟩, h'⟩
          · simp only [e1, e2, ok_bind] at e; exact ih e
          · simp only [e1, e2, ok_bind, pure_eq, Out.ok.injEq] at e
            subst e; exact .inr rfl
      · simp only [e1, ok_bind, pure_eq, Out.ok.injEq] at e
        subst e; exact .inl rfl

/-- `new` does not return both a `Ratio` and a `Homographic`. -/
theorem new_one {cfg : Cfg} {eg : EgestFn} {f : Nat} {p c nx n dx d} {t : Primed}
    (e : new cfg eg f (.Other p c) nx n dx d = .ok t) : t.2.2.1 = none ∨ t.2.2.2 = none := by
  unfold new at e
  split at e
  · simp only [asRatio] at e
    cases e1 : Ratio.newI cfg n d with
    | panic p => simp [e1] at e
    | timeout => simp [e1] at e
    | ok o =>
      simp only [e1, ok_bind, pure_eq, Out.ok.injEq] at e
      subst e; exact .inr rfl
  · cases e1 : absorbPrimer cfg p ⟨nx, n, dx, d⟩ with
    | panic p => simp [e1] at e
    | timeout => simp [e1] at e
    | ok k => simp only [e1, ok_bind] at e; exact prime_one e

/-- The result of `new` is a number with primer `p` and clog `c`. -/
def Makes (p : Option Primer) (c : Clog) (t : Primed) : Prop :=
  t.1 = none ∧ t.2.1 = p ∧ ((t.2.2.1 = none ∧ ∃ h, t.2.2.2 = some h ∧ c = h.box) ∨
    ((∃ q, t.2.2.1 = some q ∧ c = .ratio q) ∧ t.2.2.2 = none))

theorem new_makes {cfg : Cfg} {A : Panic → Prop} (hm : ¬A .unwrapMissing) {p p' c nx n dx d}
    {R : Clog → Prop}
    (h : Ends A (fun f => Number.homographic cfg f (.Other p c) nx n dx d) fun v =>
      ∃ c0, v = .Other p' c0 ∧ R c0) :
    Ev A (fun f j => new cfg (Clog.egest cfg f) j (.Other p c) nx n dx d) fun t =>
      ∃ c0, Makes p' c0 t ∧ R c0 := by
  have later : ∀ {J f j : Nat}, J ≤ f → J ≤ j →
      Out.Le (new cfg (Clog.egest cfg J) J (.Other p c) nx n dx d)
        (new cfg (Clog.egest cfg f) j (.Other p c) nx n dx d) := fun h1 h2 =>
    new_le (fun c => Clog.egest_le h1 c) h2 _ _ _ _ _
  rcases h with ⟨v, ⟨J, hJ⟩, c0, rfl, hR⟩ | ⟨P, ⟨J, hJ⟩, hA⟩
  · have e := hJ J le_rfl
    simp only [Number.homographic] at e
    cases e1 : new cfg (Clog.egest cfg J) J (.Other p c) nx n dx d with
    | panic p => simp [e1] at e
    | timeout => simp [e1] at e
    | ok t =>
      refine .inl ⟨t, ⟨c0, ?_, hR⟩, J, fun f hf j hj => (later hf hj).ok e1⟩
      have h1 := new_one e1
      obtain ⟨s, q, r, h⟩ := t
      rw [e1] at e
      rcases s with _ | s
      · rcases r with _ | r
        · rcases h with _ | h
          · simp at e
          · simp only [ok_bind, pure_eq, Out.ok.injEq, Number.Other.injEq] at e
            exact ⟨rfl, e.1, .inl ⟨rfl, h, rfl, e.2.symm⟩⟩
        · simp only [ok_bind, pure_eq, Out.ok.injEq, Number.Other.injEq] at e
          exact ⟨rfl, e.1, .inr ⟨⟨r, rfl, e.2.symm⟩, by simpa using h1⟩⟩
      · simp at e
  · have e := hJ J le_rfl
    simp only [Number.homographic] at e
    cases e1 : new cfg (Clog.egest cfg J) J (.Other p c) nx n dx d with
    | panic p =>
      simp only [e1, panic_bind, Out.panic.injEq] at e
      subst e
      exact .inr ⟨p, hA, J, fun f hf j hj => (later hf hj).panic e1⟩
    | timeout => simp [e1] at e
    | ok t =>
      obtain ⟨s, q, r, h⟩ := t
      rw [e1] at e
      rcases s with _ | s <;> rcases r with _ | r <;> rcases h with _ | h <;> simp at e
      exact (hm (e ▸ hA)).elim

end Homographic

/-! ## The symbols read until one operand ends -/

/-- `x` gives `lx` and `y` gives `ly`, in pairs, until one of them has ended; `z` is then left of the
other, which goes on with `l`.  When `s` is left after `l`, the operands are `φ s` and `ψ s`. -/
inductive Way (cfg : Cfg) (z : Clog) (l : List Reduction) :
    List Reduction → List Reduction → Clog → Clog → (ℚ → ℚ) → (ℚ → ℚ) → Prop
  | endX {x x' : Clog} : Returns (fun f => Clog.egest cfg f x) (none, x') →
      Way cfg z l [] [] x z (fun _ => 1 / 2) (unread l)
  | endY {x y y' : Clog} {r : Reduction} : Returns (fun f => Clog.egest cfg f x) (some r, z) →
      Returns (fun f => Clog.egest cfg f y) (none, y') →
      Way cfg z l [r] [] x y (fun s => unread1 r (unread l s)) (fun _ => 1 / 2)
  | pair {x x1 y y1 : Clog} {rx ry : Reduction} {lx ly φ ψ} :
      Returns (fun f => Clog.egest cfg f x) (some rx, x1) →
      Returns (fun f => Clog.egest cfg f y) (some ry, y1) → Way cfg z l lx ly x1 y1 φ ψ →
      Way cfg z l (rx :: lx) (ry :: ly) x y (fun s => unread1 rx (φ s)) (fun s => unread1 ry (ψ s))

theorem Way.mem {cfg z l lx ly x y φ ψ} (h : Way cfg z l lx ly x y φ ψ) {s : ℚ} (s0 : 0 < s)
    (s1 : s < 1) : (0 < φ s ∧ φ s < 1) ∧ 0 < ψ s ∧ ψ s < 1 := by
  induction h with
  | endX _ => exact ⟨by norm_num, unread_mem l s0 s1⟩
  | endY _ _ =>
    have := unread_mem l s0 s1
    exact ⟨unread1_mem _ this.1 this.2, by norm_num⟩
  | pair _ _ _ ih =>
    exact ⟨unread1_mem _ ih.1.1 ih.1.2, unread1_mem _ ih.2.1 ih.2.2⟩

/-- The pair `x1`, `y1` is reached from `x`, `y` by reading pairs of symbols. -/
def Reached (cfg : Cfg) (lx ly : List Reduction) (x y : Clog) (lx2 ly2 : List Reduction)
    (x1 y1 : Clog) : Prop :=
  ∃ lx1 ly1, lx = lx1 ++ lx2 ∧ ly = ly1 ++ ly2 ∧ lx1.length = ly1.length ∧ Gives cfg x lx1 x1 ∧
    Gives cfg y ly1 y1

theorem Reached.refl {cfg lx ly x y} : Reached cfg lx ly x y lx ly x y :=
  ⟨[], [], rfl, rfl, rfl, Gives.nil _, Gives.nil _⟩

theorem Reached.trans {cfg lx ly x y lx2 ly2 x1 y1 lx3 ly3 x2 y2}
    (h : Reached cfg lx ly x y lx2 ly2 x1 y1) (h' : Reached cfg lx2 ly2 x1 y1 lx3 ly3 x2 y2) :
    Reached cfg lx ly x y lx3 ly3 x2 y2 := by
  obtain ⟨a, b, rfl, rfl, e, h1, h2⟩ := h
  obtain ⟨a', b', rfl, rfl, e', h1', h2'⟩ := h'
  exact ⟨a ++ a', b ++ b', by rw [List.append_assoc], by rw [List.append_assoc], by simp [e, e'],
    Gives.trans h1 h1', Gives.trans h2 h2'⟩

theorem Reached.pair {cfg lx ly x y rx ry x1 y1}
    (hx : Returns (fun f => Clog.egest cfg f x) (some rx, x1))
    (hy : Returns (fun f => Clog.egest cfg f y) (some ry, y1)) :
    Reached cfg (rx :: lx) (ry :: ly) x y lx ly x1 y1 :=
  ⟨[rx], [ry], rfl, rfl, rfl, Gives.cons hx (Gives.nil _), Gives.cons hy (Gives.nil _)⟩

/-- What is left of the operands in a result: both, after a beginning of `lx`, `ly`; or the one that
goes on, after a beginning of `l`. -/
def Holds (cfg : Cfg) (z : Clog) (l lx ly : List Reduction) (x y : Clog) (c : Clog) : Prop :=
  (∃ lx2 ly2 x1 y1 k, Reached cfg lx ly x y lx2 ly2 x1 y1 ∧ c = .combine x1 y1 k) ∨
  ∃ l1 l2 z1 k, l = l1 ++ l2 ∧ Gives cfg z l1 z1 ∧ c = .homographic z1 k

theorem Holds.back {cfg z l lx ly x y lx2 ly2 x1 y1 c} (h : Holds cfg z l lx2 ly2 x1 y1 c)
    (hr : Reached cfg lx ly x y lx2 ly2 x1 y1) : Holds cfg z l lx ly x y c := by
  rcases h with ⟨a, b, x2, y2, k, h, rfl⟩ | h
  · exact .inl ⟨a, b, x2, y2, k, hr.trans h, rfl⟩
  · exact .inr h

/-- The map depends on the operand that goes on. -/
def Depends (k : Coef8) (φ ψ : ℚ → ℚ) : Prop :=
  ∀ s s', 0 < s → s < 1 → 0 < s' → s' < 1 → k.val (φ s) (ψ s) = k.val (φ s') (ψ s') → s = s'

section
variable {cfg : Cfg} {A : Panic → Prop} {z z' : Clog} {l : List Reduction}

/-- The coefficients `k4` for the operand that goes on, once the other has ended. -/
def Ended (l : List Reduction) (k : Coef8) (φ ψ : ℚ → ℚ) (k4 : Coef4) : Prop :=
  ∀ s, 0 < s → s < 1 → Coef8.Same4 k (φ s) (ψ s) k4 (unread l s)

/-- The coefficients stay small for `N` more pairs of symbols and the end of an operand. -/
def Coef8.Small (k : Coef8) (T : Int) (N : Nat) : Prop := ∃ M, k.Bounded M ∧ 8 * M * 4 ^ N ≤ T

theorem Coef8.Bounded.safe {k : Coef8} {M T : Int} {N n : Nat} (hb : k.Bounded M)
    (h : 8 * M * 4 ^ N ≤ T) (hs : cfg.SafeUpTo A (T * 2 ^ n)) : cfg.SafeUpTo A (2 * M) := by
  have h1 : (1 : Int) ≤ 4 ^ N := one_le_pow₀ (by norm_num)
  have h2 : (1 : Int) ≤ 2 ^ n := one_le_pow₀ (by norm_num)
  have hM := hb.pos
  have h3 : 8 * M ≤ T := by nlinarith
  exact hs.mono (by omega) (by nlinarith)

theorem Coef8.Bounded.safe1 {k : Coef8} {M T : Int} {N n : Nat} (hb : k.Bounded M)
    (h : 8 * M * 4 ^ N ≤ T) (hs : cfg.SafeUpTo A (T * 2 ^ n)) : cfg.SafeUpTo A M :=
  (hb.safe h hs).mono (by have := hb.pos; omega) (by have := hb.pos; omega)

theorem Coef4.Bounded.size {k : Coef4} {M T : Int} (hb : k.Bounded (2 * M)) (hM : 1 ≤ M)
    (h : 8 * M ≤ T) : Homographic.Within k.nx k.n k.dx k.d T := by
  obtain ⟨h1, h2, h3, h4, h5, h6, h7, h8, h9⟩ := hb
  have a1 : |k.n| ≤ 2 * M := abs_le.2 ⟨by omega, by omega⟩
  have a2 : |k.nx| ≤ 4 * M := abs_le.2 ⟨by omega, by omega⟩
  have a3 : |k.d| ≤ 2 * M := abs_le.2 ⟨by omega, by omega⟩
  have a4 : |k.dx| ≤ 4 * M := abs_le.2 ⟨by omega, by omega⟩
  constructor <;> omega

/-- `homographic` gives the answers once an operand has ended. -/
theorem ended_answers {T : Int} (hs : cfg.SafeUpTo A (T * 2 ^ l.length)) (hz : Gives cfg z l z') {k : Coef8} {φ ψ : ℚ → ℚ}
    {k4 : Coef4} {p' : Option Primer} {m : Nat} {out : List (Option Reduction)}
    (hw : Homographic.Within k4.nx k4.n k4.dx k4.d T) (he : Ended l k φ ψ k4) (hd : Depends k φ ψ)
    (hv : ∀ s, 0 < s → s < 1 → k.denAt (φ s) (ψ s) ≠ 0 ∧ ∃ u, 0 < u ∧ u < 1 ∧
      k.val (φ s) (ψ s) = applyPrimer p' u ∧ symbols m u = out)
    (hB : ∃ B : ℚ, ∀ s, 0 < s → s < 1 → |k.val (φ s) (ψ s)| ≤ B) :
    Ends A (fun f => Number.homographic cfg f (.Other none z) k4.nx k4.n k4.dx k4.d) fun v =>
      ∃ c0, v = .Other p' c0 ∧ Ends A (fun f => Clog.egests cfg f m c0) fun r =>
        r.1 = out ∧ ∃ l1 l2 z1 k, l = l1 ++ l2 ∧ Gives cfg z l1 z1 ∧ r.2 = .homographic z1 k := by
  have den : ∀ s, 0 < s → s < 1 → k4.denAt (unread l s) ≠ 0 := by
    intro s s0 s1
    obtain ⟨t, ht, -, h2⟩ := he s s0 s1
    rw [h2]
    exact mul_ne_zero ht (hv s s0 s1).1
  refine (settled_is_enough (p' := p') (m := m) (out := out) hw hs ?_ hz ?_ (.inr ?_)).mono ?_
  · intro h0
    have e1 := (he (1 / 3) (by norm_num) (by norm_num)).val
    have e2 := (he (2 / 3) (by norm_num) (by norm_num)).val
    have d1 := den (1 / 3) (by norm_num) (by norm_num)
    have d2 := den (2 / 3) (by norm_num) (by norm_num)
    have h0' : (k4.nx : ℚ) * k4.d - k4.n * k4.dx = 0 := by exact_mod_cast h0
    have := hd (1 / 3) (2 / 3) (by norm_num) (by norm_num) (by norm_num) (by norm_num) (by
      rw [← e1, ← e2, Coef4.val_eq, Coef4.val_eq, div_eq_div_iff d1 d2]
      simp only [Coef4.numAt, Coef4.denAt]
      linear_combination (unread l (1 / 3) - unread l (2 / 3)) * h0')
    norm_num at this
  · intro t ht
    obtain ⟨s, s0, s1, rfl⟩ := (symbols_iff_unread l t).1 ht
    obtain ⟨-, u, u0, u1, h1, h2⟩ := hv s s0 s1
    rw [← (he s s0 s1).val] at h1
    exact ⟨den s s0 s1, u, u0, u1, h1, h2⟩
  · obtain ⟨B, hB⟩ := hB
    refine ⟨B, fun t ht => ?_⟩
    obtain ⟨s, s0, s1, rfl⟩ := (symbols_iff_unread l t).1 ht
    have := hB s s0 s1
    rwa [← (he s s0 s1).val] at this
  · rintro v ⟨c0, rfl, h⟩
    refine ⟨c0, rfl, h.mono ?_⟩
    rintro r ⟨h1, l1, l2, c1, k, h2, h3, -, h4⟩
    exact ⟨h1, l1, l2, c1, k, h2, h3, h4⟩

namespace Combine

/-- The next pair on the way. -/
def Onward (cfg : Cfg) (z : Clog) (l lx ly : List Reduction) (x y : Clog) (φ ψ : ℚ → ℚ) (k : Coef8)
    (T : Int) (s : Combine) : Prop :=
  ∃ lx1 ly1 φ1 ψ1, Way cfg z l lx1 ly1 s.x s.y φ1 ψ1 ∧ Reached cfg lx ly x y lx1 ly1 s.x s.y ∧
    lx1.length < lx.length ∧ (k.Inv → s.k.Inv) ∧ s.k.Small T lx1.length ∧
    ∀ t, 0 < t → t < 1 → Coef8.Same k (φ t) (ψ t) s.k (φ1 t) (ψ1 t)

theorem endX_ended {k : Coef8} {k4 : Coef4} (h : Coef8.EndX k k4) :
    Ended l k (fun _ => 1 / 2) (unread l) k4 := fun _ _ _ => h.same _

theorem endY_ended {k k1 : Coef8} {k4 : Coef4} {r : Reduction} (hx : Coef8.IngX r k k1)
    (h : Coef8.EndY k1 k4) :
    Ended l k (fun s => unread1 r (unread l s)) (fun _ => 1 / 2) k4 := by
  intro s s0 s1
  have hm := unread_mem l s0 s1
  obtain ⟨e1, e2⟩ := sym_unread1 r hm.1 hm.2
  obtain ⟨t, ht, h1, h2⟩ := hx.same (v := 1 / 2) e1
  obtain ⟨t', ht', h1', h2'⟩ := h.same (unread l s)
  rw [e2] at h1 h2
  exact ⟨t' * t, mul_ne_zero ht' ht, by rw [h1', h1, mul_assoc], by rw [h2', h2, mul_assoc]⟩

theorem pair_onward {lx ly : List Reduction} {x x1 y y1 : Clog} {rx ry : Reduction} {φ ψ : ℚ → ℚ}
    {k k1 k2 : Coef8} (hx : Returns (fun f => Clog.egest cfg f x) (some rx, x1))
    (hy : Returns (fun f => Clog.egest cfg f y) (some ry, y1)) (h : Way cfg z l lx ly x1 y1 φ ψ)
    (h1 : Coef8.IngX rx k k1) (h2 : Coef8.IngY ry k1 k2) {M T : Int} (hb : k.Bounded M)
    (hT : 8 * M * 4 ^ (rx :: lx).length ≤ T) :
    Onward cfg z l (rx :: lx) (ry :: ly) x y (fun s => unread1 rx (φ s)) (fun s => unread1 ry (ψ s)) k T
      ⟨x1, y1, k2⟩ := by
  refine ⟨lx, ly, φ, ψ, h, .pair hx hy, by simp, fun hI => h2.inv (h1.inv hI),
    ⟨_, h2.bounded (h1.bounded hb), ?_⟩, fun t t0 t1 => ?_⟩
  · rw [List.length_cons, pow_succ] at hT
    linarith
  obtain ⟨m1, m2⟩ := h.mem t0 t1
  obtain ⟨a1, a2⟩ := sym_unread1 rx m1.1 m1.2
  obtain ⟨b1, b2⟩ := sym_unread1 ry m2.1 m2.2
  obtain ⟨c, hc, e1, e2⟩ := h1.same (v := unread1 ry (ψ t)) a1
  obtain ⟨c', hc', e1', e2'⟩ := h2.same (u := φ t) b1
  rw [a2] at e1 e2
  rw [b2] at e1' e2'
  exact ⟨c' * c, mul_ne_zero hc' hc, by rw [e1', e1, mul_assoc], by rw [e2', e2, mul_assoc]⟩

theorem reductionIngest_way {T : Int} (hs : cfg.SafeUpTo A (T * 2 ^ l.length)) (hm : ¬A .unwrapMissing)
    {lx ly : List Reduction} {x y : Clog} {φ ψ : ℚ → ℚ} {k : Coef8} {R : Clog → Prop}
    (h : Way cfg z l lx ly x y φ ψ) (hT : k.Small T lx.length)
    (hfin : ∀ k4, Homographic.Within k4.nx k4.n k4.dx k4.d T → Ended l k φ ψ k4 →
      Ends A (fun f => Number.homographic cfg f (.Other none z) k4.nx k4.n k4.dx k4.d) fun v =>
        ∃ c0, v = .Other none c0 ∧ R c0) :
    Ev A (fun f j => reductionIngest cfg (Clog.egest cfg f) j ⟨x, y, k⟩) fun r =>
      (∃ c0, ((∃ h, r.1.2 = some h ∧ c0 = h.box) ∨
        (r.1.2 = none ∧ ∃ q, r.1.1 = some q ∧ c0 = .ratio q)) ∧ R c0) ∨
      (r.1 = (none, none) ∧ Onward cfg z l lx ly x y φ ψ k T r.2) := by
  obtain ⟨M, hb, hT⟩ := hT
  unfold reductionIngest
  cases h with
  | endX hx =>
    refine Ev.bind (Returns.ev hx) ?_
    rintro _ rfl
    refine Ev.bind_sat (Coef8.valueAtEndOfX_sat (hb.safe1 hT hs) hb) ?_
    rintro k4 ⟨he, -⟩
    refine Ev.bind (Homographic.new_makes hm (hfin k4 ((he.bounded hb).size hb.pos (by simpa using hT)) (endX_ended he))) ?_
    rintro ⟨t1, t2, t3, t4⟩ ⟨c0, ⟨h1, h2, h3⟩, hR⟩
    simp only at h1 h2 h3
    subst h1 h2
    refine Ev.pure (.inl ⟨c0, ?_, hR⟩)
    rcases h3 with ⟨-, h⟩ | ⟨h, h'⟩
    · exact .inl h
    · exact .inr ⟨h', h⟩
  | endY hx hy =>
    refine Ev.bind (Returns.ev hx) ?_
    rintro _ rfl
    refine Ev.bind_sat (Coef8.ingestX_sat _ (hb.safe1 hT hs) hb) ?_
    intro k1 hk1
    refine Ev.bind (Returns.ev hy) ?_
    rintro _ rfl
    refine Ev.bind_sat (Coef8.valueAtEndOfY_sat (hb.safe hT hs) (hk1.bounded hb)) ?_
    rintro k4 ⟨he, -⟩
    refine Ev.bind (Homographic.new_makes hm (hfin k4
      ((he.bounded (hk1.bounded hb)).size (by have := hb.pos; omega) (by
        have := hb.pos
        rw [List.length_cons, List.length_nil] at hT
        omega)) (endY_ended hk1 he))) ?_
    rintro ⟨t1, t2, t3, t4⟩ ⟨c0, ⟨h1, h2, h3⟩, hR⟩
    simp only at h1 h2 h3
    subst h1 h2
    refine Ev.pure (.inl ⟨c0, ?_, hR⟩)
    rcases h3 with ⟨-, h⟩ | ⟨h, h'⟩
    · exact .inl h
    · exact .inr ⟨h', h⟩
  | pair hx hy hw =>
    refine Ev.bind (Returns.ev hx) ?_
    rintro _ rfl
    refine Ev.bind_sat (Coef8.ingestX_sat _ (hb.safe1 hT hs) hb) ?_
    intro k1 hk1
    refine Ev.bind (Returns.ev hy) ?_
    rintro _ rfl
    refine Ev.bind_sat (Coef8.ingestY_sat _ (hb.safe hT hs) (hk1.bounded hb)) ?_
    intro k2 hk2
    exact Ev.pure (.inr ⟨rfl, pair_onward hx hy hw hk1 hk2 hb hT⟩)

theorem primeIngest_way {T : Int} (hs : cfg.SafeUpTo A (T * 2 ^ l.length)) (hm : ¬A .unwrapMissing)
    {lx ly : List Reduction} {x y : Clog} {φ ψ : ℚ → ℚ} {k : Coef8} {p' : Option Primer}
    {R : Clog → Prop} (h : Way cfg z l lx ly x y φ ψ) (hT : k.Small T lx.length)
    (hfin : ∀ k4, Homographic.Within k4.nx k4.n k4.dx k4.d T → Ended l k φ ψ k4 →
      Ends A (fun f => Number.homographic cfg f (.Other none z) k4.nx k4.n k4.dx k4.d) fun v =>
        ∃ c0, v = .Other p' c0 ∧ R c0) :
    Ev A (fun f j => primeIngest cfg (Clog.egest cfg f) j ⟨x, y, k⟩) fun r =>
      (∃ t c0, r = .inl t ∧ Homographic.Makes p' c0 t ∧ R c0) ∨
      (∃ s, r = .inr s ∧ Onward cfg z l lx ly x y φ ψ k T s) := by
  obtain ⟨M, hb, hT⟩ := hT
  unfold primeIngest
  cases h with
  | endX hx =>
    refine Ev.bind (Returns.ev hx) ?_
    rintro _ rfl
    refine Ev.bind_sat (Coef8.valueAtEndOfX_sat (hb.safe1 hT hs) hb) ?_
    rintro k4 ⟨he, -⟩
    refine Ev.bind (Homographic.new_makes hm (hfin k4 ((he.bounded hb).size hb.pos (by simpa using hT)) (endX_ended he))) ?_
    rintro t ⟨c0, ht, hR⟩
    exact Ev.pure (.inl ⟨t, c0, rfl, ht, hR⟩)
  | endY hx hy =>
    refine Ev.bind (Returns.ev hx) ?_
    rintro _ rfl
    refine Ev.bind_sat (Coef8.ingestX_sat _ (hb.safe1 hT hs) hb) ?_
    intro k1 hk1
    refine Ev.bind (Returns.ev hy) ?_
    rintro _ rfl
    refine Ev.bind_sat (Coef8.valueAtEndOfY_sat (hb.safe hT hs) (hk1.bounded hb)) ?_
    rintro k4 ⟨he, -⟩
    refine Ev.bind (Homographic.new_makes hm (hfin k4
      ((he.bounded (hk1.bounded hb)).size (by have := hb.pos; omega) (by
        have := hb.pos
        rw [List.length_cons, List.length_nil] at hT
        omega)) (endY_ended hk1 he))) ?_
    rintro t ⟨c0, ht, hR⟩
    exact Ev.pure (.inl ⟨t, c0, rfl, ht, hR⟩)
  | pair hx hy hw =>
    refine Ev.bind (Returns.ev hx) ?_
    rintro _ rfl
    refine Ev.bind_sat (Coef8.ingestX_sat _ (hb.safe1 hT hs) hb) ?_
    intro k1 hk1
    refine Ev.bind (Returns.ev hy) ?_
    rintro _ rfl
    refine Ev.bind_sat (Coef8.ingestY_sat _ (hb.safe hT hs) (hk1.bounded hb)) ?_
    intro k2 hk2
    exact Ev.pure (.inr ⟨_, rfl, pair_onward hx hy hw hk1 hk2 hb hT⟩)

/-- A symbol, and the pair on the way that is left. -/
def Gave (cfg : Cfg) (z : Clog) (l lx ly : List Reduction) (x y : Clog) (φ ψ : ℚ → ℚ) (k : Coef8)
    (T : Int) (r : Reduction) (s : Combine) : Prop :=
  ∃ lx1 ly1 φ1 ψ1, Way cfg z l lx1 ly1 s.x s.y φ1 ψ1 ∧ Reached cfg lx ly x y lx1 ly1 s.x s.y ∧
    s.k.Inv ∧ s.k.Small T lx1.length ∧ ∀ t, 0 < t → t < 1 → sym (k.val (φ t) (ψ t)) = some r ∧
      s.k.val (φ1 t) (ψ1 t) = next (k.val (φ t) (ψ t))

theorem _root_.Clarith.Ended.back {k k' : Coef8} {φ ψ φ' ψ' : ℚ → ℚ} {k4 : Coef4}
    (h : Ended l k' φ' ψ' k4)
    (hk : ∀ t, 0 < t → t < 1 → Coef8.Same k (φ t) (ψ t) k' (φ' t) (ψ' t)) : Ended l k φ ψ k4 := by
  intro s s0 s1
  obtain ⟨c, hc, e1, e2⟩ := hk s s0 s1
  obtain ⟨c', hc', e1', e2'⟩ := h s s0 s1
  exact ⟨c' * c, mul_ne_zero hc' hc, by rw [e1', e1, mul_assoc], by rw [e2', e2, mul_assoc]⟩

theorem egest_way {T : Int} (hs : cfg.SafeUpTo A (T * 2 ^ l.length)) (hm : ¬A .unwrapMissing) {R : Clog → Prop} (N : Nat) :
    ∀ {lx ly : List Reduction} {x y : Clog} {φ ψ : ℚ → ℚ} {k : Coef8}, lx.length = N →
    Way cfg z l lx ly x y φ ψ → k.Inv → k.Small T lx.length →
    (∀ k4, Homographic.Within k4.nx k4.n k4.dx k4.d T → Ended l k φ ψ k4 →
      Ends A (fun f => Number.homographic cfg f (.Other none z) k4.nx k4.n k4.dx k4.d) fun v =>
        ∃ c0, v = .Other none c0 ∧ R c0) →
    Ev A (fun f j => egest cfg (Clog.egest cfg f) j ⟨x, y, k⟩) fun r =>
      (∃ r0, r.1 = .ok (some r0) ∧ Gave cfg z l lx ly x y φ ψ k T r0 r.2) ∨
      (∃ c0, r.1 = .err c0 ∧ R c0) := by
  induction N using Nat.strong_induction_on with
  | _ N ih =>
    intro lx ly x y φ ψ k hN hw hI hR0 hfin
    obtain ⟨M, hb, hT⟩ := hR0
    refine Ev.succ ?_
    simp only [egest]
    refine Ev.bind_sat (Coef8.reductionAttempt_sat (hb.safe1 hT hs) hb hI) ?_
    rintro (_ | ⟨red, k'⟩) hr
    · refine Ev.bind (reductionIngest_way hs hm hw ⟨M, hb, hT⟩ hfin) ?_
      rintro ⟨⟨o1, o2⟩, s'⟩ (⟨c0, (⟨h, h1, rfl⟩ | ⟨h1, q, h2, rfl⟩), hR⟩ | ⟨h1, h2⟩)
      · simp only at h1; subst h1
        exact Ev.pure (.inr ⟨_, rfl, hR⟩)
      · simp only at h1 h2; subst h1 h2
        exact Ev.pure (.inr ⟨_, rfl, hR⟩)
      · simp only [Prod.mk.injEq] at h1
        obtain ⟨rfl, rfl⟩ := h1
        obtain ⟨lx1, ly1, φ1, ψ1, g1, g2, g3, g4, g6, g5⟩ := h2
        refine (ih lx1.length (hN ▸ g3) rfl g1 (g4 hI) g6 fun k4 hk4 h => hfin k4 hk4 (h.back g5)).mono ?_
        rintro r (⟨r0, e, lx2, ly2, φ2, ψ2, f1, f2, f3, f5, f4⟩ | h)
        · refine .inl ⟨r0, e, lx2, ly2, φ2, ψ2, f1, g2.trans f2, f3, f5, fun t t0 t1 => ?_⟩
          rw [← (g5 t t0 t1).val]
          exact f4 t t0 t1
        · exact .inr h
    · have h2 := hr red k' rfl
      obtain ⟨r, rfl⟩ : ∃ r0, red = some r0 := by
        rcases h2 with ⟨_, ⟨rfl, _⟩ | ⟨rfl, _⟩⟩ | ⟨_, ⟨rfl, _⟩ | ⟨rfl, _⟩⟩ <;> exact ⟨_, rfl⟩
      have h3 := Coef8.red_step (u := 1 / 2) (v := 1 / 2) (by norm_num) (by norm_num) (by norm_num)
        (by norm_num) hb h2
      refine Ev.pure (.inl ⟨r, rfl, lx, ly, φ, ψ, hw, .refl, h3.2.1, ⟨M, h3.2.2.1, hT⟩, fun t t0 t1 => ?_⟩)
      obtain ⟨m1, m2⟩ := hw.mem t0 t1
      have h4 := Coef8.red_step m1.1 m1.2 m2.1 m2.2 hb h2
      exact ⟨h4.1.symm, h4.2.2.2⟩

theorem prime_way {T : Int} (hs : cfg.SafeUpTo A (T * 2 ^ l.length)) (hm : ¬A .unwrapMissing) {p' : Option Primer}
    {R : Clog → Prop} (N : Nat) :
    ∀ {lx ly : List Reduction} {x y : Clog} {φ ψ : ℚ → ℚ} {k : Coef8}, lx.length = N →
    Way cfg z l lx ly x y φ ψ → k.Small T lx.length →
    (∀ k4, Homographic.Within k4.nx k4.n k4.dx k4.d T → Ended l k φ ψ k4 →
      Ends A (fun f => Number.homographic cfg f (.Other none z) k4.nx k4.n k4.dx k4.d) fun v =>
        ∃ c0, v = .Other p' c0 ∧ R c0) →
    Ev A (fun f j => prime cfg (Clog.egest cfg f) j ⟨x, y, k⟩) fun t =>
      (∃ p s lx1 ly1 φ1 ψ1, t = (none, p, none, none, some s) ∧ Way cfg z l lx1 ly1 s.x s.y φ1 ψ1 ∧
        Reached cfg lx ly x y lx1 ly1 s.x s.y ∧ s.k.Inv ∧ s.k.Small T lx1.length ∧
        ∀ t, 0 < t → t < 1 → k.val (φ t) (ψ t) = applyPrimer p (s.k.val (φ1 t) (ψ1 t))) ∨
      (∃ t1 t2 t3 t4 c0, t = (t1, t2, t3, t4, none) ∧ Homographic.Makes p' c0 (t1, t2, t3, t4) ∧
        R c0) := by
  induction N using Nat.strong_induction_on with
  | _ N ih =>
    intro lx ly x y φ ψ k hN hw hR0 hfin
    obtain ⟨M, hb, hT⟩ := hR0
    refine Ev.succ ?_
    simp only [prime]
    refine Ev.bind_sat (Coef8.primerAttempt_sat (hb.safe1 hT hs) hb) ?_
    rintro (_ | ⟨p, k'⟩) hr
    · refine Ev.bind (primeIngest_way hs hm hw ⟨M, hb, hT⟩ hfin) ?_
      rintro r (⟨⟨t1, t2, t3, t4⟩, c0, rfl, h, hR⟩ | ⟨s, rfl, lx1, ly1, φ1, ψ1, g1, g2, g3, g4, g6, g5⟩)
      · exact Ev.pure (.inr ⟨_, _, _, _, c0, rfl, h, hR⟩)
      · refine (ih lx1.length (hN ▸ g3) rfl g1 g6 fun k4 hk4 h => hfin k4 hk4 (h.back g5)).mono ?_
        rintro r (⟨p, s2, lx2, ly2, φ2, ψ2, e, f1, f2, f3, f5, f4⟩ | h)
        · refine .inl ⟨p, s2, lx2, ly2, φ2, ψ2, e, f1, g2.trans f2, f3, f5, fun t t0 t1 => ?_⟩
          rw [← (g5 t t0 t1).val]
          exact f4 t t0 t1
        · exact .inr h
    · obtain ⟨h1, h2, _⟩ := hr p k' rfl
      exact Ev.pure (.inl ⟨p, _, lx, ly, φ, ψ, rfl, hw, .refl, h2, ⟨M, h1.bounded hb, hT⟩, fun t _ _ => h1.val _ _⟩)

end Combine

/-- The answers of a `Combine` one operand of which ends. -/
theorem Clog.egests_way {T : Int} (hs : cfg.SafeUpTo A (T * 2 ^ l.length)) (hm : ¬A .unwrapMissing) (hz : Gives cfg z l z')
    (m : Nat) : ∀ {lx ly : List Reduction} {x y : Clog} {φ ψ : ℚ → ℚ} {k : Coef8}
      {out : List (Option Reduction)}, Way cfg z l lx ly x y φ ψ → k.Inv →
    k.Small T lx.length → Depends k φ ψ →
    (∀ s, 0 < s → s < 1 → symbols m (k.val (φ s) (ψ s)) = out) →
    Ends A (fun f => Clog.egests cfg f m (.combine x y k)) fun r =>
      r.1 = out ∧ Holds cfg z l lx ly x y r.2 := by
  induction m with
  | zero =>
    intro lx ly x y φ ψ k out hw hI hR0 hd hv
    have := hv (1 / 2) (by norm_num) (by norm_num)
    refine .inl ⟨([], _), ⟨0, fun _ _ => rfl⟩, ?_, .inl ⟨lx, ly, x, y, k, .refl, rfl⟩⟩
    rw [← this]; rfl
  | succ m ih =>
    intro lx ly x y φ ψ k out hw hI hR0 hd hv
    have hmem : ∀ s, 0 < s → s < 1 → 0 < k.val (φ s) (ψ s) ∧ k.val (φ s) (ψ s) < 1 := by
      intro s s0 s1
      obtain ⟨m1, m2⟩ := hw.mem s0 s1
      exact hI.val_mem m1.1 m1.2 m2.1 m2.2
    have hfin := fun k4 (hk4 : Homographic.Within k4.nx k4.n k4.dx k4.d T) (he : Ended l k φ ψ k4) =>
      ended_answers (p' := none) (m := m + 1) (out := out) hs hz hk4 he hd (fun s s0 s1 => by
        obtain ⟨m1, m2⟩ := hw.mem s0 s1
        exact ⟨hI.den_ne m1.1 m1.2 m2.1 m2.2, _, (hmem s s0 s1).1, (hmem s s0 s1).2, rfl, hv s s0 s1⟩)
        ⟨1, fun s s0 s1 => by
          rw [abs_of_pos (hmem s s0 s1).1]; exact (hmem s s0 s1).2.le⟩
    have h := (Combine.egest_way hs hm lx.length rfl hw hI hR0 hfin).ends
    -- the result of the first call
    have step : ∀ {o : Out (Egested × Combine)} {f : Nat},
        Combine.egest cfg (Clog.egest cfg f) f ⟨x, y, k⟩ = o →
        Clog.egest cfg (f + 1) (.combine x y k) = (do
          match ← o with
          | (.ok reduction, s) => pure (reduction, s.box)
          | (.err c, _) => Clog.egest cfg f c) := by
      intro o f e
      simp only [Clog.egest, Strategy.egest, e]
      cases o with
      | ok r => rcases r with ⟨r | r, s⟩ <;> rfl
      | panic p => rfl
      | timeout => rfl
    rcases h with ⟨⟨r, s⟩, ⟨f₀, hr⟩, h⟩ | ⟨P, ⟨f₀, hr⟩, hP⟩
    · rcases h with ⟨r0, rfl', lx1, ly1, φ1, ψ1, g1, g2, g3, g5, g4⟩ | ⟨c0, e, hR⟩
      · simp only at rfl'
        subst rfl'
        have hd1 : Depends s.k φ1 ψ1 := by
          intro a b a0 a1 b0 b1 e
          refine hd a b a0 a1 b0 b1 ?_
          rw [(g4 a a0 a1).2, (g4 b b0 b1).2] at e
          rw [← unread1_next (g4 a a0 a1).1, ← unread1_next (g4 b b0 b1).1, e]
        obtain ⟨out1, ho⟩ : ∃ out1, out = some r0 :: out1 ∧
            ∀ t, 0 < t → t < 1 → symbols m (s.k.val (φ1 t) (ψ1 t)) = out1 := by
          have e1 := hv (1 / 2) (by norm_num) (by norm_num)
          rw [symbols_succ, (g4 _ (by norm_num) (by norm_num)).1] at e1
          refine ⟨_, e1.symm, fun t t0 t1 => ?_⟩
          have e2 := hv t t0 t1
          rw [symbols_succ, (g4 t t0 t1).1, ← e1] at e2
          rw [(g4 t t0 t1).2]
          simpa using e2
        obtain ⟨rfl, ho⟩ := ho
        have h1 : Ends A (fun f => Clog.egest cfg f (.combine x y k)) (· = (some r0, s.box)) := by
          refine .inl ⟨_, ⟨f₀ + 1, fun f hf => ?_⟩, rfl⟩
          obtain ⟨f, rfl⟩ : ∃ i, f = i + 1 := ⟨f - 1, by omega⟩
          beta_reduce
          rw [step (hr f (by omega))]; rfl
        refine Ends.bind h1 ?_
        rintro _ rfl
        refine Ends.bind (ih g1 g3 g5 hd1 ho) ?_
        rintro ⟨rs, c⟩ ⟨e1, e2⟩
        exact .inl ⟨_, ⟨0, fun _ _ => rfl⟩, by simp only at e1 ⊢; rw [e1], e2.back g2⟩
      · simp only at e
        subst e
        have hc0 := hR.mono (Q := fun r => r.1 = out ∧ Holds cfg z l lx ly x y r.2)
          fun r hr => ⟨hr.1, .inr hr.2⟩
        have eq : ∀ f ≥ f₀, Clog.egest cfg (f + 1) (.combine x y k) = Clog.egest cfg f c0 := by
          intro f hf
          rw [step (hr f hf)]; rfl
        rcases hc0 with ⟨a, ⟨f₁, ha⟩, hQ⟩ | ⟨P, ⟨f₁, ha⟩, hA⟩
        · refine .inl ⟨a, ⟨max f₀ f₁ + 1, fun f hf => ?_⟩, hQ⟩
          obtain ⟨f, rfl⟩ : ∃ i, f = i + 1 := ⟨f - 1, by omega⟩
          have := ha f (by omega)
          beta_reduce at this ⊢
          rw [egests_succ] at this ⊢
          rw [eq f (by omega)]
          cases e : Clog.egest cfg f c0 with
          | ok t =>
            rw [e] at this
            simp only [ok_bind] at this ⊢
            cases e2 : Clog.egests cfg f m t.2 with
            | ok t2 => rw [e2] at this; rw [(Clog.egests_le (Nat.le_succ f) m t.2).ok e2]; exact this
            | panic p => rw [e2] at this; cases this
            | timeout => rw [e2] at this; cases this
          | panic p => rw [e] at this; cases this
          | timeout => rw [e] at this; cases this
        · refine .inr ⟨P, ⟨max f₀ f₁ + 1, fun f hf => ?_⟩, hA⟩
          obtain ⟨f, rfl⟩ : ∃ i, f = i + 1 := ⟨f - 1, by omega⟩
          have := ha f (by omega)
          beta_reduce at this ⊢
          rw [egests_succ] at this ⊢
          rw [eq f (by omega)]
          cases e : Clog.egest cfg f c0 with
          | ok t =>
            rw [e] at this
            simp only [ok_bind] at this ⊢
            cases e2 : Clog.egests cfg f m t.2 with
            | ok t2 => rw [e2] at this; cases this
            | panic p => rw [e2] at this; rw [(Clog.egests_le (Nat.le_succ f) m t.2).panic e2]; exact this
            | timeout => rw [e2] at this; cases this
          | panic p => rw [e] at this; exact this
          | timeout => rw [e] at this; cases this
    · have h1 : Panics (fun f => Clog.egest cfg f (.combine x y k)) P := by
        refine ⟨f₀ + 1, fun f hf => ?_⟩
        obtain ⟨f, rfl⟩ : ∃ i, f = i + 1 := ⟨f - 1, by omega⟩
        beta_reduce
        rw [step (hr f (by omega))]; rfl
      obtain ⟨f₁, h1⟩ := h1
      refine .inr ⟨P, ⟨f₁, fun f hf => ?_⟩, hP⟩
      beta_reduce at h1 ⊢
      rw [egests_succ, h1 f hf]; rfl

/-- The answers of `combine` when an operand ends. -/
theorem combine_way {T : Int} (hs : cfg.SafeUpTo A (T * 2 ^ l.length)) (hm : ¬A .unwrapMissing) (hz : Gives cfg z l z')
    {lx ly : List Reduction} {x y : Clog} {φ ψ : ℚ → ℚ} {k : Coef8} {px py p' : Option Primer} {m : Nat}
    {out : List (Option Reduction)} (hw : Way cfg z l lx ly x y φ ψ)
    {M : Int} (hM : Combine.Sums k M) (hT : 8 * M * 4 ^ lx.length ≤ T)
    (hv : ∀ s, 0 < s → s < 1 → k.denAt (applyPrimer px (φ s)) (applyPrimer py (ψ s)) ≠ 0 ∧
      ∃ u, 0 < u ∧ u < 1 ∧ k.val (applyPrimer px (φ s)) (applyPrimer py (ψ s)) = applyPrimer p' u ∧
        symbols m u = out)
    (hd : Depends k (fun s => applyPrimer px (φ s)) (fun s => applyPrimer py (ψ s)))
    (hB : ∃ B : ℚ, ∀ s, 0 < s → s < 1 →
      |k.val (applyPrimer px (φ s)) (applyPrimer py (ψ s))| ≤ B) :
    Ends A (fun f => Number.combine cfg f (.Other px x) (.Other py y) k.a k.b k.c k.d k.e k.f k.g k.h)
      fun v => ∃ c0, v = .Other p' c0 ∧ Ends A (fun f => Clog.egests cfg f m c0) fun r =>
        r.1 = out ∧ Holds cfg z l lx ly x y r.2 := by
  have hb := hM.within
  have hs1 := hM.bounded.safe1 hT hs
  have h : Ends A (fun f => Combine.new cfg (Clog.egest cfg f) f (.Other px x) (.Other py y) k) fun t =>
      (∃ s, t = (none, p', none, none, some s) ∧ Ends A (fun f => Clog.egests cfg f m s.box) fun r =>
        r.1 = out ∧ Holds cfg z l lx ly x y r.2) ∨
      (∃ t1 t2 t3 t4 c0, t = (t1, t2, t3, t4, none) ∧ Homographic.Makes p' c0 (t1, t2, t3, t4) ∧
        Ends A (fun f => Clog.egests cfg f m c0) fun r => r.1 = out ∧ Holds cfg z l lx ly x y r.2) := by
    unfold Combine.new
    refine Ends.bind (Ends.of_sat (Coef8.absorbPrimerX_sat px hs1 hb)) fun k1 h1 => ?_
    refine Ends.bind (Ends.of_sat (Coef8.absorbPrimerY_sat py hs1 (h1.within hb))) fun k2 h2 => ?_
    have key : ∀ s, 0 < s → s < 1 →
        Coef8.Same k (applyPrimer px (φ s)) (applyPrimer py (ψ s)) k2 (φ s) (ψ s) := by
      intro s s0 s1
      obtain ⟨m1, m2⟩ := hw.mem s0 s1
      obtain ⟨c, hc, e1, e2⟩ := h2.size m2.1 m2.2 (φ s)
      obtain ⟨c', hc', e1', e2'⟩ := h1.size m1.1 m1.2 (applyPrimer py (ψ s))
      refine ⟨c * c', mul_ne_zero ?_ ?_, by rw [e1, e1', mul_assoc], by rw [e2, e2', mul_assoc]⟩
      · rintro rfl; simp at hc
      · rintro rfl; simp at hc'
    have hd2 : Depends k2 φ ψ := by
      intro a b a0 a1 b0 b1 e
      rw [(key a a0 a1).val, (key b b0 b1).val] at e
      exact hd a b a0 a1 b0 b1 e
    have hv2 : ∀ s, 0 < s → s < 1 → k2.denAt (φ s) (ψ s) ≠ 0 ∧ ∃ u, 0 < u ∧ u < 1 ∧
        k2.val (φ s) (ψ s) = applyPrimer p' u ∧ symbols m u = out := by
      intro s s0 s1
      obtain ⟨e1, e2⟩ := hv s s0 s1
      obtain ⟨c, hc, -, e3⟩ := key s s0 s1
      rw [(key s s0 s1).val, e3]
      exact ⟨mul_ne_zero hc e1, e2⟩
    have hB2 : ∃ B : ℚ, ∀ s, 0 < s → s < 1 → |k2.val (φ s) (ψ s)| ≤ B := by
      obtain ⟨B, hB⟩ := hB
      exact ⟨B, fun s s0 s1 => by rw [(key s s0 s1).val]; exact hB s s0 s1⟩
    refine (Combine.prime_way hs hm (p' := p') lx.length rfl hw
      ⟨M, ((hM.absX h1).absY h2).bounded, hT⟩ fun k4 hk4 he => ended_answers hs hz hk4 he hd2 hv2 hB2).ends.mono ?_
    rintro t (⟨p, s, lx1, ly1, φ1, ψ1, rfl, g1, g2, g3, g5, g4⟩ | ⟨t1, t2, t3, t4, c0, rfl, g1, g2⟩)
    · have hval : ∀ t, 0 < t → t < 1 → p' = p ∧ symbols m (s.k.val (φ1 t) (ψ1 t)) = out := by
        intro t t0 t1
        obtain ⟨-, u, u0, u1, e1, e2⟩ := hv2 t t0 t1
        obtain ⟨m1, m2⟩ := g1.mem t0 t1
        have hmem := g3.val_mem m1.1 m1.2 m2.1 m2.2
        rw [g4 t t0 t1] at e1
        obtain ⟨rfl, rfl⟩ := applyPrimer_inj hmem.1 hmem.2 u0 u1 e1
        exact ⟨rfl, e2⟩
      obtain rfl := (hval (1 / 2) (by norm_num) (by norm_num)).1
      refine .inl ⟨s, rfl, (Clog.egests_way hs hm hz m g1 g3 g5 ?_ fun t t0 t1 => (hval t t0 t1).2).mono ?_⟩
      · intro a b a0 a1 b0 b1 e
        refine hd2 a b a0 a1 b0 b1 ?_
        rw [g4 a a0 a1, g4 b b0 b1, e]
      · rintro r ⟨e1, e2⟩
        exact ⟨e1, e2.back g2⟩
    · exact .inr ⟨t1, t2, t3, t4, c0, rfl, g1, g2.mono fun r hr => ⟨hr.1, .inr hr.2⟩⟩
  unfold Number.combine
  refine Ends.bind h ?_
  rintro t (⟨s, rfl, hR⟩ | ⟨t1, t2, t3, t4, c0, rfl, ⟨h1, h2, h3⟩, hR⟩)
  · exact .inl ⟨_, ⟨0, fun _ _ => rfl⟩, _, rfl, hR⟩
  · simp only at h1 h2 h3
    subst h1 h2
    rcases h3 with ⟨rfl, h, rfl, rfl⟩ | ⟨⟨q, rfl, rfl⟩, rfl⟩
    · exact .inl ⟨_, ⟨0, fun _ _ => rfl⟩, _, rfl, hR⟩
    · exact .inl ⟨_, ⟨0, fun _ _ => rfl⟩, _, rfl, hR⟩

end

end Clarith
