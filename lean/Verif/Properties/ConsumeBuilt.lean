import Verif.Properties.CompareBuilt
import Verif.Properties.Consume

/-! # `consume` of numbers of any size (C101)

C24 and C25 are about numbers that never panic, however often they are read after their end.  `consume` reads no
further than the first `None`, so it is exact, without overflow, for all numbers that can be read to their end: also
for those of C97 and C99, whose numerator and denominator are no machine integers, and what it leaves is such a
number again. -/

namespace Clarith

open Out Spec

/-! ## Specification -/

/-- The result of `consume`, a rest and the coefficients, stands for `q`: `None` stands for 1/2, as in
src/lib.rs:176-192, and a rest can be read to its end. -/
def Spec.StandsFor (cfg : Cfg) (q : ℚ) (y : Option Number) (k : Coef4) : Prop :=
  ∃ v, (match y with
    | none => v = 1 / 2
    | some z => ReadsAs cfg z v) ∧
    (k.dx : ℚ) * v + k.d ≠ 0 ∧ q = (k.nx * v + k.n) / (k.dx * v + k.d)

/-- `consume` called again and again, on the rest of the call before, until there is no rest: the coefficients of
the calls. -/
inductive Spec.Portions (cfg : Cfg) : Number → List Coef4 → Prop
  | last {x k} (h : Returns (fun f => Number.consume cfg f x) (none, k)) : Portions cfg x [k]
  | more {x k z ks} (h : Returns (fun f => Number.consume cfg f x) (some z, k)) (hz : Portions cfg z ks) :
      Portions cfg x (k :: ks)

/-- The pieces put together again. -/
def Spec.together : List Coef4 → ℚ
  | [] => 1 / 2
  | k :: ks => (k.nx * together ks + k.n) / (k.dx * together ks + k.d)

/-! ## Proof -/

namespace ConsumeBuilt

open Consume CompareBuilt

/-- `Consume.Post`, for numbers that can be read to their end; a rest has fewer than `len` symbols. -/
def Post (cfg : Cfg) (w : ℚ) (len : Nat) (r : Option Clog × Coef4) : Prop :=
  match r with
  | (none, k) => Below (lim cfg) k ∧ (k.dx : ℚ) * (1 / 2) + k.d ≠ 0 ∧
      (k.nx * (1 / 2) + k.n) / (k.dx * (1 / 2) + k.d) = w
  | (some y, k) => Below (2 * lim cfg) k ∧
      ∃ v, (Reading cfg y v ∧ ∃ l, Expands v l ∧ l.length < len) ∧ (k.dx : ℚ) * v + k.d ≠ 0 ∧
        (k.nx * v + k.n) / (k.dx * v + k.d) = w

theorem clog {cfg : Cfg} {c : Clog} {x w : ℚ} {l : List Reduction} {k : Coef4} (h : Reading cfg c x)
    (hl : Expands x l) (hk : Below (lim cfg) k) (hD : (k.dx : ℚ) * x + k.d ≠ 0)
    (hw : (k.nx * x + k.n) / (k.dx * x + k.d) = w) :
    Ev NoPanic (fun f j => consume cfg (Clog.egest cfg f) j c k) (Post cfg w l.length) := by
  induction l generalizing c x k with
  | nil =>
    cases hl
    refine Ev.succ ?_
    simp only [consume]
    refine Ev.bind h.ev ?_
    rintro ⟨r, c'⟩ ⟨hr, -⟩
    simp only [sym_half] at hr
    subst hr
    exact Ev.pure ⟨hk, hD, hw⟩
  | cons s l ih =>
    have hs : sym x = some s ∧ Expands (next x) l := by
      cases hl with
      | amplify h0 h1 h => rw [sym_lt h1, next_lt h1]; exact ⟨rfl, h⟩
      | uncover h0 h1 h => rw [sym_gt h0, next_gt h0]; exact ⟨rfl, h⟩
    refine Ev.succ ?_
    simp only [consume]
    refine Ev.bind h.ev ?_
    rintro ⟨r, c'⟩ ⟨hr, hd⟩
    simp only at hr hd
    rw [hs.1] at hr hd
    subst hr
    have hd := hd (by simp)
    refine Ev.bind_sat (ingest_sat le_rfl hk h.mem.1 hs.1 hD hw) ?_
    rintro k' ⟨hb, hD', hw'⟩
    refine Ev.bind_sat (isStateUnsafe_sat hb) ?_
    rintro b hb'
    cases b with
    | true => exact Ev.pure ⟨hb, _, ⟨hd, l, hs.2, Nat.lt_succ_self _⟩, hD', hw'⟩
    | false =>
      refine (ih hd hs.2 (hb'.1 rfl) hD' hw').mono ?_
      rintro ⟨_ | y, k''⟩ hp
      · exact hp
      · obtain ⟨p1, v, ⟨p2, l', p3, p4⟩, p5⟩ := hp
        exact ⟨p1, v, ⟨p2, l', p3, p4.trans (Nat.lt_succ_self _)⟩, p5⟩

theorem post {cfg : Cfg} {p : Option Primer} {c : Clog} {x : ℚ} {l : List Reduction} (h : Reading cfg c x)
    (hl : Expands x l) : ∃ r k, Returns (fun f => Number.consume cfg f (.Other p c)) (r.map (.Other none), k) ∧
      Post cfg (applyPrimer p x) l.length (r, k) := by
  have hlim := lim_bounds cfg
  have : Ends NoPanic (fun f => Number.consume cfg f (.Other p c)) (fun t => ∃ r : Option Clog,
      t.1 = r.map (.Other none) ∧ Post cfg (applyPrimer p x) l.length (r, t.2)) := by
    simp only [Number.consume, Consume.new]
    refine Ends.bind (Q := fun r => Post cfg (applyPrimer p x) l.length r) ?_ ?_
    · refine Ends.bind (Ends.of_sat (start_sat h.mem.1)) ?_
      rintro k ⟨⟨b1, b2, b3, b4⟩, hD, hw⟩
      exact (clog h hl ⟨by omega, by omega, by omega, by omega⟩ hD hw).ends
    · exact fun r hp => Ends.of_sat (Sat.pure ⟨r.1, rfl, hp⟩)
  rcases this with ⟨⟨y, k⟩, hr, r, rfl, hp⟩ | ⟨_, _, h⟩
  · exact ⟨r, k, hr, hp⟩
  · exact h.elim

theorem pieces {cfg : Cfg} (len : Nat) : ∀ {p : Option Primer} {c : Clog} {x : ℚ} {l : List Reduction},
    Reading cfg c x → Expands x l → l.length ≤ len →
      ∃ ks, Portions cfg (.Other p c) ks ∧ together ks = applyPrimer p x := by
  induction len with
  | zero =>
    intro p c x l h hl hlen
    obtain ⟨_ | y, k, hr, hp⟩ := post (p := p) h hl
    · exact ⟨[k], .last hr, hp.2.2⟩
    · obtain ⟨-, v, ⟨-, l', -, h'⟩, -⟩ := hp
      omega
  | succ len ih =>
    intro p c x l h hl hlen
    obtain ⟨_ | y, k, hr, hp⟩ := post (p := p) h hl
    · exact ⟨[k], .last hr, hp.2.2⟩
    · obtain ⟨-, v, ⟨hy, l', hl', h'⟩, -, hv⟩ := hp
      obtain ⟨ks, h1, h2⟩ := ih (p := none) hy hl' (by omega)
      refine ⟨k :: ks, .more hr h1, ?_⟩
      rw [together, h2]
      exact hv

end ConsumeBuilt

/-! ## C101 -/

open ConsumeBuilt

/-- A number that can be read to its end: `consume` returns, without panic, coefficients below `isize::MAX / 2` and
a rest that together stand for its value. -/
theorem C101_consume (cfg : Cfg) (x : Number) (q : ℚ) (hx : ReadsAs cfg x q) :
    ∃ y k, Returns (fun f => Number.consume cfg f x) (y, k) ∧ StandsFor cfg q y k ∧
      2 * |k.nx| < cfg.imax ∧ 2 * |k.n| < cfg.imax ∧ 2 * |k.dx| < cfg.imax ∧ 2 * |k.d| < cfg.imax := by
  obtain ⟨p, c, v, l, d, e, rfl, rfl, hl, h⟩ := hx
  have hlim := Consume.lim_bounds cfg
  obtain ⟨_ | y, k, hr, hp⟩ := post (p := p) ⟨l, d, e, hl, h⟩ hl
  · obtain ⟨⟨b1, b2, b3, b4⟩, p2, p3⟩ := hp
    exact ⟨_, k, hr, ⟨1 / 2, rfl, p2, p3.symm⟩, by omega, by omega, by omega, by omega⟩
  · obtain ⟨⟨b1, b2, b3, b4⟩, w, ⟨⟨l', d', e', g⟩, -⟩, p4, p5⟩ := hp
    exact ⟨_, k, hr, ⟨w, ⟨none, y, w, l', d', e', rfl, rfl, g⟩, p4, p5.symm⟩, by omega, by omega, by omega, by omega⟩

/-- A number of 200 bits, made as in C99. -/
example : ∃ x, (∃ p l, Returns (fun f => build debug64 f p l) x) ∧ ∃ y k,
    Returns (fun f => Number.consume debug64 f x) (y, k) ∧ StandsFor debug64 (2 ^ 200 / 3) y k := by
  rcases C99_every debug64 (2 ^ 200 / 3) with ⟨_, s, -, e⟩ | ⟨p, l, x, hx, e⟩
  · cases s <;> norm_num [specialValue] at e
  obtain ⟨y, k, h, hs, -⟩ := C101_consume debug64 x _ e
  exact ⟨x, ⟨p, l, hx⟩, y, k, h, hs⟩

/-- Calling `consume` again and again comes to an end, and the pieces together are the value. -/
theorem C101_pieces (cfg : Cfg) (x : Number) (q : ℚ) (hx : ReadsAs cfg x q) :
    ∃ ks, Portions cfg x ks ∧ together ks = q := by
  obtain ⟨p, c, v, l, d, e, rfl, rfl, hl, h⟩ := hx
  exact pieces l.length ⟨l, d, e, hl, h⟩ hl le_rfl

/-- All of that number. -/
example : ∃ x, (∃ p l, Returns (fun f => build debug64 f p l) x) ∧ ∃ ks, Portions debug64 x ks ∧
    together ks = 2 ^ 200 / 3 := by
  rcases C99_every debug64 (2 ^ 200 / 3) with ⟨_, s, -, e⟩ | ⟨p, l, x, hx, e⟩
  · cases s <;> norm_num [specialValue] at e
  exact ⟨x, ⟨p, l, hx⟩, C101_pieces debug64 x _ e⟩

end Clarith
