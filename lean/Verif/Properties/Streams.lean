import Verif.Proofs.Nearby
import Verif.Properties.ReadsEnd
import Verif.Properties.Ideal
import Verif.Properties.SpecialOperands
import Verif.Properties.Budget

/-! # C91 Expressions of real numbers

The library is about real numbers, but every `Number` it can make starts from fractions, because users
cannot write a `Strategy` of their own (strategy.rs:29 is private to the crate).  Here the operands are real
numbers.  A fraction is given exactly; an irrational number is given by any `Number` that has its primer and
answers enough of its symbols, whatever comes after them, such as a fraction near enough.

For every program of `homographic` and `combine` calls, in which numbers may also be read in part, and every `m`, enough symbols and wide enough words
exist so that the result has the primer and the first `m` symbols of the value in real arithmetic.

The only condition besides the denominators is that a call does not turn irrational operands into a rational
result: nothing can be told about such a result from finitely many symbols of the operands (C55). -/

namespace Clarith

open Spec Out

/-! ## Specification -/

/-- The number `n` has the primer of `v`, and answers its first `k` symbols. -/
def Spec.Shows (cfg : Cfg) (k : Nat) (n : Number) (v : ℝ) : Prop :=
  ∃ p c t, n = .Other p c ∧ 0 < t ∧ t < 1 ∧ v = applyPrimerR p t ∧
    ∃ l c', l.length = k ∧ symbolsR k t = l.map some ∧ Gives cfg c l c'

/-- The number `n` is `v` exactly if `v` is a fraction, otherwise its first `k` symbols are those
of `v`. -/
def Spec.Approximates (cfg : Cfg) (k : Nat) (n : Number) (v : ℝ) : Prop :=
  (∀ q : ℚ, v = q → Number.Denotes cfg NoPanic n q) ∧ (Irrational v → Shows cfg k n v)

/-- What is left of a number in (0,1) after `m` symbols. -/
noncomputable def Spec.leftR : Nat → ℝ → ℝ
  | 0, x => x
  | m + 1, x => if x < 1 / 2 then leftR m (2 * x) else if 1 / 2 < x then leftR m (1 / x - 1) else x

/-- `v` is the value of the program in real arithmetic, where no denominator is zero and no call makes a
rational number of an irrational one. -/
inductive Spec.Expr.RealValue (val : Nat → ℝ) : Expr → ℝ → Prop
  | given (i : Nat) : RealValue val (.given i) (val i)
  | ratio {num den : Int} (h : den ≠ 0) : RealValue val (.ratio num den) (num / den)
  | ratioU {positive : Bool} {num den : Nat} (h : den ≠ 0) :
      RealValue val (.ratioU positive num den) ((if positive then 1 else -1) * ((num : ℝ) / den))
  | homographic {e : Expr} {x v : ℝ} {nx n dx d : Int} (he : RealValue val e x)
      (hD : (dx : ℝ) * x + d ≠ 0) (hv : v = (nx * x + n) / (dx * x + d))
      (hi : Irrational x → Irrational v) : RealValue val (.homographic e nx n dx d) v
  | combine {e e' : Expr} {x y v : ℝ} {nxy nx ny n dxy dx dy d : Int} (he : RealValue val e x)
      (he' : RealValue val e' y) (hD : (dxy : ℝ) * x * y + dx * x + dy * y + d ≠ 0)
      (hv : v = (nxy * x * y + nx * x + ny * y + n) / (dxy * x * y + dx * x + dy * y + d))
      (hi : Irrational x ∨ Irrational y → Irrational v) :
      RealValue val (.combine e e' nxy nx ny n dxy dx dy d) v
  | reread {e : Expr} {p p' : Option Primer} {m : Nat} {t : ℝ} (h0 : 0 < t) (h1 : t < 1)
      (he : RealValue val e (applyPrimerR p' t)) :
      RealValue val (.reread p m e) (applyPrimerR p (leftR m t))

/-- The inputs that the program uses. -/
def Spec.Expr.inputs : Expr → List Nat
  | .given i => [i]
  | .ratio .. => []
  | .ratioU .. => []
  | .homographic e _ _ _ _ => e.inputs
  | .combine e e' _ _ _ _ _ _ _ _ => e.inputs ++ e'.inputs
  | .rebuild e => e.inputs
  | .reread _ _ e => e.inputs

/-! ## Proof -/

section
variable {cfg : Cfg}

theorem Shows.mono {j k : Nat} {n : Number} {v : ℝ} (h : Shows cfg k n v) (hj : j ≤ k) :
    Shows cfg j n v := by
  obtain ⟨p, c, t, h1, t0, t1, h2, l, c', h3, h4, h5⟩ := h
  rw [← List.take_append_drop j l] at h5
  obtain ⟨c1, h6, -⟩ := Gives.split h5
  refine ⟨p, c, t, h1, t0, t1, h2, l.take j, c1, by rw [List.length_take]; omega, ?_, h6⟩
  rw [symbolsR_take j k hj, h4, List.map_take]

theorem Approximates.mono {j k : Nat} {n : Number} {v : ℝ} (h : Approximates cfg k n v) (hj : j ≤ k) :
    Approximates cfg j n v := ⟨h.1, fun hi => Shows.mono (h.2 hi) hj⟩

theorem approximates_rat {k : Nat} {n : Number} {q : ℚ} :
    Approximates cfg k n q ↔ Number.Denotes cfg NoPanic n q := by
  constructor
  · exact fun h => h.1 q rfl
  · refine fun h => ⟨fun r e => ?_, fun hi => (hi ⟨q, rfl⟩).elim⟩
    rwa [← (Rat.cast_injective e : q = r)]

theorem approximates_irr {k : Nat} {n : Number} {v : ℝ} (hv : Irrational v) :
    Approximates cfg k n v ↔ Shows cfg k n v :=
  ⟨fun h => h.2 hv, fun h => ⟨fun q e => (hv ⟨q, e.symm⟩).elim, fun _ => h⟩⟩

/-- The symbols of a fraction, and its end. -/
theorem Clog.Denotes.gives_all {c : Clog} {s : ℚ} {l : List Reduction}
    (h : Clog.Denotes cfg NoPanic c s) (hl : Expands s l) :
    ∃ c' e, Gives cfg c l c' ∧ Returns (fun f => Clog.egest cfg f c') (none, e) := by
  induction hl generalizing c with
  | half =>
    obtain ⟨c1, f₀, h1, -⟩ := h.step_returns
    rw [sym_half] at h1
    exact ⟨c, c1, Gives.nil c, f₀, h1⟩
  | amplify h0 h1 _ ih =>
    obtain ⟨c1, f₀, h2, h3⟩ := h.step_returns
    rw [sym_lt h1] at h2
    rw [next_lt h1] at h3
    obtain ⟨c', e, h4, h5⟩ := ih h3
    exact ⟨c', e, Gives.cons ⟨f₀, h2⟩ h4, h5⟩
  | uncover h0 h1 _ ih =>
    obtain ⟨c1, f₀, h2, h3⟩ := h.step_returns
    rw [sym_gt h0] at h2
    rw [next_gt h0] at h3
    obtain ⟨c', e, h4, h5⟩ := ih h3
    exact ⟨c', e, Gives.cons ⟨f₀, h2⟩ h4, h5⟩

private theorem returns_bind {α β : Type} {m : Nat → Out α} {g : Nat → α → Out β} {a : α}
    {b : β} (h : Returns m a) (h' : Returns (fun f => g f a) b) :
    Returns (fun f => m f >>= g f) b := by
  obtain ⟨f₀, h⟩ := h
  obtain ⟨f₁, h'⟩ := h'
  refine ⟨max f₀ f₁, fun f hf => ?_⟩
  show (m f >>= g f) = _
  rw [h f (le_trans (le_max_left ..) hf)]
  exact h' f (le_trans (le_max_right ..) hf)

theorem exists_imax (m : Int) : ∃ B : Nat, ∀ cfg : Cfg, B ≤ cfg.bits → m ≤ cfg.imax := by
  obtain ⟨B, hB⟩ := Steps.exists_bits ((m : ℚ) + 1)
  refine ⟨B, fun cfg h => ?_⟩
  exact_mod_cast Steps.imax_rat cfg (hB _ h)

theorem shows_of {p : Option Primer} {c0 c1 : Clog} {u v : ℝ} {m : Nat} {out : List Reduction}
    (u0 : 0 < u) (u1 : u < 1) (hv : v = applyPrimerR p u) (hm : out.length = m)
    (hs : symbolsR m u = out.map some) (h : Returns (fun f => Clog.egests cfg f m c0) (out.map some, c1)) :
    Shows cfg m (.Other p c0) v :=
  ⟨p, c0, u, rfl, u0, u1, hv, out, c1, hm, hs, by rw [Gives, hm]; exact h⟩

end

/-- Enough symbols of the operand settle the first symbols of the result. -/
theorem enough_symbols {A B C D : ℚ} {p : Option Primer} {t v : ℝ} (t0 : 0 < t) (t1 : t < 1)
    (hd : (C : ℝ) * applyPrimerR p t + D ≠ 0)
    (hv : v = (A * applyPrimerR p t + B) / (C * applyPrimerR p t + D)) (hi : Irrational v) (m : Nat) :
    ∃ (K : Nat) (p' : Option Primer) (u : ℝ) (out : List Reduction) (b : ℚ), 0 < u ∧ u < 1 ∧
      v = applyPrimerR p' u ∧ out.length = m ∧ symbolsR m u = out.map some ∧
      ∀ l : List Reduction, K ≤ l.length → symbolsR l.length t = l.map some → ∀ s, Begins l s →
        C * applyPrimer p s + D ≠ 0 ∧
        (∃ u', 0 < u' ∧ u' < 1 ∧
          (A * applyPrimer p s + B) / (C * applyPrimer p s + D) = applyPrimer p' u' ∧
          symbols m u' = out.map some) ∧
        |(A * applyPrimer p s + B) / (C * applyPrimer p s + D)| ≤ b := by
  obtain ⟨p', u, δ, ε, out, u0, u1, e1, d0, ε0, e2, e3, e4⟩ := near_value hi m
  obtain ⟨η, η0, h1⟩ := near_map hd hv ε0
  obtain ⟨K, hK⟩ := near_begins p t0 t1 η0
  obtain ⟨b, hb⟩ := exists_rat_gt (|v| + ε)
  refine ⟨K, p', u, out, b, u0, u1, e1, e2, e3, fun l hl hs s hbeg => ?_⟩
  obtain ⟨h2, h3⟩ := h1 _ (hK l hl hs s hbeg)
  obtain ⟨u', h4, h5⟩ := e4 _ h3
  have := h5.mem
  refine ⟨h2, ⟨u', by linarith, by linarith, h4, by rw [← e2]; exact h5.symbols d0⟩, ?_⟩
  have h6 := abs_sub_abs_le_abs_sub
    ((((A * applyPrimer p s + B) / (C * applyPrimer p s + D) : ℚ) : ℝ)) v
  exact_mod_cast (by rw [Rat.cast_abs]; linarith :
    ((|(A * applyPrimer p s + B) / (C * applyPrimer p s + D)| : ℚ) : ℝ) ≤ b)

/-- One call of `homographic`. -/
theorem homographic_approximates {x v : ℝ} {nx n dx d : Int} (hD : (dx : ℝ) * x + d ≠ 0)
    (hv : v = (nx * x + n) / (dx * x + d)) (hi : Irrational x → Irrational v) (m : Nat) :
    ∃ B k, ∀ (cfg : Cfg) (a : Number), B ≤ cfg.bits → Approximates cfg k a x →
      ∃ r, Returns (fun f => Number.homographic cfg f a nx n dx d) r ∧ Approximates cfg m r v := by
  by_cases hx : Irrational x
  · have hvi := hi hx
    obtain ⟨s, rfl⟩ | ⟨p, t, t0, t1, rfl⟩ := decomposeR x
    · exact (hx ⟨specialValue s, by cases s <;> simp [specialValue, specialValueR]⟩).elim
    have hdet : nx * d - n * dx ≠ 0 := by
      have := det_of_irrational (A := nx) (B := n) (C := dx) (D := d) (by push_cast; exact hD)
        (by push_cast; exact hv) hvi
      exact_mod_cast this
    obtain ⟨K, p', u, out, b, u0, u1, e1, e2, e3, h⟩ := enough_symbols (A := nx) (B := n) (C := dx)
      (D := d) t0 t1 (by push_cast; exact hD) (by push_cast; exact hv) hvi m
    obtain ⟨B, hB⟩ := exists_imax (((|nx| + |n| + (|dx| + |d|)) * 2 ^ K) ^ 2)
    refine ⟨B, K, fun cfg a hcfg ha => ?_⟩
    obtain ⟨q, c, t', rfl, t0', t1', e4, l, c', e5, e6, e7⟩ := (approximates_irr hx).1 ha
    obtain ⟨rfl, rfl⟩ := applyPrimerR_inj t0 t1 t0' t1' e4
    subst e5
    have a1 := abs_nonneg nx
    have a2 := abs_nonneg n
    have a3 := abs_nonneg dx
    have a4 := abs_nonneg d
    obtain ⟨c0, h1, l1, l2, c1, k, -, -, h2⟩ := C65_homographic (p' := p') (m := m)
      (out := out.map some) (M := |nx| + |n| + (|dx| + |d|)) (by linarith) (by linarith) (hB _ hcfg)
      hdet e7 (fun s hs => ⟨(h l le_rfl e6 s hs).1, (h l le_rfl e6 s hs).2.1⟩)
      (.inr ⟨b, fun s hs => (h l le_rfl e6 s hs).2.2⟩)
    exact ⟨_, h1, (approximates_irr hvi).2 (shows_of u0 u1 e1 e2 e3 h2)⟩
  · obtain ⟨q, rfl⟩ := not_not.1 hx
    have hD' : (dx : ℚ) * q + d ≠ 0 := by exact_mod_cast hD
    obtain rfl : v = (((nx * q + n) / (dx * q + d) : ℚ) : ℝ) := by rw [hv]; push_cast; rfl
    obtain ⟨B, hB⟩ := C78_programs (fun _ => q) (.homographic (.given 0) nx n dx d) _
      (.homographic (.given 0) hD')
    refine ⟨B, 0, fun cfg a hcfg ha => ?_⟩
    obtain ⟨r, h1, h2⟩ := hB cfg (fun _ => a) hcfg fun _ => approximates_rat.1 ha
    exact ⟨r, h1, approximates_rat.2 h2⟩

/-- A special first operand. -/
private theorem combine_special_first {y v : ℝ} {s : Special} {nxy nx ny n dxy dx dy d : Int}
    (hD : (dxy : ℝ) * specialValueR s * y + dx * specialValueR s + dy * y + d ≠ 0)
    (hv : v = (nxy * specialValueR s * y + nx * specialValueR s + ny * y + n) /
      (dxy * specialValueR s * y + dx * specialValueR s + dy * y + d))
    (hi : Irrational y → Irrational v) (m : Nat) :
    ∃ B k, ∀ (cfg : Cfg) (a : Number), B ≤ cfg.bits → Approximates cfg k a y →
      ∃ r, Returns (fun f => Number.combine cfg f (.Special s) a nxy nx ny n dxy dx dy d) r ∧
        Approximates cfg m r v := by
  have sub : ∀ a b : Int, ((substitute s a b : Int) : ℝ) = a * specialValueR s + b := by
    intro a b; cases s <;> simp [substitute, specialValueR]
  obtain ⟨B, k, h⟩ := homographic_approximates (x := y) (v := v) (nx := substitute s nxy ny)
    (n := substitute s nx n) (dx := substitute s dxy dy) (d := substitute s dx d)
    (by rw [sub, sub]; convert hD using 1; ring)
    (by rw [sub, sub, sub, sub, hv]; congr 1 <;> ring) hi m
  obtain ⟨B', hB'⟩ := exists_imax (|nxy| + |nx| + |ny| + |n| + |dxy| + |dx| + |dy| + |d|)
  refine ⟨max B B', k, fun cfg a hcfg ha => ?_⟩
  have hsize := hB' cfg (le_trans (le_max_right _ _) hcfg)
  have h1 := abs_nonneg nxy
  have h2 := abs_nonneg nx
  have h3 := abs_nonneg ny
  have h4 := abs_nonneg n
  have h5 := abs_nonneg dxy
  have h6 := abs_nonneg dx
  have h7 := abs_nonneg dy
  have h8 := abs_nonneg d
  have fit : ∀ z : Int, |z| ≤ cfg.imax → cfg.Fits z := fun z hz => by
    obtain ⟨z1, z2⟩ := abs_le.1 hz
    have := cfg.imin_eq
    exact ⟨by omega, z2⟩
  have fits : ∀ a b : Int, |a| + |b| ≤ cfg.imax → cfg.Fits (substitute s a b) := by
    intro a b hab
    refine fit _ (le_trans ?_ hab)
    cases s
    · simp only [substitute]; have := abs_add_le (-a) b; rw [abs_neg] at this; exact this
    · simp only [substitute]; have := abs_nonneg a; omega
    · simp only [substitute]; exact abs_add_le a b
  obtain ⟨r, e, hr⟩ := h cfg a (le_trans (le_max_left _ _) hcfg) ha
  refine ⟨r, ?_, hr⟩
  obtain ⟨f₀, e⟩ := e
  refine ⟨f₀, fun f hf => ?_⟩
  have e := e f hf
  simp only at e ⊢
  rw [C62_combine_special_first, if_pos, e]
  · exact ⟨fits _ _ (by omega), fits _ _ (by omega), fits _ _ (by omega), fits _ _ (by omega)⟩
  · intro z hz
    simp only [List.mem_cons, List.not_mem_nil, or_false] at hz
    rcases hz with rfl | rfl | rfl | rfl | rfl | rfl | rfl | rfl <;> exact fit _ (by omega)

/-- A special second operand. -/
private theorem combine_special_second {x v : ℝ} {s : Special} {nxy nx ny n dxy dx dy d : Int}
    (hD : (dxy : ℝ) * x * specialValueR s + dx * x + dy * specialValueR s + d ≠ 0)
    (hv : v = (nxy * x * specialValueR s + nx * x + ny * specialValueR s + n) /
      (dxy * x * specialValueR s + dx * x + dy * specialValueR s + d))
    (hx : Irrational x) (hi : Irrational v) (m : Nat) :
    ∃ B k, ∀ (cfg : Cfg) (a : Number), B ≤ cfg.bits → Approximates cfg k a x →
      ∃ r, Returns (fun f => Number.combine cfg f a (.Special s) nxy nx ny n dxy dx dy d) r ∧
        Approximates cfg m r v := by
  have sub : ∀ a b : Int, ((substitute s a b : Int) : ℝ) = a * specialValueR s + b := by
    intro a b; cases s <;> simp [substitute, specialValueR]
  obtain ⟨B, k, h⟩ := homographic_approximates (x := x) (v := v) (nx := substitute s nxy nx)
    (n := substitute s ny n) (dx := substitute s dxy dx) (d := substitute s dy d)
    (by rw [sub, sub]; convert hD using 1; ring)
    (by rw [sub, sub, sub, sub, hv]; congr 1 <;> ring) (fun _ => hi) m
  obtain ⟨B', hB'⟩ := exists_imax (|nxy| + |nx| + |ny| + |n| + |dxy| + |dx| + |dy| + |d|)
  refine ⟨max B B', k, fun cfg a hcfg ha => ?_⟩
  have hsize := hB' cfg (le_trans (le_max_right _ _) hcfg)
  have h1 := abs_nonneg nxy
  have h2 := abs_nonneg nx
  have h3 := abs_nonneg ny
  have h4 := abs_nonneg n
  have h5 := abs_nonneg dxy
  have h6 := abs_nonneg dx
  have h7 := abs_nonneg dy
  have h8 := abs_nonneg d
  have fit : ∀ z : Int, |z| ≤ cfg.imax → cfg.Fits z := fun z hz => by
    obtain ⟨z1, z2⟩ := abs_le.1 hz
    have := cfg.imin_eq
    exact ⟨by omega, z2⟩
  have fits : ∀ a b : Int, |a| + |b| ≤ cfg.imax → cfg.Fits (substitute s a b) := by
    intro a b hab
    refine fit _ (le_trans ?_ hab)
    cases s
    · simp only [substitute]; have := abs_add_le (-a) b; rw [abs_neg] at this; exact this
    · simp only [substitute]; have := abs_nonneg a; omega
    · simp only [substitute]; exact abs_add_le a b
  obtain ⟨r, e, hr⟩ := h cfg a (le_trans (le_max_left _ _) hcfg) ha
  refine ⟨r, ?_, hr⟩
  obtain ⟨p, c, t, rfl, -⟩ := (approximates_irr hx).1 ha
  obtain ⟨f₀, e⟩ := e
  refine ⟨f₀, fun f hf => ?_⟩
  have e := e f hf
  simp only at e ⊢
  rw [C62_combine_special_second, if_pos, e]
  · exact ⟨fits _ _ (by omega), fits _ _ (by omega), fits _ _ (by omega), fits _ _ (by omega)⟩
  · intro z hz
    simp only [List.mem_cons, List.not_mem_nil, or_false] at hz
    rcases hz with rfl | rfl | rfl | rfl | rfl | rfl | rfl | rfl <;> exact fit _ (by omega)

/-- Two irrational operands. -/
private theorem combine_irrational {x y v : ℝ} {nxy nx ny n dxy dx dy d : Int}
    (hx : Irrational x) (hy : Irrational y) (hD : (dxy : ℝ) * x * y + dx * x + dy * y + d ≠ 0)
    (hv : v = (nxy * x * y + nx * x + ny * y + n) / (dxy * x * y + dx * x + dy * y + d))
    (hi : Irrational v) (m : Nat) :
    ∃ B k, ∀ (cfg : Cfg) (a b : Number), B ≤ cfg.bits → Approximates cfg k a x →
      Approximates cfg k b y →
      ∃ r, Returns (fun f => Number.combine cfg f a b nxy nx ny n dxy dx dy d) r ∧
        Approximates cfg m r v := by
  obtain ⟨s, rfl⟩ | ⟨px, s, s0, s1, rfl⟩ := decomposeR x
  · exact (hx ⟨specialValue s, by cases s <;> simp [specialValue, specialValueR]⟩).elim
  obtain ⟨t, rfl⟩ | ⟨py, t, t0, t1, rfl⟩ := decomposeR y
  · exact (hy ⟨specialValue t, by cases t <;> simp [specialValue, specialValueR]⟩).elim
  obtain ⟨p', u, δ, ε, out, u0, u1, e1, d0, ε0, e2, e3, e4⟩ := near_value hi m
  obtain ⟨η, η0, δ', d0', h1⟩ := near_map2 (a := nxy) (b := nx) (c := ny) (d := n) (e := dxy) (f := dx)
    (g := dy) (h := d) (by push_cast; exact hD) (by push_cast; exact hv) ε0
  obtain ⟨K, hK⟩ := near_begins px s0 s1 η0
  obtain ⟨K', hK'⟩ := near_begins py t0 t1 η0
  obtain ⟨B, hB⟩ := exists_imax (((|nxy| + |nx| + |ny| + |n| + (|dxy| + |dx| + |dy| + |d|)) *
    4 ^ max K K') ^ 2)
  refine ⟨B, max K K', fun cfg a b hcfg ha hb => ?_⟩
  obtain ⟨q, c, s', rfl, s0', s1', e5, l, c', e6, e7, e8⟩ := (approximates_irr hx).1 ha
  obtain ⟨rfl, rfl⟩ := applyPrimerR_inj s0 s1 s0' s1' e5
  obtain ⟨q', c2, t', rfl, t0', t1', e5', l', c2', e6', e7', e8'⟩ := (approximates_irr hy).1 hb
  obtain ⟨rfl, rfl⟩ := applyPrimerR_inj t0 t1 t0' t1' e5'
  have h1' := abs_nonneg nxy
  have h2 := abs_nonneg nx
  have h3 := abs_nonneg ny
  have h4 := abs_nonneg n
  have h5 := abs_nonneg dxy
  have h6 := abs_nonneg dx
  have h7 := abs_nonneg dy
  have h8 := abs_nonneg d
  have hs : ClearlySettled px py nxy nx ny n dxy dx dy d l l' p' out := by
    refine ⟨min δ δ', lt_min d0 d0', ?_⟩
    rintro s' t' x y hs ht rfl rfl
    obtain ⟨g1, g2⟩ := h1 _ _ (hK l (by rw [e6]; exact le_max_left _ _) (by rw [e6]; exact e7) s' hs)
      (hK' l' (by rw [e6']; exact le_max_right _ _) (by rw [e6']; exact e7') t' ht)
    obtain ⟨u', g3, g4⟩ := e4 _ g2
    refine ⟨le_trans ?_ g1, u', g3, g4.mono (min_le_left _ _)⟩
    exact mul_le_mul_of_nonneg_right (min_le_right _ _) (by positivity)
  obtain ⟨c0, r1, lx1, lx2, ly1, ly2, cx1, cy1, k, -, -, -, -, r2⟩ := C65_combine
    (M := |nxy| + |nx| + |ny| + |n| + (|dxy| + |dx| + |dy| + |d|)) (by linarith) (by linarith)
    (by rw [e6]; exact hB _ hcfg) e8 e8' (e6.trans e6'.symm) hs
  rw [e2] at r2
  exact ⟨_, r1, (approximates_irr hi).2 (shows_of u0 u1 e1 e2 e3 r2)⟩

/-- A fraction first. -/
private theorem combine_first {q : ℚ} {y v : ℝ} {nxy nx ny n dxy dx dy d : Int}
    (hy : Irrational y) (hD : (dxy : ℝ) * q * y + dx * q + dy * y + d ≠ 0)
    (hv : v = (nxy * q * y + nx * q + ny * y + n) / (dxy * q * y + dx * q + dy * y + d))
    (hi : Irrational v) (m : Nat) :
    ∃ B k, ∀ (cfg : Cfg) (a b : Number), B ≤ cfg.bits → Number.Denotes cfg NoPanic a q →
      Approximates cfg k b y →
      ∃ r, Returns (fun f => Number.combine cfg f a b nxy nx ny n dxy dx dy d) r ∧
        Approximates cfg m r v := by
  obtain ⟨s, rfl⟩ | ⟨px, s, s0, s1, rfl⟩ := Spec.decompose q
  · have es : ((specialValue s : ℚ) : ℝ) = specialValueR s := by
      cases s <;> simp [specialValue, specialValueR]
    rw [es] at hD hv
    obtain ⟨B, k, h⟩ := combine_special_first hD hv (fun _ => hi) m
    refine ⟨B, k, fun cfg a b hcfg ha hb => ?_⟩
    cases a with
    | Special s' =>
      have : s = s' := specialValueR_inj (by
        rw [← es, show specialValue s = specialValue s' from ha]
        cases s' <;> simp [specialValue, specialValueR])
      rw [← this]
      exact h cfg b hcfg hb
    | Other p c =>
      obtain ⟨x, hx, e⟩ := ha
      exact (applyPrimer_ne_special hx.1 hx.2.1 e.symm).elim
  obtain ⟨t, rfl⟩ | ⟨py, t, t0, t1, rfl⟩ := decomposeR y
  · exact (hy ⟨specialValue t, by cases t <;> simp [specialValue, specialValueR]⟩).elim
  obtain ⟨lx, hlx⟩ := Spec.exists_expands s s0 s1
  have hD' : ((dxy * applyPrimer px s + dy : ℚ) : ℝ) * applyPrimerR py t +
      ((dx * applyPrimer px s + d : ℚ) : ℝ) ≠ 0 := by push_cast; convert hD using 1; ring
  have hv' : v = (((nxy * applyPrimer px s + ny : ℚ) : ℝ) * applyPrimerR py t +
      ((nx * applyPrimer px s + n : ℚ) : ℝ)) / (((dxy * applyPrimer px s + dy : ℚ) : ℝ) * applyPrimerR py t +
      ((dx * applyPrimer px s + d : ℚ) : ℝ)) := by rw [hv]; push_cast; congr 1 <;> ring
  have hdet := det_of_irrational hD' hv' hi
  obtain ⟨K, p', u, out, b, u0, u1, e1, e2, e3, h⟩ := enough_symbols t0 t1 hD' hv' hi m
  obtain ⟨B, hB⟩ := exists_imax ((8 * (|nxy| + |nx| + |ny| + |n| + (|dxy| + |dx| + |dy| + |d|)) *
    4 ^ lx.length * 2 ^ K) ^ 2)
  refine ⟨B, lx.length + K, fun cfg a b' hcfg ha hb => ?_⟩
  cases a with
  | Special s' => exact (applyPrimer_ne_special s0 s1 ha).elim
  | Other p c =>
  obtain ⟨s', hs', e⟩ := ha
  obtain ⟨rfl, rfl⟩ := applyPrimer_inj s0 s1 hs'.1 hs'.2.1 e
  obtain ⟨q', c2, t', rfl, t0', t1', e5', l', c2', e6', e7', e8'⟩ := (approximates_irr hy).1 hb
  obtain ⟨rfl, rfl⟩ := applyPrimerR_inj t0 t1 t0' t1' e5'
  obtain ⟨cx', ce, g1, g2⟩ := hs'.gives_all hlx
  have h1 := abs_nonneg nxy
  have h2 := abs_nonneg nx
  have h3 := abs_nonneg ny
  have h4 := abs_nonneg n
  have h5 := abs_nonneg dxy
  have h6 := abs_nonneg dx
  have h7 := abs_nonneg dy
  have h8 := abs_nonneg d
  have hl : l'.take lx.length ++ l'.drop lx.length = l' := List.take_append_drop _ _
  rw [← e6'] at e7'
  have num : ∀ z : ℚ, nxy * applyPrimer px s * z + nx * applyPrimer px s + ny * z + n =
      (nxy * applyPrimer px s + ny) * z + (nx * applyPrimer px s + n) := fun z => by ring
  have den : ∀ z : ℚ, dxy * applyPrimer px s * z + dx * applyPrimer px s + dy * z + d =
      (dxy * applyPrimer px s + dy) * z + (dx * applyPrimer px s + d) := fun z => by ring
  have key := h l' (by omega) e7'
  obtain ⟨c0, r1, c1, r2, -⟩ := C90_x_returns (p' := p') (m := m) (out := out.map some) (px := px)
    (py := py) (ly := l'.take lx.length) (l := l'.drop lx.length) (cy' := c2')
    (M := |nxy| + |nx| + |ny| + |n| + (|dxy| + |dx| + |dy| + |d|)) (by linarith) (by linarith)
    (by rw [List.length_drop, e6', Nat.add_sub_cancel_left]; exact hB _ hcfg) g1 g2 hlx
    (by rw [hl]; exact e8') (by rw [List.length_take]; omega) hdet
    (by
      rw [hl]
      rintro z _ hz rfl
      rw [num, den]
      exact ⟨(key z hz).1, (key z hz).2.1⟩)
    (by
      rw [hl]
      refine ⟨b, ?_⟩
      rintro z _ hz rfl
      rw [num, den]
      exact (key z hz).2.2)
  exact ⟨_, r1, (approximates_irr hi).2 (shows_of u0 u1 e1 e2 e3 r2)⟩

/-- A fraction second. -/
private theorem combine_second {q : ℚ} {x v : ℝ} {nxy nx ny n dxy dx dy d : Int}
    (hx : Irrational x) (hD : (dxy : ℝ) * x * q + dx * x + dy * q + d ≠ 0)
    (hv : v = (nxy * x * q + nx * x + ny * q + n) / (dxy * x * q + dx * x + dy * q + d))
    (hi : Irrational v) (m : Nat) :
    ∃ B k, ∀ (cfg : Cfg) (a b : Number), B ≤ cfg.bits → Approximates cfg k a x →
      Number.Denotes cfg NoPanic b q →
      ∃ r, Returns (fun f => Number.combine cfg f a b nxy nx ny n dxy dx dy d) r ∧
        Approximates cfg m r v := by
  obtain ⟨s, rfl⟩ | ⟨py, s, s0, s1, rfl⟩ := Spec.decompose q
  · have es : ((specialValue s : ℚ) : ℝ) = specialValueR s := by
      cases s <;> simp [specialValue, specialValueR]
    rw [es] at hD hv
    obtain ⟨B, k, h⟩ := combine_special_second hD hv hx hi m
    refine ⟨B, k, fun cfg a b hcfg ha hb => ?_⟩
    cases b with
    | Special s' =>
      have : s = s' := specialValueR_inj (by
        rw [← es, show specialValue s = specialValue s' from hb]
        cases s' <;> simp [specialValue, specialValueR])
      rw [← this]
      exact h cfg a hcfg ha
    | Other p c =>
      obtain ⟨x, hx, e⟩ := hb
      exact (applyPrimer_ne_special hx.1 hx.2.1 e.symm).elim
  obtain ⟨t, rfl⟩ | ⟨px, t, t0, t1, rfl⟩ := decomposeR x
  · exact (hx ⟨specialValue t, by cases t <;> simp [specialValue, specialValueR]⟩).elim
  obtain ⟨ly, hly⟩ := Spec.exists_expands s s0 s1
  have hD' : ((dxy * applyPrimer py s + dx : ℚ) : ℝ) * applyPrimerR px t +
      ((dy * applyPrimer py s + d : ℚ) : ℝ) ≠ 0 := by push_cast; convert hD using 1; ring
  have hv' : v = (((nxy * applyPrimer py s + nx : ℚ) : ℝ) * applyPrimerR px t +
      ((ny * applyPrimer py s + n : ℚ) : ℝ)) / (((dxy * applyPrimer py s + dx : ℚ) : ℝ) * applyPrimerR px t +
      ((dy * applyPrimer py s + d : ℚ) : ℝ)) := by rw [hv]; push_cast; congr 1 <;> ring
  have hdet := det_of_irrational hD' hv' hi
  obtain ⟨K, p', u, out, b, u0, u1, e1, e2, e3, h⟩ := enough_symbols t0 t1 hD' hv' hi m
  obtain ⟨B, hB⟩ := exists_imax ((8 * (|nxy| + |nx| + |ny| + |n| + (|dxy| + |dx| + |dy| + |d|)) *
    4 ^ (ly.length + 1) * 2 ^ K) ^ 2)
  refine ⟨B, ly.length + 1 + K, fun cfg a b' hcfg ha hb => ?_⟩
  cases b' with
  | Special s' => exact (applyPrimer_ne_special s0 s1 hb).elim
  | Other p c =>
  obtain ⟨s', hs', e⟩ := hb
  obtain ⟨rfl, rfl⟩ := applyPrimer_inj s0 s1 hs'.1 hs'.2.1 e
  obtain ⟨q', c2, t', rfl, t0', t1', e5', l', c2', e6', e7', e8'⟩ := (approximates_irr hx).1 ha
  obtain ⟨rfl, rfl⟩ := applyPrimerR_inj t0 t1 t0' t1' e5'
  obtain ⟨cy', ce, g1, g2⟩ := hs'.gives_all hly
  have h1 := abs_nonneg nxy
  have h2 := abs_nonneg nx
  have h3 := abs_nonneg ny
  have h4 := abs_nonneg n
  have h5 := abs_nonneg dxy
  have h6 := abs_nonneg dx
  have h7 := abs_nonneg dy
  have h8 := abs_nonneg d
  have hl : l'.take (ly.length + 1) ++ l'.drop (ly.length + 1) = l' := List.take_append_drop _ _
  have hlen : (l'.take (ly.length + 1)).length = ly.length + 1 := by rw [List.length_take]; omega
  rw [← e6'] at e7'
  have num : ∀ z : ℚ, nxy * applyPrimer py s * z + ny * applyPrimer py s + nx * z + n =
      (nxy * applyPrimer py s + nx) * z + (ny * applyPrimer py s + n) := fun z => by ring
  have den : ∀ z : ℚ, dxy * applyPrimer py s * z + dy * applyPrimer py s + dx * z + d =
      (dxy * applyPrimer py s + dx) * z + (dy * applyPrimer py s + d) := fun z => by ring
  have key := h l' (by omega) e7'
  obtain ⟨c0, r1, c1, r2, -⟩ := C90_y_returns (p' := p') (m := m) (out := out.map some) (px := px)
    (py := py) (lx := l'.take (ly.length + 1)) (l := l'.drop (ly.length + 1)) (cx' := c2')
    (M := |nxy| + |nx| + |ny| + |n| + (|dxy| + |dx| + |dy| + |d|)) (by linarith) (by linarith)
    (by rw [hlen, List.length_drop, e6', Nat.add_sub_cancel_left]; exact hB _ hcfg)
    (by rw [hl]; exact e8') g1 g2 hly hlen hdet
    (by
      rw [hl]
      rintro z _ hz rfl
      rw [num, den]
      exact ⟨(key z hz).1, (key z hz).2.1⟩)
    (by
      rw [hl]
      refine ⟨b, ?_⟩
      rintro z _ hz rfl
      rw [num, den]
      exact (key z hz).2.2)
  exact ⟨_, r1, (approximates_irr hi).2 (shows_of u0 u1 e1 e2 e3 r2)⟩

/-- One call of `combine`. -/
theorem combine_approximates {x y v : ℝ} {nxy nx ny n dxy dx dy d : Int}
    (hD : (dxy : ℝ) * x * y + dx * x + dy * y + d ≠ 0)
    (hv : v = (nxy * x * y + nx * x + ny * y + n) / (dxy * x * y + dx * x + dy * y + d))
    (hi : Irrational x ∨ Irrational y → Irrational v) (m : Nat) :
    ∃ B k, ∀ (cfg : Cfg) (a b : Number), B ≤ cfg.bits → Approximates cfg k a x →
      Approximates cfg k b y →
      ∃ r, Returns (fun f => Number.combine cfg f a b nxy nx ny n dxy dx dy d) r ∧
        Approximates cfg m r v := by
  by_cases hx : Irrational x <;> by_cases hy : Irrational y
  · exact combine_irrational hx hy hD hv (hi (.inl hx)) m
  · obtain ⟨q, rfl⟩ := not_not.1 hy
    obtain ⟨B, k, h⟩ := combine_second hx hD hv (hi (.inl hx)) m
    exact ⟨B, k, fun cfg a b hcfg ha hb => h cfg a b hcfg ha (approximates_rat.1 hb)⟩
  · obtain ⟨q, rfl⟩ := not_not.1 hx
    obtain ⟨B, k, h⟩ := combine_first hy hD hv (hi (.inr hy)) m
    exact ⟨B, k, fun cfg a b hcfg ha hb => h cfg a b hcfg (approximates_rat.1 ha) hb⟩
  · obtain ⟨q, rfl⟩ := not_not.1 hx
    obtain ⟨r, rfl⟩ := not_not.1 hy
    have hD' : (dxy : ℚ) * q * r + dx * q + dy * r + d ≠ 0 := by exact_mod_cast hD
    obtain rfl : v = (((nxy * q * r + nx * q + ny * r + n) / (dxy * q * r + dx * q + dy * r + d) : ℚ) : ℝ) := by
      rw [hv]; push_cast; rfl
    obtain ⟨B, hB⟩ := C78_programs (fun i => if i = 0 then q else r)
      (.combine (.given 0) (.given 1) nxy nx ny n dxy dx dy d) _
      (.combine (.given 0) (.given 1) (by simpa using hD'))
    refine ⟨B, 0, fun cfg a b hcfg ha hb => ?_⟩
    obtain ⟨z, h1, h2⟩ := hB cfg (fun i => if i = 0 then a else b) hcfg fun i => by
      by_cases e : i = 0
      · simpa [e] using approximates_rat.1 ha
      · simpa [e] using approximates_rat.1 hb
    exact ⟨z, h1, approximates_rat.2 h2⟩

theorem leftR_mem (m : Nat) {t : ℝ} (h0 : 0 < t) (h1 : t < 1) : 0 < leftR m t ∧ leftR m t < 1 := by
  induction m generalizing t with
  | zero => exact ⟨h0, h1⟩
  | succ m ih =>
    unfold leftR
    split_ifs with h2 h3
    · exact ih (by linarith) (by linarith)
    · exact ih (by rw [sub_pos, lt_div_iff₀ h0]; linarith)
        (by rw [sub_lt_iff_lt_add, div_lt_iff₀ h0]; linarith)
    · exact ⟨h0, h1⟩

theorem leftR_cast (m : Nat) (t : ℚ) : leftR m t = ((Spec.Expr.left m t : ℚ) : ℝ) := by
  have a : ∀ t : ℚ, ((t : ℝ) < 1 / 2) ↔ t < 1 / 2 := fun t => by
    rw [show (1 / 2 : ℝ) = ((1 / 2 : ℚ) : ℝ) by norm_num]; exact Rat.cast_lt
  have b : ∀ t : ℚ, ((1 / 2 : ℝ) < t) ↔ 1 / 2 < t := fun t => by
    rw [show (1 / 2 : ℝ) = ((1 / 2 : ℚ) : ℝ) by norm_num]; exact Rat.cast_lt
  induction m generalizing t with
  | zero => rfl
  | succ m ih =>
    simp only [leftR, Spec.Expr.left, a, b]
    split_ifs with h1 h2
    · rw [← ih]; push_cast; rfl
    · rw [← ih]; push_cast; rfl
    · rfl

theorem leftR_irrational (m : Nat) {t : ℝ} (h : Irrational t) : Irrational (leftR m t) ∧
    ∀ k, symbolsR (m + k) t = symbolsR m t ++ symbolsR k (leftR m t) := by
  induction m generalizing t with
  | zero => exact ⟨h, fun k => by simp [symbolsR, leftR]⟩
  | succ m ih =>
    have hne : t ≠ 1 / 2 := fun e => h ⟨1 / 2, by rw [e]; norm_num⟩
    rcases lt_or_gt_of_ne hne with hlt | hgt
    · obtain ⟨a, b⟩ := ih (t := 2 * t) (by
        rintro ⟨q, hq⟩
        exact h ⟨q / 2, by push_cast; linarith⟩)
      simp only [leftR, if_pos hlt]
      refine ⟨a, fun k => ?_⟩
      rw [show m + 1 + k = m + k + 1 by omega]
      simp only [symbolsR, if_pos hlt, b k, List.cons_append]
    · obtain ⟨a, b⟩ := ih (t := 1 / t - 1) (by
        rintro ⟨q, hq⟩
        refine h ⟨1 / (q + 1), ?_⟩
        push_cast
        rw [hq, sub_add_cancel, one_div_one_div])
      simp only [leftR, if_neg (not_lt.2 hgt.le), if_pos hgt]
      refine ⟨a, fun k => ?_⟩
      rw [show m + 1 + k = m + k + 1 by omega]
      simp only [symbolsR, if_neg (not_lt.2 hgt.le), if_pos hgt, b k, List.cons_append]

/-- Some symbols are read, and what is left gets another primer. -/
theorem reread_approximates {p p' : Option Primer} {i : Nat} {t : ℝ} (t0 : 0 < t) (t1 : t < 1) (m : Nat) :
    ∃ B k, ∀ (cfg : Cfg) (a : Number), B ≤ cfg.bits → Approximates cfg k a (applyPrimerR p' t) →
      ∃ r, Returns (fun f => do
          let (_, c) ← a.unwrapOther
          let (_, c) ← Clog.egests cfg f i c
          pure (.Other p c)) r ∧ Approximates cfg m r (applyPrimerR p (leftR i t)) := by
  by_cases ht : Irrational t
  · obtain ⟨hl, hs⟩ := leftR_irrational i ht
    have irr : ∀ (p : Option Primer) {u : ℝ}, 0 < u → u < 1 → Irrational u →
        Irrational (applyPrimerR p u) := by
      intro p u u0 u1 hu
      rintro ⟨q, hq⟩
      rcases Spec.decompose q with ⟨s, rfl⟩ | ⟨p1, x, x0, x1, rfl⟩
      · refine applyPrimerR_ne_special (p := p) u0 u1 (s := s) (hq.symm.trans ?_)
        cases s <;> simp [specialValue, specialValueR]
      · rw [applyPrimerR_cast] at hq
        obtain ⟨-, e⟩ := applyPrimerR_inj (by exact_mod_cast x0) (by exact_mod_cast x1) u0 u1 hq
        exact hu ⟨x, e⟩
    have hm := leftR_mem i t0 t1
    refine ⟨0, i + m, fun cfg a _ ha => ?_⟩
    obtain ⟨q, c, t', rfl, t0', t1', e1, l, c', e2, e3, e4⟩ := (approximates_irr (irr p' t0 t1 ht)).1 ha
    obtain ⟨rfl, rfl⟩ := applyPrimerR_inj t0 t1 t0' t1' e1
    rw [← List.take_append_drop i l] at e4
    obtain ⟨c1, g1, g2⟩ := Gives.split e4
    have hi : (l.take i).length = i := by rw [List.length_take]; omega
    refine ⟨.Other p c1, ?_, (approximates_irr (irr p hm.1 hm.2 hl)).2
      ⟨p, c1, leftR i t, rfl, hm.1, hm.2, rfl, l.drop i, c', by rw [List.length_drop]; omega, ?_, g2⟩⟩
    · rw [Gives, hi] at g1
      obtain ⟨f₀, g1⟩ := g1
      refine ⟨f₀, fun f hf => ?_⟩
      have e := g1 f hf
      simp only at e
      simp [Number.unwrapOther, e]
    · rw [hs m, ← List.take_append_drop i l, List.map_append] at e3
      have e5 : (symbolsR i t).length = (l.take i).length := by
        have := congrArg List.length (symbolsR_take i (i + m) (by omega) t)
        have h2 := congrArg List.length e3
        rw [← hs m] at h2
        rw [List.length_take, h2] at this
        rw [this, hi, List.length_append, List.length_map, List.length_map, List.length_drop, hi]
        omega
      exact (List.append_inj e3 (by rw [e5, List.length_map])).2
  · obtain ⟨q, rfl⟩ := not_not.1 ht
    have q0 : 0 < q := by exact_mod_cast t0
    have q1 : q < 1 := by exact_mod_cast t1
    obtain ⟨B, hB⟩ := C78_programs (fun _ => applyPrimer p' q) (.reread p i (.given 0)) _
      (.reread q0 q1 (.given 0))
    refine ⟨B, 0, fun cfg a hcfg ha => ?_⟩
    rw [← applyPrimerR_cast] at ha
    obtain ⟨r, h1, h2⟩ := hB cfg (fun _ => a) hcfg fun _ => approximates_rat.1 ha
    refine ⟨r, h1, ?_⟩
    rw [leftR_cast, ← applyPrimerR_cast]
    exact approximates_rat.2 h2

/-! ## Theorems -/

open Spec.Expr in
/-- Every program, any number of symbols. -/
theorem C91_programs (val : Nat → ℝ) (e : Expr) (v : ℝ) (hv : e.RealValue val v) (m : Nat) :
    ∃ B k, ∀ (cfg : Cfg) (env : Nat → Number), B ≤ cfg.bits →
      (∀ i ∈ e.inputs, Approximates cfg k (env i) (val i)) →
      ∃ x, Returns (fun f => e.run cfg f env) x ∧ Approximates cfg m x v := by
  induction hv generalizing m with
  | given i => exact ⟨0, m, fun cfg env _ h => ⟨env i, ⟨0, fun _ _ => rfl⟩, h i (by simp [inputs])⟩⟩
  | @ratio num den h =>
    obtain ⟨B, hB⟩ := C78_programs (fun _ => 0) (.ratio num den) _ (.ratio h)
    refine ⟨B, 0, fun cfg env hcfg _ => ?_⟩
    obtain ⟨z, h1, h2⟩ := hB cfg (fun _ => .Special .Zero) hcfg fun _ => rfl
    refine ⟨z, h1, ?_⟩
    have := approximates_rat (k := m).2 h2
    push_cast at this
    exact this
  | @ratioU positive num den h =>
    obtain ⟨B, hB⟩ := C78_programs (fun _ => 0) (.ratioU positive num den) _ (.ratioU h)
    refine ⟨B, 0, fun cfg env hcfg _ => ?_⟩
    obtain ⟨z, h1, h2⟩ := hB cfg (fun _ => .Special .Zero) hcfg fun _ => rfl
    refine ⟨z, h1, ?_⟩
    have := approximates_rat (k := m).2 h2
    convert this using 1
    cases positive <;> push_cast <;> simp
  | homographic he hD hv hi ih =>
    obtain ⟨B, k, h⟩ := homographic_approximates hD hv hi m
    obtain ⟨B', k', h'⟩ := ih k
    refine ⟨max B B', k', fun cfg env hcfg henv => ?_⟩
    obtain ⟨a, ha, da⟩ := h' cfg env (le_trans (le_max_right _ _) hcfg) henv
    obtain ⟨r, hr, dr⟩ := h cfg a (le_trans (le_max_left _ _) hcfg) da
    exact ⟨r, returns_bind ha hr, dr⟩
  | combine he he' hD hv hi ih ih' =>
    obtain ⟨B, k, h⟩ := combine_approximates hD hv hi m
    obtain ⟨B1, k1, h1⟩ := ih k
    obtain ⟨B2, k2, h2⟩ := ih' k
    refine ⟨max B (max B1 B2), max k1 k2, fun cfg env hcfg henv => ?_⟩
    obtain ⟨g, g'⟩ := max_le_iff.1 hcfg
    obtain ⟨g1, g2⟩ := max_le_iff.1 g'
    obtain ⟨a, ha, da⟩ := h1 cfg env g1 fun i hi =>
      Approximates.mono (henv i (List.mem_append_left _ hi)) (le_max_left _ _)
    obtain ⟨b, hb, db⟩ := h2 cfg env g2 fun i hi =>
      Approximates.mono (henv i (List.mem_append_right _ hi)) (le_max_right _ _)
    obtain ⟨r, hr, dr⟩ := h cfg a b g da db
    exact ⟨r, returns_bind ha (returns_bind hb hr), dr⟩
  | reread h0 h1 he ih =>
    obtain ⟨B, k, h⟩ := reread_approximates h0 h1 m
    obtain ⟨B', k', h'⟩ := ih k
    refine ⟨max B B', k', fun cfg env hcfg henv => ?_⟩
    obtain ⟨a, ha, da⟩ := h' cfg env (le_trans (le_max_right _ _) hcfg) henv
    obtain ⟨r, hr, dr⟩ := h cfg a (le_trans (le_max_left _ _) hcfg) da
    exact ⟨r, returns_bind ha hr, dr⟩

/-- Fractions near an irrational number answer its first symbols, however they were computed. -/
theorem C91_near (v : ℝ) (k : Nat) : ∃ ε > 0, ∀ (cfg : Cfg) (n : Number) (q : ℚ),
    Number.Denotes cfg NoPanic n q → |(q : ℝ) - v| < ε → (¬Irrational v → v = q) →
    Approximates cfg k n v := by
  by_cases hv : Irrational v
  · obtain ⟨p, u, δ, ε, out, u0, u1, e1, d0, ε0, e2, e3, e4⟩ := near_value hv k
    refine ⟨ε, ε0, fun cfg n q hn hq _ => (approximates_irr hv).2 ?_⟩
    obtain ⟨u', h1, h2⟩ := e4 q hq
    have hm := h2.mem
    subst h1
    cases n with
    | Special s => exact (applyPrimer_ne_special (by linarith) (by linarith) hn).elim
    | Other p' c =>
      obtain ⟨x, hx, e⟩ := hn
      obtain ⟨rfl, rfl⟩ := applyPrimer_inj (by linarith) (by linarith) hx.1 hx.2.1 e
      obtain ⟨⟨o, c1⟩, h3, h4⟩ := (hx.2.2 k).returns
      simp only at h4
      subst h4
      refine shows_of u0 u1 e1 e2 e3 (c1 := c1) ?_
      rw [← h2.symbols d0, e2]
      exact h3
  · refine ⟨1, one_pos, fun cfg n q hn _ h => ?_⟩
    rw [h hv]
    exact approximates_rat.2 hn

/-- The symbols that a number shows tell how large it is, to any precision. -/
theorem C91_tells (v : ℝ) (ε : ℝ) (hε : 0 < ε) : ∃ m, ∀ (cfg : Cfg) (n : Number), Shows cfg m n v →
    ∃ p c l c', n = .Other p c ∧ Gives cfg c l c' ∧ l.length = m ∧
      ∀ s, 0 < s → s < 1 → symbolsR m s = l.map some → |applyPrimerR p s - v| < ε := by
  rcases decomposeR v with ⟨s, rfl⟩ | ⟨p, t, t0, t1, rfl⟩
  · refine ⟨0, ?_⟩
    rintro cfg n ⟨p, c, t, -, t0, t1, e, -⟩
    exact (applyPrimerR_ne_special t0 t1 e.symm).elim
  · obtain ⟨K, hK⟩ := near_operand p t0 t1 hε
    refine ⟨K, ?_⟩
    rintro cfg n ⟨p', c, t', rfl, t0', t1', e, l, c', h1, h2, h3⟩
    obtain ⟨rfl, rfl⟩ := applyPrimerR_inj t0 t1 t0' t1' e
    exact ⟨p, c, l, c', rfl, h3, h1, fun s s0 s1 hs => hK K le_rfl s s0 s1 (hs.trans h2.symm)⟩

open Spec.Expr in
/-- Every program can be computed to any precision from fractions near its inputs: for every `ε` there are
`η`, a number of symbols and a word size such that, with inputs nearer than `η`, the symbols answered by the
result leave only numbers nearer than `ε` to the value in real arithmetic. -/
theorem C91_precision (val : Nat → ℝ) (e : Expr) (v : ℝ) (hv : e.RealValue val v) (hi : Irrational v)
    (ε : ℝ) (hε : 0 < ε) :
    ∃ η > 0, ∃ B m, ∀ (cfg : Cfg) (env : Nat → Number), B ≤ cfg.bits →
      (∀ i ∈ e.inputs, ∃ q : ℚ, Number.Denotes cfg NoPanic (env i) q ∧ |(q : ℝ) - val i| < η ∧
        (¬Irrational (val i) → val i = q)) →
      ∃ p c l c', Returns (fun f => e.run cfg f env) (.Other p c) ∧ Gives cfg c l c' ∧ l.length = m ∧
        ∀ s, 0 < s → s < 1 → symbolsR m s = l.map some → |applyPrimerR p s - v| < ε := by
  obtain ⟨m, hm⟩ := C91_tells v ε hε
  obtain ⟨B, k, h⟩ := C91_programs val e v hv m
  have near : ∀ l : List Nat, ∃ η > 0, ∀ i ∈ l, ∀ (cfg : Cfg) (n : Number) (q : ℚ),
      Number.Denotes cfg NoPanic n q → |(q : ℝ) - val i| < η → (¬Irrational (val i) → val i = q) →
      Approximates cfg k n (val i) := by
    intro l
    induction l with
    | nil => exact ⟨1, one_pos, by simp⟩
    | cons i l ih =>
      obtain ⟨η, h0, h1⟩ := ih
      obtain ⟨η', h0', h1'⟩ := C91_near (val i) k
      refine ⟨min η η', lt_min h0 h0', fun j hj cfg n q hn hq hr => ?_⟩
      rcases List.mem_cons.1 hj with rfl | hj
      · exact h1' cfg n q hn (hq.trans_le (min_le_right _ _)) hr
      · exact h1 j hj cfg n q hn (hq.trans_le (min_le_left _ _)) hr
  obtain ⟨η, h0, h1⟩ := near e.inputs
  refine ⟨η, h0, B, m, fun cfg env hcfg henv => ?_⟩
  obtain ⟨x, hx, dx⟩ := h cfg env hcfg fun i hi => by
    obtain ⟨q, g1, g2, g3⟩ := henv i hi
    exact h1 i hi cfg _ q g1 g2 g3
  obtain ⟨p, c, l, c', rfl, g1, g2, g3⟩ := hm cfg x ((approximates_irr hi).1 dx)
  exact ⟨p, c, l, c', hx, g1, g2, g3⟩

/-- Fractions that are near enough exist, in every wide enough word. -/
theorem C91_fractions_exist (v : ℝ) (η : ℝ) (hη : 0 < η) : ∃ (num den : Int) (B : Nat),
    ∀ cfg : Cfg, B ≤ cfg.bits → ∃ n, Number.ratio cfg num den = .ok n ∧
      ∃ q : ℚ, Number.Denotes cfg NoPanic n q ∧ |(q : ℝ) - v| < η ∧ (¬Irrational v → v = q) := by
  have hq : ∃ q : ℚ, |(q : ℝ) - v| < η ∧ (¬Irrational v → v = q) := by
    by_cases hv : Irrational v
    · obtain ⟨q, h1, h2⟩ := exists_rat_btwn (show v < v + η by linarith)
      exact ⟨q, by rw [abs_of_pos (by linarith)]; linarith, fun h => (h hv).elim⟩
    · obtain ⟨q, rfl⟩ := not_not.1 hv
      exact ⟨q, by simpa using hη, fun _ => rfl⟩
  obtain ⟨q, h1, h2⟩ := hq
  obtain ⟨B, hB⟩ := exists_imax (|q.num| + q.den)
  refine ⟨q.num, q.den, B, fun cfg hcfg => ?_⟩
  have h3 := hB cfg hcfg
  have h4 := abs_nonneg q.num
  have h5 : (0 : Int) < q.den := by exact_mod_cast q.den_pos
  have h6 := cfg.imin_eq
  have h7 := neg_abs_le q.num
  have h8 := le_abs_self q.num
  obtain ⟨n, e, hn⟩ := C01_ratio_exact cfg q.num q.den ⟨by omega, by omega⟩ ⟨by omega, by omega⟩
    (by omega) (fun _ => ⟨by omega, by omega⟩)
  refine ⟨n, e, q, ?_, h1, h2⟩
  have e2 : ((q.num : ℚ) / (q.den : Int)) = q := by
    rw [Int.cast_natCast]
    exact q.num_div_den
  rwa [e2] at hn

/-- The condition that irrational operands do not make a rational result cannot be dropped: for `√2 * √2`
no number of symbols of `√2` is enough for the first symbol of the product.  (The product of fractions
below `√2` begins with `Uncover` after its primer, of fractions above with `Amplify`, and 2 itself ends
there.) -/
theorem C91_condition_needed (k : Nat) : ∃ (q q' : ℚ) (B : Nat), ∀ cfg : Cfg, B ≤ cfg.bits → ∀ n n' : Number,
    Number.Denotes cfg NoPanic n q → Number.Denotes cfg NoPanic n' q' →
    Approximates cfg k n √2 ∧ Approximates cfg k n' √2 ∧ ∃ c c' d d',
      Returns (fun f => Number.combine cfg f n n 1 0 0 0 0 0 0 1) (.Other (some .Turn) c) ∧
      Returns (fun f => Number.combine cfg f n' n' 1 0 0 0 0 0 0 1) (.Other (some .Turn) c') ∧
      Returns (fun f => Clog.egest cfg f c) (some .Uncover, d) ∧
      Returns (fun f => Clog.egest cfg f c') (some .Amplify, d') := by
  have r1 : (1 : ℝ) < √2 := by rw [Real.lt_sqrt (by norm_num)]; norm_num
  have r2 : √2 * √2 = 2 := Real.mul_self_sqrt (by norm_num)
  obtain ⟨ε, h0, h⟩ := C91_near √2 k
  obtain ⟨q, a1, a2⟩ := exists_rat_btwn (show max 1 (√2 - ε) < √2 from max_lt r1 (by linarith))
  obtain ⟨q', b1, b2⟩ := exists_rat_btwn (show √2 < √2 + ε by linarith)
  obtain ⟨a3, a4⟩ := max_lt_iff.1 a1
  have sq : ∀ r : ℚ, 1 < r → ∃ B, ∀ cfg : Cfg, B ≤ cfg.bits → ∀ n : Number,
      Number.Denotes cfg NoPanic n r → ∃ c d,
        Returns (fun f => Number.combine cfg f n n 1 0 0 0 0 0 0 1) (.Other (some .Turn) c) ∧
        Returns (fun f => Clog.egest cfg f c) (sym (1 / (r * r)), d) := by
    intro r hr
    have hrr : 1 < r * r := by nlinarith
    have m0 : 0 < 1 / (r * r) := by positivity
    have m1 : 1 / (r * r) < 1 := by rw [div_lt_one (by linarith)]; exact hrr
    obtain ⟨B, hB⟩ := C78_programs (fun _ => r) (.combine (.given 0) (.given 0) 1 0 0 0 0 0 0 1) _
      (.combine (.given 0) (.given 0) (by norm_num))
    refine ⟨B, fun cfg hcfg n hn => ?_⟩
    obtain ⟨z, h1, h2⟩ := hB cfg (fun _ => n) hcfg fun _ => hn
    have e : ((1 : Int) * r * r + (0 : Int) * r + (0 : Int) * r + (0 : Int)) /
        ((0 : Int) * r * r + (0 : Int) * r + (0 : Int) * r + (1 : Int)) =
        applyPrimer (some .Turn) (1 / (r * r)) := by
      simp [applyPrimer]
    rw [e] at h2
    cases z with
    | Special s => exact (applyPrimer_ne_special m0 m1 h2).elim
    | Other p c =>
      obtain ⟨x, hx, e'⟩ := h2
      obtain ⟨rfl, rfl⟩ := applyPrimer_inj m0 m1 hx.1 hx.2.1 e'
      obtain ⟨d, f₀, h3, -⟩ := hx.step_returns
      exact ⟨c, d, h1, f₀, h3⟩
  have hq : 1 < q := by exact_mod_cast a3
  have hq' : 1 < q' := by exact_mod_cast r1.trans b1
  have hlt : q * q < 2 := by
    have : (q : ℝ) * q < 2 := by nlinarith
    exact_mod_cast this
  have hgt : 2 < q' * q' := by
    have : (2 : ℝ) < q' * q' := by nlinarith
    exact_mod_cast this
  obtain ⟨B, hB⟩ := sq q hq
  obtain ⟨B', hB'⟩ := sq q' hq'
  refine ⟨q, q', max B B', fun cfg hcfg n n' hn hn' => ?_⟩
  obtain ⟨c, d, g1, g2⟩ := hB cfg (le_trans (le_max_left _ _) hcfg) n hn
  obtain ⟨c', d', g1', g2'⟩ := hB' cfg (le_trans (le_max_right _ _) hcfg) n' hn'
  rw [sym_gt (by rw [lt_div_iff₀ (by nlinarith)]; linarith)] at g2
  rw [sym_lt (by rw [div_lt_iff₀ (by nlinarith)]; linarith)] at g2'
  refine ⟨h cfg n q hn (by rw [abs_lt]; constructor <;> linarith) fun e => (e irrational_sqrt_two).elim,
    h cfg n' q' hn' (by rw [abs_lt]; constructor <;> linarith) fun e => (e irrational_sqrt_two).elim,
    c, c', d, d', g1, g1', g2, g2'⟩

/-! ## Examples -/

private theorem sqrt_two_real : Irrational √2 := irrational_sqrt_two

/-- `(√2 + 1) / 3`. -/
private def third : Expr := .combine (.homographic (.given 0) 1 1 0 1) (.ratio 1 3) 1 0 0 0 0 0 0 1

private theorem third_real : third.RealValue (fun _ => √2) ((√2 + 1) / 3) := by
  have h1 : Irrational (√2 + 1) := by exact_mod_cast irrational_sqrt_two.add_ratCast 1
  have h2 : Irrational ((√2 + 1) / 3) := by
    rintro ⟨q, hq⟩
    refine h1 ⟨3 * q, ?_⟩
    push_cast
    rw [hq]
    ring
  refine .combine (x := √2 + 1) (y := (1 : Int) / (3 : Int)) (.homographic (.given 0) (by norm_num) (by norm_num) fun _ => h1)
    (.ratio (by norm_num)) (by norm_num) (by push_cast; ring) fun _ => h2

/-- `√2 * √2 + √2`, two irrational operands. -/
private def twice : Expr := .combine (.given 0) (.given 0) 1 1 0 0 0 0 0 1

private theorem twice_real : twice.RealValue (fun _ => √2) (2 + √2) := by
  have h1 : Irrational (2 + √2) := by exact_mod_cast irrational_sqrt_two.ratCast_add 2
  refine .combine (.given 0) (.given 0) (by norm_num) ?_ fun _ => h1
  have := Real.mul_self_sqrt (show (0 : ℝ) ≤ 2 by norm_num)
  push_cast
  rw [one_mul, this]
  ring

example (m : Nat) := C91_programs _ third _ third_real m
example (m : Nat) := C91_programs _ twice _ twice_real m

/-- `2 + √2` up to a millionth, from one fraction near `√2`. -/
example : ∃ (num den : Int) (B m : Nat), ∀ cfg : Cfg, B ≤ cfg.bits → ∃ n p c l c',
    Number.ratio cfg num den = .ok n ∧
    Returns (fun f => Number.combine cfg f n n 1 1 0 0 0 0 0 1) (.Other p c) ∧ Gives cfg c l c' ∧
    ∀ s, 0 < s → s < 1 → symbolsR m s = l.map some → |applyPrimerR p s - (2 + √2)| < 1 / 1000000 := by
  obtain ⟨η, h0, B, m, h⟩ := C91_precision _ twice _ twice_real
    (by exact_mod_cast irrational_sqrt_two.ratCast_add 2) (1 / 1000000) (by norm_num)
  obtain ⟨num, den, B', h'⟩ := C91_fractions_exist √2 η h0
  refine ⟨num, den, max B B', m, fun cfg hcfg => ?_⟩
  obtain ⟨n, e, hn⟩ := h' cfg (le_trans (le_max_right _ _) hcfg)
  obtain ⟨p, c, l, c', h1, h2, -, h3⟩ := h cfg (fun _ => n) (le_trans (le_max_left _ _) hcfg) fun _ _ => hn
  exact ⟨n, p, c, l, c', e, h1, h2, h3⟩

end Clarith
