import Verif.Proofs.Large

/-! # C86 Large and small numbers: what cannot be multiplied, divided, added or subtracted

While both operands of `combine` answer Amplify, that is, while both are known only to be large or
close to zero, nothing is decided and a coefficient is doubled by every symbol. -/

namespace Clarith

open Out Spec

variable {cfg : Cfg}

/-! ## Specification -/

/-- The primers of the numbers greater than one in magnitude. -/
def Spec.Outer : Option Primer → Bool
  | some .Turn => true
  | some .Ground => true
  | _ => false

/-- Of two powers of two with exponents `a` and `b`, one ends before a coefficient that is doubled by
the symbols of both in turn has grown to `2^(bits-1)`. -/
def Spec.EndsInTime (cfg : Cfg) (a b : Nat) : Prop := 2 * a + 1 ≤ cfg.bits ∨ 2 * b + 2 ≤ cfg.bits

/-! ## Proof -/

namespace Large

/-- The sign of a primer. -/
def sgn : Option Primer → Int
  | some .Reflect => -1
  | some .Ground => -1
  | _ => 1

theorem sgn_unit (p : Option Primer) : sgn p = 1 ∨ sgn p = -1 := by
  rcases p with _ | _ | _ | _ <;> simp [sgn]

theorem sgn_mul (p q : Option Primer) : sgn p * sgn q = 1 ∨ sgn p * sgn q = -1 := by
  rcases p with _ | _ | _ | _ <;> rcases q with _ | _ | _ | _ <;> simp [sgn]

/-- The primers absorbed into the coefficients of an operation. -/
def Absorbs (cfg : Cfg) (p q : Option Primer) (k k' : Coef8) : Prop :=
  ∃ k1, k.absorbPrimerX cfg p = .ok k1 ∧ k1.absorbPrimerY cfg q = .ok k'

theorem Absorbs.of_narrowest {p q : Option Primer} {k k' : Coef8} (h : Absorbs narrowest p q k k') :
    Absorbs cfg p q k k' := by
  obtain ⟨k1, e1, e2⟩ := h
  exact ⟨k1, (Coef8.absorbPrimerX_widens (narrowest_wider cfg) p k).ok e1,
    (Coef8.absorbPrimerY_widens (narrowest_wider cfg) q k1).ok e2⟩

theorem absorbs_mul (cfg : Cfg) {p q : Option Primer} (h : Outer p = Outer q) :
    Absorbs cfg p q ⟨1, 0, 0, 0, 0, 0, 0, 1⟩
      (if Outer p then Coef8.huge (sgn p * sgn q) 0 else Coef8.tiny (sgn p * sgn q) 0) := by
  refine Absorbs.of_narrowest ?_
  rcases p with _ | _ | _ | _ <;> rcases q with _ | _ | _ | _ <;> revert h <;>
    first | exact fun _ => ⟨_, rfl, rfl⟩ | (intro h; exact absurd h (by decide))

theorem absorbs_div (cfg : Cfg) {p q : Option Primer} (h : Outer p ≠ Outer q) :
    Absorbs cfg p q ⟨0, 1, 0, 0, 0, 0, 1, 0⟩
      (if Outer p then Coef8.huge (sgn p * sgn q) 0 else Coef8.tiny (sgn p * sgn q) 0) := by
  refine Absorbs.of_narrowest ?_
  rcases p with _ | _ | _ | _ <;> rcases q with _ | _ | _ | _ <;> revert h <;>
    first | exact fun _ => ⟨_, rfl, rfl⟩ | (intro h; exact absurd (by decide) h)

theorem absorbs_add (cfg : Cfg) {p q : Option Primer} (h : Outer p ≠ Outer q) :
    ∃ σ τ : Int, (σ = 1 ∨ σ = -1) ∧ (τ = 1 ∨ τ = -1) ∧
      Absorbs cfg p q ⟨0, 1, 1, 0, 0, 0, 0, 1⟩
        (if Outer p then Coef8.largeSmall σ τ 0 else Coef8.smallLarge σ 1 τ 0) := by
  refine ⟨sgn p * sgn q, if Outer p then sgn p else sgn q, sgn_mul p q, ?_, Absorbs.of_narrowest ?_⟩
  · split
    · exact sgn_unit p
    · exact sgn_unit q
  rcases p with _ | _ | _ | _ <;> rcases q with _ | _ | _ | _ <;> revert h <;>
    first | exact fun _ => ⟨_, rfl, rfl⟩ | (intro h; exact absurd (by decide) h)

theorem absorbs_sub (cfg : Cfg) {p q : Option Primer} (h : Outer p ≠ Outer q) :
    ∃ σ τ : Int, (σ = 1 ∨ σ = -1) ∧ (τ = 1 ∨ τ = -1) ∧
      Absorbs cfg p q ⟨0, 1, -1, 0, 0, 0, 0, 1⟩
        (if Outer p then Coef8.largeSmall σ τ 0 else Coef8.smallLarge σ (-1) τ 0) := by
  refine ⟨if Outer p then -(sgn p * sgn q) else sgn p * sgn q, if Outer p then sgn p else sgn q, ?_,
    ?_, Absorbs.of_narrowest ?_⟩
  · have := sgn_mul p q
    split <;> omega
  · split
    · exact sgn_unit p
    · exact sgn_unit q
  rcases p with _ | _ | _ | _ <;> rcases q with _ | _ | _ | _ <;> revert h <;>
    first | exact fun _ => ⟨_, rfl, rfl⟩ | (intro h; exact absurd (by decide) h)

end Large

open Large

/-! ## C86: by the symbols -/

/-- If both operands are greater than one in magnitude, or both less, and `x` answers Amplify at
least `bits/2` times and `y` at least `(bits-1)/2` times, the product panics in the call itself, in
every build, whatever the operands answer after that. -/
theorem C86_mul_symbols (cfg : Cfg) (p q : Option Primer) (cx cy dx dy : Clog)
    (h : Outer p = Outer q) (hx : Gives cfg cx (List.replicate (cfg.bits / 2) .Amplify) dx)
    (hy : Gives cfg cy (List.replicate ((cfg.bits - 1) / 2) .Amplify) dy) :
    Panics (fun f => Number.combine cfg f (.Other p cx) (.Other q cy) 1 0 0 0 0 0 0 1)
      .unwrapNone := by
  have hb := cfg.hbits
  obtain ⟨k1, e1, e2⟩ := absorbs_mul cfg h
  split at e2
  · exact Number.combine_waits (Coef8.huge_waits (sgn_mul p q)) (by omega) e1 e2 hx hy (by omega)
      (by omega)
  · exact Number.combine_waits (Coef8.tiny_waits (sgn_mul p q)) (by omega) e1 e2 hx hy (by omega)
      (by omega)

/-- The same for the quotient of a large and a small number, or of a small and a large one. -/
theorem C86_div_symbols (cfg : Cfg) (p q : Option Primer) (cx cy dx dy : Clog)
    (h : Outer p ≠ Outer q) (hx : Gives cfg cx (List.replicate (cfg.bits / 2) .Amplify) dx)
    (hy : Gives cfg cy (List.replicate ((cfg.bits - 1) / 2) .Amplify) dy) :
    Panics (fun f => Number.combine cfg f (.Other p cx) (.Other q cy) 0 1 0 0 0 0 1 0)
      .unwrapNone := by
  have hb := cfg.hbits
  obtain ⟨k1, e1, e2⟩ := absorbs_div cfg h
  split at e2
  · exact Number.combine_waits (Coef8.huge_waits (sgn_mul p q)) (by omega) e1 e2 hx hy (by omega)
      (by omega)
  · exact Number.combine_waits (Coef8.tiny_waits (sgn_mul p q)) (by omega) e1 e2 hx hy (by omega)
      (by omega)

/-- The same for the sum of a large and a small number. -/
theorem C86_add_symbols (cfg : Cfg) (p q : Option Primer) (cx cy dx dy : Clog)
    (h : Outer p ≠ Outer q) (hx : Gives cfg cx (List.replicate (cfg.bits / 2) .Amplify) dx)
    (hy : Gives cfg cy (List.replicate ((cfg.bits - 1) / 2) .Amplify) dy) :
    Panics (fun f => Number.combine cfg f (.Other p cx) (.Other q cy) 0 1 1 0 0 0 0 1)
      .unwrapNone := by
  have hb := cfg.hbits
  obtain ⟨σ, τ, hσ, hτ, k1, e1, e2⟩ := absorbs_add cfg h
  split at e2
  · exact Number.combine_waits (Coef8.largeSmall_waits hσ hτ) (by omega) e1 e2 hx hy (by omega)
      (by omega)
  · exact Number.combine_waits (Coef8.smallLarge_waits hσ hτ) (by omega) e1 e2 hx hy (by omega)
      (by omega)

/-- The same for the difference, with one more symbol of `x` or `y`. -/
theorem C86_sub_symbols (cfg : Cfg) (p q : Option Primer) (cx cy dx dy : Clog)
    (h : Outer p ≠ Outer q) (hx : Gives cfg cx (List.replicate ((cfg.bits + 1) / 2) .Amplify) dx)
    (hy : Gives cfg cy (List.replicate (cfg.bits / 2) .Amplify) dy) :
    Panics (fun f => Number.combine cfg f (.Other p cx) (.Other q cy) 0 1 (-1) 0 0 0 0 1)
      .unwrapNone := by
  have hb := cfg.hbits
  obtain ⟨σ, τ, hσ, hτ, k1, e1, e2⟩ := absorbs_sub cfg h
  split at e2
  · exact Number.combine_waits (Coef8.largeSmall_waits hσ hτ) (by omega) e1 e2 hx hy (by omega)
      (by omega)
  · exact Number.combine_waits (Coef8.smallLarge_waits_neg hσ hτ) (by omega) e1 e2 hx hy (by omega)
      (by omega)

/-! ## C86: by the values -/

/-- A number of large magnitude. -/
theorem Number.Denotes.large {x : Number} {q : ℚ} (hx : Number.Denotes cfg NoPanic x q) (m : Nat)
    (h : 2 ^ m < |q|) : ∃ p c d, x = .Other p c ∧ Outer p = true ∧
      Gives cfg c (List.replicate m .Amplify) d := by
  have h1 : (1 : ℚ) ≤ 2 ^ m := one_le_pow₀ (by norm_num)
  cases x with
  | Special s =>
    have hq : q = specialValue s := hx
    exfalso
    rw [hq] at h
    cases s <;> norm_num [specialValue] at h <;> linarith
  | Other p c =>
    obtain ⟨v, hv, hq⟩ := hx
    have v0 := hv.1
    have v1 := hv.2.1
    have key : |1 / v| = 1 / v := abs_of_pos (one_div_pos.2 v0)
    have fin : 2 ^ m < 1 / v → ∃ d, Gives cfg c (List.replicate m .Amplify) d := by
      intro h
      obtain ⟨d, hd, -⟩ := hv.amplifies m (by
        rw [lt_div_iff₀ v0] at h
        rw [lt_div_iff₀ (by positivity)]
        linarith)
      exact ⟨d, hd⟩
    rcases p with _ | _ | _ | _ <;> simp only [applyPrimer] at hq <;> rw [hq] at h
    · rw [abs_of_pos v0] at h; linarith
    · rw [key] at h
      obtain ⟨d, hd⟩ := fin h
      exact ⟨_, c, d, rfl, rfl, hd⟩
    · rw [abs_neg, abs_of_pos v0] at h; linarith
    · rw [abs_neg, key] at h
      obtain ⟨d, hd⟩ := fin h
      exact ⟨_, c, d, rfl, rfl, hd⟩

/-- A number close to zero. -/
theorem Number.Denotes.small {x : Number} {q : ℚ} (hx : Number.Denotes cfg NoPanic x q) (m : Nat)
    (h0 : q ≠ 0) (h : |q| < 1 / 2 ^ m) : ∃ p c d, x = .Other p c ∧ Outer p = false ∧
      Gives cfg c (List.replicate m .Amplify) d := by
  have h1 : (1 : ℚ) / 2 ^ m ≤ 1 := by
    rw [div_le_one (by positivity)]
    exact one_le_pow₀ (by norm_num)
  cases x with
  | Special s =>
    have hq : q = specialValue s := hx
    exfalso
    rw [hq] at h h0
    cases s <;> norm_num [specialValue] at h h0 <;> norm_num at h1 <;> linarith
  | Other p c =>
    obtain ⟨v, hv, hq⟩ := hx
    have v0 := hv.1
    have v1 := hv.2.1
    have key : |1 / v| = 1 / v := abs_of_pos (one_div_pos.2 v0)
    have big : 1 < 1 / v := by rw [lt_div_iff₀ v0]; linarith
    rcases p with _ | _ | _ | _ <;> simp only [applyPrimer] at hq <;> rw [hq] at h
    · rw [abs_of_pos v0] at h
      obtain ⟨d, hd, -⟩ := hv.amplifies m h
      exact ⟨_, c, d, rfl, rfl, hd⟩
    · rw [key] at h; linarith
    · rw [abs_neg, abs_of_pos v0] at h
      obtain ⟨d, hd, -⟩ := hv.amplifies m h
      exact ⟨_, c, d, rfl, rfl, hd⟩
    · rw [abs_neg, key] at h; linarith

/-- Two numbers greater than `2^(bits/2)` and `2^((bits-1)/2)` in magnitude, or two numbers closer to
zero than the inverses of these, cannot be multiplied. -/
theorem C86_mul (cfg : Cfg) (x y : Number) (q r : ℚ) (hx : Number.Denotes cfg NoPanic x q)
    (hy : Number.Denotes cfg NoPanic y r)
    (h : (2 ^ (cfg.bits / 2) < |q| ∧ 2 ^ ((cfg.bits - 1) / 2) < |r|) ∨
      (q ≠ 0 ∧ |q| < 1 / 2 ^ (cfg.bits / 2) ∧ r ≠ 0 ∧ |r| < 1 / 2 ^ ((cfg.bits - 1) / 2))) :
    Panics (fun f => Number.combine cfg f x y 1 0 0 0 0 0 0 1) .unwrapNone := by
  rcases h with ⟨h1, h2⟩ | ⟨h1, h2, h3, h4⟩
  · obtain ⟨p, c, d, rfl, o1, g1⟩ := hx.large _ h1
    obtain ⟨p', c', d', rfl, o2, g2⟩ := hy.large _ h2
    exact C86_mul_symbols cfg p p' c c' d d' (o1.trans o2.symm) g1 g2
  · obtain ⟨p, c, d, rfl, o1, g1⟩ := hx.small _ h1 h2
    obtain ⟨p', c', d', rfl, o2, g2⟩ := hy.small _ h3 h4
    exact C86_mul_symbols cfg p p' c c' d d' (o1.trans o2.symm) g1 g2

/-- A large number cannot be divided by a small one, nor a small one by a large one. -/
theorem C86_div (cfg : Cfg) (x y : Number) (q r : ℚ) (hx : Number.Denotes cfg NoPanic x q)
    (hy : Number.Denotes cfg NoPanic y r)
    (h : (2 ^ (cfg.bits / 2) < |q| ∧ r ≠ 0 ∧ |r| < 1 / 2 ^ ((cfg.bits - 1) / 2)) ∨
      (q ≠ 0 ∧ |q| < 1 / 2 ^ (cfg.bits / 2) ∧ 2 ^ ((cfg.bits - 1) / 2) < |r|)) :
    Panics (fun f => Number.combine cfg f x y 0 1 0 0 0 0 1 0) .unwrapNone := by
  rcases h with ⟨h1, h3, h4⟩ | ⟨h1, h2, h4⟩
  · obtain ⟨p, c, d, rfl, o1, g1⟩ := hx.large _ h1
    obtain ⟨p', c', d', rfl, o2, g2⟩ := hy.small _ h3 h4
    exact C86_div_symbols cfg p p' c c' d d' (by rw [o1, o2]; decide) g1 g2
  · obtain ⟨p, c, d, rfl, o1, g1⟩ := hx.small _ h1 h2
    obtain ⟨p', c', d', rfl, o2, g2⟩ := hy.large _ h4
    exact C86_div_symbols cfg p p' c c' d d' (by rw [o1, o2]; decide) g1 g2

/-- A large and a small number cannot be added. -/
theorem C86_add (cfg : Cfg) (x y : Number) (q r : ℚ) (hx : Number.Denotes cfg NoPanic x q)
    (hy : Number.Denotes cfg NoPanic y r)
    (h : (2 ^ (cfg.bits / 2) < |q| ∧ r ≠ 0 ∧ |r| < 1 / 2 ^ ((cfg.bits - 1) / 2)) ∨
      (q ≠ 0 ∧ |q| < 1 / 2 ^ (cfg.bits / 2) ∧ 2 ^ ((cfg.bits - 1) / 2) < |r|)) :
    Panics (fun f => Number.combine cfg f x y 0 1 1 0 0 0 0 1) .unwrapNone := by
  rcases h with ⟨h1, h3, h4⟩ | ⟨h1, h2, h4⟩
  · obtain ⟨p, c, d, rfl, o1, g1⟩ := hx.large _ h1
    obtain ⟨p', c', d', rfl, o2, g2⟩ := hy.small _ h3 h4
    exact C86_add_symbols cfg p p' c c' d d' (by rw [o1, o2]; decide) g1 g2
  · obtain ⟨p, c, d, rfl, o1, g1⟩ := hx.small _ h1 h2
    obtain ⟨p', c', d', rfl, o2, g2⟩ := hy.large _ h4
    exact C86_add_symbols cfg p p' c c' d d' (by rw [o1, o2]; decide) g1 g2

/-- A large and a small number cannot be subtracted from each other. -/
theorem C86_sub (cfg : Cfg) (x y : Number) (q r : ℚ) (hx : Number.Denotes cfg NoPanic x q)
    (hy : Number.Denotes cfg NoPanic y r)
    (h : (2 ^ ((cfg.bits + 1) / 2) < |q| ∧ r ≠ 0 ∧ |r| < 1 / 2 ^ (cfg.bits / 2)) ∨
      (q ≠ 0 ∧ |q| < 1 / 2 ^ ((cfg.bits + 1) / 2) ∧ 2 ^ (cfg.bits / 2) < |r|)) :
    Panics (fun f => Number.combine cfg f x y 0 1 (-1) 0 0 0 0 1) .unwrapNone := by
  rcases h with ⟨h1, h3, h4⟩ | ⟨h1, h2, h4⟩
  · obtain ⟨p, c, d, rfl, o1, g1⟩ := hx.large _ h1
    obtain ⟨p', c', d', rfl, o2, g2⟩ := hy.small _ h3 h4
    exact C86_sub_symbols cfg p p' c c' d d' (by rw [o1, o2]; decide) g1 g2
  · obtain ⟨p, c, d, rfl, o1, g1⟩ := hx.small _ h1 h2
    obtain ⟨p', c', d', rfl, o2, g2⟩ := hy.large _ h4
    exact C86_sub_symbols cfg p p' c c' d d' (by rw [o1, o2]; decide) g1 g2

/-! ## C86: powers of two, exactly -/

namespace Large

/-- What the boxed result of the two primed tuples is. -/
theorem number_of_homographic {x y : Number} {k : Coef8} {p : Option Primer} {h : Homographic}
    (hr : Ends NoPanic (fun f => Combine.new cfg (Clog.egest cfg f) f x y k)
      (fun r => r = (none, p, none, some h, none))) :
    Returns (fun f => Number.combine cfg f x y k.a k.b k.c k.d k.e k.f k.g k.h)
      (.Other p h.box) := by
  obtain ⟨r, ⟨f₀, hf⟩, rfl⟩ := hr.returns
  exact ⟨f₀, fun f h => by simp only [Number.combine, hf f h, ok_bind, pure_eq]⟩

theorem new_eq {p q : Option Primer} {k k' : Coef8} {A : Panic → Prop} {P : Combine.Primed → Prop}
    {cx cy : Clog} (hk : Absorbs cfg p q k k')
    (h : Ev A (fun f j => Combine.prime cfg (Clog.egest cfg f) j ⟨cx, cy, k'⟩) P) :
    Ends A (fun f => Combine.new cfg (Clog.egest cfg f) f (.Other p cx) (.Other q cy) k) P := by
  obtain ⟨k1, e1, e2⟩ := hk
  refine Ev.ends (m := fun f j => Combine.new cfg (Clog.egest cfg f) j (.Other p cx) (.Other q cy) k)
    ?_
  simp only [Combine.new, e1, e2, ok_bind]
  exact h

theorem panics_of {p q : Option Primer} {k k' : Coef8} {cx cy : Clog} (hk : Absorbs cfg p q k k')
    (h : Ev Unwrapped (fun f j => Combine.prime cfg (Clog.egest cfg f) j ⟨cx, cy, k'⟩)
      (fun _ => False)) :
    Panics (fun f => Number.combine cfg f (.Other p cx) (.Other q cy) k.a k.b k.c k.d k.e k.f k.g
      k.h) .unwrapNone := by
  rcases new_eq hk h with ⟨_, -, h⟩ | ⟨_, ⟨f₀, hf⟩, rfl⟩
  · exact h.elim
  · exact ⟨f₀, fun f h => by simp only [Number.combine, hf f h, panic_bind]⟩

/-- Two powers of two of the same kind, once the primers are absorbed. -/
theorem tiny_exact {p q : Option Primer} {k : Coef8} {σ : Int} (hσ : σ = 1 ∨ σ = -1)
    (hk : Absorbs cfg p q k (Coef8.tiny σ 0)) {cx cy : Clog} {a b : Nat}
    (hx : Clog.Denotes cfg NoPanic cx (1 / 2 ^ (a + 1)))
    (hy : Clog.Denotes cfg NoPanic cy (1 / 2 ^ (b + 1))) :
    (EndsInTime cfg (a + 1) (b + 1) → ∃ r, Returns (fun f => Number.combine cfg f (.Other p cx)
      (.Other q cy) k.a k.b k.c k.d k.e k.f k.g k.h) r ∧
      Number.Denotes cfg NoPanic r (σ / 2 ^ (a + b + 2))) ∧
    (¬EndsInTime cfg (a + 1) (b + 1) → Panics (fun f => Number.combine cfg f (.Other p cx)
      (.Other q cy) k.a k.b k.c k.d k.e k.f k.g k.h) .unwrapNone) := by
  have hb := cfg.hbits
  unfold EndsInTime
  constructor
  · intro h
    obtain ⟨t, m, c, h1, h2, h3, h4, h5⟩ := Combine.prime_powers (Coef8.tiny_folds hσ) a b 0 cx cy hx
      hy (by omega)
    have hr := new_eq hk (h5 _ _ (Homographic.new_tiny hσ (by omega) h1 c))
    have hr := number_of_homographic (hr.mono (by rintro _ ⟨q, rfl, rfl⟩; rfl))
    refine ⟨_, hr, 1 / 2 ^ (a + b + 2), ?_, ?_⟩
    · have := Coef4.halved_denotes (s := 1) (.inl rfl) h4 t (by omega)
      rw [one_mul, div_div, ← pow_add, show m + 1 + t = a + b + 2 by omega] at this
      exact this
    · rcases hσ with rfl | rfl
      · simp [applyPrimer]
      · simp [applyPrimer, neg_div]
  · intro h
    exact panics_of hk (Combine.prime_powers_panics (Coef8.tiny_folds hσ) a b 0 cx cy hx hy
      (by omega) (by omega) (by omega))

theorem huge_exact {p q : Option Primer} {k : Coef8} {σ : Int} (hσ : σ = 1 ∨ σ = -1)
    (hk : Absorbs cfg p q k (Coef8.huge σ 0)) {cx cy : Clog} {a b : Nat}
    (hx : Clog.Denotes cfg NoPanic cx (1 / 2 ^ (a + 1)))
    (hy : Clog.Denotes cfg NoPanic cy (1 / 2 ^ (b + 1))) :
    ((if σ = 1 then EndsInTime cfg (a + 1) (b + 1) else a + b + 4 ≤ cfg.bits) →
      ∃ r, Returns (fun f => Number.combine cfg f (.Other p cx)
      (.Other q cy) k.a k.b k.c k.d k.e k.f k.g k.h) r ∧
      Number.Denotes cfg NoPanic r (σ * 2 ^ (a + b + 2))) ∧
    (¬(if σ = 1 then EndsInTime cfg (a + 1) (b + 1) else a + b + 4 ≤ cfg.bits) →
      Panics (fun f => Number.combine cfg f (.Other p cx)
      (.Other q cy) k.a k.b k.c k.d k.e k.f k.g k.h) .unwrapNone) := by
  have hb := cfg.hbits
  unfold EndsInTime
  by_cases hT : 2 * (0 + a) + 1 < cfg.bits - 1 ∨ 2 * (0 + b) + 2 < cfg.bits - 1
  · obtain ⟨t, m, c, h1, h2, h3, h4, h5⟩ := Combine.prime_powers (Coef8.huge_folds hσ) a b 0 cx cy hx
      hy hT
    rcases hσ with rfl | rfl
    · rw [if_pos rfl]
      refine ⟨fun _ => ?_, fun h => by omega⟩
      have hr := new_eq hk (h5 _ _ (Homographic.new_huge (by omega) h1 c))
      have hr := number_of_homographic (hr.mono (by rintro _ ⟨q, rfl, rfl⟩; rfl))
      refine ⟨_, hr, 1 / 2 ^ (a + b + 2), ?_, ?_⟩
      · have := Coef4.halved_denotes (s := 1) (.inl rfl) h4 t (by omega)
        rw [one_mul, div_div, ← pow_add, show m + 1 + t = a + b + 2 by omega] at this
        exact this
      · simp [applyPrimer]
    · rw [if_neg (by decide)]
      obtain ⟨i1, i2⟩ := Homographic.prime_huge_neg (cfg := cfg) m t (by omega) h1 c h4
      have hx : ¬((Coef4.huge (-1) t).nx = 0 ∧ (Coef4.huge (-1) t).dx = 0) := by
        simp [Coef4.huge]
      constructor
      · intro h
        have hr := new_eq hk (h5 NoPanic _ (by
          simp only [Homographic.new, if_neg hx, Homographic.absorbPrimer, pure_eq, ok_bind]
          exact i1 (by omega)))
        obtain ⟨r, ⟨f₀, hf⟩, _, ⟨t', rfl, hd⟩, rfl⟩ := hr.returns
        rw [show t + m + 1 = a + b + 2 by omega] at hd
        rcases hd with ⟨s, rfl, hs⟩ | ⟨p', r, rfl, hr, hv⟩
        · exact ⟨.Special s, ⟨f₀, fun f h => by
            simp only [Number.combine, hf f h, ok_bind, pure_eq]⟩, by
            show _ = _
            rw [← hs]; simp⟩
        · exact ⟨.Other p' (.ratio r), ⟨f₀, fun f h => by
            simp only [Number.combine, hf f h, ok_bind, pure_eq]⟩, _, Ratio.denotes hr, by
            rw [← hv]; simp⟩
      · intro h
        refine panics_of hk ((h5 Unwrapped (fun _ => False) ?_).mono ?_)
        · simp only [Homographic.new, if_neg hx, Homographic.absorbPrimer, pure_eq, ok_bind]
          exact i2 (by omega)
        · rintro _ ⟨_, h, -⟩
          exact h
  · refine ⟨fun h => ?_, fun _ => panics_of hk (Combine.prime_powers_panics (Coef8.huge_folds hσ) a b
      0 cx cy hx hy (by omega) (by omega) (by omega))⟩
    exfalso
    split at h <;> omega

/-- A large power of two. -/
theorem outer_power {x : Number} {a : Nat} {σ : Int} (hσ : σ = 1 ∨ σ = -1)
    (hx : Number.Denotes cfg NoPanic x (σ * 2 ^ (a + 1))) :
    ∃ p c, x = .Other p c ∧ Outer p = true ∧ sgn p = σ ∧
      Clog.Denotes cfg NoPanic c (1 / 2 ^ (a + 1)) := by
  have v0 : (0 : ℚ) < 1 / 2 ^ (a + 1) := by positivity
  have v1 : (1 : ℚ) / 2 ^ (a + 1) < 1 := by
    rw [div_lt_one (by positivity)]
    exact one_lt_pow₀ (by norm_num) (by omega)
  have e : (σ * 2 ^ (a + 1) : ℚ) =
      applyPrimer (if σ = 1 then some .Turn else some .Ground) (1 / 2 ^ (a + 1)) := by
    rcases hσ with rfl | rfl <;> simp [applyPrimer]
  rw [e] at hx
  cases x with
  | Special s => exact absurd hx (applyPrimer_ne_special v0 v1)
  | Other p c =>
    obtain ⟨v, hv, hq⟩ := hx
    obtain ⟨rfl, rfl⟩ := applyPrimer_inj v0 v1 hv.1 hv.2.1 hq
    refine ⟨_, c, rfl, ?_, ?_, hv⟩ <;> rcases hσ with rfl | rfl <;> rfl

/-- A small power of two. -/
theorem inner_power {x : Number} {a : Nat} {σ : Int} (hσ : σ = 1 ∨ σ = -1)
    (hx : Number.Denotes cfg NoPanic x (σ / 2 ^ (a + 1))) :
    ∃ p c, x = .Other p c ∧ Outer p = false ∧ sgn p = σ ∧
      Clog.Denotes cfg NoPanic c (1 / 2 ^ (a + 1)) := by
  have v0 : (0 : ℚ) < 1 / 2 ^ (a + 1) := by positivity
  have v1 : (1 : ℚ) / 2 ^ (a + 1) < 1 := by
    rw [div_lt_one (by positivity)]
    exact one_lt_pow₀ (by norm_num) (by omega)
  have e : (σ / 2 ^ (a + 1) : ℚ) =
      applyPrimer (if σ = 1 then none else some .Reflect) (1 / 2 ^ (a + 1)) := by
    rcases hσ with rfl | rfl <;> simp [applyPrimer, neg_div]
  rw [e] at hx
  cases x with
  | Special s => exact absurd hx (applyPrimer_ne_special v0 v1)
  | Other p c =>
    obtain ⟨v, hv, hq⟩ := hx
    obtain ⟨rfl, rfl⟩ := applyPrimer_inj v0 v1 hv.1 hv.2.1 hq
    refine ⟨_, c, rfl, ?_, ?_, hv⟩ <;> rcases hσ with rfl | rfl <;> rfl

theorem mul_unit {σ τ : Int} (hσ : σ = 1 ∨ σ = -1) (hτ : τ = 1 ∨ τ = -1) :
    (σ * τ = 1 ∨ σ * τ = -1) ∧ (σ * τ = 1 ↔ σ = τ) := by
  rcases hσ with rfl | rfl <;> rcases hτ with rfl | rfl <;> decide

end Large

/-- Two large powers of two, of signs `σ` and `τ`. With equal signs the product is exact if one of the
operands ends in time, and otherwise the call panics. With opposite signs, where nothing is decided
before both operands have ended, the product is exact only up to `2^(bits-2)`. -/
theorem C86_mul_large_powers (cfg : Cfg) (a b : Nat) (ha : 1 ≤ a) (hb : 1 ≤ b) (σ τ : Int)
    (hσ : σ = 1 ∨ σ = -1) (hτ : τ = 1 ∨ τ = -1) (x y : Number)
    (hx : Number.Denotes cfg NoPanic x (σ * 2 ^ a)) (hy : Number.Denotes cfg NoPanic y (τ * 2 ^ b)) :
    ((if σ = τ then EndsInTime cfg a b else a + b + 2 ≤ cfg.bits) →
      ∃ r, Returns (fun f => Number.combine cfg f x y 1 0 0 0 0 0 0 1) r ∧
        Number.Denotes cfg NoPanic r (σ * 2 ^ a * (τ * 2 ^ b))) ∧
    (¬(if σ = τ then EndsInTime cfg a b else a + b + 2 ≤ cfg.bits) →
      Panics (fun f => Number.combine cfg f x y 1 0 0 0 0 0 0 1) .unwrapNone) := by
  obtain ⟨a, rfl⟩ : ∃ n, a = n + 1 := ⟨a - 1, by omega⟩
  obtain ⟨b, rfl⟩ : ∃ n, b = n + 1 := ⟨b - 1, by omega⟩
  obtain ⟨p, c, rfl, o1, s1, h1⟩ := outer_power hσ hx
  obtain ⟨q, d, rfl, o2, s2, h2⟩ := outer_power hτ hy
  have hk := absorbs_mul cfg (o1.trans o2.symm)
  rw [if_pos o1, s1, s2] at hk
  have := huge_exact (mul_unit hσ hτ).1 hk h1 h2
  simp only [(mul_unit hσ hτ).2] at this
  rw [show (σ * 2 ^ (a + 1) * (τ * 2 ^ (b + 1)) : ℚ) = ((σ * τ : Int) : ℚ) * 2 ^ (a + b + 2) by
    push_cast; ring, show a + 1 + (b + 1) + 2 = a + b + 4 by omega]
  exact this

/-- Two small powers of two, whatever their signs. -/
theorem C86_mul_small_powers (cfg : Cfg) (a b : Nat) (ha : 1 ≤ a) (hb : 1 ≤ b) (σ τ : Int)
    (hσ : σ = 1 ∨ σ = -1) (hτ : τ = 1 ∨ τ = -1) (x y : Number)
    (hx : Number.Denotes cfg NoPanic x (σ / 2 ^ a)) (hy : Number.Denotes cfg NoPanic y (τ / 2 ^ b)) :
    (EndsInTime cfg a b →
      ∃ r, Returns (fun f => Number.combine cfg f x y 1 0 0 0 0 0 0 1) r ∧
        Number.Denotes cfg NoPanic r (σ / 2 ^ a * (τ / 2 ^ b))) ∧
    (¬EndsInTime cfg a b →
      Panics (fun f => Number.combine cfg f x y 1 0 0 0 0 0 0 1) .unwrapNone) := by
  obtain ⟨a, rfl⟩ : ∃ n, a = n + 1 := ⟨a - 1, by omega⟩
  obtain ⟨b, rfl⟩ : ∃ n, b = n + 1 := ⟨b - 1, by omega⟩
  obtain ⟨p, c, rfl, o1, s1, h1⟩ := inner_power hσ hx
  obtain ⟨q, d, rfl, o2, s2, h2⟩ := inner_power hτ hy
  have hk := absorbs_mul cfg (o1.trans o2.symm)
  rw [if_neg (by rw [o1]; decide), s1, s2] at hk
  have := tiny_exact (mul_unit hσ hτ).1 hk h1 h2
  rw [show (σ / 2 ^ (a + 1) * (τ / 2 ^ (b + 1)) : ℚ) = ((σ * τ : Int) : ℚ) / 2 ^ (a + b + 2) by
    rw [div_mul_div_comm, ← pow_add, show a + 1 + (b + 1) = a + b + 2 by omega]; push_cast; rfl]
  exact this

/-- A large power of two divided by a small one. -/
theorem C86_div_large_powers (cfg : Cfg) (a b : Nat) (ha : 1 ≤ a) (hb : 1 ≤ b) (σ τ : Int)
    (hσ : σ = 1 ∨ σ = -1) (hτ : τ = 1 ∨ τ = -1) (x y : Number)
    (hx : Number.Denotes cfg NoPanic x (σ * 2 ^ a)) (hy : Number.Denotes cfg NoPanic y (τ / 2 ^ b)) :
    ((if σ = τ then EndsInTime cfg a b else a + b + 2 ≤ cfg.bits) →
      ∃ r, Returns (fun f => Number.combine cfg f x y 0 1 0 0 0 0 1 0) r ∧
        Number.Denotes cfg NoPanic r (σ * 2 ^ a / (τ / 2 ^ b))) ∧
    (¬(if σ = τ then EndsInTime cfg a b else a + b + 2 ≤ cfg.bits) →
      Panics (fun f => Number.combine cfg f x y 0 1 0 0 0 0 1 0) .unwrapNone) := by
  obtain ⟨a, rfl⟩ : ∃ n, a = n + 1 := ⟨a - 1, by omega⟩
  obtain ⟨b, rfl⟩ : ∃ n, b = n + 1 := ⟨b - 1, by omega⟩
  obtain ⟨p, c, rfl, o1, s1, h1⟩ := outer_power hσ hx
  obtain ⟨q, d, rfl, o2, s2, h2⟩ := inner_power hτ hy
  have hk := absorbs_div cfg (p := p) (q := q) (by rw [o1, o2]; decide)
  rw [if_pos o1, s1, s2] at hk
  have := huge_exact (mul_unit hσ hτ).1 hk h1 h2
  simp only [(mul_unit hσ hτ).2] at this
  have e : (σ * 2 ^ (a + 1) / (τ / 2 ^ (b + 1)) : ℚ) = ((σ * τ : Int) : ℚ) * 2 ^ (a + b + 2) := by
    rcases hτ with rfl | rfl <;> push_cast <;> field_simp <;> ring
  rw [e, show a + 1 + (b + 1) + 2 = a + b + 4 by omega]
  exact this

/-- A small power of two divided by a large one. -/
theorem C86_div_small_powers (cfg : Cfg) (a b : Nat) (ha : 1 ≤ a) (hb : 1 ≤ b) (σ τ : Int)
    (hσ : σ = 1 ∨ σ = -1) (hτ : τ = 1 ∨ τ = -1) (x y : Number)
    (hx : Number.Denotes cfg NoPanic x (σ / 2 ^ a)) (hy : Number.Denotes cfg NoPanic y (τ * 2 ^ b)) :
    (EndsInTime cfg a b →
      ∃ r, Returns (fun f => Number.combine cfg f x y 0 1 0 0 0 0 1 0) r ∧
        Number.Denotes cfg NoPanic r (σ / 2 ^ a / (τ * 2 ^ b))) ∧
    (¬EndsInTime cfg a b →
      Panics (fun f => Number.combine cfg f x y 0 1 0 0 0 0 1 0) .unwrapNone) := by
  obtain ⟨a, rfl⟩ : ∃ n, a = n + 1 := ⟨a - 1, by omega⟩
  obtain ⟨b, rfl⟩ : ∃ n, b = n + 1 := ⟨b - 1, by omega⟩
  obtain ⟨p, c, rfl, o1, s1, h1⟩ := inner_power hσ hx
  obtain ⟨q, d, rfl, o2, s2, h2⟩ := outer_power hτ hy
  have hk := absorbs_div cfg (p := p) (q := q) (by rw [o1, o2]; decide)
  rw [if_neg (by rw [o1]; decide), s1, s2] at hk
  have := tiny_exact (mul_unit hσ hτ).1 hk h1 h2
  have e : (σ / 2 ^ (a + 1) / (τ * 2 ^ (b + 1)) : ℚ) = ((σ * τ : Int) : ℚ) / 2 ^ (a + b + 2) := by
    rcases hτ with rfl | rfl <;> push_cast <;> field_simp <;> ring
  rw [e]
  exact this

/-! ## Examples -/

/-- `Number::ratio(2^33 + 1, 1)`. -/
def Large.big : Number := .Other (some .Turn) (.ratio ⟨1, 2 ^ 33 + 1⟩)

/-- `Number::ratio(1, 2^33 + 1)`. -/
def Large.little : Number := .Other none (.ratio ⟨1, 2 ^ 33 + 1⟩)

theorem Large.big_denotes : Number.Denotes release64 NoPanic big (2 ^ 33 + 1) :=
  ⟨_, Ratio.denotes (by constructor <;> decide), by norm_num [applyPrimer, Ratio.val]⟩

theorem Large.little_denotes : Number.Denotes release64 NoPanic little (1 / (2 ^ 33 + 1)) :=
  ⟨_, Ratio.denotes (by constructor <;> decide), by norm_num [applyPrimer, Ratio.val]⟩

theorem Large.amplifies (m : Nat) (h : m ≤ 33) :
    ∃ d, Gives release64 (.ratio ⟨1, 2 ^ 33 + 1⟩) (List.replicate m .Amplify) d := by
  have hd : Clog.Denotes release64 NoPanic (.ratio ⟨1, 2 ^ 33 + 1⟩) _ :=
    Ratio.denotes (by constructor <;> decide)
  obtain ⟨d, hd, -⟩ := hd.amplifies m (by
    have : (2 : ℚ) ^ m ≤ 2 ^ 33 := pow_le_pow_right₀ (by norm_num) h
    rw [lt_div_iff₀ (by positivity)]
    simp only [Ratio.val]
    push_cast
    rw [div_mul_eq_mul_div, div_lt_one (by norm_num)]
    linarith)
  exact ⟨d, hd⟩

/-- On 64 bits, `2^33 + 1` cannot be squared, nor multiplied by its opposite. -/
example : Panics (fun f => Number.combine release64 f big big 1 0 0 0 0 0 0 1) .unwrapNone := by
  refine C86_mul release64 _ _ _ _ big_denotes big_denotes (.inl ⟨?_, ?_⟩)
  · show (2 : ℚ) ^ 32 < _
    norm_num
  · show (2 : ℚ) ^ 31 < _
    norm_num

example : Panics (fun f => Number.combine release64 f big
    (.Other (some .Ground) (.ratio ⟨1, 2 ^ 33 + 1⟩)) 1 0 0 0 0 0 0 1) .unwrapNone := by
  obtain ⟨d, hd⟩ := Large.amplifies 32 (by omega)
  obtain ⟨e, he⟩ := Large.amplifies 31 (by omega)
  exact C86_mul_symbols release64 _ _ _ _ d e rfl hd he

/-- Nor can its inverse be squared. -/
example : Panics (fun f => Number.combine release64 f little little 1 0 0 0 0 0 0 1)
    .unwrapNone := by
  refine C86_mul release64 _ _ _ _ little_denotes little_denotes (.inr ⟨?_, ?_, ?_, ?_⟩)
  · norm_num
  · show _ < (1 : ℚ) / 2 ^ 32
    norm_num [abs_of_pos]
  · norm_num
  · show _ < (1 : ℚ) / 2 ^ 31
    norm_num [abs_of_pos]

/-- Nor can it be divided by its inverse, nor added to it. -/
example : Panics (fun f => Number.combine release64 f big little 0 1 0 0 0 0 1 0) .unwrapNone := by
  refine C86_div release64 _ _ _ _ big_denotes little_denotes (.inl ⟨?_, ?_, ?_⟩)
  · show (2 : ℚ) ^ 32 < _
    norm_num
  · norm_num
  · show _ < (1 : ℚ) / 2 ^ 31
    norm_num [abs_of_pos]

example : Panics (fun f => Number.combine release64 f little big 0 1 0 0 0 0 1 0) .unwrapNone := by
  obtain ⟨d, hd⟩ := Large.amplifies 32 (by omega)
  obtain ⟨e, he⟩ := Large.amplifies 31 (by omega)
  exact C86_div_symbols release64 _ _ _ _ d e (by decide) hd he

example : Panics (fun f => Number.combine release64 f big little 0 1 1 0 0 0 0 1) .unwrapNone := by
  refine C86_add release64 _ _ _ _ big_denotes little_denotes (.inl ⟨?_, ?_, ?_⟩)
  · show (2 : ℚ) ^ 32 < _
    norm_num
  · norm_num
  · show _ < (1 : ℚ) / 2 ^ 31
    norm_num [abs_of_pos]

example : Panics (fun f => Number.combine release64 f little big 0 1 1 0 0 0 0 1) .unwrapNone := by
  obtain ⟨d, hd⟩ := Large.amplifies 32 (by omega)
  obtain ⟨e, he⟩ := Large.amplifies 31 (by omega)
  exact C86_add_symbols release64 _ _ _ _ d e (by decide) hd he

example : Panics (fun f => Number.combine release64 f big little 0 1 (-1) 0 0 0 0 1)
    .unwrapNone := by
  refine C86_sub release64 _ _ _ _ big_denotes little_denotes (.inl ⟨?_, ?_, ?_⟩)
  · show (2 : ℚ) ^ 32 < _
    norm_num
  · norm_num
  · show _ < (1 : ℚ) / 2 ^ 32
    norm_num [abs_of_pos]

example : Panics (fun f => Number.combine release64 f little big 0 1 (-1) 0 0 0 0 1)
    .unwrapNone := by
  obtain ⟨d, hd⟩ := Large.amplifies 32 (by omega)
  exact C86_sub_symbols release64 _ _ _ _ d d (by decide) hd hd

/-- The number `2^n`, as `Number::ratio(2^n, 1)` makes it. -/
theorem Large.power_denotes (p : Option Primer) (n : Nat) (h1 : 1 ≤ n) (h : n ≤ 62) :
    Number.Denotes release64 NoPanic (.Other p (.ratio ⟨1, 2 ^ n⟩))
      (applyPrimer p (1 / 2 ^ n)) := by
  have : 2 ^ n ≤ 2 ^ 62 := Nat.pow_le_pow_right (by norm_num) h
  have h2 : 1 < 2 ^ n := Nat.one_lt_two_pow (by omega)
  refine ⟨_, Ratio.denotes (r := ⟨1, 2 ^ n⟩) ?_, by simp [Ratio.val]⟩
  exact ⟨Nat.one_pos, h2, this.trans (by decide)⟩

/-- `2^32 * 2^31 = 2^63` is exact, `2^32 * 2^32` panics. -/
example (x y : Number) (hx : x = .Other (some .Turn) (.ratio ⟨1, 2 ^ 32⟩))
    (hy : y = .Other (some .Turn) (.ratio ⟨1, 2 ^ 31⟩)) :
    (∃ r, Returns (fun f => Number.combine release64 f x y 1 0 0 0 0 0 0 1) r ∧
      Number.Denotes release64 NoPanic r (2 ^ 63)) ∧
    Panics (fun f => Number.combine release64 f x x 1 0 0 0 0 0 0 1) .unwrapNone := by
  have h1 : Number.Denotes release64 NoPanic x ((1 : Int) * 2 ^ 32) := by
    have := power_denotes (some .Turn) 32 (by decide) (by decide)
    rw [hx]
    simpa [applyPrimer] using this
  have h2 : Number.Denotes release64 NoPanic y ((1 : Int) * 2 ^ 31) := by
    have := power_denotes (some .Turn) 31 (by decide) (by decide)
    rw [hy]
    simpa [applyPrimer] using this
  constructor
  · obtain ⟨r, hr, hd⟩ := (C86_mul_large_powers release64 32 31 (by decide) (by decide) 1 1 (.inl rfl)
      (.inl rfl) x y h1 h2).1 (by rw [if_pos rfl]; exact .inr (by decide))
    refine ⟨r, hr, ?_⟩
    norm_num at hd ⊢
    exact hd
  · exact (C86_mul_large_powers release64 32 32 (by decide) (by decide) 1 1 (.inl rfl)
      (.inl rfl) x x h1 h1).2 (by rw [if_pos rfl]; unfold EndsInTime; decide)

/-- `2 * 2^62` is exact and `2 * -2^62` panics. -/
example (x y z : Number) (hx : x = .Other (some .Turn) (.ratio ⟨1, 2 ^ 1⟩))
    (hy : y = .Other (some .Turn) (.ratio ⟨1, 2 ^ 62⟩))
    (hz : z = .Other (some .Ground) (.ratio ⟨1, 2 ^ 62⟩)) :
    (∃ r, Returns (fun f => Number.combine release64 f x y 1 0 0 0 0 0 0 1) r ∧
      Number.Denotes release64 NoPanic r (2 ^ 63)) ∧
    Panics (fun f => Number.combine release64 f x z 1 0 0 0 0 0 0 1) .unwrapNone := by
  have h1 : Number.Denotes release64 NoPanic x ((1 : Int) * 2 ^ 1) := by
    have := power_denotes (some .Turn) 1 (by decide) (by decide)
    rw [hx]
    simpa [applyPrimer] using this
  have h2 : Number.Denotes release64 NoPanic y ((1 : Int) * 2 ^ 62) := by
    have := power_denotes (some .Turn) 62 (by decide) (by decide)
    rw [hy]
    simpa [applyPrimer] using this
  have h3 : Number.Denotes release64 NoPanic z ((-1 : Int) * 2 ^ 62) := by
    have := power_denotes (some .Ground) 62 (by decide) (by decide)
    rw [hz]
    simpa [applyPrimer] using this
  constructor
  · obtain ⟨r, hr, hd⟩ := (C86_mul_large_powers release64 1 62 (by decide) (by decide) 1 1 (.inl rfl)
      (.inl rfl) x y h1 h2).1 (by rw [if_pos rfl]; exact .inl (by decide))
    refine ⟨r, hr, ?_⟩
    norm_num at hd ⊢
    exact hd
  · exact (C86_mul_large_powers release64 1 62 (by decide) (by decide) 1 (-1) (.inl rfl)
      (.inr rfl) x z h1 h3).2 (by rw [if_neg (by decide)]; decide)

/-- `-2^-3 * 2^-62` is exact, `2^-40 * -2^-40` panics. -/
example (x y z : Number) (hx : x = .Other (some .Reflect) (.ratio ⟨1, 2 ^ 3⟩))
    (hy : y = .Other none (.ratio ⟨1, 2 ^ 62⟩)) (hz : z = .Other none (.ratio ⟨1, 2 ^ 40⟩)) :
    (∃ r, Returns (fun f => Number.combine release64 f x y 1 0 0 0 0 0 0 1) r ∧
      Number.Denotes release64 NoPanic r (-1 / 2 ^ 65)) ∧
    Panics (fun f => Number.combine release64 f z z 1 0 0 0 0 0 0 1) .unwrapNone := by
  have h1 : Number.Denotes release64 NoPanic x ((-1 : Int) / 2 ^ 3) := by
    have := power_denotes (some .Reflect) 3 (by decide) (by decide)
    rw [hx]
    simpa [applyPrimer, neg_div] using this
  have h2 : Number.Denotes release64 NoPanic y ((1 : Int) / 2 ^ 62) := by
    have := power_denotes none 62 (by decide) (by decide)
    rw [hy]
    simpa [applyPrimer] using this
  have h3 : Number.Denotes release64 NoPanic z ((1 : Int) / 2 ^ 40) := by
    have := power_denotes none 40 (by decide) (by decide)
    rw [hz]
    simpa [applyPrimer] using this
  constructor
  · obtain ⟨r, hr, hd⟩ := (C86_mul_small_powers release64 3 62 (by decide) (by decide) (-1) 1
      (.inr rfl) (.inl rfl) x y h1 h2).1 (.inl (by decide))
    refine ⟨r, hr, ?_⟩
    norm_num at hd ⊢
    exact hd
  · exact (C86_mul_small_powers release64 40 40 (by decide) (by decide) 1 1 (.inl rfl)
      (.inl rfl) z z h3 h3).2 (by unfold EndsInTime; decide)

/-- `2^40 / 2^-40` and `2^-40 / 2^40` panic, `2^5 / 2^-40` and `2^-5 / 2^40` are exact. -/
example (x y z t : Number) (hx : x = .Other (some .Turn) (.ratio ⟨1, 2 ^ 40⟩))
    (hy : y = .Other none (.ratio ⟨1, 2 ^ 40⟩)) (hz : z = .Other (some .Turn) (.ratio ⟨1, 2 ^ 5⟩))
    (ht : t = .Other none (.ratio ⟨1, 2 ^ 5⟩)) :
    Panics (fun f => Number.combine release64 f x y 0 1 0 0 0 0 1 0) .unwrapNone ∧
    Panics (fun f => Number.combine release64 f y x 0 1 0 0 0 0 1 0) .unwrapNone ∧
    (∃ r, Returns (fun f => Number.combine release64 f z y 0 1 0 0 0 0 1 0) r ∧
      Number.Denotes release64 NoPanic r (2 ^ 45)) ∧
    (∃ r, Returns (fun f => Number.combine release64 f t x 0 1 0 0 0 0 1 0) r ∧
      Number.Denotes release64 NoPanic r (1 / 2 ^ 45)) := by
  have h1 : Number.Denotes release64 NoPanic x ((1 : Int) * 2 ^ 40) := by
    have := power_denotes (some .Turn) 40 (by decide) (by decide)
    rw [hx]
    simpa [applyPrimer] using this
  have h2 : Number.Denotes release64 NoPanic y ((1 : Int) / 2 ^ 40) := by
    have := power_denotes none 40 (by decide) (by decide)
    rw [hy]
    simpa [applyPrimer] using this
  have h3 : Number.Denotes release64 NoPanic z ((1 : Int) * 2 ^ 5) := by
    have := power_denotes (some .Turn) 5 (by decide) (by decide)
    rw [hz]
    simpa [applyPrimer] using this
  have h4 : Number.Denotes release64 NoPanic t ((1 : Int) / 2 ^ 5) := by
    have := power_denotes none 5 (by decide) (by decide)
    rw [ht]
    simpa [applyPrimer] using this
  refine ⟨?_, ?_, ?_, ?_⟩
  · exact (C86_div_large_powers release64 40 40 (by decide) (by decide) 1 1 (.inl rfl)
      (.inl rfl) x y h1 h2).2 (by rw [if_pos rfl]; unfold EndsInTime; decide)
  · exact (C86_div_small_powers release64 40 40 (by decide) (by decide) 1 1 (.inl rfl)
      (.inl rfl) y x h2 h1).2 (by unfold EndsInTime; decide)
  · obtain ⟨r, hr, hd⟩ := (C86_div_large_powers release64 5 40 (by decide) (by decide) 1 1 (.inl rfl)
      (.inl rfl) z y h3 h2).1 (by rw [if_pos rfl]; exact .inl (by decide))
    refine ⟨r, hr, ?_⟩
    norm_num at hd ⊢
    exact hd
  · obtain ⟨r, hr, hd⟩ := (C86_div_small_powers release64 5 40 (by decide) (by decide) 1 1 (.inl rfl)
      (.inl rfl) t x h4 h1).1 (.inl (by decide))
    refine ⟨r, hr, ?_⟩
    norm_num at hd ⊢
    exact hd

end Clarith
