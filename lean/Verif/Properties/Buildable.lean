import Verif.Properties.ContFrac

/-! # Every rational number can be made and read exactly (C99)

`Number::ratio` takes machine integers, so it makes only finitely many numbers.  With `Number::homographic` the
user can put the symbols of any expansion before those of 1/2, one call for each symbol and one for the primer,
and what is read of the result is exact, however large numerator and denominator are. -/

namespace Clarith

open Out Spec

/-! ## Specification -/

/-- The call of `Number::homographic` (src/lib.rs:112-131) that puts a symbol in front: `x/2` for Amplify, `1/(1+x)` for
Uncover. -/
def Spec.prepend (cfg : Cfg) (f : Nat) (x : Number) : Reduction → Out Number
  | .Amplify => Number.homographic cfg f x 1 0 0 2
  | .Uncover => Number.homographic cfg f x 0 1 1 1

/-- The same for a primer: `1/x`, `-x`, `-1/x`. -/
def Spec.primed (cfg : Cfg) (f : Nat) (x : Number) : Option Primer → Out Number
  | none => pure x
  | some .Turn => Number.homographic cfg f x 0 1 1 0
  | some .Reflect => Number.homographic cfg f x (-1) 0 0 1
  | some .Ground => Number.homographic cfg f x 0 (-1) 1 0

/-- `x`, and one call for each of the symbols, from the last to the first. -/
def Spec.prependAll (cfg : Cfg) (f : Nat) (x : Number) : List Reduction → Out Number
  | [] => pure x
  | r :: l => do
    let y ← prependAll cfg f x l
    prepend cfg f y r

/-- 1/2, from `Number::ratio` (src/lib.rs:87-93), then the calls for the symbols, then the one for the primer. -/
def Spec.build (cfg : Cfg) (f : Nat) (p : Option Primer) (l : List Reduction) : Out Number := do
  let x ← Number.ratio cfg 1 2
  let y ← prependAll cfg f x l
  primed cfg f y p

/-! ## Proof -/

namespace Buildable

variable {cfg : Cfg}

theorem room : ((2 : Int) * 2 ^ (([] : List Reduction).length + 1)) ^ 2 ≤ cfg.imax := by
  have := cfg.imax_ge
  norm_num
  omega

theorem one (r : Reduction) (c : Clog) :
    ∃ c0 c1, Returns (fun f => prepend cfg f (.Other none c) r) (.Other none c0) ∧
      Gives cfg c0 [r] c1 ∧ SameAnswers cfg c c1 := by
  cases r with
  | Amplify => exact C66_halve cfg c
  | Uncover =>
    refine C66_homographic (M := 2) (l := []) (by norm_num) (by norm_num) room
      (Gives.nil c) (fun s s0 s1 => ⟨?_, ?_⟩) (.inl rfl)
    · simp only [applyPrimer, unread]
      push_cast
      linarith
    · simp only [applyPrimer, unread, unread1]
      norm_num
      rw [add_comm]

theorem primer (p : Option Primer) (c : Clog) :
    ∃ c0, Returns (fun f => primed cfg f (.Other none c) p) (.Other p c0) ∧ SameAnswers cfg c c0 := by
  have fin {x : Option Primer} {nx n dx d : Int} (h : ∃ c0 c1,
      Returns (fun f => Number.homographic cfg f (.Other none c) nx n dx d) (.Other x c0) ∧
        Gives cfg c0 [] c1 ∧ SameAnswers cfg c c1) : ∃ c0,
      Returns (fun f => Number.homographic cfg f (.Other none c) nx n dx d) (.Other x c0) ∧
        SameAnswers cfg c c0 := by
    obtain ⟨c0, c1, h1, h2, h3⟩ := h
    rw [Gives.nil_eq h2] at h3
    exact ⟨c0, h1, h3⟩
  rcases p with _ | _ | _ | _
  · exact ⟨c, ⟨0, fun _ _ => rfl⟩, SameAnswers.of_agree (Agree.refl c) (Agree.refl c)⟩
  all_goals
    refine fin (C66_homographic (M := 2) (l := []) (l' := []) (by norm_num) (by norm_num)
      room (Gives.nil c) (fun s s0 s1 => ⟨?_, ?_⟩) ?_)
  all_goals simp [applyPrimer, unread, neg_div]
  all_goals first | exact s0.ne' | (intro s s0 s1; exact s0)

theorem next {x y z : Number} {r : Reduction} {l : List Reduction} (hy : Returns (fun f => prependAll cfg f x l) y)
    (hr : Returns (fun f => prepend cfg f y r) z) : Returns (fun f => prependAll cfg f x (r :: l)) z := by
  obtain ⟨f₀, hy⟩ := hy
  obtain ⟨f₁, hr⟩ := hr
  refine ⟨f₀ + f₁, fun f hf => ?_⟩
  have e : prependAll cfg f x l = .ok y := hy f (by omega)
  show prependAll cfg f x l >>= _ = _
  rw [e]
  exact hr f (by omega)

/-- `ratio` makes 1/2: no primer, and no symbol. -/
theorem half : ∃ c, Number.ratio cfg 1 2 = .ok (.Other none c) ∧ ∃ d e, Gives cfg c [] d ∧
    Returns (fun f => Clog.egest cfg f d) (none, e) := by
  have hm := cfg.imax_ge
  have hmin := cfg.imin_eq
  obtain ⟨x, hx, hd⟩ := C01_ratio_exact cfg 1 2 ⟨by omega, by omega⟩ ⟨by omega, by omega⟩ (by decide)
    (fun _ => ⟨by omega, by omega⟩)
  cases x with
  | Special s => cases s <;> norm_num [Number.Denotes, specialValue] at hd
  | Other p c =>
    obtain ⟨v, hv, e⟩ := hd
    have v0 := hv.1
    have v1 := hv.2.1
    have hp : p = none := by
      rcases p with _ | _ | _ | _
      · rfl
      all_goals
        have : 1 < 1 / v := by rw [lt_div_iff₀ v0]; linarith
        simp only [applyPrimer] at e
        push_cast at e
        linarith
    subst hp
    have : v = 1 / 2 := by simpa [applyPrimer] using e.symm
    subst this
    obtain ⟨d, e, h1, h2⟩ := ZeroOver.stops Expands.half hv
    exact ⟨c, hx, d, e, h1, h2⟩

theorem special (n : Int) (h : n = 0 ∨ n = 1 ∨ n = -1) :
    ∃ s, Number.ratio cfg n 1 = .ok (.Special s) ∧ (n : ℚ) = specialValue s := by
  have hm := cfg.imax_ge
  have hmin := cfg.imin_eq
  obtain ⟨x, hx, hd⟩ := C01_ratio_exact cfg n 1 ⟨by omega, by omega⟩ ⟨by omega, by omega⟩ (by decide)
    (fun _ => ⟨by omega, by omega⟩)
  cases x with
  | Special s => exact ⟨s, hx, by simpa [Number.Denotes] using hd⟩
  | Other p c =>
    exfalso
    obtain ⟨v, hv, e⟩ := hd
    have v0 := hv.1
    have v1 := hv.2.1
    have hi : 1 < 1 / v := by rw [lt_div_iff₀ v0]; linarith
    rcases h with rfl | rfl | rfl <;> rcases p with _ | _ | _ | _ <;> simp only [applyPrimer] at e <;>
      push_cast at e <;> linarith

end Buildable

/-! ## C99 -/

open Buildable

/-- Whatever the answers of `x` are: the calls for the symbols `l` give a number whose symbols are `l` and then
the answers of `x`. -/
theorem C99_front (cfg : Cfg) (l : List Reduction) (c : Clog) :
    ∃ c0 c1, Returns (fun f => prependAll cfg f (.Other none c) l) (.Other none c0) ∧ Gives cfg c0 l c1 ∧
      SameAnswers cfg c c1 := by
  induction l with
  | nil => exact ⟨c, c, ⟨0, fun _ _ => rfl⟩, Gives.nil c, SameAnswers.of_agree (Agree.refl c) (Agree.refl c)⟩
  | cons r l ih =>
    obtain ⟨c0, c1, h1, h2, h3⟩ := ih
    obtain ⟨d0, d1, g1, g2, g3⟩ := one (cfg := cfg) r c0
    obtain ⟨e1, i1, i2⟩ := C63_gives cfg c0 d1 c1 g3 _ h2
    exact ⟨d0, e1, next h1 g1, Clarith.Gives.trans (l := [r]) g2 i1, Counter.SameAnswers.trans h3 i2⟩

example := C99_front debug64 [.Uncover, .Amplify] (.homographic (.ratio ⟨3, 5⟩) ⟨0, 0, 1, 1⟩)

/-- The calls for an expansion and a primer return, without panic, a number that is read as its value. -/
theorem C99_build (cfg : Cfg) (p : Option Primer) (v : ℚ) (l : List Reduction) (hl : Expands v l) :
    ∃ r, Returns (fun f => build cfg f p l) r ∧ ReadsAs cfg r (applyPrimer p v) := by
  obtain ⟨c, hx, d, e, hd, he⟩ := Buildable.half (cfg := cfg)
  obtain ⟨c0, c1, h1, h2, h3⟩ := C99_front cfg l c
  obtain ⟨c2, g1, g2⟩ := primer (cfg := cfg) p c0
  obtain ⟨c3, i1, i2⟩ := C63_gives cfg c0 c2 c1 g2 l h2
  have hs := Counter.SameAnswers.trans h3 i2
  obtain ⟨e', he'⟩ := ((hs [] d c3 hd (Gives.nil c3)).1 none).1 ⟨e, he⟩
  obtain ⟨f₀, h1⟩ := h1
  obtain ⟨f₁, g1⟩ := g1
  refine ⟨_, ⟨f₀ + f₁, fun f hf => ?_⟩, p, c2, v, l, c3, e', rfl, rfl, hl, i1, he'⟩
  have k1 : prependAll cfg f (.Other none c) l = .ok (.Other none c0) := h1 f (by omega)
  show Number.ratio cfg 1 2 >>= _ = _
  rw [hx]
  show prependAll cfg f (.Other none c) l >>= _ = _
  rw [k1]
  exact g1 f (by omega)

/-- -3, whose primer is Ground and whose symbols are those of 1/3. -/
example := C99_build debug64 (some .Ground) (1 / 3) [.Amplify, .Uncover]
  (.amplify (by norm_num) (by norm_num) (.uncover (by norm_num) (by norm_num) (by
    convert Expands.half using 1; norm_num)))

/-- Every rational number: 0, 1 and -1 are specials that `ratio` gives, and every other number can be made by calls
that return, without panic, and is then read as its exact value. -/
theorem C99_every (cfg : Cfg) (q : ℚ) :
    (∃ n s, Number.ratio cfg n 1 = .ok (.Special s) ∧ q = specialValue s) ∨
    ∃ p l r, Returns (fun f => build cfg f p l) r ∧ ReadsAs cfg r q := by
  by_cases h0 : q = 0
  · obtain ⟨s, h, e⟩ := special (cfg := cfg) 0 (by simp)
    exact .inl ⟨0, s, h, by simpa [h0] using e⟩
  by_cases h1 : q = 1
  · obtain ⟨s, h, e⟩ := special (cfg := cfg) 1 (by simp)
    exact .inl ⟨1, s, h, by simpa [h1] using e⟩
  by_cases h2 : q = -1
  · obtain ⟨s, h, e⟩ := special (cfg := cfg) (-1) (by simp)
    exact .inl ⟨-1, s, h, by simpa [h2] using e⟩
  obtain ⟨p, v, v0, v1, rfl⟩ : ∃ p v, 0 < v ∧ v < 1 ∧ q = applyPrimer p v := by
    rcases lt_or_gt_of_ne h0 with h | h
    · rcases lt_or_gt_of_ne h2 with h' | h'
      · refine ⟨some .Ground, 1 / (-q), by apply one_div_pos.2; linarith, ?_, by simp [applyPrimer]⟩
        rw [div_lt_one (by linarith)]; linarith
      · exact ⟨some .Reflect, -q, by linarith, by linarith, by simp [applyPrimer]⟩
    · rcases lt_or_gt_of_ne h1 with h' | h'
      · exact ⟨none, q, h, h', rfl⟩
      · refine ⟨some .Turn, 1 / q, by positivity, ?_, by simp [applyPrimer]⟩
        rw [div_lt_one h]; exact h'
  obtain ⟨l, hl⟩ := exists_expands v v0 v1
  obtain ⟨r, hr, h⟩ := C99_build cfg p v l hl
  exact .inr ⟨p, l, r, hr, h⟩

/-- A number whose numerator has 200 bits, on a machine of 64. -/
example := C99_every debug64 (-(2 ^ 200 + 1) / 3)

end Clarith
