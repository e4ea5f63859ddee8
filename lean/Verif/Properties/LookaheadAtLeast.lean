import Verif.Properties.LookaheadCombine

/-! # C89 How far `Number::combine` must look ahead: symbols needed for symbols given

C88 bounds the symbols of the operands that `combine` reads from above.  This bounds them from below, for
each operand.  When the second operand is held at `y`, the map is a homographic map of the first with the
determinant

    D(y) = (nxy·y + nx)·(dy·y + d) - (ny·y + n)·(dxy·y + dx)

and `i` symbols of the first operand are not enough for `m` symbols of the result, however much is known of
the second, unless

    D(y)^4 · (5 + 2√6)^m ≤ (3 · (S·max(1,|y|))² · ((3+√5)/2)^i)^4

and the same with the operands exchanged. -/

namespace Clarith

open Spec Out

/-! ## Specification -/

/-- `i` symbols of the first operand are too few for `m` symbols of the result, the second operand being `y`
and the coefficients of size `S`. -/
def Spec.TooFew (nxy nx ny n dxy dx dy d S : Int) (i m : Nat) (y : ℚ) : Prop :=
  (3 * ((S : ℝ) * ((max 1 |y| : ℚ) : ℝ)) ^ 2 * ((3 + √5) / 2) ^ i) ^ 4 <
    |(((nxy * y + nx) * (dy * y + d) - (ny * y + n) * (dxy * y + dx) : ℚ) : ℝ)| ^ 4 * (5 + 2 * √6) ^ m

/-! ## Proof -/

section

variable {px py p' : Option Primer} {nxy nx ny n dxy dx dy d S : Int} {lx ly : List Reduction}
  {out : List Reduction}

/-- The operands exchanged. -/
theorem Spec.ClearlySettled.swap (h : ClearlySettled px py nxy nx ny n dxy dx dy d lx ly p' out) :
    ClearlySettled py px nxy ny nx n dxy dy dx d ly lx p' out := by
  obtain ⟨δ, hδ, h⟩ := h
  refine ⟨δ, hδ, fun s t x y hs ht ex ey => ?_⟩
  have e1 : ∀ a b c e : ℚ, a * y * x + b * y + c * x + e = a * x * y + c * x + b * y + e := by
    intros; ring
  have := h t s y x ht hs ey ex
  rwa [e1, e1, mul_comm (max 1 |y|)] at this

/-- What is clear for two operands is settled for the first when the second is held. -/
theorem Spec.ClearlySettled.held (h : ClearlySettled px py nxy nx ny n dxy dx dy d lx ly p' out)
    {t : ℚ} (ht : Begins ly t) {a b : Int} (hb : b ≠ 0) (hab : (a : ℚ) / b = applyPrimer py t) :
    Settled px (nxy * a + nx * b) (ny * a + n * b) (dxy * a + dx * b) (dy * a + d * b) lx p'
      out.length (out.map some) := by
  obtain ⟨δ, hδ, h⟩ := h
  intro s hs
  obtain ⟨k1, u, k2, k3⟩ := h s t _ _ hs ht rfl rfl
  have hb' : (b : ℚ) ≠ 0 := by exact_mod_cast hb
  have ha : (a : ℚ) = applyPrimer py t * b := by rw [← hab, div_mul_cancel₀ _ hb']
  have e1 : ∀ c1 c2 c3 c4 : Int, ((c1 * a + c2 * b : Int) : ℚ) * applyPrimer px s + ((c3 * a + c4 * b : Int) : ℚ) =
      (c1 * applyPrimer px s * applyPrimer py t + c2 * applyPrimer px s + c3 * applyPrimer py t + c4) * b := by
    intro c1 c2 c3 c4
    push_cast
    rw [ha]; ring
  have hne : dxy * applyPrimer px s * applyPrimer py t + dx * applyPrimer px s + dy * applyPrimer py t + d ≠
      0 := by
    refine abs_pos.1 (lt_of_lt_of_le ?_ k1)
    positivity
  obtain ⟨m1, m2⟩ := k3.mem
  rw [e1, e1]
  refine ⟨mul_ne_zero hne hb', u, by linarith, by linarith, ?_, k3.symbols hδ⟩
  rw [mul_div_mul_right _ _ hb', k2]

theorem held_size {c1 c2 c3 c4 a b : Int} (h : |c1| + |c2| + |c3| + |c4| ≤ S) :
    |c1 * a + c2 * b| + |c3 * a + c4 * b| ≤ S * max |a| |b| := by
  have h1 : ∀ c c' : Int, |c * a + c' * b| ≤ (|c| + |c'|) * max |a| |b| := by
    intro c c'
    refine (abs_add_le _ _).trans ?_
    rw [abs_mul, abs_mul, add_mul]
    exact add_le_add (mul_le_mul_of_nonneg_left (le_max_left _ _) (abs_nonneg _))
      (mul_le_mul_of_nonneg_left (le_max_right _ _) (abs_nonneg _))
  have h2 : (|c1| + |c2| + |c3| + |c4|) * max |a| |b| ≤ S * max |a| |b| :=
    mul_le_mul_of_nonneg_right h (le_max_of_le_left (abs_nonneg _))
  have := h1 c1 c2
  have := h1 c3 c4
  linarith

/-- The symbols `lx` of the first operand are enough for the symbols `out` of the result, together with any
symbols of the second, only if there are enough of them. -/
theorem C89_at_least (h1 : |nxy| + |nx| + |ny| + |n| ≤ S) (h2 : |dxy| + |dx| + |dy| + |d| ≤ S)
    (hs : ClearlySettled px py nxy nx ny n dxy dx dy d lx ly p' out) {t y : ℚ} (ht : Begins ly t)
    (ey : y = applyPrimer py t) :
    |(((nxy * y + nx) * (dy * y + d) - (ny * y + n) * (dxy * y + dx) : ℚ) : ℝ)| ^ 4 *
        (5 + 2 * √6) ^ out.length ≤
      (3 * ((S : ℝ) * ((max 1 |y| : ℚ) : ℝ)) ^ 2 * ((3 + √5) / 2) ^ lx.length) ^ 4 := by
  have hb : ((y.den : Int)) ≠ 0 := by exact_mod_cast y.den_ne_zero
  have hb' : (0 : ℚ) < (y.den : ℚ) := by exact_mod_cast y.den_pos
  have hab : ((y.num : Int) : ℚ) / ((y.den : Int) : ℚ) = applyPrimer py t := by
    rw [← ey]; exact_mod_cast y.num_div_den
  have key := C87_at_least (held_size h1) (held_size h2) (hs.held ht hb hab)
  rw [← ey] at hab
  obtain ⟨a, ha⟩ : ∃ a : Int, a = y.num := ⟨_, rfl⟩
  obtain ⟨b, hbd⟩ : ∃ b : Int, b = (y.den : Int) := ⟨_, rfl⟩
  have hb0 : (0 : ℚ) < (b : ℚ) := by rw [hbd]; exact_mod_cast y.den_pos
  rw [← ha, ← hbd] at key hab
  have hya : (a : ℚ) = y * b := by rw [← hab, div_mul_cancel₀ _ hb0.ne']
  have e1 : ((((nxy * a + nx * b) * (dy * a + d * b) - (ny * a + n * b) * (dxy * a + dx * b) : Int) : ℚ)) =
      ((nxy * y + nx) * (dy * y + d) - (ny * y + n) * (dxy * y + dx)) * b ^ 2 := by
    push_cast
    rw [hya]; ring
  have e2 : (((max |a| |b| : Int) : ℚ)) = max 1 |y| * b := by
    push_cast
    rw [hya, abs_mul, abs_of_pos hb0, max_mul_of_nonneg _ _ hb0.le, one_mul, max_comm]
  obtain ⟨Dy, hDy⟩ : ∃ Dy : ℚ, Dy = (nxy * y + nx) * (dy * y + d) - (ny * y + n) * (dxy * y + dx) :=
    ⟨_, rfl⟩
  obtain ⟨M, hM⟩ : ∃ M : ℚ, M = max 1 |y| := ⟨_, rfl⟩
  rw [← hDy] at e1 ⊢
  rw [← hM] at e2 ⊢
  have r1 : ((((nxy * a + nx * b) * (dy * a + d * b) - (ny * a + n * b) * (dxy * a + dx * b) : Int) : ℝ)) =
      Dy * (b : ℝ) ^ 2 := by
    have : (((((nxy * a + nx * b) * (dy * a + d * b) - (ny * a + n * b) * (dxy * a + dx * b) : Int) : ℚ)) : ℝ) =
      ((Dy * b ^ 2 : ℚ) : ℝ) := by rw [e1]
    push_cast at this ⊢
    exact this
  have r2 : (((S * max |a| |b| : Int)) : ℝ) = S * M * b := by
    have : ((((max |a| |b| : Int) : ℚ)) : ℝ) = ((M * b : ℚ) : ℝ) := by rw [e2]
    rw [Int.cast_mul, mul_assoc]
    congr 1
    push_cast at this ⊢
    exact this
  have rb0 : (0 : ℝ) < b := by exact_mod_cast hb0
  rw [r1, r2] at key
  rw [abs_mul, abs_of_pos (by positivity : (0 : ℝ) < (b : ℝ) ^ 2)] at key
  refine le_of_mul_le_mul_right ?_ (by positivity : (0 : ℝ) < (b : ℝ) ^ 8)
  generalize (5 + 2 * √6) ^ out.length = R at key ⊢
  generalize ((3 + √5) / 2) ^ lx.length = G at key ⊢
  calc |(Dy : ℝ)| ^ 4 * R * (b : ℝ) ^ 8 = (|(Dy : ℝ)| * (b : ℝ) ^ 2) ^ 4 * R := by ring
    _ ≤ _ := key
    _ = _ := by ring

end

/-! ## What this says of `combine` -/

section

variable {cfg : Cfg} {px py p' : Option Primer} {nxy nx ny n dxy dx dy d S : Int}
  {cx cx' cy cy' : Clog} {lx ly out : List Reduction} {m : Nat}

theorem begins_prefix {l l1 l2 : List Reduction} {t : ℚ} (h : Begins l t) (e : l = l1 ++ l2) :
    Begins l1 t := by
  refine ⟨h.1, h.2.1, ?_⟩
  have h2 := h.2.2
  clear h
  subst e
  induction l1 generalizing t with
  | nil => rfl
  | cons r l1 ih =>
    simp only [List.cons_append, List.length_cons, List.map_cons, symbols_succ, List.cons.injEq] at h2 ⊢
    exact ⟨h2.1, ih h2.2⟩

/-- When `lx` or `ly` is too short for `m` symbols of the result, the result is not clear to `m` symbols. -/
theorem C89_not_clear (h1 : |nxy| + |nx| + |ny| + |n| ≤ S) (h2 : |dxy| + |dx| + |dy| + |d| ≤ S)
    {s t : ℚ} (hs : Begins lx s) (ht : Begins ly t)
    (hi : TooFew nxy nx ny n dxy dx dy d S lx.length m (applyPrimer py t) ∨
      TooFew nxy ny nx n dxy dy dx d S ly.length m (applyPrimer px s))
    (p' : Option Primer) (out : List Reduction) (hm : out.length = m) :
    ¬ClearlySettled px py nxy nx ny n dxy dx dy d lx ly p' out := by
  intro h
  rcases hi with hi | hi
  · have := C89_at_least h1 h2 h ht rfl
    rw [hm] at this
    exact absurd hi (not_lt.2 this)
  · have := C89_at_least (S := S) (by omega) (by omega) h.swap hs rfl
    rw [hm] at this
    exact absurd hi (not_lt.2 this)

/-- The symbols `lx` and `ly` of the operands are not enough for the primer and `m` symbols of the result
when one of the two is too short: if an operand panics after them, so does `combine`, or the `m` calls of
`egest` on the result (unless a number is too large before). -/
theorem C89_reads_at_least (hc : cfg.overflowChecks = true) (h1 : |nxy| + |nx| + |ny| + |n| ≤ S)
    (h2 : |dxy| + |dx| + |dy| + |d| ≤ S) (hx : Gives cfg cx lx cx') (hy : Gives cfg cy ly cy')
    (hlen : lx.length = ly.length) {s t : ℚ} (hs : Begins lx s) (ht : Begins ly t)
    (hi : TooFew nxy nx ny n dxy dx dy d S lx.length m (applyPrimer py t) ∨
      TooFew nxy ny nx n dxy dy dx d S ly.length m (applyPrimer px s))
    {P : Panic} (hP : Panics (fun f => Clog.egest cfg f cx') P ∨
      ∃ r cx'', Returns (fun f => Clog.egest cfg f cx') (some r, cx'') ∧
        Panics (fun f => Clog.egest cfg f cy') P) :
    Ends (fun e => Overflow e ∨ e = P)
      (fun f => Number.combine cfg f (.Other px cx) (.Other py cy) nxy nx ny n dxy dx dy d) fun v =>
      ∃ p1 c0, v = .Other p1 c0 ∧
        Ends (fun e => Overflow e ∨ e = P) (fun f => Clog.egests cfg f m c0) fun _ => False :=
  C60_unclear_reads_on hc hx hy hlen (C89_not_clear h1 h2 hs ht hi) hP

/-- As above, when an operand never answers after these symbols: then the `m` symbols of the result are
never answered. -/
theorem C89_waits_at_least (hc : cfg.overflowChecks = true) (h1 : |nxy| + |nx| + |ny| + |n| ≤ S)
    (h2 : |dxy| + |dx| + |dy| + |d| ≤ S) (hx : Gives cfg cx lx cx') (hy : Gives cfg cy ly cy')
    (hlen : lx.length = ly.length) {s t : ℚ} (hs : Begins lx s) (ht : Begins ly t)
    (hi : TooFew nxy nx ny n dxy dx dy d S lx.length m (applyPrimer py t) ∨
      TooFew nxy ny nx n dxy dy dx d S ly.length m (applyPrimer px s))
    (hP : Diverges (fun f => Clog.egest cfg f cx') ∨
      ∃ r cx'', Returns (fun f => Clog.egest cfg f cx') (some r, cx'') ∧
        Diverges (fun f => Clog.egest cfg f cy')) :
    May Overflow (fun f => Number.combine cfg f (.Other px cx) (.Other py cy) nxy nx ny n dxy dx dy d)
      fun v => ∃ p1 c0, v = .Other p1 c0 ∧
        May Overflow (fun f => Clog.egests cfg f m c0) fun _ => False :=
  C60_unclear_waits hc hx hy hlen (C89_not_clear h1 h2 hs ht hi) hP

end

/-! ## In whole numbers -/

theorem C89_simple_bound {nxy nx ny n dxy dx dy d S : Int} {σ b r i m : Nat} {y : ℚ} (hS : |S| ≤ 2 ^ σ)
    (hy : |y| ≤ 2 ^ b)
    (hD : 1 / 2 ^ r ≤ |(nxy * y + nx) * (dy * y + d) - (ny * y + n) * (dxy * y + dx)|)
    (h : 56 * i + 80 * (σ + b) + 40 * r + 64 ≤ 33 * m) :
    TooFew nxy nx ny n dxy dx dy d S i m y := by
  unfold TooFew
  obtain ⟨k1, k2⟩ := C87_constants
  have hG0 : 0 < (3 + √5) / 2 := by positivity
  have hR0 : 0 < 5 + 2 * √6 := by positivity
  generalize (nxy * y + nx) * (dy * y + d) - (ny * y + n) * (dxy * y + dx) = Dy at hD ⊢
  generalize (3 + √5) / 2 = G at k1 hG0 ⊢
  generalize 5 + 2 * √6 = R at k2 hR0 ⊢
  have hM : max 1 |y| ≤ 2 ^ b := max_le (one_le_pow₀ (by norm_num)) hy
  have hM0 : 0 ≤ max 1 |y| := by positivity
  generalize max 1 |y| = M at hM hM0 ⊢
  have rM : (M : ℝ) ≤ 2 ^ b := by exact_mod_cast hM
  have rM0 : (0 : ℝ) ≤ M := by exact_mod_cast hM0
  have rS : |(S : ℝ)| ≤ 2 ^ σ := by exact_mod_cast hS
  have rD : (1 / 2 ^ r : ℝ) ≤ |(Dy : ℝ)| := by
    have : ((1 / 2 ^ r : ℚ) : ℝ) ≤ ((|Dy| : ℚ) : ℝ) := by exact_mod_cast hD
    push_cast at this ⊢; exact this
  have hSM : ((S : ℝ) * M) ^ 2 ≤ (2 ^ (σ + b)) ^ 2 := by
    rw [← sq_abs, abs_mul, abs_of_nonneg rM0, pow_add]
    exact pow_le_pow_left₀ (by positivity) (mul_le_mul rS rM rM0 (by positivity)) 2
  have hQ : 0 ≤ ((S : ℝ) * M) ^ 2 := sq_nonneg _
  generalize ((S : ℝ) * M) ^ 2 = Q at hSM hQ ⊢
  refine lt_of_lt_of_le ?_ (mul_le_mul_of_nonneg_right (pow_le_pow_left₀ (by positivity) rD 4)
    (by positivity))
  rw [div_pow, one_pow, div_mul_eq_mul_div, one_mul, lt_div_iff₀ (by positivity)]
  refine lt_of_pow_lt_pow_left₀ 10 (by positivity) ?_
  have e1 : ((3 * Q * G ^ i) ^ 4 * (2 ^ r) ^ 4) ^ 10 =
      3 ^ 40 * Q ^ 40 * ((G ^ 5) ^ i) ^ 8 * (2 ^ r) ^ 40 := by ring
  have e2 : (R ^ m) ^ 10 = (R ^ 10) ^ m := by ring
  rw [e1, e2]
  have a1 : Q ^ 40 ≤ ((2 ^ (σ + b)) ^ 2) ^ 40 := pow_le_pow_left₀ hQ hSM 40
  have a2 : ((G ^ 5) ^ i) ^ 8 ≤ ((2 ^ 7) ^ i) ^ 8 :=
    pow_le_pow_left₀ (by positivity) (pow_le_pow_left₀ (by positivity) k1 i) 8
  calc (3 : ℝ) ^ 40 * Q ^ 40 * ((G ^ 5) ^ i) ^ 8 * (2 ^ r) ^ 40
      ≤ 3 ^ 40 * ((2 ^ (σ + b)) ^ 2) ^ 40 * ((2 ^ 7) ^ i) ^ 8 * (2 ^ r) ^ 40 :=
        mul_le_mul_of_nonneg_right
          (mul_le_mul (mul_le_mul_of_nonneg_left a1 (by positivity)) a2 (by positivity) (by positivity))
          (by positivity)
    _ < 2 ^ 64 * ((2 ^ (σ + b)) ^ 2) ^ 40 * ((2 ^ 7) ^ i) ^ 8 * (2 ^ r) ^ 40 := by
        refine mul_lt_mul_of_pos_right (mul_lt_mul_of_pos_right
          (mul_lt_mul_of_pos_right (by norm_num) (by positivity)) (by positivity)) (by positivity)
    _ = 2 ^ (56 * i + 80 * (σ + b) + 40 * r + 64) := by
        simp only [← pow_mul, ← pow_add]
        congr 1
        ring
    _ ≤ 2 ^ (33 * m) := pow_le_pow_right₀ (by norm_num) h
    _ = (2 ^ 33) ^ m := by rw [pow_mul]
    _ ≤ (R ^ 10) ^ m := pow_le_pow_left₀ (by norm_num) k2 m

section

variable {cfg : Cfg} {px py p' : Option Primer} {cx cy : Clog} {i i0 m a b k : Nat} {s t x y u : ℚ}

/-- The result to `m` symbols takes more than `i0` and at most `i` symbols of each operand. -/
theorem C89_between (hc : cfg.overflowChecks = true) {nxy nx ny n dxy dx dy d : Int} {σ q r : Nat}
    (h1 : |nxy| + |nx| + |ny| + |n| ≤ 2 ^ σ) (h2 : |dxy| + |dx| + |dy| + |d| ≤ 2 ^ σ)
    (h : TwoOperands cfg px py cx cy i a b s t x y)
    (hd : dxy * x * y + dx * x + dy * y + d ≠ 0)
    (hu : (nxy * x * y + nx * x + ny * y + n) / (dxy * x * y + dx * x + dy * y + d) = applyPrimer p' u)
    (hm : Undisturbed (1 / 2 ^ k) m u)
    (hf : 1 / 2 ^ q * (max 1 |x| * max 1 |y|) ≤
      max |nxy * x * y + nx * x + ny * y + n| |dxy * x * y + dx * x + dy * y + d|)
    (hi : 56 * m + 40 * σ + 40 * q + 40 * k + 149 ≤ 33 * i)
    (hi0 : (1 / 2 ^ r ≤ |(nxy * y + nx) * (dy * y + d) - (ny * y + n) * (dxy * y + dx)| ∧
        56 * i0 + 80 * (σ + b) + 40 * r + 64 ≤ 33 * m) ∨
      (1 / 2 ^ r ≤ |(nxy * x + ny) * (dx * x + d) - (nx * x + n) * (dxy * x + dy)| ∧
        56 * i0 + 80 * (σ + a) + 40 * r + 64 ≤ 33 * m)) :
    Ends Overflow (fun f => Number.combine cfg f (.Other px cx) (.Other py cy) nxy nx ny n dxy dx dy d)
      fun v => ∃ c0, v = .Other p' c0 ∧ Ends Overflow (fun f => Clog.egests cfg f m c0) fun r =>
        r.1 = symbols m u ∧ ∃ j, i0 < j ∧ j ≤ i ∧ ∃ cx1 cy1 k, r.2 = .combine cx1 cy1 k ∧
          Returns (fun f => Clog.egests cfg f j cx) (symbols j s, cx1) ∧
          Returns (fun f => Clog.egests cfg f j cy) (symbols j t, cy1) := by
  obtain ⟨d1, d2, ex, ey, n1, n2, b1, b2⟩ := h
  obtain ⟨lx, cx', hlx, hbx, hgx⟩ := operand_given d1 n1
  obtain ⟨ly, cy', hly, hby, hgy⟩ := operand_given d2 n2
  have hS : |(2 : Int) ^ σ| ≤ 2 ^ σ := by rw [abs_of_pos (by positivity)]
  obtain ⟨out, o1, hcl⟩ := C88_at_most (S := 2 ^ σ) (e := 1 / 2 ^ k) (f := 1 / 2 ^ q) h1 h2 hbx hby ex ey
    hd hu hm (by positivity) hf (C88_simple_bound hS (by rw [hlx]; omega))
    (C88_simple_bound hS (by rw [hly]; omega))
  have hol : out.length = m := by
    have := congrArg List.length o1
    rwa [List.length_map, symbols_len] at this
  refine (C60_clear_is_enough hc hgx hgy (by omega) hcl).mono ?_
  rintro v ⟨c0, rfl, h⟩
  refine ⟨c0, rfl, ?_⟩
  rw [hol] at h
  refine h.mono ?_
  rintro ⟨o, c2⟩ ⟨e0, lx1, lx2, ly1, ly2, cx1, cy1, k, e1, e2, e3, k1, k2, k3, e4⟩
  obtain ⟨p1, p2⟩ := operand_prefix d1 e1 k1
  obtain ⟨p3, p4⟩ := operand_prefix d2 e2 k2
  have hlt : i0 < lx1.length := by
    by_contra hle
    refine C89_not_clear (m := m) h1 h2 (begins_prefix hbx e1) (begins_prefix hby e2) ?_ p' out hol k3
    rw [← ex, ← ey]
    rcases hi0 with ⟨g1, g2⟩ | ⟨g1, g2⟩
    · exact .inl (C89_simple_bound hS b2 g1 (by omega))
    · exact .inr (C89_simple_bound hS b1 g1 (by omega))
  exact ⟨by simp only at e0 ⊢; rw [e0, o1], lx1.length, hlt, by omega, cx1, cy1, k, e4, p2,
    by rw [e3]; exact p4⟩

/-- The sum of two numbers up to `2^a` and `2^b`, to `m` symbols, takes more than `i0` and at most `i` symbols of
each. -/
theorem C89_sum (hc : cfg.overflowChecks = true) (h : TwoOperands cfg px py cx cy i a b s t x y)
    (hu : x + y = applyPrimer p' u) (hm : Undisturbed (1 / 2 ^ k) m u)
    (hi : 56 * m + 40 * (a + b) + 40 * k + 189 ≤ 33 * i)
    (hi0 : 56 * i0 + 80 * a + 144 ≤ 33 * m ∨ 56 * i0 + 80 * b + 144 ≤ 33 * m) :
    Ends Overflow (fun f => Number.combine cfg f (.Other px cx) (.Other py cy) 0 1 1 0 0 0 0 1)
      fun v => ∃ c0, v = .Other p' c0 ∧ Ends Overflow (fun f => Clog.egests cfg f m c0) fun r =>
        r.1 = symbols m u ∧ ∃ j, i0 < j ∧ j ≤ i ∧ ∃ cx1 cy1 k, r.2 = .combine cx1 cy1 k ∧
          Returns (fun f => Clog.egests cfg f j cx) (symbols j s, cx1) ∧
          Returns (fun f => Clog.egests cfg f j cy) (symbols j t, cy1) := by
  have hden : ((0 : Int) : ℚ) * x * y + ((0 : Int) : ℚ) * x + ((0 : Int) : ℚ) * y + ((1 : Int) : ℚ) = 1 := by
    push_cast; ring
  refine C89_between (σ := 1) (q := a + b) hc (by decide) (by decide) h (by rw [hden]; norm_num)
    (by rw [hden, div_one, ← hu]; push_cast; ring) hm
    (by rw [hden]; exact size_of_operands h.2.2.2.2.2.2.1 h.2.2.2.2.2.2.2 _) (by omega) ?_ (r := 0)
  rcases hi0 with hi0 | hi0
  · exact .inr ⟨by push_cast; norm_num, by omega⟩
  · exact .inl ⟨by push_cast; norm_num, by omega⟩

/-- As above, for the difference. -/
theorem C89_difference (hc : cfg.overflowChecks = true) (h : TwoOperands cfg px py cx cy i a b s t x y)
    (hu : x - y = applyPrimer p' u) (hm : Undisturbed (1 / 2 ^ k) m u)
    (hi : 56 * m + 40 * (a + b) + 40 * k + 189 ≤ 33 * i)
    (hi0 : 56 * i0 + 80 * a + 144 ≤ 33 * m ∨ 56 * i0 + 80 * b + 144 ≤ 33 * m) :
    Ends Overflow (fun f => Number.combine cfg f (.Other px cx) (.Other py cy) 0 1 (-1) 0 0 0 0 1)
      fun v => ∃ c0, v = .Other p' c0 ∧ Ends Overflow (fun f => Clog.egests cfg f m c0) fun r =>
        r.1 = symbols m u ∧ ∃ j, i0 < j ∧ j ≤ i ∧ ∃ cx1 cy1 k, r.2 = .combine cx1 cy1 k ∧
          Returns (fun f => Clog.egests cfg f j cx) (symbols j s, cx1) ∧
          Returns (fun f => Clog.egests cfg f j cy) (symbols j t, cy1) := by
  have hden : ((0 : Int) : ℚ) * x * y + ((0 : Int) : ℚ) * x + ((0 : Int) : ℚ) * y + ((1 : Int) : ℚ) = 1 := by
    push_cast; ring
  refine C89_between (σ := 1) (q := a + b) hc (by decide) (by decide) h (by rw [hden]; norm_num)
    (by rw [hden, div_one, ← hu]; push_cast; ring) hm
    (by rw [hden]; exact size_of_operands h.2.2.2.2.2.2.1 h.2.2.2.2.2.2.2 _) (by omega) ?_ (r := 0)
  rcases hi0 with hi0 | hi0
  · exact .inr ⟨by push_cast; norm_num, by omega⟩
  · exact .inl ⟨by push_cast; norm_num, by omega⟩

/-- As above, for the product, when one of the operands is at least `1/2^r` in magnitude. -/
theorem C89_product (hc : cfg.overflowChecks = true) (h : TwoOperands cfg px py cx cy i a b s t x y)
    {r : Nat} (hu : x * y = applyPrimer p' u) (hm : Undisturbed (1 / 2 ^ k) m u)
    (hi : 56 * m + 40 * (a + b) + 40 * k + 149 ≤ 33 * i)
    (hi0 : (1 / 2 ^ r ≤ |x| ∧ 56 * i0 + 80 * a + 40 * r + 64 ≤ 33 * m) ∨
      (1 / 2 ^ r ≤ |y| ∧ 56 * i0 + 80 * b + 40 * r + 64 ≤ 33 * m)) :
    Ends Overflow (fun f => Number.combine cfg f (.Other px cx) (.Other py cy) 1 0 0 0 0 0 0 1)
      fun v => ∃ c0, v = .Other p' c0 ∧ Ends Overflow (fun f => Clog.egests cfg f m c0) fun r =>
        r.1 = symbols m u ∧ ∃ j, i0 < j ∧ j ≤ i ∧ ∃ cx1 cy1 k, r.2 = .combine cx1 cy1 k ∧
          Returns (fun f => Clog.egests cfg f j cx) (symbols j s, cx1) ∧
          Returns (fun f => Clog.egests cfg f j cy) (symbols j t, cy1) := by
  have hden : ((0 : Int) : ℚ) * x * y + ((0 : Int) : ℚ) * x + ((0 : Int) : ℚ) * y + ((1 : Int) : ℚ) = 1 := by
    push_cast; ring
  refine C89_between (σ := 0) (q := a + b) hc (by decide) (by decide) h (by rw [hden]; norm_num)
    (by rw [hden, div_one, ← hu]; push_cast; ring) hm
    (by rw [hden]; exact size_of_operands h.2.2.2.2.2.2.1 h.2.2.2.2.2.2.2 _) (by omega) ?_ (r := r)
  rcases hi0 with ⟨g1, g2⟩ | ⟨g1, g2⟩
  · exact .inr ⟨by push_cast; ring_nf; ring_nf at g1; exact g1, by omega⟩
  · exact .inl ⟨by push_cast; ring_nf; ring_nf at g1; exact g1, by omega⟩

/-- As above, for the quotient, when the divisor is at least `1/2^r` in magnitude. -/
theorem C89_quotient (hc : cfg.overflowChecks = true) (h : TwoOperands cfg px py cx cy i a b s t x y)
    {r : Nat} (hy : 1 / 2 ^ r ≤ |y|) (hu : x / y = applyPrimer p' u) (hm : Undisturbed (1 / 2 ^ k) m u)
    (hi : 56 * m + 40 * (a + b + r) + 40 * k + 149 ≤ 33 * i)
    (hi0 : 56 * i0 + 80 * b + 40 * r + 64 ≤ 33 * m) :
    Ends Overflow (fun f => Number.combine cfg f (.Other px cx) (.Other py cy) 0 1 0 0 0 0 1 0)
      fun v => ∃ c0, v = .Other p' c0 ∧ Ends Overflow (fun f => Clog.egests cfg f m c0) fun r =>
        r.1 = symbols m u ∧ ∃ j, i0 < j ∧ j ≤ i ∧ ∃ cx1 cy1 k, r.2 = .combine cx1 cy1 k ∧
          Returns (fun f => Clog.egests cfg f j cx) (symbols j s, cx1) ∧
          Returns (fun f => Clog.egests cfg f j cy) (symbols j t, cy1) := by
  have hden : ((0 : Int) : ℚ) * x * y + ((0 : Int) : ℚ) * x + ((1 : Int) : ℚ) * y + ((0 : Int) : ℚ) = y := by
    push_cast; ring
  have hnum : ((0 : Int) : ℚ) * x * y + ((1 : Int) : ℚ) * x + ((0 : Int) : ℚ) * y + ((0 : Int) : ℚ) = x := by
    push_cast; ring
  have hy0 : y ≠ 0 := abs_pos.1 (lt_of_lt_of_le (by positivity) hy)
  refine C89_between (σ := 0) (q := a + b + r) (r := r) hc (by decide) (by decide) h (by rw [hden]; exact hy0)
    (by rw [hden, hnum, hu]) hm ?_ (by omega) (.inl ⟨?_, by omega⟩)
  · rw [hden, hnum]
    refine le_trans ?_ (le_max_right _ _)
    refine le_trans ?_ hy
    have := size_of_operands h.2.2.2.2.2.2.1 h.2.2.2.2.2.2.2 0
    rw [abs_zero, abs_one, max_eq_right zero_le_one] at this
    calc 1 / 2 ^ (a + b + r) * (max 1 |x| * max 1 |y|)
        = 1 / 2 ^ r * (1 / 2 ^ (a + b) * (max 1 |x| * max 1 |y|)) := by
          rw [pow_add _ (a + b) r, one_div_mul_eq_div, one_div_mul_eq_div, one_div_mul_eq_div, div_div]
      _ ≤ 1 / 2 ^ r * 1 := mul_le_mul_of_nonneg_left this (by positivity)
      _ = _ := mul_one _
  · push_cast; ring_nf; ring_nf at hy; exact hy

end

/-! ## Examples -/

private theorem operands : TwoOperands debug64 none none (.ratio ⟨4555390, 9815116⟩)
    (.ratio ⟨8125, 10811⟩) 30 0 0 (4555390 / 9815116) (8125 / 10811) (4555390 / 9815116)
    (8125 / 10811) :=
  ⟨Ratio.denotes (r := ⟨4555390, 9815116⟩) ⟨by decide, by decide, by decide⟩,
    Ratio.denotes (r := ⟨8125, 10811⟩) ⟨by decide, by decide, by decide⟩, rfl, rfl,
    by decide +kernel, by decide +kernel, by norm_num [abs_of_pos], by norm_num [abs_of_pos]⟩

/-- Ten symbols of a sum, a difference, a product and a quotient from more than 3 and at most 30 symbols of
the operands. -/
example := C89_sum (p' := some .Turn) (u := 53055609538 / 64498069395) (k := 4) (m := 10) (i0 := 3) rfl
  operands (by norm_num [applyPrimer]) ⟨by norm_num, by norm_num, by norm_num, by decide +kernel⟩
  (by decide) (.inl (by decide))

example := C89_difference (p' := some .Reflect) (u := 15249748105 / 53055609538) (k := 4) (m := 10)
  (i0 := 3) rfl operands (by norm_num [applyPrimer])
  ⟨by norm_num, by norm_num, by norm_num, by decide +kernel⟩ (by decide) (.inr (by decide))

example := C89_product (p' := none) (u := 18506271875 / 53055609538) (k := 4) (m := 10) (r := 1) (i0 := 4)
  rfl operands (by norm_num [applyPrimer]) ⟨by norm_num, by norm_num, by norm_num, by decide +kernel⟩
  (by decide) (.inr ⟨by norm_num [abs_of_pos], by decide⟩)

example := C89_quotient (p' := none) (u := 4924832129 / 7974781750) (k := 6) (m := 10) (r := 1) (i0 := 4)
  rfl operands (by norm_num [abs_of_pos]) (by norm_num [applyPrimer])
  ⟨by norm_num, by norm_num, by norm_num, by decide +kernel⟩ (by decide) (by decide)

example := C89_between (nxy := 0) (nx := 1) (ny := 1) (n := 0) (dxy := 0) (dx := 0) (dy := 0) (d := 1)
  (σ := 1) (q := 0) (r := 0) (i0 := 3) (p' := some .Turn) (u := 53055609538 / 64498069395) (k := 4)
  (m := 10) rfl (by decide) (by decide) operands (by norm_num) (by norm_num [applyPrimer])
  ⟨by norm_num, by norm_num, by norm_num, by decide +kernel⟩ (by norm_num [abs_of_pos]) (by decide)
  (.inl ⟨by norm_num, by decide⟩)

private theorem fifteen_begin : Begins fifteen (4555390 / 9815116) ∧ Begins fifteen' (8125 / 10811) := by
  refine ⟨⟨by norm_num, by norm_num, ?_⟩, ⟨by norm_num, by norm_num, ?_⟩⟩ <;> decide +kernel

private theorem fifteen_clear : ∃ out : List Reduction, out.map some = symbols 3 (18506271875 / 53055609538) ∧
    ClearlySettled none none 1 0 0 0 0 0 0 1 fifteen fifteen' none out :=
  C88_at_most (S := 1) (f := 1 / 2 ^ 0) (e := 1 / 2 ^ 4) (by decide) (by decide)
    fifteen_begin.1 fifteen_begin.2 rfl rfl (by norm_num) (by norm_num [applyPrimer])
    ⟨by norm_num, by norm_num, by norm_num, by decide +kernel⟩ (by norm_num)
    (by norm_num [applyPrimer, abs_of_pos]) (C88_simple_bound (s := 0) (by decide) (by decide))
    (C88_simple_bound (s := 0) (by decide) (by decide))

example := C89_at_least (S := 1) (by decide) (by decide) fifteen_clear.choose_spec.2 fifteen_begin.2 rfl

/-- From 15 symbols of the operands no more than 28 of the product can be had. -/
example (p' : Option Primer) (out : List Reduction) (h : out.length = 29) :
    ¬ClearlySettled none none 1 0 0 0 0 0 0 1 fifteen fifteen' p' out :=
  C89_not_clear (S := 1) (by decide) (by decide) fifteen_begin.1 fifteen_begin.2
    (.inl (C89_simple_bound (σ := 0) (b := 0) (r := 1) (i := 15) (by decide)
      (by norm_num [applyPrimer, abs_of_pos]) (by norm_num [applyPrimer, abs_of_pos]) (by decide))) p' out h

private theorem amplify_62 : Begins (List.replicate 62 .Amplify) (1 / 9223372036854775807) := by
  refine ⟨by norm_num, by norm_num, ?_⟩
  decide +kernel

/-- `ratio(isize::MAX, 1) + 1` gives 62 symbols and panics: so of the sum of its inverse and another number
there are never 110 symbols. -/
example := C89_reads_at_least (cfg := debug64) (px := none) (py := none) (nxy := 0) (nx := 1) (ny := 1)
  (n := 0) (dxy := 0) (dx := 0) (dy := 0) (d := 1) (S := 2) (m := 110) (P := .unwrapNone)
  (cx := .homographic (.ratio ⟨1, 9223372036854775807⟩) ⟨1, 0, 1, 1⟩)
  (cx' := .homographic (.ratio ⟨4611686018427387904, 9223372036854775807⟩)
      ⟨4611686018427387904, 0, 1, 4611686018427387904⟩)
  (cy := .ratio ⟨1, 9223372036854775807⟩)
  (cy' := .ratio ⟨4611686018427387904, 9223372036854775807⟩) rfl (by decide) (by decide)
  (FuelMono.returns (Clog.egests_mono _ _ _) 100 (by decide +kernel))
  (FuelMono.returns (Clog.egests_mono _ _ _) 100 (by decide +kernel)) rfl amplify_62 amplify_62
  (.inl (C89_simple_bound (σ := 1) (b := 0) (r := 0) (i := (List.replicate 62 Reduction.Amplify).length)
    (by decide) (by norm_num [applyPrimer, abs_of_pos]) (by norm_num) (by decide)))
  (.inl (FuelMono.panics (Clog.egest_mono _ _) 5 (by decide +kernel)))

/-- A clog that never answers, as in C59: five symbols of its sum with another number are never given. -/
example (cy : Clog) := C89_waits_at_least (cfg := debug64) (px := none) (py := none) (nxy := 0) (nx := 1)
  (ny := 1) (n := 0) (dxy := 0) (dx := 0) (dy := 0) (d := 1) (S := 2) (m := 5) (lx := []) (ly := [])
  (cy := cy) (s := 1 / 3) (t := 1 / 3) rfl (by decide) (by decide) ⟨0, fun _ _ => rfl⟩ ⟨0, fun _ _ => rfl⟩
  rfl ⟨by norm_num, by norm_num, rfl⟩ ⟨by norm_num, by norm_num, rfl⟩
  (.inl (C89_simple_bound (σ := 1) (b := 0) (r := 0) (i := 0) (by decide)
    (by norm_num [applyPrimer, abs_of_pos]) (by norm_num) (by decide)))
  (.inl endless)

end Clarith
