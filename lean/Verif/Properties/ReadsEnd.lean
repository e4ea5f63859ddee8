import Verif.Proofs.ReadsEnd
import Verif.Properties.LookaheadAtLeast

/-! # C90 What `Number::combine` reads when one of its operands ends

C60, C88 and C89 are about operands that go on.  Here one of the operands ends: it answers `None` after
finitely many symbols, as every fraction does.  From then on its value is known exactly, and `combine` goes
on as `homographic` on the other operand: the primer and the first symbols of the result come out as soon as
they are the same for all values the other operand can still have.  Nothing more of it is read. -/

namespace Clarith

open Spec Out

/-! ## Specification -/

/-- For the operand `a`, and all second operands with primer `p` whose symbols begin with `l`, the value of
the map is a number with primer `p'` whose first `m` symbols are `out`. -/
def Spec.SettledBeside (a : ℚ) (nxy nx ny n dxy dx dy d : Int) (p : Option Primer)
    (l : List Reduction) (p' : Option Primer) (m : Nat) (out : List (Option Reduction)) : Prop :=
  ∀ t y, Begins l t → y = applyPrimer p t → dxy * a * y + dx * a + dy * y + d ≠ 0 ∧
    ∃ u, 0 < u ∧ u < 1 ∧
      (nxy * a * y + nx * a + ny * y + n) / (dxy * a * y + dx * a + dy * y + d) = applyPrimer p' u ∧
      symbols m u = out

/-- The values the map can still have are bounded. -/
def Spec.BoundedBeside (a : ℚ) (nxy nx ny n dxy dx dy d : Int) (p : Option Primer)
    (l : List Reduction) : Prop :=
  ∃ B : ℚ, ∀ t y, Begins l t → y = applyPrimer p t →
    |(nxy * a * y + nx * a + ny * y + n) / (dxy * a * y + dx * a + dy * y + d)| ≤ B

/-! ## Proof -/

theorem expands_unread {s : ℚ} {l : List Reduction} (h : Expands s l) : s = unread l (1 / 2) := by
  induction h with
  | half => rfl
  | amplify h0 h1 _ ih => rw [unread, ← ih, unread1]; ring
  | uncover h0 h1 _ ih => rw [unread, ← ih, unread1, add_sub_cancel, one_div_one_div]

theorem unread_inj (l : List Reduction) {s s' : ℚ} (h0 : 0 < s) (h1 : s < 1) (h0' : 0 < s')
    (h1' : s' < 1) (h : unread l s = unread l s') : s = s' := by
  induction l with
  | nil => exact h
  | cons r l ih =>
    have a := unread_mem l h0 h1
    have b := unread_mem l h0' h1'
    have e := (sym_unread1 r a.1 a.2).2
    have e' := (sym_unread1 r b.1 b.2).2
    simp only [unread] at h
    rw [h, e'] at e
    exact ih e.symm

section
variable {cfg : Cfg}

theorem way_x {lx ly l : List Reduction} {cx cx' e cy z : Clog} (hx : Gives cfg cx lx cx')
    (he : Returns (fun f => Clog.egest cfg f cx') (none, e)) (hy : Gives cfg cy ly z)
    (hlen : lx.length = ly.length) :
    Way cfg z l lx ly cx cy (fun _ => unread lx (1 / 2)) (fun s => unread ly (unread l s)) := by
  induction lx generalizing ly cx cy with
  | nil =>
    obtain rfl : ly = [] := List.length_eq_zero_iff.1 hlen.symm
    rw [Gives.nil_eq hx] at he
    rw [Gives.nil_eq hy]
    exact .endX he
  | cons r lx ih =>
    cases ly with
    | nil => cases hlen
    | cons r' ly =>
      obtain ⟨x1, h1, h2⟩ := Gives.uncons hx
      obtain ⟨y1, h3, h4⟩ := Gives.uncons hy
      exact .pair h1 h3 (ih h2 h4 (by simpa using hlen))

theorem way_y {lx ly l : List Reduction} {cx e cy cy' z : Clog} (hx : Gives cfg cx lx z)
    (hy : Gives cfg cy ly cy') (he : Returns (fun f => Clog.egest cfg f cy') (none, e))
    (hlen : lx.length = ly.length + 1) :
    Way cfg z l lx ly cx cy (fun s => unread lx (unread l s)) (fun _ => unread ly (1 / 2)) := by
  induction ly generalizing lx cx cy with
  | nil =>
    obtain ⟨r, rfl⟩ := List.length_eq_one_iff.1 hlen
    obtain ⟨x1, h1, h2⟩ := Gives.uncons hx
    rw [Gives.nil_eq hy] at he
    rw [Gives.nil_eq h2] at *
    exact .endY h1 he
  | cons r ly ih =>
    cases lx with
    | nil => cases hlen
    | cons r' lx =>
      obtain ⟨x1, h1, h2⟩ := Gives.uncons hx
      obtain ⟨y1, h3, h4⟩ := Gives.uncons hy
      exact .pair h1 h3 (ih h2 h4 (by simpa using hlen))

theorem Gives.split {c e : Clog} {l l' : List Reduction} (h : Gives cfg c (l ++ l') e) :
    ∃ d, Gives cfg c l d ∧ Gives cfg d l' e := by
  induction l generalizing c with
  | nil => exact ⟨c, Gives.nil c, h⟩
  | cons r l ih =>
    obtain ⟨c1, h1, h2⟩ := Gives.uncons h
    obtain ⟨d, h3, h4⟩ := ih h2
    exact ⟨d, Gives.cons h1 h3, h4⟩

/-- The value of the map determines the second operand. -/
theorem beside_inj {a : ℚ} {nxy nx ny n dxy dx dy d : Int} {p : Option Primer}
    (hdet : (nxy * a + ny) * (dx * a + d) - (nx * a + n) * (dxy * a + dy) ≠ 0) {t t' : ℚ} (t0 : 0 < t)
    (t1 : t < 1) (t0' : 0 < t') (t1' : t' < 1)
    (hd : dxy * a * applyPrimer p t + dx * a + dy * applyPrimer p t + d ≠ 0)
    (hd' : dxy * a * applyPrimer p t' + dx * a + dy * applyPrimer p t' + d ≠ 0)
    (h : (nxy * a * applyPrimer p t + nx * a + ny * applyPrimer p t + n) /
        (dxy * a * applyPrimer p t + dx * a + dy * applyPrimer p t + d) =
      (nxy * a * applyPrimer p t' + nx * a + ny * applyPrimer p t' + n) /
        (dxy * a * applyPrimer p t' + dx * a + dy * applyPrimer p t' + d)) : t = t' := by
  rw [div_eq_div_iff hd hd'] at h
  have : ((nxy * a + ny) * (dx * a + d) - (nx * a + n) * (dxy * a + dy)) *
      (applyPrimer p t - applyPrimer p t') = 0 := by linear_combination h
  rcases mul_eq_zero.1 this with h | h
  · exact (hdet h).elim
  · exact (applyPrimer_inj t0 t1 t0' t1' (sub_eq_zero.1 h)).2

variable {px py p' : Option Primer} {cx cx' cy cy' ce : Clog} {nxy nx ny n dxy dx dy d : Int}
  {lx ly l : List Reduction} {m : Nat} {out : List (Option Reduction)} {s : ℚ}

private theorem size_pos {a b c e M : Int} (h : |a| + |b| + |c| + |e| ≤ M)
    (hne : ¬(a = 0 ∧ b = 0 ∧ c = 0 ∧ e = 0)) : 1 ≤ M := by
  have a1 := abs_nonneg a
  have a2 := abs_nonneg b
  have a3 := abs_nonneg c
  have a4 := abs_nonneg e
  by_contra hM
  exact hne ⟨abs_eq_zero.1 (by omega), abs_eq_zero.1 (by omega), abs_eq_zero.1 (by omega),
    abs_eq_zero.1 (by omega)⟩

theorem x_ends {A : Panic → Prop} {M : Int}
    (hM : Combine.Sums ⟨nxy, nx, ny, n, dxy, dx, dy, d⟩ M)
    (hsafe : cfg.SafeUpTo A (8 * M * 4 ^ lx.length * 2 ^ l.length)) (hmiss : ¬A .unwrapMissing)
    (hx : Gives cfg cx lx cx')
    (he : Returns (fun f => Clog.egest cfg f cx') (none, ce)) (ha : Expands s lx)
    (hy : Gives cfg cy (ly ++ l) cy') (hlen : lx.length = ly.length)
    (hdet : (nxy * applyPrimer px s + ny) * (dx * applyPrimer px s + d) -
      (nx * applyPrimer px s + n) * (dxy * applyPrimer px s + dy) ≠ 0)
    (hs : SettledBeside (applyPrimer px s) nxy nx ny n dxy dx dy d py (ly ++ l) p' m out)
    (hB : BoundedBeside (applyPrimer px s) nxy nx ny n dxy dx dy d py (ly ++ l)) :
    Ends A
      (fun f => Number.combine cfg f (.Other px cx) (.Other py cy) nxy nx ny n dxy dx dy d) fun v =>
      ∃ c0, v = .Other p' c0 ∧ Ends A (fun f => Clog.egests cfg f m c0) fun r =>
        r.1 = out ∧
          ((∃ lx1 lx2 ly1 ly2 cx1 cy1 k, lx = lx1 ++ lx2 ∧ ly = ly1 ++ ly2 ∧ lx1.length = ly1.length ∧
            Gives cfg cx lx1 cx1 ∧ Gives cfg cy ly1 cy1 ∧ r.2 = .combine cx1 cy1 k) ∨
          ∃ l1 l2 cy1 k, l = l1 ++ l2 ∧ Gives cfg cy (ly ++ l1) cy1 ∧ r.2 = .homographic cy1 k) := by
  obtain ⟨z, hz1, hz2⟩ := Gives.split hy
  have hw := way_x (l := l) hx he hz1 hlen
  have hbeg : ∀ t, 0 < t → t < 1 → Begins (ly ++ l) (unread ly (unread l t)) := fun t t0 t1 =>
    (symbols_iff_unread _ _).2 ⟨t, t0, t1, (unread_append ly l t).symm⟩
  rw [expands_unread ha] at hdet hs hB
  refine (combine_way (k := ⟨nxy, nx, ny, n, dxy, dx, dy, d⟩) (p' := p') (m := m) (out := out)
    hsafe hmiss hz2 hw hM le_rfl ?_ ?_ ?_).mono ?_
  · exact fun t t0 t1 => hs _ _ (hbeg t t0 t1) rfl
  · intro a b a0 a1 b0 b1 e
    have ma := (hbeg a a0 a1)
    have mb := (hbeg b b0 b1)
    have := beside_inj hdet ma.1 ma.2.1 mb.1 mb.2.1 (hs _ _ ma rfl).1 (hs _ _ mb rfl).1 e
    rw [← unread_append, ← unread_append] at this
    exact unread_inj _ a0 a1 b0 b1 this
  · obtain ⟨B, hB⟩ := hB
    exact ⟨B, fun t t0 t1 => hB _ _ (hbeg t t0 t1) rfl⟩
  · rintro v ⟨c0, rfl, h⟩
    refine ⟨c0, rfl, h.mono ?_⟩
    rintro r ⟨h1, ⟨lx2, ly2, x1, y1, k, ⟨lx1, ly1, e1, e2, e3, g1, g2⟩, h2⟩ |
      ⟨l1, l2, z1, k, e1, g1, h2⟩⟩
    · exact ⟨h1, .inl ⟨lx1, lx2, ly1, ly2, x1, y1, k, e1, e2, e3, g1, g2, h2⟩⟩
    · exact ⟨h1, .inr ⟨l1, l2, z1, k, e1, Gives.trans hz1 g1, h2⟩⟩

theorem y_ends {A : Panic → Prop} {M : Int}
    (hM : Combine.Sums ⟨nxy, nx, ny, n, dxy, dx, dy, d⟩ M)
    (hsafe : cfg.SafeUpTo A (8 * M * 4 ^ lx.length * 2 ^ l.length)) (hmiss : ¬A .unwrapMissing)
    (hx : Gives cfg cx (lx ++ l) cx')
    (hy : Gives cfg cy ly cy') (he : Returns (fun f => Clog.egest cfg f cy') (none, ce))
    (ha : Expands s ly) (hlen : lx.length = ly.length + 1)
    (hdet : (nxy * applyPrimer py s + nx) * (dy * applyPrimer py s + d) -
      (ny * applyPrimer py s + n) * (dxy * applyPrimer py s + dx) ≠ 0)
    (hs : SettledBeside (applyPrimer py s) nxy ny nx n dxy dy dx d px (lx ++ l) p' m out)
    (hB : BoundedBeside (applyPrimer py s) nxy ny nx n dxy dy dx d px (lx ++ l)) :
    Ends A
      (fun f => Number.combine cfg f (.Other px cx) (.Other py cy) nxy nx ny n dxy dx dy d) fun v =>
      ∃ c0, v = .Other p' c0 ∧ Ends A (fun f => Clog.egests cfg f m c0) fun r =>
        r.1 = out ∧
          ((∃ lx1 lx2 ly1 ly2 cx1 cy1 k, lx = lx1 ++ lx2 ∧ ly = ly1 ++ ly2 ∧ lx1.length = ly1.length ∧
            Gives cfg cx lx1 cx1 ∧ Gives cfg cy ly1 cy1 ∧ r.2 = .combine cx1 cy1 k) ∨
          ∃ l1 l2 cx1 k, l = l1 ++ l2 ∧ Gives cfg cx (lx ++ l1) cx1 ∧ r.2 = .homographic cx1 k) := by
  obtain ⟨z, hz1, hz2⟩ := Gives.split hx
  have hw := way_y (l := l) hz1 hy he hlen
  have hbeg : ∀ t, 0 < t → t < 1 → Begins (lx ++ l) (unread lx (unread l t)) := fun t t0 t1 =>
    (symbols_iff_unread _ _).2 ⟨t, t0, t1, (unread_append lx l t).symm⟩
  rw [expands_unread ha] at hdet hs hB
  have num : ∀ u v : ℚ, Coef8.numAt ⟨nxy, nx, ny, n, dxy, dx, dy, d⟩ u v =
      nxy * v * u + ny * v + nx * u + n := fun u v => by simp only [Coef8.numAt]; ring
  have den : ∀ u v : ℚ, Coef8.denAt ⟨nxy, nx, ny, n, dxy, dx, dy, d⟩ u v =
      dxy * v * u + dy * v + dx * u + d := fun u v => by simp only [Coef8.denAt]; ring
  refine (combine_way (k := ⟨nxy, nx, ny, n, dxy, dx, dy, d⟩) (p' := p') (m := m) (out := out)
    hsafe hmiss hz2 hw hM le_rfl ?_ ?_ ?_).mono ?_
  · intro t t0 t1
    rw [Coef8.val, num, den]
    exact hs _ _ (hbeg t t0 t1) rfl
  · intro a b a0 a1 b0 b1 e
    rw [Coef8.val, Coef8.val, num, den, num, den] at e
    have ma := (hbeg a a0 a1)
    have mb := (hbeg b b0 b1)
    have := beside_inj hdet ma.1 ma.2.1 mb.1 mb.2.1 (hs _ _ ma rfl).1 (hs _ _ mb rfl).1 e
    rw [← unread_append, ← unread_append] at this
    exact unread_inj _ a0 a1 b0 b1 this
  · obtain ⟨B, hB⟩ := hB
    refine ⟨B, fun t t0 t1 => ?_⟩
    rw [Coef8.val, num, den]
    exact hB _ _ (hbeg t t0 t1) rfl
  · rintro v ⟨c0, rfl, h⟩
    refine ⟨c0, rfl, h.mono ?_⟩
    rintro r ⟨h1, ⟨lx2, ly2, x1, y1, k, ⟨lx1, ly1, e1, e2, e3, g1, g2⟩, h2⟩ |
      ⟨l1, l2, z1, k, e1, g1, h2⟩⟩
    · exact ⟨h1, .inl ⟨lx1, lx2, ly1, ly2, x1, y1, k, e1, e2, e3, g1, g2, h2⟩⟩
    · exact ⟨h1, .inr ⟨l1, l2, z1, k, e1, Gives.trans hz1 g1, h2⟩⟩

/-! ## Theorems -/

/-- When `x` ends after the symbols `lx`, so that it is the number `a` with these symbols, and the symbols
`ly ++ l` of `y` settle the primer and the first `m` symbols of the result beside `a`: then `combine` and
`m` calls of `egest` on the result give them (or a number is too large), and no more of `y` has been read:
the result holds `y` after a beginning of `ly ++ l`. -/
theorem C90_x_ends (hc : cfg.overflowChecks = true) (hx : Gives cfg cx lx cx')
    (he : Returns (fun f => Clog.egest cfg f cx') (none, ce)) (ha : Expands s lx)
    (hy : Gives cfg cy (ly ++ l) cy') (hlen : lx.length = ly.length)
    (hdet : (nxy * applyPrimer px s + ny) * (dx * applyPrimer px s + d) -
      (nx * applyPrimer px s + n) * (dxy * applyPrimer px s + dy) ≠ 0)
    (hs : SettledBeside (applyPrimer px s) nxy nx ny n dxy dx dy d py (ly ++ l) p' m out)
    (hB : BoundedBeside (applyPrimer px s) nxy nx ny n dxy dx dy d py (ly ++ l)) :
    Ends Overflow
      (fun f => Number.combine cfg f (.Other px cx) (.Other py cy) nxy nx ny n dxy dx dy d) fun v =>
      ∃ c0, v = .Other p' c0 ∧ Ends Overflow (fun f => Clog.egests cfg f m c0) fun r =>
        r.1 = out ∧
          ((∃ lx1 lx2 ly1 ly2 cx1 cy1 k, lx = lx1 ++ lx2 ∧ ly = ly1 ++ ly2 ∧ lx1.length = ly1.length ∧
            Gives cfg cx lx1 cx1 ∧ Gives cfg cy ly1 cy1 ∧ r.2 = .combine cx1 cy1 k) ∨
          ∃ l1 l2 cy1 k, l = l1 ++ l2 ∧ Gives cfg cy (ly ++ l1) cy1 ∧ r.2 = .homographic cy1 k) := by
  obtain ⟨M, hM⟩ := Combine.exists_sums ⟨nxy, nx, ny, n, dxy, dx, dy, d⟩
  exact x_ends hM (safeUpTo_overflow hc _) (by rintro (h | h) <;> cases h) hx he ha hy hlen hdet hs hB

/-- The same when `y` ends: it is the number with the symbols `ly`, and `x` has given one symbol more when
this is found out. -/
theorem C90_y_ends (hc : cfg.overflowChecks = true) (hx : Gives cfg cx (lx ++ l) cx')
    (hy : Gives cfg cy ly cy') (he : Returns (fun f => Clog.egest cfg f cy') (none, ce))
    (ha : Expands s ly) (hlen : lx.length = ly.length + 1)
    (hdet : (nxy * applyPrimer py s + nx) * (dy * applyPrimer py s + d) -
      (ny * applyPrimer py s + n) * (dxy * applyPrimer py s + dx) ≠ 0)
    (hs : SettledBeside (applyPrimer py s) nxy ny nx n dxy dy dx d px (lx ++ l) p' m out)
    (hB : BoundedBeside (applyPrimer py s) nxy ny nx n dxy dy dx d px (lx ++ l)) :
    Ends Overflow
      (fun f => Number.combine cfg f (.Other px cx) (.Other py cy) nxy nx ny n dxy dx dy d) fun v =>
      ∃ c0, v = .Other p' c0 ∧ Ends Overflow (fun f => Clog.egests cfg f m c0) fun r =>
        r.1 = out ∧
          ((∃ lx1 lx2 ly1 ly2 cx1 cy1 k, lx = lx1 ++ lx2 ∧ ly = ly1 ++ ly2 ∧ lx1.length = ly1.length ∧
            Gives cfg cx lx1 cx1 ∧ Gives cfg cy ly1 cy1 ∧ r.2 = .combine cx1 cy1 k) ∨
          ∃ l1 l2 cx1 k, l = l1 ++ l2 ∧ Gives cfg cx (lx ++ l1) cx1 ∧ r.2 = .homographic cx1 k) := by
  obtain ⟨M, hM⟩ := Combine.exists_sums ⟨nxy, nx, ny, n, dxy, dx, dy, d⟩
  exact y_ends hM (safeUpTo_overflow hc _) (by rintro (h | h) <;> cases h) hx hy he ha hlen hdet hs hB

/-- No overflow while few symbols are needed: the same in every build. -/
theorem C90_x_returns {M : Int} (h1 : |nxy| + |nx| + |ny| + |n| ≤ M)
    (h2 : |dxy| + |dx| + |dy| + |d| ≤ M) (hM : (8 * M * 4 ^ lx.length * 2 ^ l.length) ^ 2 ≤ cfg.imax)
    (hx : Gives cfg cx lx cx')
    (he : Returns (fun f => Clog.egest cfg f cx') (none, ce)) (ha : Expands s lx)
    (hy : Gives cfg cy (ly ++ l) cy') (hlen : lx.length = ly.length)
    (hdet : (nxy * applyPrimer px s + ny) * (dx * applyPrimer px s + d) -
      (nx * applyPrimer px s + n) * (dxy * applyPrimer px s + dy) ≠ 0)
    (hs : SettledBeside (applyPrimer px s) nxy nx ny n dxy dx dy d py (ly ++ l) p' m out)
    (hB : BoundedBeside (applyPrimer px s) nxy nx ny n dxy dx dy d py (ly ++ l)) :
    ∃ c0, Returns (fun f => Number.combine cfg f (.Other px cx) (.Other py cy) nxy nx ny n dxy dx dy d)
        (.Other p' c0) ∧ ∃ c1, Returns (fun f => Clog.egests cfg f m c0) (out, c1) ∧
          ((∃ lx1 lx2 ly1 ly2 cx1 cy1 k, lx = lx1 ++ lx2 ∧ ly = ly1 ++ ly2 ∧ lx1.length = ly1.length ∧
            Gives cfg cx lx1 cx1 ∧ Gives cfg cy ly1 cy1 ∧ c1 = .combine cx1 cy1 k) ∨
          ∃ l1 l2 cy1 k, l = l1 ++ l2 ∧ Gives cfg cy (ly ++ l1) cy1 ∧ c1 = .homographic cy1 k) := by
  have hM1 : 1 ≤ M := size_pos h1 (by rintro ⟨rfl, rfl, rfl, rfl⟩; simp at hdet)
  obtain ⟨_, e, c0, rfl, h⟩ := (x_ends ⟨hM1, h1, h2⟩
    (safeUpTo_of_sq_le (by positivity) (by rw [← sq]; exact hM)) (fun h => h)
    hx he ha hy hlen hdet hs hB).returns
  obtain ⟨⟨o, c1⟩, e', e1, g⟩ := h.returns
  simp only at e1
  subst e1
  exact ⟨c0, e, c1, e', g⟩

theorem C90_y_returns {M : Int} (h1 : |nxy| + |nx| + |ny| + |n| ≤ M)
    (h2 : |dxy| + |dx| + |dy| + |d| ≤ M) (hM : (8 * M * 4 ^ lx.length * 2 ^ l.length) ^ 2 ≤ cfg.imax)
    (hx : Gives cfg cx (lx ++ l) cx')
    (hy : Gives cfg cy ly cy') (he : Returns (fun f => Clog.egest cfg f cy') (none, ce))
    (ha : Expands s ly) (hlen : lx.length = ly.length + 1)
    (hdet : (nxy * applyPrimer py s + nx) * (dy * applyPrimer py s + d) -
      (ny * applyPrimer py s + n) * (dxy * applyPrimer py s + dx) ≠ 0)
    (hs : SettledBeside (applyPrimer py s) nxy ny nx n dxy dy dx d px (lx ++ l) p' m out)
    (hB : BoundedBeside (applyPrimer py s) nxy ny nx n dxy dy dx d px (lx ++ l)) :
    ∃ c0, Returns (fun f => Number.combine cfg f (.Other px cx) (.Other py cy) nxy nx ny n dxy dx dy d)
        (.Other p' c0) ∧ ∃ c1, Returns (fun f => Clog.egests cfg f m c0) (out, c1) ∧
          ((∃ lx1 lx2 ly1 ly2 cx1 cy1 k, lx = lx1 ++ lx2 ∧ ly = ly1 ++ ly2 ∧ lx1.length = ly1.length ∧
            Gives cfg cx lx1 cx1 ∧ Gives cfg cy ly1 cy1 ∧ c1 = .combine cx1 cy1 k) ∨
          ∃ l1 l2 cx1 k, l = l1 ++ l2 ∧ Gives cfg cx (lx ++ l1) cx1 ∧ c1 = .homographic cx1 k) := by
  have hM1 : 1 ≤ M := size_pos h1 (by rintro ⟨rfl, rfl, rfl, rfl⟩; simp at hdet)
  obtain ⟨_, e, c0, rfl, h⟩ := (y_ends ⟨hM1, h1, h2⟩
    (safeUpTo_of_sq_le (by positivity) (by rw [← sq]; exact hM)) (fun h => h)
    hx hy he ha hlen hdet hs hB).returns
  obtain ⟨⟨o, c1⟩, e', e1, g⟩ := h.returns
  simp only at e1
  subst e1
  exact ⟨c0, e, c1, e', g⟩

/-- Beside the fraction `a/b` the map is the one with the coefficients below. -/
theorem C90_beside {a b : Int} (hb : b ≠ 0) {p : Option Primer}
    (h : Settled p (nxy * a + ny * b) (nx * a + n * b) (dxy * a + dy * b) (dx * a + d * b) l p' m out) :
    SettledBeside ((a : ℚ) / b) nxy nx ny n dxy dx dy d p l p' m out := by
  have hb' : (b : ℚ) ≠ 0 := by exact_mod_cast hb
  intro t y ht hy
  subst hy
  obtain ⟨h1, u, u0, u1, h2, h3⟩ := h t ht
  push_cast at h1 h2
  have e1 : ((dxy : ℚ) * (a / b) * applyPrimer p t + dx * (a / b) + dy * applyPrimer p t + d) =
      ((dxy * a + dy * b) * applyPrimer p t + (dx * a + d * b)) / b := by field_simp; ring
  have e2 : ((nxy : ℚ) * (a / b) * applyPrimer p t + nx * (a / b) + ny * applyPrimer p t + n) =
      ((nxy * a + ny * b) * applyPrimer p t + (nx * a + n * b)) / b := by field_simp; ring
  rw [e1, e2, div_div_div_cancel_right₀ hb']
  exact ⟨div_ne_zero h1 hb', u, u0, u1, h2, h3⟩

/-- How many symbols of `y` are enough when `x` is the fraction `a/b`: the bound of C87 for the coefficients
that the map has beside `a/b`, of size `S`. -/
theorem C90_reads_at_most {a b S : Int} (hb : b ≠ 0) (hc : cfg.overflowChecks = true)
    (hx : Gives cfg cx lx cx') (he : Returns (fun f => Clog.egest cfg f cx') (none, ce))
    (ha : Expands s lx) (hab : applyPrimer px s = a / b)
    (hy : Gives cfg cy (ly ++ l) cy') (hlen : lx.length = ly.length)
    (h1 : |nxy * a + ny * b| + |nx * a + n * b| ≤ S) (h2 : |dxy * a + dy * b| + |dx * a + d * b| ≤ S)
    {t u e : ℚ} (ht : Begins (ly ++ l) t)
    (hd : dxy * (a / b) * applyPrimer py t + dx * (a / b) + dy * applyPrimer py t + d ≠ 0)
    (hu : (nxy * (a / b) * applyPrimer py t + nx * (a / b) + ny * applyPrimer py t + n) /
      (dxy * (a / b) * applyPrimer py t + dx * (a / b) + dy * applyPrimer py t + d) = applyPrimer p' u)
    (hm : Undisturbed e m u)
    (hi : (5 * (S : ℝ) ^ 2 * ((3 + √5) / 2) ^ (m + 1)) ^ 4 <
      ((e : ℝ) * |(((nxy * a + ny * b) * (dx * a + d * b) -
        (nx * a + n * b) * (dxy * a + dy * b) : Int) : ℝ)|) ^ 4 * (5 + 2 * √6) ^ (ly ++ l).length) :
    Ends Overflow
      (fun f => Number.combine cfg f (.Other px cx) (.Other py cy) nxy nx ny n dxy dx dy d) fun v =>
      ∃ c0, v = .Other p' c0 ∧ Ends Overflow (fun f => Clog.egests cfg f m c0) fun r =>
        r.1 = symbols m u ∧
          ((∃ lx1 lx2 ly1 ly2 cx1 cy1 k, lx = lx1 ++ lx2 ∧ ly = ly1 ++ ly2 ∧ lx1.length = ly1.length ∧
            Gives cfg cx lx1 cx1 ∧ Gives cfg cy ly1 cy1 ∧ r.2 = .combine cx1 cy1 k) ∨
          ∃ l1 l2 cy1 k, l = l1 ++ l2 ∧ Gives cfg cy (ly ++ l1) cy1 ∧ r.2 = .homographic cy1 k) := by
  have hb' : (b : ℚ) ≠ 0 := by exact_mod_cast hb
  have e1 : ∀ y : ℚ, ((dxy : ℚ) * (a / b) * y + dx * (a / b) + dy * y + d) =
      ((dxy * a + dy * b : Int) * y + (dx * a + d * b : Int)) / b := by
    intro y; push_cast; field_simp; ring
  have e2 : ∀ y : ℚ, ((nxy : ℚ) * (a / b) * y + nx * (a / b) + ny * y + n) =
      ((nxy * a + ny * b : Int) * y + (nx * a + n * b : Int)) / b := by
    intro y; push_cast; field_simp; ring
  rw [e1] at hd
  rw [e1, e2, div_div_div_cancel_right₀ hb'] at hu
  have hd' : ((dxy * a + dy * b : Int) : ℚ) * applyPrimer py t + (dx * a + d * b : Int) ≠ 0 :=
    fun h0 => hd (by rw [h0, zero_div])
  obtain ⟨hs, hB⟩ := C87_at_most h1 h2 ht hd' hu hm hi
  have hdet : (nxy * a + ny * b) * (dx * a + d * b) - (nx * a + n * b) * (dxy * a + dy * b) ≠ 0 := by
    intro e0
    rw [e0, Int.cast_zero, abs_zero, mul_zero, zero_pow (by norm_num), zero_mul] at hi
    have : 0 ≤ (5 * (S : ℝ) ^ 2 * ((3 + √5) / 2) ^ (m + 1)) ^ 4 := by positivity
    linarith
  have hset := C90_beside hb hs
  rw [← hab] at hset
  refine C90_x_ends hc hx he ha hy hlen ?_ hset ?_
  · rw [hab]
    intro e0
    apply hdet
    have : (((nxy * a + ny * b) * (dx * a + d * b) - (nx * a + n * b) * (dxy * a + dy * b) : Int) : ℚ) =
        0 := by
      push_cast
      field_simp at e0
      linear_combination e0
    exact_mod_cast this
  · refine ⟨2 / e, ?_⟩
    rintro t _ ht rfl
    rw [hab, e1, e2, div_div_div_cancel_right₀ hb']
    exact hB t ht

/-- A sum with the fraction `a/b`, with `|a| + |b| ≤ 2^s`: `m` symbols of a result that keeps away by `1/2^k`
from where its symbols change are given from `i` symbols of `y` when `56 m + 80 s + 40 k + 149 ≤ 33 i`. -/
theorem C90_sum {a b : Int} {σ k : Nat} (hb : b ≠ 0) (hS : |a| + |b| ≤ 2 ^ σ)
    (hc : cfg.overflowChecks = true)
    (hx : Gives cfg cx lx cx') (he : Returns (fun f => Clog.egest cfg f cx') (none, ce))
    (ha : Expands s lx) (hab : applyPrimer px s = a / b)
    (hy : Gives cfg cy (ly ++ l) cy') (hlen : lx.length = ly.length) {t u : ℚ}
    (ht : Begins (ly ++ l) t) (hu : applyPrimer px s + applyPrimer py t = applyPrimer p' u)
    (hm : Undisturbed (1 / 2 ^ k) m u) (hi : 56 * m + 80 * σ + 40 * k + 149 ≤ 33 * (ly ++ l).length) :
    Ends Overflow (fun f => Number.combine cfg f (.Other px cx) (.Other py cy) 0 1 1 0 0 0 0 1) fun v =>
      ∃ c0, v = .Other p' c0 ∧ Ends Overflow (fun f => Clog.egests cfg f m c0) fun r =>
        r.1 = symbols m u ∧
          ((∃ lx1 lx2 ly1 ly2 cx1 cy1 k, lx = lx1 ++ lx2 ∧ ly = ly1 ++ ly2 ∧ lx1.length = ly1.length ∧
            Gives cfg cx lx1 cx1 ∧ Gives cfg cy ly1 cy1 ∧ r.2 = .combine cx1 cy1 k) ∨
          ∃ l1 l2 cy1 k, l = l1 ++ l2 ∧ Gives cfg cy (ly ++ l1) cy1 ∧ r.2 = .homographic cy1 k) := by
  have hb' : (b : ℚ) ≠ 0 := by exact_mod_cast hb
  refine C90_reads_at_most (S := 2 ^ σ) (e := 1 / 2 ^ k) hb hc hx he ha hab hy hlen ?_ ?_ ht ?_ ?_ hm
    (C87_at_most_simple (s := σ) (by rw [abs_of_pos (by positivity)]) ?_ hi)
  · simp only [zero_mul, one_mul, zero_add, add_zero]; omega
  · simp only [zero_mul, one_mul, zero_add, add_zero, abs_zero]
    have := abs_nonneg a
    omega
  · simp
  · rw [← hu, hab]; simp [add_comm]
  · simp only [zero_mul, one_mul, zero_add, mul_zero, sub_zero]
    exact mul_ne_zero hb hb

/-- A product with the fraction `a/b`. -/
theorem C90_product {a b : Int} {σ k : Nat} (ha0 : a ≠ 0) (hb : b ≠ 0) (hA : |a| ≤ 2 ^ σ)
    (hB : |b| ≤ 2 ^ σ) (hc : cfg.overflowChecks = true)
    (hx : Gives cfg cx lx cx') (he : Returns (fun f => Clog.egest cfg f cx') (none, ce))
    (ha : Expands s lx) (hab : applyPrimer px s = a / b)
    (hy : Gives cfg cy (ly ++ l) cy') (hlen : lx.length = ly.length) {t u : ℚ}
    (ht : Begins (ly ++ l) t) (hu : applyPrimer px s * applyPrimer py t = applyPrimer p' u)
    (hm : Undisturbed (1 / 2 ^ k) m u) (hi : 56 * m + 80 * σ + 40 * k + 149 ≤ 33 * (ly ++ l).length) :
    Ends Overflow (fun f => Number.combine cfg f (.Other px cx) (.Other py cy) 1 0 0 0 0 0 0 1) fun v =>
      ∃ c0, v = .Other p' c0 ∧ Ends Overflow (fun f => Clog.egests cfg f m c0) fun r =>
        r.1 = symbols m u ∧
          ((∃ lx1 lx2 ly1 ly2 cx1 cy1 k, lx = lx1 ++ lx2 ∧ ly = ly1 ++ ly2 ∧ lx1.length = ly1.length ∧
            Gives cfg cx lx1 cx1 ∧ Gives cfg cy ly1 cy1 ∧ r.2 = .combine cx1 cy1 k) ∨
          ∃ l1 l2 cy1 k, l = l1 ++ l2 ∧ Gives cfg cy (ly ++ l1) cy1 ∧ r.2 = .homographic cy1 k) := by
  refine C90_reads_at_most (S := 2 ^ σ) (e := 1 / 2 ^ k) hb hc hx he ha hab hy hlen ?_ ?_ ht ?_ ?_ hm
    (C87_at_most_simple (s := σ) (by rw [abs_of_pos (by positivity)]) ?_ hi)
  · simp only [zero_mul, one_mul, add_zero, abs_zero]; exact hA
  · simp only [zero_mul, one_mul, zero_add, add_zero, abs_zero]; exact hB
  · simp
  · rw [← hu, hab]; simp
  · simp only [zero_mul, one_mul, zero_add, add_zero, sub_zero]
    exact mul_ne_zero ha0 hb

end

/-! ## The hypotheses can be met -/

/-- 1/4 gives one symbol and ends. -/
private theorem quarter_given : Gives debug64 (.ratio ⟨1, 4⟩) [.Amplify] (.ratio ⟨1, 2⟩) :=
  Reads.gives (f := 1) (reads_iff.2 (by decide))

private theorem quarter_ends :
    Returns (fun f => Clog.egest debug64 f (.ratio ⟨1, 2⟩)) (none, .ratio ⟨1, 2⟩) :=
  FuelMono.returns (Clog.egest_mono debug64 _) 1 (by decide)

private theorem quarter_expands : Expands (1 / 4) [.Amplify] := by
  refine .amplify (by norm_num) (by norm_num) ?_
  rw [show (2 : ℚ) * (1 / 4) = 1 / 2 by norm_num]
  exact .half

private theorem thirty_beside :
    SettledBeside (applyPrimer none (1 / 4)) 2 2 0 0 0 0 0 1 none thirty none 11
      (symbols 11 (14370506 / 19630232)) := by
  intro t y ht hy
  obtain ⟨h1, u, u0, u1, h2, h3⟩ := thirty_settled t ht
  subst hy
  refine ⟨by simp, u, u0, u1, ?_, h3⟩
  rw [← h2]
  simp only [applyPrimer]
  norm_num
  ring

private theorem thirty_bounded :
    BoundedBeside (applyPrimer none (1 / 4)) 2 2 0 0 0 0 0 1 none thirty := by
  refine ⟨1, ?_⟩
  rintro t _ ⟨t0, t1, -⟩ rfl
  simp only [applyPrimer]
  norm_num
  rw [abs_le]
  constructor <;> linarith

/-- 2(xy + x) for x = 1/4 and a `y` of 30 symbols: 11 symbols. -/
example := C90_x_ends (cfg := debug64) (px := none) (py := none) (ly := thirty.take 1)
  (l := thirty.drop 1) rfl quarter_given quarter_ends quarter_expands thirty_given rfl
  (by simp only [applyPrimer]; norm_num) thirty_beside thirty_bounded

/-- The same with the operands exchanged: 2(xy + y) for y = 1/4. -/
example := C90_y_ends (cfg := debug64) (px := none) (py := none) (lx := thirty.take 2)
  (l := thirty.drop 2) (nx := 0) (ny := 2) rfl thirty_given quarter_given quarter_ends quarter_expands rfl
  (by simp only [applyPrimer]; norm_num) thirty_beside thirty_bounded

/-- On words of 128 bits this needs no overflow checks. -/
example := C90_x_returns (cfg := ⟨128, by decide, false⟩) (px := none) (py := none) (cx := .ratio ⟨1, 4⟩)
  (cx' := .ratio ⟨1, 2⟩) (ce := .ratio ⟨1, 2⟩) (cy := .ratio ⟨4555390, 9815116⟩) (cy' := .ratio ⟨111, 448⟩)
  (ly := thirty.take 1)
  (l := thirty.drop 1) (M := 4) (nxy := 2) (nx := 2) (ny := 0) (n := 0) (dxy := 0) (dx := 0) (dy := 0)
  (d := 1) (by decide) (by decide) (by decide +kernel)
  (Reads.gives (f := 1) (reads_iff.2 (by decide)))
  (FuelMono.returns (Clog.egest_mono _ _) 1 (by decide)) quarter_expands
  (FuelMono.returns (Clog.egests_mono _ _ _) 60 (by decide +kernel)) rfl
  (by simp only [applyPrimer]; norm_num) thirty_beside thirty_bounded

/-- The same with the operands exchanged. -/
example := C90_y_returns (cfg := ⟨128, by decide, false⟩) (px := none) (py := none) (cy := .ratio ⟨1, 4⟩)
  (cy' := .ratio ⟨1, 2⟩) (ce := .ratio ⟨1, 2⟩) (cx := .ratio ⟨4555390, 9815116⟩) (cx' := .ratio ⟨111, 448⟩)
  (lx := thirty.take 2)
  (l := thirty.drop 2) (M := 4) (nxy := 2) (nx := 0) (ny := 2) (n := 0) (dxy := 0) (dx := 0) (dy := 0)
  (d := 1) (by decide) (by decide) (by decide +kernel)
  (FuelMono.returns (Clog.egests_mono _ _ _) 60 (by decide +kernel))
  (Reads.gives (f := 1) (reads_iff.2 (by decide)))
  (FuelMono.returns (Clog.egest_mono _ _) 1 (by decide)) quarter_expands rfl
  (by simp only [applyPrimer]; norm_num) thirty_beside thirty_bounded

/-- Ten symbols of the same from C87's bound. -/
example := C90_reads_at_most (cfg := debug64) (px := none) (py := none) (p' := none) (ly := thirty.take 1)
  (l := thirty.drop 1) (a := 1) (b := 4) (S := 2 ^ 2) (e := 1 / 2 ^ 3) (m := 10)
  (nxy := 2) (nx := 2) (ny := 0) (n := 0) (dxy := 0) (dx := 0) (dy := 0) (d := 1)
  (u := 14370506 / 19630232) (by decide) rfl quarter_given
  quarter_ends quarter_expands (by simp [applyPrimer]) thirty_given rfl (by decide) (by decide)
  thirty_begins (by simp) (by norm_num [applyPrimer])
  ⟨by norm_num, by norm_num, by norm_num, fun j hj => thirty_undisturbed.2.2.2 j (by omega)⟩
  (C87_at_most_simple (s := 2) (by norm_num) (by decide) (by decide))

/-- x + y for x = 1/4: four symbols. -/
example := C90_sum (cfg := debug64) (px := none) (py := none) (p' := none) (ly := thirty.take 1)
  (l := thirty.drop 1) (a := 1) (b := 4) (σ := 3) (k := 4) (m := 4) (u := 28036676 / 39260464)
  (by decide) (by decide) rfl quarter_given
  quarter_ends quarter_expands (by simp [applyPrimer]) thirty_given rfl
  thirty_begins (by norm_num [applyPrimer])
  ⟨by norm_num, by norm_num, by norm_num, by decide +kernel⟩ (by decide)

/-- x y for x = 1/4: eight symbols. -/
example := C90_product (cfg := debug64) (px := none) (py := none) (p' := none) (ly := thirty.take 1)
  (l := thirty.drop 1) (a := 1) (b := 4) (σ := 2) (k := 5) (m := 8) (u := 4555390 / 39260464)
  (by decide) (by decide) (by decide) (by decide) rfl quarter_given
  quarter_ends quarter_expands (by simp [applyPrimer]) thirty_given rfl
  thirty_begins (by norm_num [applyPrimer])
  ⟨by norm_num, by norm_num, by norm_num, by decide +kernel⟩ (by decide)

end Clarith
