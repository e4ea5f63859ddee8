import Verif.Proofs.Combine

/-! # `combine::new` and `Number::combine` -/

namespace Clarith

open Out Spec

namespace Coef8

/-- All eight coefficients are of magnitude at most `M`. -/
structure Within (k : Coef8) (M : Int) : Prop where
  pos : 1 ≤ M
  a : -M ≤ k.a
  a' : k.a ≤ M
  b : -M ≤ k.b
  b' : k.b ≤ M
  c : -M ≤ k.c
  c' : k.c ≤ M
  d : -M ≤ k.d
  d' : k.d ≤ M
  e : -M ≤ k.e
  e' : k.e ≤ M
  f : -M ≤ k.f
  f' : k.f ≤ M
  g : -M ≤ k.g
  g' : k.g ≤ M
  h : -M ≤ k.h
  h' : k.h ≤ M

/-- The four coefficients of the numerator, and the four of the denominator, have magnitudes of sum
at most `S`. -/
structure Sums (k : Coef8) (S : Int) : Prop where
  pos : 1 ≤ S
  num : (k.a.natAbs : Int) + k.b.natAbs + k.c.natAbs + k.d.natAbs ≤ S
  den : (k.e.natAbs : Int) + k.f.natAbs + k.g.natAbs + k.h.natAbs ≤ S

theorem signs {a b c d S : Int}
    (h : (a.natAbs : Int) + b.natAbs + c.natAbs + d.natAbs ≤ S) :
    a + b + c + d ≤ S ∧ a + b + c - d ≤ S ∧ a + b - c + d ≤ S ∧ a + b - c - d ≤ S ∧
    a - b + c + d ≤ S ∧ a - b + c - d ≤ S ∧ a - b - c + d ≤ S ∧ a - b - c - d ≤ S ∧
    -a + b + c + d ≤ S ∧ -a + b + c - d ≤ S ∧ -a + b - c + d ≤ S ∧ -a + b - c - d ≤ S ∧
    -a - b + c + d ≤ S ∧ -a - b + c - d ≤ S ∧ -a - b - c + d ≤ S ∧ -a - b - c - d ≤ S := by
  have ha : a ≤ a.natAbs ∧ -a ≤ a.natAbs := by omega
  have hb : b ≤ b.natAbs ∧ -b ≤ b.natAbs := by omega
  have hc : c ≤ c.natAbs ∧ -c ≤ c.natAbs := by omega
  have hd : d ≤ d.natAbs ∧ -d ≤ d.natAbs := by omega
  generalize (a.natAbs : Int) = A at *
  generalize (b.natAbs : Int) = B at *
  generalize (c.natAbs : Int) = C at *
  generalize (d.natAbs : Int) = D at *
  omega

theorem Within.sums {k : Coef8} {M : Int} (h : k.Within M) : k.Sums (4 * M) := by
  obtain ⟨_, _, _, _, _, _, _, _, _, _, _, _, _, _, _, _, _⟩ := h
  constructor <;> omega

theorem Sums.within {k : Coef8} {S : Int} (h : k.Sums S) : k.Within S := by
  obtain ⟨h1, h2, h3⟩ := h
  constructor <;> omega

theorem Sums.bounded {k : Coef8} {S : Int} (h : k.Sums S) : k.Bounded S := by
  obtain ⟨h1, h2, h3⟩ := h
  obtain ⟨_, _, _, _, _, _, _, _, _, _, _, _, _, _, _, _⟩ := signs h2
  obtain ⟨_, _, _, _, _, _, _, _, _, _, _, _, _, _, _, _⟩ := signs h3
  clear h2 h3
  constructor <;> omega

theorem Within.bounded {k : Coef8} {M : Int} (h : k.Within M) : k.Bounded (4 * M) := by
  obtain ⟨_, _, _, _, _, _, _, _, _, _, _, _, _, _, _, _, _⟩ := h
  constructor <;> omega

/-- The coefficients are machine integers. -/
structure Fits (cfg : Cfg) (k : Coef8) : Prop where
  a : cfg.Fits k.a
  b : cfg.Fits k.b
  c : cfg.Fits k.c
  d : cfg.Fits k.d
  e : cfg.Fits k.e
  f : cfg.Fits k.f
  g : cfg.Fits k.g
  h : cfg.Fits k.h

/-- The coefficients after the primer of `x` has been absorbed. -/
def AbsX (p : Option Primer) (k k' : Coef8) : Prop :=
  (p = none ∧ k' = k) ∨
  (p = some .Turn ∧ k' = ⟨k.c, k.d, k.a, k.b, k.g, k.h, k.e, k.f⟩) ∨
  (p = some .Reflect ∧ k' = ⟨-k.a, -k.b, k.c, k.d, -k.e, -k.f, k.g, k.h⟩) ∨
  (p = some .Ground ∧ k' = ⟨-k.c, -k.d, k.a, k.b, -k.g, -k.h, k.e, k.f⟩)

/-- The coefficients after the primer of `y` has been absorbed. -/
def AbsY (p : Option Primer) (k k' : Coef8) : Prop :=
  (p = none ∧ k' = k) ∨
  (p = some .Turn ∧ k' = ⟨k.b, k.a, k.d, k.c, k.f, k.e, k.h, k.g⟩) ∨
  (p = some .Reflect ∧ k' = ⟨-k.a, k.b, -k.c, k.d, -k.e, k.f, -k.g, k.h⟩) ∨
  (p = some .Ground ∧ k' = ⟨-k.b, k.a, -k.d, k.c, -k.f, k.e, -k.h, k.g⟩)

theorem reflectX_sat {cfg : Cfg} {A M} {k : Coef8} (hs : cfg.SafeUpTo A M) (hk : k.Within M) :
    Sat A (k.reflectX cfg)
      (fun k' => k' = ⟨-k.a, -k.b, k.c, k.d, -k.e, -k.f, k.g, k.h⟩) := by
  obtain ⟨_, _, _, _, _, _, _, _, _, _, _, _, _, _, _, _, _⟩ := hk
  unfold reflectX
  refine Sat.bind (Cfg.mul_sat (hs.lin (by omega) (by omega))) ?_
  rintro _ ⟨rfl, _⟩
  refine Sat.bind (Cfg.mul_sat (hs.lin (by omega) (by omega))) ?_
  rintro _ ⟨rfl, _⟩
  refine Sat.bind (Cfg.mul_sat (hs.lin (by omega) (by omega))) ?_
  rintro _ ⟨rfl, _⟩
  refine Sat.bind (Cfg.mul_sat (hs.lin (by omega) (by omega))) ?_
  rintro _ ⟨rfl, _⟩
  refine Sat.pure ?_
  congr 1 <;> ring

theorem reflectY_sat {cfg : Cfg} {A M} {k : Coef8} (hs : cfg.SafeUpTo A M) (hk : k.Within M) :
    Sat A (k.reflectY cfg)
      (fun k' => k' = ⟨-k.a, k.b, -k.c, k.d, -k.e, k.f, -k.g, k.h⟩) := by
  obtain ⟨_, _, _, _, _, _, _, _, _, _, _, _, _, _, _, _, _⟩ := hk
  unfold reflectY
  refine Sat.bind (Cfg.mul_sat (hs.lin (by omega) (by omega))) ?_
  rintro _ ⟨rfl, _⟩
  refine Sat.bind (Cfg.mul_sat (hs.lin (by omega) (by omega))) ?_
  rintro _ ⟨rfl, _⟩
  refine Sat.bind (Cfg.mul_sat (hs.lin (by omega) (by omega))) ?_
  rintro _ ⟨rfl, _⟩
  refine Sat.bind (Cfg.mul_sat (hs.lin (by omega) (by omega))) ?_
  rintro _ ⟨rfl, _⟩
  refine Sat.pure ?_
  congr 1 <;> ring

theorem absorbPrimerX_sat {cfg : Cfg} {A M} {k : Coef8} (p : Option Primer)
    (hs : cfg.SafeUpTo A M) (hk : k.Within M) : Sat A (k.absorbPrimerX cfg p) (AbsX p k) := by
  unfold absorbPrimerX
  rcases p with _ | p
  · exact Sat.pure (.inl ⟨rfl, rfl⟩)
  · cases p
    · exact Sat.pure (.inr (.inl ⟨rfl, rfl⟩))
    · exact (reflectX_sat hs hk).mono fun _ h => .inr (.inr (.inl ⟨rfl, h⟩))
    · refine (reflectX_sat hs (k := k.turnX) ?_).mono fun _ h => .inr (.inr (.inr ⟨rfl, h⟩))
      obtain ⟨_, _, _, _, _, _, _, _, _, _, _, _, _, _, _, _, _⟩ := hk
      constructor <;> (try simp only [turnX]) <;> omega

theorem absorbPrimerY_sat {cfg : Cfg} {A M} {k : Coef8} (p : Option Primer)
    (hs : cfg.SafeUpTo A M) (hk : k.Within M) : Sat A (k.absorbPrimerY cfg p) (AbsY p k) := by
  unfold absorbPrimerY
  rcases p with _ | p
  · exact Sat.pure (.inl ⟨rfl, rfl⟩)
  · cases p
    · exact Sat.pure (.inr (.inl ⟨rfl, rfl⟩))
    · exact (reflectY_sat hs hk).mono fun _ h => .inr (.inr (.inl ⟨rfl, h⟩))
    · refine (reflectY_sat hs (k := k.turnY) ?_).mono fun _ h => .inr (.inr (.inr ⟨rfl, h⟩))
      obtain ⟨_, _, _, _, _, _, _, _, _, _, _, _, _, _, _, _, _⟩ := hk
      constructor <;> (try simp only [turnY]) <;> omega

theorem AbsX.within {p} {k k' : Coef8} {M} (h : AbsX p k k') (hk : k.Within M) : k'.Within M := by
  obtain ⟨_, _, _, _, _, _, _, _, _, _, _, _, _, _, _, _, _⟩ := hk
  rcases h with ⟨_, rfl⟩ | ⟨_, rfl⟩ | ⟨_, rfl⟩ | ⟨_, rfl⟩ <;> constructor <;> (try simp only) <;> omega

theorem AbsY.within {p} {k k' : Coef8} {M} (h : AbsY p k k') (hk : k.Within M) : k'.Within M := by
  obtain ⟨_, _, _, _, _, _, _, _, _, _, _, _, _, _, _, _, _⟩ := hk
  rcases h with ⟨_, rfl⟩ | ⟨_, rfl⟩ | ⟨_, rfl⟩ | ⟨_, rfl⟩ <;> constructor <;> (try simp only) <;> omega

theorem AbsX.sums {p} {k k' : Coef8} {S} (h : AbsX p k k') (hk : k.Sums S) : k'.Sums S := by
  obtain ⟨h1, h2, h3⟩ := hk
  rcases h with ⟨_, rfl⟩ | ⟨_, rfl⟩ | ⟨_, rfl⟩ | ⟨_, rfl⟩ <;> constructor <;> (try simp only) <;> omega

theorem AbsY.sums {p} {k k' : Coef8} {S} (h : AbsY p k k') (hk : k.Sums S) : k'.Sums S := by
  obtain ⟨h1, h2, h3⟩ := hk
  rcases h with ⟨_, rfl⟩ | ⟨_, rfl⟩ | ⟨_, rfl⟩ | ⟨_, rfl⟩ <;> constructor <;> (try simp only) <;> omega

theorem AbsX.same {p} {k k' : Coef8} (h : AbsX p k k') {u : ℚ} (hu : 0 < u) (v : ℚ) :
    Same k (applyPrimer p u) v k' u v := by
  have hu' := hu.ne'
  rcases h with ⟨rfl, rfl⟩ | ⟨rfl, rfl⟩ | ⟨rfl, rfl⟩ | ⟨rfl, rfl⟩ <;>
    simp only [Same, applyPrimer, numAt, denAt]
  · exact ⟨1, one_ne_zero, by ring, by ring⟩
  · exact ⟨u, hu', by field_simp; ring, by field_simp; ring⟩
  · exact ⟨1, one_ne_zero, by push_cast; ring, by push_cast; ring⟩
  · exact ⟨-u, neg_ne_zero.2 hu', by push_cast; field_simp; ring, by push_cast; field_simp; ring⟩

theorem AbsY.same {p} {k k' : Coef8} (h : AbsY p k k') {v : ℚ} (hv : 0 < v) (u : ℚ) :
    Same k u (applyPrimer p v) k' u v := by
  have hv' := hv.ne'
  rcases h with ⟨rfl, rfl⟩ | ⟨rfl, rfl⟩ | ⟨rfl, rfl⟩ | ⟨rfl, rfl⟩ <;>
    simp only [Same, applyPrimer, numAt, denAt]
  · exact ⟨1, one_ne_zero, by ring, by ring⟩
  · exact ⟨v, hv', by field_simp; ring, by field_simp; ring⟩
  · exact ⟨1, one_ne_zero, by push_cast; ring, by push_cast; ring⟩
  · exact ⟨-v, neg_ne_zero.2 hv', by push_cast; field_simp; ring, by push_cast; field_simp; ring⟩

end Coef8

namespace Combine

theorem asHomographic_ev {cfg : Cfg} {A : Panic → Prop} {x : Number} {q : ℚ}
    {P : List Reduction → Prop} {S nx n dx d : Int} {w : ℚ}
    (hx : Number.DenotesBy cfg A x q P) (ha : Homographic.Sums cfg S nx n dx d)
    (hs0 : cfg.SafeUpTo A S) (hs : ∀ l, P l → cfg.SafeUpTo A (peak l S S)) (hD : (dx : ℚ) * q + d ≠ 0)
    (hw : w = (nx * q + n) / (dx * q + d)) :
    Ev A (fun f j => asHomographic cfg (Clog.egest cfg f) j x nx n dx d)
      (fun t => Describes cfg A t w) := by
  unfold asHomographic
  refine Ev.bind (Homographic.new_sums_ev hx ha hs0 hs hD) ?_
  rintro ⟨t1, t2, t3, t4⟩ ht
  rw [← hw] at ht
  exact Ev.pure (.inl ⟨_, ht, rfl⟩)

theorem asHomographic_pole_ev {cfg : Cfg} {A : Panic → Prop} (hA : A .divisionByZero)
    {x : Number} {q : ℚ} {L : Nat} {M nx n dx d : Int}
    (hx : Number.DenotesIn cfg A x q L) (ha : Homographic.Args cfg M nx n dx d)
    (hs : cfg.SafeUpTo A (2 * M * 2 ^ L)) (hD : (dx : ℚ) * q + d = 0) :
    Ev A (fun f j => asHomographic cfg (Clog.egest cfg f) j x nx n dx d)
      (fun t => ∃ t', Amplifying cfg A t' ∧ t = (t'.1, t'.2.1, t'.2.2.1, t'.2.2.2, none)) := by
  unfold asHomographic
  refine Ev.bind (Homographic.new_pole_ev hA hx ha hs hD) ?_
  rintro ⟨t1, t2, t3, t4⟩ ⟨_, _, ht⟩
  exact Ev.pure ⟨_, ht, rfl⟩

/-- Both outcomes of `combine::new` at once: the result is a description of the value away from
poles (`hP`) and amplifies forever at poles (`hQ`). -/
private theorem new_any {cfg : Cfg} {A : Panic → Prop} {x y : Number} {q r : ℚ}
    {P Q : List Reduction → Prop} {S : Int} {k : Coef8} {R : Combine.Primed → Prop}
    (hx : Number.DenotesBy cfg A x q P) (hy : Number.DenotesBy cfg A y r Q)
    (hk : k.Sums S) (hf : k.Fits cfg) (hs2 : cfg.SafeUpTo A S)
    (hH : ∀ {z : Number} {t : ℚ} {nx n dx d : Int},
      Number.DenotesBy cfg A z t P ∨ Number.DenotesBy cfg A z t Q →
      Homographic.Sums cfg S nx n dx d →
      (nx : ℚ) * t + n = k.numAt q r → (dx : ℚ) * t + d = k.denAt q r →
      Ev A (fun f j => asHomographic cfg (Clog.egest cfg f) j z nx n dx d) R)
    (hC : ∀ {u v : ℚ} {lu lv : List Reduction} {s : Combine}, Expands u lu → Expands v lv →
      P lu → Q lv → Clog.Denotes cfg A s.x u → Clog.Denotes cfg A s.y v → s.k.Bounded S →
      Coef8.Same k q r s.k u v →
      Ev A (fun f j => Combine.prime cfg (Clog.egest cfg f) j s) R) :
    Ev A (fun f j => Combine.new cfg (Clog.egest cfg f) j x y k) R := by
  have hM := hk.pos
  obtain ⟨_, _, _, _, _, _, _, _, _, _, _, _, _, _, _, _⟩ := Coef8.signs hk.num
  obtain ⟨_, _, _, _, _, _, _, _, _, _, _, _, _, _, _, _⟩ := Coef8.signs hk.den
  obtain ⟨fa, fb, fc, fd, fe, ff, fg, fh⟩ := hf
  unfold Combine.new
  cases x with
  | Special s =>
    have hq : q = specialValue s := hx
    subst hq
    cases s
    · refine Ev.bind_sat (Cfg.csub_sat (hs2.lin (by omega) (by omega))) ?_
      rintro _ ⟨rfl, g1⟩
      refine Ev.bind_sat (Cfg.csub_sat (hs2.lin (by omega) (by omega))) ?_
      rintro _ ⟨rfl, g2⟩
      refine Ev.bind_sat (Cfg.csub_sat (hs2.lin (by omega) (by omega))) ?_
      rintro _ ⟨rfl, g3⟩
      refine Ev.bind_sat (Cfg.csub_sat (hs2.lin (by omega) (by omega))) ?_
      rintro _ ⟨rfl, g4⟩
      refine hH (.inr hy) ⟨by omega, g1, g2, g3, g4, by omega, by omega, by omega, by omega, by omega,
        by omega, by omega, by omega⟩ ?_ ?_ <;>
        simp only [specialValue, Coef8.numAt, Coef8.denAt] <;> push_cast <;> ring
    · refine hH (.inr hy) ⟨by omega, fc, fd, fg, fh, by omega, by omega, by omega, by omega, by omega,
        by omega, by omega, by omega⟩ ?_ ?_ <;>
        simp only [specialValue, Coef8.numAt, Coef8.denAt] <;> ring
    · refine Ev.bind_sat (Cfg.cadd_sat (hs2.lin (by omega) (by omega))) ?_
      rintro _ ⟨rfl, g1⟩
      refine Ev.bind_sat (Cfg.cadd_sat (hs2.lin (by omega) (by omega))) ?_
      rintro _ ⟨rfl, g2⟩
      refine Ev.bind_sat (Cfg.cadd_sat (hs2.lin (by omega) (by omega))) ?_
      rintro _ ⟨rfl, g3⟩
      refine Ev.bind_sat (Cfg.cadd_sat (hs2.lin (by omega) (by omega))) ?_
      rintro _ ⟨rfl, g4⟩
      refine hH (.inr hy) ⟨by omega, g1, g2, g3, g4, by omega, by omega, by omega, by omega, by omega,
        by omega, by omega, by omega⟩ ?_ ?_ <;>
        simp only [specialValue, Coef8.numAt, Coef8.denAt] <;> push_cast <;> ring
  | Other px cx =>
    cases y with
    | Special s =>
      have hr : r = specialValue s := hy
      subst hr
      cases s
      · refine Ev.bind_sat (Cfg.csub_sat (hs2.lin (by omega) (by omega))) ?_
        rintro _ ⟨rfl, g1⟩
        refine Ev.bind_sat (Cfg.csub_sat (hs2.lin (by omega) (by omega))) ?_
        rintro _ ⟨rfl, g2⟩
        refine Ev.bind_sat (Cfg.csub_sat (hs2.lin (by omega) (by omega))) ?_
        rintro _ ⟨rfl, g3⟩
        refine Ev.bind_sat (Cfg.csub_sat (hs2.lin (by omega) (by omega))) ?_
        rintro _ ⟨rfl, g4⟩
        refine hH (.inl hx) ⟨by omega, g1, g2, g3, g4, by omega, by omega, by omega, by omega, by omega,
          by omega, by omega, by omega⟩ ?_ ?_ <;>
          simp only [specialValue, Coef8.numAt, Coef8.denAt] <;> push_cast <;> ring
      · refine hH (.inl hx) ⟨by omega, fb, fd, ff, fh, by omega, by omega, by omega, by omega, by omega,
          by omega, by omega, by omega⟩ ?_ ?_ <;>
          simp only [specialValue, Coef8.numAt, Coef8.denAt] <;> ring
      · refine Ev.bind_sat (Cfg.cadd_sat (hs2.lin (by omega) (by omega))) ?_
        rintro _ ⟨rfl, g1⟩
        refine Ev.bind_sat (Cfg.cadd_sat (hs2.lin (by omega) (by omega))) ?_
        rintro _ ⟨rfl, g2⟩
        refine Ev.bind_sat (Cfg.cadd_sat (hs2.lin (by omega) (by omega))) ?_
        rintro _ ⟨rfl, g3⟩
        refine Ev.bind_sat (Cfg.cadd_sat (hs2.lin (by omega) (by omega))) ?_
        rintro _ ⟨rfl, g4⟩
        refine hH (.inl hx) ⟨by omega, g1, g2, g3, g4, by omega, by omega, by omega, by omega, by omega,
          by omega, by omega, by omega⟩ ?_ ?_ <;>
          simp only [specialValue, Coef8.numAt, Coef8.denAt] <;> push_cast <;> ring
    | Other py cy =>
      obtain ⟨u, lu, hu, hlu, hLu, rfl⟩ := hx
      obtain ⟨v, lv, hv, hlv, hLv, rfl⟩ := hy
      refine Ev.bind_sat (Coef8.absorbPrimerX_sat px hs2 hk.within) ?_
      intro k1 h1
      refine Ev.bind_sat (Coef8.absorbPrimerY_sat py hs2 (h1.sums hk).within) ?_
      intro k2 h2
      refine hC (s := ⟨cx, cy, k2⟩) hlu hlv hLu hLv hu hv (h2.sums (h1.sums hk)).bounded ?_
      · obtain ⟨t1, n1, a1, b1⟩ := h1.same hu.1 (applyPrimer py v)
        obtain ⟨t2, n2, a2, b2⟩ := h2.same hv.1 u
        exact ⟨t2 * t1, mul_ne_zero n2 n1, by simp only; rw [a2, a1, mul_assoc],
          by simp only; rw [b2, b1, mul_assoc]⟩

/-- What is needed to read the symbols of two operands from coefficients of sum at most `S`. -/
structure Budget (cfg : Cfg) (A : Panic → Prop) (S : Int) (P Q : List Reduction → Prop) : Prop where
  start : cfg.SafeUpTo A S
  x : ∀ lu, P lu → cfg.SafeUpTo A (peak lu S S)
  y : ∀ lv, Q lv → cfg.SafeUpTo A (peak lv S S)
  xy : ∀ lu lv, P lu → Q lv → cfg.SafeUpTo A (total lu S S * peak lv 1 1) ∧
    cfg.SafeUpTo A (peak lu S S * total lv 1 1)

/-- Away from poles, `combine::new` gives the value of the map, if there is room for the symbols. -/
theorem new_sums_ev {cfg : Cfg} {A : Panic → Prop} {x y : Number} {q r : ℚ}
    {P Q : List Reduction → Prop} {S : Int} {k : Coef8}
    (hx : Number.DenotesBy cfg A x q P) (hy : Number.DenotesBy cfg A y r Q)
    (hk : k.Sums S) (hf : k.Fits cfg) (hs : Budget cfg A S P Q)
    (hD : k.denAt q r ≠ 0) :
    Ev A (fun f j => Combine.new cfg (Clog.egest cfg f) j x y k)
      (fun t => Describes cfg A t (k.val q r)) := by
  refine new_any hx hy hk hf hs.start ?_ ?_
  · intro z t nx n dx d hz ha e1 e2
    have hw : k.val q r = ((nx : ℚ) * t + n) / (dx * t + d) := by rw [e1, e2]; rfl
    rcases hz with hz | hz
    · exact asHomographic_ev hz ha hs.start hs.x (by rw [e2]; exact hD) hw
    · exact asHomographic_ev hz ha hs.start hs.y (by rw [e2]; exact hD) hw
  · intro u v lu lv s hu hv hP hQ hx hy hb hsame
    have hS := hk.pos
    have := prime_ev hu hv hx hy (fun h => hD (hsame.den.1 h))
      ⟨S, S, 1, 1, hS, hS, le_rfl, le_rfl, by rw [mul_one]; exact hb.under, hs.xy lu lv hP hQ⟩
    rwa [hsame.val] at this

/-- At a pole, `combine::new` panics or gives a reciprocal whose clog amplifies forever. -/
theorem new_pole_ev {cfg : Cfg} {A : Panic → Prop} (hA : A .divisionByZero)
    {x y : Number} {q r : ℚ} {Lx Ly : Nat} {M : Int} {k : Coef8}
    (hx : Number.DenotesIn cfg A x q Lx) (hy : Number.DenotesIn cfg A y r Ly)
    (hk : k.Within M) (hf : k.Fits cfg) (hs : cfg.SafeUpTo A (4 * M * 2 ^ (Lx + Ly + 1)))
    (hD : k.denAt q r = 0) :
    Ev A (fun f j => Combine.new cfg (Clog.egest cfg f) j x y k)
      (fun t => ∃ t', Amplifying cfg A t' ∧ t = (t'.1, t'.2.1, t'.2.2.1, t'.2.2.2, none)) := by
  have hM := hk.pos
  refine new_any hx.by_length hy.by_length hk.sums hf (hs.head (by omega)) ?_ ?_
  · intro z t nx n dx d hz ha e1 e2
    have hz' : Number.DenotesIn cfg A z t (Lx + Ly) := by
      cases z with
      | Special s => exact hz.elim id id
      | Other p c =>
        rcases hz with ⟨v, l, h1, h2, h3, h4⟩ | ⟨v, l, h1, h2, h3, h4⟩ <;>
          exact ⟨v, l, h1, h2, by omega, h4⟩
    have ha' : Homographic.Args cfg (4 * M) nx n dx d := by
      obtain ⟨hM, f1, f2, f3, f4, b1, b1', b2, b2', b3, b3', b4, b4'⟩ := ha
      constructor <;> first | assumption | omega
    refine asHomographic_pole_ev hA hz' ha' ?_ (by rw [e2]; exact hD)
    rwa [pow_succ, show 4 * M * (2 ^ (Lx + Ly) * 2) = 2 * (4 * M) * 2 ^ (Lx + Ly) by ring] at hs
  · intro u v lu lv s hu hv hP hQ hx hy hb hsame
    refine prime_pole_ev hA hu hv hx hy (hsame.den.2 hD) hb ?_
    refine hs.mono (by positivity) ?_
    exact mul_le_mul_of_nonneg_left (pow_le_pow_right₀ (by norm_num) (by omega)) (by omega)

/-- Room in terms of the numbers of symbols. -/
theorem Budget.of_lengths {cfg : Cfg} {A : Panic → Prop} {M : Int} {Lx Ly : Nat} (hM : 1 ≤ M)
    (hs : cfg.SafeUpTo A (M * 2 ^ (Lx + Ly + 1))) :
    Budget cfg A M (·.length ≤ Lx) (·.length ≤ Ly) := by
  have one : ∀ l : List Reduction, l.length ≤ Lx + Ly → cfg.SafeUpTo A (peak l M M) := by
    intro l hl
    have h1 := (le_peak l (a := M) (b := M) (by omega) (by omega)).1
    refine hs.mono (by omega) ((peak_le l le_rfl le_rfl (by omega)).trans ?_)
    exact mul_le_mul_of_nonneg_left (pow_le_pow_right₀ (by norm_num) (by omega)) (by omega)
  refine ⟨hs.head hM, fun l hl => one l (by omega), fun l hl => one l (by omega), ?_⟩
  intro lu lv h1 h2
  obtain ⟨_, p1⟩ := le_peak lu (a := M) (b := M) (by omega) (by omega)
  obtain ⟨_, p2⟩ := le_peak lv (a := 1) (b := 1) (by omega) (by omega)
  have p3 := peak_le_total lu (a := M) (b := M) (by omega) (by omega)
  have p4 := peak_le_total lv (a := 1) (b := 1) (by omega) (by omega)
  have top : M * 2 ^ (lu.length + lv.length + 1) ≤ M * 2 ^ (Lx + Ly + 1) :=
    mul_le_mul_of_nonneg_left (pow_le_pow_right₀ (by norm_num) (by omega)) (by omega)
  refine ⟨hs.mono (mul_nonneg (by omega) (by omega)) (le_trans ?_ top),
    hs.mono (mul_nonneg (by omega) (by omega)) (le_trans ?_ top)⟩
  · calc total lu M M * peak lv 1 1
        ≤ (M * 2 ^ (lu.length + 1)) * (1 * 2 ^ lv.length) :=
          mul_le_mul (total_le lu le_rfl le_rfl (by omega)) (peak_le lv le_rfl le_rfl (by omega))
            (by omega) (by positivity)
      _ = M * 2 ^ (lu.length + lv.length + 1) := by ring
  · calc peak lu M M * total lv 1 1
        ≤ (M * 2 ^ lu.length) * (1 * 2 ^ (lv.length + 1)) :=
          mul_le_mul (peak_le lu le_rfl le_rfl (by omega)) (total_le lv le_rfl le_rfl (by omega))
            (by omega) (by positivity)
      _ = M * 2 ^ (lu.length + lv.length + 1) := by ring

end Combine

/-! ## `Number::combine` -/

theorem Number.combine_sums_ends {cfg : Cfg} {A : Panic → Prop} {x y : Number} {q r : ℚ}
    {P Q : List Reduction → Prop} {S a b c d e f' g h : Int}
    (hx : Number.DenotesBy cfg A x q P) (hy : Number.DenotesBy cfg A y r Q)
    (hk : (⟨a, b, c, d, e, f', g, h⟩ : Coef8).Sums S)
    (hf : (⟨a, b, c, d, e, f', g, h⟩ : Coef8).Fits cfg)
    (hs : Combine.Budget cfg A S P Q)
    (hD : (e : ℚ) * q * r + f' * q + g * r + h ≠ 0) :
    Ends A (fun f => Number.combine cfg f x y a b c d e f' g h)
      (fun t => Number.Denotes cfg A t
        ((a * q * r + b * q + c * r + d) / (e * q * r + f' * q + g * r + h))) := by
  unfold Number.combine
  refine Ends.bind (Combine.new_sums_ev hx hy hk hf hs hD).ends ?_
  rintro t (⟨t', ht, rfl⟩ | ⟨p, s, w, rfl, hh, hq⟩)
  · rcases ht with ⟨s, rfl, hq⟩ | ⟨p, r, rfl, hr, hq⟩ | ⟨p, h, w, rfl, hh, hq⟩
    · exact Ends.of_sat (Sat.pure hq)
    · exact Ends.of_sat (Sat.pure ⟨r.val, Ratio.denotes hr, hq⟩)
    · exact Ends.of_sat (Sat.pure ⟨w, hh.denotes, hq⟩)
  · exact Ends.of_sat (Sat.pure ⟨w, hh.denotes, hq⟩)

theorem Number.combine_ends {cfg : Cfg} {A : Panic → Prop} {x y : Number} {q r : ℚ} {Lx Ly : Nat}
    {M a b c d e f' g h : Int}
    (hx : Number.DenotesIn cfg A x q Lx) (hy : Number.DenotesIn cfg A y r Ly)
    (hk : (⟨a, b, c, d, e, f', g, h⟩ : Coef8).Within M)
    (hf : (⟨a, b, c, d, e, f', g, h⟩ : Coef8).Fits cfg)
    (hs : cfg.SafeUpTo A (4 * M * 2 ^ (Lx + Ly + 1)))
    (hD : (e : ℚ) * q * r + f' * q + g * r + h ≠ 0) :
    Ends A (fun f => Number.combine cfg f x y a b c d e f' g h)
      (fun t => Number.Denotes cfg A t
        ((a * q * r + b * q + c * r + d) / (e * q * r + f' * q + g * r + h))) :=
  Number.combine_sums_ends hx.by_length hy.by_length hk.sums hf
    (.of_lengths (by have := hk.pos; omega) hs) hD

theorem Number.combine_pole_ends {cfg : Cfg} {A : Panic → Prop} (hA : A .divisionByZero)
    {x y : Number} {q r : ℚ} {Lx Ly : Nat} {M a b c d e f' g h : Int}
    (hx : Number.DenotesIn cfg A x q Lx) (hy : Number.DenotesIn cfg A y r Ly)
    (hk : (⟨a, b, c, d, e, f', g, h⟩ : Coef8).Within M)
    (hf : (⟨a, b, c, d, e, f', g, h⟩ : Coef8).Fits cfg)
    (hs : cfg.SafeUpTo A (4 * M * 2 ^ (Lx + Ly + 1)))
    (hD : (e : ℚ) * q * r + f' * q + g * r + h = 0) :
    Ends A (fun f => Number.combine cfg f x y a b c d e f' g h)
      (fun t => ∃ p c, t = .Other p c ∧ (p = some .Turn ∨ p = some .Ground) ∧
        Clog.AmplifiesForever cfg A c) := by
  unfold Number.combine
  refine Ends.bind (Combine.new_pole_ev hA hx hy hk hf hs hD).ends ?_
  rintro t ⟨t', ⟨p, h', rfl, hp, ha⟩, rfl⟩
  exact Ends.of_sat (Sat.pure ⟨p, _, rfl, hp, ha⟩)

end Clarith
