import Verif.Proofs.Homographic

/-! # `homographic::new`, `Number::homographic`, and poles -/

namespace Clarith

open Out Spec

/-- `x` denotes `q` and its clog has at most `L` symbols left. -/
def Number.DenotesIn (cfg : Cfg) (A : Panic → Prop) (x : Number) (q : ℚ) (L : Nat) : Prop :=
  match x with
  | .Special s => q = specialValue s
  | .Other p c => ∃ v l, Clog.Denotes cfg A c v ∧ Expands v l ∧ l.length ≤ L ∧ q = applyPrimer p v

/-- `x` denotes `q` and the symbols left of its clog satisfy `P`. -/
def Number.DenotesBy (cfg : Cfg) (A : Panic → Prop) (x : Number) (q : ℚ)
    (P : List Reduction → Prop) : Prop :=
  match x with
  | .Special s => q = specialValue s
  | .Other p c => ∃ v l, Clog.Denotes cfg A c v ∧ Expands v l ∧ P l ∧ q = applyPrimer p v

theorem Number.DenotesIn.by_length {cfg : Cfg} {A : Panic → Prop} {x : Number} {q : ℚ} {L : Nat}
    (h : Number.DenotesIn cfg A x q L) : Number.DenotesBy cfg A x q (·.length ≤ L) := by
  cases x with
  | Special s => exact h
  | Other p c => exact h

theorem Number.Denotes.inL {cfg : Cfg} {A : Panic → Prop} {x : Number} {q : ℚ}
    (h : Number.Denotes cfg A x q) : ∃ L, Number.DenotesIn cfg A x q L := by
  cases x with
  | Special s => exact ⟨0, h⟩
  | Other p c =>
    obtain ⟨v, hv, rfl⟩ := h
    obtain ⟨l, hl⟩ := exists_expands _ hv.1 hv.2.1
    exact ⟨l.length, v, l, hv, hl, le_rfl, rfl⟩

theorem Number.DenotesIn.denotes {cfg : Cfg} {A : Panic → Prop} {x : Number} {q : ℚ} {L}
    (h : Number.DenotesIn cfg A x q L) : Number.Denotes cfg A x q := by
  cases x with
  | Special s => exact h
  | Other p c =>
    obtain ⟨v, l, hv, _, _, rfl⟩ := h
    exact ⟨v, hv, rfl⟩

namespace Homographic

/-- The four coefficients are machine integers, of magnitude at most `M`. -/
structure Args (cfg : Cfg) (M nx n dx d : Int) : Prop where
  pos : 1 ≤ M
  f1 : cfg.Fits nx
  f2 : cfg.Fits n
  f3 : cfg.Fits dx
  f4 : cfg.Fits d
  b1 : -M ≤ nx
  b1' : nx ≤ M
  b2 : -M ≤ n
  b2' : n ≤ M
  b3 : -M ≤ dx
  b3' : dx ≤ M
  b4 : -M ≤ d
  b4' : d ≤ M

theorem asRatio_ev {cfg : Cfg} {A : Panic → Prop} {n d : Int} (hd : d ≠ 0)
    (hn : cfg.Fits n) (hdf : cfg.Fits d) (hn' : cfg.Safe A (-n)) (hd' : cfg.Safe A (-d)) :
    Ev A (fun _ _ => asRatio cfg n d) (fun t => Describes cfg A t ((n : ℚ) / d)) := by
  unfold asRatio
  refine Ev.bind_sat (Ratio.newI_sat hd hn hdf hn' hd') ?_
  rintro ⟨s, p, r⟩ ht
  exact Ev.pure ht.homographic

theorem asRatio_zero {cfg : Cfg} {A : Panic → Prop} {n : Int}
    (hn : cfg.Fits n) (hn' : cfg.Safe A (-n)) (hA : A .divisionByZero) :
    Ev A (fun _ _ => asRatio cfg n 0) (fun _ => False) := by
  unfold asRatio
  refine Ev.bind_sat (Ratio.newI_zero hn hn' hA) ?_
  exact fun _ h => h.elim

/-- Absorbing the primer of the input. -/
theorem absorbPrimer_sat {cfg : Cfg} {A : Panic → Prop} {p : Option Primer} {k : Coef4}
    (s1 : cfg.Safe A (-k.nx)) (s2 : cfg.Safe A (-k.dx)) :
    Sat A (absorbPrimer cfg p k) (fun k' =>
      (p = none ∧ k' = k) ∨ (p = some .Turn ∧ k' = ⟨k.n, k.nx, k.d, k.dx⟩) ∨
      (p = some .Reflect ∧ k' = ⟨-k.nx, k.n, -k.dx, k.d⟩) ∨
      (p = some .Ground ∧ k' = ⟨k.n, -k.nx, k.d, -k.dx⟩)) := by
  unfold absorbPrimer
  rcases p with _ | p
  · exact Sat.pure (.inl ⟨rfl, rfl⟩)
  · cases p
    · exact Sat.pure (.inr (.inl ⟨rfl, rfl⟩))
    · refine Sat.bind (Cfg.neg_sat s1) ?_
      rintro _ ⟨rfl, _⟩
      refine Sat.bind (Cfg.neg_sat s2) ?_
      rintro _ ⟨rfl, _⟩
      exact Sat.pure (.inr (.inr (.inl ⟨rfl, rfl⟩)))
    · refine Sat.bind (Cfg.neg_sat s1) ?_
      rintro _ ⟨rfl, _⟩
      refine Sat.bind (Cfg.neg_sat s2) ?_
      rintro _ ⟨rfl, _⟩
      exact Sat.pure (.inr (.inr (.inr ⟨rfl, rfl⟩)))

/-- What the absorbed coefficients are, as functions. -/
theorem absorbed {k k' : Coef4} {p : Option Primer} {v : ℚ} (hv : 0 < v)
    (h : (p = none ∧ k' = k) ∨ (p = some .Turn ∧ k' = ⟨k.n, k.nx, k.d, k.dx⟩) ∨
      (p = some .Reflect ∧ k' = ⟨-k.nx, k.n, -k.dx, k.d⟩) ∨
      (p = some .Ground ∧ k' = ⟨k.n, -k.nx, k.d, -k.dx⟩)) :
    ∃ c : ℚ, c ≠ 0 ∧ k'.numAt v = c * k.numAt (applyPrimer p v) ∧
      k'.denAt v = c * k.denAt (applyPrimer p v) := by
  have hv' := hv.ne'
  rcases h with ⟨rfl, rfl⟩ | ⟨rfl, rfl⟩ | ⟨rfl, rfl⟩ | ⟨rfl, rfl⟩ <;>
    simp only [applyPrimer, Coef4.numAt, Coef4.denAt]
  · exact ⟨1, one_ne_zero, by ring, by ring⟩
  · exact ⟨v, hv', by field_simp; ring, by field_simp; ring⟩
  · exact ⟨1, one_ne_zero, by push_cast; ring, by push_cast; ring⟩
  · exact ⟨v, hv', by push_cast; field_simp; ring, by push_cast; field_simp; ring⟩

theorem absorbed_bounded {k k' : Coef4} {p : Option Primer} {M : Int} (hM : 1 ≤ M)
    (hb : -M ≤ k.nx ∧ k.nx ≤ M ∧ -M ≤ k.n ∧ k.n ≤ M ∧ -M ≤ k.dx ∧ k.dx ≤ M ∧ -M ≤ k.d ∧ k.d ≤ M)
    (h : (p = none ∧ k' = k) ∨ (p = some .Turn ∧ k' = ⟨k.n, k.nx, k.d, k.dx⟩) ∨
      (p = some .Reflect ∧ k' = ⟨-k.nx, k.n, -k.dx, k.d⟩) ∨
      (p = some .Ground ∧ k' = ⟨k.n, -k.nx, k.d, -k.dx⟩)) : k'.Bounded (2 * M) := by
  rcases h with ⟨_, rfl⟩ | ⟨_, rfl⟩ | ⟨_, rfl⟩ | ⟨_, rfl⟩ <;> constructor <;> (try simp only) <;> omega

/-- The four coefficients are machine integers, and the magnitudes of `nx` and `n` together, and of
`dx` and `d` together, are at most `S`. -/
structure Sums (cfg : Cfg) (S nx n dx d : Int) : Prop where
  pos : 1 ≤ S
  f1 : cfg.Fits nx
  f2 : cfg.Fits n
  f3 : cfg.Fits dx
  f4 : cfg.Fits d
  b1 : -S ≤ n + nx
  b1' : n + nx ≤ S
  b2 : -S ≤ n - nx
  b2' : n - nx ≤ S
  b3 : -S ≤ d + dx
  b3' : d + dx ≤ S
  b4 : -S ≤ d - dx
  b4' : d - dx ≤ S

theorem Args.sums {cfg : Cfg} {M nx n dx d : Int} (h : Args cfg M nx n dx d) :
    Sums cfg (2 * M) nx n dx d := by
  obtain ⟨hM, f1, f2, f3, f4, b1, b1', b2, b2', b3, b3', b4, b4'⟩ := h
  constructor <;> first | assumption | omega

theorem absorbed_under {k k' : Coef4} {p : Option Primer} {S : Int} (hS : 1 ≤ S)
    (hb : -S ≤ k.n + k.nx ∧ k.n + k.nx ≤ S ∧ -S ≤ k.n - k.nx ∧ k.n - k.nx ≤ S ∧
      -S ≤ k.d + k.dx ∧ k.d + k.dx ≤ S ∧ -S ≤ k.d - k.dx ∧ k.d - k.dx ≤ S)
    (h : (p = none ∧ k' = k) ∨ (p = some .Turn ∧ k' = ⟨k.n, k.nx, k.d, k.dx⟩) ∨
      (p = some .Reflect ∧ k' = ⟨-k.nx, k.n, -k.dx, k.d⟩) ∨
      (p = some .Ground ∧ k' = ⟨k.n, -k.nx, k.d, -k.dx⟩)) : k'.Under S S := by
  rcases h with ⟨_, rfl⟩ | ⟨_, rfl⟩ | ⟨_, rfl⟩ | ⟨_, rfl⟩ <;> constructor <;> (try simp only) <;> omega

/-- Away from poles, `homographic::new` gives the value of the map, if there is room for the
symbols. -/
theorem new_sums_ev {cfg : Cfg} {A : Panic → Prop} {x : Number} {q : ℚ}
    {P : List Reduction → Prop} {S nx n dx d : Int}
    (hx : Number.DenotesBy cfg A x q P) (ha : Sums cfg S nx n dx d)
    (hs2 : cfg.SafeUpTo A S) (hs : ∀ l, P l → cfg.SafeUpTo A (peak l S S))
    (hD : (dx : ℚ) * q + d ≠ 0) :
    Ev A (fun f j => Homographic.new cfg (Clog.egest cfg f) j x nx n dx d)
      (fun t => Describes cfg A t ((nx * q + n) / (dx * q + d))) := by
  obtain ⟨hM, f1, f2, f3, f4, b1, b1', b2, b2', b3, b3', b4, b4'⟩ := ha
  unfold Homographic.new
  by_cases h0 : nx = 0 ∧ dx = 0
  · simp only [if_pos h0]
    obtain ⟨rfl, rfl⟩ := h0
    have := asRatio_ev (A := A) (cfg := cfg) (n := n) (d := d) (by rintro rfl; simp at hD) f2 f4
      (hs2.lin (by omega) (by omega)) (hs2.lin (by omega) (by omega))
    simpa using this
  simp only [if_neg h0]
  cases x with
  | Special s =>
    have hq : q = specialValue s := hx
    subst hq
    cases s
    · refine Ev.bind_sat (Cfg.csub_sat (hs2.lin (by omega) (by omega))) ?_
      rintro _ ⟨rfl, g1⟩
      refine Ev.bind_sat (Cfg.csub_sat (hs2.lin (by omega) (by omega))) ?_
      rintro _ ⟨rfl, g2⟩
      simp only [specialValue] at hD ⊢
      have hne : d - dx ≠ 0 := by
        intro h
        apply hD
        have : (d : ℚ) - dx = 0 := by exact_mod_cast h
        linarith
      refine (asRatio_ev hne g1 g2 (hs2.lin (by omega) (by omega))
        (hs2.lin (by omega) (by omega))).mono ?_
      intro t ht
      push_cast at ht
      rwa [show (nx : ℚ) * -1 + n = n - nx by ring, show (dx : ℚ) * -1 + d = d - dx by ring]
    · simp only [specialValue] at hD ⊢
      have := asRatio_ev (A := A) (cfg := cfg) (n := n) (d := d) (by rintro rfl; simp at hD) f2 f4
        (hs2.lin (by omega) (by omega)) (hs2.lin (by omega) (by omega))
      simpa using this
    · refine Ev.bind_sat (Cfg.cadd_sat (hs2.lin (by omega) (by omega))) ?_
      rintro _ ⟨rfl, g1⟩
      refine Ev.bind_sat (Cfg.cadd_sat (hs2.lin (by omega) (by omega))) ?_
      rintro _ ⟨rfl, g2⟩
      simp only [specialValue] at hD ⊢
      have hne : d + dx ≠ 0 := by
        intro h
        apply hD
        have : (d : ℚ) + dx = 0 := by exact_mod_cast h
        linarith
      refine (asRatio_ev hne g1 g2 (hs2.lin (by omega) (by omega))
        (hs2.lin (by omega) (by omega))).mono ?_
      intro t ht
      push_cast at ht
      rwa [show (nx : ℚ) * 1 + n = n + nx by ring, show (dx : ℚ) * 1 + d = d + dx by ring]
  | Other p c =>
    obtain ⟨v, l, hv, hl, hL, rfl⟩ := hx
    refine Ev.bind_sat (absorbPrimer_sat (hs2.lin (by simp only; omega) (by simp only; omega))
      (hs2.lin (by simp only; omega) (by simp only; omega))) ?_
    intro k' hk
    obtain ⟨c', hc, e1, e2⟩ := absorbed hv.1 hk
    have hb := absorbed_under (S := S) hM (by simp only; omega) hk
    simp only [Coef4.numAt, Coef4.denAt] at e1 e2
    refine (prime_ev (h := ⟨c, k'⟩) hl hv ?_ hb (hs l hL)).mono ?_
    · simp only [Coef4.denAt]
      rw [e2]
      exact mul_ne_zero hc hD
    · intro t ht
      have : k'.val v = ((nx : ℚ) * applyPrimer p v + n) / (dx * applyPrimer p v + d) := by
        rw [Coef4.val_eq, Coef4.numAt, Coef4.denAt, e1, e2, mul_div_mul_left _ _ hc]
      rwa [← this]

/-- Away from poles, `homographic::new` gives the value of the map. -/
theorem new_ev {cfg : Cfg} {A : Panic → Prop} {x : Number} {q : ℚ} {L : Nat} {M nx n dx d : Int}
    (hx : Number.DenotesIn cfg A x q L) (ha : Args cfg M nx n dx d)
    (hs : cfg.SafeUpTo A (2 * M * 2 ^ L)) (hD : (dx : ℚ) * q + d ≠ 0) :
    Ev A (fun f j => Homographic.new cfg (Clog.egest cfg f) j x nx n dx d)
      (fun t => Describes cfg A t ((nx * q + n) / (dx * q + d))) := by
  have hM := ha.pos
  refine new_sums_ev hx.by_length ha.sums (hs.head (by omega)) (fun l hl => ?_) hD
  refine hs.mono (by have := (le_peak l (a := 2 * M) (b := 2 * M) (by omega) (by omega)).1; omega) ?_
  refine (peak_le l le_rfl le_rfl (by omega)).trans (mul_le_mul_of_nonneg_left ?_ (by omega))
  exact pow_le_pow_right₀ (by norm_num) hl

/-! ## Poles -/

theorem prime_pole_ev {cfg : Cfg} {A : Panic → Prop} (hA : A .divisionByZero)
    {v : ℚ} {l : List Reduction}
    (hx : Expands v l) : ∀ {h : Homographic} {M : Int}, Clog.Denotes cfg A h.x v →
    h.k.denAt v = 0 → h.k.Bounded M → cfg.SafeUpTo A (M * 2 ^ l.length) →
    Ev A (fun f j => Homographic.prime cfg (Clog.egest cfg f) j h)
      (fun t => h.k.d = 0 ∧ h.k.dx = 0 ∧ ∃ p h', t = (none, p, none, some h') ∧
        (p = some .Turn ∨ p = some .Ground) ∧ h'.k.InvW ∧ h'.k.n = 0 ∧ h'.k.nx = 0 ∧
        ∃ M', h'.k.Bounded M' ∧ cfg.SafeUpTo A M') := by
  -- a decided primer means that the denominator is identically zero
  have dec : ∀ {v : ℚ} {k k' : Coef4} {p M} {n : Nat}, 0 < v → v < 1 → k.denAt v = 0 →
      k.Bounded M → cfg.SafeUpTo A (M * 2 ^ n) →
      Coef4.Primed k p k' ∧ Coef4.Amen k.d (k.d + k.dx) → k.d = 0 ∧ k.dx = 0 ∧
      (p = some .Turn ∨ p = some .Ground) ∧ k'.InvW ∧ k'.n = 0 ∧ k'.nx = 0 ∧
      ∃ M', k'.Bounded M' ∧ cfg.SafeUpTo A M' := by
    intro v k k' p M n h0 h1 hz hb hs ⟨hp, ham⟩
    have hd : k.d = 0 ∧ k.d + k.dx = 0 := by
      by_contra hne
      rcases (show (0 ≤ k.d ∧ 0 ≤ k.d + k.dx) ∨ (0 ≤ -k.d ∧ 0 ≤ -k.d + -k.dx) by
        unfold Coef4.Amen at ham; omega) with h | h
      · have := Coef4.lin_pos h0 h1 h.1 h.2 hne
        unfold Coef4.denAt at hz; linarith
      · have := Coef4.lin_pos (a := -k.dx) (b := -k.d) h0 h1 h.1 h.2 (by omega)
        unfold Coef4.denAt at hz; push_cast at this; linarith
    have hb' := hp.rel.bounded hb
    have hi := hp.inv
    refine ⟨hd.1, by omega, ?_, hi, ?_, ?_, M, hb', hs.head hb.pos⟩
    · rcases hp.rel with ⟨rfl, _⟩ | ⟨rfl, _⟩ | ⟨rfl, rfl⟩ | ⟨rfl, rfl⟩
      · exact .inr rfl
      · exact .inl rfl
      · exfalso; unfold Coef4.InvW Coef4.PosW Coef4.opp at hi; simp only at hi; omega
      · exfalso; unfold Coef4.InvW Coef4.PosW Coef4.opp at hi; simp only at hi; omega
    · rcases hp.rel with ⟨rfl, rfl⟩ | ⟨rfl, rfl⟩ | ⟨rfl, rfl⟩ | ⟨rfl, rfl⟩ <;> (try simp only)
      · omega
      · omega
      · exfalso; unfold Coef4.InvW Coef4.PosW Coef4.opp at hi; simp only at hi; omega
      · exfalso; unfold Coef4.InvW Coef4.PosW Coef4.opp at hi; simp only at hi; omega
    · rcases hp.rel with ⟨rfl, rfl⟩ | ⟨rfl, rfl⟩ | ⟨rfl, rfl⟩ | ⟨rfl, rfl⟩ <;> (try simp only)
      · omega
      · omega
      · exfalso; unfold Coef4.InvW Coef4.PosW Coef4.opp at hi; simp only at hi; omega
      · exfalso; unfold Coef4.InvW Coef4.PosW Coef4.opp at hi; simp only at hi; omega
  induction hx with
  | half =>
    intro h M hd hD hb hs
    refine Ev.succ ?_
    simp only [Homographic.prime]
    refine Ev.bind_sat (Coef4.primerAttempt_sat (hs.head hb.pos) hb) ?_
    rintro (_ | ⟨p, k'⟩) hr
    · simp only [Homographic.primeIngest]
      refine Ev.bind (Q := fun _ => False) ?_ (fun _ h => h.elim)
      · refine Ev.bind hd.ev ?_
        rintro ⟨r, x⟩ ⟨hr, _⟩
        rw [sym_half] at hr
        simp only at hr
        subst hr
        refine Ev.bind_sat (Coef4.valueAtOneHalf_sat (hs.head hb.pos) hb) ?_
        rintro ⟨a, b⟩ ⟨hc, f1, f2, g1, g2, g3, g4⟩
        simp only at f1 f2 g1 g2 g3 g4 hc ⊢
        have hb0 : b = 0 := by
          obtain ⟨c, hc', _, hc⟩ := hc
          have : (h.k.dx : ℚ) + 2 * h.k.d = 0 := by
            unfold Coef4.denAt at hD; linarith
          have : h.k.dx + 2 * h.k.d = 0 := by exact_mod_cast this
          rw [this] at hc
          rcases hc' with rfl | rfl <;> omega
        subst hb0
        refine Ev.bind_sat (Ratio.newI_zero f1 ((hs.head hb.pos).lin (by omega) (by omega)) hA) ?_
        exact fun _ h => h.elim
    · obtain ⟨d1, d2, d3⟩ := dec (by norm_num) (by norm_num) hD hb hs (hr p k' rfl)
      exact Ev.pure ⟨d1, d2, p, _, rfl, d3⟩
  | @amplify v l h0 h1 hx ih =>
    intro h M hd hD hb hs
    refine Ev.succ ?_
    simp only [Homographic.prime]
    refine Ev.bind_sat (Coef4.primerAttempt_sat (hs.head hb.pos) hb) ?_
    rintro (_ | ⟨p, k'⟩) hr
    · simp only [Homographic.primeIngest]
      refine Ev.bind (Q := fun r => r.1 = none ∧ Clog.Denotes cfg A r.2.x (2 * v) ∧
        r.2.k.denAt (2 * v) = 0 ∧ r.2.k.Bounded (2 * M) ∧
        (r.2.k.d = 0 → r.2.k.dx = 0 → h.k.d = 0 ∧ h.k.dx = 0)) ?_ ?_
      · refine Ev.bind hd.ev ?_
        rintro ⟨r, x⟩ ⟨hr, hx'⟩
        rw [sym_lt h1] at hr
        rw [next_lt h1] at hx'
        simp only at hr
        subst hr
        refine Ev.bind_sat (Coef4.ingestAmplify_sat (hs.head hb.pos) hb) ?_
        intro k' hk
        refine Ev.pure ⟨rfl, hx', ?_, Coef4.bounded_ingestAmplify hk hb, ?_⟩
        · obtain ⟨c, hc, _, _, c3, c4⟩ := hk
          have c3' : (c : ℚ) * k'.d = 2 * h.k.d := by exact_mod_cast c3
          have c4' : (c : ℚ) * k'.dx = h.k.dx := by exact_mod_cast c4
          have hc' : (c : ℚ) ≠ 0 := by
            rcases hc with rfl | rfl <;> norm_num
          unfold Coef4.denAt at hD ⊢
          have e2 : (c : ℚ) * (k'.dx * (2 * v) + k'.d) = 2 * (h.k.dx * v + h.k.d) := by
            rw [mul_add, c3', ← mul_assoc, c4']; ring
          rw [hD, mul_zero] at e2
          exact (mul_eq_zero.1 e2).resolve_left hc'
        · obtain ⟨c, hc, _, _, c3, c4⟩ := hk
          intro z1 z2
          simp only at z1 z2
          rw [z1] at c3; rw [z2] at c4
          constructor <;> omega
      · rintro ⟨o, h'⟩ ⟨rfl, e1, e2, e3, e4⟩
        simp only at e1 e2 e3 e4 ⊢
        refine (ih e1 e2 e3 hs.tail).mono ?_
        rintro t ⟨z1, z2, r⟩
        exact ⟨(e4 z1 z2).1, (e4 z1 z2).2, r⟩
    · obtain ⟨d1, d2, d3⟩ := dec h0 (by linarith) hD hb hs (hr p k' rfl)
      exact Ev.pure ⟨d1, d2, p, _, rfl, d3⟩
  | @uncover v l h0 h1 hx ih =>
    intro h M hd hD hb hs
    have hv0 : v ≠ 0 := by linarith
    refine Ev.succ ?_
    simp only [Homographic.prime]
    refine Ev.bind_sat (Coef4.primerAttempt_sat (hs.head hb.pos) hb) ?_
    rintro (_ | ⟨p, k'⟩) hr
    · simp only [Homographic.primeIngest]
      refine Ev.bind (Q := fun r => r.1 = none ∧ Clog.Denotes cfg A r.2.x (1 / v - 1) ∧
        r.2.k.denAt (1 / v - 1) = 0 ∧ r.2.k.Bounded (2 * M) ∧
        (r.2.k.d = 0 → r.2.k.dx = 0 → h.k.d = 0 ∧ h.k.dx = 0)) ?_ ?_
      · refine Ev.bind hd.ev ?_
        rintro ⟨r, x⟩ ⟨hr, hx'⟩
        rw [sym_gt h0] at hr
        rw [next_gt h0] at hx'
        simp only at hr
        subst hr
        refine Ev.bind_sat (Coef4.ingestUncover_sat (hs.head hb.pos) hb) ?_
        rintro _ rfl
        refine Ev.pure ⟨rfl, hx', ?_, Coef4.bounded_ingestUncover hb, ?_⟩
        · unfold Coef4.denAt at hD ⊢
          simp only
          push_cast
          have e2 : v * ((h.k.d : ℚ) * (1 / v - 1) + (h.k.dx + h.k.d)) = h.k.dx * v + h.k.d := by
            field_simp; ring
          rw [hD] at e2
          exact (mul_eq_zero.1 e2).resolve_left hv0
        · simp only; omega
      · rintro ⟨o, h'⟩ ⟨rfl, e1, e2, e3, e4⟩
        simp only at e1 e2 e3 e4 ⊢
        refine (ih e1 e2 e3 hs.tail).mono ?_
        rintro t ⟨z1, z2, r⟩
        exact ⟨(e4 z1 z2).1, (e4 z1 z2).2, r⟩
    · obtain ⟨d1, d2, d3⟩ := dec (by linarith) h1 hD hb hs (hr p k' rfl)
      exact Ev.pure ⟨d1, d2, p, _, rfl, d3⟩

end Homographic

/-- The reciprocal-of-zero state decides `Amplify` at once, and remains such a state. -/
theorem Coef4.reductionAttempt_zero {cfg : Cfg} {A M} {k : Coef4} (hs : cfg.SafeUpTo A M)
    (hb : k.Bounded M) (hI : InvW k) (hn : k.n = 0) (hnx : k.nx = 0) :
    Sat A (k.reductionAttempt cfg) (fun r => ∃ k', r = some (some .Amplify, k') ∧ InvW k' ∧
      k'.n = 0 ∧ k'.nx = 0 ∧ k'.Bounded M) := by
  have hb0 := hb
  obtain ⟨b1, b2, b3, b4, b5, b6, b7, b8, b9⟩ := hb0
  have hd : k.d ≠ 0 ∧ k.d + k.dx ≠ 0 ∧ Amen k.d (k.d + k.dx) := by
    unfold InvW PosW opp at hI
    unfold Amen
    simp only at hI
    omega
  unfold reductionAttempt
  refine Sat.bind (areSingularitiesOutsideDomain_sat hs hb) ?_
  intro b hb'
  rw [if_pos (hb'.2 ⟨.inl hn, hd.2.2⟩)]
  unfold reductionEgest
  refine Sat.bind (imageExtremes_sat hs hb) ?_
  rintro t ⟨hex, c1, c2, c3, c4, c5, c6, c7, c8⟩
  rcases hex with ⟨hz, rfl⟩ | ⟨z0, z1, p0, q0, p1, q1, hn0, hn1, hmm⟩
  · omega
  have hp0 := hn0.zero hn
  have hp1 := hn1.zero (by omega)
  have hmm := hmm (fun h => h.2.2 (by omega))
  have m1 := (hmm.max_le 1 0 (by norm_num)).2 (by omega)
  have l1 := (hmm.le_min 1 0 (by norm_num)).2 (by omega)
  have hsame := hmm.same (by rw [hp0, hp1]; ring)
  have hnz := hmm.nmin
  obtain ⟨nmin, dmn, nmax, dmx⟩ := t
  simp only [one_mul, zero_mul] at *
  obtain ⟨rfl, rfl⟩ := hsame
  have : nmin = 0 := by omega
  subst this
  have hdn : 0 < dmn := by
    rcases c3.lt_or_eq with h | h
    · exact h
    · exact absurd rfl (hnz h.symm)
  rw [if_neg (by simp [lessThanZero_eq c3]), if_neg (by simp [greaterThanOne_eq c3, c3])]
  refine Sat.bind (Sat.andAlso (equalToOneHalf_sat (hs.lin (by omega) (by omega)))
    fun _ => equalToOneHalf_sat (hs.lin (by omega) (by omega))) ?_
  intro both hboth
  rw [if_neg (by rw [hboth]; omega)]
  refine Sat.bind (greaterThanOneHalf_sat c3 (hs.lin (by omega) (by omega))) ?_
  intro g hg
  have hg' : g = false := hg.2 (by omega)
  subst hg'
  simp only [Bool.not_false, if_true]
  refine Sat.bind (amplify_sat (hs.lin (by omega) (by omega)) (hs.lin (by omega) (by omega))) ?_
  rintro k' ⟨c, hc, a1, a2, a3, a4⟩
  refine Sat.pure ⟨k', rfl, ?_, ?_, ?_, ?_⟩
  · unfold InvW PosW opp at hI ⊢
    simp only at hI ⊢
    rcases hc with rfl | rfl <;> omega
  · rcases hc with rfl | rfl <;> omega
  · rcases hc with rfl | rfl <;> omega
  · rcases hc with rfl | rfl <;> constructor <;> omega

/-- Such a state amplifies forever. -/
theorem Homographic.amplifies {cfg : Cfg} {A : Panic → Prop} {M : Int} (hs : cfg.SafeUpTo A M)
    (m : Nat) : ∀ {h : Homographic}, h.k.Bounded M → h.k.InvW → h.k.n = 0 → h.k.nx = 0 →
    Ends A (fun f => Clog.egests cfg f m h.box)
      (fun r => r.1 = List.replicate m (some .Amplify)) := by
  induction m with
  | zero => intro h _ _ _ _; exact Ends.of_sat (Sat.pure rfl)
  | succ m ih =>
    intro h hb hI hn hnx
    simp only [Clog.egests]
    refine Ends.bind (Q := fun r => r.1 = some .Amplify ∧ ∃ h' : Homographic, r.2 = h'.box ∧
      h'.k.Bounded M ∧ h'.k.InvW ∧ h'.k.n = 0 ∧ h'.k.nx = 0) ?_ ?_
    · refine Clog.egest_ends (Q := fun r => r.1 = .ok (some .Amplify) ∧ ∃ h' : Homographic,
        r.2 = h'.box ∧ h'.k.Bounded M ∧ h'.k.InvW ∧ h'.k.n = 0 ∧ h'.k.nx = 0) ?_ ?_ ?_
      · simp only [Strategy.egest, Homographic.box]
        refine Ev.bind (Q := fun r => r.1 = .ok (some .Amplify) ∧ r.2.k.Bounded M ∧ r.2.k.InvW ∧
          r.2.k.n = 0 ∧ r.2.k.nx = 0) ?_ ?_
        · refine Ev.succ ?_
          simp only [Homographic.egest]
          refine Ev.bind_sat (Coef4.reductionAttempt_zero hs hb hI hn hnx) ?_
          rintro _ ⟨k', rfl, i1, i2, i3, i4⟩
          exact Ev.pure ⟨rfl, i4, i1, i2, i3⟩
        · rintro ⟨e, h'⟩ ⟨h1, h2⟩
          exact Ev.pure ⟨h1, h', rfl, h2⟩
      · rintro red s' ⟨h1, h2⟩
        simp only [Egested.ok.injEq] at h1
        exact ⟨h1, h2⟩
      · rintro new s' ⟨h1, _⟩
        simp at h1
    · rintro ⟨r, c⟩ ⟨h1, h', h2, hb', i1, i2, i3⟩
      simp only at h1 h2
      subst h1 h2
      refine Ends.bind (ih hb' i1 i2 i3) ?_
      rintro ⟨rs, c⟩ h
      simp only at h
      subst h
      exact Ends.of_sat (Sat.pure rfl)

/-- At a pole, `homographic::new` panics, or (only when the denominator is identically zero)
gives a reciprocal whose clog amplifies forever. -/
theorem Homographic.new_pole_ev {cfg : Cfg} {A : Panic → Prop} (hA : A .divisionByZero)
    {x : Number} {q : ℚ} {L : Nat} {M nx n dx d : Int}
    (hx : Number.DenotesIn cfg A x q L) (ha : Args cfg M nx n dx d)
    (hs : cfg.SafeUpTo A (2 * M * 2 ^ L)) (hD : (dx : ℚ) * q + d = 0) :
    Ev A (fun f j => Homographic.new cfg (Clog.egest cfg f) j x nx n dx d)
      (fun t => d = 0 ∧ dx = 0 ∧ ∃ p h', t = (none, p, none, some h') ∧
        (p = some .Turn ∨ p = some .Ground) ∧ Clog.AmplifiesForever cfg A h'.box) := by
  obtain ⟨hM, f1, f2, f3, f4, b1, b1', b2, b2', b3, b3', b4, b4'⟩ := ha
  have hs2 : cfg.SafeUpTo A (2 * M) := hs.head (by omega)
  unfold Homographic.new
  by_cases h0 : nx = 0 ∧ dx = 0
  · simp only [if_pos h0]
    obtain ⟨rfl, rfl⟩ := h0
    have : d = 0 := by simpa using hD
    subst this
    exact (asRatio_zero f2 (hs2.lin (by omega) (by omega)) hA).mono fun _ h => h.elim
  simp only [if_neg h0]
  cases x with
  | Special s =>
    have hq : q = specialValue s := hx
    subst hq
    cases s
    · refine Ev.bind_sat (Cfg.csub_sat (hs2.lin (by omega) (by omega))) ?_
      rintro _ ⟨rfl, g1⟩
      refine Ev.bind_sat (Cfg.csub_sat (hs2.lin (by omega) (by omega))) ?_
      rintro _ ⟨rfl, g2⟩
      simp only [specialValue] at hD
      have hne : d - dx = 0 := by
        have : (d : ℚ) - dx = 0 := by linarith
        exact_mod_cast this
      rw [hne]
      exact (asRatio_zero g1 (hs2.lin (by omega) (by omega)) hA).mono fun _ h => h.elim
    · simp only [specialValue] at hD
      have : d = 0 := by simpa using hD
      subst this
      exact (asRatio_zero f2 (hs2.lin (by omega) (by omega)) hA).mono fun _ h => h.elim
    · refine Ev.bind_sat (Cfg.cadd_sat (hs2.lin (by omega) (by omega))) ?_
      rintro _ ⟨rfl, g1⟩
      refine Ev.bind_sat (Cfg.cadd_sat (hs2.lin (by omega) (by omega))) ?_
      rintro _ ⟨rfl, g2⟩
      simp only [specialValue] at hD
      have hne : d + dx = 0 := by
        have : (d : ℚ) + dx = 0 := by linarith
        exact_mod_cast this
      rw [hne]
      exact (asRatio_zero g1 (hs2.lin (by omega) (by omega)) hA).mono fun _ h => h.elim
  | Other p c =>
    obtain ⟨v, l, hv, hl, hL, rfl⟩ := hx
    refine Ev.bind_sat (absorbPrimer_sat (hs2.lin (by simp only; omega) (by simp only; omega))
      (hs2.lin (by simp only; omega) (by simp only; omega))) ?_
    intro k' hk
    obtain ⟨c', hc, e1, e2⟩ := absorbed hv.1 hk
    have hb := absorbed_bounded (M := M) hM (by simp only; omega) hk
    simp only [Coef4.numAt, Coef4.denAt] at e1 e2
    have hs' : cfg.SafeUpTo A (2 * M * 2 ^ l.length) := by
      refine hs.mono (by positivity) (mul_le_mul_of_nonneg_left ?_ (by omega))
      exact pow_le_pow_right₀ (by norm_num) hL
    refine (prime_pole_ev hA (h := ⟨c, k'⟩) hl hv ?_ hb hs').mono ?_
    · simp only [Coef4.denAt]
      rw [e2, hD, mul_zero]
    · rintro t ⟨z1, z2, p', h', rfl, hp, i1, i2, i3, M', i4, i5⟩
      have hz : d = 0 ∧ dx = 0 := by
        rcases hk with ⟨_, rfl⟩ | ⟨_, rfl⟩ | ⟨_, rfl⟩ | ⟨_, rfl⟩ <;> simp only at z1 z2 <;> omega
      exact ⟨hz.1, hz.2, p', h', rfl, hp, fun m => Homographic.amplifies i5 m i4 i1 i2 i3⟩

/-! ## `Number::homographic` -/

theorem Number.homographic_sums_ends {cfg : Cfg} {A : Panic → Prop} {x : Number} {q : ℚ}
    {P : List Reduction → Prop} {S nx n dx d : Int}
    (hx : Number.DenotesBy cfg A x q P) (ha : Homographic.Sums cfg S nx n dx d)
    (hs0 : cfg.SafeUpTo A S) (hs : ∀ l, P l → cfg.SafeUpTo A (peak l S S)) (hD : (dx : ℚ) * q + d ≠ 0) :
    Ends A (fun f => Number.homographic cfg f x nx n dx d)
      (fun r => Number.Denotes cfg A r ((nx * q + n) / (dx * q + d))) := by
  unfold Number.homographic
  refine Ends.bind (Homographic.new_sums_ev hx ha hs0 hs hD).ends ?_
  rintro t (⟨s, rfl, hq⟩ | ⟨p, r, rfl, hr, hq⟩ | ⟨p, h, w, rfl, hh, hq⟩)
  · exact Ends.of_sat (Sat.pure hq)
  · exact Ends.of_sat (Sat.pure ⟨r.val, Ratio.denotes hr, hq⟩)
  · exact Ends.of_sat (Sat.pure ⟨w, hh.denotes, hq⟩)

theorem Number.homographic_ends {cfg : Cfg} {A : Panic → Prop} {x : Number} {q : ℚ} {L : Nat}
    {M nx n dx d : Int}
    (hx : Number.DenotesIn cfg A x q L) (ha : Homographic.Args cfg M nx n dx d)
    (hs : cfg.SafeUpTo A (2 * M * 2 ^ L)) (hD : (dx : ℚ) * q + d ≠ 0) :
    Ends A (fun f => Number.homographic cfg f x nx n dx d)
      (fun r => Number.Denotes cfg A r ((nx * q + n) / (dx * q + d))) := by
  unfold Number.homographic
  refine Ends.bind (Homographic.new_ev hx ha hs hD).ends ?_
  rintro t (⟨s, rfl, hq⟩ | ⟨p, r, rfl, hr, hq⟩ | ⟨p, h, w, rfl, hh, hq⟩)
  · exact Ends.of_sat (Sat.pure hq)
  · exact Ends.of_sat (Sat.pure ⟨r.val, Ratio.denotes hr, hq⟩)
  · exact Ends.of_sat (Sat.pure ⟨w, hh.denotes, hq⟩)

theorem Number.homographic_pole_ends {cfg : Cfg} {A : Panic → Prop} (hA : A .divisionByZero)
    {x : Number} {q : ℚ} {L : Nat} {M nx n dx d : Int}
    (hx : Number.DenotesIn cfg A x q L) (ha : Homographic.Args cfg M nx n dx d)
    (hs : cfg.SafeUpTo A (2 * M * 2 ^ L)) (hD : (dx : ℚ) * q + d = 0) :
    Ends A (fun f => Number.homographic cfg f x nx n dx d)
      (fun r => d = 0 ∧ dx = 0 ∧ ∃ p c, r = .Other p c ∧ (p = some .Turn ∨ p = some .Ground) ∧
        Clog.AmplifiesForever cfg A c) := by
  unfold Number.homographic
  refine Ends.bind (Homographic.new_pole_ev hA hx ha hs hD).ends ?_
  rintro t ⟨z1, z2, p, h, rfl, hp, ha⟩
  exact Ends.of_sat (Sat.pure ⟨z1, z2, p, _, rfl, hp, ha⟩)

end Clarith
