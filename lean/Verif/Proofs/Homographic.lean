import Verif.Proofs.Peak

/-! # `Homographic` denotes the value of its map -/

namespace Clarith

open Out Spec

namespace Coef4

/-! ## Values -/

/-- Numerator at `v`. -/
def numAt (k : Coef4) (v : ℚ) : ℚ := k.nx * v + k.n
/-- Denominator at `v`. -/
def denAt (k : Coef4) (v : ℚ) : ℚ := k.dx * v + k.d

theorem val_eq (k : Coef4) (v : ℚ) : k.val v = k.numAt v / k.denAt v := rfl

theorem opp_opp (k : Coef4) : k.opp.opp = k := by simp [opp]

theorem val_opp (k : Coef4) (v : ℚ) : k.opp.val v = k.val v := by
  simp only [val, opp]
  push_cast
  rw [show (-(k.nx : ℚ) * v + -(k.n : ℚ)) = -(k.nx * v + k.n) by ring,
    show (-(k.dx : ℚ) * v + -(k.d : ℚ)) = -(k.dx * v + k.d) by ring, neg_div_neg_eq]

theorem bounded_opp {k : Coef4} {M} (h : k.Bounded M) : k.opp.Bounded M := by
  obtain ⟨h1, h2, h3, h4, h5, h6, h7, h8, h9⟩ := h
  constructor <;> (try simp only [opp]) <;> omega

theorem invW_opp {k : Coef4} (h : InvW k) : InvW k.opp := by
  unfold InvW at *
  rw [opp_opp]
  exact h.symm

/-- A linear function is a convex combination of its values at the ends. -/
theorem lin_pos {a b : Int} {v : ℚ} (h0 : 0 < v) (h1 : v < 1) (ha : 0 ≤ b) (hb : 0 ≤ b + a)
    (hne : ¬(b = 0 ∧ b + a = 0)) : (0 : ℚ) < a * v + b := by
  have ha' : (0 : ℚ) ≤ b := by exact_mod_cast ha
  have hb' : (0 : ℚ) ≤ (b : ℚ) + a := by exact_mod_cast hb
  have e : (a : ℚ) * v + b = (1 - v) * b + v * (b + a) := by ring
  rw [e]
  rcases ha.lt_or_eq with h | h
  · have : (0 : ℚ) < b := by exact_mod_cast h
    have h3 : 0 < (1 - v) * (b : ℚ) := mul_pos (by linarith) this
    have h4 : 0 ≤ v * ((b : ℚ) + a) := mul_nonneg h0.le hb'
    linarith
  · have hlt : 0 < b + a := by
      rcases hb.lt_or_eq with h' | h'
      · exact h'
      · exact absurd ⟨h.symm, h'.symm⟩ hne
    have : (0 : ℚ) < (b : ℚ) + a := by exact_mod_cast hlt
    have h3 : 0 ≤ (1 - v) * (b : ℚ) := mul_nonneg (by linarith) ha'
    have h4 : 0 < v * ((b : ℚ) + a) := mul_pos h0 this
    linarith

theorem PosW.den_pos {k : Coef4} (h : PosW k) {v : ℚ} (h0 : 0 < v) (h1 : v < 1) :
    0 < k.denAt v := by
  unfold PosW at h
  exact lin_pos h0 h1 (by omega) (by omega) (by omega)

theorem PosW.num_pos {k : Coef4} (h : PosW k) (hn : ¬(k.n = 0 ∧ k.n + k.nx = 0)) {v : ℚ}
    (h0 : 0 < v) (h1 : v < 1) : 0 < k.numAt v := by
  unfold PosW at h
  exact lin_pos h0 h1 (by omega) (by omega) hn

theorem PosW.num_lt {k : Coef4} (h : PosW k) {v : ℚ}
    (h0 : 0 < v) (h1 : v < 1) : k.numAt v < k.denAt v := by
  unfold PosW at h
  have := lin_pos (a := k.dx - k.nx) (b := k.d - k.n) h0 h1 (by omega) (by omega) (by omega)
  unfold numAt denAt
  push_cast at this
  linarith

theorem Inv.opp {k : Coef4} (h : Inv k) : Inv k.opp := by
  refine ⟨invW_opp h.1, ?_⟩
  have := h.2
  simp only [Coef4.opp]
  omega

theorem Inv.val_mem {k : Coef4} (h : Inv k) {v : ℚ} (h0 : 0 < v) (h1 : v < 1) :
    0 < k.val v ∧ k.val v < 1 := by
  obtain ⟨hp | hp, hn⟩ := h
  · have d := hp.den_pos h0 h1
    rw [val_eq]
    exact ⟨div_pos (hp.num_pos hn h0 h1) d, by
      rw [div_lt_iff₀ d, one_mul]; exact hp.num_lt h0 h1⟩
  · have d := hp.den_pos h0 h1
    rw [← val_opp, val_eq]
    refine ⟨div_pos (hp.num_pos ?_ h0 h1) d, by
      rw [div_lt_iff₀ d, one_mul]; exact hp.num_lt h0 h1⟩
    simp only [Coef4.opp]; omega

/-! ## Ingestion -/

/-- Ingestion of a symbol of `v` leaves the value unchanged. -/
theorem val_ingestAmplify {k r : Coef4} {v : ℚ}
    (h : ∃ c : Int, (c = 1 ∨ c = 2) ∧ c * r.n = 2 * k.n ∧ c * r.nx = k.nx ∧
        c * r.d = 2 * k.d ∧ c * r.dx = k.dx) : r.val (2 * v) = k.val v := by
  obtain ⟨c, hc, h1, h2, h3, h4⟩ := h
  have hc' : (c : ℚ) ≠ 0 := by
    rcases hc with rfl | rfl <;> norm_num
  have h1' : (c : ℚ) * r.n = 2 * k.n := by exact_mod_cast h1
  have h2' : (c : ℚ) * r.nx = k.nx := by exact_mod_cast h2
  have h3' : (c : ℚ) * r.d = 2 * k.d := by exact_mod_cast h3
  have h4' : (c : ℚ) * r.dx = k.dx := by exact_mod_cast h4
  unfold val
  rw [← mul_div_mul_left _ _ hc', ← mul_div_mul_left (_ * v + _) _ (two_ne_zero (α := ℚ))]
  congr 1
  · rw [mul_add, h1', ← mul_assoc, h2']; ring
  · rw [mul_add, h3', ← mul_assoc, h4']; ring

theorem val_ingestUncover {k : Coef4} {v : ℚ} (hv : v ≠ 0) :
    (⟨k.n, k.nx + k.n, k.d, k.dx + k.d⟩ : Coef4).val (1 / v - 1) = k.val v := by
  unfold val
  rw [← mul_div_mul_left _ _ hv]
  push_cast
  congr 1 <;> field_simp <;> ring

theorem val_half {k : Coef4} {a b : Int}
    (h : ∃ c : Int, (c = 1 ∨ c = 2) ∧ c * a = k.nx + 2 * k.n ∧ c * b = k.dx + 2 * k.d) :
    (a : ℚ) / b = k.val (1 / 2) := by
  obtain ⟨c, hc, h1, h2⟩ := h
  have hc' : (c : ℚ) ≠ 0 := by
    rcases hc with rfl | rfl <;> norm_num
  have h1' : (c : ℚ) * a = k.nx + 2 * k.n := by exact_mod_cast h1
  have h2' : (c : ℚ) * b = k.dx + 2 * k.d := by exact_mod_cast h2
  unfold val
  rw [← mul_div_mul_left _ _ hc', ← mul_div_mul_left (_ * (1 / 2 : ℚ) + _) _ (two_ne_zero (α := ℚ))]
  congr 1
  · rw [h1']; ring
  · rw [h2']; ring

theorem bounded_ingestAmplify {k r : Coef4} {M}
    (h : ∃ c : Int, (c = 1 ∨ c = 2) ∧ c * r.n = 2 * k.n ∧ c * r.nx = k.nx ∧
        c * r.d = 2 * k.d ∧ c * r.dx = k.dx) (hb : k.Bounded M) : r.Bounded (2 * M) := by
  obtain ⟨c, hc, h1, h2, h3, h4⟩ := h
  obtain ⟨b1, b2, b3, b4, b5, b6, b7, b8, b9⟩ := hb
  rcases hc with rfl | rfl <;> constructor <;> omega

theorem bounded_ingestUncover {k : Coef4} {M} (hb : k.Bounded M) :
    (⟨k.n, k.nx + k.n, k.d, k.dx + k.d⟩ : Coef4).Bounded (2 * M) := by
  obtain ⟨b1, b2, b3, b4, b5, b6, b7, b8, b9⟩ := hb
  constructor <;> (try simp only) <;> omega

theorem invW_ingestAmplify {k r : Coef4}
    (h : ∃ c : Int, (c = 1 ∨ c = 2) ∧ c * r.n = 2 * k.n ∧ c * r.nx = k.nx ∧
        c * r.d = 2 * k.d ∧ c * r.dx = k.dx) (hI : InvW k) : InvW r := by
  obtain ⟨c, hc, h1, h2, h3, h4⟩ := h
  unfold InvW PosW opp at *
  simp only at *
  rcases hc with rfl | rfl <;> omega

theorem inv_ingestAmplify {k r : Coef4}
    (h : ∃ c : Int, (c = 1 ∨ c = 2) ∧ c * r.n = 2 * k.n ∧ c * r.nx = k.nx ∧
        c * r.d = 2 * k.d ∧ c * r.dx = k.dx) (hI : Inv k) : Inv r := by
  refine ⟨invW_ingestAmplify h hI.1, ?_⟩
  have := hI.2
  obtain ⟨c, hc, h1, h2, h3, h4⟩ := h
  rcases hc with rfl | rfl <;> omega

theorem invW_ingestUncover {k : Coef4} (hI : InvW k) :
    InvW ⟨k.n, k.nx + k.n, k.d, k.dx + k.d⟩ := by
  unfold InvW PosW opp at *
  simp only at *
  omega

theorem inv_ingestUncover {k : Coef4} (hI : Inv k) :
    Inv ⟨k.n, k.nx + k.n, k.d, k.dx + k.d⟩ := by
  refine ⟨invW_ingestUncover hI.1, ?_⟩
  have := hI.2
  simp only
  omega

/-! ## Egestion -/

private theorem red_pos {k k' : Coef4} {r} {M} {v : ℚ} (h0 : 0 < v) (h1 : v < 1) (hp : PosW k)
    (hn : ¬(k.n = 0 ∧ k.n + k.nx = 0)) (hb : k.Bounded M) (h : ReductionRel k r k') :
    r = sym (k.val v) ∧ Inv k' ∧ k'.Bounded M ∧ k'.val v = next (k.val v) := by
  have hd := hp.den_pos h0 h1
  have hnum := hp.num_pos hn h0 h1
  obtain ⟨b1, b2, b3, b4, b5, b6, b7, b8, b9⟩ := hb
  rcases h with ⟨rfl, rfl, e1, e2⟩ | ⟨rfl, ⟨c, hc, a1, a2, a3, a4⟩, e1, e2, e3⟩ | ⟨rfl, rfl, e1, e2, e3⟩
  · have e1' : (k'.d : ℚ) = 2 * k'.n := by exact_mod_cast e1.symm
    have e2' : (k'.dx : ℚ) = 2 * k'.nx := by
      have : k'.dx = 2 * k'.nx := by omega
      exact_mod_cast this
    have hv : k'.val v = 1 / 2 := by
      rw [val_eq]
      have : k'.denAt v = 2 * k'.numAt v := by unfold denAt numAt; rw [e1', e2']; ring
      rw [this]; field_simp
    refine ⟨by rw [hv, sym_half], ⟨.inl hp, hn⟩, ⟨b1, b2, b3, b4, b5, b6, b7, b8, b9⟩, ?_⟩
    rw [hv, next_half]
  · have hlt : k.val v < 1 / 2 := by
      rw [val_eq, div_lt_div_iff₀ hd (by norm_num)]
      have := lin_pos (a := k.dx - 2 * k.nx) (b := k.d - 2 * k.n) h0 h1 (by omega) (by omega)
        (by omega)
      unfold numAt denAt
      push_cast at this
      linarith
    refine ⟨(sym_lt hlt).symm, ⟨.inl ?_, ?_⟩, ?_, ?_⟩
    · unfold PosW at hp ⊢
      rcases hc with rfl | rfl <;> omega
    · rcases hc with rfl | rfl <;> omega
    · unfold PosW at hp
      rcases hc with rfl | rfl <;> constructor <;> omega
    · rw [next_lt hlt]
      have hc' : (c : ℚ) ≠ 0 := by
        rcases hc with rfl | rfl <;> norm_num
      have a1' : (c : ℚ) * k'.n = 2 * k.n := by exact_mod_cast a1
      have a2' : (c : ℚ) * k'.nx = 2 * k.nx := by exact_mod_cast a2
      have a3' : (c : ℚ) * k'.d = k.d := by exact_mod_cast a3
      have a4' : (c : ℚ) * k'.dx = k.dx := by exact_mod_cast a4
      unfold val
      rw [← mul_div_mul_left _ _ hc', ← mul_div_assoc]
      congr 1
      · rw [mul_add, a1', ← mul_assoc, a2']; ring
      · rw [mul_add, a3', ← mul_assoc, a4']
  · have hgt : 1 / 2 < k.val v := by
      rw [val_eq, div_lt_div_iff₀ (by norm_num) hd]
      have := lin_pos (a := 2 * k.nx - k.dx) (b := 2 * k.n - k.d) h0 h1 (by omega) (by omega)
        (by omega)
      unfold numAt denAt
      push_cast at this
      linarith
    refine ⟨(sym_gt hgt).symm, ⟨.inl ?_, ?_⟩, ?_, ?_⟩
    · unfold PosW at hp ⊢
      simp only
      omega
    · unfold PosW at hp
      simp only
      omega
    · unfold PosW at hp
      constructor <;> (try simp only) <;> omega
    · rw [next_gt hgt]
      have hne : k.numAt v ≠ 0 := hnum.ne'
      rw [val_eq k, one_div_div, div_sub_one hne]
      unfold val numAt denAt
      push_cast
      congr 1; ring

theorem red_step {k k' : Coef4} {r} {M} {v : ℚ} (h0 : 0 < v) (h1 : v < 1)
    (hn : ¬(k.n = 0 ∧ k.n + k.nx = 0)) (hb : k.Bounded M)
    (h : (PosW k ∧ ReductionRel k r k') ∨ (PosW k.opp ∧ ReductionRel k.opp r k'.opp)) :
    r = sym (k.val v) ∧ Inv k' ∧ k'.Bounded M ∧ k'.val v = next (k.val v) := by
  rcases h with ⟨hp, hr⟩ | ⟨hp, hr⟩
  · exact red_pos h0 h1 hp hn hb hr
  · have := red_pos h0 h1 hp (by simp only [Coef4.opp]; omega) (bounded_opp hb) hr
    rw [val_opp, val_opp] at this
    refine ⟨this.1, ?_, ?_, this.2.2.2⟩
    · have := this.2.1.opp; rwa [opp_opp] at this
    · have := bounded_opp this.2.2.1; rwa [opp_opp] at this

theorem primerAttempt_sat {cfg : Cfg} {A M} {k : Coef4} (hs : cfg.SafeUpTo A M)
    (hb : k.Bounded M) :
    Sat A (k.primerAttempt cfg) (fun r => ∀ p k', r = some (p, k') → Primed k p k' ∧
      Amen k.d (k.d + k.dx)) := by
  unfold primerAttempt
  refine Sat.bind (areSingularitiesOutsideDomain_sat hs hb) ?_
  intro b hb'
  by_cases h : b = true
  · rw [if_pos h]
    refine Sat.mono (primerEgest_sat hs hb (hb'.1 h).1 (hb'.1 h).2) ?_
    exact fun r hr p k' e => ⟨hr p k' e, (hb'.1 h).2⟩
  · rw [if_neg h]
    exact Sat.pure (by simp)

theorem reductionAttempt_sat {cfg : Cfg} {A M} {k : Coef4} (hs : cfg.SafeUpTo A M)
    (hb : k.Bounded M) (hI : InvW k) :
    Sat A (k.reductionAttempt cfg) (fun r => ∀ p k', r = some (p, k') →
      (PosW k ∧ ReductionRel k p k') ∨ (PosW k.opp ∧ ReductionRel k.opp p k'.opp)) := by
  unfold reductionAttempt
  refine Sat.bind (areSingularitiesOutsideDomain_sat hs hb) ?_
  intro b hb'
  by_cases h : b = true
  · rw [if_pos h]
    exact reductionEgest_sat hs hb hI
  · rw [if_neg h]
    exact Sat.pure (by simp)

end Coef4

/-! ## The strategy -/

/-- Every call of `egest` on `x` is right about `v`, up to panics in `A`, `l` being the symbols
of `v`; the coefficients satisfy the invariant, and are small enough for the symbols left. -/
structure Homographic.OK (cfg : Cfg) (A : Panic → Prop) (h : Homographic) (w : ℚ) : Prop where
  intro ::
  ex : ∃ v l a b, Clog.Denotes cfg A h.x v ∧ Expands v l ∧ h.k.Inv ∧ h.k.Under a b ∧
    cfg.SafeUpTo A (peak l a b) ∧ w = h.k.val v

theorem Cfg.SafeUpTo.head {cfg : Cfg} {A M} {n : Nat} (hs : cfg.SafeUpTo A (M * 2 ^ n))
    (hM : 1 ≤ M) : cfg.SafeUpTo A M :=
  hs.mono (by omega) (le_mul_of_one_le_right (by omega) (one_le_pow₀ (by norm_num)))

theorem Cfg.SafeUpTo.tail {cfg : Cfg} {A M} {n : Nat} (hs : cfg.SafeUpTo A (M * 2 ^ (n + 1))) :
    cfg.SafeUpTo A (2 * M * 2 ^ n) := by
  rwa [pow_succ, show M * (2 ^ n * 2) = 2 * M * 2 ^ n by ring] at hs

/-- One call on an input clog: the answer is the first symbol. -/
theorem Clog.Denotes.ev {cfg : Cfg} {A : Panic → Prop} {c : Clog} {x : ℚ}
    (h : Clog.Denotes cfg A c x) :
    Ev A (fun f (_ : Nat) => Clog.egest cfg f c)
      (fun r => r.1 = sym x ∧ Clog.Denotes cfg A r.2 (next x)) := h.step.ev

/-- Outcome of `Homographic::egest`. -/
def Homographic.EgestOK (cfg : Cfg) (A : Panic → Prop) (w : ℚ) (r : Egested × Homographic) : Prop :=
  (∃ red, r.1 = .ok red ∧ red = sym w ∧ Homographic.OK cfg A r.2 (next w)) ∨
  (∃ q : Ratio, r.1 = .err (.ratio q) ∧ q.OK cfg ∧ q.val = w)

theorem Homographic.egest_ev {cfg : Cfg} {A : Panic → Prop} {v : ℚ} {l : List Reduction}
    (hx : Expands v l) : ∀ {h : Homographic} {a b : Int}, Clog.Denotes cfg A h.x v → h.k.Inv →
    h.k.Under a b → cfg.SafeUpTo A (peak l a b) →
    Ev A (fun f j => Homographic.egest cfg (Clog.egest cfg f) j h)
      (Homographic.EgestOK cfg A (h.k.val v)) := by
  induction hx with
  | half =>
    intro h a b hd hI hb hs
    refine Ev.succ ?_
    simp only [Homographic.egest]
    refine Ev.bind_sat (Coef4.reductionAttempt_sat hs (hb.peak _) hI.1) ?_
    rintro (_ | ⟨red, k'⟩) hr
    · simp only [Homographic.reductionIngest]
      refine Ev.bind (Q := fun r => ∃ q : Ratio, r.1 = some q ∧ q.OK cfg ∧
        q.val = h.k.val (1 / 2)) ?_ ?_
      · refine Ev.bind hd.ev ?_
        rintro ⟨r, x⟩ ⟨hr, _⟩
        rw [sym_half] at hr
        simp only at hr
        subst hr
        refine Ev.bind_sat (Coef4.valueAtOneHalf_sat hs (hb.peak _)) ?_
        rintro ⟨a', b'⟩ ⟨hc, f1, f2, g1, g2, g3, g4⟩
        have hv := Coef4.val_half hc
        have hm := hI.val_mem (v := 1 / 2) (by norm_num) (by norm_num)
        simp only at f1 f2 g1 g2 g3 g4 ⊢
        have hb0 : b' ≠ 0 := by
          rintro rfl
          simp at hv
          rw [one_div, ← hv] at hm; linarith [hm.1]
        refine Ev.bind_sat (Ratio.newI_sat hb0 f1 f2 (hs.lin (by omega) (by omega))
          (hs.lin (by omega) (by omega))) ?_
        rintro t ht
        rw [hv] at ht
        rcases ht with ⟨s, rfl, hs'⟩ | ⟨p, q, rfl, hq, hs'⟩
        · exfalso
          rw [hs'] at hm
          cases s <;> simp only [specialValue] at hm <;> linarith [hm.1, hm.2]
        · have hqm := hq.val_mem
          rcases p with _ | p
          · exact Ev.pure ⟨q, rfl, hq, hs'.symm⟩
          · exfalso
            rw [hs'] at hm
            cases p <;> simp only [applyPrimer] at hm
            · have : 1 < 1 / q.val := by rw [lt_div_iff₀ hqm.1]; linarith
              linarith
            · linarith
            · have : 0 < 1 / q.val := div_pos one_pos hqm.1
              linarith
      · rintro ⟨o, h'⟩ ⟨q, rfl, hq, hv⟩
        exact Ev.pure (.inr ⟨q, rfl, hq, hv⟩)
    · have := Coef4.red_step (v := 1 / 2) (by norm_num) (by norm_num) hI.2 (hb.peak []) (hr red k' rfl)
      obtain ⟨h1, h2, h3, h4⟩ := this
      exact Ev.pure (.inl ⟨red, rfl, h1, ⟨1 / 2, [], a, b, hd, .half, h2, hb.reduction (hr red k' rfl), hs, h4.symm⟩⟩)
  | @amplify v l h0 h1 hx ih =>
    intro h a b hd hI hb hs
    have hv1 : v < 1 := by linarith
    refine Ev.succ ?_
    simp only [Homographic.egest]
    refine Ev.bind_sat (Coef4.reductionAttempt_sat hs (hb.peak _) hI.1) ?_
    rintro (_ | ⟨red, k'⟩) hr
    · simp only [Homographic.reductionIngest]
      refine Ev.bind (Q := fun r => r.1 = none ∧ Clog.Denotes cfg A r.2.x (2 * v) ∧ r.2.k.Inv ∧
        r.2.k.Under (2 * a) (a + b) ∧ r.2.k.val (2 * v) = h.k.val v) ?_ ?_
      · refine Ev.bind hd.ev ?_
        rintro ⟨r, x⟩ ⟨hr, hx'⟩
        rw [sym_lt h1] at hr
        rw [next_lt h1] at hx'
        simp only at hr
        subst hr
        refine Ev.bind_sat (Coef4.ingestAmplify_sat hs (hb.peak _)) ?_
        intro k' hk
        exact Ev.pure ⟨rfl, hx', Coef4.inv_ingestAmplify hk hI, hb.amplify hk,
          Coef4.val_ingestAmplify hk⟩
      · rintro ⟨o, h'⟩ ⟨rfl, e1, e2, e3, e4⟩
        simp only at e1 e2 e3 e4 ⊢
        rw [← e4]
        exact ih e1 e2 e3 hs
    · have := Coef4.red_step h0 hv1 hI.2 (hb.peak []) (hr red k' rfl)
      obtain ⟨g1, g2, g3, g4⟩ := this
      exact Ev.pure (.inl ⟨red, rfl, g1, ⟨v, _, a, b, hd, .amplify h0 h1 hx, g2, hb.reduction (hr red k' rfl),
        hs, g4.symm⟩⟩)
  | @uncover v l h0 h1 hx ih =>
    intro h a b hd hI hb hs
    have hv0 : 0 < v := by linarith
    refine Ev.succ ?_
    simp only [Homographic.egest]
    refine Ev.bind_sat (Coef4.reductionAttempt_sat hs (hb.peak _) hI.1) ?_
    rintro (_ | ⟨red, k'⟩) hr
    · simp only [Homographic.reductionIngest]
      refine Ev.bind (Q := fun r => r.1 = none ∧ Clog.Denotes cfg A r.2.x (1 / v - 1) ∧ r.2.k.Inv ∧
        r.2.k.Under b (a + b) ∧ r.2.k.val (1 / v - 1) = h.k.val v) ?_ ?_
      · refine Ev.bind hd.ev ?_
        rintro ⟨r, x⟩ ⟨hr, hx'⟩
        rw [sym_gt h0] at hr
        rw [next_gt h0] at hx'
        simp only at hr
        subst hr
        refine Ev.bind_sat (Coef4.ingestUncover_sat hs (hb.peak _)) ?_
        rintro _ rfl
        exact Ev.pure ⟨rfl, hx', Coef4.inv_ingestUncover hI, hb.uncover,
          Coef4.val_ingestUncover hv0.ne'⟩
      · rintro ⟨o, h'⟩ ⟨rfl, e1, e2, e3, e4⟩
        simp only at e1 e2 e3 e4 ⊢
        rw [← e4]
        exact ih e1 e2 e3 hs
    · have := Coef4.red_step hv0 h1 hI.2 (hb.peak []) (hr red k' rfl)
      obtain ⟨g1, g2, g3, g4⟩ := this
      exact Ev.pure (.inl ⟨red, rfl, g1, ⟨v, _, a, b, hd, .uncover h0 h1 hx, g2, hb.reduction (hr red k' rfl),
        hs, g4.symm⟩⟩)

/-- `Clog::egest` on top of `Strategy::egest`. -/
theorem Clog.egest_ends {cfg : Cfg} {A : Panic → Prop} {s : Strategy} {Q : Egested × Strategy → Prop}
    {P : Option Reduction × Clog → Prop}
    (hE : Ev A (fun f j => Strategy.egest cfg (Clog.egest cfg f) j s) Q)
    (hok : ∀ red s', Q (.ok red, s') → P (red, s'))
    (herr : ∀ new s', Q (.err new, s') → Ends A (fun f => Clog.egest cfg f new) P) :
    Ends A (fun f => Clog.egest cfg f s) P := by
  refine (Ev.succ_outer ?_).ends (m := fun f _ => Clog.egest cfg f s)
  simp only [Clog.egest]
  refine Ev.bind hE.diag ?_
  rintro ⟨e, s'⟩ hQ
  cases e with
  | ok red => exact Ev.pure (hok red s' hQ)
  | err new => exact (herr new s' hQ).ev

/-- A primed `Homographic` denotes the value of its map at its input. -/
theorem Homographic.OK.denotes {cfg : Cfg} {A : Panic → Prop} {h : Homographic} {w : ℚ}
    (hh : Homographic.OK cfg A h w) : Clog.Denotes cfg A h.box w := by
  refine Clog.Denotes.coind (fun c w => Clog.Denotes cfg A c w ∨
    ∃ h : Homographic, c = h.box ∧ Homographic.OK cfg A h w) ?_ (.inr ⟨h, rfl, hh⟩)
  rintro c w (hd | ⟨h, rfl, hh⟩)
  · exact ⟨hd.1, hd.2.1, hd.step.mono fun r hr => ⟨hr.1, .inl hr.2⟩⟩
  · obtain ⟨v, l, a, b, hd, hx, hI, hb, hs, rfl⟩ := hh
    have hm := hI.val_mem hx.mem.1 hx.mem.2
    refine ⟨hm.1, hm.2, ?_⟩
    refine Clog.egest_ends (Q := fun r => (∃ red h', r = (.ok red, h'.box) ∧ red = sym (h.k.val v) ∧
        Homographic.OK cfg A h' (next (h.k.val v))) ∨
      (∃ (q : Ratio) (s : Strategy), r = (.err (.ratio q), s) ∧ q.OK cfg ∧ q.val = h.k.val v)) ?_ ?_ ?_
    · simp only [Strategy.egest, Homographic.box]
      refine Ev.bind (Homographic.egest_ev hx hd hI hb hs) ?_
      rintro ⟨e, h'⟩ (⟨red, rfl, h1, h2⟩ | ⟨q, rfl, h1, h2⟩)
      · exact Ev.pure (.inl ⟨red, h', rfl, h1, h2⟩)
      · exact Ev.pure (.inr ⟨q, _, rfl, h1, h2⟩)
    · rintro red s' (⟨red', h', e, h1, h2⟩ | ⟨q, s, e, _⟩)
      · simp only [Prod.mk.injEq, Egested.ok.injEq] at e
        obtain ⟨rfl, rfl⟩ := e
        exact ⟨h1, .inr ⟨h', rfl, h2⟩⟩
      · simp at e
    · rintro new s' (⟨red', h', e, h1, h2⟩ | ⟨q, s, e, h1, h2⟩)
      · simp at e
      · simp only [Prod.mk.injEq, Egested.err.injEq] at e
        obtain ⟨rfl, rfl⟩ := e
        have := (Ratio.denotes (A := A) h1).step
        rw [h2] at this
        exact this.mono fun r hr => ⟨hr.1, .inl hr.2⟩

/-! ## Construction -/

/-- The result tuple of `homographic::new` describes `q`. -/
def Homographic.Describes (cfg : Cfg) (A : Panic → Prop) (t : Homographic.Primed) (q : ℚ) : Prop :=
  (∃ s, t = (some s, none, none, none) ∧ q = specialValue s) ∨
  (∃ p r, t = (none, p, some r, none) ∧ r.OK cfg ∧ q = applyPrimer p r.val) ∨
  (∃ p h w, t = (none, p, none, some h) ∧ Homographic.OK cfg A h w ∧ q = applyPrimer p w)

theorem Ratio.Describes.homographic {cfg : Cfg} {A : Panic → Prop} {t q}
    (h : Ratio.Describes cfg t q) : Homographic.Describes cfg A (t.1, t.2.1, t.2.2, none) q := by
  rcases h with ⟨s, rfl, hq⟩ | ⟨p, r, rfl, hr, hq⟩
  · exact .inl ⟨s, rfl, hq⟩
  · exact .inr (.inl ⟨p, r, rfl, hr, hq⟩)

/-- If the primer was decided and the denominator is not identically zero, the strategy is good. -/
theorem Coef4.Primed.ok {cfg : Cfg} {A : Panic → Prop} {k k' : Coef4} {p a b v l x}
    (h : k.Primed p k') (hx : Clog.Denotes cfg A x v) (hl : Expands v l) (hD : k.denAt v ≠ 0)
    (hb : k.Under a b) (hs : cfg.SafeUpTo A (peak l a b)) :
    Homographic.OK cfg A ⟨x, k'⟩ (k'.val v) := by
  refine ⟨v, l, a, b, hx, hl, ⟨h.inv, fun hz => ?_⟩, h.rel.under hb, hs, rfl⟩
  obtain ⟨h1, h2⟩ := h.zero hz
  apply hD
  simp [Coef4.denAt, h1, h2]

theorem Homographic.prime_ev {cfg : Cfg} {A : Panic → Prop} {v : ℚ} {l : List Reduction}
    (hx : Expands v l) : ∀ {h : Homographic} {a b : Int}, Clog.Denotes cfg A h.x v →
    h.k.denAt v ≠ 0 → h.k.Under a b → cfg.SafeUpTo A (peak l a b) →
    Ev A (fun f j => Homographic.prime cfg (Clog.egest cfg f) j h)
      (fun t => Homographic.Describes cfg A t (h.k.val v)) := by
  induction hx with
  | half =>
    intro h a b hd hD hb hs
    refine Ev.succ ?_
    simp only [Homographic.prime]
    refine Ev.bind_sat (Coef4.primerAttempt_sat hs (hb.peak _)) ?_
    rintro (_ | ⟨p, k'⟩) hr
    · simp only [Homographic.primeIngest]
      refine Ev.bind (Q := fun r => ∃ t, r.1 = some t ∧
        Ratio.Describes cfg t (h.k.val (1 / 2))) ?_ ?_
      · refine Ev.bind hd.ev ?_
        rintro ⟨r, x⟩ ⟨hr, _⟩
        rw [sym_half] at hr
        simp only at hr
        subst hr
        refine Ev.bind_sat (Coef4.valueAtOneHalf_sat hs (hb.peak _)) ?_
        rintro ⟨a', b'⟩ ⟨hc, f1, f2, g1, g2, g3, g4⟩
        have hv := Coef4.val_half hc
        simp only at f1 f2 g1 g2 g3 g4 hc ⊢
        have hb0 : b' ≠ 0 := by
          rintro rfl
          obtain ⟨c, _, _, hc⟩ := hc
          apply hD
          have : (h.k.dx : ℚ) + 2 * h.k.d = 0 := by
            have : h.k.dx + 2 * h.k.d = 0 := by rw [← hc]; simp
            exact_mod_cast this
          unfold Coef4.denAt; linarith
        refine Ev.bind_sat (Ratio.newI_sat hb0 f1 f2 (hs.lin (by omega) (by omega))
          (hs.lin (by omega) (by omega))) ?_
        rintro t ht
        rw [hv] at ht
        exact Ev.pure ⟨t, rfl, ht⟩
      · rintro ⟨o, h'⟩ ⟨⟨s, p, q⟩, rfl, ht⟩
        exact Ev.pure ht.homographic
    · obtain ⟨hr, _⟩ := hr p k' rfl
      exact Ev.pure (.inr (.inr ⟨p, _, _, rfl, hr.ok hd .half hD hb hs, hr.rel.val _⟩))
  | @amplify v l h0 h1 hx ih =>
    intro h a b hd hD hb hs
    refine Ev.succ ?_
    simp only [Homographic.prime]
    refine Ev.bind_sat (Coef4.primerAttempt_sat hs (hb.peak _)) ?_
    rintro (_ | ⟨p, k'⟩) hr
    · simp only [Homographic.primeIngest]
      refine Ev.bind (Q := fun r => r.1 = none ∧ Clog.Denotes cfg A r.2.x (2 * v) ∧
        r.2.k.denAt (2 * v) ≠ 0 ∧
        r.2.k.Under (2 * a) (a + b) ∧ r.2.k.val (2 * v) = h.k.val v) ?_ ?_
      · refine Ev.bind hd.ev ?_
        rintro ⟨r, x⟩ ⟨hr, hx'⟩
        rw [sym_lt h1] at hr
        rw [next_lt h1] at hx'
        simp only at hr
        subst hr
        refine Ev.bind_sat (Coef4.ingestAmplify_sat hs (hb.peak _)) ?_
        intro k' hk
        refine Ev.pure ⟨rfl, hx', ?_, hb.amplify hk,
          Coef4.val_ingestAmplify hk⟩
        obtain ⟨c, hc, _, _, c3, c4⟩ := hk
        have c3' : (c : ℚ) * k'.d = 2 * h.k.d := by exact_mod_cast c3
        have c4' : (c : ℚ) * k'.dx = h.k.dx := by exact_mod_cast c4
        intro e
        apply hD
        unfold Coef4.denAt at e ⊢
        have : (c : ℚ) * (k'.dx * (2 * v) + k'.d) = 0 := by
          simp only at e; rw [e]; ring
        have e2 : (c : ℚ) * (k'.dx * (2 * v) + k'.d) = 2 * (h.k.dx * v + h.k.d) := by
          rw [mul_add, c3', ← mul_assoc, c4']; ring
        linarith
      · rintro ⟨o, h'⟩ ⟨rfl, e1, e2, e3, e4⟩
        simp only at e1 e2 e3 e4 ⊢
        rw [← e4]
        exact ih e1 e2 e3 hs
    · obtain ⟨hr, _⟩ := hr p k' rfl
      exact Ev.pure (.inr (.inr ⟨p, _, _, rfl, hr.ok hd (.amplify h0 h1 hx) hD hb hs,
        hr.rel.val _⟩))
  | @uncover v l h0 h1 hx ih =>
    intro h a b hd hD hb hs
    have hv0 : v ≠ 0 := by linarith
    refine Ev.succ ?_
    simp only [Homographic.prime]
    refine Ev.bind_sat (Coef4.primerAttempt_sat hs (hb.peak _)) ?_
    rintro (_ | ⟨p, k'⟩) hr
    · simp only [Homographic.primeIngest]
      refine Ev.bind (Q := fun r => r.1 = none ∧ Clog.Denotes cfg A r.2.x (1 / v - 1) ∧
        r.2.k.denAt (1 / v - 1) ≠ 0 ∧
        r.2.k.Under b (a + b) ∧ r.2.k.val (1 / v - 1) = h.k.val v) ?_ ?_
      · refine Ev.bind hd.ev ?_
        rintro ⟨r, x⟩ ⟨hr, hx'⟩
        rw [sym_gt h0] at hr
        rw [next_gt h0] at hx'
        simp only at hr
        subst hr
        refine Ev.bind_sat (Coef4.ingestUncover_sat hs (hb.peak _)) ?_
        rintro _ rfl
        refine Ev.pure ⟨rfl, hx', ?_, hb.uncover,
          Coef4.val_ingestUncover hv0⟩
        intro e
        apply hD
        unfold Coef4.denAt at e ⊢
        simp only at e
        push_cast at e
        have : v * ((h.k.d : ℚ) * (1 / v - 1) + (h.k.dx + h.k.d)) = 0 := by rw [e]; ring
        have e2 : v * ((h.k.d : ℚ) * (1 / v - 1) + (h.k.dx + h.k.d)) = h.k.dx * v + h.k.d := by
          field_simp; ring
        linarith
      · rintro ⟨o, h'⟩ ⟨rfl, e1, e2, e3, e4⟩
        simp only at e1 e2 e3 e4 ⊢
        rw [← e4]
        exact ih e1 e2 e3 hs
    · obtain ⟨hr, _⟩ := hr p k' rfl
      exact Ev.pure (.inr (.inr ⟨p, _, _, rfl, hr.ok hd (.uncover h0 h1 hx) hD hb hs,
        hr.rel.val _⟩))

end Clarith
