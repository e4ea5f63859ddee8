import Verif.Properties.Consume
import Mathlib.Tactic.LinearCombination
import Mathlib.RingTheory.Coprime.Basic

/-! # What `consume` returns, exactly (C56) -/

namespace Clarith

open Spec Out

namespace Spec

/-- The number in (0,1) with the symbols `l`, if `y` is what is left of it after them. -/
def undo : List Reduction → ℚ → ℚ
  | [], y => y
  | .Amplify :: l, y => undo l y / 2
  | .Uncover :: l, y => 1 / (undo l y + 1)

/-- `k` is the map from what is left after the symbols `l` to the number with primer `p` and these
symbols. -/
def Undoes (p : Option Primer) (l : List Reduction) (k : Coef4) : Prop :=
  ∀ y : ℚ, 0 < y → (k.dx : ℚ) * y + k.d ≠ 0 ∧
    (k.nx * y + k.n) / (k.dx * y + k.d) = applyPrimer p (undo l y)

/-- The four coefficients have no common factor. -/
def Lowest (k : Coef4) : Prop :=
  ∀ g : Int, g ∣ k.nx → g ∣ k.n → g ∣ k.dx → g ∣ k.d → g ∣ 1

/-- All coefficients are below a quarter of `isize::MAX` in magnitude. -/
def BelowQuarter (cfg : Cfg) (k : Coef4) : Prop :=
  |k.nx| < cfg.imax / 4 ∧ |k.n| < cfg.imax / 4 ∧ |k.dx| < cfg.imax / 4 ∧ |k.d| < cfg.imax / 4

end Spec

theorem Spec.undo_pos : ∀ {l : List Reduction} {y : ℚ}, 0 < y → 0 < undo l y
  | [], _, h => h
  | .Amplify :: _, _, h => div_pos (undo_pos h) two_pos
  | .Uncover :: _, _, h => one_div_pos.2 (by have := undo_pos (l := ‹_›) h; linarith)

theorem Spec.undo_append : ∀ {l l' : List Reduction} {y : ℚ},
    undo (l ++ l') y = undo l (undo l' y)
  | [], _, _ => rfl
  | .Amplify :: l, _, _ => by simp only [List.cons_append, undo, undo_append (l := l)]
  | .Uncover :: l, _, _ => by simp only [List.cons_append, undo, undo_append (l := l)]

theorem Spec.undo_inj : ∀ {l : List Reduction} {y y' : ℚ}, 0 < y → 0 < y' →
    undo l y = undo l y' → y = y'
  | [], _, _, _, _, h => h
  | .Amplify :: l, _, _, h, h', e => undo_inj (l := l) h h' (by simp only [undo] at e; linarith)
  | .Uncover :: l, _, _, h, h', e => undo_inj (l := l) h h' (by
      have a := undo_pos (l := l) h
      have b := undo_pos (l := l) h'
      simp only [undo] at e
      rw [div_eq_div_iff (by linarith) (by linarith)] at e
      linarith)

theorem Spec.applyPrimer_cancel {p : Option Primer} {x x' : ℚ}
    (h : applyPrimer p x = applyPrimer p x') : x = x' := by
  rcases p with _ | p
  · exact h
  · cases p <;> simp only [applyPrimer, one_div, neg_inj, inv_inj] at h <;> exact h

theorem Spec.Lowest.gcd {k : Coef4} (h : Lowest k) :
    Int.gcd (Int.gcd k.nx k.n) (Int.gcd k.dx k.d) = 1 := by
  have h1 : ((Int.gcd (Int.gcd k.nx k.n) (Int.gcd k.dx k.d) : Nat) : Int) ∣ 1 :=
    h _ ((Int.gcd_dvd_left ..).trans (Int.gcd_dvd_left ..))
      ((Int.gcd_dvd_left ..).trans (Int.gcd_dvd_right ..))
      ((Int.gcd_dvd_right ..).trans (Int.gcd_dvd_left ..))
      ((Int.gcd_dvd_right ..).trans (Int.gcd_dvd_right ..))
  exact Nat.dvd_one.1 (Int.natCast_dvd_natCast.1 (by simpa using h1))

theorem Spec.Lowest.dvd {k k' : Coef4} (h : Lowest k) {D s : Int} (h1 : D * k'.nx = s * k.nx)
    (h2 : D * k'.n = s * k.n) (h3 : D * k'.dx = s * k.dx) (h4 : D * k'.d = s * k.d) : D ∣ s := by
  have e : ((Int.gcd (Int.gcd (s * k.nx) (s * k.n)) (Int.gcd (s * k.dx) (s * k.d)) : Nat) : Int)
      = |s| := by
    rw [Int.gcd_mul_left, Int.gcd_mul_left]
    push_cast
    rw [Int.gcd_mul_left, h.gcd]
    simp
  have hd : D ∣ |s| := by
    rw [← e]
    refine Int.dvd_coe_gcd (Int.dvd_coe_gcd ?_ ?_) (Int.dvd_coe_gcd ?_ ?_)
    · exact ⟨_, h1.symm⟩
    · exact ⟨_, h2.symm⟩
    · exact ⟨_, h3.symm⟩
    · exact ⟨_, h4.symm⟩
  exact (dvd_abs _ _).1 hd

/-- The map is determined up to the sign. -/
theorem Spec.Undoes.unique {p : Option Primer} {l : List Reduction} {k k' : Coef4}
    (hk : Undoes p l k) (hk' : Undoes p l k') (g : Lowest k) (g' : Lowest k') :
    k' = k ∨ k' = ⟨-k.nx, -k.n, -k.dx, -k.d⟩ := by
  have cross : ∀ m : Int, 0 < m →
      (k.nx * m + k.n) * (k'.dx * m + k'.d) = (k'.nx * m + k'.n) * (k.dx * m + k.d) := by
    intro m hm
    obtain ⟨a1, a2⟩ := hk m (by exact_mod_cast hm)
    obtain ⟨b1, b2⟩ := hk' m (by exact_mod_cast hm)
    have := a2.trans b2.symm
    rw [div_eq_div_iff a1 b1] at this
    exact_mod_cast this
  have c1 := cross 1 (by norm_num)
  have c2 := cross 2 (by norm_num)
  have c3 := cross 3 (by norm_num)
  have E1 : k.nx * k'.dx = k'.nx * k.dx := by linarith
  have E3 : k.n * k'.d = k'.n * k.d := by linarith
  have E2 : k.nx * k'.d + k.n * k'.dx = k'.nx * k.d + k'.n * k.dx := by linarith
  have hD : k.nx * k.d - k.n * k.dx ≠ 0 := by
    intro h0
    obtain ⟨a1, a2⟩ := hk 1 (by norm_num)
    obtain ⟨b1, b2⟩ := hk 2 (by norm_num)
    have : undo l 1 = undo l 2 := by
      refine applyPrimer_cancel (p := p) ?_
      rw [← a2, ← b2, div_eq_div_iff a1 b1]
      have h0' : (k.nx : ℚ) * k.d - k.n * k.dx = 0 := by exact_mod_cast h0
      linear_combination -h0'
    have := undo_inj (by norm_num) (by norm_num) this
    norm_num at this
  set D := k.nx * k.d - k.n * k.dx with eD
  set s := k.d * k'.nx - k.n * k'.dx with es
  have h1 : D * k'.nx = s * k.nx := by rw [eD, es]; linear_combination k.n * E1
  have h2 : D * k'.n = s * k.n := by
    rw [eD, es]; linear_combination k.n * E2 - k.nx * E3
  have h3 : D * k'.dx = s * k.dx := by rw [eD, es]; linear_combination k.d * E1
  have h4 : D * k'.d = s * k.d := by rw [eD, es]; linear_combination k.d * E2 - k.dx * E3
  have d1 : D ∣ s := g.dvd h1 h2 h3 h4
  have d2 : s ∣ D := g'.dvd h1.symm h2.symm h3.symm h4.symm
  rcases Int.natAbs_eq_natAbs_iff.1 (Int.natAbs_eq_of_dvd_dvd d1 d2) with e | e
  · refine .inl ?_
    rw [← e] at h1 h2 h3 h4
    cases k'; cases k
    simp only at h1 h2 h3 h4
    rw [Coef4.mk.injEq]
    exact ⟨mul_left_cancel₀ hD h1, mul_left_cancel₀ hD h2, mul_left_cancel₀ hD h3,
      mul_left_cancel₀ hD h4⟩
  · refine .inr ?_
    have e' : s = -D := by rw [e, neg_neg]
    rw [e'] at h1 h2 h3 h4
    cases k'; cases k
    simp only at h1 h2 h3 h4
    rw [Coef4.mk.injEq]
    exact ⟨mul_left_cancel₀ hD (by linarith), mul_left_cancel₀ hD (by linarith),
      mul_left_cancel₀ hD (by linarith), mul_left_cancel₀ hD (by linarith)⟩

namespace Consume

theorem below_quarter {cfg : Cfg} {k : Coef4} : Below (lim cfg) k ↔ BelowQuarter cfg k := by
  have := cfg.imax_ge
  unfold Below lim BelowQuarter
  rw [Int.tdiv_eq_ediv_of_nonneg (by omega)]

/-- One symbol, whatever the operand. -/
theorem ingest_undoes {cfg : Cfg} {A : Panic → Prop} {k : Coef4} {p : Option Primer}
    {l : List Reduction} {r : Reduction} (hk : Below (lim cfg) k) (hu : Undoes p l k)
    (hg : Lowest k) :
    Sat A (ingest cfg r k) (fun k' => Below (2 * lim cfg) k' ∧ Undoes p (l ++ [r]) k' ∧
      Lowest k') := by
  obtain ⟨b1, b2⟩ := lim_bounds cfg
  obtain ⟨k1, k2, k3, k4⟩ := hk
  cases r with
  | Amplify =>
    simp only [ingest, amplifyX]
    split_ifs with hodd
    · refine Sat.bind (Cfg.mul_sat (.inl (fits_of_abs ?_))) ?_
      · rw [abs_mul]; simp only [Nat.abs_ofNat]; omega
      rintro _ ⟨rfl, _⟩
      refine Sat.bind (Cfg.mul_sat (.inl (fits_of_abs ?_))) ?_
      · rw [abs_mul]; simp only [Nat.abs_ofNat]; omega
      rintro _ ⟨rfl, _⟩
      refine Sat.pure ⟨⟨?_, ?_, ?_, ?_⟩, fun y hy => ?_, fun g g1 g2 g3 g4 => ?_⟩
      · simp only; omega
      · simp only; rw [abs_mul]; simp only [Nat.abs_ofNat]; omega
      · simp only; omega
      · simp only; rw [abs_mul]; simp only [Nat.abs_ofNat]; omega
      · obtain ⟨u1, u2⟩ := hu (y / 2) (div_pos hy two_pos)
        rw [undo_append, undo, undo, ← u2]
        push_cast
        refine ⟨fun h => u1 (by linarith), ?_⟩
        rw [← mul_div_mul_left (k.nx * (y / 2) + k.n : ℚ) _ (two_ne_zero)]
        congr 1 <;> ring
      · simp only at g1 g2 g3 g4
        have hc : IsCoprime g 2 := by
          have ho : k.nx % 2 = 1 ∨ k.dx % 2 = 1 := by
            have ho : ∀ z : Int, isOdd z = true → z % 2 = 1 := fun z hz => by
              simp only [isOdd, bne_iff_ne, ne_eq] at hz
              have := mt (Int.tmod_eq_zero_of_dvd (a := 2) (b := z)) hz
              omega
            exact (Bool.or_eq_true _ _ ▸ hodd).imp (ho _) (ho _)
          have hgo : g % 2 = 1 := by
            by_contra hne
            have h2 : (2 : Int) ∣ g := by omega
            have a1 := h2.trans g1
            have a3 := h2.trans g3
            omega
          exact ⟨1, -(g / 2), by omega⟩
        exact hg g g1 (hc.dvd_of_dvd_mul_right g2) g3 (hc.dvd_of_dvd_mul_right g4)
    · simp only [Bool.or_eq_true, not_or, Bool.not_eq_true] at hodd
      obtain ⟨e1, a1⟩ := half_abs hodd.1
      obtain ⟨e2, a2⟩ := half_abs hodd.2
      have e1' : (k.nx : ℚ) = 2 * (half k.nx : Int) := by exact_mod_cast e1.symm
      have e2' : (k.dx : ℚ) = 2 * (half k.dx : Int) := by exact_mod_cast e2.symm
      refine Sat.pure ⟨⟨?_, ?_, ?_, ?_⟩, fun y hy => ?_, fun g g1 g2 g3 g4 => ?_⟩
      · simp only; omega
      · simp only; omega
      · simp only; omega
      · simp only; omega
      · obtain ⟨u1, u2⟩ := hu (y / 2) (div_pos hy two_pos)
        rw [undo_append, undo, undo, ← u2, e1', e2']
        rw [e2'] at u1
        simp only
        refine ⟨fun h => u1 (by linarith), ?_⟩
        congr 1 <;> ring
      · simp only at g1 g2 g3 g4
        exact hg g (e1 ▸ g1.mul_left 2) g2 (e2 ▸ g3.mul_left 2) g4
  | Uncover =>
    simp only [ingest, uncoverX]
    have t1 := abs_add_le k.nx k.n
    have t2 := abs_add_le k.dx k.d
    refine Sat.bind (Cfg.add_sat (.inl (fits_of_abs (by omega)))) ?_
    rintro _ ⟨rfl, _⟩
    refine Sat.bind (Cfg.add_sat (.inl (fits_of_abs (by omega)))) ?_
    rintro _ ⟨rfl, _⟩
    refine Sat.pure ⟨⟨?_, ?_, ?_, ?_⟩, fun y hy => ?_, fun g g1 g2 g3 g4 => ?_⟩
    · simp only; omega
    · simp only; omega
    · simp only; omega
    · simp only; omega
    · have hy1 : (y + 1) ≠ 0 := by linarith
      obtain ⟨u1, u2⟩ := hu (1 / (y + 1)) (one_div_pos.2 (by linarith))
      rw [undo_append, undo, undo, ← u2]
      push_cast
      have eN : (k.n : ℚ) * y + (k.nx + k.n) = (k.nx * (1 / (y + 1)) + k.n) * (y + 1) := by
        field_simp; ring
      have eD : (k.d : ℚ) * y + (k.dx + k.d) = (k.dx * (1 / (y + 1)) + k.d) * (y + 1) := by
        field_simp; ring
      rw [eN, eD]
      exact ⟨mul_ne_zero u1 hy1, mul_div_mul_right _ _ hy1⟩
    · simp only at g1 g2 g3 g4
      exact hg g ((Int.dvd_add_left g1).1 g2) g1 ((Int.dvd_add_left g3).1 g4) g3

/-- One symbol, without regard to the value. -/
theorem ingest_below {cfg : Cfg} {A : Panic → Prop} {k : Coef4} {r : Reduction}
    (hk : Below (lim cfg) k) : Sat A (ingest cfg r k) (Below (2 * lim cfg)) := by
  obtain ⟨b1, b2⟩ := lim_bounds cfg
  obtain ⟨k1, k2, k3, k4⟩ := hk
  cases r with
  | Amplify =>
    simp only [ingest, amplifyX]
    split_ifs with hodd
    · refine Sat.bind (Cfg.mul_sat (.inl (fits_of_abs ?_))) ?_
      · rw [abs_mul]; simp only [Nat.abs_ofNat]; omega
      rintro _ ⟨rfl, _⟩
      refine Sat.bind (Cfg.mul_sat (.inl (fits_of_abs ?_))) ?_
      · rw [abs_mul]; simp only [Nat.abs_ofNat]; omega
      rintro _ ⟨rfl, _⟩
      refine Sat.pure ⟨?_, ?_, ?_, ?_⟩
      · simp only; omega
      · simp only; rw [abs_mul]; simp only [Nat.abs_ofNat]; omega
      · simp only; omega
      · simp only; rw [abs_mul]; simp only [Nat.abs_ofNat]; omega
    · simp only [Bool.or_eq_true, not_or, Bool.not_eq_true] at hodd
      obtain ⟨-, a1⟩ := half_abs hodd.1
      obtain ⟨-, a2⟩ := half_abs hodd.2
      exact Sat.pure ⟨by simp only; omega, by simp only; omega, by simp only; omega,
        by simp only; omega⟩
  | Uncover =>
    simp only [ingest, uncoverX]
    have t1 := abs_add_le k.nx k.n
    have t2 := abs_add_le k.dx k.d
    refine Sat.bind (Cfg.add_sat (.inl (fits_of_abs (by omega)))) ?_
    rintro _ ⟨rfl, _⟩
    refine Sat.bind (Cfg.add_sat (.inl (fits_of_abs (by omega)))) ?_
    rintro _ ⟨rfl, _⟩
    exact Sat.pure ⟨by simp only; omega, by simp only; omega, by simp only; omega,
      by simp only; omega⟩

/-- What `consume` returns when it goes on from the coefficients `k` with the clog `c`. -/
theorem consume_exact {cfg : Cfg} {p : Option Primer} (f : Nat) :
    ∀ (j : Nat) (c : Clog) (k : Coef4) (l : List Reduction), Below (lim cfg) k → Undoes p l k →
      Lowest k → ∀ (y : Option Clog) (k' : Coef4),
      consume cfg (Clog.egest cfg f) j c k = .ok (y, k') →
      ∃ l', Undoes p (l ++ l') k' ∧ Lowest k' ∧
        (∀ i < l'.length, ∃ ki, Undoes p (l ++ l'.take i) ki ∧ Lowest ki ∧ Below (lim cfg) ki) ∧
        match y with
        | none => Below (lim cfg) k' ∧
            ∃ c', Clog.egests cfg f (l'.length + 1) c = .ok (l'.map some ++ [none], c')
        | some c' => Below (2 * lim cfg) k' ∧ ¬ Below (lim cfg) k' ∧
            Clog.egests cfg f l'.length c = .ok (l'.map some, c') := by
  intro j
  induction j with
  | zero => intro c k l _ _ _ y k' h; cases h
  | succ j ih =>
    intro c k l hb hu hg y k' h
    rw [consume] at h
    rcases he : Clog.egest cfg f c with ⟨r, c'⟩ | q | -
    · rw [he] at h
      simp only [ok_bind] at h
      rcases r with _ | r
      · cases h
        exact ⟨[], by simpa using hu, hg, by simp, hb, c', by simp [egests_succ, he]; rfl⟩
      · simp only at h
        have hi := ingest_undoes (A := NoPanic) (r := r) hb hu hg
        rcases hk : ingest cfg r k with k2 | q | -
        · rw [hk] at hi h
          obtain ⟨i1, i2, i3⟩ := hi
          have hs := isStateUnsafe_sat (A := NoPanic) i1
          simp only [ok_bind] at h
          rcases hsu : isStateUnsafe cfg k2 with b | q | -
          · rw [hsu] at hs h
            simp only [ok_bind] at h
            cases b with
            | true =>
              cases h
              refine ⟨[r], i2, i3, ?_, i1, fun hb => ?_, ?_⟩
              · intro i hi
                obtain rfl : i = 0 := by simpa using hi
                exact ⟨k, by simpa using hu, hg, hb⟩
              · have := hs.2 hb
                cases this
              · simp [egests_succ, he]; rfl
            | false =>
              simp only [Bool.false_eq_true, if_false] at h
              obtain ⟨l', a1, a2, a3, a4⟩ := ih c' k2 (l ++ [r]) (hs.1 rfl) i2 i3 y k' h
              refine ⟨r :: l', by simpa using a1, a2, ?_, ?_⟩
              · intro i hi
                cases i with
                | zero => exact ⟨k, by simpa using hu, hg, hb⟩
                | succ i =>
                  obtain ⟨ki, c1, c2, c3⟩ := a3 i (by simpa using hi)
                  exact ⟨ki, by simpa using c1, c2, c3⟩
              · rcases y with _ | y
                · obtain ⟨b1, c2, b2⟩ := a4
                  refine ⟨b1, c2, ?_⟩
                  rw [List.length_cons, egests_succ, he]
                  simp [b2]
                · obtain ⟨b0, b1, b2⟩ := a4
                  refine ⟨b0, b1, ?_⟩
                  rw [List.length_cons, egests_succ, he]
                  simp [b2]
          · rw [hsu] at hs; exact hs.elim
          · rw [hsu] at h; cases h
        · rw [hk] at hi; exact hi.elim
        · rw [hk] at h; cases h
    · rw [he] at h; cases h
    · rw [he] at h; cases h

/-- If `consume` panics, it is a panic of the operand. -/
theorem consume_panics {cfg : Cfg} (f : Nat) (e : Panic) :
    ∀ (j : Nat) (c : Clog) (k : Coef4), Below (lim cfg) k →
      consume cfg (Clog.egest cfg f) j c k = .panic e →
      ∃ m, Clog.egests cfg f m c = .panic e := by
  intro j
  induction j with
  | zero => intro c k _ h; cases h
  | succ j ih =>
    intro c k hb h
    rw [consume] at h
    rcases he : Clog.egest cfg f c with ⟨r, c'⟩ | q | -
    · rw [he] at h
      simp only [ok_bind] at h
      rcases r with _ | r
      · cases h
      · simp only at h
        have hi := ingest_below (A := NoPanic) (r := r) hb
        rcases hk : ingest cfg r k with k2 | q | -
        · rw [hk] at hi h
          have hs := isStateUnsafe_sat (A := NoPanic) hi
          simp only [ok_bind] at h
          rcases hsu : isStateUnsafe cfg k2 with b | q | -
          · rw [hsu] at hs h
            simp only [ok_bind] at h
            cases b with
            | true => cases h
            | false =>
              simp only [Bool.false_eq_true, if_false] at h
              obtain ⟨m, hm⟩ := ih c' k2 (hs.1 rfl) h
              exact ⟨m + 1, by simp [egests_succ, he, hm]⟩
          · rw [hsu] at hs; exact hs.elim
          · rw [hsu] at h; cases h
        · rw [hk] at hi; exact hi.elim
        · rw [hk] at h; cases h
    · rw [he] at h; cases h
      exact ⟨1, by simp [egests_succ, he]⟩
    · rw [he] at h; cases h

theorem start_undoes {cfg : Cfg} {p : Option Primer} :
    ∃ k, start cfg p = .ok k ∧ Below 2 k ∧ Undoes p [] k ∧ Lowest k := by
  obtain ⟨b1, b2⟩ := lim_bounds cfg
  have key : ∀ k, start cfg p = .ok k → Lowest k →
      ∃ k, start cfg p = .ok k ∧ Below 2 k ∧ Undoes p [] k ∧ Lowest k := by
    intro k hk hl
    have hs := fun x : ℚ => start_sat (cfg := cfg) (A := NoPanic) (p := p) (x := x)
    rw [hk] at hs
    exact ⟨k, hk, (hs 1 (by norm_num)).1, fun y hy => (hs y hy).2, hl⟩
  have hn : ∀ z : Int, |z| ≤ 1 → cfg.neg z = .ok (-z) := fun z hz => by
    rw [Cfg.neg, Cfg.unchecked, if_pos (fits_of_abs (by rw [abs_neg]; omega))]
  rcases p with _ | p
  · exact key _ rfl fun g g1 _ _ _ => g1
  · cases p
    · exact key _ rfl fun g _ g2 _ _ => g2
    · refine key ⟨-1, 0, 0, 1⟩ ?_ fun g _ _ _ g4 => g4
      simp only [start, hn 1 (by simp), hn 0 (by simp), ok_bind]
      rfl
    · refine key ⟨0, -1, 1, 0⟩ ?_ fun g _ _ g3 _ => g3
      simp only [start, hn 1 (by simp), hn 0 (by simp), ok_bind]
      rfl

end Consume

/-! ## C56 -/

/-- `consume` reads symbols `l` of its operand and returns, without common factor, the coefficients
of the map from what is left of the operand to the number.  This determines them up to the sign
(`C56_unique`).  It stops only when the operand has ended, or as soon as one of the coefficients
has reached a quarter of `isize::MAX`: after fewer symbols all of them are smaller.  The operand
may be any clog, and the build any. -/
theorem C56_consume_exact (cfg : Cfg) (p : Option Primer) (c : Clog) (y : Option Number)
    (k : Coef4) (hr : Returns (fun f => Number.consume cfg f (.Other p c)) (y, k)) :
    ∃ l : List Reduction, Undoes p l k ∧ Lowest k ∧
      (∀ l', l' <+: l → l' ≠ l → ∀ k', Undoes p l' k' → Lowest k' → BelowQuarter cfg k') ∧
      match y with
      | none => BelowQuarter cfg k ∧
          ∃ c', Returns (fun f => Clog.egests cfg f (l.length + 1) c) (l.map some ++ [none], c')
      | some n => ¬BelowQuarter cfg k ∧
          ∃ c', n = .Other none c' ∧
            Returns (fun f => Clog.egests cfg f l.length c) (l.map some, c') := by
  obtain ⟨f, hf⟩ := hr
  have hf := hf f le_rfl
  obtain ⟨k0, hs, hb, hu, hg⟩ := Consume.start_undoes (cfg := cfg) (p := p)
  have hl := Consume.lim_bounds cfg
  have hb' : Consume.Below (Consume.lim cfg) k0 :=
    ⟨by have := hb.1; omega, by have := hb.2.1; omega, by have := hb.2.2.1; omega,
      by have := hb.2.2.2; omega⟩
  simp only [Number.consume, Consume.new, hs, ok_bind] at hf
  rcases hc : Consume.consume cfg (Clog.egest cfg f) f c k0 with ⟨y', k'⟩ | q | -
  · rw [hc] at hf
    obtain ⟨l, h1, h2, h3, h4⟩ := Consume.consume_exact f f c k0 [] hb' hu hg y' k' hc
    simp only [ok_bind, List.nil_append] at hf h1 h3
    have hpre : ∀ l', l' <+: l → l' ≠ l → ∀ k', Undoes p l' k' → Lowest k' →
        BelowQuarter cfg k' := by
      intro l' hl' hne k2 u2 g2
      have hlen : l'.length < l.length :=
        lt_of_le_of_ne hl'.length_le fun e => hne (hl'.eq_of_length e)
      obtain ⟨ki, u1, g1, b1⟩ := h3 l'.length hlen
      rw [← List.prefix_iff_eq_take.1 hl'] at u1
      rw [Consume.below_quarter] at b1
      rcases u1.unique u2 g1 g2 with rfl | rfl
      · exact b1
      · simpa only [BelowQuarter, abs_neg] using b1
    rcases y' with _ | c'
    · cases hf
      obtain ⟨b1, c', b2⟩ := h4
      exact ⟨l, h1, h2, hpre, Consume.below_quarter.1 b1, c',
        FuelMono.returns (Clog.egests_mono cfg _ c) f b2⟩
    · cases hf
      obtain ⟨-, b1, b2⟩ := h4
      exact ⟨l, h1, h2, hpre, fun h => b1 (Consume.below_quarter.2 h), c', rfl,
        FuelMono.returns (Clog.egests_mono cfg _ c) f b2⟩
  · rw [hc] at hf; cases hf
  · rw [hc] at hf; cases hf

/-- `7/3` is read completely: it is `(4*y+5)/(2*y+2)` at one half. -/
example := C56_consume_exact debug64 (some .Turn) (.ratio ⟨3, 7⟩) none _
  (FuelMono.returns (Number.consume_mono _ _) 9
    (by decide +kernel : Number.consume debug64 9 (.Other (some .Turn) (.ratio ⟨3, 7⟩)) =
      .ok (none, ⟨4, 5, 2, 2⟩)))

/-- `1/(2^63-1)` is not. -/
example := C56_consume_exact debug64 none (.ratio ⟨1, 2 ^ 63 - 1⟩)
  (some (.Other none (.ratio ⟨2 ^ 61, 2 ^ 63 - 1⟩))) _
  (FuelMono.returns (Number.consume_mono _ _) 99
    (by decide +kernel : Number.consume debug64 99 (.Other none (.ratio ⟨1, 2 ^ 63 - 1⟩)) =
      .ok (some (.Other none (.ratio ⟨2 ^ 61, 2 ^ 63 - 1⟩)), ⟨1, 0, 0, 2 ^ 61⟩)))

/-- If `consume` panics then reading the operand panics: `consume` itself does not, for any clog, in
any build. -/
theorem C56_consume_panics (cfg : Cfg) (p : Option Primer) (c : Clog) (e : Panic)
    (hr : Panics (fun f => Number.consume cfg f (.Other p c)) e) :
    ∃ m, Panics (fun f => Clog.egests cfg f m c) e := by
  obtain ⟨f, hf⟩ := hr
  have hf := hf f le_rfl
  obtain ⟨k0, hs, hb, -, -⟩ := Consume.start_undoes (cfg := cfg) (p := p)
  have hl := Consume.lim_bounds cfg
  have hb' : Consume.Below (Consume.lim cfg) k0 :=
    ⟨by have := hb.1; omega, by have := hb.2.1; omega, by have := hb.2.2.1; omega,
      by have := hb.2.2.2; omega⟩
  simp only [Number.consume, Consume.new, hs, ok_bind] at hf
  rcases hc : Consume.consume cfg (Clog.egest cfg f) f c k0 with ⟨_ | _, k'⟩ | q | -
  · rw [hc] at hf; cases hf
  · rw [hc] at hf; cases hf
  · rw [hc] at hf
    cases hf
    obtain ⟨m, hm⟩ := Consume.consume_panics f e f c k0 hb' hc
    exact ⟨m, FuelMono.panics (Clog.egests_mono cfg _ c) f hm⟩
  · rw [hc] at hf; cases hf

/-- A map whose first symbol cannot be found without an overflow. -/
example := C56_consume_panics debug64 none (.homographic (.ratio ⟨1, 3⟩) ⟨2 ^ 62, 1, 2 ^ 62 + 1, 3⟩)
  .unwrapNone (FuelMono.panics (Number.consume_mono _ _) 9 (by decide +kernel))

/-- Symbols and primer determine the coefficients without common factor up to the sign. -/
theorem C56_unique (p : Option Primer) (l : List Reduction) (k k' : Coef4) (hk : Undoes p l k)
    (hk' : Undoes p l k') (g : Lowest k) (g' : Lowest k') :
    k' = k ∨ k' = ⟨-k.nx, -k.n, -k.dx, -k.d⟩ :=
  hk.unique hk' g g'

/-- For the symbols `Amplify`, `Uncover`, behind the primer `Turn`: twice `y+1`. -/
example := C56_unique (some .Turn) [.Amplify, .Uncover] ⟨2, 2, 0, 1⟩ ⟨-2, -2, 0, -1⟩
  (fun y hy => ⟨by simp, by simp [applyPrimer, undo]; ring⟩)
  (fun y hy => ⟨by simp, by simp [applyPrimer, undo]; ring⟩)
  (fun _ _ _ _ h => h) (fun _ _ _ _ h => (dvd_neg.1 h))

end Clarith
