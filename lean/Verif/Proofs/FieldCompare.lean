import Verif.Proofs.FieldCombine
import Verif.Proofs.Compare
import Verif.Proofs.Consume

/-! # `compare` and `consume` in any ordered field -/

namespace Clarith

open Out Spec

variable {K : Type*} [Field K] [LinearOrder K] [IsStrictOrderedRing K]

theorem Compare.symbolAnswer_compares_in {x y : K} (h : symIn x ≠ symIn y) :
    (Compare.symbolAnswer (symIn x) (symIn y)).Compares x y := by
  rcases lt_trichotomy x (1 / 2) with hx | rfl | hx <;>
  rcases lt_trichotomy y (1 / 2) with hy | rfl | hy <;>
  simp only [symIn_lt, symIn_gt, symIn_half, *, ne_eq, not_true_eq_false, Compare.symbolAnswer,
    Ordering.Compares] at h ⊢ <;> linarith

/-- `o`, reversed when the polarity is negative, orders `x` and `y`. -/
def Compare.OrdersIn (polarity : Bool) (o : Ordering) (x y : K) : Prop :=
  (if polarity then o else o.swap).Compares x y

omit [Field K] [IsStrictOrderedRing K] in
theorem Compare.OrdersIn.flip {b : Bool} {o : Ordering} {x y x' y' : K}
    (h : Compare.OrdersIn (!b) o x' y') (hlt : x' < y' → y < x) (heq : x' = y' → x = y)
    (hgt : y' < x' → x < y) : Compare.OrdersIn b o x y := by
  cases b <;> cases o <;> simp_all [Compare.OrdersIn, Ordering.Compares]

omit [Field K] [IsStrictOrderedRing K] in
theorem Compare.OrdersIn.same {b : Bool} {o : Ordering} {x y x' y' : K}
    (h : Compare.OrdersIn b o x' y') (hlt : x' < y' → x < y) (heq : x' = y' → x = y)
    (hgt : y' < x' → y < x) : Compare.OrdersIn b o x y := by
  cases b <;> cases o <;> simp_all [Compare.OrdersIn, Ordering.Compares]

theorem Compare.compareClogs_maybe {cfg : Cfg} {A : Panic → Prop} (f j : Nat) :
    ∀ {c1 c2 : Clog} {x y : K}, Clog.Follows cfg A c1 x → Clog.Follows cfg A c2 y →
    ∀ polarity : Bool, Maybe A (Compare.compareClogs cfg (Clog.egest cfg f) j c1 c2 polarity)
      (fun o => Compare.OrdersIn polarity o x y) := by
  induction j with
  | zero => intros; trivial
  | succ j ih =>
    intro c1 c2 x y h1 h2 polarity
    simp only [Compare.compareClogs]
    refine Maybe.bind (h1.step f) ?_
    rintro ⟨e1, c1'⟩ ⟨he1, hd1⟩
    refine Maybe.bind (h2.step f) ?_
    rintro ⟨e2, c2'⟩ ⟨he2, hd2⟩
    simp only at he1 he2 hd1 hd2 ⊢
    subst he1 he2
    by_cases hne : symIn x = symIn y
    · simp only [hne, ne_eq, not_true_eq_false, if_false]
      rcases lt_trichotomy x (1 / 2) with hx | rfl | hx
      · have hy : y < 1 / 2 := by
          rw [symIn_lt hx] at hne
          rcases lt_trichotomy y (1 / 2) with hy | rfl | hy
          · exact hy
          · rw [symIn_half] at hne; cases hne
          · rw [symIn_gt hy] at hne; cases hne
        rw [symIn_lt hy]
        rw [nextIn_lt hx] at hd1
        rw [nextIn_lt hy] at hd2
        refine (ih hd1 hd2 polarity).mono fun o ho => ho.same ?_ ?_ ?_ <;> intro <;> linarith
      · have hy : y = 1 / 2 := symIn_none (by rw [← hne, symIn_half])
        subst hy
        rw [symIn_half]
        refine Maybe.pure ?_
        cases polarity <;> simp [Compare.OrdersIn, Ordering.Compares]
      · have hy : 1 / 2 < y := by
          rw [symIn_gt hx] at hne
          rcases lt_trichotomy y (1 / 2) with hy | rfl | hy
          · rw [symIn_lt hy] at hne; cases hne
          · rw [symIn_half] at hne; cases hne
          · exact hy
        rw [symIn_gt hy]
        rw [nextIn_gt hx] at hd1
        rw [nextIn_gt hy] at hd2
        have hx0 : 0 < x := h1.1
        have hy0 : 0 < y := h2.1
        refine (ih hd1 hd2 (!polarity)).mono fun o ho => ho.flip ?_ ?_ ?_
        · intro h
          exact (one_div_lt_one_div hx0 hy0).1 (by linarith)
        · intro h
          have : 1 / x = 1 / y := by linarith
          exact (one_div_one_div x).symm.trans ((congrArg _ this).trans (one_div_one_div y))
        · intro h
          exact (one_div_lt_one_div hy0 hx0).1 (by linarith)
    · simp only [ne_eq, hne, not_false_eq_true, if_true]
      refine Maybe.pure ?_
      have := Compare.symbolAnswer_compares_in hne
      cases polarity <;> simpa [Compare.OrdersIn] using this

theorem Compare.compareSpecials_compares_in (s t : Special) :
    (Compare.compareSpecials s t).Compares (specialIn K s) (specialIn K t) := by
  cases s <;> cases t <;>
    simp only [Compare.compareSpecials, Ordering.Compares, specialIn, reduceCtorEq, if_true,
      if_false, gt_iff_lt] <;> linarith [one_pos (α := K)]

theorem Compare.compareHybrid_compares_in (s : Special) (p : Option Primer) {x : K} (h0 : 0 < x)
    (h1 : x < 1) :
    (Compare.compareHybrid s p).Compares (specialIn K s) (primerIn p x) := by
  have ix : 1 < 1 / x := by rw [lt_div_iff₀ h0]; linarith
  rcases p with _ | p
  · cases s <;> simp [Compare.compareHybrid, Ordering.Compares, specialIn, primerIn] <;>
      linarith
  · cases p <;> cases s <;>
      simp only [Compare.compareHybrid, Ordering.Compares, specialIn, primerIn,
        Option.some.injEq, reduceCtorEq, if_true, if_false, gt_iff_lt] <;> linarith

theorem Compare.comparePrimers_compares_in (p1 p2 : Option Primer) {x y : K} (hx0 : 0 < x)
    (hx1 : x < 1) (hy0 : 0 < y) (hy1 : y < 1) (h : Compare.comparePrimers p1 p2 ≠ .eq) :
    (Compare.comparePrimers p1 p2).Compares (primerIn p1 x) (primerIn p2 y) := by
  have ix : 1 < 1 / x := by rw [lt_div_iff₀ hx0]; linarith
  have iy : 1 < 1 / y := by rw [lt_div_iff₀ hy0]; linarith
  rcases p1 with _ | p1 <;> rcases p2 with _ | p2 <;> (try cases p1) <;> (try cases p2) <;>
    simp only [Compare.comparePrimers, Ordering.Compares, primerIn, Option.some.injEq,
      reduceCtorEq, if_true, if_false, gt_iff_lt, ne_eq, not_true_eq_false] at h ⊢ <;> linarith

/-- The primers and the answer of `compare_clogs` give the order of the numbers. -/
theorem Compare.answer_compares_in (p1 p2 : Option Primer) {x y : K} (hx0 : 0 < x)
    (hx1 : x < 1) (hy0 : 0 < y) (hy1 : y < 1) {o : Ordering}
    (ho : Compare.OrdersIn (p1 != some .Reflect && p1 != some .Turn) o x y) :
    ((Compare.comparePrimers p1 p2).then o).Compares (primerIn p1 x) (primerIn p2 y) := by
  have key := Compare.comparePrimers_compares_in p1 p2 hx0 hx1 hy0 hy1
  by_cases he : Compare.comparePrimers p1 p2 = .eq
  · rw [he]
    obtain rfl := Compare.comparePrimers_eq he
    rcases p1 with _ | p1
    · simpa [Compare.OrdersIn, primerIn] using ho
    · cases p1 <;> cases o <;>
        simp only [Compare.OrdersIn, Ordering.Compares, primerIn, bne_self_eq_false,
          Bool.and_false, Bool.false_and, Bool.false_eq_true, if_false, Ordering.swap,
          gt_iff_lt, neg_lt_neg_iff, one_div_lt_one_div hx0 hy0, Ordering.then,
          one_div_lt_one_div hy0 hx0] at ho ⊢ <;>
        first
          | exact ho
          | (rw [ho])
  · have := key he
    revert this he
    cases Compare.comparePrimers p1 p2 <;> simp [Ordering.then]

theorem Number.compare_maybe {cfg : Cfg} {A : Panic → Prop} {n1 n2 : Number} {p q : K}
    (h1 : Number.Follows cfg A n1 p) (h2 : Number.Follows cfg A n2 q) :
    May A (fun f => Number.compare cfg f n1 n2) (fun o => o.Compares p q) := by
  refine may_iff.2 fun f => ?_
  cases n1 with
  | Special s =>
    cases n2 with
    | Special t =>
      obtain rfl : p = specialIn K s := h1
      obtain rfl : q = specialIn K t := h2
      exact Maybe.pure (Compare.compareSpecials_compares_in s t)
    | Other p2 c2 =>
      obtain rfl : p = specialIn K s := h1
      obtain ⟨y, hy, rfl⟩ := h2
      exact Maybe.pure (Compare.compareHybrid_compares_in s p2 hy.1 hy.2.1)
  | Other p1 c1 =>
    obtain ⟨x, hx, rfl⟩ := h1
    cases n2 with
    | Special t =>
      obtain rfl : q = specialIn K t := h2
      exact Maybe.pure
        (Ordering.Compares.swap (Compare.compareHybrid_compares_in t p1 hx.1 hx.2.1))
    | Other p2 c2 =>
      obtain ⟨y, hy, rfl⟩ := h2
      simp only [Number.compare, Compare.compareOthers]
      refine Maybe.bind (Compare.compareClogs_maybe f f hx hy _) ?_
      intro o ho
      exact Maybe.pure (Compare.answer_compares_in p1 p2 hx.1 hx.2.1 hy.1 hy.2.1 ho)

/-! ## `consume` -/

namespace Consume

/-- One symbol: the value is kept, no operation overflows, coefficients at most double. -/
theorem ingest_sat_in {cfg : Cfg} {A : Panic → Prop} {k : Coef4} {x w : K} {r : Reduction}
    (hk : Below (lim cfg) k) (hx0 : 0 < x) (hr : symIn x = some r) (hD : (k.dx : K) * x + k.d ≠ 0)
    (hw : (k.nx * x + k.n) / (k.dx * x + k.d) = w) :
    Sat A (ingest cfg r k) (fun k' => Below (2 * lim cfg) k' ∧
      (k'.dx : K) * nextIn x + k'.d ≠ 0 ∧
      (k'.nx * nextIn x + k'.n) / (k'.dx * nextIn x + k'.d) = w) := by
  obtain ⟨b1, b2⟩ := lim_bounds cfg
  obtain ⟨k1, k2, k3, k4⟩ := hk
  rcases Coef8.symIn_cases hr with ⟨rfl, hn⟩ | ⟨rfl, hx, hn⟩
  · rw [hn]
    simp only [ingest, amplifyX]
    split_ifs with hodd
    · refine Sat.bind (Cfg.mul_sat (.inl (fits_of_abs ?_))) ?_
      · rw [abs_mul]; simp only [Nat.abs_ofNat]; omega
      rintro _ ⟨rfl, _⟩
      refine Sat.bind (Cfg.mul_sat (.inl (fits_of_abs ?_))) ?_
      · rw [abs_mul]; simp only [Nat.abs_ofNat]; omega
      rintro _ ⟨rfl, _⟩
      refine Sat.pure ⟨⟨?_, ?_, ?_, ?_⟩, ?_, ?_⟩
      · simp only; omega
      · simp only; rw [abs_mul]; simp only [Nat.abs_ofNat]; omega
      · simp only; omega
      · simp only; rw [abs_mul]; simp only [Nat.abs_ofNat]; omega
      · push_cast
        intro h
        apply hD
        linarith
      · push_cast
        rw [← hw, ← mul_div_mul_left (k.nx * x + k.n : K) _ (two_ne_zero)]
        congr 1 <;> ring
    · simp only [Bool.or_eq_true, not_or, Bool.not_eq_true] at hodd
      obtain ⟨e1, a1⟩ := half_abs hodd.1
      obtain ⟨e2, a2⟩ := half_abs hodd.2
      have e1' : (k.nx : K) = 2 * (half k.nx : Int) := by exact_mod_cast e1.symm
      have e2' : (k.dx : K) = 2 * (half k.dx : Int) := by exact_mod_cast e2.symm
      refine Sat.pure ⟨⟨?_, ?_, ?_, ?_⟩, ?_, ?_⟩
      · simp only; omega
      · simp only; omega
      · simp only; omega
      · simp only; omega
      · simp only
        intro h
        apply hD
        rw [e2']
        linarith
      · simp only
        rw [← hw, e1', e2']
        congr 1 <;> ring
  · rw [hn]
    simp only [ingest, uncoverX]
    have t1 := abs_add_le k.nx k.n
    have t2 := abs_add_le k.dx k.d
    refine Sat.bind (Cfg.add_sat (.inl (fits_of_abs (by omega)))) ?_
    rintro _ ⟨rfl, _⟩
    refine Sat.bind (Cfg.add_sat (.inl (fits_of_abs (by omega)))) ?_
    rintro _ ⟨rfl, _⟩
    have eN : (k.n : K) * (1 / x - 1) + (k.nx + k.n : Int) = (k.nx * x + k.n) / x := by
      push_cast; field_simp; ring
    have eD : (k.d : K) * (1 / x - 1) + (k.dx + k.d : Int) = (k.dx * x + k.d) / x := by
      push_cast; field_simp; ring
    refine Sat.pure ⟨⟨?_, ?_, ?_, ?_⟩, ?_, ?_⟩
    · simp only; omega
    · simp only; omega
    · simp only; omega
    · simp only; omega
    · simp only
      rw [eD]
      exact div_ne_zero hD hx0.ne'
    · simp only
      rw [eN, eD, div_div_div_cancel_right₀ hx0.ne', hw]

/-- What `consume` promises about its result, for an input of value `w`. -/
def PostIn (cfg : Cfg) (A : Panic → Prop) (w : K) (r : Option Clog × Coef4) : Prop :=
  match r with
  | (none, k) => Below (lim cfg) k ∧ (k.dx : K) * (1 / 2) + k.d ≠ 0 ∧
      (k.nx * (1 / 2) + k.n) / (k.dx * (1 / 2) + k.d) = w
  | (some y, k) => Below (2 * lim cfg) k ∧ ¬Below (lim cfg) k ∧
      ∃ v, Clog.Follows cfg A y v ∧ (k.dx : K) * v + k.d ≠ 0 ∧
        (k.nx * v + k.n) / (k.dx * v + k.d) = w

theorem consume_maybe {cfg : Cfg} {A : Panic → Prop} {w : K} (f j : Nat) :
    ∀ {c : Clog} {x : K} {k : Coef4}, Clog.Follows cfg A c x → Below (lim cfg) k →
    (k.dx : K) * x + k.d ≠ 0 → (k.nx * x + k.n) / (k.dx * x + k.d) = w →
    Maybe A (consume cfg (Clog.egest cfg f) j c k) (PostIn cfg A w) := by
  induction j with
  | zero => intros; trivial
  | succ j ih =>
    intro c x k h hk hD hw
    simp only [consume]
    refine Maybe.bind (h.step f) ?_
    rintro ⟨r, c'⟩ ⟨hr, hd⟩
    simp only at hr hd
    cases r with
    | none =>
      obtain rfl := symIn_none hr.symm
      exact Maybe.pure ⟨hk, hD, hw⟩
    | some s =>
      refine Maybe.bind_sat (ingest_sat_in hk h.1 hr.symm hD hw) ?_
      rintro k' ⟨hb, hD', hw'⟩
      refine Maybe.bind_sat (isStateUnsafe_sat hb) ?_
      rintro b hb'
      cases b with
      | true =>
        exact Maybe.pure ⟨hb, fun h => by simpa using hb'.2 h, _, hd, hD', hw'⟩
      | false => exact ih hd (hb'.1 rfl) hD' hw'

theorem start_sat_in {cfg : Cfg} {A : Panic → Prop} {p : Option Primer} {x : K} (h0 : 0 < x) :
    Sat A (start cfg p) (fun k => Below 2 k ∧ (k.dx : K) * x + k.d ≠ 0 ∧
      (k.nx * x + k.n) / (k.dx * x + k.d) = primerIn p x) := by
  obtain ⟨b1, b2⟩ := lim_bounds cfg
  have hn1 : cfg.Safe A (-1) := .inl (fits_of_abs (by norm_num; omega))
  have hn0 : cfg.Safe A (-0) := .inl (fits_of_abs (by norm_num; omega))
  rcases p with _ | p
  · exact Sat.pure ⟨by simp [Below], by simp, by simp [primerIn]⟩
  · cases p
    · exact Sat.pure ⟨by simp [Below], by simp [h0.ne'], by simp [primerIn]⟩
    · refine Sat.bind (Cfg.neg_sat hn1) ?_
      rintro _ ⟨rfl, _⟩
      refine Sat.bind (Cfg.neg_sat hn0) ?_
      rintro _ ⟨rfl, _⟩
      exact Sat.pure ⟨by simp [Below], by simp, by simp [primerIn]⟩
    · refine Sat.bind (Cfg.neg_sat hn1) ?_
      rintro _ ⟨rfl, _⟩
      refine Sat.bind (Cfg.neg_sat hn0) ?_
      rintro _ ⟨rfl, _⟩
      refine Sat.pure ⟨by simp [Below], by simp [h0.ne'], ?_⟩
      simp only [primerIn]
      push_cast
      ring

end Consume

end Clarith
