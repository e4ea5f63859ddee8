import Verif.Proofs.TotalHomographic
import Verif.Proofs.FieldCompare

/-! # `consume` and `compare` on numbers that are not fractions -/

namespace Clarith

open Out Spec Support

section

variable {K : Type*} [Field K] [LinearOrder K] [IsStrictOrderedRing K]

namespace Consume

theorem ingest_ing {cfg : Cfg} {A : Panic → Prop} {k : Coef4} (r : Reduction)
    (hk : Below (lim cfg) k) : Sat A (ingest cfg r k) (fun k' => Coef4.Ing k k') := by
  obtain ⟨b1, b2⟩ := lim_bounds cfg
  obtain ⟨k1, k2, k3, k4⟩ := hk
  cases r with
  | Amplify =>
    simp only [ingest, amplifyX]
    split_ifs with hodd
    · refine Sat.bind (Cfg.mul_sat (.inl (fits_of_abs ?_))) ?_
      · rw [abs_mul]; simp only [Nat.abs_ofNat]; omega
      rintro _ ⟨rfl, _⟩
      refine Sat.bind (Cfg.mul_sat (.inl (fits_of_abs ?_))) ?_
      · rw [abs_mul]; simp only [Nat.abs_ofNat]; omega
      rintro _ ⟨rfl, _⟩
      exact Sat.pure (.inl ⟨1, .inl rfl, by simp; ring, by simp, by simp; ring, by simp⟩)
    · simp only [Bool.or_eq_true, not_or, Bool.not_eq_true] at hodd
      exact Sat.pure (.inl ⟨2, .inr rfl, rfl, (half_abs hodd.1).1, rfl, (half_abs hodd.2).1⟩)
  | Uncover =>
    simp only [ingest, uncoverX]
    have t1 := abs_add_le k.nx k.n
    have t2 := abs_add_le k.dx k.d
    refine Sat.bind (Cfg.add_sat (.inl (fits_of_abs (by omega)))) ?_
    rintro _ ⟨rfl, _⟩
    refine Sat.bind (Cfg.add_sat (.inl (fits_of_abs (by omega)))) ?_
    rintro _ ⟨rfl, _⟩
    exact Sat.pure (.inr rfl)

theorem Below.fits {cfg : Cfg} {k : Coef4} (h : Below (lim cfg) k) : k.Fits cfg := by
  obtain ⟨b1, b2⟩ := lim_bounds cfg
  obtain ⟨k1, k2, k3, k4⟩ := h
  exact ⟨fits_of_abs (by omega), fits_of_abs (by omega), fits_of_abs (by omega),
    fits_of_abs (by omega)⟩

/-- What `consume` promises about its result, for an input of value `w`. -/
def PostTot (cfg : Cfg) (A : Panic → Prop) (w : K) (r : Option Clog × Coef4) : Prop :=
  match r with
  | (none, k) => Below (lim cfg) k ∧ (k.dx : K) * (1 / 2) + k.d ≠ 0 ∧
      (k.nx * (1 / 2) + k.n) / (k.dx * (1 / 2) + k.d) = w
  | (some y, k) => Below (2 * lim cfg) k ∧ ¬Below (lim cfg) k ∧
      ∃ v, Clog.Tracks cfg A y v ∧ (k.dx : K) * v + k.d ≠ 0 ∧
        (k.nx * v + k.n) / (k.dx * v + k.d) = w

theorem consume_ev_in {cfg : Cfg} {A : Panic → Prop} {w : K} {c : Clog} {x : K} {k : Coef4}
    (h : Clog.Tracks cfg A c x) (hk : Below (lim cfg) k) (hdet : k.det ≠ 0)
    (hD : (k.dx : K) * x + k.d ≠ 0) (hw : (k.nx * x + k.n) / (k.dx * x + k.d) = w) :
    Ev A (fun f j => consume cfg (Clog.egest cfg f) j c k) (PostTot cfg A w) := by
  suffices H : ∀ k : Coef4, k.Fits cfg → k.det ≠ 0 → ∀ (c : Clog) (x : K), Clog.Tracks cfg A c x →
      Below (lim cfg) k → (k.dx : K) * x + k.d ≠ 0 → (k.nx * x + k.n) / (k.dx * x + k.d) = w →
      Ev A (fun f j => consume cfg (Clog.egest cfg f) j c k) (PostTot cfg A w) from
    H k hk.fits hdet c x h hk hD hw
  refine Coef4.ing_induction ?_
  intro k _ hdet ih c x h hk hD hw
  refine Ev.succ ?_
  simp only [consume]
  refine Ev.bind h.ev ?_
  rintro ⟨r, c'⟩ ⟨hr, hd⟩
  simp only at hr hd
  cases r with
  | none =>
    obtain rfl := symIn_none hr.symm
    exact Ev.pure ⟨hk, hD, hw⟩
  | some s =>
    refine Ev.bind_sat ((ingest_sat_in hk h.1 hr.symm hD hw).and_maybe
      (ingest_ing (A := A) s hk).maybe) ?_
    rintro k' ⟨⟨hb, hD', hw'⟩, hi⟩
    refine Ev.bind_sat (isStateUnsafe_sat hb) ?_
    rintro b hb'
    cases b with
    | true => exact Ev.pure ⟨hb, fun h => by simpa using hb'.2 h, _, hd, hD', hw'⟩
    | false =>
      have hk' := hb'.1 rfl
      exact ih k' hk'.fits hi c' _ hd hk' hD' hw'

theorem start_det {cfg : Cfg} {A : Panic → Prop} {p : Option Primer} :
    Sat A (start cfg p) (fun k => k.det ≠ 0) := by
  obtain ⟨b1, b2⟩ := lim_bounds cfg
  have hn1 : cfg.Safe A (-1) := .inl (fits_of_abs (by norm_num; omega))
  have hn0 : cfg.Safe A (-0) := .inl (fits_of_abs (by norm_num; omega))
  rcases p with _ | p
  · exact Sat.pure (by simp [Coef4.det])
  · cases p
    · exact Sat.pure (by simp [Coef4.det])
    · refine Sat.bind (Cfg.neg_sat hn1) ?_
      rintro _ ⟨rfl, _⟩
      refine Sat.bind (Cfg.neg_sat hn0) ?_
      rintro _ ⟨rfl, _⟩
      exact Sat.pure (by simp [Coef4.det])
    · refine Sat.bind (Cfg.neg_sat hn1) ?_
      rintro _ ⟨rfl, _⟩
      refine Sat.bind (Cfg.neg_sat hn0) ?_
      rintro _ ⟨rfl, _⟩
      exact Sat.pure (by simp [Coef4.det])

end Consume

/-! ## `compare` -/

/-- `compare_clogs` ends at the first different symbol, or when both clogs end. -/
theorem Compare.compareClogs_ev_in {cfg : Cfg} {A : Panic → Prop} {k : Nat} :
    ∀ {c1 c2 : Clog} {x y : K}, Clog.Tracks cfg A c1 x → Clog.Tracks cfg A c2 y →
    (symbolsIn k x ≠ symbolsIn k y ∨ none ∈ symbolsIn k x) →
    ∀ polarity : Bool, Ev A (fun f j => Compare.compareClogs cfg (Clog.egest cfg f) j c1 c2 polarity)
      (fun o => Compare.OrdersIn polarity o x y) := by
  induction k with
  | zero => intro c1 c2 x y _ _ h; simp [symbolsIn] at h
  | succ k ih =>
    intro c1 c2 x y h1 h2 hk polarity
    refine Ev.succ ?_
    simp only [Compare.compareClogs]
    refine Ev.bind h1.ev ?_
    rintro ⟨e1, c1'⟩ ⟨he1, hd1⟩
    refine Ev.bind h2.ev ?_
    rintro ⟨e2, c2'⟩ ⟨he2, hd2⟩
    simp only at he1 he2 hd1 hd2 ⊢
    subst he1 he2
    by_cases hne : symIn x = symIn y
    · simp only [hne, ne_eq, not_true_eq_false, if_false]
      have hk' : symIn x ≠ none →
          (symbolsIn k (nextIn x) ≠ symbolsIn k (nextIn y) ∨ none ∈ symbolsIn k (nextIn x)) := by
        intro hx
        rw [symbolsIn_succ, symbolsIn_succ, hne] at hk
        rcases hk with hk | hk
        · exact .inl fun e => hk (by rw [e])
        · rw [List.mem_cons] at hk
          rcases hk with hk | hk
          · exact absurd (hne.trans hk.symm) hx
          · exact .inr hk
      rcases lt_trichotomy x (1 / 2) with hx | rfl | hx
      · have hy : y < 1 / 2 := by
          rw [symIn_lt hx] at hne
          rcases lt_trichotomy y (1 / 2) with hy | rfl | hy
          · exact hy
          · rw [symIn_half] at hne; cases hne
          · rw [symIn_gt hy] at hne; cases hne
        have hk' := hk' (by rw [symIn_lt hx]; simp)
        rw [symIn_lt hy]
        rw [nextIn_lt hx] at hd1 hk'
        rw [nextIn_lt hy] at hd2 hk'
        refine (ih hd1 hd2 hk' polarity).mono fun o ho => ho.same ?_ ?_ ?_ <;> intro <;> linarith
      · have hy : y = 1 / 2 := symIn_none (by rw [← hne, symIn_half])
        subst hy
        rw [symIn_half]
        refine Ev.pure ?_
        cases polarity <;> simp [Compare.OrdersIn, Ordering.Compares]
      · have hy : 1 / 2 < y := by
          rw [symIn_gt hx] at hne
          rcases lt_trichotomy y (1 / 2) with hy | rfl | hy
          · rw [symIn_lt hy] at hne; cases hne
          · rw [symIn_half] at hne; cases hne
          · exact hy
        have hk' := hk' (by rw [symIn_gt hx]; simp)
        rw [symIn_gt hy]
        rw [nextIn_gt hx] at hd1 hk'
        rw [nextIn_gt hy] at hd2 hk'
        have hx0 : 0 < x := h1.1
        have hy0 : 0 < y := h2.1
        refine (ih hd1 hd2 hk' (!polarity)).mono fun o ho => ho.flip ?_ ?_ ?_
        · intro h
          exact (one_div_lt_one_div hx0 hy0).1 (by linarith)
        · intro h
          have : 1 / x = 1 / y := by linarith
          exact (one_div_one_div x).symm.trans ((congrArg _ this).trans (one_div_one_div y))
        · intro h
          exact (one_div_lt_one_div hy0 hx0).1 (by linarith)
    · simp only [ne_eq, hne, not_false_eq_true, if_true]
      refine Ev.pure ?_
      have := Compare.symbolAnswer_compares_in hne
      cases polarity <;> simpa [Compare.OrdersIn] using this

end

end Clarith
