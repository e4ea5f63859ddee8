import Verif.Proofs.Ratio

/-! # Consequences of denotation: uniqueness, finite streams, partial reads -/

namespace Clarith

open Out Spec

/-! ## Primer and value are determined by the number -/

theorem Spec.applyPrimer_inj {p p' : Option Primer} {x y : ℚ} (hx0 : 0 < x) (hx1 : x < 1)
    (hy0 : 0 < y) (hy1 : y < 1) (h : applyPrimer p x = applyPrimer p' y) : p = p' ∧ x = y := by
  have ix : 1 < 1 / x := by rw [lt_div_iff₀ hx0]; linarith
  have iy : 1 < 1 / y := by rw [lt_div_iff₀ hy0]; linarith
  have hi : 1 / x = 1 / y → x = y := by
    intro h
    rw [div_eq_div_iff hx0.ne' hy0.ne'] at h; linarith
  rcases p with _ | p <;> rcases p' with _ | p'
  · exact ⟨rfl, h⟩
  · exfalso; cases p' <;> simp only [applyPrimer] at h <;> linarith
  · exfalso; cases p <;> simp only [applyPrimer] at h <;> linarith
  · cases p <;> cases p' <;> simp only [applyPrimer] at h <;>
      first
        | exact ⟨rfl, hi (by linarith)⟩
        | exact ⟨rfl, by linarith⟩
        | (exfalso; linarith)

theorem Spec.applyPrimer_ne_special {p : Option Primer} {x : ℚ} (hx0 : 0 < x) (hx1 : x < 1)
    {s : Special} : applyPrimer p x ≠ specialValue s := by
  have ix : 1 < 1 / x := by rw [lt_div_iff₀ hx0]; linarith
  intro h
  rcases p with _ | p
  · cases s <;> simp only [applyPrimer, specialValue] at h <;> linarith
  · cases p <;> cases s <;> simp only [applyPrimer, specialValue] at h <;> linarith

theorem Spec.specialValue_inj {s t : Special} (h : specialValue s = specialValue t) : s = t := by
  cases s <;> cases t <;> simp only [specialValue] at h <;>
    first | rfl | (exfalso; norm_num at h)

/-- Every rational is a special, or a primer applied to a number in (0,1). -/
theorem Spec.decompose (q : ℚ) : (∃ s, q = specialValue s) ∨
    ∃ p x, 0 < x ∧ x < 1 ∧ q = applyPrimer p x := by
  rcases lt_trichotomy q 0 with h | h | h
  · rcases lt_trichotomy q (-1) with h' | h' | h'
    · refine .inr ⟨some .Ground, -(1 / q), ?_, ?_, ?_⟩
      · have := one_div_neg.2 h; linarith
      · rw [← div_neg, div_lt_iff₀ (by linarith)]; linarith
      · simp only [applyPrimer]; field_simp
    · exact .inl ⟨.NegOne, h'⟩
    · exact .inr ⟨some .Reflect, -q, by linarith, by linarith, by simp [applyPrimer]⟩
  · exact .inl ⟨.Zero, h⟩
  · rcases lt_trichotomy q 1 with h' | h' | h'
    · exact .inr ⟨none, q, h, h', rfl⟩
    · exact .inl ⟨.PosOne, h'⟩
    · refine .inr ⟨some .Turn, 1 / q, div_pos one_pos h, ?_, ?_⟩
      · rw [div_lt_iff₀ h]; linarith
      · simp [applyPrimer]

/-! ## Finite expansions -/

theorem Spec.symbols_half (k : Nat) : symbols k (1 / 2) = List.replicate k none := by
  induction k with
  | zero => rfl
  | succ k ih => rw [symbols_succ, sym_half, next_half, ih, List.replicate_succ]

theorem Spec.Expands.symbols {x : ℚ} {l : List Reduction} (h : Expands x l) (k : Nat) :
    Spec.symbols (l.length + k) x = l.map some ++ List.replicate k none := by
  induction h with
  | half => simpa using symbols_half k
  | @amplify x l h0 h1 h ih =>
    rw [List.length_cons, Nat.add_right_comm, symbols_succ, sym_lt h1, next_lt h1, ih]; rfl
  | @uncover x l h0 h1 h ih =>
    rw [List.length_cons, Nat.add_right_comm, symbols_succ, sym_gt h0, next_gt h0, ih]; rfl

theorem Spec.Expands.unique {x : ℚ} {l l' : List Reduction} (h : Expands x l)
    (h' : Expands x l') : l = l' := by
  induction h generalizing l' with
  | half =>
    cases h' with
    | half => rfl
    | amplify _ h1 _ => exact absurd h1 (lt_irrefl _)
    | uncover h1 _ _ => exact absurd h1 (lt_irrefl _)
  | @amplify x l h0 h1 h ih =>
    cases h' with
    | half => exact absurd h1 (lt_irrefl _)
    | amplify _ _ h2 => rw [ih h2]
    | uncover h2 _ _ => exact absurd h1 (not_lt.2 h2.le)
  | @uncover x l h0 h1 h ih =>
    cases h' with
    | half => exact absurd h0 (lt_irrefl _)
    | amplify _ h2 _ => exact absurd h0 (not_lt.2 h2.le)
    | uncover _ _ h2 => rw [ih h2]

/-! ## After some calls -/

theorem Spec.iterate_next_mem {x : ℚ} (h0 : 0 < x) (h1 : x < 1) (m : Nat) :
    0 < next^[m] x ∧ next^[m] x < 1 := by
  induction m generalizing x with
  | zero => exact ⟨h0, h1⟩
  | succ m ih =>
    rw [Function.iterate_succ_apply]
    exact ih (next_mem h0 h1).1 (next_mem h0 h1).2

/-- A clog from which some symbols have been read denotes what is left. -/
theorem Clog.Denotes.after {cfg : Cfg} {A : Panic → Prop} {c : Clog} {x : ℚ}
    (h : Clog.Denotes cfg A c x) (m : Nat) :
    Ends A (fun f => Clog.egests cfg f m c)
      (fun r => r.1 = symbols m x ∧ Clog.Denotes cfg A r.2 (next^[m] x)) := by
  induction m generalizing c x with
  | zero => exact Ends.of_sat (Sat.pure ⟨rfl, h⟩)
  | succ m ih =>
    simp only [egests_succ]
    refine Ends.bind h.step ?_
    rintro ⟨r, c'⟩ ⟨hr, hc⟩
    refine Ends.bind (ih hc) ?_
    rintro ⟨rs, c''⟩ ⟨hrs, hc'⟩
    refine Ends.of_sat (Sat.pure ⟨?_, ?_⟩)
    · simp only at hr hrs ⊢; rw [symbols_succ, hr, hrs]
    · rw [Function.iterate_succ_apply]; exact hc'

theorem Ends.of_returns {α : Type} {A : Panic → Prop} {m : Nat → Out α} {P : α → Prop} {a : α}
    (h : Ends A m P) (ha : Returns m a) : P a := by
  rcases h with ⟨b, hb, hP⟩ | ⟨p, hp, _⟩
  · rwa [ha.unique hb]
  · exact (ha.not_panics hp).elim

theorem Ends.of_panic {α : Type} {A : Panic → Prop} {m : Nat → Out α} {P : α → Prop} {p}
    (h : Ends A m P) (ha : Panics m p) : A p := by
  rcases h with ⟨b, hb, hP⟩ | ⟨q, hp, hq⟩
  · exact (hb.not_panics ha).elim
  · rwa [ha.unique hp]

theorem Clog.Denotes.of_returns {cfg : Cfg} {A : Panic → Prop} {c c' : Clog} {x : ℚ} {m rs}
    (h : Clog.Denotes cfg A c x) (hr : Returns (fun f => Clog.egests cfg f m c) (rs, c')) :
    rs = symbols m x ∧ Clog.Denotes cfg A c' (next^[m] x) := (h.after m).of_returns hr

theorem Spec.none_mem_symbols {x : ℚ} {m : Nat} (h : none ∈ symbols m x) :
    next^[m] x = 1 / 2 := by
  induction m generalizing x with
  | zero => simp [symbols] at h
  | succ m ih =>
    rw [Function.iterate_succ_apply]
    rw [symbols_succ, List.mem_cons] at h
    rcases h with h | h
    · rw [sym_eq_none.1 h.symm, next_half]
      clear ih h
      induction m with
      | zero => rfl
      | succ m ih => rw [Function.iterate_succ_apply, next_half]; exact ih
    · exact ih h

/-- Same list of symbols, for every length, from two clogs of the same value. -/
theorem Clog.Denotes.returns {cfg : Cfg} {c : Clog} {x : ℚ} (h : Clog.Denotes cfg NoPanic c x)
    (k : Nat) : ∃ c', Returns (fun f => Clog.egests cfg f k c) (symbols k x, c') := by
  rcases h.2.2 k with ⟨⟨rs, c'⟩, hr, h1⟩ | ⟨p, _, hp⟩
  · exact ⟨c', by simp only at h1; rwa [← h1]⟩
  · exact hp.elim

/-! ## `Number::ratio` -/

theorem Ratio.magnitude_exact {cfg : Cfg} {z : Int} (hz : cfg.Fits z)
    (h : cfg.overflowChecks = true → z ≠ cfg.imin) :
    Ratio.magnitude cfg z = .ok z.natAbs ∧ z.natAbs ≤ cfg.umax := by
  have hu := cfg.umax_eq
  have hi := cfg.imin_eq
  have hm := cfg.imax_ge
  have hz' := hz
  obtain ⟨z1, z2⟩ := hz'
  by_cases hmin : z = cfg.imin
  · have hc : cfg.overflowChecks = false := by
      cases hcc : cfg.overflowChecks
      · rfl
      · exact absurd hmin (h hcc)
    have hp := cfg.pow_bits
    set P : Int := 2 ^ (cfg.bits - 1) with hP
    have hPn : ((2 ^ (cfg.bits - 1) : Nat) : Int) = P := by push_cast; rfl
    have hzP : z = -P := by rw [hmin]; rfl
    have hmaxP : cfg.imax = P - 1 := rfl
    refine ⟨?_, by omega⟩
    unfold Ratio.magnitude Cfg.neg Cfg.unchecked
    have hw : cfg.wrap (-z) = -P := by
      unfold Cfg.wrap
      rw [hzP, neg_neg, Int.bmod_def]
      have hb : ((2 ^ cfg.bits : Nat) : Int) = 2 * P := by push_cast; exact hp
      rw [hb, Int.emod_eq_of_lt (by omega) (by omega)]
      rw [if_neg (by omega)]; ring
    rw [if_neg (by omega), if_neg (by unfold Cfg.Fits; omega), hw]
    simp only [hc, Bool.false_eq_true, if_false, ok_bind, pure_eq]
    unfold Cfg.asUsize
    have : (-P).emod (2 ^ cfg.bits) = P := by
      have h1 : (-P).emod (2 ^ cfg.bits) = (-P + 2 ^ cfg.bits).emod (2 ^ cfg.bits) := by
        exact (Int.add_emod_right (-P) (2 ^ cfg.bits)).symm
      rw [h1, hp, show -P + 2 * P = P by ring]
      exact Int.emod_eq_of_lt (by omega) (by omega)
    rw [this]
    congr 1; omega
  · have := Ratio.magnitude_sat (A := NoPanic) hz (fun hz0 => .inl (by unfold Cfg.Fits; omega))
    unfold Sat at this
    split at this
    · rename_i a ha; rw [ha, this.1]; exact ⟨rfl, by rw [← this.1]; exact this.2⟩
    · exact this.elim
    · exact this.elim

theorem Ratio.Describes.denotes {cfg : Cfg} {A : Panic → Prop} {t q}
    (h : Ratio.Describes cfg t q) :
    ∃ n, (match t.1 with
      | some fixed => pure (.Special fixed)
      | none =>
        match t.2.2 with
        | some r => pure (.Other t.2.1 (.ratio r))
        | none => .panic .unwrapMissing : Out Number) = .ok n ∧ Number.Denotes cfg A n q := by
  rcases h with ⟨s, rfl, hq⟩ | ⟨p, r, rfl, hr, hq⟩
  · exact ⟨.Special s, rfl, hq⟩
  · exact ⟨.Other p (.ratio r), rfl, r.val, Ratio.denotes hr, hq⟩

theorem Number.ratioU_denotes {cfg : Cfg} {A : Panic → Prop} {positive : Bool} {num den : Nat}
    (hd : den ≠ 0) (hn : num ≤ cfg.umax) (hdm : den ≤ cfg.umax) :
    ∃ n, Number.ratioU positive num den = .ok n ∧
      Number.Denotes cfg A n ((if positive then 1 else -1) * ((num : ℚ) / den)) := by
  obtain ⟨t, ht, hdesc⟩ := Ratio.new_ok (positive := positive) hd hn hdm
  obtain ⟨n, h1, h2⟩ := hdesc.denotes (A := A)
  exact ⟨n, by unfold Number.ratioU; rw [ht]; exact h1, h2⟩

theorem Number.ratio_denotes {cfg : Cfg} {A : Panic → Prop} {num den : Int} (hd : den ≠ 0)
    (hn : cfg.Fits num) (hdf : cfg.Fits den)
    (hmin : cfg.overflowChecks = true → num ≠ cfg.imin ∧ den ≠ cfg.imin) :
    ∃ n, Number.ratio cfg num den = .ok n ∧ Number.Denotes cfg A n ((num : ℚ) / den) := by
  obtain ⟨e1, b1⟩ := Ratio.magnitude_exact hn fun h => (hmin h).1
  obtain ⟨e2, b2⟩ := Ratio.magnitude_exact hdf fun h => (hmin h).2
  have := Ratio.new_signed (A := NoPanic) hd b1 b2
  unfold Sat at this
  split at this
  · rename_i t ht
    obtain ⟨n, h1, h2⟩ := this.denotes (A := A)
    refine ⟨n, ?_, h2⟩
    unfold Number.ratio Number.ratioU
    rw [e1, e2, ok_bind, ok_bind, ht]
    exact h1
  · exact this.elim
  · exact this.elim

theorem Ratio.magnitude_min {cfg : Cfg} (h : cfg.overflowChecks = true) :
    Ratio.magnitude cfg cfg.imin = .panic .arithOverflow := by
  have hi := cfg.imin_eq
  have hm := cfg.imax_ge
  unfold Ratio.magnitude Cfg.neg Cfg.unchecked
  rw [if_neg (by omega), if_neg (by unfold Cfg.Fits; omega), if_pos h]
  rfl

end Clarith
