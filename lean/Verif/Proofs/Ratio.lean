import Verif.Proofs.Clog

/-! # `Ratio` -/

namespace Clarith

open Out Spec

namespace Ratio

/-- Invariant of `Ratio`: a proper positive fraction of `usize`s. -/
def OK (cfg : Cfg) (r : Ratio) : Prop := 0 < r.num ∧ r.num < r.den ∧ r.den ≤ cfg.umax

/-- Value of a `Ratio`. -/
def val (r : Ratio) : ℚ := (r.num : ℚ) / r.den

theorem OK.val_mem {cfg : Cfg} {r : Ratio} (h : r.OK cfg) : 0 < r.val ∧ r.val < 1 := by
  obtain ⟨h0, h1, _⟩ := h
  have h0' : (0 : ℚ) < r.num := by exact_mod_cast h0
  have hd' : (0 : ℚ) < r.den := by exact_mod_cast (by omega : 0 < r.den)
  have h1' : (r.num : ℚ) < r.den := by exact_mod_cast h1
  refine ⟨div_pos h0' hd', ?_⟩
  unfold val
  rw [div_lt_iff₀ hd', one_mul]; exact h1'

theorem egest_sat {cfg : Cfg} {A : Panic → Prop} {r : Ratio} (h : r.OK cfg) :
    Sat A (r.egest cfg) (fun p => p.1 = sym r.val ∧ p.2.OK cfg ∧ p.2.val = next r.val) := by
  obtain ⟨h0, h1, h2⟩ := h
  have h0' : (0 : ℚ) < r.num := by exact_mod_cast h0
  have hd' : (0 : ℚ) < r.den := by exact_mod_cast (by omega : 0 < r.den)
  have h1' : (r.num : ℚ) < r.den := by exact_mod_cast h1
  unfold Ratio.egest
  simp only []
  split_ifs with c1 c2 c3
  · -- Uncover
    have c1' : (r.den : ℚ) < 2 * r.num := by exact_mod_cast (by omega : r.den < 2 * r.num)
    have hgt : 1 / 2 < r.val := by
      unfold val; rw [div_lt_div_iff₀ (by norm_num) hd']; linarith
    have hs : cfg.usub r.den r.num = .ok (r.den - r.num) := by
      unfold Cfg.usub Cfg.uunchecked
      rw [if_pos (by omega)]
      congr 1; omega
    rw [hs]
    simp only [ok_bind, pure_eq]
    refine Sat.ok ⟨(sym_gt hgt).symm, ⟨?_, ?_, ?_⟩, ?_⟩
    · show 0 < r.den - r.num; omega
    · show r.den - r.num < r.num; omega
    · show r.num ≤ cfg.umax; omega
    · rw [next_gt hgt]
      unfold val
      simp only
      rw [Nat.cast_sub h1.le]; field_simp
  · -- one half
    have c3' : (r.den : ℚ) = 2 * r.num := by exact_mod_cast (by omega : r.den = 2 * r.num)
    have heq : r.val = 1 / 2 := by
      unfold val; rw [c3']; field_simp
    have hs : cfg.umul (r.den / 2) 2 = .ok r.den := by
      unfold Cfg.umul Cfg.uunchecked
      rw [if_pos (by omega)]
      congr 1; omega
    simp only [hs, ok_bind, pure_eq]
    refine Sat.ok ⟨?_, ⟨h0, h1, h2⟩, ?_⟩
    · rw [heq, sym_half]
    · rw [heq, next_half]
  · -- Amplify, even denominator
    obtain ⟨e, he⟩ : ∃ e, r.den = 2 * e := ⟨r.den / 2, by omega⟩
    have hlt' : 2 * (r.num : ℚ) < r.den := by exact_mod_cast (by omega : 2 * r.num < r.den)
    have hlt : r.val < 1 / 2 := by
      unfold val; rw [div_lt_div_iff₀ hd' (by norm_num)]; linarith
    have hhalf : r.den / 2 = e := by omega
    refine Sat.pure ⟨(sym_lt hlt).symm, ⟨h0, ?_, ?_⟩, ?_⟩
    · show r.num < r.den / 2; omega
    · show r.den / 2 ≤ cfg.umax; omega
    · rw [next_lt hlt]
      unfold val
      simp only
      rw [hhalf, he]
      push_cast
      have : (e : ℚ) ≠ 0 := by
        have : 0 < e := by omega
        exact_mod_cast this.ne'
      field_simp
  · -- Amplify, odd denominator
    have hlt' : 2 * (r.num : ℚ) < r.den := by exact_mod_cast (by omega : 2 * r.num < r.den)
    have hlt : r.val < 1 / 2 := by
      unfold val; rw [div_lt_div_iff₀ hd' (by norm_num)]; linarith
    have hs : cfg.umul r.num 2 = .ok (r.num * 2) := by
      unfold Cfg.umul Cfg.uunchecked
      rw [if_pos (by omega)]
      congr 1
    simp only [hs, ok_bind, pure_eq]
    refine Sat.ok ⟨(sym_lt hlt).symm, ⟨?_, ?_, h2⟩, ?_⟩
    · show 0 < r.num * 2; omega
    · show r.num * 2 < r.den; omega
    · rw [next_lt hlt]
      unfold val
      simp only
      push_cast; ring

/-- The outcome of `Ratio::new`: it panics exactly on a zero denominator, and otherwise its
three components describe the signed fraction. -/
def Describes (cfg : Cfg) (t : Option Special × Option Primer × Option Ratio) (q : ℚ) : Prop :=
  (∃ s, t = (some s, none, none) ∧ q = specialValue s) ∨
  (∃ p r, t = (none, p, some r) ∧ r.OK cfg ∧ q = applyPrimer p r.val)

theorem new_ok {cfg : Cfg} {positive : Bool} {num den : Nat} (hd : den ≠ 0)
    (hn : num ≤ cfg.umax) (hdm : den ≤ cfg.umax) :
    ∃ t, new positive num den = .ok t ∧
      Describes cfg t ((if positive then 1 else -1) * ((num : ℚ) / den)) := by
  have hd' : (den : ℚ) ≠ 0 := by exact_mod_cast hd
  unfold new
  rw [if_neg hd]
  by_cases h1 : num = 0
  · subst h1
    rw [if_pos rfl]
    exact ⟨_, rfl, .inl ⟨_, rfl, by simp [specialValue]⟩⟩
  rw [if_neg h1]
  by_cases h2 : num = den
  · subst h2
    rw [if_pos rfl]
    cases positive
    · exact ⟨_, rfl, .inl ⟨_, rfl, by simp [specialValue, hd']⟩⟩
    · exact ⟨_, rfl, .inl ⟨_, rfl, by simp [specialValue, hd']⟩⟩
  rw [if_neg h2]
  by_cases h3 : num > den
  · rw [if_pos h3]
    refine ⟨_, rfl, .inr ⟨_, _, rfl, ⟨by show 0 < den; omega, by show den < num; omega, hn⟩, ?_⟩⟩
    cases positive <;> simp [applyPrimer, val]
  · rw [if_neg h3]
    refine ⟨_, rfl, .inr ⟨_, _, rfl, ⟨by show 0 < num; omega, by show num < den; omega, hdm⟩, ?_⟩⟩
    cases positive <;> simp [applyPrimer, val]

end Ratio

theorem Cfg.pow_bits (cfg : Cfg) : (2 : Int) ^ cfg.bits = 2 * 2 ^ (cfg.bits - 1) := by
  have := cfg.hbits
  rw [← pow_succ', show cfg.bits - 1 + 1 = cfg.bits by omega]

theorem Cfg.umax_eq (cfg : Cfg) : (cfg.umax : Int) = 2 * cfg.imax + 1 := by
  unfold Cfg.umax Cfg.imax
  have := cfg.pow_bits
  have h1 : 1 ≤ 2 ^ cfg.bits := Nat.one_le_two_pow
  rw [Nat.cast_sub h1]
  push_cast
  rw [this]; ring

theorem Cfg.imin_eq (cfg : Cfg) : cfg.imin = -cfg.imax - 1 := by
  unfold Cfg.imin Cfg.imax; ring

theorem Cfg.imax_ge (cfg : Cfg) : 32767 ≤ cfg.imax := by
  unfold Cfg.imax
  have h : (2 : Int) ^ 15 ≤ 2 ^ (cfg.bits - 1) :=
    pow_le_pow_right₀ (by norm_num) (by have := cfg.hbits; omega)
  norm_num at h
  linarith

theorem Cfg.asUsize_of_nonneg {cfg : Cfg} {z : Int} (h0 : 0 ≤ z) (h1 : z ≤ cfg.umax) :
    cfg.asUsize z = z.toNat := by
  unfold Cfg.asUsize
  have hu : (cfg.umax : Int) = 2 ^ cfg.bits - 1 := by
    unfold Cfg.umax
    rw [Nat.cast_sub Nat.one_le_two_pow]; push_cast; ring
  rw [show z.emod (2 ^ cfg.bits) = z from Int.emod_eq_of_lt h0 (by linarith)]

/-- `magnitude` is the absolute value, unless the negation of `isize::MIN` overflows. -/
theorem Ratio.magnitude_sat {cfg : Cfg} {A : Panic → Prop} {z : Int} (hz : cfg.Fits z)
    (h : z < 0 → cfg.Safe A (-z)) :
    Sat A (Ratio.magnitude cfg z) (fun m => m = z.natAbs ∧ m ≤ cfg.umax) := by
  have hu := cfg.umax_eq
  have hi := cfg.imin_eq
  have hm := cfg.imax_ge
  unfold Ratio.magnitude
  by_cases h0 : 0 ≤ z
  · rw [if_pos h0]
    simp only [pure_eq, ok_bind]
    have := hz.2
    refine Sat.ok ?_
    rw [Cfg.asUsize_of_nonneg h0 (by omega)]
    constructor <;> omega
  · rw [if_neg h0]
    refine Sat.bind (Cfg.neg_sat (h (by omega))) ?_
    rintro a ⟨rfl, hf⟩
    have := hf.2
    refine Sat.pure ?_
    rw [Cfg.asUsize_of_nonneg (by omega) (by omega)]
    constructor <;> omega

theorem Ratio.sign_mul_natAbs {num den : Int} (hd : den ≠ 0) (hn : num ≠ 0 ) :
    ((if Ratio.sameSign num den then 1 else -1 : ℚ) * ((num.natAbs : ℚ) / den.natAbs)) =
      (num : ℚ) / den := by
  have e1 : ((num.natAbs : Int) : ℚ) = ((num.natAbs : Nat) : ℚ) := Int.cast_natCast _
  have e2 : ((den.natAbs : Int) : ℚ) = ((den.natAbs : Nat) : ℚ) := Int.cast_natCast _
  rw [← e1, ← e2]
  unfold Ratio.sameSign
  rcases lt_or_gt_of_ne hn with h1 | h1 <;> rcases lt_or_gt_of_ne hd with h2 | h2
  · rw [show ((num.natAbs : Nat) : Int) = -num by omega,
      show ((den.natAbs : Nat) : Int) = -den by omega]
    simp [h1, h2, neg_div_neg_eq]
  · rw [show ((num.natAbs : Nat) : Int) = -num by omega,
      show ((den.natAbs : Nat) : Int) = den by omega]
    simp [h1.not_ge, h2.not_gt, neg_div]
  · rw [show ((num.natAbs : Nat) : Int) = num by omega,
      show ((den.natAbs : Nat) : Int) = -den by omega]
    simp [h1.not_gt, h2.not_ge, div_neg]
  · rw [show ((num.natAbs : Nat) : Int) = num by omega,
      show ((den.natAbs : Nat) : Int) = den by omega]
    simp [h1.le, h2.le]

/-- `Ratio::new` from signed fields. -/
theorem Ratio.new_signed {cfg : Cfg} {A : Panic → Prop} {num den : Int} (hd : den ≠ 0)
    (hn : num.natAbs ≤ cfg.umax) (hdm : den.natAbs ≤ cfg.umax) :
    Sat A (Ratio.new (Ratio.sameSign num den) num.natAbs den.natAbs)
      (fun t => Describes cfg t ((num : ℚ) / den)) := by
  have hd' : den.natAbs ≠ 0 := by omega
  by_cases h0 : num = 0
  · subst h0
    simp only [Ratio.new, if_neg hd', Int.natAbs_zero]
    exact Sat.ok (.inl ⟨_, rfl, by simp [specialValue]⟩)
  · obtain ⟨t, ht, hdesc⟩ := Ratio.new_ok (positive := Ratio.sameSign num den) hd' hn hdm
    rw [ht]
    rw [Ratio.sign_mul_natAbs hd h0] at hdesc
    exact Sat.ok hdesc

theorem Ratio.newI_sat {cfg : Cfg} {A : Panic → Prop} {num den : Int} (hd : den ≠ 0)
    (hn : cfg.Fits num) (hdf : cfg.Fits den) (hn' : cfg.Safe A (-num)) (hd' : cfg.Safe A (-den)) :
    Sat A (Ratio.newI cfg num den) (fun t => Describes cfg t ((num : ℚ) / den)) := by
  unfold Ratio.newI
  refine Sat.bind (Ratio.magnitude_sat hn fun _ => hn') ?_
  rintro a ⟨rfl, ha⟩
  refine Sat.bind (Ratio.magnitude_sat hdf fun _ => hd') ?_
  rintro b ⟨rfl, hb⟩
  exact Ratio.new_signed hd ha hb

/-- A zero denominator: the only outcomes are the division by zero panic and `A`. -/
theorem Ratio.newI_zero {cfg : Cfg} {A : Panic → Prop} {num : Int}
    (hn : cfg.Fits num) (hn' : cfg.Safe A (-num)) (hA : A .divisionByZero) :
    Sat A (Ratio.newI cfg num 0) (fun _ => False) := by
  unfold Ratio.newI
  refine Sat.bind (Ratio.magnitude_sat hn fun _ => hn') ?_
  rintro a ⟨rfl, ha⟩
  have h0 : cfg.Fits 0 := by
    have := cfg.imax_ge; have := cfg.imin_eq
    constructor <;> omega
  refine Sat.bind (Ratio.magnitude_sat h0 (by omega)) ?_
  rintro b ⟨rfl, hb⟩
  simpa [Ratio.new, Sat] using hA

/-- A boxed ratio denotes its value, with no panic, in every build. -/
theorem Ratio.denotes {cfg : Cfg} {A : Panic → Prop} {r : Ratio} (h : r.OK cfg) :
    Clog.Denotes cfg A (.ratio r) r.val := by
  refine Clog.Denotes.coind (fun c x => ∃ r : Ratio, c = .ratio r ∧ r.OK cfg ∧ x = r.val)
    ?_ ⟨r, rfl, h, rfl⟩
  rintro c x ⟨r, rfl, h, rfl⟩
  refine ⟨h.val_mem.1, h.val_mem.2, ?_⟩
  refine (Ev.succ_outer ?_).ends (m := fun f _ => Clog.egest cfg f (.ratio r))
  simp only [Clog.egest, Strategy.egest]
  refine Ev.bind_sat (Q := fun q : Egested × Strategy => ∃ p : Option Reduction × Ratio,
    q = (Egested.ok p.1, Strategy.ratio p.2) ∧
    (p.1 = sym r.val ∧ p.2.OK cfg ∧ p.2.val = next r.val)) ?_ ?_
  · refine Sat.bind (Ratio.egest_sat h) ?_
    rintro ⟨red, r'⟩ hp
    exact Sat.pure ⟨(red, r'), rfl, hp⟩
  · rintro _ ⟨⟨red, r'⟩, rfl, h1, h2, h3⟩
    exact Ev.pure ⟨h1, r', rfl, h2, h3.symm⟩

end Clarith
