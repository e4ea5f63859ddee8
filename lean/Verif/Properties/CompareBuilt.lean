import Verif.Properties.Buildable

/-! # `compare` of numbers of any size (C100)

C13 is about numbers that never panic, however often they are read after their end.  `compare` reads no further
than the first `None`, so it is exact for all numbers that can be read to their end: also for those of C97 and C99,
whose numerator and denominator are no machine integers. -/

namespace Clarith

open Out Spec

/-! ## Proof -/

namespace CompareBuilt

/-- The expansion of `x` can be read, and then `None`. -/
def Reading (cfg : Cfg) (c : Clog) (x : ℚ) : Prop :=
  ∃ l d e, Expands x l ∧ Gives cfg c l d ∧ Returns (fun f => Clog.egest cfg f d) (none, e)

theorem Reading.mem {cfg : Cfg} {c : Clog} {x : ℚ} (h : Reading cfg c x) : 0 < x ∧ x < 1 := by
  obtain ⟨l, d, e, h, -⟩ := h
  exact h.mem

theorem Reading.ev {cfg : Cfg} {c : Clog} {x : ℚ} (h : Reading cfg c x) :
    Ev NoPanic (fun f (_ : Nat) => Clog.egest cfg f c)
      (fun r => r.1 = sym x ∧ (sym x ≠ none → Reading cfg r.2 (next x))) := by
  obtain ⟨l, d, e, hl, hg, he⟩ := h
  cases hl with
  | half =>
    obtain rfl := Gives.nil_eq hg
    obtain ⟨f₀, he⟩ := he
    exact .inl ⟨_, ⟨sym_half.symm, fun h => absurd sym_half h⟩, f₀, fun f hf _ _ => he f hf⟩
  | amplify h0 h1 hl =>
    obtain ⟨c', ⟨f₀, hr⟩, hg⟩ := Gives.uncons hg
    exact .inl ⟨_, ⟨(sym_lt h1).symm, fun _ => ⟨_, d, e, by rw [next_lt h1]; exact hl, hg, he⟩⟩, f₀,
      fun f hf _ _ => hr f hf⟩
  | uncover h0 h1 hl =>
    obtain ⟨c', ⟨f₀, hr⟩, hg⟩ := Gives.uncons hg
    exact .inl ⟨_, ⟨(sym_gt h0).symm, fun _ => ⟨_, d, e, by rw [next_gt h0]; exact hl, hg, he⟩⟩, f₀,
      fun f hf _ _ => hr f hf⟩

theorem clogs {cfg : Cfg} {c1 c2 : Clog} {x y : ℚ}
    {l : List Reduction} (h1 : Reading cfg c1 x) (h2 : Reading cfg c2 y)
    (hl : Expands x l) (polarity : Bool) :
    Ev NoPanic (fun f j => Compare.compareClogs cfg (Clog.egest cfg f) j c1 c2 polarity)
      (fun o => Compare.Orders polarity o x y) := by
  induction l generalizing c1 c2 x y polarity with
  | nil =>
    cases hl
    refine Ev.succ ?_
    simp only [Compare.compareClogs]
    refine Ev.bind h1.ev ?_
    rintro ⟨e1, c1'⟩ ⟨he1, hd1⟩
    refine Ev.bind h2.ev ?_
    rintro ⟨e2, c2'⟩ ⟨he2, hd2⟩
    simp only at he1 he2 ⊢
    subst he1 he2
    by_cases hne : sym (1 / 2) = sym y
    · simp only [hne, ne_eq, not_true_eq_false, if_false]
      rw [← hne, sym_half]
      refine Ev.pure ?_
      have : y = 1 / 2 := sym_eq_none.1 (by rw [← hne, sym_half])
      cases polarity <;> simp [Compare.Orders, Ordering.Compares, this]
    · simp only [if_pos hne]
      refine Ev.pure ?_
      have := Compare.symbolAnswer_compares hne
      cases polarity <;> simpa [Compare.Orders] using this
  | cons r l ih =>
    refine Ev.succ ?_
    simp only [Compare.compareClogs]
    refine Ev.bind h1.ev ?_
    rintro ⟨e1, c1'⟩ ⟨he1, hd1⟩
    refine Ev.bind h2.ev ?_
    rintro ⟨e2, c2'⟩ ⟨he2, hd2⟩
    simp only at he1 he2 hd1 hd2 ⊢
    subst he1 he2
    by_cases hne : sym x = sym y
    · simp only [hne, ne_eq, not_true_eq_false, if_false]
      cases hl with
      | amplify h0 hx hl =>
        have hy : y < 1 / 2 := sym_eq_amplify.1 (by rw [← hne, sym_lt hx])
        rw [sym_lt hy]
        have hd1 := hd1 (by rw [sym_lt hx]; simp)
        have hd2 := hd2 (by rw [sym_lt hy]; simp)
        rw [next_lt hx] at hd1
        rw [next_lt hy] at hd2
        refine (ih hd1 hd2 hl polarity).mono fun o ho => ho.same ?_ ?_ ?_ <;> intro <;> linarith
      | uncover hx h0 hl =>
        have hy : 1 / 2 < y := sym_eq_uncover.1 (by rw [← hne, sym_gt hx])
        rw [sym_gt hy]
        have hd1 := hd1 (by rw [sym_gt hx]; simp)
        have hd2 := hd2 (by rw [sym_gt hy]; simp)
        rw [next_gt hx] at hd1
        rw [next_gt hy] at hd2
        have hx0 : 0 < x := h1.mem.1
        have hy0 : 0 < y := h2.mem.1
        refine (ih hd1 hd2 hl (!polarity)).mono fun o ho => ho.flip ?_ ?_ ?_
        · intro h
          exact (one_div_lt_one_div hx0 hy0).1 (by linarith)
        · intro h
          have : 1 / x = 1 / y := by linarith
          exact (one_div_one_div x).symm.trans ((congrArg _ this).trans (one_div_one_div y))
        · intro h
          exact (one_div_lt_one_div hy0 hx0).1 (by linarith)
    · simp only [ne_eq, hne, not_false_eq_true, if_true]
      refine Ev.pure ?_
      have := Compare.symbolAnswer_compares hne
      cases polarity <;> simpa [Compare.Orders] using this

theorem others {cfg : Cfg} {p1 p2 : Option Primer} {c1 c2 : Clog} {x y : ℚ} (hx : Reading cfg c1 x)
    (hy : Reading cfg c2 y) : Ends NoPanic (fun f => Number.compare cfg f (.Other p1 c1) (.Other p2 c2))
      (fun o => o.Compares (applyPrimer p1 x) (applyPrimer p2 y)) := by
  obtain ⟨hx0, hx1⟩ := hx.mem
  obtain ⟨hy0, hy1⟩ := hy.mem
  obtain ⟨l, hl⟩ := exists_expands x hx0 hx1
  simp only [Number.compare, Compare.compareOthers]
  refine Ends.bind (clogs hx hy hl _).ends ?_
  intro o ho
  refine Ends.of_sat (Sat.pure (Ordering.compares_then
    (Compare.comparePrimers_compares p1 p2 hx0 hx1 hy0 hy1) ?_))
  intro he
  obtain rfl := Compare.comparePrimers_eq he
  rcases p1 with _ | p1
  · simpa [Compare.Orders, applyPrimer] using ho
  · cases p1 <;> cases o <;>
      simp only [Compare.Orders, Ordering.Compares, applyPrimer, bne_self_eq_false,
        Bool.and_false, Bool.false_and, Bool.false_eq_true, if_false, Ordering.swap,
        gt_iff_lt, neg_lt_neg_iff, one_div_lt_one_div hx0 hy0,
        one_div_lt_one_div hy0 hx0] at ho ⊢ <;>
      first
        | exact ho
        | (rw [ho])

end CompareBuilt

/-! ## C100 -/

open CompareBuilt

/-- Two numbers that can be read to their end: `compare` returns their order, without panic. -/
theorem C100_compare (cfg : Cfg) (x y : Number) (q r : ℚ) (hx : ReadsAs cfg x q) (hy : ReadsAs cfg y r) :
    ∃ o, Returns (fun f => Number.compare cfg f x y) o ∧
      (o = .lt ↔ q < r) ∧ (o = .eq ↔ q = r) ∧ (o = .gt ↔ r < q) := by
  obtain ⟨p1, c1, v, l1, d1, e1, rfl, rfl, a1, a2, a3⟩ := hx
  obtain ⟨p2, c2, w, l2, d2, e2, rfl, rfl, b1, b2, b3⟩ := hy
  rcases others (p1 := p1) (p2 := p2) ⟨l1, d1, e1, a1, a2, a3⟩ ⟨l2, d2, e2, b1, b2, b3⟩ with ⟨o, h, ho⟩ | ⟨_, _, h⟩
  · refine ⟨o, h, ?_⟩
    cases o <;> simp only [Ordering.Compares] at ho <;>
      simp only [true_iff, reduceCtorEq, false_iff, not_lt] <;>
      refine ⟨?_, ?_, ?_⟩ <;>
      first | exact ho | exact ho.le | exact ho.ne | exact ho.ne' | exact ho.symm.le
  · exact h.elim

/-- A special and a number that can be read to its end. -/
theorem C100_special (cfg : Cfg) (s : Special) (y : Number) (r : ℚ) (hy : ReadsAs cfg y r) :
    ∃ o, Returns (fun f => Number.compare cfg f (.Special s) y) o ∧
      Returns (fun f => Number.compare cfg f y (.Special s)) o.swap ∧
      (o = .lt ↔ specialValue s < r) ∧ (o = .gt ↔ r < specialValue s) ∧ o ≠ .eq := by
  obtain ⟨p, c, v, l, d, e, rfl, rfl, a, -⟩ := hy
  have h := Compare.compareHybrid_compares s p a.mem.1 a.mem.2
  refine ⟨Compare.compareHybrid s p, ⟨0, fun _ _ => rfl⟩, ⟨0, fun _ _ => rfl⟩, ?_⟩
  have hne : Compare.compareHybrid s p ≠ .eq := by
    rcases p with _ | _ | _ | _ <;> cases s <;> decide
  revert h hne
  cases Compare.compareHybrid s p <;> intro h hne <;> simp only [Ordering.Compares] at h
  · exact ⟨by simpa using h, by simpa using h.le, hne⟩
  · exact absurd rfl hne
  · exact ⟨by simpa using h.le, by simpa using h, hne⟩

/-- The numbers without panics of the other properties, unless they are special, can be read to their end. -/
theorem C100_denotes (cfg : Cfg) (x : Number) (q : ℚ) (hx : Number.Denotes cfg NoPanic x q) :
    (∃ s, x = .Special s ∧ q = specialValue s) ∨ ReadsAs cfg x q := by
  cases x with
  | Special s => exact .inl ⟨s, rfl, hx⟩
  | Other p c =>
    obtain ⟨v, hv, rfl⟩ := hx
    obtain ⟨l, hl⟩ := exists_expands v hv.1 hv.2.1
    obtain ⟨d, e, h1, h2⟩ := ZeroOver.stops hl hv
    exact .inr ⟨p, c, v, l, d, e, rfl, rfl, hl, h1, h2⟩

/-! ### Cases that meet the hypotheses -/

/-- A number of 200 bits, made as in C99, is found to be greater than `2^62`, on a machine of 64 bits. -/
example : ∃ x y, (∃ p l, Returns (fun f => build debug64 f p l) x) ∧ Number.ratio debug64 (2 ^ 62) 1 = .ok y ∧
    Returns (fun f => Number.compare debug64 f x y) .gt := by
  obtain ⟨y, h, hy⟩ := C01_ratio_exact debug64 (2 ^ 62) 1 (by decide) (by decide) (by decide) (by decide)
  rcases C99_every debug64 (2 ^ 200 / 3) with ⟨_, s, -, e⟩ | ⟨p, l, x, hx, e⟩
  · cases s <;> norm_num [specialValue] at e
  rcases C100_denotes debug64 y _ hy with ⟨s, -, e'⟩ | e'
  · cases s <;> norm_num [specialValue] at e'
  obtain ⟨o, ho, h'⟩ := C100_compare debug64 x y _ _ e e'
  rw [h'.2.2.2 (by norm_num)] at ho
  exact ⟨x, y, ⟨p, l, hx⟩, h, ho⟩

/-- The same number and -1. -/
example : ∃ x, (∃ p l, Returns (fun f => build debug64 f p l) x) ∧
    Returns (fun f => Number.compare debug64 f (.Special .NegOne) x) .lt := by
  rcases C99_every debug64 (2 ^ 200 / 3) with ⟨_, s, -, e⟩ | ⟨p, l, x, hx, e⟩
  · cases s <;> norm_num [specialValue] at e
  obtain ⟨o, ho, -, h, -⟩ := C100_special debug64 .NegOne x _ e
  rw [h.2 (by norm_num [specialValue])] at ho
  exact ⟨x, ⟨p, l, hx⟩, ho⟩

end Clarith
