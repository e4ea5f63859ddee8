import Verif.Proofs.Observe
import Verif.Proofs.Homographic
import Mathlib.Order.Compare
import Mathlib.Algebra.Order.Field.Basic

/-! # `compare` is numeric order -/

namespace Clarith

open Out Spec

theorem Compare.symbolAnswer_compares {x y : ℚ} (h : sym x ≠ sym y) :
    (Compare.symbolAnswer (sym x) (sym y)).Compares x y := by
  rcases lt_trichotomy x (1 / 2) with hx | rfl | hx <;>
  rcases lt_trichotomy y (1 / 2) with hy | rfl | hy <;>
  simp only [sym_lt, sym_gt, sym_half, *, ne_eq, not_true_eq_false, Compare.symbolAnswer,
    Ordering.Compares] at h ⊢ <;> linarith

/-- `o`, reversed when the polarity is negative, orders `x` and `y`. -/
def Compare.Orders (polarity : Bool) (o : Ordering) (x y : ℚ) : Prop :=
  (if polarity then o else o.swap).Compares x y

theorem Compare.Orders.flip {b : Bool} {o : Ordering} {x y x' y' : ℚ}
    (h : Compare.Orders (!b) o x' y') (hlt : x' < y' → y < x) (heq : x' = y' → x = y)
    (hgt : y' < x' → x < y) : Compare.Orders b o x y := by
  cases b <;> cases o <;> simp_all [Compare.Orders, Ordering.Compares]

theorem Compare.Orders.same {b : Bool} {o : Ordering} {x y x' y' : ℚ}
    (h : Compare.Orders b o x' y') (hlt : x' < y' → x < y) (heq : x' = y' → x = y)
    (hgt : y' < x' → y < x) : Compare.Orders b o x y := by
  cases b <;> cases o <;> simp_all [Compare.Orders, Ordering.Compares]

theorem Compare.compareClogs_ev {cfg : Cfg} {A : Panic → Prop} {c1 c2 : Clog} {x y : ℚ}
    {l : List Reduction} (h1 : Clog.Denotes cfg A c1 x) (h2 : Clog.Denotes cfg A c2 y)
    (hl : Expands x l) (polarity : Bool) :
    Ev A (fun f j => Compare.compareClogs cfg (Clog.egest cfg f) j c1 c2 polarity)
      (fun o => Compare.Orders polarity o x y) := by
  induction l generalizing c1 c2 x y polarity with
  | nil =>
    cases hl
    refine Ev.succ ?_
    simp only [Compare.compareClogs]
    refine Ev.bind h1.ev ?_
    rintro ⟨e1, c1'⟩ ⟨he1, hd1⟩
    refine Ev.bind h2.ev ?_
    rintro ⟨e2, c2'⟩ ⟨he2, hd2⟩
    simp only at he1 he2 ⊢
    subst he1 he2
    by_cases hne : sym (1 / 2) = sym y
    · simp only [hne, ne_eq, not_true_eq_false, if_false]
      rw [← hne, sym_half]
      refine Ev.pure ?_
      have : y = 1 / 2 := sym_eq_none.1 (by rw [← hne, sym_half])
      cases polarity <;> simp [Compare.Orders, Ordering.Compares, this]
    · simp only [if_pos hne]
      refine Ev.pure ?_
      have := Compare.symbolAnswer_compares hne
      cases polarity <;> simpa [Compare.Orders] using this
  | cons r l ih =>
    refine Ev.succ ?_
    simp only [Compare.compareClogs]
    refine Ev.bind h1.ev ?_
    rintro ⟨e1, c1'⟩ ⟨he1, hd1⟩
    refine Ev.bind h2.ev ?_
    rintro ⟨e2, c2'⟩ ⟨he2, hd2⟩
    simp only at he1 he2 hd1 hd2 ⊢
    subst he1 he2
    by_cases hne : sym x = sym y
    · simp only [hne, ne_eq, not_true_eq_false, if_false]
      cases hl with
      | amplify h0 hx hl =>
        have hy : y < 1 / 2 := sym_eq_amplify.1 (by rw [← hne, sym_lt hx])
        rw [sym_lt hy]
        rw [next_lt hx] at hd1
        rw [next_lt hy] at hd2
        refine (ih hd1 hd2 hl polarity).mono fun o ho => ho.same ?_ ?_ ?_ <;> intro <;> linarith
      | uncover hx h0 hl =>
        have hy : 1 / 2 < y := sym_eq_uncover.1 (by rw [← hne, sym_gt hx])
        rw [sym_gt hy]
        rw [next_gt hx] at hd1
        rw [next_gt hy] at hd2
        have hx0 : 0 < x := h1.1
        have hy0 : 0 < y := h2.1
        refine (ih hd1 hd2 hl (!polarity)).mono fun o ho => ho.flip ?_ ?_ ?_
        · intro h
          exact (one_div_lt_one_div hx0 hy0).1 (by linarith)
        · intro h
          have : 1 / x = 1 / y := by linarith
          exact (one_div_one_div x).symm.trans ((congrArg _ this).trans (one_div_one_div y))
        · intro h
          exact (one_div_lt_one_div hy0 hx0).1 (by linarith)
    · simp only [ne_eq, hne, not_false_eq_true, if_true]
      refine Ev.pure ?_
      have := Compare.symbolAnswer_compares hne
      cases polarity <;> simpa [Compare.Orders] using this

theorem Compare.compareSpecials_compares (s t : Special) :
    (Compare.compareSpecials s t).Compares (specialValue s) (specialValue t) := by
  cases s <;> cases t <;>
    simp only [Compare.compareSpecials, Ordering.Compares, specialValue, reduceCtorEq, if_true,
      if_false, gt_iff_lt] <;> norm_num

theorem Compare.compareHybrid_compares (s : Special) (p : Option Primer) {x : ℚ} (h0 : 0 < x)
    (h1 : x < 1) :
    (Compare.compareHybrid s p).Compares (specialValue s) (applyPrimer p x) := by
  have ix : 1 < 1 / x := by rw [lt_div_iff₀ h0]; linarith
  rcases p with _ | p
  · cases s <;> simp [Compare.compareHybrid, Ordering.Compares, specialValue, applyPrimer] <;>
      linarith
  · cases p <;> cases s <;>
      simp only [Compare.compareHybrid, Ordering.Compares, specialValue, applyPrimer,
        Option.some.injEq, reduceCtorEq, if_true, if_false, gt_iff_lt] <;> linarith

theorem Ordering.compares_then {a b : Ordering} {x y : ℚ} (h1 : a ≠ .eq → a.Compares x y)
    (h2 : a = .eq → b.Compares x y) : (a.then b).Compares x y := by
  cases a
  · exact h1 (by decide)
  · exact h2 rfl
  · exact h1 (by decide)

theorem Compare.comparePrimers_compares (p1 p2 : Option Primer) {x y : ℚ} (hx0 : 0 < x)
    (hx1 : x < 1) (hy0 : 0 < y) (hy1 : y < 1) (h : Compare.comparePrimers p1 p2 ≠ .eq) :
    (Compare.comparePrimers p1 p2).Compares (applyPrimer p1 x) (applyPrimer p2 y) := by
  have ix : 1 < 1 / x := by rw [lt_div_iff₀ hx0]; linarith
  have iy : 1 < 1 / y := by rw [lt_div_iff₀ hy0]; linarith
  rcases p1 with _ | p1 <;> rcases p2 with _ | p2 <;> (try cases p1) <;> (try cases p2) <;>
    simp only [Compare.comparePrimers, Ordering.Compares, applyPrimer, Option.some.injEq,
      reduceCtorEq, if_true, if_false, gt_iff_lt, ne_eq, not_true_eq_false] at h ⊢ <;> linarith

theorem Compare.comparePrimers_eq {p1 p2 : Option Primer}
    (h : Compare.comparePrimers p1 p2 = .eq) : p1 = p2 := by
  rcases p1 with _ | p1 <;> rcases p2 with _ | p2 <;> (try cases p1) <;> (try cases p2) <;>
    first | rfl | (exfalso; revert h; decide)

theorem Number.compare_ends {cfg : Cfg} {A : Panic → Prop} {n1 n2 : Number} {p q : ℚ}
    (h1 : Number.Denotes cfg A n1 p) (h2 : Number.Denotes cfg A n2 q) :
    Ends A (fun f => Number.compare cfg f n1 n2) (fun o => o.Compares p q) := by
  cases n1 with
  | Special s =>
    cases n2 with
    | Special t =>
      obtain rfl : p = specialValue s := h1
      obtain rfl : q = specialValue t := h2
      exact Ends.of_sat (Sat.pure (Compare.compareSpecials_compares s t))
    | Other p2 c2 =>
      obtain rfl : p = specialValue s := h1
      obtain ⟨y, hy, rfl⟩ := h2
      exact Ends.of_sat (Sat.pure (Compare.compareHybrid_compares s p2 hy.1 hy.2.1))
  | Other p1 c1 =>
    obtain ⟨x, hx, rfl⟩ := h1
    cases n2 with
    | Special t =>
      obtain rfl : q = specialValue t := h2
      exact Ends.of_sat (Sat.pure
        (Ordering.Compares.swap (Compare.compareHybrid_compares t p1 hx.1 hx.2.1)))
    | Other p2 c2 =>
      obtain ⟨y, hy, rfl⟩ := h2
      obtain ⟨l, hl⟩ := exists_expands x hx.1 hx.2.1
      simp only [Number.compare, Compare.compareOthers]
      refine Ends.bind (Compare.compareClogs_ev hx hy hl _).ends ?_
      intro o ho
      refine Ends.of_sat (Sat.pure (Ordering.compares_then
        (Compare.comparePrimers_compares p1 p2 hx.1 hx.2.1 hy.1 hy.2.1) ?_))
      intro he
      obtain rfl := Compare.comparePrimers_eq he
      have hx0 := hx.1
      have hy0 := hy.1
      rcases p1 with _ | p1
      · simpa [Compare.Orders, applyPrimer] using ho
      · cases p1 <;> cases o <;>
          simp only [Compare.Orders, Ordering.Compares, applyPrimer, bne_self_eq_false,
            Bool.and_false, Bool.false_and, Bool.false_eq_true, if_false, Ordering.swap,
            gt_iff_lt, neg_lt_neg_iff, one_div_lt_one_div hx0 hy0,
            one_div_lt_one_div hy0 hx0] at ho ⊢ <;>
          first
            | exact ho
            | (rw [ho])

end Clarith
