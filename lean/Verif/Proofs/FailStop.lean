import Verif.SpecFailStop
import Verif.Proofs.StepsPrinted
import Verif.Proofs.HomographicNew
import Verif.Proofs.Observe

/-! # `homographic` is fail-stop as long as the coefficients can be doubled (C70) -/

namespace Clarith

open Out Spec Steps

/-! ## The only panic is a failed range check, and it changes nothing -/

/-- The panic of checked arithmetic. -/
def Checked (p : Panic) : Prop := p = .unwrapNone

/-- All integers up to `4 * M` are machine integers. -/
def Cfg.Roomy (cfg : Cfg) (M : Int) : Prop := ∀ z : Int, -(4 * M) ≤ z → z ≤ 4 * M → cfg.Fits z

theorem Cfg.Roomy.safe {cfg : Cfg} {M : Int} (h : cfg.Roomy M) : cfg.SafeUpTo Checked M :=
  ⟨fun z hz => .inl (h z (abs_le.1 hz).1 (abs_le.1 hz).2), fun _ _ => .inr rfl⟩

theorem Cfg.Roomy.mono {cfg : Cfg} {M M' : Int} (h : cfg.Roomy M) (hM : M' ≤ M) :
    cfg.Roomy M' := fun z h1 h2 => h z (by omega) (by omega)

theorem Cfg.Roomy.head {cfg : Cfg} {M : Int} {n : Nat} (h : cfg.Roomy (M * 2 ^ n)) (hM : 1 ≤ M) :
    cfg.Roomy M := h.mono (le_mul_of_one_le_right (by omega) (one_le_pow₀ (by norm_num)))

theorem Cfg.Roomy.tail {cfg : Cfg} {M : Int} {n : Nat} (h : cfg.Roomy (M * 2 ^ (n + 1))) :
    cfg.Roomy (2 * M * 2 ^ n) := by
  rwa [pow_succ, show M * (2 ^ n * 2) = 2 * M * 2 ^ n by ring] at h

theorem Cfg.checked_within {cfg : Cfg} {z : Int} (h : cfg.Fits z) : cfg.checked z = .ok z := by
  unfold Cfg.checked
  rw [if_pos h]

namespace Coef4

variable {cfg : Cfg} {M : Int} {k : Coef4}

theorem amplify_roomy (hr : cfg.Roomy M) (hb : k.Bounded M) : ∃ k', k.amplify cfg = .ok k' := by
  obtain ⟨h1, h2, h3, h4, h5, h6, h7, h8, h9⟩ := hb
  unfold amplify
  split
  · unfold Cfg.cmul
    rw [Cfg.checked_within (hr _ (by omega) (by omega)), Cfg.checked_within (hr _ (by omega) (by omega))]
    exact ⟨_, rfl⟩
  · exact ⟨_, rfl⟩

theorem uncover_roomy (hr : cfg.Roomy M) (hb : k.Bounded M) : ∃ k', k.uncover cfg = .ok k' := by
  obtain ⟨h1, h2, h3, h4, h5, h6, h7, h8, h9⟩ := hb
  unfold uncover Cfg.csub
  rw [Cfg.checked_within (hr _ (by omega) (by omega)), Cfg.checked_within (hr _ (by omega) (by omega))]
  exact ⟨_, rfl⟩

theorem ingestAmplify_roomy (hr : cfg.Roomy M) (hb : k.Bounded M) :
    ∃ k', k.ingestAmplify cfg = .ok k' := by
  obtain ⟨h1, h2, h3, h4, h5, h6, h7, h8, h9⟩ := hb
  unfold ingestAmplify
  split
  · unfold Cfg.cmul
    rw [Cfg.checked_within (hr _ (by omega) (by omega)), Cfg.checked_within (hr _ (by omega) (by omega))]
    exact ⟨_, rfl⟩
  · exact ⟨_, rfl⟩

theorem ingestUncover_roomy (hr : cfg.Roomy M) (hb : k.Bounded M) :
    ∃ k', k.ingestUncover cfg = .ok k' := by
  obtain ⟨h1, h2, h3, h4, h5, h6, h7, h8, h9⟩ := hb
  unfold ingestUncover Cfg.cadd
  rw [Cfg.checked_within (hr _ (by omega) (by omega)), Cfg.checked_within (hr _ (by omega) (by omega))]
  exact ⟨_, rfl⟩

theorem valueAtOneHalf_roomy (hr : cfg.Roomy M) (hb : k.Bounded M) :
    ∃ r, k.valueAtOneHalf cfg = .ok r := by
  obtain ⟨h1, h2, h3, h4, h5, h6, h7, h8, h9⟩ := hb
  unfold valueAtOneHalf Cfg.cmul Cfg.cadd
  by_cases hodd : (isOdd k.nx || isOdd k.dx) = true
  · rw [if_pos hodd, Cfg.checked_within (hr _ (by omega) (by omega))]
    simp only [ok_bind]
    rw [Cfg.checked_within (hr _ (by omega) (by omega))]
    simp only [ok_bind]
    rw [Cfg.checked_within (hr _ (by omega) (by omega))]
    simp only [ok_bind]
    rw [Cfg.checked_within (hr _ (by omega) (by omega))]
    exact ⟨_, rfl⟩
  · rw [if_neg hodd]
    simp only [Bool.or_eq_true, not_or, Bool.not_eq_true] at hodd
    have e1 := isOdd_iff.1 hodd.1
    have e2 := isOdd_iff.1 hodd.2
    rw [Cfg.checked_within (hr _ (by omega) (by omega))]
    simp only [ok_bind]
    rw [Cfg.checked_within (hr _ (by omega) (by omega))]
    exact ⟨_, rfl⟩

end Coef4

namespace Steps

open Mut

theorem Agree.ok {σ : Type} {m : Mut σ Unit} {s t : σ} {o : Out σ}
    (h : Agree m s (o >>= fun k => pure ((), k))) (ho : o = .ok t) : m s = (.ok (), t) := by
  subst ho
  unfold Agree Sim at h
  revert h
  generalize m s = r
  obtain ⟨r, u⟩ := r
  cases r with
  | ok a =>
    rintro ⟨b, e, rfl⟩
    injection e with e
    injection e with _ e
    subst e
    rfl
  | panic p => rintro ⟨e, _⟩; cases e
  | shared => exact fun h => h.elim
  | timeout => rintro ⟨e, _⟩; cases e

theorem Sim.done_bind {σ α β γ : Type} {m : Mut σ γ} {g : γ → Mut σ α} {s t : σ} {c : γ}
    {o : Out β} {J : σ → Prop} {R : α → σ → β → Prop} (hm : m s = (.ok c, t))
    (h : Sim (g c) t o J R) : Sim (m >>= g) s o J R := by
  have e : (m >>= g) s = Mut.bind m g s := rfl
  unfold Sim at h ⊢
  rwa [e, Mut.bind, hm]

namespace Coef4

/-- A panic in the attempt leaves the coefficients as they were. -/
theorem reductionAttempt_kept {cfg : Cfg} {M : Int} {k : Clarith.Coef4} (hr : cfg.Roomy M)
    (hb : k.Bounded M) :
    Sim (reductionAttempt cfg) k (k.reductionAttempt cfg >>= attempt k) (· = k)
      (fun a t b => b = (a, t)) := by
  obtain ⟨ka, ea⟩ := Clarith.Coef4.amplify_roomy hr hb
  obtain ⟨ku, eu⟩ := Clarith.Coef4.uncover_roomy hr hb
  unfold reductionAttempt Clarith.Coef4.reductionAttempt
  simp only [out_bind_assoc, out_pure_bind, out_ite_bind, attempt_none]
  refine Sim.get_bind (Sim.eval_bind rfl fun c _ => ?_)
  refine Sim.ite (fun _ => ?_) fun _ => Sim.pure rfl
  unfold reductionEgest Clarith.Coef4.reductionEgest
  simp only [out_bind_assoc, out_pure_bind, out_ite_bind, attempt_some, attempt_none,
    out_panic_bind, ea, eu, ok_bind]
  refine Sim.get_bind (Sim.eval_bind rfl fun c _ => ?_)
  obtain ⟨nmin, dmin, nmax, dmax⟩ := c
  refine Sim.ite (fun _ => Sim.panic rfl) fun _ => ?_
  refine Sim.ite (fun _ => Sim.panic rfl) fun _ => ?_
  refine Sim.eval_bind rfl fun _ _ => ?_
  refine Sim.ite (fun _ => Sim.pure rfl) fun _ => ?_
  refine Sim.eval_bind rfl fun _ _ => ?_
  refine Sim.ite (fun _ => ?_) fun _ => ?_
  · exact Sim.done_bind ((amplify_agree cfg k).ok ea) (Sim.pure rfl)
  refine Sim.eval_bind rfl fun _ _ => ?_
  refine Sim.ite (fun _ => ?_) fun _ => Sim.pure rfl
  exact Sim.done_bind ((uncover_agree cfg k).ok eu) (Sim.pure rfl)

/-- The three ends of the attempt. -/
theorem reductionAttempt_cases {cfg : Cfg} {M : Int} {k : Clarith.Coef4} (hr : cfg.Roomy M)
    (hb : k.Bounded M) (hI : k.InvW) :
    reductionAttempt cfg k = (.panic .unwrapNone, k) ∨
    reductionAttempt cfg k = (.ok none, k) ∨
    ∃ p k', reductionAttempt cfg k = (.ok (some p), k') ∧
      ((Clarith.Coef4.PosW k ∧ Clarith.Coef4.ReductionRel k p k') ∨
        (Clarith.Coef4.PosW k.opp ∧ Clarith.Coef4.ReductionRel k.opp p k'.opp)) := by
  have h1 := reductionAttempt_kept hr hb
  have h2 := Clarith.Coef4.reductionAttempt_sat hr.safe hb hI
  unfold Sim at h1
  revert h1 h2
  generalize reductionAttempt cfg k = r
  generalize k.reductionAttempt cfg = o
  obtain ⟨r, t⟩ := r
  intro h1 h2
  rcases o with (_ | ⟨p, k'⟩) | p | _
  · cases r with
    | ok a =>
      obtain ⟨b, e, rfl⟩ := h1
      injection e with e
      injection e with e1 e2
      subst e1 e2
      exact .inr (.inl rfl)
    | panic p => cases h1.1
    | shared => exact h1.elim
    | timeout => cases h1.1
  · cases r with
    | ok a =>
      obtain ⟨b, e, rfl⟩ := h1
      injection e with e
      injection e with e1 e2
      subst e1 e2
      exact .inr (.inr ⟨p, k', rfl, h2 p k' rfl⟩)
    | panic p => cases h1.1
    | shared => exact h1.elim
    | timeout => cases h1.1
  · have hp : p = .unwrapNone := h2
    subst hp
    cases r with
    | ok a =>
      obtain ⟨b, e, rfl⟩ := h1
      cases e
    | panic p =>
      obtain ⟨e, rfl⟩ := h1
      injection e with e
      subst e
      exact .inl rfl
    | shared => exact h1.elim
    | timeout => cases h1.1
  · exact h2.elim

end Coef4

end Steps

/-! ## Dead numbers -/

theorem Spec.Dead.step {cfg : Cfg} {o : Obj} (h : Dead cfg o) :
    ∃ o', AnswersWith cfg o (.panic .unwrapNone) o' ∧ Dead cfg o' := by
  obtain ⟨D, hD, hc⟩ := h
  obtain ⟨o', h1, h2⟩ := hc o hD
  exact ⟨o', h1, D, h2, hc⟩

theorem Spec.FailStop.step {cfg : Cfg} {o : Obj} {x : ℚ} (h : FailStop cfg o x) :
    (∃ o', AnswersWith cfg o (.panic .unwrapNone) o' ∧ Dead cfg o') ∨
    ∃ o', AnswersWith cfg o (.ok (sym x)) o' ∧ FailStop cfg o' (next x) := by
  obtain ⟨D, hD, hc⟩ := h
  rcases hc o x hD with h | ⟨hx, o', h1, h2⟩ | ⟨hx, o', h1, h2⟩ | ⟨rfl, o', h1, h2⟩
  · exact .inl h
  · refine .inr ⟨o', ?_, D, ?_, hc⟩
    · rwa [sym_lt hx]
    · rwa [next_lt hx]
  · refine .inr ⟨o', ?_, D, ?_, hc⟩
    · rwa [sym_gt hx]
    · rwa [next_gt hx]
  · refine .inr ⟨o', ?_, D, ?_, hc⟩
    · rwa [sym_half]
    · rwa [next_half]

/-- A set of numbers closed under the right answers. -/
theorem Spec.FailStop.of {cfg : Cfg} {D : Obj → ℚ → Prop} {o : Obj} {x : ℚ} (h : D o x)
    (hc : ∀ o x, D o x → (∃ o', AnswersWith cfg o (.panic .unwrapNone) o' ∧ Dead cfg o') ∨
      ∃ o', AnswersWith cfg o (.ok (sym x)) o' ∧ D o' (next x)) : FailStop cfg o x := by
  refine ⟨D, h, fun o x h => ?_⟩
  rcases hc o x h with h | ⟨o', h1, h2⟩
  · exact .inl h
  · rcases lt_trichotomy x (1 / 2) with hx | rfl | hx
    · rw [sym_lt hx] at h1
      rw [next_lt hx] at h2
      exact .inr (.inl ⟨hx, o', h1, h2⟩)
    · rw [sym_half] at h1
      rw [next_half] at h2
      exact .inr (.inr (.inr ⟨rfl, o', h1, h2⟩))
    · rw [sym_gt hx] at h1
      rw [next_gt hx] at h2
      exact .inr (.inr (.inl ⟨hx, o', h1, h2⟩))

/-- The answers of caught calls. -/
theorem Spec.Dead.caught {cfg : Cfg} (m : Nat) : ∀ {o : Obj}, Dead cfg o →
    ∃ F, ∀ f, F ≤ f → ∀ w, Spec.caught cfg f m o w = List.replicate m (.panic .unwrapNone) := by
  induction m with
  | zero => exact fun _ => ⟨0, fun _ _ _ => rfl⟩
  | succ m ih =>
    intro o h
    obtain ⟨o', ⟨F, hF⟩, h'⟩ := h.step
    obtain ⟨G, hG⟩ := ih h'
    refine ⟨max F G, fun f hf w => ?_⟩
    obtain ⟨w', e⟩ := hF f (le_trans (le_max_left _ _) hf) w
    simp only [Spec.caught, e, List.replicate_succ]
    rw [hG f (le_trans (le_max_right _ _) hf)]

theorem Spec.FailStop.caught {cfg : Cfg} (m : Nat) : ∀ {o : Obj} {x : ℚ}, FailStop cfg o x →
    ∃ r, r ≤ m ∧ ∃ F, ∀ f, F ≤ f → ∀ w, Spec.caught cfg f m o w =
      (symbols r x).map .ok ++ List.replicate (m - r) (.panic .unwrapNone) := by
  induction m with
  | zero => exact fun _ => ⟨0, le_rfl, 0, fun _ _ _ => rfl⟩
  | succ m ih =>
    intro o x h
    rcases h.step with ⟨o', h1, h2⟩ | ⟨o', ⟨F, hF⟩, h'⟩
    · obtain ⟨D, hD, hc⟩ := h2
      have hd : Dead cfg o := ⟨fun p => p = o ∨ D p, .inl rfl, by
        rintro p (rfl | hp)
        · exact ⟨o', h1, .inr hD⟩
        · obtain ⟨p', e1, e2⟩ := hc p hp
          exact ⟨p', e1, .inr e2⟩⟩
      obtain ⟨F, hF⟩ := hd.caught (m + 1)
      exact ⟨0, Nat.zero_le _, F, hF⟩
    · obtain ⟨r, hr, G, hG⟩ := ih h'
      refine ⟨r + 1, by omega, max F G, fun f hf w => ?_⟩
      obtain ⟨w', e⟩ := hF f (le_trans (le_max_left _ _) hf) w
      simp only [Spec.caught, e, symbols_succ]
      rw [hG f (le_trans (le_max_right _ _) hf), show m + 1 - (r + 1) = m - r by omega]
      rfl

/-! ## Fractions -/

theorem Ratio.failStop {cfg : Cfg} {r : Ratio} (hr : r.OK cfg) :
    FailStop cfg (.ratio r) r.val := by
  refine FailStop.of (D := fun o x => ∃ r : Ratio, o = .ratio r ∧ r.OK cfg ∧ x = r.val)
    ⟨r, rfl, hr, rfl⟩ ?_
  rintro _ _ ⟨r, rfl, hr, rfl⟩
  have h1 := Ratio.egest_agree cfg r
  have h2 := Ratio.egest_sat (A := fun _ => False) hr
  unfold Agree Sim at h1
  revert h1
  generalize e : Steps.Ratio.egest cfg r = t
  obtain ⟨t, r'⟩ := t
  cases t with
  | ok a =>
    rintro ⟨b, e', rfl⟩
    rw [e'] at h2
    refine .inr ⟨.ratio r', ⟨1, fun f hf w => ⟨w, ?_⟩⟩, r', rfl, h2.2.1, h2.2.2.symm⟩
    obtain ⟨f, rfl⟩ : ∃ g, f = g + 1 := ⟨f - 1, by omega⟩
    rw [← h2.1]
    simp only [Steps.egest, Bind.bind, Mut.bind, strategyEgest, e]
    rfl
  | panic p =>
    rintro ⟨e', _⟩
    rw [e'] at h2
    exact h2.elim
  | shared => exact fun h => h.elim
  | timeout =>
    rintro ⟨e', _⟩
    rw [e'] at h2
    exact h2.elim

/-! ## One round of the loops -/

namespace Steps.Homographic

open Mut

variable {cfg : Cfg} {eg : EgestFn} {j : Nat} {x x' : Obj} {k k' : Clarith.Coef4} {w w' : World}

/-- The world after one line was printed. -/
def printed (w : World) (k : Clarith.Coef4) : World := { w with printed := w.printed ++ [k] }

theorem egest_panic {p : Panic} (h : Coef4.reductionAttempt cfg k = (.panic p, k)) :
    egest cfg eg (j + 1) (⟨x, k⟩, w) = (.panic p, (⟨x, k⟩, printed w k)) := by
  simp only [egest, Bind.bind, Mut.bind, println, Mut.modify, onK, part, h, printed]

theorem egest_symbol {p : Option Reduction} (h : Coef4.reductionAttempt cfg k = (.ok (some p), k')) :
    egest cfg eg (j + 1) (⟨x, k⟩, w) = (.ok (.inl p), (⟨x, k'⟩, printed w k)) := by
  simp only [egest, Bind.bind, Mut.bind, println, Mut.modify, onK, part, h, printed]
  rfl

theorem egest_operand {p : Panic} (h : Coef4.reductionAttempt cfg k = (.ok none, k))
    (he : eg (x, printed w k) = (.panic p, (x', w'))) :
    egest cfg eg (j + 1) (⟨x, k⟩, w) = (.panic p, (⟨x', k⟩, w')) := by
  simp only [egest, Bind.bind, Mut.bind, println, Mut.modify, onK, part, h, reductionIngest, onX]
  rw [show ({ w with printed := w.printed ++ [k] } : World) = printed w k from rfl, he]

theorem egest_amplify (h : Coef4.reductionAttempt cfg k = (.ok none, k))
    (he : eg (x, printed w k) = (.ok (some .Amplify), (x', w')))
    (hi : Coef4.ingestAmplify cfg k = (.ok (), k')) :
    egest cfg eg (j + 1) (⟨x, k⟩, w) = egest cfg eg j (⟨x', k'⟩, w') := by
  simp only [egest, Bind.bind, Mut.bind, println, Mut.modify, onK, part, h, reductionIngest, onX]
  rw [show ({ w with printed := w.printed ++ [k] } : World) = printed w k from rfl, he]
  simp only [Mut.bind, part, hi, Pure.pure]

theorem egest_uncover (h : Coef4.reductionAttempt cfg k = (.ok none, k))
    (he : eg (x, printed w k) = (.ok (some .Uncover), (x', w')))
    (hi : Coef4.ingestUncover cfg k = (.ok (), k')) :
    egest cfg eg (j + 1) (⟨x, k⟩, w) = egest cfg eg j (⟨x', k'⟩, w') := by
  simp only [egest, Bind.bind, Mut.bind, println, Mut.modify, onK, part, h, reductionIngest, onX]
  rw [show ({ w with printed := w.printed ++ [k] } : World) = printed w k from rfl, he]
  simp only [Mut.bind, part, hi, Pure.pure]

theorem egest_end {n d : Int} {q : Ratio} (h : Coef4.reductionAttempt cfg k = (.ok none, k))
    (he : eg (x, printed w k) = (.ok none, (x', w')))
    (hh : k.valueAtOneHalf cfg = .ok (n, d))
    (hq : Clarith.Ratio.newI cfg n d = .ok (none, none, some q)) :
    egest cfg eg (j + 1) (⟨x, k⟩, w) = (.ok (.inr (.ratio q)), (⟨x', k⟩, w')) := by
  simp only [egest, Bind.bind, Mut.bind, println, Mut.modify, onK, part, h, reductionIngest, onX]
  rw [show ({ w with printed := w.printed ++ [k] } : World) = printed w k from rfl, he]
  simp only [Mut.bind, Mut.get, hh, Mut.eval, hq, Pure.pure]

theorem prime_panic {p : Panic} (h : Coef4.primerAttempt cfg k = (.panic p, k')) :
    prime cfg eg (j + 1) (⟨x, k⟩, w) = (.panic p, (⟨x, k'⟩, printed w k)) := by
  simp only [prime, Bind.bind, Mut.bind, println, Mut.modify, onK, part, h, printed]

theorem prime_primer {p : Option Primer} (h : Coef4.primerAttempt cfg k = (.ok (some p), k')) :
    prime cfg eg (j + 1) (⟨x, k⟩, w) =
      (.ok (none, p, none, some ⟨x, k'⟩), (⟨x, k'⟩, printed w k)) := by
  simp only [prime, Bind.bind, Mut.bind, println, Mut.modify, onK, part, h, printed]
  rfl

theorem prime_operand {p : Panic} (h : Coef4.primerAttempt cfg k = (.ok none, k))
    (he : eg (x, printed w k) = (.panic p, (x', w'))) :
    prime cfg eg (j + 1) (⟨x, k⟩, w) = (.panic p, (⟨x', k⟩, w')) := by
  simp only [prime, Bind.bind, Mut.bind, println, Mut.modify, onK, part, h, primeIngest, onX]
  rw [show ({ w with printed := w.printed ++ [k] } : World) = printed w k from rfl, he]

theorem prime_amplify (h : Coef4.primerAttempt cfg k = (.ok none, k))
    (he : eg (x, printed w k) = (.ok (some .Amplify), (x', w')))
    (hi : Coef4.ingestAmplify cfg k = (.ok (), k')) :
    prime cfg eg (j + 1) (⟨x, k⟩, w) = prime cfg eg j (⟨x', k'⟩, w') := by
  simp only [prime, Bind.bind, Mut.bind, println, Mut.modify, onK, part, h, primeIngest, onX]
  rw [show ({ w with printed := w.printed ++ [k] } : World) = printed w k from rfl, he]
  simp only [Mut.bind, part, hi, Pure.pure]

theorem prime_uncover (h : Coef4.primerAttempt cfg k = (.ok none, k))
    (he : eg (x, printed w k) = (.ok (some .Uncover), (x', w')))
    (hi : Coef4.ingestUncover cfg k = (.ok (), k')) :
    prime cfg eg (j + 1) (⟨x, k⟩, w) = prime cfg eg j (⟨x', k'⟩, w') := by
  simp only [prime, Bind.bind, Mut.bind, println, Mut.modify, onK, part, h, primeIngest, onX]
  rw [show ({ w with printed := w.printed ++ [k] } : World) = printed w k from rfl, he]
  simp only [Mut.bind, part, hi, Pure.pure]

theorem prime_end {n d : Int} {s : Option Special} {p : Option Primer} {q : Option Ratio}
    (h : Coef4.primerAttempt cfg k = (.ok none, k))
    (he : eg (x, printed w k) = (.ok none, (x', w')))
    (hh : k.valueAtOneHalf cfg = .ok (n, d))
    (hq : Clarith.Ratio.newI cfg n d = .ok (s, p, q)) :
    prime cfg eg (j + 1) (⟨x, k⟩, w) = (.ok (s, p, q, none), (⟨x', k⟩, w')) := by
  simp only [prime, Bind.bind, Mut.bind, println, Mut.modify, onK, part, h, primeIngest, onX]
  rw [show ({ w with printed := w.printed ++ [k] } : World) = printed w k from rfl, he]
  simp only [Mut.bind, Mut.get, hh, Mut.eval, hq, Pure.pure]

end Steps.Homographic

/-! ## Dead results of `homographic` -/

theorem Spec.Dead.of_attempt {cfg : Cfg} {x : Obj} {k : Coef4}
    (h : Steps.Coef4.reductionAttempt cfg k = (.panic .unwrapNone, k)) :
    Dead cfg (.homographic x k) := by
  refine ⟨(· = .homographic x k), rfl, ?_⟩
  rintro _ rfl
  refine ⟨_, ⟨2, fun f hf w => ⟨Steps.Homographic.printed w k, ?_⟩⟩, rfl⟩
  obtain ⟨f, rfl⟩ : ∃ g, f = g + 1 + 1 := ⟨f - 2, by omega⟩
  rw [Steps.egest]
  simp only [Bind.bind, Mut.bind, strategyEgest, Steps.Homographic.egest_panic h,
    Steps.Homographic.box]

theorem Spec.Dead.of_operand {cfg : Cfg} {x : Obj} {k : Coef4}
    (h : Steps.Coef4.reductionAttempt cfg k = (.ok none, k)) (hx : Dead cfg x) :
    Dead cfg (.homographic x k) := by
  refine ⟨fun o => ∃ x, o = .homographic x k ∧ Dead cfg x, ⟨x, rfl, hx⟩, ?_⟩
  rintro _ ⟨x, rfl, hx⟩
  obtain ⟨x', ⟨F, hF⟩, hx'⟩ := hx.step
  refine ⟨.homographic x' k, ⟨F + 2, fun f hf w => ?_⟩, x', rfl, hx'⟩
  obtain ⟨f, rfl⟩ : ∃ g, f = g + 1 + 1 := ⟨f - 2, by omega⟩
  obtain ⟨w', e⟩ := hF (f + 1) (by omega) (Steps.Homographic.printed w k)
  refine ⟨w', ?_⟩
  rw [Steps.egest]
  simp only [Bind.bind, Mut.bind, strategyEgest, Steps.Homographic.egest_operand h e,
    Steps.Homographic.box]

/-! ## `egest` on a result of `homographic` -/

/-- The operand is fail-stop, and the coefficients have room for all its symbols. -/
def Steps.Homographic.Good (cfg : Cfg) (h : Steps.Homographic) (w : ℚ) : Prop :=
  ∃ v l M, FailStop cfg h.x v ∧ Expands v l ∧ h.k.Inv ∧ h.k.Bounded M ∧
    cfg.Roomy (M * 2 ^ l.length) ∧ w = h.k.val v

/-- `m`, given enough fuel, ends with a panic in a state satisfying `J` or with a result and a state
related by `R`. -/
def Steps.Homographic.Runs {α : Type} (m : Nat → Nat → Mut (Steps.Homographic × World) α)
    (h : Steps.Homographic) (J : Steps.Homographic → Prop) (R : α → Steps.Homographic → Prop) :
    Prop :=
  (∃ h', J h' ∧ ∃ F, ∀ f, F ≤ f → ∀ j, F ≤ j → ∀ w, ∃ w',
    m f j (h, w) = (.panic .unwrapNone, (h', w'))) ∨
  ∃ a h', R a h' ∧ ∃ F, ∀ f, F ≤ f → ∀ j, F ≤ j → ∀ w, ∃ w', m f j (h, w) = (.ok a, (h', w'))

/-- After a round the loop goes on elsewhere. -/
theorem Steps.Homographic.Runs.round {α : Type}
    {m : Nat → Nat → Mut (Steps.Homographic × World) α} {h h₁ : Steps.Homographic}
    {J : Steps.Homographic → Prop} {R : α → Steps.Homographic → Prop} (hr : Runs m h₁ J R)
    (F : Nat) (he : ∀ f, F ≤ f → ∀ j w, ∃ w₁, m f (j + 1) (h, w) = m f j (h₁, w₁)) :
    Runs m h J R := by
  rcases hr with ⟨h', hJ, G, hG⟩ | ⟨a, h', hR, G, hG⟩
  · refine .inl ⟨h', hJ, max F (G + 1), fun f hf j hj w => ?_⟩
    obtain ⟨j, rfl⟩ : ∃ g, j = g + 1 := ⟨j - 1, by omega⟩
    obtain ⟨w₁, e⟩ := he f (by omega) j w
    rw [e]
    exact hG f (by omega) j (by omega) w₁
  · refine .inr ⟨a, h', hR, max F (G + 1), fun f hf j hj w => ?_⟩
    obtain ⟨j, rfl⟩ : ∃ g, j = g + 1 := ⟨j - 1, by omega⟩
    obtain ⟨w₁, e⟩ := he f (by omega) j w
    rw [e]
    exact hG f (by omega) j (by omega) w₁

theorem Steps.Homographic.Runs.done {α : Type}
    {m : Nat → Nat → Mut (Steps.Homographic × World) α} {h h' : Steps.Homographic} {a : α}
    {J : Steps.Homographic → Prop} {R : α → Steps.Homographic → Prop} (hR : R a h')
    (F : Nat) (he : ∀ f, F ≤ f → ∀ j w, ∃ w', m f (j + 1) (h, w) = (.ok a, (h', w'))) :
    Runs m h J R := by
  refine .inr ⟨a, h', hR, F + 1, fun f hf j hj w => ?_⟩
  obtain ⟨j, rfl⟩ : ∃ g, j = g + 1 := ⟨j - 1, by omega⟩
  exact he f (by omega) j w

theorem Steps.Homographic.Runs.stop {α : Type}
    {m : Nat → Nat → Mut (Steps.Homographic × World) α} {h h' : Steps.Homographic}
    {J : Steps.Homographic → Prop} {R : α → Steps.Homographic → Prop} (hJ : J h')
    (F : Nat) (he : ∀ f, F ≤ f → ∀ j w, ∃ w',
      m f (j + 1) (h, w) = (.panic .unwrapNone, (h', w'))) :
    Runs m h J R := by
  refine .inl ⟨h', hJ, F + 1, fun f hf j hj w => ?_⟩
  obtain ⟨j, rfl⟩ : ∃ g, j = g + 1 := ⟨j - 1, by omega⟩
  exact he f (by omega) j w

/-- The value of a good state is one half of a fraction that `Ratio` can hold. -/
theorem Coef4.endRatio {cfg : Cfg} {M : Int} {k : Coef4} (hr : cfg.Roomy M) (hb : k.Bounded M)
    (hD : k.denAt (1 / 2) ≠ 0) :
    ∃ n d t, k.valueAtOneHalf cfg = .ok (n, d) ∧ Ratio.newI cfg n d = .ok t ∧
      Ratio.Describes cfg t (k.val (1 / 2)) := by
  obtain ⟨⟨n, d⟩, e⟩ := Coef4.valueAtOneHalf_roomy hr hb
  have h := Coef4.valueAtOneHalf_sat hr.safe hb
  rw [e] at h
  obtain ⟨hc, f1, f2, g1, g2, g3, g4⟩ := h
  have hv := Coef4.val_half hc
  simp only at f1 f2 g1 g2 g3 g4 hc hv
  have hd0 : d ≠ 0 := by
    rintro rfl
    obtain ⟨c, _, _, hc⟩ := hc
    apply hD
    have : (k.dx : ℚ) + 2 * k.d = 0 := by
      have : k.dx + 2 * k.d = 0 := by rw [← hc]; simp
      exact_mod_cast this
    unfold Coef4.denAt; linarith
  have h := Ratio.newI_sat (A := NoPanic) hd0 f1 f2 (.inl (hr _ (by omega) (by omega)))
    (.inl (hr _ (by omega) (by omega)))
  rw [hv] at h
  cases e' : Ratio.newI cfg n d with
  | ok t =>
    rw [e'] at h
    exact ⟨n, d, t, e, e', h⟩
  | panic p =>
    rw [e'] at h
    exact h.elim
  | timeout =>
    rw [e'] at h
    exact h.elim

/-- A ratio whose value lies strictly between 0 and 1 has neither special nor primer. -/
theorem Ratio.Describes.plain {cfg : Cfg} {t : Option Clarith.Special × Option Primer × Option Ratio} {q : ℚ}
    (h : Ratio.Describes cfg t q) (h0 : 0 < q) (h1 : q < 1) :
    ∃ r : Ratio, t = (none, none, some r) ∧ r.OK cfg ∧ r.val = q := by
  rcases h with ⟨s, rfl, hs⟩ | ⟨p, r, rfl, hr, hs⟩
  · exfalso
    rw [hs] at h0 h1
    cases s <;> simp only [specialValue] at h0 h1 <;> linarith
  · have hm := hr.val_mem
    rcases p with _ | p
    · exact ⟨r, rfl, hr, hs.symm⟩
    · exfalso
      rw [hs] at h0 h1
      cases p <;> simp only [applyPrimer] at h0 h1
      · have : 1 < 1 / r.val := by rw [lt_div_iff₀ hm.1]; linarith [hm.2]
        linarith
      · linarith [hm.1]
      · have : 0 < 1 / r.val := div_pos one_pos hm.1
        linarith

namespace Steps.Homographic

/-- What one call of `egest` on a good state does. -/
theorem egest_runs {cfg : Cfg} {v : ℚ} {l : List Reduction} (hx : Expands v l) :
    ∀ {h : Homographic} {M : Int}, FailStop cfg h.x v → h.k.Inv → h.k.Bounded M →
    cfg.Roomy (M * 2 ^ l.length) →
    Runs (fun f j => egest cfg (Steps.egest cfg f) j) h (fun h' => Dead cfg h'.box)
      (fun a h' => (a = .inl (sym (h.k.val v)) ∧ Good cfg h' (next (h.k.val v))) ∨
        ∃ q : Ratio, a = .inr (.ratio q) ∧ q.OK cfg ∧ q.val = h.k.val v) := by
  -- the attempt fails or succeeds without reading
  have step : ∀ {v : ℚ} {l : List Reduction} {h : Homographic} {M : Int}, Expands v l → 0 < v →
      v < 1 → FailStop cfg h.x v → h.k.Inv → h.k.Bounded M → cfg.Roomy (M * 2 ^ l.length) →
      (Coef4.reductionAttempt cfg h.k = (.ok none, h.k) → ∀ x' F, (∀ f, F ≤ f → ∀ w, ∃ w',
        Steps.egest cfg f (h.x, w) = (.ok (sym v), (x', w'))) → FailStop cfg x' (next v) →
        Runs (fun f j => egest cfg (Steps.egest cfg f) j) h (fun h' => Dead cfg h'.box)
        (fun a h' => (a = .inl (sym (h.k.val v)) ∧ Good cfg h' (next (h.k.val v))) ∨
          ∃ q : Ratio, a = .inr (.ratio q) ∧ q.OK cfg ∧ q.val = h.k.val v)) →
      Runs (fun f j => egest cfg (Steps.egest cfg f) j) h (fun h' => Dead cfg h'.box)
        (fun a h' => (a = .inl (sym (h.k.val v)) ∧ Good cfg h' (next (h.k.val v))) ∨
          ∃ q : Ratio, a = .inr (.ratio q) ∧ q.OK cfg ∧ q.val = h.k.val v) := by
    intro v l h M hx h0 h1 hd hI hb hr go
    rcases Coef4.reductionAttempt_cases (hr.head hb.pos) hb hI.1 with e | e | ⟨p, k', e, hk⟩
    · exact Runs.stop (h' := h) (Dead.of_attempt e) 0 fun f _ j w =>
        ⟨_, egest_panic (x := h.x) e⟩
    · rcases hd.step with ⟨x', ⟨F, hF⟩, hx'⟩ | ⟨x', ⟨F, hF⟩, hx'⟩
      · refine Runs.stop (h' := ⟨x', h.k⟩) (Dead.of_operand e hx') F fun f hf j w => ?_
        obtain ⟨w', e'⟩ := hF f hf (printed w h.k)
        exact ⟨w', egest_operand (x := h.x) e e'⟩
      · exact go e x' F hF hx'
    · obtain ⟨g1, g2, g3, g4⟩ := Clarith.Coef4.red_step h0 h1 hI.2 hb hk
      exact Runs.done (h' := ⟨h.x, k'⟩) (.inl ⟨congrArg _ g1, v, l, M, hd, hx, g2, g3, hr,
        g4.symm⟩) 0 fun f _ j w => ⟨_, egest_symbol (x := h.x) e⟩
  induction hx with
  | half =>
    intro h M hd hI hb hr
    refine step .half (by norm_num) (by norm_num) hd hI hb hr fun e x' F hF hx' => ?_
    have hm := hI.val_mem (v := 1 / 2) (by norm_num) (by norm_num)
    have hD : h.k.denAt (1 / 2) ≠ 0 := by
      intro hz
      have := hm.1
      rw [Clarith.Coef4.val_eq, hz, div_zero] at this
      exact lt_irrefl _ this
    obtain ⟨n, d, t, e1, e2, ht⟩ := Clarith.Coef4.endRatio (hr.head hb.pos) hb hD
    obtain ⟨q, rfl, hq, hv⟩ := ht.plain hm.1 hm.2
    refine Runs.done (h' := ⟨x', h.k⟩) (.inr ⟨q, rfl, hq, hv⟩) F fun f hf j w => ?_
    obtain ⟨w', e'⟩ := hF f hf (printed w h.k)
    rw [sym_half] at e'
    exact ⟨w', egest_end (x := h.x) e e' e1 e2⟩
  | @amplify v l h0 h1 hx ih =>
    intro h M hd hI hb hr
    refine step (.amplify h0 h1 hx) h0 (by linarith) hd hI hb hr fun e x' F hF hx' => ?_
    obtain ⟨k', hk'⟩ := Clarith.Coef4.ingestAmplify_roomy (hr.head hb.pos) hb
    have hk := Clarith.Coef4.ingestAmplify_sat (hr.head hb.pos).safe hb
    rw [hk'] at hk
    rw [next_lt h1] at hx'
    have := ih (h := ⟨x', k'⟩) hx' (Clarith.Coef4.inv_ingestAmplify hk hI)
      (Clarith.Coef4.bounded_ingestAmplify hk hb) hr.tail
    rw [show k'.val (2 * v) = h.k.val v from Clarith.Coef4.val_ingestAmplify hk] at this
    refine this.round F fun f hf j w => ?_
    obtain ⟨w', e'⟩ := hF f hf (printed w h.k)
    rw [sym_lt h1] at e'
    exact ⟨w', egest_amplify (x := h.x) e e' ((Coef4.ingestAmplify_agree cfg h.k).ok hk')⟩
  | @uncover v l h0 h1 hx ih =>
    intro h M hd hI hb hr
    have hv0 : 0 < v := by linarith
    refine step (.uncover h0 h1 hx) hv0 h1 hd hI hb hr fun e x' F hF hx' => ?_
    obtain ⟨k', hk'⟩ := Clarith.Coef4.ingestUncover_roomy (hr.head hb.pos) hb
    have hk := Clarith.Coef4.ingestUncover_sat (hr.head hb.pos).safe hb
    rw [hk'] at hk
    obtain rfl : k' = _ := hk
    rw [next_gt h0] at hx'
    have := ih (h := ⟨x', _⟩) hx' (Clarith.Coef4.inv_ingestUncover hI)
      (Clarith.Coef4.bounded_ingestUncover hb) hr.tail
    rw [show Clarith.Coef4.val _ (1 / v - 1) = h.k.val v from
      Clarith.Coef4.val_ingestUncover hv0.ne'] at this
    refine this.round F fun f hf j w => ?_
    obtain ⟨w', e'⟩ := hF f hf (printed w h.k)
    rw [sym_gt h0] at e'
    exact ⟨w', egest_uncover (x := h.x) e e' ((Coef4.ingestUncover_agree cfg h.k).ok hk')⟩

/-- A good result of `homographic` is fail-stop. -/
theorem Good.failStop {cfg : Cfg} {h : Homographic} {w : ℚ} (hg : Good cfg h w) :
    FailStop cfg h.box w := by
  refine FailStop.of (D := fun o x => (∃ h, o = Homographic.box h ∧ Good cfg h x) ∨ FailStop cfg o x)
    (.inl ⟨h, rfl, hg⟩) ?_
  rintro o x (⟨h, rfl, v, l, M, hd, hx, hI, hb, hr, rfl⟩ | hf)
  · rcases egest_runs hx hd hI hb hr with ⟨h', hJ, F, hF⟩ | ⟨a, h', (⟨rfl, hg⟩ | ⟨q, rfl, hq, hv⟩), F, hF⟩
    · refine .inl ⟨h'.box, ⟨F + 1, fun f hf w => ?_⟩, hJ⟩
      obtain ⟨f, rfl⟩ : ∃ g, f = g + 1 := ⟨f - 1, by omega⟩
      obtain ⟨w', e⟩ := hF f (by omega) f (by omega) w
      have e : egest cfg (Steps.egest cfg f) f (⟨h.x, h.k⟩, w) = _ := e
      refine ⟨w', ?_⟩
      rw [Steps.egest]
      simp only [Bind.bind, Mut.bind, strategyEgest, box]
      rw [e]
    · refine .inr ⟨h'.box, ⟨F + 1, fun f hf w => ?_⟩, .inl ⟨h', rfl, hg⟩⟩
      obtain ⟨f, rfl⟩ : ∃ g, f = g + 1 := ⟨f - 1, by omega⟩
      obtain ⟨w', e⟩ := hF f (by omega) f (by omega) w
      have e : egest cfg (Steps.egest cfg f) f (⟨h.x, h.k⟩, w) = _ := e
      refine ⟨w', ?_⟩
      rw [Steps.egest]
      simp only [Bind.bind, Mut.bind, strategyEgest, box]
      rw [e]
      rfl
    · have hq' := (Ratio.failStop hq).step
      rw [hv] at hq'
      rcases hq' with ⟨o', ⟨G, hG⟩, h1⟩ | ⟨o', ⟨G, hG⟩, h1⟩
      · refine .inl ⟨o', ⟨F + G + 1, fun f hf w => ?_⟩, h1⟩
        obtain ⟨f, rfl⟩ : ∃ g, f = g + 1 := ⟨f - 1, by omega⟩
        obtain ⟨w₁, e⟩ := hF f (by omega) f (by omega) w
        have e : egest cfg (Steps.egest cfg f) f (⟨h.x, h.k⟩, w) = _ := e
        obtain ⟨w', e'⟩ := hG f (by omega) w₁
        refine ⟨w', ?_⟩
        rw [Steps.egest]
        simp only [Bind.bind, Mut.bind, strategyEgest, box]
        rw [e]
        exact e'
      · refine .inr ⟨o', ⟨F + G + 1, fun f hf w => ?_⟩, .inr h1⟩
        obtain ⟨f, rfl⟩ : ∃ g, f = g + 1 := ⟨f - 1, by omega⟩
        obtain ⟨w₁, e⟩ := hF f (by omega) f (by omega) w
        have e : egest cfg (Steps.egest cfg f) f (⟨h.x, h.k⟩, w) = _ := e
        obtain ⟨w', e'⟩ := hG f (by omega) w₁
        refine ⟨w', ?_⟩
        rw [Steps.egest]
        simp only [Bind.bind, Mut.bind, strategyEgest, box]
        rw [e]
        exact e'
  · rcases hf.step with h | ⟨o', h1, h2⟩
    · exact .inl h
    · exact .inr ⟨o', h1, .inr h2⟩

end Steps.Homographic

/-! ## Construction -/

namespace Steps

theorem attempt_cases {k : Clarith.Coef4} {m : Mut Clarith.Coef4 (Option (Option Primer))}
    {o : Out (Option (Option Primer × Clarith.Coef4))} {P : Option (Option Primer × Clarith.Coef4) → Prop}
    (h1 : Agree m k (o >>= attempt k)) (h2 : Out.Sat Checked o P) :
    (∃ k', m k = (.panic .unwrapNone, k')) ∨ m k = (.ok none, k) ∨
    ∃ p k', m k = (.ok (some p), k') ∧ P (some (p, k')) := by
  unfold Agree Sim at h1
  revert h1
  generalize m k = r
  obtain ⟨r, t⟩ := r
  intro h1
  rcases o with (_ | ⟨p, k'⟩) | p | _
  · cases r with
    | ok a =>
      obtain ⟨b, e, rfl⟩ := h1
      injection e with e
      injection e with e1 e2
      subst e1 e2
      exact .inr (.inl rfl)
    | panic p => cases h1.1
    | shared => exact h1.elim
    | timeout => cases h1.1
  · cases r with
    | ok a =>
      obtain ⟨b, e, rfl⟩ := h1
      injection e with e
      injection e with e1 e2
      subst e1 e2
      exact .inr (.inr ⟨p, k', rfl, h2⟩)
    | panic p => cases h1.1
    | shared => exact h1.elim
    | timeout => cases h1.1
  · have hp : p = .unwrapNone := h2
    subst hp
    cases r with
    | ok a =>
      obtain ⟨b, e, rfl⟩ := h1
      cases e
    | panic p =>
      obtain ⟨e, _⟩ := h1
      injection e with e
      subst e
      exact .inl ⟨t, rfl⟩
    | shared => exact h1.elim
    | timeout => cases h1.1
  · exact h2.elim

namespace Homographic

/-- The result tuple describes `q` by fail-stop objects. -/
def Describes (cfg : Cfg) (t : Primed) (q : ℚ) : Prop :=
  (∃ s, t = (some s, none, none, none) ∧ q = specialValue s) ∨
  (∃ p r, t = (none, p, some r, none) ∧ r.OK cfg ∧ q = applyPrimer p r.val) ∨
  (∃ p h w, t = (none, p, none, some h) ∧ Good cfg h w ∧ q = applyPrimer p w)

theorem Describes.of_ratio {cfg : Cfg} {t} {q : ℚ} (h : Ratio.Describes cfg t q) :
    Describes cfg (t.1, t.2.1, t.2.2, none) q := by
  rcases h with ⟨s, rfl, hq⟩ | ⟨p, r, rfl, hr, hq⟩
  · exact .inl ⟨s, rfl, hq⟩
  · exact .inr (.inl ⟨p, r, rfl, hr, hq⟩)

theorem prime_runs {cfg : Cfg} {v : ℚ} {l : List Reduction} (hx : Expands v l) :
    ∀ {h : Homographic} {M : Int}, FailStop cfg h.x v → h.k.denAt v ≠ 0 → h.k.Bounded M →
    cfg.Roomy (M * 2 ^ l.length) →
    Runs (fun f j => prime cfg (Steps.egest cfg f) j) h (fun _ => True)
      (fun a _ => Describes cfg a (h.k.val v)) := by
  have step : ∀ {v : ℚ} {l : List Reduction} {h : Homographic} {M : Int}, Expands v l →
      FailStop cfg h.x v → h.k.denAt v ≠ 0 → h.k.Bounded M → cfg.Roomy (M * 2 ^ l.length) →
      (Coef4.primerAttempt cfg h.k = (.ok none, h.k) → ∀ x' F, (∀ f, F ≤ f → ∀ w, ∃ w',
        Steps.egest cfg f (h.x, w) = (.ok (sym v), (x', w'))) → FailStop cfg x' (next v) →
        Runs (fun f j => prime cfg (Steps.egest cfg f) j) h (fun _ => True)
        (fun a _ => Describes cfg a (h.k.val v))) →
      Runs (fun f j => prime cfg (Steps.egest cfg f) j) h (fun _ => True)
        (fun a _ => Describes cfg a (h.k.val v)) := by
    intro v l h M hx hd hD hb hr go
    rcases attempt_cases (Coef4.primerAttempt_agree cfg h.k)
      (Clarith.Coef4.primerAttempt_sat (hr.head hb.pos).safe hb) with ⟨k', e⟩ | e | ⟨p, k', e, hk⟩
    · exact Runs.stop (h' := ⟨h.x, k'⟩) trivial 0 fun f _ j w => ⟨_, prime_panic (x := h.x) e⟩
    · rcases hd.step with ⟨x', ⟨F, hF⟩, hx'⟩ | ⟨x', ⟨F, hF⟩, hx'⟩
      · refine Runs.stop (h' := ⟨x', h.k⟩) trivial F fun f hf j w => ?_
        obtain ⟨w', e'⟩ := hF f hf (printed w h.k)
        exact ⟨w', prime_operand (x := h.x) e e'⟩
      · exact go e x' F hF hx'
    · obtain ⟨hp, _⟩ := hk p k' rfl
      refine Runs.done (h' := ⟨h.x, k'⟩) (.inr (.inr ⟨p, ⟨h.x, k'⟩, k'.val v, rfl,
        ⟨v, l, M, hd, hx, ⟨hp.inv, fun hz => ?_⟩, hp.rel.bounded hb, hr, rfl⟩, hp.rel.val _⟩)) 0
        fun f _ j w => ⟨_, prime_primer (x := h.x) e⟩
      obtain ⟨h1, h2⟩ := hp.zero hz
      apply hD
      simp [Clarith.Coef4.denAt, h1, h2]
  induction hx with
  | half =>
    intro h M hd hD hb hr
    refine step .half hd hD hb hr fun e x' F hF hx' => ?_
    obtain ⟨n, d, ⟨s, p, q⟩, e1, e2, ht⟩ := Clarith.Coef4.endRatio (hr.head hb.pos) hb hD
    refine Runs.done (h' := ⟨x', h.k⟩) (Describes.of_ratio ht) F fun f hf j w => ?_
    obtain ⟨w', e'⟩ := hF f hf (printed w h.k)
    rw [sym_half] at e'
    exact ⟨w', prime_end (x := h.x) e e' e1 e2⟩
  | @amplify v l h0 h1 hx ih =>
    intro h M hd hD hb hr
    refine step (.amplify h0 h1 hx) hd hD hb hr fun e x' F hF hx' => ?_
    obtain ⟨k', hk'⟩ := Clarith.Coef4.ingestAmplify_roomy (hr.head hb.pos) hb
    have hk := Clarith.Coef4.ingestAmplify_sat (hr.head hb.pos).safe hb
    rw [hk'] at hk
    rw [next_lt h1] at hx'
    have hD' : k'.denAt (2 * v) ≠ 0 := by
      obtain ⟨c, hc, _, _, c3, c4⟩ := hk
      have c3' : (c : ℚ) * k'.d = 2 * h.k.d := by exact_mod_cast c3
      have c4' : (c : ℚ) * k'.dx = h.k.dx := by exact_mod_cast c4
      intro e
      apply hD
      unfold Clarith.Coef4.denAt at e ⊢
      have : (c : ℚ) * (k'.dx * (2 * v) + k'.d) = 0 := by rw [e]; ring
      have e2 : (c : ℚ) * (k'.dx * (2 * v) + k'.d) = 2 * (h.k.dx * v + h.k.d) := by
        rw [mul_add, c3', ← mul_assoc, c4']; ring
      linarith
    have := ih (h := ⟨x', k'⟩) hx' hD' (Clarith.Coef4.bounded_ingestAmplify hk hb) hr.tail
    rw [show k'.val (2 * v) = h.k.val v from Clarith.Coef4.val_ingestAmplify hk] at this
    refine this.round F fun f hf j w => ?_
    obtain ⟨w', e'⟩ := hF f hf (printed w h.k)
    rw [sym_lt h1] at e'
    exact ⟨w', prime_amplify (x := h.x) e e' ((Coef4.ingestAmplify_agree cfg h.k).ok hk')⟩
  | @uncover v l h0 h1 hx ih =>
    intro h M hd hD hb hr
    have hv0 : v ≠ 0 := by linarith
    refine step (.uncover h0 h1 hx) hd hD hb hr fun e x' F hF hx' => ?_
    obtain ⟨k', hk'⟩ := Clarith.Coef4.ingestUncover_roomy (hr.head hb.pos) hb
    have hk := Clarith.Coef4.ingestUncover_sat (hr.head hb.pos).safe hb
    rw [hk'] at hk
    obtain rfl : k' = _ := hk
    rw [next_gt h0] at hx'
    have hD' : Clarith.Coef4.denAt ⟨h.k.n, h.k.nx + h.k.n, h.k.d, h.k.dx + h.k.d⟩ (1 / v - 1) ≠ 0 := by
      intro e
      apply hD
      unfold Clarith.Coef4.denAt at e ⊢
      simp only at e
      push_cast at e
      have : v * ((h.k.d : ℚ) * (1 / v - 1) + (h.k.dx + h.k.d)) = 0 := by rw [e]; ring
      have e2 : v * ((h.k.d : ℚ) * (1 / v - 1) + (h.k.dx + h.k.d)) = h.k.dx * v + h.k.d := by
        field_simp; ring
      linarith
    have := ih (h := ⟨x', _⟩) hx' hD' (Clarith.Coef4.bounded_ingestUncover hb) hr.tail
    rw [show Clarith.Coef4.val _ (1 / v - 1) = h.k.val v from
      Clarith.Coef4.val_ingestUncover hv0] at this
    refine this.round F fun f hf j w => ?_
    obtain ⟨w', e'⟩ := hF f hf (printed w h.k)
    rw [sym_gt h0] at e'
    exact ⟨w', prime_uncover (x := h.x) e e' ((Coef4.ingestUncover_agree cfg h.k).ok hk')⟩

/-- `m` ends, given enough fuel, with overflow or with a result satisfying `P`. -/
def Makes {α : Type} (m : Nat → Mut World α) (P : α → Prop) : Prop :=
  (∃ F, ∀ f, F ≤ f → ∀ w, ∃ w', m f w = (.panic .unwrapNone, w')) ∨
  ∃ a, P a ∧ ∃ F, ∀ f, F ≤ f → ∀ w, ∃ w', m f w = (.ok a, w')

theorem asRatio_makes {cfg : Cfg} {M n d : Int} (hr : cfg.Roomy M) (h1 : -(4 * M) ≤ n)
    (h2 : n ≤ 4 * M) (h3 : -(4 * M) ≤ d) (h4 : d ≤ 4 * M) (hd : d ≠ 0) :
    Makes (fun _ => asRatio cfg n d) (fun t => Describes cfg t ((n : ℚ) / d)) := by
  have h := Ratio.newI_sat (A := NoPanic) hd (hr n h1 h2) (hr d h3 h4)
    (.inl (hr _ (by omega) (by omega))) (.inl (hr _ (by omega) (by omega)))
  unfold asRatio
  cases e' : Ratio.newI cfg n d with
  | ok t =>
    rw [e'] at h
    obtain ⟨s, p, r⟩ := t
    exact .inr ⟨_, Describes.of_ratio h, 0, fun _ _ w => ⟨w, rfl⟩⟩
  | panic p =>
    rw [e'] at h
    exact h.elim
  | timeout =>
    rw [e'] at h
    exact h.elim

theorem Makes.eval_bind {α β : Type} {o : Out β} {b : β} {g : Nat → β → Mut World α}
    {P : α → Prop} (ho : o = .ok b) (h : Makes (fun f => g f b) P) :
    Makes (fun f => Mut.eval o >>= g f) P := by
  subst ho
  exact h

/-- `homographic::new` -/
theorem new_makes {cfg : Cfg} {x : Number} {q : ℚ} {L : Nat} {M nx n dx d : Int}
    (hx : FailStopNumber cfg x q) (hc : SymbolCount q L) (ha : Clarith.Homographic.Args cfg M nx n dx d)
    (hr : cfg.Roomy (2 * M * 2 ^ L)) (hD : (dx : ℚ) * q + d ≠ 0) :
    Makes (fun f => new cfg (Steps.egest cfg f) f x nx n dx d)
      (fun t => Describes cfg t ((nx * q + n) / (dx * q + d))) := by
  obtain ⟨hM, f1, f2, f3, f4, b1, b1', b2, b2', b3, b3', b4, b4'⟩ := ha
  have hr2 : cfg.Roomy (2 * M) := hr.head (by omega)
  unfold new
  by_cases h0 : nx = 0 ∧ dx = 0
  · simp only [if_pos h0]
    obtain ⟨rfl, rfl⟩ := h0
    have := asRatio_makes (n := n) (d := d) hr2 (by omega) (by omega) (by omega) (by omega)
      (by rintro rfl; simp at hD)
    simpa using this
  simp only [if_neg h0]
  cases x with
  | Special s =>
    have hq : q = specialValue s := hx
    subst hq
    cases s
    · refine Makes.eval_bind (Cfg.checked_within (hr2 _ (by omega) (by omega))) ?_
      refine Makes.eval_bind (Cfg.checked_within (hr2 _ (by omega) (by omega))) ?_
      simp only [specialValue] at hD ⊢
      have hne : d - dx ≠ 0 := by
        intro h
        apply hD
        have : (d : ℚ) - dx = 0 := by exact_mod_cast h
        linarith
      have := asRatio_makes hr2 (n := n - nx) (d := d - dx) (by omega) (by omega) (by omega)
        (by omega) hne
      push_cast at this
      rwa [show (nx : ℚ) * -1 + n = n - nx by ring, show (dx : ℚ) * -1 + d = d - dx by ring]
    · simp only [specialValue] at hD ⊢
      have := asRatio_makes (n := n) (d := d) hr2 (by omega) (by omega) (by omega) (by omega)
        (by rintro rfl; simp at hD)
      simpa using this
    · refine Makes.eval_bind (Cfg.checked_within (hr2 _ (by omega) (by omega))) ?_
      refine Makes.eval_bind (Cfg.checked_within (hr2 _ (by omega) (by omega))) ?_
      simp only [specialValue] at hD ⊢
      have hne : d + dx ≠ 0 := by
        intro h
        apply hD
        have : (d : ℚ) + dx = 0 := by exact_mod_cast h
        linarith
      have := asRatio_makes hr2 (n := n + nx) (d := d + dx) (by omega) (by omega) (by omega)
        (by omega) hne
      push_cast at this
      rwa [show (nx : ℚ) * 1 + n = n + nx by ring, show (dx : ℚ) * 1 + d = d + dx by ring]
  | Other p c =>
    obtain ⟨v, hv0, hv1, hv, rfl⟩ := hx
    obtain ⟨l, hl, hL⟩ : ∃ l, Expands v l ∧ l.length ≤ L := by
      rcases hc with ⟨s, e⟩ | ⟨p', v', l, e, hl, hL⟩
      · exact absurd e (applyPrimer_ne_special hv0 hv1)
      · obtain ⟨-, rfl⟩ := applyPrimer_inj hv0 hv1 hl.mem.1 hl.mem.2 e
        exact ⟨l, hl, hL⟩
    have hs := Clarith.Homographic.absorbPrimer_sat (cfg := cfg) (A := NoPanic) (p := p)
      (k := ⟨nx, n, dx, d⟩) (.inl (hr2 _ (by simp only; omega) (by simp only; omega)))
      (.inl (hr2 _ (by simp only; omega) (by simp only; omega)))
    cases e : Clarith.Homographic.absorbPrimer cfg p ⟨nx, n, dx, d⟩ with
    | panic p =>
      rw [e] at hs
      exact hs.elim
    | timeout =>
      rw [e] at hs
      exact hs.elim
    | ok k' =>
      rw [e] at hs
      refine Makes.eval_bind e ?_
      obtain ⟨c', hc, e1, e2⟩ := Clarith.Homographic.absorbed hv0 hs
      have hb := Clarith.Homographic.absorbed_bounded (M := M) hM (by simp only; omega) hs
      simp only [Clarith.Coef4.numAt, Clarith.Coef4.denAt] at e1 e2
      have hr' : cfg.Roomy (2 * M * 2 ^ l.length) :=
        hr.mono (mul_le_mul_of_nonneg_left (pow_le_pow_right₀ (by norm_num) hL) (by omega))
      have := prime_runs (h := ⟨c, k'⟩) hl hv (by
        simp only [Clarith.Coef4.denAt]
        rw [e2]
        exact mul_ne_zero hc hD) hb hr'
      have hval : k'.val v = ((nx : ℚ) * applyPrimer p v + n) / (dx * applyPrimer p v + d) := by
        rw [Clarith.Coef4.val_eq, Clarith.Coef4.numAt, Clarith.Coef4.denAt, e1, e2,
          mul_div_mul_left _ _ hc]
      rw [hval] at this
      rcases this with ⟨h', _, F, hF⟩ | ⟨a, h', hR, F, hF⟩
      · refine .inl ⟨F, fun f hf w => ?_⟩
        obtain ⟨w', e⟩ := hF f hf f hf w
        have e : prime cfg (Steps.egest cfg f) f (⟨c, k'⟩, w) = _ := e
        exact ⟨w', by simp only [owned, e]⟩
      · refine .inr ⟨a, hR, F, fun f hf w => ?_⟩
        obtain ⟨w', e⟩ := hF f hf f hf w
        have e : prime cfg (Steps.egest cfg f) f (⟨c, k'⟩, w) = _ := e
        exact ⟨w', by simp only [owned, e]⟩

end Homographic

end Steps

theorem Steps.Homographic.Good.mem {cfg : Cfg} {h : Steps.Homographic} {w : ℚ}
    (hg : Steps.Homographic.Good cfg h w) : 0 < w ∧ w < 1 := by
  obtain ⟨v, l, M, hd, hx, hI, hb, hr, rfl⟩ := hg
  exact hI.val_mem hx.mem.1 hx.mem.2

/-- `Number::homographic` -/
theorem Steps.Number.homographic_makes {cfg : Cfg} {x : Steps.Number} {q : ℚ} {L : Nat}
    {M nx n dx d : Int} (hx : FailStopNumber cfg x q) (hc : SymbolCount q L)
    (ha : Clarith.Homographic.Args cfg M nx n dx d)
    (hr : cfg.Roomy (2 * M * 2 ^ L)) (hD : (dx : ℚ) * q + d ≠ 0) :
    Steps.Homographic.Makes (fun f => Steps.Number.homographic cfg f x nx n dx d)
      (fun y => FailStopNumber cfg y ((nx * q + n) / (dx * q + d))) := by
  rcases Steps.Homographic.new_makes hx hc ha hr hD with ⟨F, hF⟩ | ⟨a, ha, F, hF⟩
  · refine .inl ⟨F, fun f hf w => ?_⟩
    obtain ⟨w', e⟩ := hF f hf w
    refine ⟨w', ?_⟩
    simp only [Steps.Number.homographic, Bind.bind, Mut.bind, e]
  · have key : ∀ y : Steps.Number, FailStopNumber cfg y ((nx * q + n) / (dx * q + d)) →
        (∀ f w w', Steps.Homographic.new cfg (Steps.egest cfg f) f x nx n dx d w = (.ok a, w') →
          Steps.Number.homographic cfg f x nx n dx d w = (.ok y, w')) →
        Steps.Homographic.Makes (fun f => Steps.Number.homographic cfg f x nx n dx d)
          (fun y => FailStopNumber cfg y ((nx * q + n) / (dx * q + d))) := by
      intro y hy he
      refine .inr ⟨y, hy, F, fun f hf w => ?_⟩
      obtain ⟨w', e⟩ := hF f hf w
      exact ⟨w', he f w w' e⟩
    rcases ha with ⟨s, rfl, hq⟩ | ⟨p, r, rfl, hr, hq⟩ | ⟨p, h, u, rfl, hg, hq⟩
    · refine key (.Special s) hq fun f w w' e => ?_
      simp only [Steps.Number.homographic, Bind.bind, Mut.bind, e]
      rfl
    · have hm := hr.val_mem
      refine key (.Other p (.ratio r)) ⟨r.val, hm.1, hm.2, Ratio.failStop hr, hq⟩ fun f w w' e => ?_
      simp only [Steps.Number.homographic, Bind.bind, Mut.bind, e]
      rfl
    · have hm := hg.mem
      refine key (.Other p h.box) ⟨u, hm.1, hm.2, hg.failStop, hq⟩ fun f w w' e => ?_
      simp only [Steps.Number.homographic, Bind.bind, Mut.bind, e]
      rfl

end Clarith
