import Verif.Proofs.StepsPrintedCombine

/-! # How many lines are printed

Only `Homographic` prints: one line per round of `prime` and of `egest`.  A round that does not
answer reads a symbol of the input.  So the lines of a clog that has not been read yet are paid for
by the symbols of its inputs (`Lines`), and every statement of the model keeps the account
(`Cost`). -/

namespace Clarith

/-- Exactly `L` symbols come before the end of the clog, if it gets there. -/
def Clog.Counts (cfg : Cfg) : Nat → Clog → Prop
  | 0, c => ∀ f r, Clog.egest cfg f c = .ok r → r.1 = none
  | L + 1, c => ∀ f r, Clog.egest cfg f c = .ok r → r.1 ≠ none ∧ Counts cfg L r.2

theorem Clog.Counts.next {cfg : Cfg} {L f : Nat} {c c' : Clog} {s : Reduction}
    (h : Counts cfg L c) (e : Clog.egest cfg f c = .ok (some s, c')) :
    ∃ M, L = M + 1 ∧ Counts cfg M c' := by
  cases L with
  | zero => cases h f _ e
  | succ M => exact ⟨M, rfl, (h f _ e).2⟩

theorem Clog.Counts.ended {cfg : Cfg} {L f : Nat} {c c' : Clog}
    (h : Counts cfg L c) (e : Clog.egest cfg f c = .ok (none, c')) : L = 0 := by
  cases L with
  | zero => rfl
  | succ M => exact ((h f _ e).1 rfl).elim

/-- Reading the clog `m` times prints at most `a * m + n` lines. -/
inductive Clog.Lines (cfg : Cfg) : Nat → Nat → Clog → Prop
  | ratio (a n : Nat) (r : Ratio) : Lines cfg a n (.ratio r)
  | homographic {a n b m L : Nat} {x : Clog} (k : Coef4) (hx : Lines cfg b m x)
    (hL : Clog.Counts cfg L x) (ha : 1 ≤ a) (hn : b * (L + 1) + m + L ≤ n) :
    Lines cfg a n (.homographic x k)
  | combine {a n b m L b' m' L' : Nat} {x y : Clog} (k : Coef8) (hx : Lines cfg b m x)
    (hy : Lines cfg b' m' y) (hL : Clog.Counts cfg L x) (hL' : Clog.Counts cfg L' y) (ha : 1 ≤ a)
    (hn : b * (L + 1) + m + (b' * (L' + 1) + m') + ((L - L') + (L' + 1 - L)) ≤ n) :
    Lines cfg a n (.combine x y k)

theorem Clog.Lines.mono {cfg : Cfg} {a n a' n' : Nat} {c : Clog} (h : Lines cfg a n c)
    (ha : a ≤ a') (hn : n ≤ n') : Lines cfg a' n' c := by
  cases h with
  | ratio _ _ r => exact .ratio _ _ r
  | homographic k hx hL h1 h2 => exact .homographic k hx hL (by omega) (by omega)
  | combine k hx hy hL hL' h1 h2 => exact .combine k hx hy hL hL' (by omega) (by omega)

namespace Steps

open Mut

/-- A state in which lines have been printed. -/
class Prints (σ : Type) where
  len : σ → Nat

instance : Prints World := ⟨fun w => w.printed.length⟩

instance {α : Type} : Prints (α × World) := ⟨fun s => s.2.printed.length⟩

open Prints (len)

/-- `m`, started in `s`, prints at most `N` lines; if it returns what is `b` in the first model, `r`
of the lines are left over, with `R b r`. -/
def Cost {σ α β : Type} [Prints σ] (m : Mut σ α) (s : σ) (N : Nat) (o : Out β)
    (R : β → Nat → Prop) : Prop :=
  match m s with
  | (.ok _, t) => ∀ b, o = .ok b → ∃ r, len t + r ≤ len s + N ∧ R b r
  | (_, t) => len t ≤ len s + N

namespace Cost

variable {σ α β γ δ : Type} [Prints σ] {m : Mut σ α} {s : σ} {N : Nat} {o : Out β}
  {R : β → Nat → Prop}

theorem mono {N' : Nat} {R' : β → Nat → Prop} (h : Cost m s N o R) (hN : N ≤ N')
    (hR : ∀ b r, o = .ok b → R b r → R' b (r + (N' - N))) : Cost m s N' o R' := by
  unfold Cost at h ⊢
  revert h
  generalize m s = q
  obtain ⟨q, t⟩ := q
  cases q with
  | ok a =>
    intro h b e
    obtain ⟨r, h1, h2⟩ := h b e
    exact ⟨r + (N' - N), by omega, hR b r e h2⟩
  | panic p => exact fun (h : len t ≤ len s + N) => (by omega : len t ≤ len s + N')
  | shared => exact fun (h : len t ≤ len s + N) => (by omega : len t ≤ len s + N')
  | timeout => exact fun (h : len t ≤ len s + N) => (by omega : len t ≤ len s + N')

theorem imp {R' : β → Nat → Prop} (h : Cost m s N o R)
    (hR : ∀ b r, o = .ok b → R b r → R' b r) : Cost m s N o R' :=
  h.mono (Nat.le_refl _) fun b r e hr => by rw [Nat.sub_self]; exact hR b r e hr

theorem bind {J : σ → Prop} {S : α → σ → β → Prop} {g : α → Mut σ γ} {q : β → Out δ}
    {R' : δ → Nat → Prop} (hs : Sim m s o J S) (h : Cost m s N o R)
    (k : ∀ a t b r, o = .ok b → S a t b → R b r → Cost (g a) t r (q b) R') :
    Cost (m >>= g) s N (o >>= q) R' := by
  have e : (m >>= g) s = Mut.bind m g s := rfl
  unfold Sim at hs
  unfold Cost at h ⊢
  rw [e, Mut.bind]
  revert hs h
  generalize m s = r
  obtain ⟨r, t⟩ := r
  cases r with
  | ok a =>
    rintro ⟨b, rfl, hS⟩ h
    obtain ⟨r, h1, h2⟩ := h b rfl
    have h3 := k a t b r rfl hS h2
    unfold Cost at h3
    revert h3
    show (match g a t with
      | (.ok _, t') => ∀ b_1, q b = .ok b_1 → ∃ r, len t' + r ≤ len t + _ ∧ R' b_1 r
      | (_, t') => len t' ≤ len t + _) → (match g a t with
      | (.ok _, t') => ∀ b_1, q b = .ok b_1 → ∃ r, len t' + r ≤ len s + N ∧ R' b_1 r
      | (_, t') => len t' ≤ len s + N)
    generalize g a t = u
    obtain ⟨u, v⟩ := u
    cases u with
    | ok c =>
      intro h c' e
      obtain ⟨r', h4, h5⟩ := h c' e
      exact ⟨r', by omega, h5⟩
    | panic p => exact fun (h : len v ≤ len t + r) => (by omega : len v ≤ len s + N)
    | shared => exact fun (h : len v ≤ len t + r) => (by omega : len v ≤ len s + N)
    | timeout => exact fun (h : len v ≤ len t + r) => (by omega : len v ≤ len s + N)
  | panic p => exact fun _ h => h
  | shared => exact fun hs _ => hs.elim
  | timeout => exact fun _ h => h

theorem get_bind {g : σ → Mut σ α} (h : Cost (g s) s N o R) : Cost (get >>= g) s N o R := h

/-- Steps that end well, and print at most `M` lines. -/
theorem run_bind {M : Nat} {m : Mut σ γ} {a : γ} {t : σ} {g : γ → Mut σ α} (e : m s = (.ok a, t))
    (hl : len t + M ≤ len s + N) (h : Cost (g a) t M o R) : Cost (m >>= g) s N o R := by
  have e' : (m >>= g) s = g a t := by
    show Mut.bind m g s = _
    rw [Mut.bind, e]
  unfold Cost at h ⊢
  rw [e']
  revert h
  generalize g a t = u
  obtain ⟨u, v⟩ := u
  cases u with
  | ok c =>
    intro h c' e
    obtain ⟨r', h4, h5⟩ := h c' e
    exact ⟨r', by omega, h5⟩
  | panic p => exact fun (h : len v ≤ len t + M) => (by omega : len v ≤ len s + N)
  | shared => exact fun (h : len v ≤ len t + M) => (by omega : len v ≤ len s + N)
  | timeout => exact fun (h : len v ≤ len t + M) => (by omega : len v ≤ len s + N)

theorem modify_bind {M : Nat} {f : σ → σ} {g : Unit → Mut σ α} (hl : len (f s) + M ≤ len s + N)
    (h : Cost (g ()) (f s) M o R) : Cost (modify f >>= g) s N o R :=
  run_bind rfl hl h

theorem pure {a : α} (h : ∀ b, o = .ok b → R b N) : Cost (Pure.pure a) s N o R :=
  fun b e => ⟨N, Nat.le_refl _, h b e⟩

theorem panic {p : Panic} : Cost (Mut.panic p : Mut σ α) s N o R := Nat.le_add_right _ _

theorem timeout : Cost (Mut.timeout : Mut σ α) s N o R := Nat.le_add_right _ _

theorem eval_bind {u : Out γ} {g : γ → Mut σ α} {q : γ → Out β}
    (k : ∀ c, u = .ok c → Cost (g c) s N (q c) R) :
    Cost (Mut.eval u >>= g) s N (u >>= q) R := by
  cases u with
  | ok c => exact k c rfl
  | panic p => exact Nat.le_add_right _ _
  | timeout => exact Nat.le_add_right _ _

theorem ite {c : Prop} [Decidable c] {m m' : Mut σ α} {o o' : Out β}
    (h : c → Cost m s N o R) (h' : ¬ c → Cost m' s N o' R) :
    Cost (if c then m else m') s N (if c then o else o') R := by
  by_cases hc : c
  · rw [if_pos hc, if_pos hc]
    exact h hc
  · rw [if_neg hc, if_neg hc]
    exact h' hc

/-- Work on a part of the state that prints. -/
theorem part {τ : Type} [Prints τ] {get : σ → τ} {put : τ → σ → σ} {m : Mut τ α}
    (hg : len (get s) = len s) (hp : ∀ v, len (put v s) = len v) (h : Cost m (get s) N o R) :
    Cost (Mut.part get put m) s N o R := by
  unfold Cost Mut.part at *
  revert h
  dsimp only
  generalize m (get s) = u
  obtain ⟨u, v⟩ := u
  have hv := hp v
  cases u with
  | ok c =>
    intro h c' e
    obtain ⟨r', h4, h5⟩ := h c' e
    exact ⟨r', (by omega : len (put v s) + r' ≤ len s + N), h5⟩
  | panic p =>
    exact fun (h : len v ≤ len (get s) + N) => (by omega : len (put v s) ≤ len s + N)
  | shared =>
    exact fun (h : len v ≤ len (get s) + N) => (by omega : len (put v s) ≤ len s + N)
  | timeout =>
    exact fun (h : len v ≤ len (get s) + N) => (by omega : len (put v s) ≤ len s + N)

/-- Work on a part of the state that does not print. -/
theorem still {τ : Type} {get : σ → τ} {put : τ → σ → σ} {m : Mut τ α}
    (hp : ∀ v, len (put v s) = len s) (h : ∀ b, o = .ok b → R b N) :
    Cost (Mut.part get put m) s N o R := by
  unfold Cost Mut.part
  dsimp only
  generalize m (get s) = u
  obtain ⟨u, v⟩ := u
  have hv := hp v
  cases u with
  | ok c => exact fun b e => ⟨N, (by omega : len (put v s) + N ≤ len s + N), h b e⟩
  | panic p => exact (by omega : len (put v s) ≤ len s + N)
  | shared => exact (by omega : len (put v s) ≤ len s + N)
  | timeout => exact (by omega : len (put v s) ≤ len s + N)

/-- The last statement but one does not print, and the last one is a value. -/
theorem still_pure {τ : Type} {get : σ → τ} {put : τ → σ → σ} {m : Mut τ γ} {a : α}
    (hp : ∀ v, len (put v s) = len s) (h : ∀ b, o = .ok b → R b N) :
    Cost (Mut.part get put m >>= fun _ => Pure.pure a) s N o R := by
  show Cost (Mut.bind (Mut.part get put m) fun _ => Pure.pure a) s N o R
  unfold Cost Mut.bind Mut.part
  dsimp only
  generalize m (get s) = u
  obtain ⟨u, v⟩ := u
  have hv := hp v
  cases u with
  | ok c => exact fun b e => ⟨N, (by omega : len (put v s) + N ≤ len s + N), h b e⟩
  | panic p => exact (by omega : len (put v s) ≤ len s + N)
  | shared => exact (by omega : len (put v s) ≤ len s + N)
  | timeout => exact (by omega : len (put v s) ≤ len s + N)

end Cost

/-- A model of `Clog::egest` that keeps the account. -/
def EgCost (cfg : Cfg) (g : Nat) : Prop :=
  ∀ (o : Obj) (w : World) (s : Strategy) (fp : Nat → Prop) (a n : Nat), Rep w o s fp → Bound w fp →
    Clog.Lines cfg a n s → Cost (egest cfg g) (o, w) (a + n) (Clog.egest cfg g s)
      (fun b r => Clog.Lines cfg a r b.2)

theorem Sim.and_post {σ α β : Type} {m : Mut σ α} {s : σ} {o : Out β} {J : σ → Prop}
    {R : α → σ → β → Prop} {Q : σ → Prop} {P : α → σ → Prop} (h : Sim m s o J R)
    (h' : Post m s Q P) : Sim m s o J (fun a t b => R a t b ∧ P a t) := by
  unfold Sim Post at *
  revert h h'
  generalize m s = r
  obtain ⟨r, t⟩ := r
  cases r with
  | ok a => exact fun ⟨b, e, h⟩ h' => ⟨b, e, h, h'⟩
  | panic p => exact fun h _ => h
  | shared => exact fun h _ => h
  | timeout => exact fun h _ => h

/-! ## `Homographic` -/

namespace Homographic

/-- The account of a `Homographic` that has been given `r` lines. -/
def Paid (cfg : Cfg) (x : Clog) (r : Nat) : Prop :=
  ∃ a n L, Clog.Lines cfg a n x ∧ Clog.Counts cfg L x ∧ a * (L + 1) + n + L ≤ r

theorem Paid.lines {cfg : Cfg} {x : Clog} {r : Nat} (h : Paid cfg x r) (k : Coef4) :
    Clog.Lines cfg 1 r (.homographic x k) := by
  obtain ⟨a, n, L, h1, h2, h3⟩ := h
  exact .homographic k h1 h2 (Nat.le_refl _) h3

theorem onX_cost {cfg : Cfg} {g : Nat} (hC : EgCost cfg g) {h : Homographic} {w : World}
    {X : Strategy} {fp : Nat → Prop} {a n : Nat} (hR : Rep w h.x X fp) (hB : Bound w fp)
    (hl : Clog.Lines cfg a n X) :
    Cost (onX (Steps.egest cfg g)) (h, w) (a + n) (Clog.egest cfg g X)
      (fun b r => Clog.Lines cfg a r b.2) :=
  Cost.part rfl (fun _ => rfl) (hC h.x w X fp a n hR hB hl)

/-- Reading a symbol of the input leaves one line for the next round. -/
theorem onX_paid {cfg : Cfg} {g : Nat} (hC : EgCost cfg g) {h : Homographic} {w : World}
    {X : Strategy} {fp : Nat → Prop} {N : Nat} (hR : Rep w h.x X fp) (hB : Bound w fp)
    (hp : Paid cfg X N) :
    Cost (onX (Steps.egest cfg g)) (h, w) N (Clog.egest cfg g X)
      (fun b r => b.1 ≠ none → ∃ r', r = r' + 1 ∧ Paid cfg b.2 r') := by
  obtain ⟨a, n, L, h1, h2, h3⟩ := hp
  have e1 : a * (L + 1) = a * L + a := Nat.mul_succ _ _
  refine (onX_cost hC hR hB h1).mono (by omega) ?_
  rintro ⟨s, c⟩ r e hr hs
  rcases s with _ | s
  · exact (hs rfl).elim
  · obtain ⟨M, rfl, hM⟩ := h2.next e
    exact ⟨r + (N - (a + n)) - 1, by omega, a, r, M, hr, hM, by omega⟩

theorem primeIngest_cost {cfg : Cfg} {g : Nat} (hC : EgCost cfg g)
    {h : Homographic} {w : World} {X : Strategy} {fp : Nat → Prop} {N : Nat}
    (hR : Rep w h.x X fp) (hB : Bound w fp) (hp : Paid cfg X N) :
    Cost (primeIngest cfg (Steps.egest cfg g)) (h, w) N
      (Clarith.Homographic.primeIngest cfg (Clog.egest cfg g) ⟨X, h.k⟩)
      (fun b r => b.1 = none → ∃ r', r = r' + 1 ∧ Paid cfg b.2.x r') := by
  unfold primeIngest Clarith.Homographic.primeIngest
  refine Cost.bind (onX_sim (Steps.egest_sim cfg g) hR hB) (onX_paid hC hR hB hp) ?_
  rintro a t ⟨r, x⟩ N' e ⟨rfl, ek, hk⟩ hN
  dsimp only at hN ⊢
  rcases a with _ | _ | _
  · refine Cost.get_bind ?_
    rw [ek]
    refine Cost.eval_bind ?_
    rintro ⟨num, den⟩ -
    refine Cost.eval_bind fun _ _ => ?_
    refine Cost.pure ?_
    rintro b e' h
    injection e' with e'
    subst e'
    cases h
  · refine Cost.still_pure (fun _ => rfl) ?_
    intro b e' _
    cases hq : Clarith.Coef4.ingestAmplify cfg h.k with
    | ok q =>
      rw [hq] at e'
      injection e' with e'
      subst e'
      exact hN (by simp)
    | panic p => rw [hq] at e'; cases e'
    | timeout => rw [hq] at e'; cases e'
  · refine Cost.still_pure (fun _ => rfl) ?_
    intro b e' _
    cases hq : Clarith.Coef4.ingestUncover cfg h.k with
    | ok q =>
      rw [hq] at e'
      injection e' with e'
      subst e'
      exact hN (by simp)
    | panic p => rw [hq] at e'; cases e'
    | timeout => rw [hq] at e'; cases e'

theorem reductionIngest_cost {cfg : Cfg} {g : Nat} (hC : EgCost cfg g)
    {h : Homographic} {w : World} {X : Strategy} {fp : Nat → Prop} {N : Nat}
    (hR : Rep w h.x X fp) (hB : Bound w fp) (hp : Paid cfg X N) :
    Cost (reductionIngest cfg (Steps.egest cfg g)) (h, w) N
      (Clarith.Homographic.reductionIngest cfg (Clog.egest cfg g) ⟨X, h.k⟩)
      (fun b r => b.1 = none → ∃ r', r = r' + 1 ∧ Paid cfg b.2.x r') := by
  unfold reductionIngest Clarith.Homographic.reductionIngest
  refine Cost.bind (onX_sim (Steps.egest_sim cfg g) hR hB) (onX_paid hC hR hB hp) ?_
  rintro a t ⟨r, x⟩ N' e ⟨rfl, ek, hk⟩ hN
  dsimp only at hN ⊢
  rcases a with _ | _ | _
  · refine Cost.get_bind ?_
    rw [ek]
    refine Cost.eval_bind ?_
    rintro ⟨num, den⟩ -
    refine Cost.eval_bind ?_
    rintro ⟨_ | _, _ | _, _ | _⟩ -
    · exact Cost.panic
    · refine Cost.pure ?_
      rintro b e' h
      injection e' with e'
      subst e'
      cases h
    all_goals exact Cost.panic
  · refine Cost.still_pure (fun _ => rfl) ?_
    intro b e' _
    cases hq : Clarith.Coef4.ingestAmplify cfg h.k with
    | ok q =>
      rw [hq] at e'
      injection e' with e'
      subst e'
      exact hN (by simp)
    | panic p => rw [hq] at e'; cases e'
    | timeout => rw [hq] at e'; cases e'
  · refine Cost.still_pure (fun _ => rfl) ?_
    intro b e' _
    cases hq : Clarith.Coef4.ingestUncover cfg h.k with
    | ok q =>
      rw [hq] at e'
      injection e' with e'
      subst e'
      exact hN (by simp)
    | panic p => rw [hq] at e'; cases e'
    | timeout => rw [hq] at e'; cases e'

theorem len_println (h : Homographic) (w : World) (l : Coef4) :
    Prints.len (h, { w with printed := w.printed ++ [l] }) = Prints.len (h, w) + 1 := by
  show (w.printed ++ [l]).length = w.printed.length + 1
  simp

theorem prime_cost {cfg : Cfg} {g : Nat} (hC : EgCost cfg g) (f : Nat) :
    ∀ {h : Homographic} {w : World} {X : Strategy} {fp : Nat → Prop} {N : Nat},
    Rep w h.x X fp → Bound w fp → Paid cfg X N →
    Cost (prime cfg (Steps.egest cfg g) f) (h, w) (N + 1)
      (Clarith.Homographic.prime cfg (Clog.egest cfg g) f ⟨X, h.k⟩)
      (fun b r => ∀ H, b.2.2.2 = some H → Paid cfg H.x r) := by
  induction f with
  | zero =>
    intro h w X fp N hR hB hp
    exact Cost.timeout
  | succ f ih =>
    intro h w X fp N hR hB hp
    unfold prime Clarith.Homographic.prime
    refine Cost.modify_bind (M := N) (by dsimp only; rw [len_println]; omega) ?_
    obtain ⟨hR', hG⟩ := println_rep hR hB (w.printed ++ [h.k])
    refine Cost.bind (R := fun _ r => r = N) (onK_attempt (J := fun _ => True)
      (s := (h, { w with printed := w.printed ++ [h.k] }))
      (Coef4.primerAttempt_agree cfg h.k) fun k => trivial)
      (Cost.still (fun _ => rfl) fun _ _ => rfl) ?_
    rintro a ⟨⟨x, k⟩, w1⟩ b _ eb ⟨e, ha⟩ rfl
    injection e with e1 e2
    injection e1 with e3 e4
    subst e2 e3
    rcases b with _ | ⟨p, k'⟩
    · obtain ⟨rfl, rfl⟩ := ha
      refine Cost.bind (primeIngest_sim cfg (Steps.egest_sim cfg g) hR' hG.bound)
        (primeIngest_cost hC hR' hG.bound hp) ?_
      rintro a ⟨⟨x', k'⟩, w'⟩ ⟨r, ⟨X', k''⟩⟩ N' e ⟨e1, e2, fp', hR2, hG2⟩ hN
      dsimp only at e1 e2 hR2 hG2 hN
      subst e1 e2
      rcases a with _ | ⟨special, primer, ratio⟩
      · obtain ⟨r', rfl, hp'⟩ := hN rfl
        exact ih (h := ⟨x', k'⟩) hR2 hG2.bound hp'
      · refine Cost.pure ?_
        intro b e' H eH
        injection e' with e'
        subst e'
        cases eH
    · obtain ⟨rfl, rfl⟩ := ha
      refine Cost.get_bind (Cost.pure ?_)
      intro b e' H eH
      injection e' with e'
      subst e'
      injection eH with eH
      subst eH
      exact hp

/-- What `egest` leaves: a `Homographic` with its account, or a `Ratio`. -/
def After (cfg : Cfg) (b : Egested × Clarith.Homographic) (r : Nat) : Prop :=
  match b.1 with
  | .ok _ => Paid cfg b.2.x r
  | .err s => ∃ q, s = .ratio q

theorem egest_cost {cfg : Cfg} {g : Nat} (hC : EgCost cfg g) (f : Nat) :
    ∀ {h : Homographic} {w : World} {X : Strategy} {fp : Nat → Prop} {N : Nat},
    Rep w h.x X fp → Bound w fp → Paid cfg X N →
    Cost (egest cfg (Steps.egest cfg g) f) (h, w) (N + 1)
      (Clarith.Homographic.egest cfg (Clog.egest cfg g) f ⟨X, h.k⟩) (After cfg) := by
  induction f with
  | zero =>
    intro h w X fp N hR hB hp
    exact Cost.timeout
  | succ f ih =>
    intro h w X fp N hR hB hp
    unfold egest Clarith.Homographic.egest
    refine Cost.modify_bind (M := N) (by dsimp only; rw [len_println]; omega) ?_
    obtain ⟨hR', hG⟩ := println_rep hR hB (w.printed ++ [h.k])
    refine Cost.bind (R := fun _ r => r = N) (onK_attempt (J := fun _ => True)
      (s := (h, { w with printed := w.printed ++ [h.k] }))
      (Coef4.reductionAttempt_agree cfg h.k) fun k => trivial)
      (Cost.still (fun _ => rfl) fun _ _ => rfl) ?_
    rintro a ⟨⟨x, k⟩, w1⟩ b _ eb ⟨e, ha⟩ rfl
    injection e with e1 e2
    injection e1 with e3 e4
    subst e2 e3
    rcases b with _ | ⟨p, k'⟩
    · obtain ⟨rfl, rfl⟩ := ha
      refine Cost.bind (reductionIngest_sim cfg (Steps.egest_sim cfg g) hR' hG.bound)
        (reductionIngest_cost hC hR' hG.bound hp) ?_
      rintro a ⟨⟨x', k'⟩, w'⟩ ⟨r, ⟨X', k''⟩⟩ N' e ⟨e1, e2, fp', hR2, hG2⟩ hN
      dsimp only at e1 e2 hR2 hG2 hN
      subst e1 e2
      rcases a with _ | ratio
      · obtain ⟨r', rfl, hp'⟩ := hN rfl
        exact ih (h := ⟨x', k'⟩) hR2 hG2.bound hp'
      · refine Cost.pure ?_
        intro b e'
        injection e' with e'
        subst e'
        exact ⟨_, rfl⟩
    · obtain ⟨rfl, rfl⟩ := ha
      refine Cost.pure ?_
      intro b e'
      injection e' with e'
      subst e'
      exact hp

theorem asRatio_cost (cfg : Cfg) (n d : Int) {w : World} {N : Nat}
    {R : Clarith.Homographic.Primed → Nat → Prop} (hR : ∀ b, b.2.2.2 = none → R b N) :
    Cost (asRatio cfg n d) w N (Clarith.Homographic.asRatio cfg n d) R := by
  unfold asRatio Clarith.Homographic.asRatio
  refine Cost.eval_bind ?_
  rintro ⟨s, p, r⟩ -
  refine Cost.pure ?_
  intro b e
  injection e with e
  subst e
  exact hR _ rfl

theorem owned_cost {σ α β : Type} {s : σ} {m : Mut (σ × World) α} {w : World} {N : Nat} {o : Out β}
    {R : β → Nat → Prop} (h : Cost m (s, w) N o R) : Cost (owned s m) w N o R := by
  unfold Cost owned at *
  revert h
  generalize m (s, w) = r
  obtain ⟨r, t⟩ := r
  cases r <;> exact id

/-- The account of a number that is an operand. -/
def Funds (cfg : Cfg) (x : Clarith.Number) (N : Nat) : Prop :=
  match x with
  | .Special _ => True
  | .Other _ c => ∃ r, r + 1 = N ∧ Paid cfg c r

theorem new_cost {cfg : Cfg} {g : Nat} (hC : EgCost cfg g) (f : Nat) {x : Number}
    {x₀ : Clarith.Number} (nx n dx d : Int) {w : World} {fp : Nat → Prop} {N : Nat}
    (hx : NumRep w fp x x₀) (hB : Bound w fp) (hp : Funds cfg x₀ N) :
    Cost (new cfg (Steps.egest cfg g) f x nx n dx d) w N
      (Clarith.Homographic.new cfg (Clog.egest cfg g) f x₀ nx n dx d)
      (fun b r => ∀ H, b.2.2.2 = some H → Paid cfg H.x r) := by
  have hr : ∀ (b : Clarith.Homographic.Primed), b.2.2.2 = none →
      ∀ H, b.2.2.2 = some H → Paid cfg H.x N := by
    intro b e H h
    rw [e] at h
    cases h
  unfold new Clarith.Homographic.new
  refine Cost.ite (fun _ => asRatio_cost cfg n d hr) fun _ => ?_
  cases hx with
  | special s =>
    cases s
    · exact Cost.eval_bind fun _ _ => Cost.eval_bind fun _ _ => asRatio_cost cfg _ _ hr
    · exact asRatio_cost cfg _ _ hr
    · exact Cost.eval_bind fun _ _ => Cost.eval_bind fun _ _ => asRatio_cost cfg _ _ hr
  | other p h =>
    refine Cost.eval_bind fun k _ => ?_
    obtain ⟨r, rfl, hp⟩ := hp
    exact owned_cost (prime_cost hC f (h := ⟨_, k⟩) h hB hp)

end Homographic

/-! ## `Combine` -/

namespace Combine

/-- The account of a `Combine` that has been given `r` lines. -/
def Paid (cfg : Cfg) (x y : Clog) (r : Nat) : Prop :=
  ∃ a n L a' n' L', Clog.Lines cfg a n x ∧ Clog.Lines cfg a' n' y ∧ Clog.Counts cfg L x ∧
    Clog.Counts cfg L' y ∧
    a * (L + 1) + n + (a' * (L' + 1) + n') + ((L - L') + (L' + 1 - L)) ≤ r

theorem Paid.lines {cfg : Cfg} {x y : Clog} {r : Nat} (h : Paid cfg x y r) (k : Coef8) :
    Clog.Lines cfg 1 r (.combine x y k) := by
  obtain ⟨a, n, L, a', n', L', h1, h2, h3, h4, h5⟩ := h
  exact .combine k h1 h2 h3 h4 (Nat.le_refl _) h5

theorem onW_cost {α β : Type} {c : Combine} {w : World} {m : Mut World α} {N : Nat} {o : Out β}
    {R : β → Nat → Prop} (h : Cost m w N o R) : Cost (onW m) (c, w) N o R :=
  Cost.part rfl (fun _ => rfl) h

theorem rcGetMut_x_cost {cfg : Cfg} {g : Nat} (hC : EgCost cfg g) {w : World} {x y : Nat}
    {k : Coef8} {X Y : Strategy} {fp : Nat → Prop} {a n : Nat}
    (h : Rep w (.combine x y k) (.combine X Y k) fp) (hB : Bound w fp)
    (hl : Clog.Lines cfg a n X) :
    Cost (rcGetMut x (Steps.egest cfg g)) w (a + n) (Clog.egest cfg g X)
      (fun b r => Clog.Lines cfg a r b.2) := by
  cases h with
  | @combine _ _ ox oy _ _ fx fy _ _ hi hj hij rx ry ix iy jx jy sep sx sy mi mj =>
    have hs := hC ox w X fx a n rx (fun n h => hB n (sx n h)) hl
    have e : rcGetMut x (Steps.egest cfg g) w = ((Steps.egest cfg g (ox, w)).1,
        (Steps.egest cfg g (ox, w)).2.2.put x (some ⟨1, (Steps.egest cfg g (ox, w)).2.1⟩)) := by
      simp only [rcGetMut, hi]
    unfold Cost at hs ⊢
    rw [e]
    revert hs
    generalize Steps.egest cfg g (ox, w) = r
    obtain ⟨r, t⟩ := r
    cases r <;> exact id

theorem rcGetMut_y_cost {cfg : Cfg} {g : Nat} (hC : EgCost cfg g) {w : World} {x y : Nat}
    {k : Coef8} {X Y : Strategy} {fp : Nat → Prop} {a n : Nat}
    (h : Rep w (.combine x y k) (.combine X Y k) fp) (hB : Bound w fp)
    (hl : Clog.Lines cfg a n Y) :
    Cost (rcGetMut y (Steps.egest cfg g)) w (a + n) (Clog.egest cfg g Y)
      (fun b r => Clog.Lines cfg a r b.2) := by
  cases h with
  | @combine _ _ ox oy _ _ fx fy _ _ hi hj hij rx ry ix iy jx jy sep sx sy mi mj =>
    have hs := hC oy w Y fy a n ry (fun n h => hB n (sy n h)) hl
    have e : rcGetMut y (Steps.egest cfg g) w = ((Steps.egest cfg g (oy, w)).1,
        (Steps.egest cfg g (oy, w)).2.2.put y (some ⟨1, (Steps.egest cfg g (oy, w)).2.1⟩)) := by
      simp only [rcGetMut, hj]
    unfold Cost at hs ⊢
    rw [e]
    revert hs
    generalize Steps.egest cfg g (oy, w) = r
    obtain ⟨r, t⟩ := r
    cases r <;> exact id

/-- What is left after the first operand has been read: for the homographic function of the second
one if the first one has ended, and otherwise for reading the second one. -/
def Half (cfg : Cfg) (Y : Clog) (b : Option Reduction × Clog) (N : Nat) : Prop :=
  (b.1 = none → ∃ r, r + 1 ≤ N ∧ Homographic.Paid cfg Y r) ∧
  (b.1 ≠ none → ∃ a n M a' n' L', Clog.Lines cfg a n b.2 ∧ Clog.Lines cfg a' n' Y ∧
    Clog.Counts cfg M b.2 ∧ Clog.Counts cfg L' Y ∧
    a * (M + 1) + n + (a' * (L' + 1) + n') + ((M + 1 - L') + (L' + 1 - (M + 1))) ≤ N)

theorem readX_cost {cfg : Cfg} {g : Nat} (hC : EgCost cfg g) {w : World} {c : Combine}
    {X Y : Strategy} {fp : Nat → Prop} {N : Nat}
    (h : Rep w (.combine c.x c.y c.k) (.combine X Y c.k) fp) (hB : Bound w fp)
    (hp : Paid cfg X Y N) :
    Cost (onW (rcGetMut c.x (Steps.egest cfg g))) (c, w) N (Clog.egest cfg g X)
      (Half cfg Y) := by
  obtain ⟨a, n, L, a', n', L', h1, h2, h3, h4, h5⟩ := hp
  have e1 : a * (L + 1) = a * L + a := Nat.mul_succ _ _
  refine onW_cost ((rcGetMut_x_cost hC h hB h1).mono (by omega) ?_)
  rintro ⟨s, X'⟩ r e hr
  refine ⟨fun hs => ?_, fun hs => ?_⟩
  · obtain rfl : s = none := hs
    obtain rfl := h3.ended e
    exact ⟨a' * (L' + 1) + n' + L', by omega, a', n', L', h2, h4, Nat.le_refl _⟩
  · rcases s with _ | s
    · exact (hs rfl).elim
    · obtain ⟨M, rfl, hM⟩ := h3.next e
      exact ⟨a, r, M, a', n', L', hr, h2, hM, h4, by omega⟩

/-- What is left after both operands have been read. -/
def Both (cfg : Cfg) (X : Clog) (b : Option Reduction × Clog) (N : Nat) : Prop :=
  (b.1 = none → ∃ r, r + 1 ≤ N ∧ Homographic.Paid cfg X r) ∧
  (b.1 ≠ none → Paid cfg X b.2 N)

theorem readY_cost {cfg : Cfg} {g : Nat} (hC : EgCost cfg g) {w : World} {c : Combine}
    {X Y : Strategy} {fp : Nat → Prop} {N : Nat} {s : Option Reduction} (hs : s ≠ none)
    (h : Rep w (.combine c.x c.y c.k) (.combine X Y c.k) fp) (hB : Bound w fp)
    (hp : Half cfg Y (s, X) N) :
    Cost (onW (rcGetMut c.y (Steps.egest cfg g))) (c, w) N (Clog.egest cfg g Y)
      (Both cfg X) := by
  obtain ⟨a, n, M, a', n', L', h1, h2, h3, h4, h5⟩ := hp.2 hs
  have e1 : a' * (L' + 1) = a' * L' + a' := Nat.mul_succ _ _
  refine onW_cost ((rcGetMut_y_cost hC h hB h2).mono (by omega) ?_)
  rintro ⟨s, Y'⟩ r e hr
  refine ⟨fun hs => ?_, fun hs => ?_⟩
  · obtain rfl : s = none := hs
    obtain rfl := h4.ended e
    exact ⟨a * (M + 1) + n + M, by omega, a, n, M, h1, h3, Nat.le_refl _⟩
  · rcases s with _ | s
    · exact (hs rfl).elim
    · obtain ⟨M', rfl, hM'⟩ := h4.next e
      exact ⟨a, n, M, a', r, M', h1, hr, h3, hM', by omega⟩

theorem new_paid {cfg : Cfg} {g : Nat} (hC : EgCost cfg g) (f : Nat) {o : Obj} {s : Strategy}
    (k : Coef4) {w : World} {fp : Nat → Prop} {N r : Nat} (hr : Rep w o s fp) (hB : Bound w fp)
    (hN : r + 1 ≤ N) (hp : Homographic.Paid cfg s r) :
    Cost (Homographic.new cfg (Steps.egest cfg g) f (.Other none o) k.nx k.n k.dx k.d) w N
      (Clarith.Homographic.new cfg (Clog.egest cfg g) f (.Other none s) k.nx k.n k.dx k.d)
      (fun b r => ∀ H, b.2.2.2 = some H → Homographic.Paid cfg H.x r) := by
  refine Homographic.new_cost hC f _ _ _ _ (.other none hr) hB ?_
  obtain ⟨a, n, L, h1, h2, h3⟩ := hp
  exact ⟨N - 1, by omega, a, n, L, h1, h2, by omega⟩

theorem primeIngest_cost {cfg : Cfg} {g : Nat} (hC : EgCost cfg g) (f : Nat) {c : Combine}
    {w : World} {X Y : Strategy} {fp : Nat → Prop} {N : Nat}
    (hR : Rep w (.combine c.x c.y c.k) (.combine X Y c.k) fp) (hB : Bound w fp)
    (hp : Paid cfg X Y N) :
    Cost (primeIngest cfg (Steps.egest cfg g) f) (c, w) N
      (Clarith.Combine.primeIngest cfg (Clog.egest cfg g) f ⟨X, Y, c.k⟩)
      (fun b r => match b with
        | .inl P => ∀ H, P.2.2.2 = some H → Homographic.Paid cfg H.x r
        | .inr C => Paid cfg C.x C.y r) := by
  have hE := Steps.egest_sim cfg g
  unfold primeIngest Clarith.Combine.primeIngest
  refine Cost.get_bind ?_
  refine Cost.bind (onW_sim (rcGetMut_x hE hR hB)) (readX_cost hC hR hB hp) ?_
  rintro a ⟨c', w'⟩ ⟨r, X'⟩ N' - ⟨e, e', fp', hR', hG⟩ hN
  dsimp only at e e' hR' hG
  subst e e'
  rcases a with _ | rx
  · refine Cost.get_bind (Cost.eval_bind fun k _ => ?_)
    obtain ⟨r, h1, h2⟩ := hN.1 rfl
    obtain ⟨oy, w2, fy, e, r2, g2⟩ := rcTryUnwrap_y hR' hG.bound
    have hw : w2.printed = w'.printed := by
      unfold rcTryUnwrap at e
      split at e
      · injection e with _ e
        rw [← e]
        rfl
      · cases e
    refine Cost.run_bind (M := N') (onW_run e) ?_ ?_
    · show w2.printed.length + N' ≤ w'.printed.length + N'
      rw [hw]
    refine Cost.bind (onW_sim (Homographic.new_sim cfg hE f k.nx k.n k.dx k.d (.other none r2)
      g2.bound)) (onW_cost (new_paid hC f k r2 g2.bound h1 h2)) ?_
    intro a t b r eb _ hb
    refine Cost.pure ?_
    intro b' e'
    injection e' with e'
    subst e'
    exact hb
  · refine Cost.bind (J := fun _ => True) (R := fun _ r => r = N')
      (onK_ingest (Coef8.ingestX_agree cfg rx c'.k) fun k => trivial)
      (Cost.still (fun _ => rfl) fun _ _ => rfl) ?_
    rintro - t k _ - rfl rfl
    refine Cost.get_bind ?_
    refine Cost.bind (onW_sim (rcGetMut_y hE (hR'.coef k) hG.bound))
      (readY_cost (c := ⟨c'.x, c'.y, k⟩) hC (by simp) (hR'.coef k) hG.bound hN) ?_
    rintro a ⟨c2, w2⟩ ⟨r, Y'⟩ N'' - ⟨e, e', fp2, hR2, hG2⟩ hN
    dsimp only at e e' hR2 hG2
    subst e e'
    rcases a with _ | ry
    · refine Cost.get_bind (Cost.eval_bind fun k _ => ?_)
      obtain ⟨r, h1, h2⟩ := hN.1 rfl
      obtain ⟨ox, w3, fx, e, r3, g3⟩ := rcTryUnwrap_x hR2 hG2.bound
      have hw : w3.printed = w2.printed := by
        unfold rcTryUnwrap at e
        split at e
        · injection e with _ e
          rw [← e]
          rfl
        · cases e
      refine Cost.run_bind (M := N'') (onW_run e) ?_ ?_
      · show w3.printed.length + N'' ≤ w2.printed.length + N''
        rw [hw]
      refine Cost.bind (onW_sim (Homographic.new_sim cfg hE f k.nx k.n k.dx k.d (.other none r3)
        g3.bound)) (onW_cost (new_paid hC f k r3 g3.bound h1 h2)) ?_
      intro a t b r eb _ hb
      refine Cost.pure ?_
      intro b' e'
      injection e' with e'
      subst e'
      exact hb
    · refine Cost.bind (J := fun _ => True) (R := fun _ r => r = N'')
        (onK_ingest (Coef8.ingestY_agree cfg ry k) fun k => trivial)
        (Cost.still (fun _ => rfl) fun _ _ => rfl) ?_
      rintro - t k' _ - rfl rfl
      refine Cost.pure ?_
      intro b' e'
      injection e' with e'
      subst e'
      exact hN.2 (by simp)

/-- What `prime` leaves. -/
def Primed.Funded (cfg : Cfg) (b : Clarith.Combine.Primed) (r : Nat) : Prop :=
  (∀ H, b.2.2.2.1 = some H → Homographic.Paid cfg H.x r) ∧
  (∀ C, b.2.2.2.2 = some C → Paid cfg C.x C.y r)

theorem prime_cost {cfg : Cfg} {g : Nat} (hC : EgCost cfg g) (f : Nat) :
    ∀ {c : Combine} {w : World} {X Y : Strategy} {fp : Nat → Prop} {N : Nat},
    Rep w (.combine c.x c.y c.k) (.combine X Y c.k) fp → Bound w fp → Paid cfg X Y N →
    Cost (prime cfg (Steps.egest cfg g) f) (c, w) N
      (Clarith.Combine.prime cfg (Clog.egest cfg g) f ⟨X, Y, c.k⟩) (Primed.Funded cfg) := by
  induction f with
  | zero =>
    intro c w X Y fp N hR hB hp
    exact Cost.timeout
  | succ f ih =>
    intro c w X Y fp N hR hB hp
    unfold prime Clarith.Combine.prime
    refine Cost.bind (J := fun _ => True) (R := fun _ r => r = N)
      (onK_attempt (s := (c, w)) (Coef8.primerAttempt_agree cfg c.k) fun k => trivial)
      (Cost.still (fun _ => rfl) fun _ _ => rfl) ?_
    rintro a ⟨⟨x, y, k⟩, w1⟩ b _ - ⟨e, ha⟩ rfl
    injection e with e1 e2
    injection e1 with e3 e4 e5
    subst e2 e3 e4
    rcases b with _ | ⟨p, k'⟩
    · obtain ⟨rfl, rfl⟩ := ha
      refine Cost.bind (primeIngest_sim cfg (Steps.egest_sim cfg g) f hR hB)
        (primeIngest_cost hC f hR hB hp) ?_
      rintro a ⟨⟨x', y', k'⟩, w'⟩ b r - h hr
      rcases a with _ | ⟨special, primer, ratio, homographic⟩
      · rcases b with b | ⟨X', Y', k''⟩
        · exact h.elim
        · obtain ⟨e, fp', hR', hG⟩ := h
          dsimp only at e hR' hG hr
          subst e
          exact ih (c := ⟨x', y', k'⟩) hR' hG.bound hr
      · rcases b with ⟨b1, b2, b3, b4⟩ | b
        · refine Cost.pure ?_
          intro b' e'
          injection e' with e'
          subst e'
          exact ⟨hr, fun C e => by cases e⟩
        · exact h.elim
    · obtain ⟨rfl, rfl⟩ := ha
      refine Cost.get_bind (Cost.pure ?_)
      intro b' e'
      injection e' with e'
      subst e'
      refine ⟨fun C e => (by cases e), fun C e => ?_⟩
      injection e with e
      subst e
      exact hp

/-- What `reduction_ingest` leaves. -/
def Reduced (cfg : Cfg) (b : (Option Ratio × Option Clarith.Homographic) × Clarith.Combine)
    (r : Nat) : Prop :=
  (∀ H, b.1.2 = some H → Homographic.Paid cfg H.x r) ∧
  (b.1 = (none, none) → Paid cfg b.2.x b.2.y r)

theorem shut_cost {cfg : Cfg} {g : Nat} (hC : EgCost cfg g) (f : Nat) {c : Combine} {w : World}
    {o : Obj} {s X Y : Strategy} {fo : Nat → Prop} {N r : Nat} (k : Coef4) (ho : Rep w o s fo)
    (hB : Bound w fo) (hN : r + 1 ≤ N) (hp : Homographic.Paid cfg s r) :
    Cost (do
      match ← onW (Homographic.new cfg (Steps.egest cfg g) f (.Other none o) k.nx k.n k.dx k.d) with
      | (none, none, ratio, homographic) => pure (ratio, homographic)
      | _ => panic .logicError) (c, w) N
      (do
        match ← Clarith.Homographic.new cfg (Clog.egest cfg g) f (.Other none s)
          k.nx k.n k.dx k.d with
        | (none, none, ratio, homographic) => pure ((ratio, homographic), ⟨X, Y, c.k⟩)
        | _ => .panic .logicError)
      (Reduced cfg) := by
  have hf := (Homographic.new_some cfg (Steps.egest cfg g) f (.Other none o) k.nx k.n k.dx k.d w)
  refine Cost.bind (onW_sim ((Homographic.new_sim cfg (Steps.egest_sim cfg g) f k.nx k.n k.dx k.d
    (.other none ho) hB).and_post hf)) (onW_cost (new_paid hC f k ho hB hN hp)) ?_
  rintro ⟨a1, a2, a3, a4⟩ ⟨c', t⟩ ⟨b1, b2, b3, b4⟩ r - ⟨rfl, ⟨h1, h2, h3, h4⟩, hfull⟩ hr
  dsimp only at h1 h2 h3 hr
  subst h1 h2 h3
  rcases a1 with _ | a1
  · rcases a2 with _ | a2
    · refine Cost.pure ?_
      intro b e
      injection e with e
      subst e
      refine ⟨hr, fun e => ?_⟩
      injection e with e1 e2
      subst e1 e2
      cases a4 with
      | none => exact (hfull.elim (· rfl) fun h => h.elim (· rfl) (· rfl)).elim
      | some => exact h4.elim
    · exact Cost.panic
  · exact Cost.panic

theorem shutdownY_len {c c' : Combine} {w w' : World} {X Y : Strategy} {fp : Nat → Prop} {v : Number}
    (h : Rep w (.combine c.x c.y c.k) (.combine X Y c.k) fp) (hB : Bound w fp)
    (e : shutdownY (c, w) = (.ok v, (c', w'))) : w'.printed = w.printed := by
  cases h with
  | @combine _ _ ox oy _ _ fx fy _ _ hi hj hij rx ry ix iy jx jy sep sx sy mi mj =>
    have := shutdownY_post hj (hB _ mj) (Q := fun _ => True)
    unfold Post at this
    rw [e] at this
    exact this.2

theorem shutdownX_len {c c' : Combine} {w w' : World} {X Y : Strategy} {fp : Nat → Prop} {v : Number}
    (h : Rep w (.combine c.x c.y c.k) (.combine X Y c.k) fp) (hB : Bound w fp)
    (e : shutdownX (c, w) = (.ok v, (c', w'))) : w'.printed = w.printed := by
  cases h with
  | @combine _ _ ox oy _ _ fx fy _ _ hi hj hij rx ry ix iy jx jy sep sx sy mi mj =>
    have := shutdownX_post hi (hB _ mi) (Q := fun _ => True)
    unfold Post at this
    rw [e] at this
    exact this.2

theorem reductionIngest_cost {cfg : Cfg} {g : Nat} (hC : EgCost cfg g) (f : Nat) {c : Combine}
    {w : World} {X Y : Strategy} {fp : Nat → Prop} {N : Nat}
    (hR : Rep w (.combine c.x c.y c.k) (.combine X Y c.k) fp) (hB : Bound w fp)
    (hp : Paid cfg X Y N) :
    Cost (reductionIngest cfg (Steps.egest cfg g) f) (c, w) N
      (Clarith.Combine.reductionIngest cfg (Clog.egest cfg g) f ⟨X, Y, c.k⟩) (Reduced cfg) := by
  have hE := Steps.egest_sim cfg g
  unfold reductionIngest Clarith.Combine.reductionIngest
  refine Cost.get_bind ?_
  refine Cost.bind (onW_sim (rcGetMut_x hE hR hB)) (readX_cost hC hR hB hp) ?_
  rintro a ⟨c', w'⟩ ⟨r, X'⟩ N' - ⟨e, e', fp', hR', hG⟩ hN
  dsimp only at e e' hR' hG
  subst e e'
  obtain ⟨x, y, k0⟩ := c'
  rcases a with _ | rx
  · refine Cost.get_bind (Cost.eval_bind fun k _ => ?_)
    obtain ⟨r, h1, h2⟩ := hN.1 rfl
    obtain ⟨oy, w2, fy, fp2, e, r2, r3, sep, g2, g3⟩ := shutdownY_rep hR' hG.bound
    refine Cost.run_bind (M := N') e ?_ ?_
    · show w2.printed.length + N' ≤ w'.printed.length + N'
      rw [shutdownY_len (c := ⟨x, y, k0⟩) hR' hG.bound e]
    exact shut_cost hC f k r2 g2.bound h1 h2
  · refine Cost.bind (J := fun _ => True) (R := fun _ r => r = N')
      (onK_ingest (Coef8.ingestX_agree cfg rx k0) fun k => trivial)
      (Cost.still (fun _ => rfl) fun _ _ => rfl) ?_
    rintro - t k _ - rfl rfl
    refine Cost.get_bind ?_
    refine Cost.bind (onW_sim (rcGetMut_y hE (hR'.coef k) hG.bound))
      (readY_cost (c := ⟨x, y, k⟩) hC (by simp) (hR'.coef k) hG.bound hN) ?_
    rintro a ⟨c2, w2⟩ ⟨r, Y'⟩ N'' - ⟨e, e', fp2, hR2, hG2⟩ hN
    dsimp only at e e' hR2 hG2
    subst e e'
    rcases a with _ | ry
    · refine Cost.get_bind (Cost.eval_bind fun k4 _ => ?_)
      obtain ⟨r, h1, h2⟩ := hN.1 rfl
      obtain ⟨ox, w3, fx, fp3, e, r3, r4, sep, g3, g4⟩ := shutdownX_rep hR2 hG2.bound
      refine Cost.run_bind (M := N'') e ?_ ?_
      · show w3.printed.length + N'' ≤ w2.printed.length + N''
        rw [shutdownX_len (c := ⟨x, y, k⟩) hR2 hG2.bound e]
      exact shut_cost hC f k4 r3 g3.bound h1 h2
    · refine Cost.bind (J := fun _ => True) (R := fun _ r => r = N'')
        (onK_ingest (Coef8.ingestY_agree cfg ry k) fun k => trivial)
        (Cost.still (fun _ => rfl) fun _ _ => rfl) ?_
      rintro - t k' _ - rfl rfl
      refine Cost.pure ?_
      intro b' e'
      injection e' with e'
      subst e'
      exact ⟨fun H e => (by cases e), fun _ => hN.2 (by simp)⟩

/-- What `egest` leaves. -/
def After (cfg : Cfg) (b : Egested × Clarith.Combine) (r : Nat) : Prop :=
  match b.1 with
  | .ok _ => Paid cfg b.2.x b.2.y r
  | .err s => Clog.Lines cfg 1 r s

theorem egest_cost {cfg : Cfg} {g : Nat} (hC : EgCost cfg g) (f : Nat) :
    ∀ {c : Combine} {w : World} {X Y : Strategy} {fp : Nat → Prop} {N : Nat},
    Rep w (.combine c.x c.y c.k) (.combine X Y c.k) fp → Bound w fp → Paid cfg X Y N →
    Cost (egest cfg (Steps.egest cfg g) f) (c, w) N
      (Clarith.Combine.egest cfg (Clog.egest cfg g) f ⟨X, Y, c.k⟩) (After cfg) := by
  induction f with
  | zero =>
    intro c w X Y fp N hR hB hp
    exact Cost.timeout
  | succ f ih =>
    intro c w X Y fp N hR hB hp
    unfold egest Clarith.Combine.egest
    refine Cost.bind (J := fun _ => True) (R := fun _ r => r = N)
      (onK_attempt (s := (c, w)) (Coef8.reductionAttempt_agree cfg c.k) fun k => trivial)
      (Cost.still (fun _ => rfl) fun _ _ => rfl) ?_
    rintro a ⟨⟨x, y, k⟩, w1⟩ b _ - ⟨e, ha⟩ rfl
    injection e with e1 e2
    injection e1 with e3 e4 e5
    subst e2 e3 e4
    rcases b with _ | ⟨p, k'⟩
    · obtain ⟨rfl, rfl⟩ := ha
      refine Cost.bind (reductionIngest_sim cfg (Steps.egest_sim cfg g) f hR hB)
        (reductionIngest_cost hC f hR hB hp) ?_
      rintro ⟨ratio, homographic⟩ ⟨⟨x', y', k'⟩, w'⟩ ⟨⟨b1, b2⟩, ⟨X', Y', k''⟩⟩ r -
        ⟨e1, hk, e2, h⟩ hr
      dsimp only at e1 e2 hk h
      subst e1 e2
      rcases homographic with _ | homographic
      · rcases b2 with _ | b2
        · rcases ratio with _ | ratio
          · obtain ⟨fp', hR', hG⟩ := hk
            exact ih (c := ⟨x', y', k'⟩) hR' hG.bound (hr.2 rfl)
          · refine Cost.pure ?_
            intro b' e'
            injection e' with e'
            subst e'
            exact .ratio _ _ _
        · exact h.elim
      · rcases b2 with _ | b2
        · exact h.elim
        · have h1 := (hr.1 b2 rfl).lines b2.k
          rcases ratio with _ | ratio <;>
          · refine Cost.pure ?_
            intro b' e'
            injection e' with e'
            subst e'
            exact h1
    · obtain ⟨rfl, rfl⟩ := ha
      refine Cost.pure ?_
      intro b' e'
      injection e' with e'
      subst e'
      exact hp

end Combine

/-! ## `Clog` -/

/-- What a strategy's `egest` leaves. -/
def After (cfg : Cfg) (a : Nat) (b : Egested × Strategy) (r : Nat) : Prop :=
  match b.1 with
  | .ok _ => Clog.Lines cfg a r b.2
  | .err s => ∃ a' r', a' ≤ a ∧ a' + r' = r ∧ Clog.Lines cfg a' r' s

theorem strategyEgest_cost {cfg : Cfg} {g : Nat} (hC : EgCost cfg g) (f : Nat) {o : Obj} {w : World}
    {s : Strategy} {fp : Nat → Prop} {a n : Nat} (hR : Rep w o s fp) (hB : Bound w fp)
    (hl : Clog.Lines cfg a n s) :
    Cost (strategyEgest cfg (egest cfg g) f) (o, w) (a + n)
      (Strategy.egest cfg (Clog.egest cfg g) f s) (After cfg a) := by
  cases hR with
  | ratio r fp =>
    unfold Cost strategyEgest Strategy.egest
    dsimp only
    generalize Ratio.egest cfg r = q
    obtain ⟨q, t⟩ := q
    cases q with
    | ok u =>
      intro b e
      refine ⟨a + n, Nat.le_refl _, ?_⟩
      cases hq : Clarith.Ratio.egest cfg r with
      | ok q =>
        rw [hq] at e
        injection e with e
        subst e
        exact .ratio _ _ _
      | panic p => rw [hq] at e; cases e
      | timeout => rw [hq] at e; cases e
    | panic p => exact Nat.le_add_right _ _
    | shared => exact Nat.le_add_right _ _
    | timeout => exact Nat.le_add_right _ _
  | @homographic x X _ k h =>
    cases hl with
    | @homographic _ _ a' n' L _ _ hx hL ha hn =>
    have hp : Homographic.Paid cfg X (a - 1 + n) := ⟨a', n', L, hx, hL, by omega⟩
    have h := Homographic.egest_cost hC f (h := ⟨x, k⟩) h hB hp
    have h2 : a - 1 + n + 1 = a + n := by omega
    rw [h2] at h
    unfold Cost at h
    unfold Cost strategyEgest Strategy.egest
    dsimp only at h ⊢
    revert h
    generalize Homographic.egest cfg (egest cfg g) f (⟨x, k⟩, w) = q
    obtain ⟨q, ⟨x', k'⟩, w'⟩ := q
    cases q with
    | ok u =>
      intro h b e
      cases hq : Clarith.Homographic.egest cfg (Clog.egest cfg g) f ⟨X, k⟩ with
      | ok q =>
        obtain ⟨r, h1, h2⟩ := h q hq
        rw [hq] at e
        injection e with e
        subst e
        refine ⟨r, h1, ?_⟩
        obtain ⟨q, H⟩ := q
        cases q with
        | ok s => exact (Homographic.Paid.lines h2 _).mono ha (Nat.le_refl _)
        | err s =>
          obtain ⟨q, rfl⟩ := h2
          exact ⟨0, r, Nat.zero_le _, Nat.zero_add _, .ratio _ _ _⟩
      | panic p => rw [hq] at e; cases e
      | timeout => rw [hq] at e; cases e
    | panic p => exact id
    | shared => exact id
    | timeout => exact id
  | @combine x y ox oy X Y fx fy _ k hi hj hij rx ry ix iy jx jy sep sx sy mi mj =>
    have hR : Rep w (.combine x y k) (.combine X Y k) fp :=
      .combine k hi hj hij rx ry ix iy jx jy sep sx sy mi mj
    cases hl with
    | @combine _ _ b m L b' m' L' _ _ _ hx hy hL hL' ha hn =>
    have hp : Combine.Paid cfg X Y n := ⟨b, m, L, b', m', L', hx, hy, hL, hL', hn⟩
    have h := Combine.egest_cost hC f (c := ⟨x, y, k⟩) hR hB hp
    unfold Cost at h
    unfold Cost strategyEgest Strategy.egest
    dsimp only at h ⊢
    revert h
    generalize Combine.egest cfg (egest cfg g) f (⟨x, y, k⟩, w) = q
    obtain ⟨q, c', w'⟩ := q
    cases q with
    | ok u =>
      intro h b e
      cases hq : Clarith.Combine.egest cfg (Clog.egest cfg g) f ⟨X, Y, k⟩ with
      | ok q =>
        obtain ⟨r, h1, h2⟩ := h q hq
        rw [hq] at e
        injection e with e
        subst e
        have h3 : w'.printed.length + r ≤ w.printed.length + n := h1
        refine ⟨a + r, (by omega : w'.printed.length + (a + r) ≤ w.printed.length + (a + n)), ?_⟩
        obtain ⟨q, C⟩ := q
        cases q with
        | ok s => exact (Combine.Paid.lines h2 _).mono ha (Nat.le_add_left _ _)
        | err s => exact ⟨a, r, Nat.le_refl _, rfl, Clog.Lines.mono h2 ha (Nat.le_refl _)⟩
      | panic p => rw [hq] at e; cases e
      | timeout => rw [hq] at e; cases e
    | panic p =>
      exact fun (h : w'.printed.length ≤ w.printed.length + n) =>
        (by omega : w'.printed.length ≤ w.printed.length + (a + n))
    | shared =>
      exact fun (h : w'.printed.length ≤ w.printed.length + n) =>
        (by omega : w'.printed.length ≤ w.printed.length + (a + n))
    | timeout =>
      exact fun (h : w'.printed.length ≤ w.printed.length + n) =>
        (by omega : w'.printed.length ≤ w.printed.length + (a + n))

/-- `Clog::egest` keeps the account. -/
theorem egest_cost (cfg : Cfg) (g : Nat) : EgCost cfg g := by
  induction g with
  | zero =>
    intro o w s fp a n hR hB hl
    exact Cost.timeout
  | succ g ih =>
    intro o w s fp a n hR hB hl
    unfold egest Clog.egest
    refine Cost.bind (strategyEgest_sim cfg (egest_sim cfg g) g hR hB)
      (strategyEgest_cost ih g hR hB hl) ?_
    rintro a' ⟨o', w'⟩ ⟨b, s'⟩ N - ⟨hk, h⟩ hN
    rcases a' with r | o2
    · cases b with
      | ok r' =>
        obtain rfl : r = r' := h
        refine Cost.pure ?_
        intro b' e'
        injection e' with e'
        subst e'
        exact hN
      | err s2 => exact h.elim
    · cases b with
      | ok r' => exact h.elim
      | err s2 =>
        obtain ⟨fp2, r2, g2⟩ := h
        obtain ⟨a', r', ha, rfl, hl'⟩ := hN
        refine Cost.modify_bind (M := a' + r') (Nat.le_refl _) ?_
        exact (ih o2 w' s2 fp2 a' r' r2 g2.bound hl').imp fun b r _ h => h.mono ha (Nat.le_refl _)

end Steps
end Clarith
