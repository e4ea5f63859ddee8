import Verif.Proofs.StepsLinesCaller
import Mathlib.Algebra.BigOperators.Intervals

/-! # The account of a session -/

namespace Clarith.Steps

open Mut Spec

open Prints (len)

instance : Prints Caller := ⟨linesOf⟩

/-! ## Counting symbols -/

theorem counts_of_denotes {cfg : Cfg} {A : Panic → Prop} {l : List Reduction} :
    ∀ {c : Clog} {x : ℚ}, Clog.Denotes cfg A c x → Expands x l → Clog.Counts cfg l.length c := by
  induction l with
  | nil =>
    intro c x h hl
    cases hl
    intro f r e
    have := (h.step.of_returns ((Clog.egest_mono cfg c).returns f e)).1
    rw [this]
    norm_num [sym]
  | cons s l ih =>
    intro c x h hl f r e
    obtain ⟨h1, h2⟩ := h.step.of_returns ((Clog.egest_mono cfg c).returns f e)
    cases hl with
    | amplify h0 hx hl =>
      rw [next_lt hx] at h2
      refine ⟨?_, ih h2 hl⟩
      rw [h1, sym, if_pos hx]
      exact fun e => nomatch e
    | uncover h0 hx hl =>
      rw [next_gt h0] at h2
      refine ⟨?_, ih h2 hl⟩
      rw [h1, sym, if_neg (by linarith), if_pos h0]
      exact fun e => nomatch e

theorem counts_number {cfg : Cfg} {A : Panic → Prop} {n : Clarith.Number} {q : ℚ} {L : Nat}
    (h : Clarith.Number.Denotes cfg A n q) (hs : Symbols q L) : n.Counts cfg L := by
  cases n with
  | Special s => trivial
  | Other p c =>
    obtain ⟨x, hx, rfl⟩ := h
    unfold Symbols at hs
    rw [shape_other p hx.1 hx.2.1] at hs
    obtain ⟨l, hl, rfl⟩ := hs
    exact counts_of_denotes hx hl

theorem exists_symbols {cfg : Cfg} {A : Panic → Prop} {n : Clarith.Number} {q : ℚ}
    (h : Clarith.Number.Denotes cfg A n q) : ∃ L, Symbols q L := by
  cases n with
  | Special s =>
    change q = _ at h
    refine ⟨0, ?_⟩
    unfold Symbols
    rw [h, shape_special]
  | Other p c =>
    obtain ⟨x, hx, rfl⟩ := h
    obtain ⟨l, hl⟩ := exists_expands x hx.1 hx.2.1
    refine ⟨l.length, ?_⟩
    unfold Symbols
    rw [shape_other p hx.1 hx.2.1]
    exact ⟨l, hl, rfl⟩

/-! ## The account -/

/-- The lines set aside for the first `n` variables. -/
def total (φ : Nat → Nat) (n : Nat) : Nat := ∑ i ∈ Finset.range n, φ i

/-- Set aside lines for a variable. -/
def aside (φ : Nat → Nat) (i v : Nat) : Nat → Nat := fun j => if j = i then v else φ j

theorem total_aside_low {φ : Nat → Nat} {i v n : Nat} (h : n ≤ i) :
    total (aside φ i v) n = total φ n := by
  refine Finset.sum_congr rfl fun j hj => ?_
  have := Finset.mem_range.1 hj
  exact if_neg (by omega)

theorem total_aside {φ : Nat → Nat} {i v n : Nat} (h : i < n) :
    total (aside φ i v) n + φ i = total φ n + v := by
  induction n with
  | zero => omega
  | succ n ih =>
    unfold total at *
    rw [Finset.sum_range_succ, Finset.sum_range_succ]
    by_cases e : i = n
    · have := total_aside_low (φ := φ) (v := v) (Nat.le_of_eq e.symm)
      unfold total at this
      rw [this]
      simp only [aside, e, if_true]
      omega
    · have := ih (by omega)
      have e' : aside φ i v n = φ n := if_neg (Ne.symm e)
      omega

/-- The lines set aside for each known variable pay for reading it. -/
structure Account (cfg : Cfg) (t : Table) (k : Plain) (φ : Nat → Nat) : Prop where
  lines : ∀ i q n, t.var i = some q → k.held i = some n → n.Lines cfg (rate q) (φ i)
  low : ∀ i n, k.held i = some n → i < k.next
  far : ∀ i, k.next ≤ i → φ i = 0

namespace Account

variable {cfg : Cfg} {t : Table} {k : Plain} {φ : Nat → Nat}

theorem start (cfg : Cfg) : Account cfg Table.start Plain.start fun _ => 0 :=
  ⟨(fun _ _ _ h => nomatch h), (fun _ _ h => nomatch h), fun _ _ => rfl⟩

theorem clear (h : Account cfg t k φ) (i : Nat) :
    Account cfg (t.set i none) (k.set i none) (aside φ i 0) where
  lines j q n hq hn := by
    by_cases e : j = i
    · simp [Table.set, e] at hq
    · have e' : aside φ i 0 j = φ j := if_neg e
      rw [e']
      exact h.lines j q n (by simpa [Table.set, e] using hq) (by simpa [Plain.set, e] using hn)
  low j n hn := by
    by_cases e : j = i
    · simp [Plain.set, e] at hn
    · exact h.low j n (by simpa [Plain.set, e] using hn)
  far j hj := by
    by_cases e : j = i
    · exact if_pos e
    · exact (if_neg e).trans (h.far j hj)

theorem total_clear (h : Account cfg t k φ) (i : Nat) :
    total (aside φ i 0) k.next + φ i = total φ k.next := by
  by_cases e : i < k.next
  · exact total_aside e
  · rw [total_aside_low (by omega), h.far i (by omega)]
    rfl

theorem put (h : Account cfg t k φ) (i : Nat) {q : Known} {n : Clarith.Number} {v : Nat}
    (hi : i < k.next) (hn : n.Lines cfg (rate q) v) :
    Account cfg (t.set i (some q)) (k.set i (some n)) (aside φ i v) where
  lines j q' n' hq' hn' := by
    by_cases e : j = i
    · simp only [Table.set, if_pos e, Option.some.injEq] at hq'
      simp only [Plain.set, if_pos e, Option.some.injEq] at hn'
      subst hq' hn'
      have e' : aside φ i v j = v := if_pos e
      rw [e']
      exact hn
    · have e' : aside φ i v j = φ j := if_neg e
      rw [e']
      exact h.lines j q' n' (by simpa [Table.set, e] using hq') (by simpa [Plain.set, e] using hn')
  low j n hn := by
    by_cases e : j = i
    · rw [e]; exact hi
    · exact h.low j n (by simpa [Plain.set, e] using hn)
  far j hj := by
    have hj : k.next ≤ j := hj
    have e : j ≠ i := by omega
    exact (if_neg e).trans (h.far j hj)

theorem push (h : Account cfg t k φ) (e : k.next = t.next) {q : Known} {n : Clarith.Number} {v : Nat}
    (hn : n.Lines cfg (rate q) v) :
    Account cfg (t.push (some q)) { k.set k.next (some n) with next := k.next + 1 }
      (aside φ k.next v) where
  lines j q' n' hq' hn' := by
    rw [e] at hn' ⊢
    by_cases e : j = t.next
    · simp only [Table.push, Table.set, if_pos e, Option.some.injEq] at hq'
      simp only [Plain.set, if_pos e, Option.some.injEq] at hn'
      subst hq' hn'
      have e' : aside φ t.next v j = v := if_pos e
      rw [e']
      exact hn
    · have e' : aside φ t.next v j = φ j := if_neg e
      rw [e']
      exact h.lines j q' n' (by simpa [Table.push, Table.set, e] using hq')
        (by simpa [Plain.set, e] using hn')
  low j n hn := by
    show j < k.next + 1
    by_cases e : j = k.next
    · omega
    · have := h.low j n (by simpa [Plain.set, e] using hn)
      omega
  far j hj := by
    have hj : k.next + 1 ≤ j := hj
    have e : j ≠ k.next := by omega
    exact (if_neg e).trans (h.far j (by omega))

theorem total_push (φ : Nat → Nat) (n v : Nat) :
    total (aside φ n v) (n + 1) = total φ n + v := by
  have := total_aside (φ := φ) (i := n) (v := v) (n := n + 1) (by omega)
  have e : total φ (n + 1) = total φ n + φ n := Finset.sum_range_succ _ _
  omega

theorem push_none (h : Account cfg t k φ) (e : k.next = t.next) :
    Account cfg (t.push none) { k.set k.next none with next := k.next + 1 } φ where
  lines j q n hq hn := by
    by_cases e' : j = t.next
    · simp [Table.push, Table.set, e'] at hq
    · refine h.lines j q n (by simpa [Table.push, Table.set, e'] using hq) ?_
      have e2 : j ≠ k.next := by omega
      simpa [Plain.set, e2] using hn
  low j n hn := by
    show j < k.next + 1
    by_cases e : j = k.next
    · omega
    · have := h.low j n (by simpa [Plain.set, e] using hn)
      omega
  far j hj := h.far j (by have hj : k.next + 1 ≤ j := hj; omega)

/-- Striking out variables, without using the lines set aside for them. -/
theorem forget (h : Account cfg t k φ) (l : List Nat) :
    Account cfg (t.forget l) (Steps.forget k l) φ := by
  induction l generalizing t k with
  | nil => exact h
  | cons i l ih =>
    refine ih ⟨fun j q n hq hn => ?_, fun j n hn => ?_, h.far⟩
    · by_cases e : j = i
      · simp [Table.set, e] at hq
      · exact h.lines j q n (by simpa [Table.set, e] using hq) (by simpa [Plain.set, e] using hn)
    · by_cases e : j = i
      · simp [Plain.set, e] at hn
      · exact h.low j n (by simpa [Plain.set, e] using hn)

end Account

theorem forget_next (k : Plain) (l : List Nat) : (forget k l).next = k.next := by
  induction l generalizing k with
  | nil => rfl
  | cons i l ih => exact ih _

/-! ## The cost of calls -/

theorem onWorld_cost {α β : Type} {c : Caller} {m : Mut World α} {N : Nat} {o : Out β}
    {R : β → Nat → Prop} (h : Cost m c.world N o R) : Cost (Caller.onWorld m) c N o R :=
  Cost.part rfl (fun _ => rfl) h

/-- What is done with the answer does not print. -/
theorem then_cost {σ α β γ : Type} [Prints σ] {m : Mut σ α} {s : σ} {N : Nat} {o : Out β}
    {R : β → Nat → Prop} {g : α → Mut σ γ} (h : Cost m s N o R)
    (hg : ∀ a t, ∃ c u, g a t = (.ok c, u) ∧ len u = len t) : Cost (m >>= g) s N o R := by
  show Cost (Mut.bind m g) s N o R
  unfold Cost at *
  unfold Mut.bind
  revert h
  generalize m s = q
  obtain ⟨q, t⟩ := q
  cases q with
  | ok a =>
    intro h
    obtain ⟨c, u, e, hl⟩ := hg a t
    dsimp only
    rw [e]
    dsimp only
    rw [hl]
    exact h
  | panic p => exact id
  | shared => exact id
  | timeout => exact id

theorem make_cost {c : Caller} {m : Mut World Number} {N : Nat} {o : Out Clarith.Number}
    {R : Clarith.Number → Nat → Prop} (h : Cost m c.world N o R) :
    Cost (Caller.make m) c N o R :=
  then_cost (onWorld_cost h) fun _ _ => ⟨_, _, rfl, rfl⟩

theorem cost_congr {σ α β : Type} [Prints σ] {m m' : Mut σ α} {s s' : σ} {N : Nat} {o : Out β}
    {R : β → Nat → Prop} (e : m s = m' s') (hl : len s = len s') (h : Cost m' s' N o R) :
    Cost m s N o R := by
  unfold Cost at *
  rw [e, hl]
  exact h

/-- The variables of the caller that are in the table. -/
theorem slot_of {k b : Plain} {c : Caller} {fps : Nat → Nat → Prop}
    (hI : Inv c b fps) (hu : Under k b) {x : Nat} {v : Clarith.Number} (hx : k.held x = some v) :
    ∃ v', c.held x = some v' ∧ NumRep c.world (fps x) v' v := by
  have hb : b.held x = some v := by
    rcases hu.held x with e | e
    · rw [hx] at e; cases e
    · rw [← e, hx]
  have hs := hI.slot x
  rw [hb] at hs
  cases hc : c.held x with
  | none => rw [hc] at hs; exact hs.elim
  | some v' => rw [hc] at hs; exact ⟨v', rfl, hs⟩

section

variable {cfg : Cfg} {f : Nat} {t : Table} {k b : Plain} {c : Caller} {fps : Nat → Nat → Prop}
  {x y : Nat} {v w : Clarith.Number} {N : Nat}

theorem homographic_call (hI : Inv c b fps) (hu : Under k b) (hx : k.held x = some v)
    (nx n dx d : Int) (hp : Homographic.Funds cfg v N) :
    Cost (Caller.call cfg f (.homographic x nx n dx d)) c N
      (Clarith.Number.homographic cfg f v nx n dx d) (fun b r => b.Lines cfg 1 r) := by
  obtain ⟨v', hc, hv⟩ := slot_of hI hu hx
  have e : Caller.call cfg f (.homographic x nx n dx d) c =
      Caller.make (Number.homographic cfg f v' nx n dx d) (c.set x none) := by
    change (match c.held x with
      | none => (pure .refused : Mut Caller Answer)
      | some v => Caller.make (Number.homographic cfg f v nx n dx d)) (c.set x none) = _
    rw [hc]
  exact cost_congr e rfl (make_cost (Number.homographic_cost cfg f nx n dx d hv (hI.bound x) hp))

theorem two_slots (hI : Inv c b fps) (hu : Under k b) (hxy : x ≠ y) (hx : k.held x = some v)
    (hy : k.held y = some w) : ∃ v' w', c.held x = some v' ∧ (c.set x none).held y = some w' ∧
      NumRep c.world (fps x) v' v ∧ NumRep c.world (fps y) w' w ∧ ∀ n, fps x n → ¬ fps y n := by
  obtain ⟨v', hc, hv⟩ := slot_of hI hu hx
  obtain ⟨w', hc', hw⟩ := slot_of hI hu hy
  exact ⟨v', w', hc, by simpa [Caller.set, hxy.symm] using hc', hv, hw, hI.sep x y hxy⟩

theorem combine_call (hI : Inv c b fps) (hu : Under k b) (hxy : x ≠ y) (hx : k.held x = some v)
    (hy : k.held y = some w) (nxy nx ny n dxy dx dy d : Int) (hp : Combine.Funds cfg v w N) :
    Cost (Caller.call cfg f (.combine x y nxy nx ny n dxy dx dy d)) c N
      (Clarith.Number.combine cfg f v w nxy nx ny n dxy dx dy d)
      (fun b r => b.Lines cfg 1 r) := by
  obtain ⟨v', w', hc, hc', hv, hw, sep⟩ := two_slots hI hu hxy hx hy
  have e : Caller.call cfg f (.combine x y nxy nx ny n dxy dx dy d) c =
      Caller.make (Number.combine cfg f v' w' nxy nx ny n dxy dx dy d)
        ((c.set x none).set y none) := by
    change (match c.held x with
      | none => (pure .refused : Mut Caller Answer)
      | some v => (do
        match ← Caller.move y with
        | none => pure .refused
        | some w => Caller.make (Number.combine cfg f v w nxy nx ny n dxy dx dy d)))
          (c.set x none) = _
    rw [hc]
    change (match (c.set x none).held y with
      | none => (pure .refused : Mut Caller Answer)
      | some w => Caller.make (Number.combine cfg f v' w nxy nx ny n dxy dx dy d))
        ((c.set x none).set y none) = _
    rw [hc']
  exact cost_congr e rfl (make_cost (Number.combine_cost cfg f nxy nx ny n dxy dx dy d hv hw sep
    (hI.bound x) (hI.bound y) hp))

theorem consume_call (hI : Inv c b fps) (hu : Under k b) (hx : k.held x = some v) {a : Nat}
    (hp : Number.Whole cfg a N v) :
    Cost (Caller.call cfg f (.consume x)) c N (Clarith.Number.consume cfg f v)
      (fun b r => ∀ y, b.1 = some y → y.Lines cfg a r) := by
  obtain ⟨v', hc, hv⟩ := slot_of hI hu hx
  let g : Option Number × Coef4 → Mut Caller Answer := fun (y, k) =>
    match y with
    | none => pure (.consumed none k)
    | some y => do
      Caller.keep y
      pure (.consumed (some y.face) k)
  have e : Caller.call cfg f (.consume x) c =
      (Caller.onWorld (Number.consume cfg f v') >>= g) (c.set x none) := by
    change (match c.held x with
      | none => (pure .refused : Mut Caller Answer)
      | some v => (Caller.onWorld (Number.consume cfg f v) >>= g)) (c.set x none) = _
    rw [hc]
  refine cost_congr e rfl (then_cost (onWorld_cost (Number.consume_cost cfg f hv (hI.bound x) hp)) ?_)
  rintro ⟨_ | y, k⟩ t
  · exact ⟨_, _, rfl, rfl⟩
  · exact ⟨_, _, rfl, rfl⟩

theorem compare_call (hI : Inv c b fps) (hu : Under k b) (hxy : x ≠ y) (hx : k.held x = some v)
    (hy : k.held y = some w) (hp : Compare.Funds cfg v w N) :
    Cost (Caller.call cfg f (.compare x y)) c N (Clarith.Number.compare cfg f v w)
      (fun _ _ => True) := by
  obtain ⟨v', w', hc, hc', hv, hw, sep⟩ := two_slots hI hu hxy hx hy
  have e : Caller.call cfg f (.compare x y) c =
      (Caller.onWorld (Number.compare cfg f v' w') >>= fun o => pure (.order o))
        ((c.set x none).set y none) := by
    change (match c.held x with
      | none => (pure .refused : Mut Caller Answer)
      | some v => (do
        match ← Caller.move y with
        | none => pure .refused
        | some w => do
          let o ← Caller.onWorld (Number.compare cfg f v w)
          pure (.order o))) (c.set x none) = _
    rw [hc]
    change (match (c.set x none).held y with
      | none => (pure .refused : Mut Caller Answer)
      | some w => (do
          let o ← Caller.onWorld (Number.compare cfg f v' w)
          pure (.order o))) ((c.set x none).set y none) = _
    rw [hc']
  refine cost_congr e rfl (then_cost (onWorld_cost (Number.compare_cost cfg f hv hw sep
    (hI.bound x) (hI.bound y) hp)) fun _ _ => ⟨_, _, rfl, rfl⟩)

theorem egest_call (hI : Inv c b fps) (hu : Under k b) {p : Option Primer} {s : Clog}
    (hx : k.held x = some (.Other p s)) {a n : Nat} (hl : Clog.Lines cfg a n s) :
    Cost (Caller.call cfg f (.egest x)) c (a + n) (Clog.egest cfg f s)
      (fun b r => Clog.Lines cfg a r b.2) := by
  obtain ⟨v', hc, hv⟩ := slot_of hI hu hx
  cases hv with
  | @other p o _ hr =>
    have h := egest_cost cfg f o c.world s (fps x) a n hr (hI.bound x) hl
    change Cost (Caller.egestAt cfg f x) c (a + n) _ _
    unfold Cost at *
    unfold Caller.egestAt
    rw [hc]
    dsimp only
    revert h
    generalize Steps.egest cfg f (o, c.world) = q
    obtain ⟨q, o', w'⟩ := q
    cases q <;> exact id

theorem reprime_call (hI : Inv c b fps) (hu : Under k b) (hx : k.held x = some v) (p : Option Primer)
    {a : Nat} (hl : v.Lines cfg a N) :
    Cost (Caller.call cfg f (.reprime x p)) c N (do
      let (_, c) ← v.unwrapOther
      pure (.Other p c)) (fun (b : Clarith.Number) r => b.Lines cfg a r) := by
  obtain ⟨v', hc, hv⟩ := slot_of hI hu hx
  have e : Caller.call cfg f (.reprime x p) c = Caller.make (do
      let (_, c) ← Number.unwrapOther v'
      pure (.Other p c)) (c.set x none) := by
    change (match c.held x with
      | none => (pure .refused : Mut Caller Answer)
      | some v => Caller.make (do
        let (_, c) ← Number.unwrapOther v
        pure (.Other p c))) (c.set x none) = _
    rw [hc]
  refine cost_congr e rfl (make_cost ?_)
  cases hv with
  | special s => exact Cost.panic (α := Number)
  | other p' h =>
    refine Cost.pure (a := Number.Other p _) fun b e => ?_
    injection e with e
    subst e
    exact hl

theorem unwrapSpecial_call (hI : Inv c b fps) (hu : Under k b) (hx : k.held x = some v) :
    len (Caller.call cfg f (.unwrapSpecial x) c).2 = len c := by
  obtain ⟨v', hc, hv⟩ := slot_of hI hu hx
  have e : Caller.call cfg f (.unwrapSpecial x) c =
      (Caller.onWorld (Number.unwrapSpecial v') >>= fun s => pure (.fixed s)) (c.set x none) := by
    change (match c.held x with
      | none => (pure .refused : Mut Caller Answer)
      | some v => (Caller.onWorld (Number.unwrapSpecial v) >>= fun s => pure (.fixed s)))
        (c.set x none) = _
    rw [hc]
  rw [e]
  cases v' <;> rfl

end

/-! ## One call -/

/-- The lines of a call are paid for, and the table that is left has its account. -/
def Pays (cfg : Cfg) (f : Nat) (t : Table) (a : Call) (k : Plain) (c : Caller) (N : Nat) : Prop :=
  ((Caller.call cfg f a c).1 = .timeout → len (Caller.call cfg f a c).2 ≤ N) ∧
  ∀ t', (Caller.call cfg f a c).1 ≠ .timeout → Right cfg t a (Caller.call cfg f a c).1 t' →
    ∃ φ', Account cfg t' (Plain.call cfg f a k).2 φ' ∧
      len (Caller.call cfg f a c).2 + total φ' (Plain.call cfg f a k).2.next ≤ N

section

variable {cfg : Cfg} {f : Nat} {t : Table} {k b : Plain} {c : Caller} {fps : Nat → Nat → Prop}
  {a : Call} {N : Nat}

theorem make_pays {o : Out Clarith.Number} {e M : Nat} {k₁ : Plain} {φ : Nat → Nat}
    (hP : Plain.call cfg f a k = Plain.make o k₁)
    (he : (Caller.call cfg f a c).1 = (Plain.call cfg f a k).1)
    (hC : Cost (Caller.call cfg f a) c M o (fun b r => b.Lines cfg e r))
    (hk : k₁.next = (t.forget (operands a)).next)
    (hA : Account cfg (t.forget (operands a)) k₁ φ) (hN : len c + M + total φ k₁.next ≤ N)
    (ho : (∃ v sure, outcome cfg t a = .makes v sure ∧ rate v = e) ∨
      ∃ p, outcome cfg t a = .reject p) : Pays cfg f t a k c N := by
  unfold Pays
  rw [hP] at he ⊢
  cases o with
  | ok n =>
    have he : (Caller.call cfg f a c).1 = .ok (.made (face n)) := he
    refine ⟨fun e' => (by rw [he] at e'; cases e'), fun t' _ hR => ?_⟩
    obtain ⟨r, h1, h2⟩ := hC.of_ok he rfl
    rw [he] at hR
    unfold Right at hR
    rcases ho with ⟨v, sure, ho, rfl⟩ | ⟨p, ho⟩
    · rw [ho] at hR
      rcases hR with ⟨-, rfl⟩ | ⟨⟨-, p, e, -⟩, -⟩
      · refine ⟨_, hA.push hk h2, ?_⟩
        show _ + total (aside φ k₁.next r) (k₁.next + 1) ≤ N
        rw [Account.total_push]
        omega
      · cases e
    · rw [ho] at hR
      cases hR.1
  | panic p =>
    have he : (Caller.call cfg f a c).1 = .panic p := he
    refine ⟨fun e' => (by rw [he] at e'; cases e'), fun t' _ hR => ?_⟩
    have h1 := hC.of_not fun a e => by rw [he] at e; cases e
    have ht : t' = t.forget (operands a) := by
      rw [he] at hR
      unfold Right at hR
      rcases ho with ⟨v, sure, ho, rfl⟩ | ⟨p, ho⟩
      · rw [ho] at hR
        rcases hR with ⟨e, -⟩ | ⟨-, e⟩
        · cases e
        · exact e
      · rw [ho] at hR
        exact hR.2
    subst ht
    exact ⟨φ, hA, by show _ + total φ k₁.next ≤ N; omega⟩
  | timeout =>
    have he : (Caller.call cfg f a c).1 = .timeout := he
    have h1 := hC.of_not fun a e => by rw [he] at e; cases e
    exact ⟨fun _ => by omega, fun _ h => absurd he h⟩

theorem shape_known {A : Panic → Prop} {p : Option Primer} {s : Clog} {q : ℚ}
    (h : Clarith.Number.Denotes cfg A (.Other p s) q) : ∃ x, shape q = .inr (p, x) := by
  obtain ⟨z, hz, rfl⟩ := h
  exact ⟨z, shape_other p hz.1 hz.2.1⟩

theorem funds_of {A : Panic → Prop} {v : Clarith.Number} {q : Known} {L m : Nat}
    (hv : Clarith.Number.Denotes cfg A v q.value) (hl : v.Lines cfg (rate q) m)
    (hL : Symbols q.value L) : Homographic.Funds cfg v (alone q L + m) := by
  cases hs : v with
  | Special s => trivial
  | Other p s =>
    have hc := counts_number hv hL
    subst hs
    obtain ⟨x, hx⟩ := shape_known hv
    unfold alone
    rw [hx]
    exact ⟨rate q * (L + 1) + m + L, by dsimp only; omega, rate q, m, L, hl, hc, Nat.le_refl _⟩

theorem both_funds {A A' : Panic → Prop} {v w : Clarith.Number} {q q' : Known} {L L' m m' : Nat}
    (hv : Clarith.Number.Denotes cfg A v q.value) (hw : Clarith.Number.Denotes cfg A' w q'.value)
    (hl : v.Lines cfg (rate q) m) (hl' : w.Lines cfg (rate q') m')
    (hL : Symbols q.value L) (hL' : Symbols q'.value L') :
    ∃ M ≤ both q q' L L' + m + m', Combine.Funds cfg v w M := by
  cases hs : v with
  | Special s =>
    subst hs
    have h := funds_of hw hl' hL'
    have hv : q.value = _ := hv
    refine ⟨_, ?_, h⟩
    unfold both
    rw [hv, shape_special]
    dsimp only
    omega
  | Other p s =>
    have hc := counts_number hv hL
    subst hs
    obtain ⟨x, hx⟩ := shape_known hv
    cases hs' : w with
    | Special s' =>
      subst hs'
      have h := funds_of hv hl hL
      have hw : q'.value = _ := hw
      refine ⟨_, ?_, h⟩
      unfold both
      rw [hx, hw, shape_special]
      dsimp only
      omega
    | Other p' s' =>
      have hc' := counts_number hw hL'
      subst hs'
      obtain ⟨y, hy⟩ := shape_known hw
      refine ⟨both q q' L L' + m + m', Nat.le_refl _, rate q, m, L, rate q', m', L', hl, hl', hc, hc', ?_⟩
      unfold both
      rw [hx, hy]
      dsimp only
      split_ifs <;> omega

theorem call_pays {φ : Nat → Nat} {n : Nat} (h : Knows cfg t k) (hI : Inv c b fps)
    (hu : Under k b) (hA : Account cfg t k φ) (hch : Charge t a n)
    (hf : outcome cfg t a ≠ .free) (hf' : outcome cfg t a ≠ .refuse)
    (he : (Caller.call cfg f a c).1 = (Plain.call cfg f a k).1)
    (hN : len c + total φ k.next ≤ N) : Pays cfg f t a k c (N + n) := by
  cases a with
  | ratio num den =>
    refine make_pays (e := 0) (M := 0) (φ := φ) rfl he (make_cost (Number.ratio_cost cfg num den))
      h.next hA (by omega) ?_
    simp only [outcome]
    split_ifs
    · exact .inr ⟨_, rfl⟩
    · exact .inr ⟨_, rfl⟩
    · exact .inl ⟨_, _, rfl, rfl⟩
  | ratioU positive num den =>
    refine make_pays (e := 0) (M := 0) (φ := φ) rfl he (make_cost (Number.ratioU_cost positive num den))
      h.next hA (by omega) ?_
    simp only [outcome]
    split_ifs
    · exact .inr ⟨_, rfl⟩
    · exact .inl ⟨_, _, rfl, rfl⟩
    · exact .inl ⟨_, _, rfl, rfl⟩
  | homographic x nx m dx d =>
    obtain ⟨q, L, hx, hL, rfl⟩ := hch
    obtain ⟨v, hb, hv⟩ := h.some x q hx
    have htot := hA.total_clear x
    refine make_pays (e := 1) (k₁ := k.set x none) (φ := aside φ x 0) (call_homographic hb f nx m dx d) he
      (homographic_call hI hu hb nx m dx d (funds_of hv (hA.lines x q v hx hb) hL)) h.next
      (hA.clear x) (by change len c + _ + total _ k.next ≤ _; omega) ?_
    by_cases hD : (dx : ℚ) * q.value + d = 0
    · exact absurd (by simp only [outcome, hx, if_pos hD]) hf
    · exact .inl ⟨_, _, by simp only [outcome, hx, if_neg hD]; rfl, rfl⟩
  | combine x y nxy nx ny m dxy dx dy d =>
    obtain ⟨q, q', L, L', hx, hy, hL, hL', rfl⟩ := hch
    by_cases hxy : x = y
    · exact absurd (by simp only [outcome, if_pos hxy]) hf
    obtain ⟨v, hb, hv⟩ := h.some x q hx
    obtain ⟨w, hb', hw⟩ := h.some y q' hy
    have htot := hA.total_clear x
    have htot' := (hA.clear x).total_clear y
    have e : aside φ x 0 y = φ y := if_neg (Ne.symm hxy)
    obtain ⟨M, hM, hF⟩ := both_funds hv hw (hA.lines x q v hx hb) (hA.lines y q' w hy hb') hL hL'
    refine make_pays (e := 1) (k₁ := (k.set x none).set y none) (φ := aside (aside φ x 0) y 0)
      (call_combine hb hb' hxy f nxy nx ny m dxy dx dy d) he
      (combine_call hI hu hxy hb hb' nxy nx ny m dxy dx dy d hF) h.next ((hA.clear x).clear y) ?_ ?_
    · change total _ k.next + _ = total _ k.next at htot'
      change len c + _ + total _ k.next ≤ _
      omega
    by_cases hD : (dxy : ℚ) * q.value * q'.value + dx * q.value + dy * q'.value + d = 0
    · exact absurd (by simp only [outcome, hx, hy, if_neg hxy, if_pos hD]) hf
    · exact .inl ⟨_, _, by simp only [outcome, hx, hy, if_neg hxy, if_neg hD]; rfl, rfl⟩
  | egest x =>
    obtain ⟨q, hx, rfl⟩ := hch
    obtain ⟨v, hb, hv⟩ := h.some x q hx
    have htot := hA.total_clear x
    have hl := hA.lines x q v hx hb
    have hlow := hA.low x v hb
    cases v with
    | Special s =>
      change q.value = _ at hv
      exact absurd (by simp only [outcome, hx, hv, shape_special]) hf'
    | Other p s =>
      obtain ⟨z, hz, hq⟩ := hv
      have ho : outcome cfg t (.egest x) = .reads x p z q.exact := by
        simp only [outcome, hx, hq, shape_other p hz.1 hz.2.1]
      have hC := egest_call (f := f) hI hu hb hl
      unfold Pays
      rw [call_egest hb] at he ⊢
      cases hs : Clog.egest cfg f s with
      | ok r =>
        rw [hs] at he
        have he : (Caller.call cfg f (.egest x) c).1 = .ok (.symbol r.1) := he
        refine ⟨fun e' => (by rw [he] at e'; cases e'), fun t' _ hR => ?_⟩
        obtain ⟨r', h1, h2⟩ := hC.of_ok he hs
        rw [he] at hR
        unfold Right at hR
        rw [ho] at hR
        rcases hR with ⟨-, rfl⟩ | ⟨⟨-, p, e, -⟩, -⟩
        · refine ⟨_, hA.put x (q := ⟨_, q.exact⟩) (n := .Other p r.2) (v := r') hlow h2, ?_⟩
          have := total_aside (φ := φ) (v := r') hlow
          show _ + total _ k.next ≤ _
          omega
        · cases e
      | panic p' =>
        rw [hs] at he
        have he : (Caller.call cfg f (.egest x) c).1 = .panic p' := he
        refine ⟨fun e' => (by rw [he] at e'; cases e'), fun t' _ hR => ?_⟩
        have h1 := hC.of_not fun a e => by rw [he] at e; cases e
        rw [he] at hR
        unfold Right at hR
        rw [ho] at hR
        rcases hR with ⟨e, -⟩ | ⟨-, rfl⟩
        · cases e
        · refine ⟨_, hA.clear x, ?_⟩
          show _ + total _ k.next ≤ _
          omega
      | timeout =>
        rw [hs] at he
        have he : (Caller.call cfg f (.egest x) c).1 = .timeout := he
        have h1 := hC.of_not fun a e => by rw [he] at e; cases e
        exact ⟨fun _ => by omega, fun _ h => absurd he h⟩
  | consume x =>
    obtain ⟨q, L, hx, hL, rfl⟩ := hch
    obtain ⟨v, hb, hv⟩ := h.some x q hx
    have htot := hA.total_clear x
    have hl := hA.lines x q v hx hb
    have ho : outcome cfg t (.consume x) = .consumes q := by simp only [outcome, hx]
    have hW : Number.Whole cfg (rate q) (rate q * (L + 1) + φ x) v := by
      cases hs : v with
      | Special s => trivial
      | Other p s =>
        have hc := counts_number hv hL
        subst hs
        exact ⟨_, L, hl, hc, rfl⟩
    have hC := consume_call (f := f) hI hu hb hW
    unfold Pays
    rw [call_consume hb] at he ⊢
    rcases hs : Clarith.Number.consume cfg f v with ⟨y | y, kk⟩ | p | -
    · rw [hs] at he
      have he : (Caller.call cfg f (.consume x) c).1 = .ok (.consumed none kk) := he
      refine ⟨fun e' => (by rw [he] at e'; cases e'), fun t' _ hR => ?_⟩
      obtain ⟨r', h1, h2⟩ := hC.of_ok he hs
      rw [he] at hR
      unfold Right at hR
      rw [ho] at hR
      rcases hR with ⟨_, -, -, -, rfl⟩ | ⟨_, _, e, -⟩ | ⟨⟨-, p, e, -⟩, -⟩
      · refine ⟨_, hA.clear x, ?_⟩
        show _ + total _ k.next ≤ _
        omega
      · cases e
      · cases e
    · rw [hs] at he
      have he : (Caller.call cfg f (.consume x) c).1 = .ok (.consumed (some (face y)) kk) := he
      refine ⟨fun e' => (by rw [he] at e'; cases e'), fun t' _ hR => ?_⟩
      obtain ⟨r', h1, h2⟩ := hC.of_ok he hs
      rw [he] at hR
      unfold Right at hR
      rw [ho] at hR
      rcases hR with ⟨_, e, -⟩ | ⟨_, z, -, -, -, -, -, rfl⟩ | ⟨⟨-, p, e, -⟩, -⟩
      · cases e
      · refine ⟨_, (hA.clear x).push h.next (q := ⟨z, q.exact⟩) (h2 y rfl), ?_⟩
        show _ + total (aside (aside φ x 0) k.next r') (k.next + 1) ≤ _
        rw [Account.total_push]
        omega
      · cases e
    · rw [hs] at he
      have he : (Caller.call cfg f (.consume x) c).1 = .panic p := he
      refine ⟨fun e' => (by rw [he] at e'; cases e'), fun t' _ hR => ?_⟩
      have h1 := hC.of_not fun a e => by rw [he] at e; cases e
      rw [he] at hR
      unfold Right at hR
      rw [ho] at hR
      rcases hR with ⟨_, e, -⟩ | ⟨_, _, e, -⟩ | ⟨-, rfl⟩
      · cases e
      · cases e
      · refine ⟨_, hA.clear x, ?_⟩
        show _ + total _ k.next ≤ _
        omega
    · rw [hs] at he
      have he : (Caller.call cfg f (.consume x) c).1 = .timeout := he
      have h1 := hC.of_not fun a e => by rw [he] at e; cases e
      exact ⟨fun _ => by omega, fun _ h => absurd he h⟩
  | compare x y =>
    obtain ⟨q, q', L, L', hx, hy, hL, hL', rfl⟩ := hch
    by_cases hxy : x = y
    · exact absurd (by simp only [outcome, if_pos hxy]) hf
    obtain ⟨v, hb, hv⟩ := h.some x q hx
    obtain ⟨w, hb', hw⟩ := h.some y q' hy
    have hl := hA.lines x q v hx hb
    have hl' := hA.lines y q' w hy hb'
    have htot := hA.total_clear x
    have htot' := (hA.clear x).total_clear y
    have e : aside φ x 0 y = φ y := if_neg (Ne.symm hxy)
    change total _ k.next + _ = total _ k.next at htot'
    have ho : outcome cfg t (.compare x y) =
        .orders (order q.value q'.value) (q.exact && q'.exact) := by
      simp only [outcome, hx, hy, if_neg hxy]
    have hW : Compare.Funds cfg v w ((rate q + rate q') * (min L L' + 1) + φ x + φ y) := by
      cases hs : v with
      | Special s => trivial
      | Other p s =>
        cases hs' : w with
        | Special s => trivial
        | Other p' s' =>
          have hc := counts_number hv hL
          have hc' := counts_number hw hL'
          subst hs hs'
          exact ⟨_, _, L, _, _, L', hl, hl', hc, hc', rfl⟩
    have hC := compare_call (f := f) hI hu hxy hb hb' hW
    unfold Pays
    rw [call_compare hb hb' hxy] at he ⊢
    rcases hs : Clarith.Number.compare cfg f v w with o | p | -
    · rw [hs] at he
      have he : (Caller.call cfg f (.compare x y) c).1 = .ok (.order o) := he
      refine ⟨fun e' => (by rw [he] at e'; cases e'), fun t' _ hR => ?_⟩
      obtain ⟨r', h1, h2⟩ := hC.of_ok he hs
      rw [he] at hR
      unfold Right at hR
      rw [ho] at hR
      rcases hR with ⟨-, rfl⟩ | ⟨⟨-, p, e, -⟩, -⟩
      · refine ⟨_, (hA.clear x).clear y, ?_⟩
        show _ + total _ k.next ≤ _
        omega
      · cases e
    · rw [hs] at he
      have he : (Caller.call cfg f (.compare x y) c).1 = .panic p := he
      refine ⟨fun e' => (by rw [he] at e'; cases e'), fun t' _ hR => ?_⟩
      have h1 := hC.of_not fun a e => by rw [he] at e; cases e
      rw [he] at hR
      unfold Right at hR
      rw [ho] at hR
      rcases hR with ⟨e, -⟩ | ⟨-, rfl⟩
      · cases e
      · refine ⟨_, (hA.clear x).clear y, ?_⟩
        show _ + total _ k.next ≤ _
        omega
    · rw [hs] at he
      have he : (Caller.call cfg f (.compare x y) c).1 = .timeout := he
      have h1 := hC.of_not fun a e => by rw [he] at e; cases e
      exact ⟨fun _ => by omega, fun _ h => absurd he h⟩
  | special s =>
    refine make_pays (e := 0) (M := 0) (φ := φ) rfl he (make_cost (Cost.pure fun b e => ?_))
      h.next hA (by omega) (.inl ⟨_, _, rfl, rfl⟩)
    injection e with e
    subst e
    trivial
  | reprime x p =>
    cases hx : t.var x with
    | none => exact absurd (by simp only [outcome, hx]) hf
    | some q =>
      obtain ⟨v, hb, hv⟩ := h.some x q hx
      have htot := hA.total_clear x
      have hl := hA.lines x q v hx hb
      have hcall : Plain.call cfg f (.reprime x p) k = Plain.make (do
          let (_, c) ← v.unwrapOther
          pure (.Other p c)) (k.set x none) := by
        change (match k.held x with
          | none => (pure .refused : Mut Plain Answer)
          | some v => Plain.make (do
            let (_, c) ← v.unwrapOther
            pure (.Other p c))) (k.set x none) = _
        rw [hb]
      refine make_pays (e := rate q) (M := φ x) (k₁ := k.set x none) (φ := aside φ x 0) hcall he
        (reprime_call hI hu hb p hl) h.next (hA.clear x)
        (by change len c + _ + total _ k.next ≤ _; omega) ?_
      simp only [outcome, hx]
      cases shape q.value with
      | inl s => exact .inr ⟨_, rfl⟩
      | inr z => exact .inl ⟨_, _, rfl, rfl⟩
  | unwrapSpecial x =>
    cases hx : t.var x with
    | none => exact absurd (by simp only [outcome, hx]) hf
    | some q =>
      obtain ⟨v, hb, hv⟩ := h.some x q hx
      have htot := hA.total_clear x
      have hlen := unwrapSpecial_call (cfg := cfg) (f := f) hI hu hb
      have hcall : Plain.call cfg f (.unwrapSpecial x) k = (do
          let s ← eval v.unwrapSpecial
          pure (.fixed s) : Mut Plain Answer) (k.set x none) := by
        change (match k.held x with
          | none => (pure .refused : Mut Plain Answer)
          | some v => (do
            let s ← eval v.unwrapSpecial
            pure (.fixed s))) (k.set x none) = _
        rw [hb]
      have hk : (Plain.call cfg f (.unwrapSpecial x) k).2 = k.set x none := by
        rw [hcall]
        cases v <;> rfl
      refine ⟨fun _ => by omega, fun t' _ hR => ?_⟩
      have ht : t' = t.forget [x] := by
        unfold Right at hR
        simp only [outcome, hx] at hR
        revert hR
        cases shape q.value with
        | inl s => exact fun h => h.2
        | inr z => exact fun h => h.2
      subst ht
      rw [hk]
      refine ⟨_, hA.clear x, ?_⟩
      show _ + total _ k.next ≤ _
      omega

theorem call_at (hc : cfg.overflowChecks = true) (h : Knows cfg t k) (ha : MachineCall cfg a)
    (hf : outcome cfg t a ≠ .free) (hf' : outcome cfg t a ≠ .refuse) (hI : Inv c b fps)
    (hu : Under k b) : (Caller.call cfg f a c).1 = (Plain.call cfg f a k).1 ∧
      ((Caller.call cfg f a c).1 = .timeout ∨ ∃ t', Right cfg t a (Caller.call cfg f a c).1 t' ∧
        At cfg t' (Plain.call cfg f a k).2 (Caller.call cfg f a c).2) := by
  obtain ⟨r, k', f₀, hr, ⟨hr', t', hR, hk'⟩, hF, hF'⟩ := call_settles hc h a ha hf hf'
  obtain ⟨he, hs, b₁, fps', hI', hu', -⟩ := call_same cfg f a hI
  have hrf : (Plain.call cfg f a k).1 ≠ .ok .refused := by
    rcases hF' f with e | e
    · intro e'
      have := e.symm.trans e'
      cases this
    · intro e'
      change Plain.call cfg f a k = _ at e
      rw [e] at e'
      exact hr' e'
  obtain ⟨h1, h2⟩ := call_under cfg f a hu hrf
  have h3 := he.trans h1
  refine ⟨h3, ?_⟩
  rcases hF' f with e | e
  · exact .inl (h3.trans e)
  · change Plain.call cfg f a k = _ at e
    refine .inr ⟨t', ?_, ?_, b₁, fps', hI', h2.trans hu'⟩
    · rw [h3, e]
      exact hR
    · rw [e]
      exact hk'

theorem exists_charge (h : Knows cfg t k) (hf : outcome cfg t a ≠ .free) : ∃ n, Charge t a n := by
  cases a with
  | homographic x nx n dx d =>
    cases hx : t.var x with
    | none => exact absurd (by simp only [outcome, hx]) hf
    | some q =>
      obtain ⟨v, -, hv⟩ := h.some x q hx
      obtain ⟨L, hL⟩ := exists_symbols hv
      exact ⟨_, q, L, hx, hL, rfl⟩
  | combine x y nxy nx ny n dxy dx dy d =>
    by_cases hxy : x = y
    · exact absurd (by simp only [outcome, if_pos hxy]) hf
    cases hx : t.var x with
    | none => exact absurd (by simp only [outcome, hx, if_neg hxy]) hf
    | some q =>
      cases hy : t.var y with
      | none => exact absurd (by simp only [outcome, hx, hy, if_neg hxy]) hf
      | some r =>
        obtain ⟨v, -, hv⟩ := h.some x q hx
        obtain ⟨L, hL⟩ := exists_symbols hv
        obtain ⟨w, -, hw⟩ := h.some y r hy
        obtain ⟨L', hL'⟩ := exists_symbols hw
        exact ⟨_, q, r, L, L', hx, hy, hL, hL', rfl⟩
  | egest x =>
    cases hx : t.var x with
    | none => exact absurd (by simp only [outcome, hx]) hf
    | some q => exact ⟨_, q, hx, rfl⟩
  | consume x =>
    cases hx : t.var x with
    | none => exact absurd (by simp only [outcome, hx]) hf
    | some q =>
      obtain ⟨v, -, hv⟩ := h.some x q hx
      obtain ⟨L, hL⟩ := exists_symbols hv
      exact ⟨_, q, L, hx, hL, rfl⟩
  | compare x y =>
    by_cases hxy : x = y
    · exact absurd (by simp only [outcome, if_pos hxy]) hf
    cases hx : t.var x with
    | none => exact absurd (by simp only [outcome, hx, if_neg hxy]) hf
    | some q =>
      cases hy : t.var y with
      | none => exact absurd (by simp only [outcome, hx, hy, if_neg hxy]) hf
      | some r =>
        obtain ⟨v, -, hv⟩ := h.some x q hx
        obtain ⟨L, hL⟩ := exists_symbols hv
        obtain ⟨w, -, hw⟩ := h.some y r hy
        obtain ⟨L', hL'⟩ := exists_symbols hw
        exact ⟨_, q, r, L, L', hx, hy, hL, hL', rfl⟩
  | ratio num den => exact ⟨0, rfl⟩
  | ratioU positive num den => exact ⟨0, rfl⟩
  | special s => exact ⟨0, rfl⟩
  | reprime x p => exact ⟨0, rfl⟩
  | unwrapSpecial x => exact ⟨0, rfl⟩

end

/-- One call: a charge that covers what is printed. -/
theorem call_account {cfg : Cfg} (hc : cfg.overflowChecks = true) (f : Nat) {t : Table} {k : Plain}
    {c : Caller} {a : Call} {φ : Nat → Nat} {N : Nat} (ha : MachineCall cfg a) (h : At cfg t k c)
    (hA : Account cfg t k φ) (hN : linesOf c + total φ k.next ≤ N) :
    ∃ n, (outcome cfg t a ≠ .free → Charge t a n) ∧
      (outcome cfg t a = .free → n = linesOf (Caller.call cfg f a c).2 - linesOf c) ∧
      (((Caller.call cfg f a c).1 = .timeout ∧ linesOf (Caller.call cfg f a c).2 ≤ N + n) ∨
      ((Caller.call cfg f a c).1 ≠ .timeout ∧ ∃ t' k' φ', Right cfg t a (Caller.call cfg f a c).1 t' ∧
        At cfg t' k' (Caller.call cfg f a c).2 ∧ Account cfg t' k' φ' ∧
        linesOf (Caller.call cfg f a c).2 + total φ' k'.next ≤ N + n)) := by
  obtain ⟨hk, b, fps, hI, hu⟩ := h
  by_cases hf : outcome cfg t a = .free
  · refine ⟨_, fun h => absurd hf h, fun _ => rfl, ?_⟩
    by_cases ht : (Caller.call cfg f a c).1 = .timeout
    · exact .inl ⟨ht, by omega⟩
    refine .inr ⟨ht, ?_⟩
    obtain ⟨he, hs, b₁, fps', hI', hu', -⟩ := call_same cfg f a hI
    have hv := (call_vague cfg f a hu).trans hu'
    rw [← he] at hv
    have hk' := hk.forget (operands a)
    have hA' := hA.forget (operands a)
    have hn := forget_next k (operands a)
    unfold vague at hv
    split_ifs at hv with hb
    · refine ⟨_, _, φ, ?_, ⟨hk'.push_none, b₁, fps', hI', hv⟩, hA'.push_none hk'.next, ?_⟩
      · unfold Right
        rw [hf]
        exact ⟨hs, (if_pos hb).symm⟩
      · show _ + total φ ((forget k (operands a)).next + 1) ≤ _
        have e : total φ (k.next + 1) = total φ k.next + φ k.next := Finset.sum_range_succ _ _
        have := hA.far k.next (Nat.le_refl _)
        rw [hn]
        omega
    · refine ⟨_, _, φ, ?_, ⟨hk', b₁, fps', hI', hv⟩, hA', ?_⟩
      · unfold Right
        rw [hf]
        exact ⟨hs, (if_neg hb).symm⟩
      · rw [hn]
        omega
  obtain ⟨n, hn⟩ := exists_charge hk hf
  refine ⟨n, fun _ => hn, fun h => absurd h hf, ?_⟩
  by_cases hf' : outcome cfg t a = .refuse
  · obtain ⟨x, q, s, rfl, hq, hsh⟩ := egest_special hf'
    obtain ⟨v, hv, hd⟩ := hk.some x q hq
    obtain ⟨v', hc', hr⟩ := slot_of hI hu hv
    have e : Caller.call cfg f (.egest x) c = (.ok .refused, c) := by
      change Caller.egestAt cfg f x c = _
      unfold Caller.egestAt
      rw [hc']
      cases hr with
      | special s => rfl
      | other p h' =>
        obtain ⟨z, hz⟩ := shape_known hd
        rw [hz] at hsh
        cases hsh
    rw [e]
    refine .inr ⟨(by intro e; cases e), t, k, φ, ?_, ⟨hk, b, fps, hI, hu⟩, hA, by dsimp only; omega⟩
    unfold Right
    rw [hf']
    exact ⟨rfl, rfl⟩
  obtain ⟨he, h1⟩ := call_at (f := f) hc hk ha hf hf' hI hu
  obtain ⟨h2, h3⟩ := call_pays (N := N) hk hI hu hA hn hf hf' he hN
  by_cases ht : (Caller.call cfg f a c).1 = .timeout
  · exact .inl ⟨ht, h2 ht⟩
  rcases h1 with h1 | ⟨t', hR, hAt⟩
  · exact absurd h1 ht
  obtain ⟨φ', hA', hN'⟩ := h3 t' ht hR
  exact .inr ⟨ht, t', _, φ', hR, hAt, hA', hN'⟩

/-- Whole sessions. -/
theorem session_accounts {cfg : Cfg} (hc : cfg.overflowChecks = true) (f : Nat) (calls : List Call)
    (hm : ∀ a ∈ calls, MachineCall cfg a) {t : Table} {k : Plain} {c : Caller} {φ : Nat → Nat}
    {N : Nat} (h : At cfg t k c) (hA : Account cfg t k φ) (hN : linesOf c + total φ k.next ≤ N) :
    Accounts cfg f t calls c N := by
  induction calls generalizing t k c φ N with
  | nil => exact (by omega : linesOf c ≤ N)
  | cons a calls ih =>
    obtain ⟨n, h1, h2, h3⟩ := call_account hc f (hm a List.mem_cons_self) h hA hN
    refine ⟨by omega, n, h1, h2, ?_⟩
    rcases h3 with h3 | ⟨h3, t', k', φ', hR, hAt, hA', hN'⟩
    · exact .inl h3
    · exact .inr ⟨h3, t', hR, ih (fun a h => hm a (List.mem_cons_of_mem _ h)) hAt hA' hN'⟩

end Clarith.Steps
