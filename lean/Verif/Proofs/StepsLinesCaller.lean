import Verif.Proofs.StepsLines
import Verif.Proofs.Session
import Verif.SpecLines

/-! # How many lines a caller sees -/

namespace Clarith

/-- `Clog.Lines`, for numbers. -/
def Number.Lines (cfg : Cfg) (a n : Nat) : Number → Prop
  | .Special _ => True
  | .Other _ c => Clog.Lines cfg a n c

/-- `Clog.Counts`, for numbers. -/
def Number.Counts (cfg : Cfg) (L : Nat) : Number → Prop
  | .Special _ => True
  | .Other _ c => Clog.Counts cfg L c

namespace Steps

open Mut Spec

open Prints (len)

namespace Cost

variable {σ α β : Type} [Prints σ] {m : Mut σ α} {s : σ} {N : Nat} {o : Out β}
  {R : β → Nat → Prop}

theorem of_ok (h : Cost m s N o R) {a : α} {b : β} (e : (m s).1 = .ok a) (eo : o = .ok b) :
    ∃ r, len (m s).2 + r ≤ len s + N ∧ R b r := by
  unfold Cost at h
  revert h e
  generalize m s = q
  obtain ⟨q, t⟩ := q
  rintro h rfl
  exact h b eo

theorem of_not (h : Cost m s N o R) (e : ∀ a, (m s).1 ≠ .ok a) : len (m s).2 ≤ len s + N := by
  unfold Cost at h
  revert h e
  generalize m s = q
  obtain ⟨q, t⟩ := q
  intro h e
  cases q with
  | ok a => exact absurd rfl (e a)
  | panic p => exact h
  | shared => exact h
  | timeout => exact h

end Cost

/-! ## The public functions -/

namespace Number

theorem ratioU_cost (positive : Bool) (num den : Nat) {cfg : Cfg} {a N : Nat} {w : World} :
    Cost (ratioU positive num den) w N (Clarith.Number.ratioU positive num den)
      (fun b r => b.Lines cfg a r) := by
  refine Cost.eval_bind ?_
  rintro ⟨_ | s, p, _ | r⟩ -
  · exact Cost.panic
  all_goals
    refine Cost.pure fun b e => ?_
    injection e with e
    subst e
    first
      | exact .ratio _ _ _
      | trivial

theorem ratio_cost (cfg : Cfg) (num den : Int) {a N : Nat} {w : World} :
    Cost (ratio cfg num den) w N (Clarith.Number.ratio cfg num den)
      (fun b r => b.Lines cfg a r) :=
  Cost.eval_bind fun _ _ => Cost.eval_bind fun _ _ => ratioU_cost _ _ _

theorem homographic_cost (cfg : Cfg) (f : Nat) {x : Number} {x₀ : Clarith.Number}
    (nx n dx d : Int) {w : World} {fp : Nat → Prop} {N : Nat} (hx : NumRep w fp x x₀)
    (hB : Bound w fp) (hp : Homographic.Funds cfg x₀ N) :
    Cost (homographic cfg f x nx n dx d) w N (Clarith.Number.homographic cfg f x₀ nx n dx d)
      (fun b r => b.Lines cfg 1 r) := by
  refine Cost.bind (Homographic.new_sim cfg (Steps.egest_sim cfg f) f nx n dx d hx hB)
    (Homographic.new_cost (egest_cost cfg f) f nx n dx d hx hB hp) ?_
  rintro ⟨a1, a2, a3, a4⟩ t ⟨b1, b2, b3, b4⟩ r - h hr
  obtain ⟨h1, h2, h3, h4⟩ := h
  dsimp only at h1 h2 h3 hr
  subst h1 h2 h3
  rcases a1 with _ | s
  · rcases a3 with _ | q
    · cases a4 <;> cases b4
      · exact Cost.panic
      · exact h4.elim
      · exact h4.elim
      · refine Cost.pure fun b e => ?_
        injection e with e
        subst e
        exact (hr _ rfl).lines _
    · refine Cost.pure fun b e => ?_
      injection e with e
      subst e
      exact .ratio _ _ _
  · refine Cost.pure fun b e => ?_
    injection e with e
    subst e
    trivial

end Number

namespace Combine

/-- The account of two numbers that are operands. -/
def Funds (cfg : Cfg) (x y : Clarith.Number) (N : Nat) : Prop :=
  match x, y with
  | .Special _, y => Homographic.Funds cfg y N
  | .Other p c, .Special _ => Homographic.Funds cfg (.Other p c) N
  | .Other _ c, .Other _ c' => Paid cfg c c' N

theorem asHomographic_cost {cfg : Cfg} {g : Nat} (hC : EgCost cfg g) (f : Nat) {x : Number}
    {x₀ : Clarith.Number} (nx n dx d : Int) {w : World} {fp : Nat → Prop} {N : Nat}
    (hx : NumRep w fp x x₀) (hB : Bound w fp) (hp : Homographic.Funds cfg x₀ N) :
    Cost (asHomographic cfg (Steps.egest cfg g) f x nx n dx d) w N
      (Clarith.Combine.asHomographic cfg (Clog.egest cfg g) f x₀ nx n dx d)
      (Primed.Funded cfg) := by
  unfold asHomographic Clarith.Combine.asHomographic
  refine Cost.bind (Homographic.new_sim cfg (Steps.egest_sim cfg g) f nx n dx d hx hB)
    (Homographic.new_cost hC f nx n dx d hx hB hp) ?_
  rintro ⟨a1, a2, a3, a4⟩ t ⟨b1, b2, b3, b4⟩ r - - hr
  refine Cost.pure fun b e => ?_
  injection e with e
  subst e
  exact ⟨hr, fun C e => by cases e⟩

theorem new_cost {cfg : Cfg} {g : Nat} (hC : EgCost cfg g) (f : Nat) {x y : Number}
    {x₀ y₀ : Clarith.Number} (k : Coef8) {w : World} {fx fy : Nat → Prop} {N : Nat}
    (hx : NumRep w fx x x₀) (hy : NumRep w fy y y₀) (sep : ∀ n, fx n → ¬ fy n)
    (hBx : Bound w fx) (hBy : Bound w fy) (hp : Funds cfg x₀ y₀ N) :
    Cost (new cfg (Steps.egest cfg g) f x y k) w N
      (Clarith.Combine.new cfg (Clog.egest cfg g) f x₀ y₀ k) (Primed.Funded cfg) := by
  cases hx with
  | special s =>
    have hp : Homographic.Funds cfg y₀ N := hp
    cases s
    · exact Cost.eval_bind fun _ _ => Cost.eval_bind fun _ _ => Cost.eval_bind fun _ _ =>
        Cost.eval_bind fun _ _ => asHomographic_cost hC f _ _ _ _ hy hBy hp
    · exact asHomographic_cost hC f _ _ _ _ hy hBy hp
    · exact Cost.eval_bind fun _ _ => Cost.eval_bind fun _ _ => Cost.eval_bind fun _ _ =>
        Cost.eval_bind fun _ _ => asHomographic_cost hC f _ _ _ _ hy hBy hp
  | @other px cx CX rx =>
    cases hy with
    | special s =>
      have hx : NumRep w fx (.Other px cx) (.Other px CX) := .other px rx
      cases s
      · exact Cost.eval_bind fun _ _ => Cost.eval_bind fun _ _ => Cost.eval_bind fun _ _ =>
          Cost.eval_bind fun _ _ => asHomographic_cost hC f _ _ _ _ hx hBx hp
      · exact asHomographic_cost hC f _ _ _ _ hx hBx hp
      · exact Cost.eval_bind fun _ _ => Cost.eval_bind fun _ _ => Cost.eval_bind fun _ _ =>
          Cost.eval_bind fun _ _ => asHomographic_cost hC f _ _ _ _ hx hBx hp
    | @other py cy CY ry =>
      refine Cost.eval_bind fun k1 _ => Cost.eval_bind fun k2 _ => ?_
      let w1 : World := { w.put w.fresh (some ⟨1, cx⟩) with fresh := w.fresh + 1 }
      let w2 : World := { w1.put (w.fresh + 1) (some ⟨1, cy⟩) with fresh := w.fresh + 1 + 1 }
      refine Cost.run_bind (M := N) (t := w1) (a := w.fresh) rfl (Nat.le_refl _) ?_
      refine Cost.run_bind (M := N) (t := w2) (a := w.fresh + 1) rfl (Nat.le_refl _) ?_
      have old : ∀ n, n < w.fresh → w2.cells n = w.cells n := by
        intro n hn
        show (w1.put (w.fresh + 1) _).cells n = _
        rw [put_other _ _ (by omega)]
        show (w.put w.fresh _).cells n = _
        rw [put_other _ _ (by omega)]
      have c1 : w2.cells w.fresh = some ⟨1, cx⟩ := by
        show (w1.put (w.fresh + 1) _).cells w.fresh = _
        rw [put_other _ _ (by omega)]
        exact put_self _ _ _
      have c2 : w2.cells (w.fresh + 1) = some ⟨1, cy⟩ := put_self _ _ _
      let fp : Nat → Prop := fun n => fx n ∨ fy n ∨ n = w.fresh ∨ n = w.fresh + 1
      have hR : Rep w2 (.combine w.fresh (w.fresh + 1) k2) (.combine CX CY k2) fp := by
        refine .combine k2 (ox := cx) (oy := cy) (fx := fx) (fy := fy) c1 c2 (by omega)
          (rx.frame fun n hn => old n (hBx n hn)) (ry.frame fun n hn => old n (hBy n hn))
          ?_ ?_ ?_ ?_ sep (fun n h => .inl h) (fun n h => .inr (.inl h)) (.inr (.inr (.inl rfl)))
          (.inr (.inr (.inr rfl)))
        · exact fun h => by have := hBx _ h; omega
        · exact fun h => by have := hBy _ h; omega
        · exact fun h => by have := hBx _ h; omega
        · exact fun h => by have := hBy _ h; omega
      have hB : Bound w2 fp := by
        show ∀ n, fp n → n < w.fresh + 1 + 1
        rintro n (h | h | rfl | rfl)
        · have := hBx n h
          omega
        · have := hBy n h
          omega
        · omega
        · omega
      exact Homographic.owned_cost (prime_cost hC f (c := ⟨w.fresh, w.fresh + 1, k2⟩) hR hB hp)

end Combine

theorem Number.combine_cost (cfg : Cfg) (f : Nat) {x y : Number} {x₀ y₀ : Clarith.Number}
    (nxy nx ny n dxy dx dy d : Int) {w : World} {fx fy : Nat → Prop} {N : Nat}
    (hx : NumRep w fx x x₀) (hy : NumRep w fy y y₀) (sep : ∀ n, fx n → ¬ fy n)
    (hBx : Bound w fx) (hBy : Bound w fy) (hp : Combine.Funds cfg x₀ y₀ N) :
    Cost (combine cfg f x y nxy nx ny n dxy dx dy d) w N
      (Clarith.Number.combine cfg f x₀ y₀ nxy nx ny n dxy dx dy d)
      (fun b r => b.Lines cfg 1 r) := by
  refine Cost.bind (Combine.new_sim cfg (Steps.egest_sim cfg f) f _ hx hy sep hBx hBy)
    (Combine.new_cost (egest_cost cfg f) f _ hx hy sep hBx hBy hp) ?_
  rintro ⟨a1, a2, a3, a4, a5⟩ t ⟨b1, b2, b3, b4, b5⟩ r - h ⟨hr, hr'⟩
  obtain ⟨h1, h2, h3, h4⟩ := h
  dsimp only at h1 h2 h3 hr hr'
  subst h1 h2 h3
  rcases a1 with _ | s
  · rcases a3 with _ | q
    · cases a4 <;> cases b4 <;> cases a5 <;> cases b5 <;> first
        | exact h4.elim
        | exact Cost.panic
        | (refine Cost.pure fun b e => ?_
           injection e with e
           subst e
           first
             | exact (hr _ rfl).lines _
             | exact (hr' _ rfl).lines _)
    · refine Cost.pure fun b e => ?_
      injection e with e
      subst e
      exact .ratio _ _ _
  · refine Cost.pure fun b e => ?_
    injection e with e
    subst e
    trivial

theorem Consume.consume_cost (cfg : Cfg) (g f : Nat) : ∀ (k : Coef4) {o : Obj} {w : World}
    {s : Strategy} {fp : Nat → Prop} {a n L : Nat}, Rep w o s fp → Bound w fp →
    Clog.Lines cfg a n s → Clog.Counts cfg L s →
    Cost (Consume.consume cfg (egest cfg g) f k) (o, w) (a * (L + 1) + n)
      (Clarith.Consume.consume cfg (Clog.egest cfg g) f s k)
      (fun b r => ∀ c, b.1 = some c → Clog.Lines cfg a r c) := by
  induction f with
  | zero =>
    intro k o w s fp a n L hR hB hl hL
    exact Cost.timeout
  | succ f ih =>
    intro k o w s fp a n L hR hB hl hL
    unfold Consume.consume Clarith.Consume.consume
    have e1 : a * (L + 1) = a * L + a := Nat.mul_succ _ _
    refine Cost.bind (egest_sim cfg g o w s fp hR hB)
      ((egest_cost cfg g o w s fp a n hR hB hl).mono (N' := a * (L + 1) + n)
        (R' := fun b r => ∃ r', r = r' + a * L ∧ Clog.Lines cfg a r' b.2) (by omega)
        fun b r _ h => ⟨r, by omega, h⟩) ?_
    rintro b ⟨o', w'⟩ ⟨r, s'⟩ N' e ⟨e', fp', hR', hG⟩ ⟨r', rfl, hl'⟩
    dsimp only at e' hR' hG hl'
    subst e'
    rcases b with _ | red
    · refine Cost.pure fun b e => ?_
      injection e with e
      subst e
      exact fun c e => by cases e
    · obtain ⟨M, rfl, hM⟩ := hL.next e
      refine Cost.eval_bind fun k' _ => ?_
      refine Cost.eval_bind fun u _ => ?_
      refine Cost.ite (fun _ => ?_) fun _ => ?_
      · refine Cost.get_bind (Cost.pure fun b e => ?_)
        injection e with e
        subst e
        intro c ec
        injection ec with ec
        subst ec
        exact hl'.mono (Nat.le_refl _) (Nat.le_add_right _ _)
      · rw [Nat.add_comm r']
        exact ih k' hR' hG.bound hl' hM

/-- The lines for reading a number to its end. -/
def Number.Whole (cfg : Cfg) (a N : Nat) (x : Clarith.Number) : Prop :=
  match x with
  | .Special _ => True
  | .Other _ c => ∃ n L, Clog.Lines cfg a n c ∧ Clog.Counts cfg L c ∧ a * (L + 1) + n = N

theorem Number.consume_cost (cfg : Cfg) (f : Nat) {x : Number} {x₀ : Clarith.Number} {w : World}
    {fp : Nat → Prop} {a N : Nat} (hx : NumRep w fp x x₀) (hB : Bound w fp)
    (hp : Number.Whole cfg a N x₀) :
    Cost (Number.consume cfg f x) w N (Clarith.Number.consume cfg f x₀)
      (fun b r => ∀ y, b.1 = some y → y.Lines cfg a r) := by
  have g := Grow.none hB
  unfold Number.consume Clarith.Number.consume
  refine Cost.bind (J := fun t => Grow w fp t nowhere) (S := fun a t b => a.2 = b.2 ∧ match a.1, b.1 with
        | some o', some s' => Kept w fp t o' s'
        | none, none => Grow w fp t nowhere
        | _, _ => False) (R := fun b r => ∀ c, b.1 = some c → Clog.Lines cfg a r c) ?_ ?_ ?_
  · cases hx with
    | special s =>
      cases s
      · exact Sim.pure ⟨rfl, g⟩
      · exact Sim.pure ⟨rfl, g⟩
      · exact Sim.pure ⟨rfl, g⟩
    | other p h =>
      exact Sim.eval_bind g fun k _ => owned_sim (Consume.consume_sim cfg (Steps.egest_sim cfg f)
        f k h hB)
  · cases hx with
    | special s =>
      cases s <;>
      · refine Cost.pure fun b e => ?_
        injection e with e
        subst e
        exact fun c e => by cases e
    | other p h =>
      obtain ⟨n, L, hl, hL, rfl⟩ := hp
      exact Cost.eval_bind fun k _ => Homographic.owned_cost
        (Consume.consume_cost cfg f f k h hB hl hL)
  · rintro ⟨a1, a2⟩ t ⟨b1, b2⟩ r - ⟨h1, h2⟩ hr
    dsimp only at h1 hr
    subst h1
    refine Cost.pure fun b e => ?_
    injection e with e
    subst e
    intro y ey
    cases b1 with
    | none => cases ey
    | some c =>
      injection ey with ey
      subst ey
      exact hr c rfl

theorem Compare.compareClogs_cost (cfg : Cfg) (g f : Nat) : ∀ (pol : Bool) {o1 o2 : Obj} {w : World}
    {s1 s2 : Strategy} {f1 f2 : Nat → Prop} {a n L a' n' L' : Nat}, Rep w o1 s1 f1 → Rep w o2 s2 f2 →
    (∀ n, f1 n → ¬ f2 n) → Bound w f1 → Bound w f2 → Clog.Lines cfg a n s1 →
    Clog.Lines cfg a' n' s2 → Clog.Counts cfg L s1 → Clog.Counts cfg L' s2 →
    Cost (compareClogs cfg (egest cfg g) f pol) ((o1, o2), w)
      ((a + a') * (min L L' + 1) + n + n')
      (Clarith.Compare.compareClogs cfg (Clog.egest cfg g) f s1 s2 pol) (fun _ _ => True) := by
  induction f with
  | zero =>
    intros
    exact Cost.timeout
  | succ f ih =>
    intro pol o1 o2 w s1 s2 f1 f2 a n L a' n' L' h1 h2 sep b1 b2 l1 l2 hL hL'
    unfold compareClogs Clarith.Compare.compareClogs
    have e1 : (a + a') * (min L L' + 1) = (a + a') * min L L' + (a + a') := Nat.mul_succ _ _
    generalize hm : (a + a') * min L L' = m at e1
    refine Cost.bind (Sim.part (s := ((o1, o2), w)) (get := fun s => (s.1.1, s.2))
      (put := fun t s => ((t.1, s.1.2), t.2)) (egest_sim cfg g o1 w s1 f1 h1 b1))
      (Cost.mono (R := fun b r => Clog.Lines cfg a r b.2)
        (R' := fun b r => ∃ r', r = r' + (m + a' + n') ∧ Clog.Lines cfg a r' b.2)
        (Cost.part (s := ((o1, o2), w)) (get := fun s => (s.1.1, s.2))
          (put := fun t s => ((t.1, s.1.2), t.2)) rfl (fun _ => rfl)
          (egest_cost cfg g o1 w s1 f1 a n h1 b1 l1)) (by omega)
        fun b r _ h => ⟨r, by omega, h⟩) ?_
    rintro x t ⟨r, s1'⟩ N1 q1 ⟨⟨o1', w1⟩, rfl, e, f1', h1', g1⟩ ⟨r1, rfl, l1'⟩
    dsimp only at e h1' g1 l1'
    subst e
    have h2' : Rep w1 o2 s2 f2 := h2.frame fun n hn => g1.frame n (b2 n hn) fun h => sep n h hn
    have b2' : Bound w1 f2 := fun n hn => Nat.lt_of_lt_of_le (b2 n hn) g1.le
    have sep' : ∀ n, f1' n → ¬ f2 n := by
      intro n h h'
      rcases g1.new n h with h | h
      · exact sep n h h'
      · have := b2 n h'
        omega
    refine Cost.bind (Sim.part (s := ((o1', o2), w1)) (get := fun s => (s.1.2, s.2))
      (put := fun t s => ((s.1.1, t.1), t.2)) (egest_sim cfg g o2 w1 s2 f2 h2' b2'))
      (Cost.mono (R := fun b r => Clog.Lines cfg a' r b.2)
        (R' := fun b r => ∃ r', r = m + r1 + r' ∧ Clog.Lines cfg a' r' b.2)
        (Cost.part (s := ((o1', o2), w1)) (get := fun s => (s.1.2, s.2))
          (put := fun t s => ((s.1.1, t.1), t.2)) rfl (fun _ => rfl)
          (egest_cost cfg g o2 w1 s2 f2 a' n' h2' b2' l2)) (by omega)
        fun b r _ h => ⟨r, by omega, h⟩) ?_
    rintro y t ⟨r, s2'⟩ N2 q2 ⟨⟨o2', w2⟩, rfl, e, f2', h2'', g2⟩ ⟨r2, rfl, l2'⟩
    dsimp only at e h2'' g2 l2'
    subst e
    have h1'' : Rep w2 o1' s1' f1' := h1'.frame fun n hn => g2.frame n (g1.bound n hn) (sep' n hn)
    have sep'' : ∀ n, f1' n → ¬ f2' n := by
      intro n h h'
      rcases g2.new n h' with h' | h'
      · exact sep' n h h'
      · have := g1.bound n h
        omega
    have hB1 : Bound w2 f1' := fun n h => Nat.lt_of_lt_of_le (g1.bound n h) g2.le
    refine Cost.ite (fun _ => Cost.pure fun _ _ => trivial) fun he => ?_
    have he : x = y := Classical.not_not.1 he
    subst he
    rcases x with _ | red
    · exact Cost.pure fun _ _ => trivial
    · obtain ⟨M, rfl, hM⟩ := hL.next q1
      obtain ⟨M', rfl, hM'⟩ := hL'.next q2
      have em : (a + a') * (min M M' + 1) = m := by
        rw [← hm]
        congr 1
        omega
      rw [← em]
      cases red with
      | Amplify => exact ih _ h1'' h2'' sep'' hB1 g2.bound l1' l2' hM hM'
      | Uncover => exact ih _ h1'' h2'' sep'' hB1 g2.bound l1' l2' hM hM'

/-- The lines for comparing two numbers. -/
def Compare.Funds (cfg : Cfg) (x y : Clarith.Number) (N : Nat) : Prop :=
  match x, y with
  | .Other _ c, .Other _ c' => ∃ a n L a' n' L', Clog.Lines cfg a n c ∧ Clog.Lines cfg a' n' c' ∧
      Clog.Counts cfg L c ∧ Clog.Counts cfg L' c' ∧ (a + a') * (min L L' + 1) + n + n' = N
  | _, _ => True

theorem Number.compare_cost (cfg : Cfg) (f : Nat) {x y : Number} {x₀ y₀ : Clarith.Number}
    {w : World} {fx fy : Nat → Prop} {N : Nat} (hx : NumRep w fx x x₀)
    (hy : NumRep w fy y y₀) (sep : ∀ n, fx n → ¬ fy n) (hBx : Bound w fx) (hBy : Bound w fy)
    (hp : Compare.Funds cfg x₀ y₀ N) :
    Cost (Number.compare cfg f x y) w N (Clarith.Number.compare cfg f x₀ y₀)
      (fun _ _ => True) := by
  cases hx with
  | special s =>
    cases hy with
    | special s' => exact Cost.pure fun _ _ => trivial
    | other p' h' => exact Cost.pure fun _ _ => trivial
  | other p h =>
    cases hy with
    | special s' => exact Cost.pure fun _ _ => trivial
    | other p' h' =>
      obtain ⟨a, n, L, a', n', L', l, l', hL, hL', rfl⟩ := hp
      refine Cost.bind (J := fun t => Grow w (fun n => fx n ∨ fy n) t nowhere)
        (owned_sim (R := fun a t b => a = b ∧ Grow w (fun n => fx n ∨ fy n) t nowhere)
        (Compare.compareClogs_sim cfg (Steps.egest_sim cfg f) f _ h h' sep hBx hBy))
        (Homographic.owned_cost (Compare.compareClogs_cost cfg f f _ h h' sep hBx hBy l l' hL hL')) ?_
      rintro a t b r - ⟨rfl, h⟩ -
      exact Cost.pure fun _ _ => trivial

end Steps
end Clarith
