import Mathlib.Data.Finset.Card
import Verif.Model.Memory
import Verif.Proofs.StepsHeap

/-! # Ownership of allocations, exactly

`Own w o fp`: in the world `w` the object `o` owns exactly the allocations in `fp`, each with strong
count 1, and no two pointers lead to the same allocation.  `Tri e P m J R`: started with exactly the
allocations of `P`, the code `m` never fails to unwrap an `Rc`, and ends with exactly those of `R`, or
of `J` if it panics; everything else that it had or made is freed, nothing beside is touched, and it
ends with at most `e` allocations more than it had. -/

namespace Clarith.Steps.Memory

open Mut

/-- What may be said about a state and the allocations that are owned. -/
abbrev Assn (S : Type) := S → Finset ℕ → Prop

/-- The part of the state where the allocations are. -/
class HasWorld (S : Type) where
  world : S → World

instance : HasWorld World := ⟨id⟩
instance {σ : Type} : HasWorld (σ × World) := ⟨Prod.snd⟩
instance : HasWorld Caller := ⟨Caller.world⟩

export HasWorld (world)

/-- See above. -/
inductive Own (w : World) : Obj → Finset ℕ → Prop
  | ratio (r : Ratio) : Own w (.ratio r) ∅
  | homographic {x : Obj} {fp : Finset ℕ} (k : Coef4) (h : Own w x fp) :
    Own w (.homographic x k) fp
  | combine {i j : Nat} {ox oy : Obj} {fx fy : Finset ℕ} (k : Coef8)
    (hi : w.cells i = some ⟨1, ox⟩) (rx : Own w ox fx) (ix : i ∉ fx)
    (hj : w.cells j = some ⟨1, oy⟩) (ry : Own w oy fy) (jy : j ∉ fy)
    (sep : Disjoint (insert i fx) (insert j fy)) :
    Own w (.combine i j k) (insert i fx ∪ insert j fy)

/-- The pointer `i` owns exactly the allocations in `fp`. -/
def OwnRc (i : Nat) : Assn World := fun w fp =>
  ∃ o f, w.cells i = some ⟨1, o⟩ ∧ Own w o f ∧ i ∉ f ∧ fp = insert i f

/-- Two things own separate allocations. -/
def star {S : Type} [HasWorld S] (P : Assn S) (F : Assn World) : Assn S := fun s fp =>
  ∃ f g, P s f ∧ F (world s) g ∧ Disjoint f g ∧ fp = f ∪ g

@[inherit_doc] infixr:70 " ⋆ " => star

/-- Nothing is owned. -/
def emp {S : Type} : Assn S := fun _ fp => fp = ∅

/-- Only the allocations that are owned matter. -/
def Local (P : Assn World) : Prop :=
  ∀ {w w' : World} {fp : Finset ℕ}, P w fp → (∀ n ∈ fp, w'.cells n = w.cells n) → P w' fp

theorem Own.frame {w w' : World} {o : Obj} {fp : Finset ℕ} (h : Own w o fp)
    (e : ∀ n ∈ fp, w'.cells n = w.cells n) : Own w' o fp := by
  induction h with
  | ratio r => exact .ratio r
  | homographic k _ ih => exact .homographic k (ih e)
  | combine k hi _ ix hj _ jy sep ihx ihy =>
    refine .combine k ((e _ ?_).trans hi) (ihx fun n h => e n ?_) ix ((e _ ?_).trans hj)
      (ihy fun n h => e n ?_) jy sep
    all_goals simp [*]

theorem own_local (o : Obj) : Local fun w => Own w o := fun h e => h.frame e

theorem ownRc_local (i : Nat) : Local (OwnRc i) := by
  rintro w w' fp ⟨o, f, h1, h2, h3, rfl⟩ e
  exact ⟨o, f, (e _ (by simp)).trans h1, h2.frame fun n h => e n (by simp [h]), h3, rfl⟩

theorem emp_local : Local emp := fun h _ => h

theorem star_local {P Q : Assn World} (hP : Local P) (hQ : Local Q) : Local (P ⋆ Q) := by
  rintro w w' fp ⟨f, g, h1, h2, h3, rfl⟩ e
  exact ⟨f, g, hP h1 fun n h => e n (by simp [h]), hQ h2 fun n h => e n (by simp [h]), h3, rfl⟩

section
variable {S : Type} [HasWorld S]

theorem star_mono {P P' : Assn S} {F F' : Assn World} {s : S} {fp : Finset ℕ}
    (hP : ∀ f, P s f → P' s f) (hF : ∀ f, F (world s) f → F' (world s) f) (h : (P ⋆ F) s fp) :
    (P' ⋆ F') s fp := by
  obtain ⟨f, g, h1, h2, h3, h4⟩ := h
  exact ⟨f, g, hP f h1, hF g h2, h3, h4⟩

theorem star_emp {P : Assn S} {s : S} {fp : Finset ℕ} : (P ⋆ emp) s fp ↔ P s fp := by
  constructor
  · rintro ⟨f, g, h1, rfl, -, rfl⟩
    simpa using h1
  · exact fun h => ⟨fp, ∅, h, rfl, by simp, by simp⟩

theorem star_assoc {P : Assn S} {F G : Assn World} {s : S} {fp : Finset ℕ} :
    ((P ⋆ F) ⋆ G) s fp ↔ (P ⋆ (F ⋆ G)) s fp := by
  constructor
  · rintro ⟨_, g, ⟨f1, f2, h1, h2, h3, rfl⟩, h4, h5, rfl⟩
    rw [Finset.disjoint_union_left] at h5
    exact ⟨f1, f2 ∪ g, h1, ⟨f2, g, h2, h4, h5.2, rfl⟩,
      Finset.disjoint_union_right.2 ⟨h3, h5.1⟩, Finset.union_assoc _ _ _⟩
  · rintro ⟨f, _, h1, ⟨g1, g2, h2, h3, h4, rfl⟩, h5, rfl⟩
    rw [Finset.disjoint_union_right] at h5
    exact ⟨f ∪ g1, g2, ⟨f, g1, h1, h2, h5.1, rfl⟩, h3,
      Finset.disjoint_union_left.2 ⟨h5.2, h4⟩, (Finset.union_assoc _ _ _).symm⟩

end

theorem star_comm {P Q : Assn World} {w : World} {fp : Finset ℕ} : (P ⋆ Q) w fp ↔ (Q ⋆ P) w fp := by
  constructor <;>
  · rintro ⟨f, g, h1, h2, h3, rfl⟩
    exact ⟨g, f, h2, h1, h3.symm, Finset.union_comm _ _⟩

theorem emp_star {P : Assn World} {w : World} {fp : Finset ℕ} : (emp ⋆ P) w fp ↔ P w fp :=
  star_comm.trans star_emp

/-- A `Combine` owns what its two pointers own. -/
theorem own_combine {w : World} {i j : Nat} {k : Coef8} {fp : Finset ℕ} :
    Own w (.combine i j k) fp ↔ (OwnRc i ⋆ OwnRc j) w fp := by
  constructor
  · intro h
    cases h with
    | combine _ hi rx ix hj ry jy sep =>
      exact ⟨_, _, ⟨_, _, hi, rx, ix, rfl⟩, ⟨_, _, hj, ry, jy, rfl⟩, sep, rfl⟩
  · rintro ⟨_, _, ⟨_, _, hi, rx, ix, rfl⟩, ⟨_, _, hj, ry, jy, rfl⟩, sep, rfl⟩
    exact .combine k hi rx ix hj ry jy sep

theorem own_homographic {w : World} {x : Obj} {k : Coef4} {fp : Finset ℕ} :
    Own w (.homographic x k) fp ↔ Own w x fp :=
  ⟨fun h => by cases h; assumption, .homographic k⟩

/-- What is owned has been allocated, and nothing is allocated at the addresses to come. -/
structure Room (w : World) (fp : Finset ℕ) : Prop where
  bound : ∀ n ∈ fp, n < w.fresh
  clean : ∀ n, w.fresh ≤ n → w.cells n = none

/-- From `w` to `w'` only allocations in `fp` and new ones have changed, those in `fp'` are left and
the others are freed; there are at most `e` more of them. -/
structure Tidy (e : ℕ) (w : World) (fp : Finset ℕ) (w' : World) (fp' : Finset ℕ) : Prop where
  le : w.fresh ≤ w'.fresh
  frame : ∀ n, n < w.fresh → n ∉ fp → w'.cells n = w.cells n
  new : ∀ n ∈ fp', n ∈ fp ∨ w.fresh ≤ n
  bound : ∀ n ∈ fp', n < w'.fresh
  freed : ∀ n, (n ∈ fp ∨ w.fresh ≤ n) → n ∉ fp' → w'.cells n = none
  card : fp'.card ≤ fp.card + e

namespace Tidy

theorem refl {w : World} {fp : Finset ℕ} (h : Room w fp) : Tidy 0 w fp w fp :=
  ⟨le_refl _, fun _ _ _ => rfl, fun _ h => .inl h, h.bound,
    fun n h1 h2 => h1.elim (fun h => absurd h h2) (h.clean n), le_refl _⟩

theorem room {e : ℕ} {w w' : World} {fp fp' : Finset ℕ} (h : Tidy e w fp w' fp') :
    Room w' fp' :=
  ⟨h.bound, fun n hn => h.freed n (.inr (h.le.trans hn)) fun h' => by
    have := h.bound n h'
    omega⟩

theorem weaken {e e' : ℕ} {w w' : World} {fp fp' : Finset ℕ} (h : Tidy e w fp w' fp')
    (he : e ≤ e') : Tidy e' w fp w' fp' :=
  { h with card := h.card.trans (by omega) }

theorem trans {e e' : ℕ} {w w' w'' : World} {fp fp' fp'' : Finset ℕ} (h : Tidy e w fp w' fp')
    (h' : Tidy e' w' fp' w'' fp'') : Tidy (e + e') w fp w'' fp'' where
  le := h.le.trans h'.le
  frame n hn hf := by
    rw [h'.frame n (hn.trans_le h.le), h.frame n hn hf]
    intro hf'
    rcases h.new n hf' with h1 | h1
    · exact hf h1
    · omega
  new n hn := by
    rcases h'.new n hn with h1 | h1
    · exact h.new n h1
    · exact .inr (h.le.trans h1)
  bound := h'.bound
  freed n h1 h2 := by
    by_cases h3 : n ∈ fp'
    · exact h'.freed n (.inl h3) h2
    · by_cases h4 : w'.fresh ≤ n
      · exact h'.freed n (.inr h4) h2
      · rw [h'.frame n (by omega) h3]
        exact h.freed n h1 h3
  card := by
    have := h.card
    have := h'.card
    omega

/-- What is owned beside is still there. -/
theorem beside {e : ℕ} {w w' : World} {fp fp' g : Finset ℕ} (h : Tidy e w fp w' fp')
    (hd : Disjoint fp g) (hg : ∀ n ∈ g, n < w.fresh) :
    Disjoint fp' g ∧ (∀ n ∈ g, w'.cells n = w.cells n) ∧ Tidy e w (fp ∪ g) w' (fp' ∪ g) := by
  have hd' : Disjoint fp' g := by
    rw [Finset.disjoint_left] at hd ⊢
    intro n h1 h2
    rcases h.new n h1 with h3 | h3
    · exact hd h3 h2
    · have := hg n h2
      omega
  have keep : ∀ n ∈ g, w'.cells n = w.cells n := fun n hn =>
    h.frame n (hg n hn) fun h3 => Finset.disjoint_left.1 hd h3 hn
  refine ⟨hd', keep, h.le, ?_, ?_, ?_, ?_, ?_⟩
  · intro n h1 h2
    exact h.frame n h1 fun h3 => h2 (Finset.mem_union_left _ h3)
  · intro n h1
    rcases Finset.mem_union.1 h1 with h2 | h2
    · exact (h.new n h2).imp (Finset.mem_union_left _) id
    · exact .inl (Finset.mem_union_right _ h2)
  · intro n h1
    rcases Finset.mem_union.1 h1 with h2 | h2
    · exact h.bound n h2
    · exact (hg n h2).trans_le h.le
  · intro n h1 h2
    rw [Finset.mem_union, not_or] at h2
    refine h.freed n (h1.imp (fun h3 => ?_) id) h2.1
    exact (Finset.mem_union.1 h3).resolve_right h2.2
  · rw [Finset.card_union_of_disjoint hd', Finset.card_union_of_disjoint hd]
    have := h.card
    omega

end Tidy

/-- See the top of the file. -/
def Tri {S α : Type} [HasWorld S] (e : ℕ) (P : Assn S) (m : Mut S α) (J : Assn S)
    (R : α → Assn S) : Prop :=
  ∀ s fp, P s fp → Room (world s) fp →
    match m s with
    | (.ok a, t) => ∃ fp', R a t fp' ∧ Tidy e (world s) fp (world t) fp'
    | (.panic _, t) => ∃ fp', J t fp' ∧ Tidy e (world s) fp (world t) fp'
    | (.shared, _) => False
    | (.timeout, _) => True

namespace Tri

variable {S T α β : Type} [HasWorld S] [HasWorld T] {e e₁ e₂ : ℕ} {P P' J J' : Assn S}
  {m : Mut S α} {R R' : α → Assn S}

theorem pure {a : α} (h : ∀ s fp, P s fp → R a s fp) : Tri 0 P (Pure.pure a) J R :=
  fun s fp hP hR => ⟨fp, h s fp hP, .refl hR⟩

theorem panic {p : Panic} (h : ∀ s fp, P s fp → J s fp) :
    Tri 0 P (Mut.panic p : Mut S α) J R :=
  fun s fp hP hR => ⟨fp, h s fp hP, .refl hR⟩

theorem timeout : Tri e P (Mut.timeout : Mut S α) J R := fun _ _ _ _ => trivial

theorem conseq (h : Tri e P m J R) (hP : ∀ s fp, P' s fp → P s fp)
    (hJ : ∀ s fp, J s fp → J' s fp) (hR : ∀ a s fp, R a s fp → R' a s fp) : Tri e P' m J' R' := by
  intro s fp h1 h2
  have := h s fp (hP _ _ h1) h2
  revert this
  generalize m s = r
  obtain ⟨r, t⟩ := r
  cases r with
  | ok a => exact fun ⟨fp', h3, h4⟩ => ⟨fp', hR _ _ _ h3, h4⟩
  | panic p => exact fun ⟨fp', h3, h4⟩ => ⟨fp', hJ _ _ h3, h4⟩
  | shared => exact id
  | timeout => exact id

theorem weaken (h : Tri e₁ P m J R) (he : e₁ ≤ e) : Tri e P m J R := by
  intro s fp h1 h2
  have := h s fp h1 h2
  revert this
  generalize m s = r
  obtain ⟨r, t⟩ := r
  cases r with
  | ok a => exact fun ⟨fp', h3, h4⟩ => ⟨fp', h3, h4.weaken he⟩
  | panic p => exact fun ⟨fp', h3, h4⟩ => ⟨fp', h3, h4.weaken he⟩
  | shared => exact id
  | timeout => exact id

theorem bind_add {g : α → Mut S β} {R' : β → Assn S} (h : Tri e₁ P m J R)
    (k : ∀ a, Tri e₂ (R a) (g a) J R') (he : e₁ + e₂ ≤ e) : Tri e P (m >>= g) J R' := by
  intro s fp h1 h2
  have h3 := h s fp h1 h2
  have e : (m >>= g) s = Mut.bind m g s := rfl
  rw [e, Mut.bind]
  revert h3
  generalize m s = r
  obtain ⟨r, t⟩ := r
  cases r with
  | ok a =>
    rintro ⟨fp', h3, h4⟩
    have h5 := k a t fp' h3 h4.room
    dsimp only
    revert h5
    generalize g a t = q
    obtain ⟨q, u⟩ := q
    cases q with
    | ok b => exact fun ⟨fp2, h5, h6⟩ => ⟨fp2, h5, (h4.trans h6).weaken he⟩
    | panic p => exact fun ⟨fp2, h5, h6⟩ => ⟨fp2, h5, (h4.trans h6).weaken he⟩
    | shared => exact id
    | timeout => exact id
  | panic p => exact fun ⟨fp', h3, h4⟩ => ⟨fp', h3, h4.weaken (by omega)⟩
  | shared => exact id
  | timeout => exact id

theorem bind {g : α → Mut S β} {R' : β → Assn S} (h : Tri 0 P m J R)
    (k : ∀ a, Tri e (R a) (g a) J R') : Tri e P (m >>= g) J R' :=
  h.bind_add k (by omega)

theorem eval_bind {u : Out α} {g : α → Mut S β} {R' : β → Assn S}
    (hJ : ∀ s fp, P s fp → J s fp) (k : ∀ a, Tri e P (g a) J R') :
    Tri e P (Mut.eval u >>= g) J R' := by
  cases u with
  | ok a => exact k a
  | panic p => exact (panic hJ).weaken (Nat.zero_le _)
  | timeout => exact timeout

theorem eval {u : Out α} (hJ : ∀ s fp, P s fp → J s fp) (hR : ∀ a s fp, P s fp → R a s fp) :
    Tri 0 P (Mut.eval u) J R := by
  cases u with
  | ok a => exact pure (hR a)
  | panic p => exact panic hJ
  | timeout => exact timeout

theorem get_bind {g : S → Mut S β} {R' : β → Assn S}
    (k : ∀ s, Tri e (fun t fp => t = s ∧ P t fp) (g s) J R') :
    Tri e P (Mut.get >>= g) J R' :=
  fun s fp h1 h2 => k s s fp ⟨rfl, h1⟩ h2

/-- The start is one of a known kind. -/
theorem intro {ι : Type} {P : ι → Assn S} (h : ∀ i, Tri e (P i) m J R) :
    Tri e (fun s fp => ∃ i, P i s fp) m J R :=
  fun s fp ⟨i, h1⟩ h2 => h i s fp h1 h2

theorem assume {p : Prop} (h : p → Tri e P m J R) : Tri e (fun s fp => p ∧ P s fp) m J R :=
  fun s fp ⟨h0, h1⟩ h2 => h h0 s fp h1 h2

theorem ite {c : Prop} [Decidable c] {m' : Mut S α} (h : c → Tri e P m J R)
    (h' : ¬ c → Tri e P m' J R) : Tri e P (if c then m else m') J R := by
  split
  · exact h ‹_›
  · exact h' ‹_›

/-- What is owned beside stays. -/
theorem frame {F : Assn World} (hF : Local F) (h : Tri e P m J R) :
    Tri e (P ⋆ F) m (J ⋆ F) (fun a => R a ⋆ F) := by
  rintro s _ ⟨f, g, h1, h2, h3, rfl⟩ h4
  have h5 := h s f h1 ⟨fun n hn => h4.bound n (Finset.mem_union_left _ hn), h4.clean⟩
  have hg : ∀ n ∈ g, n < (world s).fresh := fun n hn => h4.bound n (Finset.mem_union_right _ hn)
  revert h5
  generalize m s = r
  obtain ⟨r, t⟩ := r
  cases r with
  | ok a =>
    rintro ⟨fp', h5, h6⟩
    obtain ⟨h7, h8, h9⟩ := h6.beside h3 hg
    exact ⟨_, ⟨fp', g, h5, hF h2 h8, h7, rfl⟩, h9⟩
  | panic p =>
    rintro ⟨fp', h5, h6⟩
    obtain ⟨h7, h8, h9⟩ := h6.beside h3 hg
    exact ⟨_, ⟨fp', g, h5, hF h2 h8, h7, rfl⟩, h9⟩
  | shared => exact id
  | timeout => exact id

/-- A part of the state that has the world in it. -/
theorem part {get : S → T} {put : T → S → S} {m : Mut T α} {P J : Assn T} {R : α → Assn T}
    {Q : S → Assn S} (h : Tri e P m J R) (hw : ∀ s, world (get s) = world s)
    (hp : ∀ t s, world (put t s) = world t) (J' : Assn S) (R' : α → Assn S)
    (hJ : ∀ s₀ fp₀ s fp, Q s₀ s₀ fp₀ → J s fp → J' (put s s₀) fp)
    (hR : ∀ a s₀ fp₀ s fp, Q s₀ s₀ fp₀ → R a s fp → R' a (put s s₀) fp)
    (hP : ∀ s fp, Q s s fp → P (get s) fp) :
    Tri e (fun s => Q s s) (Mut.part get put m) J' R' := by
  intro s fp h1 h2
  have h3 := h (get s) fp (hP s fp h1) (by rw [hw]; exact h2)
  rw [hw] at h3
  unfold Mut.part
  revert h3
  generalize m (get s) = r
  obtain ⟨r, t⟩ := r
  cases r with
  | ok a =>
    rintro ⟨fp', h3, h4⟩
    exact ⟨fp', hR _ _ _ _ _ h1 h3, by rw [hp]; exact h4⟩
  | panic p =>
    rintro ⟨fp', h3, h4⟩
    exact ⟨fp', hJ _ _ _ _ h1 h3, by rw [hp]; exact h4⟩
  | shared => exact id
  | timeout => exact id

/-- A part of the state that has nothing to do with the world. -/
theorem plain {κ : Type} {get : S → κ} {put : κ → S → S} {m : Mut κ α}
    (hm : ∀ k, (m k).1 ≠ .shared) (hp : ∀ k s, world (put k s) = world s)
    (hJ : ∀ k s fp, P s fp → J (put k s) fp) (hR : ∀ a k s fp, P s fp → R a (put k s) fp) :
    Tri 0 P (Mut.part get put m) J R := by
  intro s fp h1 h2
  unfold Mut.part
  have h3 := hm (get s)
  revert h3
  generalize m (get s) = r
  obtain ⟨r, k⟩ := r
  cases r with
  | ok a => exact fun _ => ⟨fp, hR _ _ _ _ h1, by rw [hp]; exact .refl h2⟩
  | panic p => exact fun _ => ⟨fp, hJ _ _ _ h1, by rw [hp]; exact .refl h2⟩
  | shared => exact fun h => h rfl
  | timeout => exact fun _ => trivial

/-- Code that is known to do this. -/
theorem of_run {a : S → α} {f : S → S} (h : ∀ s fp, P s fp → m s = (.ok (a s), f s))
    (k : ∀ s fp, P s fp → Room (world s) fp →
      ∃ fp', R (a s) (f s) fp' ∧ Tidy e (world s) fp (world (f s)) fp') : Tri e P m J R := by
  intro s fp h1 h2
  rw [h s fp h1]
  exact k s fp h1 h2

end Tri

/-! ## Dropping -/

/-- Free all of `fp`. -/
def free (fp : Finset ℕ) (w : World) : World :=
  { w with cells := fun n => if n ∈ fp then none else w.cells n }

theorem free_put (fp : Finset ℕ) (i : Nat) (w : World) :
    free fp (w.put i none) = free (insert i fp) w := by
  simp only [free, World.put, World.mk.injEq, and_true]
  funext n
  by_cases h1 : n ∈ fp <;> by_cases h2 : n = i <;> simp [h1, h2]

theorem free_free (f g : Finset ℕ) (w : World) : free g (free f w) = free (f ∪ g) w := by
  simp only [free, World.mk.injEq, and_true]
  funext n
  by_cases h1 : n ∈ f <;> by_cases h2 : n ∈ g <;> simp [h1, h2]

theorem free_empty (w : World) : free ∅ w = w := by simp [free]

theorem releaseRc_free {inner : Obj → World → World} {w : World} {i : Nat} {o : Obj} {f : Finset ℕ}
    (hi : w.cells i = some ⟨1, o⟩) (h : Own w o f) (hif : i ∉ f)
    (hin : ∀ w, Own w o f → inner o w = free f w) :
    releaseRc inner i w = free (insert i f) w := by
  have h' : Own (w.put i none) o f := h.frame fun n hn => put_other _ _ fun e => hif (e ▸ hn)
  simp only [releaseRc, hi, le_refl, if_true]
  rw [hin _ h', free_put]

theorem releaseUpTo_free (f : Nat) {w : World} {o : Obj} {fp : Finset ℕ} (h : Own w o fp)
    (hf : fp.card ≤ f) : releaseUpTo f o w = free fp w := by
  induction f generalizing w o fp with
  | zero =>
    unfold releaseUpTo
    induction h with
    | ratio r => exact (free_empty w).symm
    | homographic k h ih => exact ih hf
    | combine k hi rx ix hj ry jy sep =>
      rw [Finset.card_union_of_disjoint sep, Finset.card_insert_of_notMem ix] at hf
      omega
  | succ f ihf =>
    unfold releaseUpTo
    induction h with
    | ratio r => exact (free_empty w).symm
    | homographic k h ih => exact ih hf
    | @combine i j ox oy fx fy k hi rx ix hj ry jy sep =>
      rw [Finset.card_union_of_disjoint sep, Finset.card_insert_of_notMem ix,
        Finset.card_insert_of_notMem jy] at hf
      show releaseRc (releaseUpTo f) j (releaseRc (releaseUpTo f) i w) = _
      rw [releaseRc_free hi rx ix fun w h => ihf h (by omega)]
      have keep : ∀ n ∈ insert j fy, (free (insert i fx) w).cells n = w.cells n := fun n hn =>
        if_neg fun h => Finset.disjoint_left.1 sep h hn
      rw [releaseRc_free (o := oy) (f := fy) ((keep j (by simp)).trans hj)
        (ry.frame fun n hn => keep n (by simp [hn])) jy fun w h => ihf h (by omega), free_free]

/-- A change of the world that turns `J` into `J'`. -/
def Drops {S : Type} [HasWorld S] (J : Assn S) (d : S → S) (J' : Assn S) : Prop :=
  ∀ s fp, J s fp → Room (world s) fp → ∃ fp', J' (d s) fp' ∧ Tidy 0 (world s) fp (world (d s)) fp'

theorem tidy_free {w : World} {f : Finset ℕ} (h : Room w f) : Tidy 0 w f (free f w) ∅ where
  le := le_refl _
  frame n _ hn := if_neg hn
  new n hn := absurd hn (Finset.notMem_empty n)
  bound n hn := absurd hn (Finset.notMem_empty n)
  freed n h1 _ := by
    show (if n ∈ f then none else w.cells n) = none
    split
    · rfl
    · exact h.clean n (h1.resolve_left ‹_›)
  card := by simp

theorem card_le_fresh {w : World} {f : Finset ℕ} (h : Room w f) : f.card ≤ w.fresh := by
  have : f ⊆ Finset.range w.fresh := fun n hn => Finset.mem_range.2 (h.bound n hn)
  simpa using Finset.card_le_card this

theorem release_free {w : World} {o : Obj} {f : Finset ℕ} (h : Own w o f) (hR : Room w f) :
    release o w = free f w := releaseUpTo_free _ h (card_le_fresh hR)

theorem drops_release (o : Obj) : Drops (fun w => Own w o) (release o) emp := fun w fp h hR =>
  ⟨∅, rfl, by
    show Tidy 0 w fp (release o w) ∅
    rw [release_free h hR]
    exact tidy_free hR⟩

theorem drops_releaseRc (i : Nat) :
    Drops (OwnRc i) (fun w => releaseRc release i w) emp := by
  rintro w _ ⟨o, f, h1, h2, h3, rfl⟩ hR
  refine ⟨∅, rfl, ?_⟩
  show Tidy 0 w (insert i f) (releaseRc release i w) ∅
  have h' : Own (w.put i none) o f := h2.frame fun n hn => put_other _ _ fun e => h3 (e ▸ hn)
  have hR' : Room (w.put i none) f := by
    refine ⟨fun n hn => hR.bound n (by simp [hn]), fun n hn => ?_⟩
    by_cases e : n = i
    · rw [e, put_self]
    · rw [put_other _ _ e]
      exact hR.clean n hn
  have e : releaseRc release i w = free (insert i f) w := by
    simp only [releaseRc, h1, le_refl, if_true]
    rw [release_free h' hR', free_put]
  rw [e]
  exact tidy_free hR

section
variable {S : Type} [HasWorld S] {P J J' J'' : Assn S} {d d' : S → S}

theorem Drops.frame {F : Assn World} (hF : Local F) (h : Drops J d J') :
    Drops (J ⋆ F) d (J' ⋆ F) := by
  rintro s _ ⟨f, g, h1, h2, h3, rfl⟩ hR
  obtain ⟨fp', h4, h5⟩ := h s f h1 ⟨fun n hn => hR.bound n (Finset.mem_union_left _ hn), hR.clean⟩
  obtain ⟨h7, h8, h9⟩ := h5.beside h3 fun n hn => hR.bound n (Finset.mem_union_right _ hn)
  exact ⟨_, ⟨fp', g, h4, hF h2 h8, h7, rfl⟩, h9⟩

theorem Drops.comp (h : Drops J d J') (h' : Drops J' d' J'') : Drops J (fun s => d' (d s)) J'' := by
  intro s fp h1 h2
  obtain ⟨fp', h3, h4⟩ := h s fp h1 h2
  obtain ⟨fp2, h5, h6⟩ := h' _ fp' h3 h4.room
  exact ⟨fp2, h5, h4.trans h6⟩

theorem Drops.conseq {K K' : Assn S} (h : Drops J d J') (h1 : ∀ s fp, K s fp → J s fp)
    (h2 : ∀ s fp, J' s fp → K' s fp) : Drops K d K' := by
  intro s fp hK hR
  obtain ⟨fp', h3, h4⟩ := h s fp (h1 _ _ hK) hR
  exact ⟨fp', h2 _ _ h3, h4⟩

theorem Drops.id : Drops J (fun s => s) J := fun _ fp h hR => ⟨fp, h, .refl hR⟩

theorem Drops.modify {R : Unit → Assn S} (h : Drops P d (R ())) :
    Tri 0 P (Mut.modify d) J R := fun s fp h1 h2 => h s fp h1 h2

end

namespace Tri

variable {α : Type} {e : ℕ} {P J J' : Assn World} {m : Mut World α} {R R' : α → Assn World}
  {d : World → World}

theorem unwind (h : Tri e P m J R) (hd : Drops J d J') : Tri e P (Memory.unwind d m) J' R := by
  intro w fp h1 h2
  have h3 := h w fp h1 h2
  unfold Memory.unwind
  revert h3
  generalize m w = r
  obtain ⟨r, t⟩ := r
  cases r with
  | ok a => exact id
  | panic p =>
    rintro ⟨fp', h3, h4⟩
    obtain ⟨fp2, h5, h6⟩ := hd t fp' h3 h4.room
    exact ⟨fp2, h5, h4.trans h6⟩
  | shared => exact id
  | timeout => exact id

theorem scope (h : Tri e P m J R) (hd : Drops J d J') (hd' : ∀ a, Drops (R a) d (R' a)) :
    Tri e P (Memory.scope d m) J' R' := by
  intro w fp h1 h2
  have h3 := h w fp h1 h2
  unfold Memory.scope
  revert h3
  generalize m w = r
  obtain ⟨r, t⟩ := r
  cases r with
  | ok a =>
    rintro ⟨fp', h3, h4⟩
    obtain ⟨fp2, h5, h6⟩ := hd' a t fp' h3 h4.room
    exact ⟨fp2, h5, h4.trans h6⟩
  | panic p =>
    rintro ⟨fp', h3, h4⟩
    obtain ⟨fp2, h5, h6⟩ := hd t fp' h3 h4.room
    exact ⟨fp2, h5, h4.trans h6⟩
  | shared => exact id
  | timeout => exact id

theorem owned {σ : Type} {s : σ} {m : Mut (σ × World) α} {P J : Assn (σ × World)}
    {R : α → Assn (σ × World)} {J' : Assn World} {d : σ → World → World} {moved : α → Bool}
    (h : Tri e P m J R) (hd : ∀ s, Drops (fun w => J (s, w)) (d s) J')
    (h1 : ∀ a s, moved a = true → ∀ w fp, R a (s, w) fp → R' a w fp)
    (h2 : ∀ a s, moved a = false → Drops (fun w => R a (s, w)) (d s) (R' a)) :
    Tri e (fun w => P (s, w)) (Memory.owned d moved s m) J' R' := by
  intro w fp h3 h4
  have h5 := h (s, w) fp h3 h4
  unfold Memory.owned
  revert h5
  generalize m (s, w) = r
  obtain ⟨r, s', t⟩ := r
  cases r with
  | ok a =>
    rintro ⟨fp', h5, h6⟩
    dsimp only
    cases hm : moved a with
    | true => exact ⟨fp', h1 a s' hm _ _ h5, h6⟩
    | false =>
      obtain ⟨fp2, h7, h8⟩ := h2 a s' hm t fp' h5 h6.room
      exact ⟨fp2, h7, h6.trans h8⟩
  | panic p =>
    rintro ⟨fp', h5, h6⟩
    obtain ⟨fp2, h7, h8⟩ := hd s' t fp' h5 h6.room
    exact ⟨fp2, h7, h6.trans h8⟩
  | shared => exact id
  | timeout => exact id

end Tri

/-! ## `Rc` -/

/-- A method that keeps the clog it works on, and owns exactly what that owns. -/
def Keeps (eg : EgestFn) : Prop :=
  Tri 0 (fun s : Obj × World => Own s.2 s.1) eg (fun s => Own s.2 s.1) (fun _ s => Own s.2 s.1)

/-- The allocation of a pointer is given a new clog. -/
theorem tidy_put {e : ℕ} {w t : World} {i : Nat} {o o' : Obj} {f f' : Finset ℕ}
    (h1 : w.cells i = some ⟨1, o⟩) (h3 : i ∉ f) (hb : i < w.fresh) (h : Tidy e w f t f')
    (ho : Own t o' f') :
    OwnRc i (t.put i (some ⟨1, o'⟩)) (insert i f') ∧
      Tidy e w (insert i f) (t.put i (some ⟨1, o'⟩)) (insert i f') := by
  have hi : i ∉ f' := fun h' => (h.new i h').elim h3 fun h => by omega
  refine ⟨⟨o', f', put_self _ _ _, ho.frame fun n hn => put_other _ _ fun e => hi (e ▸ hn), hi,
    rfl⟩, h.le, ?_, ?_, ?_, ?_, ?_⟩
  · intro n h4 h5
    rw [Finset.mem_insert, not_or] at h5
    rw [put_other _ _ h5.1, h.frame n h4 h5.2]
  · intro n h4
    rcases Finset.mem_insert.1 h4 with rfl | h4
    · exact .inl (Finset.mem_insert_self _ _)
    · exact (h.new n h4).imp (Finset.mem_insert_of_mem) id
  · intro n h4
    rcases Finset.mem_insert.1 h4 with rfl | h4
    · exact hb.trans_le h.le
    · exact h.bound n h4
  · intro n h4 h5
    rw [Finset.mem_insert, not_or] at h5
    rw [put_other _ _ h5.1]
    refine h.freed n (h4.imp (fun h => ?_) id) h5.2
    exact (Finset.mem_insert.1 h).resolve_left h5.1
  · rw [Finset.card_insert_of_notMem hi, Finset.card_insert_of_notMem h3]
    have := h.card
    omega

theorem room_sub {w : World} {f g : Finset ℕ} (h : Room w f) (hg : g ⊆ f) : Room w g :=
  ⟨fun n hn => h.bound n (hg hn), h.clean⟩

theorem tri_getMut {eg : EgestFn} (hE : Keeps eg) (i : Nat) :
    Tri 0 (OwnRc i) (rcGetMut i eg) (OwnRc i) (fun _ => OwnRc i) := by
  rintro w _ ⟨o, f, h1, h2, h3, rfl⟩ hR
  have hb : i < w.fresh := hR.bound i (Finset.mem_insert_self _ _)
  have h4 := hE (o, w) f h2 (room_sub hR (Finset.subset_insert _ _))
  simp only [rcGetMut, h1]
  revert h4
  generalize eg (o, w) = r
  obtain ⟨r, o', t⟩ := r
  cases r with
  | ok a =>
    rintro ⟨f', h4, h5⟩
    exact ⟨_, tidy_put h1 h3 hb h5 h4⟩
  | panic p =>
    rintro ⟨f', h4, h5⟩
    exact ⟨_, tidy_put h1 h3 hb h5 h4⟩
  | shared => exact id
  | timeout => exact id

theorem tidy_take {w : World} {i : Nat} {f : Finset ℕ} (h3 : i ∉ f) (hR : Room w (insert i f)) :
    Tidy 0 w (insert i f) (w.put i none) f where
  le := le_refl _
  frame n _ h5 := by
    rw [Finset.mem_insert, not_or] at h5
    exact put_other _ _ h5.1
  new n h := .inl (Finset.mem_insert_of_mem h)
  bound n h := hR.bound n (Finset.mem_insert_of_mem h)
  freed n h4 h5 := by
    by_cases e : n = i
    · rw [e, put_self]
    · rw [put_other _ _ e]
      rcases h4 with h4 | h4
      · exact absurd ((Finset.mem_insert.1 h4).resolve_left e) h5
      · exact hR.clean n h4
  card := by
    rw [Finset.card_insert_of_notMem h3]
    omega

theorem tri_tryUnwrap (i : Nat) {J : Assn World} :
    Tri 0 (OwnRc i) (rcTryUnwrap i) J (fun o w => Own w o) := by
  rintro w _ ⟨o, f, h1, h2, h3, rfl⟩ hR
  simp only [rcTryUnwrap, h1]
  exact ⟨f, h2.frame fun n hn => put_other _ _ fun e => h3 (e ▸ hn), tidy_take h3 hR⟩

theorem tri_new (o : Obj) {J : Assn World} :
    Tri 1 (fun w => Own w o) (rcNew o) J (fun i => OwnRc i) := by
  intro w f h hR
  have hn : w.fresh ∉ f := fun h' => (hR.bound _ h').ne rfl
  refine ⟨insert w.fresh f, ⟨o, f, put_self _ _ _, h.frame fun n hn' => put_other _ _ fun e =>
    hn (e ▸ hn'), hn, rfl⟩, Nat.le_succ _, ?_, ?_, ?_, ?_, ?_⟩
  · intro n h1 _
    exact put_other _ _ (Nat.ne_of_lt h1)
  · intro n h1
    rcases Finset.mem_insert.1 h1 with rfl | h1
    · exact .inr (le_refl _)
    · exact .inl h1
  · show ∀ n ∈ insert w.fresh f, n < w.fresh + 1
    intro n h1
    rcases Finset.mem_insert.1 h1 with rfl | h1
    · omega
    · exact (hR.bound n h1).trans (Nat.lt_succ_self _)
  · intro n h1 h2
    rw [Finset.mem_insert, not_or] at h2
    exact (put_other _ _ h2.1).trans (hR.clean n (h1.resolve_left h2.2))
  · rw [Finset.card_insert_of_notMem hn]

end Clarith.Steps.Memory
