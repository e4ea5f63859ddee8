import Verif.Proofs.Memory
import Verif.Proofs.StepsSim

/-! # Every method owns exactly what it should -/

namespace Clarith.Steps

theorem Agree.not_shared {σ α : Type} {m : Mut σ α} {s : σ} {o : Out (α × σ)} (h : Agree m s o) :
    (m s).1 ≠ .shared := by
  unfold Agree Sim at h
  revert h
  generalize m s = r
  obtain ⟨r, t⟩ := r
  cases r with
  | shared => exact fun h => h.elim
  | _ => exact fun _ e => by cases e

namespace Memory

open Mut

variable {out : Nat → Option Panic}

/-! ## `Homographic` -/

/-- What a boxed `Homographic` owns. -/
def ownX : Assn (Homographic × World) := fun s => Own s.2 s.1.x

/-- What an optional `Homographic` owns. -/
def OwnH : Option Homographic → Assn World
  | none => emp
  | some h => fun w => Own w h.x

theorem ownH_local (h : Option Homographic) : Local (OwnH h) := by
  cases h with
  | none => exact emp_local
  | some h => exact own_local h.x

/-- What a number owns. -/
def OwnN : Number → Assn World
  | .Special _ => emp
  | .Other _ c => fun w => Own w c

theorem ownN_local (x : Number) : Local (OwnN x) := by
  cases x with
  | Special s => exact emp_local
  | Other p c => exact own_local c

theorem drops_number (x : Number) : Drops (OwnN x) (releaseNumber x) emp := by
  cases x with
  | Special s => exact .id
  | Other p c => exact drops_release c

theorem drops_discard (h : Option Homographic) : Drops (OwnH h) (Homographic.discard h) emp := by
  cases h with
  | none => exact .id
  | some h => exact drops_release h.x

namespace Homographic

theorem onK_tri {α : Type} {m : Mut Coef4 α} (hm : ∀ k, (m k).1 ≠ .shared) :
    Tri 0 ownX (Homographic.onK m) ownX (fun _ => ownX) :=
  .plain hm (fun _ _ => rfl) (fun _ _ _ h => h) (fun _ _ _ _ h => h)

theorem onX_tri {eg : EgestFn} (hE : Keeps eg) :
    Tri 0 ownX (Homographic.onX eg) ownX (fun _ => ownX) :=
  Tri.part (Q := fun _ => ownX) hE (fun _ => rfl) (fun _ _ => rfl) _ _
    (fun _ _ _ _ _ h => h) (fun _ _ _ _ _ _ h => h) (fun _ _ h => h)

theorem get_tri {S α : Type} [HasWorld S] {e : ℕ} {P J : Assn S} {R : α → Assn S}
    {g : S → Mut S α} (k : ∀ s, Tri e P (g s) J R) : Tri e P (Mut.get >>= g) J R :=
  .get_bind fun s => (k s).conseq (fun _ _ h => h.2) (fun _ _ h => h) fun _ _ _ h => h

theorem primeIngest_tri (cfg : Cfg) {eg : EgestFn} (hE : Keeps eg) :
    Tri 0 ownX (Homographic.primeIngest cfg eg) ownX (fun _ => ownX) := by
  unfold Homographic.primeIngest
  refine (onX_tri hE).bind fun a => ?_
  rcases a with _ | _ | _
  · exact get_tri fun s => .eval_bind (fun _ _ h => h) fun r => .eval_bind (fun _ _ h => h) fun _ =>
      .pure fun _ _ h => h
  · exact (onK_tri fun k => (Coef4.ingestAmplify_agree cfg k).not_shared).bind fun _ =>
      .pure fun _ _ h => h
  · exact (onK_tri fun k => (Coef4.ingestUncover_agree cfg k).not_shared).bind fun _ =>
      .pure fun _ _ h => h

theorem reductionIngest_tri (cfg : Cfg) {eg : EgestFn} (hE : Keeps eg) :
    Tri 0 ownX (Homographic.reductionIngest cfg eg) ownX (fun _ => ownX) := by
  unfold Homographic.reductionIngest
  refine (onX_tri hE).bind fun a => ?_
  rcases a with _ | _ | _
  · refine get_tri fun s => .eval_bind (fun _ _ h => h) fun r => .eval_bind (fun _ _ h => h) ?_
    rintro ⟨_ | _, _ | _, _ | _⟩
    · exact .panic fun _ _ h => h
    · exact .pure fun _ _ h => h
    all_goals exact .panic fun _ _ h => h
  · exact (onK_tri fun k => (Coef4.ingestAmplify_agree cfg k).not_shared).bind fun _ =>
      .pure fun _ _ h => h
  · exact (onK_tri fun k => (Coef4.ingestUncover_agree cfg k).not_shared).bind fun _ =>
      .pure fun _ _ h => h

theorem println_tri : Tri 0 ownX (println out) ownX (fun _ => ownX) := by
  intro s fp h hR
  unfold println
  cases out s.2.printed.length with
  | none =>
    exact ⟨fp, Own.frame h fun _ _ => rfl,
      ⟨le_refl _, fun _ _ _ => rfl, fun _ h => .inl h, hR.bound, (Tidy.refl hR).freed, le_refl _⟩⟩
  | some p =>
    exact ⟨fp, Own.frame h fun _ _ => rfl,
      ⟨le_refl _, fun _ _ _ => rfl, fun _ h => .inl h, hR.bound, (Tidy.refl hR).freed, le_refl _⟩⟩

theorem prime_tri (cfg : Cfg) {eg : EgestFn} (hE : Keeps eg) (f : Nat) :
    Tri 0 ownX (Homographic.prime cfg out eg f) ownX
      (fun r s fp => ownX s fp ∧ ∀ h, r.2.2.2 = some h → h = s.1) := by
  induction f with
  | zero => exact .timeout
  | succ f ih =>
    unfold prime
    refine println_tri.bind fun _ => ?_
    refine (onK_tri fun k => (Coef4.primerAttempt_agree cfg k).not_shared).bind fun a => ?_
    rcases a with _ | primer
    · refine (primeIngest_tri cfg hE).bind fun r => ?_
      rcases r with _ | ⟨special, primer, ratio⟩
      · exact ih
      · exact .pure fun _ _ h => ⟨h, fun h e => by cases e⟩
    · refine .get_bind fun s => .pure ?_
      rintro t fp ⟨rfl, h⟩
      exact ⟨h, fun h e => by injection e with e; exact e.symm⟩

theorem egest_tri (cfg : Cfg) {eg : EgestFn} (hE : Keeps eg) (f : Nat) :
    Tri 0 ownX (Homographic.egest cfg out eg f) ownX
      (fun r s fp => ownX s fp ∧ ∀ o, r = .inr o → ∃ q, o = .ratio q) := by
  induction f with
  | zero => exact .timeout
  | succ f ih =>
    unfold egest
    refine println_tri.bind fun _ => ?_
    refine (onK_tri fun k => (Coef4.reductionAttempt_agree cfg k).not_shared).bind fun a => ?_
    rcases a with _ | red
    · refine (reductionIngest_tri cfg hE).bind fun r => ?_
      rcases r with _ | ratio
      · exact ih
      · exact .pure fun _ _ h => ⟨h, fun o e => ⟨ratio, by injection e with e; exact e.symm⟩⟩
    · exact .pure fun _ _ h => ⟨h, fun o e => by cases e⟩

theorem asRatio_tri (cfg : Cfg) (n d : Int) :
    Tri 0 emp (Homographic.asRatio cfg n d) emp (fun r => OwnH r.2.2.2) :=
  .eval_bind (fun _ _ h => h) fun _ => .pure fun _ _ h => h

theorem new_tri (cfg : Cfg) {eg : EgestFn} (hE : Keeps eg) (f : Nat) (x : Number)
    (nx n dx d : Int) :
    Tri 0 (OwnN x) (new cfg out eg f x nx n dx d) emp (fun r => OwnH r.2.2.2) := by
  unfold new
  refine .ite (fun _ => ?_) fun _ => ?_
  · have h := (asRatio_tri cfg n d).frame (ownN_local x)
    have hd := (drops_number x)
    refine (h.conseq (fun _ _ h => emp_star.2 h) (fun _ _ h => h) fun _ _ _ h => h).scope
      (hd.conseq (fun _ _ h => emp_star.1 h) fun _ _ h => h) fun a => ?_
    exact (hd.frame (ownH_local a.2.2.2)).conseq (fun _ _ h => star_comm.1 h)
      fun _ _ h => emp_star.1 h
  · rcases x with ⟨_ | _ | _⟩ | ⟨p, c⟩
    · exact .eval_bind (fun _ _ h => h) fun _ => .eval_bind (fun _ _ h => h) fun _ =>
        asRatio_tri cfg _ _
    · exact asRatio_tri cfg _ _
    · exact .eval_bind (fun _ _ h => h) fun _ => .eval_bind (fun _ _ h => h) fun _ =>
        asRatio_tri cfg _ _
    · refine (Tri.unwind (.eval (J := fun w => Own w c) (R := fun _ w => Own w c)
        (fun _ _ h => h) fun _ _ _ h => h) (drops_release c)).bind fun k => ?_
      refine Tri.owned (s := ⟨c, k⟩) (prime_tri cfg hE f) (fun s => drops_release s.x) ?_ ?_
      · rintro ⟨a1, a2, a3, _ | a4⟩ s e w fp ⟨h1, h2⟩
        · cases e
        · obtain rfl := h2 a4 rfl
          exact h1
      · rintro ⟨a1, a2, a3, _ | a4⟩ s e
        · exact (drops_release s.x).conseq (fun _ _ h => h.1) fun _ _ h => h
        · cases e

end Homographic

/-! ## `Combine` -/

/-- What an optional `Combine` owns. -/
def OwnC : Option Combine → Assn World
  | none => emp
  | some c => fun w => Own w c.box

theorem ownC_local (c : Option Combine) : Local (OwnC c) := by
  cases c with
  | none => exact emp_local
  | some c => exact own_local c.box

theorem drops_discardC (c : Option Combine) : Drops (OwnC c) (Number.discard c) emp := by
  cases c with
  | none => exact .id
  | some c => exact drops_release c.box

namespace Combine

theorem onCopy_tri {α : Type} {P : Assn World} {k : Coef8} {m : Mut Coef8 α}
    (hm : ∀ k, (m k).1 ≠ .shared) : Tri 0 P (onCopy k m) P (fun _ => P) := by
  intro w fp h hR
  unfold onCopy
  have h3 := hm k
  revert h3
  generalize m k = r
  obtain ⟨r, k'⟩ := r
  cases r with
  | ok a => exact fun _ => ⟨fp, h, .refl hR⟩
  | panic p => exact fun _ => ⟨fp, h, .refl hR⟩
  | shared => exact fun h => h rfl
  | timeout => exact fun _ => trivial

/-- What the two pointers own. -/
def both (c : Combine) : Assn World := OwnRc c.x ⋆ OwnRc c.y

theorem both_local (c : Combine) : Local (both c) := star_local (ownRc_local _) (ownRc_local _)

theorem both_box {c : Combine} {w : World} {fp : Finset ℕ} : Own w c.box fp ↔ both c w fp :=
  own_combine

theorem drops_both (c : Combine) : Drops (both c) (release c.box) emp :=
  (drops_release c.box).conseq (fun _ _ h => both_box.2 h) fun _ _ h => h

theorem getX_tri {eg : EgestFn} (hE : Keeps eg) (c : Combine) :
    Tri 0 (both c) (rcGetMut c.x eg) (both c) (fun _ => both c) :=
  (tri_getMut hE c.x).frame (ownRc_local c.y)

theorem getY_tri {eg : EgestFn} (hE : Keeps eg) (c : Combine) :
    Tri 0 (both c) (rcGetMut c.y eg) (both c) (fun _ => both c) :=
  ((tri_getMut hE c.y).frame (ownRc_local c.x)).conseq (fun _ _ h => star_comm.1 h)
    (fun _ _ h => star_comm.1 h) fun _ _ _ h => star_comm.1 h

/-- One input goes on alone: `j` is unwrapped, `i` is dropped at the end. -/
theorem alone_tri (cfg : Cfg) {eg : EgestFn} (hE : Keeps eg) (f : Nat) (i j : Nat) (k : Coef4) :
    Tri 0 (OwnRc i ⋆ OwnRc j) (do
      let y ← unwind (fun w => releaseRc release i w) (rcTryUnwrap j)
      let res ← scope (fun w => releaseRc release i w)
        (Homographic.new cfg out eg f (.Other none y) k.nx k.n k.dx k.d)
      pure (Sum.inl res : Homographic.Primed ⊕ Combine)) emp
      (fun r w fp => ∃ p, r = .inl p ∧ OwnH p.2.2.2 w fp) := by
  have h1 := (tri_tryUnwrap j (J := fun _ _ => False)).frame (ownRc_local i)
  refine ((h1.conseq (P' := OwnRc i ⋆ OwnRc j) (J' := OwnRc i) (fun _ _ h => star_comm.1 h)
    (fun _ _ ⟨_, _, h, _⟩ => h.elim) fun _ _ _ h => h).unwind (drops_releaseRc i)).bind fun y => ?_
  have h2 := (Homographic.new_tri (out := out) cfg hE f (.Other none y) k.nx k.n k.dx k.d).frame (ownRc_local i)
  refine (h2.scope ((drops_releaseRc i).conseq (fun _ _ h => emp_star.1 h) fun _ _ h => h)
    (R' := fun r => OwnH r.2.2.2) fun a =>
      (((drops_releaseRc i).frame (ownH_local a.2.2.2)).conseq (fun _ _ h => star_comm.1 h)
        fun _ _ h => emp_star.1 h)).bind fun r => ?_
  exact .pure fun _ _ h => ⟨r, rfl, h⟩

/-- What the result of `prime_ingest` owns. -/
def ingested : Homographic.Primed ⊕ Combine → Assn World
  | .inl p => OwnH p.2.2.2
  | .inr c => both c

theorem primeIngest_tri (cfg : Cfg) {eg : EgestFn} (hE : Keeps eg) (f : Nat) (s : Combine) :
    Tri 0 (both s) (primeIngest cfg out eg f s) emp ingested := by
  unfold primeIngest
  refine ((getX_tri hE s).unwind (drops_both s)).bind fun a => ?_
  rcases a with _ | rx
  · refine (Tri.unwind (.eval (R := fun _ => both s) (fun _ _ h => h) fun _ _ _ h => h)
      (drops_both s)).bind fun k => ?_
    refine (alone_tri cfg hE f s.x s.y k).conseq (fun _ _ h => h) (fun _ _ h => h) ?_
    rintro r w fp ⟨p, rfl, h⟩
    exact h
  · refine ((onCopy_tri fun k => (Coef8.ingestX_agree cfg rx k).not_shared).unwind
      (drops_both s)).bind ?_
    rintro ⟨⟨⟩, k⟩
    refine ((getY_tri hE s).unwind (drops_both s)).bind fun a => ?_
    rcases a with _ | ry
    · refine (Tri.unwind (.eval (R := fun _ => both s) (fun _ _ h => h) fun _ _ _ h => h)
        (drops_both s)).bind fun k => ?_
      refine (alone_tri cfg hE f s.y s.x k).conseq (fun _ _ h => star_comm.1 h)
        (fun _ _ h => h) ?_
      rintro r w fp ⟨p, rfl, h⟩
      exact h
    · refine ((onCopy_tri fun k => (Coef8.ingestY_agree cfg ry k).not_shared).unwind
        (drops_both s)).bind ?_
      rintro ⟨⟨⟩, k⟩
      exact .pure fun _ _ h => h

/-- What the tuple returned by `prime` owns. -/
def primed (r : Combine.Primed) : Assn World := OwnH r.2.2.2.1 ⋆ OwnC r.2.2.2.2

theorem prime_tri (cfg : Cfg) {eg : EgestFn} (hE : Keeps eg) (f : Nat) :
    ∀ s : Combine, Tri 0 (both s) (prime cfg out eg f s) emp primed := by
  induction f with
  | zero => exact fun s => .timeout
  | succ f ih =>
    intro s
    unfold prime
    refine ((onCopy_tri fun k => (Coef8.primerAttempt_agree cfg k).not_shared).unwind
      (drops_both s)).bind ?_
    rintro ⟨_ | primer, k⟩
    · refine (primeIngest_tri cfg hE f { s with k := k }).bind ?_
      rintro (⟨special, primer, ratio, homographic⟩ | c)
      · exact .pure fun _ _ h => star_emp.2 h
      · exact ih c
    · exact .pure fun _ _ h => emp_star.2 (both_box.2 h)

theorem onW_tri {α : Type} {e : ℕ} {P J : Assn World} {m : Mut World α} {R : α → Assn World}
    (h : Tri e P m J R) (c : Combine) :
    Tri e (fun t fp => t.1 = c ∧ P t.2 fp) (Combine.onW m) (fun t fp => t.1 = c ∧ J t.2 fp)
      (fun a t fp => t.1 = c ∧ R a t.2 fp) :=
  Tri.part (S := Combine × World) (T := World) (get := fun s => s.2) (put := fun w s => (s.1, w))
    (Q := fun _ t fp => t.1 = c ∧ P t.2 fp) h (fun _ => rfl) (fun _ _ => rfl) _ _
    (fun _ _ _ _ h1 h2 => ⟨h1.1, h2⟩) (fun _ _ _ _ _ h1 h2 => ⟨h1.1, h2⟩) (fun _ _ h => h.2)

/-- What a `Combine` in place owns. -/
def ownS : Assn (Combine × World) := fun s => both s.1 s.2

theorem onK_tri {α : Type} {m : Mut Coef8 α} (hm : ∀ k, (m k).1 ≠ .shared) :
    Tri 0 ownS (Combine.onK m) ownS (fun _ => ownS) :=
  .plain hm (fun _ _ => rfl) (fun _ _ _ h => h) (fun _ _ _ _ h => h)

/-- What `shutdown_y` does, with the old allocation. -/
theorem shutdownY_run {c : Combine} {w : World} {oy : Obj}
    (hj : w.cells c.y = some ⟨1, oy⟩) (hy : c.y < w.fresh) :
    ∃ w', Combine.shutdownY (c, w) = (.ok (.Other none oy), ({ c with y := w.fresh }, w')) ∧
      w'.fresh = w.fresh + 1 ∧ w'.cells w.fresh = some ⟨1, .ratio ⟨1, 2⟩⟩ ∧
      w'.cells c.y = none ∧ ∀ n, n ≠ c.y → n ≠ w.fresh → w'.cells n = w.cells n := by
  have hne : c.y ≠ w.fresh := by omega
  obtain ⟨w', e, h1, h2, h3⟩ := Steps.Combine.shutdownY_run hj hy
  refine ⟨w', e, h1, h2, ?_, h3⟩
  have e' : (Combine.shutdownY (c, w)).2.2.cells c.y = none := by
    simp [Combine.shutdownY, Mut.get, Mut.modify, Bind.bind, Mut.bind, Combine.onW, Mut.part,
      rcClone, hj, Combine.simpleClog, rcNew, rcDrop, World.put, rcTryUnwrap, hne, Pure.pure]
  rw [e] at e'
  exact e'

/-- What `shutdown_x` does, with the old allocation. -/
theorem shutdownX_run {c : Combine} {w : World} {ox : Obj}
    (hi : w.cells c.x = some ⟨1, ox⟩) (hx : c.x < w.fresh) :
    ∃ w', Combine.shutdownX (c, w) = (.ok (.Other none ox), ({ c with x := w.fresh }, w')) ∧
      w'.fresh = w.fresh + 1 ∧ w'.cells w.fresh = some ⟨1, .ratio ⟨1, 2⟩⟩ ∧
      w'.cells c.x = none ∧ ∀ n, n ≠ c.x → n ≠ w.fresh → w'.cells n = w.cells n := by
  have hne : c.x ≠ w.fresh := by omega
  obtain ⟨w', e, h1, h2, h3⟩ := Steps.Combine.shutdownX_run hi hx
  refine ⟨w', e, h1, h2, ?_, h3⟩
  have e' : (Combine.shutdownX (c, w)).2.2.cells c.x = none := by
    simp [Combine.shutdownX, Mut.get, Mut.modify, Bind.bind, Mut.bind, Combine.onW, Mut.part,
      rcClone, hi, Combine.simpleClog, rcNew, rcDrop, World.put, rcTryUnwrap, hne, Pure.pure]
  rw [e] at e'
  exact e'

/-- A new pointer to a new clog, and the old clog moved out of its allocation. -/
theorem shut {w w' : World} {i : Nat} {o : Obj} {f : Finset ℕ} (hf : Own w o f) (hn : i ∉ f)
    (hR : Room w (insert i f)) (h1 : w'.fresh = w.fresh + 1)
    (h2 : w'.cells w.fresh = some ⟨1, .ratio ⟨1, 2⟩⟩) (h3 : w'.cells i = none)
    (h4 : ∀ n, n ≠ i → n ≠ w.fresh → w'.cells n = w.cells n) :
    ∃ fp, (OwnRc w.fresh ⋆ fun w => Own w o) w' fp ∧ Tidy 0 w (insert i f) w' fp := by
  have hb : ∀ n ∈ f, n < w.fresh := fun n h => hR.bound n (Finset.mem_insert_of_mem h)
  have hi : i < w.fresh := hR.bound i (Finset.mem_insert_self _ _)
  have hw : w.fresh ∉ f := fun h => (hb _ h).ne rfl
  refine ⟨insert w.fresh ∅ ∪ f, ⟨_, f, ⟨_, ∅, h2, .ratio _, by simp, rfl⟩,
    hf.frame fun n h => h4 n (fun e => hn (e ▸ h)) (hb n h).ne, by simpa using hw, rfl⟩, ?_⟩
  have em : ∀ n, n ∈ insert w.fresh (∅ : Finset ℕ) ∪ f ↔ n = w.fresh ∨ n ∈ f := by
    intro n
    simp
  refine ⟨by omega, ?_, ?_, ?_, ?_, ?_⟩
  · intro n h5 h6
    rw [Finset.mem_insert, not_or] at h6
    exact h4 n h6.1 h5.ne
  · intro n h5
    rcases (em n).1 h5 with rfl | h5
    · exact .inr (le_refl _)
    · exact .inl (Finset.mem_insert_of_mem h5)
  · intro n h5
    rcases (em n).1 h5 with rfl | h5
    · omega
    · have := hb n h5
      omega
  · intro n h5 h6
    rw [em, not_or] at h6
    by_cases e : n = i
    · rw [e, h3]
    · rw [h4 n e h6.1]
      rcases h5 with h5 | h5
      · exact absurd ((Finset.mem_insert.1 h5).resolve_left e) h6.2
      · exact hR.clean n h5
  · rw [Finset.card_insert_of_notMem hn, Finset.card_union_of_disjoint (by simpa using hw)]
    simp
    omega

theorem shutdownY_tri (c : Combine) {J : Assn (Combine × World)} :
    Tri 0 (fun t fp => t.1 = c ∧ OwnRc c.y t.2 fp) Combine.shutdownY J
      (fun y t fp => ∃ o, y = .Other none o ∧ t.1.x = c.x ∧
        (OwnRc t.1.y ⋆ fun w => Own w o) t.2 fp) := by
  rintro ⟨c', w⟩ _ ⟨rfl, oy, f, hj, hf, hn, rfl⟩ hR
  obtain ⟨w', e, h1, h2, h3, h4⟩ := shutdownY_run hj (hR.bound _ (Finset.mem_insert_self _ _))
  obtain ⟨fp, h5, h6⟩ := shut hf hn hR h1 h2 h3 h4
  rw [e]
  exact ⟨fp, ⟨oy, rfl, rfl, h5⟩, h6⟩

theorem shutdownX_tri (c : Combine) {J : Assn (Combine × World)} :
    Tri 0 (fun t fp => t.1 = c ∧ OwnRc c.x t.2 fp) Combine.shutdownX J
      (fun x t fp => ∃ o, x = .Other none o ∧ t.1.y = c.y ∧
        (OwnRc t.1.x ⋆ fun w => Own w o) t.2 fp) := by
  rintro ⟨c', w⟩ _ ⟨rfl, ox, f, hi, hf, hn, rfl⟩ hR
  obtain ⟨w', e, h1, h2, h3, h4⟩ := shutdownX_run hi (hR.bound _ (Finset.mem_insert_self _ _))
  obtain ⟨fp, h5, h6⟩ := shut hf hn hR h1 h2 h3 h4
  rw [e]
  exact ⟨fp, ⟨ox, rfl, rfl, h5⟩, h6⟩

/-- What is owned after `shutdown_x` or `shutdown_y`. -/
def shutS (y : Number) : Assn (Combine × World) := fun t fp =>
  ∃ o, y = .Other none o ∧ (both t.1 ⋆ fun w => Own w o) t.2 fp

theorem shutdownY_both {J : Assn (Combine × World)} :
    Tri 0 ownS Combine.shutdownY J shutS := by
  intro s fp h hR
  have h1 := (shutdownY_tri s.1 (J := fun _ _ => False)).frame (ownRc_local s.1.x)
  refine (h1.conseq (J' := J) (R' := shutS) (fun _ _ h => h)
    (fun _ _ ⟨_, _, h, _⟩ => h.elim) ?_) s fp ?_ hR
  · rintro y t fp ⟨f, g, ⟨o, rfl, h2, h3⟩, h4, h5, rfl⟩
    refine ⟨o, rfl, ?_⟩
    have : (OwnRc t.1.x ⋆ (OwnRc t.1.y ⋆ fun w => Own w o)) t.2 (f ∪ g) :=
      star_comm.1 ⟨f, g, h3, by rw [h2]; exact h4, h5, rfl⟩
    exact star_assoc.2 this
  · obtain ⟨f, g, h2, h3, h4, rfl⟩ := h
    exact ⟨g, f, ⟨rfl, h3⟩, h2, h4.symm, Finset.union_comm _ _⟩

theorem shutdownX_both {J : Assn (Combine × World)} :
    Tri 0 ownS Combine.shutdownX J shutS := by
  intro s fp h hR
  have h1 := (shutdownX_tri s.1 (J := fun _ _ => False)).frame (ownRc_local s.1.y)
  refine (h1.conseq (J' := J) (R' := shutS) (fun _ _ h => h)
    (fun _ _ ⟨_, _, h, _⟩ => h.elim) ?_) s fp ?_ hR
  · rintro y t fp ⟨f, g, ⟨o, rfl, h2, h3⟩, h4, h5, rfl⟩
    refine ⟨o, rfl, ?_⟩
    have h6 : (OwnRc t.1.y ⋆ (OwnRc t.1.x ⋆ fun w => Own w o)) t.2 (f ∪ g) :=
      star_comm.1 ⟨f, g, h3, by rw [h2]; exact h4, h5, rfl⟩
    exact star_mono (fun _ h => star_comm.1 h) (fun _ h => h) (star_assoc.2 h6)
  · obtain ⟨f, g, h2, h3, h4, rfl⟩ := h
    exact ⟨f, g, ⟨rfl, h2⟩, h3, h4, rfl⟩

/-- A value of the result of `reduction_ingest` owns this, beside `self`. -/
def reduced (r : Option Ratio × Option Homographic) : Assn (Combine × World) :=
  ownS ⋆ OwnH r.2

/-- The end of `reduction_ingest` after an input has been shut down. -/
theorem shut_tri (cfg : Cfg) {eg : EgestFn} (hE : Keeps eg) (f : Nat) (y : Number) (k : Coef4) :
    Tri 0 (shutS y) (do
      match ← Combine.onW (Homographic.new cfg out eg f y k.nx k.n k.dx k.d) with
      | (none, none, ratio, homographic) => pure (ratio, homographic)
      | (_, _, _, homographic) => do
        Combine.onW (modify (Homographic.discard homographic))
        panic .logicError) ownS reduced := by
  intro s fp hs hR
  obtain ⟨o, rfl, hs⟩ := hs
  have h1 := onW_tri ((Homographic.new_tri (out := out) cfg hE f (.Other none o) k.nx k.n k.dx k.d).frame
    (both_local s.1)) s.1
  refine Tri.bind (P := fun t fp => t.1 = s.1 ∧ ((fun w => Own w o) ⋆ both s.1) t.2 fp) (e := 0)
    (h1.conseq (J' := ownS) (fun _ _ h => h) (fun t fp h => ?_) (fun _ _ _ h => h)) (fun r => ?_)
    s fp ⟨rfl, star_comm.1 hs⟩ hR
  · obtain ⟨h2, h3⟩ := h
    show both t.1 t.2 fp
    rw [h2]
    exact emp_star.1 h3
  · have fail : Tri 0 (fun t fp => t.1 = s.1 ∧ (OwnH r.2.2.2 ⋆ both s.1) t.2 fp)
        (do
          Combine.onW (modify (Homographic.discard r.2.2.2))
          panic .logicError) ownS reduced := by
      have h2 := onW_tri (J := fun _ _ => False) (((drops_discard r.2.2.2).frame
        (both_local s.1)).modify (R := fun _ => emp ⋆ both s.1)) s.1
      refine (h2.conseq (J' := ownS) (fun _ _ h => h) (fun _ _ h => h.2.elim)
        fun _ _ _ h => h).bind fun _ => .panic fun t fp h => ?_
      obtain ⟨h3, h4⟩ := h
      show both t.1 t.2 fp
      rw [h3]
      exact emp_star.1 h4
    obtain ⟨a1, a2, a3, a4⟩ := r
    rcases a1 with _ | a1
    · rcases a2 with _ | a2
      · refine .pure fun t fp h => ?_
        obtain ⟨h3, h4⟩ := h
        obtain ⟨f, g, h5, h6, h7, rfl⟩ := h4
        refine ⟨g, f, ?_, h5, h7.symm, Finset.union_comm _ _⟩
        show both t.1 t.2 g
        rw [h3]
        exact h6
      · exact fail
    · exact fail

theorem reductionIngest_tri (cfg : Cfg) {eg : EgestFn} (hE : Keeps eg) (f : Nat) :
    Tri 0 ownS (reductionIngest cfg out eg f) ownS reduced := by
  have onW : ∀ {α : Type} {m : Mut World α} (s : Combine × World),
      Tri 0 (both s.1) m (both s.1) (fun _ => both s.1) →
      Tri 0 (fun t fp => t = s ∧ ownS t fp) (Combine.onW m) ownS (fun _ => ownS) := by
    intro α m s h
    have over : ∀ (t : Combine × World) fp, t.1 = s.1 ∧ both s.1 t.2 fp → ownS t fp := by
      rintro ⟨c, w⟩ fp ⟨h1, h2⟩
      show both c w fp
      rw [show c = s.1 from h1]
      exact h2
    refine (onW_tri h s.1).conseq (fun t fp h' => ?_) over fun _ => over
    obtain ⟨rfl, h'⟩ := h'
    exact ⟨rfl, h'⟩
  unfold reductionIngest
  refine .get_bind fun s => (onW s (getX_tri hE s.1)).bind fun a => ?_
  rcases a with _ | rx
  · refine Homographic.get_tri fun s => .eval_bind (fun _ _ h => h) fun k => ?_
    exact shutdownY_both.bind fun y => shut_tri cfg hE f y k
  · refine (onK_tri fun k => (Coef8.ingestX_agree cfg rx k).not_shared).bind fun _ => ?_
    refine .get_bind fun s => (onW s (getY_tri hE s.1)).bind fun a => ?_
    rcases a with _ | ry
    · refine Homographic.get_tri fun s => .eval_bind (fun _ _ h => h) fun k => ?_
      exact shutdownX_both.bind fun y => shut_tri cfg hE f y k
    · refine (onK_tri fun k => (Coef8.ingestY_agree cfg ry k).not_shared).bind fun _ => ?_
      exact .pure fun _ _ h => star_emp.2 h

/-- What the answer of `Strategy::egest` owns. -/
def OwnA : Option Reduction ⊕ Obj → Assn World
  | .inl _ => emp
  | .inr o => fun w => Own w o

theorem egest_tri (cfg : Cfg) {eg : EgestFn} (hE : Keeps eg) (f : Nat) :
    Tri 0 ownS (egest cfg out eg f) ownS (fun r => ownS ⋆ OwnA r) := by
  induction f with
  | zero => exact .timeout
  | succ f ih =>
    unfold egest
    refine (onK_tri fun k => (Coef8.reductionAttempt_agree cfg k).not_shared).bind fun a => ?_
    rcases a with _ | red
    · refine (reductionIngest_tri cfg hE f).bind ?_
      rintro ⟨ratio, _ | homographic⟩
      · rcases ratio with _ | ratio
        · exact ih.conseq (fun _ _ h => star_emp.1 h) (fun _ _ h => h) fun _ _ _ h => h
        · exact .pure fun _ _ h => star_mono (fun _ h => h)
            (fun f (h : f = ∅) => by subst h; exact .ratio ratio) h
      · exact .pure fun _ _ h => star_mono (fun _ h => h)
          (fun f h => Own.homographic homographic.k h) h
    · exact .pure fun _ _ h => star_emp.2 h

theorem asHomographic_tri (cfg : Cfg) {eg : EgestFn} (hE : Keeps eg) (f : Nat) (x : Number)
    (nx n dx d : Int) :
    Tri 0 (OwnN x) (asHomographic cfg out eg f x nx n dx d) emp primed :=
  (Homographic.new_tri cfg hE f x nx n dx d).bind fun _ => .pure fun _ _ h => star_emp.2 h

theorem eval_tri {α : Type} {P : Assn World} {d : World → World} {u : Out α}
    (hd : Drops P d emp) : Tri 0 P (unwind d (Mut.eval u)) emp (fun _ => P) :=
  Tri.unwind (.eval (J := P) (fun _ _ h => h) fun _ _ _ h => h) hd

theorem new_tri (cfg : Cfg) {eg : EgestFn} (hE : Keeps eg) (f : Nat) (x y : Number) (k : Coef8) :
    Tri 2 (OwnN x ⋆ OwnN y) (new cfg out eg f x y k) emp primed := by
  have two : (0 : ℕ) ≤ 2 := by omega
  rcases x with s | ⟨px, cx⟩
  · have hd := drops_number y
    refine Tri.conseq (P := OwnN y) (Tri.weaken ?_ two) (fun _ _ h => emp_star.1 h)
      (fun _ _ h => h) fun _ _ _ h => h
    rcases s with _ | _ | _
    · exact (eval_tri hd).bind fun _ => (eval_tri hd).bind fun _ => (eval_tri hd).bind fun _ =>
        (eval_tri hd).bind fun _ => asHomographic_tri cfg hE f y _ _ _ _
    · exact asHomographic_tri cfg hE f y _ _ _ _
    · exact (eval_tri hd).bind fun _ => (eval_tri hd).bind fun _ => (eval_tri hd).bind fun _ =>
        (eval_tri hd).bind fun _ => asHomographic_tri cfg hE f y _ _ _ _
  · rcases y with s | ⟨py, cy⟩
    · have hd := drops_release cx
      refine Tri.conseq (P := fun (w : World) => Own w cx) (Tri.weaken ?_ two)
        (fun _ _ h => (star_emp (P := fun (w : World) => Own w cx)).1 h)
        (fun _ _ h => h) fun _ _ _ h => h
      rcases s with _ | _ | _
      · exact (eval_tri hd).bind fun _ => (eval_tri hd).bind fun _ => (eval_tri hd).bind fun _ =>
          (eval_tri hd).bind fun _ => asHomographic_tri cfg hE f (.Other px cx) _ _ _ _
      · exact asHomographic_tri cfg hE f (.Other px cx) _ _ _ _
      · exact (eval_tri hd).bind fun _ => (eval_tri hd).bind fun _ => (eval_tri hd).bind fun _ =>
          (eval_tri hd).bind fun _ => asHomographic_tri cfg hE f (.Other px cx) _ _ _ _
    · let P : Assn World := (fun w => Own w cx) ⋆ fun w => Own w cy
      have hd : Drops P (fun w => release cx (release cy w)) emp :=
        (((drops_release cy).frame (own_local cx)).conseq (fun _ _ h => star_comm.1 h)
          fun _ _ h => emp_star.1 h).comp (drops_release cx)
      refine Tri.bind (P := P) (eval_tri hd) fun k1 => (eval_tri hd).bind fun k2 => ?_
      refine Tri.bind_add (((tri_new cx (J := fun _ _ => False)).frame (own_local cy)).conseq
        (J' := emp) (fun _ _ h => h) (fun _ _ ⟨_, _, h, _⟩ => h.elim) fun _ _ _ h => h)
        (e₂ := 1) (fun i => ?_) (by omega)
      refine Tri.bind_add (((tri_new cy (J := fun _ _ => False)).frame (ownRc_local i)).conseq
        (P' := OwnRc i ⋆ fun w => Own w cy) (J' := emp) (fun _ _ h => star_comm.1 h)
        (fun _ _ ⟨_, _, h, _⟩ => h.elim) fun _ _ _ h => h) (e₂ := 0) (fun j => ?_) (by omega)
      exact (prime_tri cfg hE f ⟨i, j, k2⟩).conseq (fun _ _ h => star_comm.1 h)
        (fun _ _ h => h) fun _ _ _ h => h

end Combine

/-! ## `Clog` -/

theorem strategyEgest_tri (cfg : Cfg) {eg : EgestFn} (hE : Keeps eg) (f : Nat) :
    Tri 0 (fun s : Obj × World => Own s.2 s.1) (strategyEgest cfg out eg f) (fun s => Own s.2 s.1)
      (fun r => (fun s => Own s.2 s.1) ⋆ Combine.OwnA r) := by
  rintro ⟨r | ⟨x, k⟩ | ⟨x, y, k⟩, w⟩ fp h hR
  · obtain rfl : fp = ∅ := by cases h; rfl
    have h1 := (Ratio.egest_agree cfg r).not_shared
    unfold strategyEgest Steps.strategyEgest
    dsimp only
    revert h1
    generalize Ratio.egest cfg r = q
    obtain ⟨q, r'⟩ := q
    cases q with
    | ok a => exact fun _ => ⟨∅, star_emp.2 (.ratio r'), .refl hR⟩
    | panic p => exact fun _ => ⟨∅, .ratio r', .refl hR⟩
    | shared => exact fun h => h rfl
    | timeout => exact fun _ => trivial
  · have h1 := Homographic.egest_tri (out := out) cfg hE f (⟨x, k⟩, w) fp (own_homographic.1 h) hR
    unfold strategyEgest Steps.strategyEgest
    dsimp only
    revert h1
    generalize Homographic.egest cfg out eg f (⟨x, k⟩, w) = q
    obtain ⟨q, ⟨x', k'⟩, w'⟩ := q
    cases q with
    | ok a =>
      rintro ⟨fp', ⟨h1, h2⟩, h3⟩
      refine ⟨fp', ?_, h3⟩
      have h1' : Own w' (.homographic x' k') fp' := own_homographic.2 h1
      rcases a with a | o
      · exact star_emp.2 h1'
      · obtain ⟨q, rfl⟩ := h2 o rfl
        exact ⟨fp', ∅, h1', .ratio q, by simp, by simp⟩
    | panic p => exact fun ⟨fp', h1, h3⟩ => ⟨fp', own_homographic.2 h1, h3⟩
    | shared => exact id
    | timeout => exact id
  · have h1 := Combine.egest_tri (out := out) cfg hE f (⟨x, y, k⟩, w) fp (Combine.both_box.1 h) hR
    unfold strategyEgest
    dsimp only
    revert h1
    generalize Combine.egest cfg out eg f (⟨x, y, k⟩, w) = q
    obtain ⟨q, c, w'⟩ := q
    cases q with
    | ok a =>
      rintro ⟨fp', ⟨f, g, h1, h2, h4, rfl⟩, h3⟩
      exact ⟨_, ⟨f, g, Combine.both_box.2 h1, h2, h4, rfl⟩, h3⟩
    | panic p => exact fun ⟨fp', h1, h3⟩ => ⟨fp', Combine.both_box.2 h1, h3⟩
    | shared => exact id
    | timeout => exact id

theorem egest_keeps (cfg : Cfg) (f : Nat) : Keeps (egest cfg out f) := by
  induction f with
  | zero => exact Tri.timeout
  | succ f ih =>
    unfold egest
    refine Tri.bind (strategyEgest_tri cfg ih f) fun a => ?_
    rcases a with red | o
    · exact .pure fun _ _ h => (star_emp (P := fun (s : Obj × World) => Own s.2 s.1)).1 h
    · refine Tri.bind (R := fun _ (s : Obj × World) => Own s.2 s.1) ?_ fun _ => ih
      refine Drops.modify ?_
      rintro ⟨o', w⟩ fp h hR
      obtain ⟨f, g, h1, h2, h3, rfl⟩ := h
      obtain ⟨fp', h4, h5⟩ := (drops_release o').frame (own_local o) w _ ⟨f, g, h1, h2, h3, rfl⟩ hR
      exact ⟨fp', emp_star.1 h4, h5⟩

/-! ## `Number` -/

namespace Number

theorem discard_tri {α : Type} {e : ℕ} {P J : Assn World} {R : α → Assn World}
    {d : World → World} {m : Mut World α} {Q : Assn World} (hd : Drops Q d emp) (hP : Local P)
    (h : Tri e P m J R) : Tri e (Q ⋆ P) (do modify d; m) J R :=
  Tri.bind ((hd.frame hP).modify (R := fun _ => emp ⋆ P)) fun _ =>
    h.conseq (fun _ _ h => emp_star.1 h) (fun _ _ h => h) fun _ _ _ h => h

theorem homographic_tri (cfg : Cfg) (f : Nat) (x : Number) (nx n dx d : Int) :
    Tri 0 (OwnN x) (homographic cfg out f x nx n dx d) emp OwnN := by
  refine (Homographic.new_tri cfg (egest_keeps cfg f) f x nx n dx d).bind ?_
  rintro ⟨a1, a2, a3, a4⟩
  have gone : ∀ v : Number, OwnN v = emp → Tri 0 (OwnH a4) (do
      modify (Homographic.discard a4)
      pure v) emp OwnN := fun v hv =>
    (discard_tri (drops_discard a4) emp_local (.pure fun _ _ h => by rw [hv]; exact h)).conseq
      (fun _ _ h => star_emp.2 h) (fun _ _ h => h) fun _ _ _ h => h
  rcases a1 with _ | s
  · rcases a3 with _ | r
    · rcases a4 with _ | h
      · exact .panic fun _ _ h => h
      · exact .pure fun _ _ h' => Own.homographic h.k h'
    · exact (discard_tri (drops_discard a4) emp_local (R := OwnN) (.pure fun w fp h => by
        obtain rfl : fp = ∅ := h
        exact Own.ratio r)).conseq
        (fun _ _ h => star_emp.2 h) (fun _ _ h => h) fun _ _ _ h => h
  · exact gone (.Special s) rfl

theorem drops_both (h : Option Homographic) (c : Option Combine) :
    Drops (OwnH h ⋆ OwnC c) (fun w => discard c (Homographic.discard h w)) emp :=
  (((drops_discard h).frame (ownC_local c)).conseq (fun _ _ h => h)
    fun _ _ h => emp_star.1 h).comp (drops_discardC c)

theorem combine_tri (cfg : Cfg) (f : Nat) (x y : Number) (nxy nx ny n dxy dx dy d : Int) :
    Tri 2 (OwnN x ⋆ OwnN y) (combine cfg out f x y nxy nx ny n dxy dx dy d) emp OwnN := by
  refine (Combine.new_tri cfg (egest_keeps cfg f) f x y _).bind_add (e₂ := 0) ?_ (by omega)
  rintro ⟨a1, a2, a3, a4, a5⟩
  have gone : ∀ v : Number, Tri 0 emp (pure v : Mut World Number) emp OwnN →
      Tri 0 (OwnH a4 ⋆ OwnC a5) (do
        modify (Homographic.discard a4)
        modify (discard a5)
        pure v) emp OwnN := fun v hv =>
    discard_tri (drops_discard a4) (ownC_local a5)
      ((discard_tri (drops_discardC a5) emp_local hv).conseq
        (fun _ _ h => star_emp.2 h) (fun _ _ h => h) fun _ _ _ h => h)
  rcases a1 with _ | s
  · rcases a3 with _ | r
    · rcases a4 with _ | h
      · rcases a5 with _ | c
        · exact .panic fun _ _ h => emp_star.1 h
        · exact .pure fun _ _ h => emp_star.1 h
      · have h1 : Tri 0 (OwnH (some h)) (pure (.Other a2 h.box) : Mut World Number) emp OwnN :=
          .pure fun _ _ h' => Own.homographic h.k h'
        exact (discard_tri (drops_discardC a5) (ownH_local (some h)) h1).conseq
          (fun _ _ h => star_comm.1 h) (fun _ _ h => h) fun _ _ _ h => h
    · exact gone (.Other a2 (.ratio r)) (.pure fun w fp h => by
        obtain rfl : fp = ∅ := h
        exact Own.ratio r)
  · exact gone (.Special s) (.pure fun _ _ h => h)

theorem consumeLoop_tri (cfg : Cfg) {eg : EgestFn} (hE : Keeps eg) (f : Nat) (k : Coef4) :
    Tri 0 (fun s : Obj × World => Own s.2 s.1) (Consume.consume cfg eg f k)
      (fun s => Own s.2 s.1)
      (fun r s fp => (∀ o, r.1 = some o → o = s.1) ∧ Own s.2 s.1 fp) := by
  induction f generalizing k with
  | zero => exact .timeout
  | succ f ih =>
    unfold Consume.consume
    refine Tri.bind hE fun a => ?_
    rcases a with _ | red
    · exact .pure fun _ _ h => ⟨fun _ e => (by cases e), h⟩
    · refine .eval_bind (fun _ _ h => h) fun k => .eval_bind (fun _ _ h => h) fun b => ?_
      refine .ite (fun _ => ?_) fun _ => ih k
      refine .get_bind fun s => .pure fun t fp h => ?_
      obtain ⟨rfl, h⟩ := h
      exact ⟨fun o e => (by cases e; rfl), h⟩

/-- What an optional number owns. -/
def OwnO : Option Number → Assn World
  | none => emp
  | some x => OwnN x

theorem ownO_local (x : Option Number) : Local (OwnO x) := by
  cases x with
  | none => exact emp_local
  | some x => exact ownN_local x

theorem consume_tri (cfg : Cfg) (f : Nat) (x : Number) :
    Tri 0 (OwnN x) (consume cfg out f x) emp (fun r => OwnO r.1) := by
  rcases x with (_ | _ | _) | ⟨p, c⟩
  · exact .pure fun _ _ h => h
  · exact .pure fun _ _ h => h
  · exact .pure fun _ _ h => h
  · refine (Combine.eval_tri (drops_release c)).bind fun k => ?_
    refine Tri.bind (R := fun r => OwnO (r.1.map (Number.Other none))) ?_
      fun a => .pure fun _ _ h => h
    refine Tri.owned (s := c) (P := fun s => Own s.2 s.1) (consumeLoop_tri cfg (egest_keeps cfg f) f k)
      (fun s => drops_release s) ?_ ?_
    · rintro ⟨_ | o, k⟩ s hm w fp ⟨h1, h2⟩
      · cases hm
      · rw [h1 o rfl]
        exact h2
    · rintro ⟨_ | o, k⟩ s hm
      · exact (drops_release s).conseq (fun _ _ h => h.2) fun _ _ h => h
      · cases hm

/-- What two clogs own. -/
def own2 : Assn ((Obj × Obj) × World) := fun s =>
  ((fun w => Own w s.1.1) ⋆ fun w => Own w s.1.2) s.2

theorem first_tri {eg : EgestFn} (hE : Keeps eg) :
    Tri 0 own2 (Compare.first eg) own2 (fun _ => own2) := by
  intro s fp h hR
  have h1 := Tri.frame (own_local s.1.2) hE (s.1.1, s.2) fp h hR
  unfold Compare.first Mut.part
  revert h1
  generalize eg (s.1.1, s.2) = q
  obtain ⟨q, t⟩ := q
  cases q with
  | ok a => exact id
  | panic p => exact id
  | shared => exact id
  | timeout => exact id

theorem second_tri {eg : EgestFn} (hE : Keeps eg) :
    Tri 0 own2 (Compare.second eg) own2 (fun _ => own2) := by
  intro s fp h hR
  have h1 := Tri.frame (own_local s.1.1) hE (s.1.2, s.2) fp (star_comm.1 h) hR
  unfold Compare.second Mut.part
  revert h1
  generalize eg (s.1.2, s.2) = q
  obtain ⟨q, t⟩ := q
  cases q with
  | ok a => exact fun ⟨fp', h1, h2⟩ => ⟨fp', star_comm.1 h1, h2⟩
  | panic p => exact fun ⟨fp', h1, h2⟩ => ⟨fp', star_comm.1 h1, h2⟩
  | shared => exact id
  | timeout => exact id

theorem compareClogs_tri (cfg : Cfg) {eg : EgestFn} (hE : Keeps eg) (f : Nat) (b : Bool) :
    Tri 0 own2 (Compare.compareClogs cfg eg f b) own2 (fun _ => own2) := by
  induction f generalizing b with
  | zero => exact .timeout
  | succ f ih =>
    unfold Compare.compareClogs
    refine (first_tri hE).bind fun e1 => (second_tri hE).bind fun e2 => ?_
    refine .ite (fun _ => .pure fun _ _ h => h) fun _ => ?_
    rcases e1 with _ | _ | _
    · exact .pure fun _ _ h => h
    · exact ih _
    · exact ih _

theorem compare_tri (cfg : Cfg) (f : Nat) (x y : Number) :
    Tri 0 (OwnN x ⋆ OwnN y) (compare cfg out f x y) emp (fun _ => emp) := by
  rcases x with s1 | ⟨p1, c1⟩ <;> rcases y with s2 | ⟨p2, c2⟩
  · exact .pure fun _ _ h => emp_star.1 h
  · refine Tri.conseq (P := fun (w : World) => Own w c2) ?_ (fun _ _ h => emp_star.1 h)
      (fun _ _ h => h) fun _ _ _ h => h
    exact Tri.scope (J := fun w => Own w c2) (.pure fun _ _ h => h) (drops_release c2)
      fun _ => drops_release c2
  · refine Tri.conseq (P := fun (w : World) => Own w c1) ?_
      (fun _ _ h => (star_emp (P := fun (w : World) => Own w c1)).1 h)
      (fun _ _ h => h) fun _ _ _ h => h
    exact Tri.scope (J := fun w => Own w c1) (.pure fun _ _ h => h) (drops_release c1)
      fun _ => drops_release c1
  · have hd : ∀ s : Obj × Obj, Drops (fun w => own2 (s, w))
        (fun w => release s.1 (release s.2 w)) emp := fun s =>
      (((drops_release s.2).frame (own_local s.1)).conseq (fun _ _ h => star_comm.1 h)
        fun _ _ h => emp_star.1 h).comp (drops_release s.1)
    refine Tri.bind (R := fun _ => emp) ?_ fun _ => .pure fun _ _ h => h
    exact Tri.owned (s := (c1, c2)) (P := own2)
      (compareClogs_tri cfg (egest_keeps cfg f) f _) hd (fun _ _ h => by cases h)
      fun _ s _ => hd s

theorem unwrapSpecial_tri (x : Number) : Tri 0 (OwnN x) (unwrapSpecial x) emp (fun _ => emp) := by
  refine Tri.unwind (J := OwnN x) ?_ (drops_number x)
  rcases x with s | ⟨p, c⟩
  · exact .pure fun _ _ h => h
  · exact .panic fun _ _ h => h

theorem ratioU_tri (b : Bool) (num den : Nat) :
    Tri 0 emp (Number.ratioU b num den) emp OwnN := by
  unfold Number.ratioU
  refine .eval_bind (fun _ _ h => h) fun r => ?_
  obtain ⟨_ | s, p, _ | r⟩ := r
  · exact .panic fun _ _ h => h
  · exact .pure fun w fp h => by
      obtain rfl : fp = ∅ := h
      exact Own.ratio r
  · exact .pure fun _ _ h => h
  · exact .pure fun _ _ h => h

theorem ratio_tri (cfg : Cfg) (num den : Int) : Tri 0 emp (Number.ratio cfg num den) emp OwnN :=
  .eval_bind (fun _ _ h => h) fun _ => .eval_bind (fun _ _ h => h) fun _ => ratioU_tri _ _ _

theorem reprime_tri (x : Number) (p : Option Primer) : Tri 0 (OwnN x) (do
    let (_, c) ← Number.unwrapOther x
    pure (.Other p c)) emp OwnN := by
  rcases x with s | ⟨q, c⟩
  · exact Tri.bind (R := fun _ _ _ => False) (.panic fun _ _ h => h) fun a => .pure fun _ _ h => h.elim
  · exact Tri.bind (R := fun a w fp => a.2 = c ∧ Own w c fp) (.pure fun _ _ h => ⟨rfl, h⟩)
      fun a => .pure fun _ _ h => by
        obtain ⟨rfl, h⟩ := h
        exact h

end Number

/-! ## The caller -/

namespace Caller

open Memory.Number

/-- What the first `n` variables own. -/
def OwnVars (h : Nat → Option Number) : Nat → Assn World
  | 0 => emp
  | n + 1 => OwnO (h n) ⋆ OwnVars h n

theorem ownVars_local (h : Nat → Option Number) (n : Nat) : Local (OwnVars h n) := by
  induction n with
  | zero => exact emp_local
  | succ n ih => exact star_local (ownO_local _) ih

theorem ownVars_congr {h h' : Nat → Option Number} {n : Nat} (e : ∀ i < n, h' i = h i) :
    OwnVars h' n = OwnVars h n := by
  induction n with
  | zero => rfl
  | succ n ih => rw [OwnVars, OwnVars, ih fun i hi => e i (by omega), e n (by omega)]

/-- One variable apart from the others. -/
theorem ownVars_split {h h' : Nat → Option Number} {n x : Nat} (hx : x < n) (h1 : h' x = none)
    (h2 : ∀ i, i ≠ x → h' i = h i) {w : World} {fp : Finset ℕ} :
    OwnVars h n w fp ↔ (OwnVars h' n ⋆ OwnO (h x)) w fp := by
  induction n generalizing fp with
  | zero => omega
  | succ n ih =>
    by_cases e : x = n
    · subst e
      rw [OwnVars, OwnVars, h1, ownVars_congr fun i hi => h2 i (by omega)]
      constructor
      · exact fun h => star_comm.1 (star_mono (fun _ h => h) (fun _ h => emp_star.2 h) h)
      · exact fun h => star_mono (fun _ h => h) (fun _ h => emp_star.1 h) (star_comm.1 h)
    · rw [OwnVars, OwnVars, h2 n (by omega)]
      constructor
      · exact fun h => star_assoc.2 (star_mono (fun _ h => h) (fun _ h => (ih (by omega)).1 h) h)
      · exact fun h => star_mono (fun _ h => h) (fun _ h => (ih (by omega)).2 h) (star_assoc.1 h)

/-- What the caller owns. -/
def owns : Assn Caller := fun c fp =>
  (∀ i, c.next ≤ i → c.held i = none) ∧ OwnVars c.held c.next c.world fp

theorem move_tri (x : Nat) {J : Assn Caller} :
    Tri 0 owns (Caller.move x) J (fun o => owns ⋆ OwnO o) := by
  rintro c fp ⟨h1, h2⟩ hR
  refine ⟨fp, ?_, .refl hR⟩
  have h3 : ∀ i, i ≠ x → (c.set x none).held i = c.held i := fun i hi => if_neg hi
  have h4 : (c.set x none).held x = none := if_pos rfl
  have h5 : ∀ i, c.next ≤ i → (c.set x none).held i = none := by
    intro i hi
    by_cases e : i = x
    · rw [e, h4]
    · rw [h3 i e, h1 i hi]
  by_cases hx : x < c.next
  · obtain ⟨f, g, h6, h7, h8, rfl⟩ := (ownVars_split hx h4 h3).1 h2
    exact ⟨f, g, ⟨h5, h6⟩, h7, h8, rfl⟩
  · rw [h1 x (by omega)]
    refine star_emp.2 ⟨h5, ?_⟩
    rw [show (c.set x none).next = c.next from rfl,
      ownVars_congr (h := c.held) fun i hi => h3 i (by omega)]
    exact h2

theorem keep_tri (v : Number) {J : Assn Caller} :
    Tri 0 (owns ⋆ OwnN v) (Caller.keep v) J (fun _ => owns) := by
  rintro c fp ⟨f, g, ⟨h1, h2⟩, h3, h4, rfl⟩ hR
  refine ⟨f ∪ g, ⟨?_, ?_⟩, .refl hR⟩
  · intro i hi
    show (if i = c.next then some v else c.held i) = none
    have hi' : c.next + 1 ≤ i := hi
    rw [if_neg (by omega), h1 i (by omega)]
  · show (OwnO (if c.next = c.next then some v else c.held c.next) ⋆
      OwnVars (fun i => if i = c.next then some v else c.held i) c.next) c.world (f ∪ g)
    rw [if_pos rfl, ownVars_congr (h := c.held) fun i hi => if_neg (by omega)]
    exact star_comm.1 ⟨f, g, h2, h3, h4, rfl⟩

theorem onWorld_tri {α : Type} {e : ℕ} {P : Assn World} {m : Mut World α} {R : α → Assn World}
    (h : Tri e P m emp R) :
    Tri e (owns ⋆ P) (Caller.onWorld m) owns (fun a => owns ⋆ R a) := by
  rintro c fp ⟨f, g, ⟨h1, h2⟩, h3, h4, rfl⟩ hR
  have h5 := h.frame (ownVars_local c.held c.next) c.world (f ∪ g)
    ⟨g, f, h3, h2, h4.symm, Finset.union_comm _ _⟩ hR
  unfold Caller.onWorld Mut.part
  revert h5
  generalize m c.world = q
  obtain ⟨q, t⟩ := q
  cases q with
  | ok a =>
    rintro ⟨fp', ⟨f', g', h5, h6, h7, rfl⟩, h8⟩
    exact ⟨_, ⟨g', f', ⟨h1, h6⟩, h5, h7.symm, Finset.union_comm _ _⟩, h8⟩
  | panic p => exact fun ⟨fp', h5, h8⟩ => ⟨fp', ⟨h1, emp_star.1 h5⟩, h8⟩
  | shared => exact id
  | timeout => exact id

theorem make_tri {e : ℕ} {P : Assn World} {m : Mut World Number} (h : Tri e P m emp OwnN) :
    Tri e (owns ⋆ P) (Caller.make m) owns (fun _ => owns) :=
  (onWorld_tri h).bind_add (e₂ := 0) (fun v => (keep_tri v).bind fun _ => .pure fun _ _ h => h)
    (by omega)

theorem egestAt_tri (cfg : Cfg) (f x : Nat) :
    Tri 0 owns (egestAt cfg out f x) owns (fun _ => owns) := by
  rintro c fp ⟨h1, h2⟩ hR
  unfold egestAt
  have h3 : ∀ i, i ≠ x → (c.set x none).held i = c.held i := fun i hi => if_neg hi
  have h4 : (c.set x none).held x = none := if_pos rfl
  rcases hx : c.held x with _ | _ | ⟨p, o⟩
  · exact ⟨fp, ⟨h1, h2⟩, .refl hR⟩
  · exact ⟨fp, ⟨h1, h2⟩, .refl hR⟩
  · have hlt : x < c.next := by
      by_contra hn
      rw [h1 x (by omega)] at hx
      cases hx
    rw [ownVars_split hlt h4 h3, hx] at h2
    have h5 := (egest_keeps (out := out) cfg f).frame (ownVars_local (c.set x none).held c.next)
      (o, c.world) fp (star_comm.1 h2) hR
    dsimp only
    revert h5
    generalize egest cfg out f (o, c.world) = q
    obtain ⟨q, o', t⟩ := q
    have back : ∀ {fp'}, ((fun s : Obj × World => Own s.2 s.1) ⋆
        OwnVars (c.set x none).held c.next) (o', t) fp' →
        owns { c.set x (some (.Other p o')) with world := t } fp' := by
      intro fp' h
      refine ⟨?_, ?_⟩
      · intro i hi
        have hi' : c.next ≤ i := hi
        show (if i = x then _ else c.held i) = none
        rw [if_neg (by omega), h1 i hi']
      · refine (ownVars_split (h' := (c.set x none).held) hlt h4 ?_).2 ?_
        · intro i hi
          show (if i = x then _ else c.held i) = if i = x then _ else c.held i
          rw [if_neg hi, if_neg hi]
        · show (OwnVars (c.set x none).held c.next ⋆ OwnO (if x = x then _ else _)) t fp'
          rw [if_pos rfl]
          obtain ⟨f, g, h5, h6, h7, rfl⟩ := h
          exact ⟨g, f, h6, h5, h7.symm, Finset.union_comm _ _⟩
    cases q with
    | ok a => exact fun ⟨fp', h5, h6⟩ => ⟨fp', back h5, h6⟩
    | panic a => exact fun ⟨fp', h5, h6⟩ => ⟨fp', back h5, h6⟩
    | shared => exact id
    | timeout => exact id

/-- How many allocations a call may add. -/
def cost : Call → ℕ
  | .combine .. => 2
  | _ => 0

theorem refuse_tri (x : Number) : Tri 0 (owns ⋆ OwnN x) (do
    Caller.onWorld (modify (releaseNumber x))
    pure Answer.refused) owns (fun _ => owns) :=
  (onWorld_tri ((drops_number x).modify (R := fun _ => emp))).bind fun _ =>
    .pure fun _ _ h => star_emp.1 h

theorem call_tri (cfg : Cfg) (f : Nat) (a : Call) :
    Tri (cost a) owns (call cfg out f a) owns (fun _ => owns) := by
  cases a with
  | ratio num den =>
    exact (make_tri (ratio_tri cfg num den)).conseq (fun _ _ h => star_emp.2 h) (fun _ _ h => h)
      fun _ _ _ h => h
  | ratioU b num den =>
    exact (make_tri (ratioU_tri b num den)).conseq (fun _ _ h => star_emp.2 h) (fun _ _ h => h)
      fun _ _ _ h => h
  | homographic x nx n dx d =>
    refine (move_tri x).bind fun o => ?_
    rcases o with _ | x
    · exact .pure fun _ _ h => star_emp.1 h
    · exact make_tri (homographic_tri cfg f x nx n dx d)
  | combine x y nxy nx ny n dxy dx dy d =>
    refine (move_tri x).bind fun o => ?_
    rcases o with _ | x
    · exact Tri.weaken (e₁ := 0) (.pure fun _ _ h => star_emp.1 h) (by simp)
    · refine (((move_tri y (J := fun _ _ => False)).frame (ownN_local x)).conseq (J' := owns)
        (fun _ _ h => h) (fun _ _ ⟨_, _, h, _⟩ => h.elim) fun _ _ _ h => h).bind fun o => ?_
      rcases o with _ | y
      · exact ((refuse_tri x).conseq (fun _ _ h => star_mono (fun _ h => star_emp.1 h)
          (fun _ h => h) h) (fun _ _ h => h) fun _ _ _ h => h).weaken (by simp)
      · exact (make_tri (combine_tri cfg f x y nxy nx ny n dxy dx dy d)).conseq
          (fun _ _ h => star_mono (fun _ h => h) (fun _ h => star_comm.1 h) (star_assoc.1 h))
          (fun _ _ h => h) fun _ _ _ h => h
  | egest x => exact egestAt_tri cfg f x
  | consume x =>
    refine (move_tri x).bind fun o => ?_
    rcases o with _ | x
    · exact .pure fun _ _ h => star_emp.1 h
    · refine (onWorld_tri (consume_tri cfg f x)).bind ?_
      rintro ⟨_ | y, k⟩
      · exact .pure fun _ _ h => star_emp.1 h
      · exact (keep_tri y).bind fun _ => .pure fun _ _ h => h
  | compare x y =>
    refine (move_tri x).bind fun o => ?_
    rcases o with _ | x
    · exact .pure fun _ _ h => star_emp.1 h
    · refine (((move_tri y (J := fun _ _ => False)).frame (ownN_local x)).conseq (J' := owns)
        (fun _ _ h => h) (fun _ _ ⟨_, _, h, _⟩ => h.elim) fun _ _ _ h => h).bind fun o => ?_
      rcases o with _ | y
      · exact (refuse_tri x).conseq (fun _ _ h => star_mono (fun _ h => star_emp.1 h)
          (fun _ h => h) h) (fun _ _ h => h) fun _ _ _ h => h
      · refine Tri.bind ((onWorld_tri (compare_tri cfg f x y)).conseq
          (fun _ _ h => star_mono (fun _ h => h) (fun _ h => star_comm.1 h) (star_assoc.1 h))
          (fun _ _ h => h) fun _ _ _ h => h) fun _ => .pure fun _ _ h => star_emp.1 h
  | special s =>
    exact (make_tri (P := emp) (m := pure (.Special s)) (.pure fun _ _ h => h)).conseq (fun _ _ h => star_emp.2 h)
      (fun _ _ h => h) fun _ _ _ h => h
  | reprime x p =>
    refine (move_tri x).bind fun o => ?_
    rcases o with _ | x
    · exact .pure fun _ _ h => star_emp.1 h
    · exact make_tri (reprime_tri x p)
  | unwrapSpecial x =>
    refine (move_tri x).bind fun o => ?_
    rcases o with _ | x
    · exact .pure fun _ _ h => star_emp.1 h
    · exact (onWorld_tri (unwrapSpecial_tri x)).bind fun _ => .pure fun _ _ h => star_emp.1 h

theorem drop_drops (x : Nat) : Drops owns (drop x) owns := by
  intro c fp h hR
  have h1 := move_tri x (J := fun _ _ => False) c fp h hR
  obtain ⟨fp', h2, h3⟩ := h1
  unfold drop
  rcases hx : c.held x with _ | v
  · exact ⟨fp, h, .refl hR⟩
  · rw [hx] at h2
    have h4 := onWorld_tri ((drops_number v).modify (R := fun _ => emp)) (c.set x none) fp' h2
      h3.room
    obtain ⟨fp2, h5, h6⟩ := h4
    exact ⟨fp2, star_emp.1 h5, h3.trans h6⟩

/-- The caller owns all there is. -/
def Whole (c : Caller) (fp : Finset ℕ) : Prop :=
  owns c fp ∧ Room c.world fp ∧ ∀ n, n ∉ fp → c.world.cells n = none

theorem whole_start : Whole Caller.start ∅ :=
  ⟨⟨fun _ _ => rfl, rfl⟩, ⟨fun _ h => by simp at h, fun _ _ => rfl⟩, fun _ _ => rfl⟩

theorem Whole.step {c c' : Caller} {fp fp' : Finset ℕ} {e : ℕ} (h : Whole c fp) (h1 : owns c' fp')
    (h2 : Tidy e c.world fp c'.world fp') : Whole c' fp' := by
  refine ⟨h1, h2.room, fun n hn => ?_⟩
  by_cases hp : n ∈ fp
  · exact h2.freed n (.inl hp) hn
  · by_cases hf : n < c.world.fresh
    · rw [h2.frame n hf hp]
      exact h.2.2 n hp
    · exact h2.freed n (.inr (by omega)) hn

/-- How many allocations some events may add. -/
def total : List Event → ℕ
  | [] => 0
  | .drop _ :: l => total l
  | .call a :: l => cost a + total l

/-- No call ever finds a shared pointer, and the caller owns all there is, whenever the calls end. -/
theorem run_whole (cfg : Cfg) (f : Nat) (l : List Event) {c : Caller} {fp : Finset ℕ}
    (h : Whole c fp) : .shared ∉ (run cfg out f l c).1 ∧ (.timeout ∉ (run cfg out f l c).1 →
      ∃ fp', Whole (run cfg out f l c).2 fp' ∧ fp'.card ≤ fp.card + total l) := by
  induction l generalizing c fp with
  | nil => exact ⟨by simp [run], fun _ => ⟨fp, h, by simp [total]⟩⟩
  | cons e l ih =>
    cases e with
    | drop x =>
      obtain ⟨fp', h1, h2⟩ := drop_drops x c fp h.1 h.2.1
      obtain ⟨h3, h4⟩ := ih (h.step h1 h2)
      refine ⟨h3, fun h5 => ?_⟩
      obtain ⟨fp2, h6, h7⟩ := h4 h5
      have := h2.card
      exact ⟨fp2, h6, by simp only [total]; omega⟩
    | call a =>
      have h1 := call_tri (out := out) cfg f a c fp h.1 h.2.1
      unfold run
      revert h1
      generalize call cfg out f a c = q
      obtain ⟨q, t⟩ := q
      have next : ∀ r : Res Answer, r ≠ .shared → r ≠ .timeout → ∀ fp' : Finset ℕ, owns t fp' →
          Tidy (cost a) c.world fp t.world fp' →
          .shared ∉ r :: (run cfg out f l t).1 ∧ (.timeout ∉ r :: (run cfg out f l t).1 →
            ∃ fp', Whole (run cfg out f l t).2 fp' ∧ fp'.card ≤ fp.card + total (.call a :: l)) := by
        intro r hr hr' fp' h1 h2
        obtain ⟨h3, h4⟩ := ih (h.step h1 h2)
        refine ⟨?_, fun h5 => ?_⟩
        · rw [List.mem_cons, not_or]
          exact ⟨hr.symm, h3⟩
        · rw [List.mem_cons, not_or] at h5
          obtain ⟨fp2, h6, h7⟩ := h4 h5.2
          have := h2.card
          exact ⟨fp2, h6, by simp only [total]; omega⟩
      cases q with
      | ok b => exact fun ⟨fp', h1, h2⟩ => next _ (by simp) (by simp) fp' h1 h2
      | panic b => exact fun ⟨fp', h1, h2⟩ => next _ (by simp) (by simp) fp' h1 h2
      | shared => exact fun h => h.elim
      | timeout => exact fun _ => ⟨by simp, fun h => absurd (List.mem_singleton.2 rfl) h⟩

end Caller

end Memory
end Clarith.Steps
