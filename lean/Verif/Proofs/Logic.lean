import Verif.Spec
import Mathlib.Tactic.Linarith
import Mathlib.Tactic.Ring
import Mathlib.Tactic.FieldSimp
import Mathlib.Algebra.Order.Ring.Abs

/-! # A small program logic for outcomes -/

namespace Clarith

namespace Out

@[simp] theorem pure_eq {α : Type} (a : α) : (pure a : Out α) = .ok a := rfl
@[simp] theorem ok_bind {α β : Type} (a : α) (g : α → Out β) : (Out.ok a >>= g) = g a := rfl
@[simp] theorem panic_bind {α β : Type} (p : Panic) (g : α → Out β) :
    ((Out.panic p : Out α) >>= g) = .panic p := rfl
@[simp] theorem timeout_bind {α β : Type} (g : α → Out β) :
    ((Out.timeout : Out α) >>= g) = .timeout := rfl

/-- `o` is a value satisfying `P` or a panic in `A`. -/
def Sat {α : Type} (A : Panic → Prop) (o : Out α) (P : α → Prop) : Prop :=
  match o with
  | .ok a => P a
  | .panic p => A p
  | .timeout => False

theorem Sat.ok {α : Type} {A : Panic → Prop} {a : α} {P : α → Prop} (h : P a) :
    Sat A (.ok a) P := h

theorem Sat.pure {α : Type} {A : Panic → Prop} {a : α} {P : α → Prop} (h : P a) :
    Sat A (Pure.pure a) P := h

theorem Sat.bind {α β : Type} {A : Panic → Prop} {m : Out α} {g : α → Out β} {Q : α → Prop}
    {P : β → Prop} (hm : Sat A m Q) (hg : ∀ a, Q a → Sat A (g a) P) : Sat A (m >>= g) P := by
  cases m with
  | ok a => exact hg a hm
  | panic p => exact hm
  | timeout => exact hm.elim

theorem Sat.andAlso {A : Panic → Prop} {a b : Out Bool} {p q : Prop}
    (ha : Sat A a (fun r => r = true ↔ p)) (hb : p → Sat A b (fun r => r = true ↔ q)) :
    Sat A (Out.and a b) (fun r => r = true ↔ p ∧ q) := by
  unfold Out.and
  refine Sat.bind ha ?_
  intro r hr
  by_cases h : r = true
  · rw [if_pos h]
    have hb' := hb (hr.1 h)
    cases b with
    | ok s => exact (show s = true ↔ q from hb').trans ⟨fun h' => ⟨hr.1 h, h'⟩, fun h' => h'.2⟩
    | panic p => exact hb'
    | timeout => exact hb'.elim
  · rw [if_neg h]
    refine Sat.pure ?_
    simp only [Bool.false_eq_true, false_iff]
    exact fun h' => h (hr.2 h'.1)

theorem Sat.notB {A : Panic → Prop} {a : Out Bool} {p : Prop}
    (ha : Sat A a (fun r => r = false ↔ p)) : Sat A (Out.not a) (fun r => r = true ↔ p) := by
  unfold Out.not
  refine Sat.bind ha ?_
  intro r hr
  refine Sat.pure ?_
  rw [← hr]; simp

theorem Sat.mono {α : Type} {A : Panic → Prop} {m : Out α} {P Q : α → Prop}
    (hm : Sat A m P) (h : ∀ a, P a → Q a) : Sat A m Q := by
  cases m with
  | ok a => exact h a hm
  | panic p => exact hm
  | timeout => exact hm.elim

theorem Sat.weaken {α : Type} {A B : Panic → Prop} {m : Out α} {P : α → Prop}
    (hm : Sat A m P) (h : ∀ p, A p → B p) : Sat B m P := by
  cases m with
  | ok a => exact hm
  | panic p => exact h p hm
  | timeout => exact hm.elim

theorem Sat.and {α : Type} {A : Panic → Prop} {m : Out α} {P Q : α → Prop}
    (h1 : Sat A m P) (h2 : Sat A m Q) : Sat A m (fun a => P a ∧ Q a) := by
  cases m with
  | ok a => exact ⟨h1, h2⟩
  | panic p => exact h1
  | timeout => exact h1.elim

end Out

open Out

/-! ## Safe integer results -/

/-- Producing `z` gives `z` in both kinds of operations, up to panics in `A`. -/
def Cfg.Safe (cfg : Cfg) (A : Panic → Prop) (z : Int) : Prop :=
  cfg.Fits z ∨ (A .unwrapNone ∧ A .arithOverflow ∧ cfg.overflowChecks = true)

theorem Cfg.checked_sat {cfg : Cfg} {A : Panic → Prop} {z : Int} (h : cfg.Safe A z) :
    Sat A (cfg.checked z) (fun r => r = z ∧ cfg.Fits z) := by
  unfold Cfg.checked
  by_cases hz : cfg.Fits z
  · simp [hz, Sat]
  · rcases h with h | ⟨h1, _, _⟩
    · exact absurd h hz
    · simpa [hz, Sat] using h1

theorem Cfg.unchecked_sat {cfg : Cfg} {A : Panic → Prop} {z : Int} (h : cfg.Safe A z) :
    Sat A (cfg.unchecked z) (fun r => r = z ∧ cfg.Fits z) := by
  unfold Cfg.unchecked
  by_cases hz : cfg.Fits z
  · simp [hz, Sat]
  · rcases h with h | ⟨_, h1, h2⟩
    · exact absurd h hz
    · simpa [hz, Sat, h2] using h1

theorem Cfg.cadd_sat {cfg : Cfg} {A} {x y : Int} (h : cfg.Safe A (x + y)) :
    Sat A (cfg.cadd x y) (fun r => r = x + y ∧ cfg.Fits (x + y)) := Cfg.checked_sat h
theorem Cfg.csub_sat {cfg : Cfg} {A} {x y : Int} (h : cfg.Safe A (x - y)) :
    Sat A (cfg.csub x y) (fun r => r = x - y ∧ cfg.Fits (x - y)) := Cfg.checked_sat h
theorem Cfg.cmul_sat {cfg : Cfg} {A} {x y : Int} (h : cfg.Safe A (x * y)) :
    Sat A (cfg.cmul x y) (fun r => r = x * y ∧ cfg.Fits (x * y)) := Cfg.checked_sat h
theorem Cfg.neg_sat {cfg : Cfg} {A} {x : Int} (h : cfg.Safe A (-x)) :
    Sat A (cfg.neg x) (fun r => r = -x ∧ cfg.Fits (-x)) := Cfg.unchecked_sat h
theorem Cfg.add_sat {cfg : Cfg} {A} {x y : Int} (h : cfg.Safe A (x + y)) :
    Sat A (cfg.add x y) (fun r => r = x + y ∧ cfg.Fits (x + y)) := Cfg.unchecked_sat h
theorem Cfg.mul_sat {cfg : Cfg} {A} {x y : Int} (h : cfg.Safe A (x * y)) :
    Sat A (cfg.mul x y) (fun r => r = x * y ∧ cfg.Fits (x * y)) := Cfg.unchecked_sat h

/-- Producing `z` by a checked operation gives `z`, up to panics in `A`. -/
def Cfg.CheckSafe (cfg : Cfg) (A : Panic → Prop) (z : Int) : Prop :=
  cfg.Fits z ∨ A .unwrapNone

theorem Cfg.cmul_sat' {cfg : Cfg} {A} {x y : Int} (h : cfg.CheckSafe A (x * y)) :
    Sat A (cfg.cmul x y) (fun r => r = x * y ∧ cfg.Fits (x * y)) := by
  unfold Cfg.cmul Cfg.checked
  by_cases hz : cfg.Fits (x * y)
  · simp [hz, Sat]
  · rcases h with h | h1
    · exact absurd h hz
    · simpa [hz, Sat] using h1

/-- All integers up to `4 * M` in magnitude are safe, and up to `M * M` in checked operations. -/
def Cfg.SafeUpTo (cfg : Cfg) (A : Panic → Prop) (M : Int) : Prop :=
  (∀ z : Int, |z| ≤ 4 * M → cfg.Safe A z) ∧ (∀ z : Int, |z| ≤ M * M → cfg.CheckSafe A z)

theorem Cfg.SafeUpTo.mono {cfg : Cfg} {A} {M M' : Int} (h : cfg.SafeUpTo A M') (h0 : 0 ≤ M)
    (hM : M ≤ M') : cfg.SafeUpTo A M := by
  refine ⟨fun z hz => h.1 z ?_, fun z hz => h.2 z ?_⟩
  · linarith
  · nlinarith

theorem safeUpTo_overflow {cfg : Cfg} (hc : cfg.overflowChecks = true) (M : Int) :
    cfg.SafeUpTo Overflow M :=
  ⟨fun _ _ => Or.inr ⟨Or.inl rfl, Or.inr rfl, hc⟩, fun _ _ => Or.inr (Or.inl rfl)⟩

/-! ## Eventual outcomes over two fuels -/

/-- For all large enough fuels (of the nested `egest` and of the loop), the outcome is a
fixed value satisfying `P`, or a fixed panic in `A`. -/
def Ev {α : Type} (A : Panic → Prop) (m : Nat → Nat → Out α) (P : α → Prop) : Prop :=
  (∃ a, P a ∧ ∃ f₀, ∀ f ≥ f₀, ∀ j ≥ f₀, m f j = .ok a) ∨
  (∃ p, A p ∧ ∃ f₀, ∀ f ≥ f₀, ∀ j ≥ f₀, m f j = .panic p)

theorem Ev.of_sat {α : Type} {A : Panic → Prop} {o : Out α} {P : α → Prop} (h : Sat A o P) :
    Ev A (fun _ _ => o) P := by
  cases o with
  | ok a => exact .inl ⟨a, h, 0, fun _ _ _ _ => rfl⟩
  | panic p => exact .inr ⟨p, h, 0, fun _ _ _ _ => rfl⟩
  | timeout => exact h.elim

theorem Ev.pure {α : Type} {A : Panic → Prop} {a : α} {P : α → Prop} (h : P a) :
    Ev A (fun _ _ => (Pure.pure a : Out α)) P := Ev.of_sat (Sat.pure h)

theorem Ev.bind {α β : Type} {A : Panic → Prop} {m : Nat → Nat → Out α}
    {g : Nat → Nat → α → Out β} {Q : α → Prop} {P : β → Prop}
    (hm : Ev A m Q) (hg : ∀ a, Q a → Ev A (fun f j => g f j a) P) :
    Ev A (fun f j => m f j >>= g f j) P := by
  rcases hm with ⟨a, ha, f₀, h⟩ | ⟨p, hp, f₀, h⟩
  · rcases hg a ha with ⟨b, hb, f₁, h'⟩ | ⟨p, hp, f₁, h'⟩
    · refine .inl ⟨b, hb, max f₀ f₁, fun f hf j hj => ?_⟩
      simp [h f (by omega) j (by omega), h' f (by omega) j (by omega)]
    · refine .inr ⟨p, hp, max f₀ f₁, fun f hf j hj => ?_⟩
      simp [h f (by omega) j (by omega), h' f (by omega) j (by omega)]
  · exact .inr ⟨p, hp, f₀, fun f hf j hj => by simp [h f hf j hj]⟩

theorem Ev.bind_sat {α β : Type} {A : Panic → Prop} {m : Out α}
    {g : Nat → Nat → α → Out β} {Q : α → Prop} {P : β → Prop}
    (hm : Sat A m Q) (hg : ∀ a, Q a → Ev A (fun f j => g f j a) P) :
    Ev A (fun f j => m >>= g f j) P := Ev.bind (Ev.of_sat hm) hg

theorem Ev.mono {α : Type} {A : Panic → Prop} {m : Nat → Nat → Out α} {P Q : α → Prop}
    (hm : Ev A m P) (h : ∀ a, P a → Q a) : Ev A m Q := by
  rcases hm with ⟨a, ha, r⟩ | r
  · exact .inl ⟨a, h a ha, r⟩
  · exact .inr r

theorem Ev.weaken {α : Type} {A B : Panic → Prop} {m : Nat → Nat → Out α} {P : α → Prop}
    (hm : Ev A m P) (h : ∀ p, A p → B p) : Ev B m P := by
  rcases hm with r | ⟨p, hp, r⟩
  · exact .inl r
  · exact .inr ⟨p, h p hp, r⟩

/-- One unrolling of a loop. -/
theorem Ev.succ {α : Type} {A : Panic → Prop} {m : Nat → Nat → Out α} {P : α → Prop}
    (h : Ev A (fun f j => m f (j + 1)) P) : Ev A m P := by
  rcases h with ⟨a, ha, f₀, h⟩ | ⟨a, ha, f₀, h⟩
  · refine .inl ⟨a, ha, f₀ + 1, fun f hf j hj => ?_⟩
    obtain ⟨j, rfl⟩ : ∃ i, j = i + 1 := ⟨j - 1, by omega⟩
    exact h f (by omega) j (by omega)
  · refine .inr ⟨a, ha, f₀ + 1, fun f hf j hj => ?_⟩
    obtain ⟨j, rfl⟩ : ∃ i, j = i + 1 := ⟨j - 1, by omega⟩
    exact h f (by omega) j (by omega)

/-- The two fuels may be chosen equal. -/
theorem Ev.ends {α : Type} {A : Panic → Prop} {m : Nat → Nat → Out α} {P : α → Prop}
    (h : Ev A m P) : Ends A (fun f => m f f) P := by
  rcases h with ⟨a, ha, f₀, h⟩ | ⟨a, ha, f₀, h⟩
  · exact .inl ⟨a, ⟨f₀, fun f hf => h f hf f hf⟩, ha⟩
  · exact .inr ⟨a, ⟨f₀, fun f hf => h f hf f hf⟩, ha⟩

theorem Ends.ev {α : Type} {A : Panic → Prop} {m : Nat → Out α} {P : α → Prop}
    (h : Ends A m P) : Ev A (fun f _ => m f) P := by
  rcases h with ⟨a, ⟨f₀, h⟩, ha⟩ | ⟨a, ⟨f₀, h⟩, ha⟩
  · exact .inl ⟨a, ha, f₀, fun f hf _ _ => h f hf⟩
  · exact .inr ⟨a, ha, f₀, fun f hf _ _ => h f hf⟩

/-- The diagonal of two fuels as a function of the first one only. -/
theorem Ev.diag {α : Type} {A : Panic → Prop} {m : Nat → Nat → Out α} {P : α → Prop}
    (h : Ev A m P) : Ev A (fun f _ => m f f) P := h.ends.ev

/-- The outer fuel may be shifted by one. -/
theorem Ev.succ_outer {α : Type} {A : Panic → Prop} {m : Nat → Out α} {P : α → Prop}
    (h : Ev A (fun f _ => m (f + 1)) P) : Ev A (fun f _ => m f) P := by
  rcases h with ⟨a, ha, f₀, h⟩ | ⟨a, ha, f₀, h⟩
  · refine .inl ⟨a, ha, f₀ + 1, fun f hf j hj => ?_⟩
    obtain ⟨f, rfl⟩ : ∃ i, f = i + 1 := ⟨f - 1, by omega⟩
    exact h f (by omega) j (by omega)
  · refine .inr ⟨a, ha, f₀ + 1, fun f hf j hj => ?_⟩
    obtain ⟨f, rfl⟩ : ∃ i, f = i + 1 := ⟨f - 1, by omega⟩
    exact h f (by omega) j (by omega)

theorem Ends.mono {α : Type} {A : Panic → Prop} {m : Nat → Out α} {P Q : α → Prop}
    (hm : Ends A m P) (h : ∀ a, P a → Q a) : Ends A m Q := by
  rcases hm with ⟨a, r, ha⟩ | r
  · exact .inl ⟨a, r, h a ha⟩
  · exact .inr r

theorem Ends.weaken {α : Type} {A B : Panic → Prop} {m : Nat → Out α} {P : α → Prop}
    (hm : Ends A m P) (h : ∀ p, A p → B p) : Ends B m P := by
  rcases hm with r | ⟨p, r, hp⟩
  · exact .inl r
  · exact .inr ⟨p, r, h p hp⟩

theorem Ends.bind {α β : Type} {A : Panic → Prop} {m : Nat → Out α}
    {g : Nat → α → Out β} {Q : α → Prop} {P : β → Prop}
    (hm : Ends A m Q) (hg : ∀ a, Q a → Ends A (fun f => g f a) P) :
    Ends A (fun f => m f >>= g f) P :=
  (Ev.bind (g := fun f _ => g f) hm.ev fun a ha => (hg a ha).ev).ends

theorem Ends.of_sat {α : Type} {A : Panic → Prop} {o : Out α} {P : α → Prop} (h : Sat A o P) :
    Ends A (fun _ => o) P := (Ev.of_sat h).ends

theorem Returns.unique {α : Type} {m : Nat → Out α} {a b : α} (h1 : Returns m a)
    (h2 : Returns m b) : a = b := by
  obtain ⟨f1, h1⟩ := h1; obtain ⟨f2, h2⟩ := h2
  have := (h1 (max f1 f2) (by omega)).symm.trans (h2 (max f1 f2) (by omega))
  simpa using this

theorem Returns.not_panics {α : Type} {m : Nat → Out α} {a : α} {p} (h1 : Returns m a)
    (h2 : Panics m p) : False := by
  obtain ⟨f1, h1⟩ := h1; obtain ⟨f2, h2⟩ := h2
  have := (h1 (max f1 f2) (by omega)).symm.trans (h2 (max f1 f2) (by omega))
  simp at this

theorem Panics.unique {α : Type} {m : Nat → Out α} {p q} (h1 : Panics m p)
    (h2 : Panics m q) : p = q := by
  obtain ⟨f1, h1⟩ := h1; obtain ⟨f2, h2⟩ := h2
  have := (h1 (max f1 f2) (by omega)).symm.trans (h2 (max f1 f2) (by omega))
  simpa using this

end Clarith
