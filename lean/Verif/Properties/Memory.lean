import Verif.Proofs.MemorySafe
import Verif.Proofs.MemoryTwin
import Verif.Properties.Session

/-! # Memory is given back (C84)

A caller makes any calls, catches every panic, and drops numbers when it likes.  What is allocated is
then exactly what its variables point to. -/

namespace Clarith

open Steps Steps.Memory

/-! ## Specification -/

/-- A clog points to an allocation, directly or through others. -/
inductive Spec.Points (w : World) : Obj → ℕ → Prop
  | inside {x : Obj} {n : ℕ} (k : Coef4) (h : Spec.Points w x n) :
    Spec.Points w (.homographic x k) n
  | left (i j : ℕ) (k : Coef8) : Spec.Points w (.combine i j k) i
  | right (i j : ℕ) (k : Coef8) : Spec.Points w (.combine i j k) j
  | behindLeft {i n : ℕ} {c : Cell} (j : ℕ) (k : Coef8) (e : w.cells i = some c)
    (h : Spec.Points w c.val n) : Spec.Points w (.combine i j k) n
  | behindRight {j n : ℕ} {c : Cell} (i : ℕ) (k : Coef8) (e : w.cells j = some c)
    (h : Spec.Points w c.val n) : Spec.Points w (.combine i j k) n

/-- The number in the variable `v` points to an allocation. -/
def Spec.Holds (c : Caller) (v n : ℕ) : Prop :=
  ∃ p o, c.held v = some (.Other p o) ∧ Spec.Points c.world o n

/-- How often `combine` is called. -/
def Spec.combines : List Caller.Event → ℕ
  | [] => 0
  | .call (.combine ..) :: l => Spec.combines l + 1
  | _ :: l => Spec.combines l

/-- What a caller sees in `Model/Steps.lean`, where nothing is freed: a variable that goes out of scope
is forgotten. -/
def Spec.forgetful (cfg : Cfg) (f : ℕ) :
    List Caller.Event → Caller → List (Res Answer) × Caller
  | [], c => ([], c)
  | .drop x :: l, c => Spec.forgetful cfg f l (c.set x none)
  | .call a :: l, c =>
    match Steps.Caller.call cfg f a c with
    | (.timeout, c) => ([.timeout], c)
    | (r, c) =>
      let rest := Spec.forgetful cfg f l c
      (r :: rest.1, rest.2)

/-! ## Proofs -/

theorem own_points {w : World} {o : Obj} {fp : Finset ℕ} (h : Own w o fp) (n : ℕ) :
    n ∈ fp ↔ Spec.Points w o n := by
  induction h with
  | ratio r => exact ⟨fun h => by simp at h, fun h => by cases h⟩
  | homographic k h ih =>
    rw [ih]
    exact ⟨.inside k, fun h => by cases h; assumption⟩
  | @combine i j ox oy fx fy k hi rx ix hj ry jy sep ihx ihy =>
    rw [Finset.mem_union, Finset.mem_insert, Finset.mem_insert, ihx, ihy]
    constructor
    · rintro ((rfl | h) | (rfl | h))
      · exact .left _ _ _
      · exact .behindLeft j k hi h
      · exact .right _ _ _
      · exact .behindRight i k hj h
    · intro h
      cases h with
      | left => exact .inl (.inl rfl)
      | right => exact .inr (.inl rfl)
      | behindLeft _ _ e h =>
        rw [hi] at e
        cases e
        exact .inl (.inr h)
      | behindRight _ _ e h =>
        rw [hj] at e
        cases e
        exact .inr (.inr h)

theorem ownO_points {w : World} {v : Option Steps.Number} {fp : Finset ℕ}
    (h : Memory.Number.OwnO v w fp) (n : ℕ) :
    n ∈ fp ↔ ∃ p o, v = some (.Other p o) ∧ Spec.Points w o n := by
  rcases v with _ | _ | ⟨p, o⟩
  · obtain rfl : fp = ∅ := h
    simp
  · obtain rfl : fp = ∅ := h
    simp
  · rw [own_points h]
    constructor
    · exact fun h => ⟨p, o, rfl, h⟩
    · rintro ⟨_, _, e, h⟩
      cases e
      exact h

theorem own_count {w : World} {o : Obj} {fp : Finset ℕ} (h : Own w o fp) {n : ℕ} (hn : n ∈ fp) :
    ∃ o', w.cells n = some ⟨1, o'⟩ := by
  induction h with
  | ratio r => simp at hn
  | homographic k h ih => exact ih hn
  | combine k hi rx ix hj ry jy sep ihx ihy =>
    rw [Finset.mem_union, Finset.mem_insert, Finset.mem_insert] at hn
    rcases hn with (rfl | hn) | (rfl | hn)
    · exact ⟨_, hi⟩
    · exact ihx hn
    · exact ⟨_, hj⟩
    · exact ihy hn

theorem ownVars_points {w : World} {h : ℕ → Option Steps.Number} {m : ℕ} {fp : Finset ℕ}
    (hv : Memory.Caller.OwnVars h m w fp) :
    (∀ n, n ∈ fp ↔ ∃ v < m, ∃ p o, h v = some (.Other p o) ∧ Spec.Points w o n) ∧
    (∀ n ∈ fp, ∃ o, w.cells n = some ⟨1, o⟩) ∧
    ∀ v < m, ∀ v' < m, v ≠ v' → ∀ n p o p' o', h v = some (.Other p o) → Spec.Points w o n →
      h v' = some (.Other p' o') → ¬ Spec.Points w o' n := by
  induction m generalizing fp with
  | zero =>
    obtain rfl : fp = ∅ := hv
    simp
  | succ m ih =>
    obtain ⟨f, g, h1, h2, h3, rfl⟩ := hv
    obtain ⟨h4, h5, h6⟩ := ih h2
    have h7 := ownO_points h1
    refine ⟨fun n => ?_, fun n hn => ?_, ?_⟩
    · rw [Finset.mem_union, h7, h4]
      constructor
      · rintro (⟨p, o, e, h⟩ | ⟨v, hv, p, o, e, h⟩)
        · exact ⟨m, by omega, p, o, e, h⟩
        · exact ⟨v, by omega, p, o, e, h⟩
      · rintro ⟨v, hv, p, o, e, h⟩
        by_cases hm : v = m
        · exact .inl ⟨p, o, hm ▸ e, h⟩
        · exact .inr ⟨v, by omega, p, o, e, h⟩
    · rcases Finset.mem_union.1 hn with hn | hn
      · obtain ⟨p, o, e, -⟩ := (h7 n).1 hn
        rw [e] at h1
        exact own_count (o := o) h1 hn
      · exact h5 n hn
    · have last : ∀ v < m, ∀ n p o p' o', h m = some (.Other p o) → Spec.Points w o n →
          h v = some (.Other p' o') → ¬ Spec.Points w o' n :=
        fun v hv n p o p' o' e1 e2 e3 e4 => Finset.disjoint_left.1 h3 ((h7 n).2 ⟨p, o, e1, e2⟩)
          ((h4 n).2 ⟨v, hv, p', o', e3, e4⟩)
      intro v hv v' hv' hne n p o p' o' e1 e2 e3 e4
      by_cases hm : v = m
      · subst hm
        exact last v' (by omega) n p o p' o' e1 e2 e3 e4
      · by_cases hm' : v' = m
        · subst hm'
          exact last v (by omega) n p' o' p o e3 e4 e1 e2
        · exact h6 v (by omega) v' (by omega) hne n p o p' o' e1 e2 e3 e4

theorem whole_points {c : Caller} {fp : Finset ℕ} (h : Memory.Caller.Whole c fp) :
    (∀ n, c.world.cells n ≠ none ↔ ∃ v, Spec.Holds c v n) ∧
    (∀ n x, c.world.cells n = some x → x.count = 1) ∧
    (∀ v v' n, Spec.Holds c v n → Spec.Holds c v' n → v = v') ∧ ∀ n, n ∈ fp ↔ c.world.cells n ≠ none := by
  obtain ⟨⟨h1, h2⟩, -, h3⟩ := h
  obtain ⟨h4, h5, h6⟩ := ownVars_points h2
  have hlt : ∀ {v n}, Spec.Holds c v n → v < c.next := by
    rintro v n ⟨p, o, e, -⟩
    by_contra hn
    rw [h1 v (by omega)] at e
    cases e
  have live : ∀ n, n ∈ fp ↔ c.world.cells n ≠ none := by
    intro n
    constructor
    · intro hn e
      obtain ⟨o, e'⟩ := h5 n hn
      rw [e] at e'
      cases e'
    · intro hn
      by_contra h
      exact hn (h3 n h)
  refine ⟨fun n => ?_, fun n x e => ?_, ?_, live⟩
  · rw [← live, h4]
    constructor
    · exact fun ⟨v, _, h⟩ => ⟨v, h⟩
    · exact fun ⟨v, h⟩ => ⟨v, hlt h, h⟩
  · obtain ⟨o, e'⟩ := h5 n ((live n).2 (by rw [e]; simp))
    rw [e] at e'
    cases e'
    rfl
  · intro v v' n hv hv'
    by_contra hne
    have k := hlt hv
    have k' := hlt hv'
    obtain ⟨p, o, e, h⟩ := hv
    obtain ⟨p', o', e', h'⟩ := hv'
    exact h6 v k v' k' hne n p o p' o' e h e' h'

theorem total_eq (l : List Caller.Event) : Memory.Caller.total l = 2 * Spec.combines l := by
  induction l with
  | nil => rfl
  | cons e l ih =>
    cases e with
    | drop x => exact ih
    | call a =>
      cases a with
      | combine =>
        show 2 + Memory.Caller.total l = 2 * (Spec.combines l + 1)
        omega
      | _ =>
        show 0 + Memory.Caller.total l = 2 * Spec.combines l
        rw [ih, Nat.zero_add]

theorem run_append (cfg : Cfg) (out : ℕ → Option Panic) (f : ℕ) (l l' : List Caller.Event) (c : Caller)
    (h : .timeout ∉ (Memory.Caller.run cfg out f (l ++ l') c).1) :
    .timeout ∉ (Memory.Caller.run cfg out f l c).1 ∧
    .timeout ∉ (Memory.Caller.run cfg out f l' (Memory.Caller.run cfg out f l c).2).1 ∧
    (Memory.Caller.run cfg out f (l ++ l') c).2 =
      (Memory.Caller.run cfg out f l' (Memory.Caller.run cfg out f l c).2).2 := by
  induction l generalizing c with
  | nil => exact ⟨by simp [Memory.Caller.run], h, rfl⟩
  | cons e l ih =>
    cases e with
    | drop x => exact ih _ h
    | call a =>
      rw [List.cons_append] at h ⊢
      unfold Memory.Caller.run at h
      rw [show Memory.Caller.run cfg out f (.call a :: (l ++ l')) c = _ from by unfold Memory.Caller.run; rfl]
      rw [show Memory.Caller.run cfg out f (.call a :: l) c = _ from by unfold Memory.Caller.run; rfl]
      revert h
      generalize Memory.Caller.call cfg out f a c = r
      obtain ⟨r, t⟩ := r
      have step : ∀ r : Res Answer, .timeout ∉ r :: (Memory.Caller.run cfg out f (l ++ l') t).1 →
          .timeout ∉ r :: (Memory.Caller.run cfg out f l t).1 ∧
          .timeout ∉ (Memory.Caller.run cfg out f l' (Memory.Caller.run cfg out f l t).2).1 ∧
          (Memory.Caller.run cfg out f (l ++ l') t).2 =
            (Memory.Caller.run cfg out f l' (Memory.Caller.run cfg out f l t).2).2 := by
        intro r h
        rw [List.mem_cons, not_or] at h
        obtain ⟨h1, h2, h3⟩ := ih t h.2
        rw [List.mem_cons, not_or]
        exact ⟨⟨h.1, h1⟩, h2, h3⟩
      cases r with
      | timeout => exact fun h => absurd List.mem_cons_self h
      | _ => exact step _

theorem run_forgetful (cfg : Cfg) (f : ℕ) (l : List Caller.Event) {t s : Caller}
    (h : Memory.Caller.Like t s)
    (hs : .shared ∉ (Memory.Caller.run cfg fine f l t).1) :
    (Memory.Caller.run cfg fine f l t).1 = (Spec.forgetful cfg f l s).1 ∧
    (.timeout ∉ (Memory.Caller.run cfg fine f l t).1 →
      Memory.Caller.Like (Memory.Caller.run cfg fine f l t).2 (Spec.forgetful cfg f l s).2) := by
  induction l generalizing t s with
  | nil => exact ⟨rfl, fun _ => h⟩
  | cons e l ih =>
    cases e with
    | drop x =>
      refine ih ?_ hs
      obtain ⟨h1, h2, h3⟩ := h
      unfold Memory.Caller.drop
      rcases hx : t.held x with _ | v
      · refine ⟨?_, h2, h3⟩
        show t.held = fun j => if j = x then none else s.held j
        funext j
        rw [← h1]
        split
        · rename_i e
          rw [e, hx]
        · rfl
      · refine ⟨?_, h2, h3.releaseNumber v⟩
        show (fun j => if j = x then none else t.held j) = fun j => if j = x then none else s.held j
        rw [h1]
    | call a =>
      have h1 := Memory.Caller.call_alike cfg f a t s h
      unfold Memory.Caller.run at hs ⊢
      unfold Spec.forgetful
      revert h1 hs
      generalize Memory.Caller.call cfg fine f a t = r
      obtain ⟨r, t'⟩ := r
      cases r with
      | ok a =>
        rintro ⟨_, s', e, rfl, h1⟩ hs
        rw [e]
        dsimp only at hs ⊢
        rw [List.mem_cons, not_or] at hs
        obtain ⟨h2, h3⟩ := ih h1 hs.2
        refine ⟨by rw [h2], fun h4 => h3 fun h5 => h4 (List.mem_cons_of_mem _ h5)⟩
      | panic p =>
        rintro ⟨s', e, h1⟩ hs
        rw [e]
        dsimp only at hs ⊢
        rw [List.mem_cons, not_or] at hs
        obtain ⟨h2, h3⟩ := ih h1 hs.2
        refine ⟨by rw [h2], fun h4 => h3 fun h5 => h4 (List.mem_cons_of_mem _ h5)⟩
      | shared =>
        intro _ hs
        exact absurd (List.mem_cons_self) hs
      | timeout =>
        rintro ⟨s', e⟩ _
        rw [e]
        exact ⟨rfl, fun h => absurd (List.mem_cons_self) h⟩

theorem forgetful_session (cfg : Cfg) (f : ℕ) (calls : List Call) (c : Caller) :
    (Spec.forgetful cfg f (calls.map .call) c).1 = Steps.Caller.session cfg f calls c := by
  induction calls generalizing c with
  | nil => rfl
  | cons a l ih =>
    unfold Steps.Caller.session
    rw [List.map_cons]
    unfold Spec.forgetful
    generalize Steps.Caller.call cfg f a c = r
    obtain ⟨r, t⟩ := r
    cases r with
    | timeout => rfl
    | _ => exact congrArg _ (ih t)

theorem start_like : Memory.Caller.Like Steps.Caller.start Steps.Caller.start :=
  ⟨rfl, rfl, rfl, rfl, fun _ _ e => by cases e⟩

/-! ## Theorems -/

/-- **No leak, no dangling pointer, no sharing.**  After any calls and drops, with or without panics on
the way, also those of a `println!` that cannot write its line, something is allocated at an address exactly if the number in some variable points to it, it
is the number in one variable only, and there is one pointer to it. -/
theorem C84_live (cfg : Cfg) (out : ℕ → Option Panic) (f : ℕ) (events : List Caller.Event) :
    let r := Memory.Caller.run cfg out f events Steps.Caller.start
    .timeout ∉ r.1 →
      (∀ n, r.2.world.cells n ≠ none ↔ ∃ v, Spec.Holds r.2 v n) ∧
      (∀ v v' n, Spec.Holds r.2 v n → Spec.Holds r.2 v' n → v = v') ∧
      (∀ n x, r.2.world.cells n = some x → x.count = 1) := by
  intro r h
  obtain ⟨fp, h1, -⟩ := (Memory.Caller.run_whole cfg f events Memory.Caller.whole_start).2 h
  obtain ⟨h2, h3, h4, -⟩ := whole_points h1
  exact ⟨h2, h4, h3⟩

/-- When all numbers have been dropped, or used up, everything has been given back. -/
theorem C84_empty (cfg : Cfg) (out : ℕ → Option Panic) (f : ℕ) (events : List Caller.Event) :
    let r := Memory.Caller.run cfg out f events Steps.Caller.start
    .timeout ∉ r.1 → (∀ v, r.2.held v = none) → ∀ n, r.2.world.cells n = none := by
  intro r h hv n
  by_contra hn
  obtain ⟨v, p, o, e, -⟩ := ((C84_live cfg out f events h).1 n).1 hn
  rw [show r.2.held v = none from hv v] at e
  cases e

/-- Each call of `combine` adds at most two allocations, and nothing else adds any: neither reading
symbols nor any other call. -/
theorem C84_bound (cfg : Cfg) (out : ℕ → Option Panic) (f : ℕ) (before events : List Caller.Event) :
    let r := Memory.Caller.run cfg out f before Steps.Caller.start
    let r' := Memory.Caller.run cfg out f (before ++ events) Steps.Caller.start
    .timeout ∉ r'.1 → ∃ live live' : Finset ℕ, (∀ n, n ∈ live ↔ r.2.world.cells n ≠ none) ∧
      (∀ n, n ∈ live' ↔ r'.2.world.cells n ≠ none) ∧
      live'.card ≤ live.card + 2 * Spec.combines events := by
  intro r r' h
  obtain ⟨h0, h0', e⟩ := run_append cfg out f before events _ h
  obtain ⟨fp, h1, -⟩ := (Memory.Caller.run_whole cfg f before Memory.Caller.whole_start).2 h0
  obtain ⟨fp', h2, h3⟩ := (Memory.Caller.run_whole cfg f events h1).2 h0'
  refine ⟨fp, fp', (whole_points h1).2.2.2, ?_, ?_⟩
  · show ∀ n, n ∈ fp' ↔ (Memory.Caller.run cfg out f (before ++ events) Steps.Caller.start).2.world.cells n ≠ none
    rw [e]
    exact (whole_points h2).2.2.2
  · rw [total_eq] at h3
    exact h3

/-- No `Rc` is ever found shared or freed, whatever cannot be written. -/
theorem C84_unshared (cfg : Cfg) (out : ℕ → Option Panic) (f : ℕ) (events : List Caller.Event) :
    .shared ∉ (Memory.Caller.run cfg out f events Steps.Caller.start).1 :=
  (Memory.Caller.run_whole cfg f events Memory.Caller.whole_start).1

/-- Freeing does no harm: all answers, the numbers in the variables and the lines printed are those of
the model in which nothing is ever freed, and no `Rc` is ever found shared or freed. -/
theorem C84_same (cfg : Cfg) (f : ℕ) (events : List Caller.Event) :
    let r := Memory.Caller.run cfg fine f events Steps.Caller.start
    let s := Spec.forgetful cfg f events Steps.Caller.start
    r.1 = s.1 ∧ .shared ∉ r.1 ∧
      (.timeout ∉ r.1 → r.2.held = s.2.held ∧ r.2.world.printed = s.2.world.printed) := by
  intro r s
  have h1 := (Memory.Caller.run_whole (out := fine) cfg f events Memory.Caller.whole_start).1
  obtain ⟨h2, h3⟩ := run_forgetful cfg f events start_like h1
  exact ⟨h2, h1, fun h => ⟨(h3 h).1, (h3 h).2.2.printed⟩⟩

/-- The answers of the calls alone are those of C52. -/
theorem C84_session (cfg : Cfg) (f : ℕ) (calls : List Call) :
    (Memory.Caller.run cfg fine f (calls.map .call) Steps.Caller.start).1 =
      Steps.Caller.session cfg f calls Steps.Caller.start :=
  (C84_same cfg f (calls.map .call)).1.trans (forgetful_session cfg f calls _)

/-! ## Examples -/

/-- (3/7)³ is made by two calls of `combine`, and a symbol is read; then the caller mistakes it for a
special value, and the panic takes it away. -/
def mistaken : List Caller.Event :=
  [.call (.ratio 3 7), .call (.ratio 3 7), .call (.combine 0 1 1 0 0 0 0 0 0 1),
    .call (.ratio 3 7), .call (.combine 2 3 1 0 0 0 0 0 0 1), .call (.egest 4),
    .call (.unwrapSpecial 4)]

/-- Test: the answers. -/
theorem mistaken_run : (Memory.Caller.run debug64 fine 8 mistaken Steps.Caller.start).1 =
    [.ok (.made (.other none)), .ok (.made (.other none)), .ok (.made (.other none)),
      .ok (.made (.other none)), .ok (.made (.other none)), .ok (.symbol (some .Amplify)),
      .panic .notSpecial] := by
  decide +kernel

theorem mistaken_ends :
    .timeout ∉ (Memory.Caller.run debug64 fine 8 mistaken Steps.Caller.start).1 := by
  rw [mistaken_run]
  decide

example := C84_live debug64 fine 8 mistaken mistaken_ends
example := C84_bound debug64 fine 8 (mistaken.take 3) (mistaken.drop 3) mistaken_ends
example := C84_same debug64 8 mistaken
example := C84_session debug64 8 exactSum

/-- Test: what is allocated after the first `combine`, before the panic, and after it. -/
example : ([3, 6, 7].map fun k => (List.range 8).filter fun n =>
    ((Memory.Caller.run debug64 fine 8 (mistaken.take k) Steps.Caller.start).2.world.cells n).isSome) =
      [[0, 1], [0, 1, 2, 3], []] := by
  decide +kernel

/-- Test: without the drops, what nobody points to would stay. -/
example : ((Spec.forgetful debug64 8 mistaken Steps.Caller.start).2.world.cells 0).isSome = true := by
  decide +kernel

/-- 3/5 + 3/16 is read.  The first symbol needs a line, which cannot be written; the caller catches
the panic and drops the number. -/
def unwritten : List Caller.Event :=
  [.call (.ratio 3 5), .call (.ratio 3 16), .call (.combine 0 1 0 1 1 0 0 0 0 1), .call (.egest 2),
    .call (.egest 2), .call (.egest 2), .drop 2]

/-- The first line cannot be written. -/
def closed : ℕ → Option Panic := fun i => if i = 0 then some .unwrapMissing else none

/-- Test: the answers. -/
theorem unwritten_run : (Memory.Caller.run debug64 closed 12 unwritten Steps.Caller.start).1 =
    [.ok (.made (.other none)), .ok (.made (.other none)), .ok (.made (.other none)),
      .panic .unwrapMissing, .ok (.symbol (some .Uncover)), .ok (.symbol (some .Amplify))] := by
  decide +kernel

theorem unwritten_ends :
    .timeout ∉ (Memory.Caller.run debug64 closed 12 unwritten Steps.Caller.start).1 := by
  rw [unwritten_run]
  decide

example := C84_live debug64 closed 12 unwritten unwritten_ends
example := C84_unshared debug64 closed 12 unwritten
example := C84_bound debug64 closed 12 (unwritten.take 3) (unwritten.drop 3) unwritten_ends

/-- The hypotheses of `C84_empty` are met at the end: no variable holds a number. -/
example : ∀ n, (Memory.Caller.run debug64 closed 12 unwritten Steps.Caller.start).2.world.cells n =
    none := by
  refine C84_empty debug64 closed 12 unwritten unwritten_ends fun v => ?_
  by_cases hv : v < 3
  · revert v
    decide +kernel
  · have h := (Memory.Caller.run_whole (out := closed) debug64 12 unwritten
      Memory.Caller.whole_start).2 unwritten_ends
    obtain ⟨fp, ⟨⟨h1, -⟩, -⟩, -⟩ := h
    refine h1 v (le_trans ?_ (not_lt.1 hv))
    decide +kernel

/-- Test: what is allocated after `combine`, after the panic, and after the next symbol. -/
example : ([3, 4, 5].map fun k => (List.range 8).filter fun n =>
    ((Memory.Caller.run debug64 closed 12 (unwritten.take k)
      Steps.Caller.start).2.world.cells n).isSome) = [[0, 1], [0, 2], []] := by
  decide +kernel

end Clarith
