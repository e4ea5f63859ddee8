import Verif.Proofs.StepsAccount
import Verif.Proofs.Observe

/-! # How much is printed (C85)

src/strategy/homographic.rs:1088 and 1141 print a line to standard output in every round of `prime`
and of `egest` of a `Homographic`, left over from debugging.  Here is how many lines there can be:
`Verif/SpecLines.lean` charges every call a number of lines that depends only on values. -/

namespace Clarith

open Spec Steps

/-- In a session of any calls, panics included, at all times at most as many lines have been printed
as have been charged. -/
theorem C85_session (cfg : Cfg) (hc : cfg.overflowChecks = true) (f : Nat) (calls : List Call)
    (hm : ∀ a ∈ calls, MachineCall cfg a) :
    Accounts cfg f Table.start calls Caller.start 0 := by
  refine session_accounts hc f calls hm (k := Plain.start) (φ := fun _ => 0)
    ⟨.start cfg, _, _, Inv.start, .refl _⟩ (.start cfg) ?_
  show 0 + Steps.total (fun _ => 0) 0 ≤ 0
  simp [Steps.total]

theorem Spec.Symbols.unique {q : ℚ} {L L' : Nat} (h : Symbols q L) (h' : Symbols q L') : L = L' := by
  unfold Symbols at h h'
  revert h h'
  cases shape q with
  | inl s => exact fun h h' => h.trans h'.symm
  | inr x =>
    rintro ⟨l, hl, rfl⟩ ⟨l', hl', rfl⟩
    rw [hl.unique hl']

/-- What a call is charged is determined by the table. -/
theorem C85_charge (t : Table) (a : Call) (n n' : Nat) (h : Charge t a n) (h' : Charge t a n') :
    n = n' := by
  cases a with
  | homographic x nx n dx d =>
    obtain ⟨q, L, hq, hL, rfl⟩ := h
    obtain ⟨q', L', hq', hL', rfl⟩ := h'
    obtain rfl := Option.some.inj (hq.symm.trans hq')
    rw [hL.unique hL']
  | combine x y nxy nx ny n dxy dx dy d =>
    obtain ⟨q, r, L, M, hq, hr, hL, hM, rfl⟩ := h
    obtain ⟨q', r', L', M', hq', hr', hL', hM', rfl⟩ := h'
    obtain rfl := Option.some.inj (hq.symm.trans hq')
    obtain rfl := Option.some.inj (hr.symm.trans hr')
    rw [hL.unique hL', hM.unique hM']
  | egest x =>
    obtain ⟨q, hq, rfl⟩ := h
    obtain ⟨q', hq', rfl⟩ := h'
    rw [Option.some.inj (hq.symm.trans hq')]
  | consume x =>
    obtain ⟨q, L, hq, hL, rfl⟩ := h
    obtain ⟨q', L', hq', hL', rfl⟩ := h'
    obtain rfl := Option.some.inj (hq.symm.trans hq')
    rw [hL.unique hL']
  | compare x y =>
    obtain ⟨q, r, L, M, hq, hr, hL, hM, rfl⟩ := h
    obtain ⟨q', r', L', M', hq', hr', hL', hM', rfl⟩ := h'
    obtain rfl := Option.some.inj (hq.symm.trans hq')
    obtain rfl := Option.some.inj (hr.symm.trans hr')
    rw [hL.unique hL', hM.unique hM']
  | ratio num den => exact Eq.trans h (Eq.symm h')
  | ratioU positive num den => exact Eq.trans h (Eq.symm h')
  | special s => exact Eq.trans h (Eq.symm h')
  | reprime x p => exact Eq.trans h (Eq.symm h')
  | unwrapSpecial x => exact Eq.trans h (Eq.symm h')

/-! ## One computation, read -/

theorem after_cons (cfg : Cfg) (f : Nat) (a : Call) (calls : List Call) (c : Caller) :
    Caller.after cfg f (a :: calls) c =
      if (Caller.call cfg f a c).1 = .timeout then (Caller.call cfg f a c).2
      else Caller.after cfg f calls (Caller.call cfg f a c).2 := by
  conv_lhs => unfold Caller.after
  generalize Caller.call cfg f a c = r
  obtain ⟨r, c'⟩ := r
  cases r with
  | timeout => exact (if_pos rfl).symm
  | shared => exact (if_neg (by intro e; cases e)).symm
  | ok a => exact (if_neg (by intro e; cases e)).symm
  | panic p => exact (if_neg (by intro e; cases e)).symm

/-- No panic in a session. -/
def Calmly (cfg : Cfg) (f : Nat) (calls : List Call) (c : Caller) : Prop :=
  ∀ p, .panic p ∉ Caller.session cfg f calls c

theorem calmly_cons {cfg : Cfg} {f : Nat} {a : Call} {calls : List Call} {c : Caller}
    (h : Calmly cfg f (a :: calls) c) (ht : (Caller.call cfg f a c).1 ≠ .timeout) :
    (∀ p, (Caller.call cfg f a c).1 ≠ .panic p) ∧
      Calmly cfg f calls (Caller.call cfg f a c).2 := by
  unfold Calmly at h
  rw [session_cons, if_neg ht] at h
  exact ⟨fun p e => h p (by rw [e]; exact List.mem_cons_self),
    fun p hp => h p (List.mem_cons_of_mem _ hp)⟩

/-- A call that makes a number, and what comes after it. -/
theorem make_after {cfg : Cfg} {f : Nat} {t : Table} {a : Call} {calls : List Call} {c : Caller}
    {N n : Nat} {v : Known} {sure : Bool} (h : Accounts cfg f t (a :: calls) c N)
    (hp : Calmly cfg f (a :: calls) c) (ho : outcome cfg t a = .makes v sure) (hn : Charge t a n)
    {B : Nat} (hB : N + n ≤ B)
    (k : Accounts cfg f ((t.forget (operands a)).push (some v)) calls (Caller.call cfg f a c).2
        (N + n) → Calmly cfg f calls (Caller.call cfg f a c).2 →
      linesOf (Caller.after cfg f calls (Caller.call cfg f a c).2) ≤ B) :
    linesOf (Caller.after cfg f (a :: calls) c) ≤ B := by
  obtain ⟨-, n', h1, -, h2⟩ := h
  obtain rfl := C85_charge t a n n' hn (h1 (by rw [ho]; intro e; cases e))
  rw [after_cons]
  rcases h2 with ⟨ht, h2⟩ | ⟨ht, t', hR, h2⟩
  · rw [if_pos ht]
    omega
  · rw [if_neg ht]
    obtain ⟨h3, h4⟩ := calmly_cons hp ht
    unfold Right at hR
    rw [ho] at hR
    rcases hR with ⟨-, rfl⟩ | ⟨⟨-, p, e, -⟩, -⟩
    · exact k h2 h4
    · exact absurd e (h3 p)

theorem reads_after {cfg : Cfg} {f x : Nat} (m : Nat) :
    ∀ {t : Table} {c : Caller} {N : Nat}, Accounts cfg f t (List.replicate m (.egest x)) c N →
    Calmly cfg f (List.replicate m (.egest x)) c → (∃ q, t.var x = some q) →
    linesOf (Caller.after cfg f (List.replicate m (.egest x)) c) ≤ N + m := by
  induction m with
  | zero => exact fun h _ _ => h
  | succ m ih =>
    rintro t c N ⟨-, n, h1, -, h2⟩ hp ⟨q, hx⟩
    have hn : n ≤ 1 := by
      have hf : outcome cfg t (.egest x) ≠ .free := by
        simp only [outcome, hx]
        cases shape q.value <;> exact fun e => nomatch e
      obtain ⟨q', -, rfl⟩ := h1 hf
      unfold rate
      split_ifs <;> omega
    rw [List.replicate_succ] at hp ⊢
    rw [after_cons]
    rcases h2 with ⟨ht, h2⟩ | ⟨ht, t', hR, h2⟩
    · rw [if_pos ht]
      omega
    · rw [if_neg ht]
      obtain ⟨h3, h4⟩ := calmly_cons hp ht
      have hx' : ∃ q, t'.var x = some q := by
        unfold Right at hR
        simp only [outcome, hx] at hR
        revert hR
        cases shape q.value with
        | inl s =>
          rintro ⟨-, rfl⟩
          exact ⟨q, hx⟩
        | inr z =>
          rintro (⟨-, rfl⟩ | ⟨⟨-, p, e, -⟩, -⟩)
          · exact ⟨_, if_pos rfl⟩
          · exact absurd e (h3 p)
      have := ih h2 h4 hx'
      omega

/-- A fraction with `L` symbols goes through `homographic`, and the result is read `m` times: there
are at most `L + 1 + m` lines. -/
theorem C85_homographic (cfg : Cfg) (hc : cfg.overflowChecks = true) (f : Nat)
    (num den nx n dx d : Int) (m L : Nat) (hm : MachineInts cfg [num, den, nx, n, dx, d])
    (hnum : num ≠ cfg.imin) (hden : den ≠ cfg.imin) (h0 : den ≠ 0)
    (hD : (dx : ℚ) * (num / den) + d ≠ 0) (hL : Symbols ((num : ℚ) / den) L)
    (hp : ∀ p, .panic p ∉ Caller.session cfg f
      (.ratio num den :: .homographic 0 nx n dx d :: List.replicate m (.egest 1)) Caller.start) :
    (Caller.after cfg f (.ratio num den :: .homographic 0 nx n dx d :: List.replicate m (.egest 1))
      Caller.start).world.printed.length ≤ L + 1 + m := by
  have h := C85_session cfg hc f
    (.ratio num den :: .homographic 0 nx n dx d :: List.replicate m (.egest 1)) (by
      intro a ha
      simp only [List.mem_cons] at ha
      rcases ha with rfl | rfl | ha
      · intro i hi
        simp only [List.mem_cons, List.not_mem_nil, or_false] at hi
        exact hm i (by rcases hi with rfl | rfl <;> simp)
      · intro i hi
        simp only [List.mem_cons, List.not_mem_nil, or_false] at hi
        exact hm i (by rcases hi with rfl | rfl | rfl | rfl <;> simp)
      · rw [List.eq_of_mem_replicate ha]
        trivial)
  have ho : outcome cfg Table.start (.ratio num den) = .makes ⟨(num : ℚ) / den, true⟩ true :=
    (if_neg fun e => e.elim hnum hden).trans (if_neg h0)
  refine make_after h hp ho (n := 0) rfl (Nat.zero_le _) fun h hp => ?_
  have hA : alone ⟨(num : ℚ) / den, true⟩ L ≤ L + 1 := by
    unfold alone rate
    cases shape (num / den : ℚ)
    · exact Nat.zero_le _
    · simp
  refine make_after h hp (v := ⟨(nx * (num / den) + n) / (dx * (num / den) + d), false⟩)
    (sure := false) (n := alone ⟨(num : ℚ) / den, true⟩ L) ?_ ⟨_, L, rfl, hL, rfl⟩
    (by omega) fun h hp => ?_
  · exact if_neg hD
  · have := reads_after m h hp ⟨_, rfl⟩
    omega

/-- Two fractions, with `L` and `L'` symbols, are combined, and the result is read `m` times: beyond
`m` there are at most as many lines as one operand has symbols more than the other (and one for the
end). -/
theorem C85_combine (cfg : Cfg) (hc : cfg.overflowChecks = true) (f : Nat)
    (num den num' den' nxy nx ny n dxy dx dy d : Int) (m L L' : Nat)
    (hm : MachineInts cfg [num, den, num', den', nxy, nx, ny, n, dxy, dx, dy, d])
    (hnum : num ≠ cfg.imin) (hden : den ≠ cfg.imin) (h0 : den ≠ 0)
    (hnum' : num' ≠ cfg.imin) (hden' : den' ≠ cfg.imin) (h0' : den' ≠ 0)
    (hs : ∀ s, (num : ℚ) / den ≠ specialValue s) (hs' : ∀ s, (num' : ℚ) / den' ≠ specialValue s)
    (hD : (dxy : ℚ) * (num / den) * (num' / den') + dx * (num / den) + dy * (num' / den') + d ≠ 0)
    (hL : Symbols ((num : ℚ) / den) L) (hL' : Symbols ((num' : ℚ) / den') L')
    (hp : ∀ p, .panic p ∉ Caller.session cfg f (.ratio num den :: .ratio num' den' ::
      .combine 0 1 nxy nx ny n dxy dx dy d :: List.replicate m (.egest 2)) Caller.start) :
    (Caller.after cfg f (.ratio num den :: .ratio num' den' ::
      .combine 0 1 nxy nx ny n dxy dx dy d :: List.replicate m (.egest 2))
      Caller.start).world.printed.length ≤ (if L ≤ L' then L' - L + 1 else L - L') + m := by
  have h := C85_session cfg hc f (.ratio num den :: .ratio num' den' ::
      .combine 0 1 nxy nx ny n dxy dx dy d :: List.replicate m (.egest 2)) (by
      intro a ha
      simp only [List.mem_cons] at ha
      rcases ha with rfl | rfl | rfl | ha
      · intro i hi
        simp only [List.mem_cons, List.not_mem_nil, or_false] at hi
        exact hm i (by rcases hi with rfl | rfl <;> simp)
      · intro i hi
        simp only [List.mem_cons, List.not_mem_nil, or_false] at hi
        exact hm i (by rcases hi with rfl | rfl <;> simp)
      · intro i hi
        simp only [List.mem_cons, List.not_mem_nil, or_false] at hi
        exact hm i (by rcases hi with rfl | rfl | rfl | rfl | rfl | rfl | rfl | rfl <;> simp)
      · rw [List.eq_of_mem_replicate ha]
        trivial)
  have special : ∀ {q : ℚ}, (∀ s, q ≠ specialValue s) → ∃ z, shape q = .inr z := by
    intro q h
    have h1 : q ≠ 0 := h .Zero
    have h2 : q ≠ 1 := h .PosOne
    have h3 : q ≠ -1 := h .NegOne
    unfold shape
    rw [if_neg h1, if_neg h2, if_neg h3]
    split_ifs <;> exact ⟨_, rfl⟩
  obtain ⟨z, hz⟩ := special hs
  obtain ⟨z', hz'⟩ := special hs'
  have hB : both ⟨(num : ℚ) / den, true⟩ ⟨(num' : ℚ) / den', true⟩ L L' =
      if L ≤ L' then L' - L + 1 else L - L' := by
    unfold both rate
    rw [hz, hz']
    simp
  have ho : ∀ t, outcome cfg t (.ratio num den) = .makes ⟨(num : ℚ) / den, true⟩ true :=
    fun t => (if_neg fun e => e.elim hnum hden).trans (if_neg h0)
  have ho' : ∀ t, outcome cfg t (.ratio num' den') = .makes ⟨(num' : ℚ) / den', true⟩ true :=
    fun t => (if_neg fun e => e.elim hnum' hden').trans (if_neg h0')
  refine make_after h hp (ho _) (n := 0) rfl (Nat.zero_le _) fun h hp => ?_
  refine make_after h hp (ho' _) (n := 0) rfl (Nat.zero_le _) fun h hp => ?_
  refine make_after h hp (v := ⟨(nxy * (num / den) * (num' / den') + nx * (num / den) +
    ny * (num' / den') + n) / (dxy * (num / den) * (num' / den') + dx * (num / den) +
      dy * (num' / den') + d), false⟩)
    (sure := false) (n := if L ≤ L' then L' - L + 1 else L - L') ?_
    ⟨_, _, L, L', rfl, rfl, hL, hL', hB.symm⟩ (by omega) fun h hp => ?_
  · exact if_neg hD
  · have := reads_after m h hp ⟨_, rfl⟩
    omega

/-! ## Examples -/

theorem symbols_of {a b : Int} {x : ℚ} {p : Option Primer} {l : List Reduction}
    (h : shape ((a : ℚ) / b) = .inr (p, x)) (hl : Expands x l) : Symbols ((a : ℚ) / b) l.length := by
  unfold Symbols
  rw [h]
  exact ⟨l, hl, rfl⟩

/-- The symbols of 3/5. -/
theorem expands_three_fifths : Expands (3 / 5) [.Uncover, .Uncover] := by
  refine .uncover (by norm_num) (by norm_num) ?_
  norm_num
  refine .uncover (by norm_num) (by norm_num) ?_
  norm_num
  simpa using Expands.half

/-- The symbols of 3/16. -/
theorem expands_three_sixteenths :
    Expands (3 / 16) [.Amplify, .Amplify, .Uncover, .Amplify, .Uncover] := by
  refine .amplify (by norm_num) (by norm_num) ?_
  norm_num
  refine .amplify (by norm_num) (by norm_num) ?_
  norm_num
  refine .uncover (by norm_num) (by norm_num) ?_
  norm_num
  refine .amplify (by norm_num) (by norm_num) ?_
  norm_num
  refine .uncover (by norm_num) (by norm_num) ?_
  norm_num
  simpa using Expands.half

theorem symbols_three_fifths : Symbols (((3 : Int) : ℚ) / (5 : Int)) 2 :=
  symbols_of (p := none) (x := 3 / 5) (by norm_num [shape]) expands_three_fifths

theorem symbols_three_sixteenths : Symbols (((3 : Int) : ℚ) / (16 : Int)) 5 :=
  symbols_of (p := none) (x := 3 / 16) (by norm_num [shape]) expands_three_sixteenths

/-- 3/5 + 1, read four times. -/
def raised : List Call :=
  .ratio 3 5 :: .homographic 0 1 1 0 1 :: List.replicate 4 (.egest 1)

/-- 3/5 + 3/16, read three times. -/
def added : List Call :=
  .ratio 3 5 :: .ratio 3 16 :: .combine 0 1 0 1 1 0 0 0 0 1 :: List.replicate 3 (.egest 2)

/-- 3/16 + 3/5, read three times. -/
def addedSwapped : List Call :=
  .ratio 3 16 :: .ratio 3 5 :: .combine 0 1 0 1 1 0 0 0 0 1 :: List.replicate 3 (.egest 2)

def isPanic : Res Answer → Bool
  | .panic _ => true
  | _ => false

theorem no_panic {cfg : Cfg} {f : Nat} {calls : List Call}
    (h : ((Caller.session cfg f calls Caller.start).any isPanic) = false) :
    ∀ p, .panic p ∉ Caller.session cfg f calls Caller.start := by
  intro p hp
  rw [List.any_eq_false] at h
  exact h _ hp rfl

/-- The hypotheses of `C85_homographic` are met by 3/5 + 1, read four times. -/
example : (Caller.after debug64 40 raised Caller.start).world.printed.length ≤ 2 + 1 + 4 :=
  C85_homographic debug64 rfl 40 3 5 1 1 0 1 4 2 (by unfold MachineInts; decide) (by decide) (by decide) (by decide)
    (by norm_num) symbols_three_fifths (no_panic (by decide +kernel))

/-- A test: the bound is met there. -/
example : (Caller.after debug64 40 raised Caller.start).world.printed.length = 2 + 1 + 4 := by
  decide +kernel

/-- The hypotheses of `C85_combine` are met by 3/5 + 3/16, read three times. -/
example : (Caller.after debug64 40 added Caller.start).world.printed.length ≤
    (if 2 ≤ 5 then 5 - 2 + 1 else 2 - 5) + 3 := by
  unfold added
  exact C85_combine debug64 rfl 40 3 5 3 16 0 1 1 0 0 0 0 1 3 2 5 (by unfold MachineInts; decide) (by decide) (by decide)
    (by decide) (by decide) (by decide) (by decide)
    (by intro s; cases s <;> norm_num [specialValue])
    (by intro s; cases s <;> norm_num [specialValue]) (by norm_num) symbols_three_fifths
    symbols_three_sixteenths (no_panic (by decide +kernel))

/-- A test: the bound is met there. -/
example : (Caller.after debug64 40 added Caller.start).world.printed.length = (5 - 2 + 1) + 3 := by
  decide +kernel

/-- The hypotheses of `C85_combine` are met with the operands swapped. -/
example : (Caller.after debug64 40 addedSwapped Caller.start).world.printed.length ≤
    (if 5 ≤ 2 then 2 - 5 + 1 else 5 - 2) + 3 := by
  unfold addedSwapped
  exact C85_combine debug64 rfl 40 3 16 3 5 0 1 1 0 0 0 0 1 3 5 2 (by unfold MachineInts; decide) (by decide) (by decide)
    (by decide) (by decide) (by decide) (by decide)
    (by intro s; cases s <;> norm_num [specialValue])
    (by intro s; cases s <;> norm_num [specialValue]) (by norm_num) symbols_three_sixteenths
    symbols_three_fifths (no_panic (by decide +kernel))

/-- A test: the bound is met there too, so that the order of the operands matters. -/
example : (Caller.after debug64 40 addedSwapped Caller.start).world.printed.length = (5 - 2) + 3 := by
  decide +kernel

/-- The hypotheses of `C85_session` are met by a session in which a number is used after an
overflow. -/
example : Accounts debug64 40 Table.start
    [.ratio 3 5, .homographic 0 (2 ^ 62) (2 ^ 62) 1 1, .egest 1, .egest 1, .consume 1]
    Caller.start 0 :=
  C85_session debug64 rfl 40 _ (by
    intro a ha
    simp only [List.mem_cons, List.not_mem_nil, or_false] at ha
    rcases ha with rfl | rfl | rfl | rfl | rfl
    · unfold MachineCall MachineInts; decide
    · unfold MachineCall MachineInts; decide
    · trivial
    · trivial
    · trivial)

/-- The hypotheses of `C85_charge` are met by `homographic` on 3/5, which is charged three lines. -/
example : Charge (Table.start.push (some ⟨((3 : Int) : ℚ) / (5 : Int), true⟩))
    (.homographic 0 0 1 1 0) 3 := by
  refine ⟨_, 2, rfl, symbols_three_fifths, ?_⟩
  norm_num [alone, shape, rate]

end Clarith
