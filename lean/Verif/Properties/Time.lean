import Verif.Proofs.TimedFuel
import Verif.Properties.StaticSize
import Verif.Properties.Depth

/-! # How long programs take (C81)

Time is measured in rounds of the counted model (`Verif/Model/Timed.lean`). -/

namespace Clarith

open Out Spec

/-- `k` successive calls of `egest`, counted. -/
def Spec.Timed.egests (cfg : Cfg) (f : Nat) : Nat → Clog → Timed (List (Option Reduction) × Clog)
  | 0, c => pure ([], c)
  | k + 1, c => do
    let (r, c) ← Timed.Clog.egest cfg f c
    let (rs, c) ← Timed.egests cfg f k c
    pure (r :: rs, c)

/-- The rebuilding of a consumed number (`Spec.rebuild`), counted. -/
def Spec.Timed.rebuild (cfg : Cfg) (f : Nat) : Option Number × Coef4 → Clarith.Timed Number
  | (none, k) => do
    let t ← cfg.mul 2 k.n
    let num ← cfg.add k.nx t
    let t ← cfg.mul 2 k.d
    let den ← cfg.add k.dx t
    Number.ratio cfg num den
  | (some y, k) => Timed.Number.homographic cfg f y k.nx k.n k.dx k.d

/-- The calls made by the program (`Spec.Expr.run`), counted. -/
def Spec.Expr.timed (cfg : Cfg) (f : Nat) (env : Nat → Number) : Expr → Timed Number
  | .given i => pure (env i)
  | .ratio num den => Number.ratio cfg num den
  | .ratioU positive num den => Number.ratioU positive num den
  | .homographic e nx n dx d => do
    let x ← e.timed cfg f env
    Timed.Number.homographic cfg f x nx n dx d
  | .combine e e' nxy nx ny n dxy dx dy d => do
    let x ← e.timed cfg f env
    let y ← e'.timed cfg f env
    Timed.Number.combine cfg f x y nxy nx ny n dxy dx dy d
  | .rebuild e => do
    let x ← e.timed cfg f env
    let r ← Timed.Number.consume cfg f x
    Spec.Timed.rebuild cfg f r
  | .reread p m e => do
    let x ← e.timed cfg f env
    let (_, c) ← x.unwrapOther
    let (_, c) ← Spec.Timed.egests cfg f m c
    pure (.Other p c)

/-- A bound for the rounds beyond one for each `egest`: two for each symbol and for the end of the
operand of a `homographic` and one for the call; one for each symbol of the operands of a `combine`, one
for each pair of symbols, and six.  `given i` is what reading the `i`-th given number
costs and `len e` bounds the number of symbols of what the program `e` computes. -/
def Spec.Expr.rounds (given : Nat → Nat) (len : Expr → Nat) : Expr → Nat
  | .given i => given i
  | .ratio _ _ => 0
  | .ratioU _ _ _ => 0
  | .homographic e _ _ _ _ => e.rounds given len + 2 * (len e + 1) + 1
  | .combine e e' _ _ _ _ _ _ _ _ =>
    e.rounds given len + e'.rounds given len + len e + len e' + max (len e) (len e') + 6
  | .rebuild e => e.rounds given len + 2 * (len e + 1) + 1
  | .reread _ m e => e.rounds given len + m

/-- A cost of reading the number. -/
def Number.Costs (cfg : Cfg) (n : Nat) : Number → Prop
  | .Special _ => True
  | .Other _ c => Clog.Costs cfg n c

/-! ## Length -/

private theorem Clog.Denotes.endsWithin {cfg : Cfg} {A : Panic → Prop} {c : Clog} {v : ℚ}
    {l : List Reduction} {L : Nat} (h : Clog.Denotes cfg A c v) (hl : Expands v l)
    (hL : l.length ≤ L) : Clog.EndsWithin cfg L c := by
  induction L generalizing c v l with
  | zero =>
    intro f r e
    have := h.step.of_returns ((Clog.egest_mono cfg c).returns f e)
    cases hl with
    | half => simpa [sym] using this.1
    | amplify => simp at hL
    | uncover => simp at hL
  | succ L ih =>
    intro f r e
    have := h.step.of_returns ((Clog.egest_mono cfg c).returns f e)
    cases hl with
    | half => exact .inl (by simpa [sym] using this.1)
    | amplify h0 h1 hl =>
      rw [next_lt h1] at this
      exact .inr (ih this.2 hl (by simpa using hL))
    | uncover h0 h1 hl =>
      rw [next_gt h0] at this
      exact .inr (ih this.2 hl (by simpa using hL))

private theorem Number.Denotes.endsWithin {cfg : Cfg} {A : Panic → Prop} {x : Number} {q : ℚ}
    {L : Nat} (h : Number.Denotes cfg A x q) (hL : SymbolCount q L) : x.EndsWithin cfg L := by
  have := h.in_count hL
  cases x with
  | Special s => trivial
  | Other p c =>
    obtain ⟨v, l, h1, h2, h3, -⟩ := this
    exact h1.endsWithin h2 h3

private theorem Number.Costs.budget {cfg : Cfg} {n : Nat} {x : Number} (h : x.Costs cfg n) :
    x.Budget cfg n := by
  cases x with
  | Special s => trivial
  | Other p c => exact .given h

private theorem Number.Budget.costs {cfg : Cfg} {n : Nat} {x : Number} (h : x.Budget cfg n) :
    x.Costs cfg n := by
  cases x with
  | Special s => trivial
  | Other p c => exact Clog.Budget.costs h

/-! ## C81 Time -/

/-- Counting changes nothing: the counted functions give the answers and the panics of the others. -/
theorem C81_same (cfg : Cfg) (f : Nat) (x y : Number) :
    (∀ nx n dx d, (Timed.Number.homographic cfg f x nx n dx d).out =
      Number.homographic cfg f x nx n dx d) ∧
    (∀ nxy nx ny n dxy dx dy d, (Timed.Number.combine cfg f x y nxy nx ny n dxy dx dy d).out =
      Number.combine cfg f x y nxy nx ny n dxy dx dy d) ∧
    (Timed.Number.consume cfg f x).out = Number.consume cfg f x ∧
    (Timed.Number.compare cfg f x y).out = Number.compare cfg f x y ∧
    ∀ c, (Timed.Clog.egest cfg f c).out = Clog.egest cfg f c :=
  ⟨fun _ _ _ _ => Timed.Number.homographic_out .., fun _ _ _ _ _ _ _ _ => Timed.Number.combine_out ..,
    Timed.Number.consume_out .., Timed.Number.compare_out .., fun c => Timed.Clog.egest_out cfg f c⟩

/-- `homographic` together with all later reading of its result takes no more rounds than reading `x`
costs, and two for each symbol of `x` and for its end, and one.  This holds in every build, for all
coefficients, and for calls that panic. -/
theorem C81_homographic (cfg : Cfg) (A : Panic → Prop) (x : Number) (q : ℚ)
    (hx : Number.Denotes cfg A x q) (L : Nat) (hL : SymbolCount q L) (m : Nat) (hm : x.Costs cfg m)
    (f : Nat) (nx n dx d : Int) :
    (Timed.Number.homographic cfg f x nx n dx d).rounds ≤ m + 2 * (L + 1) + 1 ∧
    ∀ r, Number.homographic cfg f x nx n dx d = .ok r →
      r.Costs cfg (m + 2 * (L + 1) + 1 - (Timed.Number.homographic cfg f x nx n dx d).rounds) := by
  have := Timed.Number.homographic_within f hm.budget (hx.endsWithin hL) nx n dx d
  exact ⟨this.1, fun r e => (this.2 r (by rw [Timed.Number.homographic_out, e])).costs⟩

/-- `combine` together with all later reading of its result takes no more rounds than reading the
operands costs, one for each of their symbols, one for each pair of symbols, and six. -/
theorem C81_combine (cfg : Cfg) (A : Panic → Prop) (x y : Number) (q r : ℚ)
    (hx : Number.Denotes cfg A x q) (hy : Number.Denotes cfg A y r) (L L' : Nat)
    (hL : SymbolCount q L) (hL' : SymbolCount r L') (m m' : Nat) (hm : x.Costs cfg m)
    (hm' : y.Costs cfg m') (f : Nat) (nxy nx ny n dxy dx dy d : Int) :
    (Timed.Number.combine cfg f x y nxy nx ny n dxy dx dy d).rounds ≤
      m + m' + L + L' + max L L' + 6 ∧
    ∀ z, Number.combine cfg f x y nxy nx ny n dxy dx dy d = .ok z →
      z.Costs cfg (m + m' + L + L' + max L L' + 6 -
        (Timed.Number.combine cfg f x y nxy nx ny n dxy dx dy d).rounds) := by
  have := Timed.Number.combine_within f hm.budget hm'.budget (hx.endsWithin hL) (hy.endsWithin hL')
    nxy nx ny n dxy dx dy d
  exact ⟨this.1, fun z e => (this.2 z (by rw [Timed.Number.combine_out, e])).costs⟩

/-- `compare` takes no more rounds than reading the operands costs, and three for each symbol of the one
with fewer symbols and for its end. -/
theorem C81_compare (cfg : Cfg) (A : Panic → Prop) (x y : Number) (q r : ℚ)
    (hx : Number.Denotes cfg A x q) (hy : Number.Denotes cfg A y r) (L : Nat)
    (hL : SymbolCount q L ∨ SymbolCount r L) (m m' : Nat) (hm : x.Costs cfg m)
    (hm' : y.Costs cfg m') (f : Nat) :
    (Timed.Number.compare cfg f x y).rounds ≤ m + m' + 3 * (L + 1) :=
  (Timed.Number.compare_within f hm.budget hm'.budget (hL.imp hx.endsWithin hy.endsWithin)).1

/-- `consume` takes no more rounds than reading `x` costs, and two for each symbol of `x` and for its
end. -/
theorem C81_consume (cfg : Cfg) (A : Panic → Prop) (x : Number) (q : ℚ)
    (hx : Number.Denotes cfg A x q) (L : Nat) (hL : SymbolCount q L) (m : Nat) (hm : x.Costs cfg m)
    (f : Nat) : (Timed.Number.consume cfg f x).rounds ≤ m + 2 * (L + 1) :=
  (Timed.Number.consume_within f hm.budget (hx.endsWithin hL)).1

/-- A number made by `ratio` or `ratio_u` costs nothing beyond one round for each `egest`. -/
theorem C81_ratio (cfg : Cfg) (x : Number) :
    (∀ num den, Number.ratio cfg num den = .ok x → x.Costs cfg 0) ∧
    ∀ positive num den, Number.ratioU positive num den = .ok x → x.Costs cfg 0 := by
  have h : ∀ positive num den, Number.ratioU positive num den = .ok x → x.Costs cfg 0 := by
    intro positive num den e
    unfold Number.ratioU at e
    cases e1 : Ratio.new positive num den with
    | ok r =>
      rw [e1, ok_bind] at e
      obtain ⟨_ | s, p, _ | r⟩ := r <;> cases e
      · exact Clog.Budget.costs (.ratio _ _)
      · trivial
      · trivial
    | panic p => rw [e1] at e; cases e
    | timeout => rw [e1] at e; cases e
  refine ⟨fun num den e => ?_, h⟩
  unfold Number.ratio at e
  cases e1 : Ratio.magnitude cfg num with
  | ok n =>
    cases e2 : Ratio.magnitude cfg den with
    | ok d =>
      rw [e1, e2, ok_bind, ok_bind] at e
      exact h _ _ _ e
    | panic p => rw [e1, e2] at e; cases e
    | timeout => rw [e1, e2] at e; cases e
  | panic p => rw [e1] at e; cases e
  | timeout => rw [e1] at e; cases e

theorem Spec.Timed.egests_out (cfg : Cfg) (f m : Nat) (c : Clog) :
    (Spec.Timed.egests cfg f m c).out = Clog.egests cfg f m c := by
  induction m generalizing c with
  | zero => rfl
  | succ m ih =>
    unfold Spec.Timed.egests Clog.egests
    rw [Timed.out_bind, Timed.Clog.egest_out]
    refine bind_congr ?_
    rintro ⟨r, c⟩
    rw [Timed.out_bind, ih]
    rfl

theorem Spec.Timed.egests_within {cfg : Cfg} (f m : Nat) {n : Nat} {c : Clog}
    (h : Clog.Budget cfg n c) :
    Timed.Within (Spec.Timed.egests cfg f m c) (n + m) (fun r k => Clog.Budget cfg k r.2) := by
  induction m generalizing n c with
  | zero => exact Timed.Within.pure h
  | succ m ih =>
    unfold Spec.Timed.egests
    rw [show n + (m + 1) = n + 1 + m by ring]
    refine (((Timed.Clog.egest_thrifty cfg f).pays h).more m).bind ?_
    rintro ⟨r, c⟩ _ _ ⟨k, rfl, hk⟩
    exact (ih hk).bind fun _ _ _ h => Timed.Within.pure h

theorem Spec.Timed.rebuild_out (cfg : Cfg) (f : Nat) (r : Option Number × Coef4) :
    (Spec.Timed.rebuild cfg f r).out = Spec.rebuild cfg f r := by
  rcases r with ⟨_ | y, k⟩
  · simp only [Spec.Timed.rebuild, Spec.rebuild, Timed.out_bind, Timed.out_lift]
  · exact Timed.Number.homographic_out ..

open Spec.Expr in
/-- Counting changes nothing: a counted program gives the answers and the panics of the program. -/
theorem C81_same_program (cfg : Cfg) (f : Nat) (env : Nat → Number) (e : Expr) :
    (e.timed cfg f env).out = e.run cfg f env := by
  induction e with
  | given i => rfl
  | ratio num den => rfl
  | ratioU positive num den => rfl
  | homographic e nx n dx d ih =>
    simp only [timed, run, Timed.out_bind, ih, Timed.Number.homographic_out]
  | combine e e' nxy nx ny n dxy dx dy d ih ih' =>
    simp only [timed, run, Timed.out_bind, ih, ih', Timed.Number.combine_out]
  | rebuild e ih =>
    simp only [timed, run, Timed.out_bind, ih, Timed.Number.consume_out, Spec.Timed.rebuild_out]
  | reread p m e ih =>
    simp only [timed, run, Timed.out_bind, ih, Timed.out_lift, Spec.Timed.egests_out]
    rfl

/-- What the program and its parts return denotes their value. -/
private def Faithful (cfg : Cfg) (A : Panic → Prop) (env : Nat → Number) (val : Nat → ℚ) : Expr → Prop
  | .given i => Number.Denotes cfg A (env i) (val i)
  | .ratio _ _ => True
  | .ratioU _ _ _ => True
  | .homographic e _ _ _ _ => Right e ∧ Faithful cfg A env val e
  | .combine e e' _ _ _ _ _ _ _ _ =>
    (Right e ∧ Faithful cfg A env val e) ∧ Right e' ∧ Faithful cfg A env val e'
  | .rebuild e => Right e ∧ Faithful cfg A env val e
  | .reread _ _ e => Right e ∧ Faithful cfg A env val e
where
  Right (e : Expr) : Prop := ∀ q f x, Expr.Value val e q → e.run cfg f env = .ok x →
    Number.Denotes cfg A x q

private theorem timed_within {cfg : Cfg} {A : Panic → Prop} {env : Nat → Number} {val : Nat → ℚ}
    {given : Nat → Nat} (hgiven : ∀ i, (env i).Costs cfg (given i)) {len : Expr → Nat}
    (hlen : ∀ e q, Expr.Value val e q → SymbolCount q (len e)) {e : Expr}
    (he : Faithful cfg A env val e) {q : ℚ} (hv : Expr.Value val e q) (f : Nat) :
    Timed.Within (e.timed cfg f env) (e.rounds given len) (fun x n => x.Budget cfg n) := by
  induction hv with
  | given i => exact Timed.Within.pure (hgiven i).budget
  | @ratio num den h =>
    exact Timed.Within.lift fun x e => ((C81_ratio cfg x).1 _ _ e).budget
  | @ratioU positive num den h =>
    exact Timed.Within.lift fun x e => ((C81_ratio cfg x).2 _ _ _ e).budget
  | @homographic e q nx n dx d hv hD ih =>
    obtain ⟨hr, he⟩ := he
    rw [Expr.rounds, show e.rounds given len + 2 * (len e + 1) + 1 =
      e.rounds given len + (2 * (len e + 1) + 1) by ring]
    refine ((ih he).more _).bind ?_
    rintro x _ ex ⟨m, rfl, hm⟩
    rw [C81_same_program] at ex
    have := Timed.Number.homographic_within f hm ((hr q f x hv ex).endsWithin (hlen e q hv)) nx n dx d
    rwa [show m + 2 * (len e + 1) + 1 = m + (2 * (len e + 1) + 1) by ring] at this
  | @combine e e' q r nxy nx ny n dxy dx dy d hv hv' hD ih ih' =>
    obtain ⟨⟨hr, he⟩, hr', he'⟩ := he
    rw [Expr.rounds, show e.rounds given len + e'.rounds given len + len e +
      len e' + max (len e) (len e') + 6 = e.rounds given len +
        (e'.rounds given len + (len e + len e' + max (len e) (len e') + 6)) by ring]
    refine ((ih he).more _).bind ?_
    rintro x _ ex ⟨m, rfl, hm⟩
    rw [show m + (e'.rounds given len + (len e + len e' + max (len e) (len e') + 6)) =
      e'.rounds given len + (m + (len e + len e' + max (len e) (len e') + 6)) by ring]
    refine ((ih' he').more _).bind ?_
    rintro y _ ey ⟨m', rfl, hm'⟩
    rw [C81_same_program] at ex ey
    have := Timed.Number.combine_within f hm hm' ((hr q f x hv ex).endsWithin (hlen e q hv))
      ((hr' r f y hv' ey).endsWithin (hlen e' r hv')) nxy nx ny n dxy dx dy d
    rwa [show m + m' + len e + len e' + max (len e) (len e') + 6 =
      m' + (m + (len e + len e' + max (len e) (len e') + 6)) by ring] at this
  | @rebuild e q hv ih =>
    obtain ⟨hr, he⟩ := he
    rw [Expr.rounds, show e.rounds given len + 2 * (len e + 1) + 1 =
      e.rounds given len + (2 * (len e + 1) + 1) by ring]
    refine ((ih he).more _).bind ?_
    rintro x _ ex ⟨m, rfl, hm⟩
    rw [C81_same_program] at ex
    rw [show m + (2 * (len e + 1) + 1) = m + 2 * (len e + 1) + 1 by ring]
    refine ((Timed.Number.consume_within f hm ((hr q f x hv ex).endsWithin (hlen e q hv))).more
      1).bind ?_
    rintro ⟨_ | y, k⟩ _ _ ⟨m', rfl, hy⟩
    · exact Timed.Within.lift_bind fun _ _ => Timed.Within.lift_bind fun _ _ =>
        Timed.Within.lift_bind fun _ _ => Timed.Within.lift_bind fun _ _ =>
        Timed.Within.lift fun z e => (((C81_ratio cfg z).1 _ _ e).budget).mono (by omega)
    · obtain ⟨n', L', h1, h2, rfl⟩ := hy y rfl
      exact Timed.Number.homographic_within f h1 h2 _ _ _ _
  | @reread e p p' m x h0 h1 hv ih =>
    obtain ⟨hr, he⟩ := he
    rw [Expr.rounds]
    refine ((ih he).more _).bind ?_
    rintro x _ ex ⟨n, rfl, hn⟩
    cases x with
    | Special s => exact Timed.Within.lift_bind fun _ h => by cases h
    | Other p₁ c =>
      refine Timed.Within.lift_bind ?_
      rintro _ ⟨⟩
      refine (Spec.Timed.egests_within f m hn).bind ?_
      rintro ⟨_, c'⟩ k _ hk
      exact Timed.Within.pure hk

/-- Running the program and reading `n` symbols of its result, counted. -/
def Spec.Expr.timedReads (cfg : Cfg) (f : Nat) (env : Nat → Number) (e : Expr) (n : Nat) :
    Timed (List (Option Reduction)) := do
  match ← e.timed cfg f env with
  | .Special _ => pure []
  | .Other _ c => do
    let (l, _) ← Spec.Timed.egests cfg f n c
    pure l

private theorem timedReads_within {cfg : Cfg} {env : Nat → Number} {e : Expr} {f N : Nat}
    (h : Timed.Within (e.timed cfg f env) N (fun x n => x.Budget cfg n)) (n : Nat) :
    (e.timedReads cfg f env n).rounds ≤ N + n := by
  refine (Timed.Within.bind (Q := fun _ _ => True) (h.more n) ?_).1
  rintro (s | ⟨p, c⟩) _ _ ⟨m, rfl, hm⟩
  · exact Timed.Within.pure trivial
  · exact (Spec.Timed.egests_within f n hm).bind fun _ _ _ _ => Timed.Within.pure trivial

open Spec.Expr in
/-- In a build with overflow checks, a program with a value, and the reading of `n` symbols of its
result, together take at most `e.rounds given len + n` rounds, whether they panic or not. -/
theorem C81_program (cfg : Cfg) (hc : cfg.overflowChecks = true) (env : Nat → Number)
    (val : Nat → ℚ) (henv : ∀ i, Number.Denotes cfg Overflow (env i) (val i)) (given : Nat → Nat)
    (hgiven : ∀ i, (env i).Costs cfg (given i)) (len : Expr → Nat)
    (hlen : ∀ e q, Value val e q → SymbolCount q (len e)) (e : Expr) (hm : e.Machine cfg) (q : ℚ)
    (hv : Value val e q) (f n : Nat) :
    (e.timedReads cfg f env n).rounds ≤ e.rounds given len + n := by
  refine timedReads_within (timed_within (A := Overflow) hgiven hlen ?_ hv f) n
  have right (e : Expr) (hm : e.Machine cfg) : Faithful.Right cfg Overflow env val e :=
    fun q f x hv h => (C35_refinement cfg hc env val henv e hm q hv).of_returns
      ((run_mono cfg env e).returns f h)
  clear hv
  induction e with
  | given i => exact henv i
  | ratio num den => trivial
  | ratioU positive num den => trivial
  | homographic e nx n dx d ih => exact ⟨right e hm.1, ih hm.1⟩
  | combine e e' nxy nx ny n dxy dx dy d ih ih' =>
    exact ⟨⟨right e hm.1, ih hm.1⟩, right e' hm.2.1, ih' hm.2.1⟩
  | rebuild e ih => exact ⟨right e hm, ih hm⟩
  | reread p m e ih => exact ⟨right e hm, ih hm⟩

open Spec.Expr in
/-- In every build, the same holds where there is room for the program. -/
theorem C81_roomy_program (cfg : Cfg) (env : Nat → Number)
    (val : Nat → ℚ) (henv : ∀ i, Number.Denotes cfg NoPanic (env i) (val i)) (given : Nat → Nat)
    (hgiven : ∀ i, (env i).Costs cfg (given i)) (len : Expr → Nat)
    (hlen : ∀ e q, Value val e q → SymbolCount q (len e)) (e : Expr) (hm : e.Roomy cfg val) (q : ℚ)
    (hv : Value val e q) (f n : Nat) :
    (e.timedReads cfg f env n).rounds ≤ e.rounds given len + n := by
  refine timedReads_within (timed_within (A := NoPanic) hgiven hlen ?_ hv f) n
  have right (e : Expr) (hm : e.Roomy cfg val) : Faithful.Right cfg NoPanic env val e := by
    intro q f x hv h
    obtain ⟨y, h1, h2⟩ := C76_programs cfg env val henv e hm q hv
    rwa [((run_mono cfg env e).returns f h).unique h1]
  clear hv
  induction e with
  | given i => exact henv i
  | ratio num den => trivial
  | ratioU positive num den => trivial
  | homographic e nx n dx d ih => exact ⟨right e hm.1, ih hm.1⟩
  | combine e e' nxy nx ny n dxy dx dy d ih ih' =>
    exact ⟨⟨right e hm.1, ih hm.1⟩, right e' hm.2.1, ih' hm.2.1⟩
  | rebuild e ih => exact ⟨right e hm.1, ih hm.1⟩
  | reread p m e ih => exact ⟨right e hm, ih hm⟩

/-! ## No call is missed -/

/-- Every recursive call and every turn of a loop is counted: where a function of the library is out of
fuel `f`, the counted one has taken `f` rounds (for `egest`, `f - 1`). -/
theorem C81_counted (cfg : Cfg) (f : Nat) (x y : Number) :
    (∀ nx n dx d, Number.homographic cfg f x nx n dx d = .timeout →
      f ≤ (Timed.Number.homographic cfg f x nx n dx d).rounds) ∧
    (∀ nxy nx ny n dxy dx dy d, Number.combine cfg f x y nxy nx ny n dxy dx dy d = .timeout →
      f ≤ (Timed.Number.combine cfg f x y nxy nx ny n dxy dx dy d).rounds) ∧
    (Number.consume cfg f x = .timeout → f ≤ (Timed.Number.consume cfg f x).rounds) ∧
    (Number.compare cfg f x y = .timeout → f ≤ (Timed.Number.compare cfg f x y).rounds) ∧
    ∀ c, Clog.egest cfg f c = .timeout → f - 1 ≤ (Timed.Clog.egest cfg f c).rounds := by
  obtain ⟨h1, h2, h3, h4, h5⟩ := C81_same cfg f x y
  exact ⟨fun nx n dx d h => Timed.Number.homographic_spent cfg f x nx n dx d (by rw [h1, h]),
    fun nxy nx ny n dxy dx dy d h =>
      Timed.Number.combine_spent cfg f x y nxy nx ny n dxy dx dy d (by rw [h2, h]),
    fun h => Timed.Number.consume_spent cfg f x (by rw [h3, h]),
    fun h => Timed.Number.compare_spent cfg f x y (by rw [h4, h]),
    fun c h => Timed.Clog.egest_spent cfg f c (by rw [h5, h])⟩

/-- So the bounds also say that the functions end. -/
theorem C81_ends (cfg : Cfg) (A : Panic → Prop) (x y : Number) (q r : ℚ)
    (hx : Number.Denotes cfg A x q) (hy : Number.Denotes cfg A y r) (L L' : Nat)
    (hL : SymbolCount q L) (hL' : SymbolCount r L') (m m' : Nat) (hm : x.Costs cfg m)
    (hm' : y.Costs cfg m') (f : Nat) (hf : m + m' + L + L' + max L L' + 6 < f)
    (nxy nx ny n dxy dx dy d : Int) :
    Number.combine cfg f x y nxy nx ny n dxy dx dy d ≠ .timeout ∧
    Number.homographic cfg f x nx n dx d ≠ .timeout ∧ Number.consume cfg f x ≠ .timeout ∧
    Number.compare cfg f x y ≠ .timeout := by
  obtain ⟨h1, h2, h3, h4, -⟩ := C81_counted cfg f x y
  have k1 := (C81_homographic cfg A x q hx L hL m hm f nx n dx d).1
  have k2 := (C81_combine cfg A x y q r hx hy L L' hL hL' m m' hm hm' f nxy nx ny n dxy dx dy d).1
  have k3 := C81_consume cfg A x q hx L hL m hm f
  have k4 : (Timed.Number.compare cfg f x y).rounds ≤ m + m' + L + L' + max L L' + 3 := by
    rcases le_total L L' with h | h
    · have := C81_compare cfg A x y q r hx hy L (.inl hL) m m' hm hm' f
      omega
    · have := C81_compare cfg A x y q r hx hy L' (.inr hL') m m' hm hm' f
      omega
  refine ⟨fun h => ?_, fun h => ?_, fun h => ?_, fun h => ?_⟩
  · have := h2 nxy nx ny n dxy dx dy d h
    omega
  · have := h1 nx n dx d h
    omega
  · have := h3 h
    omega
  · have := h4 h
    omega

example (nxy nx ny n dxy dx dy d : Int) :=
  C81_ends debug64 NoPanic _ _ _ _ (denotes_three_fifths _ _) (denotes_three_fifths _ _) 2 2
    symbolCount_three_fifths symbolCount_three_fifths 0 0
    ((C81_ratio debug64 (.Other none (.ratio ⟨3, 5⟩))).1 3 5 rfl)
    ((C81_ratio debug64 (.Other none (.ratio ⟨3, 5⟩))).1 3 5 rfl) 13 (by decide)
    nxy nx ny n dxy dx dy d

/-! ## Bounds from the text -/

open Spec.Expr in
/-- A number of symbols for every program, from its text. -/
theorem C81_length (val : Nat → ℚ) (size : Nat → Nat) (hval : ∀ i, Parts (size i) (val i)) (e : Expr)
    (q : ℚ) (hv : Value val e q) : SymbolCount q (longest (e.digits size)) := by
  obtain ⟨num, den, h0, h1, h2, rfl⟩ := (C80_parts val size hval e q hv).digits
  exact (C45_symbol_count _ num den h0 h1 h2).1

open Spec.Expr in
/-- A bound that can be read off the text of the program. -/
theorem C81_text (cfg : Cfg) (hc : cfg.overflowChecks = true) (env : Nat → Number)
    (val : Nat → ℚ) (henv : ∀ i, Number.Denotes cfg Overflow (env i) (val i)) (given size : Nat → Nat)
    (hgiven : ∀ i, (env i).Costs cfg (given i)) (hval : ∀ i, Parts (size i) (val i)) (e : Expr)
    (hm : e.Machine cfg) (q : ℚ) (hv : Value val e q) (f n : Nat) :
    (e.timedReads cfg f env n).rounds ≤ e.rounds given (fun e => longest (e.digits size)) + n :=
  C81_program cfg hc env val henv given hgiven _ (fun e q hv => C81_length val size hval e q hv) e hm q
    hv f n

/-- In every build, one operation on fractions of machine integers, with any coefficients and together
with all later reading of the result, takes a number of rounds that is quadratic in the number of
bits. -/
theorem C81_machine (cfg : Cfg) (a b c d : Int) (ha : cfg.Fits a) (hb : cfg.Fits b) (hc : cfg.Fits c)
    (hd : cfg.Fits d) (x y : Number) (hx : Number.ratio cfg a b = .ok x)
    (hy : Number.ratio cfg c d = .ok y) (f : Nat) :
    (∀ nx n dx d, (Timed.Number.homographic cfg f x nx n dx d).rounds ≤
        2 * longest (cfg.bits - 1) + 3 ∧
      ∀ z, Number.homographic cfg f x nx n dx d = .ok z → z.Costs cfg
        (2 * longest (cfg.bits - 1) + 3 - (Timed.Number.homographic cfg f x nx n dx d).rounds)) ∧
    (∀ nxy nx ny n dxy dx dy d, (Timed.Number.combine cfg f x y nxy nx ny n dxy dx dy d).rounds ≤
        3 * longest (cfg.bits - 1) + 6 ∧
      ∀ z, Number.combine cfg f x y nxy nx ny n dxy dx dy d = .ok z → z.Costs cfg
        (3 * longest (cfg.bits - 1) + 6 -
          (Timed.Number.combine cfg f x y nxy nx ny n dxy dx dy d).rounds)) ∧
    (Timed.Number.compare cfg f x y).rounds ≤ 3 * longest (cfg.bits - 1) + 3 ∧
    (Timed.Number.consume cfg f x).rounds ≤ 2 * longest (cfg.bits - 1) + 2 := by
  obtain ⟨hx1, -, hx2⟩ := Number.ratio_facts ha hb hx
  obtain ⟨hy1, -, hy2⟩ := Number.ratio_facts hc hd hy
  have hx3 := (C81_ratio cfg x).1 a b hx
  have hy3 := (C81_ratio cfg y).1 c d hy
  obtain ⟨L, hL⟩ : ∃ L, L = longest (cfg.bits - 1) := ⟨_, rfl⟩
  rw [← hL] at hx2 hy2 ⊢
  refine ⟨fun nx n dx d => ?_, fun nxy nx ny n dxy dx dy d => ?_, ?_, ?_⟩
  · have := C81_homographic cfg NoPanic x _ hx1 L hx2 0 hx3 f nx n dx d
    rwa [show 0 + 2 * (L + 1) + 1 = 2 * L + 3 by ring] at this
  · have := C81_combine cfg NoPanic x y _ _ hx1 hy1 L L hx2 hy2 0 0 hx3 hy3 f nxy nx ny n dxy dx dy d
    rwa [show 0 + 0 + L + L + max L L + 6 = 3 * L + 6 by omega] at this
  · have := C81_compare cfg NoPanic x y _ _ hx1 hy1 L (.inl hx2) 0 0 hx3 hy3 f
    omega
  · have := C81_consume cfg NoPanic x _ hx1 L hx2 0 hx3 f
    omega

/-- On a 64-bit machine this is at most 6237 rounds for a `combine`. -/
example : 3 * longest (debug64.bits - 1) + 6 = 6237 := by decide

/-- The hypotheses are met by -22/7 and 3/5. -/
example : debug64.Fits (-22) ∧ debug64.Fits 7 ∧ debug64.Fits 3 ∧ debug64.Fits 5 ∧
    ∃ x y, Number.ratio debug64 (-22) 7 = .ok x ∧ Number.ratio debug64 3 5 = .ok y :=
  ⟨by decide, by decide, by decide, by decide, _, _, rfl, rfl⟩

/-- 3/5 has two symbols, and reading it costs nothing beyond the calls. -/
example (f : Nat) (nx n dx d : Int) :=
  C81_homographic debug64 NoPanic _ _ (denotes_three_fifths _ _) 2 symbolCount_three_fifths 0
    ((C81_ratio debug64 (.Other none (.ratio ⟨3, 5⟩))).1 3 5 rfl) f nx n dx d

example (f : Nat) (nxy nx ny n dxy dx dy d : Int) :=
  C81_combine debug64 NoPanic _ _ _ _ (denotes_three_fifths _ _) (denotes_three_fifths _ _) 2 2
    symbolCount_three_fifths symbolCount_three_fifths 0 0
    ((C81_ratio debug64 (.Other none (.ratio ⟨3, 5⟩))).1 3 5 rfl)
    ((C81_ratio debug64 (.Other none (.ratio ⟨3, 5⟩))).1 3 5 rfl) f nxy nx ny n dxy dx dy d

example (f : Nat) :=
  C81_compare debug64 NoPanic _ _ _ _ (denotes_three_fifths _ _) (denotes_three_fifths _ _) 2
    (.inl symbolCount_three_fifths) 0 0
    ((C81_ratio debug64 (.Other none (.ratio ⟨3, 5⟩))).1 3 5 rfl)
    ((C81_ratio debug64 (.Other none (.ratio ⟨3, 5⟩))).1 3 5 rfl) f

open Spec.Expr in
/-- ((3/5 read by one symbol) rebuilt) times -7/2, plus one, has a value, and its text gives a bound of
98 rounds. -/
example (f n : Nat) :
    (timedReads debug64 f (fun _ => .Special .PosOne)
      (.homographic (.combine (.rebuild (.reread none 1 (.ratio 3 5))) (.ratio (-7) 2)
        1 0 0 0 0 0 0 1) 1 1 0 1) n).rounds ≤ 98 + n := by
  have h1 := Value.rebuild (Value.reread (val := fun _ => 1) (p := none) (p' := none) (m := 1)
    (x := 3 / 5) (by norm_num) (by norm_num) (e := .ratio 3 5) (by
      have := Value.ratio (val := fun _ => 1) (num := 3) (den := 5) (by decide)
      simpa [applyPrimer] using this))
  have h2 := Value.combine (nxy := 1) (nx := 0) (ny := 0) (n := 0) (dxy := 0) (dx := 0) (dy := 0)
    (d := 1) h1 (Value.ratio (num := -7) (den := 2) (by decide)) (by norm_num)
  have h3 := Value.homographic (nx := 1) (n := 1) (dx := 0) (d := 1) h2 (by norm_num)
  refine (C81_text debug64 rfl (fun _ => .Special .PosOne) (fun _ => 1) (fun _ => rfl) (fun _ => 0)
    (fun _ => 1) (fun _ => trivial)
    (fun _ => ⟨1, 1, by decide, by decide, by decide, by norm_num⟩) _
    ?_ _ h3 f n).trans (Nat.add_le_add_right (by decide) n)
  refine ⟨⟨?_, ?_, ?_⟩, ?_⟩ <;> simp only [Machine, MachineInts] <;> decide

/-- The bounds are sharp: reading the result of x + 1, or of a * b, through its end takes exactly so many
rounds. -/
example : SymbolCount (3 / 5) 2 ∧
    (Expr.timedReads debug64 9 (fun _ => .Special .Zero) (.homographic (.ratio 3 5) 1 1 0 1) 6).rounds =
      2 * (2 + 1) + 1 + 6 ∧
    (Expr.timedReads debug64 9 (fun _ => .Special .Zero)
      (.combine (.ratio 3 5) (.ratio 3 5) 1 0 0 0 0 0 0 1) 8).rounds = 2 + 2 + 2 + 6 + 8 ∧
    (Timed.Number.compare debug64 9 (.Other none (.ratio ⟨3, 5⟩)) (.Other none (.ratio ⟨3, 5⟩))).rounds =
      3 * (2 + 1) ∧
    (Timed.Number.consume debug64 9 (.Other none (.ratio ⟨3, 5⟩))).rounds = 2 * (2 + 1) :=
  ⟨symbolCount_three_fifths, by decide +kernel, by decide +kernel, by decide +kernel,
    by decide +kernel⟩

end Clarith
