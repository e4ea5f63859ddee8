import Verif.Proofs.Observe
import Verif.Proofs.Homographic
import Verif.Proofs.Fuel
import Verif.Properties.Ratio
import Mathlib.Data.List.Basic

/-! # Symbol strings and printed text (C09, C39) -/

namespace Clarith

open Spec Out

/-! ## C09 Every finite symbol string is some rational -/

theorem Spec.Expands.injective {x y : ℚ} {l : List Reduction} (hx : Expands x l)
    (hy : Expands y l) : x = y := by
  induction l generalizing x y with
  | nil => cases hx; cases hy; rfl
  | cons r l ih =>
    cases hx with
    | amplify h0 h1 h =>
      cases hy with
      | amplify h0' h1' h' => have := ih h h'; linarith
    | uncover h0 h1 h =>
      cases hy with
      | uncover h0' h1' h' =>
        have := ih h h'
        have h2 : 1 / x = 1 / y := by linarith
        exact (one_div_one_div x).symm.trans ((congrArg _ h2).trans (one_div_one_div y))

theorem Spec.exists_of_symbols (l : List Reduction) : ∃ x, Expands x l := by
  induction l with
  | nil => exact ⟨_, .half⟩
  | cons r l ih =>
    obtain ⟨y, hy⟩ := ih
    obtain ⟨h0, h1⟩ := hy.mem
    cases r with
    | Amplify =>
      refine ⟨y / 2, .amplify (by linarith) (by linarith) ?_⟩
      convert hy using 1; ring
    | Uncover =>
      refine ⟨1 / (1 + y), .uncover ?_ ?_ ?_⟩
      · rw [div_lt_div_iff₀ (by norm_num) (by linarith)]; linarith
      · rw [div_lt_iff₀ (by linarith)]; linarith
      · convert hy using 1; field_simp; ring

/-- For every optional primer and every finite list of symbols there is exactly one rational
with that representation (and its value before the primer is in (0,1)). -/
theorem C09_finite_strings (p : Option Primer) (l : List Reduction) :
    ∃! q : ℚ, ∃ x, 0 < x ∧ x < 1 ∧ Expands x l ∧ q = applyPrimer p x := by
  obtain ⟨x, hx⟩ := exists_of_symbols l
  refine ⟨applyPrimer p x, ⟨x, hx.mem.1, hx.mem.2, hx, rfl⟩, ?_⟩
  rintro q ⟨y, _, _, hy, rfl⟩
  rw [hx.injective hy]

example : Expands (3 / 5) [.Uncover, .Uncover] := by
  refine .uncover (by norm_num) (by norm_num) (.uncover (by norm_num) (by norm_num) ?_)
  have : (1 : ℚ) / (1 / (3 / 5) - 1) - 1 = 1 / 2 := by norm_num
  rw [this]; exact .half

/-! ## C39 Printed form -/

/-- The letters of the printed form: zero, positive one, negative one; then turn, reflect, ground;
amplify, uncover; and half at the end. -/
def Spec.letterSpecial : Special → Char
  | .Zero => 'Z'
  | .PosOne => 'P'
  | .NegOne => 'N'

/-- The letter of a primer. -/
def Spec.letterPrimer : Primer → Char
  | .Turn => 'T'
  | .Reflect => 'R'
  | .Ground => 'G'

/-- The letter of a symbol. -/
def Spec.letter : Reduction → Char
  | .Amplify => 'A'
  | .Uncover => 'U'

/-- `t` is the printed form of the rational `q`. -/
def Spec.Text (q : ℚ) (t : List Char) : Prop :=
  (∃ s, q = specialValue s ∧ t = [letterSpecial s]) ∨
  (∃ p x l, q = applyPrimer p x ∧ Expands x l ∧
    t = (p.map letterPrimer).toList ++ l.map letter ++ ['H'])

theorem Spec.letter_injective : Function.Injective letter := by
  intro a b; cases a <;> cases b <;> simp [letter]

/-- A text stands for at most one rational. -/
theorem Spec.Text.injective {q q' : ℚ} {t : List Char} (h : Text q t) (h' : Text q' t) :
    q = q' := by
  have strip : ∀ {l l' : List Reduction}, l.map letter ++ ['H'] = l'.map letter ++ ['H'] →
      l = l' := fun e => (List.map_injective_iff.2 letter_injective) (List.append_cancel_right e)
  have head : ∀ (l : List Reduction) (c : Char) (t : List Char),
      l.map letter ++ ['H'] = c :: t → c = 'A' ∨ c = 'U' ∨ c = 'H' := by
    intro l c t e
    rcases l with _ | ⟨r, l⟩
    · simp only [List.map_nil, List.nil_append, List.cons.injEq] at e; simp [← e.1]
    · simp only [List.map_cons, List.cons_append, List.cons.injEq] at e; rw [← e.1]; cases r <;> simp [letter]
  rcases h with ⟨s, rfl, rfl⟩ | ⟨p, x, l, rfl, hx, rfl⟩
  · rcases h' with ⟨s', rfl, e⟩ | ⟨p, x, l, rfl, hx, e⟩
    · cases s <;> cases s' <;> simp [letterSpecial] at e <;> rfl
    · exfalso
      rcases p with _ | p
      · have := head l _ _ e.symm
        cases s <;> simp [letterSpecial] at this
      · have e' := congrArg List.length e
        simp at e'
  · rcases h' with ⟨s, rfl, e⟩ | ⟨p', x', l', rfl, hx', e⟩
    · exfalso
      rcases p with _ | p
      · have := head l _ _ e
        cases s <;> simp [letterSpecial] at this
      · have e' := congrArg List.length e
        simp at e'
    · rcases p with _ | p
      · rcases p' with _ | p'
        · have : l = l' := strip e
          subst this
          rw [hx.injective hx']
        · exfalso
          have := head l _ _ e
          cases p' <;> simp [letterPrimer] at this
      · rcases p' with _ | p'
        · exfalso
          have := head l' _ _ e.symm
          cases p <;> simp [letterPrimer] at this
        · simp only [Option.map_some, Option.toList_some, List.cons_append, List.nil_append,
            List.cons.injEq] at e
          have : l = l' := strip e.2
          subst this
          have hp : p = p' := by
            have := e.1
            cases p <;> cases p' <;> simp [letterPrimer] at this <;> rfl
          subst hp
          rw [hx.injective hx']

/-- A rational has at most one text. -/
theorem Spec.Text.unique {q : ℚ} {t t' : List Char} (h : Text q t) (h' : Text q t') : t = t' := by
  rcases h with ⟨s, rfl, rfl⟩ | ⟨p, x, l, rfl, hx, rfl⟩
  · rcases h' with ⟨s', e, rfl⟩ | ⟨p, x, l, e, hx, rfl⟩
    · rw [specialValue_inj e]
    · exact (applyPrimer_ne_special hx.mem.1 hx.mem.2 e.symm).elim
  · rcases h' with ⟨s', e, rfl⟩ | ⟨p', x', l', e, hx', rfl⟩
    · exact (applyPrimer_ne_special hx.mem.1 hx.mem.2 e).elim
    · obtain ⟨rfl, rfl⟩ := applyPrimer_inj hx.mem.1 hx.mem.2 hx'.mem.1 hx'.mem.2 e
      rw [hx.unique hx']

theorem Main.logc_ev {cfg : Cfg} {A : Panic → Prop} {c : Clog} {x : ℚ} {l : List Reduction}
    (h : Clog.Denotes cfg A c x) (hl : Expands x l) :
    Ev A (fun f j => Main.logc cfg (Clog.egest cfg f) j c) (fun t => t = l.map letter ++ ['H']) := by
  induction l generalizing c x with
  | nil =>
    cases hl
    refine Ev.succ ?_
    simp only [Main.logc]
    refine Ev.bind h.ev ?_
    rintro ⟨r, c'⟩ ⟨hr, -⟩
    simp only [sym_half] at hr
    subst hr
    exact Ev.pure rfl
  | cons s l ih =>
    have hs : sym x = some s ∧ Expands (next x) l := by
      cases hl with
      | amplify h0 h1 h => rw [sym_lt h1, next_lt h1]; exact ⟨rfl, h⟩
      | uncover h0 h1 h => rw [sym_gt h0, next_gt h0]; exact ⟨rfl, h⟩
    refine Ev.succ ?_
    simp only [Main.logc]
    refine Ev.bind h.ev ?_
    rintro ⟨r, c'⟩ ⟨hr, hd⟩
    simp only at hr hd
    rw [hs.1] at hr
    subst hr
    refine Ev.bind (ih hd hs.2) ?_
    rintro _ rfl
    refine Ev.pure ?_
    cases s <;> rfl

/-- Printing a number denoting `q` ends and prints the text of `q`, or an `egest` panics. -/
theorem C39_printed (cfg : Cfg) (A : Panic → Prop) (n : Number) (q : ℚ)
    (h : Number.Denotes cfg A n q) :
    Ends A (fun f => Main.logn cfg f n) (fun t => Text q t) := by
  cases n with
  | Special s =>
    refine Ends.of_sat (Sat.pure (.inl ⟨s, h, ?_⟩))
    cases s <;> rfl
  | Other p c =>
    obtain ⟨x, hx, rfl⟩ := h
    obtain ⟨l, hl⟩ := exists_expands x hx.1 hx.2.1
    simp only [Main.logn]
    refine Ends.bind (Main.logc_ev hx hl).ends ?_
    rintro _ rfl
    refine Ends.of_sat (Sat.pure (.inr ⟨p, x, l, rfl, hl, ?_⟩))
    rcases p with _ | p
    · rfl
    · cases p <;> rfl

/-- The text of -1. -/
example := C39_printed debug64 NoPanic (.Special .NegOne) (-1) rfl

/-- Two numbers built by `ratio` print, without panic, texts that are equal exactly when the
fractions are equal. -/
theorem C39_printed_identifies (cfg : Cfg) (a b c d : Int) (hb : b ≠ 0) (hd : d ≠ 0)
    (ha' : cfg.Fits a) (hb' : cfg.Fits b) (hc' : cfg.Fits c) (hd' : cfg.Fits d)
    (hmin : cfg.overflowChecks = true →
      a ≠ cfg.imin ∧ b ≠ cfg.imin ∧ c ≠ cfg.imin ∧ d ≠ cfg.imin) :
    ∃ n1 n2 t1 t2, Number.ratio cfg a b = .ok n1 ∧ Number.ratio cfg c d = .ok n2 ∧
      Returns (fun f => Main.logn cfg f n1) t1 ∧ Returns (fun f => Main.logn cfg f n2) t2 ∧
      (t1 = t2 ↔ a * d = c * b) := by
  obtain ⟨n1, e1, h1⟩ := Number.ratio_denotes (A := NoPanic) hb ha' hb'
    fun h => ⟨(hmin h).1, (hmin h).2.1⟩
  obtain ⟨n2, e2, h2⟩ := Number.ratio_denotes (A := NoPanic) hd hc' hd'
    fun h => ⟨(hmin h).2.2.1, (hmin h).2.2.2⟩
  rcases C39_printed cfg NoPanic n1 _ h1 with ⟨t1, r1, T1⟩ | ⟨_, _, hp⟩
  · rcases C39_printed cfg NoPanic n2 _ h2 with ⟨t2, r2, T2⟩ | ⟨_, _, hp⟩
    · refine ⟨n1, n2, t1, t2, e1, e2, r1, r2, ?_⟩
      have hb0 : (b : ℚ) ≠ 0 := by exact_mod_cast hb
      have hd0 : (d : ℚ) ≠ 0 := by exact_mod_cast hd
      have key : a * d = c * b ↔ (a : ℚ) / b = c / d := by
        rw [div_eq_div_iff hb0 hd0]; norm_cast
      rw [key]
      constructor
      · rintro rfl; exact T1.injective T2
      · intro e; rw [e] at T1; exact T1.unique T2
    · exact hp.elim
  · exact hp.elim

example : debug64.Fits 567 ∧ debug64.Fits 1000 ∧
    (match Number.ratio debug64 567 1000 with
      | .ok n => Main.logn debug64 20 n
      | _ => .timeout) = .ok "UUAUUUUUUUAAAAUAH".toList := by decide +kernel

/-- Tests: the examples in the comments of the code (/repo/src/protocol.rs:38-42 and 58-61; the
program writes an `H` where these strings end), and the three specials. -/
example : ([(1, 2), (1, 10), (567, 1000), (8, 9), (-1, 2), (5, 1), (-314, 100), (-1, 1), (0, 1),
      (1, 1)].map fun ab : Int × Int =>
      match Number.ratio debug64 ab.1 ab.2 with
        | .ok n => Main.logn debug64 20 n
        | _ => .timeout) =
    ["H", "AAAUAH", "UUAUUUUUUUAAAAUAH", "UAAH", "RH", "TAAUAH", "GAUUUAUUUAAUUUUH", "N", "Z",
      "P"].map fun t : String => .ok t.toList := by decide +kernel

end Clarith
