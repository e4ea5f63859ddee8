import Verif.Proofs.MainSteps
import Verif.Properties.Stdout

/-! # The stream of standard output of the demonstration program (C72)

C39 and C43 have the text of a call that ends.  Here standard output is a stream of pieces in the
order in which they are written, what was written before a panic counts, and so do the debugging
lines of homographic.rs that land in the midst of a number. -/

namespace Clarith

open Spec Steps

/-- The whole program: the pieces of the listing of C43, and nothing else. -/
theorem C72_program (cfg : Cfg) :
    ∃ ps, Pieces (listed cfg) ps ∧ Listing (listed cfg) ps.flatten ∧ ∃ F, ∀ f, F ≤ f → ∀ w,
      Screen.main cfg f (w, []) = (.ok (), (w, ps.map .text)) := by
  obtain ⟨ps, h, F, hF⟩ := Screen.main_lists cfg
  exact ⟨ps, h, h.listing, F, fun f hf w => hF f hf (w, [])⟩

/-- Test: the first pieces on a 16-bit machine. -/
example : ((Screen.main ⟨16, by decide, true⟩ 40 (emptyWorld, [])).2.2.take 11) =
    [" 0.0: ", "Z", "\n", " 0.5: ", "H", "\n", " 1.0: ", "P", "\n", " 1.5: ", "T"].map
      (fun t => .text t.toList) := by
  decide +kernel

/-- The program on a standard output that cannot always be written, such as a closed pipe: it panics
at the first `print!` that fails, and has written the listing up to there. -/
theorem C72_program_fails (cfg : Cfg) :
    ∃ ps, Pieces (listed cfg) ps ∧ ∃ F, ∀ f, F ≤ f → ∀ w (ok : Nat → Bool),
      ((∀ i, i < ps.length → ok i = true) →
        Screen.Failing.main cfg ok f (w, []) = (some (.ok ()), (w, ps.map .text))) ∧
      ∀ i, i < ps.length → ok i = false → (∀ j, j < i → ok j = true) →
        (Screen.Failing.main cfg ok f (w, [])).1 = none ∧
        (Screen.Failing.main cfg ok f (w, [])).2.2 = (ps.take (i + 1)).map .text := by
  obtain ⟨ps, h, -, F, hF⟩ := C72_program cfg
  refine ⟨ps, h, F, fun f hf w ok => ?_⟩
  obtain ⟨new, h1, h2, h3⟩ := Screen.main_tracks cfg ok f (w, [])
  simp only [hF f hf w, List.nil_append, List.length_nil, Nat.zero_add] at h1 h2 h3
  subst h1
  simp only [List.length_map] at h2 h3
  refine ⟨h2, fun i hi hf hb => ?_⟩
  rw [List.map_take]
  exact h3 i hi hf hb

/-- Test: the fifth piece cannot be written. -/
example : ((Screen.Failing.main ⟨16, by decide, true⟩ (fun i => i ≠ 4) 40 (emptyWorld, [])).1,
    (Screen.Failing.main ⟨16, by decide, true⟩ (fun i => i ≠ 4) 40 (emptyWorld, [])).2.2) =
    (none, [" 0.0: ", "Z", "\n", " 0.5: ", "H"].map (fun t => .text t.toList)) := by
  decide +kernel

/-- `logn` on any number and `main`, on a standard output that cannot always be written: nothing
differs up to the first piece that fails, and this piece is the last. -/
theorem C72_fails (cfg : Cfg) (ok : Nat → Bool) (f : Nat) (x : Steps.Number) :
    UpToFailure (fun s => s.2) ok (Screen.logn cfg f x) (Screen.Failing.logn cfg ok f x) ∧
    UpToFailure (fun s => s.2) ok (Screen.main cfg f) (Screen.Failing.main cfg ok f) :=
  ⟨Screen.logn_tracks cfg ok f x, Screen.main_tracks cfg ok f⟩

/-- Test: `logn` on -(2x + 1)/(x + 3) with x = 3/5; the debugging lines come between the letters. -/
example : (Screen.logn debug64 20 (.Other (some .Reflect) failingObj) (emptyWorld, [])).2.2.take 5 =
    [.text ['R'], .line ⟨2, 1, 1, 3⟩, .line ⟨1, 3, 3, 4⟩, .text ['U'], .line ⟨2, 1, 1, 3⟩] := by
  decide +kernel

/-- `logn` on any number whose `egest` gives the symbols `l` and then `None`: the letters of the
primer and of `l`, and `H`.  Between them are the debugging lines of these calls. -/
theorem C72_number (cfg : Cfg) (f : Nat) (p : Option Primer) (o : Obj) (w : World)
    (ps : List Piece) (l : List Reduction) (hl : l.length < f)
    (h : caught cfg f (l.length + 1) o w = l.map (fun s => .ok (some s)) ++ [.ok none]) :
    ∃ w' new, Screen.logn cfg f (.Other p o) (w, ps) = (.ok (), (w', ps ++ new)) ∧
      texts new = p.toList.map (fun p => [letterPrimer p]) ++ l.map (fun s => [letter s]) ++
        [['H']] ∧
      w'.printed = w.printed ++ debugging new :=
  Screen.logn_shows (.inl ⟨rfl, rfl, rfl⟩) f hl o w ps h

/-- 11/18. -/
example := C72_number debug64 20 (some .Reflect) failingObj emptyWorld []
  [.Uncover, .Uncover, .Uncover, .Uncover, .Amplify, .Uncover] (by decide) (by decide +kernel)

/-- The same when `egest` panics after the symbols `l`: their letters have been printed. -/
theorem C72_number_panics (cfg : Cfg) (f : Nat) (p : Option Primer) (o : Obj) (w : World)
    (ps : List Piece) (l : List Reduction) (hl : l.length < f) (e : Panic)
    (h : caught cfg f (l.length + 1) o w = l.map (fun s => .ok (some s)) ++ [.panic e]) :
    ∃ w' new, Screen.logn cfg f (.Other p o) (w, ps) = (.panic e, (w', ps ++ new)) ∧
      texts new = p.toList.map (fun p => [letterPrimer p]) ++ l.map (fun s => [letter s]) ∧
      w'.printed = w.printed ++ debugging new := by
  obtain ⟨w', new, h1, h2, h3⟩ := Screen.logn_shows (p := p) (.inr ⟨e, rfl, rfl, rfl⟩) f hl o w ps h
  exact ⟨w', new, h1, by rw [h2, List.append_nil], h3⟩

/-- 255 + 1 on 64 bits: `TAAAAAAA`, then the overflow of C61. -/
example := C72_number_panics debug64 60 (some .Turn)
  (.homographic (.ratio ⟨1, 255⟩) ⟨1, 0, 1, 1⟩) emptyWorld [] (List.replicate 7 .Amplify)
  (by decide) .unwrapNone (by decide +kernel)

theorem Spec.Expands.symbols_take {x : ℚ} {l : List Reduction} (h : Expands x l) (r : Nat)
    (hr : r ≤ l.length) : Spec.symbols r x = (l.take r).map some := by
  induction h generalizing r with
  | half =>
    obtain rfl : r = 0 := by simpa using hr
    rfl
  | @amplify x l h0 h1 h ih =>
    rcases r with _ | r
    · rfl
    · rw [symbols_succ, sym_lt h1, next_lt h1, ih r (by simpa using hr)]; rfl
  | @uncover x l h0 h1 h ih =>
    rcases r with _ | r
    · rfl
    · rw [symbols_succ, sym_gt h0, next_gt h0, ih r (by simpa using hr)]; rfl

theorem Spec.caught_take {cfg : Cfg} {f : Nat} (m n : Nat) (hn : n ≤ m) (o : Obj) (w : World) :
    caught cfg f n o w = (caught cfg f m o w).take n := by
  induction n generalizing m o w with
  | zero => rfl
  | succ n ih =>
    obtain ⟨m, rfl⟩ : ∃ k, m = k + 1 := ⟨m - 1, by omega⟩
    simp only [caught, List.take_succ_cons]
    rw [ih m (by omega)]

/-- A fail-stop number (C70): `logn` prints the text of its value, or it panics with overflow when it
has printed a proper part of the text. -/
theorem C72_fail_stop (cfg : Cfg) (x : Steps.Number) (q : ℚ) (h : FailStopNumber cfg x q) :
    ∃ t, Text q t ∧ ((∃ F, ∀ f, F ≤ f → ∀ w ps, ∃ w' new,
        Screen.logn cfg f x (w, ps) = (.ok (), (w', ps ++ new)) ∧ texts new = t.map ([·])) ∨
      ∃ t', t' <+: t ∧ t' ≠ t ∧ ∃ F, ∀ f, F ≤ f → ∀ w ps, ∃ w' new,
        Screen.logn cfg f x (w, ps) = (.panic .unwrapNone, (w', ps ++ new)) ∧
        texts new = t'.map ([·])) := by
  rcases x with s | ⟨p, o⟩
  · refine ⟨_, .inl ⟨s, h, rfl⟩, .inl ⟨0, fun f _ w ps => ⟨w, [.text [letterSpecial s]], ?_, rfl⟩⟩⟩
    cases s <;> rfl
  · obtain ⟨v, h0, h1, hq, hc⟩ := C70_answers cfg p o q h
    obtain ⟨l, hl⟩ := exists_expands v h0 h1
    refine ⟨_, .inr ⟨p, v, l, hq, hl, rfl⟩, ?_⟩
    obtain ⟨r, hr, F, hF⟩ := hc (l.length + 1)
    rcases hr.lt_or_eq with hr | rfl
    · right
      refine ⟨(p.map letterPrimer).toList ++ (l.take r).map letter, ?_, ?_, F + l.length + 1,
        fun f hf w ps => ?_⟩
      · rw [List.append_assoc, List.prefix_append_right_inj]
        exact ((List.take_prefix r l).map _).trans (List.prefix_append _ _)
      · intro e
        have := congrArg List.length e
        simp at this
        omega
      · have e : caught cfg f ((l.take r).length + 1) o w =
            (l.take r).map (fun s => .ok (some s)) ++ [.panic .unwrapNone] := by
          rw [caught_take (l.length + 1) _ (by simp) o w, hF f (by omega) w,
            hl.symbols_take r (by omega), show l.length + 1 - r = (l.length - r) + 1 by omega,
            List.replicate_succ, List.take_append]
          have : min r l.length = r := by omega
          rw [List.take_of_length_le (by simp)]
          simp [this, Function.comp_def]
        obtain ⟨w', new, e1, e2, -⟩ := C72_number_panics cfg f p o w ps (l.take r)
          (by simp; omega) _ e
        refine ⟨w', new, e1, ?_⟩
        rw [e2]
        cases p <;> simp [Function.comp_def]
    · left
      refine ⟨F + l.length + 1, fun f hf w ps => ?_⟩
      have e := hF f (by omega) w
      rw [hl.symbols 1] at e
      obtain ⟨w', new, e1, e2, -⟩ := C72_number cfg f p o w ps l (by omega)
        (by rw [e]; simp)
      refine ⟨w', new, e1, ?_⟩
      rw [e2]
      cases p <;> simp [Function.comp_def]

/-- 3/5. -/
example := C72_fail_stop debug64 _ _ (failStop_three_fifths debug64)

end Clarith
