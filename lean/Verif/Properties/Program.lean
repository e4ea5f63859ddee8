import Verif.Properties.Text

/-! # The demonstration program `src/main.rs` (C43) -/

namespace Clarith

open Spec Out

/-- What the program lists: a label and the value whose text follows it. -/
def Spec.listed (cfg : Cfg) : List (String × ℚ) :=
  [(" 0.0", 0), (" 0.5", 1 / 2), (" 1.0", 1), (" 1.5", 3 / 2), (" 2.0", 2), (" 2.5", 5 / 2),
   (" 3.0", 3), (" 3.5", 7 / 2), (" 4.0", 4), (" 4.5", 9 / 2), (" 5.0", 5), (" 5.5", 11 / 2),
   (" 6.0", 6), (" 6.5", 13 / 2), (" 7.0", 7), (" 7.5", 15 / 2), (" 8.0", 8), (" 8.5", 17 / 2),
   (" 9.0", 9), (" 9.5", 19 / 2), ("10.0", 10), ("10.5", 21 / 2), ("11.0", 11), ("11.5", 23 / 2),
   ("12.0", 12), ("12.5", 25 / 2), ("13.0", 13), ("13.5", 27 / 2), ("14.0", 14), ("14.5", 29 / 2),
   ("15.0", 15), ("15.5", 31 / 2), ("16.0", 16), ("16.5", 33 / 2),
   (toString (2 ^ (cfg.bits - 1) - 1 : Int), 2 ^ (cfg.bits - 1) - 1),
   ("1/" ++ toString (2 ^ (cfg.bits - 1) - 1 : Int), 1 / (2 ^ (cfg.bits - 1) - 1)),
   ("-2", -2)]

/-- `t` is a listing: for every entry a line with the label, a colon, a space and the text of the
value. -/
inductive Spec.Listing : List (String × ℚ) → List Char → Prop
  | nil : Listing [] []
  | cons {label q rest text t} (h : Text q text) (ht : Listing rest t) :
      Listing ((label, q) :: rest) (label.toList ++ [':', ' '] ++ text ++ ['\n'] ++ t)

theorem Spec.Listing.append {l l' : List (String × ℚ)} {t t' : List Char} (h : Listing l t)
    (h' : Listing l' t') : Listing (l ++ l') (t ++ t') := by
  induction h with
  | nil => exact h'
  | @cons label q rest text t h ht ih =>
    have := Listing.cons (label := label) h ih
    simpa [List.append_assoc] using this

/-- One line. -/
theorem Main.line_ends {cfg : Cfg} {num den : Int} {label : List Char} {name : String} {q : ℚ}
    (hl : label = name.toList ++ [':', ' ']) (hd : den ≠ 0)
    (h1 : -cfg.imax ≤ num) (h2 : num ≤ cfg.imax) (h3 : -cfg.imax ≤ den) (h4 : den ≤ cfg.imax)
    (hq : (num : ℚ) / den = q) :
    Ends NoPanic (fun f => Main.line cfg f label num den) (fun t => Listing [(name, q)] t) := by
  have hi := cfg.imin_eq
  obtain ⟨x, e, hx⟩ := Number.ratio_denotes (cfg := cfg) (A := NoPanic) (num := num) hd
    ⟨by omega, h2⟩ ⟨by omega, h4⟩ fun _ => ⟨by omega, by omega⟩
  unfold Main.line
  simp only [e, ok_bind]
  refine Ends.bind (C39_printed cfg NoPanic x _ hx) fun t ht => ?_
  refine Ends.of_sat (Sat.pure ?_)
  rw [hq] at ht
  have := Listing.cons (label := name) ht .nil
  rw [hl]
  simpa using this

/-- The two lines printed for one integer. -/
theorem Main.body_ends {cfg : Cfg} {n : Int} {name name' : String} (h0 : 0 ≤ n) (h1 : n ≤ 16)
    (hl : Main.pad2 n ++ ".0: ".toList = name.toList ++ [':', ' '])
    (hl' : Main.pad2 n ++ ".5: ".toList = name'.toList ++ [':', ' ']) {q q' : ℚ}
    (hq : (n : ℚ) = q) (hq' : (n : ℚ) + 1 / 2 = q') :
    Ends NoPanic (fun f => Main.body cfg f n)
      (fun t => Listing [(name, q), (name', q')] t) := by
  have hm := cfg.imax_ge
  have hi := cfg.imin_eq
  have e1 : cfg.mul n 10 = .ok (n * 10) := by
    unfold Cfg.mul Cfg.unchecked; exact if_pos ⟨by omega, by omega⟩
  have e2 : cfg.add (n * 10) 5 = .ok (n * 10 + 5) := by
    unfold Cfg.add Cfg.unchecked; exact if_pos ⟨by omega, by omega⟩
  unfold Main.body
  refine Ends.bind (Main.line_ends hl one_ne_zero (by omega) (by omega) (by omega) (by omega)
    (by push_cast; rw [div_one, hq])) fun a ha => ?_
  simp only [e1, e2, ok_bind]
  refine Ends.bind (Main.line_ends hl' (by norm_num) (by omega) (by omega) (by omega) (by omega)
    (q := q') (by rw [← hq']; push_cast; ring)) fun b hb => ?_
  exact Ends.of_sat (Sat.pure (ha.append hb))

theorem Main.loop_cons {cfg : Cfg} {n : Int} {ns : List Int} {name name' : String}
    {l : List (String × ℚ)} {q q' : ℚ} (h0 : 0 ≤ n) (h1 : n ≤ 16)
    (hl : Main.pad2 n ++ ".0: ".toList = name.toList ++ [':', ' '])
    (hl' : Main.pad2 n ++ ".5: ".toList = name'.toList ++ [':', ' '])
    (hq : (n : ℚ) = q) (hq' : (n : ℚ) + 1 / 2 = q')
    (h : Ends NoPanic (fun f => Main.loop cfg f ns) (fun t => Listing l t)) :
    Ends NoPanic (fun f => Main.loop cfg f (n :: ns))
      (fun t => Listing ((name, q) :: (name', q') :: l) t) := by
  simp only [Main.loop]
  refine Ends.bind (Main.body_ends h0 h1 hl hl' hq hq') fun a ha => ?_
  refine Ends.bind h fun b hb => ?_
  exact Ends.of_sat (Sat.pure (ha.append hb))

/-- The program ends without panic, in every build and on every machine, and prints the listing. -/
theorem C43_program (cfg : Cfg) :
    ∃ t, Returns (Main.main cfg) t ∧ Listing (listed cfg) t := by
  have hm := cfg.imax_ge
  have hmq : ((cfg.imax : Int) : ℚ) = 2 ^ (cfg.bits - 1) - 1 := by
    unfold Cfg.imax; push_cast; rfl
  have h0 : ((cfg.imax : Int) : ℚ) ≠ 0 := by
    have : cfg.imax ≠ 0 := by omega
    exact_mod_cast this
  have key : Ends NoPanic (Main.main cfg) (fun t => Listing (listed cfg) t) := by
    unfold Main.main
    refine Ends.bind (Q := fun t => Listing ((listed cfg).take 34) t) ?_ fun a ha => ?_
    · simp only [listed, List.take]
      repeat'
        refine Main.loop_cons (by norm_num) (by norm_num) (by decide +kernel) (by decide +kernel)
          (by norm_num) (by norm_num) ?_
      exact Ends.of_sat (Sat.pure .nil)
    refine Ends.bind (Main.line_ends (name := toString (2 ^ (cfg.bits - 1) - 1 : Int))
      (q := 2 ^ (cfg.bits - 1) - 1) rfl one_ne_zero (by omega) le_rfl (by omega) (by omega)
      (by rw [← hmq]; simp)) fun b hb => ?_
    refine Ends.bind (Main.line_ends (name := "1/" ++ toString (2 ^ (cfg.bits - 1) - 1 : Int))
      (q := 1 / (2 ^ (cfg.bits - 1) - 1)) (by rw [String.toList_append]; rfl) (by omega) (by omega)
      (by omega) (by omega) le_rfl (by rw [← hmq]; simp)) fun c hc => ?_
    refine Ends.bind (Main.line_ends (name := "-2") (q := -2) rfl one_ne_zero (by omega) (by omega)
      (by omega) (by omega) (by norm_num)) fun d hd => ?_
    refine Ends.of_sat (Sat.pure ?_)
    exact ((ha.append hb).append hc).append hd
  rcases key with ⟨t, hr, ht⟩ | ⟨_, _, h⟩
  · exact ⟨t, hr, ht⟩
  · exact h.elim

/-- The first two lines on a 16 bit machine. -/
example : Main.body ⟨16, le_rfl, true⟩ 10 0 = .ok " 0.0: Z\n 0.5: H\n".toList := by decide +kernel

/-- A line with a two digit label, and the last line. -/
example : Main.line ⟨16, le_rfl, true⟩ 20 (Main.pad2 12 ++ ".0: ".toList) 12 1 =
    .ok "12.0: TAAAUH\n".toList := by decide +kernel

example : Main.line ⟨16, le_rfl, true⟩ 20 "-2: ".toList (-2) 1 = .ok "-2: GH\n".toList := by
  decide +kernel

end Clarith
