import Verif.SpecScreen
import Verif.Proofs.StdoutResume
import Verif.Proofs.FailStop
import Verif.Properties.Program

/-! # The stream of standard output of `src/main.rs` -/

namespace Clarith.Steps.Screen

open Clarith.Spec Stdout Stdout.Prog

/-! ## Up to the first piece that cannot be written -/

variable {cfg : Cfg} {ok : Nat → Bool}

theorem print_tracks (t : List Char) :
    Tracks (fun s : World × List Piece => s.2) ok (print t) (Failing.print ok t) := by
  intro s
  refine ⟨[.text t], rfl, fun H => ?_, fun i hi hf _ => ?_⟩
  · have := H 0 (by simp)
    rw [Nat.add_zero] at this
    unfold Failing.print
    rw [this]
    rfl
  · obtain rfl : i = 0 := by simpa using hi
    rw [Nat.add_zero] at hf
    unfold Failing.print
    rw [hf]
    exact ⟨rfl, rfl⟩

theorem egest_tracks (cfg : Cfg) (ok : Nat → Bool) (f : Nat) :
    Tracks (fun s : Obj × World × List Piece => s.2.2) ok (egest cfg f)
      (Failing.egest cfg ok f) := by
  rintro ⟨o, w, ps⟩
  obtain ⟨new, h1, h2, h3⟩ := Stdout.egest_tracks cfg
    (fun i => ok (ps.length + (i - w.printed.length))) f (o, w)
  simp only [Stdout.lines] at h1 h2 h3
  refine ⟨new.map .line, ?_, fun H => ?_, fun i hi hf hb => ?_⟩
  · simp only [egest, h1, List.drop_left]
  · simp only [List.length_map] at H
    unfold Failing.egest egest
    simp only
    rw [h2 fun i hi => by rw [Nat.add_sub_cancel_left]; exact H i hi]
  · simp only [List.length_map] at hi hf hb
    obtain ⟨n1, n2⟩ := h3 i hi (by rw [Nat.add_sub_cancel_left]; exact hf)
      fun j hj => by rw [Nat.add_sub_cancel_left]; exact hb j hj
    refine ⟨n1, ?_⟩
    simp only [Failing.egest, n2, List.drop_left, List.map_take]

theorem beside_tracks {m : Mut (World × List Piece) Unit} {m' : Prog (World × List Piece) Unit}
    (h : Tracks (fun s : World × List Piece => s.2) ok m m') :
    Tracks (fun s : Obj × World × List Piece => s.2.2) ok (beside m) (Failing.beside m') :=
  h.part (fun _ => rfl) (fun _ _ => rfl)

theorem logc_tracks (cfg : Cfg) (ok : Nat → Bool) (f j : Nat) :
    Tracks (fun s : Obj × World × List Piece => s.2.2) ok (logc cfg f j)
      (Failing.logc cfg ok f j) := by
  induction j with
  | zero => exact Silent.timeout.tracks
  | succ j ih =>
    unfold logc Failing.logc
    refine (egest_tracks cfg ok f).bind fun a => ?_
    rcases a with _ | r
    · exact beside_tracks (print_tracks _)
    · exact (beside_tracks (print_tracks _)).bind fun _ => ih

theorem logn_tracks (cfg : Cfg) (ok : Nat → Bool) (f : Nat) (x : Steps.Number) :
    Tracks (fun s : World × List Piece => s.2) ok (logn cfg f x) (Failing.logn cfg ok f x) := by
  rcases x with s | ⟨p, c⟩
  · exact print_tracks _
  · unfold logn Failing.logn
    refine Tracks.bind ?_ fun _ s => ?_
    · rcases p with _ | p
      · exact (Silent.pure _).tracks
      · exact print_tracks _
    · obtain ⟨new, h1, h2, h3⟩ := logc_tracks cfg ok f f (c, s)
      refine ⟨new, h1, fun H => ?_, fun i hi hf hb => h3 i hi hf hb⟩
      show ((Failing.logc cfg ok f f (c, s)).1, (Failing.logc cfg ok f f (c, s)).2.2) = _
      rw [h2 H]

theorem ratio_silent (num den : Int) : Silent (fun s : World × List Piece => s.2)
    (Mut.part (fun s => s.1) (fun w s => (w, s.2)) (Steps.Number.ratio cfg num den)) := fun _ => rfl

theorem line_tracks (cfg : Cfg) (ok : Nat → Bool) (f : Nat) (label : List Char) (num den : Int) :
    Tracks (fun s : World × List Piece => s.2) ok (line cfg f label num den)
      (Failing.line cfg ok f label num den) := by
  unfold line Failing.line
  exact (print_tracks _).bind fun _ => (ratio_silent _ _).tracks.bind fun x =>
    (logn_tracks cfg ok f x).bind fun _ => print_tracks _

theorem body_tracks (cfg : Cfg) (ok : Nat → Bool) (f : Nat) (n : Int) :
    Tracks (fun s : World × List Piece => s.2) ok (body cfg f n) (Failing.body cfg ok f n) := by
  unfold body Failing.body
  exact (line_tracks cfg ok f _ _ _).bind fun _ => (print_tracks _).bind fun _ =>
    Tracks.eval_bind fun _ => Tracks.eval_bind fun _ => (ratio_silent _ _).tracks.bind fun x =>
      (logn_tracks cfg ok f x).bind fun _ => print_tracks _

theorem loop_tracks (cfg : Cfg) (ok : Nat → Bool) (f : Nat) (l : List Int) :
    Tracks (fun s : World × List Piece => s.2) ok (loop cfg f l) (Failing.loop cfg ok f l) := by
  induction l with
  | nil => exact (Silent.pure _).tracks
  | cons n l ih =>
    unfold loop Failing.loop
    exact (body_tracks cfg ok f n).bind fun _ => ih

theorem main_tracks (cfg : Cfg) (ok : Nat → Bool) (f : Nat) :
    Tracks (fun s : World × List Piece => s.2) ok (main cfg f) (Failing.main cfg ok f) := by
  unfold main Failing.main
  exact (loop_tracks cfg ok f _).bind fun _ => (line_tracks cfg ok f _ _ _).bind fun _ =>
    (line_tracks cfg ok f _ _ _).bind fun _ => line_tracks cfg ok f _ _ _

/-! ## What the program prints -/

/-- With enough fuel, `m` returns, changes nothing, and prints the pieces `ps`. -/
def Writes (ps : List (List Char)) (m : Nat → Mut (World × List Piece) Unit) : Prop :=
  ∃ F, ∀ f, F ≤ f → ∀ s, m f s = (.ok (), (s.1, s.2 ++ ps.map .text))

theorem Writes.bind {ps qs : List (List Char)} {m m' : Nat → Mut (World × List Piece) Unit}
    (h : Writes ps m) (h' : Writes qs m') :
    Writes (ps ++ qs) (fun f => m f >>= fun _ => m' f) := by
  obtain ⟨F, hF⟩ := h
  obtain ⟨G, hG⟩ := h'
  refine ⟨max F G, fun f hf s => ?_⟩
  show Mut.bind (m f) (fun _ => m' f) s = _
  rw [Mut.bind, hF f (by omega)]
  simp only
  rw [hG f (by omega), List.map_append, List.append_assoc]

theorem Writes.print (t : List Char) : Writes [t] (fun _ => print t) := ⟨0, fun _ _ _ => rfl⟩

theorem Writes.nil : Writes [] (fun _ => Pure.pure ()) :=
  ⟨0, fun _ _ s => by simp [Pure.pure]⟩

/-- A step that leaves everything as it is. -/
theorem Writes.of_ok {α : Type} {ps : List (List Char)} {a : α} {m : Mut (World × List Piece) α}
    {g : Nat → α → Mut (World × List Piece) Unit} (hm : ∀ s, m s = (.ok a, s))
    (h : Writes ps fun f => g f a) : Writes ps (fun f => m >>= g f) := by
  obtain ⟨F, hF⟩ := h
  refine ⟨F, fun f hf s => ?_⟩
  show Mut.bind m (g f) s = _
  rw [Mut.bind, hm]
  exact hF f hf s

theorem ratio_step {r : Ratio} (hr : r.OK cfg) (f : Nat) (w : World) :
    ∃ r' : Ratio, r'.OK cfg ∧ r'.val = next r.val ∧
      Steps.egest cfg (f + 1) (.ratio r, w) = (.ok (sym r.val), (.ratio r', w)) := by
  have h1 := Ratio.egest_agree cfg r
  have h2 := Ratio.egest_sat (A := fun _ => False) hr
  unfold Agree Sim at h1
  revert h1
  generalize e : Steps.Ratio.egest cfg r = t
  obtain ⟨t, r'⟩ := t
  cases t with
  | ok a =>
    rintro ⟨b, e', rfl⟩
    rw [e'] at h2
    refine ⟨r', h2.2.1, h2.2.2, ?_⟩
    rw [← h2.1]
    simp only [Steps.egest, Bind.bind, Mut.bind, strategyEgest, e]
    rfl
  | panic p =>
    rintro ⟨e', _⟩
    rw [e'] at h2
    exact h2.elim
  | shared => exact fun h => h.elim
  | timeout =>
    rintro ⟨e', _⟩
    rw [e'] at h2
    exact h2.elim

theorem logc_ratio {l : List Reduction} {r : Ratio} (hr : r.OK cfg) (hl : Expands r.val l)
    (f j : Nat) (hj : l.length < j) (w : World) (ps : List Piece) :
    ∃ o, logc cfg (f + 1) j (.ratio r, w, ps) = (.ok (), (o, w,
      ps ++ ((l.map fun s => [letter s]) ++ [['H']]).map .text)) := by
  obtain ⟨j, rfl⟩ : ∃ i, j = i + 1 := ⟨j - 1, by omega⟩
  induction l generalizing r j ps with
  | nil =>
    obtain ⟨r', -, -, e⟩ := ratio_step hr f w
    refine ⟨.ratio r', ?_⟩
    have hv : r.val = 1 / 2 := by
      generalize r.val = x at hl
      cases hl
      rfl
    rw [hv, sym_half] at e
    simp only [logc, Bind.bind, Mut.bind, egest, e, beside, Mut.part, print, List.drop_length]
    simp
  | cons s l ih =>
    obtain ⟨r', h1, h2, e⟩ := ratio_step hr f w
    have hs : sym r.val = some s ∧ Expands (next r.val) l := by
      generalize r.val = x at hl
      cases hl with
      | amplify h0 h1 h => rw [sym_lt h1, next_lt h1]; exact ⟨rfl, h⟩
      | uncover h0 h1 h => rw [sym_gt h0, next_gt h0]; exact ⟨rfl, h⟩
    rw [hs.1] at e
    obtain ⟨j, rfl⟩ : ∃ i, j = i + 1 := ⟨j - 1, by simp at hj; omega⟩
    obtain ⟨o, e'⟩ := ih h1 (h2 ▸ hs.2) (ps ++ [.text [letter s]]) j (by simp at hj ⊢; omega)
    refine ⟨o, ?_⟩
    have hs' : Clarith.Main.logr s = [letter s] := by cases s <;> rfl
    rw [logc]
    simp only [Bind.bind, Mut.bind, egest, e, beside, Mut.part, print, List.drop_length, hs',
      List.map_nil, List.append_nil]
    rw [e']
    simp

/-- The text of `q`, one letter at a time. -/
theorem logn_writes {num den : Int} {q : ℚ} (hd : den ≠ 0) (h1 : -cfg.imax ≤ num)
    (h2 : num ≤ cfg.imax) (h3 : -cfg.imax ≤ den) (h4 : den ≤ cfg.imax) (hq : (num : ℚ) / den = q) :
    ∃ x t, (∀ w, Steps.Number.ratio cfg num den w = (.ok x, w)) ∧ Text q t ∧
      Writes (t.map ([·])) (fun f => logn cfg f x) := by
  have hi := cfg.imin_eq
  obtain ⟨e1, b1⟩ := Ratio.magnitude_exact (cfg := cfg) (z := num) ⟨by omega, h2⟩
    fun _ => by omega
  obtain ⟨e2, b2⟩ := Ratio.magnitude_exact (cfg := cfg) (z := den) ⟨by omega, h4⟩
    fun _ => by omega
  have h := Ratio.new_signed (A := NoPanic) hd b1 b2
  cases e : Clarith.Ratio.new (Ratio.sameSign num den) num.natAbs den.natAbs with
  | panic p =>
    rw [e] at h
    exact h.elim
  | timeout =>
    rw [e] at h
    exact h.elim
  | ok t =>
    rw [e] at h
    rcases h with ⟨s, rfl, hv⟩ | ⟨p, r, rfl, hr, hv⟩
    · refine ⟨.Special s, [letterSpecial s], fun w => ?_, .inl ⟨s, hq ▸ hv, rfl⟩, ?_⟩
      · simp only [Steps.Number.ratio, Steps.Number.ratioU, Bind.bind, Mut.bind, Mut.eval, e1, e2, e]
        rfl
      · have hs : Clarith.Main.logs s = [letterSpecial s] := by cases s <;> rfl
        simp only [logn, hs]
        exact .print _
    · obtain ⟨l, hl⟩ := exists_expands r.val hr.val_mem.1 hr.val_mem.2
      refine ⟨.Other p (.ratio r), _, fun w => ?_, .inr ⟨p, r.val, l, hq ▸ hv, hl, rfl⟩, ?_⟩
      · simp only [Steps.Number.ratio, Steps.Number.ratioU, Bind.bind, Mut.bind, Mut.eval, e1, e2, e]
        rfl
      · unfold logn
        rw [List.map_append, List.map_append, List.append_assoc]
        refine Writes.bind ?_ ⟨l.length + 1, fun f hf s => ?_⟩
        · rcases p with _ | p
          · exact .nil
          · have hp : Clarith.Main.logp p = [letterPrimer p] := by cases p <;> rfl
            simp only [hp]
            exact .print _
        · obtain ⟨f, rfl⟩ : ∃ g, f = g + 1 := ⟨f - 1, by omega⟩
          obtain ⟨o, e⟩ := logc_ratio hr hl f (f + 1) (by omega) s.1 s.2
          simp only [e]
          simp

/-- One line. -/
theorem line_writes {num den : Int} {label : List Char} {q : ℚ} (hd : den ≠ 0)
    (h1 : -cfg.imax ≤ num) (h2 : num ≤ cfg.imax) (h3 : -cfg.imax ≤ den) (h4 : den ≤ cfg.imax)
    (hq : (num : ℚ) / den = q) :
    ∃ t, Text q t ∧ Writes (label :: (t.map ([·]) ++ [['\n']])) (fun f => line cfg f label num den) := by
  obtain ⟨x, t, hx, ht, hw⟩ := logn_writes (cfg := cfg) hd h1 h2 h3 h4 hq
  refine ⟨t, ht, ?_⟩
  unfold line
  refine (Writes.print label).bind (Writes.of_ok (a := x) (fun s => ?_) (hw.bind (.print _)))
  simp only [Mut.part, hx]

theorem _root_.Clarith.Spec.Pieces.append {l l' : List (String × ℚ)} {t t' : List (List Char)} (h : Pieces l t)
    (h' : Pieces l' t') : Pieces (l ++ l') (t ++ t') := by
  induction h with
  | nil => exact h'
  | @cons label q rest text t h ht ih =>
    have := Pieces.cons (label := label) h ih
    simpa [List.append_assoc] using this

theorem _root_.Clarith.Spec.Pieces.listing {l : List (String × ℚ)} {t : List (List Char)} (h : Pieces l t) :
    Listing l t.flatten := by
  induction h with
  | nil => exact .nil
  | @cons label q rest text t h ht ih =>
    have := Listing.cons (label := label) h ih
    have e : ∀ l : List Char, (l.map ([·])).flatten = l := fun l => by
      induction l with
      | nil => rfl
      | cons a l ih => rw [List.map_cons, List.flatten_cons, ih]; rfl
    simpa [List.append_assoc, e] using this

/-- `m` prints the pieces of the listing. -/
def Lists (l : List (String × ℚ)) (m : Nat → Mut (World × List Piece) Unit) : Prop :=
  ∃ ps, Pieces l ps ∧ Writes ps m

theorem Lists.bind {l l' : List (String × ℚ)} {m m' : Nat → Mut (World × List Piece) Unit}
    (h : Lists l m) (h' : Lists l' m') : Lists (l ++ l') (fun f => m f >>= fun _ => m' f) := by
  obtain ⟨ps, h1, h2⟩ := h
  obtain ⟨qs, h3, h4⟩ := h'
  exact ⟨_, h1.append h3, h2.bind h4⟩

theorem line_lists {num den : Int} {label : List Char} {name : String} {q : ℚ}
    (hl : label = name.toList ++ [':', ' ']) (hd : den ≠ 0)
    (h1 : -cfg.imax ≤ num) (h2 : num ≤ cfg.imax) (h3 : -cfg.imax ≤ den) (h4 : den ≤ cfg.imax)
    (hq : (num : ℚ) / den = q) : Lists [(name, q)] (fun f => line cfg f label num den) := by
  obtain ⟨t, ht, hw⟩ := line_writes (cfg := cfg) (label := label) hd h1 h2 h3 h4 hq
  refine ⟨_, ?_, hw⟩
  rw [hl]
  simpa using Pieces.cons (label := name) ht .nil

theorem body_lists {n : Int} {name name' : String} (h0 : 0 ≤ n) (h1 : n ≤ 16)
    (hl : Clarith.Main.pad2 n ++ ".0: ".toList = name.toList ++ [':', ' '])
    (hl' : Clarith.Main.pad2 n ++ ".5: ".toList = name'.toList ++ [':', ' ']) {q q' : ℚ}
    (hq : (n : ℚ) = q) (hq' : (n : ℚ) + 1 / 2 = q') :
    Lists [(name, q), (name', q')] (fun f => body cfg f n) := by
  have hm := cfg.imax_ge
  have hi := cfg.imin_eq
  have e1 : cfg.mul n 10 = .ok (n * 10) := by
    unfold Cfg.mul Cfg.unchecked; exact if_pos ⟨by omega, by omega⟩
  have e2 : cfg.add (n * 10) 5 = .ok (n * 10 + 5) := by
    unfold Cfg.add Cfg.unchecked; exact if_pos ⟨by omega, by omega⟩
  obtain ⟨x, t, hx, ht, hw⟩ := logn_writes (cfg := cfg) (num := n * 10 + 5) (den := 10) (q := q')
    (by norm_num) (by omega) (by omega) (by omega) (by omega)
    (by rw [← hq']; push_cast; ring)
  unfold body
  refine Lists.bind (l := [(name, q)]) (l' := [(name', q')])
    (line_lists hl one_ne_zero (by omega) (by omega) (by omega) (by omega)
      (by push_cast; rw [div_one, hq])) ⟨_, ?_, (Writes.print _).bind (qs := t.map ([·]) ++ [['\n']])
        (.of_ok (a := n * 10) (fun s => by rw [e1]; rfl) (.of_ok (a := n * 10 + 5)
          (fun s => by rw [e2]; rfl) (.of_ok (a := x) (fun s => ?_) (hw.bind (.print _)))))⟩
  · rw [hl']
    simpa using Pieces.cons (label := name') ht .nil
  · simp only [Mut.part, hx]

theorem loop_lists {n : Int} {ns : List Int} {name name' : String} {l : List (String × ℚ)}
    {q q' : ℚ} (h0 : 0 ≤ n) (h1 : n ≤ 16)
    (hl : Clarith.Main.pad2 n ++ ".0: ".toList = name.toList ++ [':', ' '])
    (hl' : Clarith.Main.pad2 n ++ ".5: ".toList = name'.toList ++ [':', ' '])
    (hq : (n : ℚ) = q) (hq' : (n : ℚ) + 1 / 2 = q') (h : Lists l (fun f => loop cfg f ns)) :
    Lists ((name, q) :: (name', q') :: l) (fun f => loop cfg f (n :: ns)) := by
  simp only [loop]
  exact Lists.bind (l := [(name, q), (name', q')]) (body_lists h0 h1 hl hl' hq hq') h

theorem main_lists (cfg : Cfg) : Lists (listed cfg) (main cfg) := by
  have hm := cfg.imax_ge
  have hmq : ((cfg.imax : Int) : ℚ) = 2 ^ (cfg.bits - 1) - 1 := by
    unfold Cfg.imax; push_cast; rfl
  have h0 : ((cfg.imax : Int) : ℚ) ≠ 0 := by
    have : cfg.imax ≠ 0 := by omega
    exact_mod_cast this
  have hloop : Lists ((listed cfg).take 34) (fun f => loop cfg f
      [0, 1, 2, 3, 4, 5, 6, 7, 8, 9, 10, 11, 12, 13, 14, 15, 16]) := by
    simp only [listed, List.take]
    repeat'
      refine loop_lists (by norm_num) (by norm_num) (by decide +kernel) (by decide +kernel)
        (by norm_num) (by norm_num) ?_
    exact ⟨[], .nil, .nil⟩
  exact hloop.bind ((line_lists (name := toString (2 ^ (cfg.bits - 1) - 1 : Int))
      (q := 2 ^ (cfg.bits - 1) - 1) rfl one_ne_zero (by omega) le_rfl (by omega) (by omega)
      (by rw [← hmq]; simp)).bind
    ((line_lists (name := "1/" ++ toString (2 ^ (cfg.bits - 1) - 1 : Int))
      (q := 1 / (2 ^ (cfg.bits - 1) - 1)) (by rw [String.toList_append]; rfl) (by omega) (by omega)
      (by omega) (by omega) le_rfl (by rw [← hmq]; simp)).bind
    (line_lists (name := "-2") (q := -2) rfl one_ne_zero (by omega) (by omega)
      (by omega) (by omega) (by norm_num))))

/-! ## Any number -/

theorem texts_append (a b : List Piece) : texts (a ++ b) = texts a ++ texts b :=
  List.filterMap_append ..

theorem lines_append (a b : List Piece) : debugging (a ++ b) = debugging a ++ debugging b :=
  List.filterMap_append ..

theorem texts_line (l : List Coef4) : texts (l.map .line) = [] := by
  unfold texts
  rw [List.filterMap_map, List.filterMap_eq_nil_iff]
  exact fun _ _ => rfl

theorem lines_line (l : List Coef4) : debugging (l.map .line) = l := by
  unfold debugging
  rw [List.filterMap_map]
  exact List.filterMap_some ..

/-- What a call of `egest` adds to the stream. -/
theorem egest_stream (cfg : Cfg) (f : Nat) (o : Obj) (w : World) (ps : List Piece) :
    ∃ new : List Coef4, (Steps.egest cfg f (o, w)).2.2.printed = w.printed ++ new ∧
      egest cfg f (o, w, ps) = ((Steps.egest cfg f (o, w)).1, ((Steps.egest cfg f (o, w)).2.1,
        (Steps.egest cfg f (o, w)).2.2, ps ++ new.map .line)) := by
  obtain ⟨new, h, -⟩ := Stdout.egest_tracks cfg (fun _ => true) f (o, w)
  simp only [Stdout.lines] at h
  exact ⟨new, h, by simp only [egest, h, List.drop_left]⟩

/-- `logc` on an object whose answers are `l` and then `e`. -/
theorem logc_shows {l : List Reduction} {e : Res (Option Reduction)} {r : Res Unit}
    {last : List (List Char)}
    (he : e = .ok none ∧ r = .ok () ∧ last = [['H']] ∨
      ∃ p, e = .panic p ∧ r = .panic p ∧ last = [])
    (f j : Nat) (hj : l.length < j) (o : Obj) (w : World) (ps : List Piece)
    (h : caught cfg f (l.length + 1) o w = l.map (fun s => .ok (some s)) ++ [e]) :
    ∃ o' w' new, logc cfg f j (o, w, ps) = (r, (o', w', ps ++ new)) ∧
      texts new = (l.map fun s => [letter s]) ++ last ∧
      w'.printed = w.printed ++ debugging new := by
  obtain ⟨j, rfl⟩ : ∃ i, j = i + 1 := ⟨j - 1, by omega⟩
  induction l generalizing o w j ps with
  | nil =>
    simp only [List.length_nil, Spec.caught, List.map_nil, List.nil_append,
      List.cons.injEq, and_true] at h
    obtain ⟨new, h1, h2⟩ := egest_stream cfg f o w ps
    rw [h] at h2
    simp only [logc, Bind.bind, Mut.bind, h2]
    rcases he with ⟨rfl, rfl, rfl⟩ | ⟨p, rfl, rfl, rfl⟩
    · refine ⟨(Steps.egest cfg f (o, w)).2.1, (Steps.egest cfg f (o, w)).2.2,
        new.map .line ++ [.text ['H']], ?_, ?_, ?_⟩
      · simp only [beside, Mut.part, print, List.append_assoc]
      · rw [texts_append, texts_line]; rfl
      · rw [lines_append, lines_line, h1]
        simp [debugging]
    · refine ⟨(Steps.egest cfg f (o, w)).2.1, (Steps.egest cfg f (o, w)).2.2,
        new.map .line, rfl, ?_, ?_⟩
      · rw [texts_line]; rfl
      · rw [lines_line, h1]
  | cons s l ih =>
    simp only [List.length_cons, Spec.caught, List.map_cons, List.cons_append, List.cons.injEq] at h
    obtain ⟨new, h1, h2⟩ := egest_stream cfg f o w ps
    rw [h.1] at h2
    obtain ⟨j, rfl⟩ : ∃ i, j = i + 1 := ⟨j - 1, by simp at hj; omega⟩
    obtain ⟨o', w', new', e1, e2, e3⟩ := ih (Steps.egest cfg f (o, w)).2.1
      (Steps.egest cfg f (o, w)).2.2 (ps ++ new.map .line ++ [.text [letter s]]) h.2 j
      (by simp at hj ⊢; omega)
    have hs' : Clarith.Main.logr s = [letter s] := by cases s <;> rfl
    refine ⟨o', w', new.map .line ++ [.text [letter s]] ++ new', ?_, ?_, ?_⟩
    · rw [logc]
      simp only [Bind.bind, Mut.bind, h2, beside, Mut.part, print, hs']
      rw [e1]
      simp
    · rw [texts_append, texts_append, texts_line, e2]; rfl
    · rw [lines_append, lines_append, lines_line, e3, h1]
      simp [debugging]

theorem logn_shows {l : List Reduction} {e : Res (Option Reduction)} {r : Res Unit}
    {last : List (List Char)} {p : Option Primer}
    (he : e = .ok none ∧ r = .ok () ∧ last = [['H']] ∨
      ∃ p, e = .panic p ∧ r = .panic p ∧ last = [])
    (f : Nat) (hj : l.length < f) (o : Obj) (w : World) (ps : List Piece)
    (h : caught cfg f (l.length + 1) o w = l.map (fun s => .ok (some s)) ++ [e]) :
    ∃ w' new, logn cfg f (.Other p o) (w, ps) = (r, (w', ps ++ new)) ∧
      texts new = p.toList.map (fun p => [letterPrimer p]) ++ (l.map fun s => [letter s]) ++ last ∧
      w'.printed = w.printed ++ debugging new := by
  rcases p with _ | p
  · obtain ⟨o', w', new, e1, e2, e3⟩ := logc_shows he f f hj o w ps h
    refine ⟨w', new, ?_, e2, e3⟩
    simp only [logn, Bind.bind, Mut.bind, Pure.pure, e1]
  · obtain ⟨o', w', new, e1, e2, e3⟩ := logc_shows he f f hj o w
      (ps ++ [.text [letterPrimer p]]) h
    have hp : Clarith.Main.logp p = [letterPrimer p] := by cases p <;> rfl
    refine ⟨w', [.text [letterPrimer p]] ++ new, ?_, ?_, ?_⟩
    · simp only [logn, Bind.bind, Mut.bind, print, hp, e1, List.append_assoc]
    · rw [texts_append, e2]
      rfl
    · rw [lines_append, e3]
      rfl

end Clarith.Steps.Screen
