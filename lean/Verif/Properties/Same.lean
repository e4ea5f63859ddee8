import Verif.Proofs.Agree
import Verif.Properties.Reads
import Verif.Properties.Combine

/-! # A number is known only by its answers (C63)

Two clogs that give the same answers up to their end — the same symbols, the same panics, the same
calls that do not return — can be exchanged for one another in every call.  How a number was made
does not matter, and where an overflow happens depends only on the answers of the operands. -/

namespace Clarith

open Spec Out

/-! ## Specification -/

/-- The call of `egest` answers `r`. -/
def Spec.Answers (cfg : Cfg) (c : Clog) (r : Option Reduction) : Prop :=
  ∃ c', Returns (fun f => Clog.egest cfg f c) (r, c')

/-- After the same symbols both clogs answer the same, or panic alike (or both do not return).
Nothing is said about calls after the answer `None`. -/
def Spec.SameAnswers (cfg : Cfg) (c c' : Clog) : Prop :=
  ∀ (l : List Reduction) (d d' : Clog), Gives cfg c l d → Gives cfg c' l d' →
    (∀ r, Answers cfg d r ↔ Answers cfg d' r) ∧
    (∀ p, Panics (fun f => Clog.egest cfg f d) p ↔ Panics (fun f => Clog.egest cfg f d') p)

/-- The same special value, or the same primer and the same answers. -/
def Spec.SameNumber (cfg : Cfg) : Number → Number → Prop
  | .Special s, .Special s' => s = s'
  | .Other p c, .Other p' c' => p = p' ∧ SameAnswers cfg c c'
  | _, _ => False

/-- One call returns if and only if the other returns something that corresponds, and one panics if
and only if the other does, with the same message.  (So one does not return if and only if the
other does not.) -/
def Spec.SameOutcome {α : Type} (R : α → α → Prop) (m m' : Nat → Out α) : Prop :=
  (∀ a, Returns m a → ∃ a', Returns m' a' ∧ R a a') ∧
  (∀ a', Returns m' a' → ∃ a, Returns m a ∧ R a a') ∧
  (∀ p, Panics m p ↔ Panics m' p)

/-! ## Proof -/

section
variable {cfg : Cfg}

theorem Gives.nil (c : Clog) : Gives cfg c [] c := ⟨0, fun _ _ => rfl⟩

theorem Gives.cons {c d e : Clog} {r : Reduction} {l : List Reduction}
    (h1 : Returns (fun f => Clog.egest cfg f c) (some r, d)) (h2 : Gives cfg d l e) :
    Gives cfg c (r :: l) e := by
  obtain ⟨f1, h1⟩ := h1
  obtain ⟨f2, h2⟩ := h2
  refine ⟨max f1 f2, fun f hf => ?_⟩
  simp only [List.length_cons, egests_succ] at h1 h2 ⊢
  simp [h1 f (by omega), h2 f (by omega)]

theorem Gives.uncons {c e : Clog} {r : Reduction} {l : List Reduction}
    (h : Gives cfg c (r :: l) e) :
    ∃ d, Returns (fun f => Clog.egest cfg f c) (some r, d) ∧ Gives cfg d l e := by
  obtain ⟨f₀, h⟩ := h
  obtain ⟨d, h1, h2⟩ := reads_iff.2 (h f₀ le_rfl)
  exact ⟨d, FuelMono.returns (Clog.egest_mono cfg c) f₀ h1, h2.gives⟩

theorem Gives.nil_eq {c d : Clog} (h : Gives cfg c [] d) : d = c := by
  have := h.unique (Gives.nil c)
  simpa using this

theorem SameAnswers.symm {c c' : Clog} (h : SameAnswers cfg c c') : SameAnswers cfg c' c :=
  fun l d d' hd hd' =>
    ⟨fun r => ((h l d' d hd' hd).1 r).symm, fun p => ((h l d' d hd' hd).2 p).symm⟩

theorem SameAnswers.agree {c c' : Clog} (h : SameAnswers cfg c c') : Agree cfg c c' := by
  refine Agree.coind (SameAnswers cfg) ?_ h
  intro c c' h f
  obtain ⟨h1, h2⟩ := h [] c c' (Gives.nil c) (Gives.nil c')
  cases e : Clog.egest cfg f c with
  | timeout => trivial
  | panic p =>
    obtain ⟨f₀, hf⟩ := (h2 p).1 (FuelMono.panics (Clog.egest_mono cfg c) f e)
    exact ⟨f₀, fun f hf' _ _ => hf f hf'⟩
  | ok a =>
    obtain ⟨r, d⟩ := a
    have hr := FuelMono.returns (Clog.egest_mono cfg c) f e
    obtain ⟨d', hr'⟩ := (h1 r).1 ⟨d, hr⟩
    have hr'' := hr'
    obtain ⟨f₀, hf⟩ := hr''
    refine ⟨(r, d'), ⟨rfl, fun hn => ?_⟩, f₀, fun f hf' _ _ => hf f hf'⟩
    cases r with
    | none => exact absurd rfl hn
    | some s =>
      exact fun l e e' he he' => h (s :: l) e e' (Gives.cons hr he) (Gives.cons hr' he')

theorem Agree.returns {c c' d : Clog} {r : Option Reduction} (h : Agree cfg c c')
    (hr : Returns (fun f => Clog.egest cfg f c) (r, d)) :
    ∃ d', Returns (fun f => Clog.egest cfg f c') (r, d') ∧ (r ≠ none → Agree cfg d d') := by
  obtain ⟨f₀, hr⟩ := hr
  have := h.step f₀
  simp only at hr
  rw [hr f₀ le_rfl] at this
  obtain ⟨⟨r', d'⟩, ⟨e, hd⟩, f₁, hf⟩ := this
  simp only at e hd
  subst e
  exact ⟨d', ⟨f₁, fun f hf' => hf f hf' f₁ le_rfl⟩, hd⟩

theorem Agree.panics {c c' : Clog} {p : Panic} (h : Agree cfg c c')
    (hr : Panics (fun f => Clog.egest cfg f c) p) : Panics (fun f => Clog.egest cfg f c') p := by
  obtain ⟨f₀, hr⟩ := hr
  have := h.step f₀
  simp only at hr
  rw [hr f₀ le_rfl] at this
  obtain ⟨f₁, hf⟩ := this
  exact ⟨f₁, fun f hf' => hf f hf' f₁ le_rfl⟩

theorem Agree.gives {c c' : Clog} (h : Agree cfg c c') (h' : Agree cfg c' c) {l : List Reduction}
    {d d' : Clog} (hd : Gives cfg c l d) (hd' : Gives cfg c' l d') :
    Agree cfg d d' ∧ Agree cfg d' d := by
  induction l generalizing c c' with
  | nil =>
    rw [Gives.nil_eq hd, Gives.nil_eq hd']
    exact ⟨h, h'⟩
  | cons r l ih =>
    obtain ⟨e, h1, h2⟩ := Gives.uncons hd
    obtain ⟨e', h1', h2'⟩ := Gives.uncons hd'
    obtain ⟨e1, g1, g2⟩ := h.returns h1
    obtain ⟨e2, g1', g2'⟩ := h'.returns h1'
    have := g1.unique h1'
    simp only [Prod.mk.injEq, true_and] at this
    subst this
    have := g1'.unique h1
    simp only [Prod.mk.injEq, true_and] at this
    subst this
    exact ih (g2 (by simp)) (g2' (by simp)) h2 h2'

theorem SameAnswers.of_agree {c c' : Clog} (h : Agree cfg c c') (h' : Agree cfg c' c) :
    SameAnswers cfg c c' := by
  intro l d d' hd hd'
  obtain ⟨g, g'⟩ := h.gives h' hd hd'
  refine ⟨fun r => ⟨?_, ?_⟩, fun p => ⟨g.panics, g'.panics⟩⟩
  · rintro ⟨e, he⟩
    obtain ⟨e', he', -⟩ := g.returns he
    exact ⟨e', he'⟩
  · rintro ⟨e, he⟩
    obtain ⟨e', he', -⟩ := g'.returns he
    exact ⟨e', he'⟩

theorem SameNumber.agree {x x' : Number} (h : SameNumber cfg x x') :
    x.Agree cfg x' ∧ x'.Agree cfg x := by
  cases x <;> cases x'
  · exact ⟨h, Eq.symm h⟩
  · exact h.elim
  · exact h.elim
  · exact ⟨⟨h.1, SameAnswers.agree h.2⟩, h.1.symm, SameAnswers.agree (SameAnswers.symm h.2)⟩

theorem SameNumber.of_agree {x x' : Number} (h : x.Agree cfg x') (h' : x'.Agree cfg x) :
    SameNumber cfg x x' := by
  cases x <;> cases x'
  · exact h
  · exact h.elim
  · exact h.elim
  · exact ⟨h.1, SameAnswers.of_agree h.2 h'.2⟩

/-- Simulation both ways gives the same outcome. -/
theorem SameOutcome.of_sim {α : Type} {Q R : α → α → Prop} {m m' : Nat → Out α}
    (h : ∀ f, Sim Q (m f) (fun f _ => m' f)) (h' : ∀ f, Sim Q (m' f) (fun f _ => m f))
    (hR : ∀ a b, Q a b → Q b a → R a b) : SameOutcome R m m' := by
  have key : ∀ {m m' : Nat → Out α}, (∀ f, Sim Q (m f) (fun f _ => m' f)) → ∀ a, Returns m a →
      ∃ a', Returns m' a' ∧ Q a a' := by
    rintro m m' h a ⟨f₀, ha⟩
    have := h f₀
    rw [ha f₀ le_rfl] at this
    obtain ⟨b, hb, f₁, hf⟩ := this
    exact ⟨b, ⟨f₁, fun f hf' => hf f hf' f₁ le_rfl⟩, hb⟩
  have keyp : ∀ {m m' : Nat → Out α}, (∀ f, Sim Q (m f) (fun f _ => m' f)) → ∀ p, Panics m p →
      Panics m' p := by
    rintro m m' h p ⟨f₀, ha⟩
    have := h f₀
    rw [ha f₀ le_rfl] at this
    obtain ⟨f₁, hf⟩ := this
    exact ⟨f₁, fun f hf' => hf f hf' f₁ le_rfl⟩
  refine ⟨fun a ha => ?_, fun a' ha' => ?_, fun p => ⟨keyp h p, keyp h' p⟩⟩
  · obtain ⟨a', h1, h2⟩ := key h a ha
    obtain ⟨a'', h3, h4⟩ := key h' a' h1
    obtain rfl := h3.unique ha
    exact ⟨a', h1, hR _ _ h2 h4⟩
  · obtain ⟨a, h1, h2⟩ := key h' a' ha'
    obtain ⟨a'', h3, h4⟩ := key h a h1
    obtain rfl := h3.unique ha'
    exact ⟨a, h1, hR _ _ h4 h2⟩

end

/-! ## The theorems -/

/-- `homographic` on two numbers with the same answers gives numbers with the same answers, or the
same panic, or does not return on either. -/
theorem C63_homographic (cfg : Cfg) (x x' : Number) (h : SameNumber cfg x x') (nx n dx d : Int) :
    SameOutcome (SameNumber cfg) (fun f => Number.homographic cfg f x nx n dx d)
      (fun f => Number.homographic cfg f x' nx n dx d) :=
  SameOutcome.of_sim (fun f => Number.homographic_sim (SameNumber.agree h).1 f nx n dx d)
    (fun f => Number.homographic_sim (SameNumber.agree h).2 f nx n dx d)
    (fun _ _ => SameNumber.of_agree)

/-- Likewise `combine`. -/
theorem C63_combine (cfg : Cfg) (x x' y y' : Number) (hx : SameNumber cfg x x')
    (hy : SameNumber cfg y y') (nxy nx ny n dxy dx dy d : Int) :
    SameOutcome (SameNumber cfg) (fun f => Number.combine cfg f x y nxy nx ny n dxy dx dy d)
      (fun f => Number.combine cfg f x' y' nxy nx ny n dxy dx dy d) :=
  SameOutcome.of_sim
    (fun f => Number.combine_sim (SameNumber.agree hx).1 (SameNumber.agree hy).1 f _ _ _ _ _ _ _ _)
    (fun f => Number.combine_sim (SameNumber.agree hx).2 (SameNumber.agree hy).2 f _ _ _ _ _ _ _ _)
    (fun _ _ => SameNumber.of_agree)

/-- `compare` gives the same order. -/
theorem C63_compare (cfg : Cfg) (x x' y y' : Number) (hx : SameNumber cfg x x')
    (hy : SameNumber cfg y y') :
    SameOutcome Eq (fun f => Number.compare cfg f x y) (fun f => Number.compare cfg f x' y') :=
  SameOutcome.of_sim
    (fun f => Number.compare_sim (SameNumber.agree hx).1 (SameNumber.agree hy).1 f)
    (fun f => Number.compare_sim (SameNumber.agree hx).2 (SameNumber.agree hy).2 f)
    (fun _ _ h _ => h)

/-- `consume` gives the same coefficients, and what is left has the same answers. -/
theorem C63_consume (cfg : Cfg) (x x' : Number) (hx : SameNumber cfg x x') :
    SameOutcome (fun a a' => Option.Rel (SameNumber cfg) a.1 a'.1 ∧ a.2 = a'.2)
      (fun f => Number.consume cfg f x) (fun f => Number.consume cfg f x') := by
  refine SameOutcome.of_sim (fun f => Number.consume_sim (SameNumber.agree hx).1 f)
    (fun f => Number.consume_sim (SameNumber.agree hx).2 f) ?_
  rintro ⟨a1, a2⟩ ⟨b1, b2⟩ ⟨h1, h2⟩ ⟨h1', -⟩
  refine ⟨?_, h2⟩
  simp only at h1 h1' ⊢
  cases h1 with
  | none => exact .none
  | some h =>
    cases h1' with
    | some h' => exact .some (SameNumber.of_agree h h')

/-- Giving the same answers is an equivalence. -/
theorem C63_equivalence (cfg : Cfg) : Equivalence (SameNumber cfg) := by
  have trans : ∀ {c c' c'' : Clog}, SameAnswers cfg c c' → SameAnswers cfg c' c'' →
      SameAnswers cfg c c'' := by
    intro c c' c'' h h' l e e'' he he''
    have : ∃ e', Gives cfg c' l e' := by
      have ha := SameAnswers.agree h
      clear h h' he''
      induction l generalizing c c' with
      | nil => exact ⟨c', Gives.nil c'⟩
      | cons r l ih =>
        obtain ⟨d, h1, h2⟩ := Gives.uncons he
        obtain ⟨d', g1, g2⟩ := ha.returns h1
        obtain ⟨e', he'⟩ := ih h2 (g2 (by simp))
        exact ⟨e', Gives.cons g1 he'⟩
    obtain ⟨e', he'⟩ := this
    exact ⟨fun r => ((h l e e' he he').1 r).trans ((h' l e' e'' he' he'').1 r),
      fun p => ((h l e e' he he').2 p).trans ((h' l e' e'' he' he'').2 p)⟩
  refine ⟨fun x => ?_, fun {x y} h => ?_, fun {x y z} h h' => ?_⟩
  · cases x with
    | Special s => rfl
    | Other p c => exact ⟨rfl, SameAnswers.of_agree (Agree.refl c) (Agree.refl c)⟩
  · exact SameNumber.of_agree (SameNumber.agree h).2 (SameNumber.agree h).1
  · cases x <;> cases y <;> cases z
    all_goals first
      | exact h.elim
      | exact h'.elim
      | exact Eq.trans h h'
      | exact ⟨h.1.trans h'.1, trans h.2 h'.2⟩

/-- Two numbers that denote the same rational without overflow have the same answers. -/
theorem C63_same_value (cfg : Cfg) (x x' : Number) (q : ℚ) (hx : Number.Denotes cfg NoPanic x q)
    (hx' : Number.Denotes cfg NoPanic x' q) : SameNumber cfg x x' := by
  have agree : ∀ {c c' : Clog} {t : ℚ}, Clog.Denotes cfg NoPanic c t →
      Clog.Denotes cfg NoPanic c' t → Agree cfg c c' := by
    intro c c' t h h'
    refine Agree.coind (fun c c' => ∃ t, Clog.Denotes cfg NoPanic c t ∧
      Clog.Denotes cfg NoPanic c' t) ?_ ⟨t, h, h'⟩
    rintro c c' ⟨t, h, h'⟩ f
    rcases h.step with ⟨⟨r, d⟩, hr, e, hd⟩ | ⟨p, -, hp⟩
    swap
    · exact hp.elim
    rcases h'.step with ⟨⟨r', d'⟩, hr', e', hd'⟩ | ⟨p, -, hp⟩
    swap
    · exact hp.elim
    simp only at e e' hd hd'
    subst e e'
    have hr0 := hr
    obtain ⟨f0, hf0⟩ := hr0
    rcases FuelMono.ok_or_timeout (Clog.egest_mono cfg c) (hf0 f0 le_rfl) f with e | e
    · rw [e]; trivial
    · rw [e]
      obtain ⟨f1, hf1⟩ := hr'
      exact ⟨(sym t, d'), ⟨rfl, fun _ => ⟨_, hd, hd'⟩⟩, f1, fun f hf _ _ => hf1 f hf⟩
  cases x with
  | Special s =>
    have hq : q = specialValue s := hx
    cases x' with
    | Special s' =>
      have hq' : q = specialValue s' := hx'
      rw [hq] at hq'
      cases s <;> cases s' <;> first | rfl | (norm_num [specialValue] at hq')
    | Other p c =>
      obtain ⟨t, ht, e⟩ := hx'
      exact (applyPrimer_ne_special ht.1 ht.2.1 (e.symm.trans hq)).elim
  | Other p c =>
    obtain ⟨t, ht, e⟩ := hx
    cases x' with
    | Special s' =>
      have hq' : q = specialValue s' := hx'
      exact (applyPrimer_ne_special ht.1 ht.2.1 (e.symm.trans hq')).elim
    | Other p' c' =>
      obtain ⟨t', ht', e'⟩ := hx'
      obtain ⟨rfl, rfl⟩ := applyPrimer_inj ht.1 ht.2.1 ht'.1 ht'.2.1 (e.symm.trans e')
      exact ⟨rfl, SameAnswers.of_agree (agree ht ht') (agree ht' ht)⟩

/-- If two clogs have the same answers and one gives the symbols `l`, so does the other, and what is
left has the same answers. -/
theorem C63_gives (cfg : Cfg) (c c' d : Clog) (h : SameAnswers cfg c c') (l : List Reduction)
    (hd : Gives cfg c l d) : ∃ d', Gives cfg c' l d' ∧ SameAnswers cfg d d' := by
  have ha := SameAnswers.agree h
  have hb := SameAnswers.agree (SameAnswers.symm h)
  clear h
  induction l generalizing c c' with
  | nil =>
    rw [Gives.nil_eq hd]
    exact ⟨c', Gives.nil c', SameAnswers.of_agree ha hb⟩
  | cons r l ih =>
    obtain ⟨e, h1, h2⟩ := Gives.uncons hd
    obtain ⟨e', g1, g2⟩ := ha.returns h1
    obtain ⟨e2, g1', g2'⟩ := hb.returns g1
    have := g1'.unique h1
    simp only [Prod.mk.injEq, true_and] at this
    subst this
    obtain ⟨d', hd', hs⟩ := ih _ _ h2 (g2 (by simp)) (g2' (by simp))
    exact ⟨d', Gives.cons g1 hd', hs⟩

/-- So it does not matter how a fraction is written: not even for where an overflow happens. -/
theorem C63_fractions (cfg : Cfg) (n1 d1 n2 d2 : Int) (hm : MachineInts cfg [n1, d1, n2, d2])
    (h1 : d1 ≠ 0) (h2 : d2 ≠ 0) (e : n1 * d2 = n2 * d1) (x x' : Number)
    (hx : Number.ratio cfg n1 d1 = .ok x) (hx' : Number.ratio cfg n2 d2 = .ok x') :
    SameNumber cfg x x' := by
  have nomin : ∀ {n d : Int} {x : Number}, Number.ratio cfg n d = .ok x →
      cfg.overflowChecks = true → n ≠ cfg.imin ∧ d ≠ cfg.imin := by
    intro n d x hr hc
    constructor
    · rintro rfl
      unfold Number.ratio at hr
      rw [Ratio.magnitude_min hc] at hr; simp at hr
    · rintro rfl
      unfold Number.ratio at hr
      rw [Ratio.magnitude_min hc] at hr
      cases hm : Ratio.magnitude cfg n <;> simp [hm] at hr
  have hq : (n1 : ℚ) / d1 = (n2 : ℚ) / d2 := by
    rw [div_eq_div_iff (by exact_mod_cast h1) (by exact_mod_cast h2)]
    exact_mod_cast e
  obtain ⟨a', e1, da⟩ := C01_ratio_exact cfg n1 d1 (hm _ (by simp)) (hm _ (by simp)) h1 (nomin hx)
  obtain ⟨b', e2, db⟩ := C01_ratio_exact cfg n2 d2 (hm _ (by simp)) (hm _ (by simp)) h2 (nomin hx')
  rw [hx] at e1; rw [hx'] at e2
  simp only [Out.ok.injEq] at e1 e2
  subst e1 e2
  rw [hq] at da
  exact C63_same_value cfg x x' _ da db

/-- 255 written as 255/1 and as 510/2, … -/
theorem same255 : SameNumber debug64 (.Other (some .Turn) (.ratio ⟨1, 255⟩))
    (.Other (some .Turn) (.ratio ⟨2, 510⟩)) :=
  C63_fractions debug64 255 1 510 2 (by unfold MachineInts; decide) (by decide) (by decide)
    (by decide) _ _ (by decide) (by decide)

/-- … so that adding one has the same outcome for both: an overflow at the same symbol (C61). -/
example := C63_homographic debug64 _ _ same255 1 1 0 1
example := C63_combine debug64 _ _ _ _ same255 same255 1 0 0 0 0 0 0 1
example := C63_compare debug64 _ _ _ _ same255 same255
example := C63_consume debug64 _ _ same255
example := C63_gives debug64 _ _ (.ratio ⟨8, 255⟩) same255.2 [.Amplify, .Amplify, .Amplify]
  ⟨1, fun f hf => by
    obtain ⟨f, rfl⟩ : ∃ i, f = i + 1 := ⟨f - 1, by omega⟩
    rfl⟩

/-- Numbers that differ do not have the same answers. -/
example : ¬ SameNumber debug64 (.Other none (.ratio ⟨1, 3⟩)) (.Other none (.ratio ⟨2, 3⟩)) := by
  rintro ⟨-, h⟩
  obtain ⟨c', f₀, hf⟩ := ((h [] _ _ (Gives.nil _) (Gives.nil _)).1 (some .Amplify)).1
    ⟨.ratio ⟨2, 3⟩, 1, fun f hf => by
      obtain ⟨f, rfl⟩ : ∃ i, f = i + 1 := ⟨f - 1, by omega⟩
      rfl⟩
  have := hf (f₀ + 1) (by omega)
  simp only at this
  cases this

end Clarith
