import Verif.Proofs.StepsPrinted
import Verif.Proofs.CombineNew

/-! # The lines printed for a `Combine` -/

namespace Clarith

open Spec Support

/-! ## The coefficients, in every build -/

namespace Coef8

open Out

private theorem sat_c {cfg : Cfg} {α : Type} {a b : Int} {g : Int → Out α} {P : α → Prop}
    (h : Sat (fun _ => True) (g (a + b)) P) :
    Sat (fun _ => True) (cfg.cadd a b >>= g) P :=
  Sat.bind (Steps.cadd_exact cfg a b) fun _ e => e ▸ h

private theorem sat_m {cfg : Cfg} {α : Type} {a b : Int} {g : Int → Out α} {P : α → Prop}
    (h : Sat (fun _ => True) (g (a * b)) P) :
    Sat (fun _ => True) (cfg.cmul a b >>= g) P :=
  Sat.bind (Steps.cmul_exact cfg a b) fun _ e => e ▸ h

theorem ingestX_exact (cfg : Cfg) (r : Reduction) (k : Coef8) :
    Sat (fun _ => True) (k.ingestX cfg r) (IngX r k) := by
  cases r with
  | Amplify =>
    simp only [ingestX, amplifyX]
    by_cases hev : (isEven k.a && isEven k.b && isEven k.e && isEven k.f) = true
    · rw [if_pos hev]
      simp only [Bool.and_eq_true, isEven_iff] at hev
      exact Sat.pure ⟨2, .inr rfl, ⟨hev.1.1.1, hev.1.1.2, rfl, rfl⟩, hev.1.2, hev.2, rfl, rfl⟩
    · rw [if_neg hev]
      refine sat_m (sat_m (sat_m (sat_m (Sat.pure ⟨1, .inl rfl, ?_⟩))))
      simp only; omega
  | Uncover =>
    simp only [ingestX, uncoverX, shiftX, turnX]
    exact sat_c (sat_c (sat_c (sat_c (Sat.pure rfl))))

theorem ingestY_exact (cfg : Cfg) (r : Reduction) (k : Coef8) :
    Sat (fun _ => True) (k.ingestY cfg r) (IngY r k) := by
  cases r with
  | Amplify =>
    simp only [ingestY, amplifyY]
    by_cases hev : (isEven k.a && isEven k.c && isEven k.e && isEven k.g) = true
    · rw [if_pos hev]
      simp only [Bool.and_eq_true, isEven_iff] at hev
      exact Sat.pure ⟨2, .inr rfl, ⟨hev.1.1.1, rfl, hev.1.1.2, rfl⟩, hev.1.2, rfl, hev.2, rfl⟩
    · rw [if_neg hev]
      refine sat_m (sat_m (sat_m (sat_m (Sat.pure ⟨1, .inl rfl, ?_⟩))))
      simp only; omega
  | Uncover =>
    simp only [ingestY, uncoverY, shiftY, turnY]
    exact sat_c (sat_c (sat_c (sat_c (Sat.pure rfl))))

theorem valueAtEndOfX_exact (cfg : Cfg) (k : Coef8) :
    Sat (fun _ => True) (k.valueAtEndOfX cfg) (EndX k) := by
  unfold valueAtEndOfX
  by_cases hev : (isEven k.a && isEven k.b && isEven k.e && isEven k.f) = true
  · rw [if_pos hev]
    simp only [Bool.and_eq_true, isEven_iff] at hev
    refine sat_c (sat_c (sat_c (sat_c (Sat.pure ⟨2, .inr rfl, ?_⟩))))
    simp only; omega
  · rw [if_neg hev]
    refine sat_m (sat_c (sat_m (sat_c (sat_m (sat_c (sat_m (sat_c (Sat.pure ⟨1, .inl rfl, ?_⟩))))))))
    simp only; omega

theorem valueAtEndOfY_exact (cfg : Cfg) (k : Coef8) :
    Sat (fun _ => True) (k.valueAtEndOfY cfg) (EndY k) := by
  unfold valueAtEndOfY
  by_cases hev : (isEven k.a && isEven k.c && isEven k.e && isEven k.g) = true
  · rw [if_pos hev]
    simp only [Bool.and_eq_true, isEven_iff] at hev
    refine sat_c (sat_c (sat_c (sat_c (Sat.pure ⟨2, .inr rfl, ?_⟩))))
    simp only; omega
  · rw [if_neg hev]
    refine sat_m (sat_c (sat_m (sat_c (sat_m (sat_c (sat_m (sat_c (Sat.pure ⟨1, .inl rfl, ?_⟩))))))))
    simp only; omega

/-- Taking the opposite of a coefficient does not wrap around: overflow checks are on, or none of
the coefficients is the least integer. -/
def Opposable (cfg : Cfg) (k : Coef8) : Prop :=
  cfg.overflowChecks = true ∨ k.Within cfg.imax

theorem Opposable.mul {cfg : Cfg} {z : Int}
    (h : cfg.overflowChecks = true ∨ (-cfg.imax ≤ z ∧ z ≤ cfg.imax)) :
    Sat (fun _ => True) (cfg.mul z (-1)) (fun r => r = -z) := by
  refine (Cfg.mul_sat (A := fun _ => True) ?_).mono fun r hr => by rw [hr.1]; ring
  rcases h with h | ⟨h1, h2⟩
  · exact .inr ⟨trivial, trivial, h⟩
  · refine .inl ⟨?_, ?_⟩
    · have := cfg.imin_eq
      omega
    · omega

theorem reflectX_exact {cfg : Cfg} {k : Coef8} (h : Opposable cfg k) :
    Sat (fun _ => True) (k.reflectX cfg)
      (fun k' => k' = ⟨-k.a, -k.b, k.c, k.d, -k.e, -k.f, k.g, k.h⟩) := by
  unfold reflectX
  refine Sat.bind (Opposable.mul (h.imp id fun h => ⟨h.a, h.a'⟩)) ?_
  rintro _ rfl
  refine Sat.bind (Opposable.mul (h.imp id fun h => ⟨h.b, h.b'⟩)) ?_
  rintro _ rfl
  refine Sat.bind (Opposable.mul (h.imp id fun h => ⟨h.e, h.e'⟩)) ?_
  rintro _ rfl
  refine Sat.bind (Opposable.mul (h.imp id fun h => ⟨h.f, h.f'⟩)) ?_
  rintro _ rfl
  exact Sat.pure rfl

theorem reflectY_exact {cfg : Cfg} {k : Coef8} (h : Opposable cfg k) :
    Sat (fun _ => True) (k.reflectY cfg)
      (fun k' => k' = ⟨-k.a, k.b, -k.c, k.d, -k.e, k.f, -k.g, k.h⟩) := by
  unfold reflectY
  refine Sat.bind (Opposable.mul (h.imp id fun h => ⟨h.a, h.a'⟩)) ?_
  rintro _ rfl
  refine Sat.bind (Opposable.mul (h.imp id fun h => ⟨h.c, h.c'⟩)) ?_
  rintro _ rfl
  refine Sat.bind (Opposable.mul (h.imp id fun h => ⟨h.e, h.e'⟩)) ?_
  rintro _ rfl
  refine Sat.bind (Opposable.mul (h.imp id fun h => ⟨h.g, h.g'⟩)) ?_
  rintro _ rfl
  exact Sat.pure rfl

theorem absorbPrimerX_exact {cfg : Cfg} (p : Option Primer) {k : Coef8} (h : Opposable cfg k) :
    Sat (fun _ => True) (k.absorbPrimerX cfg p) (fun k' => AbsX p k k' ∧ Opposable cfg k') := by
  have key : Sat (fun _ => True) (k.absorbPrimerX cfg p) (AbsX p k) := by
    unfold absorbPrimerX
    rcases p with _ | p
    · exact Sat.pure (.inl ⟨rfl, rfl⟩)
    · cases p
      · exact Sat.pure (.inr (.inl ⟨rfl, rfl⟩))
      · exact (reflectX_exact h).mono fun _ h => .inr (.inr (.inl ⟨rfl, h⟩))
      · refine (reflectX_exact (k := k.turnX) (h.imp id ?_)).mono
          fun _ h => .inr (.inr (.inr ⟨rfl, h⟩))
        rintro ⟨_, _, _, _, _, _, _, _, _, _, _, _, _, _, _, _, _⟩
        constructor <;> (try simp only [turnX]) <;> omega
  exact key.mono fun k' hk => ⟨hk, h.imp id hk.within⟩

theorem absorbPrimerY_exact {cfg : Cfg} (p : Option Primer) {k : Coef8} (h : Opposable cfg k) :
    Sat (fun _ => True) (k.absorbPrimerY cfg p) (AbsY p k) := by
  unfold absorbPrimerY
  rcases p with _ | p
  · exact Sat.pure (.inl ⟨rfl, rfl⟩)
  · cases p
    · exact Sat.pure (.inr (.inl ⟨rfl, rfl⟩))
    · exact (reflectY_exact h).mono fun _ h => .inr (.inr (.inl ⟨rfl, h⟩))
    · refine (reflectY_exact (k := k.turnY) (h.imp id ?_)).mono
        fun _ h => .inr (.inr (.inr ⟨rfl, h⟩))
      rintro ⟨_, _, _, _, _, _, _, _, _, _, _, _, _, _, _, _, _⟩
      constructor <;> (try simp only [turnY]) <;> omega

end Coef8

namespace Steps

open Mut

/-! ## What a line stands for -/

/-- The line, at what is left of one of the operands after some symbols, is the same fraction as
`k` at the operands. -/
def LineOf (k : Coef8) (u v : ℚ) (line : Coef4) : Prop :=
  ∃ i, k.Same4 u v line (rest i u) ∨ k.Same4 u v line (rest i v)

/-- Only such lines have been printed. -/
def Told (k : Coef8) (u v : ℚ) (printed : List Coef4) (w : World) : Prop :=
  ∃ lines, w.printed = printed ++ lines ∧ ∀ line ∈ lines, LineOf k u v line

theorem Told.nil (k : Coef8) (u v : ℚ) {printed : List Coef4} {w : World}
    (h : w.printed = printed) : Told k u v printed w := ⟨[], by simp [h], by simp⟩

theorem rest_one (v : ℚ) : rest 1 v = next v := rfl

theorem rest_add (i j : Nat) (v : ℚ) : rest i (rest j v) = rest (j + i) v := by
  induction j generalizing v with
  | zero => simp [rest]
  | succ j ih =>
    rw [show j + 1 + i = (j + i) + 1 by omega]
    exact ih _

theorem next_rest (i : Nat) (v : ℚ) : next (rest i v) = rest (i + 1) v := rest_add 1 i v

theorem Same.trans4 {k k' : Coef8} {k4 : Coef4} {u v u' v' z : ℚ} (h : k.Same u v k' u' v')
    (h' : k'.Same4 u' v' k4 z) : k.Same4 u v k4 z := by
  obtain ⟨c, hc, h1, h2⟩ := h
  obtain ⟨c', hc', h3, h4⟩ := h'
  exact ⟨c' * c, mul_ne_zero hc' hc, by rw [h3, h1, mul_assoc], by rw [h4, h2, mul_assoc]⟩

theorem Same.trans {k k' k'' : Coef8} {u v u' v' u'' v'' : ℚ} (h : k.Same u v k' u' v')
    (h' : k'.Same u' v' k'' u'' v'') : k.Same u v k'' u'' v'' := by
  obtain ⟨c, hc, h1, h2⟩ := h
  obtain ⟨c', hc', h3, h4⟩ := h'
  exact ⟨c' * c, mul_ne_zero hc' hc, by rw [h3, h1, mul_assoc], by rw [h4, h2, mul_assoc]⟩

theorem Same4.scaled {k : Coef8} {k4 k' : Coef4} {u v z z' : ℚ} (h : k.Same4 u v k4 z)
    (h' : Scaled k4 z k' z') : k.Same4 u v k' z' := by
  obtain ⟨c, hc, h1, h2⟩ := h
  obtain ⟨c', hc', h3, h4⟩ := h'
  unfold Coef4.numAt at h1
  unfold Coef4.denAt at h2
  refine ⟨c' * c, mul_ne_zero hc' hc, ?_, ?_⟩
  · unfold Coef4.numAt
    rw [h3, h1, mul_assoc]
  · unfold Coef4.denAt
    rw [h4, h2, mul_assoc]

/-- A map of one of the operands, after some symbols of it. -/
def MapOf (cfg : Cfg) (k : Coef8) (u v : ℚ) (r : Ratio) (k4 : Coef4) : Prop :=
  r.OK cfg ∧ (∃ i, r.val = rest i u ∨ r.val = rest i v) ∧ k.Same4 u v k4 r.val

theorem MapOf.lines {cfg : Cfg} {k : Coef8} {u v : ℚ} {r : Ratio} {k4 : Coef4}
    (h : MapOf cfg k u v r k4) {lines : List Coef4} (hl : Faithful k4 r.val lines) :
    ∀ line ∈ lines, LineOf k u v line := by
  intro line hm
  obtain ⟨i, hi⟩ := List.getElem?_of_mem hm
  have h1 : k.Same4 u v line (rest i r.val) := Same4.scaled h.2.2 (hl i line hi)
  obtain ⟨j, e | e⟩ := h.2.1
  · rw [e, rest_add] at h1
    exact ⟨_, .inl h1⟩
  · rw [e, rest_add] at h1
    exact ⟨_, .inr h1⟩

theorem MapOf.told {cfg : Cfg} {k : Coef8} {u v : ℚ} {r : Ratio} {k4 : Coef4}
    (h : MapOf cfg k u v r k4) {lines printed : List Coef4} {w w' : World}
    (hl : Homographic.Lines k4 r.val w w' lines) (hw : Told k u v printed w) :
    Told k u v printed w' := by
  obtain ⟨l, e, hw⟩ := hw
  refine ⟨l ++ lines, by rw [hl.1, e, List.append_assoc], fun line hm => ?_⟩
  rcases List.mem_append.1 hm with hm | hm
  · exact hw _ hm
  · exact h.lines hl.2 _ hm

theorem Post.and {σ α : Type} {m : Mut σ α} {s : σ} {Q Q' : σ → Prop} {R R' : α → σ → Prop}
    (h : Post m s Q R) (h' : Post m s Q' R') :
    Post m s (fun t => Q t ∧ Q' t) (fun a t => R a t ∧ R' a t) := by
  unfold Post at *
  revert h h'
  generalize m s = r
  obtain ⟨r, t⟩ := r
  cases r <;> exact fun h h' => ⟨h, h'⟩

/-- A result of `Homographic` holds something. -/
def Homographic.Full (a : Homographic.Primed) : Prop :=
  a.1 ≠ none ∨ a.2.2.1 ≠ none ∨ a.2.2.2 ≠ none

theorem Ratio.newI_some {cfg : Cfg} {num den : Int} {t : Option Special × Option Primer × Option Ratio}
    (h : Clarith.Ratio.newI cfg num den = .ok t) : t.1 ≠ none ∨ t.2.2 ≠ none := by
  unfold Clarith.Ratio.newI at h
  cases h1 : Clarith.Ratio.magnitude cfg num with
  | ok n =>
    cases h2 : Clarith.Ratio.magnitude cfg den with
    | ok d =>
      rw [h1, h2] at h
      replace h : Clarith.Ratio.new (Clarith.Ratio.sameSign num den) n d = .ok t := h
      unfold Clarith.Ratio.new at h
      split at h
      · cases h
      · split at h
        · injection h with h; subst h; simp
        · split at h
          · split at h <;> (injection h with h; subst h; simp)
          · split at h <;> (injection h with h; subst h; simp)
    | panic p => rw [h1, h2] at h; cases h
    | timeout => rw [h1, h2] at h; cases h
  | panic p => rw [h1] at h; cases h
  | timeout => rw [h1] at h; cases h

theorem Post.top {σ α : Type} (m : Mut σ α) (s : σ) : Post m s (fun _ => True) (fun _ _ => True) := by
  unfold Post
  generalize m s = r
  obtain ⟨r, t⟩ := r
  cases r <;> trivial

theorem Homographic.asRatio_some (cfg : Cfg) (n d : Int) (w : World) :
    Post (Homographic.asRatio cfg n d) w (fun _ => True) (fun a _ => Homographic.Full a) := by
  unfold Homographic.asRatio
  refine Post.bind (R := fun a _ => a.1 ≠ none ∨ a.2.2 ≠ none)
    (Post.eval trivial fun a e => Ratio.newI_some e) ?_
  rintro ⟨sp, pr, ra⟩ t h
  exact Post.pure (h.imp id .inl)

theorem Homographic.prime_some (cfg : Cfg) (eg : EgestFn) (f : Nat) (s : Homographic × World) :
    Post (Homographic.prime cfg eg f) s (fun _ => True) (fun a _ => Homographic.Full a) := by
  induction f generalizing s with
  | zero => trivial
  | succ f ih =>
    unfold Homographic.prime
    refine Post.modify_bind ?_
    refine Post.bind (Post.top _ _) ?_
    rintro a t -
    rcases a with _ | p
    · refine Post.bind (R := fun a _ => ∀ b, a = some b → b.1 ≠ none ∨ b.2.2 ≠ none) ?_ ?_
      · unfold Homographic.primeIngest
        refine Post.bind (Post.top _ _) ?_
        rintro a t -
        rcases a with _ | s
        · refine Post.get_bind ?_
          refine Post.bind (Post.top _ _) ?_
          rintro ⟨num, den⟩ t -
          refine Post.bind (R := fun a _ => a.1 ≠ none ∨ a.2.2 ≠ none)
            (Post.eval trivial fun a e => Ratio.newI_some e) ?_
          intro a t h
          exact Post.pure fun b e => Option.some.inj e ▸ h
        · cases s <;>
          · refine Post.bind (Post.top _ _) ?_
            rintro a t -
            exact Post.pure fun b e => by cases e
      · rintro a t h
        rcases a with _ | ⟨sp, pr, ra⟩
        · exact ih _
        · exact Post.pure ((h _ rfl).imp id .inl)
    · exact Post.get_bind (Post.pure (.inr (.inr (by simp))))

theorem Homographic.new_some (cfg : Cfg) (eg : EgestFn) (f : Nat) (x : Number) (nx n dx d : Int)
    (w : World) : Post (Homographic.new cfg eg f x nx n dx d) w (fun _ => True)
      (fun a _ => Homographic.Full a) := by
  unfold Homographic.new
  split
  · exact Homographic.asRatio_some ..
  · split
    · exact Post.bind (Post.top _ _) fun _ _ _ => Post.bind (Post.top _ _) fun _ _ _ =>
        Homographic.asRatio_some ..
    · exact Homographic.asRatio_some ..
    · exact Post.bind (Post.top _ _) fun _ _ _ => Post.bind (Post.top _ _) fun _ _ _ =>
        Homographic.asRatio_some ..
    · exact Post.bind (Post.top _ _) fun _ _ _ => owned_post (Homographic.prime_some ..)

/-- `Homographic::new` on what is left of one operand. -/
theorem Homographic.new_post {cfg : Cfg} (g f : Nat) {k : Coef8} {u v : ℚ} {r : Ratio}
    {k4 : Coef4} (h : MapOf cfg k u v r k4) {printed : List Coef4} {w : World}
    (hw : Told k u v printed w) :
    Post (Homographic.new cfg (Steps.egest cfg g) f (.Other none (.ratio r)) k4.nx k4.n k4.dx k4.d)
      w (Told k u v printed) (fun a t => Told k u v printed t ∧ ∀ h, a.2.2.2 = some h →
        ∃ r' : Ratio, h.x = .ratio r' ∧ (a.2.1 = none → MapOf cfg k u v r' h.k)) := by
  unfold Homographic.new
  by_cases hx : k4.nx = 0 ∧ k4.dx = 0
  · rw [if_pos hx]
    exact Post.bind (R := fun _ t => t = w) (Post.eval hw fun _ _ => rfl)
      fun a t e => ⟨by rw [show t = w from e]; exact hw, fun h e => by cases e⟩
  · rw [if_neg hx]
    dsimp only
    refine Post.bind (R := fun k' t => k' = k4 ∧ t = w) (Post.eval hw fun k' e => ?_) ?_
    · injection e with e
      exact ⟨e.symm, rfl⟩
    · rintro k' _ ⟨rfl, rfl⟩
      refine owned_post ((Homographic.prime_post cfg g f h.1 k' _).mono ?_ ?_)
      · rintro t ⟨lines, hl⟩
        exact h.told hl hw
      · rintro a t ⟨lines, hl, -, hh⟩
        refine ⟨h.told hl hw, fun ho e => ?_⟩
        obtain ⟨r', e1, e2, e3, e4⟩ := hh ho e
        refine ⟨r', e1, fun en => ⟨e3, ?_, Same4.scaled h.2.2 (e4 en)⟩⟩
        obtain ⟨j, e | e⟩ := h.2.1
        · exact ⟨_, .inl (by rw [e2, e, rest_add])⟩
        · exact ⟨_, .inr (by rw [e2, e, rest_add])⟩

namespace Combine

/-- Both operands are fractions. -/
structure Pair (cfg : Cfg) (c : Combine) (w : World) (u v : ℚ) (rx ry : Ratio) : Prop where
  ne : c.x ≠ c.y
  ltx : c.x < w.fresh
  lty : c.y < w.fresh
  cx : w.cells c.x = some ⟨1, .ratio rx⟩
  cy : w.cells c.y = some ⟨1, .ratio ry⟩
  okx : rx.OK cfg
  oky : ry.OK cfg
  vx : rx.val = u
  vy : ry.val = v

/-- Nothing has been printed, and the state still stands for `k` at `(u, v)`. -/
def Silent (cfg : Cfg) (k : Coef8) (u v : ℚ) (printed : List Coef4) (s : Combine × World) : Prop :=
  s.2.printed = printed ∧ ∃ i j rx ry, Pair cfg s.1 s.2 (rest i u) (rest j v) rx ry ∧
    k.Same u v s.1.k (rest i u) (rest j v)

theorem onW_post {α : Type} {m : Mut World α} {c : Combine} {w : World} {Q : World → Prop}
    {R : α → World → Prop} (h : Post m w Q R) :
    Post (onW m) (c, w) (fun t => t.1 = c ∧ Q t.2) (fun a t => t.1 = c ∧ R a t.2) := by
  unfold Post at *
  unfold onW Mut.part
  dsimp only
  revert h
  generalize m w = r
  obtain ⟨r, t⟩ := r
  cases r <;> exact fun h => ⟨rfl, h⟩

/-- Reading an operand that is a fraction. -/
theorem getMut_post {cfg : Cfg} (g : Nat) {i : Nat} {w : World} {r : Ratio}
    (hc : w.cells i = some ⟨1, .ratio r⟩) (hr : r.OK cfg) :
    Post (rcGetMut i (Steps.egest cfg g)) w (fun t => t.printed = w.printed)
      (fun a t => a = sym r.val ∧ ∃ r' : Ratio, t = w.put i (some ⟨1, .ratio r'⟩) ∧ r'.OK cfg ∧
        r'.val = next r.val) := by
  have h := egest_ratio_post cfg g hr w
  have e : rcGetMut i (Steps.egest cfg g) w = ((Steps.egest cfg g (.ratio r, w)).1,
      (Steps.egest cfg g (.ratio r, w)).2.2.put i
        (some ⟨1, (Steps.egest cfg g (.ratio r, w)).2.1⟩)) := by
    unfold rcGetMut
    rw [hc]
    rfl
  unfold Post at *
  rw [e]
  revert h
  generalize Steps.egest cfg g (.ratio r, w) = t
  obtain ⟨t, o, w'⟩ := t
  cases t with
  | ok a =>
    rintro ⟨h1, h2, r', h4, h3⟩
    dsimp only at h2 h4
    subst h2 h4
    exact ⟨h1, r', rfl, h3⟩
  | panic p => exact id
  | shared => exact id
  | timeout => exact id

theorem attempt_post {α : Type} {s : Combine × World} {m : Mut Coef8 (Option α)}
    {A : Out (Option (α × Coef8))} (h : Agree m s.1.k (A >>= attempt s.1.k)) :
    Post (onK m) s (fun t => t.2 = s.2)
      (fun a t => t.2 = s.2 ∧ t.1.x = s.1.x ∧ t.1.y = s.1.y ∧ (a = none → t.1.k = s.1.k)) := by
  refine Post.sim (onK_attempt (J := fun t => t.2 = s.2) h fun _ => rfl) (fun _ h => h) ?_
  rintro a t b - ⟨e, h⟩
  refine ⟨by rw [e], by rw [e], by rw [e], ?_⟩
  rintro rfl
  rcases b with _ | ⟨b, k'⟩
  · exact h.2
  · exact absurd h.1 (by simp)

theorem ingest_post {m : Mut Coef8 Unit} {c : Combine} {w : World} {o : Out Coef8}
    {P : Coef8 → Prop} (h : Agree m c.k (o >>= fun k => pure ((), k)))
    (hs : Out.Sat (fun _ => True) o P) :
    Post (onK m) (c, w) (fun t => t.2 = w) (fun _ t => ∃ k, P k ∧ t = (⟨c.x, c.y, k⟩, w)) := by
  unfold Agree Sim at h
  unfold Post onK Mut.part
  dsimp only
  revert h
  generalize m c.k = t
  obtain ⟨t, k'⟩ := t
  cases t with
  | ok a =>
    rintro ⟨b, e, rfl⟩
    cases o with
    | ok k'' =>
      have e' : k'' = k' := by
        injection e with e
        injection e
      subst e'
      exact ⟨_, hs, rfl⟩
    | panic p => cases e
    | timeout => cases e
  | panic p => exact fun _ => rfl
  | shared => exact fun h => h.elim
  | timeout => exact fun _ => rfl

theorem Pair.putX {cfg : Cfg} {c : Combine} {w : World} {u v u' : ℚ} {rx ry rx' : Ratio}
    (h : Pair cfg c w u v rx ry) (k : Coef8) (ho : rx'.OK cfg) (hv : rx'.val = u') :
    Pair cfg ⟨c.x, c.y, k⟩ (w.put c.x (some ⟨1, .ratio rx'⟩)) u' v rx' ry :=
  ⟨h.ne, h.ltx, h.lty, if_pos rfl, (if_neg (Ne.symm h.ne)).trans h.cy, ho, h.oky, hv, h.vy⟩

theorem Pair.putY {cfg : Cfg} {c : Combine} {w : World} {u v v' : ℚ} {rx ry ry' : Ratio}
    (h : Pair cfg c w u v rx ry) (k : Coef8) (ho : ry'.OK cfg) (hv : ry'.val = v') :
    Pair cfg ⟨c.x, c.y, k⟩ (w.put c.y (some ⟨1, .ratio ry'⟩)) u v' rx ry' :=
  ⟨h.ne, h.ltx, h.lty, (if_neg h.ne).trans h.cx, if_pos rfl, h.okx, ho, h.vx, hv⟩

/-- Reading the first operand. -/
theorem readX_post {cfg : Cfg} (g : Nat) {c : Combine} {w : World} {u v : ℚ} {rx ry : Ratio}
    (h : Pair cfg c w u v rx ry) :
    Post (onW (rcGetMut c.x (Steps.egest cfg g))) (c, w) (fun t => t.2.printed = w.printed)
      (fun a t => a = sym u ∧ ∃ rx', t = (c, w.put c.x (some ⟨1, .ratio rx'⟩)) ∧
        ∀ k, Pair cfg ⟨c.x, c.y, k⟩ t.2 (next u) v rx' ry) := by
  refine (onW_post (getMut_post g h.cx h.okx)).mono (fun _ h => h.2) ?_
  rintro a ⟨c', t⟩ ⟨e, h1, r', e', h3, h4⟩
  dsimp only at e e'
  subst e e'
  rw [h.vx] at h1 h4
  exact ⟨h1, r', rfl, fun k => h.putX k h3 h4⟩

/-- Reading the second operand. -/
theorem readY_post {cfg : Cfg} (g : Nat) {c : Combine} {w : World} {u v : ℚ} {rx ry : Ratio}
    (h : Pair cfg c w u v rx ry) :
    Post (onW (rcGetMut c.y (Steps.egest cfg g))) (c, w) (fun t => t.2.printed = w.printed)
      (fun a t => a = sym v ∧ ∃ ry', t = (c, w.put c.y (some ⟨1, .ratio ry'⟩)) ∧
        ∀ k, Pair cfg ⟨c.x, c.y, k⟩ t.2 u (next v) rx ry') := by
  refine (onW_post (getMut_post g h.cy h.oky)).mono (fun _ h => h.2) ?_
  rintro a ⟨c', t⟩ ⟨e, h1, r', e', h3, h4⟩
  dsimp only at e e'
  subst e e'
  rw [h.vy] at h1 h4
  exact ⟨h1, r', rfl, fun k => h.putY k h3 h4⟩

/-- The result of an end of one operand. -/
def Ended (cfg : Cfg) (k : Coef8) (u v : ℚ) (printed : List Coef4) (a : Homographic.Primed)
    (t : World) : Prop :=
  Told k u v printed t ∧ ∀ h, a.2.2.2 = some h →
    ∃ r' : Ratio, h.x = .ratio r' ∧ (a.2.1 = none → MapOf cfg k u v r' h.k)

theorem tryUnwrap_post {w : World} {i : Nat} {o : Obj} (h : w.cells i = some ⟨1, o⟩)
    {Q : World → Prop} : Post (rcTryUnwrap i) w Q (fun a t => a = o ∧ t = w.put i none) := by
  unfold Post rcTryUnwrap
  rw [h]
  exact ⟨rfl, rfl⟩

theorem shutdown_run {w : World} {i : Nat} {o : Obj} (h : w.cells i = some ⟨1, o⟩)
    (hi : i < w.fresh) : ∃ w1 w2 w3 w4, rcClone i w = (.ok i, w1) ∧ simpleClog w1 = (.ok w.fresh, w2) ∧
      rcDrop i w2 = (.ok (), w3) ∧ rcTryUnwrap i w3 = (.ok o, w4) ∧ w4.printed = w.printed := by
  have hne : i ≠ w.fresh := Nat.ne_of_lt hi
  have e1 : rcClone i w = (.ok i, w.put i (some ⟨2, o⟩)) := by
    unfold rcClone
    rw [h]
  have e2 : simpleClog (w.put i (some ⟨2, o⟩)) = (.ok w.fresh,
      { (w.put i (some ⟨2, o⟩)).put w.fresh (some ⟨1, .ratio ⟨1, 2⟩⟩) with fresh := w.fresh + 1 }) :=
    rfl
  have c2 : ({ (w.put i (some ⟨2, o⟩)).put w.fresh (some ⟨1, .ratio ⟨1, 2⟩⟩) with
      fresh := w.fresh + 1 } : World).cells i = some ⟨2, o⟩ := (if_neg hne).trans (if_pos rfl)
  have key : ∀ {w2 : World}, w2.cells i = some ⟨2, o⟩ → w2.printed = w.printed → ∃ w3 w4,
      rcDrop i w2 = (.ok (), w3) ∧ rcTryUnwrap i w3 = (.ok o, w4) ∧ w4.printed = w.printed := by
    intro w2 c2 hp
    have e3 : rcDrop i w2 = (.ok (), w2.put i (some ⟨1, o⟩)) := by
      unfold rcDrop
      rw [c2]
      rfl
    have e4 : rcTryUnwrap i (w2.put i (some ⟨1, o⟩)) =
        (.ok o, (w2.put i (some ⟨1, o⟩)).put i none) := by
      unfold rcTryUnwrap
      rw [show (w2.put i (some ⟨1, o⟩)).cells i = some ⟨1, o⟩ from if_pos rfl]
      rfl
    exact ⟨_, _, e3, e4, hp⟩
  obtain ⟨w3, w4, h3⟩ := key c2 rfl
  exact ⟨_, _, w3, w4, e1, e2, h3⟩

theorem shutdownY_post {c : Combine} {w : World} {o : Obj} (h : w.cells c.y = some ⟨1, o⟩)
    (hi : c.y < w.fresh) {Q : Combine × World → Prop} :
    Post shutdownY (c, w) Q (fun a t => a = .Other none o ∧ t.2.printed = w.printed) := by
  obtain ⟨w1, w2, w3, w4, e1, e2, e3, e4, e5⟩ := shutdown_run h hi
  unfold Post shutdownY
  simp only [Bind.bind, Mut.bind, Mut.get, onW, Mut.part, e1, e2, e3, e4, Mut.modify]
  exact ⟨rfl, e5⟩

theorem shutdownX_post {c : Combine} {w : World} {o : Obj} (h : w.cells c.x = some ⟨1, o⟩)
    (hi : c.x < w.fresh) {Q : Combine × World → Prop} :
    Post shutdownX (c, w) Q (fun a t => a = .Other none o ∧ t.2.printed = w.printed) := by
  obtain ⟨w1, w2, w3, w4, e1, e2, e3, e4, e5⟩ := shutdown_run h hi
  unfold Post shutdownX
  simp only [Bind.bind, Mut.bind, Mut.get, onW, Mut.part, e1, e2, e3, e4, Mut.modify]
  exact ⟨rfl, e5⟩

theorem ended_post {cfg : Cfg} (g f : Nat) {k : Coef8} {u v : ℚ} {r : Ratio} {k4 : Coef4}
    (h : MapOf cfg k u v r k4) {printed : List Coef4} {c : Combine} {w : World}
    (hw : Told k u v printed w) :
    Post (do
      match ← onW (Homographic.new cfg (Steps.egest cfg g) f (.Other none (.ratio r))
        k4.nx k4.n k4.dx k4.d) with
      | (none, none, ratio, homographic) => pure (ratio, homographic)
      | _ => panic .logicError) (c, w) (fun t => Told k u v printed t.2)
      (fun a t => Told k u v printed t.2 ∧ (a = (none, none) → Silent cfg k u v printed t) ∧
        ∀ h, a.2 = some h → ∃ r' : Ratio, h.x = .ratio r' ∧ MapOf cfg k u v r' h.k) := by
  refine Post.bind ((onW_post ((Homographic.new_post g f h hw).and
    (Homographic.new_some cfg _ f _ k4.nx k4.n k4.dx k4.d w))).mono
      (fun _ h => h.2.1) fun _ _ h => h) ?_
  rintro ⟨sp, pr, ra, ho⟩ t ⟨-, ⟨h1, h2⟩, h3⟩
  rcases sp with _ | sp
  · rcases pr with _ | pr
    · refine Post.pure ⟨h1, fun e => ?_, fun ho e => ?_⟩
      · injection e with e e'
        subst e e'
        rcases h3 with h3 | h3 | h3 <;> exact absurd rfl h3
      · obtain ⟨r', e1, e2⟩ := h2 ho e
        exact ⟨r', e1, e2 rfl⟩
    · exact h1
  · exact h1

theorem exact_ok {α : Type} {o : Out α} {a : α} {P : α → Prop}
    (h : Out.Sat (fun _ => True) o P) (e : o = .ok a) : P a := by
  rw [e] at h
  exact h

theorem endX_map {cfg : Cfg} {k : Coef8} {u v : ℚ} {c : Combine} {w : World} {i j : Nat}
    {rx ry : Ratio} (h : Pair cfg c w (rest i u) (rest j v) rx ry)
    (hk : k.Same u v c.k (rest i u) (rest j v)) (hs : none = sym (rest i u)) {k4 : Coef4}
    (he : Coef8.EndX c.k k4) : MapOf cfg k u v ry k4 := by
  have e : rest i u = 1 / 2 := sym_eq_none.1 hs.symm
  refine ⟨h.oky, ⟨j, .inr h.vy⟩, Same.trans4 hk ?_⟩
  rw [e, h.vy]
  exact he.same _

theorem endY_map {cfg : Cfg} {k : Coef8} {u v : ℚ} {c : Combine} {w : World} {i j : Nat}
    {rx ry : Ratio} (h : Pair cfg c w (rest i u) (rest j v) rx ry)
    (hk : k.Same u v c.k (rest i u) (rest j v)) (hs : none = sym (rest j v)) {k4 : Coef4}
    (he : Coef8.EndY c.k k4) : MapOf cfg k u v rx k4 := by
  have e : rest j v = 1 / 2 := sym_eq_none.1 hs.symm
  refine ⟨h.okx, ⟨i, .inl h.vx⟩, Same.trans4 hk ?_⟩
  rw [e, h.vx]
  exact he.same _

/-- `prime_ingest` prints nothing unless an operand ends. -/
theorem primeIngest_post {cfg : Cfg} (g f : Nat) {k : Coef8} {u v : ℚ} {printed : List Coef4}
    {s : Combine × World} (h : Silent cfg k u v printed s) :
    Post (primeIngest cfg (Steps.egest cfg g) f) s (fun t => Told k u v printed t.2)
      (fun a t => match a with
        | none => Silent cfg k u v printed t
        | some a => Ended cfg k u v printed a t.2) := by
  obtain ⟨c, w⟩ := s
  obtain ⟨hp, i, j, rx, ry, hP, hk⟩ := h
  dsimp only at hp hP hk
  have hq : ∀ {t : World}, t.printed = w.printed → Told k u v printed t :=
    fun e => .nil k u v (e.trans hp)
  unfold primeIngest
  refine Post.get_bind ?_
  refine Post.bind ((readX_post g hP).mono (fun _ e => hq e) fun _ _ h => h) ?_
  rintro a _ ⟨ha, rx', rfl, hP1⟩
  rcases a with _ | s
  · refine Post.get_bind ?_
    refine Post.bind (R := fun k4 t => Coef8.EndX c.k k4 ∧ t = (c, w.put c.x _))
      (Post.eval (hq rfl) fun k4 e => ⟨exact_ok (Clarith.Coef8.valueAtEndOfX_exact cfg c.k) e, rfl⟩) ?_
    rintro k4 _ ⟨h4, rfl⟩
    have hm := endX_map hP hk ha h4
    refine Post.bind ((onW_post (tryUnwrap_post (Q := fun _ => False) (hP1 c.k).cy)).mono
      (fun _ h => h.2.elim) fun _ _ h => h) ?_
    rintro y ⟨c', w'⟩ ⟨e, rfl, e'⟩
    dsimp only at e e'
    subst e e'
    refine Post.bind ((onW_post (Homographic.new_post g f hm
      (w := (w.put c'.x (some ⟨1, .ratio rx'⟩)).put c'.y none) (hq rfl))).mono
      (fun _ h => h.2) fun _ _ h => h) ?_
    rintro a t ⟨-, h⟩
    exact Post.pure h
  · refine Post.bind ((ingest_post (Coef8.ingestX_agree cfg s c.k) (Clarith.Coef8.ingestX_exact cfg s c.k)).mono
      (fun t e => by rw [e]; exact hq rfl) fun _ _ h => h) ?_
    rintro - _ ⟨k1, hI, rfl⟩
    have hk1 := Same.trans hk (hI.same ha.symm)
    rw [next_rest] at hk1
    have hP1 := hP1 k1
    rw [next_rest] at hP1
    refine Post.get_bind ?_
    refine Post.bind ((readY_post g hP1).mono (fun _ e => hq e) fun _ _ h => h) ?_
    rintro a _ ⟨hb, ry', rfl, hP2⟩
    rcases a with _ | s'
    · refine Post.get_bind ?_
      refine Post.bind (R := fun k4 t => Coef8.EndY k1 k4 ∧
        t = (⟨c.x, c.y, k1⟩, (w.put c.x _).put c.y _))
        (Post.eval (hq rfl) fun k4 e => ⟨exact_ok (Clarith.Coef8.valueAtEndOfY_exact cfg k1) e, rfl⟩) ?_
      rintro k4 _ ⟨h4, rfl⟩
      have hm := endY_map hP1 hk1 hb h4
      refine Post.bind ((onW_post (tryUnwrap_post (Q := fun _ => False) (hP2 k1).cx)).mono
        (fun _ h => h.2.elim) fun _ _ h => h) ?_
      rintro y ⟨c', w'⟩ ⟨e, rfl, e'⟩
      dsimp only at e e'
      subst e e'
      refine Post.bind ((onW_post (Homographic.new_post g f hm (w := ((w.put c.x
        (some ⟨1, .ratio rx'⟩)).put c.y (some ⟨1, .ratio ry'⟩)).put c.x none) (hq rfl))).mono
        (fun _ h => h.2) fun _ _ h => h) ?_
      rintro a t ⟨-, h⟩
      exact Post.pure h
    · refine Post.bind ((ingest_post (c := ⟨c.x, c.y, k1⟩) (Coef8.ingestY_agree cfg s' k1)
        (Clarith.Coef8.ingestY_exact cfg s' k1)).mono (fun t e => by rw [e]; exact hq rfl) fun _ _ h => h) ?_
      rintro - _ ⟨k2, hJ, rfl⟩
      have hk2 := Same.trans hk1 (hJ.same hb.symm)
      rw [next_rest] at hk2
      have hP2 := hP2 k2
      rw [next_rest] at hP2
      exact Post.pure ⟨hp, _, _, _, _, hP2, hk2⟩

/-- `reduction_ingest` prints nothing unless an operand ends. -/
theorem reductionIngest_post {cfg : Cfg} (g f : Nat) {k : Coef8} {u v : ℚ} {printed : List Coef4}
    {s : Combine × World} (h : Silent cfg k u v printed s) :
    Post (reductionIngest cfg (Steps.egest cfg g) f) s (fun t => Told k u v printed t.2)
      (fun a t => Told k u v printed t.2 ∧ (a = (none, none) → Silent cfg k u v printed t) ∧
        ∀ h, a.2 = some h → ∃ r' : Ratio, h.x = .ratio r' ∧ MapOf cfg k u v r' h.k) := by
  obtain ⟨c, w⟩ := s
  obtain ⟨hp, i, j, rx, ry, hP, hk⟩ := h
  dsimp only at hp hP hk
  have hq : ∀ {t : World}, t.printed = w.printed → Told k u v printed t :=
    fun e => .nil k u v (e.trans hp)
  unfold reductionIngest
  refine Post.get_bind ?_
  refine Post.bind ((readX_post g hP).mono (fun _ e => hq e) fun _ _ h => h) ?_
  rintro a _ ⟨ha, rx', rfl, hP1⟩
  rcases a with _ | s
  · refine Post.get_bind ?_
    refine Post.bind (R := fun k4 t => Coef8.EndX c.k k4 ∧ t = (c, w.put c.x _))
      (Post.eval (hq rfl) fun k4 e => ⟨exact_ok (Clarith.Coef8.valueAtEndOfX_exact cfg c.k) e, rfl⟩) ?_
    rintro k4 _ ⟨h4, rfl⟩
    have hm := endX_map hP hk ha h4
    refine Post.bind (shutdownY_post (hP1 c.k).cy (hP1 c.k).lty) ?_
    rintro y ⟨c', w'⟩ ⟨rfl, e'⟩
    exact ended_post g f hm (hq e')
  · refine Post.bind ((ingest_post (Coef8.ingestX_agree cfg s c.k)
      (Clarith.Coef8.ingestX_exact cfg s c.k)).mono
      (fun t e => by rw [e]; exact hq rfl) fun _ _ h => h) ?_
    rintro - _ ⟨k1, hI, rfl⟩
    have hk1 := Same.trans hk (hI.same ha.symm)
    rw [next_rest] at hk1
    have hP1 := hP1 k1
    rw [next_rest] at hP1
    refine Post.get_bind ?_
    refine Post.bind ((readY_post g hP1).mono (fun _ e => hq e) fun _ _ h => h) ?_
    rintro a _ ⟨hb, ry', rfl, hP2⟩
    rcases a with _ | s'
    · refine Post.get_bind ?_
      refine Post.bind (R := fun k4 t => Coef8.EndY k1 k4 ∧
        t = (⟨c.x, c.y, k1⟩, (w.put c.x _).put c.y _))
        (Post.eval (hq rfl) fun k4 e =>
          ⟨exact_ok (Clarith.Coef8.valueAtEndOfY_exact cfg k1) e, rfl⟩) ?_
      rintro k4 _ ⟨h4, rfl⟩
      have hm := endY_map hP1 hk1 hb h4
      refine Post.bind (shutdownX_post (hP2 k1).cx (hP2 k1).ltx) ?_
      rintro y ⟨c', w'⟩ ⟨rfl, e'⟩
      exact ended_post g f hm (hq e')
    · refine Post.bind ((ingest_post (c := ⟨c.x, c.y, k1⟩) (Coef8.ingestY_agree cfg s' k1)
        (Clarith.Coef8.ingestY_exact cfg s' k1)).mono (fun t e => by rw [e]; exact hq rfl)
          fun _ _ h => h) ?_
      rintro - _ ⟨k2, hJ, rfl⟩
      have hk2 := Same.trans hk1 (hJ.same hb.symm)
      rw [next_rest] at hk2
      have hP2 := hP2 k2
      rw [next_rest] at hP2
      exact Post.pure ⟨hq rfl, fun _ => ⟨hp, _, _, _, _, hP2, hk2⟩, fun h e => by cases e⟩

/-- `prime` prints nothing unless an operand ends. -/
theorem prime_post {cfg : Cfg} (g f : Nat) {k : Coef8} {u v : ℚ} {printed : List Coef4}
    {s : Combine × World} (h : Silent cfg k u v printed s) :
    Post (prime cfg (Steps.egest cfg g) f) s (fun t => Told k u v printed t.2)
      (fun a t => Told k u v printed t.2 ∧ (∀ c, a.2.2.2.2 = some c → t.2.printed = printed)) := by
  induction f generalizing s with
  | zero => exact .nil k u v h.1
  | succ f ih =>
    unfold prime
    refine Post.bind ((attempt_post (Coef8.primerAttempt_agree cfg s.1.k)).mono
      (fun t e => by rw [e]; exact .nil k u v h.1) fun _ _ h => h) ?_
    rintro a t ⟨e1, e2, e3, e4⟩
    have hpt : t.2.printed = printed := by rw [e1, h.1]
    rcases a with _ | p
    · have e : t = s := by
        obtain ⟨⟨x, y, k1⟩, w⟩ := t
        obtain ⟨⟨x', y', k1'⟩, w'⟩ := s
        obtain rfl : w = w' := e1
        obtain rfl : x = x' := e2
        obtain rfl : y = y' := e3
        obtain rfl : k1 = k1' := e4 rfl
        rfl
      rw [e]
      refine Post.bind (primeIngest_post g f h) ?_
      rintro a t ht
      rcases a with _ | ⟨sp, pr, ra, ho⟩
      · exact ih ht
      · exact Post.pure ⟨ht.1, fun c e => by cases e⟩
    · exact Post.get_bind (Post.pure ⟨.nil k u v hpt, fun _ _ => hpt⟩)

/-- `egest` prints nothing unless an operand ends. -/
theorem egest_post {cfg : Cfg} (g f : Nat) {k : Coef8} {u v : ℚ} {printed : List Coef4}
    {s : Combine × World} (h : Silent cfg k u v printed s) :
    Post (egest cfg (Steps.egest cfg g) f) s (fun t => Told k u v printed t.2)
      (fun a t => Told k u v printed t.2 ∧ match a with
        | .inl _ => t.2.printed = printed
        | .inr (.ratio _) => True
        | .inr (.homographic x k4) => ∃ r' : Ratio, x = .ratio r' ∧ MapOf cfg k u v r' k4
        | .inr (.combine ..) => False) := by
  induction f generalizing s with
  | zero => exact .nil k u v h.1
  | succ f ih =>
    unfold egest
    refine Post.bind ((attempt_post (Coef8.reductionAttempt_agree cfg s.1.k)).mono
      (fun t e => by rw [e]; exact .nil k u v h.1) fun _ _ h => h) ?_
    rintro a t ⟨e1, e2, e3, e4⟩
    have hpt : t.2.printed = printed := by rw [e1, h.1]
    rcases a with _ | p
    · have e : t = s := by
        obtain ⟨⟨x, y, k1⟩, w⟩ := t
        obtain ⟨⟨x', y', k1'⟩, w'⟩ := s
        obtain rfl : w = w' := e1
        obtain rfl : x = x' := e2
        obtain rfl : y = y' := e3
        obtain rfl : k1 = k1' := e4 rfl
        rfl
      rw [e]
      refine Post.bind (reductionIngest_post g f h) ?_
      rintro ⟨ra, ho⟩ t ⟨h1, h2, h3⟩
      rcases ho with _ | ⟨x, k4⟩
      · rcases ra with _ | ra
        · exact ih (h2 rfl)
        · exact Post.pure ⟨h1, trivial⟩
      · exact Post.pure ⟨h1, h3 _ rfl⟩
    · exact Post.pure ⟨.nil k u v hpt, hpt⟩

end Combine

/-! ## The public functions -/

/-- The lines printed by one `egest` of a `Combine` of two fractions. -/
theorem egest_combine_post {cfg : Cfg} (f : Nat) {c : Combine} {w : World} {u v : ℚ}
    {rx ry : Ratio} (h : c.Pair cfg w u v rx ry) :
    Post (egest cfg f) (c.box, w) (fun t => Told c.k u v w.printed t.2)
      (fun _ t => Told c.k u v w.printed t.2 ∧
        ∀ i j k, t.1 = .combine i j k → t.2.printed = w.printed) := by
  have hS : Combine.Silent cfg c.k u v w.printed (c, w) :=
    ⟨rfl, 0, 0, rx, ry, h, 1, one_ne_zero, by simp [rest], by simp [rest]⟩
  cases f with
  | zero => exact .nil _ _ _ rfl
  | succ f =>
    unfold egest
    have h := Combine.egest_post f f hS
    refine Post.bind (R := fun a t => Told c.k u v w.printed t.2 ∧ match a with
        | .inl _ => t.2.printed = w.printed
        | .inr (.ratio _) => True
        | .inr (.homographic x k4) => ∃ r' : Ratio, x = .ratio r' ∧ MapOf cfg c.k u v r' k4
        | .inr (.combine ..) => False) ?_ ?_
    · unfold Post strategyEgest at *
      dsimp only [Combine.box]
      revert h
      generalize Combine.egest cfg (egest cfg f) f (c, w) = t
      obtain ⟨t, c', w'⟩ := t
      cases t <;> exact id
    · rintro a ⟨o, w'⟩ ⟨h1, h2⟩
      rcases a with s | o'
      · exact Post.pure ⟨h1, fun _ _ _ _ => h2⟩
      · refine Post.modify_bind ?_
        cases o' with
        | ratio r' =>
          refine (egest_ratio_calm cfg f r' w').mono ?_ ?_
          · rintro t ⟨e, -⟩
            rw [e]
            exact h1
          · rintro a t ⟨e, r'', e'⟩
            rw [e, e']
            exact ⟨h1, fun i j k e => by cases e⟩
        | homographic x k4 =>
          obtain ⟨r', rfl, hm⟩ := h2
          refine (egest_homographic_post cfg f hm.1 k4 w').mono ?_ ?_
          · rintro t ⟨lines, hl⟩
            exact hm.told hl h1
          · rintro a t ⟨⟨lines, hl, -⟩, hc⟩
            exact ⟨hm.told hl h1, fun i j k e => absurd e (hc i j k)⟩
        | combine x y k' => exact h2.elim

/-- Only lines that stand for `k` at `(U, V)` have been printed, where the operands read are `u` and
`v`. -/
def ToldOf (k : Coef8) (U V u v : ℚ) (printed : List Coef4) (w : World) : Prop :=
  ∃ lines, w.printed = printed ++ lines ∧
    ∀ line ∈ lines, ∃ i, k.Same4 U V line (rest i u) ∨ k.Same4 U V line (rest i v)

theorem ToldOf.nil (k : Coef8) (U V u v : ℚ) (w : World) : ToldOf k U V u v w.printed w :=
  ⟨[], by simp, by simp⟩

theorem Told.of {k k' : Coef8} {U V u v : ℚ} {printed : List Coef4} {w : World}
    (h : Told k' u v printed w) (hs : k.Same U V k' u v) : ToldOf k U V u v printed w := by
  obtain ⟨lines, e, hl⟩ := h
  refine ⟨lines, e, fun line hm => ?_⟩
  obtain ⟨i, h | h⟩ := hl line hm
  · exact ⟨i, .inl (Same.trans4 hs h)⟩
  · exact ⟨i, .inr (Same.trans4 hs h)⟩

/-- The lines printed by `Number::combine` for two operands that are fractions. -/
theorem Number.combine_post {cfg : Cfg} (f : Nat) (p q : Option Primer) {rx ry : Ratio}
    (hx : rx.OK cfg) (hy : ry.OK cfg) (k : Coef8) (hk : k.Opposable cfg) (w : World) :
    Post (Number.combine cfg f (.Other p (.ratio rx)) (.Other q (.ratio ry))
      k.a k.b k.c k.d k.e k.f k.g k.h) w
      (ToldOf k (applyPrimer p rx.val) (applyPrimer q ry.val) rx.val ry.val w.printed)
      (fun a t => ToldOf k (applyPrimer p rx.val) (applyPrimer q ry.val) rx.val ry.val w.printed t ∧
        ∀ r i j k', a = .Other r (.combine i j k') → t.printed = w.printed) := by
  unfold Number.combine
  refine Post.bind (R := fun a t =>
      ToldOf k (applyPrimer p rx.val) (applyPrimer q ry.val) rx.val ry.val w.printed t ∧
        ∀ c, a.2.2.2.2 = some c → t.printed = w.printed) ?_ ?_
  · unfold Combine.new
    dsimp only
    refine Post.bind (R := fun k1 t => (Coef8.AbsX p k k1 ∧ k1.Opposable cfg) ∧ t = w)
      (Post.eval (ToldOf.nil ..) fun k1 e => ⟨?_, rfl⟩) ?_
    · exact Combine.exact_ok (P := fun k1 => Coef8.AbsX p k k1 ∧ k1.Opposable cfg)
        (Clarith.Coef8.absorbPrimerX_exact p hk) e
    rintro k1 _ ⟨⟨h1, h1'⟩, rfl⟩
    refine Post.bind (R := fun k2 t => Coef8.AbsY q k1 k2 ∧ t = _)
      (Post.eval (ToldOf.nil ..) fun k2 e =>
        ⟨Combine.exact_ok (Clarith.Coef8.absorbPrimerY_exact q h1') e, rfl⟩) ?_
    rintro k2 t ⟨h2, rfl⟩
    have hs : k.Same (applyPrimer p rx.val) (applyPrimer q ry.val) k2 rx.val ry.val :=
      Same.trans (h1.same hx.val_mem.1 _) (h2.same hy.val_mem.1 _)
    refine Post.bind (R := fun a u => a = t.fresh ∧
      u = { t.put t.fresh (some ⟨1, .ratio rx⟩) with fresh := t.fresh + 1 }) ⟨rfl, rfl⟩ ?_
    rintro _ _ ⟨rfl, rfl⟩
    refine Post.bind (R := fun a u => a = t.fresh + 1 ∧
      u = { (t.put t.fresh (some ⟨1, .ratio rx⟩)).put (t.fresh + 1) (some ⟨1, .ratio ry⟩) with
        fresh := t.fresh + 1 + 1 }) ⟨rfl, rfl⟩ ?_
    rintro _ _ ⟨rfl, rfl⟩
    refine owned_post ((Combine.prime_post f f (k := k2) (u := rx.val) (v := ry.val)
      (printed := t.printed) ⟨rfl, 0, 0, rx, ry, ?_, 1, one_ne_zero, by simp [rest],
        by simp [rest]⟩).mono ?_ ?_)
    · refine ⟨Nat.ne_of_lt (Nat.lt_succ_self _), Nat.lt_succ_of_lt (Nat.lt_succ_self _),
        Nat.lt_succ_self _, ?_, if_pos rfl, hx, hy, rfl, rfl⟩
      exact (if_neg (Nat.ne_of_lt (Nat.lt_succ_self _))).trans (if_pos rfl)
    · exact fun t h => h.of hs
    · exact fun a t h => ⟨h.1.of hs, h.2⟩
  · rintro ⟨sp, pr, ra, ho, co⟩ t ⟨e1, e2⟩
    dsimp only at e2 ⊢
    rcases sp with _ | sp
    · rcases ra with _ | ra
      · rcases ho with _ | ho
        · rcases co with _ | co
          · exact e1
          · exact Post.pure ⟨e1, fun _ _ _ _ _ => e2 _ rfl⟩
        · exact Post.pure ⟨e1, fun r i j k' e => by injection e with e e'; cases e'⟩
      · exact Post.pure ⟨e1, fun r i j k' e => by injection e with e e'; cases e'⟩
    · exact Post.pure ⟨e1, fun r i j k' e => by cases e⟩

end Steps

end Clarith
