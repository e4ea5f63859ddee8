import Verif.Proofs.StepsCaller
import Verif.Proofs.HomographicNew
import Mathlib.Tactic.Linarith

/-! # The lines printed by `Homographic` -/

namespace Clarith

namespace Spec

/-- What is left of a number in (0,1) after `i` symbols (src/protocol.rs:29-50). -/
def rest : Nat → ℚ → ℚ
  | 0, x => x
  | i + 1, x => rest i (if x < 1 / 2 then 2 * x else if 1 / 2 < x then 1 / x - 1 else x)

end Spec

open Spec

namespace Steps

open Mut

/-- `m`, started in `s`, returns with `R`, or ends otherwise with `Q`. -/
def Post {σ α : Type} (m : Mut σ α) (s : σ) (Q : σ → Prop) (R : α → σ → Prop) : Prop :=
  match m s with
  | (.ok a, t) => R a t
  | (_, t) => Q t

namespace Post

variable {σ α β : Type} {m : Mut σ α} {s : σ} {Q : σ → Prop} {R : α → σ → Prop}

theorem mono {Q' : σ → Prop} {R' : α → σ → Prop} (h : Post m s Q R) (hQ : ∀ t, Q t → Q' t)
    (hR : ∀ a t, R a t → R' a t) : Post m s Q' R' := by
  unfold Post at h ⊢
  revert h
  generalize m s = r
  obtain ⟨r, t⟩ := r
  cases r with
  | ok a => exact hR a t
  | panic p => exact hQ t
  | shared => exact hQ t
  | timeout => exact hQ t

theorem bind {g : α → Mut σ β} {R' : β → σ → Prop} (h : Post m s Q R)
    (k : ∀ a t, R a t → Post (g a) t Q R') : Post (m >>= g) s Q R' := by
  have e : (m >>= g) s = Mut.bind m g s := rfl
  unfold Post at h ⊢
  rw [e, Mut.bind]
  revert h
  generalize m s = r
  obtain ⟨r, t⟩ := r
  cases r with
  | ok a => exact fun h => k a t h
  | panic p => exact id
  | shared => exact id
  | timeout => exact id

theorem get_bind {g : σ → Mut σ α} (h : Post (g s) s Q R) : Post (get >>= g) s Q R := h

theorem modify_bind {f : σ → σ} {g : Unit → Mut σ α} (h : Post (g ()) (f s) Q R) :
    Post (modify f >>= g) s Q R := h

theorem pure {a : α} (h : R a s) : Post (Pure.pure a) s Q R := h

theorem eval {o : Out α} (hQ : Q s) (hR : ∀ a, o = .ok a → R a s) : Post (Mut.eval o) s Q R := by
  cases o with
  | ok a => exact hR a rfl
  | panic p => exact hQ
  | timeout => exact hQ

theorem sim {β : Type} {o : Out β} {J : σ → Prop} {S : α → σ → β → Prop} (h : Sim m s o J S)
    (hQ : ∀ t, J t → Q t) (hR : ∀ a t b, o = .ok b → S a t b → R a t) : Post m s Q R := by
  unfold Sim at h
  unfold Post
  revert h
  generalize m s = r
  obtain ⟨r, t⟩ := r
  cases r with
  | ok a => exact fun ⟨b, e, h⟩ => hR a t b e h
  | panic p => exact fun h => hQ t h.2
  | shared => exact fun h => h.elim
  | timeout => exact fun h => hQ t h.2

end Post

/-- The lines are the coefficients of the map as the symbols of the operand `v` go in: each line,
at what is left of the operand, is the same fraction. -/
def Faithful (k : Coef4) (v : ℚ) (lines : List Coef4) : Prop :=
  ∀ i line, lines[i]? = some line → ∃ c : ℚ, c ≠ 0 ∧
    line.nx * rest i v + line.n = c * (k.nx * v + k.n) ∧
    line.dx * rest i v + line.d = c * (k.dx * v + k.d)

theorem Faithful.one (k : Coef4) (v : ℚ) : Faithful k v [k] := by
  intro i line h
  rcases i with _ | i
  · simp at h
    subst h
    exact ⟨1, one_ne_zero, by simp [rest], by simp [rest]⟩
  · simp at h

/-- The coefficients `k'` at `v'` give the same fraction as `k` at `v`. -/
def Scaled (k : Coef4) (v : ℚ) (k' : Coef4) (v' : ℚ) : Prop :=
  ∃ c : ℚ, c ≠ 0 ∧ k'.nx * v' + k'.n = c * (k.nx * v + k.n) ∧
    k'.dx * v' + k'.d = c * (k.dx * v + k.d)

theorem Scaled.refl (k : Coef4) (v : ℚ) : Scaled k v k v := ⟨1, one_ne_zero, by ring, by ring⟩

theorem Scaled.trans {k k' k'' : Coef4} {v v' v'' : ℚ} (h : Scaled k v k' v')
    (h' : Scaled k' v' k'' v'') : Scaled k v k'' v'' := by
  obtain ⟨c, hc, h1, h2⟩ := h
  obtain ⟨c', hc', h3, h4⟩ := h'
  exact ⟨c' * c, mul_ne_zero hc' hc, by rw [h3, h1, mul_assoc], by rw [h4, h2, mul_assoc]⟩

theorem Faithful.cons {k k' : Coef4} {v : ℚ} {lines : List Coef4}
    (h : Faithful k' (rest 1 v) lines) (hs : Scaled k v k' (rest 1 v)) :
    Faithful k v (k :: lines) := by
  intro i line hl
  rcases i with _ | i
  · exact Faithful.one k v 0 line hl
  · obtain ⟨c, hc, h1, h2⟩ := h i line (by simpa using hl)
    obtain ⟨c', hc', h3, h4⟩ := hs
    refine ⟨c * c', mul_ne_zero hc hc', ?_, ?_⟩
    · rw [h3] at h1
      rw [mul_assoc]
      exact h1
    · rw [h4] at h2
      rw [mul_assoc]
      exact h2

theorem Faithful.scaled {k k' : Coef4} {v v' : ℚ} {lines : List Coef4} (h : Faithful k' v' lines)
    (hs : Scaled k v k' v') : ∀ i line, lines[i]? = some line → Scaled k v line (rest i v') := by
  intro i line hl
  obtain ⟨c, hc, h1, h2⟩ := h i line hl
  obtain ⟨c', hc', h3, h4⟩ := hs
  refine ⟨c * c', mul_ne_zero hc hc', ?_, ?_⟩
  · rw [h3] at h1
    rw [mul_assoc]
    exact h1
  · rw [h4] at h2
    rw [mul_assoc]
    exact h2

theorem cmul_exact (cfg : Cfg) (a b : Int) :
    Out.Sat (fun _ => True) (cfg.cmul a b) (fun c => c = a * b) := by
  unfold Cfg.cmul Cfg.checked
  split
  · exact Out.Sat.ok rfl
  · trivial

theorem cadd_exact (cfg : Cfg) (a b : Int) :
    Out.Sat (fun _ => True) (cfg.cadd a b) (fun c => c = a + b) := by
  unfold Cfg.cadd Cfg.checked
  split
  · exact Out.Sat.ok rfl
  · trivial

theorem ingestAmplify_exact (cfg : Cfg) (k : Coef4) :
    Out.Sat (fun _ => True) (k.ingestAmplify cfg) (fun k' =>
      ∃ c : Int, (c = 1 ∨ c = 2) ∧ c * k'.n = 2 * k.n ∧ c * k'.nx = k.nx ∧
        c * k'.d = 2 * k.d ∧ c * k'.dx = k.dx) := by
  unfold Clarith.Coef4.ingestAmplify
  by_cases hodd : (isOdd k.nx || isOdd k.dx) = true
  · rw [if_pos hodd]
    refine Out.Sat.bind (cmul_exact cfg k.n 2) ?_
    rintro _ rfl
    refine Out.Sat.bind (cmul_exact cfg k.d 2) ?_
    rintro _ rfl
    exact Out.Sat.pure ⟨1, .inl rfl, by simp; ring, by simp, by simp; ring, by simp⟩
  · rw [if_neg hodd]
    simp only [Bool.or_eq_true, not_or, Bool.not_eq_true] at hodd
    have e1 := isOdd_iff.1 hodd.1
    have e2 := isOdd_iff.1 hodd.2
    exact Out.Sat.pure ⟨2, .inr rfl, rfl, e1, rfl, e2⟩

theorem ingestUncover_exact (cfg : Cfg) (k : Coef4) :
    Out.Sat (fun _ => True) (k.ingestUncover cfg) (fun k' =>
      k' = ⟨k.n, k.nx + k.n, k.d, k.dx + k.d⟩) := by
  unfold Clarith.Coef4.ingestUncover
  refine Out.Sat.bind (cadd_exact cfg k.nx k.n) ?_
  rintro _ rfl
  refine Out.Sat.bind (cadd_exact cfg k.dx k.d) ?_
  rintro _ rfl
  exact Out.Sat.pure rfl

theorem scaled_amplify {k k' : Coef4} {v : ℚ}
    (h : ∃ c : Int, (c = 1 ∨ c = 2) ∧ c * k'.n = 2 * k.n ∧ c * k'.nx = k.nx ∧
        c * k'.d = 2 * k.d ∧ c * k'.dx = k.dx) : Scaled k v k' (2 * v) := by
  obtain ⟨c, hc, h1, h2, h3, h4⟩ := h
  have hc' : (c : ℚ) ≠ 0 := by
    rcases hc with rfl | rfl <;> norm_num
  have h1' : (c : ℚ) * k'.n = 2 * k.n := by exact_mod_cast h1
  have h2' : (c : ℚ) * k'.nx = k.nx := by exact_mod_cast h2
  have h3' : (c : ℚ) * k'.d = 2 * k.d := by exact_mod_cast h3
  have h4' : (c : ℚ) * k'.dx = k.dx := by exact_mod_cast h4
  refine ⟨2 / c, div_ne_zero two_ne_zero hc', ?_, ?_⟩
  · rw [← h2']
    field_simp
    linarith [h1']
  · rw [← h4']
    field_simp
    linarith [h3']

theorem scaled_uncover {k : Coef4} {v : ℚ} (hv : v ≠ 0) :
    Scaled k v ⟨k.n, k.nx + k.n, k.d, k.dx + k.d⟩ (1 / v - 1) := by
  refine ⟨1 / v, one_div_ne_zero hv, ?_, ?_⟩
  · push_cast
    field_simp
    ring
  · push_cast
    field_simp
    ring

/-- Reading a `Ratio` prints nothing. -/
theorem egest_ratio_post (cfg : Cfg) (g : Nat) {r : Ratio} (hr : r.OK cfg) (w : World) :
    Post (egest cfg g) (.ratio r, w) (fun t => t.2.printed = w.printed)
      (fun a t => a = sym r.val ∧ t.2 = w ∧
        ∃ r' : Ratio, t.1 = .ratio r' ∧ r'.OK cfg ∧ r'.val = rest 1 r.val) := by
  cases g with
  | zero => exact rfl
  | succ g =>
    unfold egest
    refine Post.bind (R := fun a t => ∃ s, a = .inl s ∧ s = sym r.val ∧ t.2 = w ∧
        ∃ r' : Ratio, t.1 = .ratio r' ∧ r'.OK cfg ∧ r'.val = rest 1 r.val) ?_ ?_
    · have h1 := Ratio.egest_agree cfg r
      have h2 := Ratio.egest_sat (A := fun _ => True) hr
      unfold Agree Sim at h1
      unfold Post strategyEgest
      dsimp only
      revert h1
      generalize Steps.Ratio.egest cfg r = t
      obtain ⟨t, r'⟩ := t
      cases t with
      | ok a =>
        rintro ⟨b, e, rfl⟩
        rw [e] at h2
        exact ⟨a, rfl, h2.1, rfl, r', rfl, h2.2.1, h2.2.2⟩
      | panic p => exact fun _ => rfl
      | shared => exact fun h => h.elim
      | timeout => exact fun _ => rfl
    · rintro a t ⟨s, rfl, h1, h2⟩
      exact ⟨h1, h2⟩

/-- Reading a `Ratio` changes nothing but the `Ratio`. -/
theorem egest_ratio_calm (cfg : Cfg) (g : Nat) (r : Ratio) (w : World) :
    Post (egest cfg g) (.ratio r, w) (fun t => t.2 = w ∧ ∃ r' : Ratio, t.1 = .ratio r')
      (fun _ t => t.2 = w ∧ ∃ r' : Ratio, t.1 = .ratio r') := by
  cases g with
  | zero => exact ⟨rfl, r, rfl⟩
  | succ g =>
    unfold egest
    refine Post.bind (R := fun a t => (∃ s, a = .inl s) ∧ t.2 = w ∧
      ∃ r' : Ratio, t.1 = .ratio r') ?_ ?_
    · unfold Post strategyEgest
      dsimp only
      generalize Steps.Ratio.egest cfg r = t
      obtain ⟨t, r'⟩ := t
      cases t with
      | ok a => exact ⟨⟨a, rfl⟩, rfl, r', rfl⟩
      | panic p => exact ⟨rfl, r', rfl⟩
      | shared => exact ⟨rfl, r', rfl⟩
      | timeout => exact ⟨rfl, r', rfl⟩
    · rintro a t ⟨⟨s, rfl⟩, h⟩
      exact h

namespace Homographic

/-- What has been printed. -/
def Lines (k : Coef4) (v : ℚ) (w w' : World) (lines : List Coef4) : Prop :=
  w'.printed = w.printed ++ lines ∧ Faithful k v lines

theorem onX_post {cfg : Cfg} {g : Nat} {r : Ratio} (hr : r.OK cfg) (k : Coef4) (w : World) :
    Post (onX (Steps.egest cfg g)) (⟨.ratio r, k⟩, w) (fun t => t.2.printed = w.printed)
      (fun a t => a = sym r.val ∧ t.2 = w ∧
        ∃ r' : Ratio, t.1 = ⟨.ratio r', k⟩ ∧ r'.OK cfg ∧ r'.val = rest 1 r.val) := by
  have h := egest_ratio_post cfg g hr w
  unfold Post at h ⊢
  unfold onX Mut.part
  dsimp only
  revert h
  generalize Steps.egest cfg g (.ratio r, w) = t
  obtain ⟨t, o, w'⟩ := t
  cases t with
  | ok a =>
    rintro ⟨h1, h2, r', h3, h4⟩
    dsimp only at h2 h3
    subst h2 h3
    exact ⟨h1, rfl, r', rfl, h4⟩
  | panic p => exact id
  | shared => exact id
  | timeout => exact id

/-- One symbol goes in. -/
theorem ingest_post {cfg : Cfg} {r r' : Ratio} (hr : r.OK cfg) (hv : r'.val = rest 1 r.val)
    (k : Coef4) (w : World) (s : Reduction) (hs : some s = sym r.val) :
    Post (onK (match s with
        | .Amplify => Coef4.ingestAmplify cfg
        | .Uncover => Coef4.ingestUncover cfg)) (⟨.ratio r', k⟩, w)
      (fun t => t.2 = w)
      (fun _ t => ∃ k', t = (⟨.ratio r', k'⟩, w) ∧ Scaled k r.val k' r'.val) := by
  have key : ∀ {m : Mut Coef4 Unit} {o : Out Coef4} {P : Coef4 → Prop},
      Agree m k (o >>= fun k => pure ((), k)) → Out.Sat (fun _ => True) o P →
      (∀ k', P k' → Scaled k r.val k' r'.val) →
      Post (onK m) (⟨.ratio r', k⟩, w) (fun t => t.2 = w)
        (fun _ t => ∃ k', t = (⟨.ratio r', k'⟩, w) ∧ Scaled k r.val k' r'.val) := by
    intro m o P h1 h2 h3
    unfold Agree Sim at h1
    unfold Post onK Mut.part
    dsimp only
    revert h1
    generalize m k = t
    obtain ⟨t, k'⟩ := t
    cases t with
    | ok a =>
      rintro ⟨b, e, rfl⟩
      cases o with
      | ok k'' =>
        have e' : k'' = k' := by
          injection e with e
          injection e
        subst e'
        exact ⟨_, rfl, h3 _ h2⟩
      | panic p => cases e
      | timeout => cases e
    | panic p => exact fun _ => rfl
    | shared => exact fun h => h.elim
    | timeout => exact fun _ => rfl
  cases s with
  | Amplify =>
    refine key (Coef4.ingestAmplify_agree cfg k) (ingestAmplify_exact cfg k) fun k' hk => ?_
    have hlt : r.val < 1 / 2 := by
      unfold sym at hs
      by_contra hlt
      rw [if_neg hlt] at hs
      split at hs <;> simp at hs
    rw [hv]
    simp only [rest, if_pos hlt]
    exact scaled_amplify hk
  | Uncover =>
    refine key (Coef4.ingestUncover_agree cfg k) (ingestUncover_exact cfg k) fun k' hk => ?_
    have hlt : ¬ r.val < 1 / 2 ∧ 1 / 2 < r.val := by
      unfold sym at hs
      split at hs
      · simp at hs
      · rename_i h
        split at hs
        · exact ⟨h, by assumption⟩
        · simp at hs
    rw [hv, hk]
    simp only [rest, if_neg hlt.1, if_pos hlt.2]
    exact scaled_uncover hr.val_mem.1.ne'

theorem rest_succ (i : Nat) (v : ℚ) : rest (i + 1) v = rest i (rest 1 v) := rfl

/-- The lines of a call that goes on after one symbol. -/
theorem Lines.cons {k k' : Coef4} {r r' : Ratio} {w w' : World} {lines : List Coef4}
    (h : Lines k' r'.val { w with printed := w.printed ++ [k] } w' lines)
    (hv : r'.val = rest 1 r.val) (hs : Scaled k r.val k' r'.val) :
    Lines k r.val w w' (k :: lines) := by
  refine ⟨?_, ?_⟩
  · rw [h.1]
    simp
  · rw [hv] at hs
    have := h.2
    rw [hv] at this
    exact this.cons hs

theorem Lines.one (k : Coef4) (v : ℚ) {w w' : World} (h : w'.printed = w.printed ++ [k]) :
    Lines k v w w' [k] := ⟨h, Faithful.one k v⟩

/-- An attempt changes the coefficients only, and not if it fails. -/
theorem attempt_post {α : Type} {s : Homographic × World} {m : Mut Coef4 (Option α)}
    {A : Out (Option (α × Coef4))} (h : Agree m s.1.k (A >>= attempt s.1.k)) :
    Post (onK m) s (fun t => t.2 = s.2)
      (fun a t => t.2 = s.2 ∧ t.1.x = s.1.x ∧ (a = none → t.1.k = s.1.k)) := by
  refine Post.sim (onK_attempt (J := fun t => t.2 = s.2) h fun _ => rfl) (fun _ h => h) ?_
  rintro a t b - ⟨e, h⟩
  refine ⟨by rw [e], by rw [e], ?_⟩
  rintro rfl
  rcases b with _ | ⟨b, k'⟩
  · exact h.2
  · exact absurd h.1 (by simp)

theorem primerEgest_none {cfg : Cfg} {k k' : Coef4}
    (h : k.primerAttempt cfg = .ok (some (none, k'))) : k' = k := by
  have hb : ∀ {α β : Type} {o : Out α} {g : α → Out β} {b : β}, (o >>= g) = .ok b →
      ∃ a, g a = .ok b := by
    intro α β o g b e
    cases o with
    | ok a => exact ⟨a, e⟩
    | panic p => cases e
    | timeout => cases e
  have hp : ∀ {r : Option (Option Primer × Coef4)}, (pure r : Out _) = .ok (some (none, k')) →
      r = some (none, k') := by
    intro r e
    injection e
  unfold Clarith.Coef4.primerAttempt at h
  obtain ⟨b, h⟩ := hb h
  cases b with
  | false => exact absurd (hp h) (by simp)
  | true =>
    rw [if_pos rfl] at h
    unfold Clarith.Coef4.primerEgest at h
    obtain ⟨⟨nmin, dmin, nmax, dmax⟩, h⟩ := hb h
    dsimp only at h
    split at h
    · exact absurd (hp h) (by simp)
    obtain ⟨_, h⟩ := hb h
    split at h
    · exact absurd (hp h) (by simp)
    obtain ⟨_, h⟩ := hb h
    split at h
    · obtain ⟨_, h⟩ := hb h
      exact absurd (hp h) (by simp)
    split at h
    · exact absurd (hp h) (by simp)
    obtain ⟨_, h⟩ := hb h
    split at h
    · obtain ⟨_, h⟩ := hb h
      exact absurd (hp h) (by simp)
    split at h
    · have := hp h
      simp only [Option.some.injEq, Prod.mk.injEq, true_and] at this
      exact this.symm
    · exact absurd (hp h) (by simp)

theorem primer_post (cfg : Cfg) (s : Homographic × World) :
    Post (onK (Coef4.primerAttempt cfg)) s (fun t => t.2 = s.2)
      (fun a t => t.2 = s.2 ∧ t.1.x = s.1.x ∧ (a = none ∨ a = some none → t.1.k = s.1.k)) := by
  refine Post.sim (onK_attempt (J := fun t => t.2 = s.2) (Coef4.primerAttempt_agree cfg s.1.k)
    fun _ => rfl) (fun _ h => h) ?_
  rintro a t b hb ⟨e, h⟩
  refine ⟨by rw [e], by rw [e], ?_⟩
  rcases b with _ | ⟨b, k'⟩
  · exact fun _ => h.2
  · rintro (rfl | rfl)
    · exact absurd h.1 (by simp)
    · obtain rfl : none = b := Option.some.inj h.1
      rw [h.2, primerEgest_none hb]

/-- `prime` prints the coefficients before each symbol it reads, and once more. -/
theorem prime_post (cfg : Cfg) (g f : Nat) {r : Ratio} (hr : r.OK cfg) (k : Coef4) (w : World) :
    Post (prime cfg (Steps.egest cfg g) f) (⟨.ratio r, k⟩, w)
      (fun t => ∃ lines, Lines k r.val w t.2 lines)
      (fun a t => ∃ lines, Lines k r.val w t.2 lines ∧ lines ≠ [] ∧
        ∀ h, a.2.2.2 = some h →
          ∃ r' : Ratio, h.x = .ratio r' ∧ r'.val = rest (lines.length - 1) r.val ∧ r'.OK cfg ∧
            (a.2.1 = none → Scaled k r.val h.k r'.val)) := by
  induction f generalizing r k w with
  | zero => exact ⟨[], by simp, fun i line h => by simp at h⟩
  | succ f ih =>
    unfold prime
    refine Post.modify_bind ?_
    refine Post.bind ((primer_post cfg (⟨.ratio r, k⟩, { w with printed := w.printed ++ [k] })).mono
        (fun t ht => ⟨[k], .one k _ (by rw [ht])⟩) fun _ _ h => h) ?_
    rintro a ⟨⟨x', k'⟩, w'⟩ ⟨rfl, rfl, hk⟩
    rcases a with _ | p
    · obtain rfl : k' = k := hk (.inl rfl)
      refine Post.bind (R := fun a t => (a = none → ∃ r' : Ratio, ∃ k'', t = (⟨.ratio r', k''⟩,
          { w with printed := w.printed ++ [k'] }) ∧ r'.OK cfg ∧ r'.val = rest 1 r.val ∧
            Scaled k' r.val k'' r'.val) ∧ t.2.printed = w.printed ++ [k']) ?_ ?_
      · unfold primeIngest
        refine Post.bind ((onX_post hr k' _).mono
          (fun t ht => ⟨[k'], .one k' _ ht⟩) fun _ _ h => h) ?_
        rintro a ⟨h', w'⟩ ⟨ha, rfl, r', rfl, hr', hv⟩
        rcases a with _ | s
        · refine Post.get_bind ?_
          refine Post.bind (R := fun _ t => t.2.printed = w.printed ++ [k'])
            (Post.eval ⟨[k'], .one k' _ rfl⟩ fun _ _ => rfl) ?_
          rintro ⟨num, den⟩ t ht
          refine Post.bind (R := fun _ t => t.2.printed = w.printed ++ [k'])
            (Post.eval ⟨[k'], .one k' _ ht⟩ fun _ _ => ht) ?_
          intro res t ht
          exact Post.pure ⟨fun h => (by cases h), ht⟩
        · have h1 := ingest_post hr hv k' { w with printed := w.printed ++ [k'] } s ha
          cases s with
          | Amplify =>
            refine Post.bind (h1.mono (fun t ht => ⟨[k'], .one k' _ (by rw [ht])⟩)
              fun _ _ h => h) ?_
            rintro _ _ ⟨k'', rfl, hsc⟩
            exact Post.pure ⟨fun _ => ⟨r', k'', rfl, hr', hv, hsc⟩, rfl⟩
          | Uncover =>
            refine Post.bind (h1.mono (fun t ht => ⟨[k'], .one k' _ (by rw [ht])⟩)
              fun _ _ h => h) ?_
            rintro _ _ ⟨k'', rfl, hsc⟩
            exact Post.pure ⟨fun _ => ⟨r', k'', rfl, hr', hv, hsc⟩, rfl⟩
      · rintro a t ⟨ha, hp⟩
        rcases a with _ | ⟨sp, pr, ra⟩
        · obtain ⟨r', k'', rfl, hr', hv, hsc⟩ := ha rfl
          refine (ih hr' k'' _).mono ?_ ?_
          · rintro t ⟨lines, hl⟩
            exact ⟨_, hl.cons hv hsc⟩
          · rintro a t ⟨lines, hl, hne, hx⟩
            refine ⟨_, hl.cons hv hsc, by simp, fun h e => ?_⟩
            obtain ⟨r₁, e1, e2, e3, e4⟩ := hx h e
            refine ⟨r₁, e1, e2.trans ?_, e3, fun en => hsc.trans (e4 en)⟩
            rw [hv]
            cases lines with
            | nil => exact absurd rfl hne
            | cons a l => rfl
        · exact Post.pure ⟨[k'], .one k' _ hp, by simp, fun h e => by cases e⟩
    · refine Post.bind (R := fun s t => s = t ∧ t = (⟨.ratio r, k'⟩,
        { w with printed := w.printed ++ [k] })) ⟨rfl, rfl⟩ ?_
      rintro _ _ ⟨rfl, rfl⟩
      refine Post.pure ⟨[k], .one k _ rfl, by simp, fun h e => ?_⟩
      obtain rfl : _ = h := Option.some.inj e
      refine ⟨r, rfl, rfl, hr, fun en => ?_⟩
      obtain rfl : p = none := en
      obtain rfl : k' = k := hk (.inr rfl)
      exact Scaled.refl _ _

/-- `egest` prints the coefficients before each symbol it reads, and once more. -/
theorem egest_post (cfg : Cfg) (g f : Nat) {r : Ratio} (hr : r.OK cfg) (k : Coef4) (w : World) :
    Post (egest cfg (Steps.egest cfg g) f) (⟨.ratio r, k⟩, w)
      (fun t => ∃ lines, Lines k r.val w t.2 lines)
      (fun a t => ∃ lines, Lines k r.val w t.2 lines ∧ lines ≠ [] ∧
        ((∃ s, a = .inl s ∧ ∃ r' : Ratio, t.1.x = .ratio r' ∧
          r'.val = rest (lines.length - 1) r.val) ∨ ∃ r' : Ratio, a = .inr (.ratio r'))) := by
  induction f generalizing r k w with
  | zero => exact ⟨[], by simp, fun i line h => by simp at h⟩
  | succ f ih =>
    unfold egest
    refine Post.modify_bind ?_
    refine Post.bind ((attempt_post (s := (⟨.ratio r, k⟩, { w with printed := w.printed ++ [k] }))
      (Coef4.reductionAttempt_agree cfg k)).mono
        (fun t ht => ⟨[k], .one k _ (by rw [ht])⟩) fun _ _ h => h) ?_
    rintro a ⟨⟨x', k'⟩, w'⟩ ⟨rfl, rfl, hk⟩
    rcases a with _ | p
    · obtain rfl : k' = k := hk rfl
      refine Post.bind (R := fun a t => (a = none → ∃ r' : Ratio, ∃ k'', t = (⟨.ratio r', k''⟩,
          { w with printed := w.printed ++ [k'] }) ∧ r'.OK cfg ∧ r'.val = rest 1 r.val ∧
            Scaled k' r.val k'' r'.val) ∧ t.2.printed = w.printed ++ [k']) ?_ ?_
      · unfold reductionIngest
        refine Post.bind ((onX_post hr k' _).mono
          (fun t ht => ⟨[k'], .one k' _ ht⟩) fun _ _ h => h) ?_
        rintro a ⟨h', w'⟩ ⟨ha, rfl, r', rfl, hr', hv⟩
        rcases a with _ | s
        · refine Post.get_bind ?_
          refine Post.bind (R := fun _ t => t.2.printed = w.printed ++ [k'])
            (Post.eval ⟨[k'], .one k' _ rfl⟩ fun _ _ => rfl) ?_
          rintro ⟨num, den⟩ t ht
          refine Post.bind (R := fun _ t => t.2.printed = w.printed ++ [k'])
            (Post.eval ⟨[k'], .one k' _ ht⟩ fun _ _ => ht) ?_
          intro res t ht
          split
          · exact Post.pure ⟨fun h => (by cases h), ht⟩
          · exact ⟨[k'], .one k' _ ht⟩
        · have h1 := ingest_post hr hv k' { w with printed := w.printed ++ [k'] } s ha
          cases s with
          | Amplify =>
            refine Post.bind (h1.mono (fun t ht => ⟨[k'], .one k' _ (by rw [ht])⟩)
              fun _ _ h => h) ?_
            rintro _ _ ⟨k'', rfl, hsc⟩
            exact Post.pure ⟨fun _ => ⟨r', k'', rfl, hr', hv, hsc⟩, rfl⟩
          | Uncover =>
            refine Post.bind (h1.mono (fun t ht => ⟨[k'], .one k' _ (by rw [ht])⟩)
              fun _ _ h => h) ?_
            rintro _ _ ⟨k'', rfl, hsc⟩
            exact Post.pure ⟨fun _ => ⟨r', k'', rfl, hr', hv, hsc⟩, rfl⟩
      · rintro a t ⟨ha, hp⟩
        rcases a with _ | ra
        · obtain ⟨r', k'', rfl, hr', hv, hsc⟩ := ha rfl
          refine (ih hr' k'' _).mono ?_ ?_
          · rintro t ⟨lines, hl⟩
            exact ⟨_, hl.cons hv hsc⟩
          · rintro a t ⟨lines, hl, hne, hx⟩
            refine ⟨_, hl.cons hv hsc, by simp, ?_⟩
            rcases hx with ⟨s, e, r₁, e1, e2⟩ | hx
            · refine .inl ⟨s, e, r₁, e1, e2.trans ?_⟩
              rw [hv]
              cases lines with
              | nil => exact absurd rfl hne
              | cons a l => rfl
            · exact .inr hx
        · exact Post.pure ⟨[k'], .one k' _ hp, by simp, .inr ⟨ra, rfl⟩⟩
    · exact Post.pure ⟨[k], .one k _ rfl, by simp, .inl ⟨p, rfl, r, rfl, rfl⟩⟩

end Homographic

/-! ## The public functions -/

theorem owned_post {σ α : Type} {s : σ} {m : Mut (σ × World) α} {w : World} {Q : World → Prop}
    {R : α → World → Prop} (h : Post m (s, w) (fun t => Q t.2) (fun a t => R a t.2)) :
    Post (Homographic.owned s m) w Q R := by
  unfold Post Homographic.owned at *
  revert h
  generalize m (s, w) = r
  obtain ⟨r, t⟩ := r
  cases r <;> exact id

/-- The lines printed by `Number::homographic` for an operand that is a fraction. -/
theorem Number.homographic_post {cfg : Cfg} (f : Nat) (p : Option Primer) {r : Ratio}
    (hr : r.OK cfg) (nx n dx d : Int) (h1 : cfg.Safe (fun _ => True) (-nx))
    (h2 : cfg.Safe (fun _ => True) (-dx)) (hx : ¬ (nx = 0 ∧ dx = 0)) (w : World) :
    Post (Number.homographic cfg f (.Other p (.ratio r)) nx n dx d) w
      (fun t => ∃ lines, t.printed = w.printed ++ lines ∧ ∀ i line, lines[i]? = some line →
        Scaled ⟨nx, n, dx, d⟩ (applyPrimer p r.val) line (rest i r.val))
      (fun a t => ∃ lines, t.printed = w.printed ++ lines ∧ (∀ i line, lines[i]? = some line →
        Scaled ⟨nx, n, dx, d⟩ (applyPrimer p r.val) line (rest i r.val)) ∧ lines ≠ [] ∧
        ∀ p' x k, a = .Other p' (.homographic x k) →
          ∃ r' : Ratio, x = .ratio r' ∧ r'.val = rest (lines.length - 1) r.val) := by
  unfold Number.homographic
  refine Post.bind (R := fun a t => ∃ lines, t.printed = w.printed ++ lines ∧
      (∀ i line, lines[i]? = some line →
        Scaled ⟨nx, n, dx, d⟩ (applyPrimer p r.val) line (rest i r.val)) ∧ lines ≠ [] ∧
        ∀ h, a.2.2.2 = some h →
          ∃ r' : Ratio, h.x = .ratio r' ∧ r'.val = rest (lines.length - 1) r.val) ?_ ?_
  · unfold Homographic.new
    rw [if_neg hx]
    dsimp only
    refine Post.bind (R := fun k t => t = w ∧
      Scaled ⟨nx, n, dx, d⟩ (applyPrimer p r.val) k r.val) (Post.eval ?_ ?_) ?_
    · exact ⟨[], by simp, fun i line h => by simp at h⟩
    · intro k hk
      refine ⟨rfl, ?_⟩
      have h3 := Clarith.Homographic.absorbPrimer_sat (A := fun _ => True) (p := p)
        (k := ⟨nx, n, dx, d⟩) h1 h2
      rw [hk] at h3
      exact Clarith.Homographic.absorbed hr.val_mem.1 h3
    · rintro k _ ⟨rfl, hk⟩
      refine owned_post ((Homographic.prime_post cfg f f hr k _).mono ?_ ?_)
      · rintro t ⟨lines, h⟩
        exact ⟨lines, h.1, h.2.scaled hk⟩
      · rintro a t ⟨lines, h, h', h''⟩
        refine ⟨lines, h.1, h.2.scaled hk, h', fun ho e => ?_⟩
        obtain ⟨r', e1, e2, -⟩ := h'' ho e
        exact ⟨r', e1, e2⟩
  · rintro ⟨sp, pr, ra, ho⟩ t ⟨lines, e1, e2, e3, e4⟩
    dsimp only at e4 ⊢
    rcases sp with _ | sp
    · rcases ra with _ | ra
      · rcases ho with _ | ho
        · exact ⟨lines, e1, e2⟩
        · refine Post.pure ⟨lines, e1, e2, e3, fun p' x k e => ?_⟩
          obtain ⟨r', e5, e6⟩ := e4 ho rfl
          refine ⟨r', ?_, e6⟩
          injection e with e7 e8
          injection e8 with e9 e10
          rw [← e9, e5]
      · exact Post.pure ⟨lines, e1, e2, e3, fun p' x k e => by injection e with e7 e8; cases e8⟩
    · exact Post.pure ⟨lines, e1, e2, e3, fun p' x k e => by cases e⟩

/-- A constant map prints nothing. -/
theorem Number.homographic_constant_post (cfg : Cfg) (f : Nat) (x : Number) (n d : Int)
    (w : World) : Post (Number.homographic cfg f x 0 n 0 d) w (fun t => t = w)
      (fun _ t => t = w) := by
  unfold Number.homographic
  refine Post.bind (R := fun _ t => t = w) ?_ ?_
  · unfold Homographic.new
    rw [if_pos ⟨rfl, rfl⟩]
    exact Post.bind (R := fun _ t => t = w) (Post.eval rfl fun _ _ => rfl) fun _ _ h => h
  · rintro ⟨sp, pr, ra, ho⟩ t rfl
    rcases sp with _ | sp
    · rcases ra with _ | ra
      · rcases ho with _ | ho
        · exact rfl
        · exact rfl
      · exact rfl
    · exact rfl

/-- The lines printed by one `egest` of a map of a fraction. -/
theorem egest_homographic_post (cfg : Cfg) (f : Nat) {r : Ratio} (hr : r.OK cfg) (k : Coef4)
    (w : World) :
    Post (egest cfg f) (.homographic (.ratio r) k, w)
      (fun t => ∃ lines, Homographic.Lines k r.val w t.2 lines)
      (fun _ t => (∃ lines, Homographic.Lines k r.val w t.2 lines ∧ lines ≠ [] ∧
        ∀ x k', t.1 = .homographic x k' →
          ∃ r' : Ratio, x = .ratio r' ∧ r'.val = rest (lines.length - 1) r.val) ∧
        ∀ i j k', t.1 ≠ .combine i j k') := by
  cases f with
  | zero => exact ⟨[], by simp, fun i line h => by simp at h⟩
  | succ f =>
    unfold egest
    have h := Homographic.egest_post cfg f f hr k w
    refine Post.bind (R := fun a t => ∃ lines, Homographic.Lines k r.val w t.2 lines ∧ lines ≠ [] ∧
        ((∃ s, a = .inl s ∧ ∃ r' : Ratio, ∃ k', t.1 = .homographic (.ratio r') k' ∧
          r'.val = rest (lines.length - 1) r.val) ∨ ∃ r' : Ratio, a = .inr (.ratio r'))) ?_ ?_
    · unfold Post strategyEgest at *
      dsimp only
      revert h
      generalize Homographic.egest cfg (egest cfg f) f (⟨.ratio r, k⟩, w) = t
      obtain ⟨t, ⟨x', k'⟩, w'⟩ := t
      cases t with
      | ok a =>
        rintro ⟨lines, h1, h2, h3⟩
        refine ⟨lines, h1, h2, h3.imp ?_ id⟩
        rintro ⟨s, e, r', e1, e2⟩
        dsimp only at e1
        subst e1
        exact ⟨s, e, r', k', rfl, e2⟩
      | panic p => exact id
      | shared => exact id
      | timeout => exact id
    · rintro a ⟨o, w'⟩ ⟨lines, h1, h2, h3⟩
      rcases h3 with ⟨s, rfl, r', k', e1, e2⟩ | ⟨r', rfl⟩
      · obtain rfl : o = _ := e1
        refine Post.pure ⟨⟨lines, h1, h2, fun x k'' e => ⟨r', ?_, e2⟩⟩, fun i j k'' e => by cases e⟩
        injection e with e3
        exact e3.symm
      · refine Post.modify_bind ?_
        refine (egest_ratio_calm cfg f r' w').mono ?_ ?_
        · rintro t ⟨e, -⟩
          exact ⟨lines, by rw [e]; exact h1⟩
        · rintro a t ⟨e, r'', e'⟩
          refine ⟨⟨lines, by rw [e]; exact h1, h2, fun x k' e3 => ?_⟩, fun i j k' e3 => ?_⟩ <;>
          · rw [e'] at e3
            cases e3

/-! ## Calls that print nothing -/

/-- A number that is not computed. -/
def Number.Plain : Number → Prop
  | .Special _ => True
  | .Other _ o => ∃ r : Ratio, o = .ratio r

theorem Consume.consume_calm (cfg : Cfg) (g f : Nat) (k : Coef4) (r : Ratio) (w : World) :
    Post (Consume.consume cfg (egest cfg g) f k) (.ratio r, w) (fun t => t.2 = w)
      (fun a t => t.2 = w ∧ ∀ o, a.1 = some o → ∃ r' : Ratio, o = .ratio r') := by
  induction f generalizing k r with
  | zero => exact rfl
  | succ f ih =>
    unfold Consume.consume
    refine Post.bind ((egest_ratio_calm cfg g r w).mono (fun _ h => h.1) fun _ _ h => h) ?_
    rintro a ⟨o, w'⟩ ⟨rfl, r', rfl⟩
    rcases a with _ | s
    · exact Post.pure ⟨rfl, fun o e => by cases e⟩
    · refine Post.bind (R := fun _ t => t = (.ratio r', w')) (Post.eval rfl fun _ _ => rfl) ?_
      rintro k' _ rfl
      refine Post.bind (R := fun _ t => t = (.ratio r', w')) (Post.eval rfl fun _ _ => rfl) ?_
      rintro u _ rfl
      cases u with
      | false => exact ih k' r'
      | true =>
        exact ⟨rfl, fun o (e : some (Obj.ratio r') = some o) => ⟨r', (Option.some.inj e).symm⟩⟩

theorem Compare.compareClogs_calm (cfg : Cfg) (g f : Nat) (b : Bool) (r₁ r₂ : Ratio) (w : World) :
    Post (Compare.compareClogs cfg (egest cfg g) f b) ((.ratio r₁, .ratio r₂), w)
      (fun t => t.2 = w) (fun _ t => t.2 = w) := by
  induction f generalizing b r₁ r₂ with
  | zero => exact rfl
  | succ f ih =>
    unfold Compare.compareClogs
    refine Post.bind (R := fun _ t => ∃ r : Ratio, t = ((.ratio r, .ratio r₂), w)) ?_ ?_
    · have h := egest_ratio_calm cfg g r₁ w
      unfold Post at *
      unfold Compare.first Mut.part
      revert h
      dsimp only
      generalize egest cfg g (.ratio r₁, w) = t
      obtain ⟨t, o, w'⟩ := t
      cases t with
      | ok a => rintro ⟨rfl, r, rfl⟩; exact ⟨r, rfl⟩
      | panic p => exact fun h => h.1
      | shared => exact fun h => h.1
      | timeout => exact fun h => h.1
    · rintro e1 _ ⟨r₁', rfl⟩
      refine Post.bind (R := fun _ t => ∃ r : Ratio, t = ((.ratio r₁', .ratio r), w)) ?_ ?_
      · have h := egest_ratio_calm cfg g r₂ w
        unfold Post at *
        unfold Compare.second Mut.part
        revert h
        dsimp only
        generalize egest cfg g (.ratio r₂, w) = t
        obtain ⟨t, o, w'⟩ := t
        cases t with
        | ok a => rintro ⟨rfl, r, rfl⟩; exact ⟨r, rfl⟩
        | panic p => exact fun h => h.1
        | shared => exact fun h => h.1
        | timeout => exact fun h => h.1
      · rintro e2 _ ⟨r₂', rfl⟩
        split
        · exact rfl
        · rcases e1 with _ | s
          · exact rfl
          · cases s with
            | Amplify => exact ih _ _ _
            | Uncover => exact ih _ _ _

/-- Nothing has been printed and nothing has been computed. -/
def Caller.Calm (c : Caller) : Prop :=
  c.world.printed = [] ∧ ∀ i v, c.held i = some v → v.Plain

/-- A call that is not `homographic` or `combine`. -/
def Call.Quiet : Call → Prop
  | .homographic .. => False
  | .combine .. => False
  | _ => True

theorem ratioU_calm (positive : Bool) (num den : Nat) (w : World) :
    Post (Number.ratioU positive num den) w (fun t => t = w) (fun a t => t = w ∧ a.Plain) := by
  unfold Number.ratioU
  refine Post.bind (R := fun _ t => t = w) (Post.eval rfl fun _ _ => rfl) ?_
  rintro ⟨sp, pr, ra⟩ _ rfl
  rcases sp with _ | sp
  · rcases ra with _ | ra
    · exact rfl
    · exact Post.pure ⟨rfl, ra, rfl⟩
  · exact Post.pure ⟨rfl, trivial⟩

namespace Caller

theorem Calm.set {c : Caller} (h : c.Calm) (i : Nat) {v : Option Number}
    (hv : ∀ x, v = some x → x.Plain) : (c.set i v).Calm := by
  refine ⟨h.1, fun j x hx => ?_⟩
  by_cases e : j = i
  · exact hv x (by simpa [Caller.set, e] using hx)
  · exact h.2 j x (by simpa [Caller.set, e] using hx)

/-- How a calm call ends. -/
abbrev Calmly (m : Mut Caller Answer) (c : Caller) : Prop :=
  Post m c Calm fun _ t => Calm t

theorem onWorld_calm {α : Type} {m : Mut World α} {c : Caller} (h : c.Calm) {P : α → Prop}
    (hm : Post m c.world (fun t => t = c.world) (fun a t => t = c.world ∧ P a)) :
    Post (onWorld m) c Calm (fun a t => Calm t ∧ P a) := by
  unfold Post at *
  unfold onWorld Mut.part
  revert hm
  dsimp only
  generalize m c.world = r
  obtain ⟨r, t⟩ := r
  cases r with
  | ok a => rintro ⟨rfl, hP⟩; exact ⟨h, hP⟩
  | panic p => rintro rfl; exact h
  | shared => rintro rfl; exact h
  | timeout => rintro rfl; exact h

theorem keep_calm {v : Number} (hv : v.Plain) {c : Caller} (h : c.Calm) (a : Answer) :
    Calmly (keep v >>= fun _ => pure a) c := by
  have := h.set c.next (v := some v) fun x e => Option.some.inj e ▸ hv
  exact this

theorem move_calm {c : Caller} (h : c.Calm) (x : Nat) {g : Option Number → Mut Caller Answer}
    (h0 : ∀ c : Caller, c.Calm → Calmly (g none) c)
    (k : ∀ (c : Caller) v, c.Calm → v.Plain → Calmly (g (some v)) c) :
    Calmly (move x >>= g) c := by
  have e : (move x >>= g) c = g (c.held x) (c.set x none) := rfl
  have hc := h.set x (v := none) fun _ e => by cases e
  have hx := h.2 x
  unfold Calmly Post
  rw [e]
  revert hx
  generalize c.held x = v
  intro hx
  cases v with
  | none => exact h0 _ hc
  | some v => exact k _ v hc (hx v rfl)

theorem call_calm (cfg : Cfg) (f : Nat) {a : Call} (ha : a.Quiet) {c : Caller} (h : c.Calm) :
    Calmly (call cfg f a) c := by
  have no : ∀ c : Caller, c.Calm → Calmly (pure .refused : Mut Caller Answer) c := fun _ h => h
  cases a with
  | ratio num den =>
    refine Post.bind (onWorld_calm h ?_) fun v t hv => keep_calm hv.2 hv.1 _
    unfold Number.ratio
    refine Post.bind (R := fun _ t => t = c.world) (Post.eval rfl fun _ _ => rfl) ?_
    rintro _ _ rfl
    refine Post.bind (R := fun _ t => t = c.world) (Post.eval rfl fun _ _ => rfl) ?_
    rintro _ _ rfl
    exact ratioU_calm _ _ _ _
  | ratioU positive num den =>
    exact Post.bind (onWorld_calm h (ratioU_calm _ _ _ _)) fun v t hv => keep_calm hv.2 hv.1 _
  | homographic => exact ha.elim
  | combine => exact ha.elim
  | egest x =>
    change Post (egestAt cfg f x) c Calm fun _ t => Calm t
    unfold Post egestAt
    have hx := h.2 x
    revert hx
    generalize hv : c.held x = v
    intro hx
    rcases v with _ | ⟨s | ⟨p, o⟩⟩
    · exact h
    · exact h
    · obtain ⟨r, rfl⟩ := hx _ rfl
      have h1 := egest_ratio_calm cfg f r c.world
      unfold Post at h1
      dsimp only
      revert h1
      generalize Steps.egest cfg f (.ratio r, c.world) = t
      obtain ⟨t, o, w'⟩ := t
      have key : ∀ r' : Ratio, Calm { c.set x (some (.Other p (.ratio r'))) with
          world := c.world } :=
        fun r' => h.set x (v := some (.Other p (.ratio r'))) fun y e =>
          Option.some.inj e ▸ ⟨r', rfl⟩
      cases t with
      | ok a => rintro ⟨rfl, r', rfl⟩; exact key r'
      | panic p => rintro ⟨rfl, r', rfl⟩; exact key r'
      | shared => rintro ⟨rfl, r', rfl⟩; exact key r'
      | timeout => rintro ⟨rfl, r', rfl⟩; exact key r'
  | consume x =>
    refine move_calm h x no fun c v h hv => ?_
    refine Post.bind (onWorld_calm h (P := fun a => ∀ y, a.1 = some y → y.Plain) ?_) ?_
    · unfold Number.consume
      refine Post.bind (R := fun a t => t = c.world ∧ ∀ o, a.1 = some o →
        ∃ r' : Ratio, o = .ratio r') ?_ ?_
      · unfold Consume.new
        rcases v with s | ⟨p, o⟩
        · cases s <;> exact Post.pure ⟨rfl, fun o e => by cases e⟩
        · obtain ⟨r, rfl⟩ := hv
          refine Post.bind (R := fun _ t => t = c.world) (Post.eval rfl fun _ _ => rfl) ?_
          rintro k _ rfl
          exact owned_post (Consume.consume_calm cfg f f k r c.world)
      · rintro ⟨o, k⟩ _ ⟨rfl, ho⟩
        refine Post.pure ⟨rfl, fun y e => ?_⟩
        rcases o with _ | o
        · cases e
        · obtain rfl := Option.some.inj e
          exact ho o rfl
    · rintro ⟨y, k⟩ t ⟨ht, hy⟩
      rcases y with _ | y
      · exact ht
      · exact keep_calm (hy y rfl) ht _
  | compare x y =>
    refine move_calm h x no fun c v h hv => ?_
    refine move_calm h y no fun c v' h hv' => ?_
    refine Post.bind (onWorld_calm h (P := fun _ => True) ?_) fun _ _ h => h.1
    unfold Number.compare
    rcases v with s | ⟨p, o⟩
    · rcases v' with s' | ⟨p', o'⟩ <;> exact ⟨rfl, trivial⟩
    · rcases v' with s' | ⟨p', o'⟩
      · exact ⟨rfl, trivial⟩
      · obtain ⟨r, rfl⟩ := hv
        obtain ⟨r', rfl⟩ := hv'
        unfold Compare.compareOthers
        refine Post.bind (R := fun _ t => t = c.world) (owned_post
          (Compare.compareClogs_calm cfg f f _ r r' c.world)) ?_
        rintro _ _ rfl
        exact ⟨rfl, trivial⟩
  | special s =>
    exact Post.bind (onWorld_calm h (P := Number.Plain) ⟨rfl, trivial⟩) fun v t hv =>
      keep_calm hv.2 hv.1 _
  | reprime x p =>
    refine move_calm h x no fun c v h hv => ?_
    refine Post.bind (onWorld_calm h (P := Number.Plain) ?_) fun v t hv => keep_calm hv.2 hv.1 _
    rcases v with s | ⟨p', o⟩
    · exact rfl
    · exact ⟨rfl, hv⟩
  | unwrapSpecial x =>
    refine move_calm h x no fun c v h hv => ?_
    refine Post.bind (onWorld_calm h (P := fun _ => True) ?_) fun _ _ h => h.1
    rcases v with s | ⟨p', o⟩
    · exact ⟨rfl, trivial⟩
    · exact rfl

theorem after_calm (cfg : Cfg) (f : Nat) {calls : List Call} (ha : ∀ a ∈ calls, a.Quiet)
    {c : Caller} (h : c.Calm) : (after cfg f calls c).Calm := by
  induction calls generalizing c with
  | nil => exact h
  | cons a calls ih =>
    have h1 := call_calm cfg f (ha a List.mem_cons_self) h
    unfold Calmly Post at h1
    unfold after
    revert h1
    generalize call cfg f a c = r
    obtain ⟨r, t⟩ := r
    have ih' := @ih (fun b hb => ha b (List.mem_cons_of_mem _ hb)) t
    cases r with
    | ok a => exact fun h => ih' h
    | panic p => exact fun h => ih' h
    | shared => exact fun h => ih' h
    | timeout => exact id

end Caller

end Steps

end Clarith
