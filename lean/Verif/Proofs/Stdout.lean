import Verif.Model.Stdout

/-! # Standard output that cannot always be written: the first line that fails -/

namespace Clarith.Steps.Stdout

open Prog

/-- `m'` does what `m` does, up to the first line that cannot be written.  `P` are the lines. -/
def Tracks {σ α γ : Type} (P : σ → List γ) (ok : Nat → Bool) (m : Mut σ α) (m' : Prog σ α) :
    Prop :=
  ∀ s, ∃ new, P (m s).2 = P s ++ new ∧
    ((∀ i, i < new.length → ok ((P s).length + i) = true) → m' s = (some (m s).1, (m s).2)) ∧
    ∀ i, i < new.length → ok ((P s).length + i) = false →
      (∀ j, j < i → ok ((P s).length + j) = true) →
        (m' s).1 = none ∧ P (m' s).2 = P s ++ new.take (i + 1)

/-- `m` prints nothing. -/
def Silent {σ α γ : Type} (P : σ → List γ) (m : Mut σ α) : Prop := ∀ s, P (m s).2 = P s

/-- The lines, with an object at hand. -/
abbrev lines {τ : Type} (s : τ × World) : List Coef4 := s.2.printed

section

variable {σ τ α β γ : Type} {P : σ → List γ} {ok : Nat → Bool}

theorem Silent.bind {m : Mut σ α} {g : α → Mut σ β} (h : Silent P m) (hg : ∀ a, Silent P (g a)) :
    Silent P (m >>= g) := by
  intro s
  have e : (m >>= g) s = Mut.bind m g s := rfl
  rw [e, Mut.bind]
  have hs := h s
  revert hs
  generalize m s = r
  obtain ⟨r, t⟩ := r
  cases r with
  | ok a => exact fun hs => (hg a t).trans hs
  | panic p => exact id
  | shared => exact id
  | timeout => exact id

theorem Silent.get : Silent P (Mut.get : Mut σ σ) := fun _ => rfl

theorem Silent.pure (a : α) : Silent P (Pure.pure a : Mut σ α) := fun _ => rfl

theorem Silent.panic (p : Panic) : Silent P (Mut.panic p : Mut σ α) := fun _ => rfl

theorem Silent.timeout : Silent P (Mut.timeout : Mut σ α) := fun _ => rfl

theorem Silent.eval (o : Out α) : Silent P (Mut.eval o : Mut σ α) := by
  intro s
  cases o <;> rfl

theorem Silent.modify {f : σ → σ} (h : ∀ s, P (f s) = P s) : Silent P (Mut.modify f) := h

theorem Silent.part {get : σ → τ} {put : τ → σ → σ} {Q : τ → List γ} {m : Mut τ α}
    (h : Silent Q m) (hg : ∀ s, Q (get s) = P s) (hp : ∀ t s, P (put t s) = Q t) :
    Silent P (Mut.part get put m) := by
  intro s
  show P (put _ s) = P s
  rw [hp, h, hg]

theorem Silent.tracks {m : Mut σ α} (h : Silent P m) : Tracks P ok m (quiet m) := fun s =>
  ⟨[], by simp [h s], fun _ => rfl, fun i hi => by simp at hi⟩

theorem Tracks.bind {m : Mut σ α} {m' : Prog σ α} {g : α → Mut σ β} {g' : α → Prog σ β}
    (h : Tracks P ok m m') (hg : ∀ a, Tracks P ok (g a) (g' a)) :
    Tracks P ok (m >>= g) (m' >>= g') := by
  intro s
  have e : (m >>= g) s = Mut.bind m g s := rfl
  have e' : (m' >>= g') s = Prog.bind m' g' s := rfl
  obtain ⟨new, h1, h2, h3⟩ := h s
  rw [e, e', Mut.bind, Prog.bind]
  revert h1 h2 h3
  generalize m s = r
  obtain ⟨r, t⟩ := r
  cases r with
  | ok a =>
    intro h1 h2 h3
    obtain ⟨new', k1, k2, k3⟩ := hg a t
    simp only at h1 h2 h3 ⊢
    rw [h1, List.length_append] at k2 k3
    refine ⟨new ++ new', by rw [k1, h1, List.append_assoc], fun H => ?_, fun i hi hf hb => ?_⟩
    · rw [List.length_append] at H
      rw [h2 fun i hi => H i (by omega)]
      exact k2 fun i hi => by
        have := H (new.length + i) (by omega)
        rwa [← Nat.add_assoc] at this
    · rw [List.length_append] at hi
      by_cases hn : i < new.length
      · obtain ⟨n1, n2⟩ := h3 i hn hf hb
        revert n1 n2
        generalize m' s = r'
        obtain ⟨r', t'⟩ := r'
        rintro rfl n2
        refine ⟨rfl, ?_⟩
        rw [List.take_append_of_le_length (by omega)]
        exact n2
      · have hall : m' s = (some (Res.ok a), t) := h2 fun j hj => hb j (by omega)
        rw [hall]
        obtain ⟨i', rfl⟩ : ∃ i', i = new.length + i' := ⟨i - new.length, by omega⟩
        obtain ⟨n1, n2⟩ := k3 i' (by omega) (by rwa [Nat.add_assoc]) fun j hj => by
          have := hb (new.length + j) (by omega)
          rwa [← Nat.add_assoc] at this
        refine ⟨n1, ?_⟩
        rw [n2, List.append_assoc, Nat.add_assoc, List.take_length_add_append]
  | panic p =>
    intro h1 h2 h3
    refine ⟨new, h1, fun H => ?_, fun i hi hf hb => ?_⟩
    · rw [h2 H]
    · obtain ⟨n1, n2⟩ := h3 i hi hf hb
      revert n1 n2
      generalize m' s = r'
      obtain ⟨r', t'⟩ := r'
      rintro rfl n2
      exact ⟨rfl, n2⟩
  | shared =>
    intro h1 h2 h3
    refine ⟨new, h1, fun H => ?_, fun i hi hf hb => ?_⟩
    · rw [h2 H]
    · obtain ⟨n1, n2⟩ := h3 i hi hf hb
      revert n1 n2
      generalize m' s = r'
      obtain ⟨r', t'⟩ := r'
      rintro rfl n2
      exact ⟨rfl, n2⟩
  | timeout =>
    intro h1 h2 h3
    refine ⟨new, h1, fun H => ?_, fun i hi hf hb => ?_⟩
    · rw [h2 H]
    · obtain ⟨n1, n2⟩ := h3 i hi hf hb
      revert n1 n2
      generalize m' s = r'
      obtain ⟨r', t'⟩ := r'
      rintro rfl n2
      exact ⟨rfl, n2⟩

theorem Tracks.get_bind {g : σ → Mut σ β} {g' : σ → Prog σ β} (hg : ∀ a, Tracks P ok (g a) (g' a)) :
    Tracks P ok (Mut.get >>= g) (quiet Mut.get >>= g') := Tracks.bind Silent.get.tracks hg

theorem Tracks.eval_bind {o : Out α} {g : α → Mut σ β} {g' : α → Prog σ β}
    (hg : ∀ a, Tracks P ok (g a) (g' a)) :
    Tracks P ok (Mut.eval o >>= g) (quiet (Mut.eval o) >>= g') :=
  Tracks.bind (Silent.eval o).tracks hg

theorem Tracks.pure (a : α) : Tracks P ok (Pure.pure a : Mut σ α) (Pure.pure a) := fun s =>
  ⟨[], by simp [Pure.pure], fun _ => rfl, fun i hi => by simp at hi⟩

theorem Tracks.part {get : σ → τ} {put : τ → σ → σ} {Q : τ → List γ} {m : Mut τ α}
    {m' : Prog τ α} (h : Tracks Q ok m m') (hg : ∀ s, Q (get s) = P s)
    (hp : ∀ t s, P (put t s) = Q t) : Tracks P ok (Mut.part get put m) (Prog.part get put m') := by
  intro s
  obtain ⟨new, h1, h2, h3⟩ := h (get s)
  rw [hg] at h1 h2 h3
  refine ⟨new, ?_, fun H => ?_, fun i hi hf hb => ?_⟩
  · show P (put _ s) = _
    rw [hp, h1]
  · show ((m' (get s)).1, put (m' (get s)).2 s) = _
    rw [h2 H]
    rfl
  · obtain ⟨n1, n2⟩ := h3 i hi hf hb
    refine ⟨n1, ?_⟩
    show P (put _ s) = _
    rw [hp, n2]

theorem Tracks.owned {s : σ} {m : Mut (σ × World) α} {m' : Prog (σ × World) α}
    (h : Tracks lines ok m m') :
    Tracks World.printed ok (Homographic.owned s m) (Stdout.owned s m') := by
  intro w
  obtain ⟨new, h1, h2, h3⟩ := h (s, w)
  refine ⟨new, h1, fun H => ?_, fun i hi hf hb => h3 i hi hf hb⟩
  show ((m' (s, w)).1, (m' (s, w)).2.2) = _
  rw [h2 H]
  rfl

theorem Tracks.rcGetMut {i : Nat} {m : Mut (Obj × World) α} {m' : Prog (Obj × World) α}
    (h : Tracks lines ok m m') :
    Tracks World.printed ok (Steps.rcGetMut i m) (Stdout.rcGetMut i m') := by
  intro w
  unfold Steps.rcGetMut Stdout.rcGetMut
  rcases w.cells i with _ | ⟨_ | _ | c, o⟩
  · exact ⟨[], by simp, fun _ => rfl, fun i hi => by simp at hi⟩
  · exact ⟨[], by simp, fun _ => rfl, fun i hi => by simp at hi⟩
  · obtain ⟨new, h1, h2, h3⟩ := h (o, w)
    refine ⟨new, h1, fun H => ?_, fun i hi hf hb => h3 i hi hf hb⟩
    simp only
    rw [h2 H]
  · exact ⟨[], by simp, fun _ => rfl, fun i hi => by simp at hi⟩

theorem rcNew_silent (o : Obj) : Silent World.printed (rcNew o) := fun _ => rfl

theorem rcClone_silent (i : Nat) : Silent World.printed (rcClone i) := by
  intro w
  unfold rcClone
  split <;> rfl

theorem rcDrop_silent (i : Nat) : Silent World.printed (rcDrop i) := by
  intro w
  unfold rcDrop
  split <;> rfl

theorem rcTryUnwrap_silent (i : Nat) : Silent World.printed (rcTryUnwrap i) := by
  intro w
  unfold rcTryUnwrap
  split <;> rfl

end

/-! ## `Homographic` -/

namespace Homographic

variable {ok : Nat → Bool} {α : Type}

theorem onK_silent (m : Mut Coef4 α) : Silent lines (Homographic.onK m) := fun _ => rfl

theorem onX_tracks {m : Mut (Obj × World) α} {m' : Prog (Obj × World) α}
    (h : Tracks lines ok m m') : Tracks lines ok (Steps.Homographic.onX m) (onX m') :=
  h.part (fun _ => rfl) (fun _ _ => rfl)

theorem println_tracks : Tracks lines ok Steps.Homographic.println (println ok) := by
  intro s
  refine ⟨[s.1.k], rfl, fun H => ?_, fun i hi hf _ => ?_⟩
  · have := H 0 (by simp)
    rw [Nat.add_zero] at this
    unfold println
    rw [this]
    rfl
  · obtain rfl : i = 0 := by simpa using hi
    rw [Nat.add_zero] at hf
    unfold println
    rw [hf]
    exact ⟨rfl, rfl⟩

variable {eg : Steps.EgestFn} {eg' : EgestFn} (hE : Tracks lines ok eg eg')
include hE

theorem primeIngest_tracks (cfg : Cfg) :
    Tracks lines ok (Steps.Homographic.primeIngest cfg eg) (primeIngest cfg eg') := by
  unfold Steps.Homographic.primeIngest primeIngest
  refine (onX_tracks hE).bind fun a => ?_
  rcases a with _ | _ | _
  · exact .get_bind fun s => .eval_bind fun _ => .eval_bind fun _ => .pure _
  · exact (onK_silent _).tracks.bind fun _ => .pure _
  · exact (onK_silent _).tracks.bind fun _ => .pure _

theorem reductionIngest_tracks (cfg : Cfg) :
    Tracks lines ok (Steps.Homographic.reductionIngest cfg eg) (reductionIngest cfg eg') := by
  unfold Steps.Homographic.reductionIngest reductionIngest
  refine (onX_tracks hE).bind fun a => ?_
  rcases a with _ | _ | _
  · refine .get_bind fun s => .eval_bind fun _ => .eval_bind fun r => ?_
    rcases r with ⟨_ | _, _ | _, _ | _⟩
    all_goals first
      | exact .pure _
      | exact (Silent.panic _).tracks
  · exact (onK_silent _).tracks.bind fun _ => .pure _
  · exact (onK_silent _).tracks.bind fun _ => .pure _

theorem prime_tracks (cfg : Cfg) (f : Nat) :
    Tracks lines ok (Steps.Homographic.prime cfg eg f) (prime cfg ok eg' f) := by
  induction f with
  | zero => exact Silent.timeout.tracks
  | succ f ih =>
    unfold Steps.Homographic.prime prime
    refine println_tracks.bind fun _ => (onK_silent _).tracks.bind fun a => ?_
    rcases a with _ | _
    · refine (primeIngest_tracks hE cfg).bind fun b => ?_
      rcases b with _ | _
      · exact ih
      · exact .pure _
    · exact .get_bind fun _ => .pure _

theorem egest_tracks (cfg : Cfg) (f : Nat) :
    Tracks lines ok (Steps.Homographic.egest cfg eg f) (egest cfg ok eg' f) := by
  induction f with
  | zero => exact Silent.timeout.tracks
  | succ f ih =>
    unfold Steps.Homographic.egest egest
    refine println_tracks.bind fun _ => (onK_silent _).tracks.bind fun a => ?_
    rcases a with _ | _
    · refine (reductionIngest_tracks hE cfg).bind fun b => ?_
      rcases b with _ | _
      · exact ih
      · exact .pure _
    · exact .pure _

omit hE in
theorem asRatio_silent (cfg : Cfg) (n d : Int) :
    Silent World.printed (Steps.Homographic.asRatio cfg n d) :=
  (Silent.eval _).bind fun _ => .pure _

theorem new_tracks (cfg : Cfg) (f : Nat) (x : Number) (nx n dx d : Int) :
    Tracks World.printed ok (Steps.Homographic.new cfg eg f x nx n dx d)
      (new cfg ok eg' f x nx n dx d) := by
  unfold Steps.Homographic.new new
  split
  · exact (asRatio_silent _ _ _).tracks
  · rcases x with (_ | _ | _) | ⟨p, c⟩
    · exact .eval_bind fun _ => .eval_bind fun _ => (asRatio_silent _ _ _).tracks
    · exact (asRatio_silent _ _ _).tracks
    · exact .eval_bind fun _ => .eval_bind fun _ => (asRatio_silent _ _ _).tracks
    · exact .eval_bind fun _ => .owned (prime_tracks hE cfg f)

end Homographic

/-! ## `Combine` -/

namespace Combine

variable {ok : Nat → Bool} {α : Type}

theorem onK_silent (m : Mut Coef8 α) : Silent lines (Combine.onK m) := fun _ => rfl

theorem onW_tracks {m : Mut World α} {m' : Prog World α} (h : Tracks World.printed ok m m') :
    Tracks lines ok (Steps.Combine.onW m) (onW m') := h.part (fun _ => rfl) (fun _ _ => rfl)

theorem onW_silent {m : Mut World α} (h : Silent World.printed m) :
    Silent lines (Steps.Combine.onW m) := h.part (fun _ => rfl) (fun _ _ => rfl)

theorem shutdownX_silent : Silent lines Combine.shutdownX :=
  .bind .get fun _ => .bind (onW_silent (rcClone_silent _)) fun _ =>
    .bind (onW_silent (rcNew_silent _)) fun _ => .bind .get fun _ =>
      .bind (onW_silent (rcDrop_silent _)) fun _ => .bind (.modify fun _ => rfl) fun _ =>
        .bind (onW_silent (rcTryUnwrap_silent _)) fun _ => .pure _

theorem shutdownY_silent : Silent lines Combine.shutdownY :=
  .bind .get fun _ => .bind (onW_silent (rcClone_silent _)) fun _ =>
    .bind (onW_silent (rcNew_silent _)) fun _ => .bind .get fun _ =>
      .bind (onW_silent (rcDrop_silent _)) fun _ => .bind (.modify fun _ => rfl) fun _ =>
        .bind (onW_silent (rcTryUnwrap_silent _)) fun _ => .pure _

variable {eg : Steps.EgestFn} {eg' : EgestFn} (hE : Tracks lines ok eg eg')
include hE

theorem primeIngest_tracks (cfg : Cfg) (f : Nat) :
    Tracks lines ok (Steps.Combine.primeIngest cfg eg f) (primeIngest cfg ok eg' f) := by
  unfold Steps.Combine.primeIngest primeIngest
  refine .get_bind fun s => (onW_tracks (.rcGetMut hE)).bind fun a => ?_
  rcases a with _ | rx
  · exact .get_bind fun s => .eval_bind fun k =>
      (onW_tracks (rcTryUnwrap_silent _).tracks).bind fun y =>
        (onW_tracks (Homographic.new_tracks hE cfg f _ _ _ _ _)).bind fun _ => .pure _
  · refine (onK_silent _).tracks.bind fun _ => .get_bind fun s =>
      (onW_tracks (.rcGetMut hE)).bind fun b => ?_
    rcases b with _ | ry
    · exact .get_bind fun s => .eval_bind fun k =>
        (onW_tracks (rcTryUnwrap_silent _).tracks).bind fun y =>
          (onW_tracks (Homographic.new_tracks hE cfg f _ _ _ _ _)).bind fun _ => .pure _
    · exact (onK_silent _).tracks.bind fun _ => .pure _

theorem prime_tracks (cfg : Cfg) (f : Nat) :
    Tracks lines ok (Steps.Combine.prime cfg eg f) (prime cfg ok eg' f) := by
  induction f with
  | zero => exact Silent.timeout.tracks
  | succ f ih =>
    unfold Steps.Combine.prime prime
    refine (onK_silent _).tracks.bind fun a => ?_
    rcases a with _ | _
    · refine (primeIngest_tracks hE cfg f).bind fun b => ?_
      rcases b with _ | _
      · exact ih
      · exact .pure _
    · exact .get_bind fun _ => .pure _

theorem reductionIngest_tracks (cfg : Cfg) (f : Nat) :
    Tracks lines ok (Steps.Combine.reductionIngest cfg eg f) (reductionIngest cfg ok eg' f) := by
  unfold Steps.Combine.reductionIngest reductionIngest
  refine .get_bind fun s => (onW_tracks (.rcGetMut hE)).bind fun a => ?_
  rcases a with _ | rx
  · refine .get_bind fun s => .eval_bind fun k => shutdownY_silent.tracks.bind fun y =>
      (onW_tracks (Homographic.new_tracks hE cfg f _ _ _ _ _)).bind fun r => ?_
    rcases r with ⟨_ | _, _ | _, _, _⟩
    all_goals first
      | exact .pure _
      | exact (Silent.panic _).tracks
  · refine (onK_silent _).tracks.bind fun _ => .get_bind fun s =>
      (onW_tracks (.rcGetMut hE)).bind fun b => ?_
    rcases b with _ | ry
    · refine .get_bind fun s => .eval_bind fun k => shutdownX_silent.tracks.bind fun y =>
        (onW_tracks (Homographic.new_tracks hE cfg f _ _ _ _ _)).bind fun r => ?_
      rcases r with ⟨_ | _, _ | _, _, _⟩
      all_goals first
        | exact .pure _
        | exact (Silent.panic _).tracks
    · exact (onK_silent _).tracks.bind fun _ => .pure _

theorem egest_tracks (cfg : Cfg) (f : Nat) :
    Tracks lines ok (Steps.Combine.egest cfg eg f) (egest cfg ok eg' f) := by
  induction f with
  | zero => exact Silent.timeout.tracks
  | succ f ih =>
    unfold Steps.Combine.egest egest
    refine (onK_silent _).tracks.bind fun a => ?_
    rcases a with _ | _
    · refine (reductionIngest_tracks hE cfg f).bind fun b => ?_
      rcases b with ⟨_ | _, _ | _⟩
      · exact ih
      · exact .pure _
      · exact .pure _
      · exact .pure _
    · exact .pure _

theorem asHomographic_tracks (cfg : Cfg) (f : Nat) (x : Number) (nx n dx d : Int) :
    Tracks World.printed ok (Steps.Combine.asHomographic cfg eg f x nx n dx d)
      (asHomographic cfg ok eg' f x nx n dx d) :=
  (Homographic.new_tracks hE cfg f _ _ _ _ _).bind fun _ => .pure _

theorem new_tracks (cfg : Cfg) (f : Nat) (x y : Number) (k : Coef8) :
    Tracks World.printed ok (Steps.Combine.new cfg eg f x y k) (new cfg ok eg' f x y k) := by
  unfold Steps.Combine.new new
  rcases x with (_ | _ | _) | ⟨px, cx⟩
  · exact .eval_bind fun _ => .eval_bind fun _ => .eval_bind fun _ => .eval_bind fun _ =>
      asHomographic_tracks hE cfg f _ _ _ _ _
  · exact asHomographic_tracks hE cfg f _ _ _ _ _
  · exact .eval_bind fun _ => .eval_bind fun _ => .eval_bind fun _ => .eval_bind fun _ =>
      asHomographic_tracks hE cfg f _ _ _ _ _
  · rcases y with (_ | _ | _) | ⟨py, cy⟩
    · exact .eval_bind fun _ => .eval_bind fun _ => .eval_bind fun _ => .eval_bind fun _ =>
        asHomographic_tracks hE cfg f _ _ _ _ _
    · exact asHomographic_tracks hE cfg f _ _ _ _ _
    · exact .eval_bind fun _ => .eval_bind fun _ => .eval_bind fun _ => .eval_bind fun _ =>
        asHomographic_tracks hE cfg f _ _ _ _ _
    · exact .eval_bind fun _ => .eval_bind fun _ => (rcNew_silent _).tracks.bind fun _ =>
        (rcNew_silent _).tracks.bind fun _ => .owned (prime_tracks hE cfg f)

end Combine

/-! ## The public functions -/

theorem strategyEgest_tracks {ok : Nat → Bool} {eg : Steps.EgestFn} {eg' : EgestFn}
    (hE : Tracks lines ok eg eg') (cfg : Cfg) (f : Nat) :
    Tracks lines ok (Steps.strategyEgest cfg eg f) (strategyEgest cfg ok eg' f) := by
  rintro ⟨o, w⟩
  rcases o with r | ⟨x, k⟩ | ⟨x, y, k⟩
  · unfold Steps.strategyEgest strategyEgest
    simp only
    generalize Ratio.egest cfg r = q
    refine ⟨[], ?_, fun _ => ?_, fun i hi => by simp at hi⟩
    · rcases q with ⟨_ | _ | _ | _, r⟩ <;> simp [lines]
    · rcases q with ⟨_ | _ | _ | _, r⟩ <;> rfl
  · obtain ⟨new, h1, h2, h3⟩ := Homographic.egest_tracks hE cfg f (⟨x, k⟩, w)
    refine ⟨new, h1, fun H => ?_, fun i hi hf hb => h3 i hi hf hb⟩
    unfold strategyEgest
    simp only
    rw [h2 H]
    rfl
  · obtain ⟨new, h1, h2, h3⟩ := Combine.egest_tracks hE cfg f (⟨x, y, k⟩, w)
    refine ⟨new, h1, fun H => ?_, fun i hi hf hb => h3 i hi hf hb⟩
    unfold strategyEgest
    simp only
    rw [h2 H]
    rfl

theorem egest_tracks (cfg : Cfg) (ok : Nat → Bool) (f : Nat) :
    Tracks lines ok (Steps.egest cfg f) (egest cfg ok f) := by
  induction f with
  | zero => exact Silent.timeout.tracks
  | succ f ih =>
    unfold Steps.egest egest
    refine (strategyEgest_tracks ih cfg f).bind fun a => ?_
    rcases a with _ | o
    · exact .pure _
    · exact (Silent.modify (f := fun s => (o, s.2)) fun _ => rfl).tracks.bind fun _ => ih

theorem Number.homographic_tracks (cfg : Cfg) (ok : Nat → Bool) (f : Nat) (x : Number)
    (nx n dx d : Int) : Tracks World.printed ok (Steps.Number.homographic cfg f x nx n dx d)
      (homographic cfg ok f x nx n dx d) := by
  unfold Steps.Number.homographic homographic
  refine (Homographic.new_tracks (egest_tracks cfg ok f) cfg f _ _ _ _ _).bind fun a => ?_
  rcases a with ⟨_ | _, _, _ | _, _ | _⟩
  all_goals first
    | exact .pure _
    | exact (Silent.panic _).tracks

theorem Number.combine_tracks (cfg : Cfg) (ok : Nat → Bool) (f : Nat) (x y : Number)
    (nxy nx ny n dxy dx dy d : Int) :
    Tracks World.printed ok (Steps.Number.combine cfg f x y nxy nx ny n dxy dx dy d)
      (combine cfg ok f x y nxy nx ny n dxy dx dy d) := by
  unfold Steps.Number.combine combine
  refine (Combine.new_tracks (egest_tracks cfg ok f) cfg f _ _ _).bind fun a => ?_
  rcases a with ⟨_ | _, _, _ | _, _ | _, _ | _⟩
  all_goals first
    | exact .pure _
    | exact (Silent.panic _).tracks

theorem Consume.consume_tracks {ok : Nat → Bool} {eg : Steps.EgestFn} {eg' : EgestFn}
    (hE : Tracks lines ok eg eg') (cfg : Cfg) (f : Nat) (k : Coef4) :
    Tracks lines ok (Steps.Consume.consume cfg eg f k) (consume cfg eg' f k) := by
  induction f generalizing k with
  | zero => exact Silent.timeout.tracks
  | succ f ih =>
    unfold Steps.Consume.consume consume
    refine hE.bind fun a => ?_
    rcases a with _ | red
    · exact .pure _
    · refine .eval_bind fun k => .eval_bind fun u => ?_
      split
      · exact .get_bind fun _ => .pure _
      · exact ih k

theorem Number.consume_tracks (cfg : Cfg) (ok : Nat → Bool) (f : Nat) (x : Number) :
    Tracks World.printed ok (Steps.Number.consume cfg f x) (consume cfg ok f x) := by
  unfold Steps.Number.consume consume Steps.Consume.new Consume.new
  refine Tracks.bind ?_ fun _ => .pure _
  rcases x with (_ | _ | _) | ⟨p, c⟩
  · exact .pure _
  · exact .pure _
  · exact .pure _
  · exact .eval_bind fun _ => .owned (Consume.consume_tracks (egest_tracks cfg ok f) cfg f _)

theorem Compare.compareClogs_tracks {ok : Nat → Bool} {eg : Steps.EgestFn} {eg' : EgestFn}
    (hE : Tracks lines ok eg eg') (cfg : Cfg) (f : Nat) (polarity : Bool) :
    Tracks lines ok (Steps.Compare.compareClogs cfg eg f polarity)
      (compareClogs cfg eg' f polarity) := by
  induction f generalizing polarity with
  | zero => exact Silent.timeout.tracks
  | succ f ih =>
    unfold Steps.Compare.compareClogs compareClogs
    have h1 : Tracks lines ok (Steps.Compare.first eg) (first eg') :=
      hE.part (fun _ => rfl) (fun _ _ => rfl)
    have h2 : Tracks lines ok (Steps.Compare.second eg) (second eg') :=
      hE.part (fun _ => rfl) (fun _ _ => rfl)
    refine h1.bind fun e1 => h2.bind fun e2 => ?_
    by_cases h : e1 ≠ e2
    · simp only [if_pos h]
      exact .pure _
    · simp only [if_neg h]
      rcases e1 with _ | _ | _
      · exact .pure _
      · exact ih _
      · exact ih _

theorem Number.compare_tracks (cfg : Cfg) (ok : Nat → Bool) (f : Nat) (x y : Number) :
    Tracks World.printed ok (Steps.Number.compare cfg f x y) (compare cfg ok f x y) := by
  unfold Steps.Number.compare compare
  rcases x with s1 | ⟨p1, c1⟩ <;> rcases y with s2 | ⟨p2, c2⟩
  · exact .pure _
  · exact .pure _
  · exact .pure _
  · exact .bind (.owned (Compare.compareClogs_tracks (egest_tracks cfg ok f) cfg f _))
      fun _ => .pure _

end Clarith.Steps.Stdout
