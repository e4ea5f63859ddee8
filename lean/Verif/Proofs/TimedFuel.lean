import Verif.Proofs.Timed
import Verif.Proofs.Depth

/-! # Every recursive call is counted

A run that is out of fuel has taken as many rounds as it had fuel. -/

namespace Clarith

open Out

namespace Timed

variable {α β : Type} {cfg : Cfg} {eg : EgestFn}

/-- If `m` is out of fuel then it has taken at least `N` rounds. -/
def Spent (N : Nat) (m : Timed α) : Prop := m.out = .timeout → N ≤ m.rounds

theorem Spent.pure {N : Nat} {a : α} : Spent N (pure a : Timed α) := fun h => by cases h

theorem Spent.lift {N : Nat} {m : Out α} (h : m ≠ .timeout) : Spent N (liftM m : Timed α) :=
  fun e => absurd e h

theorem Spent.mono {N M : Nat} {m : Timed α} (h : Spent N m) (hM : M ≤ N) : Spent M m :=
  fun e => hM.trans (h e)

theorem Spent.bind {N : Nat} {m : Timed α} {g : α → Timed β} (h : Spent N m)
    (hg : ∀ a, m.out = .ok a → Spent (N - m.rounds) (g a)) : Spent N (m >>= g) := by
  show Spent N (Timed.bind m g)
  unfold Timed.bind Spent
  cases e : m.out with
  | ok a =>
    intro h1
    have := hg a e h1
    dsimp only
    omega
  | panic p => rintro ⟨⟩
  | timeout => exact fun _ => h e

theorem Spent.round_bind {N : Nat} {g : Unit → Timed β} (h : Spent N (g ())) :
    Spent (N + 1) (round >>= g) :=
  Spent.bind (fun h => by cases h) fun _ _ => by simpa [round] using h

theorem Spent.lift_bind {N : Nat} {m : Out α} {g : α → Timed β} (h : m ≠ .timeout)
    (hg : ∀ a, Spent N (g a)) : Spent N ((liftM m : Timed α) >>= g) :=
  Spent.bind (.lift h) fun a _ => hg a

theorem Spent.bind_all {N : Nat} {m : Timed α} {g : α → Timed β} (h : Spent N m)
    (hg : ∀ a, Spent N (g a)) : Spent N (m >>= g) :=
  h.bind fun a _ => (hg a).mono (Nat.sub_le _ _)

theorem Spent.total_bind {N : Nat} {m : Out α} {g : α → Timed β} (h : Total m)
    (hg : ∀ a, Spent N (g a)) : Spent N ((liftM m : Timed α) >>= g) := .lift_bind h.ne hg

theorem Spent.total {N : Nat} {m : Out α} (h : Total m) : Spent N (liftM m : Timed α) := .lift h.ne

theorem one_le_round (g : Unit → Timed β) : 1 ≤ (round >>= g).rounds := by
  show 1 ≤ (Timed.bind round g).rounds
  unfold Timed.bind round
  exact Nat.le_add_right _ _

theorem Homographic.primeIngest_spent {N : Nat} (he : ∀ c, Spent N (eg c)) (h : Homographic) :
    Spent N (Homographic.primeIngest cfg eg h) := by
  refine (he _).bind_all ?_
  rintro ⟨_ | _ | _, x⟩
  · exact .total_bind (Coef4.valueAtOneHalf_total _ _) fun _ =>
      .total_bind (Ratio.newI_total _ _ _) fun _ => .pure
  · exact .total_bind (Coef4.ingestAmplify_total _ _) fun _ => .pure
  · exact .total_bind (Coef4.ingestUncover_total _ _) fun _ => .pure

theorem Homographic.reductionIngest_spent {N : Nat} (he : ∀ c, Spent N (eg c)) (h : Homographic) :
    Spent N (Homographic.reductionIngest cfg eg h) := by
  refine (he _).bind_all ?_
  rintro ⟨_ | _ | _, x⟩
  · refine .total_bind (Coef4.valueAtOneHalf_total _ _) fun _ =>
      .total_bind (Ratio.newI_total _ _ _) ?_
    rintro ⟨_ | _, _ | _, _ | _⟩
    case none.none.some => exact .pure
    all_goals exact .total (.panic _)
  · exact .total_bind (Coef4.ingestAmplify_total _ _) fun _ => .pure
  · exact .total_bind (Coef4.ingestUncover_total _ _) fun _ => .pure

theorem Homographic.prime_spent {F : Nat} (he : ∀ c, Spent F (eg c)) (f : Nat) (hf : f ≤ F + 1)
    (h : Homographic) : Spent f (Homographic.prime cfg eg f h) := by
  induction f generalizing h with
  | zero => exact fun _ => Nat.zero_le _
  | succ f ih =>
    refine Spent.round_bind (.total_bind (Coef4.primerAttempt_total _ _) ?_)
    rintro (_ | ⟨p, k⟩)
    · refine ((Homographic.primeIngest_spent he h).mono (by omega)).bind_all ?_
      rintro ⟨_ | ⟨s, p, r⟩, h'⟩
      · exact ih (by omega) h'
      · exact .pure
    · exact .pure

theorem Homographic.egest_spent {F : Nat} (he : ∀ c, Spent F (eg c)) (f : Nat) (hf : f ≤ F + 1)
    (h : Homographic) : Spent f (Homographic.egest cfg eg f h) := by
  induction f generalizing h with
  | zero => exact fun _ => Nat.zero_le _
  | succ f ih =>
    refine Spent.round_bind (.total_bind (Coef4.reductionAttempt_total _ _) ?_)
    rintro (_ | ⟨p, k⟩)
    · refine ((Homographic.reductionIngest_spent he h).mono (by omega)).bind_all ?_
      rintro ⟨_ | r, h'⟩
      · exact ih (by omega) h'
      · exact .pure
    · exact .pure

theorem Homographic.new_spent {F : Nat} (he : ∀ c, Spent F (eg c)) (f : Nat) (hf : f ≤ F + 1)
    (x : Number) (nx n dx d : Int) : Spent f (Homographic.new cfg eg f x nx n dx d) := by
  unfold Homographic.new
  split_ifs
  · exact .total (Homographic.asRatio_total _ _ _)
  · rcases x with (_ | _ | _) | ⟨p, c⟩
    · exact .total_bind (Cfg.csub_total _ _ _) fun _ => .total_bind (Cfg.csub_total _ _ _) fun _ =>
        .total (Homographic.asRatio_total _ _ _)
    · exact .total (Homographic.asRatio_total _ _ _)
    · exact .total_bind (Cfg.cadd_total _ _ _) fun _ => .total_bind (Cfg.cadd_total _ _ _) fun _ =>
        .total (Homographic.asRatio_total _ _ _)
    · exact .total_bind (Homographic.absorbPrimer_total _ _ _) fun _ =>
        Homographic.prime_spent he f hf _

theorem Combine.primeIngest_spent {F : Nat} (he : ∀ c, Spent F (eg c)) (f : Nat) (hf : f ≤ F)
    (s : Combine) : Spent f (Combine.primeIngest cfg eg f s) := by
  refine ((he _).mono hf).bind_all ?_
  rintro ⟨_ | r, x⟩
  · exact .total_bind (Coef8.valueAtEndOfX_total _ _) fun _ =>
      (Homographic.new_spent he f (by omega) _ _ _ _ _).bind_all fun _ => .pure
  · refine .total_bind (Coef8.ingestX_total _ _ _) fun k => ((he _).mono hf).bind_all ?_
    rintro ⟨_ | r, y⟩
    · exact .total_bind (Coef8.valueAtEndOfY_total _ _) fun _ =>
        (Homographic.new_spent he f (by omega) _ _ _ _ _).bind_all fun _ => .pure
    · exact .total_bind (Coef8.ingestY_total _ _ _) fun k => .pure

theorem Combine.reductionIngest_spent {F : Nat} (he : ∀ c, Spent F (eg c)) (f : Nat) (hf : f ≤ F)
    (s : Combine) : Spent f (Combine.reductionIngest cfg eg f s) := by
  refine ((he _).mono hf).bind_all ?_
  rintro ⟨_ | r, x⟩
  · refine .total_bind (Coef8.valueAtEndOfX_total _ _) fun _ =>
      (Homographic.new_spent he f (by omega) _ _ _ _ _).bind_all ?_
    rintro ⟨_ | _, _ | _, _, _⟩
    case none.none => exact .pure
    all_goals exact .total (.panic _)
  · refine .total_bind (Coef8.ingestX_total _ _ _) fun k => ((he _).mono hf).bind_all ?_
    rintro ⟨_ | r, y⟩
    · refine .total_bind (Coef8.valueAtEndOfY_total _ _) fun _ =>
        (Homographic.new_spent he f (by omega) _ _ _ _ _).bind_all ?_
      rintro ⟨_ | _, _ | _, _, _⟩
      case none.none => exact .pure
      all_goals exact .total (.panic _)
    · exact .total_bind (Coef8.ingestY_total _ _ _) fun k => .pure

theorem Combine.prime_spent {F : Nat} (he : ∀ c, Spent F (eg c)) (f : Nat) (hf : f ≤ F + 1)
    (s : Combine) : Spent f (Combine.prime cfg eg f s) := by
  induction f generalizing s with
  | zero => exact fun _ => Nat.zero_le _
  | succ f ih =>
    refine Spent.round_bind (.total_bind (Coef8.primerAttempt_total _ _) ?_)
    rintro (_ | ⟨p, k⟩)
    · refine (Combine.primeIngest_spent he f (by omega) s).bind_all ?_
      rintro (⟨a, b, c, d⟩ | s')
      · exact .pure
      · exact ih (by omega) s'
    · exact .pure

theorem Combine.egest_spent {F : Nat} (he : ∀ c, Spent F (eg c)) (f : Nat) (hf : f ≤ F + 1)
    (s : Combine) : Spent f (Combine.egest cfg eg f s) := by
  induction f generalizing s with
  | zero => exact fun _ => Nat.zero_le _
  | succ f ih =>
    refine Spent.round_bind (.total_bind (Coef8.reductionAttempt_total _ _) ?_)
    rintro (_ | ⟨p, k⟩)
    · refine (Combine.reductionIngest_spent he f (by omega) s).bind_all ?_
      rintro ⟨⟨_ | r, _ | h⟩, s'⟩
      · exact ih (by omega) s'
      · exact .pure
      · exact .pure
      · exact .pure
    · exact .pure

theorem Strategy.egest_spent {F : Nat} (he : ∀ c, Spent F (eg c)) (f : Nat) (hf : f ≤ F + 1)
    (c : Clog) : Spent f (Strategy.egest cfg eg f c) := by
  cases c with
  | ratio r =>
    cases f with
    | zero => exact fun _ => Nat.zero_le _
    | succ f => exact Spent.round_bind (.total_bind (Ratio.egest_total _ _) fun _ => .pure)
  | homographic x k => exact (Homographic.egest_spent he f hf _).bind_all fun _ => .pure
  | combine x y k => exact (Combine.egest_spent he f hf _).bind_all fun _ => .pure

theorem le_bind_rounds (m : Timed α) (g : α → Timed β) : m.rounds ≤ (m >>= g).rounds := by
  show _ ≤ (Timed.bind m g).rounds
  unfold Timed.bind
  cases m.out <;> simp

theorem Strategy.egest_pos {f : Nat} {c : Clog} {r : Egested × Strategy}
    (h : (Strategy.egest cfg eg f c).out = .ok r) : 1 ≤ (Strategy.egest cfg eg f c).rounds := by
  cases c with
  | ratio r => exact one_le_round _
  | homographic x k =>
    cases f with
    | zero => cases h
    | succ f => exact (one_le_round _).trans (le_bind_rounds _ _)
  | combine x y k =>
    cases f with
    | zero => cases h
    | succ f => exact (one_le_round _).trans (le_bind_rounds _ _)

theorem Clog.egest_spent (cfg : Cfg) (f : Nat) (c : Clog) :
    Spent (f - 1) (Clog.egest cfg f c) := by
  induction f generalizing c with
  | zero => exact fun _ => Nat.zero_le _
  | succ f ih =>
    refine Spent.bind (Strategy.egest_spent ih f (by omega) c) ?_
    rintro ⟨r | s, s'⟩ e
    · exact .pure
    · have := Strategy.egest_pos e
      exact (ih s).mono (by omega)

theorem Number.homographic_spent (cfg : Cfg) (f : Nat) (x : Number) (nx n dx d : Int) :
    Spent f (Number.homographic cfg f x nx n dx d) := by
  refine (Homographic.new_spent (Clog.egest_spent cfg f) f (by omega) x nx n dx d).bind_all ?_
  rintro ⟨_ | s, p, _ | r, _ | h⟩
  case none.none.none => exact .total (.panic _)
  all_goals exact .pure

theorem Combine.new_spent {F : Nat} (he : ∀ c, Spent F (eg c)) (f : Nat) (hf : f ≤ F + 1)
    (x y : Number) (k : Coef8) : Spent f (Combine.new cfg eg f x y k) := by
  have one (x : Number) (nx n dx d : Int) :
      Spent f (Combine.asHomographic cfg eg f x nx n dx d) :=
    (Homographic.new_spent he f hf x nx n dx d).bind_all fun _ => .pure
  unfold Combine.new
  rcases x with (_ | _ | _) | ⟨p, c⟩
  · exact .total_bind (Cfg.csub_total _ _ _) fun _ => .total_bind (Cfg.csub_total _ _ _) fun _ =>
      .total_bind (Cfg.csub_total _ _ _) fun _ => .total_bind (Cfg.csub_total _ _ _) fun _ => one _ _ _ _ _
  · exact one _ _ _ _ _
  · exact .total_bind (Cfg.cadd_total _ _ _) fun _ => .total_bind (Cfg.cadd_total _ _ _) fun _ =>
      .total_bind (Cfg.cadd_total _ _ _) fun _ => .total_bind (Cfg.cadd_total _ _ _) fun _ => one _ _ _ _ _
  · rcases y with (_ | _ | _) | ⟨p', c'⟩
    · exact .total_bind (Cfg.csub_total _ _ _) fun _ => .total_bind (Cfg.csub_total _ _ _) fun _ =>
        .total_bind (Cfg.csub_total _ _ _) fun _ => .total_bind (Cfg.csub_total _ _ _) fun _ => one _ _ _ _ _
    · exact one _ _ _ _ _
    · exact .total_bind (Cfg.cadd_total _ _ _) fun _ => .total_bind (Cfg.cadd_total _ _ _) fun _ =>
        .total_bind (Cfg.cadd_total _ _ _) fun _ => .total_bind (Cfg.cadd_total _ _ _) fun _ => one _ _ _ _ _
    · exact .total_bind (Coef8.absorbPrimerX_total _ _ _) fun _ =>
        .total_bind (Coef8.absorbPrimerY_total _ _ _) fun _ => Combine.prime_spent he f hf _

theorem Number.combine_spent (cfg : Cfg) (f : Nat) (x y : Number) (nxy nx ny n dxy dx dy d : Int) :
    Spent f (Number.combine cfg f x y nxy nx ny n dxy dx dy d) := by
  refine (Combine.new_spent (Clog.egest_spent cfg f) f (by omega) x y _).bind_all ?_
  rintro ⟨_ | s, p, _ | r, _ | h, _ | c⟩
  case none.none.none.none => exact .total (.panic _)
  all_goals exact .pure

theorem Consume.consume_spent {F : Nat} (he : ∀ c, Spent F (eg c)) (f : Nat) (hf : f ≤ F + 1)
    (c : Clog) (k : Coef4) : Spent f (Consume.consume cfg eg f c k) := by
  induction f generalizing c k with
  | zero => exact fun _ => Nat.zero_le _
  | succ f ih =>
    refine Spent.round_bind (((he c).mono (by omega)).bind_all ?_)
    rintro ⟨_ | r, x⟩
    · exact .pure
    · refine .total_bind (Consume.ingest_total _ _ _) fun k =>
        .total_bind (Consume.isStateUnsafe_total _ _) ?_
      rintro (_ | _)
      · exact ih (by omega) x k
      · exact .pure

theorem Number.consume_spent (cfg : Cfg) (f : Nat) (x : Number) :
    Spent f (Number.consume cfg f x) := by
  rcases x with (_ | _ | _) | ⟨p, c⟩
  · exact Spent.bind_all .pure fun _ => .pure
  · exact Spent.bind_all .pure fun _ => .pure
  · exact Spent.bind_all .pure fun _ => .pure
  · exact Spent.bind_all (.total_bind (Consume.start_total _ _) fun _ =>
      Consume.consume_spent (Clog.egest_spent cfg f) f (by omega) _ _) fun _ => .pure

theorem Compare.compareClogs_spent {F : Nat} (he : ∀ c, Spent F (eg c)) (f : Nat) (hf : f ≤ F + 1)
    (c c' : Clog) (b : Bool) : Spent f (Compare.compareClogs cfg eg f c c' b) := by
  induction f generalizing c c' b with
  | zero => exact fun _ => Nat.zero_le _
  | succ f ih =>
    refine Spent.round_bind (((he c).mono (by omega)).bind_all ?_)
    rintro ⟨e1, x⟩
    refine ((he c').mono (by omega)).bind_all ?_
    rintro ⟨e2, y⟩
    dsimp only
    split_ifs
    · exact .pure
    · exact .pure
    · rcases e1 with _ | _ | _
      · exact .pure
      · exact ih (by omega) _ _ _
      · exact ih (by omega) _ _ _

theorem Number.compare_spent (cfg : Cfg) (f : Nat) (x y : Number) :
    Spent f (Number.compare cfg f x y) := by
  rcases x with s | ⟨p, c⟩ <;> rcases y with s' | ⟨p', c'⟩
  · exact .pure
  · exact .pure
  · exact .pure
  · exact (Compare.compareClogs_spent (Clog.egest_spent cfg f) f (by omega) _ _ _).bind_all
      fun _ => .pure

end Timed

end Clarith
