import Verif.Proofs.Logic

/-! # More fuel never changes an outcome -/

namespace Clarith

/-- `b` is the outcome `a`, or `a` ran out of fuel. -/
def Out.Le {α : Type} (a b : Out α) : Prop := a = .timeout ∨ a = b

namespace Out

theorem Le.refl {α : Type} (a : Out α) : Le a a := .inr rfl

theorem Le.timeout {α : Type} (a : Out α) : Le .timeout a := .inl rfl

theorem Le.bind {α β : Type} {a a' : Out α} {g g' : α → Out β} (h : Le a a')
    (hg : ∀ x, Le (g x) (g' x)) : Le (a >>= g) (a' >>= g') := by
  rcases h with rfl | rfl
  · exact .inl rfl
  · cases a with
    | ok x => exact hg x
    | panic p => exact .inr rfl
    | timeout => exact .inl rfl

theorem Le.bind_right {α β : Type} {a : Out α} {g g' : α → Out β}
    (hg : ∀ x, Le (g x) (g' x)) : Le (a >>= g) (a >>= g') := Le.bind (.refl a) hg

theorem Le.ok {α : Type} {a : Out α} {b : Out α} {x : α} (h : Le a b) (ha : a = .ok x) :
    b = .ok x := by
  rcases h with h | h
  · rw [h] at ha; cases ha
  · rw [← h, ha]

theorem Le.panic {α : Type} {a : Out α} {b : Out α} {x : Panic} (h : Le a b)
    (ha : a = .panic x) : b = .panic x := by
  rcases h with h | h
  · rw [h] at ha; cases ha
  · rw [← h, ha]

end Out

open Out

/-- Pointwise order on models of `Clog::egest`. -/
def EgestFn.Le (eg eg' : EgestFn) : Prop := ∀ c, Out.Le (eg c) (eg' c)

theorem EgestFn.Le.refl (eg : EgestFn) : EgestFn.Le eg eg := fun _ => .refl _

theorem Homographic.primeIngest_le {cfg : Cfg} {eg eg' : EgestFn} (he : EgestFn.Le eg eg')
    (h : Homographic) : Le (primeIngest cfg eg h) (primeIngest cfg eg' h) :=
  Le.bind (he _) fun _ => .refl _

theorem Homographic.reductionIngest_le {cfg : Cfg} {eg eg' : EgestFn} (he : EgestFn.Le eg eg')
    (h : Homographic) : Le (reductionIngest cfg eg h) (reductionIngest cfg eg' h) :=
  Le.bind (he _) fun _ => .refl _

theorem Homographic.prime_le {cfg : Cfg} {eg eg' : EgestFn} (he : EgestFn.Le eg eg')
    {f f' : Nat} (hf : f ≤ f') (h : Homographic) : Le (prime cfg eg f h) (prime cfg eg' f' h) := by
  induction f generalizing f' h with
  | zero => exact .timeout _
  | succ f ih =>
    obtain ⟨f', rfl⟩ : ∃ i, f' = i + 1 := ⟨f' - 1, by omega⟩
    refine Le.bind_right ?_
    rintro (_ | ⟨p, k⟩)
    · refine Le.bind (primeIngest_le he h) ?_
      rintro ⟨_ | ⟨a, b, c⟩, h⟩
      · exact ih (by omega) h
      · exact .refl _
    · exact .refl _

theorem Homographic.egest_le {cfg : Cfg} {eg eg' : EgestFn} (he : EgestFn.Le eg eg')
    {f f' : Nat} (hf : f ≤ f') (h : Homographic) : Le (egest cfg eg f h) (egest cfg eg' f' h) := by
  induction f generalizing f' h with
  | zero => exact .timeout _
  | succ f ih =>
    obtain ⟨f', rfl⟩ : ∃ i, f' = i + 1 := ⟨f' - 1, by omega⟩
    refine Le.bind_right ?_
    rintro (_ | ⟨p, k⟩)
    · refine Le.bind (reductionIngest_le he h) ?_
      rintro ⟨_ | r, h⟩
      · exact ih (by omega) h
      · exact .refl _
    · exact .refl _

theorem Homographic.new_le {cfg : Cfg} {eg eg' : EgestFn} (he : EgestFn.Le eg eg')
    {f f' : Nat} (hf : f ≤ f') (x : Number) (nx n dx d : Int) :
    Le (new cfg eg f x nx n dx d) (new cfg eg' f' x nx n dx d) := by
  unfold new
  split
  · exact .refl _
  · split
    · exact .refl _
    · exact .refl _
    · exact .refl _
    · exact Le.bind_right fun k => prime_le he hf _

theorem Combine.primeIngest_le {cfg : Cfg} {eg eg' : EgestFn} (he : EgestFn.Le eg eg')
    {f f' : Nat} (hf : f ≤ f') (s : Combine) :
    Le (primeIngest cfg eg f s) (primeIngest cfg eg' f' s) := by
  refine Le.bind (he _) ?_
  rintro ⟨_ | r, x⟩
  · exact Le.bind_right fun k => Le.bind (Homographic.new_le he hf ..) fun _ => .refl _
  · refine Le.bind_right fun k => Le.bind (he _) ?_
    rintro ⟨_ | r, y⟩
    · exact Le.bind_right fun k => Le.bind (Homographic.new_le he hf ..) fun _ => .refl _
    · exact .refl _

theorem Combine.reductionIngest_le {cfg : Cfg} {eg eg' : EgestFn} (he : EgestFn.Le eg eg')
    {f f' : Nat} (hf : f ≤ f') (s : Combine) :
    Le (reductionIngest cfg eg f s) (reductionIngest cfg eg' f' s) := by
  refine Le.bind (he _) ?_
  rintro ⟨_ | r, x⟩
  · exact Le.bind_right fun k => Le.bind (Homographic.new_le he hf ..) fun _ => .refl _
  · refine Le.bind_right fun k => Le.bind (he _) ?_
    rintro ⟨_ | r, y⟩
    · exact Le.bind_right fun k => Le.bind (Homographic.new_le he hf ..) fun _ => .refl _
    · exact .refl _

theorem Combine.prime_le {cfg : Cfg} {eg eg' : EgestFn} (he : EgestFn.Le eg eg')
    {f f' : Nat} (hf : f ≤ f') (s : Combine) : Le (prime cfg eg f s) (prime cfg eg' f' s) := by
  induction f generalizing f' s with
  | zero => exact .timeout _
  | succ f ih =>
    obtain ⟨f', rfl⟩ : ∃ i, f' = i + 1 := ⟨f' - 1, by omega⟩
    refine Le.bind_right ?_
    rintro (_ | ⟨p, k⟩)
    · refine Le.bind (primeIngest_le he (by omega) s) ?_
      rintro (⟨a, b, c, d⟩ | s)
      · exact .refl _
      · exact ih (by omega) s
    · exact .refl _

theorem Combine.egest_le {cfg : Cfg} {eg eg' : EgestFn} (he : EgestFn.Le eg eg')
    {f f' : Nat} (hf : f ≤ f') (s : Combine) : Le (egest cfg eg f s) (egest cfg eg' f' s) := by
  induction f generalizing f' s with
  | zero => exact .timeout _
  | succ f ih =>
    obtain ⟨f', rfl⟩ : ∃ i, f' = i + 1 := ⟨f' - 1, by omega⟩
    refine Le.bind_right ?_
    rintro (_ | ⟨p, k⟩)
    · refine Le.bind (reductionIngest_le he (by omega) s) ?_
      rintro ⟨⟨_ | r, _ | h⟩, s⟩
      · exact ih (by omega) s
      · exact .refl _
      · exact .refl _
      · exact .refl _
    · exact .refl _

theorem Combine.new_le {cfg : Cfg} {eg eg' : EgestFn} (he : EgestFn.Le eg eg')
    {f f' : Nat} (hf : f ≤ f') (x y : Number) (k : Coef8) :
    Le (new cfg eg f x y k) (new cfg eg' f' x y k) := by
  have ha : ∀ x nx n dx d, Le (asHomographic cfg eg f x nx n dx d)
      (asHomographic cfg eg' f' x nx n dx d) := fun x nx n dx d =>
    Le.bind (Homographic.new_le he hf ..) fun _ => .refl _
  rcases x with (_ | _ | _) | ⟨px, cx⟩
  · exact Le.bind_right fun _ => Le.bind_right fun _ => Le.bind_right fun _ =>
      Le.bind_right fun _ => ha ..
  · exact ha ..
  · exact Le.bind_right fun _ => Le.bind_right fun _ => Le.bind_right fun _ =>
      Le.bind_right fun _ => ha ..
  · rcases y with (_ | _ | _) | ⟨py, cy⟩
    · exact Le.bind_right fun _ => Le.bind_right fun _ => Le.bind_right fun _ =>
        Le.bind_right fun _ => ha ..
    · exact ha ..
    · exact Le.bind_right fun _ => Le.bind_right fun _ => Le.bind_right fun _ =>
        Le.bind_right fun _ => ha ..
    · exact Le.bind_right fun _ => Le.bind_right fun _ => prime_le he hf _

theorem Strategy.egest_le {cfg : Cfg} {eg eg' : EgestFn} (he : EgestFn.Le eg eg')
    {f f' : Nat} (hf : f ≤ f') (s : Strategy) :
    Le (Strategy.egest cfg eg f s) (Strategy.egest cfg eg' f' s) := by
  cases s with
  | ratio r => exact .refl _
  | homographic x k => exact Le.bind (Homographic.egest_le he hf _) fun _ => .refl _
  | combine x y k => exact Le.bind (Combine.egest_le he hf _) fun _ => .refl _

theorem Clog.egest_le {cfg : Cfg} {f f' : Nat} (hf : f ≤ f') :
    EgestFn.Le (Clog.egest cfg f) (Clog.egest cfg f') := by
  induction f generalizing f' with
  | zero => exact fun _ => .timeout _
  | succ f ih =>
    obtain ⟨f', rfl⟩ : ∃ i, f' = i + 1 := ⟨f' - 1, by omega⟩
    intro c
    refine Le.bind (Strategy.egest_le (ih (by omega)) (by omega) c) ?_
    rintro ⟨_ | s, _⟩
    · exact .refl _
    · exact ih (by omega) s

theorem Clog.egests_le {cfg : Cfg} {f f' : Nat} (hf : f ≤ f') (k : Nat) (c : Clog) :
    Le (Clog.egests cfg f k c) (Clog.egests cfg f' k c) := by
  induction k generalizing c with
  | zero => exact .refl _
  | succ k ih => exact Le.bind (Clog.egest_le hf c) fun _ => Le.bind (ih _) fun _ => .refl _

theorem Number.homographic_le {cfg : Cfg} {f f' : Nat} (hf : f ≤ f') (x : Number)
    (nx n dx d : Int) :
    Le (Number.homographic cfg f x nx n dx d) (Number.homographic cfg f' x nx n dx d) :=
  Le.bind (Homographic.new_le (Clog.egest_le hf) hf ..) fun _ => .refl _

theorem Number.combine_le {cfg : Cfg} {f f' : Nat} (hf : f ≤ f') (x y : Number)
    (a b c d e g h i : Int) :
    Le (Number.combine cfg f x y a b c d e g h i) (Number.combine cfg f' x y a b c d e g h i) :=
  Le.bind (Combine.new_le (Clog.egest_le hf) hf ..) fun _ => .refl _

theorem Consume.consume_le {cfg : Cfg} {eg eg' : EgestFn} (he : EgestFn.Le eg eg')
    {f f' : Nat} (hf : f ≤ f') (c : Clog) (k : Coef4) :
    Le (consume cfg eg f c k) (consume cfg eg' f' c k) := by
  induction f generalizing f' c k with
  | zero => exact .timeout _
  | succ f ih =>
    obtain ⟨f', rfl⟩ : ∃ i, f' = i + 1 := ⟨f' - 1, by omega⟩
    refine Le.bind (he c) ?_
    rintro ⟨_ | r, c⟩
    · exact .refl _
    · refine Le.bind_right fun k => Le.bind_right ?_
      rintro (_ | _)
      · exact ih (by omega) c k
      · exact .refl _

theorem Number.consume_le {cfg : Cfg} {f f' : Nat} (hf : f ≤ f') (x : Number) :
    Le (Number.consume cfg f x) (Number.consume cfg f' x) := by
  refine Le.bind ?_ fun _ => .refl _
  rcases x with (_ | _ | _) | ⟨p, c⟩
  · exact .refl _
  · exact .refl _
  · exact .refl _
  · exact Le.bind_right fun k => Consume.consume_le (Clog.egest_le hf) hf c k

theorem Compare.compareClogs_le {cfg : Cfg} {eg eg' : EgestFn} (he : EgestFn.Le eg eg')
    {f f' : Nat} (hf : f ≤ f') (c1 c2 : Clog) (b : Bool) :
    Le (compareClogs cfg eg f c1 c2 b) (compareClogs cfg eg' f' c1 c2 b) := by
  induction f generalizing f' c1 c2 b with
  | zero => exact .timeout _
  | succ f ih =>
    obtain ⟨f', rfl⟩ : ∃ i, f' = i + 1 := ⟨f' - 1, by omega⟩
    refine Le.bind (he c1) ?_
    rintro ⟨e1, c1⟩
    refine Le.bind (he c2) ?_
    rintro ⟨e2, c2⟩
    simp only
    split
    · exact .refl _
    · rcases e1 with _ | _ | _
      · exact .refl _
      · exact ih (by omega) ..
      · exact ih (by omega) ..

theorem Number.compare_le {cfg : Cfg} {f f' : Nat} (hf : f ≤ f') (x y : Number) :
    Le (Number.compare cfg f x y) (Number.compare cfg f' x y) := by
  cases x <;> cases y
  · exact .refl _
  · exact .refl _
  · exact .refl _
  · exact Le.bind (Compare.compareClogs_le (Clog.egest_le hf) hf ..) fun _ => .refl _

/-- A function of fuel whose outcomes never change once they are not a timeout. -/
def FuelMono {α : Type} (m : Nat → Out α) : Prop := ∀ f f', f ≤ f' → Le (m f) (m f')

theorem FuelMono.returns {α : Type} {m : Nat → Out α} (h : FuelMono m) {a : α} (f : Nat)
    (ha : m f = .ok a) : Returns m a := ⟨f, fun f' hf => (h f f' hf).ok ha⟩

theorem FuelMono.panics {α : Type} {m : Nat → Out α} (h : FuelMono m) {p : Panic} (f : Nat)
    (ha : m f = .panic p) : Panics m p := ⟨f, fun f' hf => (h f f' hf).panic ha⟩

theorem FuelMono.ok_or_timeout {α : Type} {m : Nat → Out α} (h : FuelMono m) {a : α} {f₀ : Nat}
    (ha : m f₀ = .ok a) (f : Nat) : m f = .timeout ∨ m f = .ok a := by
  rcases le_total f f₀ with hf | hf
  · rcases h f f₀ hf with e | e
    · exact .inl e
    · exact .inr (e.trans ha)
  · exact .inr ((h f₀ f hf).ok ha)

/-- Every call returns, panics or diverges. -/
theorem FuelMono.cases {α : Type} {m : Nat → Out α} (h : FuelMono m) :
    (∃ a, Returns m a) ∨ (∃ p, Panics m p) ∨ Diverges m := by
  by_cases hd : ∀ f, m f = .timeout
  · exact .inr (.inr hd)
  · push Not at hd
    obtain ⟨f, hf⟩ := hd
    cases hm : m f with
    | ok a => exact .inl ⟨a, h.returns f hm⟩
    | panic p => exact .inr (.inl ⟨p, h.panics f hm⟩)
    | timeout => exact absurd hm hf

theorem Clog.egest_mono (cfg : Cfg) (c : Clog) : FuelMono fun f => Clog.egest cfg f c :=
  fun _ _ h => Clog.egest_le h c
theorem Clog.egests_mono (cfg : Cfg) (k : Nat) (c : Clog) :
    FuelMono fun f => Clog.egests cfg f k c := fun _ _ h => Clog.egests_le h k c
theorem Number.homographic_mono (cfg : Cfg) (x : Number) (nx n dx d : Int) :
    FuelMono fun f => Number.homographic cfg f x nx n dx d :=
  fun _ _ h => Number.homographic_le h x nx n dx d
theorem Number.combine_mono (cfg : Cfg) (x y : Number) (a b c d e g h i : Int) :
    FuelMono fun f => Number.combine cfg f x y a b c d e g h i :=
  fun _ _ hf => Number.combine_le hf x y a b c d e g h i
theorem Number.consume_mono (cfg : Cfg) (x : Number) :
    FuelMono fun f => Number.consume cfg f x := fun _ _ h => Number.consume_le h x
theorem Number.compare_mono (cfg : Cfg) (x y : Number) :
    FuelMono fun f => Number.compare cfg f x y := fun _ _ h => Number.compare_le h x y

end Clarith
