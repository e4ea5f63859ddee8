import Verif.Proofs.Hang
import Verif.Properties.Beyond

/-! # Which calls end when an operand is not a fraction (C55)

C54 says what a call returns if it returns.  Here it is said when it returns. -/

namespace Clarith

open Spec Out

/-! ## Examples used below -/

/-- `boundless` never panics: `egest` leaves it as it is. -/
theorem boundless_amplifies' : Clog.AmplifiesForever debug64 NoPanic
    (.homographic (.ratio ⟨3, 5⟩) ⟨0, 0, 1, 1⟩) := by
  have h : ∀ f ≥ 2, Clog.egest debug64 f (.homographic (.ratio ⟨3, 5⟩) ⟨0, 0, 1, 1⟩) =
      .ok (some .Amplify, .homographic (.ratio ⟨3, 5⟩) ⟨0, 0, 1, 1⟩) := by
    intro f hf
    exact (Clog.egest_mono debug64 _ 2 f hf).ok rfl
  have key : ∀ k, ∀ f ≥ 2,
      Clog.egests debug64 f k (.homographic (.ratio ⟨3, 5⟩) ⟨0, 0, 1, 1⟩) =
      .ok (List.replicate k (some .Amplify), .homographic (.ratio ⟨3, 5⟩) ⟨0, 0, 1, 1⟩) := by
    intro k f hf
    induction k with
    | zero => rfl
    | succ k ih =>
      rw [egests_succ, h f hf]
      simp [ih, List.replicate_succ]
  exact fun k => .inl ⟨_, ⟨2, key k⟩, rfl⟩

theorem three_fifths_denotes : Clog.Denotes debug64 NoPanic (.ratio ⟨3, 5⟩) (3 / 5) := by
  obtain ⟨x, hx, e⟩ := denotes_three_fifths debug64 NoPanic
  have e : (3 / 5 : ℚ) = x := e
  rwa [e]

theorem boundless_tracks : Number.Tracks debug64 Overflow boundless Hyperreal.omega :=
  ⟨1 / Hyperreal.omega, Clog.AmplifiesForever.tracks
    (fun k => (boundless_amplifies' k).weaken (fun _ h => h.elim)) infinite_omega.inv,
    by simp [primerIn]⟩

theorem Spec.notFraction_omega : NotFraction Hyperreal.omega := by
  rintro ⟨p, hp⟩
  obtain ⟨n, hn⟩ := exists_nat_gt p
  have h1 : ((p : ℚ) : Hyperreal) < ((n : ℚ) : Hyperreal) := Rat.cast_lt.2 hn
  have h2 := infinite_omega n
  rw [hp] at h2
  push_cast at h1
  exact lt_asymm h1 h2

section

variable {K : Type*} [Field K] [LinearOrder K] [IsStrictOrderedRing K]

/-! ## C55 Which calls end -/

/-- A number denoting a fraction tracks that fraction, and a number that answers `Amplify` forever
tracks every infinite number, if its primer is `Turn`. -/
theorem C55_tracks (cfg : Cfg) (A : Panic → Prop) :
    (∀ n q, Number.Denotes cfg A n q → Number.Tracks cfg A n (q : K)) ∧
    (∀ c (w : K), Clog.AmplifiesForever cfg A c → Infinite w →
      Number.Tracks cfg A (.Other (some .Turn) c) w) :=
  ⟨fun _ _ h => h.tracks, fun _ w h hw => ⟨1 / w, h.tracks hw.inv, by simp [primerIn]⟩⟩

example := (C55_tracks (K := Hyperreal) debug64 NoPanic).2 _ _ boundless_amplifies' infinite_omega

/-- `homographic` ends at every value, fraction or not, unless the map is constant or the value a
pole, and every `egest` of the result ends. -/
theorem C55_homographic (cfg : Cfg) (hc : cfg.overflowChecks = true) (A : Panic → Prop)
    (hA : ∀ p, Overflow p → A p) (x : Number) (q : K) (hx : Number.Tracks cfg A x q)
    (nx n dx d : Int) (h1 : cfg.Fits nx) (h2 : cfg.Fits n) (h3 : cfg.Fits dx) (h4 : cfg.Fits d)
    (hD : (dx : K) * q + d ≠ 0) (hdet : nx * d ≠ n * dx) :
    Ends A (fun f => Number.homographic cfg f x nx n dx d)
      (fun t => Number.Tracks cfg A t ((nx * q + n) / (dx * q + d))) :=
  Number.homographic_ends_in hc (safeUpTo_of_overflow hc hA) hx h1 h2 h3 h4 hD
    (sub_ne_zero.2 hdet)

/-- (ω + 3) / (2 ω + 5) -/
example := C55_homographic debug64 rfl Overflow (fun _ h => h) _ _
  boundless_tracks 1 3 2 5 (by decide) (by decide) (by decide) (by decide)
  (by have := Hyperreal.omega_pos; push_cast; positivity) (by decide)

/-- A constant map whose value is -1, 0 or 1 never returns at a number that is not a fraction,
unless no coefficient goes with the operand. -/
theorem C55_homographic_constant (cfg : Cfg) (hc : cfg.overflowChecks = true) (A : Panic → Prop)
    (hA : ∀ p, Overflow p → A p) (x : Number) (q : K) (hx : Number.Follows cfg A x q)
    (hq : NotFraction q)
    (nx n dx d : Int) (h1 : cfg.Fits nx) (h2 : cfg.Fits n) (h3 : cfg.Fits dx) (h4 : cfg.Fits d)
    (hD : (dx : K) * q + d ≠ 0) (h0 : ¬(nx = 0 ∧ dx = 0))
    (s : Special) (hs : (nx * q + n) / (dx * q + d) = specialIn K s) :
    May A (fun f => Number.homographic cfg f x nx n dx d) (fun _ => False) := by
  refine may_iff.2 fun f => ?_
  have key := may_iff.1 (C54_homographic cfg hc A hA x q hx nx n dx d h1 h2 h3 h4 hD) f
  refine (key.and (B := AnyPanic) (Q := fun t => ∀ s, t ≠ .Special s) ?_).mono ?_
  · unfold Number.homographic Homographic.new
    simp only [if_neg h0]
    cases x with
    | Special s =>
      exfalso
      have e : q = specialIn K s := hx
      apply hq
      cases s
      · exact ⟨-1, by simp [e, specialIn]⟩
      · exact ⟨0, by simp [e, specialIn]⟩
      · exact ⟨1, by simp [e, specialIn]⟩
    | Other p c =>
      obtain ⟨v, hv, rfl⟩ := hx
      have hv' : NotFraction v := by
        rintro ⟨a, ha⟩
        apply hq
        rcases p with _ | (_ | _ | _)
        · exact ⟨a, ha⟩
        · exact ⟨1 / a, by simp [primerIn, ha]⟩
        · exact ⟨-a, by simp [primerIn, ha]⟩
        · exact ⟨-(1 / a), by simp [primerIn, ha]⟩
      refine Maybe.bind (Q := fun t => t.1 = none) ?_ ?_
      · refine Maybe.bind (Maybe.any (fun _ => trivial) (P := fun _ => True) fun _ => trivial) ?_
        intro k _
        exact Homographic.prime_shape f f (fun _ => trivial) (h := ⟨c, k⟩) hv.any hv'
      · rintro ⟨t1, t2, t3, t4⟩ e
        simp only at e
        subst e
        cases t3 with
        | some r => exact Maybe.pure fun s h => by cases h
        | none =>
          cases t4 with
          | some h => exact Maybe.pure fun s h => by cases h
          | none => trivial
  · rintro t ⟨ht, hn⟩
    rw [hs] at ht
    exact hn s ht.special

/-- (3 ω + 2) / (3 ω + 2) -/
example := C55_homographic_constant debug64 rfl Overflow (fun _ h => h) _ _
  boundless_tracks.follows notFraction_omega 3 2 3 2 (by decide) (by decide) (by decide) (by decide)
  (by have := Hyperreal.omega_pos; push_cast; positivity) (by decide) .PosOne
  (by have := Hyperreal.omega_pos; simp only [specialIn]; push_cast; exact div_self (by positivity))

/-- `nx*x/(dx*x)` never returns at a number that answers `Amplify` forever, whatever `nx` and
`dx`.  If the number does not panic, the call runs forever. -/
theorem C55_homographic_quotient (cfg : Cfg) (A : Panic → Prop) (c : Clog)
    (hc : Clog.AmplifiesForever cfg A c) (nx dx : Int) (h0 : ¬(nx = 0 ∧ dx = 0)) :
    May A (fun f => Number.homographic cfg f (.Other none c) nx 0 dx 0) (fun _ => False) := by
  refine may_iff.2 fun f => ?_
  unfold Number.homographic Homographic.new
  simp only [if_neg h0]
  refine Maybe.bind (Q := fun _ => False) ?_ (fun _ h => h.elim)
  refine Maybe.bind (Q := fun k => k = ⟨nx, 0, dx, 0⟩) (Maybe.pure rfl) ?_
  rintro _ rfl
  exact Homographic.prime_stuck (h := ⟨c, ⟨nx, 0, dx, 0⟩⟩) f f
    (hc.follows infinite_omega.inv) infinite_omega.inv rfl rfl

/-- 2ε/3ε runs forever. -/
example : Diverges (fun f => Number.homographic debug64 f
    (.Other none (.homographic (.ratio ⟨3, 5⟩) ⟨0, 0, 1, 1⟩)) 2 0 3 0) :=
  Maybe.diverges (may_iff.1 (C55_homographic_quotient debug64 NoPanic _ boundless_amplifies' 2 3
    (by decide)))

/-- `combine` ends if one operand is a fraction and the value is not, and so does every `egest` of
the result. -/
theorem C55_combine (cfg : Cfg) (hc : cfg.overflowChecks = true) (A : Panic → Prop)
    (hA : ∀ p, Overflow p → A p) (x y : Number) (q r : K) (hx : Number.Tracks cfg A x q)
    (hy : Number.Tracks cfg A y r) (nxy nx ny n dxy dx dy d : Int)
    (H : MachineInts cfg [nxy, nx, ny, n, dxy, dx, dy, d])
    (hD : (dxy : K) * q * r + dx * q + dy * r + d ≠ 0) (hqr : IsFraction q ∨ IsFraction r)
    (hv : NotFraction ((nxy * q * r + nx * q + ny * r + n) / (dxy * q * r + dx * q + dy * r + d))) :
    Ends A (fun f => Number.combine cfg f x y nxy nx ny n dxy dx dy d)
      (fun t => Number.Tracks cfg A t
        ((nxy * q * r + nx * q + ny * r + n) / (dxy * q * r + dx * q + dy * r + d))) :=
  Number.combine_ends_in (safeUpTo_of_overflow hc hA) hc hx hy (Coef8.Fits.of_list H) hD hqr hv

/-- ω - 7/2 -/
example := C55_combine debug64 rfl Overflow (fun _ h => h) _ _ _ _
  boundless_tracks (denotes_minus_seven_halves _ _).tracks 0 1 1 0 0 0 0 1
  (by unfold MachineInts; decide) (by simp) (.inr ⟨_, rfl⟩)
  (by
    rintro ⟨p, hp⟩
    refine notFraction_omega ⟨p + 7 / 2, ?_⟩
    push_cast at hp ⊢
    rw [← hp]
    ring)

/-- `combine` never returns when the symbols of the operands do not determine the value and the
value may be -1, 0 or 1: the operands follow `q` and `r`, where the value is special, and they
follow `q'` and `r'`, where it is different. -/
theorem C55_combine_undetermined (cfg : Cfg) (hc : cfg.overflowChecks = true) (A : Panic → Prop)
    (hA : ∀ p, Overflow p → A p) (x y : Number) (q r q' r' : K) (hx : Number.Follows cfg A x q)
    (hy : Number.Follows cfg A y r) (hx' : Number.Follows cfg A x q')
    (hy' : Number.Follows cfg A y r') (nxy nx ny n dxy dx dy d : Int)
    (H : MachineInts cfg [nxy, nx, ny, n, dxy, dx, dy, d])
    (hD : (dxy : K) * q * r + dx * q + dy * r + d ≠ 0)
    (hD' : (dxy : K) * q' * r' + dx * q' + dy * r' + d ≠ 0) (s : Special)
    (hs : (nxy * q * r + nx * q + ny * r + n) / (dxy * q * r + dx * q + dy * r + d)
      = specialIn K s)
    (hs' : (nxy * q' * r' + nx * q' + ny * r' + n) / (dxy * q' * r' + dx * q' + dy * r' + d)
      ≠ specialIn K s) :
    May A (fun f => Number.combine cfg f x y nxy nx ny n dxy dx dy d) (fun _ => False) := by
  refine may_iff.2 fun f => ?_
  refine ((may_iff.1 (C54_combine cfg hc A hA x y q r hx hy _ _ _ _ _ _ _ _ H hD) f).and
    (may_iff.1 (C54_combine cfg hc A hA x y q' r' hx' hy' _ _ _ _ _ _ _ _ H hD') f)).mono ?_
  rintro t ⟨h1, h2⟩
  rw [hs] at h1
  obtain rfl := h1.special
  exact hs' h2

/-- ω - ω: zero, or one if the first operand is taken for ω + 1. -/
example := C55_combine_undetermined debug64 rfl OverflowOrDivision Overflow.or_division _ _
  Hyperreal.omega Hyperreal.omega (Hyperreal.omega + 1) Hyperreal.omega
  boundless_follows boundless_follows
  ((C54_infinity _ _ _ boundless_amplifies _).1 fun n =>
    (infinite_omega n).trans (by linarith))
  boundless_follows 0 1 (-1) 0 0 0 0 1 (by unfold MachineInts; decide) (by simp) (by simp) .Zero
  (by simp [specialIn]) (by simp [specialIn])

/-- The coefficient that decides when `x` and `y` answer `Amplify` forever: that of the greatest
term, `x*y`, `x`, `y` or 1 as the primers make the operands infinite or infinitesimal. -/
def Spec.corner (px py : Option Primer) (xy x y one : Int) : Int :=
  if px = some .Turn ∨ px = some .Ground then
    if py = some .Turn ∨ py = some .Ground then xy else x
  else if py = some .Turn ∨ py = some .Ground then y else one

/-- `combine` never returns for two numbers that answer `Amplify` forever, in any build, if the
coefficient of the greatest term is missing from the numerator or from the denominator: so the
sum, the difference, the product and the quotient of two infinite numbers never return, nor does
the sum of two infinitesimals. -/
theorem C55_combine_two_boundless (cfg : Cfg) (A : Panic → Prop) (px py : Option Primer)
    (cx cy : Clog) (hx : Clog.AmplifiesForever cfg A cx) (hy : Clog.AmplifiesForever cfg A cy)
    (nxy nx ny n dxy dx dy d : Int)
    (h : corner px py nxy nx ny n = 0 ∨ corner px py dxy dx dy d = 0) (t : Number) :
    ¬Returns (fun f => Number.combine cfg f (.Other px cx) (.Other py cy)
      nxy nx ny n dxy dx dy d) t := by
  rintro ⟨f, hf⟩
  have := hf f le_rfl
  suffices H : Maybe AnyPanic (Number.combine cfg f (.Other px cx) (.Other py cy)
      nxy nx ny n dxy dx dy d) (fun _ => False) by
    simp only at this
    rw [this] at H
    exact H
  unfold Number.combine
  refine Maybe.bind (Q := fun _ => False) ?_ (fun _ h => h.elim)
  simp only [Combine.new]
  refine Maybe.bind (Coef8.absorbX_corner _ _) fun k hk => ?_
  refine Maybe.bind (Coef8.absorbY_corner _ _) fun k' hk' => ?_
  refine Combine.prime_stuck (s := ⟨cx, cy, k'⟩) f f (hx.follows infinite_omega.inv).any
    (hy.follows infinite_omega.inv).any infinite_omega.inv infinite_omega.inv ?_
  simp only
  rw [hk'.1, hk'.2]
  rcases px with _ | (_ | _ | _) <;> rcases py with _ | (_ | _ | _) <;>
    simp_all [corner, Coef8.cornerX]

/-- ω / ω runs forever, in every build. -/
theorem C55_combine_quotient (cfg : Cfg) (cx cy : Clog) (hx : Clog.AmplifiesForever cfg NoPanic cx)
    (hy : Clog.AmplifiesForever cfg NoPanic cy) :
    Diverges (fun f => Number.combine cfg f (.Other (some .Turn) cx) (.Other (some .Turn) cy)
      0 1 0 0 0 0 1 0) := by
  refine Maybe.diverges fun f => ?_
  unfold Number.combine
  refine Maybe.bind (Q := fun _ => False) ?_ (fun _ h => h.elim)
  exact Combine.prime_cycle f f (hx.follows infinite_omega.inv) (hy.follows infinite_omega.inv)
    infinite_omega.inv infinite_omega.inv

example := C55_combine_quotient debug64 _ _ boundless_amplifies' boundless_amplifies'

/-- ω + ω -/
example := C55_combine_two_boundless debug64 NoPanic (some .Turn) (some .Turn) _ _
  boundless_amplifies' boundless_amplifies' 0 1 1 0 0 0 0 1 (.inl (by decide))

/-- The value of `(ny*y+n)/(dy*y+d)`, where a missing `y` counts as one half, is `q`, and every
`egest` of `y` ends. -/
def Spec.StandsEnding (cfg : Cfg) (A : Panic → Prop) (y : Option Number) (k : Coef4) (q : K) :
    Prop :=
  ∃ v : K, (match y with
    | none => v = 1 / 2
    | some y => Number.Tracks cfg A y v) ∧
    (k.dx : K) * v + k.d ≠ 0 ∧ (k.nx * v + k.n) / (k.dx * v + k.d) = q

/-- `consume` ends at every value, in every build. -/
theorem C55_consume (cfg : Cfg) (A : Panic → Prop) (x : Number) (q : K)
    (hx : Number.Tracks cfg A x q) :
    Ends A (fun f => Number.consume cfg f x) (fun r => StandsEnding cfg A r.1 r.2 q) := by
  have hlim := Consume.lim_bounds cfg
  cases x with
  | Special s =>
    have e : q = specialIn K s := hx
    subst e
    cases s <;> exact Ends.of_sat (Sat.pure ⟨1 / 2, rfl, by simp, by simp [specialIn]⟩)
  | Other p c =>
    obtain ⟨v, hv, rfl⟩ := hx
    simp only [Number.consume, Consume.new]
    have key : Ev A (fun f j => Consume.start cfg p >>= fun k =>
        Consume.consume cfg (Clog.egest cfg f) j c k) (Consume.PostTot cfg A (primerIn p v)) := by
      refine Ev.bind_sat ((Consume.start_sat_in hv.1).and_maybe
        (Consume.start_det (A := A)).maybe) ?_
      rintro k ⟨⟨⟨b1, b2, b3, b4⟩, hD, hw⟩, hdet⟩
      exact Consume.consume_ev_in hv ⟨by omega, by omega, by omega, by omega⟩ hdet hD hw
    refine Ends.bind key.ends ?_
    rintro ⟨_ | y, k⟩ hp
    · obtain ⟨_, p2, p3⟩ := hp
      exact Ends.of_sat (Sat.pure ⟨1 / 2, rfl, p2, p3⟩)
    · obtain ⟨_, _, v, p3, p4, p5⟩ := hp
      exact Ends.of_sat (Sat.pure ⟨v, ⟨v, p3, rfl⟩, p4, p5⟩)

example := C55_consume _ _ _ _ boundless_tracks

/-- `compare` ends, with the order of the values, as soon as the symbols of the two clogs differ or
both end. -/
theorem C55_compare (cfg : Cfg) (A : Panic → Prop) (px py : Option Primer) (cx cy : Clog) (x y : K)
    (hx : Clog.Tracks cfg A cx x) (hy : Clog.Tracks cfg A cy y) (k : Nat)
    (hk : symbolsIn k x ≠ symbolsIn k y ∨ none ∈ symbolsIn k x) :
    Ends A (fun f => Number.compare cfg f (.Other px cx) (.Other py cy))
      (fun o => (o = .lt ↔ primerIn px x < primerIn py y) ∧
        (o = .eq ↔ primerIn px x = primerIn py y) ∧
        (o = .gt ↔ primerIn py y < primerIn px x)) := by
  simp only [Number.compare, Compare.compareOthers]
  refine Ends.bind (Ev.ends (Compare.compareClogs_ev_in hx hy hk _)) ?_
  intro o ho
  refine Ends.of_sat (Sat.pure ?_)
  have ho := Compare.answer_compares_in px py hx.1 hx.2.1 hy.1 hy.2.1 ho
  revert ho
  generalize (Compare.comparePrimers px py).then o = o
  intro ho
  cases o <;> simp only [Ordering.Compares] at ho <;>
    simp only [true_iff, reduceCtorEq, false_iff, not_lt] <;>
    refine ⟨?_, ?_, ?_⟩ <;>
    first | exact ho | exact ho.le | exact ho.ne | exact ho.ne' | exact ho.symm.le

/-- 3/5 and an infinitesimal differ at once. -/
example := C55_compare debug64 NoPanic none none _ _ _ _
  (Clog.Denotes.tracks (K := Hyperreal) three_fifths_denotes)
  (boundless_amplifies'.tracks infinite_omega.inv) 1 (.inl (by
    rw [infinite_omega.inv.symbols]
    norm_num [symbolsIn]
    exact fun h => Reduction.noConfusion h))

/-- `compare` never answers for two clogs with the same symbols that never end, whatever the
primers: if they do not panic, it runs forever. -/
theorem C55_compare_same (cfg : Cfg) (A : Panic → Prop) (px py : Option Primer) (cx cy : Clog)
    (x y : K) (hx : Clog.Follows cfg A cx x) (hy : Clog.Follows cfg A cy y)
    (he : ∀ k, symbolsIn k x = symbolsIn k y) (hn : ∀ k, none ∉ symbolsIn k x) :
    May A (fun f => Number.compare cfg f (.Other px cx) (.Other py cy)) (fun _ => False) :=
  may_iff.2 fun f => Maybe.bind (Compare.compareClogs_never f f hx hy he hn _)
    fun _ h => h.elim

/-- ω and -2ω -/
example : Diverges (fun f => Number.compare debug64 f boundless
    (.Other (some .Ground) (.homographic (.ratio ⟨3, 5⟩) ⟨0, 0, 1, 1⟩))) :=
  Maybe.diverges (may_iff.1 (C55_compare_same debug64 NoPanic _ _ _ _ _ _
    (boundless_amplifies'.follows infinite_omega.inv)
    (boundless_amplifies'.follows infinite_omega.inv.double) (fun k => by
      rw [infinite_omega.inv.symbols, infinite_omega.inv.double.symbols]) fun k => by
      rw [infinite_omega.inv.symbols]; simp))

end

end Clarith
