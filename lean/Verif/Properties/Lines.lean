import Verif.Properties.Steps

/-! # The printed coefficients are the map in lowest terms (C68)

src/strategy/homographic.rs:1088 and 1141 print the coefficients `nx n dx d` before every symbol
that is read and once more.  C50 says that a line, at what is left of the operand, is the right
fraction; here the line itself is determined: it is the map that is left, every entry divided by the
greatest power of two that divides all four (ingest_amplify, homographic.rs:1042-1050, and amplify,
homographic.rs:1126-1135, halve where they can and double only where they must). -/

namespace Clarith

namespace Spec

/-- The map (nx·x + n)/(dx·x + d) as a map of what is left of `x` after one symbol: x = y/2 after
`Amplify` and x = 1/(y + 1) after `Uncover` (src/protocol.rs:44-50). -/
def readIn : Reduction → Coef4 → Coef4
  | .Amplify, k => ⟨k.nx, 2 * k.n, k.dx, 2 * k.d⟩
  | .Uncover, k => ⟨k.n, k.nx + k.n, k.d, k.dx + k.d⟩

/-- The map as a map of the number in (0,1) behind the primer: 1/y, -y, -1/y
(src/protocol.rs:63-71). -/
def primerIn4 : Option Primer → Coef4 → Coef4
  | none, k => k
  | some .Turn, k => ⟨k.n, k.nx, k.d, k.dx⟩
  | some .Reflect, k => ⟨-k.nx, k.n, -k.dx, k.d⟩
  | some .Ground, k => ⟨k.n, -k.nx, k.d, -k.dx⟩

/-- What is left of the value of the map after one symbol of it: 2·z or 1/z - 1. -/
def giveOut : Option Reduction → Coef4 → Coef4
  | none, k => k
  | some .Amplify, k => ⟨2 * k.nx, 2 * k.n, k.dx, k.d⟩
  | some .Uncover, k => ⟨k.dx - k.nx, k.d - k.n, k.nx, k.n⟩

/-- What is left of the value of the map after its primer: 1/z, -z, -1/z. -/
def primerOut : Option Primer → Coef4 → Coef4
  | none, k => k
  | some .Turn, k => ⟨k.dx, k.d, k.nx, k.n⟩
  | some .Reflect, k => ⟨-k.nx, -k.n, k.dx, k.d⟩
  | some .Ground, k => ⟨-k.dx, -k.d, k.nx, k.n⟩

/-- The map after the first `i` symbols of `v` in (0,1) (`v` = 1/2 has no symbols). -/
def readInAll : Nat → ℚ → Coef4 → Coef4
  | 0, _, k => k
  | i + 1, v, k =>
    if v < 1 / 2 then readInAll i (2 * v) (readIn .Amplify k)
    else if 1 / 2 < v then readInAll i (1 / v - 1) (readIn .Uncover k)
    else k

/-- What is left of the value after the symbols `a`. -/
def giveOutAll (a : List (Option Reduction)) (k : Coef4) : Coef4 :=
  a.foldl (fun k s => giveOut s k) k

/-- Two divides all four coefficients. -/
def AllEven (k : Coef4) : Prop := 2 ∣ k.nx ∧ 2 ∣ k.n ∧ 2 ∣ k.dx ∧ 2 ∣ k.d

/-- All four coefficients times `c`. -/
def scaleBy (c : Int) (k : Coef4) : Coef4 := ⟨c * k.nx, c * k.n, c * k.dx, c * k.d⟩

/-- `k` is `K` divided by the greatest power of two that divides all four coefficients. -/
def Stripped (K k : Coef4) : Prop := (∃ j : Nat, K = scaleBy (2 ^ j) k) ∧ ¬ AllEven k

/-- `k` is `K` halved as often as possible, but at most `a` times. -/
def Halved (a : Nat) (K k : Coef4) : Prop :=
  ∃ j : Nat, j ≤ a ∧ K = scaleBy (2 ^ j) k ∧ (j = a ∨ ¬ AllEven k)

/-- How often `Amplify` occurs. -/
def amplifies (l : List (Option Reduction)) : Nat := l.count (some .Amplify)

instance (k : Coef4) : Decidable (AllEven k) := inferInstanceAs (Decidable (_ ∧ _ ∧ _ ∧ _))

end Spec

open Spec

/-! ## Powers of two -/

theorem Spec.Stripped.refl {k : Coef4} (h : ¬ AllEven k) : Stripped k k :=
  ⟨⟨0, by simp [scaleBy]⟩, h⟩

theorem Spec.scaleBy_scaleBy (a b : Int) (k : Coef4) : scaleBy a (scaleBy b k) = scaleBy (a * b) k := by
  simp [scaleBy, mul_assoc]

theorem Spec.scaleBy_inj {a : Int} (ha : a ≠ 0) {k k' : Coef4} (h : scaleBy a k = scaleBy a k') :
    k = k' := by
  simp only [scaleBy, Coef4.mk.injEq, mul_eq_mul_left_iff, ha, or_false] at h
  obtain ⟨h1, h2, h3, h4⟩ := h
  cases k
  cases k'
  simp_all

/-- The coefficients are determined. -/
theorem Spec.Stripped.unique {K k k' : Coef4} (h : Stripped K k) (h' : Stripped K k') : k = k' := by
  have key : ∀ {i j : Nat} {k k' : Coef4}, scaleBy (2 ^ i) k = scaleBy (2 ^ j) k' → i < j →
      AllEven k := by
    intro i j k k' e hij
    obtain ⟨m, rfl⟩ : ∃ m, j = i + (m + 1) := ⟨j - i - 1, by omega⟩
    rw [pow_add, ← scaleBy_scaleBy] at e
    have := scaleBy_inj (pow_ne_zero i (by norm_num)) e
    subst this
    have hd : (2 : Int) ∣ 2 ^ (m + 1) := dvd_pow_self 2 (by omega)
    exact ⟨hd.mul_right _, hd.mul_right _, hd.mul_right _, hd.mul_right _⟩
  obtain ⟨⟨i, hi⟩, ho⟩ := h
  obtain ⟨⟨j, hj⟩, ho'⟩ := h'
  rcases lt_trichotomy i j with hij | rfl | hij
  · exact absurd (key (hi.symm.trans hj) hij) ho
  · exact scaleBy_inj (pow_ne_zero i (by norm_num)) (hi.symm.trans hj)
  · exact absurd (key (hj.symm.trans hi) hij) ho'

/-- The steps respect common factors. -/
theorem Spec.readIn_times (c : Int) (r : Reduction) (k : Coef4) :
    readIn r (scaleBy c k) = scaleBy c (readIn r k) := by
  cases r <;> simp [readIn, scaleBy] <;> constructor <;> ring

theorem Spec.giveOut_times (c : Int) (r : Option Reduction) (k : Coef4) :
    giveOut r (scaleBy c k) = scaleBy c (giveOut r k) := by
  rcases r with _ | r
  · rfl
  · cases r <;> simp [giveOut, scaleBy] <;> constructor <;> ring

theorem Spec.primerOut_times (c : Int) (p : Option Primer) (k : Coef4) :
    primerOut p (scaleBy c k) = scaleBy c (primerOut p k) := by
  rcases p with _ | p
  · rfl
  · cases p <;> simp [primerOut, scaleBy]

theorem Spec.readInAll_times (i : Nat) (v : ℚ) (c : Int) (k : Coef4) :
    readInAll i v (scaleBy c k) = scaleBy c (readInAll i v k) := by
  induction i generalizing v k with
  | zero => rfl
  | succ i ih =>
    simp only [readInAll, readIn_times, ih]
    split
    · rfl
    · split <;> rfl

theorem Spec.giveOutAll_times (a : List (Option Reduction)) (c : Int) (k : Coef4) :
    giveOutAll a (scaleBy c k) = scaleBy c (giveOutAll a k) := by
  induction a generalizing k with
  | nil => rfl
  | cons s a ih =>
    show giveOutAll a (giveOut s (scaleBy c k)) = scaleBy c (giveOutAll a (giveOut s k))
    rw [giveOut_times, ih]

/-- A step that respects common factors and adds at most `b` factors two. -/
structure Spec.Slow (b : Nat) (F : Coef4 → Coef4) : Prop where
  scale : ∀ c k, F (scaleBy c k) = scaleBy c (F k)
  slow : ∀ k m, F k = scaleBy (2 ^ (b + 1)) m → AllEven k

theorem Spec.AllEven.double {k : Coef4} (h : AllEven k) : ∃ m, k = scaleBy 2 m := by
  obtain ⟨⟨a, ha⟩, ⟨b, hb⟩, ⟨c, hc⟩, ⟨d, hd⟩⟩ := h
  refine ⟨⟨a, b, c, d⟩, ?_⟩
  cases k
  simp only at ha hb hc hd
  simp [scaleBy, *]

theorem Spec.allEven_scaleBy {j : Nat} {m : Coef4} : AllEven (scaleBy (2 ^ (j + 1)) m) := by
  have hd : (2 : Int) ∣ 2 ^ (j + 1) := dvd_pow_self 2 (by omega)
  exact ⟨hd.mul_right _, hd.mul_right _, hd.mul_right _, hd.mul_right _⟩

theorem Spec.Slow.more {b : Nat} {F : Coef4 → Coef4} (h : Slow b F) (j : Nat) {k m : Coef4}
    (e : F k = scaleBy (2 ^ (b + j)) m) : ∃ k', k = scaleBy (2 ^ j) k' := by
  induction j generalizing k m with
  | zero => exact ⟨k, by simp [scaleBy]⟩
  | succ j ih =>
    have e' : F k = scaleBy (2 ^ (b + 1)) (scaleBy (2 ^ j) m) := by
      rw [scaleBy_scaleBy, ← pow_add, e]
      congr 2
      omega
    obtain ⟨k₁, rfl⟩ := (h.slow k _ e').double
    rw [h.scale] at e'
    have e2 : F k₁ = scaleBy (2 ^ (b + j)) m := by
      refine scaleBy_inj (a := 2) (by norm_num) ?_
      rw [e', scaleBy_scaleBy, scaleBy_scaleBy]
      congr 1
      ring
    obtain ⟨k₂, rfl⟩ := ih e2
    exact ⟨k₂, by rw [scaleBy_scaleBy]; congr 1; ring⟩

theorem Spec.Slow.comp {a b : Nat} {F G : Coef4 → Coef4} (hF : Slow a F) (hG : Slow b G) :
    Slow (a + b) fun k => G (F k) := by
  refine ⟨fun c k => by rw [hF.scale, hG.scale], fun k m e => ?_⟩
  obtain ⟨k', e'⟩ := hG.more (a + 1) (e.trans (by congr 2; omega))
  exact hF.slow k k' e'

theorem Spec.slow_id : Slow 0 fun k => k :=
  ⟨fun _ _ => rfl, fun k m e => by subst e; exact allEven_scaleBy⟩

theorem Spec.slow_readIn (r : Reduction) : Slow (amplifies [some r]) (readIn r) := by
  refine ⟨fun c k => readIn_times c r k, fun k m e => ?_⟩
  cases r with
  | Amplify =>
    simp only [readIn, scaleBy, Coef4.mk.injEq] at e
    obtain ⟨h1, h2, h3, h4⟩ := e
    have e : amplifies [some Reduction.Amplify] = 1 := by decide
    rw [e] at h1 h2 h3 h4
    norm_num at h1 h2 h3 h4
    exact ⟨by omega, by omega, by omega, by omega⟩
  | Uncover =>
    simp only [readIn, scaleBy, Coef4.mk.injEq] at e
    obtain ⟨h1, h2, h3, h4⟩ := e
    have e : amplifies [some Reduction.Uncover] = 0 := by decide
    rw [e] at h1 h2 h3 h4
    norm_num at h1 h2 h3 h4
    exact ⟨by omega, by omega, by omega, by omega⟩

theorem Spec.slow_giveOut (r : Option Reduction) : Slow (amplifies [r]) (giveOut r) := by
  rcases r with _ | r
  · exact slow_id
  refine ⟨fun c k => giveOut_times c (some r) k, fun k m e => ?_⟩
  cases r with
  | Amplify =>
    simp only [giveOut, scaleBy, Coef4.mk.injEq] at e
    obtain ⟨h1, h2, h3, h4⟩ := e
    have e : amplifies [some Reduction.Amplify] = 1 := by decide
    rw [e] at h1 h2 h3 h4
    norm_num at h1 h2 h3 h4
    exact ⟨by omega, by omega, by omega, by omega⟩
  | Uncover =>
    simp only [giveOut, scaleBy, Coef4.mk.injEq] at e
    obtain ⟨h1, h2, h3, h4⟩ := e
    have e : amplifies [some Reduction.Uncover] = 0 := by decide
    rw [e] at h1 h2 h3 h4
    norm_num at h1 h2 h3 h4
    exact ⟨by omega, by omega, by omega, by omega⟩

theorem Spec.slow_primerOut (p : Option Primer) : Slow 0 (primerOut p) := by
  rcases p with _ | p
  · exact slow_id
  refine ⟨fun c k => primerOut_times c (some p) k, fun k m e => ?_⟩
  cases p <;> simp only [primerOut, scaleBy, Coef4.mk.injEq] at e <;>
    obtain ⟨h1, h2, h3, h4⟩ := e <;> norm_num at h1 h2 h3 h4 <;>
    exact ⟨by omega, by omega, by omega, by omega⟩

theorem Spec.amplifies_cons (s : Option Reduction) (l : List (Option Reduction)) :
    amplifies (s :: l) = amplifies [s] + amplifies l := by
  simp only [amplifies, List.count_cons, List.count_nil]
  omega

theorem Spec.amplifies_append (l l' : List (Option Reduction)) :
    amplifies (l ++ l') = amplifies l + amplifies l' := List.count_append

theorem Spec.slow_readInAll (i : Nat) (v : ℚ) : Slow (amplifies (symbols i v)) (readInAll i v) := by
  induction i generalizing v with
  | zero => exact slow_id
  | succ i ih =>
    rcases lt_trichotomy v (1 / 2) with h | h | h
    · have e1 : readInAll (i + 1) v = fun k => readInAll i (2 * v) (readIn .Amplify k) := by
        funext k
        simp only [readInAll, if_pos h]
      rw [e1, symbols_succ, amplifies_cons, sym_lt h, next_lt h]
      exact (slow_readIn .Amplify).comp (ih (2 * v))
    · have e1 : readInAll (i + 1) v = fun k => k := by
        funext k
        simp only [readInAll, if_neg h.not_lt, if_neg h.symm.not_lt]
      have e2 : ∀ i, amplifies (symbols i (1 / 2)) = 0 := by
        intro i
        induction i with
        | zero => rfl
        | succ i ih => rw [symbols_succ, amplifies_cons, sym_half, next_half, ih]; rfl
      rw [e1, h, e2]
      exact slow_id
    · have e1 : readInAll (i + 1) v = fun k => readInAll i (1 / v - 1) (readIn .Uncover k) := by
        funext k
        simp only [readInAll, if_neg h.not_gt, if_pos h]
      rw [e1, symbols_succ, amplifies_cons, sym_gt h, next_gt h]
      exact (slow_readIn .Uncover).comp (ih (1 / v - 1))

theorem symbols_add (i j : Nat) (v : ℚ) : symbols (i + j) v = symbols i v ++ symbols j (rest i v) := by
  induction i generalizing v with
  | zero => simp [symbols, rest]
  | succ i ih =>
    rw [Nat.add_right_comm, symbols_succ, symbols_succ, ih]
    have e : rest (i + 1) v = rest i (next v) := by
      unfold next
      simp only [rest]
    rw [e, List.cons_append]

theorem Spec.slow_giveOutAll (a : List (Option Reduction)) : Slow (amplifies a) (giveOutAll a) := by
  induction a with
  | nil => exact slow_id
  | cons s a ih =>
    rw [amplifies_cons]
    exact (slow_giveOut s).comp ih

theorem Spec.Halved.refl (k : Coef4) : Halved 0 k k := ⟨0, le_rfl, by simp [scaleBy], .inl rfl⟩

/-- Steps one after the other. -/
theorem Spec.Halved.step {K k k' : Coef4} {a b : Nat} {F : Coef4 → Coef4} (hF : Slow b F)
    (h : Halved a K k) (h' : Halved b (F k) k') : Halved (a + b) (F K) k' := by
  obtain ⟨j, hj, e, ho⟩ := h
  obtain ⟨i, hi, e', ho'⟩ := h'
  refine ⟨j + i, by omega, by rw [e, hF.scale, e', scaleBy_scaleBy, pow_add], ?_⟩
  by_cases hk : AllEven k'
  · rcases ho' with rfl | ho'
    · rcases ho with rfl | ho
      · exact .inl rfl
      · obtain ⟨m, rfl⟩ := hk.double
        refine absurd (hF.slow k m ?_) ho
        rw [e', scaleBy_scaleBy, pow_succ]
    · exact absurd hk ho'
  · exact .inr hk

/-- The coefficients are determined. -/
theorem Spec.Halved.unique {a : Nat} {K k k' : Coef4} (h : Halved a K k) (h' : Halved a K k') :
    k = k' := by
  obtain ⟨i, hi, e, ho⟩ := h
  obtain ⟨j, hj, e', ho'⟩ := h'
  have key : ∀ {i j : Nat} {k k' : Coef4}, scaleBy (2 ^ i) k = scaleBy (2 ^ j) k' → i < j →
      AllEven k := by
    intro i j k k' e hij
    obtain ⟨m, rfl⟩ : ∃ m, j = i + (m + 1) := ⟨j - i - 1, by omega⟩
    rw [pow_add, ← scaleBy_scaleBy] at e
    have := scaleBy_inj (pow_ne_zero i (by norm_num)) e
    subst this
    exact allEven_scaleBy
  rcases lt_trichotomy i j with hij | rfl | hij
  · exact absurd (key (e.symm.trans e') hij) (ho.resolve_left (by omega))
  · exact scaleBy_inj (pow_ne_zero i (by norm_num)) (e.symm.trans e')
  · exact absurd (key (e'.symm.trans e) hij) (ho'.resolve_left (by omega))

/-- A map that is not all even stays so, up to one factor two for each `Amplify`. -/
theorem Spec.Halved.stripped {a : Nat} {K k : Coef4} {F : Coef4 → Coef4} (hF : Slow a F)
    (hK : ¬ AllEven K) (h : Halved a (F K) k) : Stripped (F K) k := by
  obtain ⟨j, hj, e, ho⟩ := h
  refine ⟨⟨j, e⟩, ?_⟩
  rcases ho with rfl | ho
  · intro hk
    obtain ⟨m, rfl⟩ := hk.double
    refine hK (hF.slow K m ?_)
    rw [e, scaleBy_scaleBy, pow_succ]
  · exact ho

/-! ## Reading and giving out commute -/

theorem Spec.giveOut_readIn (s : Option Reduction) (r : Reduction) (k : Coef4) :
    giveOut s (readIn r k) = readIn r (giveOut s k) := by
  rcases s with _ | s
  · rfl
  · cases s <;> cases r <;> simp [giveOut, readIn] <;> ring

theorem Spec.primerOut_readIn (p : Option Primer) (r : Reduction) (k : Coef4) :
    primerOut p (readIn r k) = readIn r (primerOut p k) := by
  rcases p with _ | p
  · rfl
  · cases p <;> cases r <;> simp [primerOut, readIn] <;> ring

theorem Spec.giveOut_readInAll (s : Option Reduction) (i : Nat) (v : ℚ) (k : Coef4) :
    giveOut s (readInAll i v k) = readInAll i v (giveOut s k) := by
  induction i generalizing v k with
  | zero => rfl
  | succ i ih =>
    simp only [readInAll]
    split
    · rw [ih, giveOut_readIn]
    · split
      · rw [ih, giveOut_readIn]
      · rfl

theorem Spec.primerOut_readInAll (p : Option Primer) (i : Nat) (v : ℚ) (k : Coef4) :
    primerOut p (readInAll i v k) = readInAll i v (primerOut p k) := by
  induction i generalizing v k with
  | zero => rfl
  | succ i ih =>
    simp only [readInAll]
    split
    · rw [ih, primerOut_readIn]
    · split
      · rw [ih, primerOut_readIn]
      · rfl

theorem Spec.giveOutAll_snoc (a : List (Option Reduction)) (s : Option Reduction) (k : Coef4) :
    giveOutAll (a ++ [s]) k = giveOut s (giveOutAll a k) := by
  simp [giveOutAll]

/-! ## The steps of the code -/

theorem isOdd_or_iff {a b : Int} : (isOdd a || isOdd b) = false ↔ 2 ∣ a ∧ 2 ∣ b := by
  rw [Bool.or_eq_false_iff, isOdd_iff, isOdd_iff]
  have h : ∀ a : Int, 2 * half a = a ↔ 2 ∣ a := by
    intro a
    constructor
    · intro h
      exact ⟨half a, h.symm⟩
    · rintro ⟨b, rfl⟩
      unfold half
      rw [Int.mul_tdiv_cancel_left _ (by norm_num)]
  rw [h, h]

theorem Cfg.cmul_ok {cfg : Cfg} {a b c : Int} (h : cfg.cmul a b = .ok c) : c = a * b := by
  have := Steps.cmul_exact cfg a b
  rw [h] at this
  exact this

theorem Cfg.cadd_ok {cfg : Cfg} {a b c : Int} (h : cfg.cadd a b = .ok c) : c = a + b := by
  have := Steps.cadd_exact cfg a b
  rw [h] at this
  exact this

theorem Cfg.csub_ok {cfg : Cfg} {a b c : Int} (h : cfg.csub a b = .ok c) : c = a - b := by
  unfold Cfg.csub Cfg.checked at h
  split at h
  · exact (Out.ok.inj h).symm
  · cases h

theorem Out.bind_ok {α β : Type} {o : Out α} {g : α → Out β} {b : β} (h : (o >>= g) = .ok b) :
    ∃ a, o = .ok a ∧ g a = .ok b := by
  cases o with
  | ok a => exact ⟨a, rfl, h⟩
  | panic p => cases h
  | timeout => cases h

theorem Cfg.neg_ok {cfg : Cfg} {a c : Int} (hn : CanNegate cfg a) (h : cfg.neg a = .ok c) :
    c = -a := by
  unfold Cfg.neg Cfg.unchecked at h
  split at h
  · exact (Out.ok.inj h).symm
  · rename_i hf
    rcases hn.safe with h' | ⟨-, -, ho⟩
    · exact absurd h' hf
    · rw [if_pos ho] at h
      cases h

namespace Coef4

theorem ingestAmplify_stripped (cfg : Cfg) {k k' : Coef4}
    (h : k.ingestAmplify cfg = .ok k') : Halved 1 (readIn .Amplify k) k' := by
  unfold ingestAmplify at h
  by_cases hodd : (isOdd k.nx || isOdd k.dx) = true
  · rw [if_pos hodd] at h
    obtain ⟨n, hn, h⟩ := Out.bind_ok h
    obtain ⟨d, hd, h⟩ := Out.bind_ok h
    obtain rfl := Cfg.cmul_ok hn
    obtain rfl := Cfg.cmul_ok hd
    obtain rfl := (Out.ok.inj h).symm
    refine ⟨0, by omega, by simp [readIn, scaleBy, mul_comm], .inr fun ⟨h1, _, h2, _⟩ => ?_⟩
    rw [isOdd_or_iff.2 ⟨h1, h2⟩] at hodd
    cases hodd
  · rw [if_neg hodd] at h
    obtain rfl := (Out.ok.inj h).symm
    rw [Bool.not_eq_true] at hodd
    rw [Bool.or_eq_false_iff, isOdd_iff, isOdd_iff] at hodd
    exact ⟨1, le_rfl, by simp [readIn, scaleBy, hodd], .inl rfl⟩

theorem ingestUncover_stripped (cfg : Cfg) {k k' : Coef4}
    (h : k.ingestUncover cfg = .ok k') : Halved 0 (readIn .Uncover k) k' := by
  unfold ingestUncover at h
  obtain ⟨n, hn, h⟩ := Out.bind_ok h
  obtain ⟨d, hd, h⟩ := Out.bind_ok h
  obtain rfl := Cfg.cadd_ok hn
  obtain rfl := Cfg.cadd_ok hd
  obtain rfl := (Out.ok.inj h).symm
  exact ⟨0, le_rfl, by simp [readIn, scaleBy], .inl rfl⟩

theorem amplify_stripped (cfg : Cfg) {k k' : Coef4}
    (h : k.amplify cfg = .ok k') : Halved 1 (giveOut (some .Amplify) k) k' := by
  unfold amplify at h
  by_cases hodd : (isOdd k.dx || isOdd k.d) = true
  · rw [if_pos hodd] at h
    obtain ⟨n, hn, h⟩ := Out.bind_ok h
    obtain ⟨d, hd, h⟩ := Out.bind_ok h
    obtain rfl := Cfg.cmul_ok hn
    obtain rfl := Cfg.cmul_ok hd
    obtain rfl := (Out.ok.inj h).symm
    refine ⟨0, by omega, by simp [giveOut, scaleBy, mul_comm], .inr fun ⟨_, _, h1, h2⟩ => ?_⟩
    rw [isOdd_or_iff.2 ⟨h1, h2⟩] at hodd
    cases hodd
  · rw [if_neg hodd] at h
    obtain rfl := (Out.ok.inj h).symm
    rw [Bool.not_eq_true] at hodd
    rw [Bool.or_eq_false_iff, isOdd_iff, isOdd_iff] at hodd
    exact ⟨1, le_rfl, by simp [giveOut, scaleBy, hodd], .inl rfl⟩

theorem uncover_stripped (cfg : Cfg) {k k' : Coef4}
    (h : k.uncover cfg = .ok k') : Halved 0 (giveOut (some .Uncover) k) k' := by
  unfold uncover at h
  obtain ⟨n, hn, h⟩ := Out.bind_ok h
  obtain ⟨d, hd, h⟩ := Out.bind_ok h
  obtain rfl := Cfg.csub_ok hn
  obtain rfl := Cfg.csub_ok hd
  obtain rfl := (Out.ok.inj h).symm
  exact ⟨0, le_rfl, by simp [giveOut, scaleBy], .inl rfl⟩

/-- The coefficients after an answer. -/
theorem reductionAttempt_stripped {cfg : Cfg} {k k' : Coef4} {s : Option Reduction}
    (h : k.reductionAttempt cfg = .ok (some (s, k'))) :
    Halved (amplifies [s]) (giveOut s k) k' := by
  have hp : ∀ {r r' : Option (Option Reduction × Coef4)}, (pure r : Out _) = .ok r' → r = r' := by
    intro r r' e
    injection e
  unfold reductionAttempt at h
  obtain ⟨b, -, h⟩ := Out.bind_ok h
  cases b with
  | false => exact absurd (hp h) (by simp)
  | true =>
    rw [if_pos rfl] at h
    unfold reductionEgest at h
    obtain ⟨⟨nmin, dmin, nmax, dmax⟩, -, h⟩ := Out.bind_ok h
    dsimp only at h
    split at h
    · cases h
    split at h
    · cases h
    obtain ⟨_, -, h⟩ := Out.bind_ok h
    split at h
    · have := hp h
      simp only [Option.some.injEq, Prod.mk.injEq] at this
      obtain ⟨rfl, rfl⟩ := this
      exact .refl _
    obtain ⟨_, -, h⟩ := Out.bind_ok h
    split at h
    · obtain ⟨k₁, h1, h⟩ := Out.bind_ok h
      have := hp h
      simp only [Option.some.injEq, Prod.mk.injEq] at this
      obtain ⟨rfl, rfl⟩ := this
      exact amplify_stripped cfg h1
    obtain ⟨_, -, h⟩ := Out.bind_ok h
    split at h
    · obtain ⟨k₁, h1, h⟩ := Out.bind_ok h
      have := hp h
      simp only [Option.some.injEq, Prod.mk.injEq] at this
      obtain ⟨rfl, rfl⟩ := this
      exact uncover_stripped cfg h1
    · exact absurd (hp h) (by simp)

/-- Four integers whose opposites are integers. -/
def CanNegate (cfg : Cfg) (k : Coef4) : Prop :=
  ∀ z ∈ [k.nx, k.n, k.dx, k.d], Clarith.CanNegate cfg z

/-- The coefficients after the primer. -/
theorem primerAttempt_stripped {cfg : Cfg} {k k' : Coef4} {p : Option Primer}
    (hn : k.CanNegate cfg) (h : k.primerAttempt cfg = .ok (some (p, k'))) :
    k' = primerOut p k := by
  have n1 := hn k.nx (by simp)
  have n2 := hn k.n (by simp)
  have n3 := hn k.dx (by simp)
  have n4 := hn k.d (by simp)
  have hp : ∀ {r r' : Option (Option Primer × Coef4)}, (pure r : Out _) = .ok r' → r = r' := by
    intro r r' e
    injection e
  unfold primerAttempt at h
  obtain ⟨b, -, h⟩ := Out.bind_ok h
  cases b with
  | false => exact absurd (hp h) (by simp)
  | true =>
    rw [if_pos rfl] at h
    unfold primerEgest at h
    obtain ⟨⟨nmin, dmin, nmax, dmax⟩, -, h⟩ := Out.bind_ok h
    dsimp only at h
    split at h
    · exact absurd (hp h) (by simp)
    obtain ⟨_, -, h⟩ := Out.bind_ok h
    split at h
    · exact absurd (hp h) (by simp)
    obtain ⟨_, -, h⟩ := Out.bind_ok h
    split at h
    · obtain ⟨k₁, h1, h⟩ := Out.bind_ok h
      have := hp h
      simp only [Option.some.injEq, Prod.mk.injEq] at this
      obtain ⟨rfl, rfl⟩ := this
      unfold ground at h1
      obtain ⟨a, ha, h1⟩ := Out.bind_ok h1
      obtain ⟨b, hb, h1⟩ := Out.bind_ok h1
      obtain rfl := Cfg.neg_ok n3 ha
      obtain rfl := Cfg.neg_ok n4 hb
      obtain rfl := (Out.ok.inj h1).symm
      exact rfl
    split at h
    · have := hp h
      simp only [Option.some.injEq, Prod.mk.injEq] at this
      obtain ⟨rfl, rfl⟩ := this
      exact rfl
    obtain ⟨_, -, h⟩ := Out.bind_ok h
    split at h
    · obtain ⟨k₁, h1, h⟩ := Out.bind_ok h
      have := hp h
      simp only [Option.some.injEq, Prod.mk.injEq] at this
      obtain ⟨rfl, rfl⟩ := this
      unfold reflect at h1
      obtain ⟨a, ha, h1⟩ := Out.bind_ok h1
      obtain ⟨b, hb, h1⟩ := Out.bind_ok h1
      obtain rfl := Cfg.neg_ok n1 ha
      obtain rfl := Cfg.neg_ok n2 hb
      obtain rfl := (Out.ok.inj h1).symm
      exact rfl
    split at h
    · have := hp h
      simp only [Option.some.injEq, Prod.mk.injEq] at this
      obtain ⟨rfl, rfl⟩ := this
      exact rfl
    · exact absurd (hp h) (by simp)

end Coef4

theorem Homographic.absorbPrimer_exact {cfg : Cfg} {p : Option Primer} {k k' : Coef4}
    (hx : Clarith.CanNegate cfg k.nx) (hd : Clarith.CanNegate cfg k.dx)
    (h : Homographic.absorbPrimer cfg p k = .ok k') : k' = primerIn4 p k := by
  unfold Homographic.absorbPrimer at h
  rcases p with _ | p
  · exact (Out.ok.inj h).symm
  · cases p with
    | Turn => exact (Out.ok.inj h).symm
    | Reflect =>
      obtain ⟨a, ha, h⟩ := Out.bind_ok h
      obtain ⟨b, hb, h⟩ := Out.bind_ok h
      obtain rfl := Cfg.neg_ok hx ha
      obtain rfl := Cfg.neg_ok hd hb
      exact (Out.ok.inj h).symm
    | Ground =>
      obtain ⟨a, ha, h⟩ := Out.bind_ok h
      obtain ⟨b, hb, h⟩ := Out.bind_ok h
      obtain rfl := Cfg.neg_ok hx ha
      obtain rfl := Cfg.neg_ok hd hb
      exact (Out.ok.inj h).symm

/-! ## The lines -/

namespace Steps

open Mut

/-- The lines are the map as the symbols of the operand `v` go in. -/
def Exact (k : Coef4) (v : ℚ) (lines : List Coef4) : Prop :=
  ∀ i line, lines[i]? = some line →
    Halved (amplifies (symbols i v)) (readInAll i v k) line

theorem Exact.nil (k : Coef4) (v : ℚ) : Exact k v [] := fun i line h => by simp at h

theorem Exact.one (k : Coef4) (v : ℚ) : Exact k v [k] := by
  intro i line h
  rcases i with _ | i
  · simp at h
    subst h
    exact .refl _
  · simp at h

theorem readInAll_succ {v : ℚ} {s : Reduction} (hs : some s = sym v) (i : Nat) (k : Coef4) :
    readInAll (i + 1) v k = readInAll i (rest 1 v) (readIn s k) := by
  unfold sym at hs
  split at hs
  · rename_i h
    obtain rfl := Option.some.inj hs
    simp only [readInAll, rest, if_pos h]
  · rename_i h
    split at hs
    · rename_i h'
      obtain rfl := Option.some.inj hs
      simp only [readInAll, rest, if_neg h, if_pos h']
    · cases hs

theorem Exact.cons {k k' : Coef4} {v : ℚ} {s : Reduction} {lines : List Coef4}
    (h : Exact k' (rest 1 v) lines) (hs : some s = sym v)
    (hk' : Halved (amplifies [some s]) (readIn s k) k') : Exact k v (k :: lines) := by
  intro i line hl
  rcases i with _ | i
  · exact Exact.one k v 0 line hl
  · rw [readInAll_succ hs, symbols_succ, ← rest_one, amplifies_cons, ← hs]
    exact hk'.step (slow_readInAll i _) (h i line (by simpa using hl))

/-- What has been printed. -/
def Printed (k : Coef4) (v : ℚ) (w w' : World) (lines : List Coef4) : Prop :=
  w'.printed = w.printed ++ lines ∧ Exact k v lines

theorem Printed.one (k : Coef4) (v : ℚ) {w w' : World}
    (h : w'.printed = w.printed ++ [k]) : Printed k v w w' [k] := ⟨h, .one k v⟩

theorem Printed.cons {k k' : Coef4} {v : ℚ} {s : Reduction} {w w' : World} {lines : List Coef4}
    (h : Printed k' (rest 1 v) { w with printed := w.printed ++ [k] } w' lines)
    (hs : some s = sym v) (hk' : Halved (amplifies [some s]) (readIn s k) k') : Printed k v w w' (k :: lines) := by
  refine ⟨?_, h.2.cons hs hk'⟩
  rw [h.1]
  simp

namespace Homographic

/-- One symbol goes in. -/
theorem ingest_exact {cfg : Cfg} (r' : Ratio) (k : Coef4) (w : World)
    (s : Reduction) :
    Post (onK (match s with
        | .Amplify => Coef4.ingestAmplify cfg
        | .Uncover => Coef4.ingestUncover cfg)) (⟨.ratio r', k⟩, w)
      (fun t => t.2 = w)
      (fun _ t => ∃ k', t = (⟨.ratio r', k'⟩, w) ∧ Halved (amplifies [some s]) (readIn s k) k') := by
  have key : ∀ {m : Mut Coef4 Unit} {o : Out Coef4},
      Agree m k (o >>= fun k => pure ((), k)) →
      (∀ k', o = .ok k' → Halved (amplifies [some s]) (readIn s k) k') →
      Post (onK m) (⟨.ratio r', k⟩, w) (fun t => t.2 = w)
        (fun _ t => ∃ k', t = (⟨.ratio r', k'⟩, w) ∧ Halved (amplifies [some s]) (readIn s k) k') := by
    intro m o h1 h3
    unfold Agree Sim at h1
    unfold Post onK Mut.part
    dsimp only
    revert h1
    generalize m k = t
    obtain ⟨t, k'⟩ := t
    cases t with
    | ok a =>
      rintro ⟨b, e, rfl⟩
      cases o with
      | ok k'' =>
        have e' : k'' = k' := by
          injection e with e
          injection e
        subst e'
        exact ⟨_, rfl, h3 _ rfl⟩
      | panic p => cases e
      | timeout => cases e
    | panic p => exact fun _ => rfl
    | shared => exact fun h => h.elim
    | timeout => exact fun _ => rfl
  cases s with
  | Amplify =>
    exact key (Coef4.ingestAmplify_agree cfg k) fun k' => Coef4.ingestAmplify_stripped cfg
  | Uncover =>
    exact key (Coef4.ingestUncover_agree cfg k) fun k' => Coef4.ingestUncover_stripped cfg

theorem primer_exact (cfg : Cfg) (s : Homographic × World) :
    Post (onK (Coef4.primerAttempt cfg)) s (fun t => t.2 = s.2)
      (fun a t => t.2 = s.2 ∧ t.1.x = s.1.x ∧ (a = none → t.1.k = s.1.k) ∧
        ∀ p, a = some p → s.1.k.CanNegate cfg → t.1.k = primerOut p s.1.k) := by
  refine Post.sim (onK_attempt (J := fun t => t.2 = s.2) (Coef4.primerAttempt_agree cfg s.1.k)
    fun _ => rfl) (fun _ h => h) ?_
  rintro a t b hb ⟨e, h⟩
  refine ⟨by rw [e], by rw [e], ?_, ?_⟩
  · rintro rfl
    rcases b with _ | ⟨b, k'⟩
    · exact h.2
    · exact absurd h.1 (by simp)
  · rintro p rfl hn
    rcases b with _ | ⟨b, k'⟩
    · exact absurd h.1 (by simp)
    · obtain rfl : p = b := Option.some.inj h.1
      rw [h.2]
      exact Coef4.primerAttempt_stripped hn hb

theorem reduction_exact (cfg : Cfg) (s : Homographic × World) :
    Post (onK (Coef4.reductionAttempt cfg)) s (fun t => t.2 = s.2)
      (fun a t => t.2 = s.2 ∧ t.1.x = s.1.x ∧ (a = none → t.1.k = s.1.k) ∧
        ∀ p, a = some p → Halved (amplifies [p]) (giveOut p s.1.k) t.1.k) := by
  refine Post.sim (onK_attempt (J := fun t => t.2 = s.2) (Coef4.reductionAttempt_agree cfg s.1.k)
    fun _ => rfl) (fun _ h => h) ?_
  rintro a t b hb ⟨e, h⟩
  refine ⟨by rw [e], by rw [e], ?_, ?_⟩
  · rintro rfl
    rcases b with _ | ⟨b, k'⟩
    · exact h.2
    · exact absurd h.1 (by simp)
  · rintro p rfl
    rcases b with _ | ⟨b, k'⟩
    · exact absurd h.1 (by simp)
    · obtain rfl : p = b := Option.some.inj h.1
      rw [h.2]
      exact Coef4.reductionAttempt_stripped hb

theorem prime_exact (cfg : Cfg) (g f : Nat) {r : Ratio} (hr : r.OK cfg) (k : Coef4)
    (w : World) :
    Post (prime cfg (Steps.egest cfg g) f) (⟨.ratio r, k⟩, w)
      (fun t => ∃ lines, Printed k r.val w t.2 lines)
      (fun a t => ∃ lines, Printed k r.val w t.2 lines ∧ lines ≠ [] ∧
        ∀ h, a.2.2.2 = some h →
          ∃ r' : Ratio, h.x = .ratio r' ∧ r'.val = rest (lines.length - 1) r.val ∧ r'.OK cfg ∧
            ∀ last, lines.getLast? = some last → last.CanNegate cfg →
              Halved (amplifies (symbols (lines.length - 1) r.val))
                (primerOut a.2.1 (readInAll (lines.length - 1) r.val k)) h.k) := by
  induction f generalizing r k w with
  | zero => exact ⟨[], by simp, .nil _ _⟩
  | succ f ih =>
    unfold prime
    refine Post.modify_bind ?_
    refine Post.bind ((primer_exact cfg (⟨.ratio r, k⟩, { w with printed := w.printed ++ [k] })).mono (fun t ht => ⟨[k], .one _ _ (by rw [ht])⟩) fun _ _ h => h) ?_
    rintro a ⟨⟨x', k'⟩, w'⟩ ⟨rfl, rfl, hk', hp⟩
    rcases a with _ | p
    · obtain rfl : k' = k := hk' rfl
      refine Post.bind (R := fun a t => (a = none → ∃ s : Reduction, ∃ r' : Ratio, ∃ k'',
          some s = sym r.val ∧ t = (⟨.ratio r', k''⟩,
          { w with printed := w.printed ++ [k'] }) ∧ r'.OK cfg ∧ r'.val = rest 1 r.val ∧
            Halved (amplifies [some s]) (readIn s k') k'') ∧ t.2.printed = w.printed ++ [k']) ?_ ?_
      · unfold primeIngest
        refine Post.bind ((onX_post hr k' _).mono
          (fun t ht => ⟨[k'], .one _ _ ht⟩) fun _ _ h => h) ?_
        rintro a ⟨h', w'⟩ ⟨ha, rfl, r', rfl, hr', hv⟩
        rcases a with _ | s
        · refine Post.get_bind ?_
          refine Post.bind (R := fun _ t => t.2.printed = w.printed ++ [k'])
            (Post.eval ⟨[k'], .one _ _ rfl⟩ fun _ _ => rfl) ?_
          rintro ⟨num, den⟩ t ht
          refine Post.bind (R := fun _ t => t.2.printed = w.printed ++ [k'])
            (Post.eval ⟨[k'], .one _ _ ht⟩ fun _ _ => ht) ?_
          intro res t ht
          exact Post.pure ⟨fun h => (by cases h), ht⟩
        · have h1 := ingest_exact (cfg := cfg) r' k' { w with printed := w.printed ++ [k'] } s
          cases s with
          | Amplify =>
            refine Post.bind (h1.mono (fun t ht => ⟨[k'], .one _ _ (by rw [ht])⟩)
              fun _ _ h => h) ?_
            rintro _ _ ⟨k'', rfl, hsc⟩
            exact Post.pure ⟨fun _ => ⟨_, r', k'', ha, rfl, hr', hv, hsc⟩, rfl⟩
          | Uncover =>
            refine Post.bind (h1.mono (fun t ht => ⟨[k'], .one _ _ (by rw [ht])⟩)
              fun _ _ h => h) ?_
            rintro _ _ ⟨k'', rfl, hsc⟩
            exact Post.pure ⟨fun _ => ⟨_, r', k'', ha, rfl, hr', hv, hsc⟩, rfl⟩
      · rintro a t ⟨ha, hp⟩
        rcases a with _ | ⟨sp, pr, ra⟩
        · obtain ⟨s, r', k'', hs, rfl, hr', hv, hsc⟩ := ha rfl
          have ih := ih hr' k'' { w with printed := w.printed ++ [k'] }
          rw [hv] at ih
          refine ih.mono ?_ ?_
          · rintro t ⟨lines, hl⟩
            exact ⟨_, hl.cons hs hsc⟩
          · rintro a t ⟨lines, hl, hne, hx⟩
            refine ⟨_, hl.cons hs hsc, by simp, fun h e => ?_⟩
            obtain ⟨r₁, e1, e2, e3, e4⟩ := hx h e
            have hlen : (k' :: lines).length - 1 = (lines.length - 1) + 1 := by
              have := List.length_pos_iff.2 hne
              simp only [List.length_cons]
              omega
            rw [hlen]
            refine ⟨r₁, e1, e2, e3, fun last hlast hn => ?_⟩
            rw [readInAll_succ hs, symbols_succ, ← rest_one, amplifies_cons, ← hs]
            have h4 := e4 last (by rwa [List.getLast?_cons_of_ne_nil hne] at hlast) hn
            exact hsc.step (F := fun k => primerOut a.2.1 (readInAll (lines.length - 1)
              (rest 1 r.val) k)) ((slow_readInAll _ _).comp (slow_primerOut _)) h4
        · exact Post.pure ⟨[k'], .one _ _ hp, by simp, fun h e => by cases e⟩
    · refine Post.bind (R := fun s t => s = t ∧ t = (⟨.ratio r, k'⟩,
        { w with printed := w.printed ++ [k] })) ⟨rfl, rfl⟩ ?_
      rintro _ _ ⟨rfl, rfl⟩
      refine Post.pure ⟨[k], .one _ _ rfl, by simp, fun h e => ?_⟩
      obtain rfl : _ = h := Option.some.inj e
      refine ⟨r, rfl, rfl, hr, fun last hlast hn => ?_⟩
      obtain rfl : k = last := by simpa using hlast
      rw [hp p rfl hn]
      exact .refl _

theorem egest_exact (cfg : Cfg) (g f : Nat) {r : Ratio} (hr : r.OK cfg) (k : Coef4)
    (w : World) :
    Post (egest cfg (Steps.egest cfg g) f) (⟨.ratio r, k⟩, w)
      (fun t => ∃ lines, Printed k r.val w t.2 lines)
      (fun a t => ∃ lines, Printed k r.val w t.2 lines ∧ lines ≠ [] ∧
        ((∃ s, a = .inl s ∧ (∃ r' : Ratio, t.1.x = .ratio r' ∧ r'.OK cfg ∧
          r'.val = rest (lines.length - 1) r.val) ∧
          Halved (amplifies (symbols (lines.length - 1) r.val) + amplifies [s])
            (giveOut s (readInAll (lines.length - 1) r.val k)) t.1.k) ∨
          ∃ r' : Ratio, a = .inr (.ratio r'))) := by
  induction f generalizing r k w with
  | zero => exact ⟨[], by simp, .nil _ _⟩
  | succ f ih =>
    unfold egest
    refine Post.modify_bind ?_
    refine Post.bind ((reduction_exact cfg (⟨.ratio r, k⟩, { w with printed := w.printed ++ [k] })).mono (fun t ht => ⟨[k], .one _ _ (by rw [ht])⟩) fun _ _ h => h) ?_
    rintro a ⟨⟨x', k'⟩, w'⟩ ⟨rfl, rfl, hk', hp⟩
    rcases a with _ | p
    · obtain rfl : k' = k := hk' rfl
      refine Post.bind (R := fun a t => (a = none → ∃ s : Reduction, ∃ r' : Ratio, ∃ k'',
          some s = sym r.val ∧ t = (⟨.ratio r', k''⟩,
          { w with printed := w.printed ++ [k'] }) ∧ r'.OK cfg ∧ r'.val = rest 1 r.val ∧
            Halved (amplifies [some s]) (readIn s k') k'') ∧ t.2.printed = w.printed ++ [k']) ?_ ?_
      · unfold reductionIngest
        refine Post.bind ((onX_post hr k' _).mono
          (fun t ht => ⟨[k'], .one _ _ ht⟩) fun _ _ h => h) ?_
        rintro a ⟨h', w'⟩ ⟨ha, rfl, r', rfl, hr', hv⟩
        rcases a with _ | s
        · refine Post.get_bind ?_
          refine Post.bind (R := fun _ t => t.2.printed = w.printed ++ [k'])
            (Post.eval ⟨[k'], .one _ _ rfl⟩ fun _ _ => rfl) ?_
          rintro ⟨num, den⟩ t ht
          refine Post.bind (R := fun _ t => t.2.printed = w.printed ++ [k'])
            (Post.eval ⟨[k'], .one _ _ ht⟩ fun _ _ => ht) ?_
          intro res t ht
          split
          · exact Post.pure ⟨fun h => (by cases h), ht⟩
          · exact ⟨[k'], .one _ _ ht⟩
        · have h1 := ingest_exact (cfg := cfg) r' k' { w with printed := w.printed ++ [k'] } s
          cases s with
          | Amplify =>
            refine Post.bind (h1.mono (fun t ht => ⟨[k'], .one _ _ (by rw [ht])⟩)
              fun _ _ h => h) ?_
            rintro _ _ ⟨k'', rfl, hsc⟩
            exact Post.pure ⟨fun _ => ⟨_, r', k'', ha, rfl, hr', hv, hsc⟩, rfl⟩
          | Uncover =>
            refine Post.bind (h1.mono (fun t ht => ⟨[k'], .one _ _ (by rw [ht])⟩)
              fun _ _ h => h) ?_
            rintro _ _ ⟨k'', rfl, hsc⟩
            exact Post.pure ⟨fun _ => ⟨_, r', k'', ha, rfl, hr', hv, hsc⟩, rfl⟩
      · rintro a t ⟨ha, hp⟩
        rcases a with _ | ra
        · obtain ⟨s, r', k'', hs, rfl, hr', hv, hsc⟩ := ha rfl
          have ih := ih hr' k'' { w with printed := w.printed ++ [k'] }
          rw [hv] at ih
          refine ih.mono ?_ ?_
          · rintro t ⟨lines, hl⟩
            exact ⟨_, hl.cons hs hsc⟩
          · rintro a t ⟨lines, hl, hne, hx⟩
            refine ⟨_, hl.cons hs hsc, by simp, ?_⟩
            have hlen : (k' :: lines).length - 1 = (lines.length - 1) + 1 := by
              have := List.length_pos_iff.2 hne
              simp only [List.length_cons]
              omega
            rw [hlen]
            rcases hx with ⟨s', e, e1, e2⟩ | hx
            · refine .inl ⟨s', e, e1, ?_⟩
              rw [readInAll_succ hs, symbols_succ, ← rest_one, amplifies_cons, ← hs, add_assoc]
              exact hsc.step (F := fun k => giveOut s' (readInAll (lines.length - 1)
                (rest 1 r.val) k)) ((slow_readInAll _ _).comp (slow_giveOut _)) e2
            · exact .inr hx
        · exact Post.pure ⟨[k'], .one _ _ hp, by simp, .inr ⟨ra, rfl⟩⟩
    · exact Post.pure ⟨[k], .one _ _ rfl, by simp, .inl ⟨p, rfl, ⟨r, rfl, hr, rfl⟩, by
        simpa [symbols, readInAll, amplifies] using hp p rfl⟩⟩

end Homographic

/-- The lines printed by `Number::homographic` for an operand that is a fraction. -/
theorem Number.homographic_exact {cfg : Cfg} (f : Nat) (p : Option Primer) {r : Ratio}
    (hr : r.OK cfg) (nx n dx d : Int) (h1 : Clarith.CanNegate cfg nx)
    (h2 : Clarith.CanNegate cfg dx) (hx : ¬ (nx = 0 ∧ dx = 0))
    (w : World) :
    Post (Number.homographic cfg f (.Other p (.ratio r)) nx n dx d) w
      (fun t => ∃ lines, Printed (primerIn4 p ⟨nx, n, dx, d⟩) r.val w t lines)
      (fun a t => ∃ lines, Printed (primerIn4 p ⟨nx, n, dx, d⟩) r.val w t lines ∧ lines ≠ [] ∧
        (∀ p' o, a = .Other p' o → (∃ r' : Ratio, o = .ratio r') ∨
          ∃ r' : Ratio, ∃ k, o = .homographic (.ratio r') k ∧
          r'.val = rest (lines.length - 1) r.val ∧ r'.OK cfg ∧
          ∀ last, lines.getLast? = some last → last.CanNegate cfg →
            Halved (amplifies (symbols (lines.length - 1) r.val)) (primerOut p' (readInAll (lines.length - 1) r.val
              (primerIn4 p ⟨nx, n, dx, d⟩))) k)) := by
  unfold Number.homographic
  refine Post.bind (R := fun a t => ∃ lines,
      Printed (primerIn4 p ⟨nx, n, dx, d⟩) r.val w t lines ∧ lines ≠ [] ∧
        ∀ h, a.2.2.2 = some h →
          ∃ r' : Ratio, h.x = .ratio r' ∧ r'.val = rest (lines.length - 1) r.val ∧ r'.OK cfg ∧
            ∀ last, lines.getLast? = some last → last.CanNegate cfg →
              Halved (amplifies (symbols (lines.length - 1) r.val)) (primerOut a.2.1 (readInAll (lines.length - 1) r.val
                (primerIn4 p ⟨nx, n, dx, d⟩))) h.k) ?_ ?_
  · unfold Homographic.new
    rw [if_neg hx]
    dsimp only
    refine Post.bind (R := fun k t => t = w ∧ k = primerIn4 p ⟨nx, n, dx, d⟩) (Post.eval ?_ ?_) ?_
    · exact ⟨[], by simp, .nil _ _⟩
    · intro k hk
      exact ⟨rfl, Clarith.Homographic.absorbPrimer_exact h1 h2 hk⟩
    · rintro k _ ⟨rfl, rfl⟩
      exact owned_post (Homographic.prime_exact cfg f f hr _ _)
  · rintro ⟨sp, pr, ra, ho⟩ t ⟨lines, e1, e3, e4⟩
    dsimp only at e4 ⊢
    rcases sp with _ | sp
    · rcases ra with _ | ra
      · rcases ho with _ | ho
        · exact ⟨lines, e1⟩
        · refine Post.pure ⟨lines, e1, e3, fun p' o e => .inr ?_⟩
          obtain ⟨r', e5, e6, e7, e8⟩ := e4 ho rfl
          injection e with e9 e10
          subst e9 e10
          refine ⟨r', ho.k, ?_, e6, e7, e8⟩
          unfold Homographic.box
          rw [e5]
      · refine Post.pure ⟨lines, e1, e3, fun p' o e => .inl ?_⟩
        injection e with e9 e10
        exact ⟨ra, e10.symm⟩
    · exact Post.pure ⟨lines, e1, e3, fun p' o e => by cases e⟩

/-- The lines printed by one `egest` of a map of a fraction. -/
theorem egest_homographic_exact (cfg : Cfg) (f : Nat) {r : Ratio} (hr : r.OK cfg) (k : Coef4)
    (w : World) :
    Post (egest cfg f) (.homographic (.ratio r) k, w)
      (fun t => ∃ lines, Printed k r.val w t.2 lines)
      (fun s t => ∃ lines, Printed k r.val w t.2 lines ∧ lines ≠ [] ∧
        ((∃ r' : Ratio, t.1 = .ratio r') ∨
          ∃ r' : Ratio, ∃ k', t.1 = .homographic (.ratio r') k' ∧ r'.OK cfg ∧
          r'.val = rest (lines.length - 1) r.val ∧
          Halved (amplifies (symbols (lines.length - 1) r.val) + amplifies [s])
            (giveOut s (readInAll (lines.length - 1) r.val k)) k')) := by
  cases f with
  | zero => exact ⟨[], by simp, .nil _ _⟩
  | succ f =>
    unfold egest
    have h := Homographic.egest_exact cfg f f hr k w
    refine Post.bind (R := fun a t => ∃ lines, Printed k r.val w t.2 lines ∧ lines ≠ [] ∧
        ((∃ s, a = .inl s ∧ ∃ r' : Ratio, ∃ k', t.1 = .homographic (.ratio r') k' ∧ r'.OK cfg ∧
          r'.val = rest (lines.length - 1) r.val ∧
          Halved (amplifies (symbols (lines.length - 1) r.val) + amplifies [s])
            (giveOut s (readInAll (lines.length - 1) r.val k)) k') ∨
          ∃ r' : Ratio, a = .inr (.ratio r'))) ?_ ?_
    · unfold Post strategyEgest at *
      dsimp only
      revert h
      generalize Homographic.egest cfg (egest cfg f) f (⟨.ratio r, k⟩, w) = t
      obtain ⟨t, ⟨x', k'⟩, w'⟩ := t
      cases t with
      | ok a =>
        rintro ⟨lines, h1, h2, h3⟩
        refine ⟨lines, h1, h2, h3.imp ?_ id⟩
        rintro ⟨s, e, ⟨r', e1, e2, e3⟩, e4⟩
        dsimp only at e1
        subst e1
        exact ⟨s, e, r', k', rfl, e2, e3, e4⟩
      | panic p => exact id
      | shared => exact id
      | timeout => exact id
    · rintro a ⟨o, w'⟩ ⟨lines, h1, h2, h3⟩
      rcases h3 with ⟨s, rfl, h3⟩ | ⟨r', rfl⟩
      · exact Post.pure ⟨lines, h1, h2, .inr h3⟩
      · refine Post.modify_bind ?_
        refine (egest_ratio_calm cfg f r' w').mono ?_ ?_
        · rintro t ⟨e, -⟩
          exact ⟨lines, by rw [e]; exact h1⟩
        · rintro a t ⟨e, h⟩
          exact ⟨lines, by rw [e]; exact h1, h2, .inl h⟩

/-- `m` calls of `egest` (src/lib.rs:47-55). -/
def egests (cfg : Cfg) (f : Nat) : Nat → Mut (Obj × World) (List (Option Reduction))
  | 0 => pure []
  | m + 1 => do
    let s ← egest cfg f
    let l ← egests cfg f m
    pure (s :: l)

theorem readInAll_half (i : Nat) (k : Coef4) : readInAll i (1 / 2) k = k := by
  cases i with
  | zero => rfl
  | succ i => simp [readInAll]

theorem rest_half (i : Nat) : rest i (1 / 2) = 1 / 2 := by
  induction i with
  | zero => rfl
  | succ i ih =>
    show rest i (if (1 / 2 : ℚ) < 1 / 2 then _ else if (1 / 2 : ℚ) < 1 / 2 then _ else 1 / 2) = _
    rw [if_neg (lt_irrefl _), if_neg (lt_irrefl _)]
    exact ih

theorem readInAll_add (i j : Nat) (v : ℚ) (k : Coef4) :
    readInAll (i + j) v k = readInAll j (rest i v) (readInAll i v k) := by
  induction i generalizing v k with
  | zero => simp [rest, readInAll]
  | succ i ih =>
    rw [Nat.add_right_comm]
    simp only [readInAll]
    by_cases h1 : v < 1 / 2
    · rw [if_pos h1, if_pos h1, ih]
      simp only [rest, if_pos h1]
    · rw [if_neg h1, if_neg h1]
      by_cases h2 : 1 / 2 < v
      · rw [if_pos h2, if_pos h2, ih]
        simp only [rest, if_neg h1, if_pos h2]
      · rw [if_neg h2, if_neg h2]
        have hv : v = 1 / 2 := le_antisymm (not_lt.1 h2) (not_lt.1 h1)
        subst hv
        rw [rest_half, readInAll_half]

theorem readInAll_giveOutAll (a : List (Option Reduction)) (j : Nat) (u : ℚ) (k : Coef4) :
    readInAll j u (giveOutAll a k) = giveOutAll a (readInAll j u k) := by
  induction a generalizing k with
  | nil => rfl
  | cons s a ih =>
    show readInAll j u (giveOutAll a (giveOut s k)) = giveOutAll a (giveOut s _)
    rw [ih, giveOut_readInAll]

/-- A map `K` of `v`, after `i` symbols of `v`, and answers `a` given out; or nothing but a
fraction. -/
def StandsAt (cfg : Cfg) (K : Coef4) (v : ℚ) (i : Nat) (a : List (Option Reduction)) (o : Obj) :
    Prop :=
  (∃ r : Ratio, o = .ratio r) ∨ ∃ r : Ratio, ∃ k, o = .homographic (.ratio r) k ∧
    r.OK cfg ∧ r.val = rest i v ∧
    Halved (amplifies (symbols i v) + amplifies a) (giveOutAll a (readInAll i v K)) k

/-- One more call. -/
theorem egest_stands (cfg : Cfg) (f : Nat) {K : Coef4} {v : ℚ} {i : Nat}
    {a : List (Option Reduction)} {o : Obj} (w : World) (h : StandsAt cfg K v i a o) :
    Post (egest cfg f) (o, w)
      (fun t => ((∃ r : Ratio, o = .ratio r) ∧ t.2.printed = w.printed) ∨
        ∃ lines, t.2.printed = w.printed ++ lines ∧ ∀ j line, lines[j]? = some line →
          Halved (amplifies (symbols (i + j) v) + amplifies a) (giveOutAll a (readInAll (i + j) v K)) line)
      (fun s t => ((∃ r : Ratio, o = .ratio r) ∧ (∃ r : Ratio, t.1 = .ratio r) ∧
          t.2.printed = w.printed) ∨
        ∃ lines, t.2.printed = w.printed ++ lines ∧ lines ≠ [] ∧ (∀ j line, lines[j]? = some line →
          Halved (amplifies (symbols (i + j) v) + amplifies a) (giveOutAll a (readInAll (i + j) v K)) line) ∧
          StandsAt cfg K v (i + (lines.length - 1)) (a ++ [s]) t.1) := by
  rcases h with ⟨r, rfl⟩ | ⟨r, k, rfl, hr, hv, hk⟩
  · refine (egest_ratio_calm cfg f r w).mono ?_ ?_
    · rintro t ⟨e, -⟩
      exact .inl ⟨⟨r, rfl⟩, by rw [e]⟩
    · rintro s t ⟨e, h⟩
      exact .inl ⟨⟨r, rfl⟩, h, by rw [e]⟩
  · have key : ∀ {lines : List Coef4}, Exact k r.val lines → ∀ j line, lines[j]? = some line →
        Halved (amplifies (symbols (i + j) v) + amplifies a) (giveOutAll a (readInAll (i + j) v K)) line := by
      intro lines he j line hl
      have h1 := hk.step (slow_readInAll j r.val) (he j line hl)
      rw [hv] at h1
      rw [readInAll_add, symbols_add, amplifies_append, Nat.add_right_comm]
      rwa [readInAll_giveOutAll] at h1
    refine (egest_homographic_exact cfg f hr k w).mono ?_ ?_
    · rintro t ⟨lines, hl⟩
      exact .inr ⟨lines, hl.1, key hl.2⟩
    · rintro s t ⟨lines, hl, hne, hx⟩
      refine .inr ⟨lines, hl.1, hne, key hl.2, ?_⟩
      rcases hx with hx | ⟨r', k', e1, e2, e3, e4⟩
      · exact .inl hx
      · refine .inr ⟨r', k', e1, e2, ?_, ?_⟩
        · rw [e3, hv, rest_add]
        · have h1 := hk.step (F := fun k => giveOut s (readInAll (lines.length - 1) r.val k))
            ((slow_readInAll _ _).comp (slow_giveOut _)) e4
          rw [hv] at h1
          rw [readInAll_add, giveOutAll_snoc, symbols_add, amplifies_append, amplifies_append,
            show ∀ a b c d : Nat, a + b + (c + d) = a + c + (b + d) by omega]
          rwa [readInAll_giveOutAll] at h1

theorem egests_ratio (cfg : Cfg) (f m : Nat) (r : Ratio) (w : World) :
    Post (egests cfg f m) (.ratio r, w) (fun _ => True) (fun _ t => ∃ r : Ratio, t.1 = .ratio r) := by
  induction m generalizing r w with
  | zero => exact ⟨r, rfl⟩
  | succ m ih =>
    unfold egests
    refine Post.bind ((egest_ratio_calm cfg f r w).mono (fun _ _ => trivial) fun _ _ h => h) ?_
    rintro s ⟨o, w'⟩ ⟨-, r', rfl⟩
    exact Post.bind (ih r' w') fun _ _ h => h

theorem egests_stands (cfg : Cfg) (f m : Nat) {K : Coef4} {v : ℚ} {i : Nat}
    {a : List (Option Reduction)} {o : Obj} (w : World) (h : StandsAt cfg K v i a o) :
    Post (egests cfg f m) (o, w) (fun _ => True)
      (fun s t => ∃ i', StandsAt cfg K v i' (a ++ s) t.1 ∧ ((∃ r : Ratio, t.1 = .ratio r) ∨
        t.2.printed.length + i = w.printed.length + i' + m)) := by
  induction m generalizing i a o w with
  | zero => exact ⟨i, by simpa using h, .inr rfl⟩
  | succ m ih =>
    unfold egests
    refine Post.bind ((egest_stands cfg f w h).mono (fun _ _ => trivial) fun _ _ h => h) ?_
    rintro s ⟨o', w'⟩ h'
    have hn : ∃ i', StandsAt cfg K v i' (a ++ [s]) o' ∧ ((∃ r : Ratio, o' = .ratio r) ∨
        w'.printed.length + i = w.printed.length + i' + 1) := by
      rcases h' with ⟨-, hr, -⟩ | ⟨lines, e, hne, -, hs⟩
      · exact ⟨0, .inl hr, .inl hr⟩
      · refine ⟨_, hs, .inr ?_⟩
        dsimp only at e
        rw [e, List.length_append]
        have := List.length_pos_iff.2 hne
        omega
    obtain ⟨i', hs, hl⟩ := hn
    refine Post.bind (R := fun l t => ∃ i'', StandsAt cfg K v i'' ((a ++ [s]) ++ l) t.1 ∧
      ((∃ r : Ratio, t.1 = .ratio r) ∨
        t.2.printed.length + i = w.printed.length + i'' + (m + 1))) ?_ ?_
    · rcases hl with ⟨r, rfl⟩ | hl
      · exact (egests_ratio cfg f m r w').mono (fun _ h => h) fun l t h => ⟨0, .inl h, .inl h⟩
      · refine (ih w' hs).mono (fun _ h => h) ?_
        rintro l t ⟨i'', h1, h2⟩
        exact ⟨i'', h1, h2.imp id fun h2 => by omega⟩
    · rintro l t ⟨i'', h1, h2⟩
      exact Post.pure ⟨i'', by simpa using h1, h2⟩

end Steps

open Steps

/-! ## C68 -/

/-- The lines printed by `homographic` for a fraction `num/den` in (0,1) behind a primer: line `i`
is the map after `i` symbols of the operand, halved as often as its four coefficients allow, but at
most once for each `Amplify` among these symbols.  This is so for the lines printed before a panic,
too. -/
theorem C68_homographic_lines (cfg : Cfg) (f : Nat) (p : Option Primer) (num den : Nat)
    (h0 : 0 < num) (h1 : num < den) (h2 : den ≤ cfg.umax) (nx n dx d : Int)
    (hx : CanNegate cfg nx) (hd : CanNegate cfg dx) (hc : ¬ (nx = 0 ∧ dx = 0))
    (w w' : World) (res : Res Steps.Number)
    (hr : Steps.Number.homographic cfg f (.Other p (.ratio ⟨num, den⟩)) nx n dx d w = (res, w')) :
    ∃ lines : List Coef4, w'.printed = w.printed ++ lines ∧ ∀ i line, lines[i]? = some line →
      Halved (amplifies (symbols i (num / den)))
        (readInAll i (num / den) (primerIn4 p ⟨nx, n, dx, d⟩)) line := by
  have h := Steps.Number.homographic_exact f p (r := ⟨num, den⟩) ⟨h0, h1, h2⟩ nx n dx d hx hd hc w
  unfold Post at h
  rw [hr] at h
  cases res with
  | ok v =>
    obtain ⟨lines, e, -⟩ := h
    exact ⟨lines, e⟩
  | panic p => exact h
  | shared => exact h
  | timeout => exact h

/-- (2·x + 1)/(x + 3) at -5/3. -/
example := C68_homographic_lines debug64 40 (some .Ground) 3 5 (by decide) (by decide) (by decide)
  2 1 1 3 (.inl rfl) (.inl rfl) (by decide) Caller.start.world _ _ rfl

/-- Then `m` calls of `egest` on the result, and one more: the lines of that call, which may end in a
panic.  Let `a` be the answers of the `m` calls, and `i` the number of symbols they and `homographic`
have read: one less than the lines printed, for each call.  Line `j` is the map after `i + j` symbols
of the operand, less its primer and the answers `a`, halved as often as the four coefficients allow,
but at most once for each `Amplify` among these symbols and answers.  (When the operand has ended, nothing is printed.) -/
theorem C68_egest_lines (cfg : Cfg) (f : Nat) (p : Option Primer) (num den : Nat)
    (h0 : 0 < num) (h1 : num < den) (h2 : den ≤ cfg.umax) (nx n dx d : Int)
    (hx : CanNegate cfg nx) (hd : CanNegate cfg dx) (hc : ¬ (nx = 0 ∧ dx = 0))
    (w w₁ w₂ w₃ : World) (p' : Option Primer)
    (o o₂ o₃ : Obj)
    (hr : Steps.Number.homographic cfg f (.Other p (.ratio ⟨num, den⟩)) nx n dx d w =
      (.ok (.Other p' o), w₁))
    (hn : ∀ line, w₁.printed.getLast? = some line →
      ∀ z ∈ [line.nx, line.n, line.dx, line.d], CanNegate cfg z)
    (m : Nat) (a : List (Option Reduction)) (ha : Steps.egests cfg f m (o, w₁) = (.ok a, (o₂, w₂)))
    (res : Res (Option Reduction)) (h3 : Steps.egest cfg f (o₂, w₂) = (res, (o₃, w₃))) :
    ((∃ r : Ratio, o₂ = .ratio r) ∧ w₃.printed = w₂.printed) ∨
      ∃ i, w₂.printed.length = w.printed.length + i + (m + 1) ∧ ∃ lines : List Coef4,
        w₃.printed = w₂.printed ++ lines ∧ ∀ j line, lines[j]? = some line →
          Halved (amplifies (symbols (i + j) (num / den)) + amplifies a)
            (giveOutAll a (primerOut p' (readInAll (i + j) (num / den)
              (primerIn4 p ⟨nx, n, dx, d⟩)))) line := by
  have h := Steps.Number.homographic_exact f p (r := ⟨num, den⟩) ⟨h0, h1, h2⟩ nx n dx d hx hd hc w
  unfold Post at h
  rw [hr] at h
  obtain ⟨lines, e1, e2, e3⟩ := h
  have hlast : ∀ last, lines.getLast? = some last → last.CanNegate cfg := by
    intro last hl
    refine hn last ?_
    rw [e1.1, List.getLast?_append, hl]
    rfl
  have hs : StandsAt cfg (primerOut p' (primerIn4 p ⟨nx, n, dx, d⟩)) (num / den)
      (lines.length - 1) [] o := by
    rcases e3 p' o rfl with h | ⟨r', k, rfl, e5, e6, e7⟩
    · exact .inl h
    · refine .inr ⟨r', k, rfl, e6, e5, ?_⟩
      have := e7 _ (List.getLast?_eq_some_getLast e2) (hlast _ (List.getLast?_eq_some_getLast e2))
      rw [primerOut_readInAll] at this
      exact this
  have h4 := egests_stands cfg f m w₁ hs
  unfold Post at h4
  rw [ha] at h4
  obtain ⟨i, h5, h6⟩ := h4
  have h7 := egest_stands cfg f w₂ h5
  simp only [List.nil_append] at h7
  have hi : (∃ r : Ratio, o₂ = .ratio r) ∨ w₂.printed.length = w.printed.length + i + (m + 1) := by
    refine h6.imp id fun h6 => ?_
    have := List.length_pos_iff.2 e2
    rw [e1.1, List.length_append] at h6
    dsimp only at h6
    omega
  have key : ((∃ r : Ratio, o₂ = .ratio r) ∧ w₃.printed = w₂.printed) ∨
      ∃ lines, w₃.printed = w₂.printed ++ lines ∧ ∀ j line, lines[j]? = some line →
        Halved (amplifies (symbols (i + j) (num / den)) + amplifies a)
          (giveOutAll a (readInAll (i + j) (num / den)
            (primerOut p' (primerIn4 p ⟨nx, n, dx, d⟩)))) line := by
    unfold Post at h7
    rw [h3] at h7
    cases res with
    | ok v =>
      rcases h7 with ⟨h, -, h'⟩ | ⟨lines, h, -, h', -⟩
      · exact .inl ⟨h, h'⟩
      · exact .inr ⟨lines, h, h'⟩
    | panic p => exact h7
    | shared => exact h7
    | timeout => exact h7
  by_cases hq : ∃ r : Ratio, o₂ = .ratio r
  · refine .inl ⟨hq, ?_⟩
    obtain ⟨r, rfl⟩ := hq
    have h8 := egest_ratio_calm cfg f r w₂
    unfold Post at h8
    rw [h3] at h8
    cases res <;> exact congrArg World.printed h8.1
  · rcases key with ⟨h, -⟩ | ⟨lines, h, h'⟩
    · exact absurd h hq
    · refine .inr ⟨i, hi.resolve_left hq, lines, h, fun j line hl => ?_⟩
      rw [primerOut_readInAll]
      exact h' j line hl

/-- (2·x + 1)/(x + 3) at -5/3: after the primer and one symbol. -/
example := C68_egest_lines debug64 40 (some .Ground) 3 5 (by decide) (by decide) (by decide)
  2 1 1 3 (.inl rfl) (.inl rfl) (by decide) Caller.start.world _ _ _ _ _ _ _
  (by rfl) (fun _ _ _ _ => .inl rfl) 1 _ (by rfl) _ (by rfl)

/-- The coefficients of a line are determined by this. -/
theorem C68_determined (a : Nat) (K line line' : Coef4) (h : Halved a K line)
    (h' : Halved a K line') : line = line' := h.unique h'

/-- 12, 8, 4, 16 halved at most once, and halved at most five times. -/
example := C68_determined 1 ⟨12, 8, 4, 16⟩ ⟨6, 4, 2, 8⟩ ⟨6, 4, 2, 8⟩ ⟨1, le_rfl, by decide, .inl rfl⟩
  ⟨1, le_rfl, by decide, .inl rfl⟩
example := C68_determined 5 ⟨12, 8, 4, 16⟩ ⟨3, 2, 1, 4⟩ ⟨3, 2, 1, 4⟩
  ⟨2, by decide, by decide, .inr (by decide)⟩
  ⟨2, by decide, by decide, .inr (by decide)⟩

theorem Spec.primerIn4_allEven {p : Option Primer} {k : Coef4} (hk : ¬ AllEven k) :
    ¬ AllEven (primerIn4 p k) := by
  rcases p with _ | p
  · exact hk
  · rintro ⟨a, b, c, d⟩
    cases p with
    | Turn => exact hk ⟨b, a, d, c⟩
    | Reflect => exact hk ⟨dvd_neg.1 a, b, dvd_neg.1 c, d⟩
    | Ground => exact hk ⟨dvd_neg.1 b, a, dvd_neg.1 d, c⟩

/-- If the given coefficients are not all even, then what C68_homographic_lines and C68_egest_lines
say of a line is that it is the map divided by the greatest power of two that divides all four
coefficients. -/
theorem C68_lowest_terms (p p' : Option Primer) (K : Coef4)
    (he : ¬ (2 ∣ K.nx ∧ 2 ∣ K.n ∧ 2 ∣ K.dx ∧ 2 ∣ K.d)) (v : ℚ) (i : Nat)
    (a : List (Option Reduction)) (line : Coef4) :
    (Halved (amplifies (symbols i v)) (readInAll i v (primerIn4 p K)) line →
      Stripped (readInAll i v (primerIn4 p K)) line) ∧
    (Halved (amplifies (symbols i v) + amplifies a)
        (giveOutAll a (primerOut p' (readInAll i v (primerIn4 p K)))) line →
      Stripped (giveOutAll a (primerOut p' (readInAll i v (primerIn4 p K)))) line) :=
  ⟨fun h => h.stripped (slow_readInAll i v) (primerIn4_allEven he),
   fun h => h.stripped (F := fun k => giveOutAll a (primerOut p' (readInAll i v k)))
    (((slow_readInAll i v).comp (slow_primerOut p')).comp (slow_giveOutAll a))
    (primerIn4_allEven he)⟩

/-- (2·x + 1)/(x + 3) at the symbols of 3/17. -/
example := (C68_lowest_terms none none ⟨2, 1, 1, 3⟩ (by decide) (3 / 17) 3 []
  ⟨2, 9, 3, 25⟩).1

/-- Test: three answers of `(3x+1)/(x+4)` at `5/17`.  -/
example : ((do
      match ← Steps.Number.homographic debug64 40 (.Other none (.ratio ⟨5, 17⟩)) 3 1 1 4 with
      | .Other _ o => Homographic.owned o (Steps.egests debug64 40 3)
      | _ => Mut.timeout : Mut World (List (Option Reduction))) Caller.start.world).2.printed =
    [⟨3, 1, 1, 4⟩, ⟨3, 1, 1, 4⟩, ⟨3, 2, 1, 8⟩, ⟨2, 5, 8, 9⟩, ⟨5, 7, 9, 17⟩, ⟨10, 14, 9, 17⟩,
      ⟨-1, 3, 10, 14⟩] := by decide +kernel

/-- Test: coefficients that are all even are halved once for each `Amplify`, not at the start:
3·x - 1, written 24·x - 8 over 8, at 1/8.  -/
example : (Steps.Number.homographic debug64 40 (.Other none (.ratio ⟨1, 8⟩)) 24 (-8) 0 8
      Caller.start.world).2.printed = [⟨24, -8, 0, 8⟩, ⟨12, -8, 0, 8⟩, ⟨6, -8, 0, 8⟩] := by
  decide +kernel

end Clarith
