import Verif.Proofs.Logic

/-! # Denotation of clogs, one call at a time -/

namespace Clarith

open Out

namespace Spec

/-- First symbol of `x`. -/
def sym (x : ℚ) : Option Reduction :=
  if x < 1 / 2 then some .Amplify else if 1 / 2 < x then some .Uncover else none

/-- What is left of `x` after its first symbol. -/
def next (x : ℚ) : ℚ :=
  if x < 1 / 2 then 2 * x else if 1 / 2 < x then 1 / x - 1 else x

theorem symbols_succ (k : Nat) (x : ℚ) : symbols (k + 1) x = sym x :: symbols k (next x) := by
  simp only [symbols, sym, next]
  split_ifs <;> rfl

theorem sym_half : sym (1 / 2) = none := by simp [sym]
theorem next_half : next (1 / 2) = 1 / 2 := by simp [next]
theorem sym_lt {x : ℚ} (h : x < 1 / 2) : sym x = some .Amplify := by simp only [sym, if_pos h]
theorem next_lt {x : ℚ} (h : x < 1 / 2) : next x = 2 * x := by simp only [next, if_pos h]
theorem sym_gt {x : ℚ} (h : 1 / 2 < x) : sym x = some .Uncover := by
  simp only [sym, if_neg (not_lt.2 h.le), if_pos h]
theorem next_gt {x : ℚ} (h : 1 / 2 < x) : next x = 1 / x - 1 := by
  simp only [next, if_neg (not_lt.2 h.le), if_pos h]

theorem sym_eq_none {x : ℚ} : sym x = none ↔ x = 1 / 2 := by
  unfold sym
  split_ifs with h1 h2
  · simp; linarith
  · simp; linarith
  · simp; linarith

theorem sym_eq_amplify {x : ℚ} : sym x = some .Amplify ↔ x < 1 / 2 := by
  unfold sym; split_ifs <;> simp_all

theorem sym_eq_uncover {x : ℚ} : sym x = some .Uncover ↔ 1 / 2 < x := by
  unfold sym; split_ifs <;> simp_all
  linarith

theorem next_mem {x : ℚ} (h0 : 0 < x) (h1 : x < 1) : 0 < next x ∧ next x < 1 := by
  unfold next
  split_ifs with h h'
  · constructor <;> linarith
  · constructor
    · rw [sub_pos, lt_div_iff₀ h0]; linarith
    · rw [sub_lt_iff_lt_add, div_lt_iff₀ h0]; linarith
  · exact ⟨h0, h1⟩

theorem Expands.mem {x : ℚ} {l} (h : Expands x l) : 0 < x ∧ x < 1 := by
  cases h with
  | half => norm_num
  | amplify h0 h1 _ => exact ⟨h0, by linarith⟩
  | uncover h0 h1 _ => exact ⟨by linarith, h1⟩

end Spec

open Spec

/-- The answers of one call. -/
theorem egests_succ (cfg : Cfg) (f k : Nat) (c : Clog) :
    Clog.egests cfg f (k + 1) c = (do
      let (r, c) ← Clog.egest cfg f c
      let (rs, c) ← Clog.egests cfg f k c
      pure (r :: rs, c)) := rfl

theorem Ends.of_panics {α : Type} {A : Panic → Prop} {m : Nat → Out α} {P : α → Prop} {p}
    (h : Panics m p) (hp : A p) : Ends A m P := .inr ⟨p, h, hp⟩

/-- Coinduction: a relation in which every call answers the right symbol and leads to a
related pair only contains clogs paired with their denotation. -/
theorem Clog.Denotes.coind {cfg : Cfg} {A : Panic → Prop} (R : Clog → ℚ → Prop)
    (hR : ∀ c x, R c x → 0 < x ∧ x < 1 ∧
      Ends A (fun f => Clog.egest cfg f c) (fun r => r.1 = sym x ∧ R r.2 (next x)))
    {c : Clog} {x : ℚ} (h : R c x) : Clog.Denotes cfg A c x := by
  refine ⟨(hR c x h).1, (hR c x h).2.1, fun k => ?_⟩
  induction k generalizing c x with
  | zero => exact Ends.of_sat (Sat.pure rfl)
  | succ k ih =>
    obtain ⟨h0, h1, hE⟩ := hR c x h
    simp only [egests_succ]
    refine Ends.bind hE ?_
    rintro ⟨r, c'⟩ ⟨hr, hc⟩
    refine Ends.bind (ih hc) ?_
    rintro ⟨rs, c''⟩ hrs
    refine Ends.of_sat (Sat.pure ?_)
    simp only at hr hrs ⊢
    rw [symbols_succ, hr, hrs]

/-- One call on a clog that denotes `x`. -/
theorem Clog.Denotes.step {cfg : Cfg} {A : Panic → Prop} {c : Clog} {x : ℚ}
    (h : Clog.Denotes cfg A c x) :
    Ends A (fun f => Clog.egest cfg f c)
      (fun r => r.1 = sym x ∧ Clog.Denotes cfg A r.2 (next x)) := by
  obtain ⟨h0, h1, hk⟩ := h
  rcases hk 1 with ⟨⟨l, c'⟩, ⟨f₀, hf⟩, hl⟩ | ⟨p, ⟨f₀, hf⟩, hp⟩
  · have key : ∀ f ≥ f₀, ∃ r, Clog.egest cfg f c = .ok (r, c') ∧ l = [r] := by
      intro f hge
      have := hf f hge
      simp only [egests_succ] at this
      cases hE : Clog.egest cfg f c with
      | ok rc =>
        obtain ⟨r, c1⟩ := rc
        simp [hE, Clog.egests] at this
        obtain ⟨rfl, rfl⟩ := this
        exact ⟨r, rfl, rfl⟩
      | panic p => simp [hE] at this
      | timeout => simp [hE] at this
    obtain ⟨r, _, hr⟩ := key f₀ le_rfl
    have hret : Returns (fun f => Clog.egest cfg f c) (r, c') := by
      refine ⟨f₀, fun f hge => ?_⟩
      obtain ⟨r', h', hr'⟩ := key f hge
      have : r = r' := by simpa using hr.symm.trans hr'
      simpa [this] using h'
    have hsym : r = sym x := by
      simp only at hl
      rw [hl, symbols_succ] at hr
      simpa using (List.cons.inj hr).1.symm
    refine .inl ⟨(r, c'), hret, hsym, ?_⟩
    have hn := next_mem h0 h1
    refine ⟨hn.1, hn.2, fun k => ?_⟩
    obtain ⟨f₁, hret⟩ := hret
    rcases hk (k + 1) with ⟨⟨l2, c2⟩, ⟨f₂, hf2⟩, hl2⟩ | ⟨p, ⟨f₂, hf2⟩, hp⟩
    · have key2 : ∀ f ≥ max f₁ f₂, ∃ rs, Clog.egests cfg f k c' = .ok (rs, c2) ∧ l2 = r :: rs := by
        intro f hge
        have h2 := hf2 f (by omega)
        simp only [egests_succ, hret f (by omega)] at h2
        simp only [ok_bind] at h2
        cases hE : Clog.egests cfg f k c' with
        | ok rc =>
          obtain ⟨rs, c1⟩ := rc
          simp [hE] at h2
          obtain ⟨rfl, rfl⟩ := h2
          exact ⟨rs, rfl, rfl⟩
        | panic p => simp [hE] at h2
        | timeout => simp [hE] at h2
      obtain ⟨rs, _, hrs⟩ := key2 _ le_rfl
      refine .inl ⟨(rs, c2), ⟨max f₁ f₂, fun f hge => ?_⟩, ?_⟩
      · obtain ⟨rs', h', hrs'⟩ := key2 f hge
        have : rs = rs' := by simpa using hrs.symm.trans hrs'
        simpa [this] using h'
      · simp only at hl2 ⊢
        rw [hl2, symbols_succ] at hrs
        exact (List.cons.inj hrs).2.symm
    · refine .inr ⟨p, ⟨max f₁ f₂, fun f hge => ?_⟩, hp⟩
      have h2 := hf2 f (by omega)
      simp only [egests_succ, hret f (by omega)] at h2
      simp only [ok_bind] at h2
      cases hE : Clog.egests cfg f k c' with
      | ok rc => simp [hE] at h2
      | panic p => simpa [hE] using h2
      | timeout => simp [hE] at h2
  · refine .inr ⟨p, ⟨f₀, fun f hge => ?_⟩, hp⟩
    have := hf f hge
    simp only [egests_succ] at this
    cases hE : Clog.egest cfg f c with
    | ok rc => simp [hE, Clog.egests] at this
    | panic p => simpa [hE] using this
    | timeout => simp [hE] at this

theorem Clog.Denotes.weaken {cfg : Cfg} {A B : Panic → Prop} {c : Clog} {x : ℚ}
    (h : Clog.Denotes cfg A c x) (hAB : ∀ p, A p → B p) : Clog.Denotes cfg B c x :=
  ⟨h.1, h.2.1, fun k => (h.2.2 k).weaken hAB⟩

theorem Clog.Denotes.exact_any {cfg : Cfg} {A : Panic → Prop} {c : Clog} {x : ℚ}
    (h : Clog.Denotes cfg NoPanic c x) : Clog.Denotes cfg A c x :=
  h.weaken fun _ hp => hp.elim

theorem Number.Denotes.weaken {cfg : Cfg} {A B : Panic → Prop} {n : Number} {q : ℚ}
    (h : Number.Denotes cfg A n q) (hAB : ∀ p, A p → B p) : Number.Denotes cfg B n q := by
  cases n with
  | Special s => exact h
  | Other p c =>
    obtain ⟨x, hx, hq⟩ := h
    exact ⟨x, hx.weaken hAB, hq⟩

/-- Every rational in (0,1) has a finite expansion: well-founded induction. -/
theorem Spec.exists_expands (x : ℚ) (h0 : 0 < x) (h1 : x < 1) : ∃ l, Expands x l := by
  -- x = n / d with measure (d, d - n)
  suffices H : ∀ (d : Nat) (m : Nat) (n : Nat), 0 < n → n < d → d - n = m →
      ∃ l, Expands ((n : ℚ) / d) l by
    have hd : 0 < x.den := x.den_pos
    have hn : 0 < x.num := Rat.num_pos.2 h0
    have hx : x = (x.num.toNat : ℚ) / x.den := by
      conv_lhs => rw [← Rat.num_div_den x]
      congr 1
      have : ((x.num.toNat : Int) : ℚ) = (x.num : ℚ) := by rw [Int.toNat_of_nonneg hn.le]
      exact_mod_cast this.symm
    have hlt : x.num.toNat < x.den := by
      have : (x.num.toNat : ℚ) < x.den := by
        rw [hx, div_lt_iff₀ (by exact_mod_cast hd), one_mul] at h1; exact h1
      exact_mod_cast this
    rw [hx]
    exact H x.den _ x.num.toNat (by omega) hlt rfl
  intro d
  induction d using Nat.strong_induction_on with
  | _ d ihd =>
  intro m
  induction m using Nat.strong_induction_on with
  | _ m ihm =>
  intro n hn hnd hm
  have hn' : (0 : ℚ) < n := by exact_mod_cast hn
  have hd' : (0 : ℚ) < d := by exact_mod_cast (by omega : 0 < d)
  have hnd' : (n : ℚ) < d := by exact_mod_cast hnd
  rcases lt_trichotomy (2 * n) d with h | h | h
  · have h' : (2 * n : ℚ) < d := by exact_mod_cast h
    obtain ⟨l, hl⟩ := ihm (d - 2 * n) (by omega) (2 * n) (by omega) h rfl
    refine ⟨_, Expands.amplify (div_pos hn' hd') ?_ (l := l) ?_⟩
    · rw [div_lt_div_iff₀ hd' (by norm_num)]; linarith
    · convert hl using 1; push_cast; ring
  · refine ⟨[], ?_⟩
    have : (n : ℚ) / d = 1 / 2 := by
      rw [← h]; push_cast; field_simp
    rw [this]; exact .half
  · have h' : (d : ℚ) < 2 * n := by exact_mod_cast h
    obtain ⟨l, hl⟩ := ihd n hnd (n - (d - n)) (d - n) (by omega) (by omega) rfl
    refine ⟨_, Expands.uncover ?_ ?_ (l := l) ?_⟩
    · rw [div_lt_div_iff₀ (by norm_num) hd']; linarith
    · rw [div_lt_iff₀ hd', one_mul]; exact hnd'
    · convert hl using 1
      rw [Nat.cast_sub hnd.le]; field_simp

end Clarith
