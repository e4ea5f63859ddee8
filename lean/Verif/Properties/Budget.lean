import Verif.Properties.ReadsCombine
import Verif.Proofs.AddOne

/-! # How many symbols can be read before anything overflows (C65)

C31 and C42 say that `homographic` and `combine` never overflow on operands with few symbols.  Here
the operands are any numbers that are not special: with many symbols, without end, or such that
panic later.  What counts is how many of their symbols are needed.  If the primer and the first `m`
symbols of the result are settled by the first `i` symbols of the operand (C59), they come out
without overflow when `(M * 2^i)^2` is a machine integer, where `M` bounds the coefficients.  `m` does
not matter.  For `combine`, with the first `i` symbols of both operands, `(M * 4^i)^2`. -/

namespace Clarith

open Spec Out

variable {cfg : Cfg}

/-- In every build, also without overflow checks. -/
theorem C65_homographic {p p' : Option Primer} {c c' : Clog} {nx n dx d M : Int}
    {l : List Reduction} {m : Nat} {out : List (Option Reduction)}
    (h1 : |nx| + |n| ≤ M) (h2 : |dx| + |d| ≤ M) (hM : (M * 2 ^ l.length) ^ 2 ≤ cfg.imax)
    (hdet : nx * d - n * dx ≠ 0) (hl : Gives cfg c l c') (hs : Settled p nx n dx d l p' m out)
    (hpole : (∀ t, Begins l t → 0 < dx * applyPrimer p t + d) ∨
      ∃ B : ℚ, ∀ t, Begins l t → |(nx * applyPrimer p t + n) / (dx * applyPrimer p t + d)| ≤ B) :
    ∃ c0, Returns (fun f => Number.homographic cfg f (.Other p c) nx n dx d) (.Other p' c0) ∧
      ∃ l1 l2 c1 k, l = l1 ++ l2 ∧ Gives cfg c l1 c1 ∧
        Returns (fun f => Clog.egests cfg f m c0) (out, .homographic c1 k) := by
  have hM1 : 1 ≤ M := by
    by_contra h
    have a1 := abs_nonneg nx
    have a2 := abs_nonneg n
    have e1 : nx = 0 := abs_eq_zero.1 (by omega)
    have e2 : n = 0 := abs_eq_zero.1 (by omega)
    simp [e1, e2] at hdet
  have hs' : cfg.SafeUpTo NoPanic (M * 2 ^ l.length) :=
    safeUpTo_of_sq_le (mul_nonneg (by omega) (by positivity)) (by rw [← sq]; exact hM)
  obtain ⟨_, e, c0, rfl, h⟩ := (settled_is_enough ⟨hM1, h1, h2⟩ hs' hdet hl hs hpole).returns
  obtain ⟨⟨o, c2⟩, e', e1, l1, l2, c1, k, g1, g2, -, g3⟩ := h.returns
  simp only at e1 g3
  subst e1 g3
  exact ⟨c0, e, l1, l2, c1, k, g1, g2, e'⟩

/-- The same for `combine`. -/
theorem C65_combine {px py p' : Option Primer} {cx cx' cy cy' : Clog}
    {nxy nx ny n dxy dx dy d M : Int} {lx ly : List Reduction} {out : List Reduction}
    (h1 : |nxy| + |nx| + |ny| + |n| ≤ M) (h2 : |dxy| + |dx| + |dy| + |d| ≤ M)
    (hM : (M * 4 ^ lx.length) ^ 2 ≤ cfg.imax) (hx : Gives cfg cx lx cx')
    (hy : Gives cfg cy ly cy') (hlen : lx.length = ly.length)
    (hs : ClearlySettled px py nxy nx ny n dxy dx dy d lx ly p' out) :
    ∃ c0, Returns (fun f => Number.combine cfg f (.Other px cx) (.Other py cy)
        nxy nx ny n dxy dx dy d) (.Other p' c0) ∧
      ∃ lx1 lx2 ly1 ly2 cx1 cy1 k, lx = lx1 ++ lx2 ∧ ly = ly1 ++ ly2 ∧
        Gives cfg cx lx1 cx1 ∧ Gives cfg cy ly1 cy1 ∧
        Returns (fun f => Clog.egests cfg f out.length c0) (out.map some, .combine cx1 cy1 k) := by
  have hM1 : 1 ≤ M := by
    by_contra h
    have a1 := abs_nonneg dxy
    have a2 := abs_nonneg dx
    have a3 := abs_nonneg dy
    have a4 := abs_nonneg d
    have e1 : dxy = 0 := abs_eq_zero.1 (by omega)
    have e2 : dx = 0 := abs_eq_zero.1 (by omega)
    have e3 : dy = 0 := abs_eq_zero.1 (by omega)
    have e4 : d = 0 := abs_eq_zero.1 (by omega)
    obtain ⟨δ, hδ, hs⟩ := hs
    have hbx := unread_mem lx (s := 1 / 2) (by norm_num) (by norm_num)
    have hby := unread_mem ly (s := 1 / 2) (by norm_num) (by norm_num)
    have := (hs _ _ _ _ ((symbols_iff_unread lx _).2 ⟨1 / 2, by norm_num, by norm_num, rfl⟩)
      ((symbols_iff_unread ly _).2 ⟨1 / 2, by norm_num, by norm_num, rfl⟩) rfl rfl).1
    rw [e1, e2, e3, e4] at this
    simp only [Int.cast_zero, zero_mul, add_zero, abs_zero] at this
    have hp : 0 < max 1 |applyPrimer px (unread lx (1 / 2))| *
        max 1 |applyPrimer py (unread ly (1 / 2))| :=
      mul_pos (lt_max_of_lt_left one_pos) (lt_max_of_lt_left one_pos)
    nlinarith
  have hs' : cfg.SafeUpTo NoPanic (M * 4 ^ lx.length) :=
    safeUpTo_of_sq_le (mul_nonneg (by omega) (by positivity)) (by rw [← sq]; exact hM)
  obtain ⟨_, e, c0, rfl, h⟩ := (clear_is_enough ⟨hM1, h1, h2⟩ hs' hx hy hlen hs).returns
  obtain ⟨⟨o, c2⟩, e', e1, lx1, lx2, ly1, ly2, cx1, cy1, k, g1, g2, -, g3, g4, -, g5⟩ := h.returns
  simp only at e1 g5
  subst e1 g5
  exact ⟨c0, e, lx1, lx2, ly1, ly2, cx1, cy1, k, g1, g2, g3, g4, e'⟩

/-! ## Examples -/

private theorem settled_turn : Settled (some .Turn) 1 1 0 1 [.Amplify] (some .Turn) 1
    [some .Amplify] := by
  rintro t ⟨h0, h1, h2⟩
  have ht : t < 1 / 2 := sym_eq_amplify.1 (by simpa [symbols_succ, symbols] using h2)
  have hu : t / (1 + t) < 1 / 2 := by
    rw [div_lt_div_iff₀ (by linarith) (by norm_num)]; linarith
  refine ⟨by simp, t / (1 + t), by positivity, by linarith, ?_, by
    rw [symbols_succ, sym_lt hu]; rfl⟩
  simp only [applyPrimer]
  push_cast
  field_simp
  ring

/-- The number 255+1 is built, but panics at its eighth symbol (C61).  Adding one to it, in a build
without overflow checks: the first symbol of the result needs only one symbol of it. -/
example := C65_homographic (cfg := release64) (c := .homographic (.ratio ⟨1, 255⟩) ⟨1, 0, 1, 1⟩)
  (c' := .homographic (.ratio ⟨1, 255⟩) ⟨2, 0, 1, 1⟩) (M := 2) (by decide) (by decide) (by decide)
  (by decide) (FuelMono.returns (Clog.egests_mono _ _ _) 5 (by decide)) settled_turn
  (.inl fun t _ => by norm_num)

example : Panics (fun f => Clog.egests release64 f 8
    (.homographic (.ratio ⟨1, 255⟩) ⟨1, 0, 1, 1⟩)) .unwrapNone :=
  FuelMono.panics (Clog.egests_mono _ _ _) 100 (by decide +kernel)

/-- `x + y + 3` for two operands that begin with `Uncover`, `Amplify`, on a 16 bit machine without
overflow checks: `(5 * 4^2)^2 = 6400` is a machine integer. -/
example := C65_combine (cfg := ⟨16, by decide, false⟩) (cx := .ratio ⟨3, 4⟩) (cy := .ratio ⟨7, 10⟩)
  (cx' := .ratio ⟨2, 3⟩) (cy' := .ratio ⟨6, 7⟩) (M := 5) (by decide) (by decide) (by decide)
  (FuelMono.returns (Clog.egests_mono _ _ _) 5 (by decide))
  (FuelMono.returns (Clog.egests_mono _ _ _) 5 (by decide)) rfl clear_sum

/-! ## The limit is near

An operand and a map where 35 symbols are needed and the 19th symbol of the result overflows, on a
64 bit machine.  With 30 symbols it could not. -/

private def widest : Cfg := ⟨256, by decide, true⟩

/-- The coefficients after the symbols `l`. -/
private def Coef4.readAll (cfg : Cfg) : List Reduction → Coef4 → Out Coef4
  | [], k => .ok k
  | .Amplify :: l, k => k.ingestAmplify cfg >>= Coef4.readAll cfg l
  | .Uncover :: l, k => k.ingestUncover cfg >>= Coef4.readAll cfg l

/-- `m` symbols given without reading. -/
private def Coef4.giveAll (cfg : Cfg) : Nat → Coef4 → Out (List (Option Reduction))
  | 0, _ => .ok []
  | m + 1, k => k.reductionAttempt cfg >>= fun t => match t with
    | some (r, k') => Coef4.giveAll cfg m k' >>= fun o => .ok (r :: o)
    | none => .timeout

private theorem Coef4.readAll_after (l : List Reduction) : ∀ {k k' : Coef4}, k.det ≠ 0 →
    Coef4.readAll widest l k = .ok k' → k.After l k' := by
  induction l with
  | nil => intro k k' hd h; cases h; exact .nil hd
  | cons r l ih =>
    intro k k' hd h
    obtain ⟨M, hb⟩ := k.exists_bounded
    have hs := safeUpTo_overflow (cfg := widest) rfl M
    cases r
    · simp only [Coef4.readAll] at h
      have h2 := Coef4.ingestAmplify_sat hs hb
      cases e : k.ingestAmplify widest with
      | ok k1 =>
        rw [e] at h h2
        have ha := Coef4.after_amplify hd h2
        exact ha.trans (ih ha.det h)
      | panic p => rw [e] at h; cases h
      | timeout => rw [e] at h; cases h
    · simp only [Coef4.readAll] at h
      have h2 := Coef4.ingestUncover_sat hs hb
      cases e : k.ingestUncover widest with
      | ok k1 =>
        rw [e] at h h2
        obtain rfl : k1 = _ := h2
        have ha := Coef4.after_uncover hd
        exact ha.trans (ih ha.det h)
      | panic p => rw [e] at h; cases h
      | timeout => rw [e] at h; cases h

private theorem Coef4.giveAll_symbols (m : Nat) : ∀ {k : Coef4} {out}, k.Inv →
    Coef4.giveAll widest m k = .ok out → ∀ s, 0 < s → s < 1 → symbols m (k.val s) = out := by
  induction m with
  | zero => intro k out _ h s _ _; cases h; rfl
  | succ m ih =>
    intro k out hI h s s0 s1
    obtain ⟨M, hb⟩ := k.exists_bounded
    have h1 := Coef4.reductionAttempt_sat (safeUpTo_overflow (cfg := widest) rfl M) hb hI.1
    simp only [Coef4.giveAll] at h
    cases e : k.reductionAttempt widest with
    | ok o =>
      rw [e] at h h1
      rcases o with _ | ⟨r, k'⟩
      · cases h
      · have h2 := Coef4.red_step s0 s1 hI.2 hb (h1 r k' rfl)
        simp only [ok_bind] at h
        cases e' : Coef4.giveAll widest m k' with
        | ok o =>
          rw [e'] at h
          cases h
          rw [symbols_succ, ← h2.1, ← h2.2.2.2, ih h2.2.1 e' s s0 s1]
        | panic p => rw [e'] at h; cases h
        | timeout => rw [e'] at h; cases h
    | panic p => rw [e] at h; cases h
    | timeout => rw [e] at h; cases h

private def limitSymbols : List Reduction :=
  .Uncover :: (List.replicate 16 .Amplify ++ .Uncover :: .Uncover ::
    (List.replicate 15 .Amplify ++ [.Uncover]))

private def limitAnswers : List (Option Reduction) :=
  some .Uncover :: (List.replicate 17 (some .Amplify) ++ [some .Uncover])

/-- (x+1)/2 for x = 131071/131072.  The first 19 symbols of the result are settled by the first 35
of the operand, and the coefficients are at most 2; but reading the 19th panics. -/
theorem C65_limit : ∃ l c' out, l.length = 35 ∧ Gives debug64 (.ratio ⟨131071, 131072⟩) l c' ∧
    Settled none 1 1 0 2 l none 19 out ∧
    ∃ c0, Returns (fun f => Number.homographic debug64 f (.Other none (.ratio ⟨131071, 131072⟩))
      1 1 0 2) (.Other none c0) ∧ Panics (fun f => Clog.egests debug64 f 19 c0) .unwrapNone := by
  refine ⟨limitSymbols, .ratio ⟨32767, 32768⟩, limitAnswers, by decide,
    FuelMono.returns (Clog.egests_mono _ _ _) 60 (by decide +kernel), ?_,
    .homographic (.ratio ⟨131071, 131072⟩) ⟨1, 1, 0, 2⟩,
    FuelMono.returns (Number.homographic_mono _ _ _ _ _ _) 60 (by decide +kernel),
    FuelMono.panics (Clog.egests_mono _ _ _) 60 (by decide +kernel)⟩
  set k0 : Coef4 := ⟨8589967360, 8590098433, 8590000128, 8590131202⟩
  have hA := Homographic.absorbs (k := ⟨1, 1, 0, 2⟩) (p := none) (by decide) (.inl ⟨rfl, rfl⟩)
  have ha := Coef4.readAll_after limitSymbols (k := ⟨1, 1, 0, 2⟩) (k' := k0) (by decide)
    (by decide +kernel)
  have hI : k0.Inv :=
    ⟨.inl ⟨by decide, by decide, by decide, by decide, by decide, by decide, by decide⟩, by decide⟩
  refine hA.settled.2 fun s s0 s1 => ⟨by simp [Coef4.denAt], k0.val s, (hI.val_mem s0 s1).1,
    (hI.val_mem s0 s1).2, (ha.val s0 s1).symm, ?_⟩
  exact Coef4.giveAll_symbols 19 hI (by decide +kernel) s s0 s1

end Clarith
