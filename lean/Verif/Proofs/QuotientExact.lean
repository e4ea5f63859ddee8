import Verif.Proofs.Quotient

/-! # `(2^b - 1)/2^b` divided by itself

No coefficient is halved after the first block, so that the last products are known up to a factor
less than two. -/

namespace Clarith

open Out Spec Support

variable {cfg : Cfg} {A : Panic → Prop}

namespace Combine

variable {cx cy : Clog} {w σ : Int} {P : Combine.Primed → Prop}

/-- What the primer attempt and the two ingestions need. -/
private theorem small_bounds {a b c d w : Int} (ha : 0 ≤ a) (ha' : a ≤ d) (hb : 0 ≤ b)
    (hb' : b ≤ d) (hc : 0 ≤ c) (hc' : c ≤ d) (hd : 0 < d) (hw : 16 ≤ w) (h : 8 * d ^ 2 ≤ w) :
    (a + b + c + d) * (b + d) ≤ w ∧ (a + b + c + d) * (c + d) ≤ w ∧ 4 * (a + b + c + d) ≤ w :=
  quot_bounds (N := d) ha ha' hb hb' hc hc' hd hw le_rfl (by exact_mod_cast h)

private theorem run_lt {m i : Nat} (hm : 1 ≤ m) (hi : i < m) :
    (2 : ℚ) ^ i / (2 ^ (m + 1) - 1) < 1 / 2 := by
  have hN : (2 : ℚ) * 2 ^ i < (2 ^ (m + 1) - 1) * 1 := by
    have h1 : (2 : ℚ) ^ (i + 1) ≤ 2 ^ m := pow_le_pow_right₀ (by norm_num) (by omega)
    have h2 : (2 : ℚ) ^ 1 ≤ 2 ^ m := pow_le_pow_right₀ (by norm_num) hm
    rw [pow_succ] at h1 ⊢
    linarith
  have hi0 : (0 : ℚ) < 2 ^ i := by positivity
  rw [div_lt_div_iff₀ (by linarith) (by norm_num)]
  linarith

private theorem run_next {m i : Nat} (hm : 1 ≤ m) (hi : i < m) :
    next ((2 : ℚ) ^ i / (2 ^ (m + 1) - 1)) = 2 ^ (i + 1) / (2 ^ (m + 1) - 1) := by
  rw [next_lt (run_lt hm hi), pow_succ]
  ring

/-- A run of `Amplify`s of both operands, with nothing to halve. -/
theorem prime_quot_run (hσ' : σ = 1 ∨ σ = -1) (hw : 16 ≤ w) (hA : cfg.CheckSafe A w) (m : Nat)
    (hm : 1 ≤ m) (a : Int) (ho : a % 2 = 1) (ha : 0 ≤ a) :
    ∀ (k i : Nat), i + k = m → ∀ (b c d : Int) (cx cy : Clog),
      Clog.Denotes cfg A cx (2 ^ i / (2 ^ (m + 1) - 1)) →
      Clog.Denotes cfg A cy (2 ^ i / (2 ^ (m + 1) - 1)) →
      cfg.Sign (a + b + c + d) σ → b ≠ c →
      0 ≤ b → b ≤ d → 0 ≤ c → c ≤ d → a ≤ d → 8 * (4 ^ k * d) ^ 2 ≤ w →
      (cfg.Sign (a + 2 ^ k * b + 2 ^ k * c + 4 ^ k * d) σ → ∀ cx' cy', Clog.Denotes cfg A cx' (2 ^ m / (2 ^ (m + 1) - 1)) →
        Clog.Denotes cfg A cy' (2 ^ m / (2 ^ (m + 1) - 1)) →
        Ev A (fun i j => Combine.prime cfg (Clog.egest cfg i) j
          ⟨cx', cy', Coef8.quot σ a (2 ^ k * b) (2 ^ k * c) (4 ^ k * d)⟩) P) →
      Ev A (fun i j => Combine.prime cfg (Clog.egest cfg i) j ⟨cx, cy, Coef8.quot σ a b c d⟩) P
  | 0, i, hi, b, c, d, cx, cy, hx, hy, hσ, _, _, _, _, _, _, _, hn => by
    obtain rfl : i = m := by omega
    simpa using hn (by simpa using hσ) cx cy hx hy
  | k + 1, i, hi, b, c, d, cx, cy, hx, hy, hσ, hbc, hb, hb', hc, hc', had, bd, hn => by
    have hd : 0 < d := by omega
    have p2 : (1 : Int) ≤ 4 ^ k := one_le_pow₀ (by norm_num)
    have bd' : 8 * (4 ^ k * (4 * d)) ^ 2 ≤ w := by
      rw [show (4 : Int) ^ (k + 1) * d = 4 ^ k * (4 * d) by rw [pow_succ]; ring] at bd
      exact bd
    have bd0 : 8 * d ^ 2 ≤ w := by
      have : d ^ 2 ≤ (4 ^ k * (4 * d)) ^ 2 := pow_le_pow_left₀ (by omega) (by nlinarith) 2
      omega
    obtain ⟨s1, s2, s3⟩ := small_bounds ha had hb hb' hc hc' hd hw bd0
    refine prime_on' hx hy (Coef8.quot_attempt hσ ha hb hc hd s1 s2 hA)
      (sym_lt (run_lt hm (by omega)))
      (Coef8.quot_amplify (a := a) (w := w) hσ' hb hc hb' hc' (by omega) hA) ?_
    intro hf cx' cy' k' hx' hy' hk
    have h4 := hσ.grow hf hbc ha had hb hb' hc hc'
    rw [run_next hm (by omega)] at hx' hy'
    rcases hk with ⟨a', b', c', h1, -, -, -⟩ | ⟨a', h1, -⟩ | ⟨-, rfl⟩
    · omega
    · omega
    refine prime_quot_run hσ' hw hA m hm a ho ha k (i + 1) (by omega) _ _ _ _ _ hx' hy'
      (h4.le (by omega) (by omega)) (by omega) (by omega)
      (by omega) (by omega) (by omega) (by omega) bd' ?_
    rw [show (2 : Int) ^ (k + 1) * b = 2 ^ k * (2 * b) by rw [pow_succ]; ring,
      show (2 : Int) ^ (k + 1) * c = 2 ^ k * (2 * c) by rw [pow_succ]; ring,
      show (4 : Int) ^ (k + 1) * d = 4 ^ k * (4 * d) by rw [pow_succ]; ring] at hn
    exact hn

/-- The run of `Amplify`s of both operands in the first block, with one halving each. -/
theorem prime_quot_first (hσ' : σ = 1 ∨ σ = -1) (hw : 16 ≤ w) (hA : cfg.CheckSafe A w) (m : Nat)
    (hm : 1 ≤ m) (b c : Int) (hbc : (b = 1 ∧ c = 0) ∨ (b = 0 ∧ c = 1)) :
    ∀ (k i : Nat), i + k = m → ∀ (d : Int) (cx cy : Clog),
      Clog.Denotes cfg A cx (2 ^ i / (2 ^ (m + 1) - 1)) →
      Clog.Denotes cfg A cy (2 ^ i / (2 ^ (m + 1) - 1)) → cfg.Sign (0 + b + c + d) σ → 1 ≤ d →
      8 * (2 ^ k * d) ^ 2 ≤ w →
      (cfg.Sign (0 + b + c + 2 ^ k * d) σ → ∀ cx' cy', Clog.Denotes cfg A cx' (2 ^ m / (2 ^ (m + 1) - 1)) →
        Clog.Denotes cfg A cy' (2 ^ m / (2 ^ (m + 1) - 1)) →
        Ev A (fun i j => Combine.prime cfg (Clog.egest cfg i) j
          ⟨cx', cy', Coef8.quot σ 0 b c (2 ^ k * d)⟩) P) →
      Ev A (fun i j => Combine.prime cfg (Clog.egest cfg i) j ⟨cx, cy, Coef8.quot σ 0 b c d⟩) P
  | 0, i, hi, d, cx, cy, hx, hy, hσ, _, _, hn => by
    obtain rfl : i = m := by omega
    simpa using hn (by simpa using hσ) cx cy hx hy
  | k + 1, i, hi, d, cx, cy, hx, hy, hσ, hd, bd, hn => by
    have p2 : (1 : Int) ≤ 2 ^ k := one_le_pow₀ (by norm_num)
    have bd' : 8 * (2 ^ k * (2 * d)) ^ 2 ≤ w := by
      rw [show (2 : Int) ^ (k + 1) * d = 2 ^ k * (2 * d) by rw [pow_succ]; ring] at bd
      exact bd
    have bd0 : 8 * d ^ 2 ≤ w := by
      have : d ^ 2 ≤ (2 ^ k * (2 * d)) ^ 2 := pow_le_pow_left₀ (by omega) (by nlinarith) 2
      omega
    obtain ⟨s1, s2, s3⟩ := small_bounds (a := 0) (b := b) (c := c) (d := d) le_rfl (by omega)
      (by omega) (by omega) (by omega) (by omega) (by omega) hw bd0
    refine prime_on' hx hy (Coef8.quot_attempt hσ le_rfl (by omega) (by omega) (by omega) s1 s2 hA)
      (sym_lt (run_lt hm (by omega)))
      (Coef8.quot_amplify (a := 0) (w := w) hσ' (by omega) (by omega) (by omega) (by omega)
        (by omega) hA) ?_
    intro hf cx' cy' k' hx' hy' hk
    have h4 := hσ.grow hf (by omega) le_rfl (by omega) (by omega) (by omega) (by omega) (by omega)
    rw [run_next hm (by omega)] at hx' hy'
    rcases hk with ⟨a', b', c', -, h1, h2, -⟩ | ⟨a', h1, rfl⟩ | ⟨h1, -⟩
    · omega
    · obtain rfl : a' = 0 := by omega
      refine prime_quot_first hσ' hw hA m hm b c hbc k (i + 1) (by omega) _ _ _ hx' hy'
        (h4.le (by omega) (by omega)) (by omega) bd' ?_
      rw [show (2 : Int) ^ (k + 1) * d = 2 ^ k * (2 * d) by rw [pow_succ]; ring] at hn
      exact hn
    · omega

/-- The values met by `(2^(m+2) - 1)/2^(m+2)`. -/
private theorem block_values (m : Nat) :
    (1 : ℚ) / 2 < (2 ^ (m + 2) - 1) / 2 ^ (m + 2) ∧
    next (((2 : ℚ) ^ (m + 2) - 1) / 2 ^ (m + 2)) = 2 ^ 0 / (2 ^ (m + 1 + 1) - 1) ∧
    (1 : ℚ) / 2 < 2 ^ (m + 1) / (2 ^ (m + 1 + 1) - 1) ∧
    next ((2 : ℚ) ^ (m + 1) / (2 ^ (m + 1 + 1) - 1)) = (2 ^ (m + 1) - 1) / 2 ^ (m + 1) := by
  obtain ⟨M, hMq⟩ : ∃ M : ℚ, (2 : ℚ) ^ (m + 1) = M := ⟨_, rfl⟩
  have hbq : ((2 : ℚ) ^ (m + 2)) = 2 * M := by rw [pow_succ _ (m + 1), hMq]; ring
  have hM : 2 ≤ M := by
    have : (2 : ℚ) ^ 1 ≤ 2 ^ (m + 1) := pow_le_pow_right₀ (by norm_num) (by omega)
    rw [← hMq]; linarith
  have v1 : (1 : ℚ) / 2 < (2 ^ (m + 2) - 1) / 2 ^ (m + 2) := by
    rw [hbq, div_lt_div_iff₀ (by norm_num) (by linarith)]; linarith
  have v2 : (1 : ℚ) / 2 < 2 ^ (m + 1) / (2 ^ (m + 1 + 1) - 1) := by
    rw [show m + 1 + 1 = m + 2 from rfl, hbq, hMq, div_lt_div_iff₀ (by norm_num) (by linarith)]
    linarith
  have z1 : 2 * M - 1 ≠ 0 := by linarith
  have z2 : M ≠ 0 := by linarith
  refine ⟨v1, ?_, v2, ?_⟩
  · rw [next_gt v1, show m + 1 + 1 = m + 2 from rfl, hbq, one_div_div]
    field_simp; ring
  · rw [next_gt v2, show m + 1 + 1 = m + 2 from rfl, hbq, hMq, one_div_div]
    field_simp; ring

/-- The end. -/
theorem prime_quot_last {E a' b' c' d' : Int} (hσ : cfg.Sign (4 * d' + (2 * c' + 4 * d') +
      (2 * b' + 4 * d') + (a' + 2 * b' + 2 * c' + 4 * d')) σ) (hA : cfg.CheckSafe A w)
    (hE : E ^ 2 ≤ 9 * w) (hx : Clog.Denotes cfg A cx (1 / 2)) (hy : Clog.Denotes cfg A cy (1 / 2))
    (p1 : 0 ≤ a') (p2 : a' ≤ d') (p3 : 0 ≤ b') (p4 : b' ≤ d') (p5 : 0 ≤ c') (p6 : c' ≤ d')
    (hbc : 2 * c' + 4 * d' ≠ 2 * b' + 4 * d') (ho : (a' + 2 * b' + 2 * c' + 4 * d') % 2 = 1)
    (E1 : E = 4 * a' + 12 * b' + 12 * c' + 36 * d') :
    Ev A (fun i j => Combine.prime cfg (Clog.egest cfg i) j ⟨cx, cy, Coef8.quot σ (4 * d')
        (2 * c' + 4 * d') (2 * b' + 4 * d') (a' + 2 * b' + 2 * c' + 4 * d')⟩)
      (fun t => t = (some .PosOne, none, none, none, none) ∧
        ∃ D, E ^ 2 ≤ 12 * D ∧ cfg.Fits D) := by
  have E2 : 36 ≤ E := by omega
  obtain ⟨S, hS⟩ : ∃ S, S = 4 * d' + (2 * c' + 4 * d') + (2 * b' + 4 * d') +
    (a' + 2 * b' + 2 * c' + 4 * d') := ⟨_, rfl⟩
  obtain ⟨T1, hT1⟩ : ∃ T, T = (2 * c' + 4 * d') + (a' + 2 * b' + 2 * c' + 4 * d') := ⟨_, rfl⟩
  obtain ⟨T2, hT2⟩ : ∃ T, T = (2 * b' + 4 * d') + (a' + 2 * b' + 2 * c' + 4 * d') := ⟨_, rfl⟩
  have q1 : 9 * S ≤ 4 * E := by omega
  have q2 : 4 * T1 ≤ E := by omega
  have q3 : 4 * T2 ≤ E := by omega
  have q4 : 25 * E ≤ 64 * S := by omega
  have EE : E ^ 2 = E * E := by ring
  have u1 : S * T1 ≤ w := by
    have : 9 * S * (4 * T1) ≤ 4 * E * E := mul_le_mul q1 q2 (by omega) (by omega)
    have e : 9 * S * (4 * T1) = 36 * (S * T1) := by ring
    have e' : 4 * E * E = 4 * (E * E) := by ring
    omega
  have u2 : S * T2 ≤ w := by
    have : 9 * S * (4 * T2) ≤ 4 * E * E := mul_le_mul q1 q3 (by omega) (by omega)
    have e : 9 * S * (4 * T2) = 36 * (S * T2) := by ring
    have e' : 4 * E * E = 4 * (E * E) := by ring
    omega
  have u3 : 4 * S ≤ w := by nlinarith
  have low : ∀ T, 2 * E ≤ 9 * T → E ^ 2 ≤ 12 * (S * T) := by
    intro T hT
    have : 25 * E * (2 * E) ≤ 64 * S * (9 * T) := mul_le_mul q4 hT (by omega) (by omega)
    have e : 64 * S * (9 * T) = 576 * (S * T) := by ring
    have e' : 25 * E * (2 * E) = 50 * (E * E) := by ring
    have : 0 ≤ E * E := by positivity
    omega
  refine (prime_quot_end (w := w) hx hy hσ (fun hf => hσ.grow hf hbc (by omega)
    (by omega) (by omega) (by omega) (by omega) (by omega)) (by omega) (by omega) (by omega) (by omega) (by omega)
    (by rw [← hS, ← hT1]; exact u1) (by rw [← hS, ← hT2]; exact u2)
    (by rw [← hS]; exact u3) (.inl ⟨by omega, by omega, by omega⟩) hA).mono ?_
  rintro _ ⟨rfl, f1, f2⟩
  refine ⟨rfl, ?_⟩
  rw [← hS, ← hT2] at f1
  rw [← hS, ← hT1] at f2
  rcases lt_or_gt_of_ne hbc with h | h
  · exact ⟨_, low T2 (by omega), f1 h⟩
  · exact ⟨_, low T1 (by omega), f2 h⟩

/-- The sizes in a block. -/
private theorem block_sizes {a b c d S M B C H E K : Int} (ha : 0 ≤ a) (hb : 0 ≤ b) (hc : 0 ≤ c)
    (hd : 0 < d) (hM2 : 2 ≤ M) (t1 : 1 ≤ K) (hS : S = a + b + c + d) (hB : B = M * (c + d))
    (hC : C = M * (b + d)) (hH : H = M * M * S)
    (hD' : E = (H * (M - 1) ^ 2 + ((C + H) + (B + H)) * ((M - 1) * M) +
        (d + B + C + H) * M ^ 2) * K) :
    0 ≤ B ∧ 0 ≤ C ∧ 4 * S ≤ H ∧ B ≤ H ∧ C ≤ H ∧ 9 * H ≤ E := by
  have e5 : H * (M - 1) ^ 2 + ((C + H) + (B + H)) * ((M - 1) * M) + (d + B + C + H) * M ^ 2 =
      H * (2 * M - 1) ^ 2 + (B + C) * (M * (2 * M - 1)) + d * M ^ 2 := by ring
  have B0 : 0 ≤ B := by rw [hB]; exact mul_nonneg (by omega) (by omega)
  have C0 : 0 ≤ C := by rw [hC]; exact mul_nonneg (by omega) (by omega)
  have HS : 4 * S ≤ H := by
    rw [hH]; exact mul_le_mul_of_nonneg_right (by nlinarith) (by omega)
  have BH : B ≤ H := by
    rw [hB, hH, mul_assoc]
    exact mul_le_mul_of_nonneg_left (le_trans (by omega : c + d ≤ S)
      (le_mul_of_one_le_left (by omega) (by omega))) (by omega)
  have CH : C ≤ H := by
    rw [hC, hH, mul_assoc]
    exact mul_le_mul_of_nonneg_left (le_trans (by omega : b + d ≤ S)
      (le_mul_of_one_le_left (by omega) (by omega))) (by omega)
  have big : 9 * H ≤ E := by
    have a1 : H * 9 ≤ H * (2 * M - 1) ^ 2 := mul_le_mul_of_nonneg_left (by nlinarith) (by omega)
    have a2 : 0 ≤ (B + C) * (M * (2 * M - 1)) :=
      mul_nonneg (by omega) (mul_nonneg (by omega) (by omega))
    have a3 : 0 ≤ d * M ^ 2 := mul_nonneg (by omega) (by positivity)
    rw [hD', e5]
    refine le_trans ?_ (le_mul_of_one_le_right ?_ t1) <;> omega
  exact ⟨B0, C0, HS, BH, CH, big⟩

private theorem half_sizes {a b c d S L : Int} (ha : 0 ≤ a) (hb : 0 ≤ b) (hc : 0 ≤ c)
    (hd : 0 ≤ d) (hL : 1 ≤ L) (hS : S = a + b + c + d) :
    L * (c + d) ≤ L * L * S ∧ L * (b + d) ≤ L * L * S ∧ d ≤ L * L * S := by
  have LL : L ≤ L * L := le_mul_of_one_le_left (by omega) hL
  refine ⟨mul_le_mul LL (by omega) (by omega) (by omega),
    mul_le_mul LL (by omega) (by omega) (by omega), ?_⟩
  have : 1 * S ≤ L * L * S := mul_le_mul_of_nonneg_right (by omega) (by omega)
  omega

/-- A block. -/
theorem prime_quot_block {a b c d S M B C H : Int} (hσ : cfg.Sign (a + b + c + d) σ)
    (hbc : b ≠ c) (hw : 16 ≤ w)
    (hA : cfg.CheckSafe A w) (m : Nat) (hM : M = 2 ^ (m + 1))
    (hx : Clog.Denotes cfg A cx ((2 ^ (m + 2) - 1) / 2 ^ (m + 2)))
    (hy : Clog.Denotes cfg A cy ((2 ^ (m + 2) - 1) / 2 ^ (m + 2)))
    (ha : 0 ≤ a) (ha' : a ≤ d) (hb : 0 ≤ b) (hb' : b ≤ d) (hc : 0 ≤ c) (hc' : c ≤ d)
    (ho : d % 2 = 1) (hS : S = a + b + c + d) (hB : B = M * (c + d)) (hC : C = M * (b + d))
    (hH : H = M * M * S) (B0 : 0 ≤ B) (C0 : 0 ≤ C) (HS : 4 * S ≤ H) (BH : B ≤ H) (CH : C ≤ H)
    (H8 : 8 * H ^ 2 ≤ w)
    (hn : cfg.Sign (H + (C + H) + (B + H) + (d + B + C + H)) σ →
      ∀ cx' cy', Clog.Denotes cfg A cx' ((2 ^ (m + 1) - 1) / 2 ^ (m + 1)) →
      Clog.Denotes cfg A cy' ((2 ^ (m + 1) - 1) / 2 ^ (m + 1)) →
      Ev A (fun i j => Combine.prime cfg (Clog.egest cfg i) j
        ⟨cx', cy', Coef8.quot σ H (C + H) (B + H) (d + B + C + H)⟩) P) :
    Ev A (fun i j => Combine.prime cfg (Clog.egest cfg i) j ⟨cx, cy, Coef8.quot σ a b c d⟩) P := by
  have hσ' : σ = 1 ∨ σ = -1 := hσ.imp_right And.left
  obtain ⟨v1, n1, v2, n2⟩ := block_values m
  have e4 : (4 : Int) ^ (m + 1) = M * M := by
    rw [hM, ← mul_pow]; norm_num
  have d8 : 8 * d ^ 2 ≤ w := by
    have : d ^ 2 ≤ H ^ 2 := pow_le_pow_left₀ (by omega) (by omega) 2
    omega
  obtain ⟨s1, s2, s3⟩ := small_bounds ha ha' hb hb' hc hc' (by omega) hw d8
  refine prime_on' hx hy (Coef8.quot_attempt hσ ha hb hc (by omega) s1 s2 hA) (sym_gt v1)
    (Coef8.quot_uncover (w := w) hσ' ha hb hc (by omega) (by omega) hA) ?_
  rintro hf cx1 cy1 _ hx1 hy1 rfl
  have hg := hσ.grow hf hbc ha ha' hb hb' hc hc'
  rw [n1] at hx1 hy1
  refine prime_quot_run hσ' hw hA (m + 1) (by omega) d ho (by omega) (m + 1) 0 (by omega) _ _ _ _ _
    hx1 hy1 (hg.le (by omega) (by omega)) (by omega) (by omega) (by omega) (by omega) (by omega)
    (by omega) ?_ ?_
  · rw [e4, ← hS, ← hH]; exact H8
  rw [← hM, e4, ← hB, ← hC, ← hS, ← hH]
  intro hσ2 cx2 cy2 hx2 hy2
  have M0 : M ≠ 0 := by rw [hM]; positivity
  have hbc2 : B ≠ C := by
    intro h
    rw [hB, hC] at h
    have := mul_left_cancel₀ M0 h
    omega
  obtain ⟨r1, r2, r3⟩ := small_bounds (a := d) (b := B) (c := C) (d := H) (w := w) (by omega)
    (by omega) B0 BH C0 CH (by omega) hw H8
  refine prime_on' hx2 hy2 (Coef8.quot_attempt hσ2 (by omega) B0 C0 (by omega) r1 r2 hA)
    (sym_gt v2) (Coef8.quot_uncover (w := w) hσ' (by omega) B0 C0 (by omega) (by omega) hA) ?_
  rintro hf2 cx3 cy3 _ hx3 hy3 rfl
  rw [n2] at hx3 hy3
  have hg2 := hσ2.grow hf2 hbc2 (by omega) (by omega) B0 BH C0 CH
  exact hn (hg2.le (by omega) (by omega)) cx3 cy3 hx3 hy3

/-- After the first block: the last products are between `E^2/12` and `E^2/9`. -/
theorem prime_quot_worst {E : Int} (hw : 16 ≤ w) (hA : cfg.CheckSafe A w)
    (hE : E ^ 2 ≤ 9 * w) (n : Nat) : 1 ≤ n → ∀ (a b c d : Int) (cx cy : Clog),
      Clog.Denotes cfg A cx ((2 ^ n - 1) / 2 ^ n) → Clog.Denotes cfg A cy ((2 ^ n - 1) / 2 ^ n) →
      cfg.Sign (a + b + c + d) σ → 0 ≤ a → a ≤ d → 0 ≤ b → b ≤ d → 0 ≤ c → c ≤ d → b ≠ c → d % 2 = 1 →
      ((∃ a' b' c' d', 0 ≤ a' ∧ a' ≤ d' ∧ 0 ≤ b' ∧ b' ≤ d' ∧ 0 ≤ c' ∧ c' ≤ d' ∧ a = 4 * d' ∧
        b = 2 * c' + 4 * d' ∧ c = 2 * b' + 4 * d' ∧ d = a' + 2 * b' + 2 * c' + 4 * d') ∨ 2 ≤ n) →
      E = (a * (2 ^ n - 1) ^ 2 + (b + c) * ((2 ^ n - 1) * 2 ^ n) + d * (2 ^ n) ^ 2) * 4 ^ tri n →
      Ev A (fun i j => Combine.prime cfg (Clog.egest cfg i) j ⟨cx, cy, Coef8.quot σ a b c d⟩)
        (fun t => t = (some .PosOne, none, none, none, none) ∧
          ∃ D, E ^ 2 ≤ 12 * D ∧ cfg.Fits D) := by
  induction n with
  | zero => intro h; omega
  | succ n ih =>
  intro _ a b c d cx cy hx hy hσ ha ha' hb hb' hc hc' hbc ho hs hD
  rcases n with _ | m
  · norm_num [tri] at hD hx hy
    obtain ⟨a', b', c', d', p1, p2, p3, p4, p5, p6, rfl, rfl, rfl, rfl⟩ := hs.resolve_right
      (by omega)
    exact prime_quot_last hσ hA hE hx hy p1 p2 p3 p4 p5 p6 hbc ho (by rw [hD]; ring)
  · rw [show m + 1 + 1 = m + 2 from rfl] at hx hy hD
    obtain ⟨M, hM⟩ : ∃ M : Int, M = 2 ^ (m + 1) := ⟨_, rfl⟩
    obtain ⟨L, hL⟩ : ∃ L : Int, L = 2 ^ m := ⟨_, rfl⟩
    have hL1 : 1 ≤ L := by rw [hL]; exact one_le_pow₀ (by norm_num)
    have hML : M = 2 * L := by rw [hM, hL, pow_succ]; ring
    have e4 : (4 : Int) ^ (m + 1) = M * M := by
      rw [hM, ← mul_pow]; norm_num
    have eb : (2 : Int) ^ (m + 2) = 2 * M := by rw [hM, pow_succ _ (m + 1)]; ring
    have t1 : (1 : Int) ≤ 4 ^ tri (m + 1) := one_le_pow₀ (by norm_num)
    obtain ⟨S, hS⟩ : ∃ S : Int, S = a + b + c + d := ⟨_, rfl⟩
    obtain ⟨B, hB⟩ : ∃ B : Int, B = M * (c + d) := ⟨_, rfl⟩
    obtain ⟨C, hC⟩ : ∃ C : Int, C = M * (b + d) := ⟨_, rfl⟩
    obtain ⟨H, hH⟩ : ∃ H : Int, H = M * M * S := ⟨_, rfl⟩
    have hD' : E = (H * (M - 1) ^ 2 + ((C + H) + (B + H)) * ((M - 1) * M) +
        (d + B + C + H) * M ^ 2) * 4 ^ tri (m + 1) := by
      rw [hD, eb, show tri (m + 2) = tri (m + 1) + (m + 1) from rfl, pow_add, e4, hB, hC, hH, hS]
      ring
    obtain ⟨B0, C0, HS, BH, CH, big⟩ := block_sizes ha hb hc (by omega) (by omega) t1 hS hB hC hH
      hD'
    have H8 : 8 * H ^ 2 ≤ w := by
      have : (9 * H) ^ 2 ≤ E ^ 2 := pow_le_pow_left₀ (by omega) big 2
      rw [mul_pow] at this
      have : 0 ≤ H ^ 2 := by positivity
      omega
    refine prime_quot_block hσ hbc hw hA m hM hx hy ha ha' hb hb' hc hc' ho hS hB hC hH B0 C0 HS BH CH H8
      ?_
    intro hσ3 cx3 cy3 hx3 hy3
    rw [← hM] at ih
    have B2 : B = 2 * (L * (c + d)) := by rw [hB, hML]; ring
    have C2 : C = 2 * (L * (b + d)) := by rw [hC, hML]; ring
    have H4 : H = 4 * (L * L * S) := by rw [hH, hML]; ring
    obtain ⟨l1, l2, l3⟩ := half_sizes ha hb hc (by omega : 0 ≤ d) hL1 hS
    refine ih (by omega) H (C + H) (B + H) (d + B + C + H) cx3 cy3 hx3 hy3 hσ3 (by omega)
      (by omega) (by omega) (by omega) (by omega) (by omega) ?_ (by omega)
      (.inl ⟨d, L * (c + d), L * (b + d), L * L * S, by omega, l3,
        mul_nonneg (by omega) (by omega), l1, mul_nonneg (by omega) (by omega), l2, by omega,
        by omega, by omega, by omega⟩) hD'
    intro h
    have h' : C = B := by omega
    rw [hB, hC] at h'
    have := mul_left_cancel₀ (by omega : M ≠ 0) h'
    omega

/-- From the start. -/
theorem prime_quot_exact {b c : Int} (h : QuotStart σ b c) (n : Nat) (hn : 3 ≤ n)
    (hA : cfg.CheckSafe A (2 ^ (2 * n * n - 1) - 1))
    (hx : Clog.Denotes cfg A cx ((2 ^ n - 1) / 2 ^ n))
    (hy : Clog.Denotes cfg A cy ((2 ^ n - 1) / 2 ^ n)) :
    Ev A (fun i j => Combine.prime cfg (Clog.egest cfg i) j ⟨cx, cy, Coef8.quot σ 0 b c 0⟩)
      (fun t => t = (some .PosOne, none, none, none, none) ∧ cfg.Fits (2 ^ (2 * n * n - 2))) := by
  obtain ⟨m, rfl⟩ : ∃ m, n = m + 2 := ⟨n - 2, by omega⟩
  obtain ⟨hσ', hbc⟩ := id h
  obtain ⟨v1, n1, v2, n2⟩ := block_values m
  obtain ⟨M, hM⟩ : ∃ M : Int, M = 2 ^ (m + 1) := ⟨_, rfl⟩
  have hM4 : 4 ≤ M := by
    have : (2 : Int) ^ 2 ≤ 2 ^ (m + 1) := pow_le_pow_right₀ (by norm_num) (by omega)
    rw [hM]; linarith
  obtain ⟨K, hK⟩ : ∃ K : Int, K = 4 ^ tri (m + 1) := ⟨_, rfl⟩
  obtain ⟨E, hE⟩ : ∃ E : Int, E = 2 * M ^ 2 * (2 * M - 1) * K := ⟨_, rfl⟩
  -- the word
  have eW : (2 : Int) ^ (2 * (m + 2) * (m + 2) - 2) = (M ^ 3 * K) ^ 2 := by
    have h1 := tri_eq (m + 1)
    have h2 : 2 * (m + 2) * (m + 2) - 2 = 2 * ((m + 1) * 3 + 2 * tri (m + 1)) := by
      have : 2 * (m + 2) * (m + 2) = 2 * ((m + 1) * (m + 1)) + 4 * m + 6 := by ring
      omega
    rw [h2, hM, hK, show (4 : Int) = 2 ^ 2 by norm_num, ← pow_mul, ← pow_mul, ← pow_add, ← pow_mul]
    congr 1
    ring
  have eW' : (2 : Int) ^ (2 * (m + 2) * (m + 2) - 1) = 2 * 2 ^ (2 * (m + 2) * (m + 2) - 2) := by
    have : 2 ≤ 2 * (m + 2) * (m + 2) := by nlinarith
    rw [show 2 * (m + 2) * (m + 2) - 1 = 2 * (m + 2) * (m + 2) - 2 + 1 by omega, pow_succ]
    ring
  obtain ⟨w, hw⟩ : ∃ w : Int, w = 2 ^ (2 * (m + 2) * (m + 2) - 1) - 1 := ⟨_, rfl⟩
  rw [← hw] at hA
  rw [eW', eW] at hw
  rw [eW]
  have K1 : 1 ≤ K := by rw [hK]; exact one_le_pow₀ (by norm_num)
  have MK : M ^ 3 ≤ M ^ 3 * K := le_mul_of_one_le_right (by positivity) K1
  have M3 : 16 * M ≤ M ^ 3 := by nlinarith [mul_nonneg (by omega : (0 : Int) ≤ M) (by nlinarith : (0 : Int) ≤ M ^ 2 - 16)]
  obtain ⟨Z, hZ⟩ : ∃ Z, Z = M ^ 3 * K := ⟨_, rfl⟩
  rw [← hZ] at hw MK ⊢
  have hwM : 8 * (M + 1) ^ 2 ≤ w := by nlinarith
  have w16 : 16 ≤ w := by nlinarith
  have hE2 : E ^ 2 ≤ 9 * w := by
    have e1 : E ≤ 4 * Z := by
      rw [hE, hZ]
      have : 0 ≤ M ^ 2 * K := by positivity
      nlinarith
    have e0 : 0 ≤ E := by
      rw [hE]; exact mul_nonneg (mul_nonneg (by positivity) (by omega)) (by omega)
    have := pow_le_pow_left₀ e0 e1 2
    have : 64 ≤ Z := by omega
    nlinarith
  have low : ∀ D, E ^ 2 ≤ 12 * D → Z ^ 2 ≤ D := by
    intro D hD
    have e1 : 7 * Z ≤ 2 * E := by
      rw [hE, hZ]
      have : 0 ≤ M ^ 2 * K := by positivity
      nlinarith
    have := pow_le_pow_left₀ (by omega) e1 2
    nlinarith
  have hat : Sat A ((Coef8.quot σ 0 b c 0).primerAttempt cfg) (fun r => r = none ∧ True) :=
    sat_of_ok (quot_start_attempt σ b c) ⟨rfl, trivial⟩
  refine prime_on' hx hy hat (sym_gt v1) (Coef8.quot_uncover (w := w) hσ' le_rfl (by omega)
    (by omega) le_rfl (by omega) hA) ?_
  rintro - cx1 cy1 _ hx1 hy1 rfl
  rw [n1] at hx1 hy1
  rw [add_zero, add_zero, add_zero, zero_add]
  refine prime_quot_first hσ' w16 hA (m + 1) (by omega) c b (by omega) (m + 1) 0
    (by omega) _ _ _ hx1 hy1 (hσ'.imp_right fun e => ⟨e, cfg.fits_small (by omega) (by omega)⟩)
    (by omega) ?_ ?_
  · rw [← hM, show b + c = 1 by omega]; nlinarith
  rw [← hM, show b + c = 1 by omega, mul_one]
  intro hσ2 cx2 cy2 hx2 hy2
  obtain ⟨r1, r2, r3⟩ := small_bounds (a := 0) (b := c) (c := b) (d := M) (w := w) le_rfl
    (by omega) (by omega) (by omega) (by omega) (by omega) (by omega) w16 (by nlinarith)
  refine prime_on' hx2 hy2 (Coef8.quot_attempt hσ2 le_rfl (by omega) (by omega) (by omega) r1 r2 hA)
    (sym_gt v2) (Coef8.quot_uncover (w := w) hσ' le_rfl (by omega) (by omega) (by omega)
      (by omega) hA) ?_
  rintro hf cx3 cy3 _ hx3 hy3 rfl
  rw [n2] at hx3 hy3
  have hg := hσ2.grow hf (by omega) le_rfl (by omega) (by omega) (by omega) (by omega) (by omega)
  have M2 : M % 2 = 0 := by rw [hM, pow_succ]; omega
  refine (prime_quot_worst (E := E) w16 hA hE2 (m + 1) (by omega) M (b + M) (c + M)
    (0 + c + b + M) cx3 cy3 hx3 hy3 (hg.le (by omega) (by omega)) (by omega) (by omega) (by omega) (by omega) (by omega)
    (by omega) (by omega) (by omega) (.inr (by omega)) ?_).mono ?_
  · rw [← hM, ← hK, hE, show 0 + c + b + M = 1 + M by omega,
      show b + M + (c + M) = 1 + 2 * M by omega]
    ring
  rintro _ ⟨rfl, D, h1, h2⟩
  exact ⟨rfl, cfg.fits_le h2 (by nlinarith [low D h1]) (low D h1)⟩

end Combine

end Clarith
