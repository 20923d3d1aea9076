import Verif.Lemmas.EquilRuiz
import Verif.Props.EquilAlt

/-!
# C61: what the default equilibration achieves
-/
namespace Ecos.Equil

set_option linter.unusedSectionVars false

open Finset Ecos

/-- largest absolute value among the entries `k < N` with `key k = i`: with the row indices of a matrix the maximum norm of a row, with the
columns that of a column; 0 if there are none -/
noncomputable def maxNorm (key : Nat → Nat) (pr : Nat → ℝ) (N i : Nat) : ℝ := {k ∈ range N | key k = i}.fold max 0 fun k => |pr k|

/-- maximum norm of row `i` of `A` -/
noncomputable def rowA (T : Pat) (P : Dat) (i : Nat) : ℝ := maxNorm T.irA P.a (T.jcA T.n) i

/-- maximum norm of row `i` of `G` -/
noncomputable def rowG (T : Pat) (P : Dat) (i : Nat) : ℝ := maxNorm T.irG P.g (T.jcG T.n) i

/-- maximum norm of column `j` of `[A; G]` -/
noncomputable def col (T : Pat) (P : Dat) (j : Nat) : ℝ :=
  max (if T.hasA then maxNorm (colOf T.n T.jcA) P.a (T.jcA T.n) j else 0) (maxNorm (colOf T.n T.jcG) P.g (T.jcG T.n) j)

/-- the factors of one Ruiz pass: roots of the maximum norms, for a cone the root of the sum of the norms of its rows; 1 instead of the root
if the norm is below 1e-6 -/
structure RuizFac (S : Shape) (T : Pat) (P : Dat) (E : Fac) : Prop where
  x : ∀ j, j < T.n → E.x j = normOr (col T P j)
  A : T.hasA → ∀ i, i < T.p → E.A i = normOr (rowA T P i)
  lp : ∀ i, i < S.l → E.G i = normOr (rowG T P i)
  soc : ∀ k, k < S.ns → ∀ j, j < S.q k → E.G (S.start k + j) = normOr (∑ i ∈ range (S.q k), rowG T P (S.start k + i))
  exp : ∀ l, l < S.ne → ∀ j, j < 3 → E.G (S.fexv + 3 * l + j) = normOr (∑ i ∈ range 3, rowG T P (S.fexv + 3 * l + i))

/-- product of factors -/
noncomputable def mulFac (E E' : Fac) : Fac := ⟨fun j => E.x j * E'.x j, fun i => E.A i * E'.A i, fun i => E.G i * E'.G i⟩

/-! ### Maximum norms -/

theorem maxNorm_nonneg (key : Nat → Nat) (pr : Nat → ℝ) (N i : Nat) : 0 ≤ maxNorm key pr N i :=
  le_fold_max 0 |>.2 (Or.inl le_rfl)

theorem le_maxNorm (key : Nat → Nat) (pr : Nat → ℝ) {N k : Nat} (hk : k < N) : |pr k| ≤ maxNorm key pr N (key k) :=
  le_fold_max _ |>.2 (Or.inr ⟨k, mem_filter.2 ⟨mem_range.2 hk, rfl⟩, le_rfl⟩)

theorem maxNorm_le {key : Nat → Nat} {pr : Nat → ℝ} {N i : Nat} {b : ℝ} (hb : 0 ≤ b) (h : ∀ k, k < N → key k = i → |pr k| ≤ b) :
    maxNorm key pr N i ≤ b :=
  fold_max_le b |>.2 ⟨hb, fun k hk => h k (mem_range.1 (mem_filter.1 hk).1) (mem_filter.1 hk).2⟩

/-- a positive norm is attained -/
theorem maxNorm_attained {key : Nat → Nat} {pr : Nat → ℝ} {N i : Nat} (h : 0 < maxNorm key pr N i) :
    ∃ k, k < N ∧ key k = i ∧ |pr k| = maxNorm key pr N i := by
  rcases (le_fold_max (maxNorm key pr N i)).1 (le_refl (maxNorm key pr N i)) with h0 | ⟨k, hk, hle⟩
  · exact absurd h (not_lt.2 h0)
  · have h1 := mem_range.1 (mem_filter.1 hk).1
    have h2 := (mem_filter.1 hk).2
    refine ⟨k, h1, h2, le_antisymm ?_ hle⟩
    have := le_maxNorm key pr h1
    rwa [h2] at this

theorem accMax_real (key : Nat → Nat) (pr f : Nat → ℝ) (K i : Nat) : accMax key pr f K i = max (f i) (maxNorm key pr K i) ∨ f i < 0 := by
  by_cases hf : f i < 0
  · exact Or.inr hf
  refine Or.inl ?_
  have hf := not_lt.1 hf
  unfold maxNorm
  induction K with
  | zero => simp [accMax, hf]
  | succ K ih =>
    rw [range_add_one, filter_insert, accMax]
    by_cases h : key K = i
    · rw [if_pos h, fold_insert (by simp), h, upd_self, ih]
      have e : ∀ a b : ℝ, fmax a b = max a b := fun a b => by
        unfold fmax
        by_cases h : a < b
        · rw [if_pos (by simpa using h), max_eq_right h.le]
        · rw [if_neg (by simpa using h), max_eq_left (not_lt.1 h)]
      rw [e]
      exact max_left_comm _ _ _
    · rw [if_neg h, upd_ne _ _ (Ne.symm h), ih]

theorem accMax_zero (key : Nat → Nat) (pr : Nat → ℝ) (K i : Nat) : accMax key pr (fun _ => 0) K i = maxNorm key pr K i := by
  rcases accMax_real key pr (fun _ => 0) K i with h | h
  · rw [h, max_eq_right (maxNorm_nonneg _ _ _ _)]
  · exact absurd h (lt_irrefl _)

variable {C : Cone ℝ} {S : Shape} {T : Pat}

theorem col_nonneg (P : Dat) (j : Nat) : 0 ≤ col T P j := le_max_of_le_right (maxNorm_nonneg _ _ _ _)

/-- the factors the program computes are those -/
theorem ruizFac_of (hm : S.m = T.m) {P : Dat} {x y z : Nat → ℝ} (hr : RuizRes S T P.a P.g x y z) : RuizFac S T P ⟨x, y, z⟩ := by
  obtain ⟨f, av, hzv⟩ := hr.G
  have hlp : S.l ≤ S.fexv := S.l_le _
  have hme : S.m = S.fexv + 3 * S.ne := rfl
  refine ⟨fun j hj => ?_, fun hA i hi => ?_, fun i hi => ?_, fun k hk j hj => ?_, fun l hl j hj => ?_⟩
  · show x j = _
    rw [hr.x j hj, ← sqrtOrOne_real (col_nonneg P j), col]
    congr 1
    split
    · rcases accMax_real (colOf T.n T.jcG) P.g (accMax (colOf T.n T.jcA) P.a (fun _ => 0) (T.jcA T.n)) (T.jcG T.n) j with h | h
      · rw [h, accMax_zero]
      · rw [accMax_zero] at h
        exact absurd h (not_lt.2 (maxNorm_nonneg _ _ _ _))
    · rw [accMax_zero, max_eq_right (maxNorm_nonneg _ _ _ _)]
  · show y i = _
    rw [hr.A hA i hi, accMax_zero, sqrtOrOne_real (maxNorm_nonneg _ _ _ _), rowA]
  · show z i = _
    rw [hzv i (by omega), av.lp i hi, accMax_zero, sqrtOrOne_real (maxNorm_nonneg _ _ _ _), rowG]
  · show z _ = _
    have := start_lt hk hj
    rw [hzv _ (by omega), av.soc k hk j hj, segSum_real, sum_congr rfl fun i _ => accMax_zero _ _ _ _,
      sqrtOrOne_real (sum_nonneg fun i _ => maxNorm_nonneg _ _ _ _)]
    rfl
  · show z _ = _
    rw [hzv _ (by omega), av.exp l hl j hj, segSum_real, sum_congr rfl fun i _ => accMax_zero _ _ _ _,
      sqrtOrOne_real (sum_nonneg fun i _ => maxNorm_nonneg _ _ _ _)]
    rfl

/-- the row factor belongs to a number not below the norm of the row -/
theorem RuizFac.row {P : Dat} {E : Fac} (hF : RuizFac S T P E) {i : Nat} (hi : i < S.m) : ∃ r, rowG T P i ≤ r ∧ E.G i = normOr r := by
  rcases row_cases S hi with h | ⟨k, j, hk, hj, rfl⟩ | ⟨l, j, hl, hj, rfl⟩
  · exact ⟨_, le_rfl, hF.lp i h⟩
  · exact ⟨_, single_le_sum (f := fun i => rowG T P (S.start k + i)) (fun i _ => maxNorm_nonneg _ _ _ _) (mem_range.2 hj), hF.soc k hk j hj⟩
  · exact ⟨_, single_le_sum (f := fun i => rowG T P (S.fexv + 3 * l + i)) (fun i _ => maxNorm_nonneg _ _ _ _) (mem_range.2 hj), hF.exp l hl j hj⟩

/-- dividing by the two factors leaves at most 1 -/
theorem div_le_one_of {v r c : ℝ} (h1 : |v| ≤ r) (h2 : |v| ≤ c) : |v / (normOr r * normOr c)| ≤ 1 := by
  have p1 := normOr_pos r
  have p2 := normOr_pos c
  have g1 := normOr_ge r
  have g2 := normOr_ge c
  rw [abs_div, abs_of_pos (mul_pos p1 p2), div_le_one (mul_pos p1 p2)]
  by_cases hr : r < 1e-6
  · have e : normOr r = 1 := if_pos hr
    rw [e, one_mul]
    refine le_trans h1 (le_trans hr.le (le_trans ?_ g2))
    norm_num
  by_cases hc : c < 1e-6
  · have e : normOr c = 1 := if_pos hc
    rw [e, mul_one]
    refine le_trans h2 (le_trans hc.le (le_trans ?_ g1))
    norm_num
  have e1 : normOr r = √r := if_neg hr
  have e2 : normOr c = √c := if_neg hc
  rw [e1, e2]
  calc |v| = √|v| * √|v| := (Real.mul_self_sqrt (abs_nonneg v)).symm
    _ ≤ √r * √c := mul_le_mul (Real.sqrt_le_sqrt h1) (Real.sqrt_le_sqrt h2) (Real.sqrt_nonneg _) (Real.sqrt_nonneg _)

theorem le_colA {P : Dat} (hA : T.hasA) {k : Nat} (hk : k < T.jcA T.n) : |P.a k| ≤ col T P (colOf T.n T.jcA k) := by
  unfold col
  rw [if_pos hA]
  exact le_max_of_le_left (le_maxNorm _ _ hk)

theorem le_colG {P : Dat} {k : Nat} (hk : k < T.jcG T.n) : |P.g k| ≤ col T P (colOf T.n T.jcG k) :=
  le_max_of_le_right (le_maxNorm _ _ hk)

theorem patOk_eq {e : EqS ℝ} {a g : Nat → ℝ} (he : EqIs e T a g) : PatOk T := by
  have h := he.A
  unfold RepA at h
  refine ⟨fun hA => ?_, fun hA => ?_, he.G.ok⟩
  · rw [if_pos hA] at h
    obtain ⟨M, -, h⟩ := h
    exact h.ok
  · rw [if_neg hA] at h
    exact h.2

/-- after one pass no entry is larger than 1 -/
theorem pass_bounded (hT : PatOk T) (hm : S.m = T.m) {P P' : Dat} {E : Fac} (hF : RuizFac S T P E) (hS : ScaledBy T P P' E) :
    (T.hasA → ∀ k, k < T.jcA T.n → |P'.a k| ≤ 1) ∧ ∀ k, k < T.jcG T.n → |P'.g k| ≤ 1 := by
  refine ⟨fun hA k hk => ?_, fun k hk => ?_⟩
  · rw [hS.a hA k hk, hF.A hA _ ((hT.A hA).rows k hk), hF.x _ (colOf_lt (hT.A hA) hk)]
    exact div_le_one_of (le_maxNorm _ _ hk) (le_colA hA hk)
  · obtain ⟨r, h1, h2⟩ := hF.row (i := T.irG k) (by rw [hm]; exact hT.G.rows k hk)
    rw [hS.g k hk, h2, hF.x _ (colOf_lt hT.G hk)]
    exact div_le_one_of ((le_maxNorm _ _ hk).trans h1) (le_colG hk)

/-- all norms of rows and columns lie between `lo` and `hi` -/
structure Within (T : Pat) (P : Dat) (lo hi : ℝ) : Prop where
  col : ∀ j, j < T.n → lo ≤ col T P j ∧ col T P j ≤ hi
  A : ∀ i, i < T.p → lo ≤ rowA T P i ∧ rowA T P i ≤ hi
  G : ∀ i, i < T.m → lo ≤ rowG T P i ∧ rowG T P i ≤ hi

/-- an entry that attains a norm `m` is divided by its root, and by the root of another norm -/
theorem sqrt_ratio {v m o lo hi : ℝ} (h0 : 1e-6 ≤ lo) (hv : |v| = m) (hm : lo ≤ m) (ho1 : lo ≤ o) (ho : o ≤ hi) :
    √(lo / hi) ≤ |v / (normOr m * normOr o)| ∧ √(lo / hi) ≤ |v / (normOr o * normOr m)| := by
  have hlo : 0 < lo := lt_of_lt_of_le (by norm_num) h0
  have hm0 : 0 < m := lt_of_lt_of_le hlo hm
  have ho0 : 0 < o := lt_of_lt_of_le hlo ho1
  have e1 : normOr m = √m := if_neg (not_lt.2 (h0.trans hm))
  have e2 : normOr o = √o := if_neg (not_lt.2 (h0.trans ho1))
  have key : √(lo / hi) ≤ |v / (normOr m * normOr o)| := by
    rw [e1, e2, abs_div, hv, abs_of_pos (mul_pos (Real.sqrt_pos.2 hm0) (Real.sqrt_pos.2 ho0))]
    have : m / (√m * √o) = √(m / o) := by
      rw [Real.sqrt_div hm0.le, div_eq_div_iff (mul_pos (Real.sqrt_pos.2 hm0) (Real.sqrt_pos.2 ho0)).ne' (Real.sqrt_pos.2 ho0).ne']
      rw [← mul_assoc, Real.mul_self_sqrt hm0.le]
    rw [this]
    exact Real.sqrt_le_sqrt (div_le_div₀ hm0.le hm ho0 ho)
  exact ⟨key, by rw [mul_comm]; exact key⟩

/-- one pass on a problem whose cones are all half lines: the ratio of the norms goes to its root -/
theorem pass_balances (hT : PatOk T) (hm : S.m = T.m) (hl : S.l = S.m) {P P' : Dat} {E : Fac} (hF : RuizFac S T P E) (hS : ScaledBy T P P' E)
    {lo hi : ℝ} (h0 : 1e-6 ≤ lo) (hW : Within T P lo hi) : Within T P' √(lo / hi) 1 := by
  obtain ⟨b1, b2⟩ := pass_bounded hT hm hF hS
  have hlo : 0 < lo := lt_of_lt_of_le (by norm_num) h0
  have hG : ∀ i, i < T.m → E.G i = normOr (rowG T P i) := fun i hi => hF.lp i (by omega)
  have cA : ∀ {k}, T.hasA → k < T.jcA T.n → |P'.a k| ≤ col T P' (colOf T.n T.jcA k) := fun hA hk => le_colA hA hk
  refine ⟨fun j hj => ⟨?_, ?_⟩, fun i hi => ⟨?_, ?_⟩, fun i hi => ⟨?_, ?_⟩⟩
  · obtain ⟨w1, w2⟩ := hW.col j hj
    have hpos : 0 < col T P j := lt_of_lt_of_le hlo w1
    by_cases hA : T.hasA ∧ col T P j = maxNorm (colOf T.n T.jcA) P.a (T.jcA T.n) j
    · obtain ⟨hA, he⟩ := hA
      obtain ⟨k, k1, k2, k3⟩ := maxNorm_attained (he ▸ hpos)
      rw [← he] at k3
      have hr := (hT.A hA).rows k k1
      obtain ⟨q1, q2⟩ := hW.A _ hr
      have := (sqrt_ratio h0 k3 w1 q1 q2).2
      rw [← hF.A hA _ hr, ← hF.x j hj] at this
      have hs := hS.a hA k k1
      rw [k2] at hs
      rw [← hs] at this
      have h3 := le_colA (P := P') hA k1
      rw [k2] at h3
      exact this.trans h3
    · have he : col T P j = maxNorm (colOf T.n T.jcG) P.g (T.jcG T.n) j := by
        by_cases ha : T.hasA
        · have hne : col T P j ≠ maxNorm (colOf T.n T.jcA) P.a (T.jcA T.n) j := fun h => hA ⟨ha, h⟩
          unfold col at hne ⊢
          rw [if_pos ha] at hne ⊢
          rcases max_choice (maxNorm (colOf T.n T.jcA) P.a (T.jcA T.n) j) (maxNorm (colOf T.n T.jcG) P.g (T.jcG T.n) j) with h | h
          · exact absurd h hne
          · exact h
        · unfold col
          rw [if_neg ha, max_eq_right (maxNorm_nonneg _ _ _ _)]
      obtain ⟨k, k1, k2, k3⟩ := maxNorm_attained (he ▸ hpos)
      rw [← he] at k3
      have hr := hT.G.rows k k1
      obtain ⟨q1, q2⟩ := hW.G _ hr
      have := (sqrt_ratio h0 k3 w1 q1 q2).2
      rw [← hG _ hr, ← hF.x j hj] at this
      have hs := hS.g k k1
      rw [k2] at hs
      rw [← hs] at this
      have h3 := le_colG (P := P') k1
      rw [k2] at h3
      exact this.trans h3
  · refine max_le ?_ (maxNorm_le zero_le_one fun k hk _ => b2 k hk)
    split
    · rename_i hA
      exact maxNorm_le zero_le_one fun k hk _ => b1 hA k hk
    · exact zero_le_one
  · have hA : T.hasA := by
      by_contra hA
      have := hT.noA hA
      omega
    obtain ⟨w1, w2⟩ := hW.A i hi
    obtain ⟨k, k1, k2, k3⟩ := maxNorm_attained (lt_of_lt_of_le hlo w1)
    obtain ⟨q1, q2⟩ := hW.col _ (colOf_lt (hT.A hA) k1)
    have := (sqrt_ratio h0 k3 w1 q1 q2).1
    have ey : E.A i = normOr (maxNorm T.irA P.a (T.jcA T.n) i) := hF.A hA i hi
    rw [← ey, ← hF.x _ (colOf_lt (hT.A hA) k1)] at this
    have hs := hS.a hA k k1
    rw [k2] at hs
    rw [← hs] at this
    have h3 := le_maxNorm T.irA P'.a k1
    rw [k2] at h3
    exact this.trans h3
  · have hA : T.hasA := by
      by_contra hA
      have := hT.noA hA
      omega
    exact maxNorm_le zero_le_one fun k hk _ => b1 hA k hk
  · obtain ⟨w1, w2⟩ := hW.G i hi
    obtain ⟨k, k1, k2, k3⟩ := maxNorm_attained (lt_of_lt_of_le hlo w1)
    obtain ⟨q1, q2⟩ := hW.col _ (colOf_lt hT.G k1)
    have := (sqrt_ratio h0 k3 w1 q1 q2).1
    have ey : E.G i = normOr (maxNorm T.irG P.g (T.jcG T.n) i) := hG i hi
    rw [← ey, ← hF.x _ (colOf_lt hT.G k1)] at this
    have hs := hS.g k k1
    rw [k2] at hs
    rw [← hs] at this
    have h3 := le_maxNorm T.irG P'.g k1
    rw [k2] at h3
    exact this.trans h3
  · exact maxNorm_le zero_le_one fun k hk _ => b2 k hk

/-- C61: the default equilibration makes three Ruiz passes: each divides the data by the roots of the current maximum norms (`RuizFac`), and
the factors kept in the workspace are the products. Afterwards no entry of `A` and `G` is larger than 1 in magnitude, whatever the matrices and the
cones, and no factor is below 1e-9. -/
theorem C61_passes (hC : ConeIs C S) (hm : S.m = T.m) {e : EqS ℝ} {P : Dat} (he : EqIs e T P.a P.g)
    (hx : e.xe.size = T.n) (hy : e.Ae.size = T.p) (hz : e.Ge.size = T.m) {b h : Buf ℝ}
    (hb : Holds b T.p P.b) (hh : Holds h T.m P.h) :
    Ok (setEquilibration C e b h) fun r => ∃ (E1 E2 E3 : Fac) (P1 P2 P3 : Dat),
      (RuizFac S T P E1 ∧ ScaledBy T P P1 E1) ∧ (RuizFac S T P1 E2 ∧ ScaledBy T P1 P2 E2) ∧ (RuizFac S T P2 E3 ∧ ScaledBy T P2 P3 E3) ∧
      ScaledBy T P P3 (mulFac (mulFac E1 E2) E3) ∧
      ((T.hasA → ∀ k, k < T.jcA T.n → |P3.a k| ≤ 1) ∧ ∀ k, k < T.jcG T.n → |P3.g k| ≤ 1) ∧
      ((∀ j, j < T.n → 1e-9 ≤ (mulFac (mulFac E1 E2) E3).x j) ∧ (∀ i, i < T.p → 1e-9 ≤ (mulFac (mulFac E1 E2) E3).A i) ∧
        ∀ i, i < T.m → 1e-9 ≤ (mulFac (mulFac E1 E2) E3).G i) ∧
      Holds r.1.xe T.n (mulFac (mulFac E1 E2) E3).x ∧ Holds r.1.Ae T.p (mulFac (mulFac E1 E2) E3).A ∧ Holds r.1.Ge T.m (mulFac (mulFac E1 E2) E3).G ∧
      EqIs r.1 T P3.a P3.g ∧ Holds r.2.1 T.p P3.b ∧ Holds r.2.2 T.m P3.h := by
  have hT := patOk_eq he
  refine (setEquilibration_res hC hm he hx hy hz hb hh).mono ?_
  rintro r ⟨x, y, z, a, g, hp, ha, hg, hE, kx, ky, kz, kb, kh⟩
  have h1 := hp.res 0 (by decide)
  have h2 := hp.res 1 (by decide)
  have h3 := hp.res 2 (by decide)
  rw [ha, hg] at h1
  let E : Nat → Fac := fun i => ⟨x i, y i, z i⟩
  let P1 : Dat := ⟨a 1, g 1, fun j => P.c j / x 0 j, fun i => P.b i / y 0 i, fun i => P.h i / z 0 i⟩
  let P2 : Dat := ⟨a 2, g 2, fun j => P1.c j / x 1 j, fun i => P1.b i / y 1 i, fun i => P1.h i / z 1 i⟩
  let P3 : Dat := ⟨a 3, g 3, fun j => P2.c j / x 2 j, fun i => P2.b i / y 2 i, fun i => P2.h i / z 2 i⟩
  have f1 : RuizFac S T P (E 0) := ruizFac_of hm h1
  have f2 : RuizFac S T P1 (E 1) := ruizFac_of hm h2
  have f3 : RuizFac S T P2 (E 2) := ruizFac_of hm h3
  have a1 := hp.a 0 (by decide)
  have a2 := hp.a 1 (by decide)
  have a3 := hp.a 2 (by decide)
  have g1 := hp.g 0 (by decide)
  have g2 := hp.g 1 (by decide)
  have g3 := hp.g 2 (by decide)
  rw [ha] at a1
  rw [hg] at g1
  have s1 : ScaledBy T P P1 (E 0) := ⟨fun _ k _ => by show a 1 k = _; rw [a1]; exact div_div _ _ _,
    fun k _ => by show g 1 k = _; rw [g1]; exact div_div _ _ _, fun _ _ => rfl, fun _ _ => rfl, fun _ _ => rfl⟩
  have s2 : ScaledBy T P1 P2 (E 1) := ⟨fun _ k _ => by show a 2 k = _; rw [a2]; exact div_div _ _ _,
    fun k _ => by show g 2 k = _; rw [g2]; exact div_div _ _ _, fun _ _ => rfl, fun _ _ => rfl, fun _ _ => rfl⟩
  have s3 : ScaledBy T P2 P3 (E 2) := ⟨fun _ k _ => by show a 3 k = _; rw [a3]; exact div_div _ _ _,
    fun k _ => by show g 3 k = _; rw [g3]; exact div_div _ _ _, fun _ _ => rfl, fun _ _ => rfl, fun _ _ => rfl⟩
  have ep : ∀ (x : Nat → Nat → ℝ) (i : Nat), passProd x EQUIL_ITERS i = x 0 i * x 1 i * x 2 i := fun x i => by
    show (1.0 : ℝ) * x 0 i * x 1 i * x 2 i = _
    norm_num
  have hge : ∀ {u v w : ℝ}, 1e-3 ≤ u → 1e-3 ≤ v → 1e-3 ≤ w → 1e-9 ≤ u * v * w := fun {u v w} h1 h2 h3 => by
    have h4 : (1e-3 : ℝ) * 1e-3 ≤ u * v := mul_le_mul h1 h2 (by norm_num) (by linarith)
    have h5 : (1e-3 : ℝ) * 1e-3 * 1e-3 ≤ u * v * w := mul_le_mul h4 h3 (by norm_num) (by norm_num at h4 ⊢; linarith)
    norm_num at h5 ⊢
    linarith
  have lx : ∀ {P E}, RuizFac S T P E → ∀ j, j < T.n → 1e-3 ≤ E.x j := fun h j hj => by rw [h.x j hj]; exact normOr_ge _
  have lA : ∀ {P E}, RuizFac S T P E → ∀ i, i < T.p → 1e-3 ≤ E.A i := fun h i hi => by
    rw [h.A (by by_contra hA; have := hT.noA hA; omega) i hi]; exact normOr_ge _
  have lG : ∀ {P E}, RuizFac S T P E → ∀ i, i < T.m → 1e-3 ≤ E.G i := fun h i hi => by
    obtain ⟨r, -, hr⟩ := h.row (i := i) (by omega)
    rw [hr]; exact normOr_ge _
  refine ⟨E 0, E 1, E 2, P1, P2, P3, ⟨f1, s1⟩, ⟨f2, s2⟩, ⟨f3, s3⟩, ?_, pass_bounded hT hm f3 s3,
    ⟨fun j hj => hge (lx f1 j hj) (lx f2 j hj) (lx f3 j hj), fun i hi => hge (lA f1 i hi) (lA f2 i hi) (lA f3 i hi),
      fun i hi => hge (lG f1 i hi) (lG f2 i hi) (lG f3 i hi)⟩,
    kx.congr fun i _ => ep x i, ky.congr fun i _ => ep y i, kz.congr fun i _ => ep z i, hE, ?_, ?_⟩
  · refine ⟨fun hA k hk => ?_, fun k hk => ?_, fun j _ => ?_, fun i _ => ?_, fun i _ => ?_⟩
    · rw [s3.a hA k hk, s2.a hA k hk, s1.a hA k hk, div_div, div_div]
      congr 1
      simp only [mulFac]
      ring
    · rw [s3.g k hk, s2.g k hk, s1.g k hk, div_div, div_div]
      congr 1
      simp only [mulFac]
      ring
    · show P.c j / x 0 j / x 1 j / x 2 j = P.c j / (x 0 j * x 1 j * x 2 j)
      rw [div_div, div_div, mul_assoc]
    · show P.b i / y 0 i / y 1 i / y 2 i = P.b i / (y 0 i * y 1 i * y 2 i)
      rw [div_div, div_div, mul_assoc]
    · show P.h i / z 0 i / z 1 i / z 2 i = P.h i / (z 0 i * z 1 i * z 2 i)
      rw [div_div, div_div, mul_assoc]
  · refine kb.congr fun i _ => ?_
    show P.b i / passProd y EQUIL_ITERS i = P.b i / y 0 i / y 1 i / y 2 i
    rw [ep, div_div, div_div, mul_assoc]
  · refine kh.congr fun i _ => ?_
    show P.h i / passProd z EQUIL_ITERS i = P.h i / z 0 i / z 1 i / z 2 i
    rw [ep, div_div, div_div, mul_assoc]

/-- C61: if all cones are half lines, equilibration balances the matrix: when the maximum norms of all rows and columns lie between `lo` and
`hi`, they lie between the eighth root of `lo/hi` and 1 afterwards. -/
theorem C61_balances (hC : ConeIs C S) (hm : S.m = T.m) (hl : S.l = S.m) {e : EqS ℝ} {P : Dat} (he : EqIs e T P.a P.g)
    (hx : e.xe.size = T.n) (hy : e.Ae.size = T.p) (hz : e.Ge.size = T.m) {b h : Buf ℝ}
    (hb : Holds b T.p P.b) (hh : Holds h T.m P.h) {lo hi : ℝ} (h0 : 1e-6 ≤ lo) (h1 : lo ≤ hi) (hr : 1e-12 ≤ lo / hi) (hW : Within T P lo hi) :
    Ok (setEquilibration C e b h) fun r => ∃ P' : Dat, EqIs r.1 T P'.a P'.g ∧ Within T P' √√√(lo / hi) 1 := by
  refine (C61_passes hC hm he hx hy hz hb hh).mono ?_
  rintro r ⟨E1, E2, E3, P1, P2, P3, ⟨f1, s1⟩, ⟨f2, s2⟩, ⟨f3, s3⟩, -, -, -, -, -, -, hE, -, -⟩
  have hT := patOk_eq he
  have hlo : 0 < lo := lt_of_lt_of_le (by norm_num) h0
  have w1 := pass_balances hT hm hl f1 s1 h0 hW
  have q1 : 1e-6 ≤ √(lo / hi) := Real.le_sqrt_of_sq_le (by norm_num at hr ⊢; linarith)
  have w2 := pass_balances hT hm hl f2 s2 q1 w1
  rw [div_one] at w2
  have hle : √(lo / hi) ≤ 1 := Real.sqrt_le_one.2 ((div_le_one (hlo.trans_le h1)).2 h1)
  have q2 : 1e-6 ≤ √√(lo / hi) := q1.trans (Real.le_sqrt_of_sq_le (by
    have := Real.sqrt_nonneg (lo / hi)
    nlinarith))
  have w3 := pass_balances hT hm hl f3 s3 q2 w2
  rw [div_one] at w3
  exact ⟨P3, hE, w3⟩

/-! ### Examples -/

open Cones

/-- `G = [[2,0],[-3,0],[0,0],[1,0]]`, one row and a cone of three: the first pass divides the rows of the cone by `√(3+0+1) = 2`, the first
column by `√3`; the second column is empty and keeps the factor 1 -/
example : Ok (setEquilibration (exCone ℝ) exEq (ofList []) (ofList [5, 2, 0, 1])) fun r => ∃ E1 E2 E3 : Fac,
    E1.G 0 = √2 ∧ (∀ j, j < 3 → E1.G (1 + j) = 2) ∧ E1.x 0 = √3 ∧ E1.x 1 = 1 ∧
    rd r.1.xe 0 = .ok (E1.x 0 * E2.x 0 * E3.x 0) ∧ rd r.2.2 1 = .ok (2 / (2 * E2.G 1 * E3.G 1)) ∧
    ∃ g, Rep r.1.G 4 2 exPat.jcG exPat.irG g ∧ ∀ k, k < 3 → |g k| ≤ 1 := by
  refine (C61_passes (P := exDat) (exCone_is ℝ) ex_m exEq_is (by simp [exEq, malloc, exPat]) (by simp [exEq, malloc, exPat])
    (by simp [exEq, malloc, exPat]) (b := ofList []) (h := ofList [5, 2, 0, 1]) ⟨rfl, fun i hi => by cases hi⟩
    (ofList_holds ([5, 2, 0, 1] : List ℝ))).mono ?_
  rintro r ⟨E1, E2, E3, P1, P2, P3, ⟨f1, -⟩, -, -, hS, ⟨-, hb⟩, -, hx, -, -, he, -, hh⟩
  have rows : ∀ i, i < 4 → rowG exPat exDat i = ([2, 3, 0, 1] : List ℝ).getD i 0 := fun i hi => by
    have hn : exPat.jcG exPat.n = 3 := rfl
    have hf : ∀ i, {k ∈ range 3 | exPat.irG k = i} = if i = 0 then {0} else if i = 1 then {1} else if i = 3 then {2} else (∅ : Finset Nat) := fun i => by
      ext k
      have e0 : exPat.irG 0 = 0 := rfl
      have e1 : exPat.irG 1 = 1 := rfl
      have e2 : exPat.irG 2 = 3 := rfl
      constructor
      · intro hk
        obtain ⟨k1, k2⟩ := mem_filter.1 hk
        have k1 := mem_range.1 k1
        obtain rfl | rfl | rfl : k = 0 ∨ k = 1 ∨ k = 2 := by omega
        · rw [e0] at k2; subst k2; simp
        · rw [e1] at k2; subst k2; simp
        · rw [e2] at k2; subst k2; simp
      · intro hk
        split at hk
        · rename_i h; subst h; rw [mem_singleton.1 hk]; simp [e0]
        split at hk
        · rename_i h; subst h; rw [mem_singleton.1 hk]; simp [e1]
        split at hk
        · rename_i h; subst h; rw [mem_singleton.1 hk]; simp [e2]
        · cases hk
    rw [rowG, maxNorm, hn, hf]
    obtain rfl | rfl | rfl | rfl : i = 0 ∨ i = 1 ∨ i = 2 ∨ i = 3 := by omega
    all_goals simp [exDat]
  have hG1 : ∀ j, j < 3 → E1.G (1 + j) = 2 := fun j hj => by
    have hs := f1.soc 0 (by decide) j hj
    have : ∑ i ∈ range (exShape.q 0), rowG exPat exDat (exShape.start 0 + i) = 2 ^ 2 := by
      show ∑ i ∈ range 3, rowG exPat exDat (1 + i) = 2 ^ 2
      rw [sum_range_succ, sum_range_succ, sum_range_one, rows _ (by decide), rows _ (by decide), rows _ (by decide)]
      norm_num
    rw [this] at hs
    exact hs.trans (by rw [normOr, if_neg (by norm_num), Real.sqrt_sq (by norm_num)])
  have hcol : ∀ k, k < 3 → colOf exPat.n exPat.jcG k = 0 := by decide
  have hn : exPat.jcG exPat.n = 3 := rfl
  have hA : exPat.hasA = false := rfl
  refine ⟨E1, E2, E3, ?_, hG1, ?_, ?_, hx.rd (by decide), ?_, _, he.G, hb⟩
  · rw [f1.lp 0 (by decide), rows 0 (by decide), normOr, if_neg (by norm_num)]
    rfl
  · have : col exPat exDat 0 = 3 := by
      have hf : {k ∈ range 3 | colOf exPat.n exPat.jcG k = 0} = ({0, 1, 2} : Finset Nat) := by decide
      rw [col, hA, if_neg (by decide), maxNorm, hn, hf]
      norm_num [exDat]
    rw [f1.x 0 (by decide), this, normOr, if_neg (by norm_num)]
  · have : col exPat exDat 1 = 0 := by
      have hf : {k ∈ range 3 | colOf exPat.n exPat.jcG k = 1} = (∅ : Finset Nat) := by decide
      rw [col, hA, if_neg (by decide), maxNorm, hn, hf]
      norm_num
    rw [f1.x 1 (by decide), this, normOr, if_pos (by norm_num)]
  · rw [hh.rd (by decide), hS.h 1 (by decide)]
    show Except.ok (_ / (E1.G 1 * E2.G 1 * E3.G 1)) = _
    rw [show E1.G 1 = 2 from hG1 0 (by decide)]
    rfl

/-- `[[4,0],[0,-9]]` -/
def exPatL : Pat :=
  { n := 2, m := 2, p := 0, hasA := false, jcA := fun _ => 0, irA := fun _ => 0,
    jcG := fun i => [0, 1, 2].getD i 0, irG := fun i => [0, 1].getD i 0 }

noncomputable def exDatL : Dat :=
  { a := fun _ => 0, g := fun i => ([4, -9] : List ℝ).getD i 0, c := fun _ => 0, b := fun _ => 0, h := fun i => ([1, 1] : List ℝ).getD i 0 }

noncomputable def exEqL : EqS ℝ :=
  { A := none, G := { jc := ofList [0, 1, 2], ir := ofList [0, 1], pr := ofList [4, -9], n := 2, m := 2, nnz := 2 }
    xe := malloc 2, Ae := malloc 0, Ge := malloc 2 }

theorem exEqL_is : EqIs exEqL exPatL exDatL.a exDatL.g where
  A := by
    unfold RepA
    rw [if_neg (by decide)]
    exact ⟨rfl, rfl⟩
  G :=
    { m_eq := rfl
      n_eq := rfl
      nnz_eq := rfl
      hjc := ofList_holds [0, 1, 2]
      hir := ofList_holds [0, 1]
      hpr := ofList_holds ([4, -9] : List ℝ)
      ok := ⟨rfl, by decide, by decide⟩ }

def exShapeL : Shape := { l := 2, ns := 0, q := fun _ => 0, ne := 0 }

def exConeL : Cone ℝ :=
  { lpc := { p := 2, w := #[none, none], v := #[none, none], kktIdx := #[none, none] }, soc := #[], nsoc := 0, expc := #[], nexc := 0, fexv := 2 }

theorem exL_m : exShapeL.m = 2 := rfl

/-- hypotheses of `C61_balances` are met -/
example : Ok (setEquilibration exConeL exEqL (ofList []) (ofList [1, 1])) fun r => ∃ P' : Dat,
    EqIs r.1 exPatL P'.a P'.g ∧ Within exPatL P' √√√(4 / 9) 1 := by
  have h0 : {k ∈ range 2 | exPatL.irG k = 0} = ({0} : Finset Nat) := by decide
  have h1 : {k ∈ range 2 | exPatL.irG k = 1} = ({1} : Finset Nat) := by decide
  have c0 : {k ∈ range 2 | colOf exPatL.n exPatL.jcG k = 0} = ({0} : Finset Nat) := by decide
  have c1 : {k ∈ range 2 | colOf exPatL.n exPatL.jcG k = 1} = ({1} : Finset Nat) := by decide
  have hn : exPatL.jcG exPatL.n = 2 := rfl
  have hA : exPatL.hasA = false := rfl
  refine C61_balances (P := exDatL) (S := exShapeL) ⟨rfl, rfl, fun k hk => absurd hk (Nat.not_lt_zero k), fun k hk => absurd hk (Nat.not_lt_zero k), rfl, rfl, rfl, rfl⟩ rfl rfl
    exEqL_is (by simp [exEqL, malloc, exPatL]) (by simp [exEqL, malloc, exPatL]) (by simp [exEqL, malloc, exPatL]) (b := ofList [])
    (h := ofList [1, 1]) ⟨rfl, fun i hi => by cases hi⟩ (ofList_holds ([1, 1] : List ℝ)) (by norm_num) (by norm_num) (by norm_num)
    ⟨fun j hj => ?_, fun i hi => absurd hi (Nat.not_lt_zero i), fun i hi => ?_⟩
  · obtain rfl | rfl : j = 0 ∨ j = 1 := by have : j < 2 := hj; omega
    · rw [col, hA, if_neg (by decide), maxNorm, hn, c0]; norm_num [exDatL]
    · rw [col, hA, if_neg (by decide), maxNorm, hn, c1]; norm_num [exDatL]
  · obtain rfl | rfl : i = 0 ∨ i = 1 := by have : i < 2 := hi; omega
    · rw [rowG, maxNorm, hn, h0]; norm_num [exDatL]
    · rw [rowG, maxNorm, hn, h1]; norm_num [exDatL]

end Ecos.Equil
