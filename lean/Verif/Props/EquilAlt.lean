import Verif.Lemmas.EquilAlt
import Verif.Props.Equil

/-!
# C60: the other equilibration algorithms
-/
namespace Ecos.Equil

set_option linter.unusedSectionVars false

open Finset Ecos

/-! ### What is computed -/

/-- sum of the squares of the entries `k < N` with `key k = i`: with the row indices of a matrix the squared norm of a row, with the
columns that of a column -/
noncomputable def sqNorm (key : Nat → Nat) (pr : Nat → ℝ) (N i : Nat) : ℝ := ∑ k ∈ range N with key k = i, pr k ^ 2

/-- the norm, or 1 if it is below 1/1000 -/
noncomputable def normOr (s : ℝ) : ℝ := if s < 1e-6 then 1 else √s

/-- the row factors of alternating norm equilibration: norms of the rows, averaged (the squares) over the rows of a cone -/
structure AltFac (S : Shape) (T : Pat) (P : Dat) (E : Fac) : Prop where
  A : T.hasA → ∀ i, i < T.p → E.A i = normOr (sqNorm T.irA P.a (T.jcA T.n) i)
  lp : ∀ i, i < S.l → E.G i = normOr (sqNorm T.irG P.g (T.jcG T.n) i)
  soc : ∀ k, k < S.ns → ∀ j, j < S.q k →
    E.G (S.start k + j) = normOr ((∑ i ∈ range (S.q k), sqNorm T.irG P.g (T.jcG T.n) (S.start k + i)) / S.q k)
  exp : ∀ l, l < S.ne → ∀ j, j < 3 →
    E.G (S.fexv + 3 * l + j) = normOr ((∑ i ∈ range 3, sqNorm T.irG P.g (T.jcG T.n) (S.fexv + 3 * l + i)) / 3)

/-- squared norm of column `j` of `[A; G]` -/
noncomputable def colSq (T : Pat) (P : Dat) (j : Nat) : ℝ :=
  (if T.hasA then sqNorm (colOf T.n T.jcA) P.a (T.jcA T.n) j else 0) + sqNorm (colOf T.n T.jcG) P.g (T.jcG T.n) j

theorem accSq_real (key : Nat → Nat) (pr f : Nat → ℝ) (K i : Nat) : accSq key pr f K i = f i + sqNorm key pr K i := by
  unfold sqNorm
  induction K with
  | zero => simp [accSq]
  | succ K ih =>
    rw [range_add_one, filter_insert, accSq]
    by_cases h : key K = i
    · rw [if_pos h, sum_insert (by simp), h, upd_self, ih]
      ring
    · rw [if_neg h, upd_ne _ _ (Ne.symm h), ih]

theorem segSum_real (f : Nat → ℝ) (ind p : Nat) : segSum f ind p = ∑ j ∈ range p, f (ind + j) := by
  induction p with
  | zero => simp [segSum]
  | succ p ih => rw [segSum, ih, sum_range_succ]

theorem sqNorm_nonneg (key : Nat → Nat) (pr : Nat → ℝ) (N i : Nat) : 0 ≤ sqNorm key pr N i := sum_nonneg fun _ _ => sq_nonneg _

theorem sqrtOrOne_real {s : ℝ} (h : 0 ≤ s) : sqrtOrOne s = normOr s := by
  unfold sqrtOrOne normOr
  rw [show PFloat.fabs s = |s| from rfl, abs_of_nonneg h]
  by_cases hs : s < 1e-6
  · rw [if_pos hs, if_pos (by simpa using hs)]
    norm_num
  · rw [if_neg hs, if_neg (by simpa using hs)]
    rfl

theorem normOr_ge (s : ℝ) : 1e-3 ≤ normOr s := by
  unfold normOr
  split
  · norm_num
  · rename_i h
    exact Real.le_sqrt_of_sq_le (by norm_num at h ⊢; linarith)

theorem normOr_pos (s : ℝ) : 0 < normOr s := lt_of_lt_of_le (by norm_num) (normOr_ge s)

theorem sqNorm_div (key : Nat → Nat) (pr x : Nat → ℝ) (N j : Nat) :
    sqNorm key (fun k => pr k / x (key k)) N j = sqNorm key pr N j / x j ^ 2 := by
  unfold sqNorm
  rw [sum_div]
  refine sum_congr rfl fun k hk => ?_
  show (pr k / x (key k)) ^ 2 = _
  rw [(mem_filter.1 hk).2, div_pow]

variable {C : Cone ℝ} {S : Shape} {T : Pat}

/-- every row of `G` belongs to a cone -/
theorem row_cases (S : Shape) {i : Nat} (hi : i < S.m) : i < S.l ∨ (∃ k j, k < S.ns ∧ j < S.q k ∧ i = S.start k + j) ∨
    ∃ l j, l < S.ne ∧ j < 3 ∧ i = S.fexv + 3 * l + j := by
  have hm : S.m = S.fexv + 3 * S.ne := rfl
  by_cases h1 : i < S.l
  · exact Or.inl h1
  by_cases h2 : i < S.fexv
  · refine Or.inr (Or.inl ?_)
    have key : ∀ n, n ≤ S.ns → i < S.start n → ∃ k j, k < S.ns ∧ j < S.q k ∧ i = S.start k + j := by
      intro n
      induction n with
      | zero => intro _ h; exact absurd h (by rw [show S.start 0 = S.l from by simp [Shape.start]]; exact h1)
      | succ n ih =>
        intro hn h
        rw [S.start_succ] at h
        by_cases h3 : i < S.start n
        · exact ih (by omega) h3
        · exact ⟨n, i - S.start n, by omega, by omega, by omega⟩
    exact key S.ns le_rfl h2
  · exact Or.inr (Or.inr ⟨(i - S.fexv) / 3, (i - S.fexv) % 3, by omega, Nat.mod_lt _ (by omega), by omega⟩)

/-- C60: alternating norm equilibration. For all matrices and all cone layouts no memory error occurs, the row factors are the norms of the
rows (on a cone the root of the mean of the squares, so they are equal there), all factors are at least 1/1000, the data is divided by the
factors, and every column of the scaled `[A; G]` has norm 1, unless it was below 1/1000, in which case it is left as it is. -/
theorem C60_alternating (hC : ConeIs C S) (hm : S.m = T.m) {e : EqS ℝ} {P : Dat} (he : EqIs e T P.a P.g)
    (hx : e.xe.size = T.n) (hy : e.Ae.size = T.p) (hz : e.Ge.size = T.m) {b h : Buf ℝ}
    (hb : Holds b T.p P.b) (hh : Holds h T.m P.h) :
    Ok (altEquilibration C e b h) fun r => ∃ (E : Fac) (P' : Dat), E.Ok S T ∧
      ScaledBy T P { P' with c := fun j => P.c j / E.x j } E ∧ AltFac S T P E ∧
      ((∀ j, j < T.n → 1e-3 ≤ E.x j) ∧ (∀ i, i < T.p → 1e-3 ≤ E.A i) ∧ (∀ i, i < T.m → 1e-3 ≤ E.G i)) ∧
      (∀ j, j < T.n → colSq T P' j = 1 ∨ colSq T P' j < 1e-6 ∧ E.x j = 1) ∧
      Holds r.1.xe T.n E.x ∧ Holds r.1.Ae T.p E.A ∧ Holds r.1.Ge T.m E.G ∧
      EqIs r.1 T P'.a P'.g ∧ Holds r.2.1 T.p P'.b ∧ Holds r.2.2 T.m P'.h := by
  refine (altEquilibration_ok hC hm he hx hy hz hb hh).mono ?_
  rintro r ⟨x, y, z, hr, hE, h1, h2, h3, h4, h5⟩
  have hA : ∀ i, i < T.p → T.hasA := fun i hi => by
    by_contra hA
    have := he.A
    unfold RepA at this
    rw [if_neg hA] at this
    omega
  have hyv : T.hasA → ∀ i, i < T.p → y i = normOr (sqNorm T.irA P.a (T.jcA T.n) i) := fun ha i hi => by
    rw [hr.A ha i hi, accSq_real, zero_add, sqrtOrOne_real (sqNorm_nonneg _ _ _ _)]
  obtain ⟨f, av, hzv⟩ := hr.G
  have hfn : ∀ i, i < S.m → 0 ≤ f i := fun i hi => by
    rcases row_cases S hi with h | ⟨k, j, hk, hj, rfl⟩ | ⟨l, j, hl, hj, rfl⟩
    · rw [av.lp i h, accSq_real, zero_add]
      exact sqNorm_nonneg _ _ _ _
    · rw [av.soc k hk j hj, segSum_real]
      refine div_nonneg (sum_nonneg fun i _ => ?_) (by simp)
      rw [accSq_real, zero_add]
      exact sqNorm_nonneg _ _ _ _
    · rw [av.exp l hl j hj, segSum_real]
      refine div_nonneg (sum_nonneg fun i _ => ?_) (by norm_num)
      rw [accSq_real, zero_add]
      exact sqNorm_nonneg _ _ _ _
  have hzn : ∀ i, i < S.m → z i = normOr (f i) := fun i hi => by
    rw [hzv i (by rw [← hm]; exact hi), sqrtOrOne_real (hfn i hi)]
  set s : Nat → ℝ := fun j => (if T.hasA then sqNorm (colOf T.n T.jcA) (fun k => P.a k / y (T.irA k)) (T.jcA T.n) j else 0) +
    sqNorm (colOf T.n T.jcG) (fun k => P.g k / z (T.irG k)) (T.jcG T.n) j with hs
  have hs0 : ∀ j, 0 ≤ s j := fun j => by
    refine add_nonneg ?_ (sqNorm_nonneg _ _ _ _)
    split
    · exact sqNorm_nonneg _ _ _ _
    · exact le_rfl
  have hxv : ∀ j, j < T.n → x j = normOr (s j) := fun j hj => by
    rw [hr.x j hj, accSq_real, ← sqrtOrOne_real (hs0 j), hs]
    split
    · rw [accSq_real, zero_add]
    · rfl
  have hlp : S.l ≤ S.m := by
    have h1 : S.l ≤ S.fexv := S.l_le _
    have h2 : S.m = S.fexv + 3 * S.ne := rfl
    omega
  have hexp : ∀ {l j : Nat}, l < S.ne → j < 3 → S.fexv + 3 * l + j < S.m := fun hl hj => by
    have h2 : S.m = S.fexv + 3 * S.ne := rfl
    omega
  have hAF : AltFac S T P ⟨x, y, z⟩ := by
    refine ⟨hyv, fun i hi => ?_, fun k hk j hj => ?_, fun l hl j hj => ?_⟩
    · show z i = _
      rw [hzn i (by omega), av.lp i hi, accSq_real, zero_add]
    · show z _ = _
      rw [hzn _ (start_lt hk hj), av.soc k hk j hj, segSum_real]
      congr 2
      exact sum_congr rfl fun i _ => by rw [accSq_real, zero_add]
    · show z _ = _
      rw [hzn _ (hexp hl hj), av.exp l hl j hj, segSum_real]
      congr 2
      · exact sum_congr rfl fun i _ => by rw [accSq_real, zero_add]
      · norm_num
  refine ⟨⟨x, y, z⟩, ⟨_, _, P.c, _, _⟩, ⟨fun j hj => ?_, fun i hi => ?_, fun i hi => ?_, fun k hk j hj => ?_, fun l hl j hj => ?_⟩,
    ⟨fun _ k _ => ?_, fun k _ => ?_, fun _ _ => rfl, fun _ _ => rfl, fun _ _ => rfl⟩, hAF, ⟨fun j hj => ?_, fun i hi => ?_, fun i hi => ?_⟩,
    fun j hj => ?_, h1, h2, h3, hE, h4, h5⟩
  · show 0 < x j
    rw [hxv j hj]
    exact normOr_pos _
  · show 0 < y i
    rw [hyv (hA i hi) i hi]
    exact normOr_pos _
  · show 0 < z i
    rw [hzn i (by rw [hm]; exact hi)]
    exact normOr_pos _
  · rw [hAF.soc k hk j hj, ← hAF.soc k hk 0 (by omega)]
    rfl
  · rw [hAF.exp l hl j hj, ← hAF.exp l hl 0 (by omega)]
    rfl
  · exact div_div _ _ _
  · exact div_div _ _ _
  · show _ ≤ x j
    rw [hxv j hj]
    exact normOr_ge _
  · show _ ≤ y i
    rw [hyv (hA i hi) i hi]
    exact normOr_ge _
  · show _ ≤ z i
    rw [hzn i (by rw [hm]; exact hi)]
    exact normOr_ge _
  · have e : colSq T ⟨fun k => P.a k / y (T.irA k) / x (colOf T.n T.jcA k), fun k => P.g k / z (T.irG k) / x (colOf T.n T.jcG k), P.c,
        fun i => P.b i / y i, fun i => P.h i / z i⟩ j = s j / x j ^ 2 := by
      unfold colSq
      rw [hs]
      simp only
      rw [sqNorm_div _ (fun k => P.g k / z (T.irG k)) x, add_div]
      split
      · rw [sqNorm_div _ (fun k => P.a k / y (T.irA k)) x]
      · rw [zero_div]
    rw [e]
    show _ ∨ _ ∧ x j = 1
    rw [hxv j hj]
    unfold normOr
    by_cases hlt : s j < 1e-6
    · rw [if_pos hlt]
      exact Or.inr ⟨by simpa using hlt, rfl⟩
    · rw [if_neg hlt, Real.sq_sqrt (hs0 j)]
      exact Or.inl (div_self (lt_of_lt_of_le (by norm_num) (not_lt.1 hlt)).ne')

/-- C60: `unset_equilibration` gives back the data, whatever the algorithm that found the factors -/
theorem C60_restore {e : EqS ℝ} {P P' : Dat} {E : Fac} (hE : E.Ok S T) (hS : ScaledBy T P { P' with c := fun j => P.c j / E.x j } E)
    (h1 : EqIs e T P'.a P'.g) (h2 : Holds e.xe T.n E.x) (h3 : Holds e.Ae T.p E.A) (h4 : Holds e.Ge T.m E.G) {b h : Buf ℝ}
    (h5 : Holds b T.p P'.b) (h6 : Holds h T.m P'.h) :
    Ok (unsetEquilibration e b h) fun q =>
      RepA q.1 T P.a ∧ Rep q.2.1 T.m T.n T.jcG T.irG P.g ∧ Holds q.2.2.1 T.p P.b ∧ Holds q.2.2.2 T.m P.h := by
  refine (unsetEquilibration_ok h1 h2 h3 h4 h5 h6).mono ?_
  rintro q ⟨q1, q2, q3, q4⟩
  have hG : ∀ k, k < T.jcG T.n → P'.g k * (E.G (T.irG k) * E.x (colOf T.n T.jcG k)) = P.g k := by
    intro k hk
    have a1 := hE.G _ (h1.G.ok.rows k hk)
    have a2 := hE.x _ (colOf_lt h1.G.ok hk)
    rw [show P'.g k = _ from hS.g k hk, div_mul_cancel₀ _ (mul_pos a1 a2).ne']
  refine ⟨?_, ⟨q2.m_eq, q2.n_eq, q2.nnz_eq, q2.hjc, q2.hir, q2.hpr.congr hG, q2.ok⟩,
    q3.congr fun i hi => ?_, q4.congr fun i hi => ?_⟩
  · unfold RepA at q1 ⊢
    split
    · rename_i hA
      rw [if_pos hA] at q1
      obtain ⟨M, hM, q1⟩ := q1
      refine ⟨M, hM, ⟨q1.m_eq, q1.n_eq, q1.nnz_eq, q1.hjc, q1.hir, q1.hpr.congr fun k hk => ?_, q1.ok⟩⟩
      have a1 := hE.A _ (q1.ok.rows k hk)
      have a2 := hE.x _ (colOf_lt q1.ok hk)
      rw [show P'.a k = _ from hS.a hA k hk, div_mul_cancel₀ _ (mul_pos a1 a2).ne']
    · rename_i hA
      rw [if_neg hA] at q1
      exact q1
  · rw [show P'.b i = _ from hS.b i hi, div_mul_cancel₀ _ (hE.A i hi).ne']
  · rw [show P'.h i = _ from hS.h i hi, div_mul_cancel₀ _ (hE.G i hi).ne']

/-- C60: without an algorithm the factors are 1 and the data is left as it is -/
theorem C60_none {e : EqS ℝ} {P : Dat} (he : EqIs e T P.a P.g) (hx : e.xe.size = T.n) (hy : e.Ae.size = T.p) (hz : e.Ge.size = T.m)
    {b h : Buf ℝ} (hb : Holds b T.p P.b) (hh : Holds h T.m P.h) :
    Ok (noEquilibration e b h) fun r => ∃ E : Fac, E.Ok S T ∧ ScaledBy T P { P with c := fun j => P.c j / E.x j } E ∧
      (∀ i, E.x i = 1 ∧ E.A i = 1 ∧ E.G i = 1) ∧ Holds r.1.xe T.n E.x ∧ Holds r.1.Ae T.p E.A ∧ Holds r.1.Ge T.m E.G ∧
      EqIs r.1 T P.a P.g ∧ Holds r.2.1 T.p P.b ∧ Holds r.2.2 T.m P.h := by
  refine (noEquilibration_ok he hx hy hz b h).mono ?_
  rintro r ⟨h1, h2, h3, h4, h5⟩
  rw [show (1.0 : ℝ) = 1 by norm_num] at h2 h3 h4
  refine ⟨⟨fun _ => 1, fun _ => 1, fun _ => 1⟩, ⟨fun _ _ => one_pos, fun _ _ => one_pos, fun _ _ => one_pos, fun _ _ _ _ => rfl, fun _ _ _ _ => rfl⟩,
    ⟨fun _ _ _ => by simp, fun _ _ => by simp, fun _ _ => by simp, fun _ _ => by simp, fun _ _ => by simp⟩, fun _ => ⟨rfl, rfl, rfl⟩, h2, h3, h4, h1, ?_, ?_⟩
  · rw [h5]; exact hb
  · rw [h5]; exact hh

/-- C60: for every number type (so with infinities, NaN and rounding) alternating norm equilibration runs without memory errors, divides
the data by its factors, and finds equal factors on each cone -/
theorem C60_safe {F : Type} [Zero F] [One F] [Add F] [Sub F] [Mul F] [Div F] [Neg F] [OfScientific F] [IntCast F] [PFloat F] {C : Cone F}
    (hC : ConeIs C S) (hm : S.m = T.m) {e : EqS F} {a g : Nat → F} (he : EqIs e T a g) (hx : e.xe.size = T.n)
    (hy : e.Ae.size = T.p) (hz : e.Ge.size = T.m) {b h : Buf F} {bf hf : Nat → F} (hb : Holds b T.p bf) (hh : Holds h T.m hf) :
    Ok (altEquilibration C e b h) fun r => ∃ x y z, Uniform S z ∧
      EqIs r.1 T (fun k => a k / y (T.irA k) / x (colOf T.n T.jcA k)) (fun k => g k / z (T.irG k) / x (colOf T.n T.jcG k)) ∧
      Holds r.1.xe T.n x ∧ Holds r.1.Ae T.p y ∧ Holds r.1.Ge T.m z ∧
      Holds r.2.1 T.p (fun i => bf i / y i) ∧ Holds r.2.2 T.m (fun i => hf i / z i) := by
  refine (altEquilibration_ok hC hm he hx hy hz hb hh).mono ?_
  rintro r ⟨x, y, z, hr, h⟩
  obtain ⟨f, av, hzv⟩ := hr.G
  refine ⟨x, y, z, ⟨fun k hk j hj => ?_, fun l hl j hj => ?_⟩, h⟩
  · have h1 := start_lt hk hj
    have h0 : S.start k + 0 < S.m := start_lt hk (by omega)
    rw [hzv _ (by omega), hzv _ (by omega), av.soc k hk j hj, ← av.soc k hk 0 (by omega)]
    rfl
  · have h2 : S.m = S.fexv + 3 * S.ne := rfl
    rw [hzv _ (by omega), hzv _ (by omega), av.exp l hl j hj, ← av.exp l hl 0 (by omega)]
    rfl

/-! ### An example: `G = [[2,0],[-3,0],[0,0],[1,0]]`, one row and a cone of three -/

open Cones

/-- the factor of the first row is its norm 2, that of the cone `√((9+0+1)/3)`; the first column then has norm 2, the second is zero and
keeps the factor 1 -/
example : Ok (altEquilibration (exCone ℝ) exEq (ofList []) (ofList [5, 2, 0, 1])) fun r =>
    rd r.1.Ge 0 = .ok 2 ∧ (∀ j, j < 3 → rd r.1.Ge (1 + j) = .ok √(10 / 3)) ∧
    (∃ x, rd r.1.xe 0 = .ok x ∧ 1e-3 ≤ x) ∧
    ∃ g, Rep r.1.G 4 2 exPat.jcG exPat.irG g ∧ (g 0 ^ 2 + g 1 ^ 2 + g 2 ^ 2 = 1 ∨ g 0 ^ 2 + g 1 ^ 2 + g 2 ^ 2 < 1e-6) := by
  refine (C60_alternating (P := exDat) (exCone_is ℝ) ex_m exEq_is (by simp [exEq, malloc, exPat]) (by simp [exEq, malloc, exPat])
    (by simp [exEq, malloc, exPat]) (b := ofList []) (h := ofList [5, 2, 0, 1]) ⟨rfl, fun i hi => by cases hi⟩
    (ofList_holds ([5, 2, 0, 1] : List ℝ))).mono ?_
  rintro r ⟨E, P', hE, hS, hF, ⟨hb, -⟩, hc, hx, -, hG, he, -⟩
  refine ⟨?_, fun j hj => ?_, ⟨_, hx.rd (by decide), hb 0 (by decide)⟩, _, he.G, ?_⟩
  · rw [hG.rd (by decide), hF.lp 0 (by decide)]
    have : sqNorm exPat.irG exDat.g (exPat.jcG exPat.n) 0 = 2 ^ 2 := by
      simp [sqNorm, exPat, exDat, sum_filter, sum_range_succ]
    rw [this, normOr, if_neg (by norm_num), Real.sqrt_sq (by norm_num)]
  · have hs := hF.soc 0 (by decide) j hj
    rw [show exShape.start 0 = 1 from rfl] at hs
    rw [hG.rd (show 1 + j < 4 by omega), hs]
    have : ∑ i ∈ range (exShape.q 0), sqNorm exPat.irG exDat.g (exPat.jcG exPat.n) (1 + i) = 10 := by
      simp [sqNorm, exPat, exDat, sum_filter, sum_range_succ, exShape]
      norm_num
    rw [this, normOr, if_neg (by norm_num [exShape])]
    norm_num [exShape]
  · have h0 := hc 0 (by decide)
    have : colSq exPat P' 0 = P'.g 0 ^ 2 + P'.g 1 ^ 2 + P'.g 2 ^ 2 := by
      have hcol : ∀ k, k < 3 → colOf exPat.n exPat.jcG k = 0 := by decide
      have hn : exPat.jcG exPat.n = 3 := rfl
      simp [colSq, sqNorm, sum_filter, hn, sum_range_succ, hcol, show exPat.hasA = false from rfl]
    rw [this] at h0
    exact h0.imp id And.left

end Ecos.Equil
