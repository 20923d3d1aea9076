import Verif.Lemmas.Setup1
import Verif.Spec.Kkt
import Verif.Props.Equil
import Verif.Core.Fx

/-!
# C05: the assembled KKT matrix
-/
namespace Ecos.Asm

open Ecos Finset Ecos.Fact

/-! ### Dense form -/

theorem Parts.dense_eq {T : Parts ℝ} {c : Nat} (hc : c < T.N) (r : Nat) :
    dense T.off T.ir T.pr r c = ∑ t ∈ range (T.col c).len, if (T.col c).row t = r then (T.col c).val t else 0 := by
  unfold dense
  rw [T.off_succ, Finset.sum_Ico_eq_sum_range, Nat.add_sub_cancel_left]
  refine sum_congr rfl fun t ht => ?_
  rw [T.ir_at hc (mem_range.1 ht), T.pr_at hc (mem_range.1 ht)]

theorem sum_cat {c d : Nat} {r r' : Nat → Nat} {v v' : Nat → ℝ} (i : Nat) :
    ∑ t ∈ range (Col.cat c r v d r' v').len, (if (Col.cat c r v d r' v').row t = i then (Col.cat c r v d r' v').val t else 0) =
      (∑ t ∈ range c, if r t = i then v t else 0) + ∑ t ∈ range d, if r' t = i then v' t else 0 := by
  show ∑ t ∈ range (c + d), _ = _
  rw [sum_range_add]
  congr 1
  · refine sum_congr rfl fun t ht => ?_
    have := mem_range.1 ht
    simp [Col.cat, this]
  · refine sum_congr rfl fun t _ => ?_
    simp [Col.cat]

theorem sum_col {j i : Nat} {jc ir : Nat → Nat} {pr : Nat → ℝ} :
    (∑ t ∈ range (jc (j + 1) - jc j), if ir (jc j + t) = i then pr (jc j + t) else 0) = dense jc ir pr i j := by
  unfold dense
  rw [Finset.sum_Ico_eq_sum_range]

theorem dense_oob {m n : Nat} {jc ir : Nat → Nat} {pr : Nat → ℝ} (h : CscOk m n jc ir) {i j : Nat} (hi : m ≤ i) (hj : j < n) :
    dense jc ir pr i j = 0 := by
  unfold dense
  refine sum_eq_zero fun k hk => ?_
  rw [mem_Ico] at hk
  have := h.mono' (i := j + 1) (j := n) (by omega) le_rfl
  have := h.rows k (by omega)
  rw [if_neg (by omega)]

theorem gcol_sum {T : Parts ℝ} {j d i : Nat} {r : Nat → Nat} {v : Nat → ℝ} :
    ∑ t ∈ range (T.gcol j d r v).len, (if (T.gcol j d r v).row t = i then (T.gcol j d r v).val t else 0) =
      dense T.jG T.iG T.g i j + ∑ t ∈ range d, if r t = i then v t else 0 := by
  unfold Parts.gcol
  rw [sum_cat]
  congr 1
  exact sum_col

/-- the dense form of the assembled matrix -/
theorem Parts.dense_doc {T : Parts ℝ} (hT : T.Ok) {r c : Nat} (hc : c < T.N) :
    dense T.off T.ir T.pr r c =
      kktDoc T.n T.p T.S (fun i j => dense T.jA T.iA T.a j i) (fun i j => dense T.jG T.iG T.g j i) r c := by
  have hN : T.N = T.n + T.p + T.S.x.m := rfl
  rw [Parts.dense_eq hc]
  unfold kktDoc
  by_cases h1 : c < T.n
  · rw [T.col_x h1, if_pos h1]
    simp only [range_one, sum_singleton]
    by_cases e : r = c
    · rw [if_pos e, if_pos e.symm]; rfl
    · rw [if_neg e, if_neg fun h => e h.symm]
  · rw [if_neg h1]
    by_cases h2 : c < T.n + T.p
    · rw [if_pos h2]
      obtain ⟨j, rfl⟩ : ∃ j, c = T.n + j := ⟨c - T.n, by omega⟩
      rw [T.col_y (by omega), sum_cat, Nat.add_sub_cancel_left]
      simp only [range_one, sum_singleton]
      have e := sum_col (j := j) (i := r) (jc := T.jA) (ir := T.iA) (pr := T.a)
      unfold Parts.cA
      rw [e]
      by_cases h3 : r < T.n
      · rw [if_pos h3, if_neg (by omega), add_zero]
      · rw [if_neg h3, dense_oob hT.a (by omega) (by omega), zero_add]
        by_cases e : r = T.n + j
        · rw [if_pos e, if_pos e.symm]; rfl
        · rw [if_neg e, if_neg fun h => e h.symm]
    · rw [if_neg h2]
      obtain ⟨i, rfl⟩ : ∃ i, c = T.n + T.p + i := ⟨c - T.n - T.p, by omega⟩
      have hi : T.n + T.p + i - T.n - T.p = i := by omega
      rw [hi]
      rcases T.S.x.m_cases (i := i) (by omega) with h | ⟨k, j, hk, hj, e⟩ | ⟨l, j, hl', hj, e⟩
      · have hlm : T.S.l ≤ T.S.m := le_trans (T.S.l_le _) (Nat.le_add_right _ _)
        have h' : i < T.S.l := h
        rw [T.col_lp h', gcol_sum]
        unfold expandG diagV0
        rw [glue_lp T.S.x _ _ _ h, glue_lp T.S.x _ _ _ h]
        simp only [range_one, sum_singleton]
        by_cases h3 : r < T.n
        · rw [if_pos h3, if_neg (by omega), add_zero]
        · rw [if_neg h3, dense_oob hT.g (by omega) (by omega), zero_add]
          by_cases e : r = T.n + T.p + i
          · rw [if_pos e, if_pos e.symm]; norm_num
          · rw [if_neg e, if_neg fun h => e h.symm]
      · have hk' : k < T.S.ns := hk
        have hj' : j < T.S.q k + 2 := hj
        have hle := T.S.start_le hk'
        have hq := hT.pos k hk'
        have hm : T.S.m = T.S.fexv + 3 * T.S.ne := rfl
        subst e
        rw [T.col_soc hk' hj']
        unfold expandG diagV0 Parts.socCol
        rw [glue_soc_at hk hj, glue_soc_at hk hj]
        simp only
        by_cases a1 : j < T.S.q k
        · rw [if_pos a1, if_pos a1, if_neg (show ¬ j = T.S.q k + 1 by omega), gcol_sum]
          simp only [range_one, sum_singleton]
          by_cases h3 : r < T.n
          · rw [if_pos h3, if_neg (by omega), add_zero]
          · rw [if_neg h3, dense_oob hT.g (by omega) (by omega), zero_add]
            by_cases e : r = T.n + T.p + (T.S.x.start k + j)
            · rw [if_pos e, if_pos (by omega)]; norm_num
            · rw [if_neg e, if_neg (by omega)]
        · rw [if_neg a1, if_neg a1]
          by_cases a2 : j = T.S.q k
          · rw [if_pos a2, if_neg (show ¬ j = T.S.q k + 1 by omega)]
            simp only
            obtain ⟨q, hq'⟩ : ∃ q, T.S.q k = q + 1 := ⟨T.S.q k - 1, by omega⟩
            have hz : ∑ t ∈ range q, (if T.n + T.p + T.S.x.start k + (1 + t) = r then (if t < q + 1 - 1 then (0 : ℝ) else -1) else 0) = 0 :=
              sum_eq_zero fun t ht => by
                have := mem_range.1 ht
                rw [if_pos (show t < q + 1 - 1 by omega), ite_self]
            rw [hq', sum_range_succ, hz, zero_add, if_neg (show ¬ q < q + 1 - 1 by omega)]
            by_cases h3 : r < T.n
            · rw [if_pos h3, if_neg (by omega)]; rfl
            · rw [if_neg h3]
              by_cases e : r = T.n + T.p + (T.S.x.start k + j)
              · rw [if_pos e, if_pos (by omega)]
              · rw [if_neg e, if_neg (by omega)]
          · have a3 : j = T.S.q k + 1 := by omega
            rw [if_neg a2, if_pos a3]
            simp only
            have hz : ∑ t ∈ range (T.S.q k), (if (if t < T.S.q k then T.n + T.p + T.S.x.start k + t else T.n + T.p + T.S.x.start k + T.S.q k + 1) = r
                then (if t < T.S.q k then (0 : ℝ) else 1) else 0) = 0 :=
              sum_eq_zero fun t ht => by
                have := mem_range.1 ht
                rw [if_pos (show t < T.S.q k from this), if_pos (show t < T.S.q k from this), ite_self]
            rw [sum_range_succ, hz, zero_add, if_neg (Nat.lt_irrefl (T.S.q k)), if_neg (Nat.lt_irrefl (T.S.q k))]
            by_cases h3 : r < T.n
            · rw [if_pos h3, if_neg (by omega)]; rfl
            · rw [if_neg h3]
              by_cases e : r = T.n + T.p + (T.S.x.start k + j)
              · rw [if_pos e, if_pos (by omega)]; norm_num
              · rw [if_neg e, if_neg (by omega)]
      · have hl2 : l < T.S.ne := hl'
        have hm : T.S.m = T.S.fexv + 3 * T.S.ne := rfl
        subst e
        rw [T.col_exp hj]
        unfold expandG diagV0 Parts.expCol
        rw [glue_exp_at hj, glue_exp_at hj]
        simp only
        have hz : ∑ t ∈ range j, (if T.n + T.p + (T.S.x.fexv + 3 * l) + t = r then (if t < j then (0.0 : ℝ) else -1.0) else 0) = 0 :=
          sum_eq_zero fun t ht => by
            have := mem_range.1 ht
            rw [if_pos (show t < j from this)]
            norm_num
        rw [gcol_sum, sum_range_succ, hz, zero_add, if_neg (Nat.lt_irrefl j)]
        by_cases h3 : r < T.n
        · rw [if_pos h3, if_neg (by omega), add_zero]
        · rw [if_neg h3, dense_oob hT.g (by omega) (by omega), zero_add]
          by_cases e : r = T.n + T.p + (T.S.x.fexv + 3 * l + j)
          · rw [if_pos e, if_pos (by omega)]; norm_num
          · rw [if_neg e, if_neg (by omega)]


/-! ### What the specification says, block by block -/

theorem expandG_lp {S : Shape} (G : Nat → Nat → ℝ) {i j : Nat} (h : i < S.l) : expandG S G i j = G i j := by
  unfold expandG
  rw [glue_lp S.x _ _ _ h]

theorem expandG_soc {S : Shape} (G : Nat → Nat → ℝ) {k i j : Nat} (hk : k < S.ns) (hi : i < S.q k) :
    expandG S G (S.start k + 2 * k + i) j = G (S.start k + i) j := by
  have hi' : i < S.x.q k := by show i < S.q k + 2; omega
  unfold expandG
  rw [← S.x_start, glue_soc_at (S := S.x) hk hi', if_pos hi]

theorem expandG_pad {S : Shape} (G : Nat → Nat → ℝ) {k i j : Nat} (hk : k < S.ns) (hi : i < 2) :
    expandG S G (S.start k + 2 * k + (S.q k + i)) j = 0 := by
  have hi' : S.q k + i < S.x.q k := by show S.q k + i < S.q k + 2; omega
  unfold expandG
  rw [← S.x_start, glue_soc_at (S := S.x) hk hi', if_neg (by omega)]
  rfl

theorem expandG_exp {S : Shape} (G : Nat → Nat → ℝ) {l i j : Nat} (hi : i < 3) :
    expandG S G (S.fexv + 2 * S.ns + 3 * l + i) j = G (S.fexv + 3 * l + i) j := by
  have e : S.x.fexv = S.fexv + 2 * S.ns := S.x_start S.ns
  unfold expandG
  rw [← e, glue_exp_at (S := S.x) hi]

theorem glue_app {α β : Type} (S : Shape) (f : Nat → α → β) (g e : Nat → Nat → α → β) (i : Nat) (r : α) :
    glue S f g e i r = glue S (fun i => f i r) (fun k j => g k j r) (fun l j => e l j r) i := by
  unfold glue
  split
  · rfl
  · split <;> rfl

theorem expandG_congr {S : Shape} {G G' : Nat → Nat → ℝ} {r : Nat} (h : ∀ i, G i r = G' i r) (i : Nat) :
    expandG S G i r = expandG S G' i r := by
  unfold expandG
  rw [glue_app, glue_app]
  simp only [h]
  congr 1
  funext k j
  split
  · exact h _
  · rfl

theorem kktDoc_congr {n p : Nat} {S : Shape} {A A' G G' : Nat → Nat → ℝ} (hA : ∀ i j, i < p → j < n → A i j = A' i j)
    (hG : ∀ i j, j < n → G i j = G' i j) (r c : Nat) : kktDoc n p S A G r c = kktDoc n p S A' G' r c := by
  unfold kktDoc
  split
  · rfl
  · split
    · split
      · rename_i h1 h2 h3
        exact hA _ _ (by omega) h3
      · rfl
    · split
      · rename_i h3
        exact expandG_congr (fun i => hG i r h3) _
      · rfl

theorem csInv_dense {m n : Nat} {jc ir : Nat → Nat} {pr : Nat → ℝ} (h : CscOk m n jc ir) {i j : Nat} (hj : j < n) :
    dense (csStart ir (jc n)) (fun q => colOf n jc (csInv ir (jc n) q)) (fun q => pr (csInv ir (jc n) q)) j i = dense jc ir pr i j :=
  transpose_dense h (fun k hk => by rw [csInv_pos hk]) (fun k hk => by rw [csInv_pos hk]) hj

/-- the assembled matrix in terms of `A` and `G` -/
theorem PatGood.dense {T : Pat} {S : Shape} {a g : Nat → ℝ} (hP : PatGood T S) {r c : Nat} (hc : c < T.n + T.p + (T.m + 2 * S.ns)) :
    Ecos.dense (partsOf T S a g).off (partsOf T S a g).ir (partsOf T S a g).pr r c =
      kktDoc T.n T.p S (Ecos.dense T.jcA T.irA a) (Ecos.dense T.jcG T.irG g) r c := by
  rw [Parts.dense_doc hP.parts (by rw [← hP.m, ← Shape.x_m] at hc; exact hc)]
  refine kktDoc_congr (fun i j hi hj => ?_) (fun i j hj => ?_) r c
  · cases hA : T.hasA with
    | false =>
      have hi2 : i < T.p := hi
      rw [hP.noA hA] at hi2
      omega
    | true =>
      show Ecos.dense (csStart T.irA T.nA) (fun q => colOf T.n T.jcA (csInv T.irA T.nA q)) (fun q => a (csInv T.irA T.nA q)) j i = _
      rw [PatGood.nA_of hA]
      exact csInv_dense (hP.a hA) hj
  · exact csInv_dense hP.g hj

theorem signs_doc {n p : Nat} {S : Shape} {i : Nat} (hi : i < n + p + S.x.m) : kktSignDoc n p S i (signs n p S i) := by
  unfold kktSignDoc signs three
  have key : ∀ k, k < S.ns → n + p + S.start k + 2 * k + (S.q k + 1) = n + p + (S.x.start k + (S.q k + 1)) := by
    intro k _; rw [S.x_start]; omega
  by_cases h1 : i < n
  · rw [if_pos h1]
    exact ⟨fun _ => rfl, fun h => absurd (Or.inl h1) h⟩
  rw [if_neg h1]
  by_cases h2 : i < n + p
  · rw [if_pos h2]
    refine ⟨?_, fun _ => rfl⟩
    rintro (h | ⟨k, hk, e⟩) <;> omega
  rw [if_neg h2]
  have hi' : i - n - p < S.x.m := by omega
  rcases S.x.m_cases hi' with h | ⟨k, j, hk, hj, e⟩ | ⟨l, j, hl, hj, e⟩
  · rw [glue_lp S.x _ _ _ h]
    refine ⟨?_, fun _ => rfl⟩
    rintro (h' | ⟨k, hk, e⟩)
    · omega
    · have := S.x.l_le k
      rw [key k hk] at e
      omega
  · have hk' : k < S.ns := hk
    rw [e, glue_soc_at hk hj]
    have ei : i = n + p + (S.x.start k + j) := by omega
    by_cases e1 : j = S.q k + 1
    · rw [if_pos e1]
      exact ⟨fun _ => rfl, fun h => absurd (Or.inr ⟨k, hk', by rw [key k hk', ei, e1]⟩) h⟩
    · rw [if_neg e1]
      refine ⟨?_, fun _ => rfl⟩
      rintro (h' | ⟨k', hk2, e2⟩)
      · omega
      · rw [key k' hk2] at e2
        have hj2 : S.q k' + 1 < S.x.q k' := by show _ < S.q k' + 2; omega
        have : k = k' := S.x.row_unique (k := S.x.start k + j) (by omega) (by omega) (by omega) (by omega)
        subst this
        omega
  · rw [e, glue_exp_at hj]
    refine ⟨?_, fun _ => rfl⟩
    rintro (h' | ⟨k, hk, e2⟩)
    · omega
    · rw [key k hk] at e2
      have := S.x.start_le (show k < S.x.ns from hk)
      have hq : S.x.q k = S.q k + 2 := rfl
      have hf : S.x.fexv = S.x.start S.x.ns := rfl
      omega

/-! ### C05 -/

/-- **C05** Whatever the problem (any pattern of `G` and of the optional `A`, any mix of cones), set-up ends with matrices `A`, `G`
(equilibrated, C12), and the KKT matrix it assembles from them is upper triangular, uses every allocated entry and no other (`Rep`), is
the documented block matrix, and comes with the documented signs. -/
theorem C05_assembled {T : Pat} {S : Shape} {C : Cone ℝ} {A : Option (SpMat ℝ)} {G : SpMat ℝ} {b h : Buf ℝ} {a0 g0 bf hf : Nat → ℝ}
    (hP : PatGood T S) (hC : ConeNew C S) (hA : RepA A T a0) (hG : Rep G T.m T.n T.jcG T.irG g0) (hb : Holds b T.p bf)
    (hh : Holds h T.m hf) :
    Ok (setupPre C A G T.n T.m T.p b h) fun r => ∃ a g jc ir pr sg, EqIs r.e T a g ∧
      Rep r.U.K (T.n + T.p + (T.m + 2 * S.ns)) (T.n + T.p + (T.m + 2 * S.ns)) jc ir pr ∧
      r.U.K.ir.size = r.U.K.nnz ∧ r.U.K.pr.size = r.U.K.nnz ∧
      Upper (T.n + T.p + (T.m + 2 * S.ns)) jc ir ∧
      (∀ i j, i < T.n + T.p + (T.m + 2 * S.ns) → j < T.n + T.p + (T.m + 2 * S.ns) →
        dense jc ir pr i j = kktDoc T.n T.p S (dense T.jcA T.irA a) (dense T.jcG T.irG g) i j) ∧
      Holds r.U.Sign (T.n + T.p + (T.m + 2 * S.ns)) sg ∧
      ∀ i, i < T.n + T.p + (T.m + 2 * S.ns) → kktSignDoc T.n T.p S i (sg i) := by
  refine (setupPre_ok hP hC hA hG hb hh eqReal).mono ?_
  rintro r ⟨a, g, x, y, z, e1, e2, e3, e4, e5, e6, e7, e8, e9, e10, e11, e12, u1, u2, u3, u4, u5, -⟩
  have hN : (partsOf T S a g).N = T.n + T.p + (T.m + 2 * S.ns) := by
    rw [← hP.m, ← Shape.x_m]; rfl
  have hup := (partsOf T S a g).upper hP.parts
  rw [hN] at u1 u2 hup
  refine ⟨a, g, _, _, _, _, e1, u1, by rw [u1.hir.size, u1.nnz_eq], by rw [u1.hpr.size, u1.nnz_eq], hup,
    fun i j _ hj => hP.dense hj, u2, fun i hi => signs_doc ?_⟩
  rw [Shape.x_m, hP.m]
  exact hi

/-- entry of the symmetric matrix whose upper triangle is documented -/
noncomputable def kktSym (n p : Nat) (S : Shape) (A G : Nat → Nat → ℝ) (i j : Nat) : ℝ :=
  if i ≤ j then kktDoc n p S A G i j else kktDoc n p S A G j i

/-- **C05, through to the solver** When `ECOS_setup` succeeds, the workspace holds matrices `A`, `G`, and the matrix the
factorisation gets is the documented matrix for them with rows and columns reordered by the stored permutation; the signs are
reordered with it. Holds for every fill-reducing ordering. -/
theorem C05_setup {amd : Nat → Buf Nat → Buf Nat → Option (Buf Nat)}
    (hamd : ∀ N jc ir P, amd N jc ir = some P → ∃ pf, Holds P N pf ∧ IsPerm N pf) {T : Pat} {S : Shape} {G3 A3 : Mat3 ℝ} {qb : Buf Nat}
    {cb hb bb : Buf ℝ} {a0 g0 c0 h0 b0 : Nat → ℝ} (hP : PatGood T S) (hin : Given T S G3 A3 qb cb hb bb a0 g0 c0 h0 b0) :
    Ok (ecosSetup amd T.n T.m T.p S.l S.ns qb S.ne G3 A3 cb hb bb) fun r => ∀ w, r = .ok w →
      ∃ a g π jc ir pr sg, RepA w.A T a ∧ Rep w.G T.m T.n T.jcG T.irG g ∧
      Holds w.KKT.Pinv (T.n + T.p + (T.m + 2 * S.ns)) π ∧ IsPerm (T.n + T.p + (T.m + 2 * S.ns)) π ∧
      Rep w.KKT.PKPt (T.n + T.p + (T.m + 2 * S.ns)) (T.n + T.p + (T.m + 2 * S.ns)) jc ir pr ∧
      Upper (T.n + T.p + (T.m + 2 * S.ns)) jc ir ∧
      (∀ i j, i < T.n + T.p + (T.m + 2 * S.ns) → j < T.n + T.p + (T.m + 2 * S.ns) →
        symDense jc ir pr (π i) (π j) = kktSym T.n T.p S (dense T.jcA T.irA a) (dense T.jcG T.irG g) i j) ∧
      Has' w.KKT.Sign (T.n + T.p + (T.m + 2 * S.ns)) sg ∧
      ∀ i, i < T.n + T.p + (T.m + 2 * S.ns) → kktSignDoc T.n T.p S i (sg (π i)) := by
  refine (ecosSetup_ok hamd hP hin eqReal).mono ?_
  rintro r ⟨a, g, x, y, z, e5, e6, e7, e8, e9, e10, hr⟩ w rfl
  obtain ⟨hs, hd, hc, -, -, π, ai, q, ax, sg, hk, -, hax⟩ := hr
  have hT := hP.parts (a := a) (g := g)
  have hN : (partsOf T S a g).N = T.n + T.p + (T.m + 2 * S.ns) := by
    rw [← hP.m, ← Shape.x_m]; rfl
  have hcsc := (partsOf T S a g).csc hT
  have hup := (partsOf T S a g).upper hT
  have key := @permute_dense _ _ _ π _ hcsc hup hk.perm ai ax hk.ai_eq hax
  have hup' := permute_upper hcsc hk.ai_eq
  have h1 := hk.pinv
  have h2 := hk.perm
  have h3 := hk.rep
  have h4 := hk.ok.sign
  rw [hN] at h1 h2 h3 h4
  refine ⟨a, g, π, _, ai, ax, sg, hd.A, hd.G, h1, h2, h3, ?_, fun i j hi hj => ?_, h4, fun i hi => ?_⟩
  · rw [hN] at hup'
    unfold Parts.ap Parts.key
    rw [hN]
    exact hup'
  · refine (key (by rw [hN]; exact hi) (by rw [hN]; exact hj)).trans ?_
    unfold symDense kktSym
    split
    · exact hP.dense hj
    · exact hP.dense hi
  · rw [hk.sign i (by rw [hN]; exact hi)]
    exact signs_doc (by rw [Shape.x_m, hP.m]; exact hi)

/-! ### A problem meeting the hypotheses: two variables, one equation, a linear row, a second-order cone of dimension 3 and an
exponential cone -/

def exShape5 : Shape := { l := 1, ns := 1, q := fun _ => 3, ne := 1 }

def exPat5 : Pat :=
  { n := 2, m := 7, p := 1, hasA := true, jcA := fun i => [0, 1, 2].getD i 0, irA := fun _ => 0,
    jcG := fun i => [0, 3, 5].getD i 0, irG := fun i => [0, 1, 4, 2, 6].getD i 0 }

theorem exShape5_fexv : exShape5.fexv = 4 := by
  unfold Shape.fexv
  show exShape5.start (0 + 1) = 4
  rw [Shape.start_succ (S := exShape5) 0]
  simp [Shape.start_zero, exShape5]

theorem exPat5_good : PatGood exPat5 exShape5 where
  m := by unfold Shape.m; rw [exShape5_fexv]; rfl
  a := fun _ => ⟨rfl, by decide, by decide⟩
  noA := by decide
  g := ⟨rfl, by decide, by decide⟩
  na := by decide
  ng := by decide
  pos := by decide

theorem exGiven5 : Given exPat5 exShape5 ⟨some (ofList ([-1, 2, 1, 3, -4] : List ℝ)), some (ofList [0, 3, 5]), some (ofList [0, 1, 4, 2, 6])⟩
    ⟨some (ofList ([1, 1] : List ℝ)), some (ofList [0, 1, 2]), some (ofList [0, 0])⟩ (ofList [3]) (ofList [1, 1])
    (ofList [0, 1, 0, 0, 0, 1, 2]) (ofList [1]) (fun i => ([1, 1] : List ℝ).getD i 0) (fun i => ([-1, 2, 1, 3, -4] : List ℝ).getD i 0)
    (fun i => ([1, 1] : List ℝ).getD i 0) (fun i => ([0, 1, 0, 0, 0, 1, 2] : List ℝ).getD i 0) (fun i => ([1] : List ℝ).getD i 0) where
  q := (ofList_holds [3]).congr fun i hi => by
    have : i = 0 := by simpa using hi
    subst this
    rfl
  A := by
    rw [if_pos (by rfl)]
    refine ⟨_, _, _, rfl, ofList_holds [0, 1, 2], (ofList_holds [0, 0]).congr fun i hi => ?_, ofList_holds ([1, 1] : List ℝ)⟩
    have : i < 2 := by simpa using hi
    obtain rfl | rfl : i = 0 ∨ i = 1 := by omega
    all_goals rfl
  G := ⟨_, _, _, rfl, ofList_holds [0, 3, 5], ofList_holds [0, 1, 4, 2, 6], ofList_holds ([-1, 2, 1, 3, -4] : List ℝ)⟩
  c := ofList_holds ([1, 1] : List ℝ)
  h := ofList_holds ([0, 1, 0, 0, 0, 1, 2] : List ℝ)
  b := ofList_holds ([1] : List ℝ)

/-- orderings that are permutations: the identity -/
theorem exAmd : ∀ N (jc ir : Buf Nat) P, (fun N (_ _ : Buf Nat) => some ((Array.range N).map some)) N jc ir = some P →
    ∃ pf, Holds P N pf ∧ IsPerm N pf := by
  intro N _ _ P h
  have h' : (Array.range N).map some = P := by simpa using h
  subst h'
  exact ⟨fun i => i, ⟨by simp, fun i hi => by simp [hi]⟩, ⟨fun i hi => hi, fun i j _ _ h => h⟩⟩

/-- hypotheses of `C05_setup` are met; the u-row of the second-order cone (index 8) has sign `+1`, and row 7 has not -/
example : Ok (ecosSetup (fun N (_ _ : Buf Nat) => some ((Array.range N).map some)) 2 7 1 1 1 (ofList [3]) 1
    ⟨some (ofList ([-1, 2, 1, 3, -4] : List ℝ)), some (ofList [0, 3, 5]), some (ofList [0, 1, 4, 2, 6])⟩
    ⟨some (ofList ([1, 1] : List ℝ)), some (ofList [0, 1, 2]), some (ofList [0, 0])⟩ (ofList [1, 1])
    (ofList [0, 1, 0, 0, 0, 1, 2]) (ofList [1])) fun r => ∀ w, r = .ok w → ∃ π : Nat → Nat, ∃ sg, Has' w.KKT.Sign 12 sg ∧ sg (π 8) = 1 ∧
      sg (π 7) = -1 := by
  refine (C05_setup exAmd exPat5_good exGiven5).mono fun r h w hw => ?_
  obtain ⟨a, g, π, jc, ir, pr, sg, -, -, -, -, -, -, -, h1, h2⟩ := h w hw
  refine ⟨π, sg, h1, (h2 8 (by decide)).1 (Or.inr ⟨0, by decide, ?_⟩), (h2 7 (by decide)).2 ?_⟩
  · rw [Shape.start_zero]; rfl
  · rintro (h | ⟨k, hk, e⟩)
    · exact absurd h (by decide)
    · obtain rfl : k = 0 := by simpa [exShape5] using hk
      rw [Shape.start_zero] at e
      exact absurd e (by decide)

/-- and the matrix is not trivial: entry `(x₂, first row of the second-order cone's tail)` -/
example : expandG exShape5 (fun i j => if i = 2 ∧ j = 1 then 3 else 0) 2 1 = 3 := by
  have := expandG_soc (S := exShape5) (fun i j => if i = 2 ∧ j = 1 then 3 else 0) (k := 0) (i := 1) (j := 1) (by decide) (by decide)
  rw [Shape.start_zero] at this
  exact this.trans (by norm_num [exShape5])

/-- **C05, negation for a matrix without entries** one variable, one linear row, `G` zero and stored without entries: set-up
reads column pointers the transposition never wrote -/
theorem C05_no_entries_violated :
    (match ecosSetup (F := Fx) (fun N (_ _ : Buf Nat) => some ((Array.range N).map some)) 1 1 0 1 0 #[] 0
        ⟨some #[], some #[some 0, some 0], some #[]⟩ ⟨none, none, none⟩ #[some 1] #[some 1] #[] with
      | .error UB.uninit => true
      | _ => false) = true := by
  decide +kernel

end Ecos.Asm
