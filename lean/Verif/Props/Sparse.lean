import Verif.Lemmas.Permute

/-!
# Properties C01–C04: sparse kernels

Specification vocabulary: `Rep A m n jc ir pr` (memory holds a well-formed compressed-column
matrix), `dense jc ir pr i j` (its `(i,j)` entry), `Holds b n f` (buffer contents).
-/
set_option linter.unusedSectionVars false

namespace Ecos

open Finset

/-! ## A concrete matrix used to show that hypotheses can be met -/

/-- `[[1,0],[2,3]]` -/
noncomputable def exMat : SpMat ℝ :=
  { jc := ofList [0, 2, 3], ir := ofList [0, 1, 1], pr := ofList [1, 2, 3], n := 2, m := 2, nnz := 3 }

theorem exMat_rep : Rep exMat 2 2 (fun i => [0, 2, 3].getD i 0) (fun i => [0, 1, 1].getD i 0)
    (fun i => ([1, 2, 3] : List ℝ).getD i 0) where
  m_eq := rfl
  n_eq := rfl
  nnz_eq := rfl
  hjc := ofList_holds [0, 2, 3]
  hir := ofList_holds [0, 1, 1]
  hpr := ofList_holds ([1, 2, 3] : List ℝ)
  ok := ⟨rfl, by decide, by decide⟩

/-! ## C01 -/

section
variable {F : Type} [Zero F] [One F] [Add F] [Sub F] [Mul F] [Div F] [Neg F] [OfScientific F]
  [IntCast F] [PFloat F]

/-- C01 (memory): for every number type (so also for doubles with rounding) the product kernel
never leaves the arrays and reads no unwritten cell; with `newVector > 0` the old content of the
output may even be unwritten. -/
theorem C01_sparseMV_safe {A : SpMat F} {m n : Nat} {jc ir : Nat → Nat} {pr : Nat → F}
    (hA : Rep A m n jc ir pr) {x y : Buf F} {xf yf : Nat → F} (hx : Holds x n xf) (a nv : Int)
    (hy : if nv > 0 then y.size = m else Holds y m yf) :
    ∃ y' f, sparseMV A x y a nv = .ok y' ∧ Holds y' m f := by
  have h := sparseMV_safe hA (a := a) ⟨xf, hx⟩ (y := y) (nv := nv)
    (by split at hy <;> [simpa [*] using hy; simpa [*] using ⟨yf, hy⟩])
  obtain ⟨y', e, f, hf⟩ := (Ok.def _ _).mp h
  exact ⟨y', f, e, hf⟩

/-- C02 (memory). -/
theorem C02_sparseMtVm_safe {A : SpMat F} {m n : Nat} {jc ir : Nat → Nat} {pr : Nat → F}
    (hA : Rep A m n jc ir pr) {x y : Buf F} {xf yf : Nat → F} (hx : Holds x m xf) (nv sd : Int)
    (hy : if nv > 0 then y.size = n else Holds y n yf) :
    ∃ y' f, sparseMtVm A x y nv sd = .ok y' ∧ Holds y' n f := by
  have h := sparseMtVm_safe hA (sd := sd) ⟨xf, hx⟩ (y := y) (nv := nv)
    (by split at hy <;> [simpa [*] using hy; simpa [*] using ⟨yf, hy⟩])
  obtain ⟨y', e, f, hf⟩ := (Ok.def _ _).mp h
  exact ⟨y', f, e, hf⟩
end

/-- C01 (value): in exact arithmetic the result is `old ± A x`, or `± A x` when a new vector is
asked for. -/
theorem C01_sparseMV_exact {A : SpMat ℝ} {m n : Nat} {jc ir : Nat → Nat} {pr : Nat → ℝ}
    (hA : Rep A m n jc ir pr) {x y : Buf ℝ} {xf yf : Nat → ℝ} (hx : Holds x n xf) (a nv : Int)
    (hy : if nv > 0 then y.size = m else Holds y m yf) :
    ∃ y', sparseMV A x y a nv = .ok y' ∧ Holds y' m (fun i =>
      (if nv > 0 then 0 else yf i) +
        (if a > 0 then 1 else -1) * ∑ j ∈ range n, dense jc ir pr i j * xf j) :=
  (Ok.def _ _).mp (sparseMV_spec hA hx hy)

example : ∃ y', sparseMV exMat (ofList [5, 7]) (malloc 2) 1 1 = .ok y' := by
  obtain ⟨y', e, _⟩ := C01_sparseMV_exact exMat_rep (ofList_holds ([5, 7] : List ℝ)) 1 1
    (y := malloc 2) (yf := fun _ => 0) (by simp)
  exact ⟨y', e⟩

/-- C02 (value): `old - A' x`, with the diagonal left out on request. -/
theorem C02_sparseMtVm_exact {A : SpMat ℝ} {m n : Nat} {jc ir : Nat → Nat} {pr : Nat → ℝ}
    (hA : Rep A m n jc ir pr) {x y : Buf ℝ} {xf yf : Nat → ℝ} (hx : Holds x m xf) (nv sd : Int)
    (hy : if nv > 0 then y.size = n else Holds y n yf) :
    ∃ y', sparseMtVm A x y nv sd = .ok y' ∧ Holds y' n (fun j =>
      (if nv > 0 then 0 else yf j) -
        ∑ i ∈ range m, (if sd ≠ 0 ∧ i = j then 0 else dense jc ir pr i j) * xf i) :=
  (Ok.def _ _).mp (sparseMtVm_spec hA hx hy)

/-- C02 (adjointness): the two kernels and the dot product satisfy `<A x, y> = <x, A' y>`
(the transposed kernel computes `-A' y`). -/
theorem C02_adjoint {A : SpMat ℝ} {m n : Nat} {jc ir : Nat → Nat} {pr : Nat → ℝ}
    (hA : Rep A m n jc ir pr) {x y : Buf ℝ} {xf yf : Nat → ℝ} (hx : Holds x n xf) (hy : Holds y m yf) :
    ∃ Ax Aty d1 d2, sparseMV A x (malloc m) 1 1 = .ok Ax ∧ sparseMtVm A y (malloc n) 1 0 = .ok Aty ∧
      eddot m Ax y = .ok d1 ∧ eddot n x Aty = .ok d2 ∧ d1 = -d2 := by
  obtain ⟨Ax, e1, h1⟩ := C01_sparseMV_exact hA hx 1 1 (y := malloc m) (yf := fun _ => 0) (by simp)
  obtain ⟨Aty, e2, h2⟩ := C02_sparseMtVm_exact hA hy 1 0 (y := malloc n) (yf := fun _ => 0) (by simp)
  obtain ⟨d1, e3, h3⟩ := (Ok.def _ _).mp (eddot_spec h1 hy le_rfl le_rfl)
  obtain ⟨d2, e4, h4⟩ := (Ok.def _ _).mp (eddot_spec hx h2 le_rfl le_rfl)
  refine ⟨Ax, Aty, d1, d2, e1, e2, e3, e4, ?_⟩
  rw [h3, h4]
  simp only [gt_iff_lt, zero_lt_one, if_true, zero_add, one_mul, zero_sub, ne_eq, not_true_eq_false,
    false_and, if_false, mul_neg, sum_neg_distrib, neg_neg]
  simp only [sum_mul, mul_sum]
  rw [sum_comm]
  refine sum_congr rfl fun j _ => sum_congr rfl fun i _ => ?_
  ring

example : ∃ Ax Aty d1 d2, sparseMV exMat (ofList [5, 7]) (malloc 2) 1 1 = .ok Ax ∧
    sparseMtVm exMat (ofList [1, -1]) (malloc 2) 1 0 = .ok Aty ∧
      eddot 2 Ax (ofList [1, -1]) = .ok d1 ∧ eddot 2 (ofList [5, 7]) Aty = .ok d2 ∧ d1 = -d2 :=
  C02_adjoint exMat_rep (ofList_holds ([5, 7] : List ℝ)) (ofList_holds ([1, -1] : List ℝ))

/-! ## C03 -/

/-- C03 for matrices with at least one entry: the transpose is well formed, has the transposed
entries, sorted rows, and the index map sends each entry to its place (`q k` lies in column `ir k`
of the result, its row there is the column `j` of entry `k`, its value is the same).
Missing from the full statement: matrices without entries, see `C03_transpose_empty_violated`. -/
theorem C03_transpose_partial {A : SpMat ℝ} {m n : Nat} {jc ir : Nat → Nat} {pr : Nat → ℝ}
    (hA : Rep A m n jc ir pr) {T : Buf Nat} (hT : T.size = jc n) (hnz : jc n ≠ 0) :
    ∃ B T' jc' ir' pr' q, transposeSparseMatrix A T = .ok (B, T') ∧ Rep B n m jc' ir' pr' ∧
      (∀ i j, i < m → j < n → dense jc' ir' pr' j i = dense jc ir pr i j) ∧
      (∀ r a b, r < m → jc' r ≤ a → a < b → b < jc' (r + 1) → ir' a ≤ ir' b) ∧
      Holds T' (jc n) q ∧
      (∀ j k, j < n → jc j ≤ k → k < jc (j + 1) →
        jc' (ir k) ≤ q k ∧ q k < jc' (ir k + 1) ∧ ir' (q k) = j ∧ pr' (q k) = pr k) := by
  obtain ⟨⟨B, T'⟩, e, ir', pr', h1, h2, h3, h4⟩ := (Ok.def _ _).mp (transpose_rep hA hT hnz)
  refine ⟨B, T', _, ir', pr', _, e, h1, fun i j _ hj => transpose_dense hA.ok h3 h4 hj, ?_, h2, ?_⟩
  · intro r a b _ ha hab hb
    exact transpose_sorted hA.ok h3 ha hab hb
  · intro j k hj hk1 hk2
    have hk : k < jc n := lt_of_lt_of_le hk2 (hA.ok.le_top (by omega))
    refine ⟨csPos_ge k, csPos_lt hk, ?_, h4 k hk⟩
    rw [h3 k hk, colOf_eq hA.ok hj hk1 hk2]

example : ∃ B T', transposeSparseMatrix exMat (malloc 3) = .ok (B, T') := by
  obtain ⟨B, T', _, _, _, _, e, _⟩ := C03_transpose_partial exMat_rep (T := malloc 3) (by simp)
    (by simp)
  exact ⟨B, T', e⟩

/-- C03, index map, for every number type. -/
theorem C03_transpose_map {F : Type} {A : SpMat F} {m n : Nat} {jc ir : Nat → Nat} {pr : Nat → F}
    (hA : Rep A m n jc ir pr) {T : Buf Nat} (hT : T.size = jc n) (hnz : jc n ≠ 0) :
    ∃ B T' jc' ir' pr' q, transposeSparseMatrix A T = .ok (B, T') ∧ Rep B n m jc' ir' pr' ∧
      Holds T' (jc n) q ∧
      (∀ k, k < jc n → q k < jc n) ∧ (∀ k l, k < jc n → l < jc n → q k = q l → k = l) ∧
      (∀ j k, j < n → jc j ≤ k → k < jc (j + 1) →
        jc' (ir k) ≤ q k ∧ q k < jc' (ir k + 1) ∧ ir' (q k) = j ∧ pr' (q k) = pr k) := by
  obtain ⟨⟨B, T'⟩, e, ir', pr', h1, h2, h3, h4⟩ := (Ok.def _ _).mp (transpose_rep hA hT hnz)
  refine ⟨B, T', _, ir', pr', _, e, h1, h2, fun k hk => csPos_lt_N hk,
    fun k l hk hl h => csPos_inj hk hl h, ?_⟩
  intro j k hj hk1 hk2
  have hk : k < jc n := lt_of_lt_of_le hk2 (hA.ok.le_top (by omega))
  refine ⟨csPos_ge k, csPos_lt hk, ?_, h4 k hk⟩
  rw [h3 k hk, colOf_eq hA.ok hj hk1 hk2]

/-- C03 fails for a matrix with rows but without entries: the early return
(src/splamm.c:71) hands back column pointers that were never written, so the result is not a
well-formed matrix and the first read of a column pointer is undefined behaviour. -/
theorem C03_transpose_empty_violated {F : Type} {A : SpMat F} {m n : Nat} {jc ir : Nat → Nat}
    {pr : Nat → F} (hA : Rep A m n jc ir pr) (T : Buf Nat) (hz : jc n = 0) (hm : 0 < m) :
    ∃ B, transposeSparseMatrix A T = .ok (B, T) ∧ rd B.jc 0 = .error .uninit ∧
      ¬ ∃ jc' ir' pr', Rep B n m jc' ir' pr' := by
  have h := (Ok.def _ _).mp (newSparseMatrix_ok (F := F) n m 0)
  obtain ⟨B, e, _, _, _, _, _, _, hun⟩ := h
  refine ⟨B, ?_, ?_, ?_⟩
  · unfold transposeSparseMatrix
    rw [hA.m_eq, hA.n_eq, hA.nnz_eq, hz, e]; rfl
  · simp [rd, hun 0 hm]
  · rintro ⟨jc', ir', pr', h⟩
    have := h.hjc.2 0 (by omega)
    rw [hun 0 hm] at this
    simp at this

/-- a `1 × 1` matrix without entries -/
def exEmpty : SpMat ℝ :=
  { jc := ofList [0, 0], ir := ofList [], pr := ofList [], n := 1, m := 1, nnz := 0 }

theorem exEmpty_rep : Rep exEmpty 1 1 (fun i => [0, 0].getD i 0) (fun i => [].getD i 0)
    (fun i => ([] : List ℝ).getD i 0) where
  m_eq := rfl
  n_eq := rfl
  nnz_eq := rfl
  hjc := ofList_holds [0, 0]
  hir := ofList_holds []
  hpr := ofList_holds ([] : List ℝ)
  ok := ⟨rfl, by decide, by decide⟩

example : ∃ B, transposeSparseMatrix exEmpty (malloc 0) = .ok (B, malloc 0) ∧
    rd B.jc 0 = .error .uninit := by
  obtain ⟨B, h1, h2, _⟩ := C03_transpose_empty_violated exEmpty_rep (malloc 0) rfl (by omega)
  exact ⟨B, h1, h2⟩

/-! ## C04 -/

/-- C04: inverse permutation. -/
theorem C04_pinv {n : Nat} {p pin : Buf Nat} {pf : Nat → Nat} (hp : Holds p n pf)
    (hperm : IsPerm n pf) (hpin : pin.size = n) :
    ∃ r π, pinv n p pin = .ok r ∧ Holds r n π ∧ (∀ i, i < n → π i < n) ∧
      (∀ i, i < n → π (pf i) = i) ∧ (∀ i, i < n → pf (π i) = i) := by
  obtain ⟨r, e, π, h1, h2, h3, h4⟩ := (Ok.def _ _).mp (pinv_ok hp hperm hpin)
  exact ⟨r, π, e, h1, h2.lt, h3, h4⟩

example : ∃ r, pinv 3 (ofList [2, 0, 1]) (malloc 3) = .ok r := by
  obtain ⟨r, _, e, _⟩ := C04_pinv (ofList_holds [2, 0, 1])
    ⟨by decide, fun i j hi hj => (by decide : ∀ i, i < 3 → ∀ j, j < 3 →
      [2, 0, 1].getD i default = [2, 0, 1].getD j default → i = j) i hi j hj⟩
    (show (malloc 3 : Buf Nat).size = 3 by simp)
  exact ⟨r, e⟩

/-- C04: for the upper triangle of a symmetric matrix and the inverse `π` of any permutation, the
freshly allocated result holds an upper-triangular matrix representing `P K P'`, i.e. its entry at
`(π a, π b)` is the old entry at `(a, b)`; `PK` maps every old entry to its new position. -/
theorem C04_permute {A : SpMat ℝ} {n : Nat} {jc ir : Nat → Nat} {pr : Nat → ℝ} {π : Nat → Nat}
    {pin PK : Buf Nat} (hA : Rep A n n jc ir pr) (hup : Upper n jc ir)
    (hpin : Holds pin n π) (hπ : IsPerm n π) (hPK : PK.size = jc n) :
    ∃ C0 C PK' jc' ir' pr' q, newSparseMatrix n n (jc n) = .ok C0 ∧
      permuteSparseSymmetricMatrix A pin C0 (some PK) = .ok (C, some PK') ∧
      Rep C n n jc' ir' pr' ∧ Upper n jc' ir' ∧
      (∀ a b, a < n → b < n → symDense jc' ir' pr' (π a) (π b) = symDense jc ir pr a b) ∧
      Holds PK' (jc n) q ∧ (∀ k, k < jc n → q k < jc n ∧ pr' (q k) = pr k) ∧
      (∀ k l, k < jc n → l < jc n → q k = q l → k = l) := by
  obtain ⟨C0, e0, h1, h2, h3, h4, h5, h6, _⟩ := (Ok.def _ _).mp (newSparseMatrix_ok (F := ℝ) n n (jc n))
  obtain ⟨⟨C, PK'⟩, e, ir', pr', r1, r2, r3, r4, r5⟩ := (Ok.def _ _).mp
    (permute_rep hA hup hpin hπ h1 h2 h3 h4 rfl rfl h5 h6 (PK := some PK)
      (fun b hb => by simp at hb; rw [← hb]; exact hPK))
  obtain ⟨b', eb, hb'⟩ := r2 PK rfl
  simp only at eb
  subst eb
  exact ⟨C0, C, b', _, ir', pr', _, e0, e, r1, permute_upper hA.ok r4,
    fun a b ha hb => permute_dense hA.ok hup hπ r4 r5 ha hb, hb',
    fun k hk => ⟨csPos_lt_N hk, r5 k hk⟩, fun k l hk hl h => csPos_inj hk hl h⟩

/-- upper triangle of `[[4,1],[1,3]]` -/
noncomputable def exUpper : SpMat ℝ :=
  { jc := ofList [0, 1, 3], ir := ofList [0, 0, 1], pr := ofList [4, 1, 3], n := 2, m := 2, nnz := 3 }

theorem exUpper_rep : Rep exUpper 2 2 (fun i => [0, 1, 3].getD i 0) (fun i => [0, 0, 1].getD i 0)
    (fun i => ([4, 1, 3] : List ℝ).getD i 0) where
  m_eq := rfl
  n_eq := rfl
  nnz_eq := rfl
  hjc := ofList_holds [0, 1, 3]
  hir := ofList_holds [0, 0, 1]
  hpr := ofList_holds ([4, 1, 3] : List ℝ)
  ok := ⟨rfl, by decide, by decide⟩

example : ∃ C0 C PK', newSparseMatrix 2 2 3 = .ok C0 ∧
    permuteSparseSymmetricMatrix exUpper (ofList [1, 0]) C0 (some (malloc 3)) = .ok (C, some PK') := by
  obtain ⟨C0, C, PK', _, _, _, _, h1, h2, _⟩ := C04_permute (PK := malloc 3) exUpper_rep
    (fun j hj k h1 h2 => (by decide : ∀ j, j < 2 → ∀ k, k < 3 → [0, 1, 3].getD j 0 ≤ k →
        k < [0, 1, 3].getD (j + 1) 0 → [0, 0, 1].getD k 0 ≤ j) j hj k
        (lt_of_lt_of_le h2 (exUpper_rep.ok.le_top (by omega))) h1 h2)
    (ofList_holds [1, 0]) ⟨by decide, fun i j hi hj => (by decide : ∀ i, i < 2 → ∀ j, j < 2 →
      [1, 0].getD i default = [1, 0].getD j default → i = j) i hi j hj⟩ (by simp)
  exact ⟨C0, C, PK', h1, h2⟩

end Ecos
