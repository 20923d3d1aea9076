import Verif.Spec.Matrix

/-!
# Kernel specifications for spla.c
-/
set_option linter.unusedSectionVars false
set_option linter.unusedSimpArgs false

namespace Ecos

open Finset

section generic
variable {F : Type} [Zero F] [One F] [Add F] [Sub F] [Mul F] [Div F] [Neg F] [OfScientific F]
  [IntCast F] [PFloat F]

/-- Invariant rule for the walk over all entries of a compressed-column matrix. -/
theorem walk_ok {σ : Type} {m n : Nat} {jc ir : Nat → Nat} (h : CscOk m n jc ir)
    {jcb : Buf Nat} (hjc : Holds jcb (n + 1) jc) {s : σ} {body : Nat → Nat → σ → M σ} {Q : σ → Prop}
    (I : Nat → σ → Prop) (h0 : I 0 s)
    (hstep : ∀ j k s, j < n → jc j ≤ k → k < jc (j + 1) → k < jc n → I k s →
      Ok (body j k s) (I (k + 1)))
    (hfin : ∀ s, I (jc n) s → Q s) :
    Ok (loop 0 n s fun j s => do
      let a ← rd jcb j
      let e ← rd jcb (j + 1)
      loop a e s fun k s => body j k s) Q := by
  refine loop_ok (fun j s => I (jc j) s) (Nat.zero_le n) (by rw [h.zero]; exact h0) ?_ hfin
  intro j s _ hj hI
  simp only [Ok_bind, hjc.rd (show j < n + 1 by omega), hjc.rd (show j + 1 < n + 1 by omega), Ok_ok]
  refine loop_ok (fun k s => I k s) (h.mono j hj) hI ?_ (fun s hs => hs)
  intro k s hk1 hk2 hI
  exact hstep j k s hj hk1 hk2 (lt_of_lt_of_le hk2 (h.le_top (by omega))) hI

theorem fillZero_ok {y : Buf F} {m n : Nat} {f : Nat → F} {P : Nat → Prop} (hy : HoldsOn y m P f)
    (hn : n ≤ m) :
    Ok (fillZero y n) (fun y' => HoldsOn y' m (fun i => i < n ∨ P i)
      (fun i => if i < n then 0 else f i)) := by
  unfold fillZero
  refine loop_ok (fun t y' => HoldsOn y' m (fun i => i < t ∨ P i) (fun i => if i < t then 0 else f i))
    (Nat.zero_le _) ?_ ?_ (fun s hs => hs)
  · refine hy.congr fun i _ hq => ?_
    simpa using hq
  · intro i s _ hi hs
    refine (hs.wr (show i < m by omega) 0).mono fun y' hy' => hy'.congr fun j _ hq => ?_
    rcases lt_trichotomy j i with h | h | h
    · have : j ≠ i := by omega
      simp [upd, this, h, show j < i + 1 by omega]
    · subst h; simp [upd]
    · have h1 : ¬ j < i + 1 := by omega
      have h2 : j ≠ i := by omega
      have h3 : ¬ j < i := by omega
      simp only [h1, false_or] at hq
      simp [upd, h1, h2, h3, hq]

theorem vadd_ok {n : Nat} {x y : Buf F} {nx ny : Nat} {f g : Nat → F} (hx : Holds x nx f)
    (hy : Holds y ny g) (h1 : n ≤ nx) (h2 : n ≤ ny) :
    Ok (vadd n x y) (fun y' => Holds y' ny (fun i => if i < n then g i + f i else g i)) := by
  unfold vadd
  refine loop_ok (fun t y' => Holds y' ny (fun i => if i < t then g i + f i else g i))
    (Nat.zero_le _) (by simpa using hy) ?_ (fun s hs => hs)
  intro i s _ hi hs
  simp only [Ok_bind, hs.rd (show i < ny by omega), hx.rd (show i < nx by omega), Ok_ok]
  refine (hs.wr (show i < ny by omega) _).mono fun y' hy' => hy'.congr fun j _ => ?_
  unfold upd
  by_cases h : j = i
  · subst h; simp
  · simp only [h, if_false]
    by_cases h' : j < i
    · simp [h', show j < i + 1 by omega]
    · simp [h', show ¬ j < i + 1 by omega]

theorem vsubscale_ok {n : Nat} {a : F} {x y : Buf F} {nx ny : Nat} {f g : Nat → F}
    (hx : Holds x nx f) (hy : Holds y ny g) (h1 : n ≤ nx) (h2 : n ≤ ny) :
    Ok (vsubscale n a x y) (fun y' => Holds y' ny (fun i => if i < n then g i - a * f i else g i)) := by
  unfold vsubscale
  refine loop_ok (fun t y' => Holds y' ny (fun i => if i < t then g i - a * f i else g i))
    (Nat.zero_le _) (by simpa using hy) ?_ (fun s hs => hs)
  intro i s _ hi hs
  simp only [Ok_bind, hs.rd (show i < ny by omega), hx.rd (show i < nx by omega), Ok_ok]
  refine (hs.wr (show i < ny by omega) _).mono fun y' hy' => hy'.congr fun j _ => ?_
  unfold upd
  by_cases h : j = i
  · subst h; simp
  · simp only [h, if_false]
    by_cases h' : j < i
    · simp [h', show j < i + 1 by omega]
    · simp [h', show ¬ j < i + 1 by omega]

/-! ### Safety for an arbitrary number type -/

/-- all `n` cells are written -/
def Full {α : Type} (b : Buf α) (n : Nat) : Prop := ∃ f, Holds b n f

theorem initVec_full {y : Buf F} {m : Nat} {nv : Int} (hy : if nv > 0 then y.size = m else Full y m) :
    Ok (initVec y m nv) (fun y' => Full y' m) := by
  unfold initVec
  split at hy
  · rename_i hnv
    simp only [hnv, if_true]
    have h0 : HoldsOn y m (fun _ => False) (fun _ => (0:F)) := ⟨hy, fun _ _ h => h.elim⟩
    exact (fillZero_ok h0 le_rfl).mono fun y' hy' => ⟨_, hy'.full fun i hi => Or.inl hi⟩
  · rename_i hnv
    simp only [hnv, if_false, Ok_pure]
    exact hy

theorem sparseMV_safe {A : SpMat F} {m n : Nat} {jc ir : Nat → Nat} {pr : Nat → F}
    (hA : Rep A m n jc ir pr) {x y : Buf F} (hx : Full x n) {a nv : Int}
    (hy : if nv > 0 then y.size = m else Full y m) :
    Ok (sparseMV A x y a nv) (fun y' => Full y' m) := by
  obtain ⟨xf, hx⟩ := hx
  unfold sparseMV
  rw [Ok_bind, hA.m_eq]
  refine (initVec_full hy).mono fun y hy => ?_
  unfold mvAcc
  split
  · exact hy
  rw [hA.n_eq]
  split
  all_goals
    refine walk_ok hA.ok hA.hjc (fun _ y => Full y m) hy ?_ (fun s hs => hs)
    rintro j k s hj _ _ hk ⟨yf, hs⟩
    have hr := hA.ok.rows k hk
    simp only [Ok_bind, hA.hir.rd hk, hA.hpr.rd hk, hx.rd hj, hs.rd hr, Ok_ok]
    exact (hs.wr hr _).mono fun y' hy' => ⟨_, hy'⟩

theorem skipProd_ok {A : SpMat F} {m n : Nat} {jc ir : Nat → Nat} {pr : Nat → F}
    (hA : Rep A m n jc ir pr) {x : Buf F} {xf : Nat → F} (hx : Holds x m xf) {k : Nat} (hk : k < jc n)
    (j : Nat) : skipProd A x (ir k) j k = .ok (if ir k = j then 0 else pr k * xf (ir k)) := by
  unfold skipProd
  split
  · rfl
  · rw [hA.hpr.rd hk, hx.rd (hA.ok.rows k hk)]; rfl

theorem sparseMtVm_safe {A : SpMat F} {m n : Nat} {jc ir : Nat → Nat} {pr : Nat → F}
    (hA : Rep A m n jc ir pr) {x y : Buf F} (hx : Full x m) {nv sd : Int}
    (hy : if nv > 0 then y.size = n else Full y n) :
    Ok (sparseMtVm A x y nv sd) (fun y' => Full y' n) := by
  obtain ⟨xf, hx⟩ := hx
  unfold sparseMtVm
  rw [Ok_bind, hA.n_eq]
  refine (initVec_full hy).mono fun y hy => ?_
  unfold mtvAcc
  split
  · exact hy
  rw [hA.n_eq]
  split
  · refine walk_ok hA.ok hA.hjc (fun _ y => Full y n) hy ?_ (fun s hs => hs)
    rintro j k s hj _ _ hk ⟨yf, hs⟩
    simp only [Ok_bind, hA.hir.rd hk, hs.rd hj, Ok_ok, skipProd_ok hA hx hk]
    exact (hs.wr hj _).mono fun y' hy' => ⟨_, hy'⟩
  · refine walk_ok hA.ok hA.hjc (fun _ y => Full y n) hy ?_ (fun s hs => hs)
    rintro j k s hj _ _ hk ⟨yf, hs⟩
    have hr := hA.ok.rows k hk
    simp only [Ok_bind, hA.hir.rd hk, hA.hpr.rd hk, hx.rd hr, hs.rd hj, Ok_ok]
    exact (hs.wr hj _).mono fun y' hy' => ⟨_, hy'⟩

end generic

/-! ### Values over the reals -/

/-- partial row sum: contributions of entries `< t` to row `i` -/
noncomputable def rowPart (n : Nat) (jc ir : Nat → Nat) (pr x : Nat → ℝ) (i t : Nat) : ℝ :=
  ∑ k ∈ range t, if ir k = i then pr k * x (colOf n jc k) else 0

theorem sum_cols {β : Type} [AddCommMonoid β] {m n : Nat} {jc ir : Nat → Nat}
    (h : CscOk m n jc ir) (g : Nat → Nat → β) :
    ∑ k ∈ range (jc n), g (colOf n jc k) k = ∑ j ∈ range n, ∑ k ∈ Ico (jc j) (jc (j + 1)), g j k := by
  have key : ∀ t, t ≤ n → ∑ k ∈ range (jc t), g (colOf n jc k) k =
      ∑ j ∈ range t, ∑ k ∈ Ico (jc j) (jc (j + 1)), g j k := by
    intro t ht
    induction t with
    | zero => simp [h.zero]
    | succ t ih =>
      rw [sum_range_succ, ← ih (by omega), ← sum_range_add_sum_Ico _ (h.mono t (by omega))]
      congr 1
      refine sum_congr rfl fun k hk => ?_
      rw [mem_Ico] at hk
      rw [colOf_eq h (by omega) hk.1 hk.2]
  exact key n le_rfl

theorem rowPart_top {m n : Nat} {jc ir : Nat → Nat} (h : CscOk m n jc ir) (pr x : Nat → ℝ) (i : Nat) :
    rowPart n jc ir pr x i (jc n) = ∑ j ∈ range n, dense jc ir pr i j * x j := by
  unfold rowPart
  rw [sum_cols h (fun j k => if ir k = i then pr k * x j else 0)]
  refine sum_congr rfl fun j _ => ?_
  unfold dense
  rw [sum_mul]
  refine sum_congr rfl fun k _ => ?_
  split <;> simp

theorem initVec_spec {y : Buf ℝ} {m : Nat} {nv : Int} {yf : Nat → ℝ}
    (hy : if nv > 0 then y.size = m else Holds y m yf) :
    Ok (initVec y m nv) (fun y' => Holds y' m (fun i => if nv > 0 then 0 else yf i)) := by
  unfold initVec
  split at hy
  · rename_i hnv
    simp only [hnv, if_true]
    have h0 : HoldsOn y m (fun _ => False) (fun _ => (0:ℝ)) := ⟨hy, fun _ _ h => h.elim⟩
    exact (fillZero_ok h0 le_rfl).mono fun y' hy' =>
      (hy'.full fun i hi => Or.inl hi).congr fun i hi => by simp
  · rename_i hnv
    simpa only [hnv, if_false, Ok_pure] using hy

theorem mvAcc_spec {A : SpMat ℝ} {m n : Nat} {jc ir : Nat → Nat} {pr : Nat → ℝ}
    (hA : Rep A m n jc ir pr) {x y : Buf ℝ} {xf yf : Nat → ℝ} (hx : Holds x n xf) {a : Int}
    (hy : Holds y m yf) :
    Ok (mvAcc A x y a) (fun y' => Holds y' m (fun i => yf i +
        (if a > 0 then 1 else -1) * ∑ j ∈ range n, dense jc ir pr i j * xf j)) := by
  unfold mvAcc
  split
  · rename_i h0
    rw [hA.nnz_eq] at h0
    refine hy.congr fun i _ => ?_
    rw [← rowPart_top hA.ok, h0]; simp [rowPart]
  rw [hA.n_eq]
  split
  · rename_i ha
    refine walk_ok hA.ok hA.hjc (fun t y => Holds y m (fun i => yf i + rowPart n jc ir pr xf i t))
      (by simpa [rowPart] using hy) ?_ ?_
    · intro j k s hj h1 h2 hk hs
      have hr := hA.ok.rows k hk
      simp only [Ok_bind, hA.hir.rd hk, hA.hpr.rd hk, hx.rd hj, hs.rd hr, Ok_ok]
      refine (hs.wr hr _).mono fun y' hy' => hy'.congr fun i _ => ?_
      unfold upd rowPart
      rw [sum_range_succ, colOf_eq hA.ok hj h1 h2]
      by_cases h : i = ir k
      · subst h; simp; ring
      · simp [h, Ne.symm h]
    · intro s hs
      refine hs.congr fun i _ => ?_
      rw [rowPart_top hA.ok]; simp
  · rename_i ha
    refine walk_ok hA.ok hA.hjc (fun t y => Holds y m (fun i => yf i - rowPart n jc ir pr xf i t))
      (by simpa [rowPart] using hy) ?_ ?_
    · intro j k s hj h1 h2 hk hs
      have hr := hA.ok.rows k hk
      simp only [Ok_bind, hA.hir.rd hk, hA.hpr.rd hk, hx.rd hj, hs.rd hr, Ok_ok]
      refine (hs.wr hr _).mono fun y' hy' => hy'.congr fun i _ => ?_
      unfold upd rowPart
      rw [sum_range_succ, colOf_eq hA.ok hj h1 h2]
      by_cases h : i = ir k
      · subst h; simp; ring
      · simp [h, Ne.symm h]
    · intro s hs
      refine hs.congr fun i _ => ?_
      rw [rowPart_top hA.ok]; ring

theorem sparseMV_spec {A : SpMat ℝ} {m n : Nat} {jc ir : Nat → Nat} {pr : Nat → ℝ}
    (hA : Rep A m n jc ir pr) {x y : Buf ℝ} {xf yf : Nat → ℝ} (hx : Holds x n xf) {a nv : Int}
    (hy : if nv > 0 then y.size = m else Holds y m yf) :
    Ok (sparseMV A x y a nv) (fun y' => Holds y' m (fun i =>
      (if nv > 0 then 0 else yf i) +
        (if a > 0 then 1 else -1) * ∑ j ∈ range n, dense jc ir pr i j * xf j)) := by
  unfold sparseMV
  rw [Ok_bind, hA.m_eq]
  exact (initVec_spec hy).mono fun y hy => mvAcc_spec hA hx hy

/-- partial column sum of `A' x` -/
noncomputable def colPart (n : Nat) (jc ir : Nat → Nat) (pr x : Nat → ℝ) (sd : Prop) [Decidable sd]
    (j t : Nat) : ℝ :=
  ∑ k ∈ range t, if colOf n jc k = j ∧ ¬ (sd ∧ ir k = j) then pr k * x (ir k) else 0

theorem colPart_top {m n : Nat} {jc ir : Nat → Nat} (h : CscOk m n jc ir) (pr x : Nat → ℝ)
    (sd : Prop) [Decidable sd] {j : Nat} (hj : j < n) :
    colPart n jc ir pr x sd j (jc n) =
      ∑ i ∈ range m, (if sd ∧ i = j then 0 else dense jc ir pr i j) * x i := by
  unfold colPart
  rw [sum_cols h (fun j' k => if j' = j ∧ ¬ (sd ∧ ir k = j) then pr k * x (ir k) else 0),
    sum_eq_single j]
  · simp only [true_and]
    have : ∀ k ∈ Ico (jc j) (jc (j + 1)),
        (if ¬ (sd ∧ ir k = j) then pr k * x (ir k) else 0) =
        ∑ i ∈ range m, (if sd ∧ i = j then 0 else if ir k = i then pr k else 0) * x i := by
      intro k hk
      rw [mem_Ico] at hk
      have hr := h.rows k (lt_of_lt_of_le hk.2 (h.le_top (by omega)))
      rw [sum_eq_single (ir k)]
      · by_cases hs : sd ∧ ir k = j <;> simp [hs]
      · intro b _ hb; simp [Ne.symm hb]
      · intro hb; exact absurd (mem_range.mpr hr) hb
    rw [sum_congr rfl this, sum_comm]
    refine sum_congr rfl fun i _ => ?_
    unfold dense
    rw [← sum_mul]
    congr 1
    by_cases hs : sd ∧ i = j <;> simp [hs]
  · intro b _ hb; simp [hb]
  · intro hb; exact absurd (mem_range.mpr hj) hb

theorem mtvAcc_spec {A : SpMat ℝ} {m n : Nat} {jc ir : Nat → Nat} {pr : Nat → ℝ}
    (hA : Rep A m n jc ir pr) {x y : Buf ℝ} {xf yf : Nat → ℝ} (hx : Holds x m xf) {sd : Int}
    (hy : Holds y n yf) :
    Ok (mtvAcc A x y sd) (fun y' => Holds y' n (fun j => yf j -
        ∑ i ∈ range m, (if sd ≠ 0 ∧ i = j then 0 else dense jc ir pr i j) * xf i)) := by
  unfold mtvAcc
  split
  · rename_i h0
    rw [hA.nnz_eq] at h0
    refine hy.congr fun j hj => ?_
    rw [← colPart_top hA.ok _ _ _ hj, h0]; simp [colPart]
  rw [hA.n_eq]
  split
  · rename_i hsd
    refine walk_ok hA.ok hA.hjc
      (fun t y => Holds y n (fun j => yf j - colPart n jc ir pr xf (sd ≠ 0) j t))
      (by simpa [colPart] using hy) ?_ ?_
    · intro j k s hj h1 h2 hk hs
      have hr := hA.ok.rows k hk
      simp only [Ok_bind, hA.hir.rd hk, hs.rd hj, Ok_ok, skipProd_ok hA hx hk]
      refine (hs.wr hj _).mono fun y' hy' => hy'.congr fun i _ => ?_
      unfold upd colPart
      rw [sum_range_succ, colOf_eq hA.ok hj h1 h2]
      by_cases h : i = j
      · subst h
        by_cases h3 : ir k = i
        · simp [h3, hsd]
        · simp [h3, hsd]; ring
      · simp [h, Ne.symm h]
    · intro s hs
      refine hs.congr fun j hj => ?_
      rw [colPart_top hA.ok _ _ _ hj]
  · rename_i hsd
    refine walk_ok hA.ok hA.hjc
      (fun t y => Holds y n (fun j => yf j - colPart n jc ir pr xf (sd ≠ 0) j t))
      (by simpa [colPart] using hy) ?_ ?_
    · intro j k s hj h1 h2 hk hs
      have hr := hA.ok.rows k hk
      simp only [Ok_bind, hA.hir.rd hk, hA.hpr.rd hk, hx.rd hr, hs.rd hj, Ok_ok]
      refine (hs.wr hj _).mono fun y' hy' => hy'.congr fun i _ => ?_
      unfold upd colPart
      rw [sum_range_succ, colOf_eq hA.ok hj h1 h2]
      by_cases h : i = j
      · subst h
        simp only [hsd, if_true, false_and, not_false_eq_true, and_self]; ring
      · simp [h, Ne.symm h]
    · intro s hs
      refine hs.congr fun j hj => ?_
      rw [colPart_top hA.ok _ _ _ hj]

theorem sparseMtVm_spec {A : SpMat ℝ} {m n : Nat} {jc ir : Nat → Nat} {pr : Nat → ℝ}
    (hA : Rep A m n jc ir pr) {x y : Buf ℝ} {xf yf : Nat → ℝ} (hx : Holds x m xf) {nv sd : Int}
    (hy : if nv > 0 then y.size = n else Holds y n yf) :
    Ok (sparseMtVm A x y nv sd) (fun y' => Holds y' n (fun j =>
      (if nv > 0 then 0 else yf j) -
        ∑ i ∈ range m, (if sd ≠ 0 ∧ i = j then 0 else dense jc ir pr i j) * xf i)) := by
  unfold sparseMtVm
  rw [Ok_bind, hA.n_eq]
  exact (initVec_spec hy).mono fun y hy => mtvAcc_spec hA hx hy

theorem eddot_spec {x y : Buf ℝ} {n nx ny : Nat} {f g : Nat → ℝ} (hx : Holds x nx f)
    (hy : Holds y ny g) (h1 : n ≤ nx) (h2 : n ≤ ny) :
    Ok (eddot n x y) (fun z => z = ∑ i ∈ range n, f i * g i) := by
  unfold eddot
  refine loop_ok (fun t z => z = ∑ i ∈ range t, f i * g i) (Nat.zero_le _) (by simp) ?_ (fun s hs => hs)
  intro i s _ hi hs
  simp only [Ok_bind, hx.rd (show i < nx by omega), hy.rd (show i < ny by omega), Ok_ok, Ok_pure]
  rw [sum_range_succ, hs]

theorem norm2_spec {v : Buf ℝ} {n nv : Nat} {f : Nat → ℝ} (hv : Holds v nv f) (h1 : n ≤ nv) :
    Ok (norm2 v n) (fun z => z = Real.sqrt (∑ i ∈ range n, f i ^ 2)) := by
  unfold norm2
  rw [Ok_bind]
  refine loop_ok (fun t z => z = ∑ i ∈ range t, f i ^ 2) (Nat.zero_le _) (by simp) ?_ ?_
  · intro i s _ hi hs
    simp only [Ok_bind, hv.rd (show i < nv by omega), Ok_ok, Ok_pure]
    rw [sum_range_succ, hs]; ring
  · rintro s rfl; simp

theorem norminf_spec {v : Buf ℝ} {n nv : Nat} {f : Nat → ℝ} (hv : Holds v nv f) (h1 : n ≤ nv) :
    Ok (norminf v n) (fun z => (∀ i, i < n → |f i| ≤ z) ∧ 0 ≤ z ∧ (z = 0 ∨ ∃ i, i < n ∧ z = |f i|)) := by
  unfold norminf
  refine loop_ok (fun t z => (∀ i, i < t → |f i| ≤ z) ∧ 0 ≤ z ∧ (z = 0 ∨ ∃ i, i < t ∧ z = |f i|))
    (Nat.zero_le _) (by simp) ?_ (fun s hs => hs)
  rintro i s _ hi ⟨h1', h2', h3'⟩
  simp only [Ok_bind, hv.rd (show i < nv by omega), Ok_ok, Ok_pure]
  have hres : (if lt (if lt s (f i) = true then f i else s) (-f i) = true then -f i
      else if lt s (f i) = true then f i else s) = max s |f i| := by
    simp only [real_lt]
    rcases abs_cases (f i) with ⟨h, h'⟩ | ⟨h, h'⟩
    · rw [h]
      by_cases hc : s < f i
      · simp only [hc, if_true]
        rw [if_neg (by linarith), max_eq_right hc.le]
      · simp only [hc, if_false]
        rw [if_neg (by linarith), max_eq_left (by linarith)]
    · rw [h]
      rw [if_neg (show ¬ s < f i by linarith)]
      by_cases hc : s < -f i
      · simp only [hc, if_true]; rw [max_eq_right hc.le]
      · simp only [hc, if_false]; rw [max_eq_left (by linarith)]
  rw [hres]
  refine ⟨?_, le_max_of_le_left h2', ?_⟩
  · intro j hj
    rcases Nat.lt_succ_iff_lt_or_eq.mp hj with h | h
    · exact le_max_of_le_left (h1' j h)
    · subst h; exact le_max_right _ _
  · rcases max_choice s |f i| with h | h
    · rw [h]
      rcases h3' with h3' | ⟨j, hj, h3'⟩
      · exact Or.inl h3'
      · exact Or.inr ⟨j, by omega, h3'⟩
    · rw [h]; exact Or.inr ⟨i, by omega, rfl⟩

end Ecos
