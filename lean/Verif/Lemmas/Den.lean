import Verif.Lemmas.Equil2

/-!
# Values up to a relation with the reals

`Den D`: the relation `D` between numbers of the program and reals is kept by the arithmetic.  With
equality this gives exact arithmetic, with `x = fin a` finite values among infinities and NaN, and with
the relation that always holds it gives memory safety for arbitrary arithmetic.
-/
namespace Ecos

set_option linter.unusedSectionVars false

open Finset

section generic
variable {F : Type} [Zero F] [One F] [Add F] [Sub F] [Mul F] [Div F] [Neg F] [OfScientific F]
  [IntCast F] [PFloat F]

structure Den (D : F → ℝ → Prop) : Prop where
  zero : D 0 0
  zero' : D 0.0 0
  one : D 1 1
  one' : D 1.0 1
  add : ∀ {x y a b}, D x a → D y b → D (x + y) (a + b)
  sub : ∀ {x y a b}, D x a → D y b → D (x - y) (a - b)
  mul : ∀ {x y a b}, D x a → D y b → D (x * y) (a * b)
  neg : ∀ {x a}, D x a → D (-x) (-a)
  div : ∀ {x y a b}, D x a → D y b → b ≠ 0 → D (x / y) (a / b)
  sqrt : ∀ {x a}, D x a → 0 ≤ a → D (PFloat.sqrt x) (Real.sqrt a)
  max : ∀ {x y a b}, D x a → D y b → D (fmax x y) (max a b)
  int : ∀ i : Int, D (i : F) (i : ℝ)

/-- the `n` cells of `b` hold numbers related to `f` -/
def HoldsD (D : F → ℝ → Prop) (b : Buf F) (n : Nat) (f : Nat → ℝ) : Prop :=
  b.size = n ∧ ∀ i, i < n → ∃ v, b[i]? = some (some v) ∧ D v (f i)

variable {D : F → ℝ → Prop}

theorem HoldsD.rd {b : Buf F} {n : Nat} {f : Nat → ℝ} (h : HoldsD D b n f) {i : Nat} (hi : i < n) :
    ∃ v, rd b i = .ok v ∧ D v (f i) := by
  obtain ⟨v, h1, h2⟩ := h.2 i hi
  exact ⟨v, by simp [Ecos.rd, h1], h2⟩

theorem HoldsD.wr {b : Buf F} {n : Nat} {f : Nat → ℝ} (h : HoldsD D b n f) {i : Nat} (hi : i < n) {v : F}
    {a : ℝ} (hv : D v a) : Ok (wr b i v) fun b' => HoldsD D b' n (upd f i a) := by
  rw [wr_eq (by rw [h.1]; exact hi), Ok_ok]
  refine ⟨by simpa using h.1, fun j hj => ?_⟩
  by_cases hji : j = i
  · subst hji
    exact ⟨v, by simp [h.1, hi], by rw [upd_self]; exact hv⟩
  · rw [Array.getElem?_setIfInBounds_ne (by omega), upd_ne _ _ hji]
    exact h.2 j hj

theorem HoldsD.congr {b : Buf F} {n : Nat} {f g : Nat → ℝ} (h : HoldsD D b n f)
    (hfg : ∀ i, i < n → f i = g i) : HoldsD D b n g :=
  ⟨h.1, fun i hi => by rw [← hfg i hi]; exact h.2 i hi⟩

theorem HoldsD.size {b : Buf F} {n : Nat} {f : Nat → ℝ} (h : HoldsD D b n f) : b.size = n := h.1

/-- the same with program numbers -/
theorem HoldsD.holds {b : Buf F} {n : Nat} {f : Nat → ℝ} (h : HoldsD D b n f) :
    ∃ g, Holds b n g ∧ ∀ i, i < n → D (g i) (f i) := by
  have : ∀ i, ∃ v, i < n → b[i]? = some (some v) ∧ D v (f i) := fun i => by
    by_cases hi : i < n
    · obtain ⟨v, h1⟩ := h.2 i hi
      exact ⟨v, fun _ => h1⟩
    · exact ⟨0, fun hi' => absurd hi' hi⟩
  choose g hg using this
  exact ⟨g, ⟨h.1, fun i hi => (hg i hi).1⟩, fun i hi => (hg i hi).2⟩

theorem Holds.den {b : Buf F} {n : Nat} {g : Nat → F} (h : Holds b n g) {f : Nat → ℝ}
    (hf : ∀ i, i < n → D (g i) (f i)) : HoldsD D b n f :=
  ⟨h.1, fun i hi => ⟨g i, h.2 i hi, hf i hi⟩⟩

/-- writing all cells -/
theorem fillD {b : Buf F} {n : Nat} {f : Nat → ℝ} {val : Nat → M F} (hb : b.size = n)
    (hv : ∀ i, i < n → ∃ v, val i = .ok v ∧ D v (f i)) :
    Ok (fill b 0 n val) fun b' => HoldsD D b' n f := by
  have : ∀ i, ∃ v, i < n → val i = .ok v ∧ D v (f i) := fun i => by
    by_cases hi : i < n
    · obtain ⟨v, h1⟩ := hv i hi
      exact ⟨v, fun _ => h1⟩
    · exact ⟨0, fun hi' => absurd hi' hi⟩
  choose g hg using this
  exact (fill_holds hb fun i hi => (hg i hi).1).mono fun b' h => h.den fun i hi => (hg i hi).2

theorem modifyD {b : Buf F} {n : Nat} {o f : Nat → ℝ} {u : Nat → F → M F} (hb : HoldsD D b n o)
    (hv : ∀ i v, i < n → D v (o i) → ∃ v', u i v = .ok v' ∧ D v' (f i)) :
    Ok (modify b 0 n u) fun b' => HoldsD D b' n f := by
  obtain ⟨g, hg, hd⟩ := hb.holds
  have : ∀ i, ∃ v, i < n → u i (g i) = .ok v ∧ D v (f i) := fun i => by
    by_cases hi : i < n
    · obtain ⟨v, h1⟩ := hv i _ hi (hd i hi)
      exact ⟨v, fun _ => h1⟩
    · exact ⟨0, fun hi' => absurd hi' hi⟩
  choose g' hg' using this
  exact (modify_holds hg fun i hi => (hg' i hi).1).mono fun b' h => h.den fun i hi => (hg' i hi).2

/-- a matrix whose values are related to `pr` -/
structure RepD (D : F → ℝ → Prop) (A : SpMat F) (m n : Nat) (jc ir : Nat → Nat) (pr : Nat → ℝ) : Prop where
  m_eq : A.m = m
  n_eq : A.n = n
  nnz_eq : A.nnz = jc n
  hjc : Holds A.jc (n + 1) jc
  hir : Holds A.ir (jc n) ir
  hpr : HoldsD D A.pr (jc n) pr
  ok : CscOk m n jc ir

theorem Rep.den {A : SpMat F} {m n : Nat} {jc ir : Nat → Nat} {pr : Nat → F} (h : Rep A m n jc ir pr)
    {pr' : Nat → ℝ} (hf : ∀ i, i < jc n → D (pr i) (pr' i)) : RepD D A m n jc ir pr' :=
  ⟨h.m_eq, h.n_eq, h.nnz_eq, h.hjc, h.hir, h.hpr.den hf, h.ok⟩

theorem RepD.rep {A : SpMat F} {m n : Nat} {jc ir : Nat → Nat} {pr : Nat → ℝ} (h : RepD D A m n jc ir pr) :
    ∃ g, Rep A m n jc ir g ∧ ∀ i, i < jc n → D (g i) (pr i) := by
  obtain ⟨g, h1, h2⟩ := h.hpr.holds
  exact ⟨g, ⟨h.m_eq, h.n_eq, h.nnz_eq, h.hjc, h.hir, h1, h.ok⟩, h2⟩

variable (hD : Den D)
include hD

theorem initVecD {y : Buf F} {m : Nat} {nv : Int} {yf : Nat → ℝ}
    (hy : if nv > 0 then y.size = m else HoldsD D y m yf) :
    Ok (initVec y m nv) (fun y' => HoldsD D y' m (fun i => if nv > 0 then 0 else yf i)) := by
  unfold initVec
  split at hy
  · rename_i hnv
    simp only [hnv, if_true]
    have h0 : HoldsOn y m (fun _ => False) (fun _ => (0 : F)) := ⟨hy, fun _ _ h => h.elim⟩
    exact (fillZero_ok h0 le_rfl).mono fun y' hy' =>
      (hy'.full fun i hi => Or.inl hi).den fun i hi => by simpa [hi] using hD.zero
  · rename_i hnv
    simpa only [hnv, if_false, Ok_pure] using hy

theorem mvAccD {A : SpMat F} {m n : Nat} {jc ir : Nat → Nat} {pr : Nat → ℝ}
    (hA : RepD D A m n jc ir pr) {x y : Buf F} {xf yf : Nat → ℝ} (hx : HoldsD D x n xf) {a : Int}
    (hy : HoldsD D y m yf) :
    Ok (mvAcc A x y a) (fun y' => HoldsD D y' m (fun i => yf i +
        (if a > 0 then 1 else -1) * ∑ j ∈ range n, dense jc ir pr i j * xf j)) := by
  unfold mvAcc
  split
  · rename_i h0
    rw [hA.nnz_eq] at h0
    refine hy.congr fun i _ => ?_
    rw [← rowPart_top hA.ok, h0]; simp [rowPart]
  rw [hA.n_eq]
  split
  · rename_i ha
    refine walk_ok hA.ok hA.hjc (fun t y => HoldsD D y m (fun i => yf i + rowPart n jc ir pr xf i t))
      (by simpa [rowPart] using hy) ?_ ?_
    · intro j k s hj h1 h2 hk hs
      have hr := hA.ok.rows k hk
      obtain ⟨yv, hy1, hy2⟩ := hs.rd hr
      obtain ⟨pv, hp1, hp2⟩ := hA.hpr.rd hk
      obtain ⟨xv, hx1, hx2⟩ := hx.rd hj
      simp only [hA.hir.rd hk, hy1, hp1, hx1, ok_bind_eq]
      refine (hs.wr hr (hD.add hy2 (hD.mul hp2 hx2))).mono fun y' hy' => hy'.congr fun i _ => ?_
      unfold upd rowPart
      rw [sum_range_succ, colOf_eq hA.ok hj h1 h2]
      by_cases h : i = ir k
      · subst h; simp; ring
      · simp [h, Ne.symm h]
    · intro s hs
      refine hs.congr fun i _ => ?_
      rw [rowPart_top hA.ok]; ring
  · rename_i ha
    refine walk_ok hA.ok hA.hjc (fun t y => HoldsD D y m (fun i => yf i - rowPart n jc ir pr xf i t))
      (by simpa [rowPart] using hy) ?_ ?_
    · intro j k s hj h1 h2 hk hs
      have hr := hA.ok.rows k hk
      obtain ⟨yv, hy1, hy2⟩ := hs.rd hr
      obtain ⟨pv, hp1, hp2⟩ := hA.hpr.rd hk
      obtain ⟨xv, hx1, hx2⟩ := hx.rd hj
      simp only [hA.hir.rd hk, hy1, hp1, hx1, ok_bind_eq]
      refine (hs.wr hr (hD.sub hy2 (hD.mul hp2 hx2))).mono fun y' hy' => hy'.congr fun i _ => ?_
      unfold upd rowPart
      rw [sum_range_succ, colOf_eq hA.ok hj h1 h2]
      by_cases h : i = ir k
      · subst h; simp; ring
      · simp [h, Ne.symm h]
    · intro s hs
      refine hs.congr fun i _ => ?_
      rw [rowPart_top hA.ok]; ring

theorem sparseMVD {A : SpMat F} {m n : Nat} {jc ir : Nat → Nat} {pr : Nat → ℝ}
    (hA : RepD D A m n jc ir pr) {x y : Buf F} {xf yf : Nat → ℝ} (hx : HoldsD D x n xf) {a nv : Int}
    (hy : if nv > 0 then y.size = m else HoldsD D y m yf) :
    Ok (sparseMV A x y a nv) (fun y' => HoldsD D y' m (fun i =>
      (if nv > 0 then 0 else yf i) +
        (if a > 0 then 1 else -1) * ∑ j ∈ range n, dense jc ir pr i j * xf j)) := by
  unfold sparseMV
  rw [hA.m_eq]
  exact Ok.bind (initVecD hD hy) fun y hy => mvAccD hD hA hx hy

theorem mtvAccD {A : SpMat F} {m n : Nat} {jc ir : Nat → Nat} {pr : Nat → ℝ}
    (hA : RepD D A m n jc ir pr) {x y : Buf F} {xf yf : Nat → ℝ} (hx : HoldsD D x m xf)
    (hy : HoldsD D y n yf) :
    Ok (mtvAcc A x y 0) (fun y' => HoldsD D y' n (fun j =>
      yf j - ∑ i ∈ range m, dense jc ir pr i j * xf i)) := by
  unfold mtvAcc
  have htop : ∀ j, j < n → colPart n jc ir pr xf False j (jc n) = ∑ i ∈ range m, dense jc ir pr i j * xf i := by
    intro j hj
    rw [colPart_top hA.ok _ _ _ hj]
    simp
  split
  · rename_i h0
    rw [hA.nnz_eq] at h0
    refine hy.congr fun j hj => ?_
    rw [← htop j hj, h0]; simp [colPart]
  rw [hA.n_eq, if_neg (by simp)]
  refine walk_ok hA.ok hA.hjc
    (fun t y => HoldsD D y n (fun j => yf j - colPart n jc ir pr xf False j t))
    (by simpa [colPart] using hy) ?_ ?_
  · intro j k s hj h1 h2 hk hs
    have hr := hA.ok.rows k hk
    obtain ⟨yv, hy1, hy2⟩ := hs.rd hj
    obtain ⟨pv, hp1, hp2⟩ := hA.hpr.rd hk
    obtain ⟨xv, hx1, hx2⟩ := hx.rd hr
    simp only [hA.hir.rd hk, hy1, hp1, hx1, ok_bind_eq]
    refine (hs.wr hj (hD.sub hy2 (hD.mul hp2 hx2))).mono fun y' hy' => hy'.congr fun i _ => ?_
    unfold upd colPart
    rw [sum_range_succ, colOf_eq hA.ok hj h1 h2]
    by_cases h : i = j
    · subst h; simp; ring
    · simp [h, Ne.symm h]
  · intro s hs
    exact hs.congr fun j hj => by rw [htop j hj]

/-- `sparseMtVm` with `skipDiagonal = 0` -/
theorem sparseMtVmD {A : SpMat F} {m n : Nat} {jc ir : Nat → Nat} {pr : Nat → ℝ}
    (hA : RepD D A m n jc ir pr) {x y : Buf F} {xf yf : Nat → ℝ} (hx : HoldsD D x m xf) {nv : Int}
    (hy : if nv > 0 then y.size = n else HoldsD D y n yf) :
    Ok (sparseMtVm A x y nv 0) (fun y' => HoldsD D y' n (fun j =>
      (if nv > 0 then 0 else yf j) - ∑ i ∈ range m, dense jc ir pr i j * xf i)) := by
  unfold sparseMtVm
  rw [hA.n_eq]
  exact Ok.bind (initVecD hD hy) fun y hy => mtvAccD hD hA hx hy

theorem vaddD {n : Nat} {x y : Buf F} {f g : Nat → ℝ} (hx : HoldsD D x n f) (hy : HoldsD D y n g) :
    Ok (vadd n x y) (fun y' => HoldsD D y' n (fun i => g i + f i)) := by
  obtain ⟨u, hu, hu'⟩ := hx.holds
  obtain ⟨v, hv, hv'⟩ := hy.holds
  exact (vadd_ok hu hv le_rfl le_rfl).mono fun y' h => h.den fun i hi => by
    simpa [hi] using hD.add (hv' i hi) (hu' i hi)

theorem vsubscaleD {n : Nat} {a : F} {a' : ℝ} (ha : D a a') {x y : Buf F} {f g : Nat → ℝ}
    (hx : HoldsD D x n f) (hy : HoldsD D y n g) :
    Ok (vsubscale n a x y) (fun y' => HoldsD D y' n (fun i => g i - a' * f i)) := by
  obtain ⟨u, hu, hu'⟩ := hx.holds
  obtain ⟨v, hv, hv'⟩ := hy.holds
  exact (vsubscale_ok hu hv le_rfl le_rfl).mono fun y' h => h.den fun i hi => by
    simpa [hi] using hD.sub (hv' i hi) (hD.mul ha (hu' i hi))

theorem eddotD {x y : Buf F} {n : Nat} {f g : Nat → ℝ} (hx : HoldsD D x n f) (hy : HoldsD D y n g) :
    Ok (eddot n x y) (fun z => D z (∑ i ∈ range n, f i * g i)) := by
  unfold eddot
  refine loop_ok (fun t z => D z (∑ i ∈ range t, f i * g i)) (Nat.zero_le _) (by simpa using hD.zero) ?_
    (fun s hs => hs)
  intro i s _ hi hs
  obtain ⟨u, h1, h2⟩ := hx.rd hi
  obtain ⟨v, h3, h4⟩ := hy.rd hi
  rw [h1, ok_bind_eq, h3, ok_bind_eq, Ok_pure, sum_range_succ]
  exact hD.add hs (hD.mul h2 h4)

/-- Euclidean norm of the first `n` entries -/
noncomputable def nrm (n : Nat) (f : Nat → ℝ) : ℝ := Real.sqrt (∑ i ∈ range n, f i ^ 2)

theorem norm2D {v : Buf F} {n : Nat} {f : Nat → ℝ} (hv : HoldsD D v n f) :
    Ok (norm2 v n) (fun z => D z (nrm n f)) := by
  unfold norm2
  refine Ok.bind (P := fun z => D z (∑ i ∈ range n, f i ^ 2)) ?_ fun s hs => ?_
  · refine loop_ok (fun t z => D z (∑ i ∈ range t, f i ^ 2)) (Nat.zero_le _) (by simpa using hD.zero) ?_
      (fun _ h => h)
    intro i s _ hi hs
    obtain ⟨u, h1, h2⟩ := hv.rd hi
    rw [h1, ok_bind_eq, Ok_pure, sum_range_succ, pow_two (f i)]
    exact hD.add hs (hD.mul h2 h2)
  · rw [Ok_pure]
    exact hD.sqrt hs (sum_nonneg fun i _ => sq_nonneg _)

end generic

theorem denReal : Den (fun x a : ℝ => x = a) := by
  refine ⟨rfl, by norm_num, rfl, by norm_num, ?_, ?_, ?_, ?_, ?_, ?_, ?_, fun _ => rfl⟩
  · rintro x y a b rfl rfl; rfl
  · rintro x y a b rfl rfl; rfl
  · rintro x y a b rfl rfl; rfl
  · rintro x a rfl; rfl
  · rintro x y a b rfl rfl _; rfl
  · rintro x a rfl _; rfl
  · rintro x y a b rfl rfl; simp

theorem denXR : Den (fun (x : XR) (a : ℝ) => x = .fin a) := by
  refine ⟨rfl, ?_, rfl, ?_, ?_, ?_, ?_, ?_, ?_, ?_, ?_, fun _ => rfl⟩
  · show XR.fin _ = _
    norm_num
  · show XR.fin _ = _
    norm_num
  · rintro x y a b rfl rfl; rfl
  · rintro x y a b rfl rfl
    show XR.add (.fin a) (XR.neg (.fin b)) = _
    simp only [XR.neg, XR.add, sub_eq_add_neg]
  · rintro x y a b rfl rfl; rfl
  · rintro x a rfl; rfl
  · rintro x y a b rfl rfl hb
    show XR.div (.fin a) (.fin b) = _
    simp [XR.div, hb]
  · rintro x a rfl ha
    show (if a < 0 then XR.nan else .fin (Real.sqrt a)) = _
    rw [if_neg (not_lt.2 ha)]
  · rintro x y a b rfl rfl
    unfold fmax
    by_cases h : a < b
    · rw [if_pos (show lt (XR.fin a) (XR.fin b) = true from by simpa [lt, PFloat.lt, XR.ltB] using h),
        max_eq_right h.le]
    · rw [if_neg (show ¬ lt (XR.fin a) (XR.fin b) = true from by simpa [lt, PFloat.lt, XR.ltB] using h),
        max_eq_left (not_lt.1 h)]

theorem denTrue {F : Type} [Zero F] [One F] [Add F] [Sub F] [Mul F] [Div F] [Neg F] [OfScientific F]
    [IntCast F] [PFloat F] : Den (fun (_ : F) (_ : ℝ) => True) := by
  constructor <;> intros <;> trivial

end Ecos
