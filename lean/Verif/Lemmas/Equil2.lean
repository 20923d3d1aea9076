import Verif.Lemmas.Equil1

/-!
# The Ruiz iteration and its inverse
-/
namespace Ecos

set_option linter.unusedSectionVars false

open Finset

section generic
variable {F : Type} [Zero F] [One F] [Add F] [Sub F] [Mul F] [Div F] [Neg F] [OfScientific F]
  [IntCast F] [PFloat F]

/-- pattern of the two matrices of a problem: `hasA` says whether there is a matrix `A` -/
structure Pat where
  n : Nat
  m : Nat
  p : Nat
  hasA : Bool
  jcA : Nat → Nat
  irA : Nat → Nat
  jcG : Nat → Nat
  irG : Nat → Nat

/-- an optional matrix is there exactly when the pattern says so, and holds the values -/
def RepA (A : Option (SpMat F)) (T : Pat) (a : Nat → F) : Prop :=
  if T.hasA then ∃ M, A = some M ∧ Rep M T.p T.n T.jcA T.irA a else A = none ∧ T.p = 0

/-- the matrices and the factor arrays of a problem -/
structure EqIs (e : EqS F) (T : Pat) (a g : Nat → F) : Prop where
  A : RepA e.A T a
  G : Rep e.G T.m T.n T.jcG T.irG g

theorem EqIs.cols {e : EqS F} {T : Pat} {a g : Nat → F} (h : EqIs e T a g) : e.cols = T.n := by
  unfold EqS.cols
  have hA := h.A
  unfold RepA at hA
  split at hA
  · obtain ⟨M, h1, h2⟩ := hA
    rw [h1]
    exact h2.n_eq
  · rw [hA.1]
    exact h.G.n_eq

theorem EqIs.rowsA {e : EqS F} {T : Pat} {a g : Nat → F} (h : EqIs e T a g) : e.rowsA = T.p := by
  unfold EqS.rowsA
  have hA := h.A
  unfold RepA at hA
  split at hA
  · obtain ⟨M, h1, h2⟩ := hA
    rw [h1]
    exact h2.m_eq
  · rw [hA.1, hA.2]

theorem EqIs.rowsG {e : EqS F} {T : Pat} {a g : Nat → F} (h : EqIs e T a g) : e.rowsG = T.m := h.G.m_eq

theorem onA_ok {σ : Type} {A : Option (SpMat F)} {T : Pat} {a : Nat → F} (hA : RepA A T a) {s : σ}
    {f : σ → SpMat F → M σ} {Q : σ → Prop} (hs : Q s)
    (hf : T.hasA → ∀ M, Rep M T.p T.n T.jcA T.irA a → Ok (f s M) Q) : Ok (onA A s f) Q := by
  unfold RepA at hA
  split at hA
  · rename_i hh
    obtain ⟨M, rfl, h⟩ := hA
    exact hf hh M h
  · rw [hA.1]
    show Ok (pure s) Q
    rw [Ok_pure]
    exact hs

theorem mapA_ok {A : Option (SpMat F)} {T : Pat} {a a' : Nat → F} (hA : RepA A T a)
    {f : SpMat F → M (SpMat F)}
    (hf : ∀ M, Rep M T.p T.n T.jcA T.irA a → Ok (f M) fun M' => Rep M' T.p T.n T.jcA T.irA a') :
    Ok (mapA A f) fun A' => RepA A' T a' := by
  unfold RepA at hA
  split at hA
  · rename_i hh
    obtain ⟨M, rfl, h⟩ := hA
    refine Ok.bind (hf M h) fun M' h' => ?_
    rw [Ok_pure]
    unfold RepA
    rw [if_pos hh]
    exact ⟨M', rfl, h'⟩
  · rename_i hh
    rw [hA.1]
    show Ok (pure none) _
    rw [Ok_pure]
    unfold RepA
    rw [if_neg hh]
    exact ⟨rfl, hA.2⟩

/-- without rows there are no entries -/
theorem Rep.empty {A : SpMat F} {n : Nat} {jc ir : Nat → Nat} {pr : Nat → F} (h : Rep A 0 n jc ir pr) :
    jc n = 0 := by
  by_contra hne
  have := h.ok.rows 0 (by omega)
  omega

/-- without entries the values do not matter -/
theorem Rep.noEntries {A : SpMat F} {n : Nat} {jc ir : Nat → Nat} {pr pr' : Nat → F} (h : Rep A 0 n jc ir pr) :
    Rep A 0 n jc ir pr' :=
  ⟨h.m_eq, h.n_eq, h.nnz_eq, h.hjc, h.hir, h.hpr.congr fun i hi => by
    rw [h.empty] at hi; omega, h.ok⟩

variable {C : Cone F} {S : Shape} {T : Pat}

theorem ruizFactors_ok (hC : ConeIs C S) (hm : S.m = T.m) {PO P0 P1 : F → Prop} {R : F → F → F → F → Prop}
    (hP : EqPred PO P0 P1 R) {e : EqS F} {a g : Nat → F} (he : EqIs e T a g)
    (ra : ∀ k, T.hasA → k < T.jcA T.n → ∃ o r c, R o r c (a k)) (rg : ∀ k, k < T.jcG T.n → ∃ o r c, R o r c (g k)) :
    Ok (ruizFactors C e) fun t => ∃ x y z, Holds t.1 T.n x ∧ Holds t.2.1 T.p y ∧ Holds t.2.2 T.m z ∧
      (∀ i, i < T.n → P1 (x i)) ∧ (∀ i, i < T.p → P1 (y i)) ∧ (∀ i, i < T.m → P1 (z i)) ∧ Uniform S z := by
  have ma : T.hasA → ∀ k, k < T.jcA T.n → ∀ b, P0 b → P0 (fmax (PFloat.fabs (a k)) b) := fun hA k hk => by
    obtain ⟨o, r, c, h⟩ := ra k hA hk
    exact hP.max _ _ _ _ h
  have mg : ∀ k, k < T.jcG T.n → ∀ b, P0 b → P0 (fmax (PFloat.fabs (g k)) b) := fun k hk => by
    obtain ⟨o, r, c, h⟩ := rg k hk
    exact hP.max _ _ _ _ h
  unfold ruizFactors
  rw [he.cols, he.rowsA, he.rowsG]
  refine Ok.bind (fill_holds (g := fun _ => 0) (by simp) (fun _ _ => rfl)) fun xt hx => ?_
  refine Ok.bind (fill_holds (g := fun _ => 0) (by simp) (fun _ _ => rfl)) fun yt hy => ?_
  refine Ok.bind (fill_holds (g := fun _ => 0) (by simp) (fun _ _ => rfl)) fun zt hz => ?_
  refine Ok.bind (P := fun E => ∃ f, Holds E T.n f ∧ ∀ i, i < T.n → P0 (f i))
    (onA_ok he.A ⟨_, hx, fun _ _ => hP.zero⟩ fun hA M hM => maxCols_ok hM hx (ma hA) fun _ _ => hP.zero) ?_
  rintro xt1 ⟨x1, hx1, px1⟩
  refine Ok.bind (P := fun E => ∃ f, Holds E T.n f ∧ ∀ i, i < T.n → P0 (f i)) ?_ ?_
  · split
    · exact maxCols_ok he.G hx1 mg px1
    · rw [Ok_pure]
      exact ⟨_, hx1, px1⟩
  rintro xt2 ⟨x2, hx2, px2⟩
  refine Ok.bind (P := fun E => ∃ f, Holds E T.p f ∧ ∀ i, i < T.p → P0 (f i))
    (onA_ok he.A ⟨_, hy, fun _ _ => hP.zero⟩ fun hA M hM => maxRows_ok hM hy (ma hA) fun _ _ => hP.zero) ?_
  rintro yt1 ⟨y1, hy1, py1⟩
  refine Ok.bind (P := fun E => ∃ f, Holds E T.m f ∧ ∀ i, i < T.m → P0 (f i)) ?_ ?_
  · split
    · exact maxRows_ok he.G hz mg fun _ _ => hP.zero
    · rw [Ok_pure]
      exact ⟨_, hz, fun _ _ => hP.zero⟩
  rintro zt1 ⟨z1, hz1, pz1⟩
  rw [← hm] at hz1 pz1
  refine Ok.bind (collapseCones_ok hC hz1 hP.zero hP.add pz1) ?_
  rintro zt2 ⟨z2, hz2, pz2, uz2⟩
  rw [hm] at hz2 pz2
  refine Ok.bind (modify_holds (g := fun i => sqrtOrOne (x2 i)) hx2 (fun _ _ => rfl)) fun xt3 hx3 => ?_
  refine Ok.bind (modify_holds (g := fun i => sqrtOrOne (y1 i)) hy1 (fun _ _ => rfl)) fun yt3 hy3 => ?_
  refine Ok.bind (modify_holds (g := fun i => sqrtOrOne (z2 i)) hz2 (fun _ _ => rfl)) fun zt3 hz3 => ?_
  rw [Ok_pure]
  exact ⟨_, _, _, hx3, hy3, hz3, fun i hi => hP.sqrt _ (px2 i hi), fun i hi => hP.sqrt _ (py1 i hi),
    fun i hi => hP.sqrt _ (pz2 i hi), uz2.map _⟩

/-- state of the iteration relative to the original values `a0`, `g0` -/
def Scaled (S : Shape) (T : Pat) (P1 : F → Prop) (R : F → F → F → F → Prop) (a0 g0 : Nat → F) (e : EqS F) : Prop :=
  ∃ a g x y z, EqIs e T a g ∧ Holds e.xe T.n x ∧ Holds e.Ae T.p y ∧ Holds e.Ge T.m z ∧
    (∀ i, i < T.n → P1 (x i)) ∧ (∀ i, i < T.p → P1 (y i)) ∧ (∀ i, i < T.m → P1 (z i)) ∧ Uniform S z ∧
    (∀ k, T.hasA → k < T.jcA T.n → R (a0 k) (y (T.irA k)) (x (colOf T.n T.jcA k)) (a k)) ∧
    (∀ k, k < T.jcG T.n → R (g0 k) (z (T.irG k)) (x (colOf T.n T.jcG k)) (g k))

theorem colOf_lt {m n : Nat} {jc ir : Nat → Nat} (h : CscOk m n jc ir) {k : Nat} (hk : k < jc n) :
    colOf n jc k < n := by
  obtain ⟨j, h1, h2, h3⟩ := h.exists_col hk
  rw [colOf_eq h h1 h2 h3]
  exact h1

theorem ruizPass_ok (hC : ConeIs C S) (hm : S.m = T.m) {PO P0 P1 : F → Prop} {R : F → F → F → F → Prop}
    (hP : EqPred PO P0 P1 R) {e : EqS F} {a0 g0 : Nat → F} (he : Scaled S T P1 R a0 g0 e) :
    Ok (ruizPass C e) (Scaled S T P1 R a0 g0) := by
  obtain ⟨a, g, x, y, z, hE, hx, hy, hz, px, py, pz, uz, ra, rg⟩ := he
  unfold ruizPass
  refine Ok.bind (ruizFactors_ok hC hm hP hE (fun k h1 h2 => ⟨_, _, _, ra k h1 h2⟩) fun k hk => ⟨_, _, _, rg k hk⟩) ?_
  rintro t ⟨x', y', z', hx', hy', hz', px', py', pz', uz'⟩
  rw [hE.cols, hE.rowsA, hE.rowsG]
  refine Ok.bind (mapA_ok hE.A fun M hM => equilibrateRows_ok hM hy') fun A1 hA1 => ?_
  refine Ok.bind (P := fun G => Rep G T.m T.n T.jcG T.irG fun k => g k / z' (T.irG k)) ?_ fun G1 hG1 => ?_
  · split
    · exact equilibrateRows_ok hE.G hz'
    · rename_i h0
      rw [Ok_pure]
      have := hE.G
      rw [show T.m = 0 by omega] at this ⊢
      exact this.noEntries
  refine Ok.bind (mapA_ok hA1 fun M hM => equilibrateCols_ok hM hx') fun A2 hA2 => ?_
  refine Ok.bind (P := fun G => Rep G T.m T.n T.jcG T.irG fun k => g k / z' (T.irG k) / x' (colOf T.n T.jcG k)) ?_
    fun G2 hG2 => ?_
  · split
    · exact equilibrateCols_ok hG1 hx'
    · rename_i h0
      rw [Ok_pure]
      have := hG1
      rw [show T.m = 0 by omega] at this ⊢
      exact this.noEntries
  refine Ok.bind (mulBy_ok hx hx') fun x2 hx2 => ?_
  refine Ok.bind (mulBy_ok hy hy') fun y2 hy2 => ?_
  refine Ok.bind (mulBy_ok hz hz') fun z2 hz2 => ?_
  rw [Ok_pure]
  refine ⟨_, _, _, _, _, ⟨hA2, hG2⟩, hx2, hy2, hz2, fun i hi => hP.mul _ _ (px i hi) (px' i hi),
    fun i hi => hP.mul _ _ (py i hi) (py' i hi), fun i hi => hP.mul _ _ (pz i hi) (pz' i hi), uz.mul uz', ?_, ?_⟩
  · intro k hA hk
    have hok : CscOk T.p T.n T.jcA T.irA := by
      have := hE.A
      unfold RepA at this
      rw [if_pos hA] at this
      obtain ⟨M, -, h⟩ := this
      exact h.ok
    have hr := hok.rows k hk
    have hc := colOf_lt hok hk
    exact hP.step _ _ _ _ _ _ (py _ hr) (px _ hc) (py' _ hr) (px' _ hc) (ra k hA hk)
  · intro k hk
    have hr := hE.G.ok.rows k hk
    have hc := colOf_lt hE.G.ok hk
    exact hP.step _ _ _ _ _ _ (pz _ hr) (px _ hc) (pz' _ hr) (px' _ hc) (rg k hk)

/-- `set_equilibration` -/
theorem setEquilibration_ok (hC : ConeIs C S) (hm : S.m = T.m) {PO P0 P1 : F → Prop} {R : F → F → F → F → Prop}
    (hP : EqPred PO P0 P1 R) {e : EqS F} {a0 g0 : Nat → F} (he : EqIs e T a0 g0) (hx : e.xe.size = T.n)
    (hy : e.Ae.size = T.p) (hz : e.Ge.size = T.m) {b h : Buf F} {bf hf : Nat → F} (hb : Holds b T.p bf)
    (hh : Holds h T.m hf) (oa : ∀ k, T.hasA → k < T.jcA T.n → PO (a0 k) := by intros; trivial)
    (og : ∀ k, k < T.jcG T.n → PO (g0 k) := by intros; trivial) :
    Ok (setEquilibration C e b h) fun r => ∃ a g x y z, EqIs r.1 T a g ∧ Holds r.1.xe T.n x ∧ Holds r.1.Ae T.p y ∧
      Holds r.1.Ge T.m z ∧
      (∀ i, i < T.n → P1 (x i)) ∧ (∀ i, i < T.p → P1 (y i)) ∧ (∀ i, i < T.m → P1 (z i)) ∧ Uniform S z ∧
      (∀ k, T.hasA → k < T.jcA T.n → R (a0 k) (y (T.irA k)) (x (colOf T.n T.jcA k)) (a k)) ∧
      (∀ k, k < T.jcG T.n → R (g0 k) (z (T.irG k)) (x (colOf T.n T.jcG k)) (g k)) ∧
      Holds r.2.1 T.p (fun i => bf i / y i) ∧ Holds r.2.2 T.m (fun i => hf i / z i) := by
  unfold setEquilibration
  rw [he.cols, he.rowsA, he.rowsG]
  refine Ok.bind (fill_holds (g := fun _ => (1.0 : F)) hx (fun _ _ => rfl)) fun xe hxe => ?_
  refine Ok.bind (fill_holds (g := fun _ => (1.0 : F)) hy (fun _ _ => rfl)) fun ye hye => ?_
  refine Ok.bind (fill_holds (g := fun _ => (1.0 : F)) hz (fun _ _ => rfl)) fun ze hze => ?_
  refine Ok.bind (P := Scaled S T P1 R a0 g0) (loop_ok (fun _ e => Scaled S T P1 R a0 g0 e) (by omega) ?_ ?_
    (fun _ h => h)) ?_
  · exact ⟨a0, g0, _, _, _, ⟨he.A, he.G⟩, hxe, hye, hze, fun _ _ => hP.one, fun _ _ => hP.one,
      fun _ _ => hP.one, ⟨fun _ _ _ _ => rfl, fun _ _ _ _ => rfl⟩, fun k h1 h2 => hP.init _ (oa k h1 h2),
      fun k h => hP.init _ (og k h)⟩
  · intro i e' _ _ h'
    exact ruizPass_ok hC hm hP h'
  · rintro e' ⟨a, g, x, y, z, hE, kx, ky, kz, px, py, pz, uz, ra, rg⟩
    rw [hE.rowsA, hE.rowsG]
    refine Ok.bind (divBy_ok hb ky) fun b' hb' => ?_
    refine Ok.bind (divBy_ok hh kz) fun h' hh' => ?_
    rw [Ok_pure]
    exact ⟨a, g, x, y, z, hE, kx, ky, kz, px, py, pz, uz, ra, rg, hb', hh'⟩

/-- `unset_equilibration` -/
theorem unsetEquilibration_ok {e : EqS F} {a g x y z : Nat → F} (he : EqIs e T a g) (hx : Holds e.xe T.n x)
    (hy : Holds e.Ae T.p y) (hz : Holds e.Ge T.m z) {b h : Buf F} {bf hf : Nat → F} (hb : Holds b T.p bf)
    (hh : Holds h T.m hf) :
    Ok (unsetEquilibration e b h) fun r =>
      RepA r.1 T (fun k => a k * (y (T.irA k) * x (colOf T.n T.jcA k))) ∧
      Rep r.2.1 T.m T.n T.jcG T.irG (fun k => g k * (z (T.irG k) * x (colOf T.n T.jcG k))) ∧
      Holds r.2.2.1 T.p (fun i => bf i * y i) ∧ Holds r.2.2.2 T.m (fun i => hf i * z i) := by
  unfold unsetEquilibration
  rw [he.rowsA, he.rowsG]
  refine Ok.bind (mapA_ok he.A fun M hM => restoreMat_ok hM hy hx) fun A' hA' => ?_
  refine Ok.bind (P := fun G => Rep G T.m T.n T.jcG T.irG fun k => g k * (z (T.irG k) * x (colOf T.n T.jcG k))) ?_
    fun G' hG' => ?_
  · split
    · exact restoreMat_ok he.G hz hx
    · rename_i h0
      rw [Ok_pure]
      have := he.G
      rw [show T.m = 0 by omega] at this ⊢
      exact this.noEntries
  refine Ok.bind (mulBy_ok hb hy) fun b' hb' => ?_
  refine Ok.bind (mulBy_ok hh hz) fun h' hh' => ?_
  rw [Ok_pure]
  exact ⟨hA', hG', hb', hh'⟩

/-- the trivial predicates -/
theorem eqTrue : EqPred (fun _ : F => True) (fun _ => True) (fun _ => True) (fun _ _ _ _ => True) :=
  ⟨trivial, fun _ _ _ _ _ _ _ => trivial, fun _ _ _ _ => trivial, fun _ _ => trivial, trivial, fun _ _ _ _ => trivial,
    fun _ _ => trivial, fun _ _ _ _ _ _ _ _ _ _ _ => trivial⟩

end generic

/-- over the reals: maxima are nonnegative, factors positive, values divided by the two factors -/
theorem eqReal : EqPred (fun _ : ℝ => True) (fun a => 0 ≤ a) (fun a => 0 < a) (fun o r c v => v = o / (r * c)) := by
  refine ⟨le_rfl, fun _ _ _ a _ b h => ?_, fun a b => add_nonneg, fun a h => ?_, by norm_num, fun a b => mul_pos, ?_, ?_⟩
  · unfold fmax
    split
    · exact h
    · exact abs_nonneg a
  · unfold sqrtOrOne
    split
    · norm_num
    · rename_i hlt
      have : ¬ |a| < 1e-6 := by simpa using hlt
      rw [abs_of_nonneg h] at this
      have h0 : 0 < a := lt_of_lt_of_le (by norm_num) (not_lt.1 this)
      exact Real.sqrt_pos.2 h0
  · intro o _
    norm_num
  · rintro o r c v a b h1 h2 h3 h4 rfl
    field_simp

end Ecos
