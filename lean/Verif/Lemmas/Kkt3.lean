import Verif.Lemmas.Kkt2
import Verif.Lemmas.Resid
import Verif.Lemmas.Glue

/-!
# `kkt_solve`: the residual of an expanded solution
-/
namespace Ecos.Fact

open Ecos Finset

set_option linter.unusedSectionVars false

theorem Shape.x_fexv (S : Shape) : S.x.fexv = S.fexv + 2 * S.ns := S.x_start S.ns

theorem Shape.x_m (S : Shape) : S.x.m = S.m + 2 * S.ns := by
  unfold Shape.m
  rw [Shape.x_fexv]
  show S.fexv + 2 * S.ns + 3 * S.ne = _
  omega

/-- the rows of an expanded vector without the additional ones -/
noncomputable def shrink {α : Type} (S : Shape) (x : Nat → α) : Nat → α := glue S x (S.x.block x) (S.x.eblock x)

theorem _root_.Ecos.Holds.eq {α : Type} {b b' : Buf α} {n : Nat} {f : Nat → α} (h : Holds b n f) (h' : Holds b' n f) :
    b = b' := by
  refine Array.ext (h.1.trans h'.1.symm) fun i h1 h2 => ?_
  have e1 := h.2 i (h.1 ▸ h1)
  have e2 := h'.2 i (h.1 ▸ h1)
  rw [Array.getElem?_eq_getElem h1] at e1
  rw [Array.getElem?_eq_getElem h2] at e2
  exact (Option.some.inj e1).trans (Option.some.inj e2).symm

section generic
variable {F : Type} [Zero F] [One F] [Add F] [Sub F] [Mul F] [Div F] [Neg F] [OfScientific F]
  [IntCast F] [PFloat F]

/-- as `forSocX_blocks`, for a traversal that does not count the additional rows -/
theorem forSoc_xblocks {α : Type} {C : Cone F} {S : Shape} (hC : ConeIs C S) {b : Buf α}
    {body : Nat → SoCone F → Nat → Buf α → M (Buf α)} {g : Nat → Nat → α}
    (hbody : ∀ k soc b1, k < S.ns → C.soc[k]? = some soc → soc.p = S.q k → b1.size = b.size →
      (∀ j, S.x.start k ≤ j → b1[j]? = b[j]?) →
      Ok (body k soc (S.start k) b1) fun b2 => Seg b1 b2 (S.x.start k) (S.x.q k) (g k)) :
    Ok (forSoc C C.lpc.p 0 b body) fun t => Blocks S.x b t.1 g ∧ t.2 = S.fexv := by
  refine (forSoc_ok0 hC (fun k b' => b'.size = b.size ∧
    (∀ i, i < k → Has b' (S.x.start i) (S.x.q i) (g i)) ∧
    ∀ j, j < S.l ∨ S.x.start k ≤ j → b'[j]? = b[j]?) ⟨rfl, fun i hi => by omega, fun _ _ => rfl⟩ ?_).mono ?_
  · rintro k soc b1 hk hs hq ⟨h1, h2, h3⟩
    refine (hbody k soc b1 hk hs hq h1 (fun j hj => h3 j (Or.inr hj))).mono fun b2 h => ?_
    refine ⟨h.size.trans h1, fun i hi => ?_, fun j hj => ?_⟩
    · by_cases hik : i = k
      · subst hik; exact h.inside
      · exact h.has (h2 i (by omega)) (Or.inl (S.x.disj (by omega)))
    · have : S.l ≤ S.x.start k := S.x.l_le k
      rw [h.outside j (by rw [← S.x.start_succ]; omega)]
      refine h3 j ?_
      rcases hj with hj | hj
      · exact Or.inl hj
      · exact Or.inr (by rw [S.x.start_succ] at hj; omega)
  · rintro t ⟨⟨h1, h2, h3⟩, h4⟩
    exact ⟨⟨h1, h2, h3⟩, h4⟩

theorem gather_ok {dst Px : Buf F} {Pinv : Buf Nat} {off src k N : Nat} {π : Nat → Nat} {x : Nat → F}
    (hpin : Holds Pinv N π) (hπ : IsPerm N π) (hx : Holds Px N x) (h1 : src + k ≤ N) (h2 : off + k ≤ dst.size) :
    Ok (gather dst off Px Pinv src k) fun r => Seg dst r off k fun i => x (π (src + i)) := by
  unfold gather
  refine fill_ok h2 fun i hi => ?_
  rw [hpin.rd (by omega), ok_bind_eq]
  exact hx.rd (hπ.lt _ (by omega))

/-- what `unstretch` returns: the un-permuted vector in three parts, without the additional rows -/
theorem unstretch_ok {C : Cone F} {S : Shape} (hC : ConeIs C S) {n p N : Nat} (hN : N = n + p + S.x.m)
    {Pinv : Buf Nat} {π : Nat → Nat} (hpin : Holds Pinv N π) (hπ : IsPerm N π) {Px dx dy dz : Buf F} {x : Nat → F}
    (hx : Holds Px N x) (h1 : dx.size = n) (h2 : dy.size = p) (h3 : dz.size = S.m) :
    Ok (unstretch n p C Pinv Px dx dy dz) fun r => Holds r.1 n (fun i => x (π i)) ∧
      Holds r.2.1 p (fun i => x (π (n + i))) ∧ Holds r.2.2 S.m (shrink S fun i => x (π (n + p + i))) := by
  have hl : S.l ≤ S.fexv := S.l_le _
  have hm : S.m = S.fexv + 3 * S.ne := rfl
  have hxm := Shape.x_m S
  unfold unstretch
  refine Ok.bind (gather_ok hpin hπ hx (by omega) (by omega)) fun b1 s1 => ?_
  refine Ok.bind (gather_ok hpin hπ hx (by omega) (by omega)) fun b2 s2 => ?_
  refine Ok.bind (gather_ok hpin hπ hx (by rw [hC.l]; omega) (by rw [hC.l]; omega)) fun b3 s3 => ?_
  rw [hC.l] at s3
  refine Ok.bind (forSoc_blocks hC (g := fun k => S.x.block (fun i => x (π (n + p + i))) k) ?_) ?_
  · intro k soc b hk hs hq hb _
    have hle := S.start_le hk
    rw [hq]
    refine (gather_ok hpin hπ hx (by omega) (by rw [hb, s3.size]; omega)).mono fun r hr => hr.congr fun j _ => ?_
    unfold Shape.block
    rw [S.x_start, show n + p + S.start k + 2 * k + j = n + p + (S.start k + 2 * k + j) by omega]
  · rintro ⟨b4, t⟩ ⟨h4, ht⟩
    simp only at h4 ht ⊢
    subst ht
    rw [hC.nexc, hC.nsoc]
    refine Ok.bind (gather_ok hpin hπ hx (by omega) (by rw [h4.size, s3.size]; omega)) fun b5 s5 => ?_
    rw [Ok_pure]
    have e1 : Holds b1 n (fun i => x (π i)) := by
      have := s1.holds h1
      exact this.congr fun i _ => by rw [Nat.zero_add]
    refine ⟨e1, s2.holds h2, ?_⟩
    refine (glue_hasE ?_ ?_ ?_).holds (by simp only; rw [s5.size, h4.size, s3.size, h3])
    · refine s5.has ?_ (Or.inl (by omega))
      intro j hj
      rw [h4.outside _ (Or.inl (by omega))]
      exact s3.inside j hj
    · intro k hk
      have hle := S.start_le hk
      exact s5.has (h4.inside k hk) (Or.inl (by omega))
    · intro l hl
      refine (s5.inside.sub (o' := 3 * l) (k' := 3) (by omega)).congr fun j hj => ?_
      unfold Shape.eblock
      rw [Shape.x_fexv, show n + p + S.fexv + 2 * S.ns + (3 * l + j) =
        n + p + (S.fexv + 2 * S.ns + 3 * l + j) by omega]

theorem shrink_lp {α : Type} (S : Shape) (x : Nat → α) {i : Nat} (h : i < S.l) : shrink S x i = x i := glue_lp S _ _ _ h
theorem shrink_block {α : Type} (S : Shape) (x : Nat → α) {k j : Nat} (hk : k < S.ns) (hj : j < S.q k) :
    shrink S x (S.start k + j) = x (S.x.start k + j) := glue_block S x (S.x.block x) (S.x.eblock x) hk hj
theorem shrink_exp {α : Type} (S : Shape) (x : Nat → α) {t : Nat} : shrink S x (S.fexv + t) = x (S.x.fexv + t) := by
  have := glue_exp S x (S.x.block x) (S.x.eblock x) (l := t / 3) (j := t % 3) (by omega)
  unfold Shape.eblock at this
  rw [show S.fexv + 3 * (t / 3) + t % 3 = S.fexv + t by omega, show S.x.fexv + 3 * (t / 3) + t % 3 = S.x.fexv + t by omega] at this
  exact this

/-! ### The infinity norm -/

def absmaxF (z a : F) : F :=
  let z := if lt z a then a else z
  if lt z (-a) then -a else z

/-- value of `norminf` -/
def normF (n : Nat) (f : Nat → F) : F := itr n 0 fun i z => absmaxF z (f i)

theorem norminf_eq {b : Buf F} {n : Nat} {f : Nat → F} (h : Has' b n f) : norminf b n = .ok (normF n f) := by
  unfold norminf normF
  refine loop_itr (by omega) fun i s hi => ?_
  rw [Nat.zero_add, h.rd hi]
  rfl

theorem normF_congr {n : Nat} {f g : Nat → F} (h : ∀ i, i < n → f i = g i) : normF n f = normF n g :=
  itr_congr fun i s hi => by rw [h i hi]

/-! ### The residual -/

/-- the arguments of `kkt_solve` belong to the problem `P`; right-hand side `b` -/
structure SysIs (D : F → ℝ → Prop) (a : SolveArgs F) (S : Shape) (T : Pat) (P : Dat) (N : Nat) (π : Nat → Nat)
    (b : Nat → F) (V : ConeV F) : Prop where
  n : a.n = T.n
  p : a.p = T.p
  m : a.m = T.m
  mS : T.m = S.m
  dim : N = T.n + T.p + S.x.m
  cone : ConeIs a.C S
  kn : a.K.PKPt.n = N
  pinv : Holds a.K.Pinv N π
  perm : IsPerm N π
  A : RepAD D a.A T P.a
  G : RepD D a.G T.m T.n T.jcG T.irG P.g
  Pb : Holds a.Pb N b
  scal : a.isinit = 0 → ScalHolds a.C S V

/-- linear part of the residual of the expanded cone rows -/
noncomputable def ezlinF (S : Shape) (b x g : Nat → F) : Nat → F :=
  glue S.x (fun i => b i - g i + DELTASTAT * x i)
    (fun k j => if j < S.q k - 1 then S.x.block b k j - S.block g k j + DELTASTAT * S.x.block x k j
      else if j < S.q k then S.x.block b k j - S.block g k j - DELTASTAT * S.x.block x k j else 0)
    (fun l j => S.x.eblock b l j - S.eblock g l j + DELTASTAT * S.x.eblock x l j)

/-- the expanded cone block applied to `x`, added to `y` -/
noncomputable def addVF (S : Shape) (V : ConeV F) (x y : Nat → F) : Nat → F :=
  glue S.x (fun i => y i + V.lv i * x i)
    (fun k => expandF (S.q k) (V.V k) (S.x.block x k) (S.x.block y k))
    (fun l => expandE (V.ev l) (S.x.eblock x l) (S.x.eblock y l))

/-- residual of the expanded cone rows -/
noncomputable def ezF (isinit : Int) (S : Shape) (V : ConeV F) (b x g : Nat → F) : Nat → F :=
  if isinit = 0 then addVF S V x (ezlinF S b x g) else fun i => ezlinF S b x g i + x i

variable {D : F → ℝ → Prop} {a : SolveArgs F} {S : Shape} {T : Pat} {P : Dat} {N : Nat} {π : Nat → Nat}
  {b : Nat → F} {V : ConeV F}

/-- `sparseMV` with `newVector > 0` and a result array that may be too long -/
theorem sparseMVD' (hD : Den D) {A : SpMat F} {m n : Nat} {jc ir : Nat → Nat} {pr : Nat → ℝ}
    (hA : RepD D A m n jc ir pr) {x y : Buf F} {xf : Nat → ℝ} (hx : HoldsD D x n xf) (hy : m ≤ y.size) :
    Ok (sparseMV A x y 1 1) fun y' => ∃ g, Has' y' m g ∧ ∀ i, i < m → D (g i) (∑ j ∈ range n, dense jc ir pr i j * xf j) := by
  let H : Buf F → (Nat → ℝ) → Prop := fun b f => b.size = y.size ∧ ∀ i, i < m → ∃ v, b[i]? = some (some v) ∧ D v (f i)
  have hrd : ∀ {b f i}, H b f → i < m → ∃ v, rd b i = .ok v ∧ D v (f i) := by
    intro b f i hb hi
    obtain ⟨v, h1, h2⟩ := hb.2 i hi
    exact ⟨v, by simp [Ecos.rd, h1], h2⟩
  have hwr : ∀ {b f i v} {a : ℝ}, H b f → i < m → D v a → Ok (wr b i v) fun b' => H b' (upd f i a) := by
    intro b f i v a hb hi hv
    have hlt : i < b.size := by rw [hb.1]; omega
    rw [wr_eq hlt, Ok_ok]
    refine ⟨by simpa using hb.1, fun j hj => ?_⟩
    by_cases hji : j = i
    · subst hji
      exact ⟨v, by simp [hlt], by rw [upd_self]; exact hv⟩
    · rw [Array.getElem?_setIfInBounds_ne (by omega), upd_ne _ _ hji]
      exact hb.2 j hj
  have hfin : ∀ {b f}, H b f → (∀ i, i < m → f i = ∑ j ∈ range n, dense jc ir pr i j * xf j) →
      ∃ g, Has' b m g ∧ ∀ i, i < m → D (g i) (∑ j ∈ range n, dense jc ir pr i j * xf j) := by
    intro b f hb hf
    have : ∀ i, ∃ v, i < m → b[i]? = some (some v) ∧ D v (f i) := fun i => by
      by_cases hi : i < m
      · obtain ⟨v, h1⟩ := hb.2 i hi
        exact ⟨v, fun _ => h1⟩
      · exact ⟨0, fun hi' => absurd hi' hi⟩
    choose g hg using this
    exact ⟨g, fun i hi => (hg i hi).1, fun i hi => by rw [← hf i hi]; exact (hg i hi).2⟩
  unfold sparseMV initVec
  rw [hA.m_eq]
  refine Ok.bind (P := fun y' => H y' fun _ => 0) ?_ fun y' hy' => ?_
  · rw [if_pos (by decide)]
    unfold fillZero
    refine loop_ok (fun t b => b.size = y.size ∧ ∀ i, i < t → b[i]? = some (some 0)) (Nat.zero_le _)
      ⟨rfl, fun i hi => by omega⟩ ?_ fun b hb => ⟨hb.1, fun i hi => ⟨0, hb.2 i hi, hD.zero⟩⟩
    intro t b _ ht hb
    have hlt : t < b.size := by rw [hb.1]; omega
    rw [wr_eq hlt, Ok_ok]
    refine ⟨by simpa using hb.1, fun i hi => ?_⟩
    by_cases h : i = t
    · subst h; simp [hlt]
    · rw [Array.getElem?_setIfInBounds_ne (by omega)]
      exact hb.2 i (by omega)
  · unfold mvAcc
    split
    · rename_i h0
      rw [hA.nnz_eq] at h0
      rw [Ok_pure]
      refine hfin hy' fun i _ => ?_
      rw [← rowPart_top hA.ok, h0]; simp [rowPart]
    rw [hA.n_eq, if_pos (by decide)]
    refine walk_ok hA.ok hA.hjc (fun t y => H y (fun i => rowPart n jc ir pr xf i t)) (by simpa [rowPart] using hy') ?_ ?_
    · intro j k s hj h1 h2 hk hs
      have hr := hA.ok.rows k hk
      obtain ⟨yv, hy1, hy2⟩ := hrd hs hr
      obtain ⟨pv, hp1, hp2⟩ := hA.hpr.rd hk
      obtain ⟨xv, hx1, hx2⟩ := hx.rd hj
      simp only [hA.hir.rd hk, hy1, hp1, hx1, ok_bind_eq]
      refine (hwr hs hr (hD.add hy2 (hD.mul hp2 hx2))).mono fun y' hy' => ⟨hy'.1, fun i hi => ?_⟩
      have := hy'.2 i hi
      have e : upd (fun i => rowPart n jc ir pr xf i k) (ir k) (rowPart n jc ir pr xf (ir k) k + pr k * xf j) i =
          rowPart n jc ir pr xf i (k + 1) := by
        unfold upd rowPart
        rw [sum_range_succ, colOf_eq hA.ok hj h1 h2]
        by_cases h : i = ir k
        · subst h; simp
        · simp [h, Ne.symm h]
      rwa [e] at this
    · intro s hs
      exact hfin hs fun i _ => by rw [rowPart_top hA.ok]

/-- `resX` -/
theorem resX_D (hD : Den D) (hδ : D DELTASTAT DELTASTAT) (h : SysIs D a S T P N π b V) {dx dy dz : Buf F}
    {br x y z : Nat → ℝ} (hb : ∀ i, i < N → D (b i) (br i)) (hx : HoldsD D dx T.n x) (hy : HoldsD D dy T.p y)
    (hz : HoldsD D dz T.m z) :
    Ok (resX a dx dy dz) fun e => HoldsD D e T.n fun i => br (π i) - DELTASTAT * x i -
      (∑ k ∈ range T.p, P.A T k i * y k) - ∑ k ∈ range T.m, P.G T k i * z k := by
  have hdim := h.dim
  unfold resX
  rw [h.n]
  refine Ok.bind (fillD (D := D) (f := fun i => br (π i) - DELTASTAT * x i) (by simp) fun i hi => ?_) fun e1 h1 => ?_
  · obtain ⟨v, hv, hv'⟩ := hx.rd hi
    rw [h.pinv.rd (by omega), ok_bind_eq, h.Pb.rd (h.perm.lt _ (by omega)), ok_bind_eq, hv, ok_bind_eq]
    exact ⟨_, rfl, hD.sub (hb _ (h.perm.lt _ (by omega))) (hD.mul hδ hv')⟩
  · have hA := h.A
    unfold RepAD at hA
    split at hA
    · obtain ⟨M, hM, hM'⟩ := hA
      rw [hM]
      refine Ok.bind (sparseMtVmD hD hM' hy (nv := 0) (yf := fun i => br (π i) - DELTASTAT * x i) (by simpa using h1)) fun e2 h2 => ?_
      refine (sparseMtVmD hD h.G hz (nv := 0) (yf := fun i => br (π i) - DELTASTAT * x i - (∑ k ∈ range T.p, P.A T k i * y k)) (by simpa [Dat.A] using h2)).mono fun e3 h3 => ?_
      simpa [Dat.A, Dat.G] using h3
    · obtain ⟨hM, hp⟩ := hA
      rw [hM, hp]
      simp only [pure_bind]
      refine (sparseMtVmD hD h.G hz (nv := 0) (yf := fun i => br (π i) - DELTASTAT * x i) (by simpa using h1)).mono fun e3 h3 => ?_
      simpa [Dat.A, Dat.G] using h3

/-- `resY` -/
theorem resY_D (hD : Den D) (hδ : D DELTASTAT DELTASTAT) (h : SysIs D a S T P N π b V) {dx dy : Buf F}
    {br x y : Nat → ℝ} (hb : ∀ i, i < N → D (b i) (br i)) (hx : HoldsD D dx T.n x) (hy : HoldsD D dy T.p y)
    (hp : 0 < T.p) :
    Ok (resY a dx dy) fun e => HoldsD D e T.p fun i => br (π (T.n + i)) + DELTASTAT * y i -
      ∑ j ∈ range T.n, P.A T i j * x j := by
  have hdim := h.dim
  unfold resY
  rw [h.n, h.p]
  refine Ok.bind (fillD (D := D) (f := fun i => br (π (T.n + i)) + DELTASTAT * y i) (by simp) fun i hi => ?_) fun e1 h1 => ?_
  · obtain ⟨v, hv, hv'⟩ := hy.rd hi
    rw [h.pinv.rd (by omega), ok_bind_eq, h.Pb.rd (h.perm.lt _ (by omega)), ok_bind_eq, hv, ok_bind_eq]
    exact ⟨_, rfl, hD.add (hb _ (h.perm.lt _ (by omega))) (hD.mul hδ hv')⟩
  · have hA := h.A
    unfold RepAD at hA
    split at hA
    · obtain ⟨M, hM, hM'⟩ := hA
      rw [hM]
      simp only [deref, ok_bind_eq]
      refine (sparseMVD hD hM' hx (a := -1) (nv := 0) (yf := fun i => br (π (T.n + i)) + DELTASTAT * y i) (by simpa using h1)).mono fun e2 h2 => ?_
      refine h2.congr fun i hi => ?_
      simp
      rfl
    · omega

/-- `resZlin` -/
theorem resZlin_ok (hD : Den D) (h : SysIs D a S T P N π b V) {dx dz : Buf F} {x : Nat → ℝ} {xz : Nat → F}
    (hx : HoldsD D dx T.n x) (hz : Holds dz S.m (shrink S xz)) :
    Ok (resZlin a dx dz) fun e => ∃ g : Nat → F, (∀ i, i < T.m → D (g i) (∑ j ∈ range T.n, P.G T i j * x j)) ∧
      Holds e S.x.m (ezlinF S (fun i => b (π (T.n + T.p + i))) xz g) := by
  have hdim := h.dim
  have hl : S.l ≤ S.fexv := S.l_le _
  have hm : S.m = S.fexv + 3 * S.ne := rfl
  have hxm := Shape.x_m S
  have hxf := Shape.x_fexv S
  have hmS := h.mS
  have hC := h.cone
  unfold resZlin
  refine Ok.bind (sparseMVD' hD h.G hx (by simp [h.kn]; omega)) ?_
  rintro Gdx ⟨g, hg, hg'⟩
  have hplus : ∀ k j, k < N → j < S.m → ezPlus a Gdx dz k j = .ok (b (π k) - g j + DELTASTAT * shrink S xz j) := by
    intro k j hk hj
    unfold ezPlus
    rw [h.pinv.rd hk, ok_bind_eq, h.Pb.rd (h.perm.lt _ hk), ok_bind_eq, hg.rd (by omega), ok_bind_eq, hz.rd hj]
    rfl
  have hminus : ∀ k j, k < N → j < S.m → ezMinus a Gdx dz k j = .ok (b (π k) - g j - DELTASTAT * shrink S xz j) := by
    intro k j hk hj
    unfold ezMinus
    rw [h.pinv.rd hk, ok_bind_eq, h.Pb.rd (h.perm.lt _ hk), ok_bind_eq, hg.rd (by omega), ok_bind_eq, hz.rd hj]
    rfl
  have hmt : a.mt = S.x.m := by
    unfold SolveArgs.mt
    rw [h.m, hC.nsoc, hmS, hxm]
  rw [h.n, h.p, hmt, hC.nsoc, hC.nexc]
  have hlp : a.C.lpc.p = S.l := hC.l
  refine Ok.bind (fill_ok (g := fun i => b (π (T.n + T.p + i)) - g i + DELTASTAT * xz i) (by rw [hlp]; simp; omega) fun i hi => ?_) fun e1 h1 => ?_
  · rw [hlp] at hi
    rw [hplus _ _ (by omega) (by omega), shrink_lp S xz hi]
  have he1 : e1.size = S.x.m := by rw [h1.size]; simp
  refine Ok.bind (forSoc_xblocks hC (g := fun k j => if j < S.q k - 1 then S.x.block (fun i => b (π (T.n + T.p + i))) k j - S.block g k j + DELTASTAT * S.x.block xz k j
      else if j < S.q k then S.x.block (fun i => b (π (T.n + T.p + i))) k j - S.block g k j - DELTASTAT * S.x.block xz k j else 0) ?_) ?_
  · intro k soc e hk hs hq he _
    have hle := S.start_le hk
    have hlex := S.x.start_le (k := k) hk
    have hxs := S.x_start k
    have hxq : S.x.q k = S.q k + 2 := rfl
    rw [hq]
    refine Ok.bind (fill_ok (g := fun j => if j < S.q k - 1 then S.x.block (fun i => b (π (T.n + T.p + i))) k j - S.block g k j + DELTASTAT * S.x.block xz k j
      else S.x.block (fun i => b (π (T.n + T.p + i))) k j - S.block g k j - DELTASTAT * S.x.block xz k j) (by omega) fun i hi => ?_) fun e2 h2 => ?_
    · have e : T.n + T.p + S.start k + 2 * k + i = T.n + T.p + (S.x.start k + i) := by omega
      rw [e, hplus _ _ (by omega) (by omega), hminus _ _ (by omega) (by omega), shrink_block S xz hk hi]
      split <;> rfl
    · refine Ok.bind (wr_seg (by rw [h2.size]; omega)) fun e3 h3 => ?_
      refine (wr_seg (by rw [h3.size, h2.size]; omega)).mono fun e4 h4 => ?_
      have h5 := (h2.append h3).append (k' := 1) h4
      rw [hxs, hxq]
      refine h5.congr fun j hj => ?_
      have hpos := hC.pos k hk
      split_ifs <;> first | rfl | omega
  · rintro ⟨e5, t⟩ ⟨h5, ht⟩
    simp only at h5 ht ⊢
    subst ht
    have he5 : e5.size = S.x.m := by rw [h5.size, he1]
    refine (fill_ok (g := fun i => b (π (T.n + T.p + (S.x.fexv + i))) - g (S.fexv + i) + DELTASTAT * xz (S.x.fexv + i)) (by omega) fun i hi => ?_).mono fun e6 h6 => ?_
    · rw [hplus _ _ (by omega) (by omega), shrink_exp, show T.n + T.p + S.fexv + 2 * S.ns + i = T.n + T.p + (S.x.fexv + i) by omega]
    · refine ⟨g, hg', (glue_hasE ?_ ?_ ?_).holds (by rw [h6.size, he5])⟩
      · rw [hlp] at h1
        refine h6.has ?_ (Or.inl (by show 0 + S.l ≤ _; omega))
        intro j hj
        have hj' : j < S.l := hj
        rw [h5.outside _ (Or.inl (by show 0 + j < S.l; omega))]
        exact h1.inside j hj
      · intro k hk
        have hle := S.x.start_le (k := k) hk
        exact h6.has (h5.inside k hk) (Or.inl (by omega))
      · intro l hl
        have hl' : l < S.ne := hl
        have := h6.inside.sub (o' := 3 * l) (k' := 3) (by omega)
        rw [← hxf] at this
        refine this.congr fun j hj => ?_
        unfold Shape.eblock
        simp only [Nat.add_assoc]

end generic

end Ecos.Fact
