import Verif.Lemmas.Den

/-!
# Residuals and statistics of an iterate
-/
namespace Ecos

set_option linter.unusedSectionVars false

open Finset

/-- real data of a problem with a given pattern -/
structure Dat where
  a : Nat → ℝ
  g : Nat → ℝ
  c : Nat → ℝ
  b : Nat → ℝ
  h : Nat → ℝ

/-- a homogeneous iterate -/
structure Iter where
  x : Nat → ℝ
  y : Nat → ℝ
  z : Nat → ℝ
  s : Nat → ℝ
  kap : ℝ
  tau : ℝ

/-- the entries of `A` and `G` -/
noncomputable def Dat.A (P : Dat) (T : Pat) (i j : Nat) : ℝ := dense T.jcA T.irA P.a i j
noncomputable def Dat.G (P : Dat) (T : Pat) (i j : Nat) : ℝ := dense T.jcG T.irG P.g i j

/-- `A' y + G' z` -/
noncomputable def adj (P : Dat) (T : Pat) (v : Iter) (j : Nat) : ℝ :=
  ∑ i ∈ range T.p, P.A T i j * v.y i + ∑ i ∈ range T.m, P.G T i j * v.z i

/-- `A x` -/
noncomputable def eqL (P : Dat) (T : Pat) (v : Iter) (i : Nat) : ℝ := ∑ j ∈ range T.n, P.A T i j * v.x j

/-- `G x + s` -/
noncomputable def ineqL (P : Dat) (T : Pat) (v : Iter) (i : Nat) : ℝ :=
  ∑ j ∈ range T.n, P.G T i j * v.x j + v.s i

/-- inner product of the first `n` entries -/
noncomputable def ip (n : Nat) (f g : Nat → ℝ) : ℝ := ∑ i ∈ range n, f i * g i

section generic
variable {F : Type} [Zero F] [One F] [Add F] [Sub F] [Mul F] [Div F] [Neg F] [OfScientific F]
  [IntCast F] [PFloat F]

/-- an optional number -/
def OptD (D : F → ℝ → Prop) (o : Option F) (a : ℝ) : Prop := ∃ v, o = some v ∧ D v a

/-- an optional matrix -/
def RepAD (D : F → ℝ → Prop) (A : Option (SpMat F)) (T : Pat) (a : Nat → ℝ) : Prop :=
  if T.hasA then ∃ M, A = some M ∧ RepD D M T.p T.n T.jcA T.irA a else A = none ∧ T.p = 0

/-- the workspace holds the problem `P` -/
structure ProbIs (D : F → ℝ → Prop) (w : Work F) (T : Pat) (P : Dat) : Prop where
  n : w.n = T.n
  m : w.m = T.m
  p : w.p = T.p
  A : RepAD D w.A T P.a
  G : RepD D w.G T.m T.n T.jcG T.irG P.g
  c : HoldsD D w.c T.n P.c
  b : HoldsD D w.b T.p P.b
  h : HoldsD D w.h T.m P.h

/-- the workspace holds the iterate `v` -/
structure IterIs (D : F → ℝ → Prop) (w : Work F) (T : Pat) (v : Iter) : Prop where
  x : HoldsD D w.x T.n v.x
  y : HoldsD D w.y T.p v.y
  z : HoldsD D w.z T.m v.z
  s : HoldsD D w.s T.m v.s
  kap : OptD D w.kap v.kap
  tau : OptD D w.tau v.tau

/-- the residual arrays have the sizes given to them by set-up -/
structure ResBuf (w : Work F) (T : Pat) : Prop where
  rx : w.rx.size = T.n
  ry : 0 < T.p → ∃ r, w.ry = some r ∧ r.size = T.p
  rz : w.rz.size = T.m

/-- what `computeResiduals` leaves -/
structure ResIs (D : F → ℝ → Prop) (w : Work F) (T : Pat) (P : Dat) (v : Iter) : Prop where
  rx : HoldsD D w.rx T.n fun j => - adj P T v j - v.tau * P.c j
  ry : 0 < T.p → ∃ r, w.ry = some r ∧ HoldsD D r T.p fun i => eqL P T v i - v.tau * P.b i
  rz : HoldsD D w.rz T.m fun i => ineqL P T v i - v.tau * P.h i
  hresx : OptD D w.hresx (nrm T.n (adj P T v))
  hresy : OptD D w.hresy (nrm T.p (eqL P T v))
  hresz : OptD D w.hresz (nrm T.m (ineqL P T v))
  cx : OptD D w.cx (ip T.n P.c v.x)
  bY : OptD D w.bY (ip T.p P.b v.y)
  hz : OptD D w.hz (ip T.m P.h v.z)
  rt : OptD D w.rt (v.kap + ip T.n P.c v.x + ip T.p P.b v.y + ip T.m P.h v.z)
  nx : OptD D w.nx (nrm T.n v.x)
  ny : OptD D w.ny (nrm T.p v.y)
  ns : OptD D w.ns (nrm T.m v.s)
  nz : OptD D w.nz (nrm T.m v.z)

theorem OptD.get {D : F → ℝ → Prop} {o : Option F} {a : ℝ} (h : OptD D o a) :
    ∃ v, get o = .ok v ∧ D v a := by
  obtain ⟨v, rfl, h2⟩ := h
  exact ⟨v, rfl, h2⟩

theorem nrm_neg (n : Nat) (f : Nat → ℝ) : nrm n (fun i => - f i) = nrm n f := by
  unfold nrm
  simp

theorem nrm_congr {n : Nat} {f g : Nat → ℝ} (h : ∀ i, i < n → f i = g i) : nrm n f = nrm n g := by
  unfold nrm
  rw [sum_congr rfl fun i hi => by rw [h i (mem_range.1 hi)]]

variable {D : F → ℝ → Prop} (hD : Den D)
include hD

theorem resMtD {w : Work F} {T : Pat} {P : Dat} {v : Iter} (hP : ProbIs D w T P) (hI : IterIs D w T v)
    (hR : ResBuf w T) : Ok (resMt w) fun r => HoldsD D r T.n fun j => - adj P T v j := by
  unfold resMt
  rw [hP.p]
  by_cases hp : T.p > 0
  · rw [if_pos hp]
    have hA := hP.A
    unfold RepAD at hA
    split at hA
    · obtain ⟨M, hM, hA⟩ := hA
      rw [hM, show deref (some M) = .ok M from rfl, ok_bind_eq]
      refine Ok.bind (sparseMtVmD hD hA hI.y (nv := 1) (yf := fun _ => 0) (by simpa using hR.rx)) fun r hr => ?_
      refine (sparseMtVmD hD hP.G hI.z (nv := 0) (by simpa using hr)).mono fun r' hr' => hr'.congr fun j hj => ?_
      simp only [adj, Dat.A, Dat.G]
      norm_num
      ring
    · omega
  · rw [if_neg hp]
    refine (sparseMtVmD hD hP.G hI.z (nv := 1) (yf := fun _ => 0) (by simpa using hR.rx)).mono
      fun r' hr' => hr'.congr fun j hj => ?_
    simp only [adj, Dat.A, Dat.G]
    rw [show T.p = 0 by omega]
    simp

theorem resEqD {w : Work F} {T : Pat} {P : Dat} {v : Iter} (hP : ProbIs D w T P) (hI : IterIs D w T v)
    (hR : ResBuf w T) {tau : F} (ht : D tau v.tau) : Ok (resEq w tau) fun r =>
      (0 < T.p → ∃ q, r.1 = some q ∧ HoldsD D q T.p fun i => eqL P T v i - v.tau * P.b i) ∧
      D r.2 (nrm T.p (eqL P T v)) := by
  unfold resEq
  rw [hP.p]
  by_cases hp : T.p > 0
  · rw [if_pos hp]
    have hA := hP.A
    unfold RepAD at hA
    split at hA
    · obtain ⟨M, hM, hA⟩ := hA
      obtain ⟨q, hq, hq'⟩ := hR.ry hp
      rw [hM, hq, show deref (some M) = .ok M from rfl, ok_bind_eq, show deref (some q) = .ok q from rfl,
        ok_bind_eq]
      refine Ok.bind (sparseMVD hD hA hI.x (a := 1) (nv := 1) (yf := fun _ => 0) (by simpa using hq')) fun r hr => ?_
      have hr2 : HoldsD D r T.p (eqL P T v) := hr.congr fun i hi => by simp [eqL, Dat.A]
      refine Ok.bind (norm2D hD hr2) fun h hh => ?_
      refine Ok.bind (vsubscaleD hD ht hP.b hr2) fun r' hr' => ?_
      rw [Ok_pure]
      exact ⟨fun _ => ⟨r', rfl, hr'⟩, hh⟩
    · omega
  · rw [if_neg hp, Ok_pure]
    refine ⟨fun h => absurd h hp, ?_⟩
    rw [show T.p = 0 by omega]
    simpa [nrm] using hD.zero

theorem computeResidualsD {w : Work F} {T : Pat} {P : Dat} {v : Iter} (hP : ProbIs D w T P)
    (hI : IterIs D w T v) (hR : ResBuf w T) :
    Ok (computeResiduals w) fun w' => ResIs D w' T P v ∧ ProbIs D w' T P ∧ IterIs D w' T v ∧ ResBuf w' T ∧
      w'.resx0 = w.resx0 ∧ w'.resy0 = w.resy0 ∧ w'.resz0 = w.resz0 ∧ w'.D = w.D ∧ w'.stgs = w.stgs ∧
      w'.info = w.info := by
  obtain ⟨kap, hk, hk'⟩ := hI.kap.get
  obtain ⟨tau, ht, ht'⟩ := hI.tau.get
  unfold computeResiduals residuals
  simp only [bind_assoc]
  refine Ok.bind (resMtD hD hP hI hR) fun rx0 hrx0 => ?_
  rw [hP.n, hP.m, hP.p]
  refine Ok.bind (norm2D hD hrx0) fun hx hhx => ?_
  rw [ht, ok_bind_eq]
  refine Ok.bind (vsubscaleD hD ht' hP.c hrx0) fun rx hrx => ?_
  refine Ok.bind (resEqD hD hP hI hR ht') fun e he => ?_
  refine Ok.bind (sparseMVD hD hP.G hI.x (a := 1) (nv := 1) (yf := fun _ => 0) (by simpa using hR.rz)) fun rz0 h0 => ?_
  refine Ok.bind (vaddD hD hI.s h0) fun rz1 h1 => ?_
  have hz1 : HoldsD D rz1 T.m (ineqL P T v) := h1.congr fun i hi => by simp [ineqL, Dat.G]
  refine Ok.bind (norm2D hD hz1) fun hz hhz => ?_
  refine Ok.bind (vsubscaleD hD ht' hP.h hz1) fun rz hrz => ?_
  rw [pure_bind]
  refine Ok.bind (eddotD hD hP.c hI.x) fun cx hcx => ?_
  refine Ok.bind (P := fun b => D b (ip T.p P.b v.y)) ?_ fun by_ hby => ?_
  · split
    · exact eddotD hD hP.b hI.y
    · rw [Ok_pure, show T.p = 0 by omega]
      simpa [ip] using hD.zero'
  refine Ok.bind (eddotD hD hP.h hI.z) fun hz2 hhz2 => ?_
  rw [hk, ok_bind_eq]
  refine Ok.bind (norm2D hD hI.x) fun nx hnx => ?_
  refine Ok.bind (norm2D hD hI.y) fun ny hny => ?_
  refine Ok.bind (norm2D hD hI.s) fun ns hns => ?_
  refine Ok.bind (norm2D hD hI.z) fun nz hnz => ?_
  rw [Ok_pure]
  rw [nrm_neg] at hhx
  refine ⟨⟨hrx, he.1, hrz, ⟨_, rfl, hhx⟩, ⟨_, rfl, he.2⟩, ⟨_, rfl, hhz⟩, ⟨_, rfl, hcx⟩, ⟨_, rfl, hby⟩,
    ⟨_, rfl, hhz2⟩, ⟨_, rfl, ?_⟩, ⟨_, rfl, hnx⟩, ⟨_, rfl, hny⟩, ⟨_, rfl, hns⟩, ⟨_, rfl, hnz⟩⟩,
    ⟨rfl, rfl, rfl, hP.A, hP.G, hP.c, hP.b, hP.h⟩, ⟨hI.x, hI.y, hI.z, hI.s, hI.kap, hI.tau⟩,
    ⟨hrx.1, fun hp => ?_, hrz.1⟩, rfl, rfl, rfl, rfl, rfl, rfl⟩
  · exact hD.add (hD.add (hD.add hk' hcx) hby) hhz2
  · obtain ⟨q, h1, h2⟩ := he.1 hp
    exact ⟨q, h1, h2.1⟩

/-- the numbers on which the statistics are based -/
structure StatD (D : F → ℝ → Prop) (i : StatIn F) (T : Pat) (P : Dat) (v : Iter) (r0 : ℝ × ℝ × ℝ) : Prop where
  gap : D i.gap (ip T.m v.s v.z)
  nry : D i.nry (nrm T.p fun k => eqL P T v k - v.tau * P.b k)
  nrz : D i.nrz (nrm T.m fun k => ineqL P T v k - v.tau * P.h k)
  nrx : D i.nrx (nrm T.n fun j => adj P T v j + v.tau * P.c j)
  kap : D i.kap v.kap
  tau : D i.tau v.tau
  cx : D i.cx (ip T.n P.c v.x)
  by_ : D i.by_ (ip T.p P.b v.y)
  hz : D i.hz (ip T.m P.h v.z)
  nx : D i.nx (nrm T.n v.x)
  ny : D i.ny (nrm T.p v.y)
  nz : D i.nz (nrm T.m v.z)
  ns : D i.ns (nrm T.m v.s)
  hresx : D i.hresx (nrm T.n (adj P T v))
  hresy : D i.hresy (nrm T.p (eqL P T v))
  hresz : D i.hresz (nrm T.m (ineqL P T v))
  resx0 : D i.resx0 r0.1
  resy0 : D i.resy0 r0.2.1
  resz0 : D i.resz0 r0.2.2

theorem statInD {w : Work F} {T : Pat} {P : Dat} {v : Iter} (hn : w.n = T.n) (hm : w.m = T.m) (hp : w.p = T.p)
    (hI : IterIs D w T v) (hR : ResIs D w T P v) {r0 : ℝ × ℝ × ℝ} (h0 : OptD D w.resx0 r0.1) (h1 : OptD D w.resy0 r0.2.1)
    (h2 : OptD D w.resz0 r0.2.2) : Ok (statIn w) fun i => StatD D i T P v r0 := by
  unfold statIn
  rw [hm, hn, hp]
  obtain ⟨kap, hk, hk'⟩ := hI.kap.get
  obtain ⟨tau, ht, ht'⟩ := hI.tau.get
  obtain ⟨_, g1, g1'⟩ := hR.cx.get
  obtain ⟨_, g2, g2'⟩ := hR.bY.get
  obtain ⟨_, g3, g3'⟩ := hR.hz.get
  obtain ⟨_, g4, g4'⟩ := hR.nx.get
  obtain ⟨_, g5, g5'⟩ := hR.ny.get
  obtain ⟨_, g6, g6'⟩ := hR.nz.get
  obtain ⟨_, g7, g7'⟩ := hR.ns.get
  obtain ⟨_, g8, g8'⟩ := hR.hresx.get
  obtain ⟨_, g9, g9'⟩ := hR.hresy.get
  obtain ⟨_, g10, g10'⟩ := hR.hresz.get
  obtain ⟨_, g11, g11'⟩ := h0.get
  obtain ⟨_, g12, g12'⟩ := h1.get
  obtain ⟨_, g13, g13'⟩ := h2.get
  refine Ok.bind (eddotD hD hI.s hI.z) fun gap hgap => ?_
  simp only [hk, ht, g1, g2, g3, g4, g5, g6, g7, g8, g9, g10, g11, g12, g13, ok_bind_eq]
  refine Ok.bind (P := fun q => D q (nrm T.p fun k => eqL P T v k - v.tau * P.b k)) ?_ fun nry hnry => ?_
  · split
    · rename_i hp
      obtain ⟨q, hq, hq'⟩ := hR.ry hp
      rw [hq, show deref (some q) = .ok q from rfl, ok_bind_eq]
      exact norm2D hD hq'
    · rw [Ok_pure, show T.p = 0 by omega]
      simpa [nrm] using hD.zero'
  refine Ok.bind (norm2D hD hR.rz) fun nrz hnrz => ?_
  refine Ok.bind (norm2D hD hR.rx) fun nrx hnrx => ?_
  rw [Ok_pure]
  refine ⟨hgap, hnry, hnrz, ?_, hk', ht', g1', g2', g3', g4', g5', g6', g7', g8', g9', g10', g11', g12', g13'⟩
  rw [← nrm_neg]
  convert hnrx using 2
  funext j
  ring

/-- the statistics of a pass -/
theorem passHeadD [HasInf F] {w : Work F} {T : Pat} {P : Dat} {v : Iter} (hP : ProbIs D w T P) (hI : IterIs D w T v)
    (hR : ResBuf w T) {r0 : ℝ × ℝ × ℝ} (h0 : OptD D w.resx0 r0.1) (h1 : OptD D w.resy0 r0.2.1)
    (h2 : OptD D w.resz0 r0.2.2) (k : Nat) :
    Ok (passHead w k) fun w' => ∃ i o, StatD D i T P v r0 ∧
      o = statFormulas i T.p (((w.D + 1 : Nat) : Int) : F) w.stgs.reltol ∧
      w'.info.gap = some o.gap ∧ w'.info.mu = some o.mu ∧ w'.info.kapovert = some o.kapovert ∧
      w'.info.pcost = some o.pcost ∧ w'.info.dcost = some o.dcost ∧ w'.info.relgap = some o.relgap ∧
      w'.info.pres = some o.pres ∧ w'.info.dres = some o.dres ∧ w'.info.pinfres = some o.pinfres ∧
      w'.info.dinfres = some o.dinfres ∧ ResIs D w' T P v ∧ ProbIs D w' T P ∧ IterIs D w' T v ∧ ResBuf w' T := by
  unfold passHead
  refine Ok.bind (computeResidualsD (w := { w with info := { w.info with iter := k } }) hD
    ⟨hP.n, hP.m, hP.p, hP.A, hP.G, hP.c, hP.b, hP.h⟩ ⟨hI.x, hI.y, hI.z, hI.s, hI.kap, hI.tau⟩
    ⟨hR.rx, hR.ry, hR.rz⟩) fun w1 hw1 => ?_
  obtain ⟨f1, f2, f3, f4, e1, e2, e3, e4, e5, e6⟩ := hw1
  unfold updateStatistics
  refine Ok.bind (statInD hD f2.n f2.m f2.p f3 f1 (by rw [e1]; exact h0) (by rw [e2]; exact h1)
    (by rw [e3]; exact h2)) fun i hi => ?_
  rw [Ok_pure]
  refine ⟨i, _, hi, rfl, ?_⟩
  simp only [f2.p, e4, e5, true_and]
  exact ⟨⟨f1.rx, f1.ry, f1.rz, f1.hresx, f1.hresy, f1.hresz, f1.cx, f1.bY, f1.hz, f1.rt, f1.nx, f1.ny, f1.ns,
    f1.nz⟩, ⟨f2.n, f2.m, rfl, f2.A, f2.G, f2.c, f2.b, f2.h⟩, ⟨f3.x, f3.y, f3.z, f3.s, f3.kap, f3.tau⟩,
    ⟨f4.rx, f4.ry, f4.rz⟩⟩

end generic
end Ecos
