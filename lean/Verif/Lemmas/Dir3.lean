import Verif.Lemmas.Dir2
import Verif.Lemmas.BB1
import Verif.Lemmas.Line

/-!
# Search directions: what `affineDir` and `combinedDir` leave in memory
-/
namespace Ecos.Dir

open Ecos Finset Ecos.Fact Ecos.Asm

set_option linter.unusedSectionVars false

section generic
variable {F : Type} [Zero F] [One F] [Add F] [Sub F] [Mul F] [Div F] [Neg F] [OfScientific F]
  [IntCast F] [PFloat F]

/-- `W z` on the rows of the linear and second-order cones -/
noncomputable def wF (S : Shape) (V : ConeV F) (z : Nat → F) : Nat → F :=
  glue S (fun i => V.lw i * z i) (fun k => scaleF (S.q k) (V.V k) (S.block z k)) fun _ _ => 0

theorem scale_has {C : Cone F} {S : Shape} {V : ConeV F} (hC : ConeIs C S) (hV : ScalHolds C S V)
    {zb lam : Buf F} {z : Nat → F} (hz : Has zb 0 S.fexv z) (hs : S.fexv ≤ lam.size) :
    Ok (scale zb C lam) fun l => l.size = lam.size ∧ (∀ j, S.fexv ≤ j → l[j]? = lam[j]?) ∧ Has l 0 S.fexv (wF S V z) :=
  (scale_ok hC hV.lw hV.soc hz hs).mono fun _ h => ⟨h.1, h.2.1, glue_has h.2.2.1 h.2.2.2⟩

/-- the workspace of one pass between the factorisation and the update of the variables -/
structure Fac (w : Work F) (T : Pat) (S : Shape) (X : ConeIx) (N : Nat) (π : Nat → Nat) (V : ConeV F) (a g c b h x y z s rx ry rz : Nat → F)
    (ap ai q : Nat → Nat) (ax : Nat → F) (sg : Nat → Int) (eps delta : F) (lf : Nat → Nat → F) (df : Nat → F) : Prop where
  n : w.n = T.n
  p : w.p = T.p
  m : w.m = T.m
  mS : T.m = S.m
  dim : N = T.n + T.p + S.x.m
  wf : ConeWF w.C S X
  scal : ScalHolds w.C S V
  pinv : Holds w.KKT.Pinv N π
  perm : IsPerm N π
  kok : KktOk w.KKT N ap ai ax q sg
  fac : Factored w.KKT N ap ai ax q sg eps delta lf df
  A : RepA w.A T a
  G : Rep w.G T.m T.n T.jcG T.irG g
  c : Holds w.c T.n c
  b : Holds w.b T.p b
  h : Holds w.h T.m h
  x : Holds w.x T.n x
  y : Holds w.y T.p y
  z : Holds w.z T.m z
  s : Holds w.s T.m s
  rx : Holds w.rx T.n rx
  ry : 0 < T.p → ∃ r, w.ry = some r ∧ Holds r T.p ry
  rz : Holds w.rz T.m rz
  r1 : ∃ r, Holds w.KKT.RHS1 N r
  r2 : w.KKT.RHS2.size = N
  x1 : w.KKT.dx1.size = T.n
  x2 : w.KKT.dx2.size = T.n
  y1 : w.KKT.dy1.size = T.p
  y2 : w.KKT.dy2.size = T.p
  z1 : w.KKT.dz1.size = S.m
  z2 : w.KKT.dz2.size = S.m

variable {w : Work F} {T : Pat} {S : Shape} {X : ConeIx} {N : Nat} {π : Nat → Nat} {V : ConeV F} {a g c b h x y z s rx ry rz : Nat → F}
  {ap ai q : Nat → Nat} {ax : Nat → F} {sg : Nat → Int} {eps delta : F} {lf : Nat → Nat → F} {df : Nat → F}

theorem repA_den {A : Option (SpMat F)} (hA : RepA A T a) : RepAD (fun _ _ => True) A T fun _ => 0 := by
  unfold RepA at hA
  unfold RepAD
  split at hA
  · rename_i hh
    rw [if_pos hh]
    obtain ⟨M, e, hM⟩ := hA
    exact ⟨M, e, hM.den fun _ _ => trivial⟩
  · rename_i hh
    rw [if_neg hh]
    exact hA

/-- `kkt_solve` was called in the workspace `w` with the right-hand side `f` and returned `(dx, dy, dz)` -/
def SolvedBy [HasInf F] (w : Work F) (T : Pat) (S : Shape) (N : Nat) (f dx dy dz : Nat → F) : Prop :=
  ∃ rb bx by_ bz k t, Holds rb N f ∧ kktSolve (w.args rb 0) bx by_ bz k = .ok t ∧
    Holds t.1 T.n dx ∧ Holds t.2.1 T.p dy ∧ Holds t.2.2.1 S.m dz

/-- the two workspaces hold the same linear system -/
structure SysOf (w w' : Work F) : Prop where
  A : w.A = w'.A
  G : w.G = w'.G
  K : w.KKT.PKPt = w'.KKT.PKPt
  P : w.KKT.Pinv = w'.KKT.Pinv
  lpc : w.C.lpc = w'.C.lpc
  soc : w.C.soc = w'.C.soc

theorem kktSolve_ok [HasInf F] {sa : SolveArgs F} (hn : sa.n = T.n) (hp : sa.p = T.p) (hm : sa.m = T.m) (hmS : T.m = S.m)
    (hdim : N = T.n + T.p + S.x.m) (hC : ConeIs sa.C S) (hpinv : Holds sa.K.Pinv N π) (hπ : IsPerm N π) (hK : KktOk sa.K N ap ai ax q sg)
    (hF : Factored sa.K N ap ai ax q sg eps delta lf df) (hA : RepA sa.A T a) (hG : Rep sa.G T.m T.n T.jcG T.irG g)
    (hscal : sa.isinit = 0 → ScalHolds sa.C S V) {r : Nat → F} (hb : Holds sa.Pb N r)
    {dx dy dz : Buf F} (h1 : dx.size = T.n) (h2 : dy.size = T.p) (h3 : dz.size = S.m) (nitref : Int) :
    Ok (kktSolve sa dx dy dz nitref) fun r => ∃ fx fy fz : Nat → F, Holds r.1 T.n fx ∧ Holds r.2.1 T.p fy ∧ Holds r.2.2.1 S.m fz := by
  have hS : SysIs (fun _ _ => True) sa S T ⟨fun _ => 0, fun _ => 0, fun _ => 0, fun _ => 0, fun _ => 0⟩ N π r V :=
    ⟨hn, hp, hm, hmS, hdim, hC, hK.n, hpinv, hπ, repA_den hA, hG.den fun _ _ => trivial, hb, hscal⟩
  obtain ⟨ρ, res, hρ⟩ := residual_fun hS
  obtain ⟨Px0, x0, -, -, hk⟩ := refine_ok hS hK hF h1 h2 h3 nitref hρ (fun _ _ => True) (fun _ _ _ _ _ => trivial) fun _ => trivial
  exact hk.mono fun r hr => by
    obtain ⟨-, x, e1, e2, e3, -⟩ := hr
    exact ⟨_, _, _, e1, e2, e3⟩

theorem Fac.solve [HasInf F] (hF : Fac w T S X N π V a g c b h x y z s rx ry rz ap ai q ax sg eps delta lf df) {rb : Buf F} {r : Nat → F}
    (hb : Holds rb N r) {dx dy dz : Buf F} (h1 : dx.size = T.n) (h2 : dy.size = T.p) (h3 : dz.size = S.m) (nitref : Int) :
    Ok (kktSolve (w.args rb 0) dx dy dz nitref) fun r => ∃ fx fy fz : Nat → F, Holds r.1 T.n fx ∧ Holds r.2.1 T.p fy ∧ Holds r.2.2.1 S.m fz :=
  kktSolve_ok (sa := w.args rb 0) hF.n hF.p hF.m hF.mS hF.dim hF.wf.is hF.pinv hF.perm hF.kok hF.fac hF.A hF.G (fun _ => hF.scal) hb h1 h2 h3 nitref

theorem rhsAffine_ok (hF : Fac w T S X N π V a g c b h x y z s rx ry rz ap ai q ax sg eps delta lf df) :
    Ok (rhsAffine w) fun r => ∃ f, Holds r N f ∧ (∀ i, i < T.n → f (π i) = rx i) ∧ (∀ i, i < T.p → f (π (T.n + i)) = -ry i) ∧
      ∀ i, i < S.x.m → f (π (T.n + T.p + i)) = stretchF S (fun i => s i - rz i) i := by
  unfold rhsAffine
  rw [hF.n, hF.p]
  have hdim := hF.dim
  refine Ok.bind ((KQ.start hF.r2).scatter hF.pinv hF.perm (off := 0) (n := T.n) (by omega) (g := rx) fun i hi => hF.rx.rd hi) fun r1 h1 => ?_
  refine Ok.bind (P := fun r => KQ r N π fun x => if T.n ≤ x ∧ x < T.n + T.p then some (-ry (x - T.n)) else if 0 ≤ x ∧ x < 0 + T.n then some (rx (x - 0)) else none) ?_
    fun r2 h2 => ?_
  · split
    · rename_i hp
      obtain ⟨rb, e1, e2⟩ := hF.ry hp
      rw [e1]
      exact h1.scatter hF.pinv hF.perm (g := fun i => -ry i) (by omega) fun i hi => by rw [e2.rd hi]; rfl
    · rw [Ok_pure]
      exact h1.congr fun x _ => if_neg (by omega)
  · refine (stretchRows_ok hF.wf.is hdim hF.pinv hF.perm h2 (g := fun i => s i - rz i) fun i hi => ?_).mono fun r h3 => ?_
    · rw [← hF.mS] at hi
      rw [hF.s.rd hi, ok_bind_eq, hF.rz.rd hi]
      rfl
    · obtain ⟨f, f1, f2⟩ := h3.holds hF.perm (g := fun x => if T.n + T.p ≤ x then stretchF S (fun i => s i - rz i) (x - (T.n + T.p)) else
        if T.n ≤ x ∧ x < T.n + T.p then -ry (x - T.n) else rx x) fun x hx => by
          by_cases c1 : T.n + T.p ≤ x
          · simp [c1]
          · by_cases c2 : T.n ≤ x ∧ x < T.n + T.p
            · simp [c1, c2]
            · simp [c1, c2, show x < T.n by omega]
      refine ⟨f, f1, fun i hi => ?_, fun i hi => ?_, fun i hi => ?_⟩
      · rw [f2 i (by omega), if_neg (by omega), if_neg (by omega)]
      · rw [f2 _ (by omega), if_neg (by omega), if_pos (by omega), Nat.add_sub_cancel_left]
      · rw [f2 _ (by omega), if_pos (by omega), Nat.add_sub_cancel_left]

theorem dots_ok [HasInf F] (hn : w.n = T.n) (hp : w.p = T.p) (hm : w.m = T.m) (hc : Holds w.c T.n c) (hb : Holds w.b T.p b) (hh : Holds w.h T.m h)
    {dx dy dz : Buf F} {fx fy fz : Nat → F} (h1 : Holds dx T.n fx) (h2 : Holds dy T.p fy) (h3 : Holds dz T.m fz) :
    dots w dx dy dz = .ok (BB.dotF T.n c fx, BB.dotF T.p b fy, BB.dotF T.m h fz) := by
  unfold dots
  rw [hn, hp, hm, BB.eddot_gen hc h1, ok_bind_eq, BB.eddot_gen hb h2, ok_bind_eq, BB.eddot_gen hh h3]
  rfl

/-- what the predictor leaves -/
structure AffRes [HasInf F] (w : Work F) (T : Pat) (S : Shape) (N : Nat) (π : Nat → Nat) (c b h s rx ry rz : Nat → F) (V : ConeV F) (lam : Buf F) (l : Nat → F)
    (kap tau rt : F) (P : Pred F) (f1x f1y f1z a2x a2y a2z dza : Nat → F) : Prop where
  lam : P.lam = lam
  eq : P.w = { w with KKT := { w.KKT with RHS2 := P.w.KKT.RHS2, dx1 := P.w.KKT.dx1, dy1 := P.w.KKT.dy1, dz1 := P.w.KKT.dz1,
                                          dx2 := P.w.KKT.dx2, dy2 := P.w.KKT.dy2, dz2 := P.w.KKT.dz2 },
                      info := { w.info with nitref1 := P.w.info.nitref1, nitref2 := P.w.info.nitref2, stepAff := P.w.info.stepAff } }
  sa : ∃ v, P.w.info.stepAff = some v
  x1 : Holds P.w.KKT.dx1 T.n f1x
  y1 : Holds P.w.KKT.dy1 T.p f1y
  z1 : Holds P.w.KKT.dz1 S.m f1z
  x2 : P.w.KKT.dx2.size = T.n
  y2 : P.w.KKT.dy2.size = T.p
  z2 : Holds P.w.KKT.dz2 S.m dza
  r2 : ∃ f, Holds P.w.KKT.RHS2 N f ∧ (∀ i, i < T.n → f (π i) = rx i) ∧ ∀ i, i < T.p → f (π (T.n + i)) = -ry i
  s1 : ∃ f, Holds w.KKT.RHS1 N f ∧ SolvedBy w T S N f f1x f1y f1z
  sa2 : ∃ w0 f, SysOf w0 w ∧ SolvedBy w0 T S N f a2x a2y a2z ∧ (∀ i, i < T.n → f (π i) = rx i) ∧ (∀ i, i < T.p → f (π (T.n + i)) = -ry i) ∧
    ∀ i, i < S.x.m → f (π (T.n + T.p + i)) = stretchF S (fun i => s i - rz i) i
  za : dza = fun i => a2z i + P.dtauaff * f1z i
  dt : P.dtauaff = (rt - kap + BB.dotF T.n c a2x + BB.dotF T.p b a2y + BB.dotF T.m h a2z) / P.denom
  den : P.denom = kap / tau - BB.dotF T.n c f1x - BB.dotF T.p b f1y - BB.dotF T.m h f1z
  dk : P.dkapaff = (-kap) - kap / tau * P.dtauaff
  dsW : P.dsW.size = S.m ∧ Has P.dsW 0 S.fexv fun i => -wF S V dza i - l i
  Wdz : P.Wdz.size = S.m ∧ Has P.Wdz 0 S.fexv (wF S V dza)
  dsaff : ∃ f, Holds P.dsaff S.m f

theorem Has.get0 {b : Buf F} {k i : Nat} {f : Nat → F} (h : Has b 0 k f) (hi : i < k) : b[i]? = some (some (f i)) := by
  have := h i hi
  rwa [Nat.zero_add] at this

theorem cells_has {f : F → F → F} {a b dst : Buf F} {u v : Nat → F} (ha : a.size = S.m) (hb : b.size = S.m) (hd : dst.size = S.m)
    (hu : Has a 0 S.fexv u) (hv : Has b 0 S.fexv v) :
    Ok (cells f a b dst S.m) fun r => r.size = S.m ∧ Has r 0 S.fexv fun i => f (u i) (v i) := by
  have hm : S.m = S.fexv + 3 * S.ne := rfl
  refine (cells_ok ha.ge hb.ge hd).mono fun r hr => ⟨hr.1, fun i hi => ?_⟩
  rw [Nat.zero_add]
  exact hr.2 i _ _ (by omega) (Has.get0 hu hi) (Has.get0 hv hi)

theorem affineDir_ok [HasInf F] (hF : Fac w T S X N π V a g c b h x y z s rx ry rz ap ai q ax sg eps delta lf df) {lam : Buf F} {l : Nat → F}
    (hls : lam.size = S.m) (hl : Has lam 0 S.fexv l) (kap tau rt : F) :
    Ok (affineDir w lam kap tau rt) fun P => ∃ f1x f1y f1z a2x a2y a2z dza,
      AffRes w T S N π c b h s rx ry rz V lam l kap tau rt P f1x f1y f1z a2x a2y a2z dza := by
  have hm : S.m = S.fexv + 3 * S.ne := rfl
  have hmS := hF.mS
  have hC := hF.wf.is
  unfold affineDir
  obtain ⟨r1, hr1⟩ := hF.r1
  refine Ok.bind (hF.solve hr1 hF.x1 hF.y1 hF.z1 _).self ?_
  rintro ⟨bx1, by1, bz1, n1⟩ ⟨⟨f1x, f1y, f1z, hx1, hy1, hz1⟩, hc1⟩
  simp only at hx1 hy1 hz1
  refine Ok.bind (rhsAffine_ok hF) ?_
  rintro rhs ⟨fr, hfr, hfr1, hfr2, hfr3⟩
  refine Ok.bind (hF.solve hfr hF.x2 hF.y2 hF.z2 _).self ?_
  rintro ⟨bx2, by2, bz2, n2⟩ ⟨⟨f2x, f2y, f2z, hx2, hy2, hz2⟩, hc2⟩
  simp only at hx2 hy2 hz2
  simp only
  rw [dots_ok hF.n hF.p hF.m hF.c hF.b hF.h hx1 hy1 (hmS ▸ hz1), ok_bind_eq, dots_ok hF.n hF.p hF.m hF.c hF.b hF.h hx2 hy2 (hmS ▸ hz2), ok_bind_eq]
  simp only
  generalize hdt : (rt - kap + _ + _ + _) / (_ : F) = dtau
  have hwm : w.m = S.m := hF.m.trans hmS
  refine Ok.bind (P := fun r => Holds r S.m fun i => f2z i + dtau * f1z i) (by rw [hwm]; exact axpy_ok hz2 hz1 _) fun bz h3 => ?_
  refine Ok.bind (scale_has hC hF.scal (z := fun i => f2z i + dtau * f1z i) (fun j hj => h3.has0 j (by omega)) (by simp; omega)) ?_
  rintro Wdz ⟨w1, -, w2⟩
  refine Ok.bind (P := fun r => r.size = S.m ∧ Has r 0 S.fexv fun i => -(wF S V fun i => f2z i + dtau * f1z i) i - l i)
    (by rw [hwm]; exact cells_has (f := fun a b => (-a) - b) (by rw [w1]; simp [hwm]) hls (by simp) w2 hl) ?_
  rintro dsW ⟨d1, d2⟩
  refine Ok.bind (lineSearch_ok hC hl d2 w2 _ _ _ _) fun sa _ => ?_
  refine Ok.bind (scale_has hC hF.scal d2 (by simp; omega)) ?_
  rintro ds ⟨s1, -, s2⟩
  refine Ok.bind (P := fun r => r.size = S.m ∧ (∀ j, j < S.fexv → r[j]? = ds[j]?) ∧ ExpFull S r)
    (by rw [hwm]; exact expDs_ok hC hF.scal (by rw [s1]; simp [hwm]) h3) ?_
  rintro ds' ⟨t1, t2, t3⟩
  refine Ok.bind (P := fun r => r.size = S.m ∧ (∀ j, j < S.fexv → r[j]? = ds'[j]?) ∧ ExpFull S r)
    (by rw [hC.fexv, hwm]; exact negSub_ok t1 t3 (hmS ▸ hF.s)) ?_
  rintro ds'' ⟨u1, u2, u3⟩
  rw [Ok_pure]
  have hds : ∃ f, Holds ds'' S.m f := by
    obtain ⟨f, hf, -⟩ := holds_of_two u1 (f := wF S V fun i => -(wF S V fun i => f2z i + dtau * f1z i) i - l i) (fun i hi => by
      rw [Nat.zero_add, u2 i hi, t2 i hi]
      exact Has.get0 s2 hi) u3
    exact ⟨f, hf⟩
  exact ⟨f1x, f1y, f1z, f2x, f2y, f2z, _, ⟨rfl, rfl, ⟨_, rfl⟩, hx1, hy1, hz1, hx2.size, hy2.size, h3, ⟨fr, hfr, hfr1, hfr2⟩,
    ⟨r1, hr1, _, _, _, _, _, _, hr1, hc1, hx1, hy1, hz1⟩, ⟨w, fr, ⟨rfl, rfl, rfl, rfl, rfl, rfl⟩, ⟨_, _, _, _, _, _, hfr, hc2, hx2, hy2, hz2⟩, hfr1, hfr2, hfr3⟩,
    rfl, hdt.symm, rfl, rfl, ⟨d1, d2⟩, ⟨by rw [w1]; simp [hwm], w2⟩, hds⟩⟩

/-- the cone product on the rows of the symmetric cones -/
noncomputable def prodF (S : Shape) (u v : Nat → F) : Nat → F :=
  glue S (fun i => u i * v i) (fun k => socProdF (S.q k) (S.block u k) (S.block v k)) fun _ _ => 0

/-- the cone division on the rows of the symmetric cones: `l \\ d` -/
noncomputable def divF (S : Shape) (l d : Nat → F) : Nat → F :=
  glue S (fun i => safedivPos (d i) (l i)) (fun k => socDivF (S.q k) (S.block l k) (S.block d k)) fun _ _ => 0

/-- the right-hand side of the complementarity equation -/
noncomputable def compF (S : Shape) (l ds dz : Nat → F) (t : F) : Nat → F := centerF S (prodF S l l) (prodF S ds dz) t

theorem wF_congr {V V' : ConeV F} (h1 : V'.lw = V.lw) (h2 : V'.V = V.V) (z : Nat → F) : wF S V' z = wF S V z := by
  unfold wF
  rw [h1, h2]

theorem rhsCombined_ok (hF : Fac w T S X N π V a g c b h x y z s rx ry rz ap ai q ax sg eps delta lf df) {lam dsW Wdz : Buf F} {l fs fz f2 : Nat → F}
    (hr : Holds w.KKT.RHS2 N f2) (hl : Has lam 0 S.fexv l) (hs : Has dsW 0 S.fexv fs) (hss : dsW.size = S.m) (hz : Has Wdz 0 S.fexv fz)
    (sigma mu : F) :
    Ok (rhsCombined w lam dsW Wdz sigma mu) fun r => r.2.1.size = S.m ∧
      Has r.2.1 0 S.fexv (divF S l (compF S l fs fz (sigma * mu))) ∧
      (∃ f g, Holds r.1 N f ∧ (∀ i, i < T.n + T.p → f (π i) = f2 (π i) * (1.0 - sigma)) ∧
        (∀ i, i < S.x.m → f (π (T.n + T.p + i)) = stretchF S g i) ∧
        ∀ i, i < S.fexv → g i = (-(1.0 - sigma)) * rz i + wF S V (divF S l (compF S l fs fz (sigma * mu))) i) ∧
      ConeWF r.2.2 S X ∧ r.2.2.lpc = w.C.lpc ∧ r.2.2.soc = w.C.soc ∧
      ∃ V', ScalHolds r.2.2 S V' ∧ V'.lw = V.lw ∧ V'.lv = V.lv ∧ V'.V = V.V ∧ V'.ev = V.ev := by
  have hm : S.m = S.fexv + 3 * S.ne := rfl
  have hxm := Shape.x_m S
  have hC := hF.wf.is
  have hdim := hF.dim
  unfold rhsCombined
  rw [hF.kok.n]
  refine Ok.bind (conicProduct_ok hC hl hl (by simp; omega)) ?_
  rintro ds1 ⟨a1, -, a2, a3, -⟩
  have h1 : Has ds1.1 0 S.fexv (prodF S l l) := glue_has a2 a3
  refine Ok.bind (conicProduct_ok hC hs hz (by simp; omega)) ?_
  rintro ds2 ⟨b1, -, b2, b3, -⟩
  have h2 : Has ds2.1 0 S.fexv (prodF S fs fz) := glue_has b2 b3
  refine Ok.bind (addCentering_ok hC h1 (by rw [a1]; simp; omega) h2 _) ?_
  rintro ds ⟨c1, c2⟩
  refine Ok.bind (conicDivision_ok hC hl c2 (by rw [hss]; omega)) ?_
  rintro dw ⟨d1, -, d2, d3⟩
  have h3 : Has dw 0 S.fexv (divF S l (compF S l fs fz (sigma * mu))) := glue_has d2 d3
  generalize divF S l (compF S l fs fz (sigma * mu)) = u at h3 ⊢
  refine Ok.bind (scale_has hC hF.scal h3 (by rw [c1, a1]; simp; omega)) ?_
  rintro dS ⟨-, -, e1⟩
  rw [hF.n, hF.p]
  refine Ok.bind (loop_ok (fun t r => KQ r N π fun x => some (if x < t then f2 (π x) * (1.0 - sigma) else f2 (π x))) (Nat.zero_le _)
    ((KQ.ofHolds hr hF.perm).congr fun x _ => by simp) ?_ fun _ h => h) fun r h4 => ?_
  · intro i r _ hi h4
    rw [hF.pinv.rd (by omega), ok_bind_eq]
    have hv : rd r (π i) = .ok (f2 (π i)) := by
      obtain ⟨g', g1, g2⟩ := h4.holds hF.perm (g := fun x => if x < i then f2 (π x) * (1.0 - sigma) else f2 (π x)) fun x _ => rfl
      rw [g1.rd (hF.perm.lt i (by omega)), g2 i (by omega), if_neg (by omega)]
    rw [hv, ok_bind_eq]
    refine (h4.wr hF.perm (by omega) _).mono fun r' h5 => h5.congr fun x _ => ?_
    by_cases e : x = i
    · rw [if_pos e, if_pos (by omega), e]
    · rw [if_neg e]
      by_cases e' : x < i
      · rw [if_pos e', if_pos (by omega)]
      · rw [if_neg e', if_neg (by omega)]
  · refine Ok.bind (expCentering_ok hF.wf hF.scal (hF.mS ▸ hF.s) _) ?_
    rintro C' ⟨g1, g2, g3, V', g4, g5, g6, g7, g8⟩
    refine Ok.bind (stretchRows_ok g1.is hdim hF.pinv hF.perm h4
      (g := fun i => if i < S.fexv then (-(1.0 - sigma)) * rz i + wF S V u i else
        (-(1.0 - sigma)) * rz i + V'.eg ((i - S.fexv) / 3) ((i - S.fexv) % 3)) fun i hi => ?_) fun r' h5 => ?_
    · unfold combRow
      rw [hF.rz.rd (by rw [hF.mS]; exact hi), ok_bind_eq, g1.is.fexv]
      by_cases c : i < S.fexv
      · rw [if_pos c, if_pos c]
        have := e1.rd c
        rw [Nat.zero_add] at this
        rw [this]
        rfl
      · rw [if_neg c, if_neg c]
        have hlt : (i - S.fexv) / 3 < S.ne := by omega
        obtain ⟨e, he⟩ : ∃ e, C'.expc[(i - S.fexv) / 3]? = some e := ⟨_, Array.getElem?_eq_getElem (by rw [g1.is.esize]; exact hlt)⟩
        rw [getIdx_some he, ok_bind_eq, (g4.eg _ e hlt he).rd (by omega)]
        rfl
    · rw [Ok_pure]
      obtain ⟨f, k1, k2⟩ := h5.holds hF.perm (g := fun x => if T.n + T.p ≤ x then stretchF S (fun i => if i < S.fexv then (-(1.0 - sigma)) * rz i + wF S V u i else
        (-(1.0 - sigma)) * rz i + V'.eg ((i - S.fexv) / 3) ((i - S.fexv) % 3)) (x - (T.n + T.p)) else f2 (π x) * (1.0 - sigma)) fun x hx => by
          by_cases c1 : T.n + T.p ≤ x
          · simp [c1]
          · simp [c1, show x < T.n + T.p by omega]
      refine ⟨d1.trans hss, h3, ⟨f, fun i => if i < S.fexv then (-(1.0 - sigma)) * rz i + wF S V u i else
        (-(1.0 - sigma)) * rz i + V'.eg ((i - S.fexv) / 3) ((i - S.fexv) % 3), k1, fun i hi => ?_, fun i hi => ?_, fun i hi => if_pos hi⟩, g1, g2, g3, V', g4, g5, g6, g7, g8⟩
      · rw [k2 i (by omega), if_neg (by omega)]
      · rw [k2 _ (by omega), if_pos (by omega), Nat.add_sub_cancel_left]

/-- what the corrector leaves -/
structure CombRes [HasInf F] (w : Work F) (T : Pat) (S : Shape) (X : ConeIx) (N : Nat) (π : Nat → Nat) (V : ConeV F) (c b h rx ry rz : Nat → F) (l dza f1x f1y f1z : Nat → F)
    (P : Pred F) (kap tau rt mu sigma : F) (R : Corr F) (e2x e2y e2z u ds : Nat → F) : Prop where
  eq : R.w = { P.w with C := R.w.C, KKT := { P.w.KKT with RHS2 := R.w.KKT.RHS2, dx2 := R.w.KKT.dx2, dy2 := R.w.KKT.dy2, dz2 := R.w.KKT.dz2 },
                        info := { P.w.info with nitref3 := R.w.info.nitref3, step := R.w.info.step } }
  cone : ConeWF R.w.C S X
  lpc : R.w.C.lpc = P.w.C.lpc
  soc : R.w.C.soc = P.w.C.soc
  scal : ∃ V', ScalHolds R.w.C S V' ∧ V'.lw = V.lw ∧ V'.lv = V.lv ∧ V'.V = V.V ∧ V'.ev = V.ev
  step : R.w.info.step = some (lineF S l (fun i => -(u i + wF S V (fun i => e2z i + R.dtau * f1z i) i)) (wF S V fun i => e2z i + R.dtau * f1z i)
    tau R.dtau kap R.dkap * P.w.stgs.gamma)
  x2 : Holds R.w.KKT.dx2 T.n fun i => e2x i + R.dtau * f1x i
  y2 : Holds R.w.KKT.dy2 T.p fun i => e2y i + R.dtau * f1y i
  z2 : Holds R.w.KKT.dz2 S.m fun i => e2z i + R.dtau * f1z i
  r2 : ∃ f g, Holds R.w.KKT.RHS2 N f ∧ (∀ i, i < T.n → f (π i) = rx i * (1.0 - sigma)) ∧ (∀ i, i < T.p → f (π (T.n + i)) = -ry i * (1.0 - sigma)) ∧
    (∀ i, i < S.x.m → f (π (T.n + T.p + i)) = stretchF S g i) ∧
    (∀ i, i < S.fexv → g i = (-(1.0 - sigma)) * rz i + wF S V u i) ∧ ∃ w0, SysOf w0 w ∧ SolvedBy w0 T S N f e2x e2y e2z
  ueq : u = divF S l (compF S l (fun i => -wF S V dza i - l i) (wF S V dza) (sigma * mu))
  dt : R.dtau = ((1 - sigma) * rt - (kap * tau + P.dkapaff * P.dtauaff - sigma * mu) / tau + BB.dotF T.n c e2x + BB.dotF T.p b e2y + BB.dotF T.m h e2z) / P.denom
  dk : R.dkap = (-((kap * tau + P.dkapaff * P.dtauaff - sigma * mu) + kap * R.dtau)) / tau
  dsH : Holds R.ds S.m ds
  dsW : ∀ i, i < S.fexv → ds i = wF S V (fun i => -(u i + wF S V (fun i => e2z i + R.dtau * f1z i) i)) i

theorem combinedDir_ok [HasInf F] (hF : Fac w T S X N π V a g c b h x y z s rx ry rz ap ai q ax sg eps delta lf df) {lam : Buf F} {l : Nat → F}
    (hl : Has lam 0 S.fexv l) {P : Pred F} {f1x f1y f1z a2x a2y a2z dza : Nat → F} {kap tau rt : F}
    (hP : AffRes w T S N π c b h s rx ry rz V lam l kap tau rt P f1x f1y f1z a2x a2y a2z dza) (i' : Stats F) (mu sigma : F) :
    Ok (combinedDir { P with w := { P.w with info := i' } } kap tau rt mu sigma) fun R => ∃ e2x e2y e2z u ds,
      CombRes w T S X N π V c b h rx ry rz l dza f1x f1y f1z { P with w := { P.w with info := i' } } kap tau rt mu sigma R e2x e2y e2z u ds := by
  have hm : S.m = S.fexv + 3 * S.ne := rfl
  have hmS := hF.mS
  obtain ⟨f2, hr2, hr2x, hr2y⟩ := hP.r2
  obtain ⟨fds, hfds⟩ := hP.dsaff
  obtain ⟨r1, hr1⟩ := hF.r1
  have hFP : Fac { P.w with info := i' } T S X N π V a g c b h x y z s rx ry rz ap ai q ax sg eps delta lf df := by
    have e := hP.eq
    have hk := hF.kok
    have hf := hF.fac
    rw [e]
    exact ⟨hF.n, hF.p, hF.m, hF.mS, hF.dim, hF.wf, hF.scal, hF.pinv, hF.perm, ⟨hk.n, hk.pat, hk.tree, hk.jc, hk.ir, hk.pr, hk.lp, hk.lir, hk.lpr, hk.par, hk.sign⟩,
      ⟨hf.st, hf.d, hf.lnz, hf.row⟩, hF.A, hF.G, hF.c, hF.b, hF.h, hF.x, hF.y, hF.z, hF.s, hF.rx, hF.ry, hF.rz, ⟨r1, hr1⟩, hr2.size,
      hP.x1.size, hP.x2, hP.y1.size, hP.y2, hP.z1.size, hP.z2.size⟩
  generalize hw' : ({ P.w with info := i' } : Work F) = w' at hFP
  have hx1 : Holds w'.KKT.dx1 T.n f1x := by rw [← hw']; exact hP.x1
  have hy1 : Holds w'.KKT.dy1 T.p f1y := by rw [← hw']; exact hP.y1
  have hz1 : Holds w'.KKT.dz1 S.m f1z := by rw [← hw']; exact hP.z1
  have hr2' : Holds w'.KKT.RHS2 N f2 := by rw [← hw']; exact hr2
  unfold combinedDir
  simp only
  rw [hP.lam]
  refine Ok.bind (rhsCombined_ok hFP hr2' hl hP.dsW.2 hP.dsW.1 hP.Wdz.2 sigma mu) ?_
  rintro ⟨rb, dw, C'⟩ ⟨d1, d2, ⟨fr, g, k1, k2, k3, k4⟩, c1, c2, c3, V', c4, c5, c6, c7, c8⟩
  simp only at d1 d2 k1 k2 k3 k4 c1 c2 c3 c4
  have hk := hFP.kok
  have hf := hFP.fac
  refine Ok.bind (kktSolve_ok (sa := Work.args { w' with C := C', KKT := { w'.KKT with RHS2 := rb } } rb 0) (V := V') hFP.n hFP.p hFP.m hFP.mS hFP.dim c1.is hFP.pinv hFP.perm
    ⟨hk.n, hk.pat, hk.tree, hk.jc, hk.ir, hk.pr, hk.lp, hk.lir, hk.lpr, hk.par, hk.sign⟩ ⟨hf.st, hf.d, hf.lnz, hf.row⟩ hFP.A hFP.G (fun _ => c4) k1 hFP.x2 hFP.y2 hFP.z2 _).self ?_
  rintro ⟨bx2, by2, bz2, n2⟩ ⟨⟨e2x, e2y, e2z, hx2, hy2, hz2⟩, hc2⟩
  simp only at hx2 hy2 hz2
  simp only
  rw [dots_ok (w := { w' with C := C', KKT := { w'.KKT with RHS2 := rb } }) hFP.n hFP.p hFP.m hFP.c hFP.b hFP.h hx2 hy2 (hmS ▸ hz2), ok_bind_eq]
  simp only
  generalize hdt : ((1 - sigma) * rt - (kap * tau + P.dkapaff * P.dtauaff - sigma * mu) / tau + BB.dotF T.n c e2x + BB.dotF T.p b e2y + BB.dotF T.m h e2z) / P.denom = dtau
  have hwm : w'.m = S.m := hFP.m.trans hmS
  refine Ok.bind (P := fun r => Holds r T.n fun i => e2x i + dtau * f1x i) (by rw [hFP.n]; exact axpy_ok hx2 hx1 _) fun bx hx3 => ?_
  refine Ok.bind (P := fun r => Holds r T.p fun i => e2y i + dtau * f1y i) (by rw [hFP.p]; exact axpy_ok hy2 hy1 _) fun by_ hy3 => ?_
  refine Ok.bind (P := fun r => Holds r S.m fun i => e2z i + dtau * f1z i) (by rw [hwm]; exact axpy_ok hz2 hz1 _) fun bz hz3 => ?_
  generalize hu : divF S l (compF S l (fun i => -wF S V dza i - l i) (wF S V dza) (sigma * mu)) = u at d2 k4
  refine Ok.bind (scale_has c1.is c4 (z := fun i => e2z i + dtau * f1z i) (fun j hj => hz3.has0 j (by omega)) (by rw [hP.Wdz.1]; omega)) ?_
  rintro Wdz ⟨w1, -, w2⟩
  rw [wF_congr c5 c7] at w2
  refine Ok.bind (P := fun r => r.size = S.m ∧ Has r 0 S.fexv fun i => -(u i + wF S V (fun i => e2z i + dtau * f1z i) i))
    (by rw [hwm]; exact cells_has (f := fun a b => -(a + b)) d1 (by rw [w1]; exact hP.Wdz.1) d1 d2 w2) ?_
  rintro dsW ⟨s1, s2⟩
  rw [lineSearch_eq c1.is hl s2 w2, ok_bind_eq]
  refine Ok.bind (scale_has c1.is c4 s2 (by rw [hfds.size]; omega)) ?_
  rintro ds ⟨t1, -, t2⟩
  rw [wF_congr c5 c7] at t2
  refine Ok.bind (P := fun r => r.size = S.m ∧ (∀ j, j < S.fexv → r[j]? = ds[j]?) ∧ ExpFull S r)
    (by rw [hwm]; exact expDs_ok c1.is c4 (by rw [t1]; exact hfds.size) hz3) ?_
  rintro ds' ⟨u1, u2, u3⟩
  refine Ok.bind (expDsFinal_ok c1.is c4 u1 u3) ?_
  rintro ds'' ⟨v1, v2, v3⟩
  rw [Ok_pure]
  obtain ⟨fd, hfd, hfd'⟩ := holds_of_two v1 (f := wF S V fun i => -(u i + wF S V (fun i => e2z i + dtau * f1z i) i)) (fun i hi => by
      rw [Nat.zero_add, v2 i hi, u2 i hi]
      exact Has.get0 t2 hi) v3
  refine ⟨e2x, e2y, e2z, u, fd, ⟨rfl, c1, c2, c3, ⟨V', c4, c5, c6, c7, c8⟩, by rw [← hw'], hx3, hy3, hz3,
    ⟨fr, g, k1, fun i hi => ?_, fun i hi => ?_, k3, k4, _, ?_, _, _, _, _, _, _, k1, hc2, hx2, hy2, hz2⟩, hu.symm, hdt.symm, rfl, hfd, hfd'⟩⟩
  · rw [k2 i (by omega), hr2x i hi]
  · rw [k2 _ (by omega), hr2y i hi]
  · have e := hP.eq
    rw [← hw'] at c2 c3 ⊢
    refine ⟨?_, ?_, ?_, ?_, c2.trans ?_, c3.trans ?_⟩ <;> dsimp only <;> rw [e]

end generic
end Ecos.Dir
