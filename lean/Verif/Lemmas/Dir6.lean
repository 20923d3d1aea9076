import Verif.Lemmas.Dir5
import Verif.Lemmas.Exp2
import Verif.Spec.Solve

/-!
# Memory safety of a whole solve
-/
namespace Ecos.Dir

open Ecos Finset Ecos.Fact Ecos.Asm

set_option linter.unusedSectionVars false

section generic
variable {F : Type} [Zero F] [One F] [Add F] [Sub F] [Mul F] [Div F] [Neg F] [OfScientific F]
  [IntCast F] [PFloat F] [HasInf F] {T : Pat} {S : Shape} {amd : Nat → Buf Nat → Buf Nat → Option (Buf Nat)}

theorem holdsD_ex {D : F → ℝ → Prop} {b : Buf F} {n : Nat} {f : Nat → ℝ} (h : HoldsD D b n f) : ∃ g, Holds b n g := by
  obtain ⟨g, hg⟩ := has_of_cells (b := b) (off := 0) (k := n) fun j hj => by
    obtain ⟨v, hv, -⟩ := h.2 j hj
    exact ⟨v, by rw [Nat.zero_add]; exact hv⟩
  exact ⟨g, h.1, fun i hi => Has.get0 hg hi⟩

theorem optD_ex {D : F → ℝ → Prop} {o : Option F} {v : ℝ} (h : OptD D o v) : ∃ u, o = some u := by
  obtain ⟨u, h, -⟩ := h
  exact ⟨u, h⟩

/-! ### The starting point -/

theorem resScale_ok {v : Buf F} {n : Nat} {f : Nat → F} (h : Holds v n f) : Ok (resScale v n) fun _ => True := by
  unfold resScale
  refine Ok.bind (norm2D denTrue (h.den (f := fun _ => 0) fun _ _ => trivial)) fun r _ => ?_
  rw [Ok_pure]
  trivial

theorem initRhs_ok {w : Work F} {a g c b h xe ye ze : Nat → F} {π ai q : Nat → Nat} {ax : Nat → F} {sg : Nat → Int}
    (hl : Live amd w T S a g c b h xe ye ze π ai q ax sg) (hP : PatGood T S) :
    Ok (initRhs w) fun r => (∃ f, Holds r.1 (partsOf T S a g).N f ∧ (∀ i, i < T.p → f (π (T.n + i)) = b i) ∧
        ∀ i, i < S.x.m → f (π (T.n + T.p + i)) = stretchF S h i) ∧
      ∃ f, Holds r.2 (partsOf T S a g).N f := by
  have hsz := hl.sz
  have hm := hl.made
  have hd := hl.data
  have hmS : T.m = S.m := hP.m.symm
  have hdim : (partsOf T S a g).N = T.n + T.p + S.x.m := rfl
  unfold initRhs
  rw [hsz.n, hsz.p]
  refine Ok.bind ((KQ.start hm.r1).scatter hm.pinv hm.perm (off := 0) (n := T.n) (by omega) (g := fun _ => 0) fun i hi => rfl) fun r1 h1 => ?_
  refine Ok.bind (h1.scatter hm.pinv hm.perm (off := T.n) (n := T.p) (by omega) fun i hi => hd.b.rd hi) fun r2 h2 => ?_
  refine Ok.bind (stretchRows_ok hl.cone.is hdim hm.pinv hm.perm h2 (g := h) fun i hi => hd.h.rd (by omega)) fun r3 h3 => ?_
  refine Ok.bind ((KQ.start hm.r2).scatter hm.pinv hm.perm (off := 0) (n := T.n) (by omega) (g := fun i => -c i) fun i hi => by rw [hd.c.rd hi]; rfl) fun r4 h4 => ?_
  rw [show w.KKT.PKPt.n = (partsOf T S a g).N from hm.ok.n]
  refine Ok.bind (h4.scatter hm.pinv hm.perm (off := T.n) (n := (partsOf T S a g).N - T.n) (by omega) (g := fun _ => 0) fun i hi => rfl) fun r5 h5 => ?_
  rw [Ok_pure]
  constructor
  · obtain ⟨f, f1, f2⟩ := h3.holds hm.perm (g := fun x => if T.n + T.p ≤ x then stretchF S h (x - (T.n + T.p)) else
        if T.n ≤ x then b (x - T.n) else 0) fun x hx => by
      by_cases c1 : T.n + T.p ≤ x
      · simp [c1]
      · by_cases c2 : T.n ≤ x
        · simp [c1, c2, show x < T.n + T.p by omega]
        · simp [c1, c2, show x < T.n by omega]
    refine ⟨f, f1, fun i hi => ?_, fun i hi => ?_⟩
    · rw [f2 _ (by omega), if_neg (by omega), if_pos (by omega), Nat.add_sub_cancel_left]
    · rw [f2 _ (by omega), if_pos (by omega), Nat.add_sub_cancel_left]
  · obtain ⟨f, f1, -⟩ := h5.holds hm.perm (g := fun x => if T.n ≤ x then 0 else -c x) fun x hx => by
      by_cases c2 : T.n ≤ x
      · simp [c2, show x < T.n + ((partsOf T S a g).N - T.n) by omega]
      · simp [c2, show x < T.n by omega]
    exact ⟨f, f1⟩

/-- no scaling -/
def V0 : ConeV F := ⟨fun _ => 0, fun _ => 0, fun _ => ⟨0, 0, 0, 0, 0, 0, 0, 0, fun _ => 0⟩, fun _ _ => 0, fun _ _ => 0⟩

theorem bring_holds {C : Cone F} (hC : ConeIs C S) (h0 : S.ne = 0) {b s : Buf F} {r : Nat → F} (h : Has b 0 S.m r) (hs : s.size = S.m) :
    Ok (bring2cone C b s) fun s' => ∃ f, Holds s' S.m f := by
  have hm : S.m = S.fexv := by
    have : S.m = S.fexv + 3 * S.ne := rfl
    omega
  rw [hm] at h hs ⊢
  refine (bring2cone_eq hC h (by omega)).mono fun s' h' => ?_
  have := glue_has (e := fun _ _ => (0 : F)) h'.2.2.1 h'.2.2.2
  exact ⟨_, this.holds (by rw [h'.1, hs])⟩

/-- how the slacks and multipliers of the first iterate were made: moved into the cones, or set to the unit point -/
structure StartPt (S : Shape) (w : Work F) : Prop where
  pt : (S.ne = 0 ∧ (∃ C b b0 r, ConeIs (F := F) C S ∧ Has b 0 S.m r ∧ b0.size = S.m ∧ bring2cone C b b0 = .ok w.s) ∧
      ∃ C b b0 r, ConeIs (F := F) C S ∧ Has b 0 S.m r ∧ b0.size = S.m ∧ bring2cone C b b0 = .ok w.z) ∨
    ∃ C s0 z0, ConeIs (F := F) C S ∧ s0.size = S.m ∧ z0.size = S.m ∧ unitInitialization C s0 z0 1.0 = .ok (w.s, w.z)

theorem initMehrotra_ok (hP : PatGood T S) {w : Work F} {a g c b h xe ye ze : Nat → F} {π ai q : Nat → Nat} {ax : Nat → F} {sg : Nat → Int}
    (hl : Live amd w T S a g c b h xe ye ze π ai q ax sg) (h0 : S.ne = 0) {f1 f2 : Nat → F} (hr1 : Holds w.KKT.RHS1 (partsOf T S a g).N f1)
    (hr2 : Holds w.KKT.RHS2 (partsOf T S a g).N f2) :
    Ok (initMehrotra w) fun o => o.2 = true ∧ Live amd o.1 T S a g c b h xe ye ze π ai q ax sg ∧
      (∃ f, Holds o.1.x T.n f) ∧ (∃ f, Holds o.1.y T.p f) ∧ (∃ f, Holds o.1.z T.m f) ∧ (∃ f, Holds o.1.s T.m f) ∧
      o.1.KKT.RHS1 = w.KKT.RHS1 ∧ o.1.stgs = w.stgs ∧ o.1.resx0 = w.resx0 ∧ o.1.resy0 = w.resy0 ∧ o.1.resz0 = w.resz0 ∧ (Best w T → Best o.1 T) ∧ StartPt S o.1 := by
  have hsz := hl.sz
  have hm := hl.made
  have hmS : T.m = S.m := hP.m.symm
  have hdim : (partsOf T S a g).N = T.n + T.p + S.x.m := rfl
  have hmx : S.m ≤ S.x.m := by
    rw [Shape.x_m S]
    omega
  unfold initMehrotra
  refine Ok.bind (kktFactor_ok (eps := w.stgs.eps) (delta := w.stgs.delta) hm.ok).self fun f hf => ?_
  obtain ⟨⟨e1, e2, ⟨lf, df, e3⟩, e4⟩, e5⟩ := hf
  obtain ⟨fs1, fs2, fs3⟩ := kktFactor_size e5
  rw [if_neg (by rw [e1]; simp)]
  have ePinv : f.1.Pinv = w.KKT.Pinv := by rw [e4]
  have ePK : f.1.PK = w.KKT.PK := by rw [e4]
  have ePt : f.1.PKPt = w.KKT.PKPt := by rw [e4]
  have er1 : f.1.RHS1 = w.KKT.RHS1 := by rw [e4]
  have er2 : f.1.RHS2 = w.KKT.RHS2 := by rw [e4]
  have ex1 : f.1.dx1.size = T.n := by rw [e4]; exact hm.x1
  have ex2 : f.1.dx2.size = T.n := by rw [e4]; exact hm.x2
  have ey1 : f.1.dy1.size = T.p := by rw [e4]; exact hm.y1
  have ey2 : f.1.dy2.size = T.p := by rw [e4]; exact hm.y2
  have ez1 : f.1.dz1.size = S.m := by rw [e4]; exact hm.z1
  have ez2 : f.1.dz2.size = S.m := by rw [e4]; exact hm.z2
  have hpinv : Holds f.1.Pinv (partsOf T S a g).N π := by rw [ePinv]; exact hm.pinv
  have hN : f.1.PKPt.n = (partsOf T S a g).N := by rw [ePt]; exact hm.ok.n
  refine Ok.bind (kktSolve_ok (sa := ({ w with KKT := f.1 } : Work F).args f.1.RHS1 1) (V := V0) hsz.n hsz.p hsz.m hmS hdim hl.cone.is hpinv hm.perm e2 e3
    hl.data.A hl.data.G (fun h => absurd (show (1 : Int) = 0 from h) (by decide)) (by rw [er1]; exact hr1) ex1 ey1 ez1 w.stgs.nitref) fun r hr => ?_
  obtain ⟨fx, fy, fz, k1, k2, k3⟩ := hr
  refine Ok.bind (P := fun x => Holds x T.n fx) (by rw [hsz.n]; exact fill_holds hsz.x fun i hi => k1.rd hi) fun x hx => ?_
  refine Ok.bind (P := fun nr => Has nr 0 S.m fun i => -fz i) ?_ fun nr hnr => ?_
  · rw [hN, hsz.m, hmS]
    refine (fill_ok (g := fun i => -fz i) (by rw [malloc_size, hdim]; omega) fun i hi => by rw [k3.rd hi]; rfl).mono fun nr h => h.inside
  refine Ok.bind (bring_holds hl.cone.is h0 hnr (by rw [hsz.s, hmS])).self fun s hs => ?_
  refine Ok.bind (kktSolve_ok (sa := ({ w with KKT := f.1 } : Work F).args f.1.RHS2 1) (V := V0) hsz.n hsz.p hsz.m hmS hdim hl.cone.is hpinv hm.perm e2 e3
    hl.data.A hl.data.G (fun h => absurd (show (1 : Int) = 0 from h) (by decide)) (by rw [er2]; exact hr2) ex2 ey2 ez2 w.stgs.nitref) fun t ht => ?_
  obtain ⟨gx, gy, gz, j1, j2, j3⟩ := ht
  refine Ok.bind (P := fun y => Holds y T.p gy) (by rw [hsz.p]; exact fill_holds hsz.y fun i hi => j2.rd hi) fun y hy => ?_
  refine Ok.bind (bring_holds hl.cone.is h0 j3.has0 (by rw [hsz.z, hmS])).self fun z hz => ?_
  rw [Ok_pure]
  obtain ⟨⟨sf, hs⟩, hse⟩ := hs
  obtain ⟨⟨zf, hz⟩, hze⟩ := hz
  rw [← hmS] at hs hz
  refine ⟨rfl, ⟨⟨hsz.n, hsz.m, hsz.p, hsz.D, hx.size, hy.size, hz.size, hs.size, hsz.bx, hsz.b_y, hsz.bz, hsz.bs, hsz.rx, hsz.ry, hsz.rz⟩,
    ⟨hl.data.A, hl.data.G, hl.data.c, hl.data.b, hl.data.h, hl.data.xe, hl.data.ye, hl.data.ze, hl.data.ua, hl.data.mA, hl.data.mG⟩, hl.cone, ?_, hl.ord,
    hl.val⟩, ⟨fx, hx⟩, ⟨gy, hy⟩, ⟨zf, hz⟩, ⟨sf, hs⟩, er1, rfl, rfl, rfl, rfl,
    fun hB => ⟨hB.x, hB.y, hB.z, hB.s, hB.kap, hB.tau, hB.cx, hB.b_y, hB.hz, hB.stats⟩,
    ⟨.inl ⟨h0, ⟨_, _, _, _, hl.cone.is, hnr, hsz.s.trans hmS, hse⟩, ⟨_, _, _, _, hl.cone.is, j3.has0, hsz.z.trans hmS, hze⟩⟩⟩⟩
  exact made_of hm ePinv ePt ePK ⟨e2.n, e2.pat, e2.tree, e2.jc, e2.ir, e2.pr, e2.lp, e2.lir, e2.lpr, e2.par, e2.sign⟩ e3.d.size
    (by show f.1.RHS1.size = _; rw [er1]; exact hm.r1) (by show f.1.RHS2.size = _; rw [er2]; exact hm.r2) k1.size j1.size k2.size j2.size k3.size j3.size
    fs1 fs2 (fs3.trans hm.rep.n_eq) (by show f.1.Sign = _; rw [e4]) (by show f.1.L.jc = _; rw [e4]) (by show f.1.Parent = _; rw [e4])

theorem initUnit_ok (hP : PatGood T S) {w : Work F} {a g c b h xe ye ze : Nat → F} {π ai q : Nat → Nat} {ax : Nat → F} {sg : Nat → Int}
    (hl : Live amd w T S a g c b h xe ye ze π ai q ax sg) :
    Ok (initUnit w) fun o => Live amd o T S a g c b h xe ye ze π ai q ax sg ∧
      (∃ f, Holds o.x T.n f) ∧ (∃ f, Holds o.y T.p f) ∧ (∃ f, Holds o.z T.m f) ∧ (∃ f, Holds o.s T.m f) ∧
      o.KKT.RHS1 = w.KKT.RHS1 ∧ o.stgs = w.stgs ∧ o.resx0 = w.resx0 ∧ o.resy0 = w.resy0 ∧ o.resz0 = w.resz0 ∧ (Best w T → Best o T) ∧ StartPt S o := by
  have hsz := hl.sz
  have hmS : T.m = S.m := hP.m.symm
  unfold initUnit
  refine Ok.bind (Ok.self (Q := fun t => (∃ f, Holds t.1 T.m f) ∧ ∃ f, Holds t.2 T.m f) ?_) fun t ht => ?_
  · unfold unitInitialization
    refine Ok.bind (unitInit1_ok hl.cone.is (s := w.s) (by rw [hsz.s, hmS]) 1.0) fun s hs => ?_
    refine Ok.bind (unitInit1_ok hl.cone.is (s := w.z) (by rw [hsz.z, hmS]) 1.0) fun z hz => ?_
    rw [Ok_pure]
    have h1 := glue_hasE hs.2.2.1 hs.2.2.2.1 hs.2.2.2.2
    have h2 := glue_hasE hz.2.2.1 hz.2.2.2.1 hz.2.2.2.2
    rw [← hmS] at h1 h2
    exact ⟨⟨_, h1.holds (by rw [hs.1, hsz.s])⟩, ⟨_, h2.holds (by rw [hz.1, hsz.z])⟩⟩
  · obtain ⟨⟨⟨sf, hs⟩, ⟨zf, hz⟩⟩, hte⟩ := ht
    refine Ok.bind (P := fun y => Holds y T.p fun _ => 0.0) (by rw [hsz.p]; exact fill_holds hsz.y fun i hi => rfl) fun y hy => ?_
    refine Ok.bind (P := fun x => Holds x T.n fun _ => 0.0) (by rw [hsz.n]; exact fill_holds hsz.x fun i hi => rfl) fun x hx => ?_
    rw [Ok_pure]
    exact ⟨⟨⟨hsz.n, hsz.m, hsz.p, hsz.D, hx.size, hy.size, hz.size, hs.size, hsz.bx, hsz.b_y, hsz.bz, hsz.bs, hsz.rx, hsz.ry, hsz.rz⟩,
      ⟨hl.data.A, hl.data.G, hl.data.c, hl.data.b, hl.data.h, hl.data.xe, hl.data.ye, hl.data.ze, hl.data.ua, hl.data.mA, hl.data.mG⟩, hl.cone, hl.made,
      hl.ord, hl.val⟩, ⟨_, hx⟩, ⟨_, hy⟩, ⟨zf, hz⟩, ⟨sf, hs⟩, rfl, rfl, rfl, rfl, rfl,
      fun hB => ⟨hB.x, hB.y, hB.z, hB.s, hB.kap, hB.tau, hB.cx, hB.b_y, hB.hz, hB.stats⟩,
      ⟨.inr ⟨_, _, _, hl.cone.is, hsz.s.trans hmS, hsz.z.trans hmS, hte⟩⟩⟩

/-- the workspace between two passes -/
structure Go (amd : Nat → Buf Nat → Buf Nat → Option (Buf Nat)) (w : Work F) (T : Pat) (S : Shape) : Prop where
  live : ∃ a g c b h xe ye ze π ai q ax sg, Live amd w T S a g c b h xe ye ze π ai q ax sg ∧ Rhs1 w T S (partsOf T S a g).N π c b h
  full : Full w T
  step : ∃ v, w.info.step = some v
  rx0 : ∃ v, w.resx0 = some v
  ry0 : ∃ v, w.resy0 = some v
  rz0 : ∃ v, w.resz0 = some v

theorem initSolver_ok (hP : PatGood T S) {w : Work F} (hl : LiveW amd T S w) :
    Ok (initSolver w) fun o => o.2 = true ∧ Go amd o.1 T S ∧ o.1.stgs = w.stgs ∧ (Best w T → Best o.1 T) ∧ StartPt S o.1 ∧ o.1.kap = some 1.0 ∧ o.1.tau = some 1.0 := by
  obtain ⟨a, g, c, b, h, xe, ye, ze, π, ai, q, ax, sg, hl⟩ := hl
  have hsz := hl.sz
  have hT := hP.parts (a := a) (g := g)
  have hdim : (partsOf T S a g).N = T.n + T.p + S.x.m := rfl
  unfold initSolver
  refine Ok.bind (kktInit_ok hT hl.made.pk ((partsOf T S a g).pk_perm π) hl.cone (hl.made.kv hT)) fun K hK => ?_
  obtain ⟨pr, rfl, hkv⟩ := hK
  obtain ⟨ax', hl'⟩ := live_put hP hl hl.cone hkv fun i hi hv => by
    split
    · exact withV_agree _ _ _ i hi hv
    · rfl
  refine Ok.bind (initRhs_ok hl hP) fun r hr => ?_
  obtain ⟨⟨f1, hf1, hf1b, hf1h⟩, f2, hf2⟩ := hr
  refine Ok.bind (P := fun _ => True) (by rw [hsz.n]; exact resScale_ok hl.data.c) fun rx _ => ?_
  refine Ok.bind (P := fun _ => True) (by rw [hsz.p]; exact resScale_ok hl.data.b) fun ry _ => ?_
  refine Ok.bind (P := fun _ => True) (by rw [hsz.m]; exact resScale_ok hl.data.h) fun rz _ => ?_
  have hl2 : Live amd { w with KKT := { w.KKT with PKPt := { w.KKT.PKPt with pr := pr }, RHS1 := r.1, RHS2 := r.2 }, resx0 := some rx, resy0 := some ry, resz0 := some rz } T S a g c b h xe ye ze π ai q ax' sg := by
    have hm := hl'.made
    refine ⟨⟨hsz.n, hsz.m, hsz.p, hsz.D, hsz.x, hsz.y, hsz.z, hsz.s, hsz.bx, hsz.b_y, hsz.bz, hsz.bs, hsz.rx, hsz.ry, hsz.rz⟩,
      ⟨hl.data.A, hl.data.G, hl.data.c, hl.data.b, hl.data.h, hl.data.xe, hl.data.ye, hl.data.ze, hl.data.ua, hl.data.mA, hl.data.mG⟩, hl.cone, ?_, hl.ord,
      hl'.val⟩
    exact made_of hm rfl rfl rfl ⟨hm.ok.n, hm.ok.pat, hm.ok.tree, hm.ok.jc, hm.ok.ir, hm.ok.pr, hm.ok.lp, hm.ok.lir, hm.ok.lpr, hm.ok.par, hm.ok.sign⟩
      hm.d hf1.size hf2.size hm.x1 hm.x2 hm.y1 hm.y2 hm.z1 hm.z2 rfl rfl hm.mem.lnz rfl rfl rfl
  have hbest : Best w T → Best { w with KKT := { w.KKT with PKPt := { w.KKT.PKPt with pr := pr }, RHS1 := r.1, RHS2 := r.2 }, resx0 := some rx, resy0 := some ry, resz0 := some rz } T :=
    fun hB => ⟨hB.x, hB.y, hB.z, hB.s, hB.kap, hB.tau, hB.cx, hB.b_y, hB.hz, hB.stats⟩
  refine Ok.bind (P := fun o : Work F × Bool => o.2 = true ∧ Live amd o.1 T S a g c b h xe ye ze π ai q ax' sg ∧
      (∃ f, Holds o.1.x T.n f) ∧ (∃ f, Holds o.1.y T.p f) ∧ (∃ f, Holds o.1.z T.m f) ∧ (∃ f, Holds o.1.s T.m f) ∧
      o.1.KKT.RHS1 = r.1 ∧ o.1.stgs = w.stgs ∧ o.1.resx0 = some rx ∧ o.1.resy0 = some ry ∧ o.1.resz0 = some rz ∧ (Best w T → Best o.1 T) ∧ StartPt S o.1) ?_ fun o ho => ?_
  · split
    · rename_i hn
      refine (initMehrotra_ok hP hl2 (by rw [← hl.cone.is.nexc]; exact hn) hf1 hf2).mono fun o ho => ?_
      obtain ⟨o1, o2, o3, o4, o5, o6, o7, o8, o9, o10, o11, o12, o13⟩ := ho
      exact ⟨o1, o2, o3, o4, o5, o6, o7, o8, o9, o10, o11, fun h => o12 (hbest h), o13⟩
    · refine Ok.bind (initUnit_ok hP hl2) fun o ho => ?_
      rw [Ok_pure]
      obtain ⟨o2, o3, o4, o5, o6, o7, o8, o9, o10, o11, o12, o13⟩ := ho
      exact ⟨rfl, o2, o3, o4, o5, o6, o7, o8, o9, o10, o11, fun h => o12 (hbest h), o13⟩
  · obtain ⟨o1, o2, o3, o4, o5, o6, o7, o8, o9, o10, o11, o12, o13⟩ := ho
    rw [if_neg (by rw [o1]; simp)]
    have hm := o2.made
    have hd := o2.data
    refine Ok.bind (P := fun r1 => ∃ r, Holds r1 (partsOf T S a g).N r ∧ (∀ i, i < T.n → r (π i) = -c i) ∧ (∀ i, i < T.p → r (π (T.n + i)) = b i) ∧
      ∀ i, i < S.x.m → r (π (T.n + T.p + i)) = stretchF S h i) ?_ fun r1 hr1 => ?_
    · rw [o7, o2.sz.n]
      refine ((KQ.ofHolds hf1 hm.perm).scatter hm.pinv hm.perm (off := 0) (n := T.n) (by omega) (g := fun i => -c i)
        fun i hi => by rw [hd.c.rd hi]; rfl).mono fun r1 hk => ?_
      obtain ⟨f, k1, k2⟩ := hk.holds hm.perm (g := fun x => if x < T.n then -c x else f1 (π x)) fun x hx => by
        by_cases c1 : x < T.n
        · simp [c1]
        · simp [c1]
      refine ⟨f, k1, fun i hi => ?_, fun i hi => ?_, fun i hi => ?_⟩
      · rw [k2 _ (by omega), if_pos hi]
      · rw [k2 _ (by omega), if_neg (by omega), hf1b i hi]
      · rw [k2 _ (by omega), if_neg (by omega), hf1h i hi]
    · rw [Ok_pure]
      have hq := o2.sz
      obtain ⟨rf, hrf, hrf'⟩ := hr1
      refine ⟨rfl, ⟨⟨a, g, c, b, h, xe, ye, ze, π, ai, q, ax', sg, ⟨⟨hq.n, hq.m, hq.p, hq.D, hq.x, hq.y, hq.z, hq.s, hq.bx, hq.b_y, hq.bz, hq.bs, hq.rx,
        hq.ry, hq.rz⟩, ⟨hd.A, hd.G, hd.c, hd.b, hd.h, hd.xe, hd.ye, hd.ze, hd.ua, hd.mA, hd.mG⟩, o2.cone, ?_, hl.ord, o2.val⟩, rf, hrf, hrf'⟩,
        ⟨o3, o4, o5, o6, ⟨_, rfl⟩, ⟨_, rfl⟩⟩, ⟨_, rfl⟩, ⟨_, o9⟩, ⟨_, o10⟩, ⟨_, o11⟩⟩, o8, fun hB => ?_, ⟨o13.pt⟩, rfl, rfl⟩
      · exact made_of hm rfl rfl rfl ⟨hm.ok.n, hm.ok.pat, hm.ok.tree, hm.ok.jc, hm.ok.ir, hm.ok.pr, hm.ok.lp, hm.ok.lir, hm.ok.lpr, hm.ok.par, hm.ok.sign⟩
          hm.d hrf.size hm.r2 hm.x1 hm.x2 hm.y1 hm.y2 hm.z1 hm.z2 rfl rfl hm.mem.lnz rfl rfl rfl
      · have hB := o12 hB
        exact ⟨hB.x, hB.y, hB.z, hB.s, hB.kap, hB.tau, hB.cx, hB.b_y, hB.hz, hB.stats⟩

/-! ### One pass -/

theorem passHead_eq {w w' : Work F} {k : Nat} (h : passHead w k = .ok w') :
    Keep w w' ∧ w'.resx0 = w.resx0 ∧ w'.resy0 = w.resy0 ∧ w'.resz0 = w.resz0 ∧ w'.info.step = w.info.step ∧ w'.info.iter = k ∧
      (Best w T → Best w' T) ∧ (Sizes w T S → ResBuf w' T → Sizes w' T S) := by
  unfold passHead computeResiduals updateStatistics at h
  simp only [bind_ok, pure_ok] at h
  obtain ⟨w1, ⟨r, -, cx, -, b, -, hz, -, kap, -, nx, -, ny, -, ns, -, nz, -, rfl⟩, i, -, rfl⟩ := h
  exact ⟨⟨rfl, rfl, rfl, rfl, rfl, rfl, rfl, rfl, rfl, rfl, rfl, rfl, rfl⟩, rfl, rfl, rfl, rfl, rfl,
    fun hB => ⟨hB.x, hB.y, hB.z, hB.s, hB.kap, hB.tau, hB.cx, hB.b_y, hB.hz, hB.stats⟩,
    fun hs hr => ⟨hs.n, hs.m, hs.p, hs.D, hs.x, hs.y, hs.z, hs.s, hs.bx, hs.b_y, hs.bz, hs.bs, hr.rx, hr.ry, hr.rz⟩⟩

/-- residuals and statistics are there -/
structure Headed (amd : Nat → Buf Nat → Buf Nat → Option (Buf Nat)) (w : Work F) (T : Pat) (S : Shape) : Prop where
  go : Go amd w T S
  stat : StatI w.info
  prods : Prods w
  rx : ∃ f, Holds w.rx T.n f
  ry : ∃ f, 0 < T.p → ∃ r, w.ry = some r ∧ Holds r T.p f
  rz : ∃ f, Holds w.rz T.m f
  rt : ∃ v, w.rt = some v

theorem Go.sz {w : Work F} (h : Go amd w T S) : Sizes w T S := by
  obtain ⟨a, g, c, b, h, xe, ye, ze, π, ai, q, ax, sg, hl, -⟩ := h.live
  exact hl.sz

theorem Go.liveW {w : Work F} (h : Go amd w T S) : LiveW amd T S w := by
  obtain ⟨a, g, c, b, h, xe, ye, ze, π, ai, q, ax, sg, hl, -⟩ := h.live
  exact ⟨a, g, c, b, h, xe, ye, ze, π, ai, q, ax, sg, hl⟩

theorem Go.keep {w w' : Work F} (h : Go amd w T S) (hk : Keep w w') (hs : Sizes w' T S) (hf : Full w' T) (h1 : w'.info.step = w.info.step)
    (h2 : w'.resx0 = w.resx0) (h3 : w'.resy0 = w.resy0) (h4 : w'.resz0 = w.resz0) : Go amd w' T S := by
  obtain ⟨a, g, c, b, h', xe, ye, ze, π, ai, q, ax, sg, hl, hr⟩ := h.live
  refine ⟨⟨a, g, c, b, h', xe, ye, ze, π, ai, q, ax, sg, live_keep hl hk hs, ?_⟩, hf, ?_, ?_, ?_, ?_⟩
  · unfold Rhs1
    rw [hk.K]
    exact hr
  · rw [h1]; exact h.step
  · rw [h2]; exact h.rx0
  · rw [h3]; exact h.ry0
  · rw [h4]; exact h.rz0

theorem passHead_ok {w : Work F} (hw : Go amd w T S) (k : Nat) :
    Ok (passHead w k) fun w' => Headed amd w' T S ∧ w'.info.iter = k ∧ w'.stgs = w.stgs ∧ (Best w T → Best w' T) := by
  obtain ⟨a, g, c, b, h, xe, ye, ze, π, ai, q, ax, sg, hl, -⟩ := hw.live
  have hsz := hl.sz
  have hf := hw.full
  obtain ⟨fx, hx⟩ := hf.x
  obtain ⟨fy, hy⟩ := hf.y
  obtain ⟨fz, hz⟩ := hf.z
  obtain ⟨fs, hs⟩ := hf.s
  obtain ⟨kap, hkap⟩ := hf.kap
  obtain ⟨tau, htau⟩ := hf.tau
  obtain ⟨r0, hr0⟩ := hw.rx0
  obtain ⟨r1, hr1⟩ := hw.ry0
  obtain ⟨r2, hr2⟩ := hw.rz0
  have hh := passHeadD (D := fun (_ : F) (_ : ℝ) => True) denTrue (w := w) (T := T)
    (P := ⟨fun _ => 0, fun _ => 0, fun _ => 0, fun _ => 0, fun _ => 0⟩) (v := ⟨fun _ => 0, fun _ => 0, fun _ => 0, fun _ => 0, 0, 0⟩)
    ⟨hsz.n, hsz.m, hsz.p, repA_den hl.data.A, hl.data.G.den fun _ _ => trivial, hl.data.c.den fun _ _ => trivial, hl.data.b.den fun _ _ => trivial,
      hl.data.h.den fun _ _ => trivial⟩
    ⟨hx.den fun _ _ => trivial, hy.den fun _ _ => trivial, hz.den fun _ _ => trivial, hs.den fun _ _ => trivial, ⟨kap, hkap, trivial⟩,
      ⟨tau, htau, trivial⟩⟩ ⟨hsz.rx, hsz.ry, hsz.rz⟩ (r0 := (0, 0, 0)) ⟨r0, hr0, trivial⟩ ⟨r1, hr1, trivial⟩ ⟨r2, hr2, trivial⟩ k
  refine hh.self.mono fun w' hw' => ?_
  obtain ⟨⟨i, o, -, -, q1, q2, q3, q4, q5, q6, q7, q8, q9, q10, hR, -, hI, hB⟩, he⟩ := hw'
  obtain ⟨e1, e2, e3, e4, e5, e6, e7, e8⟩ := passHead_eq (T := T) (S := S) he
  refine ⟨⟨hw.keep e1 (e8 hsz hB) ⟨holdsD_ex hI.x, holdsD_ex hI.y, holdsD_ex hI.z, holdsD_ex hI.s, optD_ex hI.kap, optD_ex hI.tau⟩ e5 e2 e3 e4,
    ⟨⟨_, q4⟩, ⟨_, q7⟩, ⟨_, q8⟩, ⟨_, q1⟩, ⟨_, q6⟩, ⟨_, q9⟩, ⟨_, q10⟩, ⟨_, q2⟩, ⟨_, q3⟩, ⟨_, q5⟩⟩, ⟨optD_ex hR.cx, optD_ex hR.bY, optD_ex hR.hz⟩, holdsD_ex hR.rx, ?_,
    holdsD_ex hR.rz, optD_ex hR.rt⟩, e6, e1.stgs, e7⟩
  by_cases hp : 0 < T.p
  · obtain ⟨r, hr, hd⟩ := hR.ry hp
    obtain ⟨f, hf⟩ := holdsD_ex hd
    exact ⟨f, fun _ => ⟨r, hr, hf⟩⟩
  · exact ⟨fun _ => 0, fun h => absurd h hp⟩

/-- how the loop may be left -/
def Out (Cd : Prop) (amd : Nat → Buf Nat → Buf Nat → Option (Buf Nat)) (T : Pat) (S : Shape) (e : Exit F) : Prop :=
  LiveW amd T S e.w ∧ (Cd ∧ e.early = false ∨ Full e.w T)

theorem pass_runs {Cd : Prop} (hP : PatGood T S) {arrives : Nat → Bool} {k : Nat} {L : LoopS F} (hG : Go amd L.w T S)
    (hB : Best L.w T ∨ (k = 0 ∧ L.sig.det = false))
    (hC : k = 0 → (L.w.stgs.maxit = 0 ∨ arrives 0 = true ∨ NanHead L.w) → Cd ∨ Best L.w T) :
    Runs (Uninit Cd) (pass arrives k L) fun r => match r with
      | .inl e => Out Cd amd T S e ∧ (Cd ∨ StatI e.w.info)
      | .inr L' => Go amd L'.w T S ∧ Best L'.w T ∧ L'.w.stgs = L.w.stgs ∧ (k : Int) ≠ L.w.stgs.maxit := by
  unfold pass
  refine Runs.bind (Ok.runs (passHead_ok hG k).self) fun w hw => ?_
  obtain ⟨⟨hH, hk, hst, hb⟩, hph⟩ := hw
  have hB' : Best w T ∨ (k = 0 ∧ L.sig.det = false) := hB.imp_left hb
  have hI := hH.stat
  have hBk : 0 < w.info.iter → Best w T := fun h0 => hB'.resolve_right fun h => by omega
  refine Runs.bind (P := fun bad => bad = true → 0 < w.info.iter) ?_ fun bad hbad => ?_
  · unfold unreliable andM
    split
    · rename_i h0
      obtain ⟨v1, h1⟩ := hI.pres
      obtain ⟨v2, h2⟩ := hI.gap
      rw [h1, h2]
      exact fun _ => by simpa using h0
    · exact fun h => by simp at h
  split
  · rename_i hb1
    refine Runs.bind (recover_runs hH.go.sz (.inr (hBk (hbad hb1))) NUMERICS) fun r hr => ?_
    exact ⟨⟨liveW_keep hH.go.liveW hr.1 hr.2.1, hr.2.2.imp (⟨·, rfl⟩) (·.1)⟩, hr.2.2.imp_right (·.2)⟩
  · refine Runs.bind (get_runs (.inr hI.pres)) fun pres _ => ?_
    refine Runs.bind (checkExit_runs (T := T) (.inr hI) (.inr hH.prods) (.inr hH.go.full) 0) fun r hr => ?_
    obtain ⟨pf, df, hr⟩ := hr
    have hk' : Keep w r.1 := by rw [hr]; exact ⟨rfl, rfl, rfl, rfl, rfl, rfl, rfl, rfl, rfl, rfl, rfl, rfl, rfl⟩
    have hs' : Sizes r.1 T S := by rw [hr]; exact sizes_info hH.go.sz _
    have hf' : Full r.1 T := by rw [hr]; exact full_info hH.go.full _
    have hG' : Go amd r.1 T S := hH.go.keep hk' hs' hf' (by rw [hr]) (by rw [hr]) (by rw [hr]) (by rw [hr])
    have hI' : StatI r.1.info := by
      rw [hr]
      exact ⟨hI.pcost, hI.pres, hI.dres, hI.gap, hI.relgap, hI.pinfres, hI.dinfres, hI.mu, hI.kapovert, hI.dcost⟩
    have hp' : Prods r.1 := by rw [hr]; exact ⟨hH.prods.cx, hH.prods.b_y, hH.prods.hz⟩
    have hb' : Best w T → Best r.1 T := fun hB => by
      rw [hr]
      exact ⟨hB.x, hB.y, hB.z, hB.s, hB.kap, hB.tau, hB.cx, hB.b_y, hB.hz, hB.stats⟩
    have hit : r.1.info.iter = k := by rw [hr]; exact hk
    split
    · exact ⟨⟨hG'.liveW, .inr hf'⟩, .inr hI'⟩
    · refine Runs.bind (notYet_runs hs' hI' hp' hf' hG'.step (fun h0 => hb' (hBk (by rw [hit] at h0; omega))) fun hc => ?_) fun t ht => ?_
      · rcases hB' with h | ⟨rfl, h⟩
        · exact .inr (hb' h)
        · refine (hC rfl ?_).imp_right fun h => hb' (hb h)
          rcases hc with hc | hc | hc
          · right; left
            unfold deliver at hc
            by_contra hn
            simp [hn, h] at hc
          · left
            rw [hit, hk'.stgs, hst] at hc
            exact hc.symm
          · obtain ⟨v, hv, hn⟩ := hc
            rw [hr] at hv
            exact .inr (.inr ⟨w, v, hph, hv, hn⟩)
      · match t, ht with
        | .inl t, ht => exact ⟨⟨liveW_keep hG'.liveW ht.1 ht.2.1, ht.2.2.imp (⟨·, rfl⟩) (·.1)⟩, ht.2.2.imp_right (·.2)⟩
        | .inr w2, ht =>
          obtain ⟨ht, hne⟩ := ht
          subst ht
          refine Runs.bind (Ok.runs (keepBest_ok hs' hI' hp' hf' fun h0 => hb' (hBk (by rw [hit] at h0; omega)))) fun w3 h3 => ?_
          obtain ⟨h31, h32, a1, a2, a3, a4, a5, a6, a7, a8, a9, a10, rfl⟩ := h3
          have hG3 := hG'.keep (w' := { r.1 with
            bestX := a1, bestY := a2, bestZ := a3, bestS := a4, bestKap := a5, bestTau := a6, bestCx := a7, bestBy := a8, bestHz := a9, bestInfo := a10 })
            ⟨rfl, rfl, rfl, rfl, rfl, rfl, rfl, rfl, rfl, rfl, rfl, rfl, rfl⟩ h32 ⟨hf'.x, hf'.y, hf'.z, hf'.s, hf'.kap, hf'.tau⟩ rfl rfl rfl rfl
          obtain ⟨a, g, c, b, h, xe, ye, ze, π, ai, q, ax, sg, hl, hr1⟩ := hG3.live
          obtain ⟨fx, hx⟩ := hG3.full.x
          obtain ⟨fy, hy⟩ := hG3.full.y
          obtain ⟨fz, hz⟩ := hG3.full.z
          obtain ⟨fs, hs⟩ := hG3.full.s
          obtain ⟨kap, hkap⟩ := hG3.full.kap
          obtain ⟨tau, htau⟩ := hG3.full.tau
          obtain ⟨mu, hmu⟩ := hI'.mu
          obtain ⟨rxf, hrx⟩ := hH.rx
          obtain ⟨ryf, hry⟩ := hH.ry
          obtain ⟨rzf, hrz⟩ := hH.rz
          obtain ⟨rt, hrt⟩ := hH.rt
          refine Runs.bind (Ok.runs (passTail_ok hP hl hr1 hx hy hz hs (rx := rxf) (ry := ryf) (rz := rzf) (rt := rt) (by rw [hr]; exact hrx)
            (by rw [hr]; exact hry) (by rw [hr]; exact hrz) hkap htau (by rw [hr]; exact hrt) hmu h31)) fun t2 ht2 => ?_
          match t2, ht2 with
          | .inl e, he => exact ⟨⟨he.1, .inr he.2.1⟩, .inr he.2.2⟩
          | .inr w', hw' =>
            obtain ⟨⟨ax', hl'⟩, hr', hbw, hsm, V, sigma, st, f1x, f1y, f1z, a2x, a2y, a2z, e2x, e2y, e2z, u, ds, dtau, dkap, dkaff, dtaff, hmv⟩ := hw'
            refine ⟨⟨⟨a, g, c, b, h, xe, ye, ze, π, ai, q, ax', sg, hl', hr'⟩, ⟨⟨_, hmv.hx⟩, ⟨_, hmv.hy⟩, ⟨_, hmv.hz⟩, ⟨_, hmv.hs⟩, ⟨_, hmv.hkap⟩,
              ⟨_, hmv.htau⟩⟩, ⟨_, hmv.step⟩, ?_, ?_, ?_⟩, hbw, ?_, ?_⟩
            · rw [hsm.rx0]; exact hG3.rx0
            · rw [hsm.ry0]; exact hG3.ry0
            · rw [hsm.rz0]; exact hG3.rz0
            · rw [hsm.stgs]; exact hk'.stgs.trans hst
            · rw [hit, hk'.stgs, hst] at hne; exact hne

theorem mainLoop_runs {Cd : Prop} (hP : PatGood T S) {arrives : Nat → Bool} {w : Work F} {sig : Sig} (hG : Go amd w T S) (hdet : sig.det = false)
    (hC : (w.stgs.maxit = 0 ∨ arrives 0 = true ∨ NanHead w) → Cd ∨ Best w T) :
    Runs (Uninit Cd) (mainLoop arrives w sig) fun e => Out Cd amd T S e ∧ (0 ≤ w.stgs.maxit → Cd ∨ StatI e.w.info) := by
  unfold mainLoop
  have hG0 : Go amd { w with info := { w.info with iter := 0 } } T S :=
    hG.keep ⟨rfl, rfl, rfl, rfl, rfl, rfl, rfl, rfl, rfl, rfl, rfl, rfl, rfl⟩ (sizes_info hG.sz _) (full_info hG.full _) rfl rfl rfl rfl
  refine Runs.bind (loopE_runs (fun k L => Go amd L.w T S ∧ L.w.stgs = w.stgs ∧ (Best L.w T ∨ (k = 0 ∧ L.sig.det = false)) ∧ (0 ≤ w.stgs.maxit → (k : Int) ≤ w.stgs.maxit) ∧
    (k = 0 → (w.stgs.maxit = 0 ∨ arrives 0 = true ∨ NanHead L.w) → Cd ∨ Best L.w T)) (fun e => Out Cd amd T S e ∧ (0 ≤ w.stgs.maxit → Cd ∨ StatI e.w.info))
    ⟨hG0, rfl, .inr ⟨rfl, hdet⟩, fun h => h, fun _ h => (hC h).imp_right fun hB => ⟨hB.x, hB.y, hB.z, hB.s, hB.kap, hB.tau, hB.cx, hB.b_y, hB.hz, hB.stats⟩⟩ ?_) ?_
  · intro k L _ _ hL
    obtain ⟨l1, l2, l3, l5, l4⟩ := hL
    refine (pass_runs hP l1 l3 (by rw [l2]; exact l4)).mono fun r hr => ?_
    match r, hr with
    | .inl e, he => exact ⟨he.1, fun _ => he.2⟩
    | .inr L', h' =>
      have hk := h'.2.2.2
      rw [l2] at hk
      exact ⟨h'.1, h'.2.2.1.trans l2, .inl h'.2.1, fun h0 => by have := l5 h0; omega, fun _ _ => .inr h'.2.1⟩
  · intro r hr
    match r, hr with
    | .inl e, he => exact he
    | .inr L', h' => exact ⟨⟨h'.1.liveW, .inr h'.1.full⟩, fun h0 => by have := h'.2.2.2.1 h0; dsimp only at this; omega⟩

/-- A solve of a workspace in order leaves a workspace in order.  The only thing that can go wrong is the reading of a best iterate
before there is one. -/
theorem ecosSolve_runs (hP : PatGood T S) {w : Work F} (hl : LiveW amd T S w) (arrives : Nat → Bool) (sig : Sig) :
    Runs (Uninit (¬ Best w T ∧ (w.stgs.maxit = 0 ∨ arrives 0 = true ∨ FirstNaN w))) (ecosSolve arrives w sig)
      fun r => LiveW amd T S r.1 ∧ ((¬ Best w T ∧ (w.stgs.maxit = 0 ∨ arrives 0 = true ∨ FirstNaN w)) ∨
        Full r.1 T ∧ (0 ≤ w.stgs.maxit → StatI r.1.info)) := by
  obtain ⟨a, g, c, b, h, xe, ye, ze, π, ai, q, ax, sg, hl⟩ := hl
  have hd := hl.data
  have hs := hl.sz
  unfold ecosSolve
  refine Runs.bind (P := fun c1 => (Holds c1 T.n fun i => c i / xe i) ∧ divBy w.c w.xequil w.n = .ok c1)
    (Ok.runs (Ok.self (by rw [hs.n]; exact divBy_ok hd.c hd.xe))) fun c1 hc1 => ?_
  obtain ⟨hc1, hdv⟩ := hc1
  have hl1 : LiveW amd T S { w with c := c1 } := ⟨a, g, _, b, h, xe, ye, ze, π, ai, q, ax, sg,
    ⟨hs.n, hs.m, hs.p, hs.D, hs.x, hs.y, hs.z, hs.s, hs.bx, hs.b_y, hs.bz, hs.bs, hs.rx, hs.ry, hs.rz⟩,
    ⟨hd.A, hd.G, hc1, hd.b, hd.h, hd.xe, hd.ye, hd.ze, hd.ua, hd.mA, hd.mG⟩, hl.cone, hl.made, hl.ord, hl.val⟩
  refine Runs.bind (Ok.runs (initSolver_ok hP hl1).self) fun o ho => ?_
  obtain ⟨⟨o1, o2, o3, o4⟩, hin⟩ := ho
  rw [if_neg (by rw [o1]; simp)]
  refine Runs.bind (mainLoop_runs hP o2 rfl fun hc => ?_) fun e he => ?_
  · rw [o3] at hc
    by_cases hB : Best w T
    · exact .inr (o4.1 ⟨hB.x, hB.y, hB.z, hB.s, hB.kap, hB.tau, hB.cx, hB.b_y, hB.hz, hB.stats⟩)
    · exact .inl ⟨hB, hc.imp_right (Or.imp_right fun h => ⟨o.1, ⟨c1, hdv, by rw [hin, ← o1]⟩, h⟩)⟩
  · unfold finish
    split
    · refine ⟨he.1.1, ?_⟩
      rcases he.1.2 with hc | hf
      · exact .inl hc.1
      · by_cases h0 : 0 ≤ w.stgs.maxit
        · rw [o3] at he
          exact (he.2 h0).imp_right fun h => ⟨hf, fun _ => h⟩
        · exact .inr ⟨hf, fun h => absurd h h0⟩
    · refine Runs.bind (backscale_runs he.1.1 (he.1.2.imp_left (·.1))) fun w' hw' => ?_
      obtain ⟨b1, b2, b3⟩ := hw'
      refine ⟨b1, ?_⟩
      show _ ∨ Full w' T ∧ (_ → StatI w'.info)
      rw [b3]
      rcases b2 with hc | hf
      · exact .inl hc
      · by_cases h0 : 0 ≤ w.stgs.maxit
        · rw [o3] at he
          exact (he.2 h0).imp_right fun h => ⟨hf, fun _ => h⟩
        · exact .inr ⟨hf, fun h => absurd h h0⟩

/-- a solve that returns has written the whole point -/
theorem ecosSolve_full (hP : PatGood T S) {w : Work F} (hl : LiveW amd T S w) {arrives : Nat → Bool} {sig : Sig} {r : Work F × Sig × Int}
    (hr : ecosSolve arrives w sig = .ok r) :
    (∃ o, Holds r.1.x T.n o) ∧ (∃ o, Holds r.1.y T.p o) ∧ (∃ o, Holds r.1.z T.m o) ∧ ∃ o, Holds r.1.s T.m o := by
  obtain ⟨a, g, c, b, h, xe, ye, ze, π, ai, q, ax, sg, hl⟩ := hl
  have hd := hl.data
  have hs := hl.sz
  unfold ecosSolve at hr
  simp only [bind_ok] at hr
  obtain ⟨c1, hdv, o, hin, hr⟩ := hr
  have hc1 : Holds c1 T.n fun i => c i / xe i := by
    rw [hs.n] at hdv
    exact (divBy_ok hd.c hd.xe).elim hdv
  have hl1 : LiveW amd T S { w with c := c1 } := ⟨a, g, _, b, h, xe, ye, ze, π, ai, q, ax, sg,
    ⟨hs.n, hs.m, hs.p, hs.D, hs.x, hs.y, hs.z, hs.s, hs.bx, hs.b_y, hs.bz, hs.bs, hs.rx, hs.ry, hs.rz⟩,
    ⟨hd.A, hd.G, hc1, hd.b, hd.h, hd.xe, hd.ye, hd.ze, hd.ua, hd.mA, hd.mG⟩, hl.cone, hl.made, hl.ord, hl.val⟩
  obtain ⟨o1, o2, o3, o4⟩ := (initSolver_ok hP hl1).elim hin
  rw [if_neg (by rw [o1]; simp)] at hr
  simp only [bind_ok] at hr
  obtain ⟨e, he, hr⟩ := hr
  obtain ⟨⟨f1, f2⟩, -⟩ := (mainLoop_runs (Cd := True) hP o2 rfl fun _ => .inl trivial).out he
  unfold finish at hr
  split at hr
  · rename_i hearly
    cases hr
    rcases f2 with f2 | f2
    · rw [f2.2] at hearly; cases hearly
    · exact ⟨f2.x, f2.y, f2.z, f2.s⟩
  · simp only [bind_ok, pure_ok] at hr
    obtain ⟨w', hw', hr⟩ := hr
    subst hr
    obtain ⟨a, g, c, b, h, xe, ye, ze, π, ai, q, ax, sg, hl'⟩ := f1
    exact backscale_full hl'.sz hw'

end generic
end Ecos.Dir
