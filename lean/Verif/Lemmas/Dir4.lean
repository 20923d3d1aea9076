import Verif.Lemmas.Dir3
import Verif.Lemmas.Upd3
import Verif.Lemmas.BB4
import Verif.Lemmas.Driver4

/-!
# Memory safety of the exits of `ECOS_solve`

The only failure the exits can run into is the reading of the best iterate before there is one;
`Cd` is the condition under which that is permitted.
-/
namespace Ecos.Dir

open Ecos Finset Ecos.Fact Ecos.Asm

set_option linter.unusedSectionVars false

/-- only the reading of unwritten memory, and only under `Cd` -/
def Uninit (Cd : Prop) (e : UB) : Prop := e = .uninit ∧ Cd

theorem _root_.Ecos.Ok.elim {α : Type} {m : M α} {Q : α → Prop} {r : α} (h : Ok m Q) (e : m = .ok r) : Q r := by
  subst e
  exact (Ok_ok _ _).1 h

variable {Cd : Prop}

theorem get_runs {α : Type} {o : Option α} (h : Cd ∨ ∃ v, o = some v) : Runs (Uninit Cd) (get o) fun v => o = some v := by
  cases o with
  | some v => exact rfl
  | none =>
    rcases h with h | ⟨v, h⟩
    · exact ⟨rfl, h⟩
    · cases h

theorem andM_runs {a : Bool} {m : M Bool} (h : Runs (Uninit Cd) m fun _ => True) : Runs (Uninit Cd) (andM a m) fun _ => True := by
  unfold andM
  split
  · exact h
  · trivial

section generic
variable {F : Type} [Zero F] [One F] [Add F] [Sub F] [Mul F] [Div F] [Neg F] [OfScientific F]
  [IntCast F] [PFloat F] {T : Pat} {S : Shape} {amd : Nat → Buf Nat → Buf Nat → Option (Buf Nat)}

/-- the statistics the exit tests read are there -/
structure StatI (i : Stats F) : Prop where
  pcost : ∃ v, i.pcost = some v
  pres : ∃ v, i.pres = some v
  dres : ∃ v, i.dres = some v
  gap : ∃ v, i.gap = some v
  relgap : ∃ v, i.relgap = some v
  pinfres : ∃ v, i.pinfres = some v
  dinfres : ∃ v, i.dinfres = some v
  mu : ∃ v, i.mu = some v
  kapovert : ∃ v, i.kapovert = some v
  dcost : ∃ v, i.dcost = some v

/-- an iterate is there -/
structure Full (w : Work F) (T : Pat) : Prop where
  x : ∃ f, Holds w.x T.n f
  y : ∃ f, Holds w.y T.p f
  z : ∃ f, Holds w.z T.m f
  s : ∃ f, Holds w.s T.m f
  kap : ∃ v, w.kap = some v
  tau : ∃ v, w.tau = some v

/-- the three products are there -/
structure Prods (w : Work F) : Prop where
  cx : ∃ v, w.cx = some v
  b_y : ∃ v, w.bY = some v
  hz : ∃ v, w.hz = some v

/-- a best iterate is there, with its statistics -/
structure Best (w : Work F) (T : Pat) : Prop where
  x : ∃ f, Holds w.bestX T.n f
  y : ∃ f, Holds w.bestY T.p f
  z : ∃ f, Holds w.bestZ T.m f
  s : ∃ f, Holds w.bestS T.m f
  kap : ∃ v, w.bestKap = some v
  tau : ∃ v, w.bestTau = some v
  cx : ∃ v, w.bestCx = some v
  b_y : ∃ v, w.bestBy = some v
  hz : ∃ v, w.bestHz = some v
  stats : StatI w.bestInfo

/-- everything `Live` speaks about except sizes -/
structure Keep (w w' : Work F) : Prop where
  A : w'.A = w.A
  G : w'.G = w.G
  c : w'.c = w.c
  b : w'.b = w.b
  h : w'.h = w.h
  xe : w'.xequil = w.xequil
  ye : w'.Aequil = w.Aequil
  ze : w'.Gequil = w.Gequil
  mA : w'.AtoK = w.AtoK
  mG : w'.GtoK = w.GtoK
  C : w'.C = w.C
  K : w'.KKT = w.KKT
  stgs : w'.stgs = w.stgs

theorem Keep.refl (w : Work F) : Keep w w := ⟨rfl, rfl, rfl, rfl, rfl, rfl, rfl, rfl, rfl, rfl, rfl, rfl, rfl⟩

theorem Keep.trans {w w' w'' : Work F} (h : Keep w w') (k : Keep w' w'') : Keep w w'' :=
  ⟨k.A.trans h.A, k.G.trans h.G, k.c.trans h.c, k.b.trans h.b, k.h.trans h.h, k.xe.trans h.xe, k.ye.trans h.ye, k.ze.trans h.ze,
    k.mA.trans h.mA, k.mG.trans h.mG, k.C.trans h.C, k.K.trans h.K, k.stgs.trans h.stgs⟩

theorem live_keep {w w' : Work F} {a g c b h x y z : Nat → F} {π ai q : Nat → Nat} {ax : Nat → F} {sg : Nat → Int}
    (hl : Live amd w T S a g c b h x y z π ai q ax sg) (hk : Keep w w') (hs : Sizes w' T S) :
    Live amd w' T S a g c b h x y z π ai q ax sg := by
  have hd := hl.data
  refine ⟨hs, ⟨by rw [hk.A]; exact hd.A, by rw [hk.G]; exact hd.G, by rw [hk.c]; exact hd.c, by rw [hk.b]; exact hd.b, by rw [hk.h]; exact hd.h,
    by rw [hk.xe]; exact hd.xe, by rw [hk.ye]; exact hd.ye, by rw [hk.ze]; exact hd.ze, hd.ua, by rw [hk.mA]; exact hd.mA,
    by rw [hk.mG]; exact hd.mG⟩, by rw [hk.C]; exact hl.cone, by rw [hk.K]; exact hl.made, hl.ord, hl.val⟩

theorem liveW_keep {w w' : Work F} (hl : LiveW amd T S w) (hk : Keep w w') (hs : Sizes w' T S) : LiveW amd T S w' := by
  obtain ⟨a, g, c, b, h, x, y, z, π, ai, q, ax, sg, hl⟩ := hl
  exact ⟨a, g, c, b, h, x, y, z, π, ai, q, ax, sg, live_keep hl hk hs⟩

theorem sizes_of {w : Work F} (hl : LiveW amd T S w) : Sizes w T S := by
  obtain ⟨a, g, c, b, h, x, y, z, π, ai, q, ax, sg, hl⟩ := hl
  exact hl.sz

theorem sizes_info {w : Work F} (hs : Sizes w T S) (i : Stats F) : Sizes { w with info := i } T S :=
  ⟨hs.n, hs.m, hs.p, hs.D, hs.x, hs.y, hs.z, hs.s, hs.bx, hs.b_y, hs.bz, hs.bs, hs.rx, hs.ry, hs.rz⟩

theorem full_info {w : Work F} (hs : Full w T) (i : Stats F) : Full { w with info := i } T :=
  ⟨hs.x, hs.y, hs.z, hs.s, hs.kap, hs.tau⟩

section exits
variable [HasInf F]

theorem cmpPos_runs {a b : Option F} (ha : Cd ∨ ∃ v, a = some v) (hb : Cd ∨ ∃ v, b = some v) : Runs (Uninit Cd) (cmpPos a b) fun _ => True := by
  unfold cmpPos
  refine Runs.bind (get_runs ha) fun x _ => andM_runs (Runs.bind (get_runs hb) fun y _ => andM_runs ?_)
  trivial

theorem cmpLt_runs {a b : Option F} (ha : Cd ∨ ∃ v, a = some v) (hb : Cd ∨ ∃ v, b = some v) : Runs (Uninit Cd) (cmpLt a b) fun _ => True := by
  unfold cmpLt
  refine Runs.bind (get_runs ha) fun x _ => andM_runs (Runs.bind (get_runs hb) fun y _ => ?_)
  trivial

theorem compareStatistics_runs {i j : Stats F} (hi : StatI i) (hj : Cd ∨ StatI j) :
    Runs (Uninit Cd) (compareStatistics i j) fun _ => True := by
  have gi : Cd ∨ StatI i := Or.inr hi
  unfold compareStatistics
  refine Runs.bind (get_runs (gi.imp_right (·.pinfres))) fun pa _ => ?_
  refine Runs.bind (andM_runs (Runs.bind (get_runs (gi.imp_right (·.kapovert))) fun k _ => trivial)) fun c _ => ?_
  split
  · refine Runs.bind (get_runs (hj.imp_right (·.pinfres))) fun pb _ => ?_
    split
    · refine Runs.bind (cmpPos_runs (gi.imp_right (·.gap)) (hj.imp_right (·.gap))) fun r _ => ?_
      refine Runs.bind (andM_runs (cmpLt_runs (gi.imp_right (·.pinfres)) (hj.imp_right (·.pres)))) fun r _ => ?_
      exact andM_runs (cmpLt_runs (gi.imp_right (·.mu)) (hj.imp_right (·.mu)))
    · refine Runs.bind (cmpPos_runs (gi.imp_right (·.gap)) (hj.imp_right (·.gap))) fun r _ => ?_
      exact andM_runs (cmpLt_runs (gi.imp_right (·.mu)) (hj.imp_right (·.mu)))
  · refine Runs.bind (cmpPos_runs (gi.imp_right (·.gap)) (hj.imp_right (·.gap))) fun r _ => ?_
    refine Runs.bind (andM_runs (cmpLt_runs (gi.imp_right (·.pres)) (hj.imp_right (·.pres)))) fun r _ => ?_
    refine Runs.bind (andM_runs (cmpLt_runs (gi.imp_right (·.dres)) (hj.imp_right (·.dres)))) fun r _ => ?_
    refine Runs.bind (andM_runs (cmpLt_runs (gi.imp_right (·.kapovert)) (hj.imp_right (·.kapovert)))) fun r _ => ?_
    exact andM_runs (cmpLt_runs (gi.imp_right (·.mu)) (hj.imp_right (·.mu)))

theorem checkExit_runs {w : Work F} (hi : Cd ∨ StatI w.info) (hp : Cd ∨ Prods w) (hf : Cd ∨ Full w T) (mode : Int) :
    Runs (Uninit Cd) (checkExitConditions w mode) fun r =>
      ∃ p d, r.1 = { w with info := { w.info with pinf := p, dinf := d } } := by
  unfold checkExitConditions
  have hE : Runs (Uninit Cd) (exitIn w) fun _ => True := by
    unfold exitIn
    refine Runs.bind (get_runs (hp.imp_right (·.cx))) fun _ _ => ?_
    refine Runs.bind (get_runs (hp.imp_right (·.b_y))) fun _ _ => ?_
    refine Runs.bind (get_runs (hp.imp_right (·.hz))) fun _ _ => ?_
    refine Runs.bind (get_runs (hi.imp_right (·.pres))) fun _ _ => ?_
    refine Runs.bind (get_runs (hi.imp_right (·.dres))) fun _ _ => ?_
    refine Runs.bind (get_runs (hi.imp_right (·.gap))) fun _ _ => ?_
    refine Runs.bind (get_runs (hi.imp_right (·.relgap))) fun _ _ => ?_
    refine Runs.bind (get_runs (hi.imp_right (·.pinfres))) fun _ _ => ?_
    refine Runs.bind (get_runs (hi.imp_right (·.dinfres))) fun _ _ => ?_
    refine Runs.bind (get_runs (hf.imp_right (·.tau))) fun _ _ => ?_
    refine Runs.bind (get_runs (hf.imp_right (·.kap))) fun _ _ => ?_
    trivial
  refine Runs.bind hE fun e _ => ?_
  rw [Runs_ite]
  refine ⟨fun _ => ⟨_, _, rfl⟩, fun _ => ?_⟩
  rw [Runs_ite]
  refine ⟨fun _ => ⟨_, _, rfl⟩, fun _ => ?_⟩
  rw [Runs_ite]
  exact ⟨fun _ => ⟨_, _, rfl⟩, fun _ => ⟨w.info.pinf, w.info.dinf, rfl⟩⟩

/-- what an exit leaves: the data and sizes of before, an iterate and its statistics -/
def Left (Cd : Prop) (w : Work F) (T : Pat) (S : Shape) (w' : Work F) : Prop :=
  Keep w w' ∧ Sizes w' T S ∧ (Cd ∨ Full w' T ∧ StatI w'.info)

theorem inaccOr_runs {w : Work F} (hs : Sizes w T S) (hi : Cd ∨ StatI w.info) (hp : Cd ∨ Prods w) (hf : Cd ∨ Full w T) (d : Int) :
    Runs (Uninit Cd) (inaccOr w d) fun r => Left Cd w T S r.1 := by
  unfold inaccOr
  refine Runs.bind (checkExit_runs hi hp hf INACC) fun r hr => ?_
  obtain ⟨p, d, hr⟩ := hr
  rw [Runs_pure]
  show Left Cd w T S r.1
  rw [hr]
  refine ⟨⟨rfl, rfl, rfl, rfl, rfl, rfl, rfl, rfl, rfl, rfl, rfl, rfl, rfl⟩, sizes_info hs _, ?_⟩
  rcases hf with hf | hf
  · exact .inl hf
  · rcases hi with hi | hi
    · exact .inl hi
    · exact .inr ⟨full_info hf _, ⟨hi.pcost, hi.pres, hi.dres, hi.gap, hi.relgap, hi.pinfres, hi.dinfres, hi.mu, hi.kapovert, hi.dcost⟩⟩

theorem restore_eq {w : Work F} (hs : Sizes w T S) : restoreBestIterate w = .ok { w with
    x := w.bestX, y := w.bestY, z := w.bestZ, s := w.bestS, kap := w.bestKap, tau := w.bestTau, cx := w.bestCx, bY := w.bestBy, hz := w.bestHz,
    info := { w.info with
      pcost := w.bestInfo.pcost, dcost := w.bestInfo.dcost, pres := w.bestInfo.pres,
      dres := w.bestInfo.dres, pinfres := w.bestInfo.pinfres, dinfres := w.bestInfo.dinfres,
      gap := w.bestInfo.gap, relgap := w.bestInfo.relgap, mu := w.bestInfo.mu,
      kapovert := w.bestInfo.kapovert } } := by
  unfold restoreBestIterate
  rw [hs.n, hs.p, hs.m, BB.cpAll_ok hs.bx hs.x, ok_bind_eq, BB.cpAll_ok hs.b_y hs.y, ok_bind_eq, BB.cpAll_ok hs.bz hs.z, ok_bind_eq,
    BB.cpAll_ok hs.bs hs.s, ok_bind_eq, ← hs.n, ← hs.p, ← hs.m]
  rfl

theorem recover_runs {w : Work F} (hs : Sizes w T S) (hB : Cd ∨ Best w T) (d : Int) :
    Runs (Uninit Cd) (recover w d) fun r => Left Cd w T S r.1 := by
  unfold recover
  rw [restore_eq hs, ok_bind_eq]
  refine (inaccOr_runs (T := T) (S := S) ?_ (hB.imp_right fun h => ?_) (hB.imp_right fun h => ?_) (hB.imp_right fun h => ?_) d).mono fun r hr => ?_
  · exact ⟨hs.n, hs.m, hs.p, hs.D, hs.bx, hs.b_y, hs.bz, hs.bs, hs.bx, hs.b_y, hs.bz, hs.bs, hs.rx, hs.ry, hs.rz⟩
  · have k := h.stats
    exact ⟨k.pcost, k.pres, k.dres, k.gap, k.relgap, k.pinfres, k.dinfres, k.mu, k.kapovert, k.dcost⟩
  · exact ⟨h.cx, h.b_y, h.hz⟩
  · exact ⟨h.x, h.y, h.z, h.s, h.kap, h.tau⟩
  · have k := hr.1
    exact ⟨⟨k.A, k.G, k.c, k.b, k.h, k.xe, k.ye, k.ze, k.mA, k.mG, k.C, k.K, k.stgs⟩, hr.2⟩

theorem recoverCmp_runs {w : Work F} (hs : Sizes w T S) (hi : StatI w.info) (hp : Prods w) (hf : Full w T) (hB : Cd ∨ Best w T) (d : Int) :
    Runs (Uninit Cd) (recoverCmp w d) fun r => Left Cd w T S r.1 := by
  unfold recoverCmp
  refine Runs.bind (compareStatistics_runs hi (hB.imp_right (·.stats))) fun b _ => ?_
  split
  · exact inaccOr_runs hs (.inr hi) (.inr hp) (.inr hf) d
  · exact recover_runs hs hB d

theorem save_eq {w : Work F} (hs : Sizes w T S) : saveIterateAsBest w = .ok { w with
    bestX := w.x, bestY := w.y, bestZ := w.z, bestS := w.s,
    bestKap := w.kap, bestTau := w.tau, bestCx := w.cx, bestBy := w.bY, bestHz := w.hz,
    bestInfo := { w.bestInfo with
      pcost := w.info.pcost, dcost := w.info.dcost, pres := w.info.pres, dres := w.info.dres,
      pinfres := w.info.pinfres, dinfres := w.info.dinfres, gap := w.info.gap,
      relgap := w.info.relgap, mu := w.info.mu, kapovert := w.info.kapovert, iter := w.info.iter } } := by
  unfold saveIterateAsBest
  rw [hs.n, hs.p, hs.m, BB.cpAll_ok hs.x hs.bx, ok_bind_eq, BB.cpAll_ok hs.y hs.b_y, ok_bind_eq, BB.cpAll_ok hs.z hs.bz, ok_bind_eq,
    BB.cpAll_ok hs.s hs.bs, ok_bind_eq, ← hs.n, ← hs.p, ← hs.m]
  rfl

theorem keepBest_ok {w : Work F} (hs : Sizes w T S) (hi : StatI w.info) (hp : Prods w) (hf : Full w T)
    (hB : 0 < w.info.iter → Best w T) :
    Ok (keepBest w) fun w' => Best w' T ∧ Sizes w' T S ∧ ∃ a1 a2 a3 a4 a5 a6 a7 a8 a9 a10, w' = { w with
      bestX := a1, bestY := a2, bestZ := a3, bestS := a4, bestKap := a5, bestTau := a6, bestCx := a7, bestBy := a8, bestHz := a9, bestInfo := a10 } := by
  have hsave : Ok (saveIterateAsBest w) fun w' => Best w' T ∧ Sizes w' T S ∧ ∃ a1 a2 a3 a4 a5 a6 a7 a8 a9 a10, w' = { w with
      bestX := a1, bestY := a2, bestZ := a3, bestS := a4, bestKap := a5, bestTau := a6, bestCx := a7, bestBy := a8, bestHz := a9, bestInfo := a10 } := by
    rw [save_eq hs, Ok_ok]
    refine ⟨⟨hf.x, hf.y, hf.z, hf.s, hf.kap, hf.tau, hp.cx, hp.b_y, hp.hz, ?_⟩, ?_, ?_⟩
    · exact ⟨hi.pcost, hi.pres, hi.dres, hi.gap, hi.relgap, hi.pinfres, hi.dinfres, hi.mu, hi.kapovert, hi.dcost⟩
    · exact ⟨hs.n, hs.m, hs.p, hs.D, hs.x, hs.y, hs.z, hs.s, hs.x, hs.y, hs.z, hs.s, hs.rx, hs.ry, hs.rz⟩
    · exact ⟨_, _, _, _, _, _, _, _, _, _, rfl⟩
  unfold keepBest
  split
  · exact hsave
  · rename_i h0
    have hB := hB (by omega)
    refine Ok.bind ((compareStatistics_runs (Cd := False) hi (.inr hB.stats)).ok_of_not_bad fun e h => h.2) fun b _ => ?_
    split
    · exact hsave
    · rw [Ok_pure]
      exact ⟨hB, hs, w.bestX, w.bestY, w.bestZ, w.bestS, w.bestKap, w.bestTau, w.bestCx, w.bestBy, w.bestHz, w.bestInfo, rfl⟩

/-- what the loop hands over between two passes, apart from `Live` -/
theorem notYet_runs {w : Work F} (hs : Sizes w T S) (hi : StatI w.info) (hp : Prods w) (hf : Full w T) (hst : ∃ v, w.info.step = some v)
    {it : Bool} (hB : 0 < w.info.iter → Best w T)
    (hC : (it = true ∨ (w.info.iter : Int) = w.stgs.maxit ∨ ∃ v, w.info.pcost = some v ∧ PFloat.isNaN v = true) → Cd ∨ Best w T) :
    Runs (Uninit Cd) (notYet w it) fun r => match r with
      | .inl r => Left Cd w T S r.1
      | .inr w' => w' = w ∧ (w.info.iter : Int) ≠ w.stgs.maxit := by
  unfold notYet
  refine Runs.bind (get_runs (.inr hst)) fun step _ => ?_
  obtain ⟨pcost, hpc⟩ := hi.pcost
  rw [show get w.info.pcost = .ok pcost by rw [hpc]; rfl, ok_bind_eq]
  split
  · rename_i hh
    refine Runs.bind (recover_runs hs (.inr (hB (by simp at hh; exact hh.1))) _) fun r hr => ?_
    exact hr
  · split
    · rename_i hh
      refine Runs.bind (recoverCmp_runs hs hi hp hf (hC ?_) _) fun r hr => ?_
      · simp only [Bool.or_eq_true, decide_eq_true_eq] at hh
        tauto
      · exact hr
    · rename_i hn
      split
      · rename_i hh
        refine Runs.bind (recoverCmp_runs hs hi hp hf (hC (.inr (.inr ⟨_, hpc, hh⟩))) _) fun r hr => ?_
        exact hr
      · refine ⟨rfl, fun he => hn ?_⟩
        simp [he]

end exits

/-! ### The end of the solve -/

theorem modify_runs {b : Buf F} {n : Nat} {f : Nat → F → M F} (hb : b.size = n) (hv : ∀ i v, i < n → ∃ u, f i v = .ok u)
    (h : Cd ∨ ∃ o, Holds b n o) : Runs (Uninit Cd) (modify b 0 n f) fun b' => b'.size = n ∧ (Cd ∨ ∃ o, Holds b' n o) := by
  by_cases hc : Cd
  · unfold modify
    refine loop_runs (fun _ b' => b'.size = n) (by omega) hb (fun i b' _ hi hb' => ?_) fun _ h => ⟨h, .inl hc⟩
    rw [Nat.zero_add]
    refine Runs.bind (P := fun _ => True) ?_ fun o _ => ?_
    · unfold rd
      have : i < b'.size := by omega
      rw [Array.getElem?_eq_getElem this]
      cases b'[i] with
      | none => exact ⟨rfl, hc⟩
      | some v => trivial
    · obtain ⟨u, hu⟩ := hv i o hi
      rw [hu, ok_bind_eq]
      unfold wr
      rw [if_pos (by omega), Runs_ok]
      simpa using hb'
  · obtain ⟨o, ho⟩ := h.resolve_left hc
    classical
    refine Ok.runs ((modify_holds (g := fun i => if hi : i < n then (hv i (o i) hi).choose else 0) ho fun i hi => ?_).mono fun b' hb' => ⟨hb'.size, .inr ⟨_, hb'⟩⟩)
    rw [dif_pos hi]
    exact (hv i (o i) hi).choose_spec

/-- whatever is in the array before: if the loop ends, every entry has been written -/
theorem modify_full {b b' : Buf F} {n : Nat} {f : Nat → F → M F} (hb : b.size = n) (h : modify b 0 n f = .ok b') : ∃ o, Holds b' n o := by
  have : Runs (fun _ => True) (modify b 0 n f) fun b' => b'.size = n ∧ ∀ i, i < n → ∃ v, b'[i]? = some (some v) := by
    unfold modify
    refine loop_runs (fun k b' => b'.size = n ∧ ∀ i, i < k → ∃ v, b'[i]? = some (some v)) (by omega) ⟨hb, fun i hi => absurd hi (by omega)⟩
      (fun k b1 _ hk h1 => ?_) fun b1 h1 => ⟨h1.1, fun i hi => h1.2 i (by omega)⟩
    rw [Nat.zero_add]
    refine Runs.bind (P := fun _ => True) ?_ fun v _ => Runs.bind (P := fun _ => True) ?_ fun u _ => ?_
    · cases rd b1 k <;> trivial
    · cases f k v <;> trivial
    · unfold wr
      rw [if_pos (by omega), Runs_ok]
      refine ⟨by simpa using h1.1, fun i hi => ?_⟩
      by_cases hik : i = k
      · subst hik
        exact ⟨u, by rw [Array.getElem?_setIfInBounds_self_of_lt (by omega)]⟩
      · obtain ⟨v, hv⟩ := h1.2 i (by omega)
        exact ⟨v, by rw [Array.getElem?_setIfInBounds_ne (Ne.symm hik)]; exact hv⟩
  obtain ⟨h1, h2⟩ := this.out h
  classical
  exact ⟨fun i => if hi : i < n then (h2 i hi).choose else 0, h1, fun i hi => by simp only [dif_pos hi]; exact (h2 i hi).choose_spec⟩

/-- after backscaling the point is there -/
theorem backscale_full {w w' : Work F} (hs : Sizes w T S) (h : backscale w = .ok w') :
    (∃ o, Holds w'.x T.n o) ∧ (∃ o, Holds w'.y T.p o) ∧ (∃ o, Holds w'.z T.m o) ∧ ∃ o, Holds w'.s T.m o := by
  unfold backscale at h
  rw [hs.n, hs.p, hs.m] at h
  simp only [bind_ok, pure_ok] at h
  obtain ⟨tau, -, x, h1, y, h2, z, h3, s, h4, c, -, h⟩ := h
  subst h
  exact ⟨modify_full hs.x h1, modify_full hs.y h2, modify_full hs.z h3, modify_full hs.s h4⟩

theorem backscale_runs {w : Work F} (hl : LiveW amd T S w) (hf : Cd ∨ Full w T) :
    Runs (Uninit Cd) (backscale w) fun w' => LiveW amd T S w' ∧ (Cd ∨ Full w' T) ∧ w'.info = w.info := by
  obtain ⟨a, g, c, b, h, x, y, z, π, ai, q, ax, sg, hl⟩ := hl
  have hd := hl.data
  have hs := hl.sz
  unfold backscale
  rw [hs.n, hs.p, hs.m]
  refine Runs.bind (get_runs (hf.imp_right (·.tau))) fun tau _ => ?_
  refine Runs.bind (modify_runs hs.x (fun i v hi => ⟨_, by rw [hd.xe.rd hi]; rfl⟩) (hf.imp_right (·.x))) fun x1 h1 => ?_
  refine Runs.bind (modify_runs hs.y (fun i v hi => ⟨_, by rw [hd.ye.rd hi]; rfl⟩) (hf.imp_right (·.y))) fun y1 h2 => ?_
  refine Runs.bind (modify_runs hs.z (fun i v hi => ⟨_, by rw [hd.ze.rd hi]; rfl⟩) (hf.imp_right (·.z))) fun z1 h3 => ?_
  refine Runs.bind (modify_runs hs.s (fun i v hi => ⟨_, by rw [hd.ze.rd hi]; rfl⟩) (hf.imp_right (·.s))) fun s1 h4 => ?_
  refine Runs.bind (Ok.runs (mulBy_ok hd.c hd.xe)) fun c1 h5 => ?_
  rw [Runs_pure]
  refine ⟨⟨a, g, _, b, h, x, y, z, π, ai, q, ax, sg, ⟨rfl, rfl, rfl, hs.D, h1.1, h2.1, h3.1, h4.1, hs.bx, hs.b_y, hs.bz, hs.bs, hs.rx, hs.ry, hs.rz⟩,
    ⟨hd.A, hd.G, h5, hd.b, hd.h, hd.xe, hd.ye, hd.ze, hd.ua, hd.mA, hd.mG⟩, hl.cone, hl.made, hl.ord, hl.val⟩, ?_, rfl⟩
  rcases hf with hf | hf
  · exact .inl hf
  rcases h1.2 with hc | h1
  · exact .inl hc
  rcases h2.2 with hc | h2
  · exact .inl hc
  rcases h3.2 with hc | h3
  · exact .inl hc
  rcases h4.2 with hc | h4
  · exact .inl hc
  exact .inr ⟨h1, h2, h3, h4, hf.kap, hf.tau⟩

end generic
end Ecos.Dir
