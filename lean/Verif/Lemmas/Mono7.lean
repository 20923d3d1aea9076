import Verif.Lemmas.Mono6

/-!
# Less unwritten memory: a solve depends on the problem and the settings only
-/
namespace Ecos.Mono

open Ecos Finset Ecos.Fact Ecos.Asm Ecos.Dir

set_option linter.unusedSectionVars false
set_option linter.style.haveILetI false

section generic
variable {F : Type} [Zero F] [One F] [Add F] [Sub F] [Mul F] [Div F] [Neg F] [OfScientific F]
  [IntCast F] [PFloat F] [HasInf F] {T : Pat} {S : Shape} {amd : Nat → Buf Nat → Buf Nat → Option (Buf Nat)}

/-- once the iteration counter is reset, the counters agree -/
theorem work_conv {w w' : Work F} (h : letI : PrRel F := prT T S; w ⊑ w') :
    letI : PrRel F := prE T S; ({ w with info := { w.info with iter := 0 } } : Work F) ⊑ { w' with info := { w'.info with iter := 0 } } := by
  obtain ⟨h1, h2, h3, h4, h5, h6, h7, h8, h9, h10, h11, h12, h13, h14, h15, h16, h17, h18, h19, h20, h21, h22, h23, h24, h25, h26, h27, h28, h29, h30,
    h31, h32, h33, h34, h35, h36, h37, h38, h39, h40, h41, h42, h43, h44, h45, h46, hK, hI, h49⟩ := h
  obtain ⟨k1, k2, k3, k4, k5, k6, k7, k8, k9, k10, k11, k12, k13, k14, k15, k16, k17, k18, k19, k20, k21, k22, k23⟩ := hK
  obtain ⟨i1, i2, i3, i4, i5, i6, i7, i8, i9, i10, i11, i12, i13, i14, i15, -, i17⟩ := hI
  obtain ⟨j1, j2, j3, j4, j5, j6, j7, j8, j9, j10, j11, j12, j13, j14, j15, -, j17⟩ := h20
  letI : PrRel F := prE T S
  have hB : SLe0 w.bestInfo w'.bestInfo := ⟨j1, j2, j3, j4, j5, j6, j7, j8, j9, j10, j11, j12, j13, j14, j15, rfl, j17⟩
  exact ⟨h1, h2, h3, h4, h5, h6, h7, h8, h9, h10, h11, h12, h13, h14, h15, h16, h17, h18, h19, hB, h21, h22, h23, h24, h25, h26, h27, h28, h29, h30,
    h31, h32, h33, h34, h35, h36, h37, h38, h39, h40, h41, h42, h43, h44, h45, h46,
    ⟨k1, k2, k3, k4, k5, k6, k7, k8, k9, k10, k11, k12, k13, k14, k15, k16, k17, k18, k19, k20, k21, k22, k23⟩,
    ⟨i1, i2, i3, i4, i5, i6, i7, i8, i9, i10, i11, i12, i13, i14, i15, rfl, i17⟩, h49⟩

/-- the workspace a pass hands to its second half is in order -/
theorem tail_go {k : Nat} {w a q v : Work F} {r : Work F × Int} {it : Bool} (hG : Go amd w T S) (hB : Best w T ∨ k = 0)
    (ha : passHead w k = .ok a) (hr : checkExitConditions a 0 = .ok r) (hq : notYet r.1 it = .ok (.inr q)) (hv : keepBest q = .ok v) :
    Go amd v T S := by
  obtain ⟨hH, hk, hst, hb⟩ := (passHead_ok hG k).out ha
  have hI := hH.stat
  obtain ⟨pf, df, hr⟩ := (checkExit_runs (T := T) (Cd := False) (.inr hI) (.inr hH.prods) (.inr hH.go.full) 0).out hr
  have hk' : Keep a r.1 := by rw [hr]; exact ⟨rfl, rfl, rfl, rfl, rfl, rfl, rfl, rfl, rfl, rfl, rfl, rfl, rfl⟩
  have hs' : Sizes r.1 T S := by rw [hr]; exact sizes_info hH.go.sz _
  have hf' : Dir.Full r.1 T := by rw [hr]; exact full_info hH.go.full _
  have hG' : Go amd r.1 T S := hH.go.keep hk' hs' hf' (by rw [hr]) (by rw [hr]) (by rw [hr]) (by rw [hr])
  have hI' : StatI r.1.info := by
    rw [hr]
    exact ⟨hI.pcost, hI.pres, hI.dres, hI.gap, hI.relgap, hI.pinfres, hI.dinfres, hI.mu, hI.kapovert, hI.dcost⟩
  have hp' : Prods r.1 := by rw [hr]; exact ⟨hH.prods.cx, hH.prods.b_y, hH.prods.hz⟩
  have hit : r.1.info.iter = k := by rw [hr]; exact hk
  have hb' : 0 < r.1.info.iter → Best r.1 T := fun h0 => by
    rw [hit] at h0
    rcases hB with hB | hB
    · have hB := hb hB
      rw [hr]
      exact ⟨hB.x, hB.y, hB.z, hB.s, hB.kap, hB.tau, hB.cx, hB.b_y, hB.hz, hB.stats⟩
    · omega
  obtain ⟨rfl, -⟩ := (notYet_runs (Cd := True) hs' hI' hp' hf' hG'.step hb' fun _ => .inl trivial).out hq
  obtain ⟨h31, h32, a1, a2, a3, a4, a5, a6, a7, a8, a9, a10, rfl⟩ := (keepBest_ok hs' hI' hp' hf' hb').out hv
  exact hG'.keep ⟨rfl, rfl, rfl, rfl, rfl, rfl, rfl, rfl, rfl, rfl, rfl, rfl, rfl⟩ h32 ⟨hf'.x, hf'.y, hf'.z, hf'.s, hf'.kap, hf'.tau⟩ rfl rfl rfl rfl

theorem tail_rel (hP : PatGood T S) {v v' : Work F} (hG : Go amd v T S) (hv : letI : PrRel F := prE T S; v ⊑ v') :
    letI : PrRel F := prE T S; passTail v ⊑ passTail v' := by
  letI : PrRel F := prE T S
  refine passTail_le hv fun mu u lam C' hu hlam hC' => ?_
  obtain ⟨a, g, c, b, h, xe, ye, ze, π, ai, q, ax, sg, hl, -⟩ := hG.live
  obtain ⟨fz, hz⟩ := hG.full.z
  obtain ⟨fs, hs⟩ := hG.full.s
  have hsz := hl.sz
  have hmS : T.m = S.m := hP.m.symm
  rw [hmS] at hz hs
  have hm : S.fexv ≤ S.m := by
    have : S.m = S.fexv + 3 * S.ne := rfl
    omega
  obtain ⟨hC, hu⟩ := (updateScalings_ok hl.cone hs.has0 hz.has0 (lam := malloc v.m) (by rw [malloc_size, hsz.m, hmS]; exact hm) mu).out hu
  rcases hu with ⟨hu, -⟩ | ⟨l, V, -, hV, -⟩
  · rw [hlam] at hu
    cases hu
  · have hk := hv.KKT
    exact kktUpdate_rel (T := T) (S := S) (fun _ _ _ _ => Iff.rfl) hP hk.jc hk.ir hk.n hk.m hk.nnz hk.pr (by rw [ix_same a g]; exact hC) hV hC'

theorem main_rel (hP : PatGood T S) {v v' : Work F} (hG : Go amd v T S) (arrives : Nat → Bool) {sig : Sig} (hdet : sig.det = false)
    (hv : letI : PrRel F := prT T S; v ⊑ v') : letI : PrRel F := prE T S; mainLoop arrives v sig ⊑ mainLoop arrives v' sig := by
  have hc := work_conv hv
  have hst : v.stgs = v'.stgs := (letI : PrRel F := prT T S; WorkLe.stgs hv)
  letI : PrRel F := prE T S
  haveI : ItEq F := ⟨fun _ _ h => h⟩
  have hG0 : Go amd { v with info := { v.info with iter := 0 } } T S :=
    hG.keep ⟨rfl, rfl, rfl, rfl, rfl, rfl, rfl, rfl, rfl, rfl, rfl, rfl, rfl⟩ (sizes_info hG.sz _) (full_info hG.full _) rfl rfl rfl rfl
  refine mainLoop_le hst hc (fun k L => Go amd L.w T S ∧ (Best L.w T ∨ (k = 0 ∧ L.sig.det = false))) ⟨hG0, .inr ⟨rfl, hdet⟩⟩ ?_ ?_
  · intro k L L' _ hL hLL
    exact pass_le hLL fun a b r q u u' ha _ _ hr _ hq hu huu => tail_rel hP (tail_go hL.1 (hL.2.imp_right (·.1)) ha hr hq hu) huu
  · intro k L L' _ hL hp
    have := (pass_runs (Cd := True) hP hL.1 hL.2 fun _ _ => .inl trivial).out hp
    exact ⟨this.1, .inl this.2.1⟩

theorem liveW_c {w : Work F} {a g c b h x y z : Nat → F} {π ai q : Nat → Nat} {ax : Nat → F} {sg : Nat → Int}
    (hl : Live amd w T S a g c b h x y z π ai q ax sg) {c1 : Buf F} {f : Nat → F} (hc : Holds c1 T.n f) : LiveW amd T S { w with c := c1 } := by
  have hs := hl.sz
  have hd := hl.data
  exact ⟨a, g, _, b, h, x, y, z, π, ai, q, ax, sg,
    ⟨hs.n, hs.m, hs.p, hs.D, hs.x, hs.y, hs.z, hs.s, hs.bx, hs.b_y, hs.bz, hs.bs, hs.rx, hs.ry, hs.rz⟩,
    ⟨hd.A, hd.G, hc, hd.b, hd.h, hd.xe, hd.ye, hd.ze, hd.ua, hd.mA, hd.mG⟩, hl.cone, hl.made, hl.ord, hl.val⟩

/-- the starting point of a solve of the blank workspace is the one of a solve of any other workspace with the same problem -/
theorem init_rel (hamd : ∀ N jc ir P, amd N jc ir = some P → ∃ pf, Holds P N pf ∧ IsPerm N pf) (hP : PatGood T S) {w w' : Work F}
    (hl : LiveW amd T S w) (hl' : LiveW amd T S w') (ht : Twin w w') {c1 c1' : Buf F}
    (hc1 : divBy (blank w).c (blank w).xequil (blank w).n = .ok c1) (hcc : c1 ⊑ c1') :
    LeR (fun o o' => letI : PrRel F := prT T S; Go amd o.1 T S ∧ o.2 = true ∧ o'.2 = true ∧ o.1 ⊑ o'.1)
      (initSolver { blank w with c := c1 }) (initSolver { w' with c := c1' }) := by
  have hle := blank_le hamd hP hl hl' ht
  obtain ⟨a, g, c, b, h, x, y, z, π, ai, q, ax, sg, hl⟩ := hl
  have hb := blank_live hl
  letI : PrRel F := prT T S
  have hc : Holds c1 T.n fun i => c i / x i := by
    rw [hb.sz.n] at hc1
    exact (divBy_ok hb.data.c hb.data.xe).out hc1
  have hlw := liveW_c hb hc
  have hle' : ({ blank w with c := c1 } : Work F) ⊑ { w' with c := c1' } := by
    obtain ⟨h1, h2, h3, h4, h5, h6, h7, h8, h9, h10, h11, h12, h13, h14, h15, h16, h17, h18, h19, h20, h21, h22, h23, h24, h25, h26, h27, h28, h29, h30,
      h31, h32, h33, h34, h35, h36, h37, h38, h39, h40, h41, h42, h43, h44, h45, h46, hK, hI, h49⟩ := hle
    exact ⟨h1, h2, h3, h4, h5, h6, h7, h8, h9, h10, h11, h12, h13, h14, h15, h16, h17, h18, h19, h20, h21, h22, h23, hcc, h25, h26, h27, h28, h29, h30,
      h31, h32, h33, h34, h35, h36, h37, h38, h39, h40, h41, h42, h43, h44, h45, h46, hK, hI, h49⟩
  have hk := hle'.KKT
  have hi := initSolver_le hle' (kktInit_rel (T := T) (S := S) (fun _ _ _ _ => Iff.rfl) hP hk.jc hk.ir hk.n hk.m hk.nnz hk.pr
    (by rw [ix_same a g]; exact hb.cone) hle'.C)
  intro o ho
  obtain ⟨o', ho', h1, h2⟩ := hi o ho
  have h2 : o.2 = o'.2 := h2
  obtain ⟨o1, o2, -⟩ := (initSolver_ok hP hlw).out ho
  exact ⟨o', ho', o2, o1, h2.symm.trans o1, h1⟩

/-- A solve that runs from the blank workspace runs the same way from any other workspace with the same problem. -/
theorem solve_le (hamd : ∀ N jc ir P, amd N jc ir = some P → ∃ pf, Holds P N pf ∧ IsPerm N pf) (hP : PatGood T S) {w w' : Work F}
    (hl : LiveW amd T S w) (hl' : LiveW amd T S w') (ht : Twin w w') (arrives : Nat → Bool) {sig sig' : Sig} (hsig : sig.cur = sig'.cur) :
    letI : PrRel F := prE T S; ecosSolve arrives (blank w) sig ⊑ ecosSolve arrives w' sig' := by
  have hle := blank_le hamd hP hl hl' ht
  have hc : (blank w).c ⊑ w'.c := (letI : PrRel F := prT T S; WorkLe.c hle)
  have hx : (blank w).xequil ⊑ w'.xequil := (letI : PrRel F := prT T S; WorkLe.xequil hle)
  have hn : (blank w).n = w'.n := (letI : PrRel F := prT T S; WorkLe.n hle)
  letI : PrRel F := prE T S
  refine ecosSolve_le (by unfold initCtrlc; rw [hsig]) hc hx hn fun c1 c1' hc1 hcc => ?_
  intro o ho
  obtain ⟨o', ho', h1, h2, h3, h4⟩ := init_rel hamd hP hl hl' ht hc1 hcc o ho
  exact ⟨o', ho', h2, h3, main_rel hP h1 arrives rfl h4⟩

end generic
end Ecos.Mono
