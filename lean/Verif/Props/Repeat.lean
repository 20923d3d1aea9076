import Verif.Lemmas.Mono7
import Verif.Props.Safe
import Verif.Props.Equil
import Verif.Props.Driver

/-!
# Solving again, and solving after an update (C28, C06)

What a solve answers depends on the problem data, the settings and the interrupts, and on nothing else that earlier calls left in the
workspace.
-/
namespace Ecos.Asm

open Ecos Finset Ecos.Fact Ecos.Mono

set_option linter.unusedSectionVars false
set_option linter.style.haveILetI false

section generic
variable {F : Type} [Zero F] [One F] [Add F] [Sub F] [Mul F] [Div F] [Neg F] [OfScientific F]
  [IntCast F] [PFloat F] [HasInf F] {T : Pat} {S : Shape} {amd : Nat → Buf Nat → Buf Nat → Option (Buf Nat)}

/-- two solves gave the same answer: exit code, signal handler, all the variables, the iteration count and the statistics -/
structure SameAnswer (r r' : Work F × Sig × Int) : Prop where
  code : r.2.2 = r'.2.2
  sig : r.2.1 = r'.2.1
  x : r.1.x = r'.1.x
  y : r.1.y = r'.1.y
  z : r.1.z = r'.1.z
  s : r.1.s = r'.1.s
  kap : r.1.kap = r'.1.kap
  tau : r.1.tau = r'.1.tau
  iter : r.1.info.iter = r'.1.info.iter
  stats : 0 ≤ r.1.stgs.maxit → SameStats r.1.info r'.1.info

theorem ole_some {α : Type} {o o' : Option α} (h : o ⊑ o') (hs : ∃ v, o = some v) : o = o' := by
  obtain ⟨v, rfl⟩ := hs
  exact (h v rfl).symm

theorem SameData.twin {w w' : Work F} (h : SameData w w') : Twin w w' :=
  ⟨h.A.symm, h.G.symm, h.c.symm, h.b.symm, h.h.symm, h.xequil.symm, h.Aequil.symm, h.Gequil.symm, h.stgs.symm⟩

theorem SameAnswer.symm {r r' : Work F × Sig × Int} (h : SameAnswer r r') (he : r.1.stgs = r'.1.stgs) : SameAnswer r' r :=
  ⟨h.code.symm, h.sig.symm, h.x.symm, h.y.symm, h.z.symm, h.s.symm, h.kap.symm, h.tau.symm, h.iter.symm, fun h0 => by
    have k := h.stats (by rw [he]; exact h0)
    exact ⟨k.pcost.symm, k.dcost.symm, k.pres.symm, k.dres.symm, k.pinfres.symm, k.dinfres.symm, k.gap.symm, k.relgap.symm, k.mu.symm, k.kapovert.symm⟩⟩

/-- the NaN of the first pass does not come from earlier calls -/
theorem firstNaN_blank (hamd : ∀ N jc ir P, amd N jc ir = some P → ∃ pf, Holds P N pf ∧ IsPerm N pf) (hP : PatGood T S) {w w' : Work F}
    (hl : LiveW amd T S w) (hl' : LiveW amd T S w') (ht : Twin w w') (hn : FirstNaN (blank w)) : FirstNaN w' := by
  obtain ⟨w1, ⟨c1, hc1, hi⟩, a, v, ha, hv, hnan⟩ := hn
  have hdv : (blank w).c ⊑ w'.c ∧ (blank w).xequil ⊑ w'.xequil ∧ (blank w).n = w'.n := by
    letI : PrRel F := prT T S
    have hle := blank_le hamd hP hl hl' ht
    exact ⟨WorkLe.c hle, WorkLe.xequil hle, WorkLe.n hle⟩
  obtain ⟨c1', hc1', hcc⟩ : ∃ c1', divBy w'.c w'.xequil w'.n = .ok c1' ∧ c1 ⊑ c1' := by
    letI : PrRel F := prT T S
    exact divBy_le hdv.1 hdv.2.1 hdv.2.2 _ hc1
  obtain ⟨o', ho', -, -, h3, h4⟩ := init_rel hamd hP hl hl' ht hc1 hcc _ hi
  letI : PrRel F := prT T S
  obtain ⟨a', ha', haa⟩ := passHead_le h4 rfl _ ha
  have hi' : a.info ⊑ a'.info := WorkLe.info haa
  refine ⟨o'.1, ⟨c1', hc1', by rw [ho', ← h3]⟩, a', v, ha', ?_, hnan⟩
  exact (StatsLe.pcost hi') v hv

/-- the answer of a solve is the one of the blank workspace -/
theorem solve_blank (hamd : ∀ N jc ir P, amd N jc ir = some P → ∃ pf, Holds P N pf ∧ IsPerm N pf) (hP : PatGood T S) {w w' : Work F}
    (hl : LiveW amd T S w) (hl' : LiveW amd T S w') (ht : Twin w w') {arrives : Nat → Bool} {sig sig' : Sig} (hsig : sig.cur = sig'.cur)
    (hm : w.stgs.maxit ≠ 0) (ha : arrives 0 = false) (hn : ¬ FirstNaN w) :
    ∃ r r', ecosSolve arrives (blank w) sig = .ok r ∧ ecosSolve arrives w' sig' = .ok r' ∧ SameAnswer r r' := by
  have hb : LiveW amd T S (blank w) := by
    obtain ⟨a, g, c, b, h, x, y, z, π, ai, q, ax, sg, hl⟩ := hl
    exact ⟨a, g, c, b, h, x, y, z, π, ai, q, ax, sg, blank_live hl⟩
  have hcond : ¬ ((blank w).stgs.maxit = 0 ∨ arrives 0 = true ∨ FirstNaN (blank w)) := by
    rintro (h | h | h)
    · exact hm h
    · rw [ha] at h
      cases h
    · exact hn (firstNaN_blank hamd hP hl hl ⟨rfl, rfl, rfl, rfl, rfl, rfl, rfl, rfl, rfl⟩ h)
  obtain ⟨r, er, hr⟩ := (Ok.def _ _).1 (Runs.ok_of_not_bad (Dir.ecosSolve_runs hP hb arrives sig) fun e he => hcond he.2.2)
  obtain ⟨r', er', hrr⟩ := solve_le hamd hP hl hl' ht arrives hsig _ er
  obtain ⟨hf, hst⟩ := hr.2.resolve_left fun h => hcond h.2
  letI : PrRel F := prE T S
  obtain ⟨h1, h2⟩ := hrr
  obtain ⟨h2, h3⟩ := h2
  have h2 : r.2.1 = r'.2.1 := h2
  have h3 : r.2.2 = r'.2.2 := h3
  have h1 : r.1 ⊑ r'.1 := h1
  have hi : r.1.info ⊑ r'.1.info := WorkLe.info h1
  obtain ⟨fx, hx⟩ := hf.x
  obtain ⟨fy, hy⟩ := hf.y
  obtain ⟨fz, hz⟩ := hf.z
  obtain ⟨fs, hs⟩ := hf.s
  refine ⟨r, r', er, er', h3, h2, holds_le hx (WorkLe.x h1), holds_le hy (WorkLe.y h1), holds_le hz (WorkLe.z h1), holds_le hs (WorkLe.s h1),
    ole_some (WorkLe.kap h1) hf.kap, ole_some (WorkLe.tau h1) hf.tau, StatsLe.iter hi, fun h0 => ?_⟩
  have hk := hst (by
    obtain ⟨c, -, h⟩ := Equil.C13_solve_data (w' := r.1) (sig' := r.2.1) (code := r.2.2) er
    split at h
    · rw [h.stgs] at h0
      exact h0
    · obtain ⟨c', -, h⟩ := h
      rw [h.stgs] at h0
      exact h0)
  exact ⟨ole_some (StatsLe.pcost hi) hk.pcost, ole_some (StatsLe.dcost hi) hk.dcost, ole_some (StatsLe.pres hi) hk.pres,
    ole_some (StatsLe.dres hi) hk.dres, ole_some (StatsLe.pinfres hi) hk.pinfres, ole_some (StatsLe.dinfres hi) hk.dinfres,
    ole_some (StatsLe.gap hi) hk.gap, ole_some (StatsLe.relgap hi) hk.relgap, ole_some (StatsLe.mu hi) hk.mu, ole_some (StatsLe.kapovert hi) hk.kapovert⟩

/-- **C28, no memory of earlier calls** Two workspaces of the same problem structure with whatever histories (set-ups, updates, solves
that stopped in whatever way, changed settings), that now hold the same data and settings: a solve of the one and a solve of the other
give the same answer. Asked is only that the solve may make an iteration, that there is no interrupt before its first check and no NaN in
its first pass: otherwise it reads the best iterate before there is one, see `Run.C26_stale_violated`. -/
theorem C47_same (hamd : ∀ N jc ir P, amd N jc ir = some P → ∃ pf, Holds P N pf ∧ IsPerm N pf) (hP : PatGood T S) {w w' : Work F}
    (hw : Reach amd T S w) (hw' : Reach amd T S w') (hd : SameData w w') {arrives : Nat → Bool} {sig sig' : Sig} (hsig : sig.cur = sig'.cur)
    (hm : w.stgs.maxit ≠ 0) (ha : arrives 0 = false) (hn : ¬ FirstNaN w) :
    ∃ r r', ecosSolve arrives w sig = .ok r ∧ ecosSolve arrives w' sig' = .ok r' ∧ SameAnswer r r' := by
  have hl := hw.live hamd hP
  obtain ⟨r0, r, e0, e, h⟩ := solve_blank hamd hP hl hl ⟨rfl, rfl, rfl, rfl, rfl, rfl, rfl, rfl, rfl⟩ (sig := sig) (sig' := sig) rfl hm ha hn
  obtain ⟨r0', r', e0', e', h'⟩ := solve_blank hamd hP hl (hw'.live hamd hP) (SameData.twin hd) (sig := sig) hsig hm ha hn
  rw [e0] at e0'
  cases e0'
  refine ⟨r, r', e, e', h.code.symm.trans h'.code, h.sig.symm.trans h'.sig, h.x.symm.trans h'.x, h.y.symm.trans h'.y, h.z.symm.trans h'.z,
    h.s.symm.trans h'.s, h.kap.symm.trans h'.kap, h.tau.symm.trans h'.tau, h.iter.symm.trans h'.iter, fun h0 => ?_⟩
  have keep : ∀ {w : Work F} {sig : Sig} {r : Work F × Sig × Int}, ecosSolve arrives w sig = .ok r → r.1.stgs = w.stgs := by
    intro w sig r er
    obtain ⟨c, -, h⟩ := Equil.C13_solve_data (w' := r.1) (sig' := r.2.1) (code := r.2.2) er
    split at h
    · exact h.stgs
    · obtain ⟨c', -, h⟩ := h
      exact h.stgs
  have h0' : 0 ≤ r0.1.stgs.maxit := by
    rw [keep e0]
    rw [keep e] at h0
    exact h0
  have k := h.stats h0'
  have k' := h'.stats h0'
  exact ⟨k.pcost.symm.trans k'.pcost, k.dcost.symm.trans k'.dcost, k.pres.symm.trans k'.pres, k.dres.symm.trans k'.dres,
    k.pinfres.symm.trans k'.pinfres, k.dinfres.symm.trans k'.dinfres, k.gap.symm.trans k'.gap, k.relgap.symm.trans k'.relgap,
    k.mu.symm.trans k'.mu, k.kapovert.symm.trans k'.kapovert⟩

/-- **C06, the solve** Take a workspace with whatever history, install new values, and solve. A fresh set-up with the new values, the same
ordering routine and the same settings, followed by a solve, gives the same answer: exit code, variables, iteration count and statistics. -/
theorem C06_solve (hamd : ∀ N jc ir P, amd N jc ir = some P → ∃ pf, Holds P N pf ∧ IsPerm N pf) (hP : PatGood T S) {w : Work F}
    (hw : Reach amd T S w) {t : Apart} (ht : t.G = true → T.hasA = true) {Gpr Apr vc vh vb : Buf F} {a1 g1 c1 h1 b1 : Nat → F}
    (hd : NewData T Gpr Apr vc vh vb a1 g1 c1 h1 b1) {G3 A3 : Mat3 F} {qb : Buf Nat} {cb hb bb : Buf F}
    (hin : Given T S G3 A3 qb cb hb bb a1 g1 c1 h1 b1) {w0 : Work F}
    (h0 : ecosSetup amd T.n T.m T.p S.l S.ns qb S.ne G3 A3 cb hb bb = .ok (.ok w0)) {arrives : Nat → Bool} {sig sig' : Sig}
    (hsig : sig.cur = sig'.cur) (hm : w.stgs.maxit ≠ 0) (ha : arrives 0 = false) (hn : ¬ FirstNaN { w0 with stgs := w.stgs }) :
    Ok (ecosUpdateData w t Gpr Apr vc vh vb) fun u => ∃ r r', ecosSolve arrives { w0 with stgs := w.stgs } sig = .ok r ∧
      ecosSolve arrives u.1 sig' = .ok r' ∧ SameAnswer r r' := by
  obtain ⟨a, g, c, b, h, x, y, z, π, ai, q, ax, sg, hl⟩ := hw.live hamd hP
  refine ((updateData_ok hP hl ht hd.G hd.A hd.c hd.h hd.b eqTrue).self.mono fun u hu => ?_)
  obtain ⟨⟨a2, g2, x2, y2, z2, ax2, hl2, -, -, -, -, -, -, -, -, hstg, -⟩, eu⟩ := hu
  obtain ⟨hr, hset⟩ := (C06_update hamd hP hw ht hd hin).elim eu
  obtain ⟨e1, e2, e3, e4, e5, e6, e7, e8, -⟩ := hset.elim h0 _ rfl
  have hr0 : Reach amd T S w0 := .setup hin h0
  obtain ⟨a3, g3, c3, b3, h3, x3, y3, z3, π3, ai3, q3, ax3, sg3, hl3⟩ := hr0.live hamd hP
  refine C47_same hamd hP (.settings w.stgs hr0) hr ⟨?_, ?_, ?_, ?_, e1, e2, e3, e4, e5, e6, e7, e8, hstg⟩ hsig hm ha hn
  · exact hl2.sz.n.trans hl3.sz.n.symm
  · exact hl2.sz.m.trans hl3.sz.m.symm
  · exact hl2.sz.p.trans hl3.sz.p.symm
  · exact hl2.sz.D.trans hl3.sz.D.symm

end generic

section real
variable [HasInf ℝ] {T : Pat} {S : Shape} {amd : Nat → Buf Nat → Buf Nat → Option (Buf Nat)}

/-- in exact arithmetic the equilibration factors of every workspace are positive -/
theorem Reach.pos (hamd : ∀ N jc ir P, amd N jc ir = some P → ∃ pf, Holds P N pf ∧ IsPerm N pf) (hP : PatGood T S) {w : Work ℝ}
    (hw : Reach amd T S w) : ∃ x : Nat → ℝ, Holds w.xequil T.n x ∧ ∀ i, i < T.n → 0 < x i := by
  induction hw with
  | setup hin h =>
    obtain ⟨a, g, x, y, z, hx, -, -, -, -, -, hr⟩ := (ecosSetup_ok hamd hP hin eqReal).elim h
    exact ⟨x, hr.2.1.xe, hx⟩
  | update hw ht hd hr ih =>
    obtain ⟨a, g, c, b, h, x, y, z, π, ai, q, ax, sg, hl⟩ := hw.live hamd hP
    obtain ⟨a2, g2, x2, y2, z2, ax2, hl2, -, hx, -⟩ := (updateData_ok hP hl ht hd.G hd.A hd.c hd.h hd.b eqReal).elim hr
    exact ⟨x2, hl2.data.xe, hx⟩
  | entryH hw hi h ih =>
    unfold ecosUpdateDataEntryH at h
    simp only [bind_ok, pure_ok] at h
    obtain ⟨e, -, b, -, rfl⟩ := h
    exact ih
  | entryC hw hi h ih =>
    unfold ecosUpdateDataEntryC at h
    simp only [bind_ok, pure_ok] at h
    obtain ⟨e, -, rfl⟩ := h
    exact ih
  | kkt hw hC hW h ih => exact ih
  | kkt0 hw h ih => exact ih
  | settings stgs hw ih => exact ih
  | @solve w arrives sig r hw h ih =>
    obtain ⟨c, -, h⟩ := Equil.C13_solve_data (w' := r.1) (sig' := r.2.1) (code := r.2.2) h
    split at h
    · rw [h.xequil]
      exact ih
    · obtain ⟨c', -, h⟩ := h
      rw [h.xequil]
      exact ih

/-- in exact arithmetic, a solve that does not stop outside of the cone leaves the problem as it was -/
theorem solve_sameData (hamd : ∀ N jc ir P, amd N jc ir = some P → ∃ pf, Holds P N pf ∧ IsPerm N pf) (hP : PatGood T S) {w w' : Work ℝ}
    (hw : Reach amd T S w) {arrives : Nat → Bool} {sig sig' : Sig} {code : Int} (h : ecosSolve arrives w sig = .ok (w', sig', code))
    (hcode : code ≠ OUTCONE) : SameData w w' := by
  obtain ⟨x, hx, h0⟩ := hw.pos hamd hP
  obtain ⟨a, g, c, b, hh, x', y, z, π, ai, q, ax, sg, hl⟩ := hw.live hamd hP
  have hn := hl.sz.n
  obtain ⟨c1, h1, h2⟩ := Equil.C13_solve_data h
  rw [if_neg hcode] at h2
  obtain ⟨c2, h2, h3⟩ := h2
  have k := (Equil.C13_c_restored_partial h hcode (c := c) (x := x) (by rw [hn]; exact hl.data.c) (by rw [hn]; exact hx)
    fun j hj => (h0 j (by rw [← hn]; exact hj)).ne').1
  rw [h3.n] at k
  have k : Holds w'.c w.n c := k
  rw [hn] at k
  exact ⟨h3.n, h3.m, h3.p, h3.D, h3.A, h3.G, k.same hl.data.c, h3.b, h3.h, h3.xequil, h3.Aequil, h3.Gequil, h3.stgs⟩

/-- **C28** In exact arithmetic, a solve that was not cut off in its first pass and did not stop outside of the cone (see
`Run.C28_outcone_violated` for that case) gives the same answer when it is called again, with the same interrupts and the same handler (the
first solve puts it back, `C27_handler_restored`): exit code, variables, iteration count and statistics. -/
theorem C28_again_partial (hamd : ∀ N jc ir P, amd N jc ir = some P → ∃ pf, Holds P N pf ∧ IsPerm N pf) (hP : PatGood T S) {w : Work ℝ}
    (hw : Reach amd T S w) {arrives : Nat → Bool} {sig : Sig} {r : Work ℝ × Sig × Int} (h : ecosSolve arrives w sig = .ok r)
    (hcode : r.2.2 ≠ OUTCONE) (hm : w.stgs.maxit ≠ 0) (ha : arrives 0 = false) {sig' : Sig} (hsig : sig.cur = sig'.cur) :
    ∃ r', ecosSolve arrives r.1 sig' = .ok r' ∧ SameAnswer r r' := by
  have hd := solve_sameData hamd hP hw (w' := r.1) (sig' := r.2.1) (code := r.2.2) h hcode
  have hn : ¬ FirstNaN w := by
    rintro ⟨_, _, _, v, -, -, hv⟩
    exact absurd hv (by simp)
  obtain ⟨r1, r', e1, e', k⟩ := C47_same hamd hP hw (.solve hw h) hd hsig hm ha hn
  rw [h] at e1
  cases e1
  exact ⟨r', e', k⟩

end real
end Ecos.Asm

namespace Ecos.Asm

open Ecos Ecos.Mono

/-! ### Workspaces meeting the hypotheses -/

/-- the first primal cost of a solve is a number -/
def firstNumber (w : Work Fx) : Bool :=
  match divBy w.c w.xequil w.n with
  | .ok c =>
    match initSolver { w with c := c } with
    | .ok (w1, _) =>
      match passHead w1 0 with
      | .ok a => (match a.info.pcost with | some v => !PFloat.isNaN v | none => true)
      | _ => true
    | _ => true
  | _ => true

theorem firstNumber_spec {w : Work Fx} (h : firstNumber w = true) : ¬ FirstNaN w := by
  rintro ⟨w1, ⟨c, hc, hi⟩, a, v, ha, hv, hn⟩
  unfold firstNumber at h
  simp [hc, hi, ha, hv, hn] at h

/-- the problem of C06 is set up and solved, with an interrupt before pass 1 and at most one iteration -/
def exUsed : M (Work Fx) := do
  match ← exSetup6 [-1.0, 2.0, 1.0, 3.0, -4.0] [1.0, 1.0] [1.0, 1.0] [0.0, 1.0, 0.0, 0.0, 0.0, 1.0, 2.0] [1.0] with
  | .ok w => do let r ← ecosSolve (fun k => k == 1) { w with stgs := { w.stgs with maxit := 1 } } ⟨.user 7, .user 0, false⟩; pure r.1
  | _ => throw .uninit

/-- a problem with the same pattern, set up from scratch -/
def exFresh : M (SetupRes Fx) := exSetup6 [5.0, -2.0, 1.0, 7.0, 3.0] [2.0, -1.0] [1.0, 2.0] [1.0, 1.0, 0.0, 0.0, 1.0, 1.0, 2.0] [3.0]

def exSame : Bool :=
  match exUsed, exFresh with
  | .ok w, .ok (.ok w0) =>
    firstNumber { w0 with stgs := w.stgs } && decide (w.stgs.maxit ≠ 0) &&
    (match ecosSolve (fun _ => false) { w0 with stgs := w.stgs } ⟨.user 7, .user 0, false⟩ with
      | .ok r => decide (r.1.info.iter = 1 ∧ r.2.2 = MAXIT)
      | _ => false)
  | _, _ => false

theorem exSame_run : exSame = true := by decide +kernel

/-- The used workspace is given the other problem and solved: it stops after one iteration with the code the solve of the fresh workspace
stops with. -/
example : ∃ w w0 : Work Fx, exUsed = .ok w ∧ exFresh = .ok (.ok w0) ∧
    Ok (ecosUpdateData w ⟨true, true, true, true, true⟩ (ofList [5.0, -2.0, 1.0, 7.0, 3.0]) (ofList [2.0, -1.0]) (ofList [1.0, 2.0])
      (ofList [1.0, 1.0, 0.0, 0.0, 1.0, 1.0, 2.0]) (ofList [3.0])) fun u =>
      Ok (ecosSolve (fun _ => false) u.1 ⟨.user 7, .user 1, true⟩) fun r' => r'.2.2 = MAXIT ∧ r'.1.info.iter = 1 := by
  have h := exSame_run
  unfold exSame at h
  split at h
  · rename_i w w0 hw hw0
    simp only [Bool.and_eq_true, decide_eq_true_eq] at h
    obtain ⟨⟨h1, h2⟩, h3⟩ := h
    refine ⟨w, w0, hw, hw0, ?_⟩
    have hr : Reach exRev exPat5 exShape5 w := by
      unfold exUsed at hw
      rw [bind_ok] at hw
      obtain ⟨s, hs, hw⟩ := hw
      split at hw
      · rw [bind_ok] at hw
        obtain ⟨r, hr, hw⟩ := hw
        rw [pure_ok] at hw
        subst hw
        exact .solve (.settings _ (.setup (exGiven6 _ _ _ _ _ rfl rfl rfl rfl rfl) hs)) hr
      · exact absurd hw (by intro h; cases h)
    have hG := exGiven6 [5.0, -2.0, 1.0, 7.0, 3.0] [2.0, -1.0] [1.0, 2.0] [1.0, 1.0, 0.0, 0.0, 1.0, 1.0, 2.0] [3.0] rfl rfl rfl rfl rfl
    have hd : NewData exPat5 (ofList [5.0, -2.0, 1.0, 7.0, 3.0]) (ofList [2.0, -1.0]) (ofList [1.0, 2.0]) (ofList [1.0, 1.0, 0.0, 0.0, 1.0, 1.0, 2.0])
        (ofList [3.0]) (fun i => [2.0, -1.0].getD i (0 : Fx)) (fun i => [5.0, -2.0, 1.0, 7.0, 3.0].getD i 0) (fun i => [1.0, 2.0].getD i 0)
        (fun i => [1.0, 1.0, 0.0, 0.0, 1.0, 1.0, 2.0].getD i 0) (fun i => [3.0].getD i 0) := by
      refine ⟨?_, fun _ => ?_, hG.c, hG.h, hG.b⟩
      · obtain ⟨pr, jc, ir, e, h1, h2, h3⟩ := hG.G
        cases e
        exact h3
      · have := hG.A
        rw [if_pos (by rfl)] at this
        obtain ⟨pr, jc, ir, e, h1, h2, h3⟩ := this
        cases e
        exact h3
    refine (C06_solve exRev_perm exPat5_good hr (fun _ => rfl) hd hG hw0 (arrives := fun _ => false) (sig := ⟨.user 7, .user 0, false⟩)
      (sig' := ⟨.user 7, .user 1, true⟩) rfl h2 rfl (firstNumber_spec h1)).mono fun u hu => ?_
    obtain ⟨r, r', e, e', k⟩ := hu
    rw [e] at h3
    simp only [decide_eq_true_eq] at h3
    rw [e', Ok_ok]
    exact ⟨k.code.symm.trans h3.2, k.iter.symm.trans h3.1⟩
  · exact absurd h (by decide)

end Ecos.Asm
