import Verif.Lemmas.BBStart

/-!
# C55: the mixed-integer solver with its real continuous solver stays inside its memory
-/
set_option linter.unusedSectionVars false

namespace Ecos
namespace BB

open Ecos.Asm

/-- one call a user makes between `ECOS_BB_setup` and `ECOS_BB_cleanup`, with its arguments. `arr k i`: a SIGINT arrives before the check
of pass `i` in the `k`-th continuous solve, counted from set-up; `rand` are the values of `rand()`; `ecosStgs` and `stgs` stand for writing
to `prob->ecos_stgs` and `prob->stgs` -/
inductive BBCall (F : Type) where
  | solve (arr : Nat → Nat → Bool) (rand : Nat → Nat) (fuel : Nat)
  | entryH (i : Nat) (v : F)
  | entryC (i : Nat) (v : F)
  | ecosStgs (s : Settings F)
  | stgs (s : Stgs F)

section generic
variable {F : Type} [Zero F] [One F] [Add F] [Sub F] [Mul F] [Div F] [Neg F] [OfScientific F]
  [IntCast F] [PFloat F] [HasInf F] {T : Pat} {S : Shape} {amd : Nat → Buf Nat → Buf Nat → Option (Buf Nat)}

/-- the workspace after one call -/
def BBCall.run (bb : St F (Hid F) (Stats F)) : BBCall F → M (St F (Hid F) (Stats F))
  | .solve arr rand fuel => do let r ← bbSolve (realEnv arr rand) fuel bb; pure r.1
  | .entryH i v => updateDataEntryH bb i v
  | .entryC i v => updateDataEntryC bb i v
  | .ecosStgs s => pure { bb with ecos := { bb.ecos with hid := { bb.ecos.hid with w := { bb.ecos.hid.w with stgs := s } } } }
  | .stgs s => pure { bb with stgs := s }

/-- the workspace after a list of calls -/
def bbCalls : St F (Hid F) (Stats F) → List (BBCall F) → M (St F (Hid F) (Stats F))
  | bb, [] => pure bb
  | bb, o :: os => do let bb' ← o.run bb; bbCalls bb' os

/-- what the caller has to ensure: indices in range (of the problem they set up, with `m` inequalities), no other node limit than the one
the arrays were allocated for, and no strong branching (it is not safe: `C55_strong_branching_violated` in `Props/BBRun`) -/
def BBCall.Valid (n m mx : Nat) : BBCall F → Prop
  | .solve _ rand _ => ∀ k, rand k ≤ RAND_MAX
  | .entryH i _ => i < m
  | .entryC i _ => i < n
  | .ecosStgs _ => True
  | .stgs s => s.maxit = mx ∧ s.strategy ≠ 1

/-- a mixed-integer workspace in order, whose continuous problem has the pattern `T` and the cones `S` -/
def Ready (amd : Nat → Buf Nat → Buf Nat → Option (Buf Nat)) (T : Pat) (S : Shape) (nb ni : Nat) (bv iv : Nat → Nat) (mx : Nat)
    (bb : St F (Hid F) (Stats F)) : Prop :=
  ∃ w0 hu z stgs, stgs.maxit = mx ∧ stgs.strategy ≠ 1 ∧ Holds w0.Gequil T.m z ∧
    Start (realPar amd T S w0 (fun _ => True) nb ni bv iv hu z stgs) (fun _ => True) bb

/-- how a mixed-integer solve may go wrong: a continuous solve reads the best iterate before there is one, which takes a limit of no passes, an
interrupt before the first pass, or a NaN in the first pass for the bounds of some node; a value of a declared variable is too large for the
integer type; random branching does not find a variable to branch on -/
def SolveBad (amd : Nat → Buf Nat → Buf Nat → Option (Buf Nat)) (T : Pat) (S : Shape) (nb ni : Nat) (bb : St F (Hid F) (Stats F))
    (arr : Nat → Nat → Bool) (e : UB) : Prop :=
  (e = .uninit ∧ (bb.ecos.hid.w.stgs.maxit = 0 ∨ (∃ k, arr k 0 = true) ∨
    ∃ w, NodeData amd T S nb ni (toWork bb.ecos) w ∧ FirstNaN w)) ∨
  e = .castRange ∨ (bb.stgs.strategy = 4 ∧ e = .fuel)

variable {w0 : Work F} {cs : (Nat → F) → Prop} {nb ni mx : Nat} {bv iv : Nat → Nat} {hu z : Nat → F} {stgs : Stgs F}
  {bb : St F (Hid F) (Stats F)}

/-- exchange of the continuous workspace and of the settings -/
theorem Start.change {w0' : Work F} {cs' : (Nat → F) → Prop} {hu' z' : Nat → F} {stgs' : Stgs F}
    (hS : Start (realPar amd T S w0 cs nb ni bv iv hu z stgs) (fun _ => True) bb) (hmx : stgs'.maxit = stgs.maxit)
    {e : EW F (Hid F) (Stats F)} {hf : Nat → F} (he : EWF (realPar amd T S w0' cs' nb ni bv iv hu' z' stgs') e hf) :
    Start (realPar amd T S w0' cs' nb ni bv iv hu' z' stgs') (fun _ => True) { bb with ecos := e, stgs := stgs' } := by
  obtain ⟨nf, n1, n2⟩ := hS.nodes
  refine ⟨hS.nb_eq, hS.ni_eq, rfl, ?_, ⟨nf, ?_, fun i hi => ?_⟩, ?_, ?_, hS.hbv, hS.hiv, hS.bv_lt, hS.iv_lt, hS.m_ge,
    ⟨hf, he⟩, hS.sx, hS.sy, hS.sz, hS.ss, hS.tmpB, hS.tmpI, hS.tbB, hS.tbI, hS.pcBS, hS.pcIS, hS.pcBC, hS.pcIC⟩
  · show 0 < stgs'.maxit
    rw [hmx]
    exact hS.maxit_pos
  · show Holds bb.nodes stgs'.maxit nf
    rw [hmx]
    exact n1
  · have hi : i < stgs'.maxit := hi
    rw [hmx] at hi
    obtain ⟨q1, q2, q3, q4, q5⟩ := n2 i hi
    exact ⟨q1, q2, q3, q4, q5⟩
  · show bb.boolIds.size = stgs'.maxit * nb
    rw [hmx]
    exact hS.sbool
  · show bb.intIds.size = 2 * stgs'.maxit * ni
    rw [hmx]
    exact hS.sint

/-- from a workspace in order: the costs in it, and what solves make of them, are costs that may be found -/
theorem Start.costs (hz : Holds w0.Gequil T.m z) (hS : Start (realPar amd T S w0 cs nb ni bv iv hu z stgs) (fun _ => True) bb) :
    ∃ xe c0, Holds (toWork bb.ecos).Gequil T.m z ∧ Holds (toWork bb.ecos).xequil T.n xe ∧ Holds bb.ecos.c T.n c0 ∧
      Start (realPar amd T S (toWork bb.ecos) (Costs T.n xe c0) nb ni bv iv hu z stgs) (fun _ => True) bb := by
  obtain ⟨hf, he⟩ := hS.hew
  have fx := toWork_fixed hz he
  obtain ⟨_, _, c0, _, _, xe, _, _, _, _, _, _, _, hl⟩ := toWork_live hz he
  have hc0 : Holds bb.ecos.c T.n c0 := hl.data.c
  have ht : bb.stgs = stgs := hS.stgs_eq
  have k := Start.change (stgs' := stgs) hS rfl (w0' := toWork bb.ecos) (cs' := Costs T.n xe c0) (hu' := hu) (z' := z) (e := bb.ecos) (hf := hf)
    ⟨he.hn, he.hp, he.hm, ⟨c0, .start fun _ _ => rfl, hc0⟩, he.hh, he.hg, he.sx, he.sy, he.sz, he.ss, he.huser, he.hbnd, he.hok.1,
      ⟨rfl, rfl, rfl, rfl, rfl, he.hok.2.ze.trans fx.ze.symm, rfl⟩⟩
  rw [← ht] at k ⊢
  exact ⟨xe, c0, he.hg, hl.data.xe, hc0, k⟩

/-- a solve keeps the workspace in order -/
theorem solve_start (hP : PatGood T S) (LL : LtLaws F) (hp : 0 < nb + ni) (hz : Holds w0.Gequil T.m z) (hcs : CostOk T w0 cs)
    (hS : Start (realPar amd T S w0 cs nb ni bv iv hu z stgs) (fun _ => True) bb) {arr : Nat → Nat → Bool} {rand : Nat → Nat}
    (hr : ∀ k, rand k ≤ RAND_MAX) (h1 : stgs.strategy ≠ 1) (fuel : Nat) :
    Runs (fun e => RealBad amd T S w0 cs nb ni bv iv hu z stgs arr e ∨ e = .castRange ∨ (stgs.strategy = 4 ∧ e = .fuel))
      (bbSolve (realEnv arr rand) fuel bb)
      fun r => Start (realPar amd T S w0 cs nb ni bv iv hu z stgs) (fun _ => True) r.1 := by
  have K := real_contract (amd := amd) (nb := nb) (ni := ni) (bv := bv) (iv := iv) (hu := hu) (stgs := stgs) (arr := arr) hP hz hcs hr
  have H := hyp_any (Rb := fun _ => True) K hp (fun _ _ _ _ _ _ => trivial)
  have hb := bbSolve_ok H LL (fun h => absurd h h1) (noPt _ (realEnv arr rand) (fun _ => True) (fun _ _ => trivial) trivial) fuel hS
  refine Runs.mono hb ?_
  rintro r ⟨bb', g', cur', hi, -, rfl⟩
  exact start_again hi hS.maxit_pos

theorem solve_runs (hP : PatGood T S) (LL : LtLaws F) (hp : 0 < nb + ni) (hz : Holds w0.Gequil T.m z) (hcs : CostOk T w0 cs)
    (hS : Start (realPar amd T S w0 cs nb ni bv iv hu z stgs) (fun _ => True) bb) {arr : Nat → Nat → Bool} {rand : Nat → Nat}
    (hr : ∀ k, rand k ≤ RAND_MAX) (h1 : stgs.strategy ≠ 1) (fuel : Nat) :
    Runs (SolveBad amd T S nb ni bb arr) (bbSolve (realEnv arr rand) fuel bb)
      fun r => Start (realPar amd T S w0 cs nb ni bv iv hu z stgs) (fun _ => True) r.1 := by
  have hpost := solve_start hP LL hp hz hcs hS (arr := arr) hr h1 fuel
  obtain ⟨xe, c0, hz', hx, hc, hS'⟩ := hS.costs hz
  have hbad := solve_start hP LL hp hz' (costOk_costs hx) hS' (arr := arr) hr h1 fuel
  obtain ⟨hf0, he0⟩ := hS'.hew
  cases hm : bbSolve (realEnv arr rand) fuel bb with
  | ok r => exact hpost.out hm
  | error u =>
    show SolveBad amd T S nb ni bb arr u
    rcases hbad.err hm with ⟨rfl, he⟩ | rfl | ⟨h4, rfl⟩
    · refine .inl ⟨rfl, ?_⟩
      rcases he with he | he | ⟨e, hf, he, hi, hn⟩
      · exact .inl he
      · exact .inr (.inl he)
      · exact .inr (.inr ⟨_, nodeData_of hz' hS.m_ge hx hc he0 he hi, hn⟩)
    · exact .inr (.inl rfl)
    · refine .inr (.inr ⟨?_, rfl⟩)
      rw [hS.stgs_eq]
      exact h4

/-- **C55, set-up** from arrays of a consistent problem with distinct declared variables, and at least one: the set-up of the
mixed-integer solver either gives a workspace in order, or follows the null pointer that `ECOS_setup` returns when the ordering routine
fails; nothing else can go wrong -/
theorem C55_setup (hamd : ∀ N jc ir P, amd N jc ir = some P → ∃ pf, Holds P N pf ∧ IsPerm N pf) (hP : PatGood T S) {A : BBArgs F}
    {a0 g0 c0 h0 b0 : Nat → F} (hA : BBGiven T S A a0 g0 c0 h0 b0 bv iv) (sig : Sig) (hp : 0 < A.nb + A.ni) (hm : 0 < A.stgs.maxit)
    (h1 : A.stgs.strategy ≠ 1) :
    Runs (fun e => e = .nullDeref ∧ ∃ N jc ir, amd N jc ir = none) (bbSetup amd A sig)
      fun bb => ∃ T' S', PatGood T' S' ∧ T'.n = T.n ∧ T'.m = T.m + 2 * (A.nb + A.ni) ∧ T'.p = T.p ∧ S'.l = S.l + 2 * (A.nb + A.ni) ∧
        Ready amd T' S' A.nb A.ni bv iv A.stgs.maxit bb := by
  refine (bbSetup_made hamd hP hA sig).mono ?_
  rintro bb ⟨t, irO, prO, hO, w, hM⟩
  obtain ⟨z, hz, hS⟩ := hM.start hamd hA (cs := fun _ => True) trivial hp hm
  exact ⟨_, _, hM.good, rfl, rfl, rfl, rfl, w, _, z, _, rfl, h1, hz, hS⟩

/-- **C55, one call** on a workspace in order: it ends with a workspace in order, or it is a solve that goes wrong in one of the three ways
of `SolveBad` -/
theorem C55_call (hP : PatGood T S) (LL : LtLaws F) (hp : 0 < nb + ni) (hb : Ready amd T S nb ni bv iv mx bb) {o : BBCall F}
    (ho : o.Valid T.n (T.m - 2 * (nb + ni)) mx) :
    Runs (fun e => ∃ arr rand fuel, o = .solve arr rand fuel ∧ SolveBad amd T S nb ni bb arr e) (o.run bb) (Ready amd T S nb ni bv iv mx) := by
  obtain ⟨w0, hu, z, stgs, h1, h2, hz, hS⟩ := hb
  obtain ⟨hf, he⟩ := hS.hew
  cases o with
  | solve arr rand fuel =>
    refine Runs.bind ((solve_runs hP LL hp hz costOk_true hS ho h2 fuel).weaken fun e h => ⟨arr, rand, fuel, rfl, h⟩)
      fun r hr => ?_
    exact ⟨w0, hu, z, stgs, h1, h2, hz, hr⟩
  | entryH i v =>
    have hi : i < T.m - 2 * (nb + ni) := ho
    have hlt : i + 2 * bb.nb < T.m := by
      rw [hS.nb_eq]
      show i + 2 * nb < T.m
      omega
    show Runs _ (updateDataEntryH bb i v) _
    unfold updateDataEntryH updH
    rw [he.hg.rd hlt, ok_bind_eq]
    obtain ⟨h', e1, e2⟩ := (Ok.def _ _).mp (he.hh.wr hlt (v / z (i + 2 * bb.nb)))
    have e1 : wr bb.ecos.h (i + 2 * bb.nb) (v / (realPar amd T S w0 (fun _ => True) nb ni bv iv hu z stgs).geq (i + 2 * bb.nb)) = .ok h' := e1
    rw [e1, ok_bind_eq]
    have k := Start.change (stgs' := stgs) hS rfl (w0' := w0) (cs' := fun _ => True) (hu' := upd hf (i + 2 * bb.nb) (v / z (i + 2 * bb.nb)))
      (z' := z) (e := { bb.ecos with h := h' }) (hf := upd hf (i + 2 * bb.nb) (v / z (i + 2 * bb.nb)))
      ⟨he.hn, he.hp, he.hm, he.hc, e2, he.hg, he.sx, he.sy, he.sz, he.ss, fun _ _ _ => rfl, fun r hr => by
        have hr : r < 2 * nb := hr
        have hne : r ≠ i + 2 * bb.nb := by
          rw [hS.nb_eq]
          show r ≠ i + 2 * nb
          omega
        rw [upd_ne _ _ hne]
        exact he.hbnd r hr, he.hok⟩
    rw [show stgs = bb.stgs from hS.stgs_eq.symm] at k
    exact ⟨w0, _, z, bb.stgs, (by rw [show bb.stgs = stgs from hS.stgs_eq]; exact h1), (by rw [show bb.stgs = stgs from hS.stgs_eq]; exact h2), hz, k⟩
  | entryC i v =>
    have hi : i < T.n := ho
    obtain ⟨cf, -, hc⟩ := he.hc
    show Runs _ (updateDataEntryC bb i v) _
    unfold updateDataEntryC updC
    obtain ⟨c', e1, e2⟩ := (Ok.def _ _).mp (hc.wr hi v)
    rw [e1, ok_bind_eq]
    have k := Start.change (stgs' := stgs) hS rfl (w0' := w0) (cs' := fun _ => True) (hu' := hu)
      (z' := z) (e := { bb.ecos with c := c' }) (hf := hf)
      ⟨he.hn, he.hp, he.hm, ⟨_, trivial, e2⟩, he.hh, he.hg, he.sx, he.sy, he.sz, he.ss, he.huser, he.hbnd, he.hok⟩
    rw [show stgs = bb.stgs from hS.stgs_eq.symm] at k
    exact ⟨w0, hu, z, bb.stgs, (by rw [show bb.stgs = stgs from hS.stgs_eq]; exact h1), (by rw [show bb.stgs = stgs from hS.stgs_eq]; exact h2), hz, k⟩
  | ecosStgs s =>
    obtain ⟨⟨a, g, c, b, h', xe, ye, ze, π, ai, q, ax, sg, hl⟩, hx⟩ := he.hok
    have k := Start.change (stgs' := stgs) hS rfl (w0' := { w0 with stgs := s }) (cs' := fun _ => True) (hu' := hu)
      (z' := z) (e := { bb.ecos with hid := { bb.ecos.hid with w := { bb.ecos.hid.w with stgs := s } } }) (hf := hf)
      ⟨he.hn, he.hp, he.hm, he.hc, he.hh, he.hg, he.sx, he.sy, he.sz, he.ss, he.huser, he.hbnd, ⟨a, g, c, b, h', xe, ye, ze, π, ai, q, ax, sg,
        ⟨hl.sz.n, hl.sz.m, hl.sz.p, hl.sz.D, hl.sz.x, hl.sz.y, hl.sz.z, hl.sz.s, hl.sz.bx, hl.sz.b_y, hl.sz.bz, hl.sz.bs, hl.sz.rx,
          hl.sz.ry, hl.sz.rz⟩,
        ⟨hl.data.A, hl.data.G, hl.data.c, hl.data.b, hl.data.h, hl.data.xe, hl.data.ye, hl.data.ze, hl.data.ua, hl.data.mA, hl.data.mG⟩,
        hl.cone, hl.made, hl.ord, hl.val⟩, hx.A, hx.G, hx.b, hx.xe, hx.ye, hx.ze, rfl⟩
    rw [show stgs = bb.stgs from hS.stgs_eq.symm] at k
    exact ⟨{ w0 with stgs := s }, hu, z, bb.stgs, (by rw [show bb.stgs = stgs from hS.stgs_eq]; exact h1),
      (by rw [show bb.stgs = stgs from hS.stgs_eq]; exact h2), hz, k⟩
  | stgs s =>
    obtain ⟨k1, k2⟩ : s.maxit = mx ∧ s.strategy ≠ 1 := ho
    have hmx : s.maxit = stgs.maxit := k1.trans h1.symm
    exact ⟨w0, hu, z, s, k1, k2, hz, Start.change (stgs' := s) hS hmx (w0' := w0) (cs' := fun _ => True) (hu' := hu) (z' := z)
      (e := bb.ecos) (hf := hf) ⟨he.hn, he.hp, he.hm, he.hc, he.hh, he.hg, he.sx, he.sy, he.sz, he.ss, he.huser, he.hbnd, he.hok⟩⟩

/-- **C55** Whatever calls the user makes after the set-up of a mixed-integer problem, with whatever numbers, settings, interrupts and
values of `rand`, in whatever order, strong branching aside: no access outside an allocated block and no null pointer followed. -/
theorem C55_history (hP : PatGood T S) (LL : LtLaws F) (hp : 0 < nb + ni) :
    ∀ (os : List (BBCall F)) {bb : St F (Hid F) (Stats F)}, Ready amd T S nb ni bv iv mx bb →
      (∀ o ∈ os, o.Valid T.n (T.m - 2 * (nb + ni)) mx) →
      Runs (fun e => e = .uninit ∨ e = .castRange ∨ e = .fuel) (bbCalls bb os) (Ready amd T S nb ni bv iv mx)
  | [], _, hw, _ => hw
  | o :: os, bb, hw, ho => by
    unfold bbCalls
    refine Runs.bind (Runs.weaken (C55_call hP LL hp hw (ho o (List.mem_cons_self ..))) ?_) fun bb' hw' =>
      C55_history hP LL hp os hw' fun o h => ho o (List.mem_cons_of_mem _ h)
    rintro e ⟨arr, rand, fuel, -, ⟨he, -⟩ | he | ⟨-, he⟩⟩
    · exact .inl he
    · exact .inr (.inl he)
    · exact .inr (.inr he)

end generic
end BB
end Ecos
