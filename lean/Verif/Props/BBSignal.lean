import Verif.Props.BBRun
import Verif.Props.Driver

/-!
# C64: interrupts of the mixed-integer solver, and the signal handler of the caller
-/
set_option linter.unusedSectionVars false

namespace Ecos
namespace BB

open Ecos.Asm

section abstract
variable {F : Type} [Zero F] [One F] [Add F] [Sub F] [Mul F] [Div F] [Neg F] [OfScientific F]
  [IntCast F] [PFloat F] [HasInf F] {W I : Type} {P : Par F W} {env : Env F W I} {G Gb : F → Prop} {bad : UB → Prop} {Q : W → Prop}
  {e : EW F W I} {hf : Nat → F} {bb : St F W I}

/-- in addition, `Q` of the part of the continuous workspace the search does not look at -/
def Par.also (P : Par F W) (Q : W → Prop) : Par F W := { P with ok := fun k => P.ok k ∧ Q k }

theorem also_ewf : EWF (P.also Q) e hf ↔ EWF P e hf ∧ Q e.hid :=
  ⟨fun h => ⟨⟨h.hn, h.hp, h.hm, h.hc, h.hh, h.hg, h.sx, h.sy, h.sz, h.ss, h.huser, h.hbnd, h.hok.1⟩, h.hok.2⟩,
    fun ⟨h, q⟩ => ⟨h.hn, h.hp, h.hm, h.hc, h.hh, h.hg, h.sx, h.sy, h.sz, h.ss, h.huser, h.hbnd, h.hok, q⟩⟩

/-- what the continuous solver keeps may be added to its contract -/
theorem Contract.also (H : Contract P env G Gb bad)
    (hQ : ∀ e e' c hf, EWF P e hf → env.solve e = .ok (e', c) → Q e.hid → Q e'.hid) : Contract (P.also Q) env G Gb bad where
  solve := fun e hf he hi => by
    obtain ⟨he, q⟩ := also_ewf.1 he
    have h := H.solve e hf he hi
    cases hs : env.solve e with
    | error u => exact h.err hs
    | ok r =>
      obtain ⟨h1, h2⟩ := h.out hs
      exact ⟨also_ewf.2 ⟨h1, hQ _ _ _ _ he hs q⟩, h2⟩
  solveB := fun bid iid code xf hb ⟨hf, hr, e, e', he, hs, hx⟩ ha =>
    H.solveB bid iid code xf hb ⟨hf, ⟨hr.one, hr.zero, hr.star, hr.int⟩, e, e', (also_ewf.1 he).1, hs, hx⟩ ha
  rand := H.rand

theorem Start.also (hS : Start P G bb) (q : Q bb.ecos.hid) : Start (P.also Q) G bb := by
  obtain ⟨nf, n1, n2⟩ := hS.nodes
  obtain ⟨hf, he⟩ := hS.hew
  exact ⟨hS.nb_eq, hS.ni_eq, hS.stgs_eq, hS.maxit_pos, ⟨nf, n1, fun i hi => by
    obtain ⟨q1, q2, q3, q4, q5⟩ := n2 i hi
    exact ⟨q1, q2, q3, q4, q5⟩⟩, hS.sbool, hS.sint, hS.hbv, hS.hiv, hS.bv_lt, hS.iv_lt, hS.m_ge,
    ⟨hf, also_ewf.2 ⟨he, q⟩⟩, hS.sx, hS.sy, hS.sz, hS.ss, hS.tmpB, hS.tmpI, hS.tbB, hS.tbI, hS.pcBS, hS.pcIS, hS.pcBC, hS.pcIC⟩

/-- a mixed-integer solve keeps what every continuous solve keeps -/
theorem solve_keeps (H : Contract P env (fun _ => True) (fun _ => True) bad) (LL : LtLaws F) (hp : 0 < P.nb + P.ni)
    (hQ : ∀ e e' c hf, EWF P e hf → env.solve e = .ok (e', c) → Q e.hid → Q e'.hid) (hS : Start P (fun _ => True) bb)
    (h1 : P.stgs.strategy ≠ 1) (q : Q bb.ecos.hid) {fuel : Nat} {bb' : St F W I} {code : Int} (h : bbSolve env fuel bb = .ok (bb', code)) :
    Q bb'.ecos.hid := by
  have K := hyp_any (Rb := fun _ => True) (H.also hQ) hp (fun _ _ _ _ _ _ => trivial)
  obtain ⟨b, g, cur, hi, -, e⟩ := (bbSolve_ok K LL (fun h => absurd h h1) (noPt _ env (fun _ => True) (fun _ _ => trivial) trivial) fuel
    (hS.also q)).out h
  obtain ⟨hf, he⟩ := hi.rep.hew
  obtain ⟨rfl, -⟩ := Prod.mk.inj e
  exact (also_ewf.1 he).2

end abstract

section generic
variable {F : Type} [Zero F] [One F] [Add F] [Sub F] [Mul F] [Div F] [Neg F] [OfScientific F]
  [IntCast F] [PFloat F] [HasInf F] {T : Pat} {S : Shape} {amd : Nat → Buf Nat → Buf Nat → Option (Buf Nat)}
  {nb ni mx : Nat} {bv iv : Nat → Nat} {bb bb' : St F (Hid F) (Stats F)} {arr : Nat → Nat → Bool} {rand : Nat → Nat} {fuel : Nat} {code : Int}

/-- after a continuous solve: the handler from before, or that of ECOS -/
theorem handler_after {arrives : Nat → Bool} {w w' : Work F} {sig sig' : Sig}
    (h : ecosSolve arrives w sig = .ok (w', sig', code)) : sig'.cur = sig.cur ∨ sig'.cur = .ecos := by
  obtain ⟨-, rfl⟩ | ⟨w1, hw1, hs, ⟨k, e, hl, hcode, hend⟩ | ⟨-, -, rfl⟩⟩ := ecosSolve_cases h
  · exact .inr rfl
  · obtain ⟨-, -, rfl⟩ | ⟨-, -, rfl⟩ := hend
    · exact .inr (leaves_sig hl).1
    · exact .inl (leaves_sig hl).2
  · exact .inl rfl

theorem realEnv_solve {e e' : EW F (Hid F) (Stats F)} (h : (realEnv arr rand).solve e = .ok (e', code)) :
    ∃ w sig, ecosSolve (arr e.hid.calls) (toWork e) e.hid.sig = .ok (w, sig, code) ∧ e' = ofWork w sig (e.hid.calls + 1) := by
  have h : (ecosSolve (arr e.hid.calls) (toWork e) e.hid.sig >>= fun r => pure (ofWork r.1 r.2.1 (e.hid.calls + 1), r.2.2)) = .ok (e', code) := h
  simp only [bind_ok, pure_ok, Prod.mk.injEq] at h
  obtain ⟨⟨w, sig, c⟩, h1, h2, h3⟩ := h
  cases h3
  exact ⟨w, sig, h1, h2.symm⟩

theorem Ready.keeps {Q : Hid F → Prop} (hP : PatGood T S) (LL : LtLaws F) (hp : 0 < nb + ni) (hb : Ready amd T S nb ni bv iv mx bb)
    (hr : ∀ k, rand k ≤ RAND_MAX)
    (hQ : ∀ (e : EW F (Hid F) (Stats F)) w sig c, LiveW amd T S (toWork e) → ecosSolve (arr e.hid.calls) (toWork e) e.hid.sig = .ok (w, sig, c) →
      Q e.hid → Q ⟨w, sig, e.hid.calls + 1⟩)
    (q : Q bb.ecos.hid) (h : bbSolve (realEnv arr rand) fuel bb = .ok (bb', code)) : Q bb'.ecos.hid := by
  obtain ⟨w0, hu, z, stgs, h1, h2, hz, hS⟩ := hb
  have K := real_contract (amd := amd) (nb := nb) (ni := ni) (bv := bv) (iv := iv) (hu := hu) (stgs := stgs) (arr := arr) hP hz costOk_true hr
  refine solve_keeps K LL hp (fun e e' c hf he hs q => ?_) hS h2 q h
  obtain ⟨w, sig, e1, rfl⟩ := realEnv_solve hs
  exact hQ e w sig c (toWork_live hz he) e1 q

/-- **C64, the signal handler.** After a mixed-integer solve, whatever interrupts arrive, the signal handler that was active before the call
is active again, unless one of its continuous solves was left by a `return` in the middle (`OUTCONE`, `FATAL`); then it is that of ECOS. -/
theorem C64_handler_partial (hP : PatGood T S) (LL : LtLaws F) (hp : 0 < nb + ni) (hb : Ready amd T S nb ni bv iv mx bb)
    (hr : ∀ k, rand k ≤ RAND_MAX) (h : bbSolve (realEnv arr rand) fuel bb = .ok (bb', code)) :
    bb'.ecos.hid.sig.cur = bb.ecos.hid.sig.cur ∨ (bb'.ecos.hid.sig.cur = .ecos ∧
      ∃ (k : Nat) (w : Work F) (sig : Sig) (w' : Work F) (sig' : Sig) (c : Int), bb.ecos.hid.calls ≤ k ∧ k < bb'.ecos.hid.calls ∧ LiveW amd T S w ∧ sig.cur = bb.ecos.hid.sig.cur ∧
        ecosSolve (arr k) w sig = .ok (w', sig', c) ∧ (c = OUTCONE ∨ c = FATAL)) := by
  refine (hb.keeps (Q := fun q => bb.ecos.hid.calls ≤ q.calls ∧ (q.sig.cur = bb.ecos.hid.sig.cur ∨ (q.sig.cur = .ecos ∧
      ∃ (k : Nat) (w : Work F) (sig : Sig) (w' : Work F) (sig' : Sig) (c : Int), bb.ecos.hid.calls ≤ k ∧ k < q.calls ∧ LiveW amd T S w ∧ sig.cur = bb.ecos.hid.sig.cur ∧
        ecosSolve (arr k) w sig = .ok (w', sig', c) ∧ (c = OUTCONE ∨ c = FATAL)))) hP LL hp hr ?_ ⟨le_refl _, .inl rfl⟩ h).2
  rintro e w sig c hl hs ⟨hk, q⟩
  refine ⟨Nat.le_succ_of_le hk, ?_⟩
  show sig.cur = _ ∨ (sig.cur = .ecos ∧ _)
  rcases q with q | ⟨q, k, w1, sg1, w2, sg2, c', h1, h2, h3⟩
  · by_cases hc : c = OUTCONE ∨ c = FATAL
    · rcases handler_after hs with h' | h'
      · exact .inl (h'.trans q)
      · exact .inr ⟨h', _, _, _, _, _, _, hk, Nat.lt_succ_self _, hl, q, hs, hc⟩
    · exact .inl ((C27_handler_restored hs (fun h => hc (.inl h)) fun h => hc (.inr h)).trans q)
  · refine .inr ⟨?_, k, w1, sg1, w2, sg2, c', h1, Nat.lt_succ_of_lt h2, h3⟩
    rcases handler_after hs with h' | h'
    · exact h'.trans q
    · exact h'

/-- the handler after one call of any kind -/
theorem call_handler (hP : PatGood T S) (LL : LtLaws F) (hp : 0 < nb + ni) (hb : Ready amd T S nb ni bv iv mx bb) {o : BBCall F}
    (ho : o.Valid T.n (T.m - 2 * (nb + ni)) mx) (h : o.run bb = .ok bb') :
    bb'.ecos.hid.sig.cur = bb.ecos.hid.sig.cur ∨ bb'.ecos.hid.sig.cur = .ecos := by
  cases o with
  | solve arr rand fuel =>
    have h : (bbSolve (realEnv arr rand) fuel bb >>= fun r => pure r.1) = .ok bb' := h
    simp only [bind_ok, pure_ok] at h
    obtain ⟨⟨b, c⟩, h1, rfl⟩ := h
    rcases C64_handler_partial hP LL hp hb ho h1 with h | ⟨h, -⟩
    · exact .inl h
    · exact .inr h
  | entryH i v =>
    have h : updateDataEntryH bb i v = .ok bb' := h
    unfold updateDataEntryH updH at h
    simp only [bind_ok, pure_ok] at h
    obtain ⟨_, ⟨_, -, _, -, rfl⟩, rfl⟩ := h
    exact .inl rfl
  | entryC i v =>
    have h : updateDataEntryC bb i v = .ok bb' := h
    unfold updateDataEntryC updC at h
    simp only [bind_ok, pure_ok] at h
    obtain ⟨_, ⟨_, -, rfl⟩, rfl⟩ := h
    exact .inl rfl
  | ecosStgs s =>
    cases h
    exact .inl rfl
  | stgs s =>
    cases h
    exact .inl rfl

/-- **C64, histories.** After any calls: the handler from before, or that of ECOS. -/
theorem C64_history (hP : PatGood T S) (LL : LtLaws F) (hp : 0 < nb + ni) :
    ∀ (os : List (BBCall F)) {bb bb' : St F (Hid F) (Stats F)}, Ready amd T S nb ni bv iv mx bb →
      (∀ o ∈ os, o.Valid T.n (T.m - 2 * (nb + ni)) mx) → bbCalls bb os = .ok bb' →
      bb'.ecos.hid.sig.cur = bb.ecos.hid.sig.cur ∨ bb'.ecos.hid.sig.cur = .ecos
  | [], _, _, _, _, h => by
    cases h
    exact .inl rfl
  | o :: os, bb, bb', hb, ho, h => by
    unfold bbCalls at h
    simp only [bind_ok] at h
    obtain ⟨b, h1, h2⟩ := h
    have hb' := (C55_call hP LL hp hb (ho o (List.mem_cons_self ..))).out h1
    have k1 := call_handler hP LL hp hb (ho o (List.mem_cons_self ..)) h1
    rcases C64_history hP LL hp os hb' (fun o h => ho o (List.mem_cons_of_mem _ h)) h2 with k2 | k2
    · rw [k2]
      exact k1
    · exact .inr k2

/-- C64 is violated: once a continuous solve has left the handler of ECOS installed, no later call puts the caller's back. -/
theorem C64_lost_violated (hP : PatGood T S) (LL : LtLaws F) (hp : 0 < nb + ni) (os : List (BBCall F))
    (hb : Ready amd T S nb ni bv iv mx bb) (ho : ∀ o ∈ os, o.Valid T.n (T.m - 2 * (nb + ni)) mx) (h : bbCalls bb os = .ok bb')
    (hl : bb.ecos.hid.sig.cur = .ecos) : bb'.ecos.hid.sig.cur = .ecos := by
  rcases C64_history hP LL hp os hb ho h with h | h
  · exact h.trans hl
  · exact h

/-- C64 is violated: whatever interrupts arrive, and whatever they cut short, the answer is one of six codes, and none of them says that the
search was interrupted. -/
theorem C64_never_told_violated {W I : Type} {env : Env F W I} {b b' : St F W I} (h : bbSolve env fuel b = .ok (b', code)) :
    (code = 0 ∨ code = 1 ∨ code = 2 ∨ code = 10 ∨ code = 11 ∨ code = 12) ∧ code ≠ SIGINT := by
  have hc : code = getRetCode b' := by
    unfold bbSolve at h
    simp only [bind_ok, pure_ok, Prod.mk.injEq] at h
    obtain ⟨_, -, _, -, _, -, _, -, _, -, rfl, rfl⟩ := h
    rfl
  have : code = 0 ∨ code = 1 ∨ code = 2 ∨ code = 10 ∨ code = 11 ∨ code = 12 := by
    rw [hc]
    unfold getRetCode
    split_ifs <;> simp
  refine ⟨this, ?_⟩
  unfold SIGINT
  omega

end generic

/-! ### Concrete runs -/
namespace Signal

open Ecos.Run

/-- `min t` subject to `t ≥ 1 - 2 x`, `t ≥ x - 0.2`, `x` boolean -/
def vee : BBArgs Fx :=
  { n := 2, m := 2, p := 0, l := 2, ncones := 0, q := bl [], nexc := 0, gpr := bl [-2.0, 1, -1, -1], gjc := bl [0, 2, 4], gir := bl [0, 1, 0, 1],
    A3 := ⟨none, none, none⟩, c := bl [0, 1], h := bl [-1, 0.2], b := bl [], nb := 1, bools := bl [0], ni := 0, ints := bl [],
    stgs := { bbDefault with maxit := 3, strategy := 0, intTol := 0.01 } }

/-- set-up, wider tolerances for the continuous solver (to keep the run short), and one solve, then a test of the answer -/
def ends (arr : Nat → Nat → Bool) (t : Fx → Fx → Handler → Int → Bool) : Bool :=
  match (do
    let bb ← bbSetup natural vee sg
    let bb ← (BBCall.ecosStgs { bb.ecos.hid.w.stgs with feastol := 0.1, abstol := 0.1, reltol := 0.1 }).run bb
    bbSolve (realEnv arr fun _ => 0) 40 bb : M _) with
  | .ok (bb, code) =>
    match bb.ecos.x[0]?, bb.ecos.x[1]? with
    | some (some x), some (some y) => t x y bb.ecos.hid.sig.cur code
    | _, _ => false
  | .error _ => false

/-- close to `v` -/
def close (x v : Fx) : Bool := lt (PFloat.fabs (x - v)) 0.05

/-- `max x + y` subject to `‖(x, y)‖ ≤ 1`, `x` boolean -/
def disc : BBArgs Fx :=
  { n := 2, m := 3, p := 0, l := 0, ncones := 1, q := bl [3], nexc := 0, gpr := bl [-1, -1], gjc := bl [0, 1, 2], gir := bl [1, 2],
    A3 := ⟨none, none, none⟩, c := bl [-1, -1], h := bl [1, 0, 0], b := bl [], nb := 1, bools := bl [0], ni := 0, ints := bl [],
    stgs := { bbDefault with maxit := 8, strategy := 0 } }

/-- the handler and the code after set-up, the given step factor `gamma` of the continuous solver, and one solve -/
def leaves (gamma : Fx) : Option (Handler × Int) :=
  match (do
    let bb ← bbSetup natural disc sg
    let bb ← (BBCall.ecosStgs { bb.ecos.hid.w.stgs with gamma := gamma }).run bb
    bbSolve (realEnv (fun _ _ => false) fun _ => 0) 40 bb : M _) with
  | .ok (bb, code) => some (bb.ecos.hid.sig.cur, code)
  | .error _ => none

/-- C64 on the example of C55, with AMD: any solves and changes of the data, with any interrupts, end with the handler from before or that of ECOS -/
example (lo v : Fx) (arr : Nat → Nat → Bool) (rand : Nat → Nat) (hr : ∀ k, rand k ≤ RAND_MAX) (sig : Sig) :
    ∃ bb, bbSetup (amdOrder (fun _ => 40) 2147483647) (Real.args lo 0) sig = .ok bb ∧ bb.ecos.hid.sig = sig ∧
      ∀ bb', bbCalls bb [.solve arr rand 10, .entryC 0 v, .solve (fun _ _ => false) rand 10] = .ok bb' →
        bb'.ecos.hid.sig.cur = sig.cur ∨ bb'.ecos.hid.sig.cur = .ecos := by
  obtain ⟨bb, hb, T', S', q1, q2, q3, q4⟩ := (Ok.def _ _).1 (C55_setup_succeeds (dense0 := fun _ => 40) (imax := 2147483647)
    Dir.exGoodL (Real.given lo 0) Real.exNoDup (by simp [Asm.nnzK, Asm.dimK, Dir.exT, Dir.exS, Pat.nA, Pat.nG, Real.args]) sig Nat.zero_lt_one
    (show 0 < 4 by omega) (show (0 : Nat) ≠ 1 by omega))
  have hs : bb.ecos.hid.sig = sig := by
    unfold bbSetup at hb
    simp only [bind_ok] at hb
    obtain ⟨_, -, w, -, h⟩ := hb
    cases w <;> cases h
    rfl
  refine ⟨bb, hb, hs, fun bb' h => ?_⟩
  rw [← hs]
  refine C64_history q1 Real.ltLaws_fx Nat.zero_lt_one _ q4 ?_ h
  intro o ho
  simp only [List.mem_cons, List.not_mem_nil, or_false] at ho
  rcases ho with rfl | rfl | rfl
  · exact hr
  · show 0 < T'.n
    rw [q2]
    decide
  · exact hr

end Signal

/-- C64 is violated: if a continuous solve leaves the cone (step factor 1.01 instead of 0.99), the handler of ECOS stays installed after the
mixed-integer solve, and the answer is "infeasible" (1) although `x = (1, 0)` is feasible. -/
theorem C64_outcone_violated : Signal.leaves 1.01 = some (.ecos, 1) := by
  decide +kernel

/-- C64 is violated: an interrupt in the second pass of the fourth continuous solve makes the search drop the node `x = 1`, in which there is a point
with the value 0.8 (`1 - 2 ≤ 0.8` and `1 - 0.2 ≤ 0.8`). It answers "optimal" (0) for `x` near 0 with a value near 1. -/
theorem C64_interrupt_optimal_violated :
    Signal.ends (fun k i => k == 3 && i == 1) (fun x t s c => Signal.close x 0 && Signal.close t 1 && s == .user 7 && c == 0) = true := by
  decide +kernel

end BB
end Ecos
