import Verif.Props.Update

/-!
# Memory safety of every sequence of calls (C46)
-/
namespace Ecos.Asm

open Ecos Finset Ecos.Fact

set_option linter.unusedSectionVars false

/-- one call a user makes between `ECOS_setup` and `ECOS_cleanup`, with its arguments; `stgs` stands for writing to `w->stgs` -/
inductive Call (F : Type) where
  | solve (arrives : Nat → Bool) (sig : Sig)
  | update (t : Apart) (Gpr Apr c h b : Buf F)
  | entryH (i : Nat) (v : F)
  | entryC (i : Nat) (v : F)
  | stgs (s : Settings F)

section generic
variable {F : Type} [Zero F] [One F] [Add F] [Sub F] [Mul F] [Div F] [Neg F] [OfScientific F]
  [IntCast F] [PFloat F] [HasInf F] {T : Pat} {S : Shape} {amd : Nat → Buf Nat → Buf Nat → Option (Buf Nat)}

/-- the workspace after one call -/
def Call.run (w : Work F) : Call F → M (Work F)
  | .solve arrives sig => do let r ← ecosSolve arrives w sig; pure r.1
  | .update t Gpr Apr c h b => do let r ← ecosUpdateData w t Gpr Apr c h b; pure r.1
  | .entryH i v => ecosUpdateDataEntryH w i v
  | .entryC i v => ecosUpdateDataEntryC w i v
  | .stgs s => pure { w with stgs := s }

/-- the workspace after a list of calls -/
def calls : Work F → List (Call F) → M (Work F)
  | w, [] => pure w
  | w, o :: os => do let w' ← o.run w; calls w' os

/-- what the caller has to ensure: arrays of the right length, indices in range, and (see `C06_null_violated`) no new `G` apart from the
old one if there are no equations -/
def Call.Valid (T : Pat) : Call F → Prop
  | .solve _ _ => True
  | .update t Gpr Apr c h b => (t.G = true → T.hasA = true) ∧ ∃ a g fc fh fb, NewData T Gpr Apr c h b a g fc fh fb
  | .entryH i _ => i < T.m
  | .entryC i _ => i < T.n
  | .stgs _ => True

/-- **C46, one call** it ends with a workspace again, or it is a solve that reads the best iterate before there is one -/
theorem C46_call (hamd : ∀ N jc ir P, amd N jc ir = some P → ∃ pf, Holds P N pf ∧ IsPerm N pf) (hP : PatGood T S) {w : Work F}
    (hw : Reach amd T S w) {o : Call F} (ho : o.Valid T) :
    Runs (fun e => e = .uninit ∧ ¬ Dir.Best w T ∧ ∃ arrives sig, o = .solve arrives sig ∧
        (w.stgs.maxit = 0 ∨ arrives 0 = true ∨ FirstNaN w)) (o.run w) (Reach amd T S) := by
  have hl := hw.live hamd hP
  cases o with
  | solve arrives sig =>
    show Runs _ (ecosSolve arrives w sig >>= fun r => pure r.1) _
    cases hr : ecosSolve arrives w sig with
    | ok r => exact Reach.solve hw hr
    | error e =>
      obtain ⟨h1, h2, h3⟩ := (Dir.ecosSolve_runs hP hl arrives sig).err hr
      exact (⟨h1, h2, arrives, sig, rfl, h3⟩ : e = .uninit ∧ ¬ Dir.Best w T ∧ ∃ arrives' sig', Call.solve arrives sig = .solve arrives' sig' ∧
        (w.stgs.maxit = 0 ∨ arrives' 0 = true ∨ FirstNaN w))
  | update t Gpr Apr c h b =>
    obtain ⟨ht, a, g, fc, fh, fb, hd⟩ := ho
    obtain ⟨a0, g0, c0, b0, h0, x, y, z, π, ai, q, ax, sg, hl⟩ := hl
    refine Ok.runs (Ok.bind (updateData_ok hP hl ht hd.G hd.A hd.c hd.h hd.b eqTrue).self fun r hr => ?_)
    exact (Ok_pure _ _).2 (.update hw ht hd hr.2)
  | entryH i v =>
    obtain ⟨a0, g0, c0, b0, h0, x, y, z, π, ai, q, ax, sg, hl⟩ := hl
    refine Ok.runs ((Ok.self (Q := fun _ => True) ?_).mono fun w' h' => .entryH hw ho h'.2)
    show Ok (ecosUpdateDataEntryH w i v) _
    unfold ecosUpdateDataEntryH
    rw [hl.data.ze.rd ho, ok_bind_eq]
    exact Ok.bind (hl.data.h.wr ho _) fun _ _ => (Ok_pure _ _).2 trivial
  | entryC i v =>
    obtain ⟨a0, g0, c0, b0, h0, x, y, z, π, ai, q, ax, sg, hl⟩ := hl
    refine Ok.runs ((Ok.self (Q := fun _ => True) ?_).mono fun w' h' => .entryC hw ho h'.2)
    show Ok (ecosUpdateDataEntryC w i v) _
    unfold ecosUpdateDataEntryC
    exact Ok.bind (hl.data.c.wr ho _) fun _ _ => (Ok_pure _ _).2 trivial
  | stgs s => exact .settings s hw

/-- **C46, set-up** from arrays of a consistent problem, set-up runs without undefined behaviour for all values, and if it returns a
workspace, that is a reachable one -/
theorem C46_setup (hamd : ∀ N jc ir P, amd N jc ir = some P → ∃ pf, Holds P N pf ∧ IsPerm N pf) (hP : PatGood T S) {G3 A3 : Mat3 F}
    {qb : Buf Nat} {cb hb bb : Buf F} {a0 g0 c0 h0 b0 : Nat → F} (hin : Given T S G3 A3 qb cb hb bb a0 g0 c0 h0 b0) :
    Ok (ecosSetup amd T.n T.m T.p S.l S.ns qb S.ne G3 A3 cb hb bb) fun r => ∀ w, r = .ok w → Reach amd T S w :=
  (setup_live hamd hP hin).self.mono fun r hr w e => .setup hin (by rw [hr.2, e])

theorem setup_not_amd {n m p l ncones nexc : Nat} {q : Buf Nat} {G3 A3 : Mat3 F} {c h b : Buf F} (ht : ∀ N jc ir, ∃ P, amd N jc ir = some P)
    {A : Option (SpMat F)} {G : SpMat F} {b' h' : Buf F} : ecosSetup amd n m p l ncones q nexc G3 A3 c h b ≠ .ok (.amd A G b' h') := by
  intro hr
  unfold ecosSetup at hr
  simp only [bind_ok] at hr
  obtain ⟨soc, -, hr⟩ := hr
  split at hr
  · simp [pure_ok] at hr
  · simp only [bind_ok] at hr
    obtain ⟨A, -, G, -, R, -, hr⟩ := hr
    split at hr
    · rename_i h0
      obtain ⟨P, hP⟩ := ht R.U.K.n R.U.K.jc R.U.K.ir
      rw [hP] at h0
      cases h0
    · simp only [bind_ok, pure_ok] at hr
      obtain ⟨K, -, hr⟩ := hr
      cases hr

/-- **C46, set-up succeeds** for every consistent problem if the ordering routine always succeeds; when AMD does is C54 -/
theorem C46_setup_succeeds (hamd : ∀ N jc ir P, amd N jc ir = some P → ∃ pf, Holds P N pf ∧ IsPerm N pf) (hP : PatGood T S)
    (ht : ∀ N jc ir, ∃ P, amd N jc ir = some P) {G3 A3 : Mat3 F} {qb : Buf Nat} {cb hb bb : Buf F} {a0 g0 c0 h0 b0 : Nat → F}
    (hin : Given T S G3 A3 qb cb hb bb a0 g0 c0 h0 b0) :
    ∃ w, ecosSetup amd T.n T.m T.p S.l S.ns qb S.ne G3 A3 cb hb bb = .ok (.ok w) ∧ Reach amd T S w := by
  obtain ⟨r, hr, a, g, x, y, z, -, -, -, -, -, -, h⟩ := (Ok.def _ _).1 (ecosSetup_ok hamd hP hin eqTrue)
  cases r with
  | dims => exact h.elim
  | amd A G b' h' => exact absurd hr (setup_not_amd ht)
  | ok w => exact ⟨w, hr, .setup hin hr⟩

/-- **C46** Whatever calls the user makes after set-up, with whatever numbers (infinities and NaN included), settings and interrupts, in
whatever order: no access outside an allocated block, no null pointer followed, no value out of the range of its type, no endless loop. The
only undefined behaviour left is the reading of unwritten memory, and `C46_call` says when a call does that: a solve, in a workspace without
a best iterate, that stops in its first pass. -/
theorem C46_history (hamd : ∀ N jc ir P, amd N jc ir = some P → ∃ pf, Holds P N pf ∧ IsPerm N pf) (hP : PatGood T S) :
    ∀ (os : List (Call F)) {w : Work F}, Reach amd T S w → (∀ o ∈ os, o.Valid T) → Runs (· = .uninit) (calls w os) (Reach amd T S)
  | [], _, hw, _ => hw
  | o :: os, w, hw, ho => by
    unfold calls
    refine Runs.bind (Runs.weaken (C46_call hamd hP hw (ho o (List.mem_cons_self ..))) fun e he => he.1) fun w' hw' => ?_
    exact C46_history hamd hP os hw' fun o h => ho o (List.mem_cons_of_mem _ h)

/-- **C46, cleanup** the restoring of the caller's arrays, which `ECOS_cleanup` does before it frees anything -/
theorem C46_cleanup (hamd : ∀ N jc ir P, amd N jc ir = some P → ∃ pf, Holds P N pf ∧ IsPerm N pf) (hP : PatGood T S) {w : Work F}
    (hw : Reach amd T S w) : Ok (unsetEquilibration w.eqs w.b w.h) fun _ => True := by
  obtain ⟨a0, g0, c0, b0, h0, x, y, z, π, ai, q, ax, sg, hl⟩ := hw.live hamd hP
  exact (unsetEquilibration_ok (e := w.eqs) ⟨hl.data.A, hl.data.G⟩ hl.data.xe hl.data.ye hl.data.ze hl.data.b hl.data.h).mono fun _ _ => trivial

/-- **C46, solve** a solve that may make at least one iteration, is not interrupted before the first check and does not find NaN for its
first primal cost has no undefined behaviour at all; and as soon as there is a best iterate, no solve has any. -/
theorem C46_solve (hamd : ∀ N jc ir P, amd N jc ir = some P → ∃ pf, Holds P N pf ∧ IsPerm N pf) (hP : PatGood T S) {w : Work F}
    (hw : Reach amd T S w) {arrives : Nat → Bool} (sig : Sig)
    (h : Dir.Best w T ∨ (w.stgs.maxit ≠ 0 ∧ arrives 0 = false ∧ ¬ FirstNaN w)) :
    Ok (ecosSolve arrives w sig) fun r => Reach amd T S r.1 := by
  refine (Runs.ok_of_not_bad (Dir.ecosSolve_runs hP (hw.live hamd hP) arrives sig) ?_).self.mono fun r hr => .solve hw hr.2
  rintro e ⟨-, h1, h2⟩
  rcases h with h | ⟨h, h', h''⟩
  · exact h1 h
  · rcases h2 with h2 | h2 | h2
    · exact h h2
    · rw [h'] at h2
      exact Bool.noConfusion h2
    · exact h'' h2

end generic

/-! ### A history that meets the hypotheses -/

/-- solve with an interrupt before pass 2, new matrices, new `h[0]` and `c[1]`, no iterations allowed, solve again -/
def exCalls : List (Call Fx) :=
  [.solve (fun k => k == 2) ⟨.user 7, .user 0, false⟩,
   .update ⟨true, true, true, true, true⟩ (ofList [5.0, -2.0, 1.0, 7.0, 3.0]) (ofList [2.0, -1.0]) (ofList [1.0, 2.0])
     (ofList [1.0, 1.0, 0.0, 0.0, 1.0, 1.0, 2.0]) (ofList [3.0]),
   .entryH 0 4.0, .entryC 1 (1.0 / 0), .solve (fun _ => true) ⟨.user 7, .user 0, false⟩]

theorem exCalls_valid : ∀ o ∈ exCalls, o.Valid exPat5 := by
  have hG := exGiven6 [5.0, -2.0, 1.0, 7.0, 3.0] [2.0, -1.0] [1.0, 2.0] [1.0, 1.0, 0.0, 0.0, 1.0, 1.0, 2.0] [3.0] rfl rfl rfl rfl rfl
  intro o ho
  simp only [exCalls, List.mem_cons, List.not_mem_nil, or_false] at ho
  rcases ho with rfl | rfl | rfl | rfl | rfl
  · trivial
  · refine ⟨fun _ => rfl, fun i => [2.0, -1.0].getD i 0, fun i => [5.0, -2.0, 1.0, 7.0, 3.0].getD i 0, _, _, _, ⟨?_, fun _ => ?_, hG.c, hG.h, hG.b⟩⟩
    · obtain ⟨pr, jc, ir, e, h1, h2, h3⟩ := hG.G
      cases e
      exact h3
    · have := hG.A
      rw [if_pos (by rfl)] at this
      obtain ⟨pr, jc, ir, e, h1, h2, h3⟩ := this
      cases e
      exact h3
  · show 0 < 7
    decide
  · show 1 < 2
    decide
  · trivial

/-- and they run to the end -/
theorem exCalls_run : (match exSetup6 [-1.0, 2.0, 1.0, 3.0, -4.0] [1.0, 1.0] [1.0, 1.0] [0.0, 1.0, 0.0, 0.0, 0.0, 1.0, 2.0] [1.0] with
      | .ok (.ok w) => (match calls w exCalls with | .ok _ => true | _ => false)
      | _ => false) = true := by
  decide +kernel

/-- so do the theorems: the workspace after all of it is reachable, and can be cleaned up -/
example : ∃ w w' : Work Fx, Reach exRev exPat5 exShape5 w ∧ calls w exCalls = .ok w' ∧ Reach exRev exPat5 exShape5 w' ∧
    Ok (unsetEquilibration w'.eqs w'.b w'.h) fun _ => True := by
  have h := exCalls_run
  split at h
  · rename_i w hw
    split at h
    · rename_i w' hw'
      have hr : Reach exRev exPat5 exShape5 w := .setup (exGiven6 _ _ _ _ _ rfl rfl rfl rfl rfl) hw
      have h2 := (C46_history exRev_perm exPat5_good exCalls hr exCalls_valid).out hw'
      exact ⟨w, w', hr, hw', h2, C46_cleanup exRev_perm exPat5_good h2⟩
    · exact absurd h (by decide)
  · exact absurd h (by decide)

end Ecos.Asm
