import Verif.Props.BBCalls

/-!
# C64, C65: the continuous solves of a mixed-integer solve, one by one
-/
set_option linter.unusedSectionVars false

namespace Ecos
namespace BB

section abstract
variable {F : Type} [Zero F] [One F] [Add F] [Sub F] [Mul F] [Div F] [Neg F] [OfScientific F]
  [IntCast F] [PFloat F] [HasInf F] {W I : Type} {env : Env F W I}

/-- `L` lists the results of calls of the continuous solver: the first one was called with `u` in the part of its workspace the search does not write to,
each other one with what the one before it left there, and `v` is what the last one left there -/
inductive Path (env : Env F W I) (u : Core F W) : Core F W → List (EW F W I × Int) → Prop where
  | start : Path env u u []
  | call {L : List (EW F W I × Int)} {e e' : EW F W I} {c : Int} :
      Path env u e.core L → env.solve e = .ok (e', c) → Path env u e'.core (L ++ [(e', c)])

/-- the calls a mixed-integer solve makes -/
theorem bbSolve_path {fuel : Nat} {a b : St F W I} {c : Int} (h : bbSolve env fuel a = .ok (b, c)) :
    ∃ L, Path env a.ecos.core b.ecos.core L :=
  bbSolve_keeps (Q := fun v => ∃ L, Path env a.ecos.core v L) (fun _ _ _ hs ⟨_, hL⟩ => ⟨_, hL.call hs⟩) h ⟨_, .start⟩

theorem Path.length {μ : Core F W → Nat} (H : Counts 1 μ env) {u v : Core F W} {L : List (EW F W I × Int)} (h : Path env u v L) : μ v = μ u + L.length := by
  induction h with
  | start => rfl
  | call _ hs ih =>
    have := H _ _ _ hs
    rw [List.length_append, List.length_singleton]
    omega

end abstract

section generic
variable {F : Type} [Zero F] [One F] [Add F] [Sub F] [Mul F] [Div F] [Neg F] [OfScientific F]
  [IntCast F] [PFloat F] [HasInf F] {arr : Nat → Nat → Bool} {rand : Nat → Nat} {fuel : Nat} {code : Int}
  {bb bb' : St F (Hid F) (Stats F)} {u v : Core F (Hid F)} {L : List (EW F (Hid F) (Stats F) × Int)}

/-- a continuous solve does not change its settings -/
theorem ecosSolve_stgs {arrives : Nat → Bool} {w w' : Work F} {sig sig' : Sig}
    (h : ecosSolve arrives w sig = .ok (w', sig', code)) : w'.stgs = w.stgs := by
  unfold ecosSolve at h
  simp only [bind_ok] at h
  obtain ⟨c, -, ⟨w1, b⟩, ho, h⟩ := h
  have hs : w1.stgs = w.stgs := (initSolver_stgs ho).1.stgs
  cases b with
  | false =>
    simp only [if_true, pure_ok, Prod.mk.injEq] at h
    obtain ⟨rfl, -, -⟩ := h
    exact hs
  | true =>
    simp only [Bool.true_eq_false, if_false, bind_ok] at h
    obtain ⟨e, he, h⟩ := h
    have hw : e.w.stgs = w1.stgs := by
      obtain ⟨k, hl⟩ | ⟨-, rfl⟩ := mainLoop_cases' he
      · exact (leaves_spec hl).1.stgs
      · rfl
    unfold finish at h
    split at h
    · simp only [pure_ok, Prod.mk.injEq] at h
      obtain ⟨rfl, -, -⟩ := h
      exact hw.trans hs
    · simp only [bind_ok, pure_ok, Prod.mk.injEq] at h
      obtain ⟨v, hv, rfl, -, -⟩ := h
      exact (backscale_info hv).2.1.trans (hw.trans hs)

/-- the handler along the calls: put back by all that end in the regular way, left that of ECOS by one that ends with `OUTCONE`, and then for good -/
theorem Path.handler (h : Path (realEnv arr rand) u v L) :
    (v.hid.sig.cur = u.hid.sig.cur ∨ v.hid.sig.cur = .ecos) ∧ ((∀ r ∈ L, r.2 ≠ OUTCONE ∧ r.2 ≠ FATAL) → v.hid.sig.cur = u.hid.sig.cur) ∧
      ((∃ r ∈ L, r.2 = OUTCONE) → v.hid.sig.cur = .ecos) := by
  induction h with
  | start => exact ⟨.inl rfl, fun _ => rfl, fun ⟨_, h, _⟩ => absurd h (by simp)⟩
  | @call L e e' c _ hs ih =>
    obtain ⟨w, sig, h1, rfl⟩ := realEnv_solve hs
    obtain ⟨i1, i2, i3⟩ := ih
    have ha := handler_after h1
    refine ⟨?_, fun hn => ?_, ?_⟩
    · show sig.cur = _ ∨ sig.cur = _
      rcases ha with ha | ha
      · rw [ha]; exact i1
      · exact .inr ha
    · have hc := hn _ (List.mem_append_right L (List.mem_singleton.2 rfl))
      exact (C27_handler_restored h1 hc.1 hc.2).trans (i2 fun r hr => hn r (List.mem_append_left _ hr))
    · rintro ⟨r, hr, hc⟩
      show sig.cur = _
      rcases List.mem_append.1 hr with hr | hr
      · rcases ha with ha | ha
        · exact ha.trans (i3 ⟨r, hr, hc⟩)
        · exact ha
      · rw [List.mem_singleton.1 hr] at hc
        have hc : c = OUTCONE := hc
        subst hc
        exact C27_handler_left_violated h1

/-- the passes along the calls: none of them exceeds the limit of the continuous solver, whose settings stay as they are; every code is documented -/
theorem Path.passes (h : Path (realEnv arr rand) u v L) :
    v.hid.w.stgs = u.hid.w.stgs ∧ ∀ r ∈ L, Documented r.2 ∧ ∃ i, r.1.info = some i ∧ (r.2 ≠ FATAL → (i.iter : Int) ≤ u.hid.w.stgs.maxit) := by
  induction h with
  | start => exact ⟨rfl, fun _ h => absurd h (by simp)⟩
  | @call L e e' c _ hs ih =>
    obtain ⟨w, sig, h1, rfl⟩ := realEnv_solve hs
    obtain ⟨i1, i2⟩ := ih
    refine ⟨(ecosSolve_stgs h1).trans i1, fun r hr => ?_⟩
    rcases List.mem_append.1 hr with hr | hr
    · exact i2 r hr
    · rw [List.mem_singleton.1 hr]
      refine ⟨(C23_documented h1).1, _, rfl, fun hc => ?_⟩
      have := (C23_iterations h1 hc).1
      rw [show (toWork e).stgs = u.hid.w.stgs from i1] at this
      exact this

/-- **C64, all strategies, any workspace.** The continuous solves of a mixed-integer solve, in order: as many as are counted; if none of them ends with
`OUTCONE` or `FATAL` the handler that was active before the call is active again, and if one ends with `OUTCONE` it is that of ECOS. -/
theorem C64_trace (h : bbSolve (realEnv arr rand) fuel bb = .ok (bb', code)) :
    ∃ L, Path (realEnv arr rand) bb.ecos.core bb'.ecos.core L ∧ bb'.ecos.hid.calls = bb.ecos.hid.calls + L.length ∧
      ((∀ r ∈ L, r.2 ≠ OUTCONE ∧ r.2 ≠ FATAL) → bb'.ecos.hid.sig.cur = bb.ecos.hid.sig.cur) ∧
      ((∃ r ∈ L, r.2 = OUTCONE) → bb'.ecos.hid.sig.cur = .ecos) := by
  obtain ⟨L, hL⟩ := bbSolve_path h
  exact ⟨L, hL, hL.length realEnv_counts, hL.handler.2⟩

/-- the handler after any calls, for all settings and any workspace -/
theorem C64_histories : ∀ (os : List (BBCall F)) {bb bb' : St F (Hid F) (Stats F)}, bbCalls bb os = .ok bb' →
    bb'.ecos.hid.sig.cur = bb.ecos.hid.sig.cur ∨ bb'.ecos.hid.sig.cur = .ecos
  | [], _, _, h => by
    cases h
    exact .inl rfl
  | o :: os, bb, bb', h => by
    unfold bbCalls at h
    simp only [bind_ok] at h
    obtain ⟨b, h1, h2⟩ := h
    have k1 : b.ecos.hid.sig.cur = bb.ecos.hid.sig.cur ∨ b.ecos.hid.sig.cur = .ecos := by
      cases o with
      | solve arr rand fuel =>
        simp only [BBCall.run, bind_ok, pure_ok] at h1
        obtain ⟨⟨b', c⟩, h1, rfl⟩ := h1
        obtain ⟨L, hL⟩ := bbSolve_path h1
        exact hL.handler.1
      | entryH i v =>
        simp only [BBCall.run, updateDataEntryH, updH, bind_ok, pure_ok] at h1
        obtain ⟨_, ⟨_, -, _, -, rfl⟩, rfl⟩ := h1
        exact .inl rfl
      | entryC i v =>
        simp only [BBCall.run, updateDataEntryC, updC, bind_ok, pure_ok] at h1
        obtain ⟨_, ⟨_, -, rfl⟩, rfl⟩ := h1
        exact .inl rfl
      | ecosStgs s =>
        cases h1
        exact .inl rfl
      | stgs s =>
        cases h1
        exact .inl rfl
    rcases C64_histories os h2 with k2 | k2
    · rw [k2]
      exact k1
    · exact .inr k2

/-- **C65, passes.** A mixed-integer solve with the node limit `N` makes at most `(2 N - 1) (t + 2)` continuous solves, each with a documented code and
with at most as many passes as its settings allow; so the passes of all of them together are bounded by the product. -/
theorem C65_passes (hN : 0 < bb.stgs.maxit) (h : bbSolve (realEnv arr rand) fuel bb = .ok (bb', code)) :
    ∃ L, Path (realEnv arr rand) bb.ecos.core bb'.ecos.core L ∧ 0 < L.length ∧
      L.length ≤ (2 * bb.stgs.maxit - 1) * (trials bb.stgs.strategy (bb.nb + bb.ni) + 2) ∧
      ∀ r ∈ L, Documented r.2 ∧ ∃ i, r.1.info = some i ∧ (r.2 ≠ FATAL → (i.iter : Int) ≤ bb.ecos.hid.w.stgs.maxit) := by
  obtain ⟨L, hL⟩ := bbSolve_path h
  have hn : bb'.ecos.hid.calls = bb.ecos.hid.calls + L.length := hL.length realEnv_counts
  obtain ⟨k1, k2⟩ := C65_solves hN h
  exact ⟨L, hL, by omega, by omega, hL.passes.2⟩

end generic

end BB
end Ecos
