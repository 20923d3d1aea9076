import Verif.Props.BBTrace
import Verif.Props.Equil

/-!
# C66: the caller's data after a mixed-integer session
-/
set_option linter.unusedSectionVars false

namespace Ecos
namespace BB

open Ecos.Asm Ecos.Equil

section generic
variable {F : Type} [Zero F] [One F] [Add F] [Sub F] [Mul F] [Div F] [Neg F] [OfScientific F]
  [IntCast F] [PFloat F] [HasInf F] {arr : Nat → Nat → Bool} {rand : Nat → Nat} {fuel : Nat} {code : Int}
  {L : List (EW F (Hid F) (Stats F) × Int)}

/-- the sizes, matrices, factors and the right-hand side of the equations are the same -/
structure Kept (u v : Core F (Hid F)) : Prop where
  n : v.n = u.n
  p : v.p = u.p
  m : v.m = u.m
  A : v.hid.w.A = u.hid.w.A
  G : v.hid.w.G = u.hid.w.G
  b : v.hid.w.b = u.hid.w.b
  xe : v.hid.w.xequil = u.hid.w.xequil
  ye : v.hid.w.Aequil = u.hid.w.Aequil
  ze : v.gequil = u.gequil

theorem Kept.refl (u : Core F (Hid F)) : Kept u u := ⟨rfl, rfl, rfl, rfl, rfl, rfl, rfl, rfl, rfl⟩

theorem Kept.trans {u v w : Core F (Hid F)} (h : Kept u v) (g : Kept v w) : Kept u w :=
  ⟨g.n.trans h.n, g.p.trans h.p, g.m.trans h.m, g.A.trans h.A, g.G.trans h.G, g.b.trans h.b, g.xe.trans h.xe, g.ye.trans h.ye, g.ze.trans h.ze⟩

theorem real_kept {e e' : EW F (Hid F) (Stats F)} (h : (realEnv arr rand).solve e = .ok (e', code)) : Kept e.core e'.core := by
  obtain ⟨w, sig, h1, rfl⟩ := realEnv_solve h
  obtain ⟨c, -, h2⟩ := C13_solve_data h1
  obtain ⟨c', h3⟩ : ∃ c', SameData { toWork e with c := c' } w := by
    split at h2
    · exact ⟨_, h2⟩
    · obtain ⟨c', -, h3⟩ := h2
      exact ⟨_, h3⟩
  exact ⟨h3.n, h3.p, h3.m, h3.A, h3.G, h3.b, h3.xequil, h3.Aequil, h3.Gequil⟩

/-- a mixed-integer solve with any settings, on any workspace -/
theorem solve_kept {bb bb' : St F (Hid F) (Stats F)} (h : bbSolve (realEnv arr rand) fuel bb = .ok (bb', code)) :
    Kept bb.ecos.core bb'.ecos.core :=
  bbSolve_keeps (Q := fun v => Kept bb.ecos.core v) (fun _ _ _ hs q => q.trans (real_kept hs)) h (.refl _)

/-- **C66, matrices.** No call, of any kind and with any settings, changes the matrices, the right-hand side of the equations or the factors of the
continuous workspace, for any number type (so in floating point they stay the same bit by bit). -/
theorem C66_matrices : ∀ (os : List (BBCall F)) {bb bb' : St F (Hid F) (Stats F)}, bbCalls bb os = .ok bb' → Kept bb.ecos.core bb'.ecos.core
  | [], _, _, h => by
    cases h
    exact .refl _
  | o :: os, bb, bb', h => by
    unfold bbCalls at h
    simp only [bind_ok] at h
    obtain ⟨b, h1, h2⟩ := h
    refine Kept.trans ?_ (C66_matrices os h2)
    cases o with
    | solve arr rand fuel =>
      simp only [BBCall.run, bind_ok, pure_ok] at h1
      obtain ⟨⟨b', c⟩, h1, rfl⟩ := h1
      exact solve_kept h1
    | entryH i v =>
      simp only [BBCall.run, updateDataEntryH, updH, bind_ok, pure_ok] at h1
      obtain ⟨_, ⟨_, -, _, -, rfl⟩, rfl⟩ := h1
      exact .refl _
    | entryC i v =>
      simp only [BBCall.run, updateDataEntryC, updC, bind_ok, pure_ok] at h1
      obtain ⟨_, ⟨_, -, rfl⟩, rfl⟩ := h1
      exact ⟨rfl, rfl, rfl, rfl, rfl, rfl, rfl, rfl, rfl⟩
    | ecosStgs s =>
      cases h1
      exact ⟨rfl, rfl, rfl, rfl, rfl, rfl, rfl, rfl, rfl⟩
    | stgs s =>
      cases h1
      exact .refl _

/-- the clean-up of a workspace in order runs, for any number type -/
theorem C66_cleanup_runs {amd : Nat → Buf Nat → Buf Nat → Option (Buf Nat)} {T : Pat} {S : Shape} {nb ni mx : Nat} {bv iv : Nat → Nat}
    {bb : St F (Hid F) (Stats F)} (hb : Ready amd T S nb ni bv iv mx bb) :
    Ok (unsetEquilibration (toWork bb.ecos).eqs (toWork bb.ecos).b (toWork bb.ecos).h) fun _ => True := by
  obtain ⟨w0, hu, z, stgs, -, -, hz, hS⟩ := hb
  obtain ⟨hf, he⟩ := hS.hew
  obtain ⟨_, _, _, _, _, _, _, _, _, _, _, _, _, hl⟩ := toWork_live hz he
  exact (unsetEquilibration_ok (T := T) ⟨hl.data.A, hl.data.G⟩ hl.data.xe hl.data.ye hl.data.ze hl.data.b hl.data.h).mono fun _ _ => trivial

/-- **C66, a whole session.** Set-up with at least one declared variable and without strong branching, any valid calls, clean-up: if the calls end, the
clean-up runs. -/
theorem C66_session (LL : LtLaws F) {amd : Nat → Buf Nat → Buf Nat → Option (Buf Nat)} {T : Pat} {S : Shape} {bv iv : Nat → Nat}
    {a0 g0 c0 h0 b0 : Nat → F} (hamd : ∀ N jc ir P, amd N jc ir = some P → ∃ pf, Holds P N pf ∧ IsPerm N pf) (hP : PatGood T S) {A : BBArgs F}
    {sig : Sig} (hA : BBGiven T S A a0 g0 c0 h0 b0 bv iv) (hp : 0 < A.nb + A.ni) (hm : 0 < A.stgs.maxit) (h1 : A.stgs.strategy ≠ 1)
    {bb bb' : St F (Hid F) (Stats F)} (h : bbSetup amd A sig = .ok bb) {os : List (BBCall F)} (ho : ∀ o ∈ os, o.Valid T.n T.m A.stgs.maxit)
    (hos : bbCalls bb os = .ok bb') :
    Ok (unsetEquilibration (toWork bb'.ecos).eqs (toWork bb'.ecos).b (toWork bb'.ecos).h) fun _ => True := by
  obtain ⟨T', S', hP', e1, e2, -, -, hR⟩ := (C55_setup hamd hP hA sig hp hm h1).out h
  exact C66_cleanup_runs ((C55_history hP' LL hp os hR fun o hx => by
    rw [e1, e2, Nat.add_sub_cancel]
    exact ho o hx).out hos)

end generic

section exact
variable [HasInf ℝ] {arr : Nat → Nat → Bool} {rand : Nat → Nat} {fuel : Nat} {code : Int} {bb bb' : St ℝ (Hid ℝ) (Stats ℝ)}

/-- the continuous solves that ended outside of the cone -/
def outs (L : List (EW ℝ (Hid ℝ) (Stats ℝ) × Int)) : Nat := L.countP fun r => r.2 == OUTCONE

theorem Path.costs {u v : Core ℝ (Hid ℝ)} {L : List (EW ℝ (Hid ℝ) (Stats ℝ) × Int)} (h : Path (realEnv arr rand) u v L) {c x : Nat → ℝ}
    (hc : Holds u.c u.n c) (hx : Holds u.hid.w.xequil u.n x) (h0 : ∀ j, j < u.n → x j ≠ 0) :
    Kept u v ∧ Holds v.c u.n fun j => c j / x j ^ outs L := by
  induction h with
  | start => exact ⟨.refl _, hc.congr fun j _ => by simp [outs]⟩
  | @call L e e' k _ hs ih =>
    obtain ⟨i1, i2⟩ := ih
    refine ⟨i1.trans (real_kept hs), ?_⟩
    obtain ⟨w, sig, h1, rfl⟩ := realEnv_solve hs
    obtain ⟨c1, h2, h3⟩ := C13_solve_data h1
    have hn : (toWork e).n = u.n := i1.n
    have hx' : Holds (toWork e).xequil u.n x := by
      rw [show (toWork e).xequil = u.hid.w.xequil from i1.xe]
      exact hx
    have ic : Holds (toWork e).c u.n fun j => c j / x j ^ outs L := i2
    rw [hn] at h2 h3
    have k1 := (divBy_ok ic hx').out h2
    show Holds w.c u.n _
    by_cases ho : k = OUTCONE
    · rw [if_pos ho] at h3
      rw [h3.c]
      refine k1.congr fun j hj => ?_
      rw [show outs (L ++ [(ofWork w sig (e.hid.calls + 1), k)]) = outs L + 1 by simp [outs, ho], pow_succ, div_div]
    · rw [if_neg ho] at h3
      obtain ⟨c2, h4, h5⟩ := h3
      rw [h5.c]
      refine ((mulBy_ok k1 hx').out h4).congr fun j hj => ?_
      rw [show outs (L ++ [(ofWork w sig (e.hid.calls + 1), k)]) = outs L by simp [outs, ho], div_mul_cancel₀ _ (h0 j hj)]

/-- **C66, costs.** In exact arithmetic a mixed-integer solve leaves the costs divided by the factors once for each continuous solve that ended with
`OUTCONE`; without such a solve they are as before. (Missing, because false: as before in every case, `C66_costs_violated`.) -/
theorem C66_costs_partial (h : bbSolve (realEnv arr rand) fuel bb = .ok (bb', code)) {c x : Nat → ℝ} (hc : Holds bb.ecos.c bb.ecos.n c)
    (hx : Holds bb.ecos.hid.w.xequil bb.ecos.n x) (h0 : ∀ j, j < bb.ecos.n → x j ≠ 0) :
    ∃ L, Path (realEnv arr rand) bb.ecos.core bb'.ecos.core L ∧ (Holds bb'.ecos.c bb.ecos.n fun j => c j / x j ^ outs L) ∧
      ((∀ r ∈ L, r.2 ≠ OUTCONE) → Holds bb'.ecos.c bb.ecos.n c) := by
  obtain ⟨L, hL⟩ := bbSolve_path h
  have k := (hL.costs hc hx h0).2
  refine ⟨L, hL, k, fun hn => k.congr fun j _ => ?_⟩
  rw [show outs L = 0 from List.countP_eq_zero.2 fun r hr => by simpa using hn r hr, pow_zero, div_one]

/-- the costs the caller asked for last -/
def lastCosts : (Nat → ℝ) → List (BBCall ℝ) → Nat → ℝ
  | c, [] => c
  | c, .entryC i v :: os => lastCosts (upd c i v) os
  | c, _ :: os => lastCosts c os

/-- **C66, costs over histories.** After any calls each cost is the number the caller gave for it last, divided some number of times by its factor. -/
theorem C66_costs_histories {x : Nat → ℝ} : ∀ (os : List (BBCall ℝ)) {bb bb' : St ℝ (Hid ℝ) (Stats ℝ)} {c : Nat → ℝ} {d : Nat → Nat},
    bbCalls bb os = .ok bb' → (Holds bb.ecos.c bb.ecos.n fun j => c j / x j ^ d j) → Holds bb.ecos.hid.w.xequil bb.ecos.n x →
    (∀ j, j < bb.ecos.n → x j ≠ 0) → ∃ d' : Nat → Nat, Holds bb'.ecos.c bb.ecos.n fun j => lastCosts c os j / x j ^ d' j
  | [], _, _, _, d, h, hc, _, _ => by
    cases h
    exact ⟨d, hc⟩
  | o :: os, bb, bb', c, d, h, hc, hx, h0 => by
    unfold bbCalls at h
    simp only [bind_ok] at h
    obtain ⟨b, h1, h2⟩ := h
    cases o with
    | solve arr rand fuel =>
      simp only [BBCall.run, bind_ok, pure_ok] at h1
      obtain ⟨⟨b', k⟩, h1, rfl⟩ := h1
      obtain ⟨L, -, k1, -⟩ := C66_costs_partial h1 hc hx h0
      have hk := solve_kept h1
      have e1 : b'.ecos.n = bb.ecos.n := hk.n
      have e2 : b'.ecos.hid.w.xequil = bb.ecos.hid.w.xequil := hk.xe
      rw [← e1] at k1 hx h0 ⊢
      rw [← e2] at hx
      exact C66_costs_histories os (c := c) (d := fun j => d j + outs L) h2 (k1.congr fun j _ => by rw [pow_add, div_div]) hx h0
    | entryH i v =>
      simp only [BBCall.run, updateDataEntryH, updH, bind_ok, pure_ok] at h1
      obtain ⟨_, ⟨_, -, _, -, rfl⟩, rfl⟩ := h1
      have q := C66_costs_histories (x := x) os (c := c) (d := d) h2
      exact q hc hx h0
    | entryC i v =>
      simp only [BBCall.run, updateDataEntryC, updC, bind_ok, pure_ok] at h1
      obtain ⟨_, ⟨c', h1, rfl⟩, rfl⟩ := h1
      have q := C66_costs_histories (x := x) os (c := upd c i v) (d := upd d i 0) h2
      refine q ?_ hx h0
      have hi : i < bb.ecos.n := by
        rw [← hc.1]
        exact (wr_ok_iff.1 h1).1
      refine ((hc.wr hi v).out h1).congr fun j _ => ?_
      by_cases e : j = i
      · subst e
        simp [upd]
      · simp [upd, e]
    | ecosStgs s =>
      cases h1
      have q := C66_costs_histories (x := x) os (c := c) (d := d) h2
      exact q hc hx h0
    | stgs s =>
      cases h1
      have q := C66_costs_histories (x := x) os (c := c) (d := d) h2
      exact q hc hx h0

variable {amd : Nat → Buf Nat → Buf Nat → Option (Buf Nat)} {T : Pat} {S : Shape} {bv iv : Nat → Nat} {P : Dat}

/-- **C66, given back.** Set-up, any calls, clean-up (`unset_equilibration` in `ECOS_cleanup`): in exact arithmetic the arrays `A` and `b`, which are the
caller's own, hold the caller's numbers again. (`G` and `h` are copied by the set-up; the caller's are never written.) -/
theorem C66_given_back (hamd : ∀ N jc ir P, amd N jc ir = some P → ∃ pf, Holds P N pf ∧ IsPerm N pf) (hP : PatGood T S) {A : BBArgs ℝ} {sig : Sig}
    (hA : BBGiven T S A P.a P.g P.c P.h P.b bv iv) (h : bbSetup amd A sig = .ok bb) {os : List (BBCall ℝ)} (hos : bbCalls bb os = .ok bb')
    {q : Option (SpMat ℝ) × SpMat ℝ × Buf ℝ × Buf ℝ}
    (hq : unsetEquilibration (toWork bb'.ecos).eqs (toWork bb'.ecos).b (toWork bb'.ecos).h = .ok q) :
    RepA q.1 T P.a ∧ Holds q.2.2.1 T.p P.b := by
  obtain ⟨t, irO, prO, hO, w, hM⟩ := (bbSetup_made hamd hP hA sig).out h
  obtain ⟨a, g, x, y, z, hx, hy, hz, -, ra, -, -, hd, -⟩ := (ecosSetup_ok hamd hM.good hM.given eqReal).elim hM.setup
  have hk := C66_matrices os hos
  rw [hM.eq] at hk
  have e1 : (toWork bb'.ecos).A = w.A := hk.A
  have e2 : (toWork bb'.ecos).G = w.G := hk.G
  have e3 : (toWork bb'.ecos).b = w.b := hk.b
  have e4 : (toWork bb'.ecos).xequil = w.xequil := hk.xe
  have e5 : (toWork bb'.ecos).Aequil = w.Aequil := hk.ye
  have hE : EqIs (toWork bb'.ecos).eqs (A.pat T bv iv irO) a g := ⟨by
    show RepA (toWork bb'.ecos).A _ _
    rw [e1]; exact hd.A, by
    show Ecos.Rep (toWork bb'.ecos).G _ _ _ _ _
    rw [e2]; exact hd.G⟩
  have kx : Holds (toWork bb'.ecos).eqs.xe (A.pat T bv iv irO).n x := by
    show Holds (toWork bb'.ecos).xequil _ _
    rw [e4]; exact hd.xe
  have ky : Holds (toWork bb'.ecos).eqs.Ae (A.pat T bv iv irO).p y := by
    show Holds (toWork bb'.ecos).Aequil _ _
    rw [e5]; exact hd.ye
  have kb : Holds (toWork bb'.ecos).b (A.pat T bv iv irO).p fun i => P.b i / y i := by
    rw [e3]; exact hd.b
  unfold unsetEquilibration at hq
  rw [hE.rowsA] at hq
  simp only [bind_ok, pure_ok] at hq
  obtain ⟨A', h1, G', -, b', h2, h', -, rfl⟩ := hq
  have r1 := (mapA_ok hE.A fun M hM => restoreMat_ok hM ky kx).out h1
  have r2 := (mulBy_ok kb ky).out h2
  refine ⟨?_, r2.congr fun i hi => div_mul_cancel₀ _ (hy i hi).ne'⟩
  unfold RepA at r1 ⊢
  by_cases hh : T.hasA
  · rw [if_pos hh]
    rw [if_pos (show (A.pat T bv iv irO).hasA from hh)] at r1
    obtain ⟨M, e, r1⟩ := r1
    refine ⟨M, e, r1.m_eq, r1.n_eq, r1.nnz_eq, r1.hjc, r1.hir, r1.hpr.congr fun k hk => ?_, r1.ok⟩
    have a1 := hy _ (r1.ok.rows k hk)
    obtain ⟨j, hj, hj1, hj2⟩ := r1.ok.exists_col hk
    have a2 := hx j hj
    have := ra k hh hk
    rw [colOf_eq r1.ok hj hj1 hj2] at this ⊢
    rw [show a k = _ from this, div_mul_cancel₀ _ (mul_pos a1 a2).ne']
  · rw [if_neg hh]
    rw [if_neg (show ¬ (A.pat T bv iv irO).hasA from hh)] at r1
    exact r1

/-- **C66, costs of a session.** After set-up and any calls the caller's array `c` holds for each variable the number asked for last, divided some number
of times by a positive factor. -/
theorem C66_costs_session (hamd : ∀ N jc ir P, amd N jc ir = some P → ∃ pf, Holds P N pf ∧ IsPerm N pf) (hP : PatGood T S) {A : BBArgs ℝ} {sig : Sig}
    (hA : BBGiven T S A P.a P.g P.c P.h P.b bv iv) (h : bbSetup amd A sig = .ok bb) {os : List (BBCall ℝ)} (hos : bbCalls bb os = .ok bb') :
    ∃ (x : Nat → ℝ) (d : Nat → Nat), (∀ j, j < T.n → 0 < x j) ∧ Holds bb.ecos.hid.w.xequil T.n x ∧
      Holds bb'.ecos.c T.n fun j => lastCosts P.c os j / x j ^ d j := by
  obtain ⟨t, irO, prO, hO, w, hM⟩ := (bbSetup_made hamd hP hA sig).out h
  obtain ⟨a, g, x, y, z, hx, -, -, -, -, -, hs, hd, -⟩ := (ecosSetup_ok hamd hM.good hM.given eqReal).elim hM.setup
  have en : bb.ecos.n = T.n := by
    rw [hM.eq]
    exact hs.n
  have ex : Holds bb.ecos.hid.w.xequil T.n x := by
    rw [hM.eq]
    exact hd.xe
  have ec : Holds bb.ecos.c T.n P.c := by
    rw [hM.eq]
    exact hd.c
  have q := C66_costs_histories (x := x) os (c := P.c) (d := fun _ => 0) hos
  rw [en] at q
  obtain ⟨d, hd⟩ := q (ec.congr fun j _ => by simp) ex fun j hj => (hx j hj).ne'
  exact ⟨x, d, hx, ex, hd⟩

/-! ### Example -/
namespace Data

/-- `min x` subject to `2 x = 4`, `x ≥ 0`, `x` integer -/
def T1 : Pat := { n := 1, m := 1, p := 1, hasA := true, jcA := fun j => j, irA := fun _ => 0, jcG := fun j => j, irG := fun _ => 0 }

noncomputable def P1 : Dat := ⟨fun _ => 2, fun _ => -1, fun _ => 1, fun _ => 4, fun _ => 0⟩

noncomputable def args1 : BBArgs ℝ :=
  { n := 1, m := 1, p := 1, l := 1, ncones := 0, q := #[], nexc := 0, gpr := #[some (-1)], gjc := #[some 0, some 1], gir := #[some 0],
    A3 := ⟨some #[some 2], some #[some 0, some 1], some #[some 0]⟩, c := #[some 1], h := #[some 0], b := #[some 4], nb := 0, bools := #[], ni := 1,
    ints := #[some 0], stgs := { bbDefault with strategy := 0 } }

theorem csc1 : CscOk 1 1 (fun j => j) fun _ => 0 := ⟨rfl, fun j _ => by omega, fun _ _ => by decide⟩

theorem good1 : PatGood T1 Dir.exS where
  m := rfl
  a := fun _ => csc1
  noA := fun h => by cases h
  g := csc1
  na := fun _ h => by cases h
  ng := fun h => by cases h
  pos := fun k hk => absurd hk (Nat.not_lt_zero _)

theorem given1 : BBGiven T1 Dir.exS args1 P1.a P1.g P1.c P1.h P1.b (fun _ => 0) fun _ => 0 where
  n := rfl
  m := rfl
  p := rfl
  l := rfl
  ncones := rfl
  nexc := rfl
  data :=
    { q := ⟨rfl, fun i hi => absurd hi (Nat.not_lt_zero _)⟩
      A := by
        rw [if_pos (show T1.hasA = true from rfl)]
        exact ⟨_, _, _, rfl, ⟨rfl, fun i hi => by
          have : i < 2 := hi
          interval_cases i <;> rfl⟩, ⟨rfl, fun i hi => by
          have : i < 1 := hi
          interval_cases i; rfl⟩, ⟨rfl, fun i hi => by
          have : i < 1 := hi
          interval_cases i; rfl⟩⟩
      G := ⟨_, _, _, rfl, ⟨rfl, fun i hi => by
        have : i < 2 := hi
        interval_cases i <;> rfl⟩, ⟨rfl, fun i hi => by
        have : i < 1 := hi
        interval_cases i; rfl⟩, ⟨rfl, fun i hi => by
        have : i < 1 := hi
        interval_cases i; rfl⟩⟩
      c := ⟨rfl, fun i hi => by
        have : i < 1 := hi
        interval_cases i; rfl⟩
      h := ⟨rfl, fun i hi => by
        have : i < 1 := hi
        interval_cases i; rfl⟩
      b := ⟨rfl, fun i hi => by
        have : i < 1 := hi
        interval_cases i; rfl⟩ }
  bools := ⟨rfl, fun i hi => absurd hi (Nat.not_lt_zero _)⟩
  ints := ⟨rfl, fun i hi => by
    have : i < 1 := hi
    interval_cases i; rfl⟩
  decl := ⟨fun i hi => absurd hi (Nat.not_lt_zero _), fun i _ => by decide, fun i j hi => absurd hi (Nat.not_lt_zero _),
    fun i j hi hj _ => by
      have hi : i < 1 := hi
      have hj : j < 1 := hj
      omega,
    fun i j hi => absurd hi (Nat.not_lt_zero _)⟩

theorem noDup1 : PatNoDup T1 :=
  ⟨fun _ c hc k l h1 h2 h3 => by
    have h1 : c ≤ k := h1
    have h3 : l < c + 1 := h3
    omega, fun c hc k l h1 h2 h3 => by
    have h1 : c ≤ k := h1
    have h3 : l < c + 1 := h3
    omega⟩

/-- C66 on the example, with AMD: set-up succeeds, the clean-up right after it runs, and after any calls the clean-up leaves 2 as the entry of `A` and
4 as that of `b` again -/
example (sig : Sig) : ∃ bb, bbSetup (amdOrder (fun _ => 40) 2147483647) args1 sig = .ok bb ∧
    (Ok (unsetEquilibration (toWork bb.ecos).eqs (toWork bb.ecos).b (toWork bb.ecos).h) fun _ => True) ∧
    ∀ (os : List (BBCall ℝ)) bb' q, bbCalls bb os = .ok bb' →
      unsetEquilibration (toWork bb'.ecos).eqs (toWork bb'.ecos).b (toWork bb'.ecos).h = .ok q →
      (∃ M, q.1 = some M ∧ M.pr[0]? = some (some 2)) ∧ q.2.2.1[0]? = some (some 4) := by
  obtain ⟨bb, hb, -⟩ := (Ok.def _ _).1 (C55_setup_succeeds (dense0 := fun _ => 40) (imax := 2147483647) good1 given1 noDup1
    (by simp [nnzK, dimK, T1, Dir.exS, Pat.nA, Pat.nG, args1]) sig Nat.zero_lt_one (show 0 < 1000 by omega) (show (0 : Nat) ≠ 1 by omega))
  obtain ⟨T', S', -, -, -, -, -, hR⟩ := (C55_setup amdOrder_perm good1 given1 sig Nat.zero_lt_one (show 0 < 1000 by omega)
    (show (0 : Nat) ≠ 1 by omega)).out hb
  refine ⟨bb, hb, C66_cleanup_runs hR, fun os bb' q h1 h2 => ?_⟩
  obtain ⟨k1, k2⟩ := C66_given_back amdOrder_perm good1 given1 hb h1 h2
  unfold RepA at k1
  rw [if_pos (show T1.hasA = true from rfl)] at k1
  obtain ⟨M, e, k1⟩ := k1
  exact ⟨⟨M, e, k1.hpr.2 0 (by decide)⟩, k2.2 0 (by decide)⟩

end Data

end exact

namespace Signal

/-- the second cost after the run of `leaves` -/
def costAfter (gamma : Fx) : Option Fx :=
  match (do
    let bb ← bbSetup Run.natural disc Run.sg
    let bb ← (BBCall.ecosStgs { bb.ecos.hid.w.stgs with gamma := gamma }).run bb
    bbSolve (realEnv (fun _ _ => false) fun _ => 0) 40 bb : M _) with
  | .ok (bb, _) =>
    match bb.ecos.c[1]? with
    | some (some v) => some v
    | _ => none
  | .error _ => none

end Signal

/-- C66 is violated for `c`: if a continuous solve leaves the cone, the mixed-integer solve leaves the caller's costs changed (the second one was -1). -/
theorem C66_costs_violated : (match Signal.costAfter 1.01 with
    | some v => !Signal.close v (-1)
    | none => false) = true := by
  decide +kernel

end BB
end Ecos
