import Verif.Props.BBRun
import Verif.Props.BBSetup
import Verif.Props.EndToEnd

/-!
# C57: what the answer of the mixed-integer solver says about the caller's problem

The answer is the point of one continuous solve, of a problem that is the caller's with integer bounds on the declared variables. If that
solve ended with "optimal", the point meets the tolerances for this problem, in the caller's units; the search gives away neither which
code the solve ended with, nor does it insist on that one.
-/
set_option linter.unusedSectionVars false

namespace Ecos
namespace BB

open Ecos.Asm Finset Augm XR Ecos.StatProps

/-! ### The statement -/

/-- `D` is the caller's problem `P` with two rows in front for each of the declared variables: `-x ≤ .` and `x ≤ .` -/
structure AugOf (T : Pat) (P : Dat) (nb ni : Nat) (bv iv : Nat → Nat) (T' : Pat) (D : Dat) : Prop where
  n : T'.n = T.n
  p : T'.p = T.p
  m : T'.m = T.m + 2 * (nb + ni)
  A : ∀ i j, D.A T' i j = P.A T i j
  b : ∀ i, i < T.p → D.b i = P.b i
  G : ∀ i j, j < T.n → D.G T' (2 * (nb + ni) + i) j = P.G T i j
  h : ∀ i, i < T.m → D.h (2 * (nb + ni) + i) = P.h i
  bound : ∀ v, v < T.n → Decl nb ni bv iv v → ∃ k, k < nb + ni ∧ ∀ j, j < T.n →
    D.G T' (2 * k) j = (if j = v then -1 else 0) ∧ D.G T' (2 * k + 1) j = if j = v then 1 else 0

/-- `D` is a continuous problem of the search: the bounds are integers, and the costs are those of the caller, up to divisions by the
scaling of the variable (a solve that stops outside of the cone leaves them divided) -/
structure NodeOf (T : Pat) (P : Dat) (nb ni : Nat) (bv iv : Nat → Nat) (T' : Pat) (D : Dat) (E : Fac) : Prop where
  aug : AugOf T P nb ni bv iv T' D
  int : ∀ r, r < 2 * (nb + ni) → ∃ k : Int, D.h r = k
  cost : ∃ k : Nat → Nat, ∀ j, j < T.n → D.c j = P.c j / E.x j ^ k j

/-- Histories of a mixed-integer workspace, with the problem (finite data) the caller has put into it: by set-up, changed by entry
updates, kept by solves and changed settings. An update of the right-hand side goes to another row when there are integer variables
(`C39_violated`): it is lost, or hits the row `2 * ni` before. -/
inductive MISession (amd : Nat → Buf Nat → Buf Nat → Option (Buf Nat)) (T : Pat) (S : Shape) (nb ni : Nat) (bv iv : Nat → Nat) (mx : Nat) :
    St XR (Hid XR) (Stats XR) → Dat → Prop
  | setup {A : BBArgs XR} {P : Dat} {sig : Sig} {bb : St XR (Hid XR) (Stats XR)}
      (hA : BBGiven T S A (fun k => fin (P.a k)) (fun k => fin (P.g k)) (fun k => fin (P.c k)) (fun k => fin (P.h k)) (fun k => fin (P.b k)) bv iv)
      (hnb : A.nb = nb) (hni : A.ni = ni) (hmx : A.stgs.maxit = mx) (hst : A.stgs.strategy ≠ 1) (h : bbSetup amd A sig = .ok bb) :
      MISession amd T S nb ni bv iv mx bb P
  | entryH {bb bb' : St XR (Hid XR) (Stats XR)} {P : Dat} {i : Nat} {v : ℝ} (hs : MISession amd T S nb ni bv iv mx bb P) (hi : i < T.m)
      (h : updateDataEntryH bb i (fin v) = .ok bb') :
      MISession amd T S nb ni bv iv mx bb' { P with h := if i < 2 * ni then P.h else upd P.h (i - 2 * ni) v }
  | entryC {bb bb' : St XR (Hid XR) (Stats XR)} {P : Dat} {i : Nat} {v : ℝ} (hs : MISession amd T S nb ni bv iv mx bb P) (hi : i < T.n)
      (h : updateDataEntryC bb i (fin v) = .ok bb') : MISession amd T S nb ni bv iv mx bb' { P with c := upd P.c i v }
  | ecosStgs {bb bb' : St XR (Hid XR) (Stats XR)} {P : Dat} (s : Settings XR) (hs : MISession amd T S nb ni bv iv mx bb P)
      (h : (BBCall.ecosStgs s).run bb = .ok bb') : MISession amd T S nb ni bv iv mx bb' P
  | stgs {bb bb' : St XR (Hid XR) (Stats XR)} {P : Dat} (s : Stgs XR) (hs : MISession amd T S nb ni bv iv mx bb P) (hmx : s.maxit = mx)
      (hst : s.strategy ≠ 1) (h : (BBCall.stgs s).run bb = .ok bb') : MISession amd T S nb ni bv iv mx bb' P
  | solve {bb : St XR (Hid XR) (Stats XR)} {P : Dat} {arr : Nat → Nat → Bool} {rand : Nat → Nat} {fuel : Nat}
      {r : St XR (Hid XR) (Stats XR) × Int} (hs : MISession amd T S nb ni bv iv mx bb P) (hr : ∀ k, rand k ≤ RAND_MAX)
      (h : bbSolve (realEnv arr rand) fuel bb = .ok r) : MISession amd T S nb ni bv iv mx r.1 P

/-- the same variables and statistics -/
structure SameVars (w w1 : Work XR) : Prop where
  x : w.x = w1.x
  y : w.y = w1.y
  z : w.z = w1.z
  s : w.s = w1.s
  kap : w.kap = w1.kap
  tau : w.tau = w1.tau
  info : w.info = w1.info

/-- the variables and statistics of `w` are those with which a continuous solve of the problem `D` ended, with code `kc`; `arr`: the
interrupts -/
structure CameFrom (w : Work XR) (T' : Pat) (S' : Shape) (D : Dat) (E : Fac) (arr : Nat → Nat → Bool) (kc : Int) : Prop where
  fac : FacIs w T' E
  solve : ∃ w0 w1 sig sig1 k D', Owns w0 T' S' D E D' ∧ w0.stgs = w.stgs ∧ ecosSolve (arr k) w0 sig = .ok (w1, sig1, kc) ∧ SameVars w w1

/-! ### The workspace -/

/-- the data neither the search nor the updates change -/
structure Frame (w : Work XR) (T : Pat) (S : Shape) (D : Dat) (E : Fac) (D' : Dat) : Prop where
  ok : E.Ok S T
  nx : ∀ j, E.x j ≠ 0
  nA : ∀ i, E.A i ≠ 0
  nG : ∀ i, E.G i ≠ 0
  sc : ScaledBy T D D' E
  A : RepAD IsFin w.A T D'.a
  G : RepD IsFin w.G T.m T.n T.jcG T.irG D'.g
  b : HoldsD IsFin w.b T.p D'.b
  xe : HoldsD IsFin w.xequil T.n E.x
  ye : HoldsD IsFin w.Aequil T.p E.A
  ze : HoldsD IsFin w.Gequil T.m E.G

theorem Frame.of {w : Work XR} {T : Pat} {S : Shape} {D D' : Dat} {E : Fac} (h : Owns w T S D E D') : Frame w T S D E D' :=
  ⟨h.ok, h.nx, h.nA, h.nG, h.sc, h.A, h.G, h.b, h.xe, h.ye, h.ze⟩

/-- the costs that may be found in the workspace -/
def LeftCost (T : Pat) (D : Dat) (E : Fac) (c : Nat → XR) : Prop := ∃ k : Nat → Nat, ∀ j, j < T.n → c j = fin (D.c j / E.x j ^ k j)

variable {amd : Nat → Buf Nat → Buf Nat → Option (Buf Nat)} {T T' : Pat} {S S' : Shape} {nb ni mx : Nat} {bv iv : Nat → Nat} {P D D' : Dat}
  {E : Fac} {w0 : Work XR} {hu z : Nat → XR} {stgs : Stgs XR} {bb : St XR (Hid XR) (Stats XR)}

theorem den_at {b : Buf XR} {n : Nat} {f : Nat → XR} {g : Nat → ℝ} (h : Holds b n f) (hg : HoldsD IsFin b n g) {i : Nat} (hi : i < n) :
    f i = fin (g i) := by
  obtain ⟨v, h1, h2⟩ := hg.2 i hi
  have := h.2 i hi
  rw [h1] at this
  have := Option.some.inj (Option.some.inj this)
  rw [← this]
  exact h2

theorem costOk_left (hF : Frame w0 T S D E D') : CostOk T w0 (LeftCost T D E) := by
  refine ⟨fun c xe ⟨k, hk⟩ hx => ⟨fun j => k j + 1, fun j hj => ?_⟩, fun c xe ⟨k, hk⟩ hx => ⟨k, fun j hj => ?_⟩⟩
  · show c j / xe j = fin (D.c j / E.x j ^ (k j + 1))
    rw [hk j hj, den_at hx hF.xe hj, fin_div (hF.nx j), pow_succ, div_div]
  · show c j / xe j * xe j = _
    rw [hk j hj, den_at hx hF.xe hj, fin_div (hF.nx j), fin_mul, div_mul_cancel₀ _ (hF.nx j)]

/-- a mixed-integer workspace that holds the problem `P` -/
def MIHolds (amd : Nat → Buf Nat → Buf Nat → Option (Buf Nat)) (T : Pat) (nb ni : Nat) (bv iv : Nat → Nat) (mx : Nat)
    (bb : St XR (Hid XR) (Stats XR)) (P : Dat) : Prop :=
  ∃ T' S' D E D' w0 z hu stgs, stgs.maxit = mx ∧ stgs.strategy ≠ 1 ∧ PatGood T' S' ∧ AugOf T P nb ni bv iv T' D ∧ (∀ j, D.c j = P.c j) ∧
    Frame w0 T' S' D E D' ∧ Holds w0.Gequil T'.m z ∧ (∀ r, 2 * (nb + ni) ≤ r → r < T'.m → hu r = fin (D.h r / E.G r)) ∧
    Start (realPar amd T' S' w0 (LeftCost T' D E) nb ni bv iv hu z stgs) (fun _ => True) bb

/-- the number of a finite value -/
noncomputable def toR : XR → ℝ
  | fin r => r
  | _ => 0

/-- set-up -/
theorem miHolds_setup (hamd : ∀ N jc ir P, amd N jc ir = some P → ∃ pf, Holds P N pf ∧ IsPerm N pf) (hP : PatGood T S) {A : BBArgs XR} {sig : Sig}
    (hA : BBGiven T S A (fun k => fin (P.a k)) (fun k => fin (P.g k)) (fun k => fin (P.c k)) (fun k => fin (P.h k)) (fun k => fin (P.b k)) bv iv)
    (hp : 0 < A.nb + A.ni) (hm : 0 < A.stgs.maxit) (hst : A.stgs.strategy ≠ 1) (h : bbSetup amd A sig = .ok bb) :
    MIHolds amd T A.nb A.ni bv iv A.stgs.maxit bb P := by
  obtain ⟨t, irO, prO, hO, w, hM⟩ := (bbSetup_made hamd hP hA sig).out h
  have hn : A.aug.n = T.n := hA.n
  have hmA : A.aug.m = T.m := hA.m
  have hdc : Declared A.aug.n A.aug.nb A.aug.ni bv iv := by
    rw [hn]
    exact hA.decl
  have hsucc : ∀ i, i < T.n → jcN A.aug T.jcG bv iv (i + 1) = jcN A.aug T.jcG bv iv i + off A.nb A.ni bv iv i + (T.jcG (i + 1) - T.jcG i) := by
    intro i hi
    have := hP.g.mono i hi
    show T.jcG (i + 1) + 2 * rank A.nb A.ni bv iv (i + 1) = T.jcG i + 2 * rank A.nb A.ni bv iv i + off A.nb A.ni bv iv i + _
    unfold off
    by_cases h : Decl A.nb A.ni bv iv i
    · rw [rank_succ_decl _ _ _ _ h, if_pos h]; omega
    · rw [rank_succ_not _ _ _ _ h, if_neg h]; omega
  have h0 : jcN A.aug T.jcG bv iv 0 = 0 := by
    unfold jcN Augm.rank
    rw [hP.g.zero]
    simp
  -- all entries are finite
  have hpr : ∀ q, q < jcN A.aug T.jcG bv iv T.n → prO q = fin (toR (prO q)) := by
    intro q hq
    obtain ⟨i, hi, h1, h2⟩ := col_find (by omega) hq
    have hs := hsucc i hi
    have hc := hM.out.cols i (by rw [hn]; exact hi)
    by_cases hq2 : q < jcN A.aug T.jcG bv iv i + off A.nb A.ni bv iv i
    · by_cases hd : Decl A.nb A.ni bv iv i
      · have ho : off A.nb A.ni bv iv i = 2 := if_pos hd
        obtain ⟨b1, b2, -, -⟩ := hc.bnd hd
        rcases (by omega : q = jcN A.aug T.jcG bv iv i ∨ q = jcN A.aug T.jcG bv iv i + 1) with rfl | rfl
        · rw [b1]; rfl
        · rw [b2]; rfl
      · have ho : off A.nb A.ni bv iv i = 0 := if_neg hd
        omega
    · obtain ⟨k, rfl⟩ : ∃ k, q = jcN A.aug T.jcG bv iv i + off A.nb A.ni bv iv i + k := ⟨q - (jcN A.aug T.jcG bv iv i + off A.nb A.ni bv iv i), by omega⟩
      have := (hc.user k (by omega)).1
      have this : prO (jcN A.aug T.jcG bv iv i + off A.nb A.ni bv iv i + k) = fin (P.g (T.jcG i + k)) := this
      rw [this]
      rfl
  have hh : ∀ r, r < T.m + 2 * (A.nb + A.ni) → hO r = fin (toR (hO r)) := by
    intro r hr
    by_cases hr2 : r < 2 * (A.nb + A.ni)
    · rcases aug_bnd hdc hM.out hr2 with e | e | e | e <;> rw [e] <;> rfl
    · have := hM.out.user (r - 2 * (A.nb + A.ni)) (by rw [hmA]; omega)
      have this : hO (2 * (A.nb + A.ni) + (r - 2 * (A.nb + A.ni))) = fin (P.h (r - 2 * (A.nb + A.ni))) := this
      rw [show 2 * (A.nb + A.ni) + (r - 2 * (A.nb + A.ni)) = r by omega] at this
      rw [this]
      rfl
  let D : Dat := ⟨P.a, fun q => toR (prO q), P.c, P.b, fun r => toR (hO r)⟩
  have hg := hM.given
  have hG : Given (A.pat T bv iv irO) (A.shape S) ⟨some t.pr, some t.jc, some t.ir⟩ A.A3 A.q A.c t.h A.b (fun k => fin (D.a k))
      (fun k => fin (D.g k)) (fun k => fin (D.c k)) (fun k => fin (D.h k)) (fun k => fin (D.b k)) := by
    refine ⟨hg.q, hg.A, ?_, hg.c, hg.h.congr hh, hg.b⟩
    obtain ⟨pr, jc, ir, e, g1, g2, g3⟩ := hg.G
    exact ⟨pr, jc, ir, e, g1, g2, g3.congr hpr⟩
  have hses : Session amd (A.pat T bv iv irO) (A.shape S) w D := .setup hG hM.setup
  obtain ⟨E, D', ho⟩ := hses.owns hamd hM.good
  obtain ⟨z, hz, hS⟩ := hM.start hamd hA (cs := LeftCost (A.pat T bv iv irO) D E) ⟨fun _ => 0, fun j _ => by simp [D]⟩ hp hm
  -- the matrix
  let J : AugIn ℝ := { nb := A.nb, bools := A.bools, ni := A.ni, ints := A.ints, n := A.n, m := A.m, gpr := #[], gjc := A.gjc, gir := A.gir, h := #[] }
  have hcol : ∀ i, i < T.n → ColOk J T.jcG T.irG P.g bv iv (jcN A.aug T.jcG bv iv) irO D.g i := by
    intro i hi
    have hc := hM.out.cols i (by rw [hn]; exact hi)
    refine ⟨fun hd => ?_, fun k hk => ?_⟩
    · obtain ⟨b1, b2, b3, b4⟩ := hc.bnd hd
      refine ⟨?_, ?_, b3, b4⟩
      · show toR (prO _) = _
        rw [b1]
        rfl
      · show toR (prO _) = _
        rw [b2]
        rfl
    · obtain ⟨u1, u2⟩ := hc.user k hk
      refine ⟨?_, u2⟩
      show toR (prO _) = _
      have u1 : prO (jcN A.aug T.jcG bv iv i + off J.nb J.ni bv iv i + k) = fin (P.g (T.jcG i + k)) := u1
      rw [u1]
      rfl
  have hden : ∀ j, j < T.n → ∀ r, _ := fun j hj r => dense_col' (I := J) (hsucc j hj) (hcol j hj) r
  refine ⟨_, _, D, E, D', w, z, _, A.stgs, rfl, hst, hM.good, ⟨rfl, rfl, rfl, fun _ _ => rfl, fun _ _ => rfl, ?_, ?_, ?_⟩, fun _ => rfl,
    .of ho, hz, ?_, hS⟩
  · intro i j hj
    exact (hden j hj i).2.2
  · intro i hi
    have := hM.out.user i (by rw [hmA]; exact hi)
    have this : hO (2 * (A.nb + A.ni) + i) = fin (P.h i) := this
    show toR (hO _) = _
    rw [this]
    rfl
  · intro v hv hd
    have hr : rank A.nb A.ni bv iv v < A.nb + A.ni := rank_lt _ _ _ _ hd
    refine ⟨rank A.nb A.ni bv iv v, hr, fun j hj => ?_⟩
    have key : ∀ e, e < 2 → D.G (A.pat T bv iv irO) (2 * rank A.nb A.ni bv iv v + e) j =
        if j = v then (if e = 0 then -1 else 1) else 0 := by
      intro e he
      obtain ⟨d1, d2, -⟩ := hden j hj (2 * rank A.nb A.ni bv iv v + e)
      by_cases hdj : Decl A.nb A.ni bv iv j
      · refine (d2 (show 2 * rank A.nb A.ni bv iv v + e < 2 * (A.nb + A.ni) by omega) hdj).trans ?_
        show (if 2 * rank A.nb A.ni bv iv j = _ then (-1 : ℝ) else 0) + (if 2 * rank A.nb A.ni bv iv j + 1 = _ then 1 else 0) = _
        by_cases hjv : j = v
        · subst hjv
          rcases (by omega : e = 0 ∨ e = 1) with rfl | rfl
          · simp
          · simp
        · have hne : rank A.nb A.ni bv iv j ≠ rank A.nb A.ni bv iv v := fun h => hjv (rank_inj hdj hd h)
          rw [if_neg hjv, if_neg (by omega), if_neg (by omega), add_zero]
      · refine (d1 (show 2 * rank A.nb A.ni bv iv v + e < 2 * (A.nb + A.ni) by omega) hdj).trans ?_
        rw [if_neg (fun h : j = v => hdj (by rw [h]; exact hd))]
    exact ⟨by simpa using key 0 (by omega), by simpa using key 1 (by omega)⟩
  · intro r hr1 hr2
    have hr2 : r < T.m + 2 * (A.nb + A.ni) := hr2
    show hO r / z r = fin (toR (hO r) / E.G r)
    rw [hh r hr2, den_at hz ho.ze hr2, fin_div (ho.nG r)]
    rfl

/-- a search keeps the problem -/
theorem miHolds_solve (hp : 0 < nb + ni) (hb : MIHolds amd T nb ni bv iv mx bb P) {arr : Nat → Nat → Bool} {rand : Nat → Nat}
    (hr : ∀ k, rand k ≤ RAND_MAX) {fuel : Nat} {r : St XR (Hid XR) (Stats XR) × Int} (h : bbSolve (realEnv arr rand) fuel bb = .ok r) :
    MIHolds amd T nb ni bv iv mx r.1 P := by
  obtain ⟨T', S', D, E, D', w0, z, hu, stgs, h1, h2, hg, hau, hc, hF, hz, hhu, hS⟩ := hb
  exact ⟨T', S', D, E, D', w0, z, hu, stgs, h1, h2, hg, hau, hc, hF, hz, hhu,
    (solve_runs hg ltLaws_xr hp hz (costOk_left hF) hS hr h2 fuel).out h⟩

theorem start_stgs {w0 : Work XR} {cs : (Nat → XR) → Prop} (hS : Start (realPar amd T S w0 cs nb ni bv iv hu z stgs) (fun _ => True) bb) :
    stgs = bb.stgs := hS.stgs_eq.symm

theorem Frame.withC (hF : Frame w0 T S D E D') (c : Nat → ℝ) :
    Frame w0 T S { D with c := c } E { D' with c := fun j => c j / E.x j } :=
  ⟨hF.ok, hF.nx, hF.nA, hF.nG, ⟨hF.sc.a, hF.sc.g, fun _ _ => rfl, hF.sc.b, hF.sc.h⟩, hF.A, hF.G, hF.b, hF.xe, hF.ye, hF.ze⟩

theorem Frame.withH (hF : Frame w0 T S D E D') (h : Nat → ℝ) :
    Frame w0 T S { D with h := h } E { D' with h := fun j => h j / E.G j } :=
  ⟨hF.ok, hF.nx, hF.nA, hF.nG, ⟨hF.sc.a, hF.sc.g, hF.sc.c, hF.sc.b, fun _ _ => rfl⟩, hF.A, hF.G, hF.b, hF.xe, hF.ye, hF.ze⟩

theorem miHolds_entryH (hb : MIHolds amd T nb ni bv iv mx bb P) {i : Nat} {v : ℝ} (hi : i < T.m) {bb' : St XR (Hid XR) (Stats XR)}
    (h : updateDataEntryH bb i (fin v) = .ok bb') :
    MIHolds amd T nb ni bv iv mx bb' { P with h := if i < 2 * ni then P.h else upd P.h (i - 2 * ni) v } := by
  obtain ⟨T', S', D, E, D', w0, z, hu, stgs, h1, h2, hg, hau, hc, hF, hz, hhu, hS⟩ := hb
  obtain ⟨hf, he⟩ := hS.hew
  have hm := hau.m
  have hlt : i + 2 * bb.nb < T'.m := by
    rw [hS.nb_eq]
    show i + 2 * nb < T'.m
    omega
  unfold updateDataEntryH updH at h
  rw [he.hg.rd hlt, ok_bind_eq] at h
  obtain ⟨h', e1, e2⟩ := (Ok.def _ _).mp (he.hh.wr hlt (fin v / z (i + 2 * bb.nb)))
  have e1 : wr bb.ecos.h (i + 2 * bb.nb) (fin v / (realPar amd T' S' w0 (LeftCost T' D E) nb ni bv iv hu z stgs).geq (i + 2 * bb.nb)) = .ok h' := e1
  rw [e1, ok_bind_eq] at h
  have e3 : Holds h' T'.m (upd hf (i + 2 * bb.nb) (fin v / z (i + 2 * bb.nb))) := e2
  have hnb : bb.nb = nb := hS.nb_eq
  have hst : stgs = bb.stgs := start_stgs hS
  rw [hnb, den_at hz hF.ze (by omega), fin_div (hF.nG _)] at e3
  subst hst
  cases h
  have hbnd : ∀ r, r < 2 * nb → ∃ u, BoolBnd u ∧ upd hf (i + 2 * nb) (fin (v / E.G (i + 2 * nb))) r = u / z r := by
    intro r hr
    rw [upd_ne _ _ (show r ≠ i + 2 * nb by omega)]
    exact he.hbnd r hr
  by_cases hlo : i < 2 * ni
  · refine ⟨T', S', D, E, D', w0, z, hu, bb.stgs, h1, h2, hg, ?_, hc, hF, hz, hhu, ?_⟩
    · exact ⟨hau.n, hau.p, hau.m, hau.A, hau.b, hau.G, fun k hk => by rw [if_pos hlo]; exact hau.h k hk, hau.bound⟩
    · refine Start.change (stgs' := bb.stgs) hS rfl (e := { bb.ecos with h := h' }) ⟨he.hn, he.hp, he.hm, he.hc, e3, he.hg, he.sx, he.sy, he.sz,
        he.ss, fun r hr1 hr2 => ?_, hbnd, he.hok⟩
      have hr1 : 2 * (nb + ni) ≤ r := hr1
      rw [upd_ne _ _ (show r ≠ i + 2 * nb by omega)]
      exact he.huser r hr1 hr2
  · refine ⟨T', S', { D with h := upd D.h (i + 2 * nb) v }, E, _, w0, z, upd hu (i + 2 * nb) (fin (v / E.G (i + 2 * nb))), bb.stgs, h1, h2, hg, ?_, hc,
      hF.withH _, hz, ?_, ?_⟩
    · refine ⟨hau.n, hau.p, hau.m, hau.A, hau.b, hau.G, fun k hk => ?_, hau.bound⟩
      rw [if_neg hlo]
      show upd D.h (i + 2 * nb) v (2 * (nb + ni) + k) = upd P.h (i - 2 * ni) v k
      by_cases hk2 : k = i - 2 * ni
      · rw [hk2, show 2 * (nb + ni) + (i - 2 * ni) = i + 2 * nb by omega, upd_self, upd_self]
      · rw [upd_ne _ _ hk2, upd_ne _ _ (by omega)]
        exact hau.h k hk
    · intro r hr1 hr2
      show _ = fin (upd D.h (i + 2 * nb) v r / E.G r)
      by_cases hri : r = i + 2 * nb
      · rw [hri, upd_self, upd_self]
      · rw [upd_ne _ _ hri, upd_ne _ _ hri]
        exact hhu r hr1 hr2
    · refine Start.change (stgs' := bb.stgs) hS rfl (e := { bb.ecos with h := h' }) ⟨he.hn, he.hp, he.hm, he.hc, e3, he.hg, he.sx, he.sy, he.sz,
        he.ss, fun r hr1 hr2 => ?_, hbnd, he.hok⟩
      have hr1 : 2 * (nb + ni) ≤ r := hr1
      show _ = upd hu (i + 2 * nb) (fin (v / E.G (i + 2 * nb))) r
      by_cases hri : r = i + 2 * nb
      · rw [hri, upd_self, upd_self]
      · rw [upd_ne _ _ hri, upd_ne _ _ hri]
        exact he.huser r hr1 hr2

theorem miHolds_entryC (hb : MIHolds amd T nb ni bv iv mx bb P) {i : Nat} {v : ℝ} (hi : i < T.n) {bb' : St XR (Hid XR) (Stats XR)}
    (h : updateDataEntryC bb i (fin v) = .ok bb') : MIHolds amd T nb ni bv iv mx bb' { P with c := upd P.c i v } := by
  obtain ⟨T', S', D, E, D', w0, z, hu, stgs, h1, h2, hg, hau, hc, hF, hz, hhu, hS⟩ := hb
  obtain ⟨hf, he⟩ := hS.hew
  obtain ⟨cf, ⟨k, hk⟩, hcf⟩ := he.hc
  have hi' : i < T'.n := by
    rw [hau.n]
    exact hi
  unfold updateDataEntryC updC at h
  obtain ⟨c', e1, e2⟩ := (Ok.def _ _).mp (hcf.wr (i := i) hi' (fin v))
  rw [e1, ok_bind_eq] at h
  have hst : stgs = bb.stgs := start_stgs hS
  subst hst
  cases h
  refine ⟨T', S', { D with c := upd D.c i v }, E, _, w0, z, hu, bb.stgs, h1, h2, hg,
    ⟨hau.n, hau.p, hau.m, hau.A, hau.b, hau.G, hau.h, hau.bound⟩, fun j => ?_, hF.withC _, hz, hhu,
    Start.change (stgs' := bb.stgs) hS rfl (e := { bb.ecos with c := c' }) ⟨he.hn, he.hp, he.hm,
      ⟨_, ⟨upd k i 0, fun j hj => ?_⟩, e2⟩, he.hh, he.hg, he.sx, he.sy, he.sz, he.ss, he.huser, he.hbnd, he.hok⟩⟩
  · show upd D.c i v j = upd P.c i v j
    by_cases hji : j = i
    · rw [hji, upd_self, upd_self]
    · rw [upd_ne _ _ hji, upd_ne _ _ hji]
      exact hc j
  · show upd cf i (fin v) j = fin (upd D.c i v j / E.x j ^ upd k i 0 j)
    by_cases hji : j = i
    · rw [hji, upd_self, upd_self, upd_self, pow_zero, div_one]
    · rw [upd_ne _ _ hji, upd_ne _ _ hji, upd_ne _ _ hji]
      exact hk j hj

theorem miHolds_ecosStgs (hb : MIHolds amd T nb ni bv iv mx bb P) {s : Settings XR} {bb' : St XR (Hid XR) (Stats XR)}
    (h : (BBCall.ecosStgs s).run bb = .ok bb') : MIHolds amd T nb ni bv iv mx bb' P := by
  obtain ⟨T', S', D, E, D', w0, z, hu, stgs, h1, h2, hg, hau, hc, hF, hz, hhu, hS⟩ := hb
  obtain ⟨hf, he⟩ := hS.hew
  obtain ⟨⟨a, g, c, b, h', xe, ye, ze, π, ai, q, ax, sg, hl⟩, hx⟩ := he.hok
  have hst : stgs = bb.stgs := start_stgs hS
  subst hst
  cases h
  exact ⟨T', S', D, E, D', { w0 with stgs := s }, z, hu, bb.stgs, h1, h2, hg, hau, hc,
    ⟨hF.ok, hF.nx, hF.nA, hF.nG, hF.sc, hF.A, hF.G, hF.b, hF.xe, hF.ye, hF.ze⟩, hz, hhu, Start.change (stgs' := bb.stgs) hS rfl
      (e := { bb.ecos with hid := { bb.ecos.hid with w := { bb.ecos.hid.w with stgs := s } } }) (hf := hf)
      ⟨he.hn, he.hp, he.hm, he.hc, he.hh, he.hg, he.sx, he.sy, he.sz, he.ss, he.huser, he.hbnd, ⟨a, g, c, b, h', xe, ye, ze, π, ai, q, ax, sg,
        ⟨hl.sz.n, hl.sz.m, hl.sz.p, hl.sz.D, hl.sz.x, hl.sz.y, hl.sz.z, hl.sz.s, hl.sz.bx, hl.sz.b_y, hl.sz.bz, hl.sz.bs, hl.sz.rx,
          hl.sz.ry, hl.sz.rz⟩,
        ⟨hl.data.A, hl.data.G, hl.data.c, hl.data.b, hl.data.h, hl.data.xe, hl.data.ye, hl.data.ze, hl.data.ua, hl.data.mA, hl.data.mG⟩,
        hl.cone, hl.made, hl.ord, hl.val⟩, hx.A, hx.G, hx.b, hx.xe, hx.ye, hx.ze, rfl⟩⟩

theorem miHolds_stgs (hb : MIHolds amd T nb ni bv iv mx bb P) {s : Stgs XR} {bb' : St XR (Hid XR) (Stats XR)}
    (h : (BBCall.stgs s).run bb = .ok bb') (hmx : s.maxit = mx) (hst : s.strategy ≠ 1) : MIHolds amd T nb ni bv iv mx bb' P := by
  obtain ⟨T', S', D, E, D', w0, z, hu, stgs, h1, h2, hg, hau, hc, hF, hz, hhu, hS⟩ := hb
  obtain ⟨hf, he⟩ := hS.hew
  cases h
  exact ⟨T', S', D, E, D', w0, z, hu, s, hmx, hst, hg, hau, hc, hF, hz, hhu, Start.change (stgs' := s) hS (hmx.trans h1.symm) (e := bb.ecos) (hf := hf)
    ⟨he.hn, he.hp, he.hm, he.hc, he.hh, he.hg, he.sx, he.sy, he.sz, he.ss, he.huser, he.hbnd, he.hok⟩⟩

/-- whatever the history, the workspace holds the problem of the caller -/
theorem MISession.holds (hamd : ∀ N jc ir P, amd N jc ir = some P → ∃ pf, Holds P N pf ∧ IsPerm N pf) (hP : PatGood T S) (hp : 0 < nb + ni)
    (hm : 0 < mx) (h : MISession amd T S nb ni bv iv mx bb P) : MIHolds amd T nb ni bv iv mx bb P := by
  induction h with
  | setup hA hnb hni hmx hst h =>
    subst hnb hni hmx
    exact miHolds_setup hamd hP hA hp hm hst h
  | entryH _ hi h ih => exact miHolds_entryH ih hi h
  | entryC _ hi h ih => exact miHolds_entryC ih hi h
  | ecosStgs s _ h ih => exact miHolds_ecosStgs ih h
  | stgs s _ hmx hst h ih => exact miHolds_stgs ih h hmx hst
  | solve _ hr h ih => exact miHolds_solve hp ih hr h

/-! ### The problem of a node -/

theorem boolBnd_int {v : XR} (h : BoolBnd v) : ∃ k : Int, v = fin k := by
  rcases h with rfl | rfl | rfl | rfl
  · exact ⟨0, by rw [Int.cast_zero]; rfl⟩
  · exact ⟨1, by rw [Int.cast_one]; rfl⟩
  · exact ⟨-1, by rw [Int.cast_neg, Int.cast_one]; rfl⟩
  · exact ⟨_, rfl⟩

theorem intVal_int {v : XR} (h : IntVal v) : ∃ k : Int, v = fin k := by
  obtain ⟨k, rfl | rfl⟩ := h
  · exact ⟨k, rfl⟩
  · exact ⟨-k, by rw [Int.cast_neg]; rfl⟩

/-- the bounds of a node, as integers -/
theorem node_bounds {cs : (Nat → XR) → Prop} {e : EW XR (Hid XR) (Stats XR)} {hf : Nat → XR}
    (he : EWF (realPar amd T' S' w0 cs nb ni bv iv hu z stgs) e hf) {bid : Nat → Int} {iid : Nat → XR}
    (hrow : HRows (realPar amd T' S' w0 cs nb ni bv iv hu z stgs) hf bid iid) (hi : ∀ i, i < 2 * ni → IntVal (iid i)) {r : Nat} (hr : r < 2 * (nb + ni)) :
    ∃ k : Int, hf r = fin k / z r := by
  by_cases hb : r < 2 * nb
  · obtain ⟨v, hv, e⟩ := he.hbnd r hb
    obtain ⟨k, rfl⟩ := boolBnd_int hv
    exact ⟨k, e⟩
  · obtain ⟨i, hini, e⟩ : ∃ i, i < ni ∧ (r = 2 * (i + nb) ∨ r = 2 * (i + nb) + 1) := ⟨r / 2 - nb, by omega, by omega⟩
    obtain ⟨q1, q2⟩ := hrow.int i hini
    rcases e with rfl | rfl
    · obtain ⟨k, hk⟩ := intVal_int (hi (2 * i) (by omega))
      exact ⟨k, by rw [← hk]; exact q1⟩
    · obtain ⟨k, hk⟩ := intVal_int (hi (2 * i + 1) (by omega))
      exact ⟨k, by rw [← hk]; exact q2⟩

/-- in front of a call of the continuous solver the workspace holds a problem of the search -/
theorem node_owns (hau : AugOf T P nb ni bv iv T' D) (hc : ∀ j, D.c j = P.c j) (hF : Frame w0 T' S' D E D') (hz : Holds w0.Gequil T'.m z)
    (hhu : ∀ r, 2 * (nb + ni) ≤ r → r < T'.m → hu r = fin (D.h r / E.G r)) {e : EW XR (Hid XR) (Stats XR)} {hf : Nat → XR}
    (he : EWF (realPar amd T' S' w0 (LeftCost T' D E) nb ni bv iv hu z stgs) e hf)
    (hb : ∀ r, r < 2 * (nb + ni) → ∃ k : Int, hf r = fin k / z r) :
    ∃ D1 D2, NodeOf T P nb ni bv iv T' D1 E ∧ Owns (toWork e) T' S' D1 E D2 := by
  have hx := toWork_fixed hz he
  obtain ⟨cf, ⟨k, hk⟩, hcf⟩ := he.hc
  choose! kb hkb using hb
  have hm := hau.m
  let hN : Nat → ℝ := fun r => if r < 2 * (nb + ni) then (kb r : ℝ) else D.h r
  have hhN : ∀ r, r < T'.m → hf r = fin (hN r / E.G r) := by
    intro r hr
    by_cases hr2 : r < 2 * (nb + ni)
    · rw [hkb r hr2, den_at hz hF.ze hr, fin_div (hF.nG r)]
      simp only [hN, if_pos hr2]
    · refine (he.huser r (by show 2 * (nb + ni) ≤ r; omega) hr).trans ((hhu r (by omega) hr).trans ?_)
      simp only [hN, if_neg hr2]
  have hF2 := (hF.withC fun j => D.c j / E.x j ^ k j).withH hN
  refine ⟨{ D with c := fun j => D.c j / E.x j ^ k j, h := hN }, _, ⟨⟨hau.n, hau.p, hau.m, hau.A, hau.b, hau.G, fun i hi => ?_, hau.bound⟩,
    fun r hr => ⟨kb r, if_pos hr⟩, k, fun j _ => by rw [← hc j]⟩, ⟨hF2.ok, hF2.nx, hF2.nA, hF2.nG, hF2.sc, ?_, ?_, ?_, ?_, ?_, ?_, ?_, ?_⟩⟩
  · exact (if_neg (by omega)).trans (hau.h i hi)
  · rw [hx.A]; exact hF2.A
  · rw [hx.G]; exact hF2.G
  · exact (show Holds (toWork e).c T'.n cf from hcf).den hk
  · rw [hx.b]; exact hF2.b
  · exact (show Holds (toWork e).h T'.m hf from he.hh).den hhN
  · rw [hx.xe]; exact hF2.xe
  · rw [hx.ye]; exact hF2.ye
  · rw [hx.ze]; exact hF2.ze

/-! ### The answer -/

/-- the code "optimal" of a search is about a number or about NaN -/
theorem retCode_lt {bb : St XR (Hid XR) (Stats XR)} (h : getRetCode bb = 0 ∨ getRetCode bb = 10) (hn : bb.globalU ≠ nan) :
    PFloat.lt bb.globalU (INF : XR) = true := by
  have hi : PFloat.isInf bb.globalU = false := by
    cases hb : PFloat.isInf bb.globalU
    · rfl
    · unfold getRetCode at h
      rw [hb] at h
      simp only [if_true] at h
      split at h <;> split at h <;> omega
  revert hi hn
  cases bb.globalU <;> intro hn hi
  · rfl
  · cases hi
  · cases hi
  · exact absurd rfl hn

theorem origin (hamd : ∀ N jc ir P, amd N jc ir = some P → ∃ pf, Holds P N pf ∧ IsPerm N pf) (hP : PatGood T S) (hp : 0 < nb + ni)
    (hm : 0 < mx) (hs : MISession amd T S nb ni bv iv mx bb P) {arr : Nat → Nat → Bool} {rand : Nat → Nat} (hr : ∀ k, rand k ≤ RAND_MAX)
    {fuel : Nat} {bb' : St XR (Hid XR) (Stats XR)} {code : Int} (h : bbSolve (realEnv arr rand) fuel bb = .ok (bb', code))
    (hcode : code = 0 ∨ code = 10) (hn : bb'.globalU ≠ nan) :
    ∃ T' S' D E kc, PatGood T' S' ∧ NodeOf T P nb ni bv iv T' D E ∧ Usable kc ∧ FacIs (toWork bb'.ecos) T' E ∧
      ∃ w0 w1 sig sig1 k D', LiveW amd T' S' w0 ∧ Owns w0 T' S' D E D' ∧ w0.stgs = (toWork bb'.ecos).stgs ∧
        ecosSolve (arr k) w0 sig = .ok (w1, sig1, kc) ∧ SameVars (toWork bb'.ecos) w1 := by
  obtain ⟨T', S', D, E, D', w0, z, hu, stgs, h1, h2, hg, hau, hc, hF, hz, hhu, hS⟩ := hs.holds hamd hP hp hm
  have K := real_contract (amd := amd) (nb := nb) (ni := ni) (bv := bv) (iv := iv) (hu := hu) (stgs := stgs) (arr := arr) hg hz (costOk_left hF) hr
  have H := hyp_any (Rb := fun _ => True) K hp (fun _ _ _ _ _ _ => trivial)
  obtain ⟨b1, g1, cur, hi, -, e⟩ := (bbSolve_ok H ltLaws_xr (fun h => absurd h h2)
    (noPt _ (realEnv arr rand) (fun _ => True) (fun _ _ => trivial) trivial) fuel hS).out h
  obtain ⟨rfl, rfl⟩ := Prod.mk.inj e
  obtain ⟨hf1, he1⟩ := hi.rep.hew
  obtain ⟨e, e', hf, kc, xf, he, hsol, hxf, ex, ey, ez, es, ek, et, ei, -, hor⟩ := hi.inc (retCode_lt hcode hn)
  have hbnd : Usable kc ∧ ∀ r, r < 2 * (nb + ni) → ∃ k : Int, hf r = fin k / z r := by
    rcases hor with ⟨ha, -, bid, iid, q1, -, q3⟩ | ⟨ha, bid, iid, q1, -, q3⟩
    · exact ⟨accepted_iff.1 ha, fun r hr => node_bounds he q1 q3 hr⟩
    · refine ⟨.inl ha, fun r hr => node_bounds he q1 (fun i hi => ?_) hr⟩
      obtain ⟨k, k1, k2⟩ := q3 (i / 2) (by show i / 2 < ni; omega)
      rcases (by omega : i = 2 * (i / 2) ∨ i = 2 * (i / 2) + 1) with e | e
      · exact ⟨k, .inr (by rw [e]; exact k1)⟩
      · exact ⟨k, .inl (by rw [e]; exact k2)⟩
  obtain ⟨D1, D2, hN, hO⟩ := node_owns hau hc hF hz hhu he hbnd.2
  have hx1 : Fixed w0 (toWork b1.ecos) := toWork_fixed hz he1
  have hx : Fixed w0 (toWork e) := toWork_fixed hz he
  have hsol : (ecosSolve (arr e.hid.calls) (toWork e) e.hid.sig >>= fun r => pure (ofWork r.1 r.2.1 (e.hid.calls + 1), r.2.2)) = .ok (e', kc) := hsol
  cases hq : ecosSolve (arr e.hid.calls) (toWork e) e.hid.sig with
  | error u =>
    rw [hq] at hsol
    cases hsol
  | ok r =>
    rw [hq, ok_bind_eq] at hsol
    obtain ⟨w1, sig1, code1⟩ := r
    cases hsol
    refine ⟨T', S', D1, E, _, hg, hN, hbnd.1, ⟨?_, ?_, ?_⟩, toWork e, w1, e.hid.sig, sig1, e.hid.calls, D2, toWork_live hz he, hO, ?_, hq, ex, ey, ez, es, ek, et, ?_⟩
    · show HoldsD IsFin (toWork b1.ecos).xequil _ _
      rw [hx1.xe]
      exact hF.xe
    · show HoldsD IsFin (toWork b1.ecos).Aequil _ _
      rw [hx1.ye]
      exact hF.ye
    · show HoldsD IsFin (toWork b1.ecos).Gequil _ _
      rw [hx1.ze]
      exact hF.ze
    · show (toWork e).stgs = (toWork b1.ecos).stgs
      rw [hx.stgs, hx1.stgs]
    · show b1.info.getD {} = w1.info
      rw [ei]
      rfl

/-- **C57** If that solve ended with "optimal" (0, or 10 for reduced accuracy after at least one iteration) and finite variables, they meet
the tolerances for the caller's problem with integer bounds, and the reported objectives are those of this problem.

Partial: the search takes a point also from a solve that ran out of iterations (-1) or into numerical problems (-2), and gives the same code
for it: `C57_violated`. -/
theorem C57_accurate_partial (hamd : ∀ N jc ir P, amd N jc ir = some P → ∃ pf, Holds P N pf ∧ IsPerm N pf) (hP : PatGood T S)
    (hp : 0 < nb + ni) (hm : 0 < mx) (hs : MISession amd T S nb ni bv iv mx bb P) {arr : Nat → Nat → Bool} {rand : Nat → Nat}
    (hr : ∀ k, rand k ≤ RAND_MAX) {fuel : Nat} {bb' : St XR (Hid XR) (Stats XR)} {code : Int}
    (h : bbSolve (realEnv arr rand) fuel bb = .ok (bb', code)) (hcode : code = 0 ∨ code = 10) (hn : bb'.globalU ≠ nan) :
    ∃ T' S' D E kc, NodeOf T P nb ni bv iv T' D E ∧ E.Ok S' T' ∧ Usable kc ∧ CameFrom (toWork bb'.ecos) T' S' D E arr kc ∧
      ((kc = 0 ∨ (kc = 10 ∧ 0 < (toWork bb'.ecos).info.iter)) → ∀ {ft at' rt rt0 : ℝ} {x y z s : Nat → ℝ} {t : ℝ},
        TolsAre (toWork bb'.ecos).stgs kc ft at' rt → (toWork bb'.ecos).stgs.reltol = fin rt0 → Returned (toWork bb'.ecos) T' x y z s t →
        Accurate T' D E x y z s t ft at' rt ∧ (toWork bb'.ecos).info.pcost = some (fin (ip T'.n D.c x)) ∧
          (toWork bb'.ecos).info.dcost = some (fin (-ip T'.p D.b y - ip T'.m D.h z))) := by
  obtain ⟨T', S', D, E, kc, hg, hN, hk, hfac, w0, w1, sig, sig1, k, D', hl, hO, hst, hsol, hsm⟩ := origin hamd hP hp hm hs hr h hcode hn
  refine ⟨T', S', D, E, kc, hN, hO.ok, hk, ⟨hfac, w0, w1, sig, sig1, k, D', hO, hst, hsol, hsm⟩, fun hkc => ?_⟩
  intro ft at' rt rt0 x y z s t htol hrt hret
  rw [hsm.info] at hkc ⊢
  rw [← hst] at htol hrt
  exact optimal_of hg hl hO hsol hkc htol hrt ⟨by rw [← hsm.x]; exact hret.x, by rw [← hsm.y]; exact hret.y, by rw [← hsm.z]; exact hret.z,
    by rw [← hsm.s]; exact hret.s, by rw [← hsm.kap]; exact hret.kap, by rw [← hsm.tau]; exact hret.tau, hret.pos⟩

/-! ### The rows of the caller -/

theorem nrm_tail_le (a b : Nat) (f : Nat → ℝ) : nrm b (fun i => f (a + i)) ≤ nrm (a + b) f := by
  unfold nrm
  refine Real.sqrt_le_sqrt ?_
  rw [sum_range_add]
  have : 0 ≤ ∑ k ∈ range a, f k ^ 2 := sum_nonneg fun _ _ => sq_nonneg _
  linarith

/-- the answer in the rows the caller wrote; the right-hand sides of the bounds, up to 8388608 for an integer variable, count for the
tolerance of the inequalities -/
theorem C57_rows (hN : NodeOf T P nb ni bv iv T' D E) {x y z s : Nat → ℝ} {t ft at' rt : ℝ} (hA : Accurate T' D E x y z s t ft at' rt) :
    nrm T.p (fun i => (∑ j ∈ range T.n, P.A T i j * x j - P.b i) / E.A i) <
      ft * (max 1 (nrm T.p fun i => P.b i / E.A i) + t * nrm T.n fun j => E.x j * x j) ∧
    nrm T.m (fun i => (∑ j ∈ range T.n, P.G T i j * x j + s (2 * (nb + ni) + i) - P.h i) / E.G (2 * (nb + ni) + i)) <
      ft * (max 1 (nrm T'.m fun i => D.h i / E.G i) + t * nrm T.n (fun j => E.x j * x j) + t * nrm T'.m fun i => s i / E.G i) ∧
    ∀ v, v < T.n → Decl nb ni bv iv v → ∃ k, k < nb + ni ∧ ∃ lo hi : Int, D.h (2 * k) = lo ∧ D.h (2 * k + 1) = hi ∧
      ∑ j ∈ range T.n, D.G T' (2 * k) j * x j = -x v ∧ ∑ j ∈ range T.n, D.G T' (2 * k + 1) j * x j = x v := by
  have h := hN.aug
  refine ⟨?_, ?_, fun v hv hd => ?_⟩
  · have := hA.eq
    rw [h.p, h.n] at this
    have e1 : nrm T.p (fun i => (∑ j ∈ range T.n, P.A T i j * x j - P.b i) / E.A i) =
        nrm T.p (fun i => (∑ j ∈ range T.n, D.A T' i j * x j - D.b i) / E.A i) := by
      refine nrm_congr fun i hi => ?_
      rw [h.b i hi]
      simp only [h.A]
    have e2 : nrm T.p (fun i => P.b i / E.A i) = nrm T.p (fun i => D.b i / E.A i) := nrm_congr fun i hi => by rw [h.b i hi]
    rw [e1, e2]
    exact this
  · have := hA.ineq
    rw [h.n] at this
    refine lt_of_le_of_lt ?_ this
    have e := nrm_tail_le (2 * (nb + ni)) T.m (fun i => (∑ j ∈ range T.n, D.G T' i j * x j + s i - D.h i) / E.G i)
    rw [show 2 * (nb + ni) + T.m = T'.m by rw [h.m]; omega] at e
    refine le_trans (le_of_eq (nrm_congr fun i hi => ?_)) e
    rw [h.h i hi]
    congr 3
    exact sum_congr rfl fun j hj => by rw [h.G i j (mem_range.1 hj)]
  · obtain ⟨k, hk, hrow⟩ := h.bound v hv hd
    obtain ⟨lo, hlo⟩ := hN.int (2 * k) (by omega)
    obtain ⟨hi, hhi⟩ := hN.int (2 * k + 1) (by omega)
    refine ⟨k, hk, lo, hi, hlo, hhi, ?_, ?_⟩
    · rw [sum_eq_single v]
      · rw [(hrow v hv).1, if_pos rfl]; ring
      · intro j hj hjv
        rw [(hrow j (mem_range.1 hj)).1, if_neg hjv, zero_mul]
      · exact fun h => absurd (mem_range.2 hv) h
    · rw [sum_eq_single v]
      · rw [(hrow v hv).2, if_pos rfl, one_mul]
      · intro j hj hjv
        rw [(hrow j (mem_range.1 hj)).2, if_neg hjv, zero_mul]
      · exact fun h => absurd (mem_range.2 hv) h

/-! ### Example -/
namespace Real

open Ecos.Run

/-- `min x` subject to `x ≥ 3.5`, `x` integer -/
def exDat : Dat := ⟨fun _ => 0, fun _ => -1, fun _ => 1, fun _ => 0, fun _ => -3.5⟩

noncomputable def argsX : BBArgs XR :=
  { n := 1, m := 1, p := 0, l := 1, ncones := 0, q := #[], nexc := 0, gpr := #[some (fin (-1))], gjc := #[some 0, some 1], gir := #[some 0],
    A3 := ⟨none, none, none⟩, c := #[some (fin 1)], h := #[some (fin (-3.5))], b := #[], nb := 0, bools := #[], ni := 1, ints := #[some 0],
    stgs := { bbDefault with strategy := 0 } }

theorem givenX : BBGiven Dir.exT Dir.exS argsX (fun k => fin (exDat.a k)) (fun k => fin (exDat.g k)) (fun k => fin (exDat.c k))
    (fun k => fin (exDat.h k)) (fun k => fin (exDat.b k)) (fun _ => 0) fun _ => 0 where
  n := rfl
  m := rfl
  p := rfl
  l := rfl
  ncones := rfl
  nexc := rfl
  data :=
    { q := ⟨rfl, fun i hi => absurd hi (Nat.not_lt_zero _)⟩
      A := by rw [if_neg (by decide)]; exact .inl rfl
      G := ⟨_, _, _, rfl, ⟨rfl, fun i hi => by
        have : i < 2 := hi
        interval_cases i <;> rfl⟩, ⟨rfl, fun i hi => by
        have : i < 1 := hi
        interval_cases i; rfl⟩, ⟨rfl, fun i hi => by
        have : i < 1 := hi
        interval_cases i; rfl⟩⟩
      c := ⟨rfl, fun i hi => by
        have : i < 1 := hi
        interval_cases i; rfl⟩
      h := ⟨rfl, fun i hi => by
        have : i < 1 := hi
        interval_cases i; rfl⟩
      b := ⟨rfl, fun i hi => absurd hi (Nat.not_lt_zero _)⟩ }
  bools := ⟨rfl, fun i hi => absurd hi (Nat.not_lt_zero _)⟩
  ints := ⟨rfl, fun i hi => by
    have : i < 1 := hi
    interval_cases i; rfl⟩
  decl := ⟨fun i hi => absurd hi (Nat.not_lt_zero _), fun i _ => by decide, fun i j hi => absurd hi (Nat.not_lt_zero _),
    fun i j hi hj _ => by
      have hi : i < 1 := hi
      have hj : j < 1 := hj
      omega,
    fun i j hi => absurd hi (Nat.not_lt_zero _)⟩

/-- C57 on the example: after set-up (which succeeds) and a first solve, an "optimal" answer of a second one that comes from an "optimal"
continuous solve satisfies `x ≥ 3.5`, up to the tolerance -/
example (sig : Sig) : ∃ bb, bbSetup (amdOrder (fun _ => 40) 2147483647) argsX sig = .ok bb ∧
    ∀ {r bb' code}, bbSolve (realEnv (fun _ _ => false) fun _ => 0) 10 bb = .ok r →
      bbSolve (realEnv (fun _ i => i = 7) fun _ => 0) 10 r.1 = .ok (bb', code) → code = 0 → bb'.globalU ≠ nan →
      ∃ T' S' D E kc, NodeOf Dir.exT exDat 0 1 (fun _ => 0) (fun _ => 0) T' D E ∧ CameFrom (toWork bb'.ecos) T' S' D E (fun _ i => i = 7) kc ∧
        (kc = 0 → ∀ {rt0 ft at' rt x y z s t}, TolsAre (toWork bb'.ecos).stgs 0 ft at' rt → (toWork bb'.ecos).stgs.reltol = fin rt0 →
          Returned (toWork bb'.ecos) T' x y z s t →
          nrm 1 (fun i => (∑ j ∈ range 1, exDat.G Dir.exT i j * x j + s (2 + i) + 3.5) / E.G (2 + i)) <
            ft * (max 1 (nrm T'.m fun i => D.h i / E.G i) + t * nrm 1 (fun j => E.x j * x j) + t * nrm T'.m fun i => s i / E.G i)) := by
  obtain ⟨bb, hb, -⟩ := (Ok.def _ _).1 (C55_setup_succeeds (dense0 := fun _ => 40) (imax := 2147483647)
    Dir.exGoodL givenX exNoDup (by simp [nnzK, dimK, Dir.exT, Dir.exS, Pat.nA, Pat.nG, argsX]) sig Nat.zero_lt_one
    (show 0 < 1000 by omega) (show (0 : Nat) ≠ 1 by omega))
  refine ⟨bb, hb, fun {r bb' code} h1 h2 hc hn => ?_⟩
  have hr : ∀ k : Nat, (fun _ : Nat => 0) k ≤ RAND_MAX := fun _ => Nat.zero_le _
  have hs : MISession (amdOrder (fun _ => 40) 2147483647) Dir.exT Dir.exS 0 1 (fun _ => 0) (fun _ => 0) 1000 r.1 exDat :=
    .solve (.setup givenX rfl rfl rfl (show (0 : Nat) ≠ 1 by omega) hb) hr h1
  obtain ⟨T', S', D, E, kc, q1, -, -, q4, q5⟩ := C57_accurate_partial amdOrder_perm Dir.exGoodL Nat.zero_lt_one (show 0 < 1000 by omega) hs hr h2
    (.inl hc) hn
  refine ⟨T', S', D, E, kc, q1, q4, fun hk {rt0 ft at' rt x y z s t} ht h0 hret => ?_⟩
  subst hk
  have := (C57_rows q1 (q5 (.inl rfl) ht h0 hret).1).2.1
  simpa [Dir.exT, exDat, sub_eq_add_neg] using this

end Real

/-! ### Where the answer is wrong -/

/-- `Real.go lo 0 maxit arr`: `min x`, `x ≥ lo`, `x` integer. A limit of one iteration for the continuous solver: the point it has by then
is near an integer, and the search returns it as "optimal" (0) -- about 1, for `x ≥ 3.0002`. -/
theorem C57_violated :
    (match Real.go 3.0002 0 1 (fun _ _ => false) with
      | .ok (bb, code) => code = 0 && (match bb.ecos.x[0]? with | some (some v) => lt v (1.1 : Ecos.Fx) | _ => false)
      | _ => false) = true := by
  decide +kernel

/-- An interrupt (SIGINT) in the second pass of the first continuous solve: the search ends with "infeasible" (1), and has not filled `x`.
The optimal value is 4. -/
theorem C57_interrupt_violated :
    (match Real.go 3.0002 0 100 (fun k i => k == 0 && i == 1) with
      | .ok (bb, code) => code = 1 && (match bb.ecos.x[0]? with | some none => true | _ => false)
      | _ => false) = true := by
  decide +kernel

end BB
end Ecos
