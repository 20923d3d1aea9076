import Verif.Lemmas.BBSame
import Verif.Props.BBProgress
import Verif.Props.BBSafe
import Verif.Props.Repeat

/-!
# C59: repeating a mixed-integer solve

With most-infeasible branching the answer of `ECOS_BB_solve` depends on the problem and the settings, and on nothing earlier calls left in
the workspace. The other strategies remember: the position in the sequence of `rand()`, and the pseudocosts.
-/
set_option linter.unusedSectionVars false

namespace Ecos
namespace BB

open Ecos.Asm Ecos.Mono

/-! ### The statement -/

/-- two mixed-integer solves gave the same answer: exit code, number of nodes, both bounds, and the solution if there is one -/
structure SameMIAnswer {F W I : Type} [PFloat F] [HasInf F] (r r' : St F W I × Int) : Prop where
  code : r'.2 = r.2
  iter : r'.1.iter = r.1.iter
  upper : r'.1.globalU = r.1.globalU
  lower : r'.1.globalL = r.1.globalL
  x : lt r.1.globalU INF = true → r'.1.ecos.x = r.1.ecos.x
  y : lt r.1.globalU INF = true → r'.1.ecos.y = r.1.ecos.y
  z : lt r.1.globalU INF = true → r'.1.ecos.z = r.1.ecos.z
  s : lt r.1.globalU INF = true → r'.1.ecos.s = r.1.ecos.s
  kap : lt r.1.globalU INF = true → r'.1.ecos.kap = r.1.ecos.kap
  tau : lt r.1.globalU INF = true → r'.1.ecos.tau = r.1.ecos.tau

section abstract
variable {W I : Type} {P : Par XR W} {env env' : Env XR W I}

/-- accepted solves of a node give booleans between -1/2 and 3/2 -/
def BoolsInside (P : Par XR W) (env : Env XR W I) : Prop :=
  ∀ b i code xf, (∀ j, j < P.nb → b j = -1 ∨ b j = 0 ∨ b j = 1) → (∀ j, j < 2 * P.ni → IntVal (i j)) → Trial P env b i code xf →
    Usable code → ∀ j, j < P.nb → ∃ y, xf (P.bv j) = .fin y ∧ -1 / 2 < y ∧ y < 3 / 2

theorem ambOk_xr {tol : ℝ} (h0 : 0 < tol) (h1 : tol < 1 / 2) (ht : P.stgs.intTol = .fin tol) (hb : BoolsInside P env) (hp : 0 < P.nb + P.ni) :
    AmbOk P env := by
  intro bid iid code xf htri hiv htr hacc _
  refine ⟨0, hp, fun a ha => ?_⟩
  by_cases hn : 0 < P.nb
  · obtain ⟨y, e, l, u⟩ := hb _ _ _ _ htri hiv htr (accepted_iff.1 hacc) 0 hn
    have e : xf (vr P 0) = .fin y := by
      unfold vr
      rw [if_pos hn]
      exact e
    rw [e] at ha
    obtain ⟨n, rfl, hz, -⟩ := ambF_fin h0 (by linarith) ht ha
    rw [hz hn, XR.one_def, XR.lt_fin, decide_eq_true_eq, abs_lt]
    constructor <;> push_cast <;> linarith
  · have h2 := ha
    unfold ambF at h2
    rw [if_neg hn] at h2
    obtain ⟨fl, h3, -⟩ := bind_ok_inv h2
    rw [ht] at h3
    obtain ⟨y, e, -⟩ := pfFloor_inv h0.le (by linarith) h3
    rw [e] at ha
    obtain ⟨n, rfl, -, hz⟩ := ambF_fin h0 (by linarith) ht ha
    rw [hz (by omega), XR.one_def, XR.lt_fin, decide_eq_true_eq, abs_lt]
    unfold rFloor
    split
    · have a1 := Int.le_ceil (y - (1 - tol))
      have a2 := Int.ceil_lt_add_one (y - (1 - tol))
      constructor <;> linarith
    · have a1 := Int.floor_le y
      have a2 := Int.lt_floor_add_one y
      constructor <;> linarith

theorem sub_self_xr {a : ℝ} (ha : 0 ≤ a) (u : XR) : lt (XR.fin a) (u - u) = false := by
  cases u with
  | fin r => rw [XR.fin_sub, XR.lt_fin]; simpa using ha
  | pinf => rfl
  | ninf => rfl
  | nan => rfl

theorem round_bool {y r : XR} {k : Int} (hy : ∃ x, y = .fin x ∧ -1 / 2 < x ∧ x < 3 / 2) (h1 : pfRound y = .ok r) (h2 : castChar r = .ok k) :
    k = -1 ∨ k = 0 ∨ k = 1 := by
  obtain ⟨x, rfl, l, u⟩ := hy
  obtain ⟨x', e, rfl⟩ := pfRound_inv h1
  cases e
  have hk := castChar_inv rfl h2
  have hn := rRound_near x
  rw [abs_le] at hn
  have b1 : (-1 : ℝ) - 1 < (k : ℝ) := by rw [hk]; linarith [hn.1]
  have b2 : (k : ℝ) < 1 + 1 := by rw [hk]; linarith [hn.2]
  have c1 : (-1 : Int) - 1 < k := by exact_mod_cast b1
  have c2 : k < (1 : Int) + 1 := by exact_mod_cast b2
  omega

/-- two searches in step end with the same answer -/
theorem sim_answer {K : W → W → Prop} {Gb' : XR → Prop} {bad bad' : UB → Prop} {tol atol : ℝ}
    (C : Contract P env (fun _ => True) (fun _ => True) bad) (C' : Contract P env' (fun _ => True) Gb' bad')
    (A : Alike P env env' K) (hst : P.stgs.strategy = 0) (hb : BoolsInside P env) (ht : P.stgs.intTol = .fin tol) (h0 : 0 < tol)
    (h1 : tol < 1 / 2) (ha : P.stgs.absTol = .fin atol) (hat : 0 ≤ atol) (hp : 0 < P.nb + P.ni) {l r : St XR W I}
    (sl : Start P (fun _ => True) l) (sr : Start P (fun _ => True) r) (hc : r.ecos.c = l.ecos.c) (hK : K l.ecos.hid r.ecos.hid)
    {fuel : Nat} {p : St XR W I × Int} (hr : bbSolve env fuel l = .ok p) (fuel' : Nat) :
    ∃ q, bbSolve env' fuel' r = .ok q ∧ SameMIAnswer p q := by
  have H := hyp_any (Rb := fun _ => True) C hp fun _ _ _ _ _ _ => trivial
  obtain ⟨q, hq, e, l', r', gl, gr, S, rfl, rfl⟩ := bbSolve_sim H C' A hst
    (fun _ _ _ _ h1 h2 h3 h4 i hi _ _ => round_bool (hb _ _ _ _ h1 h2 h3 (accepted_iff.1 h4) i hi)) (ambOk_xr h0 h1 ht hb hp) ltLaws_xr.inf_top
    (fun u => by rw [ha]; exact sub_self_xr hat u) fuel fuel' sl sr hc hK _ hr
  exact ⟨_, hq, e, S.iter, S.gU, S.gL, fun h => (S.sol h).x, fun h => (S.sol h).y, fun h => (S.sol h).z, fun h => (S.sol h).s,
    fun h => (S.sol h).kap, fun h => (S.sol h).tau⟩

/-- the answer of the continuous solver is determined by the problem, in `env` and in `env'` the same way -/
def SameSolver (P : Par XR W) (env env' : Env XR W I) : Prop :=
  ∀ (e e' : EW XR W I) hf a code, EWF P e hf → EWF P e' hf → NodeRhs P hf → e'.c = e.c → env.solve e = .ok (a, code) →
    ∃ a', env'.solve e' = .ok (a', code) ∧ a'.c = a.c ∧ a'.x = a.x ∧ a'.y = a.y ∧ a'.z = a.z ∧ a'.s = a.s ∧ a'.kap = a.kap ∧ a'.tau = a.tau

/-- C59, for most-infeasible branching: let the answers of the continuous solver be determined by the problem, and respect the bounds of
boolean variables up to less than 1/2. Then a mixed-integer solve answers the same from every workspace of the problem, whatever was left
in it by earlier calls, and whatever `rand()` gives.
Missing: the other strategies, where it is false, see `C59_default_strategy_violated`. -/
theorem C59_same_partial {bad bad' : UB → Prop} {tol atol : ℝ}
    (C : Contract P env (fun _ => True) (fun _ => True) bad) (C' : Contract P env' (fun _ => True) (fun _ => True) bad')
    (A : SameSolver P env env') (hst : P.stgs.strategy = 0) (hb : BoolsInside P env) (ht : P.stgs.intTol = .fin tol) (h0 : 0 < tol)
    (h1 : tol < 1 / 2) (ha : P.stgs.absTol = .fin atol) (hat : 0 ≤ atol) (hp : 0 < P.nb + P.ni) {l r : St XR W I}
    (sl : Start P (fun _ => True) l) (sr : Start P (fun _ => True) r) (hc : r.ecos.c = l.ecos.c)
    {fuel : Nat} {p : St XR W I × Int} (hr : bbSolve env fuel l = .ok p) (fuel' : Nat) :
    ∃ q, bbSolve env' fuel' r = .ok q ∧ SameMIAnswer p q :=
  sim_answer (K := fun _ _ => True) C C' (fun e e' hf a code he he' hN h2 _ h => by
    obtain ⟨a', k, kc, k1, k2, k3, k4, k5, k6⟩ := A e e' hf a code he he' hN h2 h
    exact ⟨a', k, kc, trivial, k1, k2, k3, k4, k5, k6⟩) hst hb ht h0 h1 ha hat hp sl sr hc trivial hr fuel'

end abstract

/-! ### With the real continuous solver -/

/-- two mixed-integer workspaces hold the same problem, and the same settings of both solvers -/
structure SameProblem {F : Type} (nb ni : Nat) (bb bb' : St F (Hid F) (Stats F)) : Prop where
  fixed : Fixed (toWork bb.ecos) (toWork bb'.ecos)
  c : bb'.ecos.c = bb.ecos.c
  h : ∀ r, 2 * (nb + ni) ≤ r → bb'.ecos.h[r]? = bb.ecos.h[r]?
  stgs : bb'.stgs = bb.stgs

/-- the rows of the boolean variables say one of `x = 0`, `x = 1`, `0 ≤ x ≤ 1` -/
def BoolRows (nb : Nat) (w : Work XR) : Prop :=
  ∀ i, i < nb → ∃ g1 g2 a b, rd w.Gequil (2 * i) = .ok g1 ∧ rd w.Gequil (2 * i + 1) = .ok g2 ∧ rd w.h (2 * i) = .ok (a / g1) ∧
    rd w.h (2 * i + 1) = .ok (b / g2) ∧ ((a = -1 ∧ b = 1) ∨ (a = 0 ∧ b = 0) ∨ (a = 0 ∧ b = 1))

/-- `w` is the continuous workspace `w0` with the bounds of a node -/
structure NodeWork (amd : Nat → Buf Nat → Buf Nat → Option (Buf Nat)) (T : Pat) (S : Shape) (nb ni : Nat) (w0 w : Work XR) : Prop
    extends NodeData amd T S nb ni w0 w where
  rows : BoolRows nb w

/-- what is asked of the continuous solves of the search on a workspace `w0`: they may make an iteration, are not interrupted before the
first one, do not find a NaN in it, and give booleans between -1/2 and 3/2 if they are accepted -/
structure GoodSolves (amd : Nat → Buf Nat → Buf Nat → Option (Buf Nat)) (T : Pat) (S : Shape) (nb ni : Nat) (bv : Nat → Nat) (w0 : Work XR)
    (arr : Nat → Nat → Bool) : Prop where
  maxit : w0.stgs.maxit ≠ 0
  early : ∀ k, arr k 0 = false
  nan : ∀ w, NodeWork amd T S nb ni w0 w → ¬ FirstNaN w
  bools : ∀ w w' sig sig' k code, NodeWork amd T S nb ni w0 w → ecosSolve (arr k) w sig = .ok (w', sig', code) →
    Usable code → ∀ j, j < nb → ∃ y, rd w'.x (bv j) = .ok (.fin y) ∧ -1 / 2 < y ∧ y < 3 / 2

section real
variable {F : Type} [Zero F] [One F] [Add F] [Sub F] [Mul F] [Div F] [Neg F] [OfScientific F]
  [IntCast F] [PFloat F] [HasInf F] {T : Pat} {S : Shape} {amd : Nat → Buf Nat → Buf Nat → Option (Buf Nat)}

/-- as `C47_same`, for live workspaces -/
theorem live_same (hamd : ∀ N jc ir P, amd N jc ir = some P → ∃ pf, Holds P N pf ∧ IsPerm N pf) (hP : PatGood T S) {w w' : Work F}
    (hl : LiveW amd T S w) (hl' : LiveW amd T S w') (ht : Twin w w') {arrives : Nat → Bool} {sig sig' : Sig} (hsig : sig.cur = sig'.cur)
    (hm : w.stgs.maxit ≠ 0) (ha : arrives 0 = false) (hn : ¬ FirstNaN w) {r : Work F × Sig × Int} (hr : ecosSolve arrives w sig = .ok r) :
    ∃ r', ecosSolve arrives w' sig' = .ok r' ∧ r'.2 = r.2 ∧ r'.1.x = r.1.x ∧ r'.1.y = r.1.y ∧ r'.1.z = r.1.z ∧ r'.1.s = r.1.s ∧
      r'.1.kap = r.1.kap ∧ r'.1.tau = r.1.tau := by
  obtain ⟨r0, r1, e0, e, h⟩ := solve_blank hamd hP hl hl ⟨rfl, rfl, rfl, rfl, rfl, rfl, rfl, rfl, rfl⟩ (sig := sig) (sig' := sig) rfl hm ha hn
  obtain ⟨r0', r', e0', e', h'⟩ := solve_blank hamd hP hl hl' ht (sig := sig) hsig hm ha hn
  rw [e0] at e0'
  cases e0'
  rw [hr] at e
  cases e
  exact ⟨r', e', Prod.ext (h'.sig.symm.trans h.sig) (h'.code.symm.trans h.code), h'.x.symm.trans h.x, h'.y.symm.trans h.y, h'.z.symm.trans h.z,
    h'.s.symm.trans h.s, h'.kap.symm.trans h.kap, h'.tau.symm.trans h.tau⟩

end real

section real
variable {T : Pat} {S : Shape} {amd : Nat → Buf Nat → Buf Nat → Option (Buf Nat)} {nb ni mx : Nat} {bv iv : Nat → Nat}
  {w0 : Work XR} {hu z : Nat → XR} {stgs : Stgs XR} {bb bb' : St XR (Hid XR) (Stats XR)} {arr arr' : Nat → Nat → Bool} {rand rand' : Nat → Nat}

/-- the same interrupts from here on -/
def SameSignals (arr arr' : Nat → Nat → Bool) (k k' : Hid XR) : Prop :=
  k.sig.cur = k'.sig.cur ∧ ∀ j, arr' (k'.calls + j) = arr (k.calls + j)

/-- the workspace in front of a continuous solve of a node -/
theorem nodeWork_of {e0 e : EW XR (Hid XR) (Stats XR)} {xe c0 hf : Nat → XR} (hz : Holds (toWork e0).Gequil T.m z) (hm : 2 * (nb + ni) ≤ T.m)
    (hxe : Holds (toWork e0).xequil T.n xe) (hc0 : Holds e0.c T.n c0) {hf0 : Nat → XR}
    (he0 : EWF (realPar amd T S (toWork e0) (Costs T.n xe c0) nb ni bv iv hu z stgs) e0 hf0)
    (he : EWF (realPar amd T S (toWork e0) (Costs T.n xe c0) nb ni bv iv hu z stgs) e hf)
    (hN : NodeRhs (realPar amd T S (toWork e0) (Costs T.n xe c0) nb ni bv iv hu z stgs) hf) : NodeWork amd T S nb ni (toWork e0) (toWork e) := by
  obtain ⟨bid, iid, hrow, htri, hiv⟩ := hN
  have hgq : Holds (toWork e).Gequil T.m z := he.hg
  have hh : Holds (toWork e).h T.m hf := he.hh
  refine ⟨nodeData_of hz hm hxe hc0 he0 he (hrow.intBnd hiv), fun k hk => ?_⟩
  · have k1 : 2 * k < T.m := by omega
    have k2 : 2 * k + 1 < T.m := by omega
    refine ⟨z (2 * k), z (2 * k + 1), ?_⟩
    rcases htri k hk with h | h | h
    · obtain ⟨q1, q2⟩ := hrow.star k hk h
      exact ⟨0, 1, hgq.rd k1, hgq.rd k2, by rw [hh.rd k1, q1]; rfl, by rw [hh.rd k2, q2]; rfl, by simp⟩
    · obtain ⟨q1, q2⟩ := hrow.zero k hk h
      exact ⟨0, 0, hgq.rd k1, hgq.rd k2, by rw [hh.rd k1, q1]; rfl, by rw [hh.rd k2, q2]; rfl, by simp⟩
    · obtain ⟨q1, q2⟩ := hrow.one k hk h
      exact ⟨-1, 1, hgq.rd k1, hgq.rd k2, by rw [hh.rd k1, q1]; rfl, by rw [hh.rd k2, q2]; rfl, by simp⟩

theorem real_alike (hamd : ∀ N jc ir P, amd N jc ir = some P → ∃ pf, Holds P N pf ∧ IsPerm N pf) (hP : PatGood T S)
    {xe c0 : Nat → XR} (hz : Holds w0.Gequil T.m z)
    (hw : ∀ e hf, EWF (realPar amd T S w0 (Costs T.n xe c0) nb ni bv iv hu z stgs) e hf →
      NodeRhs (realPar amd T S w0 (Costs T.n xe c0) nb ni bv iv hu z stgs) hf → NodeWork amd T S nb ni w0 (toWork e)) (hg : GoodSolves amd T S nb ni bv w0 arr) :
    Alike (realPar amd T S w0 (Costs T.n xe c0) nb ni bv iv hu z stgs) (realEnv arr rand) (realEnv arr' rand') (SameSignals arr arr') := by
  intro e e' hf a code he he' hN hc ⟨hsig, harr⟩ h
  have hl := toWork_live hz he
  have hl' := toWork_live hz he'
  have fx := toWork_fixed hz he
  have fx' := toWork_fixed hz he'
  have h : (ecosSolve (arr e.hid.calls) (toWork e) e.hid.sig >>= fun r => pure (ofWork r.1 r.2.1 (e.hid.calls + 1), r.2.2)) = .ok (a, code) := h
  obtain ⟨r, hr, h⟩ := bind_ok_inv h
  cases h
  have ht : Twin (toWork e) (toWork e') := ⟨fx.A.trans fx'.A.symm, fx.G.trans fx'.G.symm, hc.symm, fx.b.trans fx'.b.symm,
    holds_unique he.hh he'.hh, fx.xe.trans fx'.xe.symm, fx.ye.trans fx'.ye.symm, fx.ze.trans fx'.ze.symm, fx.stgs.trans fx'.stgs.symm⟩
  obtain ⟨r', hr', e2, ex, ey, ez, es, ek, et⟩ := live_same hamd hP hl hl' ht hsig (by rw [fx.stgs]; exact hg.maxit) (hg.early _)
    (hg.nan _ (hw _ _ he hN)) hr
  have ha' : arr' e'.hid.calls = arr e.hid.calls := harr 0
  refine ⟨ofWork r'.1 r'.2.1 (e'.hid.calls + 1), ?_, ⟨?_, ⟨?_, fun j => ?_⟩, ex, ey, ez, es, ek, et⟩⟩
  · show (ecosSolve (arr' e'.hid.calls) (toWork e') e'.hid.sig >>= fun r => pure (ofWork r.1 r.2.1 (e'.hid.calls + 1), r.2.2)) = _
    rw [ha', hr', ok_bind_eq, e2]
    rfl
  · obtain ⟨-, -, -, -, -, c, xe, h1, h2, h3⟩ := solve_same hl (w' := r.1) (sig' := r.2.1) (code := r.2.2) hr
    obtain ⟨-, -, -, -, -, c', xe', h1', h2', h3'⟩ := solve_same hl' (w' := r'.1) (sig' := r'.2.1) (code := r'.2.2) hr'
    have hcc : ∀ i, i < T.n → c' i = c i := fun i hi => by
      have h1' : Holds e'.c T.n c' := h1'
      rw [hc] at h1'
      exact h1'.unique h1 hi
    have hxx : ∀ i, i < T.n → xe' i = xe i := fun i hi => by
      have h2' : Holds (toWork e').xequil T.n xe' := h2'
      rw [fx'.xe, ← fx.xe] at h2'
      exact h2'.unique h2 hi
    show r'.1.c = r.1.c
    rw [e2] at h3'
    split at h3
    · next hcode =>
      rw [if_pos hcode] at h3'
      exact holds_unique (h3'.congr fun i hi => by rw [hcc i hi, hxx i hi]) h3
    · next hcode =>
      rw [if_neg hcode] at h3'
      exact holds_unique (h3'.congr fun i hi => by rw [hcc i hi, hxx i hi]) h3
  · show r.2.1.cur = r'.2.1.cur
    rw [e2]
  · show arr' (e'.hid.calls + 1 + j) = arr (e.hid.calls + 1 + j)
    rw [Nat.add_assoc, Nat.add_assoc]
    exact harr (1 + j)

theorem real_bools {xe c0 : Nat → XR}
    (hw : ∀ e hf, EWF (realPar amd T S w0 (Costs T.n xe c0) nb ni bv iv hu z stgs) e hf →
      NodeRhs (realPar amd T S w0 (Costs T.n xe c0) nb ni bv iv hu z stgs) hf → NodeWork amd T S nb ni w0 (toWork e)) (hbv : ∀ i, i < nb → bv i < T.n) (hg : GoodSolves amd T S nb ni bv w0 arr) :
    BoolsInside (realPar amd T S w0 (Costs T.n xe c0) nb ni bv iv hu z stgs) (realEnv arr rand) := by
  rintro b i code xf htri hiv ⟨hf, hrow, e, e', he, hs, hx⟩ hu j hj
  have hs : (ecosSolve (arr e.hid.calls) (toWork e) e.hid.sig >>= fun r => pure (ofWork r.1 r.2.1 (e.hid.calls + 1), r.2.2)) = .ok (e', code) := hs
  obtain ⟨r, hr, h⟩ := bind_ok_inv hs
  cases h
  have hj : j < nb := hj
  obtain ⟨y, h1, h2⟩ := hg.bools (toWork e) r.1 e.hid.sig r.2.1 e.hid.calls r.2.2 (hw _ _ he ⟨b, i, hrow, htri, hiv⟩) hr hu j hj
  refine ⟨y, ?_, h2⟩
  have hx : Holds r.1.x T.n xf := hx
  rw [hx.rd (hbv j hj)] at h1
  exact Except.ok.inj h1

/-- a workspace in order, seen from a workspace with the same problem -/
theorem Ready.start (hb : Ready amd T S nb ni bv iv mx bb) (hb' : Ready amd T S nb ni bv iv mx bb') (hd : SameProblem nb ni bb bb') :
    ∃ hu z xe c0, Holds (toWork bb.ecos).Gequil T.m z ∧ Holds (toWork bb.ecos).xequil T.n xe ∧ Holds bb.ecos.c T.n c0 ∧
      Start (realPar amd T S (toWork bb.ecos) (Costs T.n xe c0) nb ni bv iv hu z bb.stgs) (fun _ => True) bb ∧
      Start (realPar amd T S (toWork bb.ecos) (Costs T.n xe c0) nb ni bv iv hu z bb.stgs) (fun _ => True) bb' := by
  obtain ⟨w1, hu1, z1, st1, m1, -, hz1, s1⟩ := hb
  obtain ⟨w2, hu2, z2, st2, m2, -, hz2, s2⟩ := hb'
  obtain ⟨hf1, e1⟩ := s1.hew
  obtain ⟨hf2, e2⟩ := s2.hew
  have fx1 := toWork_fixed hz1 e1
  have fx2 := toWork_fixed hz2 e2
  have t1 : bb.stgs = st1 := s1.stgs_eq
  have t2 : bb'.stgs = st2 := s2.stgs_eq
  have hg1 : Holds bb.ecos.gequil T.m z1 := e1.hg
  have hge : bb'.ecos.gequil = bb.ecos.gequil := hd.fixed.ze
  have hzz : ∀ r, r < T.m → z2 r = z1 r := fun r hr => by
    have h2 : Holds bb'.ecos.gequil T.m z2 := e2.hg
    rw [hge] at h2
    exact h2.unique hg1 hr
  have hm : 2 * (nb + ni) ≤ T.m := s1.m_ge
  have hl1 := toWork_live hz1 e1
  obtain ⟨_, _, c0, _, _, xe, _, _, _, _, _, _, _, hl1⟩ := hl1
  have hc0 : Holds bb.ecos.c T.n c0 := hl1.data.c
  have hc0' : Holds bb'.ecos.c T.n c0 := by rw [hd.c]; exact hc0
  refine ⟨hu1, z1, xe, c0, hg1, hl1.data.xe, hc0, ?_, ?_⟩
  · refine Start.change (stgs' := bb.stgs) s1 (by rw [t1]) (e := bb.ecos) (hf := hf1) ⟨e1.hn, e1.hp, e1.hm, ⟨c0, .start fun _ _ => rfl, hc0⟩, e1.hh, e1.hg, e1.sx, e1.sy, e1.sz, e1.ss,
      e1.huser, e1.hbnd, e1.hok.1, ⟨rfl, rfl, rfl, rfl, rfl, ?_, rfl⟩⟩
    exact e1.hok.2.ze.trans fx1.ze.symm
  · have k := Start.change (stgs' := bb'.stgs) s2 (by rw [t2]) (w0' := toWork bb.ecos) (cs' := Costs T.n xe c0) (hu' := hu1) (z' := z1) (e := bb'.ecos)
      (hf := hf2) ⟨e2.hn, e2.hp, e2.hm, ⟨c0, .start fun _ _ => rfl, hc0'⟩, e2.hh, (show Holds bb'.ecos.gequil T.m z1 by rw [hge]; exact hg1), e2.sx, e2.sy, e2.sz, e2.ss,
        ?_, ?_, e2.hok.1, ⟨hd.fixed.A, hd.fixed.G, hd.fixed.b, hd.fixed.xe, hd.fixed.ye, ?_, hd.fixed.stgs⟩⟩
    · rw [hd.stgs] at k
      have hs : ({ bb' with ecos := bb'.ecos, stgs := bb.stgs } : St XR (Hid XR) (Stats XR)) = bb' := by rw [← hd.stgs]
      rw [hs] at k
      exact k
    · intro r hr1 hr2
      have a1 : bb.ecos.h[r]? = some (some (hf1 r)) := e1.hh.2 r hr2
      have a2 : bb'.ecos.h[r]? = some (some (hf2 r)) := e2.hh.2 r hr2
      rw [hd.h r hr1, a1] at a2
      have : hf1 r = hf2 r := Option.some.inj (Option.some.inj a2)
      rw [← this]
      exact e1.huser r hr1 hr2
    · intro r hr
      have hr : r < 2 * nb := hr
      obtain ⟨v, b, h⟩ := e2.hbnd r hr
      refine ⟨v, b, h.trans ?_⟩
      show v / z2 r = v / z1 r
      rw [hzz r (by omega)]
    · exact e2.hok.2.ze.trans (fx2.ze.symm.trans hd.fixed.ze)

/-- C59 with the real continuous solver, for most-infeasible branching: two workspaces of the same structure, with whatever histories, that
now hold the same problem and settings. If a solve of the one ends, so does a solve of the other, with the same answer, whatever `rand()`
gives in the two. See `GoodSolves` for what is asked of the continuous solves.
Missing: the other strategies, where it is false, see `C59_default_strategy_violated`. -/
theorem C59_real_partial (hamd : ∀ N jc ir P, amd N jc ir = some P → ∃ pf, Holds P N pf ∧ IsPerm N pf) (hP : PatGood T S) (hp : 0 < nb + ni)
    (hb : Ready amd T S nb ni bv iv mx bb) (hb' : Ready amd T S nb ni bv iv mx bb') (hd : SameProblem nb ni bb bb')
    (hst : bb.stgs.strategy = 0) {tol atol : ℝ} (ht : bb.stgs.intTol = .fin tol) (h0 : 0 < tol) (h1 : tol < 1 / 2)
    (ha : bb.stgs.absTol = .fin atol) (hat : 0 ≤ atol) (hg : GoodSolves amd T S nb ni bv (toWork bb.ecos) arr)
    (hsig : SameSignals arr arr' bb.ecos.hid bb'.ecos.hid) (hr : ∀ k, rand k ≤ RAND_MAX) (hr' : ∀ k, rand' k ≤ RAND_MAX) {fuel : Nat}
    {p : St XR (Hid XR) (Stats XR) × Int} (h : bbSolve (realEnv arr rand) fuel bb = .ok p) (fuel' : Nat) :
    ∃ q, bbSolve (realEnv arr' rand') fuel' bb' = .ok q ∧ SameMIAnswer p q := by
  obtain ⟨hu, z, xe, c0, hz, hx, hc, sl, sr⟩ := hb.start hb' hd
  obtain ⟨hf0, he0⟩ := sl.hew
  have hw := fun e hf he hN => nodeWork_of (e := e) (hf := hf) hz sl.m_ge hx hc he0 he hN
  exact sim_answer (real_contract hP hz (costOk_costs hx) hr) (real_contract hP hz (costOk_costs hx) hr') (real_alike hamd hP hz hw hg) hst
    (real_bools hw sl.bv_lt hg) ht h0 h1 ha hat hp sl sr hd.c hsig h fuel'

/-- C59, solving again: a second solve of the workspace right after the first gives the same answer, for most-infeasible branching and
without interrupts, if the first left the costs and the signal handler as they were (a continuous solve that stops outside of the cone
does not, see C13; one that cannot start does not give back the handler, see C27). -/
theorem C59_again_partial (hamd : ∀ N jc ir P, amd N jc ir = some P → ∃ pf, Holds P N pf ∧ IsPerm N pf) (hP : PatGood T S) (hp : 0 < nb + ni)
    (hb : Ready amd T S nb ni bv iv mx bb) (hst : bb.stgs.strategy = 0) {tol atol : ℝ} (ht : bb.stgs.intTol = .fin tol) (h0 : 0 < tol)
    (h1 : tol < 1 / 2) (ha : bb.stgs.absTol = .fin atol) (hat : 0 ≤ atol)
    (hg : GoodSolves amd T S nb ni bv (toWork bb.ecos) fun _ _ => false) (hr : ∀ k, rand k ≤ RAND_MAX) (hr' : ∀ k, rand' k ≤ RAND_MAX) {fuel : Nat}
    {p : St XR (Hid XR) (Stats XR) × Int} (h : bbSolve (realEnv (fun _ _ => false) rand) fuel bb = .ok p) (hc : p.1.ecos.c = bb.ecos.c)
    (hsig : p.1.ecos.hid.sig.cur = bb.ecos.hid.sig.cur) (fuel' : Nat) :
    ∃ q, bbSolve (realEnv (fun _ _ => false) rand') fuel' p.1 = .ok q ∧ SameMIAnswer p q := by
  have hd0 : SameProblem nb ni bb bb := ⟨⟨rfl, rfl, rfl, rfl, rfl, rfl, rfl⟩, rfl, fun _ _ => rfl, rfl⟩
  obtain ⟨hu, z, xe, c0, hz, hx, -, sl, -⟩ := hb.start hb hd0
  have sp := (solve_runs hP ltLaws_xr hp hz (costOk_costs hx) sl hr (by rw [hst]; decide) fuel).out h
  obtain ⟨hf, he⟩ := sl.hew
  obtain ⟨hf', he'⟩ := sp.hew
  have hmx : bb.stgs.maxit = mx := by
    obtain ⟨_, _, _, st, m, -, -, s⟩ := hb
    rw [show bb.stgs = st from s.stgs_eq]
    exact m
  have sq := Start.change (cs' := fun _ => True) (stgs' := p.1.stgs) sp (by rw [show p.1.stgs = bb.stgs from sp.stgs_eq]) (e := p.1.ecos) (hf := hf')
    ⟨he'.hn, he'.hp, he'.hm, he'.hc.imp fun _ h => ⟨trivial, h.2⟩, he'.hh, he'.hg, he'.sx, he'.sy, he'.sz, he'.ss, he'.huser, he'.hbnd, he'.hok⟩
  have hbp : Ready amd T S nb ni bv iv mx p.1 := ⟨_, hu, z, p.1.stgs, by rw [show p.1.stgs = bb.stgs from sp.stgs_eq]; exact hmx,
    by rw [show p.1.stgs = bb.stgs from sp.stgs_eq, hst]; decide, hz, sq⟩
  refine C59_real_partial hamd hP hp hb hbp ⟨toWork_fixed hz he', hc, fun r hr1 => ?_, sp.stgs_eq⟩ hst ht h0 h1 ha hat hg ⟨hsig.symm, fun _ => rfl⟩ hr hr' h
    fuel'
  by_cases hr2 : r < T.m
  · have a1 : bb.ecos.h[r]? = some (some (hf r)) := he.hh.2 r hr2
    have a2 : p.1.ecos.h[r]? = some (some (hf' r)) := he'.hh.2 r hr2
    rw [a1, a2, he.huser r hr1 hr2, he'.huser r hr1 hr2]
  · have b1 : bb.ecos.h.size = T.m := he.hh.1
    have b2 : p.1.ecos.h.size = T.m := he'.hh.1
    rw [Array.getElem?_eq_none (by omega), Array.getElem?_eq_none (by omega)]

end real

/-! ### An example: `min x`, `1/2 ≤ x ≤ 3/2`, `x` integer -/
namespace RepEx
noncomputable section
open Prog (P bb answer)

/-- four zeros -/
def zeros : Buf XR := ofList (List.replicate 4 (XR.fin 0))

/-- the exact solver of `Prog`, writing all the variables -/
def solve (e : EW XR Unit Unit) : M (EW XR Unit Unit × Int) := do
  let r ← Prog.solve e
  pure ({ r.1 with y := malloc 0, z := zeros, s := zeros, kap := some (.fin 0), tau := some (.fin 1) }, r.2)

def env (rand : Nat → Nat) : Env XR Unit Unit := ⟨solve, rand⟩

theorem solve_eq {e : EW XR Unit Unit} {hf} (he : EWF (P 0) e hf) :
    solve e = .ok ({ e with x := ofList [.fin (answer (hf 0) (hf 1)).1], y := malloc 0, z := zeros, s := zeros, kap := some (.fin 0), tau := some (.fin 1) },
      (answer (hf 0) (hf 1)).2) := by
  unfold solve
  rw [Prog.solve_eq he]
  rfl

theorem keeps {rand : Nat → Nat} (hr : ∀ k, rand k ≤ RAND_MAX) : Keeps (P 0) (env rand) where
  solve := fun e hf he _ => by
    show Runs _ (solve e) _
    rw [solve_eq he, Runs_ok]
    exact ⟨{ he with sx := by rfl, sy := by rfl, sz := by rfl, ss := by rfl }, _, Prog.x_holds _, fun _ _ => trivial, fun _ _ => trivial⟩
  solveB := fun _ _ _ _ _ _ _ _ _ => trivial
  rand := hr

theorem sameSolver (rand rand' : Nat → Nat) : SameSolver (P 0) (env rand) (env rand') := by
  intro e e' hf a code he he' _ hc h
  have h1 : (env rand).solve e = _ := solve_eq he
  rw [h1] at h
  cases h
  exact ⟨_, solve_eq he', hc, rfl, rfl, rfl, rfl, rfl, rfl⟩

/-- the workspace after earlier solves of other problems: other pseudocosts, node records, bounds and solution, other position of `rand()` -/
def used : St XR Unit Unit :=
  { bb 0 with pcIntSum := ofList [.fin 3, .nan], pcIntCnt := ofList [2, 7], rng := 11, globalU := .fin (-5), globalL := .nan, iter := 3, dive := 2
              nodes := ofList (List.replicate 10 { Ex.node0 with status := 2, L := .fin 4 }), x := ofList [.fin 9], kap := some .pinf }

theorem start_used : Start (P 0) (fun _ => True) used :=
  { (Prog.start (st := 0)) with
    nodes := ⟨_, ofList_holds (List.replicate 10 _), fun i hi => by
      have hi : i < 10 := hi
      simp only [List.getD_eq_getElem?_getD, List.getElem?_replicate, if_pos hi, Option.getD_some]
      exact ⟨by decide, by norm_num [P, Ex.node0], by norm_num [P, Ex.node0], trivial, trivial⟩⟩
    sx := rfl
    pcIS := ⟨_, ofList_holds [XR.fin 3, XR.nan]⟩
    pcIC := ⟨_, ofList_holds [2, 7]⟩ }

/-- C59 on the example: the used workspace answers as the fresh one, also with other random numbers -/
example (p : St XR Unit Unit × Int) (h : bbSolve (env fun _ => 0) 5 (bb 0) = .ok p) :
    ∃ q, bbSolve (env fun k => k % 7) 5 used = .ok q ∧ SameMIAnswer p q :=
  C59_same_partial (tol := 1e-4) (atol := 1e-6) (keeps fun _ => Nat.zero_le _) (keeps fun k => by
      have := Nat.mod_lt k (show 7 > 0 by omega)
      show k % 7 ≤ RAND_MAX
      unfold RAND_MAX
      omega) (sameSolver _ _) rfl (fun _ _ _ _ _ _ _ _ j hj => absurd hj (by simp [P])) rfl (by norm_num) (by norm_num) rfl (by norm_num)
    (by norm_num [P]) Prog.start start_used rfl h 5

end
end RepEx

/-! ### The other strategies -/
namespace Again
open Run

/-- exact solution of `min x + y, x + y ≥ 1/2` within the bounds of the node, the first four entries of `h` -/
def solve (e : EW Fx Unit Unit) : M (EW Fx Unit Unit × Int) := do
  let a ← rd e.h 0
  let b ← rd e.h 1
  let c ← rd e.h 2
  let d ← rd e.h 3
  let need : Fx := 0.5 + a + c
  let x : Fx := if lt 0 need then (if lt (0.5 * need) (b + a) then 0.5 * need - a else b) else -a
  let x : Fx := if lt d (0.5 - x) then 0.5 - d else x
  let y : Fx := if lt (0.5 - x) (-c) then -c else 0.5 - x
  pure ({ e with x := bl [x, y] }, if lt b x then 1 else 0)

def env (rand : Nat → Nat) : Env Fx Unit Unit := ⟨solve, rand⟩

def ew : EW Fx Unit Unit :=
  { n := 2, p := 0, m := 5, c := bl [1, 1], h := bl [0, 1, 0, 1, -0.5], gequil := bl [1, 1, 1, 1, 1], x := malloc 2, y := malloc 0
    z := malloc 5, s := malloc 5, kap := none, tau := none, info := none, hid := () }

/-- the state after set-up, `x` and `y` boolean, with the default settings except `maxit` and the strategy -/
def bb (strategy maxit : Nat) : St Fx Unit Unit :=
  { nb := 2, ni := 0, nodes := bl (List.replicate maxit Stuck.node0), boolIds := malloc (2 * maxit), intIds := malloc 0
    boolVars := bl [0, 1], intVars := bl [], ecos := ew, x := malloc 2, y := malloc 0, z := malloc 5
    s := malloc 5, kap := none, tau := none, info := none, globalU := 0, globalL := 0
    tmpBool := malloc 2, tmpInt := malloc 0, iter := 0, dive := 0, tbBool := malloc 2, tbInt := malloc 0
    pcBinSum := bl [0, 0, 0, 0], pcIntSum := bl [], pcBinCnt := bl [0, 0, 0, 0], pcIntCnt := bl []
    stgs := { bbDefault with maxit := maxit, strategy := strategy }, rng := 0 }

/-- exit code and point -/
def answer (r : St Fx Unit Unit × Int) : Option (Int × Fx × Fx) :=
  match rd r.1.ecos.x 0, rd r.1.ecos.x 1 with
  | .ok x, .ok y => some (r.2, x, y)
  | _, _ => none

/-- the answers of two solves, one after the other -/
def two (strategy : Nat) (rand : Nat → Nat) : Option (Int × Fx × Fx) × Option (Int × Fx × Fx) :=
  match bbSolve (env rand) 30 (bb strategy 20) with
  | .error _ => (none, none)
  | .ok r => match bbSolve (env rand) 30 r.1 with
    | .error _ => (answer r, none)
    | .ok r' => (answer r, answer r')

end Again

/-- Violation of C59: `min x + y` subject to `x + y ≥ 1/2`, `x`, `y` boolean, with an exact continuous solver. With the default strategy
(reliability branching, 3) the first solve answers `(0, 1)`, the second solve of the same workspace answers `(1, 0)`: the order in which
candidates are tried comes from `rand()`, which is not seeded. The same with strong branching (1) and random branching (4). With pseudocost branching (2) it needs
no `rand()`: the pseudocosts are set to zero in set-up only. Most-infeasible branching (0) answers the same twice. -/
theorem C59_default_strategy_violated : (bbDefault : Stgs Fx).strategy = 3 ∧
    Again.two 3 (fun k => if k = 0 then 0 else RAND_MAX) = (some (0, 0, 1), some (0, 1, 0)) ∧
    Again.two 1 (fun k => if k = 0 then 0 else RAND_MAX) = (some (0, 0, 1), some (0, 1, 0)) ∧
    Again.two 4 (fun k => k / 2) = (some (0, 0, 1), some (0, 1, 0)) ∧
    Again.two 2 (fun _ => 0) = (some (0, 0, 1), some (0, 1, 0)) ∧
    Again.two 0 (fun k => if k = 0 then 0 else RAND_MAX) = (some (0, 0, 1), some (0, 0, 1)) := by
  refine ⟨rfl, ?_, ?_, ?_, ?_, ?_⟩ <;> decide +kernel

end BB
end Ecos
