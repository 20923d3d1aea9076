import Verif.Lemmas.Dir8
import Verif.Lemmas.Newton
import Verif.Props.Update

/-!
# What one interior-point iteration does to the residuals and to complementarity (C42)

Over the reals, for problems with linear and second-order cones.
-/
namespace Ecos.Dir

open Ecos Ecos.Fact Ecos.BB Ecos.Asm Finset

section
variable [HasInf ℝ] {T : Pat} {S : Shape} {amd : Nat → Buf Nat → Buf Nat → Option (Buf Nat)}

/-- between the workspaces `w` and `w'` at the heads of two passes: the data `P` stay, the iterate moves from `v` to `v'`; `info` of `w'` has
the step length and the centring parameter; `d1`, `da`, `d2` are what `kkt_solve` returned for the three right-hand sides of the pass; the
scaling `V` is that of the old iterate; and the step was made as `PcStep` says -/
structure Iteration (T : Pat) (S : Shape) (w w' : Work ℝ) (P : Dat) (v v' : Iter) (V : ConeV ℝ) (d1 da d2 : Dir3) (u : Nat → ℝ) (N : StepNum) : Prop where
  prob : ProbIs (fun x a : ℝ => x = a) w T P
  iter : IterIs (fun x a : ℝ => x = a) w T v
  prob' : ProbIs (fun x a : ℝ => x = a) w' T P
  iter' : IterIs (fun x a : ℝ => x = a) w' T v'
  sigma : w'.info.sigma = some N.sigma
  step : w'.info.step = some N.step
  scal : IsScaling S v.s v.z N.mu V
  call1 : Called w' T S (rhs1 P) d1
  callA : Called w' T S (rhsA P T v) da
  call2 : Called w' T S (rhs2 P T v (wF S V) N.sigma u) d2
  dx1 : Holds w'.KKT.dx1 T.n d1.x
  dy1 : Holds w'.KKT.dy1 T.p d1.y
  dz1 : Holds w'.KKT.dz1 T.m d1.z
  dx2 : Holds w'.KKT.dx2 T.n (d2.along N.dtau d1).x
  dy2 : Holds w'.KKT.dy2 T.p (d2.along N.dtau d1).y
  dz2 : Holds w'.KKT.dz2 T.m (d2.along N.dtau d1).z
  pc : PcStep T S P (wF S V) v v' d1 da d2 u N
  map : SymMap S (wF S V)
  rows : T.m = S.fexv
  pos : ∀ k, k < S.ns → 0 < S.q k

/-- **C42, the pass** Every pass of every solve in every reachable workspace that goes on to another pass is such an iteration. -/
theorem C42_pass (hamd : ∀ N jc ir P, amd N jc ir = some P → ∃ pf, Holds P N pf ∧ IsPerm N pf) (hP : PatGood T S) (hne : S.ne = 0)
    {w w1 : Work ℝ} (hw : Reach amd T S w) (hst : Started w w1) {arrives : Nat → Bool} {sig : Sig} (hdet : sig.det = false) {k : Nat}
    {L L' : LoopS ℝ} (hL : AtHead arrives w1 sig k L) (hp : pass arrives k L = .ok (.inr L')) :
    ∃ P v v' V d1 da d2 u N, Iteration T S L.w L'.w P v v' V d1 da d2 u N := by
  obtain ⟨hG, hB⟩ := atHead_go hP (hw.live hamd hP) hst hdet hL
  obtain ⟨P, v, v', V, d1, da, d2, u, N, h1, h2, h3, h4, h5, h6, h7, h8, h9, h10, h11, h12, h13, h14, h15, h16, h17⟩ :=
    pass_step hP hne hG (hB.imp id And.left) hp
  have hq : ∀ k, k < S.ns → 0 < S.q k := by
    obtain ⟨a, g, c, b, h, xe, ye, ze, π, ai, q, ax, sg, hl, -⟩ := hG.live
    exact hl.cone.is.pos
  refine ⟨P, v, v', V, d1, da, d2, u, N, h1, h2, h3, h4, h5, h6, h7, h8, h9, h10, h11, h12, h13, h14, h15, h16, h17, symMap hq, ?_, hq⟩
  have : S.m = S.fexv + 3 * S.ne := rfl
  rw [← hP.m, this]; omega

variable {w w' : Work ℝ} {P : Dat} {v v' : Iter} {V : ConeV ℝ} {d1 da d2 : Dir3} {u : Nat → ℝ} {N : StepNum}

/-- **C42, what inexact solves do** Each linear residual is multiplied by `1 - step (1 - sigma)`; to this is added the step length times what
the solver of the linear systems left over. -/
theorem C42_inexact (h : Iteration T S w w' P v v' V d1 da d2 u N) :
    (∀ j, j < T.n → lresX P T v' j = (1 - N.step * (1 - N.sigma)) * lresX P T v j +
      N.step * ((kktErr T P (wF S V) d2 (rhs2 P T v (wF S V) N.sigma u)).x j + N.dtau * (kktErr T P (wF S V) d1 (rhs1 P)).x j)) ∧
    (∀ i, i < T.p → lresY P T v' i = (1 - N.step * (1 - N.sigma)) * lresY P T v i -
      N.step * ((kktErr T P (wF S V) d2 (rhs2 P T v (wF S V) N.sigma u)).y i + N.dtau * (kktErr T P (wF S V) d1 (rhs1 P)).y i)) ∧
    (∀ i, i < T.m → lresZ P T v' i = (1 - N.step * (1 - N.sigma)) * lresZ P T v i -
      N.step * ((kktErr T P (wF S V) d2 (rhs2 P T v (wF S V) N.sigma u)).z i + N.dtau * (kktErr T P (wF S V) d1 (rhs1 P)).z i)) ∧
    (v.tau ≠ 0 → v.kap / v.tau ≠ P.chb.dot T d1 → lresT P T v' = (1 - N.step * (1 - N.sigma)) * lresT P T v) :=
  ⟨fun _ hj => h.pc.resX hj, fun _ hi => h.pc.resY hi, fun _ hi => h.pc.resZ h.map h.rows hi, fun ht hd => h.pc.resT ht (sub_ne_zero.2 hd)⟩

/-- **C42, residuals** If the two solves that make up the direction are exact, each linear residual is multiplied by
`1 - step (1 - sigma)`. -/
theorem C42_residuals (h : Iteration T S w w' P v v' V d1 da d2 u N) (hk : 0 < v.kap) (ht : 0 < v.tau) (e1 : KktSolved T P (wF S V) d1 (rhs1 P))
    (e2 : KktSolved T P (wF S V) d2 (rhs2 P T v (wF S V) N.sigma u)) :
    (∀ j, j < T.n → lresX P T v' j = (1 - N.step * (1 - N.sigma)) * lresX P T v j) ∧
    (∀ i, i < T.p → lresY P T v' i = (1 - N.step * (1 - N.sigma)) * lresY P T v i) ∧
    (∀ i, i < T.m → lresZ P T v' i = (1 - N.step * (1 - N.sigma)) * lresZ P T v i) ∧
    lresT P T v' = (1 - N.step * (1 - N.sigma)) * lresT P T v := by
  obtain ⟨a1, a2, a3⟩ := e1.err
  obtain ⟨b1, b2, b3⟩ := e2.err
  obtain ⟨r1, r2, r3, r4⟩ := C42_inexact h
  refine ⟨fun j hj => ?_, fun j hj => ?_, fun j hj => ?_, r4 ht.ne' (sub_ne_zero.1 (e1.denom_pos h.map h.rows hk ht).ne')⟩
  · rw [r1 j hj, a1 j hj, b1 j hj]; ring
  · rw [r2 j hj, a2 j hj, b2 j hj]; ring
  · rw [r3 j hj, a3 j hj, b3 j hj]; ring

/-- **C42, complementarity** If all three solves are exact and no division by `λ = W z` hits its floor, complementarity `s'z + kap tau` is
multiplied by the same factor, up to the products of the residuals with the predictor (first order in the step) and with the direction
(second order). -/
theorem C42_complementarity (h : Iteration T S w w' P v v' V d1 da d2 u N) (hg : Scaling.Good S v.s v.z) (hf : AboveFloors S (wF S V v.z))
    (hk : 0 < v.kap) (ht : 0 < v.tau) (e1 : KktSolved T P (wF S V) d1 (rhs1 P)) (ea : KktSolved T P (wF S V) da (rhsA P T v))
    (e2 : KktSolved T P (wF S V) d2 (rhs2 P T v (wF S V) N.sigma u)) :
    compl T v' = (1 - N.step * (1 - N.sigma)) * compl T v +
      N.step * ((lres P T v).dot T (da.along N.dtauA d1) + lresT P T v * N.dtauA) -
      N.step ^ 2 * (1 - N.sigma) * ((lres P T v).dot T (d2.along N.dtau d1) + lresT P T v * N.dtau) := by
  have hA := (h.pc.newtonA h.map h.rows e1 ea hk ht).orth
  have hD := (h.pc.newton h.map h.rows e1 e2 hk ht).orth
  have := h.pc.compl h.map h.rows h.pos (fun i hi => wF_sq h.pos h.scal hg (h.rows ▸ hi)) hf ht.ne'
  rw [hA, hD] at this
  rw [this]
  ring

/-- **C42, feasible points** At a point without residuals complementarity is multiplied by exactly that factor. -/
theorem C42_feasible (h : Iteration T S w w' P v v' V d1 da d2 u N) (hg : Scaling.Good S v.s v.z) (hf : AboveFloors S (wF S V v.z))
    (hk : 0 < v.kap) (ht : 0 < v.tau) (e1 : KktSolved T P (wF S V) d1 (rhs1 P)) (ea : KktSolved T P (wF S V) da (rhsA P T v))
    (e2 : KktSolved T P (wF S V) d2 (rhs2 P T v (wF S V) N.sigma u)) (hx : ∀ j, j < T.n → lresX P T v j = 0) (hy : ∀ i, i < T.p → lresY P T v i = 0)
    (hz : ∀ i, i < T.m → lresZ P T v i = 0) (hT : lresT P T v = 0) : compl T v' = (1 - N.step * (1 - N.sigma)) * compl T v := by
  have h0 : ∀ d : Dir3, (lres P T v).dot T d = 0 := by
    intro d
    unfold Dir3.dot lres
    simp only
    rw [sum_eq_zero fun j hj => by rw [hx j (mem_range.1 hj), zero_mul], sum_eq_zero fun j hj => by rw [hy j (mem_range.1 hj), zero_mul],
      sum_eq_zero fun j hj => by rw [hz j (mem_range.1 hj), zero_mul]]
    ring
  rw [C42_complementarity h hg hf hk ht e1 ea e2, h0, h0, hT]
  ring

end

/-! ### An iteration with these numbers

`min x` subject to `-x + s = 0` at `x = z = s = kap = tau = 1`, where the only residual is `rt = 2`. -/

def exT : Pat := { n := 1, m := 1, p := 0, hasA := false, jcA := fun _ => 0, irA := fun _ => 0, jcG := fun j => j, irG := fun _ => 0 }
def exS : Shape := { l := 1, ns := 0, q := fun _ => 0, ne := 0 }
noncomputable def exP : Dat := ⟨fun _ => 0, fun _ => -1, fun _ => 1, fun _ => 0, fun _ => 0⟩
noncomputable def exV : Iter := ⟨fun _ => 1, fun _ => 0, fun _ => 1, fun _ => 1, 1, 1⟩
noncomputable def exV' : Iter := ⟨fun _ => 3 / 4, fun _ => 0, fun _ => 1, fun _ => 3 / 4, 3 / 4, 1⟩
noncomputable def exD1 : Dir3 := ⟨fun _ => -1, fun _ => 0, fun _ => 1⟩
noncomputable def exDa : Dir3 := ⟨fun _ => -1, fun _ => 0, fun _ => 0⟩
noncomputable def exD2 : Dir3 := ⟨fun _ => -1 / 2, fun _ => 0, fun _ => 0⟩
noncomputable def exN : StepNum := ⟨1, 1 / 2, 1 / 2, 0, -1, 0, -1 / 2⟩

theorem exPc : PcStep exT exS exP (fun x => x) exV exV' exD1 exDa exD2 (fun _ => 1 / 2) exN := by
  have hm : ∀ {i : Nat}, i < exT.m → i = 0 := fun h => Nat.lt_one_iff.1 h
  refine ⟨fun j hj => ?_, fun i hi => absurd hi (Nat.not_lt_zero _), fun i hi => ?_, fun i hi => ?_, ?_, ?_, fun _ q1 q2 e h1 h2 he => ?_, .inl ?_, ?_,
    .inl ?_, ?_, ?_⟩
  · simp [exV', exV, exN, exD2, exD1, Dir3.along]; norm_num
  · simp [exV', exV, exN, exD2, exD1, Dir3.along]
  · simp [exV', exV, exN, exD2, exD1, Dir3.along]; norm_num
  · simp [exV', exV, exN]
  · simp [exV', exV, exN]; norm_num
  · refine ⟨fun i hi => ?_, fun k hk => absurd hk (Nat.not_lt_zero _), fun k hk => absurd hk (Nat.not_lt_zero _)⟩
    rw [h1.lp i hi, h2.lp i hi, he.lp i hi]
    simp [exV, exN, exDa, exD1, Dir3.along]
    norm_num
  · simp [exV, exN, exDa, exD1, exP, exT, Dir3.dot, Dat.chb, lresT]
  · simp [exV, exN]
  · simp [exV, exN, exD2, exD1, exP, exT, Dir3.dot, Dat.chb, lresT]; norm_num
  · simp [exV, exN]; norm_num
  · simp [exV, exN, exT, exS, compl]

/-- the three systems are solved exactly, and the hypotheses of the theorems above hold -/
theorem exSolved : KktSolved exT exP (fun x => x) exD1 (rhs1 exP) ∧ KktSolved exT exP (fun x => x) exDa (rhsA exP exT exV) ∧
    KktSolved exT exP (fun x => x) exD2 (rhs2 exP exT exV (fun x => x) exN.sigma fun _ => 1 / 2) ∧ SymMap exS (fun x => x) ∧
    AboveFloors exS exV.z := by
  have e0 : ∀ i, i < 1 → i = 0 := fun i h => Nat.lt_one_iff.1 h
  refine ⟨⟨fun j hj => ?_, fun i hi => absurd hi (Nat.not_lt_zero _), fun i hi => ?_⟩, ⟨fun j hj => ?_, fun i hi => absurd hi (Nat.not_lt_zero _), fun i hi => ?_⟩,
    ⟨fun j hj => ?_, fun i hi => absurd hi (Nat.not_lt_zero _), fun i hi => ?_⟩, ⟨fun _ _ h => h, fun _ _ _ _ _ _ => rfl, fun _ _ => rfl⟩,
    fun i hi => ?_, fun k hk => absurd hk (Nat.not_lt_zero _)⟩
  all_goals obtain rfl := e0 _ ‹_›
  · simp [rhs1, exD1, exP, exT, Dat.G, dense]
  · simp [rhs1, exD1, exP, exT, Dat.G, dense]
  · simp [rhsA, exDa, exP, exT, Dat.G, dense, lresX, exV]
  · simp [rhsA, exDa, exP, exT, Dat.G, dense, lresZ, exV]
  · simp [rhs2, exD2, exP, exT, Dat.G, dense, lresX, exV]
  · simp [rhs2, exD2, exP, exT, Dat.G, dense, lresZ, exV]; norm_num
  · simp only [exV, EPS]; norm_num

/-- all residuals and complementarity shrink by `1 - 1/2 * (1 - 1/2) = 3/4` -/
example : lresT exP exT exV = 2 ∧ lresT exP exT exV' = 3 / 4 * lresT exP exT exV ∧ compl exT exV' = 3 / 4 * compl exT exV := by
  have h := exPc.resT (by simp [exV]) (by simp [exV, exP, exT, exD1, Dir3.dot, Dat.chb])
  have h2 := exPc.compl exSolved.2.2.2.1 rfl (fun k hk => absurd hk (Nat.not_lt_zero _)) (fun _ _ => rfl) exSolved.2.2.2.2 (by simp [exV])
  refine ⟨by simp [lresT, exV, exP, exT]; norm_num, h.trans ?_, h2.trans ?_⟩
  · simp [exN]; norm_num
  · simp [exN, exDa, exD1, exD2, exV, exT, dirS, Dir3.along]; norm_num

end Ecos.Dir
