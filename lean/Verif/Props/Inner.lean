import Verif.Lemmas.Inner
import Verif.Props.Safe
import Verif.Props.ExpDeriv
import Verif.Props.Cones
import Verif.Props.Direction
import Mathlib.Tactic.IntervalCases

/-!
# The iterates of a solve stay strictly inside the cone (C48)

Over the reals, for the linear and second-order cones and for `tau` and `kappa`.
-/
namespace Ecos.Dir

open Ecos Ecos.Fact Ecos.BB Ecos.Asm Ecos.Line Finset

/-- slacks and multipliers strictly inside the linear and second-order cones, and both scalars positive -/
structure Interior (S : Shape) (v : Iter) : Prop where
  s : IntSym S v.s
  z : IntSym S v.z
  tau : 0 < v.tau
  kap : 0 < v.kap

/-- the step settings are in their documented ranges -/
structure StepRange (t : Settings ℝ) : Prop where
  g0 : 0 ≤ t.gamma
  g1 : t.gamma < 1
  b0 : 0 ≤ t.bkScale
  b1 : t.bkScale ≤ 1

theorem holdsD_fun {b : Buf ℝ} {n : Nat} {f g : Nat → ℝ} (h : HoldsD (fun x a : ℝ => x = a) b n f) (h' : HoldsD (fun x a : ℝ => x = a) b n g) :
    ∀ i, i < n → f i = g i := by
  intro i hi
  have := ((holdsD_eq h).2 i hi).symm.trans ((holdsD_eq h').2 i hi)
  injection this with this
  injection this

theorem socFloors_congr {p : Nat} (hp : 0 < p) {s z s' z' : Nat → ℝ} (hs : ∀ j, j < p → s j = s' j) (hz : ∀ j, j < p → z j = z' j)
    (h : SocFloors p s z) : SocFloors p s' z' := by
  obtain ⟨h1, h2, h3⟩ := h
  rw [tailSq_congr hs, hs 0 hp] at h1 h3
  rw [tailSq_congr hz, hz 0 hp] at h2 h3
  exact ⟨h1, h2, h3⟩

section
variable [HasInf ℝ] {T : Pat} {S : Shape} {amd : Nat → Buf Nat → Buf Nat → Option (Buf Nat)}

/-- a workspace holds one iterate -/
theorem Interior.congr (hq : ∀ k, k < S.ns → 0 < S.q k) (hm : S.fexv ≤ T.m) {w : Work ℝ} {v v' : Iter} (h : IterIs (fun x a : ℝ => x = a) w T v)
    (h' : IterIs (fun x a : ℝ => x = a) w T v') (hv : Interior S v) : Interior S v' := by
  have e1 : v.tau = v'.tau := by
    obtain ⟨x, h1, rfl⟩ := h.tau
    obtain ⟨y, h2, rfl⟩ := h'.tau
    rw [h1] at h2
    injection h2
  have e2 : v.kap = v'.kap := by
    obtain ⟨x, h1, rfl⟩ := h.kap
    obtain ⟨y, h2, rfl⟩ := h'.kap
    rw [h1] at h2
    injection h2
  exact ⟨intSym_congr hq (fun i hi => holdsD_fun h.s h'.s i (by omega)) hv.s, intSym_congr hq (fun i hi => holdsD_fun h.z h'.z i (by omega)) hv.z,
    e1 ▸ hv.tau, e2 ▸ hv.kap⟩

/-- a solve gets as far as the main loop -/
theorem started_ex (hP : PatGood T S) {w : Work ℝ} (hl : LiveW amd T S w) : ∃ w1, Started w w1 := by
  obtain ⟨a, g, c, b, h, xe, ye, ze, π, ai, q, ax, sg, hl⟩ := hl
  have hd := hl.data
  have hs := hl.sz
  obtain ⟨c1, hc, hc1⟩ := (Ok.def _ _).1 (divBy_ok hd.c hd.xe)
  rw [← hs.n] at hc
  have hl1 : LiveW amd T S { w with c := c1 } := ⟨a, g, _, b, h, xe, ye, ze, π, ai, q, ax, sg,
    ⟨hs.n, hs.m, hs.p, hs.D, hs.x, hs.y, hs.z, hs.s, hs.bx, hs.b_y, hs.bz, hs.bs, hs.rx, hs.ry, hs.rz⟩,
    ⟨hd.A, hd.G, hc1, hd.b, hd.h, hd.xe, hd.ye, hd.ze, hd.ua, hd.mA, hd.mG⟩, hl.cone, hl.made, hl.ord, hl.val⟩
  obtain ⟨⟨w1, o⟩, hi, ho, -⟩ := (Ok.def _ _).1 (initSolver_ok hP hl1)
  cases ho
  exact ⟨w1, c1, hc, hi⟩

/-- **C48, the start** Every solve in every reachable workspace starts strictly inside all cones, with `tau = kappa = 1`. -/
theorem C48_start (hamd : ∀ N jc ir P, amd N jc ir = some P → ∃ pf, Holds P N pf ∧ IsPerm N pf) (hP : PatGood T S)
    {w w1 : Work ℝ} (hw : Reach amd T S w) (hst : Started w w1) :
    ∃ v, IterIs (fun x a : ℝ => x = a) w1 T v ∧ Interior S v ∧ v.tau = 1 ∧ v.kap = 1 ∧
      ∀ l, l < S.ne → IntExp (S.eblock v.s l 0) (S.eblock v.s l 1) (S.eblock v.s l 2) ∧
        IntExpDual (S.eblock v.z l 0) (S.eblock v.z l 1) (S.eblock v.z l 2) := by
  obtain ⟨c1, hc, hi⟩ := hst
  obtain ⟨a, g, c, b, h, xe, ye, ze, π, ai, q, ax, sg, hl⟩ := hw.live hamd hP
  have hd := hl.data
  have hs := hl.sz
  have hmS : T.m = S.m := hP.m.symm
  have hfe : S.m = S.fexv + 3 * S.ne := rfl
  have hc1 : Holds c1 T.n fun i => c i / xe i := by
    rw [hs.n] at hc
    exact (divBy_ok hd.c hd.xe).elim hc
  have hl1 : LiveW amd T S { w with c := c1 } := ⟨a, g, _, b, h, xe, ye, ze, π, ai, q, ax, sg,
    ⟨hs.n, hs.m, hs.p, hs.D, hs.x, hs.y, hs.z, hs.s, hs.bx, hs.b_y, hs.bz, hs.bs, hs.rx, hs.ry, hs.rz⟩,
    ⟨hd.A, hd.G, hc1, hd.b, hd.h, hd.xe, hd.ye, hd.ze, hd.ua, hd.mA, hd.mG⟩, hl.cone, hl.made, hl.ord, hl.val⟩
  obtain ⟨-, hG, -, -, ⟨hp⟩, hkap, htau⟩ := (initSolver_ok hP hl1).elim hi
  obtain ⟨fx, hx⟩ := hG.full.x
  obtain ⟨fy, hy⟩ := hG.full.y
  obtain ⟨fz, hz⟩ := hG.full.z
  obtain ⟨fs, hsv⟩ := hG.full.s
  refine ⟨⟨fx, fy, fz, fs, 1, 1⟩, ⟨hx.den fun _ _ => rfl, hy.den fun _ _ => rfl, hz.den fun _ _ => rfl, hsv.den fun _ _ => rfl,
    ⟨_, hkap, by norm_num⟩, ⟨_, htau, by norm_num⟩⟩, ?_⟩
  have hq : ∀ k, k < S.ns → 0 < S.q k := hl.cone.is.pos
  have same : ∀ {b : Buf ℝ} {n n' : Nat} {f f' : Nat → ℝ}, Holds b n f → Has b 0 n' f' → ∀ i, i < n → i < n' → f' i = f i := by
    intro b n n' f f' h1 h2 i hi hi'
    have e2 := h2 i hi'
    rw [Nat.zero_add, h1.2 i hi] at e2
    have e := e2
    injection e with e
    injection e with e
    exact e.symm
  rcases hp with ⟨h0, ⟨C, bb, b0, r, hC, hb, hb0, e⟩, ⟨C', bb', b0', r', hC', hb', hb0', e'⟩⟩ | ⟨C, s0, z0, hC, hs0, hz0, e⟩
  · have hm : S.m = S.fexv := by omega
    rw [hm] at hb hb'
    obtain ⟨s', α, ee, k1, -, -, k2, k3, -⟩ := Cones.C16_bring2cone hC hb (s := b0) (by omega)
    obtain ⟨s'', α', ee', k1', -, -, k2', k3', -⟩ := Cones.C16_bring2cone hC' hb' (s := b0') (by omega)
    rw [e] at k1
    rw [e'] at k1'
    cases k1
    cases k1'
    refine ⟨⟨intSym_congr hq (fun i hi => same hsv k2 i (by omega) hi) k3, intSym_congr hq (fun i hi => same hz k2' i (by omega) hi) k3', one_pos, one_pos⟩,
      rfl, rfl, fun l hl => by omega⟩
  · obtain ⟨s', z', f, k1, k2, k3, k4, k5⟩ := Exp.C32_initial hC hs0 hz0 (t := 1.0) (by norm_num)
    rw [e] at k1
    cases k1
    have hse : ∀ i, i < S.m → f i = fs i := fun i hi => same hsv k2.has0 i (by omega) hi
    have hze : ∀ i, i < S.m → f i = fz i := fun i hi => same hz k3.has0 i (by omega) hi
    refine ⟨⟨intSym_congr hq (fun i hi => hse i (by omega)) k4, intSym_congr hq (fun i hi => hze i (by omega)) k4, one_pos, one_pos⟩,
      rfl, rfl, fun l hl => ?_⟩
    have he : ∀ j, j < 3 → S.eblock f l j = S.eblock fs l j ∧ S.eblock f l j = S.eblock fz l j := by
      intro j hj
      unfold Shape.eblock
      exact ⟨hse _ (by omega), hze _ (by omega)⟩
    rw [← (he 0 (by omega)).1, ← (he 1 (by omega)).1, ← (he 2 (by omega)).1, ← (he 0 (by omega)).2, ← (he 1 (by omega)).2, ← (he 2 (by omega)).2]
    exact k5 l hl

/-- **C48, one pass** A pass that goes on moves an interior iterate that is above the floors of the scaling by some step `st ≥ 0`. If the step is
longer than the shortest one the line search returns, the new iterate is interior. Without exponential cones no step is shorter than that one. -/
theorem C48_pass (hamd : ∀ N jc ir P, amd N jc ir = some P → ∃ pf, Holds P N pf ∧ IsPerm N pf) (hP : PatGood T S)
    {w w1 : Work ℝ} (hw : Reach amd T S w) (hst : Started w w1) {arrives : Nat → Bool} {sig : Sig} (hdet : sig.det = false) {k : Nat}
    {L L' : LoopS ℝ} (hL : AtHead arrives w1 sig k L) (hp : pass arrives k L = .ok (.inr L')) (hs : StepRange L'.w.stgs) {v : Iter}
    (hv : IterIs (fun x a : ℝ => x = a) L.w T v) (hi : Interior S v) (hf : Scaling.Floors S v.s v.z) :
    ∃ v' st, IterIs (fun x a : ℝ => x = a) L'.w T v' ∧ L'.w.info.step = some st ∧ 0 ≤ st ∧ (S.ne = 0 → STEPMIN * L'.w.stgs.gamma ≤ st) ∧
      (STEPMIN * L'.w.stgs.gamma < st → Interior S v') := by
  obtain ⟨hG, hB⟩ := atHead_go hP (hw.live hamd hP) hst hdet hL
  have hq : ∀ k, k < S.ns → 0 < S.q k := by
    obtain ⟨a, g, c, b, h, xe, ye, ze, π, ai, q, ax, sg, hl, -⟩ := hG.live
    exact hl.cone.is.pos
  have hm : S.fexv ≤ T.m := by
    have : S.m = S.fexv + 3 * S.ne := rfl
    rw [← hP.m, this]; omega
  obtain ⟨a, g, c, b, h, xe, ye, ze, π, ai, q, ax, sg, P, u, mu, -, -, hIL, -, -, -, V, sigma, st, f1x, f1y, f1z, a2x, a2y, a2z, e2x, e2y, e2z,
    uu, ds, dtau, dkap, dkaff, dtaff, hM⟩ := pass_moved hP hG (hB.imp id And.left) hp
  have hu := hi.congr hq hm hv hIL
  have hfu : Scaling.Good S u.s u.z := by
    refine ⟨hu.s, hu.z, fun i hi => ?_, fun k hk => ?_⟩
    · have := row_of_lp (S := S) hi
      rw [← holdsD_fun hv.s hIL.s i (by omega), ← holdsD_fun hv.z hIL.z i (by omega)]
      exact hf.lp i hi
    · refine socFloors_congr (hq k hk) (fun j hj => ?_) (fun j hj => ?_) (hf.soc k hk)
      · have := row_of_soc hk hj
        exact holdsD_fun hv.s hIL.s _ (by omega)
      · have := row_of_soc hk hj
        exact holdsD_fun hv.z hIL.z _ (by omega)
  obtain ⟨q1, q2, q3⟩ := hM.inside hq hfu hu.tau hu.kap ⟨hs.g0, hs.g1.le, hs.b0, hs.b1⟩ hs.g1
  refine ⟨⟨fun j => u.x j + st * (e2x j + dtau * f1x j), fun j => u.y j + st * (e2y j + dtau * f1y j),
    fun j => u.z j + st * (e2z j + dtau * f1z j), fun j => u.s j + st * ds j, u.kap + st * dkap, u.tau + st * dtau⟩, st,
    ⟨hM.hx.den fun _ _ => rfl, hM.hy.den fun _ _ => rfl, hM.hz.den fun _ _ => rfl, hM.hs.den fun _ _ => rfl, ⟨_, hM.hkap, rfl⟩, ⟨_, hM.htau, rfl⟩⟩,
    hM.step, q1, q2, fun h => ?_⟩
  obtain ⟨p1, p2, p3, p4⟩ := q3 h
  exact ⟨p1, p2, p3, p4⟩

/-- the iterates of the passes before `k` are above the floors of the scaling -/
def FloorsBefore (T : Pat) (S : Shape) (arrives : Nat → Bool) (w1 : Work ℝ) (sig : Sig) (k : Nat) : Prop :=
  ∀ j L v, j < k → AtHead arrives w1 sig j L → IterIs (fun x a : ℝ => x = a) L.w T v → Scaling.Floors S v.s v.z

/-- **C48** The iterate at the beginning of every pass of every solve is strictly inside the linear and second-order cones, with `tau` and
`kappa` positive, as long as the iterates before were above the floors of the scaling and all steps were longer than the shortest step. -/
theorem C48_iterates (hamd : ∀ N jc ir P, amd N jc ir = some P → ∃ pf, Holds P N pf ∧ IsPerm N pf) (hP : PatGood T S)
    {w w1 : Work ℝ} (hw : Reach amd T S w) (hst : Started w w1) {arrives : Nat → Bool} {sig : Sig} (hdet : sig.det = false)
    (hs : StepRange w1.stgs) {k : Nat} {L : LoopS ℝ} (hL : AtHead arrives w1 sig k L) (hf : FloorsBefore T S arrives w1 sig k)
    (hstep : ∀ j L', 0 < j → j ≤ k → AtHead arrives w1 sig j L' → ∃ st, L'.w.info.step = some st ∧ STEPMIN * w1.stgs.gamma < st) :
    ∃ v, IterIs (fun x a : ℝ => x = a) L.w T v ∧ Interior S v := by
  induction hL with
  | start =>
    obtain ⟨v, h1, h2, -⟩ := C48_start hamd hP hw hst
    exact ⟨v, ⟨h1.x, h1.y, h1.z, h1.s, h1.kap, h1.tau⟩, h2⟩
  | @next k L L' hk hle hp ih =>
    obtain ⟨v, h1, h2⟩ := ih (fun j L v hj => hf j L v (by omega)) fun j L' h0 hj => hstep j L' h0 (by omega)
    have hL' : AtHead arrives w1 sig (k + 1) L' := .next hk hle hp
    have hg : L'.w.stgs = w1.stgs := (atHead_inv hL').data.stgs
    obtain ⟨v', st, h3, h4, -, -, h5⟩ := C48_pass hamd hP hw hst hdet hk hp (by rw [hg]; exact hs) h1 h2 (hf k L v (by omega) hk h1)
    obtain ⟨st', h6, h7⟩ := hstep (k + 1) L' (by omega) (by omega) hL'
    rw [h4] at h6
    cases h6
    exact ⟨v', h3, h5 (by rw [hg]; exact h7)⟩

/-- a pass that goes on did not come from the shortest step -/
theorem not_short {arrives : Nat → Bool} {k : Nat} (hk : 0 < k) {L L' : LoopS ℝ} {st : ℝ} (h0 : L.w.info.step = some st)
    (hp : pass arrives k L = .ok (.inr L')) : st ≠ STEPMIN * GAMMA := by
  obtain ⟨wm, wk, e1, -, -, -, e2, -⟩ := pass_inr hp
  have hi : wm.info.step = L.w.info.step ∧ wm.info.iter = k := by
    have := passHead_fr e1
    exact ⟨this.2.2.2.2.1, this.2.1⟩
  intro hst
  unfold notYet at e2
  rw [hi.1, h0] at e2
  simp only [get, ok_bind_eq, bind_ok] at e2
  obtain ⟨pc, -, e2⟩ := e2
  rw [if_pos (by rw [hi.2]; simp [hk, hst])] at e2
  simp only [bind_ok, pure_ok, reduceCtorEq, and_false, exists_false] at e2

/-- **C48, linear and second-order cones** With the default `gamma` a solve without exponential cones keeps all iterates strictly inside as
long as they are above the floors of the scaling: the iterate at the beginning of a pass is interior, or the last step was the shortest one.
In the second case this pass is the last. -/
theorem C48_symmetric (hamd : ∀ N jc ir P, amd N jc ir = some P → ∃ pf, Holds P N pf ∧ IsPerm N pf) (hP : PatGood T S) (hne : S.ne = 0)
    {w w1 : Work ℝ} (hw : Reach amd T S w) (hst : Started w w1) {arrives : Nat → Bool} {sig : Sig} (hdet : sig.det = false)
    (hs : StepRange w1.stgs) (hga : w1.stgs.gamma = GAMMA) {k : Nat} {L : LoopS ℝ} (hL : AtHead arrives w1 sig k L)
    (hf : FloorsBefore T S arrives w1 sig k) :
    ∃ v, IterIs (fun x a : ℝ => x = a) L.w T v ∧
      (Interior S v ∨ 0 < k ∧ L.w.info.step = some (STEPMIN * GAMMA) ∧ ∀ L', pass arrives k L ≠ .ok (.inr L')) := by
  induction hL with
  | start =>
    obtain ⟨v, h1, h2, -⟩ := C48_start hamd hP hw hst
    exact ⟨v, ⟨h1.x, h1.y, h1.z, h1.s, h1.kap, h1.tau⟩, .inl h2⟩
  | @next k L L' hk hle hp ih =>
    obtain ⟨v, h1, h2⟩ := ih (fun j L v hj => hf j L v (by omega))
    have hi : Interior S v := by
      rcases h2 with h2 | ⟨-, -, h2⟩
      · exact h2
      · exact absurd hp (h2 L')
    have hL' : AtHead arrives w1 sig (k + 1) L' := .next hk hle hp
    have hg : L'.w.stgs = w1.stgs := (atHead_inv hL').data.stgs
    obtain ⟨v', st, h3, h4, -, h5, h6⟩ := C48_pass hamd hP hw hst hdet hk hp (by rw [hg]; exact hs) h1 hi (hf k L v (by omega) hk h1)
    refine ⟨v', h3, ?_⟩
    rw [hg, hga] at h5 h6
    rcases lt_or_eq_of_le (h5 hne) with hlt | heq
    · exact .inl (h6 hlt)
    · refine .inr ⟨by omega, by rw [h4, ← heq], fun L'' hp' => ?_⟩
      exact not_short (by omega) h4 hp' heq.symm

end

/-! ### A problem to which these apply, and a step -/

theorem exGoodL : PatGood exT exS where
  m := rfl
  a := fun h => absurd h (by decide)
  noA := by decide
  g := ⟨rfl, by decide, by decide⟩
  na := by decide
  ng := by decide
  pos := fun k hk => absurd hk (Nat.not_lt_zero _)

theorem exGivenL : Given exT exS ⟨some #[some (-1 : ℝ)], some #[some 0, some 1], some #[some 0]⟩ ⟨none, none, none⟩ #[] #[some (1 : ℝ)] #[some (0 : ℝ)]
    #[] (fun _ => 0) (fun _ => -1) (fun _ => 1) (fun _ => 0) fun _ => 0 where
  q := ⟨rfl, fun i hi => absurd hi (Nat.not_lt_zero _)⟩
  A := by rw [if_neg (by decide)]; exact .inl rfl
  G := ⟨_, _, _, rfl, ⟨rfl, fun i hi => by
    have : i < 2 := hi
    interval_cases i <;> rfl⟩, ⟨rfl, fun i hi => by
    have : i < 1 := hi
    interval_cases i; rfl⟩, ⟨rfl, fun i hi => by
    have : i < 1 := hi
    interval_cases i; rfl⟩⟩
  c := ⟨rfl, fun i hi => by
    have : i < 1 := hi
    interval_cases i; rfl⟩
  h := ⟨rfl, fun i hi => by
    have : i < 1 := hi
    interval_cases i; rfl⟩
  b := ⟨rfl, fun i hi => absurd hi (Nat.not_lt_zero _)⟩

/-- `min x` subject to `x ≥ 0`: set-up succeeds, the solve gets to the main loop, and its first iterate is interior -/
example [HasInf ℝ] : ∃ (w w1 : Work ℝ) (v : Iter), Reach exRev exT exS w ∧ StepRange w.stgs ∧ w.stgs.gamma = GAMMA ∧ Started w w1 ∧
    IterIs (fun x a : ℝ => x = a) w1 exT v ∧ 0 < v.s 0 ∧ 0 < v.z 0 ∧ v.tau = 1 := by
  obtain ⟨w, hw, hr⟩ := C46_setup_succeeds exRev_perm exGoodL (fun _ _ _ => ⟨_, rfl⟩) exGivenL
  obtain ⟨w1, h1⟩ := started_ex exGoodL (hr.live exRev_perm exGoodL)
  obtain ⟨v, h2, h3, h4, -⟩ := C48_start exRev_perm exGoodL hr h1
  have hs : w.stgs = defaultSettings := by
    obtain ⟨a, g, x, y, z, -, -, -, -, -, -, h⟩ := (ecosSetup_ok exRev_perm exGoodL exGivenL eqTrue).elim hw
    exact h.2.2.2.1
  refine ⟨w, w1, v, hr, ?_, by rw [hs]; rfl, h1, h2, h3.s.lp 0 (by decide), h3.z.lp 0 (by decide), h4⟩
  rw [hs]
  constructor <;> simp only [defaultSettings, GAMMA] <;> norm_num

/-- from `s = 4`, `z = 1`, scaled to `2`, along `ds = -2`, `dz = 1` with `kappa` falling: half a step stays inside -/
example (V0 : ConeV ℝ) : IntSym exS (fun _ => 4 + 1 / 2 * (-2)) ∧ IntSym exS (fun _ => 1 + 1 / 2 * 1) ∧ (0 : ℝ) < 1 + 1 / 2 * 0 ∧
    (0 : ℝ) < 1 + 1 / 2 * (-1) := by
  have no : ∀ {p : Nat → Prop} (k : Nat), k < 0 → p k := fun k hk => absurd hk (Nat.not_lt_zero _)
  have hsq : Real.sqrt 4 = 2 := by
    rw [show (4 : ℝ) = 2 ^ 2 by norm_num]
    exact Real.sqrt_sq (by norm_num)
  have hE : (EPS : ℝ) ≤ 1 := by unfold EPS; norm_num
  have hd : safedivPos (4 : ℝ) 1 = 4 := by rw [real_safediv hE]; norm_num
  have hV : IsScaling exS (fun _ => 4) (fun _ => 1) 1 { V0 with lw := fun _ => 2, lv := fun _ => 4 } :=
    ⟨fun i _ => by rw [hd], fun i _ => by rw [hd]; exact hsq.symm, no, no, no⟩
  have hg : Scaling.Good exS (fun _ => 4) fun _ => 1 :=
    ⟨⟨fun i _ => by norm_num, no⟩, ⟨fun i _ => by norm_num, no⟩, fun i _ => ⟨hE, by rw [div_one, hsq]; linarith⟩, no⟩
  have hw : ∀ (x : Nat → ℝ) (i : Nat), i < exS.l → wF exS { V0 with lw := fun _ => 2, lv := fun _ => 4 } x i = 2 * x i := fun x i hi => wF_lp x hi
  refine step_inside (S := exS) no hV hg (dsW := fun _ => -1) (fun i hi => ?_) ⟨⟨fun i hi => ?_, no⟩, ⟨fun i hi => ?_, no⟩, by norm_num, by norm_num⟩
  · rw [hw _ _ hi]; norm_num
  · rw [hw _ _ hi]; norm_num
  · rw [hw _ _ hi]; norm_num

end Ecos.Dir
