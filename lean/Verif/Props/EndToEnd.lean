import Verif.Lemmas.EqXR
import Verif.Props.Inner

/-!
# C49: what the exit codes say about the caller's problem

The solver scales the caller's problem, works on the scaled one, and tests residuals and gap of the scaled iterate. Here these tests are
translated to the problem as the caller gave it and to the variables as they are handed back. The number type has infinities and NaN.
-/
namespace Ecos.Asm

set_option linter.unusedSectionVars false

open Finset XR Ecos.StatProps

/-! ### The statement -/

/-- `x, y, z, s` meets the tolerances for the problem `P`: each row of a residual is divided by the equilibration factor of that row, and the
norms are compared to those of the data and of the variables in the same units -/
structure Accurate (T : Pat) (P : Dat) (E : Fac) (x y z s : Nat → ℝ) (t feastol abstol reltol : ℝ) : Prop where
  eq : nrm T.p (fun i => (∑ j ∈ range T.n, P.A T i j * x j - P.b i) / E.A i) <
    feastol * (max 1 (nrm T.p fun i => P.b i / E.A i) + t * nrm T.n fun j => E.x j * x j)
  ineq : nrm T.m (fun i => (∑ j ∈ range T.n, P.G T i j * x j + s i - P.h i) / E.G i) <
    feastol * (max 1 (nrm T.m fun i => P.h i / E.G i) + t * nrm T.n (fun j => E.x j * x j) + t * nrm T.m fun i => s i / E.G i)
  dual : nrm T.n (fun j => (∑ i ∈ range T.p, P.A T i j * y i + ∑ i ∈ range T.m, P.G T i j * z i + P.c j) / E.x j) <
    feastol * (max 1 (nrm T.n fun j => P.c j / E.x j) + t * nrm T.p (fun i => E.A i * y i) + t * nrm T.m fun i => E.G i * z i)
  gap : t ^ 2 * ip T.m s z < abstol ∨ (ip T.n P.c x < 0 ∧ t ^ 2 * ip T.m s z < reltol * -ip T.n P.c x) ∨
    (0 < -ip T.p P.b y - ip T.m P.h z ∧ t ^ 2 * ip T.m s z < reltol * (-ip T.p P.b y - ip T.m P.h z))

/-- the numbers handed back are finite, and `tau` is positive -/
structure Returned (w : Work XR) (T : Pat) (x y z s : Nat → ℝ) (t : ℝ) : Prop where
  x : HoldsD IsFin w.x T.n x
  y : HoldsD IsFin w.y T.p y
  z : HoldsD IsFin w.z T.m z
  s : HoldsD IsFin w.s T.m s
  kap : ∃ k, w.kap = some (fin k)
  tau : w.tau = some (fin t)
  pos : 0 < t

/-- Histories of a workspace, with the problem (finite data) the caller has put into it last: by set-up, by an update of a workspace with
whatever history, changed by entry updates, kept by changed settings and by solves that did not stop outside of the cone. -/
inductive Session (amd : Nat → Buf Nat → Buf Nat → Option (Buf Nat)) (T : Pat) (S : Shape) : Work XR → Dat → Prop
  | setup {G3 A3 : Mat3 XR} {qb : Buf Nat} {cb hb bb : Buf XR} {P : Dat} {w : Work XR}
      (hin : Given T S G3 A3 qb cb hb bb (fun k => fin (P.a k)) (fun k => fin (P.g k)) (fun k => fin (P.c k)) (fun k => fin (P.h k))
        fun k => fin (P.b k))
      (h : ecosSetup amd T.n T.m T.p S.l S.ns qb S.ne G3 A3 cb hb bb = .ok (.ok w)) : Session amd T S w P
  | update {w : Work XR} {t : Apart} {Gpr Apr vc vh vb : Buf XR} {P : Dat} {r} (hw : Reach amd T S w) (ht : t.G = true → T.hasA = true)
      (hd : NewData T Gpr Apr vc vh vb (fun k => fin (P.a k)) (fun k => fin (P.g k)) (fun k => fin (P.c k)) (fun k => fin (P.h k))
        fun k => fin (P.b k))
      (hr : ecosUpdateData w t Gpr Apr vc vh vb = .ok r) : Session amd T S r.1 P
  | entryH {w w' : Work XR} {P : Dat} {i : Nat} {v : ℝ} (hw : Session amd T S w P) (hi : i < T.m)
      (h : ecosUpdateDataEntryH w i (fin v) = .ok w') : Session amd T S w' { P with h := upd P.h i v }
  | entryC {w w' : Work XR} {P : Dat} {i : Nat} {v : ℝ} (hw : Session amd T S w P) (hi : i < T.n)
      (h : ecosUpdateDataEntryC w i (fin v) = .ok w') : Session amd T S w' { P with c := upd P.c i v }
  | settings {w : Work XR} {P : Dat} (stgs : Settings XR) (hw : Session amd T S w P) : Session amd T S { w with stgs := stgs } P
  | solve {w : Work XR} {P : Dat} {arrives : Nat → Bool} {sig : Sig} {r : Work XR × Sig × Int} (hw : Session amd T S w P)
      (h : ecosSolve arrives w sig = .ok r) (hcode : r.2.2 ≠ OUTCONE) : Session amd T S r.1 P

/-! ### The data in the workspace -/

variable {amd : Nat → Buf Nat → Buf Nat → Option (Buf Nat)} {T : Pat} {S : Shape}

theorem Session.reach {w : Work XR} {P : Dat} (h : Session amd T S w P) : Reach amd T S w := by
  induction h with
  | setup hin h => exact .setup hin h
  | update hw ht hd hr => exact .update hw ht hd hr
  | entryH _ hi h ih => exact .entryH ih hi h
  | entryC _ hi h ih => exact .entryC ih hi h
  | settings stgs _ ih => exact .settings stgs ih
  | solve _ h _ ih => exact .solve ih h

/-- the workspace holds the problem `P` scaled by `E`, that is `P'`, and the costs unscaled -/
structure Owns (w : Work XR) (T : Pat) (S : Shape) (P : Dat) (E : Fac) (P' : Dat) : Prop where
  ok : E.Ok S T
  nx : ∀ j, E.x j ≠ 0
  nA : ∀ i, E.A i ≠ 0
  nG : ∀ i, E.G i ≠ 0
  sc : ScaledBy T P P' E
  A : RepAD IsFin w.A T P'.a
  G : RepD IsFin w.G T.m T.n T.jcG T.irG P'.g
  c : HoldsD IsFin w.c T.n P.c
  b : HoldsD IsFin w.b T.p P'.b
  h : HoldsD IsFin w.h T.m P'.h
  xe : HoldsD IsFin w.xequil T.n E.x
  ye : HoldsD IsFin w.Aequil T.p E.A
  ze : HoldsD IsFin w.Gequil T.m E.G

/-- the value of a finite nonzero number -/
noncomputable def valOf : XR → ℝ
  | fin r => if r = 0 then 1 else r
  | _ => 1

theorem valOf_ne (a : XR) : valOf a ≠ 0 := by
  cases a <;> simp only [valOf] <;> try exact one_ne_zero
  split
  · exact one_ne_zero
  · assumption

theorem valOf_pos {a : XR} (h : ∃ r : ℝ, 0 < r ∧ a = fin r) : 0 < valOf a ∧ a = fin (valOf a) := by
  obtain ⟨r, hr, rfl⟩ := h
  simp only [valOf, if_neg hr.ne']
  exact ⟨hr, trivial⟩

theorem owns_of (hP : PatGood T S) {w : Work XR} {Q : Parts XR} {a g x y z : Nat → XR} {P : Dat}
    (hd : DataIs w T S Q a g (fun k => fin (P.c k)) (fun i => fin (P.b i) / y i) (fun i => fin (P.h i) / z i) x y z)
    (hx : ∀ i, i < T.n → ∃ r : ℝ, 0 < r ∧ x i = fin r) (hy : ∀ i, i < T.p → ∃ r : ℝ, 0 < r ∧ y i = fin r)
    (hz : ∀ i, i < T.m → ∃ r : ℝ, 0 < r ∧ z i = fin r)
    (ra : ∀ k, T.hasA → k < T.jcA T.n → ∃ o' r' c' : ℝ, fin (P.a k) = fin o' ∧ y (T.irA k) = fin r' ∧ x (colOf T.n T.jcA k) = fin c' ∧
      a k = fin (o' / (r' * c')))
    (rg : ∀ k, k < T.jcG T.n → ∃ o' r' c' : ℝ, fin (P.g k) = fin o' ∧ z (T.irG k) = fin r' ∧ x (colOf T.n T.jcG k) = fin c' ∧
      g k = fin (o' / (r' * c'))) : ∃ E P', Owns w T S P E P' := by
  have dv : ∀ {u : ℝ} {a : XR}, (∃ r : ℝ, 0 < r ∧ a = fin r) → fin u / a = fin (u / valOf a) := by
    intro u a h
    obtain ⟨h1, h2⟩ := valOf_pos h
    exact (congrArg (fin u / ·) h2).trans (fin_div h1.ne')
  refine ⟨⟨fun j => valOf (x j), fun i => valOf (y i), fun i => valOf (z i)⟩,
    ⟨fun k => P.a k / (valOf (y (T.irA k)) * valOf (x (colOf T.n T.jcA k))), fun k => P.g k / (valOf (z (T.irG k)) * valOf (x (colOf T.n T.jcG k))),
      fun j => P.c j / valOf (x j), fun i => P.b i / valOf (y i), fun i => P.h i / valOf (z i)⟩,
    ⟨fun j hj => (valOf_pos (hx j hj)).1, fun j hj => (valOf_pos (hy j hj)).1, fun j hj => (valOf_pos (hz j hj)).1,
      fun k hk j hj => congrArg valOf (hd.ua.soc k hk j hj), fun l hl j hj => congrArg valOf (hd.ua.exp l hl j hj)⟩,
    fun _ => valOf_ne _, fun _ => valOf_ne _, fun _ => valOf_ne _,
    ⟨fun _ _ _ => rfl, fun _ _ => rfl, fun _ _ => rfl, fun _ _ => rfl, fun _ _ => rfl⟩, ?_, ?_, hd.c.den fun _ _ => rfl,
    hd.b.den fun i hi => dv (hy i hi), hd.h.den fun i hi => dv (hz i hi), hd.xe.den fun i hi => (valOf_pos (hx i hi)).2,
    hd.ye.den fun i hi => (valOf_pos (hy i hi)).2, hd.ze.den fun i hi => (valOf_pos (hz i hi)).2⟩
  · have hA := hd.A
    unfold RepA at hA
    unfold RepAD
    split at hA
    · rename_i hh
      obtain ⟨M, e, hM⟩ := hA
      rw [if_pos hh]
      refine ⟨M, e, hM.den fun k hk => ?_⟩
      obtain ⟨o, r, c, e1, e2, e3, e4⟩ := ra k hh hk
      have h2 := (valOf_pos (hy _ (hM.ok.rows k hk))).2
      have h3 := (valOf_pos (hx _ (colOf_lt hM.ok hk))).2
      show a k = fin (P.a k / (valOf (y (T.irA k)) * valOf (x (colOf T.n T.jcA k))))
      rw [e4, fin_inj.1 e1, ← fin_inj.1 (e2.symm.trans h2), ← fin_inj.1 (e3.symm.trans h3)]
    · rename_i hh
      rw [if_neg hh]
      exact hA
  · refine hd.G.den fun k hk => ?_
    obtain ⟨o, r, c, e1, e2, e3, e4⟩ := rg k hk
    have h2 := (valOf_pos (hz _ (hd.G.ok.rows k hk))).2
    have h3 := (valOf_pos (hx _ (colOf_lt hd.G.ok hk))).2
    show g k = fin (P.g k / (valOf (z (T.irG k)) * valOf (x (colOf T.n T.jcG k))))
    rw [e4, fin_inj.1 e1, ← fin_inj.1 (e2.symm.trans h2), ← fin_inj.1 (e3.symm.trans h3)]

/-- dividing finite numbers by finite nonzero ones -/
theorem divD {a b : Buf XR} {n : Nat} {f g : Nat → ℝ} (ha : HoldsD IsFin a n f) (hb : HoldsD IsFin b n g) (h0 : ∀ i, g i ≠ 0) :
    Ok (divBy a b n) fun r => HoldsD IsFin r n fun i => f i / g i := by
  obtain ⟨f', hf, ef⟩ := ha.holds
  obtain ⟨g', hg, eg⟩ := hb.holds
  exact (divBy_ok hf hg).mono fun r hr => hr.den fun i hi => denXR.div (ef i hi) (eg i hi) (h0 i)

theorem mulD {a b : Buf XR} {n : Nat} {f g : Nat → ℝ} (ha : HoldsD IsFin a n f) (hb : HoldsD IsFin b n g) :
    Ok (mulBy a b n) fun r => HoldsD IsFin r n fun i => f i * g i := by
  obtain ⟨f', hf, ef⟩ := ha.holds
  obtain ⟨g', hg, eg⟩ := hb.holds
  exact (mulBy_ok hf hg).mono fun r hr => hr.den fun i hi => denXR.mul (ef i hi) (eg i hi)

theorem Session.owns (hamd : ∀ N jc ir P, amd N jc ir = some P → ∃ pf, Holds P N pf ∧ IsPerm N pf) (hP : PatGood T S) {w : Work XR}
    {P : Dat} (h : Session amd T S w P) : ∃ E P', Owns w T S P E P' := by
  induction h with
  | setup hin h =>
    obtain ⟨a, g, x, y, z, hx, hy, hz, hu, ra, rg, hr⟩ := (ecosSetup_ok hamd hP hin eqXR (fun _ _ _ => ⟨_, rfl⟩) fun _ _ => ⟨_, rfl⟩).elim h
    exact owns_of hP hr.2.1 hx hy hz ra rg
  | update hw ht hd hr =>
    obtain ⟨a, g, c, b, h, x, y, z, π, ai, q, ax, sg, hl⟩ := hw.live hamd hP
    obtain ⟨a2, g2, x2, y2, z2, ax2, hl2, -, hx, hy, hz, hu, ra, rg, -⟩ :=
      (updateData_ok hP hl ht hd.G hd.A hd.c hd.h hd.b eqXR (fun _ _ _ => ⟨_, rfl⟩) fun _ _ => ⟨_, rfl⟩).elim hr
    exact owns_of hP hl2.data hx hy hz ra rg
  | @entryH w w' P i v hw hi h ih =>
    obtain ⟨E, P', ho⟩ := ih
    obtain ⟨e, he, rfl⟩ := ho.ze.rd hi
    unfold ecosUpdateDataEntryH at h
    rw [he, ok_bind_eq, fin_div (ho.nG i)] at h
    obtain ⟨b', eb, hb'⟩ := (Ok.def _ _).1 (ho.h.wr hi (v := fin (v / E.G i)) (a := v / E.G i) rfl)
    rw [eb, ok_bind_eq] at h
    cases h
    refine ⟨E, { P' with h := upd P'.h i (v / E.G i) }, ho.ok, ho.nx, ho.nA, ho.nG, ⟨ho.sc.a, ho.sc.g, ho.sc.c, ho.sc.b, fun k hk => ?_⟩, ho.A, ho.G,
      ho.c, ho.b, hb', ho.xe, ho.ye, ho.ze⟩
    show upd _ _ _ _ = upd _ _ _ _ / _
    by_cases hki : k = i
    · rw [hki, upd_self, upd_self]
    · rw [upd_ne _ _ hki, upd_ne _ _ hki]
      exact ho.sc.h k hk
  | @entryC w w' P i v hw hi h ih =>
    obtain ⟨E, P', ho⟩ := ih
    unfold ecosUpdateDataEntryC at h
    obtain ⟨b', eb, hb'⟩ := (Ok.def _ _).1 (ho.c.wr hi (v := fin v) (a := v) rfl)
    rw [eb, ok_bind_eq] at h
    cases h
    exact ⟨E, { P' with c := fun j => upd P.c i v j / E.x j }, ho.ok, ho.nx, ho.nA, ho.nG, ⟨ho.sc.a, ho.sc.g, fun _ _ => rfl, ho.sc.b, ho.sc.h⟩, ho.A, ho.G,
      hb', ho.b, ho.h, ho.xe, ho.ye, ho.ze⟩
  | settings stgs hw ih =>
    obtain ⟨E, P', ho⟩ := ih
    exact ⟨E, P', ho.ok, ho.nx, ho.nA, ho.nG, ho.sc, ho.A, ho.G, ho.c, ho.b, ho.h, ho.xe, ho.ye, ho.ze⟩
  | @solve w P arrives sig r hw h hcode ih =>
    obtain ⟨E, P', ho⟩ := ih
    obtain ⟨a, g, c, b, hf, x, y, z, π, ai, q, ax, sg, hl⟩ := hw.reach.live hamd hP
    obtain ⟨c1, h1, h2⟩ := Equil.C13_solve_data (w' := r.1) (sig' := r.2.1) (code := r.2.2) h
    rw [if_neg hcode] at h2
    obtain ⟨c2, h2, h3⟩ := h2
    rw [hl.sz.n] at h1 h2
    have k1 := (divD ho.c ho.xe ho.nx).elim h1
    have k2 := (mulD k1 ho.xe).elim h2
    refine ⟨E, P', ho.ok, ho.nx, ho.nA, ho.nG, ho.sc, ?_, ?_, ?_, ?_, ?_, ?_, ?_, ?_⟩
    · rw [h3.A]; exact ho.A
    · rw [h3.G]; exact ho.G
    · rw [h3.c]; exact k2.congr fun i _ => div_mul_cancel₀ _ (ho.nx i)
    · rw [h3.b]; exact ho.b
    · rw [h3.h]; exact ho.h
    · rw [h3.xequil]; exact ho.xe
    · rw [h3.Aequil]; exact ho.ye
    · rw [h3.Gequil]; exact ho.ze

/-! ### The scaled iterate and the variables handed back -/

/-- the iterate that gives these variables -/
noncomputable def scaledOf (E : Fac) (x y z s : Nat → ℝ) (k t : ℝ) : Iter where
  x := fun j => x j * (E.x j * t)
  y := fun i => y i * (E.A i * t)
  z := fun i => z i * (E.G i * t)
  s := fun i => s i / (E.G i / t)
  kap := k
  tau := t

theorem scaledOf_user {E : Fac} (nx : ∀ j, E.x j ≠ 0) (nA : ∀ i, E.A i ≠ 0) (nG : ∀ i, E.G i ≠ 0) {x y z s : Nat → ℝ} {k t : ℝ} (ht : t ≠ 0) :
    (scaledOf E x y z s k t).user E = ⟨x, y, z, s, k, 1⟩ := by
  simp only [scaledOf, Iter.user, Iter.mk.injEq, and_true]
  refine ⟨funext fun j => ?_, funext fun j => ?_, funext fun j => ?_, funext fun j => ?_⟩
  · exact mul_div_cancel_right₀ _ (mul_ne_zero (nx j) ht)
  · exact mul_div_cancel_right₀ _ (mul_ne_zero (nA j) ht)
  · exact mul_div_cancel_right₀ _ (mul_ne_zero (nG j) ht)
  · exact div_mul_cancel₀ _ (div_ne_zero (nG j) ht)

theorem div_fin_inv {v : XR} {e t r : ℝ} (he : 0 < e) (ht : 0 < t) (h : v / (fin e * fin t) = fin r) : v = fin (r * (e * t)) := by
  have h0 : 0 < e * t := mul_pos he ht
  rw [fin_mul] at h
  cases v with
  | fin a =>
    rw [fin_div h0.ne', fin_inj] at h
    rw [fin_inj, ← h, div_mul_cancel₀ _ h0.ne']
  | pinf =>
    rw [pinf_div_fin, if_neg (not_lt.2 h0.le)] at h
    cases h
  | ninf =>
    have : (ninf / fin (e * t) : XR) = ninf := by
      show (if e * t < 0 then pinf else ninf) = ninf
      rw [if_neg (not_lt.2 h0.le)]
    rw [this] at h
    cases h
  | nan => cases h

theorem mul_fin_inv {v : XR} {e t r : ℝ} (he : 0 < e) (ht : 0 < t) (h : v * (fin e / fin t) = fin r) : v = fin (r / (e / t)) := by
  have h0 : 0 < e / t := div_pos he ht
  rw [fin_div ht.ne'] at h
  have hs : signInf (e / t) = pinf := if_pos h0
  cases v with
  | fin a =>
    rw [fin_mul, fin_inj] at h
    rw [fin_inj, ← h, mul_div_cancel_right₀ _ h0.ne']
  | pinf =>
    have : (pinf * fin (e / t) : XR) = pinf := hs
    rw [this] at h
    cases h
  | ninf =>
    have : (ninf * fin (e / t) : XR) = ninf := by
      show signInf (-(e / t)) = ninf
      unfold signInf
      rw [if_neg (by linarith), if_pos (by linarith)]
    rw [this] at h
    cases h
  | nan => cases h

/-- finite variables come from a finite iterate of the last solve, for the problem in scaled form -/
theorem returned_iter (hP : PatGood T S) {w w' : Work XR}
    {P P' : Dat} {E : Fac} (hl : LiveW amd T S w) (ho : Owns w T S P E P') {arrives : Nat → Bool} {sig : Sig} {w1 wm : Work XR} {k : Nat}
    {L : LoopS XR} (hst : Started w w1) (hL : AtHead arrives w1 (initCtrlc sig) k L) (hp : passHead L.w k = .ok wm) (hb : HandedBack wm w')
    {x y z s : Nat → ℝ} {t : ℝ} (hr : Returned w' T x y z s t) :
    ∃ κ, ProbIs IsFin L.w T P' ∧ IterIs IsFin L.w T (scaledOf E x y z s κ t) ∧ ResBuf L.w T := by
  obtain ⟨hG, -⟩ := Dir.atHead_go hP hl hst rfl hL
  obtain ⟨c1, hc1, hd1⟩ := Equil.started_data hst
  have hd := hd1.trans (atHead_inv hL).data
  obtain ⟨a, g, c, b, hf, xe, ye, ze, π, ai, q, ax, sg, hl⟩ := hl
  have hz := hG.sz
  have hn : w.n = T.n := hl.sz.n
  rw [hn] at hc1
  have kc := (divD ho.c ho.xe ho.nx).elim hc1
  obtain ⟨f1, f2, f3, -⟩ := passHead_fr hp
  obtain ⟨κ, hκ⟩ := hr.kap
  have htau : wm.tau = some (fin t) := by rw [← hb.tau]; exact hr.tau
  have dm := hd.trans f1
  have en : wm.n = T.n := by rw [f1.n]; exact hz.n
  have em : wm.m = T.m := by rw [f1.m]; exact hz.m
  have ep : wm.p = T.p := by rw [f1.p]; exact hz.p
  have ex : HoldsD IsFin wm.xequil T.n E.x := by rw [dm.xequil]; exact ho.xe
  have ey : HoldsD IsFin wm.Aequil T.p E.A := by rw [dm.Aequil]; exact ho.ye
  have ez : HoldsD IsFin wm.Gequil T.m E.G := by rw [dm.Gequil]; exact ho.ze
  have cell : ∀ {b : Buf XR} {n : Nat} {f : Nat → ℝ} {i : Nat} {u : XR}, HoldsD IsFin b n f → i < n → b[i]? = some (some u) → u = fin (f i) := by
    intro b n f i u h1 hi hu
    obtain ⟨u', e1, e2⟩ := h1.2 i hi
    rw [hu] at e1
    cases e1
    exact e2
  refine ⟨κ, ⟨hz.n, hz.m, hz.p, ?_, ?_, ?_, ?_, ?_⟩, ⟨⟨hz.x, fun i hi => ?_⟩, ⟨hz.y, fun i hi => ?_⟩, ⟨hz.z, fun i hi => ?_⟩, ⟨hz.s, fun i hi => ?_⟩, ?_, ?_⟩,
    ⟨hz.rx, hz.ry, hz.rz⟩⟩
  · rw [hd.A]; exact ho.A
  · rw [hd.G]; exact ho.G
  · rw [hd.c]; exact kc.congr fun i hi => (ho.sc.c i hi).symm
  · rw [hd.b]; exact ho.b
  · rw [hd.h]; exact ho.h
  · obtain ⟨v, e, t', h1, h2, h3, h4⟩ := hb.x i (by rw [en]; exact hi)
    rw [htau] at h3
    cases h3
    have := cell hr.x hi h4
    rw [cell ex hi h2] at this
    exact ⟨v, by rw [← f3.x i (by rw [en]; exact hi)]; exact h1, div_fin_inv (ho.ok.x i hi) hr.pos this⟩
  · obtain ⟨v, e, t', h1, h2, h3, h4⟩ := hb.y i (by rw [ep]; exact hi)
    rw [htau] at h3
    cases h3
    have := cell hr.y hi h4
    rw [cell ey hi h2] at this
    exact ⟨v, by rw [← f3.y i (by rw [ep]; exact hi)]; exact h1, div_fin_inv (ho.ok.A i hi) hr.pos this⟩
  · obtain ⟨v, e, t', h1, h2, h3, h4⟩ := hb.z i (by rw [em]; exact hi)
    rw [htau] at h3
    cases h3
    have := cell hr.z hi h4
    rw [cell ez hi h2] at this
    exact ⟨v, by rw [← f3.z i (by rw [em]; exact hi)]; exact h1, div_fin_inv (ho.ok.G i hi) hr.pos this⟩
  · obtain ⟨v, e, t', h1, h2, h3, h4⟩ := hb.s i (by rw [em]; exact hi)
    rw [htau] at h3
    cases h3
    have := cell hr.s hi h4
    rw [cell ez hi h2] at this
    exact ⟨v, by rw [← f3.s i (by rw [em]; exact hi)]; exact h1, mul_fin_inv (ho.ok.G i hi) hr.pos this⟩
  · exact ⟨_, by rw [← f3.kap, ← hb.kap]; exact hκ, rfl⟩
  · exact ⟨_, by rw [← f3.tau]; exact htau, rfl⟩

theorem nrm_smul (n : Nat) {t : ℝ} (ht : 0 ≤ t) (f : Nat → ℝ) : nrm n (fun i => t * f i) = t * nrm n f := by
  unfold nrm
  have : ∑ i ∈ range n, (t * f i) ^ 2 = t ^ 2 * ∑ i ∈ range n, f i ^ 2 := by
    rw [mul_sum]
    exact sum_congr rfl fun i _ => by ring
  rw [this, Real.sqrt_mul (sq_nonneg t), Real.sqrt_sq ht]

section
variable {P P' : Dat} {E : Fac} {x y z s : Nat → ℝ} {κ t : ℝ}

theorem eqL_scaled (hT : Equil.PatOk T) (hE : E.Ok S T) (hP : ScaledBy T P P' E) {i : Nat} (hi : i < T.p) :
    eqL P' T (scaledOf E x y z s κ t) i = t * ((∑ j ∈ range T.n, P.A T i j * x j) / E.A i) := by
  unfold eqL
  rw [sum_div, mul_sum]
  refine sum_congr rfl fun j hj => ?_
  have hj := mem_range.1 hj
  have h1 := (hE.A i hi).ne'
  have h2 := (hE.x j hj).ne'
  rw [Equil.scaled_A hT hP hi hj]
  simp only [scaledOf]
  field_simp

theorem ineqL_scaled (hT : Equil.PatOk T) (hE : E.Ok S T) (hP : ScaledBy T P P' E) (ht : 0 < t) {i : Nat} (hi : i < T.m) :
    ineqL P' T (scaledOf E x y z s κ t) i = t * ((∑ j ∈ range T.n, P.G T i j * x j + s i) / E.G i) := by
  unfold ineqL
  have h1 := (hE.G i hi).ne'
  have ht := ht.ne'
  rw [add_div, mul_add, sum_div, mul_sum]
  congr 1
  · refine sum_congr rfl fun j hj => ?_
    have hj := mem_range.1 hj
    have h2 := (hE.x j hj).ne'
    rw [Equil.scaled_G hT hP i hj]
    simp only [scaledOf]
    field_simp
  · simp only [scaledOf]
    field_simp

theorem adj_scaled (hT : Equil.PatOk T) (hE : E.Ok S T) (hP : ScaledBy T P P' E) {j : Nat} (hj : j < T.n) :
    adj P' T (scaledOf E x y z s κ t) j =
      t * ((∑ i ∈ range T.p, P.A T i j * y i + ∑ i ∈ range T.m, P.G T i j * z i) / E.x j) := by
  unfold adj
  have h2 := (hE.x j hj).ne'
  rw [add_div, mul_add, sum_div, mul_sum, sum_div, mul_sum]
  congr 1
  · refine sum_congr rfl fun i hi => ?_
    have hi := mem_range.1 hi
    have h1 := (hE.A i hi).ne'
    rw [Equil.scaled_A hT hP hi hj]
    simp only [scaledOf]
    field_simp
  · refine sum_congr rfl fun i hi => ?_
    have hi := mem_range.1 hi
    have h1 := (hE.G i hi).ne'
    rw [Equil.scaled_G hT hP i hj]
    simp only [scaledOf]
    field_simp

theorem nx_scaled (ht : 0 < t) : nrm T.n (scaledOf E x y z s κ t).x = t * nrm T.n fun j => E.x j * x j := by
  rw [← nrm_smul _ ht.le]
  exact nrm_congr fun j _ => by simp only [scaledOf]; ring

theorem ny_scaled (ht : 0 < t) : nrm T.p (scaledOf E x y z s κ t).y = t * nrm T.p fun i => E.A i * y i := by
  rw [← nrm_smul _ ht.le]
  exact nrm_congr fun j _ => by simp only [scaledOf]; ring

theorem nz_scaled (ht : 0 < t) : nrm T.m (scaledOf E x y z s κ t).z = t * nrm T.m fun i => E.G i * z i := by
  rw [← nrm_smul _ ht.le]
  exact nrm_congr fun j _ => by simp only [scaledOf]; ring

theorem ns_scaled (ht : 0 < t) : nrm T.m (scaledOf E x y z s κ t).s = t * nrm T.m fun i => s i / E.G i := by
  rw [← nrm_smul _ ht.le]
  exact nrm_congr fun j _ => by simp only [scaledOf]; rw [div_div_eq_mul_div]; ring

theorem gap_scaled (hE : E.Ok S T) (ht : 0 < t) : ip T.m (scaledOf E x y z s κ t).s (scaledOf E x y z s κ t).z = t ^ 2 * ip T.m s z := by
  unfold ip
  rw [mul_sum]
  refine sum_congr rfl fun i hi => ?_
  have h1 := (hE.G i (mem_range.1 hi)).ne'
  have ht := ht.ne'
  simp only [scaledOf]
  field_simp

/-- the tests on the statistics of the scaled iterate, in the caller's units -/
theorem accurate_of (hT : Equil.PatOk T) (hE : E.Ok S T) (nx : ∀ j, E.x j ≠ 0) (nA : ∀ i, E.A i ≠ 0) (nG : ∀ i, E.G i ≠ 0)
    (hP : ScaledBy T P P' E) (ht : 0 < t) {i : Stats XR} {D : Nat} {rt0 : ℝ}
    (hdoc : StatProps.Documented i T P' (scaledOf E x y z s κ t) (max 1 (nrm T.n P'.c), max 1 (nrm T.p P'.b), max 1 (nrm T.m P'.h)) D rt0)
    {ft at' rt : ℝ} {pres dres gap relgap : XR} (h1 : i.pres = some pres) (h2 : i.dres = some dres) (h3 : i.gap = some gap)
    (h4 : i.relgap = some relgap) (k1 : lt pres (fin ft) = true) (k2 : lt dres (fin ft) = true)
    (k3 : lt gap (fin at') = true ∨ lt relgap (fin rt) = true) : Accurate T P E x y z s t ft at' rt := by
  have hu := scaledOf_user nx nA nG (x := x) (y := y) (z := z) (s := s) (k := κ) ht.ne'
  have hobj := Equil.C14_objective (v := scaledOf E x y z s κ t) hE hP ht
  rw [hu] at hobj
  have htt : (scaledOf E x y z s κ t).tau = t := rfl
  have one : ∀ {a b : ℝ}, 0 ≤ b → max (max 1 a + b) 1 = max 1 a + b := fun {a b} hb => max_eq_left (by
    have := le_max_left 1 a
    linarith)
  have e1 : nrm T.p (fun k => eqL P' T (scaledOf E x y z s κ t) k - (scaledOf E x y z s κ t).tau * P'.b k) =
      t * nrm T.p fun i => (∑ j ∈ range T.n, P.A T i j * x j - P.b i) / E.A i := by
    rw [← nrm_smul _ ht.le]
    refine nrm_congr fun k hk => ?_
    rw [eqL_scaled hT hE hP hk, hP.b k hk, htt]
    ring
  have e2 : nrm T.m (fun k => ineqL P' T (scaledOf E x y z s κ t) k - (scaledOf E x y z s κ t).tau * P'.h k) =
      t * nrm T.m fun i => (∑ j ∈ range T.n, P.G T i j * x j + s i - P.h i) / E.G i := by
    rw [← nrm_smul _ ht.le]
    refine nrm_congr fun k hk => ?_
    rw [ineqL_scaled hT hE hP ht hk, hP.h k hk, htt]
    ring
  have e3 : nrm T.n (fun j => adj P' T (scaledOf E x y z s κ t) j + (scaledOf E x y z s κ t).tau * P'.c j) =
      t * nrm T.n fun j => (∑ i ∈ range T.p, P.A T i j * y i + ∑ i ∈ range T.m, P.G T i j * z i + P.c j) / E.x j := by
    rw [← nrm_smul _ ht.le]
    refine nrm_congr fun k hk => ?_
    rw [adj_scaled hT hE hP hk, hP.c k hk, htt]
    ring
  have nb : nrm T.p P'.b = nrm T.p fun i => P.b i / E.A i := nrm_congr fun i hi => hP.b i hi
  have nh : nrm T.m P'.h = nrm T.m fun i => P.h i / E.G i := nrm_congr fun i hi => hP.h i hi
  have nc : nrm T.n P'.c = nrm T.n fun j => P.c j / E.x j := nrm_congr fun i hi => hP.c i hi
  have p0 : ∀ n f, 0 ≤ t * nrm n f := fun n f => mul_nonneg ht.le (nrm_nonneg _ _)
  have pos1 : ∀ {a b : ℝ}, 0 ≤ b → 0 < max 1 a + b := fun {a b} hb => by
    have := le_max_left 1 a
    linarith
  have cancel : ∀ {a M f : ℝ}, 0 < M → t * a / M / t < f → a < f * M := fun {a M f} hM h => by
    rw [div_div, div_lt_iff₀ (mul_pos hM ht), mul_comm t a, ← mul_assoc] at h
    exact lt_of_mul_lt_mul_right h ht.le
  rw [hdoc.pres] at h1
  rw [hdoc.dres] at h2
  rw [hdoc.gap] at h3
  rw [hdoc.relgap] at h4
  cases h1
  cases h2
  cases h3
  cases h4
  rw [lt_fin, decide_eq_true_eq, e1, e2, nx_scaled ht, ns_scaled ht, nb, nh, htt, one (p0 _ _), add_assoc, one (add_nonneg (p0 _ _) (p0 _ _)),
    ← max_div_div_right ht.le, max_lt_iff] at k1
  rw [lt_fin, decide_eq_true_eq, e3, ny_scaled ht, nz_scaled ht, nc, htt, add_assoc, one (add_nonneg (p0 _ _) (p0 _ _))] at k2
  rw [lt_fin, decide_eq_true_eq, gap_scaled hE ht, hobj.1, htt] at k3
  refine ⟨cancel (pos1 (p0 _ _)) k1.1, ?_, ?_, ?_⟩
  · have := cancel (pos1 (add_nonneg (p0 _ _) (p0 _ _))) k1.2
    rw [← add_assoc] at this
    exact this
  · have := cancel (pos1 (add_nonneg (p0 _ _) (p0 _ _))) k2
    rw [← add_assoc] at this
    exact this
  · rcases k3 with k3 | k3
    · exact .inl k3
    · refine .inr ?_
      rw [htt] at hobj
      rw [hobj.2] at k3
      unfold relgapOf at k3
      split at k3
      · rename_i hneg
        rw [lt_fin, decide_eq_true_eq, div_lt_iff₀ (by linarith)] at k3
        exact .inl ⟨hneg, k3⟩
      · split at k3
        · rename_i hpos
          rw [lt_fin, decide_eq_true_eq, div_lt_iff₀ hpos] at k3
          exact .inr ⟨hpos, k3⟩
        · simp at k3

end

/-! ### Optimal -/

/-- the tolerances a code stands for: the full ones for code 0, the reduced ones for code 10 -/
def TolsAre (g : Settings XR) (code : Int) (ft at' rt : ℝ) : Prop :=
  if code = 0 then g.feastol = fin ft ∧ g.abstol = fin at' ∧ g.reltol = fin rt
  else g.feastolInacc = fin ft ∧ g.abstolInacc = fin at' ∧ g.reltolInacc = fin rt

theorem patOk (hP : PatGood T S) : Equil.PatOk T :=
  ⟨hP.a, fun h => hP.noA (by simpa using h), hP.g⟩

/-- the factors in the workspace -/
structure FacIs (w : Work XR) (T : Pat) (E : Fac) : Prop where
  x : HoldsD IsFin w.xequil T.n E.x
  A : HoldsD IsFin w.Aequil T.p E.A
  G : HoldsD IsFin w.Gequil T.m E.G

theorem Owns.fac {w w' : Work XR} {P P' : Dat} {E : Fac} (ho : Owns w T S P E P') {arrives : Nat → Bool} {sig sig' : Sig} {code : Int}
    (h : ecosSolve arrives w sig = .ok (w', sig', code)) : FacIs w' T E := by
  obtain ⟨c, -, h⟩ := Equil.C13_solve_data h
  split at h
  · exact ⟨by rw [h.xequil]; exact ho.xe, by rw [h.Aequil]; exact ho.ye, by rw [h.Gequil]; exact ho.ze⟩
  · obtain ⟨c', -, h⟩ := h
    exact ⟨by rw [h.xequil]; exact ho.xe, by rw [h.Aequil]; exact ho.ye, by rw [h.Gequil]; exact ho.ze⟩

/-- the exit tests of a solve on a workspace that holds the problem `P`, scaled by `E` -/
theorem optimal_of (hP : PatGood T S) {w w' : Work XR} {P P' : Dat} {E : Fac} (hl : LiveW amd T S w) (ho : Owns w T S P E P')
    {arrives : Nat → Bool} {sig sig' : Sig} {code : Int}
    (h : ecosSolve arrives w sig = .ok (w', sig', code)) (hcode : code = 0 ∨ (code = 10 ∧ 0 < w'.info.iter)) {ft at' rt rt0 : ℝ}
    (htol : TolsAre w.stgs code ft at' rt) (hrt : w.stgs.reltol = fin rt0) {x y z s : Nat → ℝ} {t : ℝ} (hr : Returned w' T x y z s t) :
    Accurate T P E x y z s t ft at' rt ∧ w'.info.pcost = some (fin (ip T.n P.c x)) ∧
      w'.info.dcost = some (fin (-ip T.p P.b y - ip T.m P.h z)) := by
  obtain ⟨w1, wm, k, hst, hk, ⟨L, hL, hkm, hpass⟩, hback⟩ := C26_returned_partial h
    (by rcases hcode with rfl | ⟨rfl, -⟩ <;> decide) (by rcases hcode with rfl | ⟨rfl, -⟩ <;> decide)
    (by rcases hcode with rfl | ⟨-, h⟩
        · exact Or.inr (by simp)
        · exact Or.inl h)
  obtain ⟨κ, hprob, hit, hres⟩ := returned_iter hP hl ho hst hL hpass hback hr
  have hdoc := (C43_solve hst hL hprob hit hres hr.pos.ne' hrt).elim hpass
  obtain ⟨t0, t10, hstg0⟩ := C24_optimal_tolerances h
  have hstg := hstg0 (by rcases hcode with rfl | ⟨rfl, -⟩ <;> decide)
  have hu := scaledOf_user ho.nx ho.nA ho.nG (x := x) (y := y) (z := z) (s := s) (k := κ) hr.pos.ne'
  have hobj := Equil.C14_objective (v := scaledOf E x y z s κ t) ho.ok ho.sc hr.pos
  rw [hu] at hobj
  refine ⟨?_, ?_, ?_⟩
  · have key : MeetsTolerances w' (fin ft) (fin at') (fin rt) := by
      rcases hcode with rfl | ⟨rfl, -⟩
      · have := t0 rfl
        unfold TolsAre at htol
        rw [if_pos rfl] at htol
        rw [hstg, htol.1, htol.2.1, htol.2.2] at this
        exact this
      · have := t10 rfl
        unfold TolsAre at htol
        rw [if_neg (by decide)] at htol
        rw [hstg, htol.1, htol.2.1, htol.2.2] at this
        exact this
    obtain ⟨pres, dres, gap, relgap, cx, b, hz, m1, m2, m3, m4, -, -, -, k1, k2, k3, -⟩ := key
    have hst' := hback.stats
    rw [hst'.pres] at m1
    rw [hst'.dres] at m2
    rw [hst'.gap] at m3
    rw [hst'.relgap] at m4
    exact accurate_of (patOk hP) ho.ok ho.nx ho.nA ho.nG ho.sc hr.pos hdoc m1 m2 m3 m4 k1 k2 k3
  · rw [hback.stats.pcost, hdoc.pcost, hobj.1]
  · rw [hback.stats.dcost, hdoc.dcost, hobj.2]

/-- **C49, optimal** Whatever the history of the workspace, if a solve returns the code "optimal" (0, or 10 for reduced accuracy after at least
one iteration) and finite variables, then these variables meet the tolerances for the problem the caller has put in, and the reported
objectives are the caller's. -/
theorem C49_optimal (hamd : ∀ N jc ir P, amd N jc ir = some P → ∃ pf, Holds P N pf ∧ IsPerm N pf) (hP : PatGood T S) {w w' : Work XR}
    {P : Dat} (hs : Session amd T S w P) {arrives : Nat → Bool} {sig sig' : Sig} {code : Int}
    (h : ecosSolve arrives w sig = .ok (w', sig', code)) (hcode : code = 0 ∨ (code = 10 ∧ 0 < w'.info.iter)) {ft at' rt rt0 : ℝ}
    (htol : TolsAre w.stgs code ft at' rt) (hrt : w.stgs.reltol = fin rt0) {x y z s : Nat → ℝ} {t : ℝ} (hr : Returned w' T x y z s t) :
    ∃ E, E.Ok S T ∧ FacIs w' T E ∧ Accurate T P E x y z s t ft at' rt ∧ w'.info.pcost = some (fin (ip T.n P.c x)) ∧
      w'.info.dcost = some (fin (-ip T.p P.b y - ip T.m P.h z)) := by
  obtain ⟨E, P', ho⟩ := hs.owns hamd hP
  exact ⟨E, ho.ok, ho.fac h, optimal_of hP (hs.reach.live hamd hP) ho h hcode htol hrt hr⟩

/-! ### What this means: bounds on the optimal value -/

/-- with `z` in the dual cone, every feasible point costs at least the dual objective, up to the dual residual -/
theorem dual_bound (hP : PatGood T S) {P : Dat} {y z x' s' : Nat → ℝ} (hz : InKDual S z) (hf : Feasible S T P x' s') :
    -ip T.p P.b y - ip T.m P.h z +
      ip T.n (fun j => ∑ i ∈ range T.p, P.A T i j * y i + ∑ i ∈ range T.m, P.G T i j * z i + P.c j) x' ≤ ip T.n P.c x' := by
  have hpair := pair_nonneg hP.pos hf.s hz
  rw [hP.m] at hpair
  have h1 := pairing P T x' y z
  have e1 : ∑ i ∈ range T.p, (∑ j ∈ range T.n, P.A T i j * x' j) * y i = ip T.p P.b y :=
    sum_congr rfl fun i hi => by rw [hf.eq i (mem_range.1 hi)]
  have e2 : ∑ i ∈ range T.m, (∑ j ∈ range T.n, P.G T i j * x' j) * z i = ip T.m P.h z - ip T.m s' z := by
    unfold ip
    rw [← sum_sub_distrib]
    refine sum_congr rfl fun i hi => ?_
    have := hf.ineq i (mem_range.1 hi)
    rw [← this]
    ring
  have e3 : ip T.n (fun j => ∑ i ∈ range T.p, P.A T i j * y i + ∑ i ∈ range T.m, P.G T i j * z i + P.c j) x' =
      ∑ j ∈ range T.n, (∑ i ∈ range T.p, P.A T i j * y i + ∑ i ∈ range T.m, P.G T i j * z i) * x' j + ip T.n P.c x' := by
    unfold ip
    rw [← sum_add_distrib]
    exact sum_congr rfl fun j _ => by ring
  rw [e3, h1, e1, e2]
  linarith

/-- the cost of a point, by its gap and residuals -/
theorem cost_eq {P : Dat} {x y z s : Nat → ℝ} : ip T.n P.c x = -ip T.p P.b y - ip T.m P.h z + ip T.m s z +
      ip T.n (fun j => ∑ i ∈ range T.p, P.A T i j * y i + ∑ i ∈ range T.m, P.G T i j * z i + P.c j) x -
      ip T.p (fun i => ∑ j ∈ range T.n, P.A T i j * x j - P.b i) y -
      ip T.m (fun i => ∑ j ∈ range T.n, P.G T i j * x j + s i - P.h i) z := by
  have h1 := pairing P T x y z
  have e1 : ip T.p (fun i => ∑ j ∈ range T.n, P.A T i j * x j - P.b i) y =
      ∑ i ∈ range T.p, (∑ j ∈ range T.n, P.A T i j * x j) * y i - ip T.p P.b y := by
    unfold ip
    rw [← sum_sub_distrib]
    exact sum_congr rfl fun j _ => by ring
  have e2 : ip T.m (fun i => ∑ j ∈ range T.n, P.G T i j * x j + s i - P.h i) z =
      ∑ i ∈ range T.m, (∑ j ∈ range T.n, P.G T i j * x j) * z i + ip T.m s z - ip T.m P.h z := by
    unfold ip
    rw [← sum_add_distrib, ← sum_sub_distrib]
    exact sum_congr rfl fun j _ => by ring
  have e3 : ip T.n (fun j => ∑ i ∈ range T.p, P.A T i j * y i + ∑ i ∈ range T.m, P.G T i j * z i + P.c j) x =
      ∑ j ∈ range T.n, (∑ i ∈ range T.p, P.A T i j * y i + ∑ i ∈ range T.m, P.G T i j * z i) * x j + ip T.n P.c x := by
    unfold ip
    rw [← sum_add_distrib]
    exact sum_congr rfl fun j _ => by ring
  rw [e1, e2, e3, h1]
  ring

/-- an inner product, with each entry of the one divided and of the other multiplied by a factor -/
theorem ip_scale_le {n : Nat} {f g e : Nat → ℝ} (he : ∀ i, i < n → 0 < e i) :
    ip n f g ≤ nrm n (fun i => f i / e i) * nrm n fun i => e i * g i := by
  have : ip n f g = ip n (fun i => f i / e i) fun i => e i * g i :=
    sum_congr rfl fun i hi => by
      have := (he i (mem_range.1 hi)).ne'
      field_simp
  rw [this]
  exact ip_le _ _ _

theorem ip_scale_ge {n : Nat} {f g e : Nat → ℝ} (he : ∀ i, i < n → 0 < e i) :
    -(nrm n (fun i => f i / e i) * nrm n fun i => e i * g i) ≤ ip n f g := by
  have : ip n f g = ip n (fun i => f i / e i) fun i => e i * g i :=
    sum_congr rfl fun i hi => by
      have := (he i (mem_range.1 hi)).ne'
      field_simp
  rw [this]
  exact ip_ge _ _ _

/-- **C49, the optimal value** For variables that meet the tolerances, with `z` in the dual cone: no feasible point of the caller's problem is
cheaper than `x` by more than the gap `s'z`, plus `feastol` times norms of the data and the points (in the scaled units). -/
theorem C49_value (hP : PatGood T S) {P : Dat} {E : Fac} (hE : E.Ok S T) {x y z s : Nat → ℝ} {t ft at' rt : ℝ}
    (ha : Accurate T P E x y z s t ft at' rt) (hz : InKDual S z) {x' s' : Nat → ℝ} (hf : Feasible S T P x' s') :
    ip T.n P.c x ≤ ip T.n P.c x' + ip T.m s z +
      ft * ((max 1 (nrm T.n fun j => P.c j / E.x j) + t * nrm T.p (fun i => E.A i * y i) + t * nrm T.m fun i => E.G i * z i) *
          (nrm T.n fun j => E.x j * (x j - x' j)) +
        (max 1 (nrm T.p fun i => P.b i / E.A i) + t * nrm T.n fun j => E.x j * x j) * (nrm T.p fun i => E.A i * y i) +
        (max 1 (nrm T.m fun i => P.h i / E.G i) + t * nrm T.n (fun j => E.x j * x j) + t * nrm T.m fun i => s i / E.G i) *
          (nrm T.m fun i => E.G i * z i)) := by
  have h1 := dual_bound hP (y := y) hz hf
  have h2 := cost_eq (T := T) (P := P) (x := x) (y := y) (z := z) (s := s)
  have d1 := ip_scale_le (f := fun j => ∑ i ∈ range T.p, P.A T i j * y i + ∑ i ∈ range T.m, P.G T i j * z i + P.c j) (g := fun j => x j - x' j) hE.x
  have d2 := ip_scale_ge (f := fun i => ∑ j ∈ range T.n, P.A T i j * x j - P.b i) (g := y) hE.A
  have d3 := ip_scale_ge (f := fun i => ∑ j ∈ range T.n, P.G T i j * x j + s i - P.h i) (g := z) hE.G
  have m1 := mul_le_mul_of_nonneg_right ha.dual.le (nrm_nonneg T.n fun j => E.x j * (x j - x' j))
  have m2 := mul_le_mul_of_nonneg_right ha.eq.le (nrm_nonneg T.p fun i => E.A i * y i)
  have m3 := mul_le_mul_of_nonneg_right ha.ineq.le (nrm_nonneg T.m fun i => E.G i * z i)
  have e1 : ip T.n (fun j => ∑ i ∈ range T.p, P.A T i j * y i + ∑ i ∈ range T.m, P.G T i j * z i + P.c j) (fun j => x j - x' j) =
      ip T.n (fun j => ∑ i ∈ range T.p, P.A T i j * y i + ∑ i ∈ range T.m, P.G T i j * z i + P.c j) x -
      ip T.n (fun j => ∑ i ∈ range T.p, P.A T i j * y i + ∑ i ∈ range T.m, P.G T i j * z i + P.c j) x' := by
    unfold ip
    rw [← sum_sub_distrib]
    exact sum_congr rfl fun j _ => by ring
  nlinarith

/-! ### Infeasible -/

/-- the certificate of primal infeasibility in the caller's units -/
structure UserPrimalCert (T : Pat) (P : Dat) (E : Fac) (y z : Nat → ℝ) (t reltol tol : ℝ) : Prop where
  neg : ip T.m P.h z + ip T.p P.b y < -(reltol * max (nrm T.p (fun i => E.A i * y i) + nrm T.m fun i => E.G i * z i) (1 / t))
  small : nrm T.n (fun j => (∑ i ∈ range T.p, P.A T i j * y i + ∑ i ∈ range T.m, P.G T i j * z i) / E.x j) <
    tol * max (nrm T.p (fun i => E.A i * y i) + nrm T.m fun i => E.G i * z i) (1 / t)

/-- the certificate of dual infeasibility in the caller's units -/
structure UserDualCert (T : Pat) (P : Dat) (E : Fac) (x s : Nat → ℝ) (t reltol tol : ℝ) : Prop where
  neg : ip T.n P.c x < -(reltol * max (nrm T.n fun j => E.x j * x j) (1 / t))
  smallA : nrm T.p (fun i => (∑ j ∈ range T.n, P.A T i j * x j) / E.A i) < tol * max (nrm T.n fun j => E.x j * x j) (1 / t)
  smallG : nrm T.m (fun i => (∑ j ∈ range T.n, P.G T i j * x j + s i) / E.G i) <
    tol * max (nrm T.n (fun j => E.x j * x j) + nrm T.m fun i => s i / E.G i) (1 / t)

theorem max_scale {t a : ℝ} (ht : 0 < t) : max (t * a) 1 = t * max a (1 / t) := by
  rw [mul_max_of_nonneg _ _ ht.le, mul_one_div_cancel ht.ne']

section
variable {P P' : Dat} {E : Fac} {x y z s : Nat → ℝ} {κ t reltol tol : ℝ}

theorem userPrimal (hT : Equil.PatOk T) (hE : E.Ok S T) (nx : ∀ j, E.x j ≠ 0) (nA : ∀ i, E.A i ≠ 0) (nG : ∀ i, E.G i ≠ 0)
    (hP : ScaledBy T P P' E) (ht : 0 < t) (h : PrimalCert T P' (scaledOf E x y z s κ t) reltol tol) : UserPrimalCert T P E y z t reltol tol := by
  have hu := scaledOf_user nx nA nG (x := x) (y := y) (z := z) (s := s) (k := κ) ht.ne'
  have hobj := (Equil.C14_objective (v := scaledOf E x y z s κ t) hE hP ht).2
  rw [hu] at hobj
  have htt : (scaledOf E x y z s κ t).tau = t := rfl
  rw [htt, div_eq_iff ht.ne'] at hobj
  have e : nrm T.n (adj P' T (scaledOf E x y z s κ t)) =
      t * nrm T.n fun j => (∑ i ∈ range T.p, P.A T i j * y i + ∑ i ∈ range T.m, P.G T i j * z i) / E.x j := by
    rw [← nrm_smul _ ht.le]
    exact nrm_congr fun j hj => adj_scaled hT hE hP hj
  have hn := h.neg
  have hs := h.small
  rw [ny_scaled ht, nz_scaled ht, ← mul_add, max_scale ht] at hn hs
  rw [e] at hs
  constructor
  · refine lt_of_mul_lt_mul_left (a := t) ?_ ht.le
    simp only at hobj
    nlinarith
  · refine lt_of_mul_lt_mul_left (a := t) ?_ ht.le
    nlinarith

theorem userDual (hT : Equil.PatOk T) (hE : E.Ok S T) (nx : ∀ j, E.x j ≠ 0) (nA : ∀ i, E.A i ≠ 0) (nG : ∀ i, E.G i ≠ 0)
    (hP : ScaledBy T P P' E) (ht : 0 < t) (h : DualCert T P' (scaledOf E x y z s κ t) reltol tol) : UserDualCert T P E x s t reltol tol := by
  have hu := scaledOf_user nx nA nG (x := x) (y := y) (z := z) (s := s) (k := κ) ht.ne'
  have hobj := (Equil.C14_objective (v := scaledOf E x y z s κ t) hE hP ht).1
  rw [hu] at hobj
  have htt : (scaledOf E x y z s κ t).tau = t := rfl
  rw [htt, div_eq_iff ht.ne'] at hobj
  have e1 : nrm T.p (eqL P' T (scaledOf E x y z s κ t)) = t * nrm T.p fun i => (∑ j ∈ range T.n, P.A T i j * x j) / E.A i := by
    rw [← nrm_smul _ ht.le]
    exact nrm_congr fun j hj => eqL_scaled hT hE hP hj
  have e2 : nrm T.m (ineqL P' T (scaledOf E x y z s κ t)) = t * nrm T.m fun i => (∑ j ∈ range T.n, P.G T i j * x j + s i) / E.G i := by
    rw [← nrm_smul _ ht.le]
    exact nrm_congr fun j hj => ineqL_scaled hT hE hP ht hj
  have hn := h.neg
  have hA := h.smallA
  have hG := h.smallG
  rw [nx_scaled ht, max_scale ht] at hn hA
  rw [nx_scaled ht, ns_scaled ht, ← mul_add, max_scale ht, e2] at hG
  rw [e1] at hA
  refine ⟨lt_of_mul_lt_mul_left (a := t) ?_ ht.le, lt_of_mul_lt_mul_left (a := t) ?_ ht.le, lt_of_mul_lt_mul_left (a := t) ?_ ht.le⟩
  · simp only at hobj
    nlinarith
  · nlinarith
  · nlinarith

end

/-- **C49, infeasible** Whatever the history of the workspace, if a solve returns "primal infeasible" (1, or 11 for reduced accuracy after at
least one iteration) and finite variables, then `y` and `z` are a certificate for the problem the caller has put in; likewise `x` and `s` for
"dual infeasible" (2 and 12). -/
theorem C49_infeasible (hamd : ∀ N jc ir P, amd N jc ir = some P → ∃ pf, Holds P N pf ∧ IsPerm N pf) (hP : PatGood T S) {w w' : Work XR}
    {P : Dat} (hs : Session amd T S w P) {arrives : Nat → Bool} {sig sig' : Sig} {code : Int}
    (h : ecosSolve arrives w sig = .ok (w', sig', code)) (hcode : code = 1 ∨ code = 2 ∨ ((code = 11 ∨ code = 12) ∧ 0 < w'.info.iter))
    {rt ft fi : ℝ} (hrt : w.stgs.reltol = fin rt) (hft : w.stgs.feastol = fin ft) (hfi : w.stgs.feastolInacc = fin fi) {x y z s : Nat → ℝ} {t : ℝ}
    (hr : Returned w' T x y z s t) :
    ∃ E, E.Ok S T ∧ FacIs w' T E ∧ (code = 1 ∨ code = 11 → UserPrimalCert T P E y z t rt (tolFor code ft fi)) ∧
      (code = 2 ∨ code = 12 → UserDualCert T P E x s t rt (tolFor code ft fi)) := by
  obtain ⟨E, P', ho⟩ := hs.owns hamd hP
  obtain ⟨w1, k, L, wm, hst, hL, hpass, hback, hc⟩ := C25_solve h hcode
  obtain ⟨κ, hprob, hit, hres⟩ := returned_iter hP (hs.reach.live hamd hP) ho hst hL hpass hback hr
  obtain ⟨h1, h2⟩ := hc T P' _ rt ft fi hprob hit hres hr.pos.ne' hrt hft hfi
  exact ⟨E, ho.ok, ho.fac h, fun e => userPrimal (patOk hP) ho.ok ho.nx ho.nA ho.nG ho.sc hr.pos (h1 e),
    fun e => userDual (patOk hP) ho.ok ho.nx ho.nA ho.nG ho.sc hr.pos (h2 e)⟩

/-- with the certificate, and `z` in the dual cone, every feasible point of the caller's problem is larger than `reltol / tol` in the scaled
units -/
theorem C49_no_small_point (hP : PatGood T S) {P : Dat} {E : Fac} (hE : E.Ok S T) {y z : Nat → ℝ} {t rt tol : ℝ} (ht : 0 < t)
    (hc : UserPrimalCert T P E y z t rt tol) (hz : InKDual S z) {x' s' : Nat → ℝ} (hf : Feasible S T P x' s') :
    rt / tol < nrm T.n fun j => E.x j * x' j := by
  have hM : 0 < max (nrm T.p (fun i => E.A i * y i) + nrm T.m fun i => E.G i * z i) (1 / t) := lt_of_lt_of_le (one_div_pos.2 ht) (le_max_right _ _)
  have htol : 0 < tol := by
    have := (nrm_nonneg T.n _).trans_lt hc.small
    exact (pos_iff_pos_of_mul_pos this).2 hM
  have h1 := dual_bound hP (y := y) hz hf
  have e3 : ip T.n (fun j => ∑ i ∈ range T.p, P.A T i j * y i + ∑ i ∈ range T.m, P.G T i j * z i + P.c j) x' =
      ip T.n (fun j => ∑ i ∈ range T.p, P.A T i j * y i + ∑ i ∈ range T.m, P.G T i j * z i) x' + ip T.n P.c x' := by
    unfold ip
    rw [← sum_add_distrib]
    exact sum_congr rfl fun j _ => by ring
  have h2 := ip_scale_ge (f := fun j => ∑ i ∈ range T.p, P.A T i j * y i + ∑ i ∈ range T.m, P.G T i j * z i) (g := x') hE.x
  have h3 := mul_le_mul_of_nonneg_right hc.small.le (nrm_nonneg T.n fun j => E.x j * x' j)
  have h4 := hc.neg
  rw [div_lt_iff₀ htol]
  refine lt_of_mul_lt_mul_right (a := max (nrm T.p (fun i => E.A i * y i) + nrm T.m fun i => E.G i * z i) (1 / t)) ?_ hM.le
  nlinarith

/-! ### The cones -/

theorem intSoc_smul {p : Nat} {t : ℝ} (ht : 0 < t) {u : Nat → ℝ} (h : IntSoc p u) : IntSoc p fun j => t * u j := by
  unfold IntSoc at *
  rw [Equil.tailSq_smul, Real.sqrt_mul (sq_nonneg t), Real.sqrt_sq ht.le]
  exact mul_lt_mul_of_pos_left h ht

/-- multiplying by factors that are positive, and equal on each cone, stays inside -/
theorem intSym_mul {f v : Nat → ℝ} (hq : ∀ k, k < S.ns → 0 < S.q k) (h0 : ∀ i, i < S.fexv → 0 < f i)
    (hf : ∀ k, k < S.ns → ∀ j, j < S.q k → f (S.start k + j) = f (S.start k)) (h : IntSym S v) : IntSym S fun i => f i * v i := by
  constructor
  · intro i hi
    exact mul_pos (h0 i (lt_of_lt_of_le hi (S.l_le _))) (h.lp i hi)
  · intro k hk
    have hs : S.start k < S.fexv := by
      have h1 := S.start_le hk
      have := hq k hk
      omega
    have := intSoc_smul (h0 _ hs) (h.soc k hk)
    refine Dir.intSoc_congr (hq k hk) (fun j hj => ?_) this
    show f (S.start k) * v (S.start k + j) = f (S.start k + j) * v (S.start k + j)
    rw [hf k hk j hj]

section cones
variable [HasInf ℝ]

/-- in exact arithmetic the equilibration factors of every workspace are positive, and equal on each cone -/
theorem Reach.fac (hamd : ∀ N jc ir P, amd N jc ir = some P → ∃ pf, Holds P N pf ∧ IsPerm N pf) (hP : PatGood T S) {w : Work ℝ}
    (hw : Reach amd T S w) : ∃ E : Fac, E.Ok S T ∧ Holds w.xequil T.n E.x ∧ Holds w.Aequil T.p E.A ∧ Holds w.Gequil T.m E.G := by
  induction hw with
  | setup hin h =>
    obtain ⟨a, g, x, y, z, hx, hy, hz, hu, -, -, hr⟩ := (ecosSetup_ok hamd hP hin eqReal).elim h
    exact ⟨⟨x, y, z⟩, ⟨hx, hy, hz, hu.soc, hu.exp⟩, hr.2.1.xe, hr.2.1.ye, hr.2.1.ze⟩
  | update hw ht hd hr ih =>
    obtain ⟨a, g, c, b, h, x, y, z, π, ai, q, ax, sg, hl⟩ := hw.live hamd hP
    obtain ⟨a2, g2, x2, y2, z2, ax2, hl2, -, hx, hy, hz, hu, -⟩ := (updateData_ok hP hl ht hd.G hd.A hd.c hd.h hd.b eqReal).elim hr
    exact ⟨⟨x2, y2, z2⟩, ⟨hx, hy, hz, hu.soc, hu.exp⟩, hl2.data.xe, hl2.data.ye, hl2.data.ze⟩
  | entryH hw hi h ih =>
    unfold ecosUpdateDataEntryH at h
    simp only [bind_ok, pure_ok] at h
    obtain ⟨e, -, b, -, rfl⟩ := h
    exact ih
  | entryC hw hi h ih =>
    unfold ecosUpdateDataEntryC at h
    simp only [bind_ok, pure_ok] at h
    obtain ⟨e, -, rfl⟩ := h
    exact ih
  | kkt hw hC hW h ih => exact ih
  | kkt0 hw h ih => exact ih
  | settings stgs hw ih => exact ih
  | @solve w arrives sig r hw h ih =>
    obtain ⟨c, -, h⟩ := Equil.C13_solve_data (w' := r.1) (sig' := r.2.1) (code := r.2.2) h
    split at h
    · rw [h.xequil, h.Aequil, h.Gequil]
      exact ih
    · obtain ⟨c', -, h⟩ := h
      rw [h.xequil, h.Aequil, h.Gequil]
      exact ih

/-- **C49, cones** In exact arithmetic and without exponential cones, the `s` and `z` handed back lie strictly inside the cone and `tau` and
`kappa` are positive, unless the iterates came below the floors of the scaling or the shortest step was taken. -/
theorem C49_cones (hamd : ∀ N jc ir P, amd N jc ir = some P → ∃ pf, Holds P N pf ∧ IsPerm N pf) (hP : PatGood T S) (hne : S.ne = 0)
    {w w' : Work ℝ} (hw : Reach amd T S w) {arrives : Nat → Bool} {sig sig' : Sig} {code : Int}
    (h : ecosSolve arrives w sig = .ok (w', sig', code)) (h1 : code ≠ OUTCONE) (h2 : code ≠ FATAL)
    (h3 : 0 < w'.info.iter ∨ code = 0 ∨ code = 1 ∨ code = 2) (hs : Dir.StepRange w.stgs) (hga : w.stgs.gamma = GAMMA)
    (hf : ∀ w1, Started w w1 → Dir.FloorsBefore T S arrives w1 (initCtrlc sig) w'.info.iter)
    (hshort : ∀ w1 k L, Started w w1 → AtHead arrives w1 (initCtrlc sig) k L → 0 < k → k ≤ w'.info.iter → L.w.info.step ≠ some (STEPMIN * GAMMA)) :
    ∃ (s z : Nat → ℝ) (t κ : ℝ), Holds w'.s T.m s ∧ Holds w'.z T.m z ∧ w'.tau = some t ∧ w'.kap = some κ ∧ IntSym S s ∧ IntSym S z ∧ 0 < t ∧ 0 < κ := by
  obtain ⟨w1, wm, k, hst, hk, ⟨L, hL, hkm, hpass⟩, hback⟩ := C26_returned_partial h h1 h2 h3
  have hstg : w1.stgs = w.stgs := by
    obtain ⟨c1, -, hd⟩ := Equil.started_data hst
    exact hd.stgs
  obtain ⟨v, hv, hi⟩ := Dir.C48_symmetric hamd hP hne hw hst rfl (by rw [hstg]; exact hs) (by rw [hstg]; exact hga) hL
    fun j L v hj => hf w1 hst j L v (by omega)
  rcases hi with hi | ⟨hk0, hsh, -⟩
  · obtain ⟨E, hE, -, -, hEG⟩ := hw.fac hamd hP
    have hl := hw.live hamd hP
    obtain ⟨hG, -⟩ := Dir.atHead_go hP hl hst rfl hL
    obtain ⟨c1, -, hd1⟩ := Equil.started_data hst
    obtain ⟨f1, f2, f3, -⟩ := passHead_fr hpass
    have dm := (hd1.trans (atHead_inv hL).data).trans f1
    have hz := hG.sz
    have em : wm.m = T.m := by rw [f1.m]; exact hz.m
    have hGm : Holds wm.Gequil T.m E.G := by rw [dm.Gequil]; exact hEG
    obtain ⟨κ, eκ, rfl⟩ := hv.kap
    obtain ⟨t, et, rfl⟩ := hv.tau
    have htau : wm.tau = some v.tau := by rw [f3.tau]; exact et
    have hkap : wm.kap = some v.kap := by rw [f3.kap]; exact eκ
    have hmf : S.fexv ≤ T.m := by
      have : S.m = S.fexv + 3 * S.ne := rfl
      rw [← hP.m]
      omega
    have hsz : w'.s.size = T.m ∧ w'.z.size = T.m := by
      obtain ⟨_, _, _, _, _, _, _, _, _, _, _, _, _, hl'⟩ := (Reach.solve hw h).live hamd hP
      exact ⟨hl'.sz.s, hl'.sz.z⟩
    have cell : ∀ {b b' : Buf ℝ} {f : Nat → ℝ} {i : Nat} {u : ℝ}, HoldsD (fun x a : ℝ => x = a) b T.m f → i < T.m → b'[i]? = b[i]? →
        b'[i]? = some (some u) → u = f i := by
      intro b b' f i u h1 hi e hu
      obtain ⟨u', e1, e2⟩ := h1.2 i hi
      rw [e, e1] at hu
      cases hu
      exact e2
    have hs' : Holds w'.s T.m fun i => E.G i / v.tau * v.s i := by
      refine ⟨hsz.1, fun i hi => ?_⟩
      obtain ⟨u, e, t', a1, a2, a3, a4⟩ := hback.s i (by rw [em]; exact hi)
      rw [htau] at a3
      cases a3
      rw [hGm.2 i hi] at a2
      cases a2
      rw [a4, cell hv.s hi (f3.s i (by rw [em]; exact hi)) a1, mul_comm]
    have hz' : Holds w'.z T.m fun i => 1 / (E.G i * v.tau) * v.z i := by
      refine ⟨hsz.2, fun i hi => ?_⟩
      obtain ⟨u, e, t', a1, a2, a3, a4⟩ := hback.z i (by rw [em]; exact hi)
      rw [htau] at a3
      cases a3
      rw [hGm.2 i hi] at a2
      cases a2
      rw [a4, cell hv.z hi (f3.z i (by rw [em]; exact hi)) a1]
      exact congrArg (fun u => some (some u)) (one_div_mul_eq_div _ _).symm
    refine ⟨_, _, v.tau, v.kap, hs', hz', hback.tau.trans htau, hback.kap.trans hkap,
      intSym_mul hP.pos (fun i hi' => div_pos (hE.G i (by omega)) hi.tau) (fun k hk j hj => by rw [hE.soc k hk j hj]) hi.s,
      intSym_mul hP.pos (fun i hi' => one_div_pos.2 (mul_pos (hE.G i (by omega)) hi.tau)) (fun k hk j hj => by rw [hE.soc k hk j hj]) hi.z, hi.tau, hi.kap⟩
  · exact absurd hsh (hshort w1 k L hst hL hk0 hk)

end cones

/-! ### A problem to which these apply -/

/-- `min x` subject to `x ≥ 3` -/
def exDat : Dat := ⟨fun _ => 0, fun _ => -1, fun _ => 1, fun _ => 0, fun _ => -3⟩

theorem exGivenX : Given Dir.exT Dir.exS ⟨some #[some (fin (-1))], some #[some 0, some 1], some #[some 0]⟩ ⟨none, none, none⟩ #[] #[some (fin 1)]
    #[some (fin (-3))] #[] (fun k => fin (exDat.a k)) (fun k => fin (exDat.g k)) (fun k => fin (exDat.c k)) (fun k => fin (exDat.h k))
    fun k => fin (exDat.b k) where
  q := ⟨rfl, fun i hi => absurd hi (Nat.not_lt_zero _)⟩
  A := by rw [if_neg (by decide)]; exact .inl rfl
  G := ⟨_, _, _, rfl, ⟨rfl, fun i hi => by
    have : i < 2 := hi
    interval_cases i <;> rfl⟩, ⟨rfl, fun i hi => by
    have : i < 1 := hi
    interval_cases i; rfl⟩, ⟨rfl, fun i hi => by
    have : i < 1 := hi
    interval_cases i; rfl⟩⟩
  c := ⟨rfl, fun i hi => by
    have : i < 1 := hi
    interval_cases i; rfl⟩
  h := ⟨rfl, fun i hi => by
    have : i < 1 := hi
    interval_cases i; rfl⟩
  b := ⟨rfl, fun i hi => absurd hi (Nat.not_lt_zero _)⟩

/-- there is a workspace holding it; the cost changed to `2 x` by an entry update, and the settings replaced -/
example : ∃ w w' w'' : Work XR, Session exRev Dir.exT Dir.exS w exDat ∧ ecosUpdateDataEntryC w 0 (fin 2) = .ok w' ∧
    w'' = { w' with stgs := { w'.stgs with feastol := fin 1 } } ∧ Session exRev Dir.exT Dir.exS w'' { exDat with c := upd exDat.c 0 2 } ∧
    ∃ E P', Owns w'' Dir.exT Dir.exS { exDat with c := upd exDat.c 0 2 } E P' := by
  obtain ⟨w, hw, -⟩ := C46_setup_succeeds exRev_perm Dir.exGoodL (fun _ _ _ => ⟨_, rfl⟩) exGivenX
  have h1 : Session exRev Dir.exT Dir.exS w exDat := .setup exGivenX hw
  obtain ⟨a, g, c, b, hf, xe, ye, ze, π, ai, q, ax, sg, hl⟩ := h1.reach.live exRev_perm Dir.exGoodL
  have : ∃ w', ecosUpdateDataEntryC w 0 (fin 2) = .ok w' := by
    obtain ⟨c', hc, -⟩ := (Ok.def _ _).1 (hl.data.c.wr (i := 0) Nat.zero_lt_one (fin 2))
    refine ⟨{ w with c := c' }, ?_⟩
    unfold ecosUpdateDataEntryC
    rw [hc]
    rfl
  obtain ⟨w', h2⟩ := this
  have h3 := Session.settings { w'.stgs with feastol := fin 1 } (Session.entryC h1 (i := 0) (v := 2) Nat.zero_lt_one h2)
  exact ⟨w, w', _, h1, h2, rfl, h3, h3.owns exRev_perm Dir.exGoodL⟩

theorem exG : exDat.G Dir.exT 0 0 = -1 := by
  simp [Dir.exT, exDat, Dat.G, dense]

/-- `x = 3`, `z = 1`, `s = 0` is accurate for the first problem -/
example : Accurate Dir.exT exDat ⟨fun _ => 1, fun _ => 1, fun _ => 1⟩ (fun _ => 3) (fun _ => 0) (fun _ => 1) (fun _ => 0) 1 1 1 1 := by
  have e1 : Dir.exT.n = 1 := rfl
  have e2 : Dir.exT.m = 1 := rfl
  have e3 : Dir.exT.p = 0 := rfl
  have r9 : Real.sqrt (3 ^ 2) = 3 := Real.sqrt_sq (by norm_num)
  constructor
  · simp [nrm, e1, e3]
    linarith [Real.sqrt_nonneg ((3 : ℝ) ^ 2)]
  · simp [nrm, e1, e2, exG]
    simp [exDat, r9]
  · simp [nrm, e1, e2, e3, exG]
    simp [exDat]
  · left
    simp [ip]

/-- and `x = 5`, `s = 2` is not, when the tolerances are 1/100 -/
example : ¬ Accurate Dir.exT exDat ⟨fun _ => 1, fun _ => 1, fun _ => 1⟩ (fun _ => 5) (fun _ => 0) (fun _ => 1) (fun _ => 2) 1 (1 / 100) (1 / 100) (1 / 100) := by
  intro h
  have e1 : Dir.exT.n = 1 := rfl
  have e2 : Dir.exT.m = 1 := rfl
  have e3 : Dir.exT.p = 0 := rfl
  rcases h.gap with h | ⟨h, -⟩ | ⟨-, h⟩ <;> simp [ip, e1, e2, e3, exDat] at h <;> norm_num at h

end Ecos.Asm
