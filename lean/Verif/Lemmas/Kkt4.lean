import Verif.Lemmas.Kkt3

/-!
# `kkt_solve`: iterative refinement
-/
namespace Ecos.Fact

open Ecos Finset

set_option linter.unusedSectionVars false

/-- a vector made of three parts -/
def three {α : Type} (n p : Nat) (x y z : Nat → α) : Nat → α := fun i =>
  if i < n then x i else if i < n + p then y (i - n) else z (i - n - p)

theorem three_holds {α : Type} {n p k : Nat} {x y z : Nat → α} {bx b_y bz : Buf α} (hx : Holds bx n x) (hy : Holds b_y p y)
    (hz : Holds bz k z) : Holds (bx ++ b_y ++ bz) (n + p + k) (three n p x y z) := by
  refine ⟨by rw [Array.size_append, Array.size_append, hx.1, hy.1, hz.1], fun i hi => ?_⟩
  unfold three
  by_cases h1 : i < n
  · rw [if_pos h1, Array.append_assoc, Array.getElem?_append_left (by rw [hx.1]; exact h1), hx.2 i h1]
  · rw [if_neg h1]
    by_cases h2 : i < n + p
    · rw [if_pos h2, Array.append_assoc, Array.getElem?_append_right (by rw [hx.1]; omega),
        Array.getElem?_append_left (by rw [hx.1, hy.1]; omega), hx.1, hy.2 _ (by omega)]
    · rw [if_neg h2, Array.getElem?_append_right (by rw [Array.size_append, hx.1, hy.1]; omega), Array.size_append, hx.1,
        hy.1, hz.2 _ (by omega), Nat.sub_sub]

section generic
variable {F : Type} [Zero F] [One F] [Add F] [Sub F] [Mul F] [Div F] [Neg F] [OfScientific F]
  [IntCast F] [PFloat F]

variable {D : F → ℝ → Prop} {a : SolveArgs F} {S : Shape} {T : Pat} {P : Dat} {N : Nat} {π : Nat → Nat}
  {b : Nat → F} {V : ConeV F}

/-- `resZ` -/
theorem resZ_ok (hD : Den D) (h : SysIs D a S T P N π b V) {Px dx dz : Buf F} {xr : Nat → ℝ} {x : Nat → F}
    (hPx : Holds Px N x) (hx : HoldsD D dx T.n xr) (hz : Holds dz S.m (shrink S fun i => x (π (T.n + T.p + i)))) :
    Ok (resZ a Px dx dz) fun e => ∃ g : Nat → F, (∀ i, i < T.m → D (g i) (∑ j ∈ range T.n, P.G T i j * xr j)) ∧
      Holds e S.x.m (ezF a.isinit S V (fun i => b (π (T.n + T.p + i))) (fun i => x (π (T.n + T.p + i))) g) := by
  have hdim := h.dim
  have hmt : a.mt = S.x.m := by
    unfold SolveArgs.mt
    rw [h.m, h.cone.nsoc, h.mS, Shape.x_m]
  unfold resZ
  refine Ok.bind (resZlin_ok hD h hx hz) ?_
  rintro e ⟨g, hg, he⟩
  rw [h.n, h.p, hmt]
  refine Ok.bind (gather_ok h.pinv h.perm hPx (by omega) (by simp [h.kn]; omega)) fun tz htz => ?_
  unfold ezF
  split
  · rename_i hi
    refine (scale2add_ok h.cone (h.scal hi) htz.inside he.has0 (by rw [he.1])).mono ?_
    rintro r ⟨r1, -, r2, r3, r4⟩
    exact ⟨g, hg, (glue_hasE (S := S.x) r2 r3 r4).holds (by rw [r1, he.1])⟩
  · refine Ok.mono (P := fun r => Holds r S.x.m fun i => ezlinF S (fun i => b (π (T.n + T.p + i))) (fun i => x (π (T.n + T.p + i))) g i +
      x (π (T.n + T.p + i))) ?_ fun r hr => ⟨g, hg, hr⟩
    unfold vadd
    refine loop_ok (fun t y' => Holds y' S.x.m (fun i => if i < t then ezlinF S (fun i => b (π (T.n + T.p + i))) (fun i => x (π (T.n + T.p + i))) g i +
      x (π (T.n + T.p + i)) else ezlinF S (fun i => b (π (T.n + T.p + i))) (fun i => x (π (T.n + T.p + i))) g i))
      (Nat.zero_le _) (by simpa using he) ?_ (fun s hs => hs.congr fun i hi => by rw [if_pos hi])
    intro i s _ hi hs
    have e2 := htz.inside.rd hi
    rw [Nat.zero_add] at e2
    rw [hs.rd hi, ok_bind_eq, e2, ok_bind_eq, if_neg (lt_irrefl _)]
    refine (hs.wr hi _).mono fun y' hy' => hy'.congr fun j _ => ?_
    unfold upd
    by_cases h : j = i
    · subst h; rw [if_pos rfl, if_pos (by omega)]
    · rw [if_neg h]
      beta_reduce
      by_cases h' : j < i
      · rw [if_pos h', if_pos (by omega)]
      · rw [if_neg h', if_neg (by omega)]

/-- value of the norm in `residual` -/
def nerrF (n p k : Nat) (x y z : Nat → F) : F :=
  if p > 0 then fmax (fmax (normF n x) (normF k z)) (normF p y) else fmax (normF n x) (normF k z)

theorem _root_.Ecos.HoldsD.holdsF {b : Buf F} {n : Nat} {f : Nat → ℝ} (h : HoldsD D b n f) :
    ∃ g, Holds b n g ∧ ∀ i, i < n → D (g i) (f i) := h.holds

/-- `residual` -/
theorem residual_ok (hD : Den D) (hδ : D DELTASTAT DELTASTAT) (h : SysIs D a S T P N π b V) {Px dx dy dz : Buf F}
    {br xr : Nat → ℝ} {x : Nat → F} (hb : ∀ i, i < N → D (b i) (br i)) (hx : ∀ i, i < N → D (x i) (xr i))
    (hPx : Holds Px N x) (hdx : Holds dx T.n (fun i => x (π i))) (hdy : Holds dy T.p (fun i => x (π (T.n + i))))
    (hdz : Holds dz S.m (shrink S fun i => x (π (T.n + T.p + i)))) :
    Ok (residual a Px dx dy dz) fun r => ∃ ex ey g : Nat → F,
      (∀ i, i < T.n → D (ex i) (br (π i) - DELTASTAT * xr (π i) - (∑ k ∈ range T.p, P.A T k i * xr (π (T.n + k))) -
        ∑ k ∈ range T.m, P.G T k i * shrink S (fun i => xr (π (T.n + T.p + i))) k)) ∧
      (∀ i, i < T.p → D (ey i) (br (π (T.n + i)) + DELTASTAT * xr (π (T.n + i)) - ∑ j ∈ range T.n, P.A T i j * xr (π j))) ∧
      (∀ i, i < T.m → D (g i) (∑ j ∈ range T.n, P.G T i j * xr (π j))) ∧
      Holds r.1 N (three T.n T.p ex ey
        (ezF a.isinit S V (fun i => b (π (T.n + T.p + i))) (fun i => x (π (T.n + T.p + i))) g)) ∧
      r.2 = nerrF T.n T.p S.x.m ex ey
        (ezF a.isinit S V (fun i => b (π (T.n + T.p + i))) (fun i => x (π (T.n + T.p + i))) g) := by
  have hdim := h.dim
  have hmt : a.mt = S.x.m := by
    unfold SolveArgs.mt
    rw [h.m, h.cone.nsoc, h.mS, Shape.x_m]
  have hdxD : HoldsD D dx T.n (fun i => xr (π i)) := hdx.den fun i hi => hx _ (h.perm.lt _ (by omega))
  have hdyD : HoldsD D dy T.p (fun i => xr (π (T.n + i))) := hdy.den fun i hi => hx _ (h.perm.lt _ (by omega))
  have hsh : ∀ i, i < S.m → D (shrink S (fun i => x (π (T.n + T.p + i))) i) (shrink S (fun i => xr (π (T.n + T.p + i))) i) := by
    intro i hi
    have hxm := Shape.x_m S
    have hm : S.m = S.fexv + 3 * S.ne := rfl
    have hl : S.l ≤ S.fexv := S.l_le _
    rcases S.m_cases hi with h1 | ⟨k, j, hk, hj, rfl⟩ | ⟨l, j, hl, hj, rfl⟩
    · rw [shrink_lp S _ h1, shrink_lp S _ h1]
      exact hx _ (h.perm.lt _ (by omega))
    · rw [shrink_block S _ hk hj, shrink_block S _ hk hj]
      have h1 := S.x.start_le (k := k) hk
      have h2 : S.x.q k = S.q k + 2 := rfl
      have h3 : S.x.m = S.x.fexv + 3 * S.ne := rfl
      exact hx _ (h.perm.lt _ (by omega))
    · rw [Nat.add_assoc, shrink_exp, shrink_exp]
      have h3 : S.x.m = S.x.fexv + 3 * S.ne := rfl
      exact hx _ (h.perm.lt _ (by omega))
  have hdzD : HoldsD D dz T.m (shrink S (fun i => xr (π (T.n + T.p + i)))) := by
    rw [h.mS]
    exact hdz.den hsh
  unfold residual
  refine Ok.bind (resX_D hD hδ h hb hdxD hdyD hdzD) fun bx hbx => ?_
  obtain ⟨ex, hex, hexD⟩ := hbx.holds
  rw [h.n, norminf_eq hex.has', ok_bind_eq, h.p]
  refine Ok.bind (P := fun b_y => ∃ ey : Nat → F, Holds b_y T.p ey ∧ ∀ i, i < T.p → D (ey i) (br (π (T.n + i)) + DELTASTAT * xr (π (T.n + i)) -
    ∑ j ∈ range T.n, P.A T i j * xr (π j))) ?_ ?_
  · by_cases hp : T.p > 0
    · rw [if_pos hp]
      exact (resY_D hD hδ h hb hdxD hdyD hp).mono fun r hr => hr.holds
    · rw [if_neg hp, Ok_pure]
      exact ⟨fun _ => 0, ⟨by simp; omega, fun i hi => by omega⟩, fun i hi => by omega⟩
  rintro b_y ⟨ey, hey, heyD⟩
  rw [norminf_eq hey.has', ok_bind_eq]
  refine Ok.bind (resZ_ok hD h hPx hdxD hdz) ?_
  rintro bz ⟨g, hg, hez⟩
  rw [hmt, norminf_eq hez.has', ok_bind_eq, Ok_pure]
  refine ⟨ex, ey, g, hexD, heyD, hg, ?_, rfl⟩
  rw [hdim]
  exact three_holds hex hey hez

/-! ### The refinement loop -/

/-- For every system there is a function `ρ` (the norm of the residual) of the expanded solution that the
refinement computes, whatever the arrays held before. -/
theorem residual_fun (h : SysIs (fun _ _ => True) a S T P N π b V) :
    ∃ (ρ : (Nat → F) → F) (res : (Nat → F) → Nat → F), ∀ (x : Nat → F) (Px dx dy dz : Buf F), Holds Px N x →
      dx.size = T.n → dy.size = T.p → dz.size = S.m →
      ∃ ux uy uz e, unstretch a.n a.p a.C a.K.Pinv Px dx dy dz = .ok (ux, uy, uz) ∧
        Holds ux T.n (fun i => x (π i)) ∧ Holds uy T.p (fun i => x (π (T.n + i))) ∧
        Holds uz S.m (shrink S fun i => x (π (T.n + T.p + i))) ∧
        residual a Px ux uy uz = .ok (e, ρ x) ∧ Holds e N (res x) := by
  have key : ∀ x : Nat → F, ∃ (r : F) (f : Nat → F), ∀ (Px dx dy dz : Buf F), Holds Px N x →
      dx.size = T.n → dy.size = T.p → dz.size = S.m →
      ∃ ux uy uz e, unstretch a.n a.p a.C a.K.Pinv Px dx dy dz = .ok (ux, uy, uz) ∧
        Holds ux T.n (fun i => x (π i)) ∧ Holds uy T.p (fun i => x (π (T.n + i))) ∧
        Holds uz S.m (shrink S fun i => x (π (T.n + T.p + i))) ∧
        residual a Px ux uy uz = .ok (e, r) ∧ Holds e N f := by
    intro x
    have hmk : ∀ (n : Nat) (f : Nat → F), ∃ B : Buf F, Holds B n f := fun n f =>
      ⟨Array.ofFn fun i : Fin n => some (f i), by simp, fun i hi => by simp [hi]⟩
    obtain ⟨P0, hP0⟩ := hmk N x
    obtain ⟨X0, hX0⟩ := hmk T.n fun i => x (π i)
    obtain ⟨Y0, hY0⟩ := hmk T.p fun i => x (π (T.n + i))
    obtain ⟨Z0, hZ0⟩ := hmk S.m (shrink S fun i => x (π (T.n + T.p + i)))
    obtain ⟨⟨e, r⟩, h1, ex, ey, g, -, -, -, h2, -⟩ := (Ok.def _ _).1 (residual_ok denTrue trivial h (br := fun _ => 0) (xr := fun _ => 0)
      (fun _ _ => trivial) (fun _ _ => trivial) hP0 hX0 hY0 hZ0)
    generalize three T.n T.p ex ey _ = f at h2
    refine ⟨r, f, fun Px dx dy dz hPx s1 s2 s3 => ?_⟩
    obtain ⟨⟨ux, uy, uz⟩, u1, u2, u3, u4⟩ := (Ok.def _ _).1 (unstretch_ok h.cone h.dim h.pinv h.perm hPx s1 s2 s3)
    simp only at u2 u3 u4
    refine ⟨ux, uy, uz, e, by rw [h.n, h.p]; exact u1, u2, u3, u4, ?_, h2⟩
    rw [hPx.eq hP0, u2.eq hX0, u3.eq hY0, u4.eq hZ0]
    exact h1
  choose ρ res hkey using key
  exact ⟨ρ, res, fun x => hkey x⟩

/-- what the refinement loop returns; `Q` is any property that holds for the unrefined solution and is kept
when the norm of the residual does not grow -/
theorem refine_ok [HasInf F] (h : SysIs (fun _ _ => True) a S T P N π b V) {ap ai q : Nat → Nat} {ax : Nat → F} {sg : Nat → Int}
    {eps delta : F} {lf : Nat → Nat → F} {df : Nat → F} (hK : KktOk a.K N ap ai ax q sg)
    (hF : Factored a.K N ap ai ax q sg eps delta lf df) {dx dy dz : Buf F} (h1 : dx.size = T.n) (h2 : dy.size = T.p)
    (h3 : dz.size = S.m) (nitref : Int) {ρ : (Nat → F) → F} {res : (Nat → F) → Nat → F}
    (hρ : ∀ (x : Nat → F) (Px dx dy dz : Buf F), Holds Px N x →
      dx.size = T.n → dy.size = T.p → dz.size = S.m →
      ∃ ux uy uz e, unstretch a.n a.p a.C a.K.Pinv Px dx dy dz = .ok (ux, uy, uz) ∧
        Holds ux T.n (fun i => x (π i)) ∧ Holds uy T.p (fun i => x (π (T.n + i))) ∧
        Holds uz S.m (shrink S fun i => x (π (T.n + T.p + i))) ∧
        residual a Px ux uy uz = .ok (e, ρ x) ∧ Holds e N (res x))
    (Q : (Nat → F) → (Nat → F) → Prop)
    (hQ : ∀ x0 x x', Q x0 x → lt (ρ x) (ρ x') = false → Q x0 x') (hQ0 : ∀ x, Q x x) :
    ∃ (Px0 : Buf F) (x0 : Nat → F), triSolve a.K a.Pb = .ok Px0 ∧ Holds Px0 N x0 ∧
    Ok (kktSolve a dx dy dz nitref) fun r => r.2.2.2 ≤ nitref.toNat ∧ ∃ x : Nat → F,
      Holds r.1 T.n (fun i => x (π i)) ∧ Holds r.2.1 T.p (fun i => x (π (T.n + i))) ∧
      Holds r.2.2.1 S.m (shrink S fun i => x (π (T.n + T.p + i))) ∧
      (Q x0 x ∨ ∃ x' d : Nat → F, Q x0 x' ∧ x = fun i => x' i + d i - d i) := by
  obtain ⟨Px0, hP0, lir, lxv, -, -, -, hP1⟩ := (Ok.def _ _).1 (triSolve_ok hK hF h.Pb)
  generalize itr N (fun i => itr N b (lsCol (lpOf (Row ap ai q) N) lir lxv) i / df i)
        (fun t x => ltCol (lpOf (Row ap ai q) N) lir lxv (N - 1 - t) x) = x0 at hP1
  have hmt : a.n + a.p + a.mt = N := by
    unfold SolveArgs.mt
    rw [h.m, h.cone.nsoc, h.mS, h.dim, Shape.x_m, h.n, h.p]
  refine ⟨Px0, x0, hP0, hP1, ?_⟩
  unfold kktSolve
  rw [hmt, norminf_eq h.Pb.has', ok_bind_eq, hP0, ok_bind_eq]
  let E : RefS F × Nat → Prop := fun t => t.1.dx.size = T.n ∧ t.1.dy.size = T.p ∧ t.1.dz.size = S.m ∧ t.2 ≤ nitref.toNat ∧
    ∃ x : Nat → F, Holds t.1.Px N x ∧ (Q x0 x ∨ ∃ x' d : Nat → F, Q x0 x' ∧ x = fun i => x' i + d i - d i)
  refine Ok.bind (P := fun r => E (match r with | .inl t => t | .inr s => (s, (nitref + 1).toNat))) ?_ ?_
  · refine loopE_ok (I := fun k s => s.dx.size = T.n ∧ s.dy.size = T.p ∧ s.dz.size = S.m ∧ (k : Int) ≤ max 0 nitref ∧ ∃ x : Nat → F, Holds s.Px N x ∧
      ((k = 0 ∧ x = x0) ∨ ∃ x' d : Nat → F, 0 < k ∧ Holds s.dPx N d ∧ (x = fun i => x' i + d i) ∧ s.prev = ρ x' ∧ Q x0 x')) E (Nat.zero_le _)
      ⟨h1, h2, h3, by omega, x0, hP1, Or.inl ⟨rfl, rfl⟩⟩ ?_ (fun e he => he) ?_
    · rintro k s _ hk ⟨s1, s2, s3, s4, x, hx, hcase⟩
      obtain ⟨ux, uy, uz, e, u1, u2, u3, u4, u5, u6⟩ := hρ x s.Px s.dx s.dy s.dz hx s1 s2 s3
      unfold refineStep
      rw [u1, ok_bind_eq, u5, ok_bind_eq]
      simp only
      by_cases c1 : (decide (k > 0) && lt s.prev (ρ x)) = true
      · rw [if_pos c1]
        rw [Bool.and_eq_true, decide_eq_true_eq] at c1
        rcases hcase with ⟨h0, -⟩ | ⟨x', d, -, hd, rfl, -, hq⟩
        · omega
        rw [h.kn]
        refine Ok.bind (modify_ok (g := fun i => x' i + d i - d i) hx.has0 (by rw [hx.1]; omega) fun i hi => ?_) fun Px' hP' => ?_
        · rw [hd.rd hi]; rfl
        · rw [Ok_pure]
          exact Or.inl ⟨_, rfl, u2.1, u3.1, u4.1, by simp only; omega, _, hP'.holds hx.1, Or.inr ⟨x', d, hq, rfl⟩⟩
      · rw [if_neg c1]
        have hqx : Q x0 x := by
          rcases hcase with ⟨-, rfl⟩ | ⟨x', d, hk0, hd, hxe, hprev, hq⟩
          · exact hQ0 _
          · refine hQ x0 x' x hq ?_
            rw [← hprev]
            simpa [hk0] using c1
        by_cases c2 : (decide ((k : Int) = nitref) || lt (ρ x) ((1.0 + normF N b) * LINSYSACC) || (decide (k > 0) && lt s.prev (IRERRFACT * ρ x))) = true
        · rw [if_pos c2, Ok_pure]
          exact Or.inl ⟨_, rfl, u2.1, u3.1, u4.1, by simp only; omega, x, hx, Or.inl hqx⟩
        · rw [if_neg c2, h.kn]
          have hkn : (k : Int) ≠ nitref := by
            intro e
            apply c2
            simp [e]
          refine Ok.bind (scatter_ok (g := res x) (by simp) h.pinv h.perm fun i hi => u6.rd hi) ?_
          rintro Pe ⟨pf, hpe, -⟩
          refine Ok.bind (triSolve_ok hK hF hpe) ?_
          rintro dPx ⟨lir', lxv', -, -, -, hdP⟩
          generalize itr N _ _ = dv at hdP
          refine Ok.bind (modify_ok (g := fun i => x i + dv i) hx.has0 (by rw [hx.1]; omega) fun i hi => by
            rw [hdP.rd hi]; rfl) fun Px' hP' => ?_
          rw [Ok_pure]
          exact Or.inr ⟨_, rfl, u2.1, u3.1, u4.1, by omega, _, hP'.holds hx.1, Or.inr ⟨x, dv, by omega, hdP, rfl, rfl, hqx⟩⟩
    · rintro s ⟨s1, s2, s3, s4, x, hx, hcase⟩
      refine ⟨s1, s2, s3, ?_, x, hx, Or.inl ?_⟩
      · simp only; omega
      · rcases hcase with ⟨-, rfl⟩ | ⟨x', d, hk0, -⟩
        · exact hQ0 _
        · omega
  · have key : ∀ t : RefS F × Nat, E t → Ok (do
        let d ← unstretch a.n a.p a.C a.K.Pinv t.1.Px t.1.dx t.1.dy t.1.dz
        pure (d.1, d.2.1, d.2.2, t.2)) fun r => r.2.2.2 ≤ nitref.toNat ∧ ∃ x : Nat → F,
      Holds r.1 T.n (fun i => x (π i)) ∧ Holds r.2.1 T.p (fun i => x (π (T.n + i))) ∧
      Holds r.2.2.1 S.m (shrink S fun i => x (π (T.n + T.p + i))) ∧
      (Q x0 x ∨ ∃ x' d : Nat → F, Q x0 x' ∧ x = fun i => x' i + d i - d i) := by
      rintro t ⟨s1, s2, s3, s4, x, hx, hq⟩
      obtain ⟨⟨ux, uy, uz⟩, u1, u2, u3, u4⟩ := (Ok.def _ _).1 (unstretch_ok h.cone h.dim h.pinv h.perm hx s1 s2 s3)
      simp only at u2 u3 u4
      rw [h.n, h.p, u1, ok_bind_eq, Ok_pure]
      exact ⟨s4, x, u2, u3, u4, hq⟩
    exact fun r hr => key _ hr

end generic

end Ecos.Fact
