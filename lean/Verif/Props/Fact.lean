import Verif.Lemmas.Kkt2
import Verif.Props.Sparse
import Verif.Props.Cones

/-!
# Properties C07–C10: factorisation and triangular solves
-/
namespace Ecos.Fact

open Ecos Finset

set_option linter.unusedSectionVars false

/-! ## C07 -/

/-- C07: the forward solve returns the solution of `(I + L) x = b`, `L` strictly lower triangular. -/
theorem C07_lsolve {n : Nat} {jc ir : Nat → Nat} {lx bf : Nat → ℝ} {Lp Li : Buf Nat} {Lx b x : Buf ℝ}
    (hc : CscOk n n jc ir) (hl : Lower n jc ir) (hLp : Holds Lp (n + 1) jc) (hLi : Holds Li (jc n) ir)
    (hLx : Holds Lx (jc n) lx) (hb : Holds b n bf) (hx : x.size = n) :
    ∃ r xf, ldlLsolve2 n b Lp Li Lx x = .ok r ∧ Holds r n xf ∧
      ∀ i, i < n → xf i + ∑ j ∈ range n, dense jc ir lx i j * xf j = bf i := by
  obtain ⟨r, h1, h2⟩ := (Ok.def _ _).1 (ldlLsolve2_ok hc hLp hLi.has' hLx.has' hb hx)
  exact ⟨r, _, h1, h2, fun i hi => lsolve_eq hl hc bf hi⟩

/-- C07: the diagonal solve returns the solution of `D x = b`. -/
theorem C07_dsolve {n : Nat} {xf df : Nat → ℝ} {x d : Buf ℝ} (hx : Holds x n xf) (hd : Holds d n df)
    (h0 : ∀ i, i < n → df i ≠ 0) :
    ∃ r rf, ldlDsolve n x d = .ok r ∧ Holds r n rf ∧ ∀ i, i < n → df i * rf i = xf i := by
  obtain ⟨r, h1, h2⟩ := (Ok.def _ _).1 (ldlDsolve_ok hx hd)
  exact ⟨r, _, h1, h2, fun i hi => mul_div_cancel₀ _ (h0 i hi)⟩

/-- C07: the backward solve returns the solution of `(I + L') x = b`. -/
theorem C07_ltsolve {n : Nat} {jc ir : Nat → Nat} {lx bf : Nat → ℝ} {Lp Li : Buf Nat} {Lx x : Buf ℝ}
    (hc : CscOk n n jc ir) (hl : Lower n jc ir) (hLp : Holds Lp (n + 1) jc) (hLi : Holds Li (jc n) ir)
    (hLx : Holds Lx (jc n) lx) (hx : Holds x n bf) :
    ∃ r xf, ldlLtsolve n x Lp Li Lx = .ok r ∧ Holds r n xf ∧
      ∀ j, j < n → xf j + ∑ i ∈ range n, dense jc ir lx i j * xf i = bf j := by
  obtain ⟨r, h1, h2⟩ := (Ok.def _ _).1 (ldlLtsolve_ok hc hLp hLi.has' hLx.has' hx)
  exact ⟨r, _, h1, h2, fun j hj => ltsolve_eq hl hc bf hj⟩

/-- C07: the solves read and write only the arrays given, for any arithmetic. -/
theorem C07_safe {F : Type} [Zero F] [One F] [Add F] [Sub F] [Mul F] [Div F] [Neg F] [OfScientific F]
    [IntCast F] [PFloat F] {n : Nat} {jc ir : Nat → Nat} {lx bf df : Nat → F} {Lp Li : Buf Nat} {Lx b x d : Buf F}
    (hc : CscOk n n jc ir) (hLp : Holds Lp (n + 1) jc) (hLi : Holds Li (jc n) ir)
    (hLx : Holds Lx (jc n) lx) (hb : Holds b n bf) (hd : Holds d n df) (hx : x.size = n) :
    ∃ r1 r2 r3 xf, ldlLsolve2 n b Lp Li Lx x = .ok r1 ∧ ldlDsolve n r1 d = .ok r2 ∧
      ldlLtsolve n r2 Lp Li Lx = .ok r3 ∧ Holds r3 n xf := by
  obtain ⟨r1, h1, h2⟩ := (Ok.def _ _).1 (ldlLsolve2_ok hc hLp hLi.has' hLx.has' hb hx)
  obtain ⟨r2, h3, h4⟩ := (Ok.def _ _).1 (ldlDsolve_ok h2 hd)
  obtain ⟨r3, h5, h6⟩ := (Ok.def _ _).1 (ldlLtsolve_ok hc hLp hLi.has' hLx.has' h4)
  exact ⟨r1, r2, r3, _, h1, h3, h5, h6⟩

/-- `L = [[0,0],[3,0]]` -/
example : ∃ r xf, ldlLsolve2 2 (ofList [1, 5]) (ofList [0, 1, 1]) (ofList [1]) (ofList [3]) (malloc 2) = .ok r ∧
    Holds r 2 xf ∧ xf 0 = 1 ∧ xf 1 = (2 : ℝ) := by
  have hc : CscOk 2 2 (fun i => [0, 1, 1].getD i default) (fun i => [1].getD i default) := ⟨rfl, by decide, by decide⟩
  have hl : Lower 2 (fun i => [0, 1, 1].getD i default) (fun i => [1].getD i default) := by
    intro j hj p h1 h2
    exact (by decide : ∀ j, j < 2 → ∀ p, p < 1 → [0, 1, 1].getD j default ≤ p →
      p < [0, 1, 1].getD (j + 1) default → j < [1].getD p default) j hj p (lt_of_lt_of_le h2 (hc.le_top (by omega))) h1 h2
  obtain ⟨r, xf, h1, h2, h3⟩ := C07_lsolve hc hl (ofList_holds [0, 1, 1]) (ofList_holds [1]) (ofList_holds ([3] : List ℝ))
    (ofList_holds ([1, 5] : List ℝ)) (x := malloc 2) (by simp)
  have e0 := h3 0 (by omega)
  have e1 := h3 1 (by omega)
  simp [sum_range_succ, dense] at e0 e1
  exact ⟨r, xf, h1, h2, e0, by linarith⟩

/-! ## C08 -/

/-- the arrays given to the symbolic phase -/
def symInit (n : Nat) : Sym := { parent := malloc n, lnz := malloc n, flag := malloc n }

section generic
variable {F : Type} [Zero F] [One F] [Add F] [Sub F] [Mul F] [Div F] [Neg F] [OfScientific F]
  [IntCast F] [PFloat F]

/-- the arrays given to the numeric phase, with room for `lnz` entries of the factor -/
def numInit (n lnz : Nat) : Num F :=
  { lnz := malloc n, li := malloc lnz, lx := malloc lnz, d := malloc n, y := malloc n, pattern := malloc n,
    flag := malloc n }

/-- C08, C09: for every pattern, every matrix content and any arithmetic the factorisation runs to
its end: with the factor allocated to the size predicted by the symbolic phase no write leaves it,
and no failure is reported. -/
theorem C08_completes {n : Nat} {ap ai : Nat → Nat} {ax : Nat → F} {Ap Ai : Buf Nat} {Ax : Buf F}
    {sign : Buf Int} {sg : Nat → Int} (eps delta : F) (hU : UpperPat n ap ai) (hAp : Holds Ap (n + 1) ap)
    (hAi : Holds Ai (ap n) ai) (hAx : Holds Ax (ap n) ax) (hsg : Holds sign n sg) :
    ∃ Lp S lnz r, ldlSymbolic n Ap Ai (malloc (n + 1)) (symInit n) = .ok (Lp, S) ∧ rd Lp n = .ok lnz ∧
      ldlNumeric n Ap Ai Ax Lp S.parent sign eps delta (numInit n lnz) = .ok (r, n) := by
  obtain ⟨⟨Lp, S⟩, h1, q, hT, hLp, hpar, -⟩ := (Ok.def _ _).1 (ldlSymbolic_ok (S := symInit n) (Lp := malloc (n + 1)) hU hAp hAi.has'
    (by simp) (by simp [symInit]) (by simp [symInit]) (by simp [symInit]))
  simp only at hLp hpar
  obtain ⟨⟨r, c⟩, h2, h3, -⟩ := (Ok.def _ _).1 (ldlNumeric_ok (eps := eps) (delta := delta) (S := numInit n (lpOf (Row ap ai q) n n)) hU hT hAp hAi.has' hAx.has' hLp
    hpar hsg.has' (by simp [numInit]) (by simp [numInit]) (by simp [numInit]) (by simp [numInit]) (by simp [numInit])
    (by simp [numInit]) (by simp [numInit]))
  simp only at h3
  subst h3
  exact ⟨Lp, S, _, r, h1, hLp.rd (by omega), h2⟩

/-- C08: once the KKT struct is set up, `kkt_factor` succeeds whatever the values of the matrix. -/
theorem C08_factor {K : Kkt F} {N : Nat} {ap ai q : Nat → Nat} {ax ax' : Nat → F} {sg : Nat → Int}
    (hK : KktOk K N ap ai ax q sg) (pr : Buf F) (hpr : Holds pr (ap N) ax') (eps delta : F) :
    ∃ K', kktFactor { K with PKPt := { K.PKPt with pr := pr } } eps delta = .ok (K', KKT_OK) := by
  have hK' : KktOk { K with PKPt := { K.PKPt with pr := pr } } N ap ai ax' q sg :=
    ⟨hK.n, hK.pat, hK.tree, hK.jc, hK.ir, hpr.has', hK.lp, hK.lir, hK.lpr, hK.par, hK.sign⟩
  obtain ⟨⟨K', c⟩, h1, h2, -⟩ := (Ok.def _ _).1 (kktFactor_ok (eps := eps) (delta := delta) hK')
  simp only at h2
  subst h2
  exact ⟨K', h1⟩

/-- C08: a solve returns the fatal code only when the iteration limit is negative (the main loop is
never entered), never because of the factorisation. -/
theorem C08_no_fatal [HasInf F] {arrives : Nat → Bool} {w w' : Work F} {sig sig' : Sig} {code : Int}
    (h : ecosSolve arrives w sig = .ok (w', sig', code)) (hm : 0 ≤ w.stgs.maxit) : code ≠ FATAL := by
  obtain ⟨w1, -, e, h1, h2, -⟩ := ecosSolve_ways h
  rcases h1 with ⟨k, h1⟩ | ⟨h1, -⟩
  · rw [← h2]
    exact (leaves_early h1).2
  · omega

end generic

/-- C08: every pivot of a factorisation is nonzero and has the prescribed sign, whatever the
matrix. -/
theorem C08_pivots {n : Nat} {Ap Ai : Buf Nat} {Ax : Buf ℝ} {Lp : Buf Nat} {parent sign : Buf Int} {eps delta : ℝ}
    {S : Num ℝ} {r : Num ℝ × Nat} {sg : Nat → Int}
    (h : ldlNumeric n Ap Ai Ax Lp parent sign eps delta S = .ok r) (hsg : Holds sign n sg)
    (hs : ∀ i, i < n → sg i = 1 ∨ sg i = -1) (he : 0 ≤ eps) (hd : 0 < delta) :
    r.2 = n ∧ ∀ k, k < n → ∃ d : ℝ, rd r.1.d k = .ok d ∧ 0 < (sg k : ℝ) * d := by
  obtain ⟨h1, h2⟩ := ldlNumeric_d h
  refine ⟨h1, fun k hk => ?_⟩
  obtain ⟨s, v, h3, h4⟩ := h2 k hk
  rw [hsg.2 k hk] at h3
  simp only [Option.some.injEq] at h3
  subst h3
  exact ⟨_, rd_ok_iff.2 h4, dynReg_ne (hs k hk) he hd v⟩

/-! The pattern of a full `2 × 2` upper triangle. -/

theorem ex_csc : CscOk 2 2 (fun i => [0, 1, 3].getD i default) (fun i => [0, 0, 1].getD i default) :=
  ⟨rfl, by decide, by decide⟩

theorem ex_upper : Upper 2 (fun i => [0, 1, 3].getD i default) (fun i => [0, 0, 1].getD i default) := by
  intro j hj k h1 h2
  exact (by decide : ∀ j, j < 2 → ∀ k, k < 3 → [0, 1, 3].getD j default ≤ k → k < [0, 1, 3].getD (j + 1) default →
    [0, 0, 1].getD k default ≤ j) j hj k (lt_of_lt_of_le h2 (ex_csc.le_top (by omega))) h1 h2

theorem ex_nodup : NoDup 2 (fun i => [0, 1, 3].getD i default) (fun i => [0, 0, 1].getD i default) := by
  intro j hj p p' h1 h2 h3 h4 h5
  exact (by decide : ∀ j, j < 2 → ∀ p, p < 3 → ∀ p', p' < 3 → ([0, 1, 3].getD j default ≤ p ∧
    p < [0, 1, 3].getD (j + 1) default ∧ [0, 1, 3].getD j default ≤ p' ∧ p' < [0, 1, 3].getD (j + 1) default ∧
    [0, 0, 1].getD p default = [0, 0, 1].getD p' default) → p = p') j hj p (lt_of_lt_of_le h2 (ex_csc.le_top (by omega)))
    p' (lt_of_lt_of_le h4 (ex_csc.le_top (by omega))) ⟨h1, h2, h3, h4, h5⟩

/-- `[[4, 1], [1, 3]]` -/
example : ∃ Lp S lnz r, ldlSymbolic 2 (ofList [0, 1, 3]) (ofList [0, 0, 1]) (malloc 3) (symInit 2) = .ok (Lp, S) ∧
    rd Lp 2 = .ok lnz ∧ ldlNumeric 2 (ofList [0, 1, 3]) (ofList [0, 0, 1]) (ofList ([4, 1, 3] : List ℝ)) Lp S.parent
      (ofList [1, 1]) 0 1 (numInit 2 lnz) = .ok (r, 2) :=
  C08_completes 0 1 ⟨ex_csc, ex_upper⟩ (ofList_holds [0, 1, 3]) (ofList_holds [0, 0, 1])
    (ofList_holds ([4, 1, 3] : List ℝ)) (ofList_holds [1, 1])

/-! ## C09 -/

/-- C09: the factors computed from the upper triangle of a symmetric matrix `K` satisfy
`L D L' = K + R` with a diagonal `R`; the pivot `k` was either left alone (`R k = 0`) or replaced
by `sign k * delta` because it did not have the right sign and size.  The symbolic phase predicts
exactly the entries of the factor: column `j` occupies the cells from `lp j` to `lp (j+1)`, and all
of them are filled. -/
theorem C09_reproduces {n : Nat} {ap ai : Nat → Nat} {ax : Nat → ℝ} {Ap Ai : Buf Nat} {Ax : Buf ℝ} {sign : Buf Int}
    {sg : Nat → Int} {eps delta : ℝ} (hU : UpperPat n ap ai) (hnd : NoDup n ap ai) (hAp : Holds Ap (n + 1) ap)
    (hAi : Holds Ai (ap n) ai) (hAx : Holds Ax (ap n) ax) (hsg : Holds sign n sg)
    (hs : ∀ i, i < n → sg i = 1 ∨ sg i = -1) (he : 0 ≤ eps) (hd : 0 < delta) :
    ∃ (Lp : Buf Nat) (S : Sym) (r : Num ℝ) (lp lir lnz : Nat → Nat) (lxv df R : Nat → ℝ),
      ldlSymbolic n Ap Ai (malloc (n + 1)) (symInit n) = .ok (Lp, S) ∧
      ldlNumeric n Ap Ai Ax Lp S.parent sign eps delta (numInit n (lp n)) = .ok (r, n) ∧
      Holds Lp (n + 1) lp ∧ Has' r.li (lp n) lir ∧ Has' r.lx (lp n) lxv ∧ Holds r.d n df ∧
      Holds S.lnz n lnz ∧ Holds r.lnz n lnz ∧ (∀ j, j < n → lp (j + 1) = lp j + lnz j) ∧
      CscOk n n lp lir ∧ Lower n lp lir ∧
      (∀ i j, i < n → j < n →
        ∑ m ∈ range n, ((if i = m then 1 else 0) + dense lp lir lxv i m) * df m *
            ((if j = m then 1 else 0) + dense lp lir lxv j m) =
          symDense ap ai ax i j + if i = j then R i else 0) ∧
      ∀ k, k < n → (R k = 0 ∧ eps < (sg k : ℝ) * df k) ∨
        (df k = (sg k : ℝ) * delta ∧ (sg k : ℝ) * (df k - R k) ≤ eps) := by
  obtain ⟨⟨Lp, S⟩, h1, q, hT, hLp, hpar, hSl⟩ := (Ok.def _ _).1 (ldlSymbolic_ok (S := symInit n) (Lp := malloc (n + 1)) hU hAp hAi.has'
    (by simp) (by simp [symInit]) (by simp [symInit]) (by simp [symInit]))
  simp only at hLp hpar hSl
  obtain ⟨⟨r, c⟩, h2, h3, lf, df, g1, g2, g3, g4⟩ := (Ok.def _ _).1 (ldlNumeric_ok (eps := eps) (delta := delta)
    (S := numInit n (lpOf (Row ap ai q) n n)) hU hT hAp hAi.has' hAx.has' hLp
    hpar hsg.has' (by simp [numInit]) (by simp [numInit]) (by simp [numInit]) (by simp [numInit]) (by simp [numInit])
    (by simp [numInit]) (by simp [numInit]))
  simp only at h3 g1 g2 g3
  subst h3
  obtain ⟨lir, lxv, c1, c2, c3, c4, c5⟩ := lpOf_csc (fun r j h => h.1) g2
  obtain ⟨-, R, hR1, hR2⟩ := ldl_sym hU hnd hT g4 hs he hd
  refine ⟨Lp, S, r, lpOf (Row ap ai q) c, lir, _, lxv, df, R, h1, h2, hLp, c3, c4, g3, hSl, g1,
    fun j _ => rfl, c1, c2, fun i j hi hj => ?_, hR2⟩
  rw [← hR1 i j hi hj]
  refine sum_congr rfl fun m hm => ?_
  rw [mem_range] at hm
  rw [lmat_dense c2 c5 hi hm, lmat_dense c2 c5 hj hm]

/-- `[[0, 1], [1, 0]]` with signs `+, -`: the factors reproduce it up to a diagonal. -/
example : ∃ (lp lir : Nat → Nat) (lxv df : Nat → ℝ),
    ∑ m ∈ range 2, ((if 0 = m then 1 else 0) + dense lp lir lxv 0 m) * df m *
      ((if 1 = m then 1 else 0) + dense lp lir lxv 1 m) = 1 ∧ 0 < df 0 := by
  obtain ⟨-, -, -, lp, lir, -, lxv, df, R, -, -, -, -, -, -, -, -, -, -, -, h1, h2⟩ := C09_reproduces (eps := 0) (delta := 1)
    ⟨ex_csc, ex_upper⟩ ex_nodup (ofList_holds [0, 1, 3]) (ofList_holds [0, 0, 1])
    (ofList_holds ([0, 1, 0] : List ℝ)) (ofList_holds [1, -1]) (by decide) le_rfl one_pos
  refine ⟨lp, lir, lxv, df, ?_, ?_⟩
  · rw [h1 0 1 (by decide) (by decide)]
    simp [symDense, dense, sum_Ico_succ_top]
  · rcases h2 0 (by decide) with ⟨-, h⟩ | ⟨h, -⟩
    · simpa using h
    · simp at h
      rw [h]; exact one_pos

/-! ## C10 -/

/-- C10: after set-up with any ordering `P`, and whatever values have since been written to the
permuted matrix through the index map `PK`, factoring and solving with the permuted right-hand side
gives, after un-permuting, the solution of the (regularised) system with the unpermuted matrix.
Pivot `i` was either left alone (`R i = 0`) or replaced by `sign i * delta`. -/
theorem C10_solves {U : KktU ℝ} {P : Buf Nat} {n m p N : Nat} {jc ir pf : Nat → Nat} {pr : Nat → ℝ} {sg : Nat → Int}
    (hU : Rep U.K N N jc ir pr) (hup : Upper N jc ir) (hnd : NoDup N jc ir) (hsg : Holds U.Sign N sg)
    (hs : ∀ i, i < N → sg i = 1 ∨ sg i = -1) (hP : Holds P N pf) (hperm : IsPerm N pf) {eps delta : ℝ}
    (he : 0 ≤ eps) (hd : 0 < delta) :
    ∃ (K : Kkt ℝ) (π PK : Nat → Nat), setupKkt U P n m p = .ok K ∧ Holds K.Pinv N π ∧ (∀ i, i < N → π (pf i) = i) ∧ Holds K.PK (jc N) PK ∧
      K.PKPt.pr.size = jc N ∧ (∀ k, k < jc N → K.PKPt.pr[PK k]? = some (some (pr k))) ∧
      ∀ (pr' : Nat → ℝ) (B : Buf ℝ), B.size = jc N → (∀ k, k < jc N → B[PK k]? = some (some (pr' k))) →
      ∃ (K' : Kkt ℝ) (df R : Nat → ℝ), kktFactor { K with PKPt := { K.PKPt with pr := B } } eps delta = .ok (K', KKT_OK) ∧
        Holds K'.D N df ∧
        (∀ i, i < N → 0 < (sg i : ℝ) * df (π i) ∧ ((R i = 0 ∧ eps < (sg i : ℝ) * df (π i)) ∨
          (df (π i) = (sg i : ℝ) * delta ∧ (sg i : ℝ) * (df (π i) - R i) ≤ eps))) ∧
        ∀ (b : Nat → ℝ) (Pb : Buf ℝ), Pb.size = N → (∀ i, i < N → Pb[π i]? = some (some (b i))) →
        ∃ (Px : Buf ℝ) (x : Nat → ℝ), triSolve K' Pb = .ok Px ∧ (∀ i, i < N → Px[π i]? = some (some (x i))) ∧
          ∀ i, i < N → ∑ k ∈ range N, (symDense jc ir pr' i k + if i = k then R i else 0) * x k = b i := by
  obtain ⟨K, h1, π, ai, q, ax, sg', hpin, hπ, hπ1, hπ2, hK, hsg', hrep, hPK, hai, hax, -⟩ :=
    (Ok.def _ _).1 (setupKkt_ok (n := n) (m := m) (p := p) hU hup hsg.has' hP hperm)
  have hap : csStart (permKey N jc ir π) (jc N) N = jc N := csStart_top fun k hk => by
    obtain ⟨j, hj, hj1, hj2⟩ := hU.ok.exists_col hk
    unfold permKey permCol
    rw [colOf_eq hU.ok hj hj1 hj2]
    have a1 := hπ.lt _ (hU.ok.rows k hk)
    have a2 := hπ.lt _ hj
    split <;> assumption
  refine ⟨K, π, _, h1, hpin, hπ1, hPK, hrep.hpr.1.trans hap, fun k hk => ?_, ?_⟩
  · have hlt : csPos (permKey N jc ir π) (jc N) k < jc N := csPos_lt_N hk
    rw [hrep.hpr.2 _ (by rw [hap]; exact hlt), hax k hk]
  intro pr' B hB1 hB2
  obtain ⟨inv, hinv1, hinv2⟩ := exists_inv (N := jc N) (Q := csPos (permKey N jc ir π) (jc N))
    (fun q hq => csPos_surj hq) fun _ _ hk hk' e => csPos_inj hk hk' e
  have hB : Holds B (jc N) (fun t => pr' (inv t)) := ⟨hB1, fun t ht => by
    obtain ⟨k, hk, rfl⟩ := csPos_surj (κ := permKey N jc ir π) ht
    rw [hB2 k hk]; beta_reduce; rw [hinv2 k hk (csPos_lt_N hk)]⟩
  have hK1 : KktOk { K with PKPt := { K.PKPt with pr := B } } N (csStart (permKey N jc ir π) (jc N)) ai
      (fun t => pr' (inv t)) q sg' :=
    ⟨hK.n, hK.pat, hK.tree, hK.jc, hK.ir, by rw [hap]; exact hB.has', hK.lp, hK.lir, hK.lpr, hK.par, hK.sign⟩
  obtain ⟨⟨K', c⟩, f1, f2, f3, ⟨lf, df, f4⟩, -⟩ := (Ok.def _ _).1 (kktFactor_ok (eps := eps) (delta := delta) hK1)
  simp only at f2 f3 f4
  subst f2
  have hsp : ∀ i, i < N → π (pf i) = i := hπ1
  have hpl : ∀ i, i < N → pf i < N := hperm.lt
  have hs' : ∀ i, i < N → sg' i = 1 ∨ sg' i = -1 := fun i hi => by
    rw [← hsp i hi, hsg' _ (hpl i hi)]
    exact hs _ (hpl i hi)
  have hnd' : NoDup N (csStart (permKey N jc ir π) (jc N)) ai := permute_nodup hU.ok hup hnd hπ hai
  obtain ⟨hpos, R, hR1, hR2⟩ := ldl_sym f3.pat hnd' f3.tree f4.row hs' he hd
  refine ⟨K', df, fun i => R (π i), f1, f4.d, fun i hi => ?_, ?_⟩
  · have a1 := hpos (π i) (hπ.lt i hi)
    have a2 := hR2 (π i) (hπ.lt i hi)
    rw [hsg' i hi] at a1 a2
    exact ⟨a1, a2⟩
  · intro b Pb hPb1 hPb2
    have hPb : Holds Pb N (fun t => b (pf t)) := ⟨hPb1, fun t ht => by
      have := hPb2 (pf t) (hpl t ht)
      rwa [hsp t ht] at this⟩
    have hdf : ∀ i, i < N → df i ≠ 0 := fun i hi h0 => by
      have := hpos i hi
      rw [h0, mul_zero] at this
      exact lt_irrefl _ this
    obtain ⟨Px, t1, xf, t2, t3⟩ := (Ok.def _ _).1 (triSolve_eq f3 f4 hdf hR1 hPb)
    refine ⟨Px, fun i => xf (π i), t1, fun i hi => t2.2 _ (hπ.lt i hi), fun i hi => ?_⟩
    have := t3 (π i) (hπ.lt i hi)
    beta_reduce at this
    rw [hπ2 i hi] at this
    rw [← this, ← sum_perm hπ fun k => (_ : ℝ) * xf k]
    refine sum_congr rfl fun k hk => ?_
    rw [mem_range] at hk
    rw [permute_dense (pr := pr') hU.ok hup hπ hai (fun k hk => by rw [hinv2 k hk (csPos_lt_N hk)]) hi hk]
    have : (π i = π k) = (i = k) := propext ⟨fun e => hπ.inj _ _ hi hk e, fun e => by rw [e]⟩
    simp only [this]

/-- The matrix `[[0, 1], [1, 0]]` with signs `+, -`, ordered backwards: both pivots are regularised. -/
def exU : KktU ℝ :=
  { K := { jc := ofList [0, 1, 3], ir := ofList [0, 0, 1], pr := ofList [0, 1, 0], n := 2, m := 2, nnz := 3 },
    Sign := ofList [1, -1], AttoK := malloc 0, GttoK := malloc 0, C := Ecos.Cones.exCone ℝ }

example : ∃ K π, setupKkt exU (ofList [1, 0]) 1 1 0 = .ok K ∧ Holds K.Pinv 2 π ∧ π 1 = 0 ∧
    ∃ K', kktFactor K 0 1 = .ok (K', KKT_OK) := by
  obtain ⟨K, π, PK, h1, h2, h3, h4, hsz, h5, h6⟩ := C10_solves (U := exU) (P := ofList [1, 0]) (n := 1) (m := 1) (p := 0) (N := 2)
    (pf := fun i => [1, 0].getD i default) (sg := fun i => [1, -1].getD i default) (eps := 0) (delta := 1)
    (pr := fun i => [0, 1, 0].getD i default)
    ⟨rfl, rfl, rfl, ofList_holds [0, 1, 3], ofList_holds [0, 0, 1], ofList_holds ([0, 1, 0] : List ℝ), ex_csc⟩
    ex_upper ex_nodup
    (ofList_holds [1, -1]) (by decide) (ofList_holds [1, 0]) ⟨by decide, fun i j hi hj => (by decide : ∀ i, i < 2 → ∀ j, j < 2 → [1, 0].getD i default = [1, 0].getD j default →
      i = j) i hi j hj⟩ le_rfl one_pos
  obtain ⟨K', df, R, g1, -⟩ := h6 _ _ hsz h5
  exact ⟨K, π, h1, h2, h3 0 (by omega), K', g1⟩

end Ecos.Fact
