import Verif.Lemmas.Tri
import Verif.Model.Preproc

/-!
# The KKT struct: what set-up leaves behind, factorisation and triangular solves
-/
namespace Ecos.Fact

open Ecos Finset

set_option linter.unusedSectionVars false

theorem Has'.congr {α : Type} {b : Buf α} {k : Nat} {g g' : Nat → α} (h : Has' b k g) (hg : ∀ j, j < k → g j = g' j) :
    Has' b k g' := fun j hj => by rw [h j hj, hg j hj]

theorem _root_.Ecos.Holds.has' {α : Type} {b : Buf α} {n : Nat} {f : Nat → α} (h : Holds b n f) : Has' b n f := h.2

section generic
variable {F : Type} [Zero F] [One F] [Add F] [Sub F] [Mul F] [Div F] [Neg F] [OfScientific F]
  [IntCast F] [PFloat F]

/-- scattering through a permutation -/
theorem scatter_ok {α : Type} {b : Buf α} {idx : Buf Nat} {n : Nat} {π : Nat → Nat} {val : Nat → M α} {g : Nat → α}
    (hb : b.size = n) (hidx : Holds idx n π) (hπ : IsPerm n π) (hv : ∀ i, i < n → val i = .ok (g i)) :
    Ok (scatter b idx 0 n val) fun r => ∃ f, Holds r n f ∧ ∀ i, i < n → f (π i) = g i := by
  unfold scatter
  refine loop_ok (I := fun t b => Cells b n t π g) (Nat.zero_le _) (cells_zero hb _ _) ?_ ?_
  · intro i b' _ hi hb'
    rw [hv i hi, ok_bind_eq, Nat.zero_add, hidx.rd hi, ok_bind_eq]
    exact hb'.wr hi hπ.inj (hπ.lt i hi) rfl
  · intro b' hb'
    obtain ⟨R, hR1, hR2⟩ := exists_inv (N := n) (Q := π) (fun q hq => hπ.surj hq) hπ.inj
    refine ⟨fun i => g (R i), hb'.holds (fun q hq => hπ.surj hq) _ (fun k hk => by rw [hR2 k hk (hπ.lt k hk)]),
      fun i hi => by beta_reduce; rw [hR2 i hi (hπ.lt i hi)]⟩

/-- the KKT struct holds a matrix with pattern `ap`, `ai` and values `ax`, analysed by the symbolic
phase -/
structure KktOk (K : Kkt F) (N : Nat) (ap ai : Nat → Nat) (ax : Nat → F) (q : Nat → Nat) (sg : Nat → Int) : Prop where
  n : K.PKPt.n = N
  pat : UpperPat N ap ai
  tree : Tree N N ap ai q
  jc : Holds K.PKPt.jc (N + 1) ap
  ir : Has' K.PKPt.ir (ap N) ai
  pr : Has' K.PKPt.pr (ap N) ax
  lp : Holds K.L.jc (N + 1) (lpOf (Row ap ai q) N)
  lir : lpOf (Row ap ai q) N N ≤ K.L.ir.size
  lpr : lpOf (Row ap ai q) N N ≤ K.L.pr.size
  par : Holds K.Parent N (fun v => enc N (q v))
  sign : Has' K.Sign N sg

/-- how long the arrays of the factor are, and where the elimination tree and the column pointers come from -/
structure KMem (K : Kkt F) (N lnz : Nat) : Prop where
  lir : K.L.ir.size = lnz
  lpr : K.L.pr.size = lnz
  lnz : K.Lnz.size = N
  sgn : K.Sign.size = N
  sym : ∃ S, ldlSymbolic N K.PKPt.jc K.PKPt.ir (malloc (N + 1)) { parent := malloc N, lnz := malloc N, flag := malloc N } = .ok (K.L.jc, S) ∧
    S.parent = K.Parent

theorem KMem.of {K K' : Kkt F} {N l : Nat} (h : KMem K N l) (e1 : K'.L.ir.size = K.L.ir.size) (e2 : K'.L.pr.size = K.L.pr.size)
    (e3 : K'.Lnz.size = N) (e4 : K'.Sign = K.Sign) (e5 : K'.PKPt.jc = K.PKPt.jc) (e6 : K'.PKPt.ir = K.PKPt.ir) (e7 : K'.L.jc = K.L.jc)
    (e8 : K'.Parent = K.Parent) : KMem K' N l :=
  ⟨e1.trans h.lir, e2.trans h.lpr, e3, by rw [e4]; exact h.sgn, by rw [e5, e6, e7, e8]; exact h.sym⟩

/-- the struct holds the factors `lf`, `df` -/
structure Factored (K : Kkt F) (N : Nat) (ap ai : Nat → Nat) (ax : Nat → F) (q : Nat → Nat) (sg : Nat → Int)
    (eps delta : F) (lf : Nat → Nat → F) (df : Nat → F) : Prop where
  st : Store N (Row ap ai q) K.L.ir K.L.pr (fun v => (rows (Row ap ai q) N v).length) lf
  d : Holds K.D N df
  lnz : Holds K.Lnz N (fun v => (rows (Row ap ai q) N v).length)
  row : ∀ r, r < N → RowEq (Row ap ai q) q (ent ap ai ax) sg eps delta lf df r

variable {N : Nat} {ap ai q : Nat → Nat} {ax : Nat → F} {sg : Nat → Int} {eps delta : F} {K : Kkt F}

/-- The factorisation of the KKT matrix always runs to its end and reports success; it changes
only the factor. -/
theorem kktFactor_ok (hK : KktOk K N ap ai ax q sg) :
    Ok (kktFactor K eps delta) fun r => r.2 = KKT_OK ∧ KktOk r.1 N ap ai ax q sg ∧
      (∃ lf df, Factored r.1 N ap ai ax q sg eps delta lf df) ∧
      r.1 = { K with L := { K.L with ir := r.1.L.ir, pr := r.1.L.pr }, D := r.1.D, Lnz := r.1.Lnz } := by
  obtain ⟨h0, h1, h2, h3, h4, h5, h6, h7, h8, h9, h10⟩ := hK
  unfold kktFactor
  rw [h0]
  refine Ok.bind (ldlNumeric_ok (S := K.scratch) (eps := eps) (delta := delta) h1 h2 h3 h4 h5 h6 h9 h10 (by simp [Kkt.scratch, h0])
    (by simpa [Kkt.scratch] using h7) (by simpa [Kkt.scratch] using h8) (by simp [Kkt.scratch, h0]) (by simp [Kkt.scratch, h0])
    (by simp [Kkt.scratch, h0]) (by simp [Kkt.scratch, h0])) ?_
  rintro ⟨S, c⟩ ⟨e1, lf, df, g1, g2, g3, g4⟩
  rw [Ok_pure]
  simp only at e1 g1 g2 g3 g4
  refine ⟨by simp only [h0, e1, if_true], ⟨h0, h1, h2, h3, h4, h5, h6, g2.1, g2.2.1, h9, h10⟩, ⟨lf, df, g2, g3, g1, g4⟩, rfl⟩

theorem wr_size {α : Type} {b r : Buf α} {i : Nat} {v : α} (h : wr b i v = .ok r) : r.size = b.size := by
  unfold wr at h
  split at h
  · cases h; simp
  · cases h

/-- the arrays of the factor keep their lengths -/
theorem kktFactor_size {r : Kkt F × Nat} (h : kktFactor K eps delta = .ok r) :
    r.1.L.ir.size = K.L.ir.size ∧ r.1.L.pr.size = K.L.pr.size ∧ r.1.Lnz.size = K.PKPt.n := by
  have hl : ∀ {S S' : Num F} {n : Nat} {f : Nat → Num F → M (Num F)} {lo hi : Nat},
      (∀ i S S', f i S = .ok S' → S'.li.size = S.li.size ∧ S'.lx.size = S.lx.size ∧ S'.lnz.size = S.lnz.size) → hi - lo = n →
      loop lo hi S f = .ok S' → S'.li.size = S.li.size ∧ S'.lx.size = S.lx.size ∧ S'.lnz.size = S.lnz.size := by
    intro S S' n f lo hi hf hn hl
    induction n generalizing lo S with
    | zero =>
      unfold loop at hl
      rw [if_neg (by omega)] at hl
      cases hl; exact ⟨rfl, rfl, rfl⟩
    | succ n ih =>
      unfold loop at hl
      rw [if_pos (by omega), bind_ok] at hl
      obtain ⟨S1, h1, h2⟩ := hl
      obtain ⟨a1, a2, a3⟩ := hf _ _ _ h1
      obtain ⟨b1, b2, b3⟩ := ih (by omega) h2
      exact ⟨b1.trans a1, b2.trans a2, b3.trans a3⟩
  unfold kktFactor ldlNumeric at h
  simp only [bind_assoc, pure_bind] at h
  rw [bind_ok] at h
  obtain ⟨S, h1, h2⟩ := h
  rw [pure_ok] at h2
  subst h2
  have := hl (fun i S S' hS => ?_) rfl h1
  · simpa [Kkt.scratch] using this
  unfold numStep at hS
  simp only [bind_ok, pure_ok] at hS
  obtain ⟨t, ht, yk, hyk, d, hd, y, hy, S1, hS1, sg, hsg, dk, hdk, d', hd', rfl⟩ := hS
  have e1 : t.2.li = S.li ∧ t.2.lx = S.lx ∧ t.2.lnz.size = S.lnz.size := by
    unfold numScatter at ht
    simp only [bind_ok] at ht
    obtain ⟨y, hy, fl, hf, ln, hln, p2, hp2, p1, hp1, ht⟩ := ht
    have : ∀ (n lo hi : Nat) (u u' : Nat × Num F) (f : Nat → Nat × Num F → M (Nat × Num F)),
        (∀ i u u', f i u = .ok u' → u'.2.li = u.2.li ∧ u'.2.lx = u.2.lx ∧ u'.2.lnz = u.2.lnz) → hi - lo = n → loop lo hi u f = .ok u' →
        u'.2.li = u.2.li ∧ u'.2.lx = u.2.lx ∧ u'.2.lnz = u.2.lnz := by
      intro n
      induction n with
      | zero =>
        intro lo hi u u' f hf hn hl
        unfold loop at hl
        rw [if_neg (by omega)] at hl
        cases hl; exact ⟨rfl, rfl, rfl⟩
      | succ n ih =>
        intro lo hi u u' f hf hn hl
        unfold loop at hl
        rw [if_pos (by omega), bind_ok] at hl
        obtain ⟨S1, h1, h2⟩ := hl
        obtain ⟨a1, a2, a3⟩ := hf _ _ _ h1
        obtain ⟨b1, b2, b3⟩ := ih _ _ _ _ _ hf (by omega) h2
        exact ⟨b1.trans a1, b2.trans a2, b3.trans a3⟩
    obtain ⟨g1, g2, g3⟩ := this _ _ _ _ _ _ (fun i u u' hu => by
      simp only [bind_ok, pure_ok] at hu
      obtain ⟨_, -, _, -, _, -, _, -, _, -, rfl⟩ := hu
      exact ⟨rfl, rfl, rfl⟩) rfl ht
    exact ⟨g1, g2, by rw [g3]; exact wr_size hln⟩
  obtain ⟨g1, g2, g3⟩ := hl (fun i S S' hS => by
    unfold numElim at hS
    simp only [bind_ok, pure_ok] at hS
    obtain ⟨_, -, _, -, _, -, _, -, _, -, _, -, _, -, _, -, _, -, li, h1, lx, h2, ln, h3, rfl⟩ := hS
    exact ⟨wr_size h1, wr_size h2, wr_size h3⟩) rfl hS1
  dsimp only at g1 g2 g3 ⊢
  rw [g1, g2, g3, e1.1, e1.2.1, e1.2.2]
  exact ⟨rfl, rfl, rfl⟩

/-- the triangular solves with the factor read only memory of the factor and the right-hand side -/
theorem triSolve_ok (hK : KktOk K N ap ai ax q sg) {lf : Nat → Nat → F} {df : Nat → F}
    (hF : Factored K N ap ai ax q sg eps delta lf df) {b : Buf F} {bf : Nat → F} (hb : Holds b N bf) :
    Ok (triSolve K b) fun x => ∃ (lir : Nat → Nat) (lxv : Nat → F), CscOk N N (lpOf (Row ap ai q) N) lir ∧
      Lower N (lpOf (Row ap ai q) N) lir ∧
      (∀ i t (ht : t < (rows (Row ap ai q) N i).length), i < N →
        lir (lpOf (Row ap ai q) N i + t) = (rows (Row ap ai q) N i)[t] ∧
          lxv (lpOf (Row ap ai q) N i + t) = lf (rows (Row ap ai q) N i)[t] i) ∧
      Holds x N (itr N (fun i => itr N bf (lsCol (lpOf (Row ap ai q) N) lir lxv) i / df i)
        fun t x => ltCol (lpOf (Row ap ai q) N) lir lxv (N - 1 - t) x) := by
  obtain ⟨lir, lxv, g1, g2, g3, g4, g5⟩ := lpOf_csc (fun r j h => h.1) hF.st
  unfold triSolve
  rw [hK.n]
  refine Ok.bind (ldlLsolve2_ok g1 hK.lp g3 g4 hb (by simp)) fun x1 hx1 => ?_
  refine Ok.bind (ldlDsolve_ok hx1 hF.d) fun x2 hx2 => ?_
  refine (ldlLtsolve_ok g1 hK.lp g3 g4 hx2).mono fun x3 hx3 => ?_
  exact ⟨lir, lxv, g1, g2, g5, hx3⟩

end generic

/-! ### Set-up -/

section setup
variable {F : Type} [Zero F] [One F] [Add F] [Sub F] [Mul F] [Div F] [Neg F] [OfScientific F]
  [IntCast F] [PFloat F]

theorem permute_nodup {n : Nat} {jc ir π ir' : Nat → Nat} (h : CscOk n n jc ir) (hup : Upper n jc ir)
    (hnd : NoDup n jc ir) (hπ : IsPerm n π)
    (hi : ∀ k, k < jc n → ir' (csPos (permKey n jc ir π) (jc n) k) = permRow (π (ir k)) (π (colOf n jc k))) :
    NoDup n (csStart (permKey n jc ir π) (jc n)) ir' := by
  intro c _ p p' h1 h2 h1' h2' e
  have hle := csStart_le (κ := permKey n jc ir π) (N := jc n) (c + 1)
  obtain ⟨k, hk, rfl⟩ := csPos_surj (κ := permKey n jc ir π) (show p < jc n by omega)
  obtain ⟨k', hk', rfl⟩ := csPos_surj (κ := permKey n jc ir π) (show p' < jc n by omega)
  have e1 := (csPos_mem_iff hk).mp ⟨h1, h2⟩
  have e2 := (csPos_mem_iff hk').mp ⟨h1', h2'⟩
  rw [hi k hk, hi k' hk'] at e
  obtain ⟨j, hj, hj1, hj2⟩ := h.exists_col hk
  obtain ⟨j', hj', hj1', hj2'⟩ := h.exists_col hk'
  have e3 : permCol (π (ir k)) (π (colOf n jc k)) = permCol (π (ir k')) (π (colOf n jc k')) := by
    unfold permKey at e1 e2; rw [e1, e2]
  rw [colOf_eq h hj hj1 hj2, colOf_eq h hj' hj1' hj2'] at e e3
  have hset : (π (ir k) = π (ir k') ∧ π j = π j') ∨ (π (ir k) = π j' ∧ π j = π (ir k')) := by
    unfold permCol at e3; unfold permRow at e
    split at e3 <;> split at e3 <;> split at e <;> split at e <;> omega
  have hu := hup j hj k hj1 hj2
  have hu' := hup j' hj' k' hj1' hj2'
  have hr := h.rows k hk
  have hr' := h.rows k' hk'
  have hkk : k = k' := by
    rcases hset with ⟨x, y⟩ | ⟨x, y⟩
    · have a1 := hπ.inj _ _ hr hr' x
      have a2 := hπ.inj _ _ hj hj' y
      subst a2
      exact hnd j hj k k' hj1 hj2 hj1' hj2' a1
    · have a1 := hπ.inj _ _ hr hj' x
      have a2 := hπ.inj _ _ hj hr' y
      have : j = j' := by omega
      subst this
      exact hnd j hj k k' hj1 hj2 hj1' hj2' (by omega)
  rw [hkk]

/-- What the ordering-dependent part of set-up leaves behind, for every permutation `P` and every
upper triangular matrix. -/
theorem setupKkt_ok {U : KktU F} {P : Buf Nat} {n m p N : Nat} {jc ir pf : Nat → Nat} {pr : Nat → F} {sg : Nat → Int}
    (hU : Rep U.K N N jc ir pr) (hup : Upper N jc ir) (hsg : Has' U.Sign N sg) (hP : Holds P N pf) (hperm : IsPerm N pf) :
    Ok (setupKkt U P n m p) fun K => ∃ (π ai q : Nat → Nat) (ax : Nat → F) (sg' : Nat → Int),
      Holds K.Pinv N π ∧ IsPerm N π ∧ (∀ i, i < N → π (pf i) = i) ∧ (∀ i, i < N → pf (π i) = i) ∧
      KktOk K N (csStart (permKey N jc ir π) (jc N)) ai ax q sg' ∧ (∀ i, i < N → sg' (π i) = sg i) ∧
      Rep K.PKPt N N (csStart (permKey N jc ir π) (jc N)) ai ax ∧
      Holds K.PK (jc N) (csPos (permKey N jc ir π) (jc N)) ∧
      (∀ k, k < jc N → ai (csPos (permKey N jc ir π) (jc N) k) = permRow (π (ir k)) (π (colOf N jc k))) ∧
      (∀ k, k < jc N → ax (csPos (permKey N jc ir π) (jc N) k) = pr k) ∧
      K.L.ir.size = lpOf (Row (csStart (permKey N jc ir π) (jc N)) ai q) N N ∧
      K.L.pr.size = lpOf (Row (csStart (permKey N jc ir π) (jc N)) ai q) N N ∧ K.D.size = N ∧ K.RHS1.size = N ∧ K.RHS2.size = N ∧
      K.dx1.size = n ∧ K.dx2.size = n ∧ K.dy1.size = p ∧ K.dy2.size = p ∧ K.dz1.size = m ∧ K.dz2.size = m ∧
      KMem K N (lpOf (Row (csStart (permKey N jc ir π) (jc N)) ai q) N N) := by
  have hsame0 : ∀ {α : Type} {b b' : Buf α} {n : Nat} {f : Nat → α}, Holds b n f → Holds b' n f → b = b' := by
    intro α b b' n f h h'
    refine Array.ext_getElem? fun i => ?_
    by_cases hi : i < n
    · rw [h.2 i hi, h'.2 i hi]
    · rw [Array.getElem?_eq_none (by rw [h.size]; omega), Array.getElem?_eq_none (by rw [h'.size]; omega)]
  unfold setupKkt
  simp only [hU.n_eq, hU.nnz_eq]
  refine Ok.bind (pinv_ok hP hperm (by simp)) ?_
  rintro pin ⟨π, hpin, hπ, hπ1, hπ2⟩
  refine Ok.bind (newSparseMatrix_ok (F := F) N N (jc N)) ?_
  rintro C0 ⟨c1, c2, c3, c4, c5, c6, -⟩
  refine Ok.bind (permute_rep (PK := some (malloc (jc N))) hU hup hpin hπ c1 c2 c3 c4 rfl rfl c5 c6
    (fun b hb => by simp at hb; rw [← hb]; simp)) ?_
  rintro ⟨B, PK⟩ ⟨ai, ax, r1, r2, -, r4, r5⟩
  obtain ⟨PK', rPK, hPK'⟩ := r2 _ rfl
  simp only at rPK r1
  subst rPK
  have htop : csStart (permKey N jc ir π) (jc N) N = jc N := by
    have hkey : ∀ k, k < jc N → permKey N jc ir π k < N := by
      intro k hk
      obtain ⟨j, hj, hj1, hj2⟩ := hU.ok.exists_col hk
      unfold permKey permCol
      rw [colOf_eq hU.ok hj hj1 hj2]
      have h1 := hπ.lt _ (hU.ok.rows k hk)
      have h2 := hπ.lt _ hj
      split <;> assumption
    exact csStart_top hkey
  refine Ok.bind (scatter_ok (b := malloc N) (g := sg) (by simp) hpin hπ fun i hi => hsg.rd hi) ?_
  rintro sgb ⟨sg', hs1, hs2⟩
  have hpat : UpperPat N (csStart (permKey N jc ir π) (jc N)) ai := ⟨r1.ok, permute_upper hU.ok r4⟩
  simp only [r1.n_eq]
  have hsy := ldlSymbolic_ok (S := { parent := malloc N, lnz := malloc N, flag := malloc N }) (Lp := malloc (N + 1))
    hpat r1.hjc r1.hir.has' (by simp) (by simp) (by simp) (by simp)
  obtain ⟨⟨Lp, S⟩, hsym, q, hT, hLp, hpar, hlnz⟩ := (Ok.def _ _).1 hsy
  rw [hsym, ok_bind_eq]
  simp only at hLp hpar hlnz ⊢
  rw [hLp.rd (by omega), ok_bind_eq]
  unfold ecoscreateSparseMatrix
  rw [if_neg (by rw [hLp.size]; omega)]
  obtain ⟨Lp', hw, hLp'⟩ := (Ok.def _ _).1 (hLp.wr (by omega : N < N + 1) (lpOf (Row (csStart (permKey N jc ir π) (jc N)) ai q) N N))
  rw [hw]
  simp only [ok_bind_eq, pure_bind]
  refine Ok.bind (permute_rep (PK := none) hU hup hpin hπ r1.m_eq r1.n_eq (by rw [r1.nnz_eq, htop]) (P := fun _ => True) (holds_iff.1 r1.hjc) trivial htop
    (by rw [r1.hir.size, htop]) (by rw [r1.hpr.size, htop]) (fun b hb => by cases hb)) ?_
  rintro ⟨B2, PK2⟩ ⟨ai2, ax2, t1, -, -, t4, t5⟩
  rw [Ok_pure]
  simp only at t1 ⊢
  have hsame : ∀ k, k < jc N → ai2 k = ai k ∧ ax2 k = ax k := by
    intro k hk
    obtain ⟨k', hk', rfl⟩ := csPos_surj (κ := permKey N jc ir π) hk
    rw [t4 k' hk', r4 k' hk', t5 k' hk', r5 k' hk']
    exact ⟨rfl, rfl⟩
  have hrep : Rep B2 N N (csStart (permKey N jc ir π) (jc N)) ai ax :=
    ⟨t1.m_eq, t1.n_eq, t1.nnz_eq, t1.hjc, t1.hir.congr fun k hk => (hsame k (by rw [← htop]; exact hk)).1,
      t1.hpr.congr fun k hk => (hsame k (by rw [← htop]; exact hk)).2, r1.ok⟩
  have hupd : ∀ i, i < N + 1 → upd (lpOf (Row (csStart (permKey N jc ir π) (jc N)) ai q) N) N (lpOf (Row (csStart (permKey N jc ir π) (jc N)) ai q) N N) i
      = lpOf (Row (csStart (permKey N jc ir π) (jc N)) ai q) N i := by
    intro i hi
    by_cases e : i = N
    · subst e; rw [upd_self]
    · rw [upd_ne _ _ e]
  refine ⟨π, ai, q, ax, sg', hpin, hπ, hπ1, hπ2, ⟨hrep.n_eq, hpat, hT, hrep.hjc, hrep.hir.has', hrep.hpr.has', ?_, by simp, by simp,
    hpar, hs1.has'⟩, hs2, hrep, hPK', r4, r5, by simp, by simp, by simp, by simp, by simp, by simp, by simp, by simp, by simp, by simp, by simp,
    by simp, by simp, hlnz.size, hs1.size, S, ?_, rfl⟩
  swap
  · dsimp only
    rw [hsame0 hrep.hjc r1.hjc, hsame0 hrep.hir r1.hir, hsym, hsame0 hLp (hLp'.congr hupd)]
  exact hLp'.congr hupd

end setup

end Ecos.Fact
