import Verif.Lemmas.Asm1
import Verif.Lemmas.Scal1

/-!
# Assembly of the KKT matrix: the loops
-/
namespace Ecos.Asm

open Ecos Finset Ecos.Fact

set_option linter.unusedSectionVars false

section generic
variable {F : Type} [Zero F] [One F] [Add F] [Sub F] [Mul F] [Div F] [Neg F] [OfScientific F]
  [IntCast F] [PFloat F]

variable {T : Parts F}

theorem Parts.off_x {j : Nat} (h : j ≤ T.n) : T.off j = j := by
  induction j with
  | zero => rfl
  | succ j ih => rw [T.off_succ, ih (by omega), T.col_x (by omega)]

theorem kktBlock1_ok {B : KB F} (h : St T B 0 0) : Ok (kktBlock1 T.n B) fun B' => St T B' (T.off T.n) T.n := by
  unfold kktBlock1
  refine loop_ok (fun j B' => St T B' (T.off j) j) (by omega) h ?_ (fun _ h => h)
  intro j B' _ hj h'
  have hN : j < T.N := by unfold Parts.N; omega
  have hl : 0 < (T.col j).len := by rw [T.col_x hj]; exact Nat.one_pos
  have hlt := T.lt_off hN hl
  have e1 := T.ir_at hN hl
  have e2 := T.pr_at hN hl
  have e3 : T.off j = j := T.off_x (by omega)
  rw [T.col_x hj, Nat.add_zero, e3] at e1 e2
  rw [Nat.add_zero] at hlt
  have hk := h'.kk
  rw [e3] at hlt h' hk
  rw [hk]
  refine Ok.bind (has_snoc h'.jc (by rw [h'.jcs]; omega) e3) ?_
  rintro jc ⟨a1, a2⟩
  refine Ok.bind (has_snoc h'.ir (by rw [h'.irs]; exact hlt) e1) ?_
  rintro ir ⟨b1, b2⟩
  refine Ok.bind (has_snoc h'.pr (by rw [h'.prs]; exact hlt) e2) ?_
  rintro pr ⟨c1, c2⟩
  rw [Ok_pure, T.off_x (by omega)]
  exact ⟨rfl, a1.trans h'.jcs, b1.trans h'.irs, c1.trans h'.prs, a2, b2, c2⟩

/-- the transposed matrix of the equality constraints, if there is one -/
def AtIs (T : Parts F) (At : Option (SpMat F)) : Prop :=
  match At with
  | some M => Rep M T.n T.p T.jA T.iA T.a
  | none => T.p = 0 ∧ T.jA 0 = 0

theorem kktBlock2_ok {At : Option (SpMat F)} (hA : AtIs T At) {s : KC F} (h : St T s.B (T.off T.n) T.n) (hi : s.i = T.jA 0)
    (hm : s.map.size = T.jA T.p) :
    Ok (kktBlock2 At T.n T.p s) fun s' => St T s'.B (T.off (T.n + T.p)) (T.n + T.p) ∧
      MapTo T s'.map T.jA T.p T.p (fun j => T.n + j) := by
  unfold kktBlock2
  refine loop_ok (fun j s' => St T s'.B (T.off (T.n + j)) (T.n + j) ∧ s'.i = T.jA j ∧
    MapTo T s'.map T.jA T.p j (fun j => T.n + j)) (by omega) ⟨h, hi, hm, fun j hj => by omega⟩ ?_ ?_
  · rintro j s' _ hj ⟨h1, h2, h3⟩
    cases At with
    | none => exact absurd hA.1 (by omega)
    | some M =>
      have hM : Rep M T.n T.p T.jA T.iA T.a := hA
      have hN : T.n + j < T.N := by unfold Parts.N; omega
      have hcol := T.col_y hj
      show Ok (copyCol M j (T.n + j) s' >>= _) _
      refine Ok.bind (copyCol_ok hM hj rfl hN h1 h2 h3 (by rw [hcol]; show _ ≤ T.cA j + 1; unfold Parts.cA; omega)
        (fun t ht => by rw [hcol]; exact if_pos ht) (fun t ht => by rw [hcol]; exact if_pos ht)) ?_
      rintro s'' ⟨g1, g2, g3⟩
      have hlen : T.jA (j + 1) - T.jA j < (T.col (T.n + j)).len := by rw [hcol]; exact Nat.lt_succ_self _
      refine Ok.bind (g1.pushAt hN hlen (by rw [hcol]; exact if_neg (Nat.lt_irrefl _)) (by rw [hcol]; exact if_neg (Nat.lt_irrefl _))) fun B hB => ?_
      rw [Ok_pure]
      exact ⟨hB.next (by rw [hcol]; rfl), g2, g3⟩
  · rintro s' ⟨h1, h2, h3⟩
    exact ⟨h1, h3⟩

/-- row of the expanded system that belongs to a row of `G` -/
noncomputable def _root_.Ecos.Shape.xrow (S : Shape) : Nat → Nat :=
  glue S (fun j => j) (fun k j => S.x.start k + j) (fun l j => S.x.fexv + 3 * l + j)

theorem xrow_lp {S : Shape} {j : Nat} (h : j < S.l) : S.xrow j = j := glue_lp S _ _ _ h
theorem xrow_soc {S : Shape} {k j : Nat} (hk : k < S.ns) (hj : j < S.q k) : S.xrow (S.start k + j) = S.x.start k + j :=
  glue_block S _ _ _ hk hj
theorem xrow_exp {S : Shape} {l j : Nat} (hj : j < 3) : S.xrow (S.fexv + 3 * l + j) = S.x.fexv + 3 * l + j :=
  glue_exp S _ _ _ hj

/-- columns of the matrix that the columns of `Gt` go to -/
noncomputable def Parts.gto (T : Parts F) (j : Nat) : Nat := T.n + T.p + T.S.xrow j

/-- the state while columns of `Gt` are copied: `j` columns of `Gt` done, `c` columns of the matrix done -/
structure GSt (T : Parts F) (s : KC F) (j c : Nat) : Prop where
  b : St T s.B (T.off c) c
  i : s.i = T.jG j
  map : MapTo T s.map T.jG T.S.m j T.gto

theorem gcopy_ok {Gt : SpMat F} (hG : Rep Gt T.n T.S.m T.jG T.iG T.g) {s : KC F} {j c d : Nat} {r : Nat → Nat} {v : Nat → F}
    (h : GSt T s j c) (hj : j < T.S.m) (hc : T.gto j = c) (hN : c < T.N) (hcol : T.col c = T.gcol j d r v) :
    Ok (copyCol Gt j c s) fun s' => St T s'.B (T.off c + T.cG j) (c + 1) ∧ s'.i = T.jG (j + 1) ∧
      MapTo T s'.map T.jG T.S.m (j + 1) T.gto :=
  copyCol_ok hG hj hc hN h.b h.i h.map (by rw [hcol]; exact Nat.le_add_right _ _)
    (fun t ht => by rw [hcol]; exact if_pos ht) fun t ht => by rw [hcol]; exact if_pos ht

/-- the diagonal entry behind a copied column -/
theorem gdiag_ok {Gt : SpMat F} (hG : Rep Gt T.n T.S.m T.jG T.iG T.g) {s : KC F} {idx : Buf Nat} {j c i : Nat}
    {f : Nat → Nat} (h : GSt T s j c) (hj : j < T.S.m) (hc : T.gto j = c) (hN : c < T.N)
    (hcol : T.col c = T.gcol j 1 (fun _ => c) fun _ => -1.0) (hidx : Has' idx i f) (hi : i < idx.size)
    (hf : f i = T.off c + T.cG j) :
    Ok (do
      let t ← copyCol Gt j c s
      let idx ← wr idx i t.B.k
      let B ← t.B.push c (-1.0)
      pure (({ t with B := B } : KC F), idx)) fun r => GSt T r.1 (j + 1) (c + 1) ∧ Has' r.2 (i + 1) f ∧ r.2.size = idx.size := by
  refine Ok.bind (gcopy_ok hG h hj hc hN hcol) ?_
  rintro t ⟨h1, h2, h3⟩
  rw [h1.kk]
  refine Ok.bind (has_snoc hidx hi hf) ?_
  rintro idx' ⟨g1, g2⟩
  have hlen : T.cG j < (T.col c).len := by rw [hcol]; exact Nat.lt_succ_self _
  refine Ok.bind (h1.pushAt hN hlen (by rw [hcol]; exact if_neg (Nat.lt_irrefl _)) (by rw [hcol]; exact if_neg (Nat.lt_irrefl _))) fun B hB => ?_
  rw [Ok_pure]
  exact ⟨⟨hB.next (by rw [hcol]; rfl), h2, h3⟩, g2, g1⟩

theorem Parts.xm (T : Parts F) : T.S.x.m = T.S.m + 2 * T.S.ns := by
  have := T.S.x_start T.S.ns
  unfold Shape.m
  show T.S.x.start T.S.ns + 3 * T.S.ne = _
  unfold Shape.fexv
  omega

theorem kktLp_ok {Gt : SpMat F} (hG : Rep Gt T.n T.S.m T.jG T.iG T.g) {s : KC F} {idx : Buf Nat}
    (h : GSt T s 0 (T.n + T.p)) (hi : idx.size = T.S.l) :
    Ok (kktLp Gt (T.n + T.p) T.S.l (s, idx)) fun r => GSt T r.1 T.S.l (T.n + T.p + T.S.l) ∧
      Holds r.2 T.S.l fun j => T.off (T.n + T.p + j) + T.cG j := by
  unfold kktLp
  have hlm : T.S.l ≤ T.S.m := le_trans (T.S.l_le _) (Nat.le_add_right _ _)
  have hxm := T.xm
  refine loop_ok (fun j r => GSt T r.1 j (T.n + T.p + j) ∧ Has' r.2 j (fun j => T.off (T.n + T.p + j) + T.cG j) ∧ r.2.size = T.S.l)
    (by omega) ⟨h, fun j hj => by omega, hi⟩ ?_ ?_
  · rintro j ⟨s, idx⟩ _ hj ⟨h1, h2, h3⟩
    simp only at h1 h2 h3
    refine (gdiag_ok hG h1 (by omega) (by unfold Parts.gto; rw [xrow_lp hj]) (by unfold Parts.N; omega) (T.col_lp hj) h2
      (by omega) rfl).mono ?_
    rintro r ⟨g1, g2, g3⟩
    exact ⟨g1, g2, g3.trans h3⟩
  · rintro r ⟨h1, h2, h3⟩
    exact ⟨h1, h3, h2⟩

theorem Parts.x_bound (T : Parts F) {k : Nat} (hk : k < T.S.ns) : T.S.x.start k + T.S.q k + 2 ≤ T.S.x.m := by
  have := T.S.x.start_le (k := k) hk
  have : T.S.x.m = T.S.x.fexv + 3 * T.S.ne := rfl
  have : T.S.x.q k = T.S.q k + 2 := rfl
  omega

theorem kktSocD_ok {Gt : SpMat F} (hG : Rep Gt T.n T.S.m T.jG T.iG T.g) {k : Nat} (hk : k < T.S.ns) {s : KC F} {idx : Buf Nat}
    (h : GSt T s (T.S.start k) (T.n + T.p + T.S.x.start k)) (hi : idx.size = T.S.q k) :
    Ok (kktSocD Gt (T.S.start k) (T.n + T.p + T.S.x.start k) (T.S.q k) (s, idx)) fun r =>
      GSt T r.1 (T.S.start (k + 1)) (T.n + T.p + (T.S.x.start k + T.S.q k)) ∧
      Holds r.2 (T.S.q k) fun j => T.off (T.n + T.p + (T.S.x.start k + j)) + T.cG (T.S.start k + j) := by
  unfold kktSocD
  have hxb := T.x_bound hk
  have hle := T.S.start_le hk
  have hm : T.S.m = T.S.fexv + 3 * T.S.ne := rfl
  rw [T.S.start_succ]
  refine loop_ok (fun j r => GSt T r.1 (T.S.start k + j) (T.n + T.p + (T.S.x.start k + j)) ∧
    Has' r.2 j (fun j => T.off (T.n + T.p + (T.S.x.start k + j)) + T.cG (T.S.start k + j)) ∧ r.2.size = T.S.q k)
    (by omega) ⟨h, fun j hj => by omega, hi⟩ ?_ ?_
  · rintro j ⟨s, idx⟩ _ hj ⟨h1, h2, h3⟩
    simp only at h1 h2 h3
    have hcol := T.col_soc hk (j := j) (by omega)
    unfold Parts.socCol at hcol
    rw [if_pos hj] at hcol
    have := gdiag_ok hG h1 (by omega) (by unfold Parts.gto; rw [xrow_soc hk hj]) (by unfold Parts.N; omega)
      (hcol.trans (by rw [Nat.add_assoc (T.n + T.p)])) h2 (by omega) rfl
    simp only [Nat.add_assoc] at this ⊢
    refine this.mono ?_
    rintro r ⟨g1, g2, g3⟩
    exact ⟨g1, g2, g3.trans h3⟩
  · rintro r ⟨h1, h2, h3⟩
    exact ⟨h1, h3, h2⟩

theorem kktSocVU_ok {k : Nat} (hk : k < T.S.ns) (hq : 0 < T.S.q k) {B : KB F}
    (h : St T B (T.off (T.n + T.p + (T.S.x.start k + T.S.q k))) (T.n + T.p + (T.S.x.start k + T.S.q k))) :
    Ok (kktSocVU (T.n + T.p + T.S.x.start k) (T.S.q k) B) fun B' =>
      St T B' (T.off (T.n + T.p + T.S.x.start (k + 1))) (T.n + T.p + T.S.x.start (k + 1)) := by
  unfold kktSocVU
  have hxb := T.x_bound hk
  have hs : T.S.x.start (k + 1) = T.S.x.start k + T.S.q k + 1 + 1 := T.S.x.start_succ k
  have e1 : T.n + T.p + T.S.x.start k + T.S.q k = T.n + T.p + (T.S.x.start k + T.S.q k) := by omega
  have hc1 := T.col_soc hk (j := T.S.q k) (by omega)
  have hc2 := T.col_soc hk (j := T.S.q k + 1) (by omega)
  unfold Parts.socCol at hc1 hc2
  simp only at hc1 hc2
  rw [if_neg (by omega), if_pos trivial] at hc1
  rw [if_neg (by omega), if_neg (by omega)] at hc2
  have hN1 : T.n + T.p + (T.S.x.start k + T.S.q k) < T.N := by unfold Parts.N; omega
  have hN2 : T.n + T.p + (T.S.x.start k + (T.S.q k + 1)) < T.N := by unfold Parts.N; omega
  rw [e1]
  refine Ok.bind (h.col (by omega)) fun B1 h1 => ?_
  refine Ok.bind (h1.pushes (t := 0) hN1 (lo := 1) (hi := T.S.q k) hq (by rw [hc1]; simp only; omega)
    (fun i hi hi' => by rw [hc1]; simp only; omega) (fun i hi hi' => by rw [hc1]; simp only; rw [if_pos (by omega)])) fun B2 h2 => ?_
  refine Ok.bind (h2.pushAt (r := T.n + T.p + (T.S.x.start k + T.S.q k)) (v := -1) hN1 (by rw [hc1]; simp only; omega) (by rw [hc1]; simp only; omega)
    (by rw [hc1]; simp only; rw [if_neg (by omega)])) fun B3 h3 => ?_
  have h4 := h3.next (by rw [hc1]; simp only; omega)
  rw [show T.n + T.p + (T.S.x.start k + T.S.q k) + 1 = T.n + T.p + (T.S.x.start k + (T.S.q k + 1)) by omega] at h4 ⊢
  refine Ok.bind (h4.col (by omega)) fun B5 h5 => ?_
  refine Ok.bind (h5.pushes (t := 0) hN2 (lo := 0) (hi := T.S.q k) (by omega) (by rw [hc2]; simp only; omega)
    (fun i hi hi' => by rw [hc2]; simp only; rw [if_pos (by omega)]; omega) (fun i hi hi' => by rw [hc2]; simp only; rw [if_pos (by omega)])) fun B6 h6 => ?_
  refine (h6.pushAt (v := 1) hN2 (by rw [hc2]; simp only; omega) (by rw [hc2]; simp only; rw [if_neg (by omega)]; omega)
    (by rw [hc2]; simp only; rw [if_neg (by omega)])).mono fun B7 h7 => ?_
  have h8 := h7.next (by rw [hc2]; simp only; omega)
  rw [hs]
  exact h8

/-- the part of a second-order cone that assembly leaves alone -/
structure SocSame (c c' : SoCone F) : Prop where
  eq : c' = { c with Didx := c'.Didx }

theorem kktSocs_ok {Gt : SpMat F} (hG : Rep Gt T.n T.S.m T.jG T.iG T.g) {s : KC F} {arr : Array (SoCone F)}
    (h : GSt T s T.S.l (T.n + T.p + T.S.l)) (hsz : arr.size = T.S.ns)
    (harr : ∀ k, k < T.S.ns → ∃ c, arr[k]? = some c ∧ c.p = T.S.q k ∧ c.Didx.size = T.S.q k ∧ 0 < T.S.q k) :
    Ok (kktSocs Gt (T.n + T.p) T.S.ns (s, arr, T.S.l)) fun r => GSt T r.1 T.S.fexv (T.n + T.p + T.S.x.fexv) ∧
      r.2.1.size = T.S.ns ∧ r.2.2 = T.S.fexv ∧
      ∀ k, k < T.S.ns → ∃ c c', arr[k]? = some c ∧ r.2.1[k]? = some c' ∧ c' = { c with Didx := c'.Didx } ∧
        Holds c'.Didx (T.S.q k) fun j => T.off (T.n + T.p + (T.S.x.start k + j)) + T.cG (T.S.start k + j) := by
  unfold kktSocs
  refine loop_ok (fun l t => GSt T t.1 (T.S.start l) (T.n + T.p + T.S.x.start l) ∧ t.2.1.size = T.S.ns ∧ t.2.2 = T.S.start l ∧
    (∀ k, l ≤ k → t.2.1[k]? = arr[k]?) ∧
    ∀ k, k < l → ∃ c c', arr[k]? = some c ∧ t.2.1[k]? = some c' ∧ c' = { c with Didx := c'.Didx } ∧
        Holds c'.Didx (T.S.q k) fun j => T.off (T.n + T.p + (T.S.x.start k + j)) + T.cG (T.S.start k + j))
    (by omega) ⟨?_, hsz, by simp, fun _ _ => rfl, fun k hk => by omega⟩ ?_ ?_
  · rw [T.S.start_zero, T.S.x.start_zero]; exact h
  · rintro l ⟨s, a, st⟩ _ hl ⟨h1, h2, h3, h4, h5⟩
    simp only at h1 h2 h3 h4 h5
    obtain ⟨c, hc, hp, hd, hq⟩ := harr l hl
    rw [h3]
    simp only
    rw [getIdx_some ((h4 l le_rfl).trans hc), ok_bind_eq, hp, show T.n + T.p + T.S.start l + 2 * l = T.n + T.p + T.S.x.start l by rw [T.S.x_start]; omega]
    refine Ok.bind (kktSocD_ok hG hl h1 hd) ?_
    rintro ⟨s', idx⟩ ⟨g1, g2⟩
    simp only at g1 g2 ⊢
    refine Ok.bind (kktSocVU_ok hl hq g1.b) fun B hB => ?_
    have hlt : l < a.size := by omega
    refine Ok.bind (setIdx_ok hlt) ?_
    rintro a' ⟨b1, b2, b3⟩
    rw [Ok_pure]
    refine ⟨⟨hB, g1.i, g1.map⟩, b1.trans h2, (T.S.start_succ l).symm, fun k hk => ?_, fun k hk => ?_⟩
    · exact (b3 k (by omega)).trans (h4 k (by omega))
    · by_cases e : k = l
      · subst e
        exact ⟨c, _, hc, b2, by simp [hp], g2⟩
      · obtain ⟨u, w, f1, f2, f3⟩ := h5 k (by omega)
        exact ⟨u, w, f1, (b3 k e).trans f2, f3⟩
  · rintro ⟨s, a, st⟩ ⟨h1, h2, h3, -, h5⟩
    exact ⟨h1, h2, h3, h5⟩

theorem kktExps_ok {Gt : SpMat F} (hG : Rep Gt T.n T.S.m T.jG T.iG T.g) {s : KC F} {arr : Array (ExpCone F)}
    (h : GSt T s T.S.fexv (T.n + T.p + T.S.x.fexv)) (hsz : arr.size = T.S.ne)
    (harr : ∀ k, k < T.S.ne → ∃ c, arr[k]? = some c ∧ c.colstart.size = 3) :
    Ok (kktExps Gt T.S.fexv (T.n + T.p + T.S.x.fexv) T.S.ne (s, arr)) fun r => GSt T r.1 T.S.m T.N ∧
      r.2.size = T.S.ne ∧
      ∀ k, k < T.S.ne → ∃ c c', arr[k]? = some c ∧ r.2[k]? = some c' ∧ c' = { c with colstart := c'.colstart } ∧
        Holds c'.colstart 3 fun j => T.off (T.n + T.p + (T.S.x.fexv + 3 * k + j)) + T.cG (T.S.fexv + 3 * k + j) := by
  unfold kktExps
  have hm : T.S.m = T.S.fexv + 3 * T.S.ne := rfl
  have hxm : T.S.x.m = T.S.x.fexv + 3 * T.S.ne := rfl
  refine loop_ok (fun l t => GSt T t.1 (T.S.fexv + 3 * l) (T.n + T.p + (T.S.x.fexv + 3 * l)) ∧ t.2.size = T.S.ne ∧
    (∀ k, l ≤ k → t.2[k]? = arr[k]?) ∧
    ∀ k, k < l → ∃ c c', arr[k]? = some c ∧ t.2[k]? = some c' ∧ c' = { c with colstart := c'.colstart } ∧
        Holds c'.colstart 3 fun j => T.off (T.n + T.p + (T.S.x.fexv + 3 * k + j)) + T.cG (T.S.fexv + 3 * k + j))
    (by omega) ⟨h, hsz, fun _ _ => rfl, fun k hk => by omega⟩ ?_ ?_
  · rintro l ⟨s, a⟩ _ hl ⟨h1, h2, h4, h5⟩
    simp only at h1 h2 h4 h5 ⊢
    obtain ⟨c, hc, hcs⟩ := harr l hl
    rw [getIdx_some ((h4 l le_rfl).trans hc), ok_bind_eq]
    refine Ok.bind (P := fun r => GSt T r.1 (T.S.fexv + 3 * (l + 1)) (T.n + T.p + (T.S.x.fexv + 3 * (l + 1))) ∧
      Holds r.2 3 fun j => T.off (T.n + T.p + (T.S.x.fexv + 3 * l + j)) + T.cG (T.S.fexv + 3 * l + j)) ?_ ?_
    · refine loop_ok (fun j r => GSt T r.1 (T.S.fexv + 3 * l + j) (T.n + T.p + (T.S.x.fexv + 3 * l + j)) ∧ r.2.size = 3 ∧
        Has' r.2 j fun j => T.off (T.n + T.p + (T.S.x.fexv + 3 * l + j)) + T.cG (T.S.fexv + 3 * l + j)) (by omega)
        ⟨h1, hcs, fun j hj => by omega⟩ ?_ ?_
      · rintro j ⟨s, idx⟩ _ hj ⟨g1, g2, g3⟩
        simp only at g1 g2 g3
        unfold kktExpCol
        have hcol : T.col (T.n + T.p + (T.S.x.fexv + 3 * l + j)) = T.expCol l j := T.col_exp hj
        have hN : T.n + T.p + (T.S.x.fexv + 3 * l + j) < T.N := by unfold Parts.N; omega
        unfold Parts.expCol at hcol
        simp only at hcol
        rw [show T.n + T.p + T.S.x.fexv + 3 * l + j = T.n + T.p + (T.S.x.fexv + 3 * l + j) by omega]
        refine Ok.bind (gcopy_ok hG g1 (by omega) (by unfold Parts.gto; rw [xrow_exp hj]) hN hcol) ?_
        rintro t ⟨b1, b2, b3⟩
        rw [b1.kk]
        refine Ok.bind (has_snoc g3 (by omega) rfl) ?_
        rintro idx' ⟨d1, d2⟩
        refine Ok.bind (b1.pushes hN (lo := 0) (hi := j) (by omega) (by rw [hcol]; show _ ≤ T.cG _ + (j + 1); omega)
          (fun i hi hi' => by
            rw [hcol]
            show (if _ then _ else _) = _
            rw [if_neg (by omega), Nat.sub_zero, Nat.add_sub_cancel_left]
            simp only [Nat.add_assoc])
          (fun i hi hi' => by
            rw [hcol]
            show (if _ then _ else _) = _
            rw [if_neg (by omega), Nat.sub_zero, Nat.add_sub_cancel_left, if_pos hi'])) fun B hB => ?_
        refine Ok.bind (hB.pushAt (r := T.n + T.p + (T.S.x.fexv + 3 * l + j)) (v := -1.0) hN (by rw [hcol]; show _ < T.cG _ + (j + 1); omega)
          (by
            rw [hcol]
            show (if _ then _ else _) = _
            rw [if_neg (by omega), Nat.sub_zero, Nat.add_sub_cancel_left]
            omega)
          (by
            rw [hcol]
            show (if _ then _ else _) = _
            rw [if_neg (by omega), Nat.sub_zero, Nat.add_sub_cancel_left, if_neg (by omega)])) fun B' hB' => ?_
        rw [Ok_pure]
        refine ⟨⟨?_, b2, b3⟩, d1.trans g2, d2⟩
        exact hB'.next (by rw [hcol]; show _ = T.cG _ + (j + 1); omega)
      · rintro r ⟨g1, g2, g3⟩
        exact ⟨g1, g2, g3⟩
    · rintro ⟨s', idx⟩ ⟨g1, g2⟩
      simp only at g1 g2 ⊢
      have hlt : l < a.size := by omega
      refine Ok.bind (setIdx_ok hlt) ?_
      rintro a' ⟨b1, b2, b3⟩
      rw [Ok_pure]
      refine ⟨g1, b1.trans h2, fun k hk => ?_, fun k hk => ?_⟩
      · exact (b3 k (by omega)).trans (h4 k (by omega))
      · by_cases e : k = l
        · subst e
          exact ⟨c, _, hc, b2, rfl, g2⟩
        · obtain ⟨u, w, f1, f2, f3⟩ := h5 k (by omega)
          exact ⟨u, w, f1, (b3 k e).trans f2, f3⟩
  · rintro ⟨s, a⟩ ⟨h1, h2, -, h5⟩
    exact ⟨h1, h2, h5⟩

end generic
end Ecos.Asm
