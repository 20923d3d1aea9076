import Verif.Lemmas.Asm4
import Verif.Props.Setup

/-!
# What `ECOS_setup` leaves in the workspace
-/
namespace Ecos.Asm

open Ecos Finset Ecos.Fact

set_option linter.unusedSectionVars false

section generic
variable {F : Type} [Zero F] [One F] [Add F] [Sub F] [Mul F] [Div F] [Neg F] [OfScientific F]
  [IntCast F] [PFloat F]

/-- sort key of the entries of the permuted matrix -/
noncomputable def Parts.key (P : Parts F) (π : Nat → Nat) : Nat → Nat := permKey P.N P.off P.ir π
/-- position in the permuted matrix -/
noncomputable def Parts.pk (P : Parts F) (π : Nat → Nat) : Nat → Nat := csPos (P.key π) (P.off P.N)
/-- column pointers of the permuted matrix -/
noncomputable def Parts.ap (P : Parts F) (π : Nat → Nat) : Nat → Nat := csStart (P.key π) (P.off P.N)

/-- the KKT struct as set-up leaves it, except for the values of the matrix: dimensions, ordering, elimination tree, maps; it
holds some numbers `ax` -/
structure KMade (K : Kkt F) (P : Parts F) (π ai q : Nat → Nat) (ax : Nat → F) (sg : Nat → Int) : Prop where
  pinv : Holds K.Pinv P.N π
  perm : IsPerm P.N π
  ok : KktOk K P.N (P.ap π) ai ax q sg
  rep : Rep K.PKPt P.N P.N (P.ap π) ai ax
  pk : Holds K.PK (P.off P.N) (P.pk π)
  ai_eq : ∀ k, k < P.off P.N → ai (P.pk π k) = permRow (π (P.ir k)) (π (colOf P.N P.off k))
  sign : ∀ i, i < P.N → sg (π i) = signs P.n P.p P.S i
  d : K.D.size = P.N
  r1 : K.RHS1.size = P.N
  r2 : K.RHS2.size = P.N
  x1 : K.dx1.size = P.n
  x2 : K.dx2.size = P.n
  y1 : K.dy1.size = P.p
  y2 : K.dy2.size = P.p
  z1 : K.dz1.size = P.S.m
  z2 : K.dz2.size = P.S.m
  mem : KMem K P.N (lpOf (Row (P.ap π) ai q) P.N P.N)

/-- the permutation is the inverse of the one the ordering gives for the pattern -/
def Ordered (amd : Nat → Buf Nat → Buf Nat → Option (Buf Nat)) (P : Parts F) (π : Nat → Nat) : Prop :=
  ∀ jc ir, Holds jc (P.N + 1) P.off → Holds ir (P.off P.N) P.ir →
    ∃ Pb pf, amd P.N jc ir = some Pb ∧ Holds Pb P.N pf ∧ ∀ i, i < P.N → π (pf i) = i

/-- sizes of the arrays of the workspace -/
structure Sizes (w : Work F) (T : Pat) (S : Shape) : Prop where
  n : w.n = T.n
  m : w.m = T.m
  p : w.p = T.p
  D : w.D = S.l + S.ns + 3 * S.ne
  x : w.x.size = T.n
  y : w.y.size = T.p
  z : w.z.size = T.m
  s : w.s.size = T.m
  bx : w.bestX.size = T.n
  b_y : w.bestY.size = T.p
  bz : w.bestZ.size = T.m
  bs : w.bestS.size = T.m
  rx : w.rx.size = T.n
  ry : 0 < T.p → ∃ r, w.ry = some r ∧ r.size = T.p
  rz : w.rz.size = T.m

/-- problem data, equilibration factors and maps -/
structure DataIs (w : Work F) (T : Pat) (S : Shape) (P : Parts F) (a g c b h x y z : Nat → F) : Prop where
  A : RepA w.A T a
  G : Rep w.G T.m T.n T.jcG T.irG g
  c : Holds w.c T.n c
  b : Holds w.b T.p b
  h : Holds w.h T.m h
  xe : Holds w.xequil T.n x
  ye : Holds w.Aequil T.p y
  ze : Holds w.Gequil T.m z
  ua : Uniform S z
  mA : T.hasA → ∃ m, w.AtoK = some m ∧ Holds m T.nA (posA P T)
  mG : Holds w.GtoK T.nG (posG P T)

/-- the arrays the caller hands to `ECOS_setup` hold a problem with the given pattern -/
structure Given (T : Pat) (S : Shape) (G3 A3 : Mat3 F) (qb : Buf Nat) (cb hb bb : Buf F) (a0 g0 c0 h0 b0 : Nat → F) : Prop where
  q : Holds qb S.ns S.q
  A : if T.hasA then ∃ pr jc ir, A3 = ⟨some pr, some jc, some ir⟩ ∧ Holds jc (T.n + 1) T.jcA ∧ Holds ir (T.jcA T.n) T.irA ∧
      Holds pr (T.jcA T.n) a0 else A3.pr = none ∨ A3.jc = none ∨ A3.ir = none
  G : ∃ pr jc ir, G3 = ⟨some pr, some jc, some ir⟩ ∧ Holds jc (T.n + 1) T.jcG ∧ Holds ir (T.jcG T.n) T.irG ∧
      Holds pr (T.jcG T.n) g0
  c : Holds cb T.n c0
  h : Holds hb T.m h0
  b : Holds bb T.p b0

theorem create_ok {m n : Nat} {jc ir : Nat → Nat} {pr : Nat → F} {bj bi : Buf Nat} {bp : Buf F} (hj : Holds bj (n + 1) jc)
    (hi : Holds bi (jc n) ir) (hp : Holds bp (jc n) pr) (ok : CscOk m n jc ir) :
    Ok (ecoscreateSparseMatrix m n (jc n) bj bi bp) fun M => Rep M m n jc ir pr := by
  unfold ecoscreateSparseMatrix
  rw [if_neg (by rw [hj.size]; omega)]
  refine Ok.bind (wr_seg (by rw [hj.size]; omega)) fun b hb => ?_
  rw [Ok_pure]
  refine ⟨rfl, rfl, rfl, ⟨by rw [hb.size, hj.size], fun i hi => ?_⟩, hi, hp, ok⟩
  by_cases e : i = n
  · subst e
    exact hb.inside 0 (by omega)
  · rw [hb.outside i (by omega)]
    exact hj.2 i hi

theorem setupA_ok {T : Pat} {S : Shape} {A3 : Mat3 F} {a0 : Nat → F} (hP : PatGood T S)
    (h : if T.hasA then ∃ pr jc ir, A3 = ⟨some pr, some jc, some ir⟩ ∧ Holds jc (T.n + 1) T.jcA ∧ Holds ir (T.jcA T.n) T.irA ∧
      Holds pr (T.jcA T.n) a0 else A3.pr = none ∨ A3.jc = none ∨ A3.ir = none) :
    Ok (setupA T.p T.n A3) fun A => RepA A T a0 := by
  unfold setupA RepA
  split at h
  · rename_i hA
    obtain ⟨pr, jc, ir, rfl, h1, h2, h3⟩ := h
    simp only
    rw [h1.rd (by omega), ok_bind_eq]
    simp only [hA, if_true]
    refine Ok.bind (create_ok h1 h2 h3 (hP.a hA)) fun M hM => ?_
    rw [Ok_pure]
    exact ⟨M, rfl, hM⟩
  · rename_i hA
    simp only [hA]
    split
    · rename_i e1 e2 e3
      rw [e1, e2, e3] at h
      simp at h
    · rw [Ok_pure]
      exact ⟨rfl, hP.noA (by simpa using hA)⟩

theorem setupG_ok {T : Pat} {S : Shape} {G3 : Mat3 F} {g0 : Nat → F} (hP : PatGood T S)
    (h : ∃ pr jc ir, G3 = ⟨some pr, some jc, some ir⟩ ∧ Holds jc (T.n + 1) T.jcG ∧ Holds ir (T.jcG T.n) T.irG ∧
      Holds pr (T.jcG T.n) g0) :
    Ok (setupG T.m T.n G3) fun G => Rep G T.m T.n T.jcG T.irG g0 := by
  obtain ⟨pr, jc, ir, rfl, h1, h2, h3⟩ := h
  unfold setupG
  simp only
  rw [h1.rd (by omega), ok_bind_eq]
  exact create_ok h1 h2 h3 hP.g

theorem sum_q (S : Shape) : ∑ i ∈ range S.ns, S.q i + S.l = S.fexv := by
  have := S.start_add S.ns
  simp only [Nat.add_zero] at this
  unfold Shape.fexv
  omega

/-- the cones set-up starts from -/
def freshCone (S : Shape) (arr : Array (SoCone F)) : Cone F where
  lpc := { p := S.l, w := malloc S.l, v := malloc S.l, kktIdx := malloc S.l }
  soc := arr
  nsoc := S.ns
  expc := Array.replicate S.ne newExp
  nexc := S.ne
  fexv := S.fexv

theorem newCone {S : Shape} (hpos : ∀ k, k < S.ns → 0 < S.q k) {arr : Array (SoCone F)}
    (h : arr.toList = (List.range S.ns).map fun i => newSoc (S.q i)) :
    ConeNew (freshCone S arr) S := by
  have hsz : arr.size = S.ns := by
    rw [← Array.length_toList, h, List.length_map, List.length_range]
  have hat : ∀ k, k < S.ns → arr[k]? = some (newSoc (S.q k)) := by
    intro k hk
    rw [← Array.getElem?_toList, h, List.getElem?_map, List.getElem?_range hk]
    rfl
  refine ⟨⟨rfl, rfl, fun k hk => ⟨_, hat k hk, rfl⟩, hpos, rfl, rfl, hsz, Array.size_replicate⟩, malloc_size _, malloc_size _, malloc_size _,
    fun k c hk hc => ?_, fun k c hk hc => ?_⟩
  · have hc' : arr[k]? = some c := hc
    rw [hat k hk] at hc'
    cases hc'
    exact ⟨malloc_size _, malloc_size _, malloc_size _, malloc_size _⟩
  · have hc' : (Array.replicate S.ne (newExp : ExpCone F))[k]? = some c := hc
    rw [Array.getElem?_replicate, if_pos hk] at hc'
    cases hc'
    exact ⟨malloc_size _, malloc_size _, malloc_size _⟩

/-- the whole set-up: with every ordering that the ordering routine may return, the result is a complete workspace (or the routine
has failed) -/
theorem ecosSetup_ok {amd : Nat → Buf Nat → Buf Nat → Option (Buf Nat)}
    (hamd : ∀ N jc ir P, amd N jc ir = some P → ∃ pf, Holds P N pf ∧ IsPerm N pf) {T : Pat} {S : Shape} {G3 A3 : Mat3 F} {qb : Buf Nat}
    {cb hb bb : Buf F} {a0 g0 c0 h0 b0 : Nat → F} (hP : PatGood T S) (hin : Given T S G3 A3 qb cb hb bb a0 g0 c0 h0 b0)
    {PO P0 P1 : F → Prop} {R : F → F → F → F → Prop} (hR : EqPred PO P0 P1 R)
    (oa : ∀ k, T.hasA → k < T.jcA T.n → PO (a0 k) := by intros; trivial) (og : ∀ k, k < T.jcG T.n → PO (g0 k) := by intros; trivial) :
    Ok (ecosSetup amd T.n T.m T.p S.l S.ns qb S.ne G3 A3 cb hb bb) fun r => ∃ a g x y z,
      (∀ i, i < T.n → P1 (x i)) ∧ (∀ i, i < T.p → P1 (y i)) ∧ (∀ i, i < T.m → P1 (z i)) ∧ Uniform S z ∧
      (∀ k, T.hasA → k < T.jcA T.n → R (a0 k) (y (T.irA k)) (x (colOf T.n T.jcA k)) (a k)) ∧
      (∀ k, k < T.jcG T.n → R (g0 k) (z (T.irG k)) (x (colOf T.n T.jcG k)) (g k)) ∧
      match r with
      | .dims => False
      | .amd A G b h => RepA A T a ∧ Rep G T.m T.n T.jcG T.irG g ∧ Holds b T.p (fun i => b0 i / y i) ∧ Holds h T.m (fun i => h0 i / z i)
      | .ok w => Sizes w T S ∧ DataIs w T S (partsOf T S a g) a g c0 (fun i => b0 i / y i) (fun i => h0 i / z i) x y z ∧
          ConeWF w.C S (partsOf T S a g).ix ∧ w.stgs = defaultSettings ∧ EqRun T S a0 g0 b0 h0 (w.eqs, w.b, w.h) ∧
          ∃ π ai q ax sg, KMade w.KKT (partsOf T S a g) π ai q ax sg ∧ Ordered amd (partsOf T S a g) π ∧
          ∀ k, k < (partsOf T S a g).off (partsOf T S a g).N → ax ((partsOf T S a g).pk π k) = (partsOf T S a g).pr k := by
  unfold ecosSetup
  refine Ok.bind (newSocs_spec hin.q) ?_
  rintro soc ⟨hs1, hs2⟩
  have hf : soc.2 + S.l = S.fexv := by rw [hs2]; exact sum_q S
  have hm : soc.2 + S.l + 3 * S.ne = T.m := by rw [hf, ← hP.m]; rfl
  rw [if_neg (by simpa using hm)]
  refine Ok.bind (setupA_ok hP hin.A) fun A hA => ?_
  refine Ok.bind (setupG_ok hP hin.G) fun G hG => ?_
  rw [hf]
  refine Ok.bind (setupPre_ok hP (newCone hP.pos hs1) hA hG hin.b hin.h hR oa og) ?_
  rintro r ⟨a, g, x, y, z, e1, e2, e3, e4, e5, e6, e7, e8, e9, e10, e11, e12, u1, u2, u3, u4, u5, u6⟩
  have hT := hP.parts (a := a) (g := g)
  split
  · rw [Ok_pure]
    exact ⟨a, g, x, y, z, e5, e6, e7, e8, e9, e10, e1.A, e1.G, e11, e12⟩
  · rename_i Pb hPb
    obtain ⟨pf, hpf, hperm⟩ := hamd _ _ _ _ hPb
    rw [u1.n_eq] at hpf hperm
    refine Ok.bind (setupKkt_ok u1 ((partsOf T S a g).upper hT) u2.2 hpf hperm) ?_
    rintro K ⟨π, ai, q, ax, sg', k1, k2, k3, -, k5, k6, k7, k8, k9, k10, -, -, k13, k14, k15, k16, k17, k18, k19, k20, k21, k22⟩
    rw [Ok_pure]
    refine ⟨a, g, x, y, z, e5, e6, e7, e8, e9, e10, ?_, ?_, u3, rfl, u6, π, ai, q, ax, sg', ?_, ?_, k10⟩
    · refine ⟨rfl, rfl, rfl, rfl, malloc_size _, malloc_size _, malloc_size _, malloc_size _, malloc_size _, malloc_size _, malloc_size _,
        malloc_size _, malloc_size _, fun h => ⟨malloc T.p, if_neg (by omega), malloc_size _⟩, malloc_size _⟩
    · exact ⟨e1.A, e1.G, hin.c, e11, e12, e2, e3, e4, e8, u4, u5⟩
    · exact ⟨k1, k2, k5, k7, k8, k9, k6, k13, k14, k15, k16, k17, k18, k19, by rw [k20]; exact hP.m.symm, by rw [k21]; exact hP.m.symm, k22⟩
    · intro jc ir hj hi
      refine ⟨Pb, pf, ?_, hpf, k3⟩
      rw [hj.same u1.hjc, hi.same u1.hir, ← hPb, u1.n_eq]

end generic
end Ecos.Asm
