import Verif.Model.Preproc
import Verif.Lemmas.Kkt4

/-!
# Assembly of the KKT matrix: the columns, and the state of the construction
-/
namespace Ecos.Asm

open Ecos Finset Ecos.Fact

set_option linter.unusedSectionVars false

section generic
variable {F : Type} [Zero F] [One F] [Add F] [Sub F] [Mul F] [Div F] [Neg F] [OfScientific F]
  [IntCast F] [PFloat F]

/-- a column: number of entries, their rows and values -/
structure Col (F : Type) where
  len : Nat
  row : Nat → Nat
  val : Nat → F

/-- what the KKT matrix is made of: sizes, cones, the transposed matrices `At` (`n × p`) and `Gt` (`n × m`) in
compressed-column form -/
structure Parts (F : Type) where
  n : Nat
  p : Nat
  S : Shape
  jA : Nat → Nat
  iA : Nat → Nat
  jG : Nat → Nat
  iG : Nat → Nat
  a : Nat → F
  g : Nat → F

/-- the `c` entries given by `r`, `v`, followed by the `d` entries given by `r'`, `v'` -/
def Col.cat (c : Nat) (r : Nat → Nat) (v : Nat → F) (d : Nat) (r' : Nat → Nat) (v' : Nat → F) : Col F where
  len := c + d
  row := fun t => if t < c then r t else r' (t - c)
  val := fun t => if t < c then v t else v' (t - c)

namespace Parts
variable (T : Parts F)

def cA (j : Nat) : Nat := T.jA (j + 1) - T.jA j
def cG (j : Nat) : Nat := T.jG (j + 1) - T.jG j

/-- dimension of the KKT matrix -/
def N : Nat := T.n + T.p + T.S.x.m

/-- column `j` of `Gt` followed by entries of the (3,3) block -/
def gcol (j d : Nat) (r : Nat → Nat) (v : Nat → F) : Col F :=
  Col.cat (T.cG j) (fun t => T.iG (T.jG j + t)) (fun t => T.g (T.jG j + t)) d r v

/-- columns of a second-order cone -/
def socCol (k j : Nat) : Col F :=
  let base := T.n + T.p + T.S.x.start k
  if j < T.S.q k then T.gcol (T.S.start k + j) 1 (fun _ => base + j) fun _ => -1.0
  else if j = T.S.q k then ⟨T.S.q k, fun t => base + (1 + t), fun t => if t < T.S.q k - 1 then 0 else -1⟩
  else ⟨T.S.q k + 1, fun t => if t < T.S.q k then base + t else base + T.S.q k + 1, fun t => if t < T.S.q k then 0 else 1⟩

/-- columns of an exponential cone -/
def expCol (l j : Nat) : Col F :=
  let base := T.n + T.p + (T.S.x.fexv + 3 * l)
  T.gcol (T.S.fexv + 3 * l + j) (j + 1) (fun t => base + t) fun t => if t < j then 0.0 else -1.0

/-- the columns of the KKT matrix -/
noncomputable def col : Nat → Col F :=
  three T.n T.p (fun j => ⟨1, fun _ => j, fun _ => DELTASTAT⟩)
    (fun j => Col.cat (T.cA j) (fun t => T.iA (T.jA j + t)) (fun t => T.a (T.jA j + t)) 1 (fun _ => T.n + j) fun _ => -DELTASTAT)
    (glue T.S.x (fun j => T.gcol j 1 (fun _ => T.n + T.p + j) fun _ => -1.0) T.socCol T.expCol)

/-- position of the first entry of a column -/
noncomputable def off (c : Nat) : Nat := ∑ j ∈ range c, (T.col j).len

/-- row and value of the entry at a position -/
noncomputable def ir (x : Nat) : Nat := (T.col (colOf T.N T.off x)).row (x - T.off (colOf T.N T.off x))
noncomputable def pr (x : Nat) : F := (T.col (colOf T.N T.off x)).val (x - T.off (colOf T.N T.off x))

theorem off_succ (c : Nat) : T.off (c + 1) = T.off c + (T.col c).len := by
  unfold off; rw [sum_range_succ]

theorem off_mono {c d : Nat} (h : c ≤ d) : T.off c ≤ T.off d := by
  induction d with
  | zero => rw [Nat.le_zero.1 h]
  | succ d ih =>
    by_cases e : c = d + 1
    · rw [e]
    · rw [off_succ]
      have := ih (by omega)
      omega

theorem off_csc : CscOk 1 T.N T.off (fun _ => 0) :=
  ⟨by simp [off], fun j _ => T.off_mono (Nat.le_succ j), fun _ _ => by omega⟩

theorem colOf_at {c t : Nat} (hc : c < T.N) (ht : t < (T.col c).len) : colOf T.N T.off (T.off c + t) = c :=
  colOf_eq T.off_csc hc (by omega) (by rw [off_succ]; omega)

theorem ir_at {c t : Nat} (hc : c < T.N) (ht : t < (T.col c).len) : T.ir (T.off c + t) = (T.col c).row t := by
  unfold ir; rw [T.colOf_at hc ht, Nat.add_sub_cancel_left]

theorem pr_at {c t : Nat} (hc : c < T.N) (ht : t < (T.col c).len) : T.pr (T.off c + t) = (T.col c).val t := by
  unfold pr; rw [T.colOf_at hc ht, Nat.add_sub_cancel_left]

theorem lt_off {c t : Nat} (hc : c < T.N) (ht : t < (T.col c).len) : T.off c + t < T.off T.N := by
  have := T.off_mono (c := c + 1) (d := T.N) hc
  rw [off_succ] at this
  omega

/-! ### The columns by kind -/

theorem col_x {j : Nat} (h : j < T.n) : T.col j = ⟨1, fun _ => j, fun _ => DELTASTAT⟩ := by
  unfold col three; rw [if_pos h]

theorem col_y {j : Nat} (h : j < T.p) : T.col (T.n + j) =
    Col.cat (T.cA j) (fun t => T.iA (T.jA j + t)) (fun t => T.a (T.jA j + t)) 1 (fun _ => T.n + j) fun _ => -DELTASTAT := by
  unfold col three; rw [if_neg (by omega), if_pos (by omega), Nat.add_sub_cancel_left]

theorem col_z (i : Nat) : T.col (T.n + T.p + i) =
    glue T.S.x (fun j => T.gcol j 1 (fun _ => T.n + T.p + j) fun _ => -1.0) T.socCol T.expCol i := by
  unfold col three; rw [if_neg (by omega), if_neg (by omega), Nat.sub_sub, Nat.add_sub_cancel_left]

theorem col_lp {j : Nat} (h : j < T.S.l) : T.col (T.n + T.p + j) = T.gcol j 1 (fun _ => T.n + T.p + j) fun _ => -1.0 := by
  rw [col_z, glue_lp T.S.x _ _ _ h]

theorem col_soc {k j : Nat} (hk : k < T.S.ns) (hj : j < T.S.q k + 2) : T.col (T.n + T.p + (T.S.x.start k + j)) = T.socCol k j := by
  rw [col_z]; exact glue_block T.S.x _ _ _ hk hj

theorem col_exp {l j : Nat} (hj : j < 3) : T.col (T.n + T.p + (T.S.x.fexv + 3 * l + j)) = T.expCol l j := by
  rw [col_z]; exact glue_exp T.S.x _ _ _ hj

end Parts

/-! ### The state of the construction -/

variable {T : Parts F}

/-- the arrays hold the first `o` column pointers and the first `k` entries of the matrix -/
structure St (T : Parts F) (B : KB F) (k o : Nat) : Prop where
  kk : B.k = k
  jcs : B.jc.size = T.N + 1
  irs : B.ir.size = T.off T.N
  prs : B.pr.size = T.off T.N
  jc : Has' B.jc o T.off
  ir : Has' B.ir k T.ir
  pr : Has' B.pr k T.pr

theorem has_snoc {α : Type} {b : Buf α} {k : Nat} {g : Nat → α} (h : Has' b k g) (hk : k < b.size) {v : α} (e : g k = v) :
    Ok (wr b k v) fun b' => b'.size = b.size ∧ Has' b' (k + 1) g := by
  rw [wr_eq hk, Ok_ok]
  refine ⟨by simp, fun j hj => ?_⟩
  by_cases hjk : j = k
  · subst hjk; rw [Array.getElem?_setIfInBounds_self_of_lt hk, e]
  · rw [Array.getElem?_setIfInBounds_ne (fun h => hjk h.symm)]
    exact h j (by omega)

theorem St.push {B : KB F} {k o : Nat} (h : St T B k o) (hk : k < T.off T.N) {r : Nat} {v : F} (e1 : T.ir k = r)
    (e2 : T.pr k = v) : Ok (B.push r v) fun B' => St T B' (k + 1) o := by
  unfold KB.push
  rw [h.kk]
  refine Ok.bind (has_snoc h.ir (by rw [h.irs]; exact hk) e1) ?_
  rintro ir ⟨a1, a2⟩
  refine Ok.bind (has_snoc h.pr (by rw [h.prs]; exact hk) e2) ?_
  rintro pr ⟨b1, b2⟩
  rw [Ok_pure]
  exact ⟨rfl, h.jcs, a1.trans h.irs, b1.trans h.prs, h.jc, a2, b2⟩

/-- the next entry of column `c` -/
theorem St.pushAt {B : KB F} {c t o : Nat} (h : St T B (T.off c + t) o) (hc : c < T.N) (ht : t < (T.col c).len) {r : Nat}
    {v : F} (e1 : (T.col c).row t = r) (e2 : (T.col c).val t = v) :
    Ok (B.push r v) fun B' => St T B' (T.off c + (t + 1)) o :=
  h.push (T.lt_off hc ht) ((T.ir_at hc ht).trans e1) ((T.pr_at hc ht).trans e2)

theorem St.col {B : KB F} {c : Nat} (h : St T B (T.off c) c) (hc : c ≤ T.N) :
    Ok (B.col c) fun B' => St T B' (T.off c) (c + 1) := by
  unfold KB.col
  rw [h.kk]
  refine Ok.bind (has_snoc h.jc (by rw [h.jcs]; omega) rfl) ?_
  rintro jc ⟨a1, a2⟩
  rw [Ok_pure]
  exact ⟨rfl, a1.trans h.jcs, h.irs, h.prs, a2, h.ir, h.pr⟩

theorem St.next {B : KB F} {c t : Nat} (h : St T B (T.off c + t) (c + 1)) (ht : t = (T.col c).len) :
    St T B (T.off (c + 1)) (c + 1) := by
  rw [T.off_succ, ← ht]; exact h

/-- a run of entries of column `c` -/
theorem St.pushes {B : KB F} {c t o : Nat} (h : St T B (T.off c + t) o) (hc : c < T.N) {lo hi : Nat} (hle : lo ≤ hi)
    (ht : t + (hi - lo) ≤ (T.col c).len) {r : Nat → Nat} {v : Nat → F}
    (e1 : ∀ i, lo ≤ i → i < hi → (T.col c).row (t + (i - lo)) = r i)
    (e2 : ∀ i, lo ≤ i → i < hi → (T.col c).val (t + (i - lo)) = v i) :
    Ok (loop lo hi B fun i B => B.push (r i) (v i)) fun B' => St T B' (T.off c + (t + (hi - lo))) o := by
  refine loop_ok (fun i B' => St T B' (T.off c + (t + (i - lo))) o) hle (by simpa using h) ?_ (fun _ h => h)
  intro i B' hlo hi' h'
  have := h'.pushAt hc (by omega) (e1 i hlo hi') (e2 i hlo hi')
  rwa [show t + (i - lo) + 1 = t + (i + 1 - lo) by omega] at this

/-! ### Copying a column of `At` or `Gt` -/

/-- the map sends the entries of the first `J` columns of the transposed matrix to their positions in the KKT matrix:
column `j` goes to the beginning of column `cf j` -/
structure MapTo (T : Parts F) (b : Buf Nat) (jT : Nat → Nat) (m J : Nat) (cf : Nat → Nat) : Prop where
  sz : b.size = jT m
  at_ : ∀ j, j < J → Has b (jT j) (jT (j + 1) - jT j) fun t => T.off (cf j) + t

theorem copyCol_ok {M : SpMat F} {n m : Nat} {jT iT : Nat → Nat} {vT : Nat → F} (hM : Rep M n m jT iT vT) {s : KC F}
    {j c : Nat} {cf : Nat → Nat} (hj : j < m) (hcf : cf j = c) (hc : c < T.N) (hs : St T s.B (T.off c) c) (hi : s.i = jT j)
    (hm : MapTo T s.map jT m j cf) (hlen : jT (j + 1) - jT j ≤ (T.col c).len)
    (e1 : ∀ t, t < jT (j + 1) - jT j → (T.col c).row t = iT (jT j + t))
    (e2 : ∀ t, t < jT (j + 1) - jT j → (T.col c).val t = vT (jT j + t)) :
    Ok (copyCol M j c s) fun s' => St T s'.B (T.off c + (jT (j + 1) - jT j)) (c + 1) ∧ s'.i = jT (j + 1) ∧
      MapTo T s'.map jT m (j + 1) cf := by
  have hmono := hM.ok.mono j hj
  have htop : jT (j + 1) ≤ jT m := hM.ok.mono' (by omega) le_rfl
  unfold copyCol
  rw [hM.hjc.rd (by omega), ok_bind_eq, hM.hjc.rd (by omega), ok_bind_eq, if_pos hmono]
  refine Ok.bind (hs.col (by omega)) fun B hB => ?_
  refine loop_ok (fun i s' => St T s'.B (T.off c + (i - jT j)) (c + 1) ∧ s'.i = i ∧
    Seg s.map s'.map (jT j) (i - jT j) fun t => T.off c + t) hmono ⟨by simpa using hB, hi, by
      rw [Nat.sub_self]; exact Seg.refl0 _ _ _⟩ ?_ ?_
  · rintro i s' hlo hhi ⟨h1, h2, h3⟩
    unfold copyEntry
    rw [h2, hM.hir.rd (by omega), ok_bind_eq, hM.hpr.rd (by omega), ok_bind_eq, h1.kk]
    refine Ok.bind (wr_seg (by rw [h3.size, hm.sz]; omega)) fun map hmap => ?_
    refine Ok.bind (h1.pushAt hc (by omega) ((e1 (i - jT j) (by omega)).trans (by rw [Nat.add_sub_cancel' hlo]))
      ((e2 (i - jT j) (by omega)).trans (by rw [Nat.add_sub_cancel' hlo]))) fun B' hB' => ?_
    rw [Ok_pure]
    refine ⟨by rwa [show i + 1 - jT j = i - jT j + 1 by omega], rfl, ?_⟩
    rw [show i + 1 - jT j = i - jT j + 1 by omega]
    have hmap' : Seg s'.map map (jT j + (i - jT j)) 1 fun _ => T.off c + (i - jT j) := by
      rw [Nat.add_sub_cancel' hlo]; exact hmap
    refine (h3.append hmap').congr fun t ht => ?_
    split
    · rfl
    · rw [show t = i - jT j by omega]
  · rintro s' ⟨h1, h2, h3⟩
    refine ⟨h1, h2, h3.size.trans hm.sz, fun i hi => ?_⟩
    by_cases e : i = j
    · subst e; rw [hcf]; exact h3.inside
    · have : jT (i + 1) ≤ jT j := hM.ok.mono' (by omega) (by omega)
      have := hM.ok.mono i (by omega)
      exact h3.has (hm.at_ i (by omega)) (Or.inl (by omega))

end generic
end Ecos.Asm
