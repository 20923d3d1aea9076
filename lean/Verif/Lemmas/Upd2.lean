import Verif.Lemmas.Upd1

/-!
# `ECOS_updateData`: new values of `A` and `G` in the permuted KKT matrix
-/
namespace Ecos.Asm

open Ecos Finset Ecos.Fact

set_option linter.unusedSectionVars false

section generic
variable {F : Type} [Zero F] [One F] [Add F] [Sub F] [Mul F] [Div F] [Neg F] [OfScientific F]
  [IntCast F] [PFloat F]

/-! ### The pattern does not depend on the values -/

/-- the same pattern with other values -/
def Parts.re (P : Parts F) (a g : Nat → F) : Parts F := { P with a := a, g := g }

theorem Parts.re_col (P : Parts F) (a g : Nat → F) (c : Nat) :
    ((P.re a g).col c).len = (P.col c).len ∧ ((P.re a g).col c).row = (P.col c).row := by
  unfold Parts.col three
  show ((if c < P.n then _ else if c < P.n + P.p then _ else _ : Col F)).len = _ ∧ _
  by_cases h1 : c < P.n
  · have h1' : c < (P.re a g).n := h1
    rw [if_pos h1, if_pos h1', if_pos h1]
    exact ⟨rfl, rfl⟩
  · have h1' : ¬ c < (P.re a g).n := h1
    rw [if_neg h1, if_neg h1', if_neg h1]
    by_cases h2 : c < P.n + P.p
    · have h2' : c < (P.re a g).n + (P.re a g).p := h2
      rw [if_pos h2, if_pos h2', if_pos h2]
      exact ⟨rfl, rfl⟩
    · have h2' : ¬ c < (P.re a g).n + (P.re a g).p := h2
      rw [if_neg h2, if_neg h2', if_neg h2]
      show (glue P.S.x _ _ _ (c - P.n - P.p) : Col F).len = _ ∧ (glue P.S.x _ _ _ (c - P.n - P.p) : Col F).row = _
      unfold glue
      split
      · exact ⟨rfl, rfl⟩
      · split
        · unfold Parts.socCol
          simp only
          show (if _ < P.S.q _ then _ else if _ = P.S.q _ then _ else _ : Col F).len = _ ∧
            (if _ < P.S.q _ then _ else if _ = P.S.q _ then _ else _ : Col F).row = _
          split
          · exact ⟨rfl, rfl⟩
          · split
            · exact ⟨rfl, rfl⟩
            · exact ⟨rfl, rfl⟩
        · exact ⟨rfl, rfl⟩

theorem Parts.re_off (P : Parts F) (a g : Nat → F) : (P.re a g).off = P.off := by
  funext c
  unfold Parts.off
  exact sum_congr rfl fun j _ => (P.re_col a g j).1

theorem Parts.re_N (P : Parts F) (a g : Nat → F) : (P.re a g).N = P.N := rfl

theorem Parts.re_ir (P : Parts F) (a g : Nat → F) : (P.re a g).ir = P.ir := by
  funext x
  unfold Parts.ir
  rw [P.re_off, P.re_N, (P.re_col a g _).2]

theorem Parts.re_gc (P : Parts F) (a g : Nat → F) : (P.re a g).gc = P.gc := rfl

theorem Parts.re_ix (P : Parts F) (a g : Nat → F) : (P.re a g).ix = P.ix := by
  unfold Parts.ix
  rw [P.re_off]
  rfl

theorem Parts.re_pk (P : Parts F) (a g : Nat → F) : (P.re a g).pk = P.pk := by
  unfold Parts.pk Parts.key
  rw [P.re_off, P.re_ir, P.re_N]

theorem Parts.re_ap (P : Parts F) (a g : Nat → F) : (P.re a g).ap = P.ap := by
  unfold Parts.ap Parts.key
  rw [P.re_off, P.re_ir, P.re_N]

theorem Parts.re_withV (P : Parts F) (a g : Nat → F) : (P.re a g).withV = P.withV := by
  unfold Parts.withV
  rw [P.re_off, P.re_gc, P.re_N]
  rfl

variable {T : Pat} {S : Shape}

theorem partsOf_re (a g a' g' : Nat → F) :
    partsOf T S a' g' = (partsOf T S a g).re (fun q => a' (csInv T.irA T.nA q)) fun q => g' (csInv T.irG T.nG q) := rfl

theorem off_same (a g a' g' : Nat → F) : (partsOf T S a' g').off = (partsOf T S a g).off := by rw [partsOf_re a g]; exact Parts.re_off _ _ _
theorem ir_same (a g a' g' : Nat → F) : (partsOf T S a' g').ir = (partsOf T S a g).ir := by rw [partsOf_re a g]; exact Parts.re_ir _ _ _
theorem ix_same (a g a' g' : Nat → F) : (partsOf T S a' g').ix = (partsOf T S a g).ix := by rw [partsOf_re a g]; exact Parts.re_ix _ _ _
theorem pk_same (a g a' g' : Nat → F) : (partsOf T S a' g').pk = (partsOf T S a g).pk := by rw [partsOf_re a g]; exact Parts.re_pk _ _ _
theorem ap_same (a g a' g' : Nat → F) : (partsOf T S a' g').ap = (partsOf T S a g).ap := by rw [partsOf_re a g]; exact Parts.re_ap _ _ _
theorem withV_same (a g a' g' : Nat → F) : (partsOf T S a' g').withV = (partsOf T S a g).withV := by
  rw [partsOf_re a g]; exact Parts.re_withV _ _ _
theorem posA_same (a g a' g' : Nat → F) : posA (partsOf T S a' g') T = posA (partsOf T S a g) T := by
  funext k; unfold posA; rw [off_same a g]
theorem posG_same (a g a' g' : Nat → F) : posG (partsOf T S a' g') T = posG (partsOf T S a g) T := by
  funext k; unfold posG; rw [off_same a g]; rfl

/-! ### Where the entries of `A` and `G` are -/

variable {a g : Nat → F}

/-- position of the (3,3) block -/
def Parts.isV (P : Parts F) (x : Nat) : Prop :=
  P.n + P.p ≤ colOf P.N P.off x ∧ P.gc (colOf P.N P.off x - (P.n + P.p)) ≤ x - P.off (colOf P.N P.off x)

theorem Parts.col_gto {P : Parts F} {j : Nat} (hj : j < P.S.m) : P.gto j < P.N ∧ P.S.xrow j < P.S.x.m ∧ P.gc (P.S.xrow j) = P.cG j ∧
    P.cG j < (P.col (P.gto j)).len ∧ ∀ t, t < P.cG j → (P.col (P.gto j)).val t = P.g (P.jG j + t) := by
  have hN : P.N = P.n + P.p + P.S.x.m := rfl
  have hxm : P.S.x.m = P.S.x.fexv + 3 * P.S.ne := rfl
  have hle : P.S.l ≤ P.S.x.fexv := P.S.x.l_le P.S.ns
  have key : ∀ (c : Nat) (d : Nat) (r : Nat → Nat) (v : Nat → F), 0 < d → P.col (P.gto j) = P.gcol j d r v →
      P.cG j < (P.col (P.gto j)).len ∧ ∀ t, t < P.cG j → (P.col (P.gto j)).val t = P.g (P.jG j + t) := by
    intro c d r v hd e
    rw [e]
    refine ⟨?_, fun t ht => if_pos ht⟩
    show _ < P.cG j + d
    omega
  rcases P.S.m_cases hj with h | ⟨k, i, hk, hi, e⟩ | ⟨l, i, hl, hi, e⟩
  · have e1 : P.S.xrow j = j := xrow_lp h
    have e2 : P.gto j = P.n + P.p + j := by unfold Parts.gto; rw [e1]
    refine ⟨by omega, by omega, by rw [e1]; exact P.gc_lp h, key 0 1 _ _ (by omega) (by rw [e2]; exact P.col_lp h)⟩
  · have e1 : P.S.xrow j = P.S.x.start k + i := by rw [e]; exact xrow_soc hk hi
    have e2 : P.gto j = P.n + P.p + (P.S.x.start k + i) := by unfold Parts.gto; rw [e1]
    have hxb := P.x_bound hk
    refine ⟨by omega, by omega, by rw [e1, e]; exact P.gc_soc hk hi, key 0 1 (fun _ => P.n + P.p + P.S.x.start k + i) (fun _ => -1.0) (by omega) ?_⟩
    rw [e2, P.col_soc hk (by omega), e]
    unfold Parts.socCol
    simp only
    rw [if_pos hi]
  · have e1 : P.S.xrow j = P.S.x.fexv + 3 * l + i := by rw [e]; exact xrow_exp hi
    have e2 : P.gto j = P.n + P.p + (P.S.x.fexv + 3 * l + i) := by unfold Parts.gto; rw [e1]
    refine ⟨by omega, by omega, by rw [e1, e]; exact P.gc_exp hi, key 0 (i + 1) _ _ (by omega) (by rw [e2, P.col_exp hi, e]; rfl)⟩

theorem posA_facts (hP : PatGood T S) {k : Nat} (hk : k < T.nA) :
    posA (partsOf T S a g) T k < (partsOf T S a g).off (partsOf T S a g).N ∧ (partsOf T S a g).pr (posA (partsOf T S a g) T k) = a k := by
  have hA : T.hasA := by
    by_contra h
    rw [PatGood.nA_none (by simpa using h)] at hk
    omega
  have hr : T.irA k < T.p := (hP.a hA).rows k (by rw [PatGood.nA_of hA] at hk; exact hk)
  have h1 := csPos_ge (κ := T.irA) (N := T.nA) k
  have h2 := csPos_lt (κ := T.irA) hk
  have hN : (partsOf T S a g).N = T.n + T.p + S.x.m := rfl
  have hcol := (partsOf T S a g).col_y (j := T.irA k) hr
  have hc : (partsOf T S a g).cA (T.irA k) = csStart T.irA T.nA (T.irA k + 1) - csStart T.irA T.nA (T.irA k) := rfl
  have hn : (partsOf T S a g).n = T.n := rfl
  rw [hn] at hcol
  have hlen : csPos T.irA T.nA k - csStart T.irA T.nA (T.irA k) < ((partsOf T S a g).col (T.n + T.irA k)).len := by
    rw [hcol]
    show _ < (partsOf T S a g).cA (T.irA k) + 1
    omega
  unfold posA
  refine ⟨(partsOf T S a g).lt_off (by omega) hlen, ?_⟩
  rw [(partsOf T S a g).pr_at (by omega) hlen, hcol]
  show (if _ then _ else _) = _
  rw [if_pos (by omega)]
  show a (csInv T.irA T.nA (csStart T.irA T.nA (T.irA k) + (csPos T.irA T.nA k - csStart T.irA T.nA (T.irA k)))) = a k
  rw [show csStart T.irA T.nA (T.irA k) + (csPos T.irA T.nA k - csStart T.irA T.nA (T.irA k)) = csPos T.irA T.nA k by omega, csInv_pos hk]

theorem posG_facts (hP : PatGood T S) {k : Nat} (hk : k < T.nG) :
    posG (partsOf T S a g) T k < (partsOf T S a g).off (partsOf T S a g).N ∧ (partsOf T S a g).pr (posG (partsOf T S a g) T k) = g k := by
  have hr : T.irG k < S.m := by rw [hP.m]; exact hP.g.rows k hk
  have h1 := csPos_ge (κ := T.irG) (N := T.nG) k
  have h2 := csPos_lt (κ := T.irG) hk
  obtain ⟨c1, c2, c3, c4, c5⟩ := (partsOf T S a g).col_gto (j := T.irG k) hr
  have hc : (partsOf T S a g).cG (T.irG k) = csStart T.irG T.nG (T.irG k + 1) - csStart T.irG T.nG (T.irG k) := rfl
  unfold posG
  refine ⟨(partsOf T S a g).lt_off c1 (by omega), ?_⟩
  rw [(partsOf T S a g).pr_at c1 (by omega), c5 _ (by omega)]
  show g (csInv T.irG T.nG (csStart T.irG T.nG (T.irG k) + (csPos T.irG T.nG k - csStart T.irG T.nG (T.irG k)))) = g k
  rw [show csStart T.irG T.nG (T.irG k) + (csPos T.irG T.nG k - csStart T.irG T.nG (T.irG k)) = csPos T.irG T.nG k by omega, csInv_pos hk]

/-- every position belongs to the (3,3) block, to `A`, to `G`, or holds a value that does not depend on the matrices -/
theorem cover (hP : PatGood T S) {x : Nat} (hx : x < (partsOf T S a g).off (partsOf T S a g).N) :
    (partsOf T S a g).isV x ∨ (∃ k, k < T.nA ∧ posA (partsOf T S a g) T k = x) ∨ (∃ k, k < T.nG ∧ posG (partsOf T S a g) T k = x) ∨
      ∀ a' g', (partsOf T S a' g').pr x = (partsOf T S a g).pr x := by
  have hN : (partsOf T S a g).N = T.n + T.p + S.x.m := rfl
  have hxm : S.x.m = S.x.fexv + 3 * S.ne := rfl
  obtain ⟨c, t, hc, ht, rfl⟩ := (partsOf T S a g).at_ hx
  have hval : ∀ a' g' : Nat → F, (partsOf T S a' g').pr ((partsOf T S a g).off c + t) = ((partsOf T S a' g').col c).val t := by
    intro a' g'
    rw [← off_same a g a' g']
    refine (partsOf T S a' g').pr_at hc ?_
    rw [partsOf_re a g, (Parts.re_col _ _ _ _).1]
    exact ht
  by_cases h1 : c < T.n
  · right; right; right
    intro a' g'
    rw [hval, hval, (partsOf T S a' g').col_x h1, (partsOf T S a g).col_x h1]
  by_cases h2 : c < T.n + T.p
  · obtain ⟨j, rfl⟩ : ∃ j, c = T.n + j := ⟨c - T.n, by omega⟩
    have hj : j < T.p := by omega
    have hcol : ∀ a' g' : Nat → F, (partsOf T S a' g').col (T.n + j) = _ := fun a' g' => (partsOf T S a' g').col_y (j := j) hj
    have hcA : (partsOf T S a g).cA j = csStart T.irA T.nA (j + 1) - csStart T.irA T.nA j := rfl
    by_cases h3 : t < (partsOf T S a g).cA j
    · right; left
      have hq : csStart T.irA T.nA j + t < T.nA := lt_of_lt_of_le (by omega) (csStart_le (κ := T.irA) (N := T.nA) (j + 1))
      obtain ⟨k1, k2⟩ := csInv_spec (κ := T.irA) hq
      have k3 := (csPos_mem_iff (r := j) k1).1 (by rw [k2]; omega)
      refine ⟨_, k1, ?_⟩
      unfold posA
      rw [k2, k3, Nat.add_sub_cancel_left]
    · right; right; right
      intro a' g'
      rw [hval, hval, hcol, hcol]
      show (if t < (partsOf T S a g).cA j then _ else _) = (if t < (partsOf T S a g).cA j then _ else _)
      rw [if_neg h3, if_neg h3]
  obtain ⟨i, rfl⟩ : ∃ i, c = T.n + T.p + i := ⟨c - (T.n + T.p), by omega⟩
  have hi : i < S.x.m := by omega
  by_cases h3 : (partsOf T S a g).gc i ≤ t
  · left
    unfold Parts.isV
    have e1 : colOf (partsOf T S a g).N (partsOf T S a g).off ((partsOf T S a g).off (T.n + T.p + i) + t) = T.n + T.p + i :=
      (partsOf T S a g).colOf_at hc ht
    have e2 : T.n + T.p + i - ((partsOf T S a g).n + (partsOf T S a g).p) = i := by
      show T.n + T.p + i - (T.n + T.p) = i
      omega
    rw [e1, e2, Nat.add_sub_cancel_left]
    exact ⟨Nat.le_add_right _ _, h3⟩
  · right; right; left
    -- the column is the image of a row of `G`
    obtain ⟨j, hj, hji, hcg⟩ : ∃ j, j < S.m ∧ S.xrow j = i ∧ (partsOf T S a g).gc i = (partsOf T S a g).cG j := by
      have hm : S.m = S.fexv + 3 * S.ne := rfl
      have hle : S.l ≤ S.fexv := S.l_le S.ns
      rcases S.x.m_cases hi with h | ⟨k, j, hk, hj, e⟩ | ⟨l, j, hl, hj, e⟩
      · exact ⟨i, by have : i < S.l := h; omega, xrow_lp h, (partsOf T S a g).gc_lp h⟩
      · have hk' : k < S.ns := hk
        have hj' : j < S.q k + 2 := hj
        by_cases hq : j < S.q k
        · have := S.start_le hk'
          exact ⟨S.start k + j, by omega, by rw [e]; exact xrow_soc hk' hq, by rw [e]; exact (partsOf T S a g).gc_soc hk' hq⟩
        · exfalso
          have : (partsOf T S a g).gc i = 0 := by rw [e]; exact (partsOf T S a g).gc_pad hk' hj' (by show S.q k ≤ j; omega)
          omega
      · have hl' : l < S.ne := hl
        exact ⟨S.fexv + 3 * l + j, by omega, by rw [e]; exact xrow_exp hj, by rw [e]; exact (partsOf T S a g).gc_exp hj⟩
    have hcG : (partsOf T S a g).cG j = csStart T.irG T.nG (j + 1) - csStart T.irG T.nG j := rfl
    have hq : csStart T.irG T.nG j + t < T.nG := lt_of_lt_of_le (by omega) (csStart_le (κ := T.irG) (N := T.nG) (j + 1))
    obtain ⟨k1, k2⟩ := csInv_spec (κ := T.irG) hq
    have k3 := (csPos_mem_iff (r := j) k1).1 (by rw [k2]; omega)
    refine ⟨_, k1, ?_⟩
    unfold posG
    have hg : (partsOf T S a g).gto j = T.n + T.p + i := by unfold Parts.gto; rw [← hji]; rfl
    rw [k2, k3, Nat.add_sub_cancel_left, hg]

/-- the values agree outside the (3,3) block -/
def Agree (P : Parts F) (f f' : Nat → F) : Prop := ∀ x, x < P.off P.N → ¬ P.isV x → f x = f' x

theorem Agree.withV {P : Parts F} {f f' : Nat → F} (h : Agree P f f') (V : Nat → Nat → F) {x : Nat} (hx : x < P.off P.N) :
    P.withV V f x = P.withV V f' x := by
  unfold Parts.withV
  split
  · rfl
  · rename_i hv
    exact h x hx hv

theorem withV_agree (P : Parts F) (V : Nat → Nat → F) (f : Nat → F) : Agree P (P.withV V f) f := fun x _ hv => by
  exact if_neg hv

/-! ### Copying new values -/

open Classical in
theorem pushK_ok {PK map : Buf Nat} {v b : Buf F} {M N : Nat} {pk pos : Nat → Nat} {vf f tgt : Nat → F} (hPK : Holds PK M pk)
    (hπ : IsPerm M pk) (hm : Holds map N pos) (hv : Holds v N vf) (hlt : ∀ k, k < N → pos k < M) (ht : ∀ k, k < N → tgt (pos k) = vf k)
    (h : KV b M pk f) :
    Ok (pushK PK map v N b) fun b' => KV b' M pk fun x => if ∃ k, k < N ∧ pos k = x then tgt x else f x := by
  unfold pushK
  refine loop_ok (fun k b' => KV b' M pk fun x => if ∃ i, i < k ∧ pos i = x then tgt x else f x) (by omega)
    (h.congr fun x _ => by rw [if_neg]; rintro ⟨i, hi, -⟩; omega) ?_ fun _ h => h
  intro k b' _ hk hb
  rw [hm.rd hk, ok_bind_eq, hv.rd hk, ok_bind_eq]
  refine (setPK_ok hPK hπ hb (hlt k hk) (vf k)).mono fun b'' hb' => hb'.congr fun x _ => ?_
  by_cases e : x = pos k
  · subst e
    rw [if_pos rfl, if_pos ⟨k, by omega, rfl⟩, ht k hk]
  · rw [if_neg e]
    by_cases h1 : ∃ i, i < k ∧ pos i = x
    · obtain ⟨i, hi, hx⟩ := h1
      rw [if_pos ⟨i, hi, hx⟩, if_pos ⟨i, by omega, hx⟩]
    · rw [if_neg h1, if_neg]
      rintro ⟨i, hi, hx⟩
      by_cases e2 : i = k
      · subst e2; exact e hx.symm
      · exact h1 ⟨i, by omega, hx⟩

end generic
end Ecos.Asm
