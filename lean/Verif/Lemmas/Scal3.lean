import Verif.Lemmas.Scal2

/-!
# The expanded cone block: values computed by `scale2add`

In the expanded vectors every second-order cone has two more rows.
-/
namespace Ecos

open Finset

set_option linter.unusedSectionVars false

/-- the cones with the two additional rows of each second-order cone -/
def Shape.x (S : Shape) : Shape := { S with q := fun k => S.q k + 2 }

theorem Shape.x_start (S : Shape) (k : Nat) : S.x.start k = S.start k + 2 * k := by
  unfold Shape.start Shape.x
  rw [sum_add_distrib]
  simp
  ring

section generic
variable {F : Type} [Zero F] [One F] [Add F] [Sub F] [Mul F] [Div F] [Neg F] [OfScientific F]
  [IntCast F] [PFloat F]

theorem forSocX_ok {σ : Type} {C : Cone F} {S : Shape} (hC : ConeIs C S) {s : σ}
    {body : Nat → SoCone F → Nat → σ → M σ} (I : Nat → σ → Prop) (h0 : I 0 s)
    (hstep : ∀ k soc s, k < S.ns → C.soc[k]? = some soc → soc.p = S.q k → I k s →
      Ok (body k soc (S.x.start k) s) (I (k + 1))) :
    Ok (forSoc C C.lpc.p 2 s body) fun t => I S.ns t.1 ∧ t.2 = S.x.fexv := by
  rw [hC.l]
  refine (forSoc_ok hC I h0 ?_).mono ?_
  · intro k soc s hk hs hq h
    exact hstep k soc s hk hs hq h
  · rintro t ⟨h1, h2⟩
    exact ⟨h1, h2⟩

theorem forSocX_blocks {α : Type} {C : Cone F} {S : Shape} (hC : ConeIs C S) {b : Buf α}
    {body : Nat → SoCone F → Nat → Buf α → M (Buf α)} {g : Nat → Nat → α}
    (hbody : ∀ k soc b1, k < S.ns → C.soc[k]? = some soc → soc.p = S.q k → b1.size = b.size →
      (∀ j, S.x.start k ≤ j → b1[j]? = b[j]?) →
      Ok (body k soc (S.x.start k) b1) fun b2 => Seg b1 b2 (S.x.start k) (S.x.q k) (g k)) :
    Ok (forSoc C C.lpc.p 2 b body) fun t => Blocks S.x b t.1 g ∧ t.2 = S.x.fexv := by
  refine (forSocX_ok hC (fun k b' => b'.size = b.size ∧
    (∀ i, i < k → Has b' (S.x.start i) (S.x.q i) (g i)) ∧
    ∀ j, j < S.l ∨ S.x.start k ≤ j → b'[j]? = b[j]?) ⟨rfl, fun i hi => by omega, fun _ _ => rfl⟩ ?_).mono ?_
  · rintro k soc b1 hk hs hq ⟨h1, h2, h3⟩
    refine (hbody k soc b1 hk hs hq h1 (fun j hj => h3 j (Or.inr hj))).mono fun b2 h => ?_
    refine ⟨h.size.trans h1, fun i hi => ?_, fun j hj => ?_⟩
    · by_cases hik : i = k
      · subst hik; exact h.inside
      · exact h.has (h2 i (by omega)) (Or.inl (S.x.disj (by omega)))
    · have : S.l ≤ S.x.start k := S.x.l_le k
      rw [h.outside j (by rw [← S.x.start_succ]; omega)]
      refine h3 j ?_
      rcases hj with hj | hj
      · exact Or.inl hj
      · exact Or.inr (by rw [S.x.start_succ] at hj; omega)
  · rintro t ⟨⟨h1, h2, h3⟩, h4⟩
    exact ⟨⟨h1, h2, h3⟩, h4⟩

/-- the expanded block of a second-order cone applied to `x`, added to `y` -/
def expandF (p : Nat) (V : SocV F) (x y : Nat → F) : Nat → F := fun j =>
  if j = 0 then y 0 + V.etaSq * (V.d1 * x 0 + V.u0 * x (p + 1))
  else if j < p then y j + V.etaSq * (x j + (V.v1 * x p + V.u1 * x (p + 1)) * V.q (j - 1))
  else if j = p then y p + V.etaSq * (V.v1 * zetaF p V.q x + x p)
  else y (p + 1) + V.etaSq * (V.u0 * x 0 + V.u1 * zetaF p V.q x - x (p + 1))

theorem Seg.rdOutside {α : Type} {b b' : Buf α} {off k : Nat} {g : Nat → α} (h : Seg b b' off k g) {o n : Nat}
    {f : Nat → α} (hb : Has b o n f) {j : Nat} (hj : j < n) (hd : o + j < off ∨ off + k ≤ o + j) :
    rd b' (o + j) = .ok (f j) := by
  simp [rd, h.outside _ hd, hb j hj]

theorem scale2addSoc_ok {c : SoCone F} {p : Nat} {V : SocV F} (hc : SocHolds c p V) {xb yb : Buf F} {k : Nat}
    {x y : Nat → F} (hx : Has xb k (p + 2) x) (hy : Has yb k (p + 2) y) (hp : 0 < p) :
    Ok (scale2addSoc c xb k yb) fun r => Seg yb r k (p + 2) (expandF p V x y) := by
  have hsz := hy.size (by omega)
  have e3 := hx.rd (j := p) (by omega)
  have e4 := hx.rd (j := p + 1) (by omega)
  rw [← Nat.add_assoc] at e4
  unfold scale2addSoc
  simp only [hc.sz, ok_bind_eq, get_some hc.etaSq, get_some hc.d1, get_some hc.u0, get_some hc.u1, get_some hc.v1,
    hx.rd0 (by omega), e3, e4, hy.rd0 (by omega)]
  refine Ok.bind (wr_seg (by omega)) fun b1 h1 => ?_
  have s1 : Seg yb b1 k 1 (expandF p V x y) := h1.congr fun j hj => by
    rw [show j = 0 by omega]; rfl
  refine Ok.bind (P := fun t => Seg yb t.1 k p (expandF p V x y) ∧ t.2 = zetaF p V.q x) ?_ ?_
  · refine loop_ok (fun i t => Seg yb t.1 k (1 + i) (expandF p V x y) ∧ t.2 = itr i 0 fun i t => t + V.q i * x (i + 1))
      (by omega) ⟨s1, rfl⟩ ?_ ?_
    · rintro i ⟨b, t⟩ _ hi ⟨h2, h3⟩
      simp only at h2 h3 ⊢
      rw [show k + 1 + i = k + (i + 1) by omega, hx.rd (by omega), ok_bind_eq, hc.q.rd hi, ok_bind_eq,
        h2.rdOutside hy (by omega) (by omega), ok_bind_eq]
      refine Ok.bind (wr_seg (by rw [h2.size]; omega)) fun b2 h4 => ?_
      rw [Ok_pure]
      refine ⟨?_, by rw [itr_succ, ← h3]⟩
      have h4' : Seg b b2 (k + (1 + i)) 1 fun _ =>
          y (i + 1) + V.etaSq * (x (i + 1) + (V.v1 * x p + V.u1 * x (p + 1)) * V.q i) := by
        rw [show k + (1 + i) = k + (i + 1) by omega]; exact h4
      rw [show 1 + (i + 1) = (1 + i) + 1 by omega]
      refine (h2.append h4').congr fun j hj => ?_
      split
      · rfl
      · rw [show j = i + 1 by omega]
        unfold expandF
        rw [if_neg (by omega), if_pos (by omega), Nat.add_sub_cancel]
    · rintro t ⟨h2, h3⟩
      rw [show 1 + (p - 1) = p by omega] at h2
      exact ⟨h2, h3⟩
  · rintro ⟨b, t⟩ ⟨h2, rfl⟩
    simp only at h2 ⊢
    rw [h2.rdOutside hy (by omega) (by omega), ok_bind_eq]
    refine Ok.bind (wr_seg (by rw [h2.size]; omega)) fun b2 h3 => ?_
    have s3 : Seg yb b2 k (p + 1) (expandF p V x y) := by
      refine (h2.append h3).congr fun j hj => ?_
      split
      · rfl
      · rw [show j = p by omega]
        unfold expandF
        rw [if_neg (by omega), if_neg (by omega), if_pos rfl]
    rw [show k + p + 1 = k + (p + 1) by omega, s3.rdOutside hy (by omega) (by omega), ok_bind_eq]
    refine (wr_seg (by rw [s3.size]; omega)).mono fun b3 h4 => ?_
    refine (s3.append h4).congr fun j hj => ?_
    split
    · rfl
    · rw [show j = p + 1 by omega]
      unfold expandF
      rw [if_neg (by omega), if_neg (by omega), if_neg (by omega)]

/-- the block of an exponential cone applied to `x`, added to `y` -/
def expandE (v x y : Nat → F) : Nat → F := fun j =>
  if j = 0 then y 0 + (v 0 * x 0 + v 1 * x 1 + v 3 * x 2)
  else if j = 1 then y 1 + (v 1 * x 0 + v 2 * x 1 + v 4 * x 2)
  else y 2 + (v 3 * x 0 + v 4 * x 1 + v 5 * x 2)

theorem scaleExp1_ok {e : ExpCone F} {v x y : Nat → F} {xb yb : Buf F} {k : Nat} (hv : Holds e.v 6 v)
    (hx : Has xb k 3 x) (hy : Has yb k 3 y) :
    Ok (scaleExp1 e xb k yb) fun r => Seg yb r k 3 (expandE v x y) := by
  have hsz := hy.size (by omega)
  unfold scaleExp1
  rw [hv.rd (by omega), ok_bind_eq, hv.rd (by omega), ok_bind_eq, hv.rd (by omega), ok_bind_eq,
    hv.rd (by omega), ok_bind_eq, hv.rd (by omega), ok_bind_eq, hv.rd (by omega), ok_bind_eq,
    hx.rd0 (by omega), ok_bind_eq, hx.rd (j := 1) (by omega), ok_bind_eq, hx.rd (j := 2) (by omega), ok_bind_eq,
    hy.rd0 (by omega), ok_bind_eq]
  refine Ok.bind (wr_seg (by omega)) fun b1 h1 => ?_
  have s1 : Seg yb b1 k 1 (expandE v x y) := h1.congr fun j hj => by
    rw [show j = 0 by omega]; rfl
  rw [s1.rdOutside hy (j := 1) (by omega) (by omega), ok_bind_eq]
  refine Ok.bind (wr_seg (by rw [s1.size]; omega)) fun b2 h2 => ?_
  have s2 : Seg yb b2 k 2 (expandE v x y) := (s1.append h2).congr fun j hj => by
    split
    · rfl
    · rw [show j = 1 by omega]; rfl
  rw [s2.rdOutside hy (j := 2) (by omega) (by omega), ok_bind_eq]
  refine (wr_seg (by rw [s2.size]; omega)).mono fun b3 h3 => ?_
  exact (s2.append h3).congr fun j hj => by
    split
    · rfl
    · rw [show j = 2 by omega]; rfl

theorem scaleToAddExpcone_ok {C : Cone F} {S : Shape} {V : ConeV F} (hC : ConeIs C S) (hV : ScalHolds C S V)
    {xb yb : Buf F} {x y : Nat → F} (hx : Has xb 0 S.x.m x) {b1 : Buf F} (hb : b1.size = yb.size)
    (hout : ∀ j, S.x.fexv ≤ j → b1[j]? = yb[j]?) (hy : Has yb 0 S.x.m y) :
    Ok (scaleToAddExpcone b1 xb C.expc C.nexc S.x.fexv) fun r => r.size = yb.size ∧
      (∀ j, j < S.x.fexv → r[j]? = b1[j]?) ∧ (∀ j, S.x.m ≤ j → r[j]? = yb[j]?) ∧
      ∀ l, l < S.ne → Has r (S.x.fexv + 3 * l) 3 (expandE (V.ev l) (S.x.eblock x l) (S.x.eblock y l)) := by
  have hm : S.x.m = S.x.fexv + 3 * S.ne := rfl
  unfold scaleToAddExpcone
  rw [hC.nexc]
  refine loop_ok (fun n r => r.size = yb.size ∧ (∀ j, j < S.x.fexv → r[j]? = b1[j]?) ∧
    (∀ j, S.x.fexv + 3 * n ≤ j → r[j]? = yb[j]?) ∧
    ∀ l, l < n → Has r (S.x.fexv + 3 * l) 3 (expandE (V.ev l) (S.x.eblock x l) (S.x.eblock y l))) (by omega)
    ⟨hb, fun _ _ => rfl, fun j hj => hout j (by omega), fun l hl => by omega⟩ ?_ ?_
  · rintro l r _ hl ⟨h1, h2, h3, h4⟩
    obtain ⟨e, he⟩ : ∃ e, C.expc[l]? = some e :=
      ⟨_, Array.getElem?_eq_getElem (by rw [hC.esize]; exact hl)⟩
    rw [getIdx_some he, ok_bind_eq]
    have hxl := hx.eblock (S := S.x) hl
    have hyl := hy.eblock (S := S.x) hl
    have hrl : Has r (S.x.fexv + 3 * l) 3 (S.x.eblock y l) := fun j hj => by
      rw [h3 _ (by omega)]; exact hyl j hj
    refine (scaleExp1_ok (hV.ev l e hl he) hxl hrl).mono fun r' h => ?_
    refine ⟨h.size.trans h1, fun j hj => ?_, fun j hj => ?_, fun k hk => ?_⟩
    · rw [h.outside j (by omega), h2 j hj]
    · rw [h.outside j (by omega), h3 j (by omega)]
    · by_cases hkl : k = l
      · subst hkl; exact h.inside
      · exact h.has (h4 k (by omega)) (by omega)
  · rintro r ⟨h1, h2, h3, h4⟩
    exact ⟨h1, h2, fun j hj => h3 j (by omega), h4⟩

/-- value of `scale2add` -/
theorem scale2add_ok {C : Cone F} {S : Shape} {V : ConeV F} (hC : ConeIs C S) (hV : ScalHolds C S V)
    {xb yb : Buf F} {x y : Nat → F} (hx : Has xb 0 S.x.m x) (hy : Has yb 0 S.x.m y) (hs : S.x.m ≤ yb.size) :
    Ok (scale2add xb yb C) fun r => r.size = yb.size ∧ (∀ j, S.x.m ≤ j → r[j]? = yb[j]?) ∧
      Has r 0 S.l (fun i => y i + V.lv i * x i) ∧
      (∀ k, k < S.ns → Has r (S.x.start k) (S.q k + 2) (expandF (S.q k) (V.V k) (S.x.block x k) (S.x.block y k))) ∧
      ∀ l, l < S.ne → Has r (S.x.fexv + 3 * l) 3 (expandE (V.ev l) (S.x.eblock x l) (S.x.eblock y l)) := by
  have hl : S.l ≤ S.x.fexv := S.x.l_le _
  have hm : S.x.m = S.x.fexv + 3 * S.ne := rfl
  unfold scale2add
  rw [hC.l]
  have hyl : Has yb 0 S.l y := fun j hj => hy j (by omega)
  refine Ok.bind (modify_ok (g := fun i => y i + V.lv i * x i) hyl (by omega) ?_) fun b1 h1 => ?_
  · intro i hi
    have e1 := hx.rd (j := i) (by omega)
    rw [Nat.zero_add] at e1
    rw [hV.lv.rd hi, ok_bind_eq, e1]
    rfl
  refine Ok.bind (by
    have := forSocX_blocks hC (b := b1) (body := fun _ soc k y => scale2addSoc soc xb k y)
      (g := fun k => expandF (S.q k) (V.V k) (S.x.block x k) (S.x.block y k)) ?_
    · rw [hC.l] at this; exact this
    · intro k soc b2 hk hsoc hq hb hb2
      have hle := S.x.start_le (k := k) hk
      have hlk : S.l ≤ S.x.start k := S.x.l_le k
      have hyk : Has b2 (S.x.start k) (S.q k + 2) (S.x.block y k) := fun j hj => by
        rw [hb2 _ (by omega), h1.outside _ (by omega)]
        exact (hy.sym (S := S.x)).block hk j hj
      exact scale2addSoc_ok (hV.soc k soc hk hsoc) ((hx.sym (S := S.x)).block hk) hyk (hC.pos k hk)) ?_
  rintro ⟨t, n⟩ ⟨h2, rfl⟩
  simp only at h2 ⊢
  refine (scaleToAddExpcone_ok hC hV hx (h2.size.trans h1.size) (fun j hj => ?_) hy).mono ?_
  · rw [h2.outside j (Or.inr hj), h1.outside j (by omega)]
  rintro r ⟨h3, h4, h5, h6⟩
  refine ⟨h3, h5, fun j hj => ?_, fun k hk j hj => ?_, h6⟩
  · rw [h4 _ (by omega), h2.outside _ (Or.inl (by change 0 + j < S.l; omega))]
    exact h1.inside j hj
  · have hle := S.x.start_le (k := k) hk
    have : S.x.q k = S.q k + 2 := rfl
    rw [h4 _ (by omega)]
    exact h2.inside k hk j hj

end generic

/-- eliminating the two additional variables from the expanded block leaves `W²` -/
theorem NT.expand {p : Nat} {V : SocV ℝ} (h : NT p V) (x : Nat → ℝ) (x3 x4 : ℝ)
    (hx3 : x3 = -(V.v1 * tdot p V.Q x)) (hx4 : x4 = V.u0 * x 0 + V.u1 * tdot p V.Q x) (j : Nat) (hj : j < p) :
    expandF p V (fun i => if i < p then x i else if i = p then x3 else x4) (fun _ => 0) j =
      scaleF p V (scaleF p V x) j := by
  rw [h.scale_sq]
  unfold expandF
  have hd : V.d1 + V.u0 * V.u0 = 2 * V.a * V.a - 1 := by rw [h.u0]; ring
  have hu := h.u01
  have huv := h.u1v1
  have c1 : ¬ (p + 1 < p) := by omega
  have c2 : ¬ (p + 1 = p) := by omega
  by_cases hj0 : j = 0
  · subst hj0
    simp only [if_true, hj, c1, c2, if_false]
    rw [hx4, ← hd, ← hu]
    ring
  · simp only [hj0, hj, if_true, if_false, lt_irrefl, c1, c2]
    rw [hx3, hx4, ← hu]
    have : V.Q j = V.q (j - 1) := rfl
    rw [this]
    have e : (2 : ℝ) * tdot p V.Q x = (V.u1 * V.u1 - V.v1 * V.v1) * tdot p V.Q x := by rw [huv]
    rw [e]
    ring

/-- the two additional rows vanish exactly for those values -/
theorem NT.expand_rows {p : Nat} (hp : 0 < p) {V : SocV ℝ} (h : NT p V) (x : Nat → ℝ) (x3 x4 : ℝ) :
    (expandF p V (fun i => if i < p then x i else if i = p then x3 else x4) (fun _ => 0) p = 0 ∧
     expandF p V (fun i => if i < p then x i else if i = p then x3 else x4) (fun _ => 0) (p + 1) = 0) ↔
    x3 = -(V.v1 * tdot p V.Q x) ∧ x4 = V.u0 * x 0 + V.u1 * tdot p V.Q x := by
  have c1 : ¬ (p + 1 < p) := by omega
  have c2 : ¬ (p + 1 = p) := by omega
  have c3 : ¬ (p = 0) := by omega
  have c4 : ¬ (p + 1 = 0) := by omega
  have hz : zetaF p V.q (fun i => if i < p then x i else if i = p then x3 else x4) = tdot p V.Q x := by
    rw [zetaF_real]
    exact tdot_congr (fun _ _ _ => rfl) fun j _ hj => by simp only [hj, if_true]
  have he : V.etaSq ≠ 0 := by rw [h.etaSq]; have := h.etaPos; positivity
  unfold expandF
  simp only [c1, c2, c3, c4, if_false, if_true, lt_irrefl, hz, hp, zero_add, mul_eq_zero, he, false_or]
  constructor
  · rintro ⟨h1, h2⟩
    exact ⟨by linarith, by linarith⟩
  · rintro ⟨h1, h2⟩
    exact ⟨by linarith, by linarith⟩

end Ecos
