import Verif.Lemmas.Glue
import Verif.Props.Cones

/-!
# The Nesterov-Todd scaling (C17, C18, C19)

All theorems speak about the cone structure that `updateScalings` leaves behind.
-/
namespace Ecos
namespace Scaling

open Finset

/-- the entries of `s`, `z` are far enough from the boundary for every division of `updateScalings`, `scale`
and `unscale` to be exact, i.e. for the floor `EPS = 1e-13` of `SAFEDIV_POS` not to be used -/
structure Floors (S : Shape) (s z : Nat → ℝ) : Prop where
  lp : ∀ i, i < S.l → EPS ≤ z i ∧ EPS ≤ Real.sqrt (s i / z i)
  soc : ∀ k, k < S.ns → SocFloors (S.q k) (S.block s k) (S.block z k)

/-- `s`, `z` strictly inside the cone and above the floors -/
structure Good (S : Shape) (s z : Nat → ℝ) : Prop where
  is : IntSym S s
  iz : IntSym S z
  fl : Floors S s z

/-- what `updateScalings` leaves behind -/
theorem scaled {C : Cone ℝ} {S : Shape} {X : ConeIx} (hC : ConeWF C S X) {sb zb lam : Buf ℝ} {s z : Nat → ℝ}
    (hs : Has sb 0 S.m s) (hz : Has zb 0 S.m z) (hl : S.fexv ≤ lam.size) (mu : ℝ) (hg : Good S s z) :
    ∃ C' l V, updateScalings C sb zb lam mu = .ok (C', some l) ∧ ConeWF C' S X ∧ ScalHolds C' S V ∧
      IsScaling S s z mu V ∧ l.size = lam.size ∧ (∀ j, S.fexv ≤ j → l[j]? = lam[j]?) ∧
      Has l 0 S.l (fun i => V.lw i * z i) ∧
      (∀ k, k < S.ns → Has l (S.start k) (S.q k) (scaleF (S.q k) (V.V k) (S.block z k))) ∧
      (∀ i, i < S.l → V.lv i = s i / z i ∧ V.lw i = Real.sqrt (s i / z i) ∧ EPS ≤ V.lw i) ∧
      ∀ k, k < S.ns → NT (S.q k) (V.V k) ∧ EPS ≤ (V.V k).eta ∧
        ∀ j, j < S.q k → scaleF (S.q k) (V.V k) (S.block z k) j = unscaleF (S.q k) (V.V k) (S.block s k) j := by
  obtain ⟨⟨C', r⟩, e, h1, h2⟩ := (Ok.def _ _).1 (updateScalings_ok hC hs hz hl mu)
  rcases h2 with ⟨-, k, hk, hn⟩ | ⟨l, V, hr, h3, h4, h5, h6, h7, h8⟩
  · obtain ⟨V, hV, -⟩ := ntF_real (hC.is.pos k hk) (hg.is.soc k hk) (hg.iz.soc k hk) (hg.fl.soc k hk)
    rw [hV] at hn
    exact absurd hn (by simp)
  · simp only at hr h1 h3
    subst hr
    refine ⟨C', l, V, e, h1, h3, h4, h5, h6, h7, h8, fun i hi => ?_, fun k hk => ?_⟩
    · have f := hg.fl.lp i hi
      have a := h4.lv i hi
      have b := h4.lw i hi
      rw [real_safediv f.1] at a b
      exact ⟨a, b, by rw [b]; exact f.2⟩
    · obtain ⟨V', hV, h9⟩ := ntF_real (hC.is.pos k hk) (hg.is.soc k hk) (hg.iz.soc k hk) (hg.fl.soc k hk)
      rw [h4.soc k hk] at hV
      obtain rfl := Option.some.inj hV
      exact h9

/-- **C17.**  For `s`, `z` strictly inside the cone (and above the floors) `updateScalings` succeeds; with the
scaling `W` it stores, `scale` and `unscale` give `W z = W⁻¹ s = λ`, which is the `lambda` it returns, and
`λ` is strictly inside the cone. -/
theorem C17_scaling_point {C : Cone ℝ} {S : Shape} {X : ConeIx} (hC : ConeWF C S X) {sb zb lam : Buf ℝ}
    {s z : Nat → ℝ} (hs : Has sb 0 S.m s) (hz : Has zb 0 S.m z) (hl : S.fexv ≤ lam.size) (mu : ℝ)
    (hg : Good S s z) :
    ∃ C' l lm, updateScalings C sb zb lam mu = .ok (C', some l) ∧ Has l 0 S.fexv lm ∧ IntSym S lm ∧
      (∀ out, S.fexv ≤ out.size → ∃ r, scale zb C' out = .ok r ∧ Has r 0 S.fexv lm) ∧
      ∀ out, S.fexv ≤ out.size → ∃ r, unscale sb C' out = .ok r ∧ Has r 0 S.fexv lm := by
  obtain ⟨C', l, V, e, hC', hV, -, -, -, hl1, hl2, hlp, hsoc⟩ := scaled hC hs hz hl mu hg
  refine ⟨C', l, glue S (fun i => V.lw i * z i) (fun k => scaleF (S.q k) (V.V k) (S.block z k)) (fun _ _ => 0), e,
    glue_has hl1 hl2, ⟨fun i hi => ?_, fun k hk => ?_⟩, fun out ho => ?_, fun out ho => ?_⟩
  · rw [glue_lp _ _ _ _ hi]
    have := (hlp i hi).2.2
    have := real_EPS_pos
    have := hg.iz.lp i hi
    exact mul_pos (by linarith) this
  · have h1 := (hsoc k hk).1.scale_int (hg.iz.soc k hk)
    unfold IntSoc at h1 ⊢
    rw [tailSq_congr (fun j hj => glue_block S _ _ _ hk hj), glue_block S _ _ _ hk (hC.is.pos k hk)]
    exact h1
  · obtain ⟨r, e1, -, -, h3, h4⟩ := (Ok.def _ _).1 (scale_ok hC'.is hV.lw hV.soc hz.sym ho)
    exact ⟨r, e1, glue_has h3 h4⟩
  · obtain ⟨r, e1, -, -, h3, h4⟩ := (Ok.def _ _).1 (unscale_ok hC'.is hV.lw hV.soc hs.sym ho)
    refine ⟨r, e1, glue_has (h3.congr fun i hi => ?_) fun k hk => (h4 k hk).congr fun j hj => ?_⟩
    · obtain ⟨-, h5, h6⟩ := hlp i hi
      rw [real_safediv h6]
      have hz0 := hg.iz.lp i hi
      have hs0 := hg.is.lp i hi
      have hw : V.lw i * V.lw i = s i / z i := by rw [h5]; exact Real.mul_self_sqrt (by positivity)
      have hw0 : V.lw i ≠ 0 := by have := real_EPS_pos; linarith
      rw [div_eq_iff hw0, mul_right_comm, hw]
      field_simp
    · exact ((hsoc k hk).2.2 j hj).symm

/-- **C17, reporting.**  If the determinant of `s` or of `z` on some second-order cone is not positive, the
call reports `OUTSIDE_CONE`. -/
theorem C17_outside_reported {C : Cone ℝ} {S : Shape} {X : ConeIx} (hC : ConeWF C S X) {sb zb lam : Buf ℝ}
    {s z : Nat → ℝ} (hs : Has sb 0 S.m s) (hz : Has zb 0 S.m z) (hl : S.fexv ≤ lam.size) (mu : ℝ) {k : Nat}
    (hk : k < S.ns)
    (ho : S.block s k 0 * S.block s k 0 ≤ tailSq (S.q k) (S.block s k) ∨
      S.block z k 0 * S.block z k 0 ≤ tailSq (S.q k) (S.block z k)) :
    ∃ C', updateScalings C sb zb lam mu = .ok (C', none) := by
  obtain ⟨⟨C', r⟩, e, h1, h2⟩ := (Ok.def _ _).1 (updateScalings_ok hC hs hz hl mu)
  rcases h2 with ⟨hr, -⟩ | ⟨l, V, hr, h3, h4, -⟩
  · simp only at hr
    exact ⟨C', by rw [e, hr]⟩
  · have := h4.soc k hk
    unfold ntF at this
    have hb : (le (socresF (S.q k) (S.block s k)) 0 || le (socresF (S.q k) (S.block z k)) 0) = true := by
      rw [socresF_real, socresF_real, Bool.or_eq_true, real_le, real_le]
      rcases ho with h | h
      · left; linarith
      · right; linarith
    rw [if_pos hb] at this
    exact absurd this (by simp)

/-- **C17, reporting is incomplete.**  The linear part is never checked: with `s = -1` outside the cone the
call succeeds. -/
theorem C17_linear_outside_violated : ∃ (C : Cone ℝ) (S : Shape) (X : ConeIx) (sb zb lam : Buf ℝ) (s z : Nat → ℝ),
    ConeWF C S X ∧ Has sb 0 S.m s ∧ Has zb 0 S.m z ∧ ¬ InSym S s ∧ IntSym S z ∧
    ∃ C' l, updateScalings C sb zb lam 1 = .ok (C', some l) := by
  have hm : Cones.oneRowShape.m = 1 := by simp [Cones.oneRowShape, Shape.m, Shape.fexv, Shape.start]
  have hf : Cones.oneRowShape.fexv = 1 := by simp [Cones.oneRowShape, Shape.fexv, Shape.start]
  have h1 : ∀ x : ℝ, Has (#[some x] : Buf ℝ) 0 Cones.oneRowShape.m fun _ => x := by
    intro x j hj; rw [hm] at hj; rw [show j = 0 by omega]; rfl
  let C : Cone ℝ := { Cones.oneRow with lpc := { Cones.oneRow.lpc with kktIdx := #[some 0] } }
  have hC : ConeWF C Cones.oneRowShape ⟨fun _ => 0, fun _ _ => 0, fun _ _ => 0⟩ := by
    refine ⟨⟨rfl, rfl, fun k hk => absurd hk (Nat.not_lt_zero k), fun k hk => absurd hk (Nat.not_lt_zero k), rfl,
      by rw [hf]; rfl, rfl, rfl⟩, rfl, rfl, ⟨rfl, fun j hj => ?_⟩, fun k c hk => absurd hk (Nat.not_lt_zero k),
      fun k c hk => absurd hk (Nat.not_lt_zero k)⟩
    rw [show j = 0 by simp only [Cones.oneRowShape] at hj; omega]
    rfl
  obtain ⟨⟨C', r⟩, e, -, h3⟩ := (Ok.def _ _).1 (updateScalings_ok hC (h1 (-1)) (h1 1) (lam := #[none])
    (by rw [hf]; rfl) 1)
  rcases h3 with ⟨-, k, hk, -⟩ | ⟨l, V, hr, -⟩
  · exact absurd hk (Nat.not_lt_zero k)
  · refine ⟨C, Cones.oneRowShape, _, _, _, #[none], _, _, hC, h1 (-1), h1 1, fun h => ?_, ⟨fun i _ => ?_, ?_⟩, C', l, ?_⟩
    · have := h.lp 0 (by simp [Cones.oneRowShape])
      norm_num at this
    · norm_num
    · exact fun k hk => absurd hk (Nat.not_lt_zero k)
    · rw [e]; simp only at hr; rw [hr]

/-- **C18.**  The stored scaling is a symmetric linear map `W` computed by `scale`; `unscale` computes its inverse:
applied one after the other in either order the two routines return the original vector. -/
theorem C18_inverse {C : Cone ℝ} {S : Shape} {X : ConeIx} (hC : ConeWF C S X) {sb zb lam : Buf ℝ} {s z : Nat → ℝ}
    (hs : Has sb 0 S.m s) (hz : Has zb 0 S.m z) (hl : S.fexv ≤ lam.size) (mu : ℝ) (hg : Good S s z) :
    ∃ (C' : Cone ℝ) (l : Buf ℝ) (W : (Nat → ℝ) → Nat → ℝ), updateScalings C sb zb lam mu = .ok (C', some l) ∧
      (∀ xb out x, Has xb 0 S.fexv x → S.fexv ≤ out.size →
        ∃ r, scale xb C' out = .ok r ∧ Has r 0 S.fexv (W x)) ∧
      (∀ x y (c d : ℝ) i, i < S.fexv → W (fun i => c * x i + d * y i) i = c * W x i + d * W y i) ∧
      (∀ x y : Nat → ℝ, ∑ i ∈ range S.fexv, y i * W x i = ∑ i ∈ range S.fexv, W y i * x i) ∧
      (∀ xb o1 o2 x, Has xb 0 S.fexv x → S.fexv ≤ o1.size → S.fexv ≤ o2.size →
        ∃ r1 r2, scale xb C' o1 = .ok r1 ∧ unscale r1 C' o2 = .ok r2 ∧ Has r2 0 S.fexv x) ∧
      ∀ xb o1 o2 x, Has xb 0 S.fexv x → S.fexv ≤ o1.size → S.fexv ≤ o2.size →
        ∃ r1 r2, unscale xb C' o1 = .ok r1 ∧ scale r1 C' o2 = .ok r2 ∧ Has r2 0 S.fexv x := by
  obtain ⟨C', l, V, e, hC', hV, -, -, -, hl1, hl2, hlp, hsoc⟩ := scaled hC hs hz hl mu hg
  let W : (Nat → ℝ) → Nat → ℝ := fun x =>
    glue S (fun i => V.lw i * x i) (fun k => scaleF (S.q k) (V.V k) (S.block x k)) (fun _ _ => 0)
  let U : (Nat → ℝ) → Nat → ℝ := fun x =>
    glue S (fun i => safedivPos (x i) (V.lw i)) (fun k => unscaleF (S.q k) (V.V k) (S.block x k)) (fun _ _ => 0)
  have hW : ∀ xb out x, Has xb 0 S.fexv x → S.fexv ≤ out.size →
      ∃ r, scale xb C' out = .ok r ∧ Has r 0 S.fexv (W x) := by
    intro xb out x hx ho
    obtain ⟨r, e1, -, -, h3, h4⟩ := (Ok.def _ _).1 (scale_ok hC'.is hV.lw hV.soc hx ho)
    exact ⟨r, e1, glue_has h3 h4⟩
  have hU : ∀ xb out x, Has xb 0 S.fexv x → S.fexv ≤ out.size →
      ∃ r, unscale xb C' out = .ok r ∧ Has r 0 S.fexv (U x) := by
    intro xb out x hx ho
    obtain ⟨r, e1, -, -, h3, h4⟩ := (Ok.def _ _).1 (unscale_ok hC'.is hV.lw hV.soc hx ho)
    exact ⟨r, e1, glue_has h3 h4⟩
  have hlw0 : ∀ i, i < S.l → V.lw i ≠ 0 := fun i hi => by
    have := (hlp i hi).2.2
    have := real_EPS_pos
    linarith
  have hWblk : ∀ x k j, k < S.ns → j < S.q k → S.block (W x) k j = scaleF (S.q k) (V.V k) (S.block x k) j :=
    fun x k j hk hj => glue_block S _ _ _ hk hj
  have hUblk : ∀ x k j, k < S.ns → j < S.q k → S.block (U x) k j = unscaleF (S.q k) (V.V k) (S.block x k) j :=
    fun x k j hk hj => glue_block S _ _ _ hk hj
  have hWl : ∀ x i, i < S.l → W x i = V.lw i * x i := fun x i hi => glue_lp S _ _ _ hi
  have hUl : ∀ x i, i < S.l → U x i = x i / V.lw i := fun x i hi => by
    rw [← real_safediv (hlp i hi).2.2]; exact glue_lp S _ _ _ hi
  have rows : ∀ (f g : Nat → ℝ), (∀ i, i < S.l → f i = g i) →
      (∀ k j, k < S.ns → j < S.q k → S.block f k j = S.block g k j) → ∀ i, i < S.fexv → f i = g i := by
    intro f g h1 h2 i hi
    rcases S.row_cases hi with h | ⟨k, hk, ha, hb⟩
    · exact h1 i h
    · have := h2 k (i - S.start k) hk (by omega)
      unfold Shape.block at this
      rwa [show S.start k + (i - S.start k) = i by omega] at this
  have hUW : ∀ x i, i < S.fexv → U (W x) i = x i := fun x => rows _ _
    (fun i hi => by rw [hUl _ i hi, hWl _ i hi, mul_div_cancel_left₀ _ (hlw0 i hi)])
    (fun k j hk hj => by
      rw [hUblk _ k j hk hj, unscaleF_congr (hC.is.pos k hk) (fun j hj => hWblk x k j hk hj) j hj,
        (hsoc k hk).1.unscale_scale (hsoc k hk).2.1])
  have hWU : ∀ x i, i < S.fexv → W (U x) i = x i := fun x => rows _ _
    (fun i hi => by rw [hWl _ i hi, hUl _ i hi, mul_div_cancel₀ _ (hlw0 i hi)])
    (fun k j hk hj => by
      rw [hWblk _ k j hk hj, scaleF_congr (hC.is.pos k hk) (fun j hj => hUblk x k j hk hj) j hj,
        (hsoc k hk).1.scale_unscale (hsoc k hk).2.1])
  refine ⟨C', l, W, e, hW, fun x y c d => rows _ _ (fun i hi => ?_) (fun k j hk hj => ?_), fun x y => ?_, ?_, ?_⟩
  · rw [hWl _ i hi, hWl _ i hi, hWl _ i hi]; ring
  · rw [hWblk _ k j hk hj]
    have := (hsoc k hk).1.scale_lin (S.block x k) (S.block y k) c d j
    have e1 : S.block (fun i => c * x i + d * y i) k = fun i => c * S.block x k i + d * S.block y k i := rfl
    rw [e1, this, ← hWblk x k j hk hj, ← hWblk y k j hk hj]
    rfl
  · rw [S.sum_rows, S.sum_rows]
    congr 1
    · refine sum_congr rfl fun i hi => ?_
      rw [mem_range] at hi
      rw [hWl _ i hi, hWl _ i hi]; ring
    · refine sum_congr rfl fun k hk => ?_
      rw [mem_range] at hk
      have := (hsoc k hk).1.scale_symm (hC.is.pos k hk) (S.block x k) (S.block y k)
      calc _ = ∑ j ∈ range (S.q k), S.block y k j * scaleF (S.q k) (V.V k) (S.block x k) j := by
            refine sum_congr rfl fun j hj => ?_
            rw [mem_range] at hj
            rw [← hWblk x k j hk hj]; rfl
        _ = _ := this
        _ = _ := by
            refine sum_congr rfl fun j hj => ?_
            rw [mem_range] at hj
            rw [← hWblk y k j hk hj]; rfl
  · intro xb o1 o2 x hx h1 h2
    obtain ⟨r1, e1, g1⟩ := hW xb o1 x hx h1
    obtain ⟨r2, e2, g2⟩ := hU r1 o2 _ g1 h2
    exact ⟨r1, r2, e1, e2, g2.congr fun i hi => hUW x i hi⟩
  · intro xb o1 o2 x hx h1 h2
    obtain ⟨r1, e1, g1⟩ := hU xb o1 x hx h1
    obtain ⟨r2, e2, g2⟩ := hW r1 o2 _ g1 h2
    exact ⟨r1, r2, e1, e2, g2.congr fun i hi => hWU x i hi⟩

/-- the rows of an expanded vector that belong to the original rows -/
def IsRestriction (S : Shape) (xt x : Nat → ℝ) : Prop :=
  (∀ i, i < S.l → x i = xt i) ∧ ∀ k j, k < S.ns → j < S.q k → S.block x k j = S.x.block xt k j

/-- the additional rows of the second-order cones vanish -/
def AddRowsZero (S : Shape) (y : Nat → ℝ) : Prop :=
  ∀ k, k < S.ns → S.x.block y k (S.q k) = 0 ∧ S.x.block y k (S.q k + 1) = 0

/-- **C19.**  `scale2add` adds `B x` to `y` for one fixed linear map `B` of expanded vectors.
Eliminating the additional variables of every second-order cone (they are determined by the requirement that
the additional rows vanish, and such a choice exists for every `x`) turns `B` into `W²`, where `W` is the map
computed by `scale`. -/
theorem C19_expanded_block {C : Cone ℝ} {S : Shape} {X : ConeIx} (hC : ConeWF C S X) {sb zb lam : Buf ℝ}
    {s z : Nat → ℝ} (hs : Has sb 0 S.m s) (hz : Has zb 0 S.m z) (hl : S.fexv ≤ lam.size) (mu : ℝ)
    (hg : Good S s z) :
    ∃ (C' : Cone ℝ) (l : Buf ℝ) (W B : (Nat → ℝ) → Nat → ℝ), updateScalings C sb zb lam mu = .ok (C', some l) ∧
      (∀ xb out x, Has xb 0 S.fexv x → S.fexv ≤ out.size →
        ∃ r, scale xb C' out = .ok r ∧ Has r 0 S.fexv (W x)) ∧
      (∀ xb yb x y, Has xb 0 S.x.m x → Has yb 0 S.x.m y → S.x.m ≤ yb.size →
        ∃ r, scale2add xb yb C' = .ok r ∧ Has r 0 S.x.m (fun i => y i + B x i)) ∧
      (∀ x y (c d : ℝ) i, i < S.x.m → B (fun i => c * x i + d * y i) i = c * B x i + d * B y i) ∧
      (∀ xt x, IsRestriction S xt x → AddRowsZero S (B xt) → IsRestriction S (B xt) (W (W x))) ∧
      ∀ x, ∃ xt, IsRestriction S xt x ∧ AddRowsZero S (B xt) ∧
        ∀ xt', IsRestriction S xt' x → AddRowsZero S (B xt') → ∀ i, i < S.x.fexv → xt' i = xt i := by
  obtain ⟨C', l, V, e, hC', hV, -, -, -, hl1, hl2, hlp, hsoc⟩ := scaled hC hs hz hl mu hg
  let W : (Nat → ℝ) → Nat → ℝ := fun x =>
    glue S (fun i => V.lw i * x i) (fun k => scaleF (S.q k) (V.V k) (S.block x k)) (fun _ _ => 0)
  let B : (Nat → ℝ) → Nat → ℝ := fun x =>
    glue S.x (fun i => V.lv i * x i) (fun k => expandF (S.q k) (V.V k) (S.x.block x k) (fun _ => 0))
      (fun l => expandE (V.ev l) (S.x.eblock x l) (fun _ => 0))
  have hW : ∀ xb out x, Has xb 0 S.fexv x → S.fexv ≤ out.size →
      ∃ r, scale xb C' out = .ok r ∧ Has r 0 S.fexv (W x) := by
    intro xb out x hx ho
    obtain ⟨r, e1, -, -, h3, h4⟩ := (Ok.def _ _).1 (scale_ok hC'.is hV.lw hV.soc hx ho)
    exact ⟨r, e1, glue_has h3 h4⟩
  have hWblk : ∀ x k j, k < S.ns → j < S.q k → S.block (W x) k j = scaleF (S.q k) (V.V k) (S.block x k) j :=
    fun x k j hk hj => glue_block S _ _ _ hk hj
  have hWl : ∀ x i, i < S.l → W x i = V.lw i * x i := fun x i hi => glue_lp S _ _ _ hi
  have hBblk : ∀ x k j, k < S.ns → j < S.q k + 2 →
      S.x.block (B x) k j = expandF (S.q k) (V.V k) (S.x.block x k) (fun _ => 0) j :=
    fun x k j hk hj => glue_block S.x _ _ _ hk hj
  have hBl : ∀ x i, i < S.l → B x i = V.lv i * x i := fun x i hi => glue_lp S.x _ _ _ hi
  have hexp : ∀ (xt x : Nat → ℝ) k, IsRestriction S xt x → k < S.ns → ∀ j, j < S.q k + 2 →
      expandF (S.q k) (V.V k) (S.x.block xt k) (fun _ => 0) j =
      expandF (S.q k) (V.V k) (fun i => if i < S.q k then S.block x k i else if i = S.q k then
        S.x.block xt k (S.q k) else S.x.block xt k (S.q k + 1)) (fun _ => 0) j := by
    intro xt x k hx hk j hj
    have hp := hC.is.pos k hk
    have c1 : ¬ (S.q k + 1 < S.q k) := by omega
    have c2 : ¬ (S.q k + 1 = S.q k) := by omega
    have hz : zetaF (S.q k) (V.V k).q (S.x.block xt k) = zetaF (S.q k) (V.V k).q (fun i => if i < S.q k then
        S.block x k i else if i = S.q k then S.x.block xt k (S.q k) else S.x.block xt k (S.q k + 1)) := by
      rw [zetaF_real, zetaF_real]
      refine tdot_congr (fun _ _ _ => rfl) fun i _ hi => ?_
      simp only [hi, if_true]
      exact (hx.2 k i hk hi).symm
    unfold expandF
    rw [hz]
    by_cases hj0 : j = 0
    · simp only [hj0, if_true, c1, c2, if_false, hp, hx.2 k 0 hk hp]
    · by_cases hjp : j < S.q k
      · simp only [hj0, hjp, if_true, c1, c2, if_false, lt_irrefl, hx.2 k j hk hjp]
      · by_cases hjq : j = S.q k
        · simp only [if_neg hj0, if_neg hjp, if_pos hjq, lt_irrefl, if_false, if_true]
        · simp only [if_neg hj0, if_neg hjp, if_neg hjq, c1, c2, if_false, hp, if_true, hx.2 k 0 hk hp]
  refine ⟨C', l, W, B, e, hW, ?_, ?_, ?_, ?_⟩
  · intro xb yb x y hx hy hsz
    obtain ⟨r, e1, -, -, h3, h4, h5⟩ := (Ok.def _ _).1 (scale2add_ok hC'.is hV hx hy hsz)
    refine ⟨r, e1, fun i hi => ?_⟩
    rw [Nat.zero_add]
    rcases S.x.m_cases hi with h | ⟨k, j, hk, hj, rfl⟩ | ⟨l, j, hl, hj, rfl⟩
    · have := h3 i h
      rw [Nat.zero_add] at this
      rw [this]
      simp only [hBl x i h]
    · rw [h4 k hk j hj]
      have := hBblk x k j hk hj
      change some (some _) = some (some (y (S.x.start k + j) + S.x.block (B x) k j))
      rw [this]
      have hyj : y (S.x.start k + j) = S.x.block y k j := rfl
      rw [hyj]
      have hj' : j < S.q k + 2 := hj
      unfold expandF
      by_cases hj0 : j = 0
      · simp only [hj0, if_true, zero_add]
      · by_cases hjp : j < S.q k
        · simp only [hj0, hjp, if_true, if_false, zero_add]
        · by_cases hjq : j = S.q k
          · simp only [if_neg hj0, if_neg hjp, if_pos hjq, zero_add]
            rw [hjq]
          · simp only [if_neg hj0, if_neg hjp, if_neg hjq, zero_add]
            rw [show j = S.q k + 1 by omega]
    · rw [h5 l hl j hj]
      have : S.x.eblock (B x) l j = expandE (V.ev l) (S.x.eblock x l) (fun _ => 0) j := glue_exp S.x _ _ _ hj
      change some (some _) = some (some (S.x.eblock y l j + S.x.eblock (B x) l j))
      rw [this]
      unfold expandE
      by_cases hj0 : j = 0
      · simp only [hj0, if_true, zero_add]
      · by_cases hj1 : j = 1
        · simp only [hj1, if_true, zero_add]; norm_num
        · have : j = 2 := by omega
          subst this
          simp only [zero_add]; norm_num
  · intro x y c d i hi
    rcases S.x.m_cases hi with h | ⟨k, j, hk, hj, rfl⟩ | ⟨l, j, hl, hj, rfl⟩
    · rw [hBl _ i h, hBl _ i h, hBl _ i h]; ring
    · change S.x.block (B fun i => c * x i + d * y i) k j = c * S.x.block (B x) k j + d * S.x.block (B y) k j
      rw [hBblk _ k j hk hj, hBblk _ k j hk hj, hBblk _ k j hk hj]
      have e1 : S.x.block (fun i => c * x i + d * y i) k = fun i => c * S.x.block x k i + d * S.x.block y k i := rfl
      have hz : zetaF (S.q k) (V.V k).q (fun i => c * S.x.block x k i + d * S.x.block y k i) =
          c * zetaF (S.q k) (V.V k).q (S.x.block x k) + d * zetaF (S.q k) (V.V k).q (S.x.block y k) := by
        rw [zetaF_real, zetaF_real, zetaF_real, tdot_lin]
      unfold expandF
      rw [e1, hz]
      split_ifs <;> ring
    · change S.x.eblock (B fun i => c * x i + d * y i) l j = c * S.x.eblock (B x) l j + d * S.x.eblock (B y) l j
      have hB : ∀ x, S.x.eblock (B x) l j = expandE (V.ev l) (S.x.eblock x l) (fun _ => 0) j :=
        fun x => glue_exp S.x _ _ _ hj
      rw [hB, hB, hB]
      unfold expandE Shape.eblock
      split_ifs <;> ring
  · intro xt x hx hz
    refine ⟨fun i hi => ?_, fun k j hk hj => ?_⟩
    · rw [hWl _ i hi, hWl _ i hi, hBl _ i hi, ← hx.1 i hi, (hlp i hi).1, (hlp i hi).2.1, ← mul_assoc,
        Real.mul_self_sqrt (div_nonneg (hg.is.lp i hi).le (hg.iz.lp i hi).le)]
    · have hp := hC.is.pos k hk
      have hN := (hsoc k hk).1
      have hzk := hz k hk
      rw [hBblk xt k _ hk (by omega), hBblk xt k _ hk (by omega), hexp xt x k hx hk _ (by omega),
        hexp xt x k hx hk _ (by omega), hN.expand_rows hp] at hzk
      rw [hBblk xt k j hk (by omega), hexp xt x k hx hk j (by omega), hN.expand _ _ _ hzk.1 hzk.2 j hj,
        hWblk _ k j hk hj, scaleF_congr hp (fun j hj => hWblk x k j hk hj) j hj]
  · intro x
    let xt : Nat → ℝ := glue S.x x (fun k j => if j < S.q k then S.block x k j
      else if j = S.q k then -((V.V k).v1 * tdot (S.q k) (V.V k).Q (S.block x k))
      else (V.V k).u0 * S.block x k 0 + (V.V k).u1 * tdot (S.q k) (V.V k).Q (S.block x k)) (fun _ _ => 0)
    have hblk : ∀ k j, k < S.ns → j < S.q k + 2 → S.x.block xt k j = (if j < S.q k then S.block x k j
      else if j = S.q k then -((V.V k).v1 * tdot (S.q k) (V.V k).Q (S.block x k))
      else (V.V k).u0 * S.block x k 0 + (V.V k).u1 * tdot (S.q k) (V.V k).Q (S.block x k)) :=
      fun k j hk hj => glue_block S.x _ _ _ hk hj
    have hR : IsRestriction S xt x :=
      ⟨fun i hi => (glue_lp S.x _ _ _ hi).symm, fun k j hk hj => by rw [hblk k j hk (by omega), if_pos hj]⟩
    have h3 : ∀ k, k < S.ns → S.x.block xt k (S.q k) = -((V.V k).v1 * tdot (S.q k) (V.V k).Q (S.block x k)) :=
      fun k hk => by rw [hblk k _ hk (by omega), if_neg (by omega), if_pos rfl]
    have h4 : ∀ k, k < S.ns → S.x.block xt k (S.q k + 1) =
        (V.V k).u0 * S.block x k 0 + (V.V k).u1 * tdot (S.q k) (V.V k).Q (S.block x k) :=
      fun k hk => by rw [hblk k _ hk (by omega), if_neg (by omega), if_neg (by omega)]
    refine ⟨xt, hR, fun k hk => ?_, fun xt' hx' hz' i hi => ?_⟩
    · rw [hBblk xt k _ hk (by omega), hBblk xt k _ hk (by omega), hexp xt x k hR hk _ (by omega),
        hexp xt x k hR hk _ (by omega), (hsoc k hk).1.expand_rows (hC.is.pos k hk)]
      exact ⟨h3 k hk, h4 k hk⟩
    · rcases S.x.row_cases hi with h | ⟨k, hk, ha, hb⟩
      · rw [← hx'.1 i h, hR.1 i h]
      · have hzk := hz' k hk
        have hk' : k < S.ns := hk
        have hq : S.x.q k = S.q k + 2 := rfl
        rw [hBblk xt' k _ hk (by omega), hBblk xt' k _ hk (by omega), hexp xt' x k hx' hk _ (by omega),
          hexp xt' x k hx' hk _ (by omega), (hsoc k hk).1.expand_rows (hC.is.pos k hk)] at hzk
        obtain ⟨j, hj, rfl⟩ : ∃ j, j < S.q k + 2 ∧ i = S.x.start k + j := ⟨i - S.x.start k, by omega, by omega⟩
        change S.x.block xt' k j = S.x.block xt k j
        by_cases h1 : j < S.q k
        · rw [← hx'.2 k j hk h1, hR.2 k j hk h1]
        · by_cases h2 : j = S.q k
          · rw [h2, hzk.1, h3 k hk]
          · rw [show j = S.q k + 1 by omega, hzk.2, h4 k hk]

/-! ### A concrete case

One linear row and one second-order cone of dimension 3, `s = (8; 3, 1, 2)`, `z = (2; 1, 0, 0)`. -/

def exS : Nat → ℝ := fun i => if i = 0 then 8 else if i = 1 then 3 else if i = 2 then 1 else 2
def exZ : Nat → ℝ := fun i => if i = 0 then 2 else if i = 1 then 1 else if i = 2 then 0 else 0

def exSoc : SoCone ℝ := { Cones.exSoc ℝ with Didx := #[some 0, some 1, some 2] }
def exCone : Cone ℝ :=
  { Cones.exCone ℝ with soc := #[exSoc], lpc := { (Cones.exCone ℝ).lpc with kktIdx := #[some 0] } }

theorem exCone_wf : ConeWF exCone Cones.exShape ⟨fun _ => 0, fun _ i => i, fun _ _ => 0⟩ := by
  refine ⟨⟨rfl, rfl, fun k hk => ⟨exSoc, ?_, rfl⟩, fun k _ => by simp [Cones.exShape], rfl, ?_, rfl, rfl⟩, rfl, rfl,
    ⟨rfl, fun j hj => ?_⟩, fun k c hk hc => ?_, fun k c hk => absurd hk (Nat.not_lt_zero k)⟩
  · rw [show k = 0 by simp only [Cones.exShape] at hk; omega]; rfl
  · rw [Cones.ex_fexv]; rfl
  · rw [show j = 0 by simp only [Cones.exShape] at hj; omega]; rfl
  · have hk0 : k = 0 := by simp only [Cones.exShape] at hk; omega
    subst hk0
    have : c = exSoc := (Option.some.inj hc).symm
    subst this
    refine ⟨rfl, rfl, rfl, rfl, rfl, fun j hj => ?_⟩
    have hj' : j < 3 := hj
    match j with
    | 0 => rfl
    | 1 => rfl
    | 2 => rfl
    | j + 3 => omega

theorem ex_good : Good Cones.exShape exS exZ := by
  have hE : (EPS : ℝ) ≤ 1 := by unfold EPS; norm_num
  have h1 : ∀ x : ℝ, 1 ≤ x → EPS ≤ Real.sqrt x := fun x hx => hE.trans (Real.one_le_sqrt.2 hx)
  have k0 : ∀ k, k < Cones.exShape.ns → k = 0 := fun k hk => by simp only [Cones.exShape] at hk; omega
  have i0 : ∀ i, i < Cones.exShape.l → i = 0 := fun i hi => by simp only [Cones.exShape] at hi; omega
  have ts : tailSq 3 (Cones.exShape.block exS 0) = 5 := by
    simp only [tailSq, Shape.block, exS, Cones.exShape, Shape.start_zero]
    norm_num [sum_range_succ]
  have tz : tailSq 3 (Cones.exShape.block exZ 0) = 0 := by
    simp only [tailSq, Shape.block, exZ, Cones.exShape, Shape.start_zero]
    norm_num [sum_range_succ]
  have s0 : Cones.exShape.block exS 0 0 = 3 := by
    simp only [Shape.block, exS, Cones.exShape, Shape.start_zero]; norm_num
  have z0 : Cones.exShape.block exZ 0 0 = 1 := by
    simp only [Shape.block, exZ, Cones.exShape, Shape.start_zero]; norm_num
  have q0 : Cones.exShape.q 0 = 3 := rfl
  refine ⟨⟨fun i hi => ?_, fun k hk => ?_⟩, ⟨fun i hi => ?_, fun k hk => ?_⟩, ⟨fun i hi => ?_, fun k hk => ?_⟩⟩
  · rw [i0 i hi]; norm_num [exS]
  · rw [k0 k hk]; exact intSoc_of (by rw [s0]; norm_num) (by rw [q0, ts, s0]; norm_num)
  · rw [i0 i hi]; norm_num [exZ]
  · rw [k0 k hk]; exact intSoc_of (by rw [z0]; norm_num) (by rw [q0, tz, z0]; norm_num)
  · rw [i0 i hi]
    refine ⟨?_, h1 _ ?_⟩
    · have : exZ 0 = 2 := by norm_num [exZ]
      rw [this]; linarith
    · norm_num [exS, exZ]
  · rw [k0 k hk]
    have a : (1 : ℝ) ≤ Real.sqrt 4 := Real.one_le_sqrt.2 (by norm_num)
    refine ⟨?_, ?_, ?_⟩
    · rw [q0, ts, s0]; norm_num; exact h1 _ (by norm_num)
    · rw [q0, tz, z0]; norm_num; exact hE
    · rw [q0, ts, s0, tz, z0]; norm_num; exact h1 _ a

example : ∃ C' l lm, updateScalings exCone #[some (exS 0), some (exS 1), some (exS 2), some (exS 3)]
      #[some (exZ 0), some (exZ 1), some (exZ 2), some (exZ 3)] #[none, none, none, none] 1 = .ok (C', some l) ∧
    Has l 0 4 lm ∧ IntSym Cones.exShape lm := by
  have hm : Cones.exShape.m = Cones.exShape.fexv := by simp [Cones.exShape, Shape.m]
  obtain ⟨C', l, lm, h1, h2, h3, -⟩ := C17_scaling_point exCone_wf
    (by rw [hm]; exact Cones.ex_has exS) (by rw [hm]; exact Cones.ex_has exZ) (lam := #[none, none, none, none])
    (by rw [Cones.ex_fexv]; rfl) 1 ex_good
  rw [Cones.ex_fexv] at h2
  exact ⟨C', l, lm, h1, h2, h3⟩

end Scaling
end Ecos
