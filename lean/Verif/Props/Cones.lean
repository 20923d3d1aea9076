import Verif.Lemmas.Cone2
import Verif.Core.Fx

/-!
# Initial points, conic product and division (C16, C20)
-/
namespace Ecos
namespace Cones

open Finset

/-- the identity element exists -/
noncomputable def ident (S : Shape) : Nat → ℝ := by
  classical exact fun i => if i < S.l ∨ ∃ k, k < S.ns ∧ i = S.start k then 1 else 0

theorem ident_is (S : Shape) (hq : ∀ k, k < S.ns → 0 < S.q k) : IsIdentity S (ident S) := by
  refine ⟨fun i hi => ?_, fun k hk => ⟨?_, fun j h0 hj => ?_⟩⟩
  · unfold ident; exact if_pos (Or.inl hi)
  · unfold ident Shape.block; exact if_pos (Or.inr ⟨k, hk, rfl⟩)
  · unfold ident Shape.block
    refine if_neg ?_
    rintro (h | ⟨k', hk', h⟩)
    · have := S.l_le k; omega
    · have := S.row_unique (i := k) (j := k') (k := S.start k + j) (by omega) (by omega) (by omega)
        (by have := hq k' hk'; omega)
      subst this; omega

/-- **C16.**  For every list of cones and every vector `r`, `bring2cone` terminates without touching
memory outside the arrays and leaves `r + α e` in `s`, where `e` is the identity of the cone and
`α ≥ 1/100`; that point is strictly inside the cone.  Nothing behind the symmetric part is changed. -/
theorem C16_bring2cone {C : Cone ℝ} {S : Shape} (hC : ConeIs C S) {b s : Buf ℝ} {r : Nat → ℝ}
    (h : Has b 0 S.fexv r) (hs : S.fexv ≤ s.size) :
    ∃ s' α e, bring2cone C b s = .ok s' ∧ 0.01 ≤ α ∧ IsIdentity S e ∧
      Has s' 0 S.fexv (fun i => r i + α * e i) ∧ IntSym S (fun i => r i + α * e i) ∧
      s'.size = s.size ∧ ∀ j, S.fexv ≤ j → s'[j]? = s[j]? := by
  obtain ⟨s', e0, h1, h2, h3, h4⟩ := (Ok.def _ _).1 (bring2cone_eq hC h hs)
  have hI := ident_is S hC.pos
  obtain ⟨m1, m2, m3⟩ := maxResF_real S r
  have hblk : ∀ k, k < S.ns → ∀ j, j < S.q k →
      S.block (fun i => r i + (maxResF S r + 1) * ident S i) k j = shiftF (maxResF S r + 1) (S.block r k) j := by
    intro k hk j hj
    unfold shiftF
    by_cases hj0 : j = 0
    · subst hj0
      have := (hI.soc k hk).1
      simp only [Shape.block, if_true] at this ⊢
      rw [this, mul_one]
    · have := (hI.soc k hk).2 j (by omega) hj
      simp only [Shape.block, hj0, if_false] at this ⊢
      rw [this, mul_zero, add_zero]
  refine ⟨s', maxResF S r + 1, ident S, e0, by norm_num at m1 ⊢; linarith, hI, ?_, ⟨?_, ?_⟩, h1, h2⟩
  · intro i hi
    rw [Nat.zero_add]
    rcases S.row_cases hi with hl | ⟨k, hk, ha, hb⟩
    · have := h3 i hl
      rw [Nat.zero_add] at this
      rw [this]
      simp only [hI.lp i hl, mul_one]
    · have := h4 k hk (i - S.start k) (by omega)
      rw [show S.start k + (i - S.start k) = i by omega] at this
      rw [this, ← hblk k hk (i - S.start k) (by omega)]
      unfold Shape.block
      rw [show S.start k + (i - S.start k) = i by omega]
  · intro i hi
    simp only [hI.lp i hi, mul_one]
    norm_num at m1
    rcases m2 i hi with h | h <;> linarith
  · intro k hk
    unfold IntSoc
    have hp := hC.pos k hk
    rw [tailSq_congr' (v := S.block r k) (fun j h0 hj => by
      rw [hblk k hk j hj]; unfold shiftF; rw [if_neg (by omega)]), hblk k hk 0 hp]
    have := m3 k hk
    rw [coneResF_real] at this
    norm_num at m1
    simp only [shiftF, if_true]
    rcases this with h | h <;> linarith

/-- the conic product computed by the code is the product of the specification -/
theorem C20_product {C : Cone ℝ} {S : Shape} (hC : ConeIs C S) {ub vb wb : Buf ℝ} {u v : Nat → ℝ}
    (hu : Has ub 0 S.fexv u) (hv : Has vb 0 S.fexv v) (hs : S.fexv ≤ wb.size) :
    ∃ t w, conicProduct ub vb C wb = .ok t ∧ Has t.1 0 S.fexv w ∧ IsProduct S u v w ∧
      t.1.size = wb.size ∧ (∀ j, S.fexv ≤ j → t.1[j]? = wb[j]?) ∧
      t.2 = ∑ i ∈ range S.l, |u i * v i| +
        ∑ k ∈ range S.ns, |∑ i ∈ range (S.q k), S.block u k i * S.block v k i| := by
  obtain ⟨t, e0, h1, h2, h3, h4, h5⟩ := (Ok.def _ _).1 (conicProduct_ok hC hu hv hs)
  have hrow : ∀ i, ∃ x : ℝ, i < S.fexv → t.1[i]? = some (some x) := by
    intro i
    by_cases hi : i < S.fexv
    · rcases S.row_cases hi with hl | ⟨k, hk, ha, hb⟩
      · have := h3 i hl
        rw [Nat.zero_add] at this
        exact ⟨_, fun _ => this⟩
      · have := h4 k hk (i - S.start k) (by omega)
        rw [show S.start k + (i - S.start k) = i by omega] at this
        exact ⟨_, fun _ => this⟩
    · exact ⟨0, fun h => absurd h hi⟩
  choose w hw using hrow
  have hblk : ∀ k, k < S.ns → ∀ j, j < S.q k →
      S.block w k j = socProdF (S.q k) (S.block u k) (S.block v k) j := by
    intro k hk j hj
    have hle := S.start_le hk
    have := h4 k hk j hj
    rw [hw (S.start k + j) (by omega)] at this
    exact Option.some.inj (Option.some.inj this)
  have cabs_real : ∀ x : ℝ, cabs x = |x| := by
    intro x
    unfold cabs
    by_cases hx : x < 0
    · simp [hx, abs_of_neg]
    · simp [hx, abs_of_nonneg (not_lt.1 hx)]
  refine ⟨t, w, e0, fun i hi => by rw [Nat.zero_add]; exact hw i hi, ⟨?_, ?_, ?_⟩, h1, h2, ?_⟩
  · intro i hi
    have hl : S.l ≤ S.fexv := S.l_le _
    have := h3 i hi
    rw [Nat.zero_add, hw i (by omega)] at this
    exact Option.some.inj (Option.some.inj this)
  · intro k hk
    rw [hblk k hk 0 (hC.pos k hk)]
    simp only [socProdF, if_true, dotN_real]
  · intro k hk j h0 hj
    rw [hblk k hk j hj]
    unfold socProdF
    rw [if_neg (by omega)]
  · rw [h5, itr_sum, itr_sum]
    simp only [cabs_real, dotN_real, zero_add]

/-- **C20.**  Dividing the product `u ∘ w` by `u` returns `w`, for every list of cones, every `w` and every
interior `u` whose entries and determinants reach the floor `EPS` of `SAFEDIV_POS`.  Both routines return. -/
theorem C20_division_inverts {C : Cone ℝ} {S : Shape} (hC : ConeIs C S) {ub wb tb vb : Buf ℝ} {u w : Nat → ℝ}
    (hu : Has ub 0 S.fexv u) (hw : Has wb 0 S.fexv w) (ht : S.fexv ≤ tb.size) (hv : S.fexv ≤ vb.size)
    (hl : ∀ i, i < S.l → EPS ≤ u i)
    (hq : ∀ k, k < S.ns → EPS ≤ S.block u k 0 ∧
      EPS ≤ S.block u k 0 * S.block u k 0 - tailSq (S.q k) (S.block u k)) :
    ∃ t v, conicProduct ub wb C tb = .ok t ∧ conicDivision ub t.1 C vb = .ok v ∧ Has v 0 S.fexv w := by
  obtain ⟨t, e0, h1, h2, h3, h4, h5⟩ := (Ok.def _ _).1 (conicProduct_ok hC hu hw ht)
  obtain ⟨t', x, e0', hx, hp, -⟩ := C20_product hC hu hw ht
  obtain rfl : t' = t := by rw [e0] at e0'; exact (Except.ok.inj e0').symm
  obtain ⟨v, e1, h6, h7, h8, h9⟩ := (Ok.def _ _).1 (conicDivision_ok hC hu hx hv)
  refine ⟨t', v, e0, e1, fun i hi => ?_⟩
  rw [Nat.zero_add]
  rcases S.row_cases hi with h | ⟨k, hk, ha, hb⟩
  · have := h8 i h
    rw [Nat.zero_add] at this
    rw [this]
    simp only
    rw [hp.lp i h, real_safediv (hl i h), mul_div_cancel_left₀]
    have := hl i h
    have := real_EPS_pos
    linarith
  · have h10 := h9 k hk (i - S.start k) (by omega)
    rw [show S.start k + (i - S.start k) = i by omega] at h10
    have hblk : ∀ j, j < S.q k → S.block x k j = socProdF (S.q k) (S.block u k) (S.block w k) j := by
      intro j hj
      by_cases hj0 : j = 0
      · subst hj0
        rw [hp.head k hk]; simp only [socProdF, if_true, dotN_real]
      · rw [hp.tail k hk j (by omega) hj]; simp only [socProdF, if_neg hj0]
    have hz : divZetaF (S.q k) (S.block u k) (S.block x k) =
        divZetaF (S.q k) (S.block u k) (socProdF (S.q k) (S.block u k) (S.block w k)) := by
      rw [divZetaF_real, divZetaF_real]
      refine sum_congr rfl fun j hj => ?_
      rw [mem_range] at hj
      rw [hblk (j + 1) (by omega)]
    have e : socDivF (S.q k) (S.block u k) (S.block x k) (i - S.start k) =
        socDivF (S.q k) (S.block u k) (socProdF (S.q k) (S.block u k) (S.block w k)) (i - S.start k) := by
      unfold socDivF
      rw [hz, hblk 0 (hC.pos k hk), hblk (i - S.start k) (by omega)]
    rw [h10, e, socDiv_prod (hC.pos k hk) (hq k hk).1 (hq k hk).2 _ (by omega)]
    unfold Shape.block
    rw [show S.start k + (i - S.start k) = i by omega]

/-- **C20, totality.**  Division returns for every `u`, in every arithmetic, and only writes the symmetric part -/
theorem C20_division_total {F : Type} [Zero F] [One F] [Add F] [Sub F] [Mul F] [Div F] [Neg F]
    [OfScientific F] [IntCast F] [PFloat F] {C : Cone F} {S : Shape} (hC : ConeIs C S) {ub wb vb : Buf F}
    {u w : Nat → F} (hu : Has ub 0 S.fexv u) (hw : Has wb 0 S.fexv w) (hv : S.fexv ≤ vb.size) :
    ∃ v, conicDivision ub wb C vb = .ok v ∧ v.size = vb.size ∧ ∀ j, S.fexv ≤ j → v[j]? = vb[j]? := by
  obtain ⟨v, e, h1, h2, -⟩ := (Ok.def _ _).1 (conicDivision_ok hC hu hw hv)
  exact ⟨v, e, h1, h2⟩

/-! ### The floor matters -/

/-- one linear row, no other cones -/
def oneRow : Cone ℝ :=
  { lpc := { p := 1, w := #[none], v := #[none], kktIdx := #[none] }, soc := #[], nsoc := 0, expc := #[],
    nexc := 0, fexv := 1 }

def oneRowShape : Shape := { l := 1, ns := 0, q := fun _ => 0, ne := 0 }

theorem oneRow_is : ConeIs oneRow oneRowShape :=
  ⟨rfl, rfl, fun k hk => absurd hk (Nat.not_lt_zero k), fun k hk => absurd hk (Nat.not_lt_zero k), rfl,
    by simp [oneRow, oneRowShape, Shape.fexv, Shape.start], rfl, rfl⟩

/-- below the floor the claim is false: `u = EPS/2 > 0` lies inside the cone, but dividing `u ∘ 1` by `u`
gives `1/2` -/
theorem C20_floor_violated : ∃ (C : Cone ℝ) (S : Shape) (ub wb tb vb : Buf ℝ) (u w : Nat → ℝ),
    ConeIs C S ∧ Has ub 0 S.fexv u ∧ Has wb 0 S.fexv w ∧ IntSym S u ∧ S.fexv ≤ tb.size ∧ S.fexv ≤ vb.size ∧
    ∃ t v, conicProduct ub wb C tb = .ok t ∧ conicDivision ub t.1 C vb = .ok v ∧ ¬ Has v 0 S.fexv w := by
  have hf : oneRowShape.fexv = 1 := by simp [oneRowShape, Shape.fexv, Shape.start]
  have e := real_EPS_pos
  have hu : Has (#[some (EPS / 2)] : Buf ℝ) 0 oneRowShape.fexv fun _ => EPS / 2 := by
    intro j hj; rw [hf] at hj; rw [show j = 0 by omega]; rfl
  have hw : Has (#[some 1] : Buf ℝ) 0 oneRowShape.fexv fun _ => (1 : ℝ) := by
    intro j hj; rw [hf] at hj; rw [show j = 0 by omega]; rfl
  obtain ⟨t, e0, -, -, h3, -⟩ := (Ok.def _ _).1 (conicProduct_ok oneRow_is hu hw (wb := #[none]) (by rw [hf]; rfl))
  have ht : Has t.1 0 oneRowShape.fexv fun _ => EPS / 2 * 1 := by
    intro j hj; rw [hf] at hj; exact h3 j hj
  obtain ⟨v, e1, -, -, h8, -⟩ := (Ok.def _ _).1 (conicDivision_ok oneRow_is hu ht (vb := #[none]) (by rw [hf]; rfl))
  refine ⟨oneRow, oneRowShape, _, _, #[none], #[none], _, _, oneRow_is, hu, hw,
    ⟨fun i _ => by linarith, fun k hk => absurd hk (Nat.not_lt_zero k)⟩, by rw [hf]; rfl,
    by rw [hf]; rfl, t, v, e0, e1, fun h => ?_⟩
  have h9 := h8 0 (by simp [oneRowShape])
  have h10 := h 0 (by rw [hf]; omega)
  rw [h9] at h10
  have h11 := Option.some.inj (Option.some.inj h10)
  simp only [mul_one] at h11
  unfold safedivPos at h11
  have : ((EPS : ℝ) / 2 < EPS) := by linarith
  simp [this] at h11
  have h12 : (EPS : ℝ) / 2 / EPS = 1 / 2 := by field_simp
  rw [h12] at h11
  norm_num at h11

/-! ### A concrete case

One linear row and one second-order cone of dimension 3. -/

def exShape : Shape := { l := 1, ns := 1, q := fun _ => 3, ne := 0 }

def exSoc (F : Type) : SoCone F :=
  { p := 3, skbar := #[none, none, none], zkbar := #[none, none, none], q := #[none, none],
    Didx := #[none, none, none], a := none, w := none, eta := none, etaSq := none, d1 := none, u0 := none,
    u1 := none, v1 := none }

def exCone (F : Type) : Cone F :=
  { lpc := { p := 1, w := #[none], v := #[none], kktIdx := #[none] }, soc := #[exSoc F], nsoc := 1,
    expc := #[], nexc := 0, fexv := 4 }

theorem exCone_is (F : Type) : ConeIs (exCone F) exShape :=
  ⟨rfl, rfl, fun k hk => ⟨exSoc F, by
      have : k = 0 := by simp only [exShape] at hk; omega
      subst this; rfl, rfl⟩, fun k hk => by simp [exShape], rfl,
    by simp [exCone, exShape, Shape.fexv, Shape.start], rfl, rfl⟩

theorem ex_fexv : exShape.fexv = 4 := by simp [exShape, Shape.fexv, Shape.start]

theorem ex_has (v : Nat → ℝ) : Has (#[some (v 0), some (v 1), some (v 2), some (v 3)] : Buf ℝ) 0 exShape.fexv v := by
  intro j hj
  rw [ex_fexv] at hj
  match j with
  | 0 => rfl
  | 1 => rfl
  | 2 => rfl
  | 3 => rfl
  | j + 4 => omega

/-- `(-1; 1, 3, 4)` is not in the cone; the initial point made of it is -/
example : ∃ s' α e, bring2cone (exCone ℝ) #[some (-1), some 1, some 3, some 4] #[none, none, none, none] = .ok s' ∧
    (0.01 : ℝ) ≤ α ∧ IsIdentity exShape e ∧
    IntSym exShape (fun i => (fun i => if i = 0 then -1 else if i = 1 then 1 else if i = 2 then 3 else 4) i + α * e i) := by
  obtain ⟨s', α, e, h1, h2, h3, -, h4, -⟩ := C16_bring2cone (exCone_is ℝ)
    (ex_has fun i => if i = 0 then -1 else if i = 1 then 1 else if i = 2 then 3 else 4)
    (s := #[none, none, none, none]) (by rw [ex_fexv]; rfl)
  simp only [if_true] at h1
  norm_num at h1
  exact ⟨s', α, e, h1, h2, h3, h4⟩

/-- `u = (2; 3, 1, 2)` meets the hypotheses of `C20_division_inverts` -/
example : ∃ t v, conicProduct (#[some 2, some 3, some 1, some 2] : Buf ℝ) #[some 5, some (-1), some 7, some 0] (exCone ℝ)
      #[none, none, none, none] = .ok t ∧
    conicDivision (#[some 2, some 3, some 1, some 2] : Buf ℝ) t.1 (exCone ℝ) #[none, none, none, none] = .ok v ∧
    Has v 0 4 (fun i => if i = 0 then 5 else if i = 1 then -1 else if i = 2 then 7 else 0) := by
  have e : (EPS : ℝ) ≤ 1 := by unfold EPS; norm_num
  have := C20_division_inverts (exCone_is ℝ)
    (ex_has fun i => if i = 0 then 2 else if i = 1 then 3 else if i = 2 then 1 else 2)
    (ex_has fun i => if i = 0 then 5 else if i = 1 then -1 else if i = 2 then 7 else 0)
    (tb := #[none, none, none, none]) (vb := #[none, none, none, none]) (by rw [ex_fexv]; rfl) (by rw [ex_fexv]; rfl)
    (fun i hi => by
      have : i = 0 := by simp only [exShape] at hi; omega
      subst this; simp only [if_true]; linarith)
    (fun k hk => by
      have : k = 0 := by simp only [exShape] at hk; omega
      subst this
      simp only [Shape.block, tailSq, exShape]
      norm_num [sum_range_succ]
      constructor <;> linarith)
  rw [ex_fexv] at this
  obtain ⟨t, v, h1, h2, h3⟩ := this
  norm_num at h1 h2
  exact ⟨t, v, h1, h2, h3⟩

end Cones
end Ecos
