import Verif.Lemmas.Setup1
import Verif.Lemmas.Upd2
import Verif.Spec.Amd

/-!
# The columns of the KKT matrix are sorted when no column of `A` and `G` holds a row twice
-/
namespace Ecos.Asm

open Ecos Finset Ecos.Fact

set_option linter.unusedSectionVars false

/-- the entries of a column of the transpose are in increasing order exactly if no column has duplicates -/
theorem transpose_inc {m n : Nat} {jc ir : Nat → Nat} (h : CscOk m n jc ir) :
    (∀ j, j < m → ∀ q, csStart ir (jc n) j ≤ q → q + 1 < csStart ir (jc n) (j + 1) →
      colOf n jc (csInv ir (jc n) q) < colOf n jc (csInv ir (jc n) (q + 1))) ↔ NoDup n jc ir := by
  have hkey : ∀ j q, csStart ir (jc n) j ≤ q → q < csStart ir (jc n) (j + 1) → ir (csInv ir (jc n) q) = j := by
    intro j q h1 h2
    have hq : q < jc n := lt_of_lt_of_le h2 (csStart_le _)
    obtain ⟨a, b⟩ := csInv_spec (κ := ir) hq
    have h3 := csPos_ge (κ := ir) (N := jc n) (csInv ir (jc n) q)
    have h4 := csPos_lt (κ := ir) a
    rw [b] at h3 h4
    rcases lt_trichotomy (ir (csInv ir (jc n) q)) j with h5 | h5 | h5
    · have := csStart_mono (κ := ir) (N := jc n) (r := ir (csInv ir (jc n) q) + 1) (s := j) h5
      omega
    · exact h5
    · have := csStart_mono (κ := ir) (N := jc n) (r := j + 1) (s := ir (csInv ir (jc n) q)) h5
      omega
  constructor
  · intro hinc c hc k l h1 h2 h3 e
    have hl : l < jc n := lt_of_lt_of_le h3 (h.mono' (i := c + 1) (j := n) hc le_rfl)
    have hk : k < jc n := by omega
    have hm := h.rows k hk
    have step : ∀ d q, csStart ir (jc n) (ir k) ≤ q → q + (d + 1) < csStart ir (jc n) (ir k + 1) →
        colOf n jc (csInv ir (jc n) q) < colOf n jc (csInv ir (jc n) (q + (d + 1))) := by
      intro d
      induction d with
      | zero => intro q h1 h2; exact hinc _ hm q h1 h2
      | succ d ih =>
        intro q h1 h2
        exact lt_trans (ih q h1 (by omega)) (hinc _ hm (q + (d + 1)) (by omega) (by omega))
    have hlt := csPos_lt_csPos_of_same (N := jc n) e h2
    have h4 := csPos_ge (κ := ir) (N := jc n) k
    have h5 := csPos_lt (κ := ir) hl
    rw [← e] at h5
    have := step (csPos ir (jc n) l - csPos ir (jc n) k - 1) (csPos ir (jc n) k) h4 (by omega)
    rw [show csPos ir (jc n) k + (csPos ir (jc n) l - csPos ir (jc n) k - 1 + 1) = csPos ir (jc n) l by omega, csInv_pos hk, csInv_pos hl,
      colOf_eq h hc h1 (by omega), colOf_eq h hc (by omega) h3] at this
    omega
  · intro hnd j hj q h1 h2
    have hq : q + 1 < jc n := lt_of_lt_of_le h2 (csStart_le _)
    have e1 := hkey j q h1 (by omega)
    have e2 := hkey j (q + 1) (by omega) h2
    obtain ⟨a1, b1⟩ := csInv_spec (κ := ir) (N := jc n) (q := q) (by omega)
    obtain ⟨a2, b2⟩ := csInv_spec (κ := ir) hq
    have hlt : csInv ir (jc n) q < csInv ir (jc n) (q + 1) := by
      by_contra hge
      rcases Nat.lt_or_ge (csInv ir (jc n) (q + 1)) (csInv ir (jc n) q) with h3 | h3
      · have := csPos_lt_csPos_of_same (κ := ir) (N := jc n) (e2.trans e1.symm) h3
        omega
      · have e3 : csInv ir (jc n) q = csInv ir (jc n) (q + 1) := by omega
        rw [e3, b2] at b1
        omega
    have hle := colOf_mono h hlt.le a2
    refine lt_of_le_of_ne hle fun e => ?_
    obtain ⟨c, c1, c2, c3⟩ := h.exists_col a1
    obtain ⟨d, d1, d2, d3⟩ := h.exists_col a2
    rw [colOf_eq h c1 c2 c3, colOf_eq h d1 d2 d3] at e
    subst e
    exact hnd c c1 _ _ c2 hlt d3 (e1.trans e2.symm)

/-- the same with positions counted from the start of the column -/
theorem shift_inc {m : Nat} {s : Nat → Nat} {f : Nat → Nat} :
    (∀ j, j < m → ∀ t, t + 1 < s (j + 1) - s j → f (s j + t) < f (s j + (t + 1))) ↔
    ∀ j, j < m → ∀ q, s j ≤ q → q + 1 < s (j + 1) → f q < f (q + 1) := by
  constructor
  · intro h j hj q h1 h2
    have := h j hj (q - s j) (by omega)
    rwa [show s j + (q - s j) = q by omega, show s j + (q - s j + 1) = q + 1 by omega] at this
  · intro h j hj t ht
    exact h j hj (s j + t) (by omega) (by omega)

section generic
variable {F : Type} [Zero F] [One F] [Add F] [Sub F] [Mul F] [Div F] [Neg F] [OfScientific F]
  [IntCast F] [PFloat F]

/-- the rows of a column increase -/
def Col.Inc (c : Col F) : Prop := ∀ t, t + 1 < c.len → c.row t < c.row (t + 1)

theorem Col.cat_inc {c d b : Nat} {r r' : Nat → Nat} {v v' : Nat → F} (h0 : ∀ t, t < c → r t < b) (h1 : ∀ t, t < d → b ≤ r' t)
    (h2 : ∀ t, t + 1 < d → r' t < r' (t + 1)) : (Col.cat c r v d r' v').Inc ↔ ∀ t, t + 1 < c → r t < r (t + 1) := by
  constructor
  · intro h t ht
    have := h t (show t + 1 < c + d by omega)
    have e1 : (Col.cat c r v d r' v').row t = r t := if_pos (by omega)
    have e2 : (Col.cat c r v d r' v').row (t + 1) = r (t + 1) := if_pos ht
    rwa [e1, e2] at this
  · intro h t ht
    have ht' : t + 1 < c + d := ht
    show (if t < c then r t else r' (t - c)) < if t + 1 < c then r (t + 1) else r' (t + 1 - c)
    split
    · split
      · exact h t (by assumption)
      · exact lt_of_lt_of_le (h0 t (by omega)) (h1 _ (by omega))
    · rw [if_neg (by omega), show t + 1 - c = t - c + 1 by omega]
      exact h2 _ (by omega)

variable {T : Parts F}

theorem Parts.gcol_inc (hT : T.Ok) {j d b : Nat} {r : Nat → Nat} {v : Nat → F} (hj : j < T.S.m) (hb : T.n ≤ b) (h1 : ∀ t, t < d → b ≤ r t)
    (h2 : ∀ t, t + 1 < d → r t < r (t + 1)) : (T.gcol j d r v).Inc ↔ ∀ t, t + 1 < T.cG j → T.iG (T.jG j + t) < T.iG (T.jG j + (t + 1)) := by
  refine Col.cat_inc (b := b) (fun t ht => ?_) h1 h2
  have h1 := hT.g.mono' (i := j + 1) (j := T.S.m) hj le_rfl
  have : T.cG j = T.jG (j + 1) - T.jG j := rfl
  have := hT.g.rows (T.jG j + t) (by omega)
  omega

/-- the columns of the KKT matrix are sorted exactly if those of the transposes are -/
theorem Parts.inc_iff (hT : T.Ok) : (∀ c, c < T.N → (T.col c).Inc) ↔
    (∀ j, j < T.p → ∀ t, t + 1 < T.cA j → T.iA (T.jA j + t) < T.iA (T.jA j + (t + 1))) ∧
    ∀ j, j < T.S.m → ∀ t, t + 1 < T.cG j → T.iG (T.jG j + t) < T.iG (T.jG j + (t + 1)) := by
  have hN : T.N = T.n + T.p + T.S.x.m := rfl
  have hm : T.S.m = T.S.fexv + 3 * T.S.ne := rfl
  have hlm : T.S.l ≤ T.S.m := le_trans (T.S.l_le _) (Nat.le_add_right _ _)
  have hxm : T.S.x.m = T.S.x.fexv + 3 * T.S.ne := rfl
  have hlx : T.S.l ≤ T.S.x.fexv := T.S.x.l_le T.S.ns
  have hy : ∀ j, j < T.p → ((T.col (T.n + j)).Inc ↔ ∀ t, t + 1 < T.cA j → T.iA (T.jA j + t) < T.iA (T.jA j + (t + 1))) := by
    intro j hj
    rw [T.col_y hj]
    refine Col.cat_inc (b := T.n) (fun t ht => ?_) (fun t _ => by omega) fun t ht => by omega
    have h1 := hT.a.mono' (i := j + 1) (j := T.p) hj le_rfl
    have : T.cA j = T.jA (j + 1) - T.jA j := rfl
    exact hT.a.rows (T.jA j + t) (by omega)
  have hlp : ∀ j, j < T.S.l → ((T.col (T.n + T.p + j)).Inc ↔ ∀ t, t + 1 < T.cG j → T.iG (T.jG j + t) < T.iG (T.jG j + (t + 1))) := by
    intro j hj
    rw [T.col_lp hj]
    exact T.gcol_inc hT (by omega) (b := T.n + T.p + j) (by omega) (fun t _ => le_rfl) fun t ht => by omega
  have hsoc : ∀ k j, k < T.S.ns → j < T.S.q k → ((T.col (T.n + T.p + (T.S.x.start k + j))).Inc ↔
      ∀ t, t + 1 < T.cG (T.S.start k + j) → T.iG (T.jG (T.S.start k + j) + t) < T.iG (T.jG (T.S.start k + j) + (t + 1))) := by
    intro k j hk hj
    have hle := T.S.start_le hk
    rw [T.col_soc hk (by omega)]
    unfold Parts.socCol
    simp only
    rw [if_pos hj]
    exact T.gcol_inc hT (by omega) (b := T.n + T.p) (by omega) (fun t _ => by omega) fun t ht => by omega
  have hsoc2 : ∀ k j, k < T.S.ns → T.S.q k ≤ j → j < T.S.q k + 2 → (T.col (T.n + T.p + (T.S.x.start k + j))).Inc := by
    intro k j hk h1 h2
    rw [T.col_soc hk h2]
    unfold Parts.socCol
    simp only
    rw [if_neg (by omega)]
    split
    · intro t ht; simp only; omega
    · intro t ht
      simp only at ht ⊢
      rw [if_pos (by omega)]
      split <;> omega
  have hexp : ∀ l j, l < T.S.ne → j < 3 → ((T.col (T.n + T.p + (T.S.x.fexv + 3 * l + j))).Inc ↔
      ∀ t, t + 1 < T.cG (T.S.fexv + 3 * l + j) → T.iG (T.jG (T.S.fexv + 3 * l + j) + t) < T.iG (T.jG (T.S.fexv + 3 * l + j) + (t + 1))) := by
    intro l j hl hj
    rw [T.col_exp hj]
    unfold Parts.expCol
    exact T.gcol_inc hT (by omega) (b := T.n + T.p) (by omega) (fun t _ => by omega) fun t ht => by omega
  constructor
  · intro h
    refine ⟨fun j hj => (hy j hj).1 (h _ (by omega)), fun j hj => ?_⟩
    rcases T.S.m_cases hj with h' | ⟨k, i, hk, hi, e⟩ | ⟨l, i, hl, hi, e⟩
    · exact (hlp j h').1 (h _ (by omega))
    · have hxb := T.x_bound hk
      rw [e]
      exact (hsoc k i hk hi).1 (h _ (by omega))
    · rw [e]
      exact (hexp l i hl hi).1 (h _ (by omega))
  · rintro ⟨hA, hG⟩ c hc
    by_cases h1 : c < T.n
    · rw [T.col_x h1]
      intro t ht
      simp only at ht
      omega
    · by_cases h2 : c < T.n + T.p
      · obtain ⟨j, rfl⟩ : ∃ j, c = T.n + j := ⟨c - T.n, by omega⟩
        exact (hy j (by omega)).2 (hA j (by omega))
      · obtain ⟨i, rfl⟩ : ∃ i, c = T.n + T.p + i := ⟨c - T.n - T.p, by omega⟩
        rcases T.S.x.m_cases (i := i) (by omega) with h | ⟨k, j, hk, hj, e⟩ | ⟨l, j, hl, hj, e⟩
        · have h' : i < T.S.l := h
          exact (hlp i h').2 (hG i (by omega))
        · have hk' : k < T.S.ns := hk
          have hj' : j < T.S.q k + 2 := hj
          have hle := T.S.start_le hk'
          rw [e]
          by_cases hq : j < T.S.q k
          · exact (hsoc k j hk' hq).2 (hG _ (by omega))
          · exact hsoc2 k j hk' (by omega) hj'
        · have hl' : l < T.S.ne := hl
          rw [e]
          exact (hexp l j hl' hj).2 (hG _ (by omega))

variable {T : Pat} {S : Shape} {a g : Nat → F}

/-- no column of `A` or `G` holds a row twice -/
def PatNoDup (T : Pat) : Prop := (T.hasA → NoDup T.n T.jcA T.irA) ∧ NoDup T.n T.jcG T.irG

theorem PatGood.inc_iff (hP : PatGood T S) :
    (∀ c, c < (partsOf T S a g).N → ((partsOf T S a g).col c).Inc) ↔ PatNoDup T := by
  rw [Parts.inc_iff hP.parts]
  refine and_congr ?_ ?_
  · cases hA : T.hasA with
    | false =>
      refine iff_of_true (fun j hj => ?_) fun h => by simp at h
      have := hP.noA hA
      have hj' : j < T.p := hj
      omega
    | true =>
      rw [show (true = true → NoDup T.n T.jcA T.irA) ↔ NoDup T.n T.jcA T.irA by simp, ← transpose_inc (hP.a hA)]
      show (∀ j, j < T.p → ∀ t, t + 1 < csStart T.irA T.nA (j + 1) - csStart T.irA T.nA j →
        colOf T.n T.jcA (csInv T.irA T.nA (csStart T.irA T.nA j + t)) < colOf T.n T.jcA (csInv T.irA T.nA (csStart T.irA T.nA j + (t + 1)))) ↔ _
      rw [PatGood.nA_of hA]
      exact shift_inc (s := csStart T.irA (T.jcA T.n)) (f := fun q => colOf T.n T.jcA (csInv T.irA (T.jcA T.n) q))
  · rw [← transpose_inc hP.g]
    show (∀ j, j < S.m → ∀ t, t + 1 < csStart T.irG T.nG (j + 1) - csStart T.irG T.nG j →
      colOf T.n T.jcG (csInv T.irG T.nG (csStart T.irG T.nG j + t)) < colOf T.n T.jcG (csInv T.irG T.nG (csStart T.irG T.nG j + (t + 1)))) ↔ _
    rw [hP.m]
    exact shift_inc (s := csStart T.irG (T.jcG T.n)) (f := fun q => colOf T.n T.jcG (csInv T.irG (T.jcG T.n) q))
end generic
end Ecos.Asm
