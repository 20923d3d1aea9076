import Verif.Lemmas.Asm2

/-!
# Assembly of the KKT matrix: number of entries, signs, and the result
-/
namespace Ecos.Asm

open Ecos Finset Ecos.Fact

set_option linter.unusedSectionVars false

section generic
variable {F : Type} [Zero F] [One F] [Add F] [Sub F] [Mul F] [Div F] [Neg F] [OfScientific F]
  [IntCast F] [PFloat F]

/-- the column pointers of `At` and `Gt` are as they should be -/
structure Parts.Ok (T : Parts F) : Prop where
  a : CscOk T.n T.p T.jA T.iA
  g : CscOk T.n T.S.m T.jG T.iG
  pos : ∀ k, k < T.S.ns → 0 < T.S.q k

variable {T : Parts F}

namespace Parts

theorem off_y (hT : T.Ok) {j : Nat} (h : j ≤ T.p) : T.off (T.n + j) = T.n + T.jA j + j := by
  induction j with
  | zero => rw [Nat.add_zero, T.off_x le_rfl, hT.a.zero]; rfl
  | succ j ih =>
    rw [← Nat.add_assoc, T.off_succ, ih (by omega), T.col_y (by omega)]
    show _ + (T.cA j + 1) = _
    have := hT.a.mono j (by omega)
    unfold cA
    omega

theorem off_lp (hT : T.Ok) {j : Nat} (h : j ≤ T.S.l) : T.off (T.n + T.p + j) = T.n + T.p + T.jA T.p + T.jG j + j := by
  have hlm : T.S.l ≤ T.S.m := le_trans (T.S.l_le _) (Nat.le_add_right _ _)
  induction j with
  | zero => rw [Nat.add_zero, off_y hT le_rfl, hT.g.zero]; omega
  | succ j ih =>
    rw [← Nat.add_assoc, T.off_succ, ih (by omega), T.col_lp (by omega)]
    show _ + (T.cG j + 1) = _
    have := hT.g.mono j (by omega)
    unfold cG
    omega

theorem off_blk (hT : T.Ok) {k j : Nat} (hk : k < T.S.ns) (hj : j ≤ T.S.q k) :
    T.off (T.n + T.p + (T.S.x.start k + j)) = T.off (T.n + T.p + T.S.x.start k) + (T.jG (T.S.start k + j) - T.jG (T.S.start k)) + j := by
  have hle := T.S.start_le hk
  have hm : T.S.m = T.S.fexv + 3 * T.S.ne := rfl
  induction j with
  | zero => simp
  | succ j ih =>
    rw [← Nat.add_assoc, ← Nat.add_assoc, T.off_succ, Nat.add_assoc (T.n + T.p), ih (by omega), T.col_soc hk (by omega)]
    unfold socCol
    simp only
    rw [if_pos (by omega)]
    show _ + (T.cG (T.S.start k + j) + 1) = _
    have h1 := hT.g.mono (T.S.start k + j) (by omega)
    have h2 := hT.g.mono' (i := T.S.start k) (j := T.S.start k + j) (by omega) (by omega)
    unfold cG
    rw [← Nat.add_assoc (T.S.start k)]
    omega

theorem off_soc (hT : T.Ok) {k : Nat} (hk : k ≤ T.S.ns) : T.off (T.n + T.p + T.S.x.start k) =
    T.n + T.p + T.jA T.p + T.jG (T.S.start k) + T.S.l + ∑ i ∈ range k, (3 * T.S.q i + 1) := by
  induction k with
  | zero =>
    rw [T.S.start_zero, T.S.x.start_zero]
    have := off_lp hT (j := T.S.l) le_rfl
    rw [range_zero, sum_empty]
    exact this
  | succ k ih =>
    have hs : T.S.x.start (k + 1) = T.S.x.start k + T.S.q k + 1 + 1 := T.S.x.start_succ k
    have h1 := off_blk hT (k := k) (j := T.S.q k) (by omega) le_rfl
    have hq := hT.pos k (by omega)
    have hle := T.S.start_le (k := k) (by omega)
    have hm : T.S.m = T.S.fexv + 3 * T.S.ne := rfl
    have h2 := hT.g.mono' (i := T.S.start k) (j := T.S.start k + T.S.q k) (by omega) (by omega)
    rw [hs, ← Nat.add_assoc, T.off_succ, ← Nat.add_assoc, T.off_succ, h1, ih (by omega),
      show T.n + T.p + (T.S.x.start k + T.S.q k) + 1 = T.n + T.p + (T.S.x.start k + (T.S.q k + 1)) by omega, T.col_soc (by omega) (by omega),
      T.col_soc (by omega) (by omega), sum_range_succ, T.S.start_succ]
    unfold socCol
    simp only
    rw [if_neg (by omega), if_pos trivial, if_neg (by omega), if_neg (by omega)]
    simp only
    omega

theorem off_exp1 {l j : Nat} (hj : j < 3) :
    T.off (T.n + T.p + (T.S.x.fexv + 3 * l + j) + 1) = T.off (T.n + T.p + (T.S.x.fexv + 3 * l + j)) + T.cG (T.S.fexv + 3 * l + j) + (j + 1) := by
  rw [T.off_succ, T.col_exp hj]
  show _ + (T.cG _ + (j + 1)) = _
  omega

theorem off_exp (hT : T.Ok) {l : Nat} (hl : l ≤ T.S.ne) : T.off (T.n + T.p + (T.S.x.fexv + 3 * l)) =
    T.n + T.p + T.jA T.p + T.jG (T.S.fexv + 3 * l) + T.S.l + ∑ i ∈ range T.S.ns, (3 * T.S.q i + 1) + 6 * l := by
  have hm : T.S.m = T.S.fexv + 3 * T.S.ne := rfl
  induction l with
  | zero => exact off_soc hT (k := T.S.ns) le_rfl
  | succ l ih =>
    have h0 := off_exp1 (T := T) (l := l) (j := 0) (by omega)
    have h1 := off_exp1 (T := T) (l := l) (j := 1) (by omega)
    have h2 := off_exp1 (T := T) (l := l) (j := 2) (by omega)
    have m0 := hT.g.mono (T.S.fexv + 3 * l) (by omega)
    have m1 := hT.g.mono (T.S.fexv + 3 * l + 1) (by omega)
    have m2 := hT.g.mono (T.S.fexv + 3 * l + 2) (by omega)
    have ih := ih (by omega)
    unfold cG at h0 h1 h2
    simp only [Nat.add_zero] at h0
    rw [show T.n + T.p + (T.S.x.fexv + 3 * (l + 1)) = T.n + T.p + (T.S.x.fexv + 3 * l + 2) + 1 by omega, h2,
      show T.n + T.p + (T.S.x.fexv + 3 * l + 2) = T.n + T.p + (T.S.x.fexv + 3 * l + 1) + 1 by omega, h1,
      show T.n + T.p + (T.S.x.fexv + 3 * l + 1) = T.n + T.p + (T.S.x.fexv + 3 * l) + 1 by omega, h0, ih,
      show T.S.fexv + 3 * (l + 1) = T.S.fexv + 3 * l + 2 + 1 by omega]
    simp only [Nat.add_assoc, Nat.reduceAdd] at m0 m1 m2 ⊢
    omega

/-- number of entries of the matrix -/
theorem off_N (hT : T.Ok) : T.off T.N =
    T.n + T.p + T.jA T.p + T.jG T.S.m + T.S.l + ∑ i ∈ range T.S.ns, (3 * T.S.q i + 1) + 6 * T.S.ne :=
  off_exp hT le_rfl

end Parts

theorem kktNnz_ok {C : Cone F} (hC : ConeIs C T.S) (hT : T.Ok) : kktNnz C (T.jA T.p) (T.jG T.S.m) T.n T.p = .ok (T.off T.N) := by
  have : Ok (kktNnz C (T.jA T.p) (T.jG T.S.m) T.n T.p) fun r => r = T.off T.N := by
    unfold kktNnz
    rw [hC.nsoc, hC.l, hC.nexc]
    refine Ok.bind (P := fun r => r = T.jA T.p + T.jG T.S.m + T.S.l + (T.n + T.p) + ∑ i ∈ range T.S.ns, (3 * T.S.q i + 1)) ?_ ?_
    · refine loop_ok (fun k r => r = T.jA T.p + T.jG T.S.m + T.S.l + (T.n + T.p) + ∑ i ∈ range k, (3 * T.S.q i + 1)) (by omega) (by simp)
        ?_ (fun _ h => h)
      rintro k r _ hk rfl
      obtain ⟨c, hc, hp⟩ := hC.soc k hk
      rw [getIdx_some hc, ok_bind_eq, Ok_pure, hp, sum_range_succ]
      omega
    · rintro r rfl
      rw [Ok_pure, Parts.off_N hT]
      omega
  obtain ⟨r, e, h⟩ := (Ok.def _ _).1 this
  rw [e, h]

theorem glue_soc_at {α : Type} {S : Shape} {f : Nat → α} {g h : Nat → Nat → α} {k j : Nat} (hk : k < S.ns) (hj : j < S.q k) :
    glue S f g h (S.start k + j) = g k j := glue_block S f g h hk hj

theorem glue_exp_at {α : Type} {S : Shape} {f : Nat → α} {g h : Nat → Nat → α} {l j : Nat} (hj : j < 3) :
    glue S f g h (S.fexv + 3 * l + j) = h l j := glue_exp S f g h hj

/-- the signs of the pivots -/
noncomputable def signs (n p : Nat) (S : Shape) : Nat → Int :=
  three n p (fun _ => 1) (fun _ => -1) (glue S.x (fun _ => -1) (fun k j => if j = S.q k + 1 then 1 else -1) fun _ _ => -1)

theorem signSocs_ok {C : Cone F} (hC : ConeIs C T.S) {sg : Buf Int} (hs : sg.size = T.N) :
    Ok (signSocs C (T.n + T.p + T.S.l) sg) fun sg' => sg'.size = T.N ∧ (∀ i, i < T.n + T.p + T.S.l → sg'[i]? = sg[i]?) ∧
      ∀ k, k < T.S.ns → Has sg' (T.n + T.p + T.S.x.start k) (T.S.q k + 2) fun j => if j = T.S.q k + 1 then 1 else -1 := by
  unfold signSocs
  refine Ok.bind (P := fun t => t.1.size = T.N ∧ (∀ i, i < T.n + T.p + T.S.l → t.1[i]? = sg[i]?) ∧
      ∀ k, k < T.S.ns → Has t.1 (T.n + T.p + T.S.x.start k) (T.S.q k + 2) fun j => if j = T.S.q k + 1 then 1 else -1) ?_
    (fun t h => by rw [Ok_pure]; exact h)
  refine (forSoc_ok hC (fun k sg' => sg'.size = T.N ∧ (∀ i, i < T.n + T.p + T.S.l → sg'[i]? = sg[i]?) ∧
      ∀ i, i < k → Has sg' (T.n + T.p + T.S.x.start i) (T.S.q i + 2) fun j => if j = T.S.q i + 1 then 1 else -1)
      ⟨hs, fun _ _ => rfl, fun i hi => by omega⟩ ?_).mono ?_
  · rintro k soc b hk hsoc hq ⟨h1, h2, h3⟩
    have hb := T.x_bound hk
    have hN : T.N = T.n + T.p + T.S.x.m := rfl
    have hst : T.n + T.p + T.S.l + ∑ i ∈ range k, (T.S.q i + 2) = T.n + T.p + T.S.x.start k := by
      have := T.S.x.start_add k
      have e : ∑ i ∈ range k, (T.S.x.q i + 0) = ∑ i ∈ range k, (T.S.q i + 2) := rfl
      have e2 : T.S.x.l = T.S.l := rfl
      omega
    have hl : T.S.l ≤ T.S.x.start k := T.S.x.l_le k
    rw [hst, hq]
    refine Ok.bind (fill_ok (g := fun _ => -1) (by omega) (fun i _ => rfl)) fun b1 g1 => ?_
    have s1 := g1.size
    refine Ok.bind (wr_seg (by omega)) fun b2 g2 => ?_
    have s2 := g2.size
    refine (wr_seg (by omega)).mono fun b3 g3 => ?_
    have s3 := g3.size
    refine ⟨by omega, fun i hi => ?_, fun i hi => ?_⟩
    · rw [g3.outside i (by omega), g2.outside i (by omega), g1.outside i (by omega), h2 i hi]
    · by_cases e : i = k
      · subst e
        intro j hj
        beta_reduce
        rcases Nat.lt_or_ge j (T.S.q i) with hj1 | hj1
        · rw [if_neg (by omega), g3.outside _ (by omega), g2.outside _ (by omega)]
          exact g1.inside j hj1
        · rcases Nat.lt_or_ge j (T.S.q i + 1) with hj2 | hj2
          · have : j = T.S.q i := by omega
            subst this
            rw [if_neg (by omega), g3.outside _ (by omega)]
            exact g2.inside 0 (by omega)
          · have : j = T.S.q i + 1 := by omega
            subst this
            rw [if_pos rfl]
            exact g3.inside 0 (by omega)
      · have hd : T.S.x.start i + (T.S.q i + 2) ≤ T.S.x.start k := T.S.x.disj (by omega)
        exact g3.has (g2.has (g1.has (h3 i (by omega)) (by omega)) (by omega)) (by omega)
  · rintro t ⟨h, -⟩
    exact h

theorem kktSign_ok {C : Cone F} (hC : ConeIs C T.S) : Ok (kktSign C T.n T.p T.N) fun sg => Holds sg T.N (signs T.n T.p T.S) := by
  unfold kktSign
  have hN : T.N = T.n + T.p + T.S.x.m := rfl
  have hxm : T.S.x.m = T.S.x.fexv + 3 * T.S.ne := rfl
  have hl : T.S.l ≤ T.S.x.fexv := T.S.x.l_le T.S.ns
  rw [hC.l, hC.nexc]
  refine Ok.bind (fill_ok (g := fun _ => 1) (by rw [malloc_size]; omega) (fun i _ => rfl)) fun b1 g1 => ?_
  have s1 := g1.size
  rw [malloc_size] at s1
  refine Ok.bind (fill_ok (g := fun _ => -1) (by omega) (fun i _ => rfl)) fun b2 g2 => ?_
  have s2 := g2.size
  refine Ok.bind (fill_ok (g := fun _ => -1) (by omega) (fun i _ => rfl)) fun b3 g3 => ?_
  have s3 := g3.size
  refine Ok.bind (signSocs_ok hC (by omega)) ?_
  rintro b4 ⟨s4, g4, g5⟩
  refine (fill_ok (g := fun _ => -1) (by omega) (fun i _ => rfl)).mono fun b5 g6 => ?_
  refine ⟨by rw [g6.size, s4], fun i hi => ?_⟩
  unfold signs three
  by_cases h1 : i < T.n
  · rw [if_pos h1, g6.outside i (by omega), g4 i (by omega), g3.outside i (by omega), g2.outside i (by omega)]
    simpa using g1.inside i h1
  · rw [if_neg h1]
    by_cases h2 : i < T.n + T.p
    · rw [if_pos h2, g6.outside i (by omega), g4 i (by omega), g3.outside i (by omega)]
      have := g2.inside (i - T.n) (by omega)
      rwa [show T.n + (i - T.n) = i by omega] at this
    · rw [if_neg h2]
      rcases T.S.x.m_cases (i := i - T.n - T.p) (by omega) with h | ⟨k, j, hk, hj, e⟩ | ⟨l, j, hl', hj, e⟩
      · have hll : T.S.x.l = T.S.l := rfl
        rw [glue_lp T.S.x _ _ _ h, g6.outside i (by omega), g4 i (by omega)]
        have := g3.inside (i - T.n - T.p) (by omega)
        rwa [show T.n + T.p + (i - T.n - T.p) = i by omega] at this
      · have hk' : k < T.S.ns := hk
        have hb := T.x_bound hk'
        have hj' : j < T.S.q k + 2 := hj
        have hle := T.S.x.start_le (k := k) hk
        have hxq : T.S.x.q k = T.S.q k + 2 := rfl
        rw [e, glue_soc_at hk hj, g6.outside i (by omega)]
        have := g5 k hk' j hj'
        rwa [show T.n + T.p + T.S.x.start k + j = i by omega] at this
      · have hl2 : l < T.S.ne := hl'
        rw [e, glue_exp_at hj]
        have := g6.inside (3 * l + j) (by omega)
        rwa [show T.N - 3 * T.S.ne + (3 * l + j) = i by omega] at this

/-! ### The result -/

/-- fresh cones: all arrays allocated -/
structure ConeNew (C : Cone F) (S : Shape) : Prop where
  is : ConeIs C S
  lw : C.lpc.w.size = S.l
  lv : C.lpc.v.size = S.l
  lk : C.lpc.kktIdx.size = S.l
  swf : ∀ k c, k < S.ns → C.soc[k]? = some c →
    c.skbar.size = S.q k ∧ c.zkbar.size = S.q k ∧ c.q.size = S.q k - 1 ∧ c.Didx.size = S.q k
  ewf : ∀ k c, k < S.ne → C.expc[k]? = some c → c.colstart.size = 3 ∧ c.v.size = 6 ∧ c.g.size = 3

/-- the positions stored in the cones -/
noncomputable def Parts.ix (T : Parts F) : ConeIx where
  k := fun j => T.off (T.n + T.p + j) + T.cG j
  d := fun k j => T.off (T.n + T.p + (T.S.x.start k + j)) + T.cG (T.S.start k + j)
  e := fun l j => T.off (T.n + T.p + (T.S.x.fexv + 3 * l + j)) + T.cG (T.S.fexv + 3 * l + j)

/-- every column has its rows in the upper triangle -/
theorem Parts.row_le (hT : T.Ok) {c t : Nat} (hc : c < T.N) (ht : t < (T.col c).len) : (T.col c).row t ≤ c := by
  have hN : T.N = T.n + T.p + T.S.x.m := rfl
  have hg : ∀ (j d : Nat) (r : Nat → Nat) (v : Nat → F) (b : Nat), j < T.S.m → T.n ≤ b → (∀ i, i < d → r i ≤ b) →
      t < (T.gcol j d r v).len → (T.gcol j d r v).row t ≤ b := by
    intro j d r v b hj hb hr ht
    have hlen : (T.gcol j d r v).len = T.cG j + d := rfl
    show (if _ then _ else _) ≤ _
    split
    · have h1 := hT.g.mono' (i := j + 1) (j := T.S.m) hj le_rfl
      have h2 := hT.g.mono j hj
      have : T.cG j = T.jG (j + 1) - T.jG j := rfl
      have := hT.g.rows (T.jG j + t) (by omega)
      omega
    · exact hr _ (by omega)
  by_cases h1 : c < T.n
  · rw [T.col_x h1]
  · by_cases h2 : c < T.n + T.p
    · obtain ⟨j, rfl⟩ : ∃ j, c = T.n + j := ⟨c - T.n, by omega⟩
      rw [T.col_y (by omega)] at ht ⊢
      have hlen : t < T.cA j + 1 := ht
      show (if _ then _ else _) ≤ _
      split
      · have h1 := hT.a.mono' (i := j + 1) (j := T.p) (by omega) le_rfl
        have h2 := hT.a.mono j (by omega)
        have : T.cA j = T.jA (j + 1) - T.jA j := rfl
        have := hT.a.rows (T.jA j + t) (by omega)
        omega
      · exact le_rfl
    · obtain ⟨i, rfl⟩ : ∃ i, c = T.n + T.p + i := ⟨c - T.n - T.p, by omega⟩
      rcases T.S.x.m_cases (i := i) (by omega) with h | ⟨k, j, hk, hj, e⟩ | ⟨l, j, hl', hj, e⟩
      · have hlm : T.S.l ≤ T.S.m := le_trans (T.S.l_le _) (Nat.le_add_right _ _)
        have h' : i < T.S.l := h
        rw [T.col_lp h'] at ht ⊢
        exact hg _ _ _ _ _ (by omega) (by omega) (fun _ _ => le_rfl) ht
      · have hk' : k < T.S.ns := hk
        have hj' : j < T.S.q k + 2 := hj
        have hle := T.S.start_le hk'
        have hm : T.S.m = T.S.fexv + 3 * T.S.ne := rfl
        rw [e, T.col_soc hk' hj'] at ht ⊢
        unfold socCol at ht ⊢
        simp only at ht ⊢
        split_ifs at ht ⊢ with a1 a2
        · exact hg _ _ _ _ _ (by omega) (by omega) (fun _ _ => by omega) ht
        · simp only at ht ⊢; omega
        · simp only at ht ⊢; split_ifs <;> omega
      · have hl2 : l < T.S.ne := hl'
        have hm : T.S.m = T.S.fexv + 3 * T.S.ne := rfl
        rw [e, T.col_exp hj] at ht ⊢
        unfold expCol at ht ⊢
        exact hg _ _ _ _ _ (by omega) (by omega) (fun _ _ => by omega) ht

theorem Parts.at_ {x : Nat} (hx : x < T.off T.N) : ∃ c t, c < T.N ∧ t < (T.col c).len ∧ x = T.off c + t := by
  obtain ⟨c, h1, h2, h3⟩ := T.off_csc.exists_col hx
  rw [T.off_succ] at h3
  exact ⟨c, x - T.off c, h1, by omega, by omega⟩

theorem Parts.upper (hT : T.Ok) : Upper T.N T.off T.ir := by
  intro c hc x h1 h2
  rw [T.off_succ] at h2
  obtain ⟨t, rfl⟩ : ∃ t, x = T.off c + t := ⟨x - T.off c, by omega⟩
  rw [T.ir_at hc (by omega)]
  exact T.row_le hT hc (by omega)

theorem Parts.csc (hT : T.Ok) : CscOk T.N T.N T.off T.ir :=
  ⟨T.off_csc.zero, T.off_csc.mono, fun x hx => by
    obtain ⟨c, t, hc, ht, rfl⟩ := T.at_ hx
    rw [T.ir_at hc ht]
    exact lt_of_le_of_lt (T.row_le hT hc ht) hc⟩

theorem at_n (At : Option (SpMat F)) : AtIs T At → matCols At = T.p := by
  cases At with
  | none => exact fun hA => hA.1.symm
  | some M => exact fun hA => Rep.n_eq (show Rep M T.n T.p T.jA T.iA T.a from hA)

theorem at_nnz (At : Option (SpMat F)) : AtIs T At → matNnz At = T.jA T.p := by
  cases At with
  | none => exact fun hA => by rw [hA.1, hA.2]; rfl
  | some M => exact fun hA => Rep.nnz_eq (show Rep M T.n T.p T.jA T.iA T.a from hA)

theorem createKKT_ok {Gt : SpMat F} {At : Option (SpMat F)} {C : Cone F} {mA mG : Buf Nat} (hG : Rep Gt T.n T.S.m T.jG T.iG T.g)
    (hA : AtIs T At) (hT : T.Ok) (hC : ConeNew C T.S) (hmA : mA.size = T.jA T.p) (hmG : mG.size = T.jG T.S.m) :
    Ok (createKKT Gt At C mA mG) fun U => Rep U.K T.N T.N T.off T.ir T.pr ∧ Holds U.Sign T.N (signs T.n T.p T.S) ∧
      MapTo T U.AttoK T.jA T.p T.p (fun j => T.n + j) ∧ MapTo T U.GttoK T.jG T.S.m T.S.m T.gto ∧ ConeWF U.C T.S T.ix := by
  unfold createKKT
  have hp := at_n At hA
  have hn := at_nnz At hA
  have hN : Gt.m + T.p + Gt.n + 2 * C.nsoc = T.N := by
    rw [hG.m_eq, hG.n_eq, hC.is.nsoc]
    have := T.xm
    unfold Parts.N
    omega
  simp only [hp, hn, hN]
  rw [hG.m_eq, hG.nnz_eq, kktNnz_ok hC.is hT, ok_bind_eq]
  refine Ok.bind (kktSign_ok hC.is) fun sg hsg => ?_
  refine Ok.bind (kktBlock1_ok ⟨rfl, malloc_size _, malloc_size _, malloc_size _, fun i hi => by omega, fun i hi => by omega,
    fun i hi => by omega⟩) fun B hB => ?_
  refine Ok.bind (kktBlock2_ok hA (s := ⟨B, 0, mA⟩) hB hT.a.zero.symm hmA) ?_
  rintro a ⟨ha1, ha2⟩
  rw [hC.is.l]
  refine Ok.bind (kktLp_ok hG (s := ⟨a.B, 0, mG⟩) ⟨ha1, hT.g.zero.symm, hmG, fun j hj => by omega⟩ hC.lk) ?_
  rintro g ⟨hg1, hg2⟩
  rw [hC.is.nsoc]
  refine Ok.bind (kktSocs_ok hG hg1 hC.is.nsize fun k hk => ?_) ?_
  · obtain ⟨c, hc, hcp⟩ := hC.is.soc k hk
    exact ⟨c, hc, hcp, (hC.swf k c hk hc).2.2.2, hT.pos k hk⟩
  rintro s ⟨hs1, hs2, hs3, hs4⟩
  have hfx : T.n + T.p + s.2.2 + 2 * T.S.ns = T.n + T.p + T.S.x.fexv := by
    have := T.S.x_start T.S.ns
    rw [hs3]
    unfold Shape.fexv
    show _ = T.n + T.p + T.S.x.start T.S.ns
    omega
  rw [hfx, hs3, hC.is.nexc]
  refine Ok.bind (kktExps_ok hG hs1 hC.is.esize fun k hk => ?_) ?_
  · have : k < C.expc.size := by rw [hC.is.esize]; exact hk
    exact ⟨C.expc[k], Array.getElem?_eq_getElem this, (hC.ewf k _ hk (Array.getElem?_eq_getElem this)).1⟩
  rintro e ⟨he1, he2, he3⟩
  have hb := he1.b
  unfold ecoscreateSparseMatrix
  rw [if_neg (by rw [hb.jcs]; omega)]
  refine Ok.bind (P := fun K => Rep K T.N T.N T.off T.ir T.pr) ?_ ?_
  · refine Ok.bind (has_snoc hb.jc (by rw [hb.jcs]; omega) rfl) ?_
    rintro jc ⟨j1, j2⟩
    rw [Ok_pure]
    exact ⟨rfl, rfl, rfl, ⟨j1.trans hb.jcs, j2⟩, ⟨hb.irs, hb.ir⟩, ⟨hb.prs, hb.pr⟩, T.csc hT⟩
  · intro K hK
    rw [Ok_pure]
    refine ⟨hK, hsg, ha2, he1.map, ⟨⟨rfl, rfl, fun k hk => ?_, hC.is.pos, rfl, hC.is.fexv, hs2, he2⟩, hC.lw, hC.lv, hg2,
      fun k c hk hc => ?_, fun k c hk hc => ?_⟩⟩
    · obtain ⟨c, c', f1, f2, f3, -⟩ := hs4 k hk
      obtain ⟨c0, hc0, hp0⟩ := hC.is.soc k hk
      refine ⟨c', f2, ?_⟩
      rw [f1] at hc0
      cases hc0
      rw [f3]
      exact hp0
    · obtain ⟨c1, c', f1, f2, f3, f4⟩ := hs4 k hk
      obtain ⟨c0, hc0, hp0⟩ := hC.is.soc k hk
      rw [f1] at hc0
      cases hc0
      obtain ⟨z1, z2, z3, -⟩ := hC.swf k c1 hk f1
      have hc' : s.2.1[k]? = some c := hc
      rw [f2] at hc'
      cases hc'
      refine ⟨?_, ?_, ?_, ?_, f4⟩
      · rw [f3]; exact hp0
      · rw [f3]; exact z1
      · rw [f3]; exact z2
      · rw [f3]; exact z3
    · obtain ⟨c1, c', f1, f2, f3, f4⟩ := he3 k hk
      obtain ⟨-, z1, z2⟩ := hC.ewf k c1 hk f1
      have hc' : e.2[k]? = some c := hc
      rw [f2] at hc'
      cases hc'
      refine ⟨f4, ?_, ?_⟩
      · rw [f3]; exact z1
      · rw [f3]; exact z2

end generic
end Ecos.Asm
