import Verif.Lemmas.Amd6

/-!
# AMD: the quotient graph, and Scan 1
-/
namespace Ecos.Amd

open Function (update)

/-- `i` is a (super)variable -/
def IsV (n : Int) (a : Ab) (i : Int) : Prop := Idx n i ∧ a.nv i ≠ 0 ∧ 0 ≤ a.elen i
/-- `e` is an element that has not been absorbed -/
def IsU (n : Int) (a : Ab) (e : Int) : Prop := Idx n e ∧ a.elen e < -1 ∧ 0 ≤ a.pe e
/-- `e` is in the element list of variable `i` -/
def MemE (a : Ab) (i e : Int) : Prop := InB a.iw (a.pe i) (a.elen i) e
/-- `j` is in the variable list of variable `i` -/
def MemA (a : Ab) (i j : Int) : Prop := InB a.iw (a.pe i + a.elen i) (a.len i - a.elen i) j
/-- `x` is in the list of element `e` -/
def MemL (a : Ab) (e x : Int) : Prop := InB a.iw (a.pe e) (a.len e) x

/-- the absolute value of `nv` -/
def anv (a : Ab) (x : Int) : Int := |a.nv x|

/-- the quotient graph: `ex` is an element that is being built -/
structure Core (n L : Int) (a : Ab) (ex pfree lemax wflg : Int) : Prop where
  lay : Lay n pfree a.pe a.len
  room : tot n a.pe a.len ≤ L - n
  free : 0 ≤ pfree ∧ pfree ≤ a.top ∧ pfree ≤ L
  vals : ∀ p, 0 ≤ p → p < pfree → Idx n (a.iw p)
  cls : ∀ x, Idx n x → IsV n a x ∨ (a.nv x ≠ 0 ∧ a.elen x < -1) ∨
    (a.nv x = 0 ∧ a.elen x = -1 ∧ a.pe x < 0)
  var : ∀ i, IsV n a i → 0 ≤ a.pe i ∧ a.elen i ≤ a.len i ∧ 1 ≤ a.len i ∧ 0 < a.w i
  elt : ∀ e, IsU n a e → e ≠ ex → 1 ≤ a.len e ∧ ∃ i, IsV n a i ∧ MemE a i e
  eltw : ∀ e, IsU n a e → 0 < a.w e
  varE : ∀ i e, IsV n a i → MemE a i e → IsU n a e ∧ MemL a e i
  varA : ∀ i j, IsV n a i → MemA a i j → a.nv j ≠ 0 → IsV n a j ∧ MemA a j i
  eltL : ∀ e x, IsU n a e → MemL a e x → a.nv x ≠ 0 → IsV n a x ∧ MemE a x e
  nodup : ∀ i, IsV n a i → Inj a.iw (a.pe i) (a.elen i)
  edeg : ∀ e, IsU n a e → sumB n (anv a) (fun i => IsV n a i ∧ MemE a i e) ≤ a.degree e ∧
    a.degree e ≤ lemax
  lemax0 : 0 ≤ lemax
  w : ∀ x, Idx n x → 0 ≤ a.w x ∧ a.w x < wflg
  wflg2 : 2 ≤ wflg

/-- the quotient graph while the variables of the new element `me` (those with negative `nv`) are
brought up to date; `Pr` are the ones that are -/
structure Mid0 (n L : Int) (a : Ab) (me pfree lemax : Int) (Pr : Int → Prop) : Prop where
  lay : Lay n pfree a.pe a.len
  room : tot n a.pe a.len ≤ L - n
  free : 0 ≤ pfree ∧ pfree ≤ a.top ∧ pfree ≤ L
  vals : ∀ p, 0 ≤ p → p < pfree → Idx n (a.iw p)
  meI : Idx n me ∧ a.elen me < -1 ∧ 0 ≤ a.pe me ∧ a.nv me < 0 ∧ 0 < a.w me
  cls : ∀ x, Idx n x → IsV n a x ∨ (a.elen x < -1 ∧ (x ≠ me → 0 < a.nv x)) ∨
    (a.nv x = 0 ∧ a.elen x = -1 ∧ a.pe x < 0)
  var : ∀ i, IsV n a i → 0 ≤ a.pe i ∧ a.elen i ≤ a.len i ∧ 1 ≤ a.len i ∧ 0 < a.w i
  elt : ∀ e, IsU n a e → e ≠ me → 1 ≤ a.len e ∧ 0 < a.w e ∧ ∃ i, IsV n a i ∧ MemE a i e
  flg : ∀ x, Idx n x → a.nv x < 0 → x ≠ me → MemL a me x
  lme : ∀ x, MemL a me x → a.nv x ≠ 0 → IsV n a x ∧ a.nv x < 0
  inj : Inj a.iw (a.pe me) (a.len me)
  cE : ∀ i e, IsV n a i → 0 < a.nv i → MemE a i e → e ≠ me ∧ IsU n a e ∧ MemL a e i
  cA : ∀ i j, IsV n a i → 0 < a.nv i → MemA a i j → a.nv j ≠ 0 → IsV n a j ∧ MemA a j i
  dE : ∀ i e, IsV n a i → a.nv i < 0 → ¬ Pr i → MemE a i e →
    e ≠ me ∧ ((IsU n a e ∧ MemL a e i) ∨ (a.w e = 0 ∧ a.pe e < 0))
  dA : ∀ i j, IsV n a i → a.nv i < 0 → ¬ Pr i → MemA a i j → a.nv j ≠ 0 →
    j = me ∨ (IsV n a j ∧ (MemA a j i ∨ a.nv j < 0))
  sh : ∀ i, IsV n a i → a.nv i < 0 → ¬ Pr i → (∃ e, MemE a i e ∧ a.w e = 0) ∨ MemA a i me
  pme : ∀ i, IsV n a i → a.nv i < 0 → Pr i → 1 ≤ a.elen i ∧ a.iw (a.pe i) = me
  pA : ∀ i j, IsV n a i → a.nv i < 0 → Pr i → MemA a i j → 0 < a.nv j ∧ IsV n a j ∧ MemA a j i
  eltL : ∀ e x, IsU n a e → e ≠ me → MemL a e x → a.nv x ≠ 0 → IsV n a x ∧ MemE a x e
  nodup : ∀ i, IsV n a i → Inj a.iw (a.pe i) (a.elen i)
  edeg : ∀ e, IsU n a e → e ≠ me → sumB n (anv a) (fun i => IsV n a i ∧ MemE a i e) ≤ a.degree e ∧
    a.degree e ≤ lemax
  lemax0 : 0 ≤ lemax

/-- after Scan 1 -/
structure Mid (n L : Int) (a : Ab) (me pfree lemax wflg : Int) (Pr : Int → Prop) : Prop
    extends Mid0 n L a me pfree lemax Pr where
  pE : ∀ i e, IsV n a i → a.nv i < 0 → Pr i → MemE a i e →
    e = me ∨ (IsU n a e ∧ MemL a e i ∧ wflg < a.w e)
  wt : ∀ e, IsU n a e → e ≠ me → (a.w e < wflg ∧ ∀ i, IsV n a i → a.nv i < 0 → ¬ MemE a i e) ∨
    (wflg ≤ a.w e ∧ sumB n a.nv (fun i => IsV n a i ∧ 0 < a.nv i ∧ MemE a i e) ≤ a.w e - wflg)
  wb : ∀ x, Idx n x → 0 ≤ a.w x ∧ a.w x < wflg + lemax
  wflg2 : 2 ≤ wflg

variable {n L : Int} {s : St} {a : Ab}

theorem clearFlag_ok (h : Rep n L s a) {wflg wbig : Int} (hn : 0 ≤ n)
    (hw : 2 ≤ wflg → ∀ x, Idx n x → 0 ≤ a.w x ∧ a.w x < wflg) :
    Ok (clearFlag n wflg wbig s) (fun r => 2 ≤ r.1 ∧ ∃ w, Rep n L r.2 { a with w := w } ∧
      ∀ x, Idx n x → 0 ≤ w x ∧ w x < r.1 ∧ (w x = 0 ↔ a.w x = 0)) := by
  unfold clearFlag
  split
  · rw [Ok_bind]
    refine forI_ok (fun i s => ∃ w, Rep n L s { a with w := w } ∧
      (∀ x, Idx n x → x < i → 0 ≤ w x ∧ w x < 2 ∧ (w x = 0 ↔ a.w x = 0)) ∧
      (∀ x, Idx n x → i ≤ x → w x = a.w x)) hn ?_ ?_ ?_
    · exact ⟨a.w, h, fun x _ _ => by omega, fun _ _ _ => rfl⟩
    · rintro i s i0 i1 ⟨w, h, h1, h2⟩
      have hI : Idx n i := ⟨i0, i1⟩
      have e := h2 i hI le_rfl
      refine Ok_rd (h.rW hI) ?_
      dsimp only
      split
      · rename_i hne
        refine (h.wW 1 hI).mono fun s h => ?_
        refine ⟨_, h, fun x hx hlt => ?_, fun x hx hle => ?_⟩
        · by_cases q : x = i
          · subst q; rw [Function.update_self]; omega
          · rw [Function.update_of_ne q]; exact h1 x hx (by omega)
        · rw [Function.update_of_ne (by omega)]; exact h2 x hx (by omega)
      · rename_i hne
        rw [Ok_pure]
        refine ⟨w, h, fun x hx hlt => ?_, fun x hx hle => h2 x hx (by omega)⟩
        by_cases q : x = i
        · subst q; omega
        · exact h1 x hx (by omega)
    · rintro s ⟨w, h, h1, -⟩
      rw [Ok_pure]
      exact ⟨le_rfl, w, h, fun x hx => h1 x hx hx.2⟩
  · rename_i hc
    rw [Ok_pure]
    have hw := hw (by omega)
    exact ⟨by dsimp only; omega, a.w, h, fun x hx => ⟨(hw x hx).1, (hw x hx).2, Iff.rfl⟩⟩

/-! ### Scan 1 -/

theorem sumB_le {n : Int} {f : Int → Int} {S T : Int → Prop} (h0 : ∀ x, Idx n x → T x → 0 ≤ f x)
    (h : ∀ x, Idx n x → S x → T x) : sumB n f S ≤ sumB n f T := by
  classical
  refine Finset.sum_le_sum fun x hx => ?_
  have hx := Finset.mem_Ico.1 hx
  by_cases q : S x
  · rw [if_pos q, if_pos (h x hx q)]
  · rw [if_neg q]
    split
    · rename_i r; exact h0 x hx r
    · exact le_rfl

/-- the weights after the pairs in `Q` have been seen -/
def WQ (n : Int) (a : Ab) (wflg : Int) (Q : Int → Int → Prop) (w : Int → Int) : Prop :=
  ∀ e, Idx n e → (a.w e = 0 → w e = 0) ∧ (a.w e ≠ 0 → (∀ x, ¬ Q x e) → w e = a.w e) ∧
    (a.w e ≠ 0 → (∃ x, Q x e) → w e = a.degree e + wflg - sumB n (anv a) (fun x => Q x e))

/-- Scan 1 -/
theorem scan1_ok {me pfree lemax wflg : Int} (hr : Rep n L s a)
    (hm : Mid0 n L a me pfree lemax (fun _ => False))
    (hw : ∀ x, Idx n x → 0 ≤ a.w x ∧ a.w x < wflg) (hw2 : 2 ≤ wflg) :
    Ok (scan1 (a.pe me) (a.pe me + a.len me - 1) wflg s) (fun s' => ∃ w, Rep n L s' { a with w := w } ∧
      Mid n L { a with w := w } me pfree lemax wflg (fun _ => False)) := by
  obtain ⟨hmI, hme, hmp, hmnv, hmw⟩ := hm.meI
  obtain ⟨hl0, hlB⟩ := hm.lay.pos me hmI hmp
  obtain ⟨f0, f1, f2⟩ := hm.free
  unfold scan1
  rw [show a.pe me + a.len me - 1 + 1 = a.pe me + a.len me by ring]
  -- the bound that makes the test for "seen" right
  have hQ : ∀ (Q : Int → Int → Prop), (∀ x e, Q x e → IsV n a x ∧ a.nv x < 0 ∧ MemE a x e) →
      ∀ e, Idx n e → a.w e ≠ 0 → (∃ x, Q x e) →
        IsU n a e ∧ e ≠ me ∧ sumB n (anv a) (fun x => Q x e) ≤ a.degree e := by
    rintro Q hQ e he hwe ⟨x, hx⟩
    obtain ⟨h1, h2, h3⟩ := hQ x e hx
    obtain ⟨h4, h5⟩ := hm.dE x e h1 h2 (fun h => h) h3
    have hU : IsU n a e := by
      rcases h5 with h5 | h5
      · exact h5.1
      · exact (hwe h5.1).elim
    refine ⟨hU, h4, ?_⟩
    refine le_trans (sumB_le (fun _ _ _ => abs_nonneg _) fun y _ hy => ?_) (hm.edeg e hU h4).1
    obtain ⟨g1, g2, g3⟩ := hQ y e hy
    exact ⟨g1, g3⟩
  -- the conclusion from the weights
  have fin : ∀ w, WQ n a wflg (fun x e => IsV n a x ∧ a.nv x < 0 ∧ MemE a x e) w →
      Mid n L { a with w := w } me pfree lemax wflg (fun _ => False) := by
    intro w hW
    have z : ∀ e, Idx n e → (w e = 0 ↔ a.w e = 0) := by
      intro e he
      refine ⟨fun h => ?_, (hW e he).1⟩
      by_contra hne
      by_cases hx : ∃ x, IsV n a x ∧ a.nv x < 0 ∧ MemE a x e
      · have := hQ (fun x e => IsV n a x ∧ a.nv x < 0 ∧ MemE a x e) (fun _ _ h => h) e he hne hx
        have := (hW e he).2.2 hne hx
        dsimp only at this
        omega
      · have := (hW e he).2.1 hne (fun x hq => hx ⟨x, hq⟩)
        omega
    have pos : ∀ e, Idx n e → 0 ≤ w e ∧ w e < wflg + lemax := by
      intro e he
      have hwe := hw e he
      have hl := hm.lemax0
      by_cases h0 : a.w e = 0
      · rw [(hW e he).1 h0]; omega
      · by_cases hx : ∃ x, IsV n a x ∧ a.nv x < 0 ∧ MemE a x e
        · obtain ⟨hU, hne, hle⟩ :=
            hQ (fun x e => IsV n a x ∧ a.nv x < 0 ∧ MemE a x e) (fun _ _ h => h) e he h0 hx
          have h2 := (hm.edeg e hU hne).2
          have h3 := (hW e he).2.2 h0 hx
          dsimp only at h3
          obtain ⟨x, hx⟩ := hx
          have : 1 ≤ sumB n (anv a) (fun x => IsV n a x ∧ a.nv x < 0 ∧ MemE a x e) := by
            have h4 : sumB n (anv a) (fun y => y = x) = anv a x := by
              rw [sumB_add (S := fun _ => False) (i := x) hx.1.1 (fun h => h)
                (fun y _ => by simp), sumB_empty (fun _ _ h => h)]
              ring
            have h5 : 1 ≤ anv a x := by
              have := hx.1.2.1
              unfold anv
              rcases abs_cases (a.nv x) with ⟨h, _⟩ | ⟨h, _⟩ <;> omega
            refine le_trans h5 (h4 ▸ sumB_le (fun _ _ _ => abs_nonneg _) fun y _ hy => ?_)
            rw [hy]; exact hx
          omega
        · rw [(hW e he).2.1 h0 (fun x hq => hx ⟨x, hq⟩)]; omega
    have pos' : ∀ e, Idx n e → 0 < a.w e → 0 < w e := by
      intro e he h0
      have := (z e he)
      have := pos e he
      omega
    exact { hm with
      meI := ⟨hmI, hme, hmp, hmnv, pos' me hmI hmw⟩
      var := fun i hi => by
        obtain ⟨v1, v2, v3, v4⟩ := hm.var i hi
        exact ⟨v1, v2, v3, pos' i hi.1 v4⟩
      elt := fun e he hne => by
        obtain ⟨v1, v2, v3⟩ := hm.elt e he hne
        exact ⟨v1, pos' e he.1 v2, v3⟩
      dE := fun i e h1 h2 h3 h4 => by
        obtain ⟨g1, g2⟩ := hm.dE i e h1 h2 h3 h4
        refine ⟨g1, g2.imp id fun g => ⟨?_, g.2⟩⟩
        have heI : Idx n e := by
          obtain ⟨k, k0, k1, rfl⟩ := h4
          obtain ⟨v1, v2, v3, v4⟩ := hm.var i h1
          have := hm.lay.pos i h1.1 v1
          dsimp only at k1
          exact hm.vals _ (by dsimp only; omega) (by dsimp only; omega)
        exact (z e heI).2 g.1
      sh := fun i h1 h2 h3 => by
        rcases hm.sh i h1 h2 h3 with ⟨e, g1, g2⟩ | g
        · refine Or.inl ⟨e, g1, ?_⟩
          have heI : Idx n e := by
            obtain ⟨k, k0, k1, rfl⟩ := g1
            obtain ⟨v1, v2, v3, v4⟩ := hm.var i h1
            have := hm.lay.pos i h1.1 v1
            exact hm.vals _ (by omega) (by omega)
          exact (z e heI).2 g2
        · exact Or.inr g
      pE := fun _ _ _ _ h => h.elim
      wt := fun e he hne => by
        dsimp only
        have h0 : a.w e ≠ 0 := by have := (hm.elt e he hne).2.1; omega
        by_cases hx : ∃ x, IsV n a x ∧ a.nv x < 0 ∧ MemE a x e
        · right
          obtain ⟨hU, hne, hle⟩ :=
            hQ (fun x e => IsV n a x ∧ a.nv x < 0 ∧ MemE a x e) (fun _ _ h => h) e he.1 h0 hx
          have h3 := (hW e he.1).2.2 h0 hx
          dsimp only at h3
          have h2 := (hm.edeg e hU hne).1
          refine ⟨by omega, ?_⟩
          have hsum : sumB n (anv a) (fun i => IsV n a i ∧ MemE a i e)
              = sumB n a.nv (fun i => IsV n a i ∧ 0 < a.nv i ∧ MemE a i e)
                + sumB n (anv a) (fun x => IsV n a x ∧ a.nv x < 0 ∧ MemE a x e) := by
            classical
            unfold sumB
            rw [← Finset.sum_add_distrib]
            refine Finset.sum_congr rfl fun x _ => ?_
            unfold anv
            by_cases hv : IsV n a x ∧ MemE a x e
            · have hnz := hv.1.2.1
              rw [if_pos hv]
              rcases lt_or_gt_of_ne hnz with hlt | hgt
              · rw [if_neg (by intro h; omega), if_pos ⟨hv.1, hlt, hv.2⟩]; ring
              · rw [if_pos ⟨hv.1, hgt, hv.2⟩, if_neg (by intro h; omega), abs_of_pos hgt]; ring
            · rw [if_neg hv, if_neg (fun h => hv ⟨h.1, h.2.2⟩), if_neg (fun h => hv ⟨h.1, h.2.2⟩)]
              rfl
          change sumB n a.nv (fun i => IsV n a i ∧ 0 < a.nv i ∧ MemE a i e) ≤ w e - wflg
          omega
        · left
          refine ⟨?_, fun i h1 h2 h3 => hx ⟨i, h1, h2, h3⟩⟩
          rw [(hW e he.1).2.1 h0 (fun x hq => hx ⟨x, hq⟩)]
          exact (hw e he.1).2
      wb := pos
      wflg2 := hw2 }
  refine forI_ok (fun pme s => ∃ w, Rep n L s { a with w := w } ∧
    WQ n a wflg (fun x e => (InB a.iw (a.pe me) (pme - a.pe me) x ∧ a.nv x ≠ 0) ∧ MemE a x e) w)
    (by omega) ?_ ?_ ?_
  · refine ⟨a.w, hr, fun e he => ⟨fun h => h, fun _ _ => rfl, fun _ hx => ?_⟩⟩
    obtain ⟨x, ⟨⟨k, k0, k1, _⟩, _⟩, _⟩ := hx
    omega
  · rintro pme s p0 p1 ⟨w, hr, hW⟩
    have hI : Idx n (a.iw pme) := hm.vals pme (by omega) (by omega)
    refine Ok_rd (hr.rIw (by omega) (by dsimp only; omega) (by omega)) ?_
    dsimp only
    have hB : ∀ x, InB a.iw (a.pe me) (pme + 1 - a.pe me) x ↔
        InB a.iw (a.pe me) (pme - a.pe me) x ∨ x = a.iw pme := by
      intro x
      rw [show pme + 1 - a.pe me = (pme - a.pe me) + 1 by ring, InB.succ (by omega),
        show a.pe me + (pme - a.pe me) = pme by ring]
    have hnB : ¬ InB a.iw (a.pe me) (pme - a.pe me) (a.iw pme) := by
      rintro ⟨k, k0, k1, ek⟩
      have := hm.inj k (pme - a.pe me) k0 (by omega) (by omega) (by omega)
        (by rw [ek]; congr 1; ring)
      omega
    have hLi : MemL a me (a.iw pme) := ⟨pme - a.pe me, by omega, by omega, by congr 1; ring⟩
    generalize hi : a.iw pme = i at *
    refine Ok_rd (hr.rElen hI) ?_
    dsimp only
    by_cases hel : a.elen i > 0
    · rw [if_pos hel]
      refine Ok_rd (hr.rNv hI) ?_
      dsimp only
      refine Ok_rd (hr.rPe hI) ?_
      dsimp only
      have hVi : IsV n a i ∧ a.nv i < 0 := by
        refine hm.lme i hLi fun h0 => ?_
        rcases hm.cls i hI with c | c | c
        · exact c.2.1 h0
        · omega
        · omega
      obtain ⟨v1, v2, v3, v4⟩ := hm.var i hVi.1
      have hpos := hm.lay.pos i hI v1
      refine forI_ok (fun p s => ∃ w, Rep n L s { a with w := w } ∧
        WQ n a wflg (fun x e => ((InB a.iw (a.pe me) (pme - a.pe me) x ∧ a.nv x ≠ 0) ∧ MemE a x e) ∨
          (x = i ∧ InB a.iw (a.pe i) (p - a.pe i) e)) w) (by omega) ?_ ?_ ?_
      · refine ⟨w, hr, ?_⟩
        have : (fun x e => ((InB a.iw (a.pe me) (pme - a.pe me) x ∧ a.nv x ≠ 0) ∧ MemE a x e) ∨
          (x = i ∧ InB a.iw (a.pe i) (a.pe i - a.pe i) e))
          = fun x e => (InB a.iw (a.pe me) (pme - a.pe me) x ∧ a.nv x ≠ 0) ∧ MemE a x e := by
          funext x e
          refine propext ⟨?_, Or.inl⟩
          rintro (h | ⟨_, k, k0, k1, _⟩)
          · exact h
          · omega
        rw [this]; exact hW
      · rintro p s q0 q1 ⟨w, hr, hW⟩
        have heI : Idx n (a.iw p) := hm.vals p (by omega) (by omega)
        refine Ok_rd (hr.rIw (by omega) (by dsimp only; omega) (by omega)) ?_
        dsimp only
        have hE : ∀ x, InB a.iw (a.pe i) (p + 1 - a.pe i) x ↔
            InB a.iw (a.pe i) (p - a.pe i) x ∨ x = a.iw p := by
          intro x
          rw [show p + 1 - a.pe i = (p - a.pe i) + 1 by ring, InB.succ (by omega),
            show a.pe i + (p - a.pe i) = p by ring]
        have hnE : ¬ InB a.iw (a.pe i) (p - a.pe i) (a.iw p) := by
          rintro ⟨k, k0, k1, ek⟩
          have := hm.nodup i hVi.1 k (p - a.pe i) k0 (by omega) (by omega) (by omega)
            (by rw [ek]; congr 1; ring)
          omega
        have hMi : MemE a i (a.iw p) := ⟨p - a.pe i, by omega, by omega, by congr 1; ring⟩
        generalize he : a.iw p = e at *
        refine Ok_rd (hr.rW heI) ?_
        dsimp only
        rw [Ok_bind]
        -- the two relations, before and after
        set Q : Int → Int → Prop := fun x e =>
          ((InB a.iw (a.pe me) (pme - a.pe me) x ∧ a.nv x ≠ 0) ∧ MemE a x e) ∨
          (x = i ∧ InB a.iw (a.pe i) (p - a.pe i) e) with hQd
        have hQs : ∀ x e, Q x e → IsV n a x ∧ a.nv x < 0 ∧ MemE a x e := by
          rintro x e' (⟨⟨⟨k, k0, k1, ek⟩, g2⟩, g3⟩ | ⟨rfl, k, k0, k1, ek⟩)
          · have := hm.lme x ⟨k, k0, by omega, ek⟩ g2
            exact ⟨this.1, this.2, g3⟩
          · exact ⟨hVi.1, hVi.2, k, k0, by omega, ek⟩
        have hQ' : ∀ x e', (((InB a.iw (a.pe me) (pme - a.pe me) x ∧ a.nv x ≠ 0) ∧ MemE a x e') ∨
            (x = i ∧ InB a.iw (a.pe i) (p + 1 - a.pe i) e')) ↔ (Q x e' ∨ (x = i ∧ e' = e)) := by
          intro x e'
          rw [hE, hQd]
          dsimp only
          tauto
        have hnQ : ¬ Q i e := by
          rintro (⟨⟨g, _⟩, _⟩ | ⟨_, g⟩)
          · exact hnB g
          · exact hnE g
        have hanv : anv a i = - a.nv i := abs_of_neg hVi.2
        have hadd : sumB n (anv a) (fun x => Q x e ∨ x = i) = sumB n (anv a) (fun x => Q x e) - a.nv i := by
          rw [sumB_add hI (S := fun x => Q x e) hnQ (fun _ _ => Iff.rfl), hanv]; ring
        obtain ⟨W1, W2, W3⟩ := hW e heI
        have hwe := hw e heI
        have step : Ok (if w e ≥ wflg then pure (w e - -a.nv i)
            else if w e ≠ 0 then do
              let d ← s.rDegree e
              pure (d + (wflg - -a.nv i))
            else pure (w e)) (fun v => (a.w e = 0 → v = 0) ∧
              (a.w e ≠ 0 → v = a.degree e + wflg - sumB n (anv a) (fun x => Q x e ∨ x = i))) := by
          by_cases h0 : a.w e = 0
          · have := W1 h0
            rw [if_neg (by omega), if_neg (by omega), Ok_pure]
            exact ⟨fun _ => this, fun h => (h h0).elim⟩
          · by_cases hx : ∃ x, Q x e
            · have h3 := W3 h0 hx
              have h4 := (hQ Q hQs e heI h0 hx).2.2
              rw [if_pos (by omega), Ok_pure]
              refine ⟨fun h => (h0 h).elim, fun _ => ?_⟩
              rw [hadd, h3]; ring
            · have h3 := W2 h0 (fun x hq => hx ⟨x, hq⟩)
              rw [if_neg (by omega), if_pos (by omega)]
              refine Ok_rd (hr.rDegree heI) ?_
              rw [Ok_pure]
              refine ⟨fun h => (h0 h).elim, fun _ => ?_⟩
              rw [hadd, sumB_empty (fun x _ hq => hx ⟨x, hq⟩)]
              dsimp only
              ring
        refine step.mono ?_
        rintro v ⟨v1, v2⟩
        refine (hr.wW v heI).mono fun s hr => ?_
        refine ⟨_, hr, ?_⟩
        intro e' he'
        simp only [hQ']
        by_cases q : e' = e
        · subst q
          rw [Function.update_self]
          refine ⟨v1, fun _ hno => (hno i (Or.inr ⟨rfl, rfl⟩)).elim, fun h0 _ => ?_⟩
          rw [v2 h0]
          congr 2
          funext x
          simp
        · rw [Function.update_of_ne q]
          have hs : ∀ x, (Q x e' ∨ (x = i ∧ e' = e)) ↔ Q x e' := fun x => by
            simp [q]
          simp only [hs]
          exact hW e' he'
      · rintro s ⟨w, hr, hW⟩
        refine ⟨w, hr, ?_⟩
        rw [show a.pe i + a.elen i - a.pe i = a.elen i by ring] at hW
        intro e he
        have := hW e he
        have hs : ∀ x, (((InB a.iw (a.pe me) (pme - a.pe me) x ∧ a.nv x ≠ 0) ∧ MemE a x e) ∨
          (x = i ∧ InB a.iw (a.pe i) (a.elen i) e)) ↔
          ((InB a.iw (a.pe me) (pme + 1 - a.pe me) x ∧ a.nv x ≠ 0) ∧ MemE a x e) := by
          intro x
          rw [hB]
          constructor
          · rintro (⟨⟨g1, g2⟩, g3⟩ | ⟨rfl, g⟩)
            · exact ⟨⟨Or.inl g1, g2⟩, g3⟩
            · exact ⟨⟨Or.inr rfl, hVi.1.2.1⟩, g⟩
          · rintro ⟨⟨g1 | rfl, g2⟩, g3⟩
            · exact Or.inl ⟨⟨g1, g2⟩, g3⟩
            · exact Or.inr ⟨rfl, g3⟩
        simp only [hs] at this
        exact this
    · rw [if_neg hel, Ok_pure]
      refine ⟨w, hr, ?_⟩
      intro e he
      have hs : ∀ x, ((InB a.iw (a.pe me) (pme + 1 - a.pe me) x ∧ a.nv x ≠ 0) ∧ MemE a x e) ↔
          ((InB a.iw (a.pe me) (pme - a.pe me) x ∧ a.nv x ≠ 0) ∧ MemE a x e) := by
        intro x
        rw [hB]
        constructor
        · rintro ⟨⟨g1 | rfl, g2⟩, g3⟩
          · exact ⟨⟨g1, g2⟩, g3⟩
          · obtain ⟨k, k0, k1, _⟩ := g3
            omega
        · rintro ⟨⟨g1, g2⟩, g3⟩
          exact ⟨⟨Or.inl g1, g2⟩, g3⟩
      simp only [hs]
      exact hW e he
  · rintro s ⟨w, hr, hW⟩
    refine ⟨w, hr, fin w ?_⟩
    rw [show a.pe me + a.len me - a.pe me = a.len me by ring] at hW
    intro e he
    have hs : ∀ x, ((InB a.iw (a.pe me) (a.len me) x ∧ a.nv x ≠ 0) ∧ MemE a x e) ↔
        (IsV n a x ∧ a.nv x < 0 ∧ MemE a x e) := by
      intro x
      constructor
      · rintro ⟨⟨g1, g2⟩, g3⟩
        obtain ⟨g4, g5⟩ := hm.lme x g1 g2
        exact ⟨g4, g5, g3⟩
      · rintro ⟨g1, g2, g3⟩
        refine ⟨⟨hm.flg x g1.1 g2 ?_, by omega⟩, g3⟩
        rintro rfl
        have := g1.2.2
        omega
    have := hW e he
    simp only [hs] at this
    exact this

end Ecos.Amd
