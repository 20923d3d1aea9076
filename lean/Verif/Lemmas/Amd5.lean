import Verif.Lemmas.Amd4

/-!
# AMD: a new element is built in the free space (the loops)
-/
namespace Ecos.Amd

open Function (update)

variable {n L : Int} {a b : Ab} {me pfree : Int} {P Src Abs D : Int → Prop} {rk : Int → Nat}
  {sl e rm re : Int} {q : Co}

/-- a variable is added to the new element -/
theorem CI.push_ok (hb : Base n L a me pfree P Src rk) (hr : Rep n L q.s b)
    (heI : Idx n e) (h : CI n L a me P Src rk Abs D (sl + 1) e rm re q b)
    {i : Int} (hi : P i) (hsrc : Src i)
    (hnB : ¬ InB b.iw q.pme1 (q.pfree - q.pme1) i) (hlt : q.pfree < L) :
    Ok (do
      let s ← q.s.wNv i (-(a.nv i))
      let s ← s.wIw q.pfree i
      let s ← removeDeg i s
      pure { q with pfree := q.pfree + 1, degme := q.degme + a.nv i, s := s })
      (fun q' => ∃ b', Rep n L q'.s b' ∧
        CI n L a me P Src rk Abs (fun x => D x ∨ x = i) sl e rm re q' b') := by
  obtain ⟨hI, hnv⟩ := hb.hP i hi
  obtain ⟨f0, f1, f2⟩ := h.free
  have hm0 := h.m0
  refine (hr.wNv _ hI).bind fun s hr => ?_
  refine (hr.wIwTop i (by omega) f1 hlt).bind fun s hr => ?_
  refine (removeDeg_ok hr (P := fun x => P x ∧ ¬ InB b.iw q.pme1 (q.pfree - q.pme1) x) (rk := rk)
    (by dsimp only; rw [h.degree]; exact h.dl) ⟨hi, hnB⟩).bind ?_
  rintro s ⟨hd, nx, la, hr, hdl⟩
  rw [Ok_pure]
  refine ⟨_, hr, ?_⟩
  dsimp only
  have e0 : q.pfree + 1 - q.pme1 = (q.pfree - q.pme1) + 1 := by ring
  have e1 : q.pfree = q.pme1 + (q.pfree - q.pme1) := by ring
  have hB : ∀ x, InB (update b.iw q.pfree i) q.pme1 (q.pfree + 1 - q.pme1) x ↔
      InB b.iw q.pme1 (q.pfree - q.pme1) x ∨ x = i := by
    intro x
    rw [e0]
    have := InB.push (iw := b.iw) (p := q.pme1) (m := q.pfree - q.pme1) (v := i) hm0 x
    rwa [← e1] at this
  have iwlt : ∀ p, p < q.pfree → update b.iw q.pfree i p = b.iw p := fun p hp => by
    rw [Function.update_of_ne (by omega)]
  have bound : ∀ x, Idx n x → 0 ≤ vpe me e q.p q.pj rm re b.pe x →
      vpe me e q.p q.pj rm re b.pe x + vlen me e rm re b.len x ≤ q.pme1 :=
    fun x hx h0 => (h.lay.pos x hx h0).2
  obtain ⟨r1, r2⟩ := h.rem
  exact {
    elen := h.elen
    degree := h.degree
    m0 := by dsimp only; omega
    inj := by
      dsimp only
      rw [e0]
      have := h.inj.push (v := i) hnB
      rwa [← e1] at this
    inB := fun x hx => by
      rcases (hB x).1 hx with hx | rfl
      · exact h.inB x hx
      · exact ⟨hi, hsrc⟩
    nvB := fun x hxI hx => by
      dsimp only
      by_cases q1 : x = i
      · subst q1; rw [Function.update_self]
      · rw [Function.update_of_ne q1]
        exact h.nvB x hxI (((hB x).1 hx).resolve_right q1)
    nvO := fun x hxI hx => by
      dsimp only at hx ⊢
      have q1 : x ≠ i := fun q1 => hx ((hB x).2 (Or.inr q1))
      rw [Function.update_of_ne q1]
      exact h.nvO x hxI (fun y => hx ((hB x).2 (Or.inl y)))
    deg := by
      dsimp only
      rw [h.deg]
      exact (sumB_add hI hnB fun x _ => hB x).symm
    dl := by
      dsimp only at hdl ⊢
      rw [h.degree] at hdl
      refine hdl.congr (fun x => ?_) (fun _ _ => rfl) (fun _ _ => rfl) (fun _ _ => rfl)
        fun _ _ => rfl
      rw [hB x]
      tauto
    gc := h.gc
    rem := h.rem
    lay := h.lay
    totle := by
      dsimp only
      have := h.totle
      omega
    cme := fun q1 q2 => by
      obtain ⟨c0, c1⟩ := h.cme q1 q2
      refine ⟨c0, fun k k0 k1 => ?_⟩
      dsimp only
      rw [iwlt, c1 k k0 k1]
      have := bound me hb.meI (by rw [vpe_me q1, if_neg q2]; exact c0)
      rw [vpe_me q1, if_neg q2, vlen_me q1] at this
      omega
    ce := fun q2 => by
      obtain ⟨c0, c1⟩ := h.ce q2
      refine ⟨c0, fun k k0 k1 => ?_⟩
      dsimp only
      rw [iwlt, c1 k k0 k1]
      have := bound e heI (by rw [vpe_e, if_neg q2]; exact c0)
      rw [vpe_e, if_neg q2, vlen_e] at this
      omega
    neg := h.neg
    abs := h.abs
    wO := h.wO
    obj := fun x hx q2 q1 hA hp => by
      obtain ⟨o1, o2, o3⟩ := h.obj x hx q2 q1 hA hp
      refine ⟨o1, o2, fun k k0 k1 => ?_⟩
      dsimp only
      rw [iwlt, o3 k k0 k1]
      have := bound x hx (by rw [vpe_ne q1 q2]; exact o1)
      rw [vpe_ne q1 q2, vlen_ne q1 q2] at this
      omega
    free := ⟨f0, by dsimp only; omega, by dsimp only; omega⟩
    vals := fun p p0 p1 => by
      dsimp only at p1 ⊢
      by_cases q1 : p = q.pfree
      · subst q1; rw [Function.update_self]; exact hI
      · rw [iwlt p (by omega)]; exact h.vals p p0 (by omega)
    cov := fun x hx hnv => by
      rcases hx with hx | rfl
      · exact (hB x).2 (Or.inl (h.cov x hx hnv))
      · exact (hB x).2 (Or.inr rfl) }

theorem addVar_ok (hb : Base n L a me pfree P Src rk) (hr : Rep n L q.s b)
    (h : CI n L a me P Src rk Abs D 0 e rm re q b) (hre : re ≠ 0)
    (hmeAbs : ∀ x, Abs x → Idx n x ∧ x ≠ e ∧ x ≠ me) (heE : Idx n e ∧ 0 ≤ a.pe e)
    {knt1 knt2 ln : Int} (h1 : e ≠ me → rm = a.len me - knt1) (h2 : re - 1 = ln - knt2)
    (hsrc : 0 < a.nv (a.iw (a.pe e + (a.len e - re))) →
      P (a.iw (a.pe e + (a.len e - re))) ∧ Src (a.iw (a.pe e + (a.len e - re)))) :
    Ok (addVar n L me e knt1 ln knt2 q) (fun q' => ∃ b', Rep n L q'.s b' ∧
      CI n L a me P Src rk Abs (fun x => D x ∨ x = a.iw (a.pe e + (a.len e - re))) 0 e rm (re - 1)
        q' b') := by
  obtain ⟨f0, f1, f2⟩ := h.free
  have hm0 := h.m0
  obtain ⟨r1, r2⟩ := h.rem
  obtain ⟨c0, c1⟩ := h.ce hre
  have hpos := h.lay.pos e heE.1 (by rw [vpe_e, if_neg hre]; exact c0)
  rw [vpe_e, if_neg hre, vlen_e] at hpos
  have ei : b.iw q.pj = a.iw (a.pe e + (a.len e - re)) := by
    have := c1 0 le_rfl (by omega)
    simpa using this
  have hI : Idx n (b.iw q.pj) := h.vals _ c0 (by omega)
  unfold addVar
  refine Ok_rd (hr.rIw c0 (by omega) (by omega)) ?_
  dsimp only
  rw [ei] at hI ⊢
  generalize hi : a.iw (a.pe e + (a.len e - re)) = i at *
  refine Ok_rd (hr.rNv hI) ?_
  by_cases hnv : b.nv i > 0
  · rw [if_pos hnv]
    have hnB : ¬ InB b.iw q.pme1 (q.pfree - q.pme1) i := by
      intro hB
      have := h.nvB i hI hB
      have := (hb.hP i (h.inB i hB).1).2
      omega
    have hnvi := h.nvO i hI hnB
    obtain ⟨hP, hS⟩ := hsrc (by omega)
    have hne : i ≠ me := by
      rintro rfl
      have := hb.nvme
      omega
    have hread := h.read heE.1 hre (D' := D) (fun x hx => Or.inl hx)
    have hstep : Ok (if q.pfree ≥ L then do
          let r ← compress n me e q.p (q.pj + 1) knt1 knt2 ln q.pme1 q.pfree q.s
          let pj ← r.2.2.rPe e
          let p ← r.2.2.rPe me
          pure { p := p, pj := pj, pme1 := r.1, pfree := r.2.1, degme := q.degme, s := r.2.2 }
        else pure { p := q.p, pj := q.pj + 1, pme1 := q.pme1, pfree := q.pfree, degme := q.degme, s := q.s })
        (fun q' => q'.pfree < L ∧ ∃ b', Rep n L q'.s b' ∧ b'.nv = b.nv ∧
        (∀ x, InB b'.iw q'.pme1 (q'.pfree - q'.pme1) x ↔ InB b.iw q.pme1 (q.pfree - q.pme1) x) ∧
        CI n L a me P Src rk Abs D (0 + 1) e rm (re - 1) q' b') := by
      split
      · rename_i hfull
        exact hread.gc_ok (q := { q with pj := q.pj + 1 }) (by omega) hb hr hmeAbs heE h1 h2 hI hne
          hnB (by dsimp only; omega) rfl
      · rename_i hfull
        rw [Ok_pure]
        exact ⟨by dsimp only; omega, b, hr, rfl, fun x => Iff.rfl, hread⟩
    rw [Ok_bind]
    refine hstep.mono ?_
    rintro q2 ⟨hlt, b2, hr2, hnv2, hB2, h2⟩
    rw [hnvi]
    exact h2.push_ok hb hr2 heE.1 hP hS (fun hB => hnB ((hB2 i).1 hB)) hlt
  · rw [if_neg hnv, Ok_pure]
    refine ⟨b, hr, (h.read heE.1 hre ?_).slack⟩
    rintro x (hx | rfl)
    · exact Or.inl hx
    · rw [hi]
      by_cases hB : InB b.iw q.pme1 (q.pfree - q.pme1) x
      · exact Or.inr (Or.inr ⟨rfl, hB⟩)
      · refine Or.inr (Or.inl ⟨rfl, ?_⟩)
        rw [← h.nvO x hI hB]
        exact hnv

/-- the elements among the first `t` entries of `me` -/
def AbsT (a : Ab) (me t x : Int) : Prop := InB a.iw (a.pe me) t x

/-- the entries of the first `t` elements of `me` -/
def SeenT (a : Ab) (me t x : Int) : Prop := ∃ e, InB a.iw (a.pe me) t e ∧ InB a.iw (a.pe e) (a.len e) x

theorem InB.succ {iw : Int → Int} {p m : Int} (hm : 0 ≤ m) (x : Int) :
    InB iw p (m + 1) x ↔ InB iw p m x ∨ x = iw (p + m) := by
  constructor
  · rintro ⟨k, k0, k1, e⟩
    by_cases q : k = m
    · subst q; exact Or.inr e.symm
    · exact Or.inl ⟨k, k0, by omega, e⟩
  · rintro (⟨k, k0, k1, e⟩ | rfl)
    · exact ⟨k, k0, by omega, e⟩
    · exact ⟨m, hm, by omega, rfl⟩

theorem vpe_self (me p pj rm re : Int) (pe : Int → Int) :
    vpe me me p pj rm re pe = update pe me (if re = 0 then -1 else pj) := by
  unfold vpe; rw [Function.update_idem]
theorem vlen_self (me rm re : Int) (len : Int → Int) :
    vlen me me rm re len = update len me re := by
  unfold vlen; rw [Function.update_idem]

theorem CI.dmono {D' : Int → Prop} (h : CI n L a me P Src rk Abs D sl e rm re q b)
    (hD : ∀ x, D' x → D x) : CI n L a me P Src rk Abs D' sl e rm re q b :=
  { h with cov := fun x hx => h.cov x (hD x hx) }

/-- one list of `me` is turned to an element `e` -/
theorem CI.enter (hb : Base n L a me pfree P Src rk) {t : Int} (ht : 0 ≤ t) (htE : t < a.elen me)
    (h : CI n L a me P Src rk (AbsT a me t) D 0 me 0 (a.len me - t) { q with pj := q.p } b)
    (he : a.iw (a.pe me + t) = e) :
    CI n L a me P Src rk (AbsT a me t) D 0 e (a.len me - (t + 1)) (a.len e)
      { q with p := q.p + 1, pj := b.pe e } b := by
  have hE := hb.elenme
  obtain ⟨hne, hpe⟩ := hb.elems t ht htE
  rw [he] at hne hpe
  have heI : Idx n e := by
    have := hb.lay.pos me hb.meI hb.peme
    rw [← he]
    exact hb.vals _ (by have := hb.peme; omega) (by omega)
  have hnA : ¬ AbsT a me t e := by
    rintro ⟨k, k0, k1, ek⟩
    rw [← he] at ek
    have := hb.nodup k t k0 (by omega) ht htE ek
    omega
  obtain ⟨o1, o2, o3⟩ := h.obj e heI hne hne hnA hpe
  have hl := hb.len1 e heI hpe
  obtain ⟨c0, c1⟩ := h.ce (by omega)
  dsimp only at c0 c1
  have e1 : vpe me e (q.p + 1) (b.pe e) (a.len me - (t + 1)) (a.len e) b.pe
      = update (vpe me me q.p q.p 0 (a.len me - t) b.pe) me
        (if a.len me - (t + 1) = 0 then -1 else q.p + 1) := by
    rw [vpe_self, Function.update_idem]
    funext x
    by_cases q1 : x = e
    · subst q1
      rw [vpe_e, if_neg (by omega), Function.update_of_ne hne]
    by_cases q2 : x = me
    · subst q2
      rw [vpe_me hne, Function.update_self]
    rw [vpe_ne q1 q2, Function.update_of_ne q2]
  have e2 : vlen me e (a.len me - (t + 1)) (a.len e) b.len
      = update (vlen me me 0 (a.len me - t) b.len) me (a.len me - (t + 1)) := by
    rw [vlen_self, Function.update_idem]
    funext x
    by_cases q1 : x = e
    · subst q1
      rw [vlen_e, Function.update_of_ne hne, o2]
    by_cases q2 : x = me
    · subst q2
      rw [vlen_me hne, Function.update_self]
    rw [vlen_ne q1 q2, Function.update_of_ne q2]
  have vme : vpe me me q.p q.p 0 (a.len me - t) b.pe me = q.p := by
    rw [vpe_e, if_neg (by omega)]
  exact { h with
    rem := ⟨by omega, by omega⟩
    lay := by
      dsimp only
      rw [e1, e2]
      refine h.lay.sub hb.meI fun hv => ?_
      dsimp only
      rw [vme, vlen_e]
      split at hv
      · omega
      · rename_i hne
        rw [if_neg hne]; omega
    totle := by
      dsimp only
      rw [e1, e2, tot_update hb.meI, vme, vlen_e, if_pos c0]
      have := h.totle
      dsimp only at this
      split <;> omega
    cme := fun _ hne => by
      dsimp only
      refine ⟨by omega, fun k k0 k1 => ?_⟩
      have := c1 (k + 1) (by omega) (by omega)
      rw [show q.p + (k + 1) = q.p + 1 + k by ring] at this
      rw [this]
      congr 1
      ring
    ce := fun _ => by
      dsimp only
      refine ⟨o1, fun k k0 k1 => ?_⟩
      rw [o3 k k0 k1]
      congr 1
      ring
    obj := fun x hx q2 _ => h.obj x hx q2 q2 }

/-- the element `e` has been searched and is absorbed -/
theorem CI.leave_ok (hb : Base n L a me pfree P Src rk) {t : Int} (ht : 0 ≤ t) (htE : t < a.elen me)
    (hr : Rep n L q.s b)
    (h : CI n L a me P Src rk (AbsT a me t) D 0 e (a.len me - (t + 1)) 0 q b)
    (he : a.iw (a.pe me + t) = e) :
    Ok (do
        let s ← q.s.wPe e (FLIP me)
        let s ← s.wW e 0
        pure { q with s := s })
      (fun q' => ∃ b', Rep n L q'.s b' ∧
        CI n L a me P Src rk (AbsT a me (t + 1)) D 0 me 0 (a.len me - (t + 1)) { q' with pj := q'.p } b') := by
  have hE := hb.elenme
  obtain ⟨hne, hpe⟩ := hb.elems t ht htE
  rw [he] at hne hpe
  have heI : Idx n e := by
    have := hb.lay.pos me hb.meI hb.peme
    rw [← he]
    exact hb.vals _ (by have := hb.peme; omega) (by omega)
  have hmeI := hb.meI
  have hA : ∀ x, AbsT a me (t + 1) x ↔ AbsT a me t x ∨ x = e := by
    intro x
    unfold AbsT
    rw [InB.succ ht, he]
  refine (hr.wPe _ heI).bind fun s hr => ?_
  refine (hr.wW _ heI).bind fun s hr => ?_
  rw [Ok_pure]
  refine ⟨_, hr, ?_⟩
  dsimp only
  have sg : ∀ x, 0 ≤ vpe me me q.p q.p 0 (a.len me - (t + 1)) (update b.pe e (FLIP me)) x →
      x ≠ e ∧ vpe me e q.p q.pj (a.len me - (t + 1)) 0 b.pe x
        = vpe me me q.p q.p 0 (a.len me - (t + 1)) (update b.pe e (FLIP me)) x ∧
      vlen me e (a.len me - (t + 1)) 0 b.len x = vlen me me 0 (a.len me - (t + 1)) b.len x := by
    intro x h0
    by_cases q2 : x = me
    · subst q2
      rw [vpe_e] at h0 ⊢
      rw [vpe_me hne, vlen_me hne, vlen_e]
      exact ⟨Ne.symm hne, rfl, rfl⟩
    rw [vpe_ne q2 q2] at h0 ⊢
    by_cases q1 : x = e
    · subst q1; rw [Function.update_self, FLIP_eq] at h0; omega
    rw [Function.update_of_ne q1, vpe_ne q1 q2, vlen_ne q1 q2, vlen_ne q2 q2]
    exact ⟨q1, rfl, rfl⟩
  have sg' : ∀ x, 0 ≤ vpe me e q.p q.pj (a.len me - (t + 1)) 0 b.pe x →
      0 ≤ vpe me me q.p q.p 0 (a.len me - (t + 1)) (update b.pe e (FLIP me)) x := by
    intro x h0
    by_cases q1 : x = e
    · subst q1; rw [vpe_e, if_pos rfl] at h0; omega
    by_cases q2 : x = me
    · subst q2
      rw [vpe_me hne] at h0
      rw [vpe_e]; exact h0
    rw [vpe_ne q1 q2] at h0
    rw [vpe_ne q2 q2, Function.update_of_ne q1]
    exact h0
  exact { h with
    rem := ⟨by omega, by omega⟩
    lay := by
      dsimp only
      exact h.lay.congr fun x _ h0 => (sg x h0).2
    totle := by
      dsimp only
      have := h.totle
      rw [show tot n (vpe me me q.p q.p 0 (a.len me - (t + 1)) (update b.pe e (FLIP me)))
        (vlen me me 0 (a.len me - (t + 1)) b.len)
        = tot n (vpe me e q.p q.pj (a.len me - (t + 1)) 0 b.pe) (vlen me e (a.len me - (t + 1)) 0 b.len) from ?_]
      · exact this
      · refine tot_congr fun x hx => ?_
        by_cases h0 : 0 ≤ vpe me me q.p q.p 0 (a.len me - (t + 1)) (update b.pe e (FLIP me)) x
        · obtain ⟨_, s1, s2⟩ := sg x h0
          rw [if_pos h0, if_pos (by omega), s2]
        · rw [if_neg h0, if_neg (fun y => h0 (sg' x y))]
    cme := fun hx => (hx rfl).elim
    ce := fun hx => h.cme hne hx
    neg := fun x hx hp => by
      dsimp only
      rw [Function.update_of_ne (by rintro rfl; omega)]
      exact h.neg x hx hp
    abs := fun x hx => by
      dsimp only
      by_cases q1 : x = e
      · subst q1; rw [Function.update_self, Function.update_self]; exact ⟨rfl, rfl⟩
      · rw [Function.update_of_ne q1, Function.update_of_ne q1]
        exact h.abs x (((hA x).1 hx).resolve_right q1)
    wO := fun x hx hn => by
      dsimp only
      have q1 : x ≠ e := fun q1 => hn ((hA x).2 (Or.inr q1))
      rw [Function.update_of_ne q1]
      exact h.wO x hx fun y => hn ((hA x).2 (Or.inl y))
    obj := fun x hx q2 _ hn hp => by
      dsimp only
      have q1 : x ≠ e := fun q1 => hn ((hA x).2 (Or.inr q1))
      rw [Function.update_of_ne q1]
      exact h.obj x hx q2 q1 (fun y => hn ((hA x).2 (Or.inl y))) hp }

/-- all entries of `e` that are left are searched -/
theorem addVars_ok (hb : Base n L a me pfree P Src rk) (hr : Rep n L q.s b)
    {ln knt1 : Int} (h : CI n L a me P Src rk Abs D 0 e rm ln q b)
    (hmeAbs : ∀ x, Abs x → Idx n x ∧ x ≠ e ∧ x ≠ me) (heE : Idx n e ∧ 0 ≤ a.pe e)
    (h1 : e ≠ me → rm = a.len me - knt1)
    (hsrc : ∀ k, 0 ≤ k → k < ln → 0 < a.nv (a.iw (a.pe e + (a.len e - ln) + k)) →
      P (a.iw (a.pe e + (a.len e - ln) + k)) ∧ Src (a.iw (a.pe e + (a.len e - ln) + k))) :
    Ok (forI 1 (ln + 1) q fun knt2 q => addVar n L me e knt1 ln knt2 q) (fun q' => ∃ b',
      Rep n L q'.s b' ∧
      CI n L a me P Src rk Abs (fun x => D x ∨ InB a.iw (a.pe e + (a.len e - ln)) ln x) 0 e rm 0 q' b') := by
  obtain ⟨r1, r2⟩ := h.rem
  refine forI_ok (fun knt q' => ∃ b', Rep n L q'.s b' ∧
      CI n L a me P Src rk Abs (fun x => D x ∨ InB a.iw (a.pe e + (a.len e - ln)) (knt - 1) x) 0 e rm
        (ln - (knt - 1)) q' b') (by omega) ?_ ?_ ?_
  · refine ⟨b, hr, ?_⟩
    rw [show ln - (1 - 1) = ln by ring]
    refine h.dmono ?_
    rintro x (hx | ⟨k, k0, k1, _⟩)
    · exact hx
    · omega
  · rintro knt q' k0 k1 ⟨b', hr', h'⟩
    have ek : a.pe e + (a.len e - (ln - (knt - 1))) = a.pe e + (a.len e - ln) + (knt - 1) := by ring
    refine (addVar_ok hb hr' h' (by omega) hmeAbs heE h1 (knt2 := knt) (ln := ln) (by ring)
      (by rw [ek]; exact hsrc (knt - 1) (by omega) (by omega))).mono ?_
    rintro q'' ⟨b'', hr'', h''⟩
    refine ⟨b'', hr'', ?_⟩
    rw [ek] at h''
    rw [show ln - (knt + 1 - 1) = ln - (knt - 1) - 1 by ring]
    refine h''.dmono ?_
    intro x hx
    rw [show knt + 1 - 1 = (knt - 1) + 1 by ring, InB.succ (by omega)] at hx
    rw [or_assoc]
    exact hx
  · rintro q' ⟨b', hr', h'⟩
    refine ⟨b', hr', ?_⟩
    rw [show ln + 1 - 1 = ln by ring, show ln - ln = 0 by ring] at h'
    exact h'

theorem addList_ok (hb : Base n L a me pfree P Src rk) {t : Int} (ht : 0 ≤ t) (htE : t < a.elen me)
    (hr : Rep n L q.s b) {slenme : Int}
    (h : CI n L a me P Src rk (AbsT a me t) (SeenT a me t) 0 me 0 (a.len me - t) { q with pj := q.p } b) :
    Ok (addList n L me (a.elen me) slenme (t + 1) q) (fun q' => ∃ b', Rep n L q'.s b' ∧
      CI n L a me P Src rk (AbsT a me (t + 1)) (SeenT a me (t + 1)) 0 me 0 (a.len me - (t + 1))
        { q' with pj := q'.p } b') := by
  have hE := hb.elenme
  obtain ⟨f0, f1, f2⟩ := h.free
  have hm0 := h.m0
  dsimp only at f0 f1 f2 hm0
  obtain ⟨c0, c1⟩ := h.ce (by omega)
  have hpos := h.lay.pos me hb.meI (by rw [vpe_e, if_neg (by omega)]; exact c0)
  rw [vpe_e, if_neg (by omega), vlen_e] at hpos
  dsimp only at c0 c1 hpos
  have ee : b.iw q.p = a.iw (a.pe me + t) := by
    have := c1 0 le_rfl (by omega)
    rw [show a.pe me + (a.len me - (a.len me - t)) + 0 = a.pe me + t by ring] at this
    simpa using this
  obtain ⟨hne, hpe⟩ := hb.elems t ht htE
  have heI : Idx n (a.iw (a.pe me + t)) := by
    have := hb.lay.pos me hb.meI hb.peme
    exact hb.vals _ (by have := hb.peme; omega) (by omega)
  have hnA : ¬ AbsT a me t (a.iw (a.pe me + t)) := by
    rintro ⟨k, k0, k1, ek⟩
    have := hb.nodup k t k0 (by omega) ht htE ek
    omega
  unfold addList
  rw [if_neg (by omega)]
  refine Ok_rd (hr.rIw c0 (by omega) (by omega)) ?_
  rw [ee]
  generalize he : a.iw (a.pe me + t) = e at *
  refine Ok_rd (hr.rPe heI) ?_
  refine Ok_rd (hr.rLen heI) ?_
  obtain ⟨o1, o2, o3⟩ := h.obj e heI hne hne hnA hpe
  rw [o2]
  have hent := h.enter hb ht htE he
  have hmeAbs : ∀ x, AbsT a me t x → Idx n x ∧ x ≠ e ∧ x ≠ me := by
    rintro x ⟨k, k0, k1, rfl⟩
    have := hb.lay.pos me hb.meI hb.peme
    refine ⟨hb.vals _ (by have := hb.peme; omega) (by omega), fun q1 => ?_, (hb.elems k k0 (by omega)).1⟩
    exact hnA ⟨k, k0, k1, q1⟩
  refine (addVars_ok (q := { q with p := q.p + 1, pj := b.pe e }) hb hr hent hmeAbs ⟨heI, hpe⟩
    (knt1 := t + 1) (fun _ => rfl) ?_).bind ?_
  · intro k k0 k1 hnv
    rw [show a.pe e + (a.len e - a.len e) + k = a.pe e + k by ring] at hnv ⊢
    exact hb.srcE e ⟨t, ht, htE, he⟩ k k0 k1 hnv
  · rintro q' ⟨b', hr', h'⟩
    rw [if_pos hne]
    refine (h'.leave_ok hb ht htE hr' he).mono ?_
    rintro q'' ⟨b'', hr'', h''⟩
    refine ⟨b'', hr'', h''.dmono ?_⟩
    rintro x ⟨e', he', hx⟩
    rw [InB.succ ht, he] at he'
    rcases he' with he' | rfl
    · exact Or.inl ⟨e', he', hx⟩
    · right
      rw [show a.pe e' + (a.len e' - a.len e') = a.pe e' by ring]
      exact hx

theorem inFree_ok {s : St} (hb : Base n L a me pfree P Src rk) (hr : Rep n L s a) :
    Ok (inFree n L me (a.elen me) pfree s) (fun r => r.pme2 = r.pfree - 1 ∧ ∃ b, Rep n L r.s b ∧
      Built n L a me P Src rk r.pme1 (r.pme2 - r.pme1 + 1) r.pfree r.degme b) := by
  have hE := hb.elenme
  unfold inFree
  refine Ok_rd (hr.rPe hb.meI) ?_
  refine Ok_rd (hr.rLen hb.meI) ?_
  dsimp only
  obtain ⟨f0, f1, f2⟩ := hb.free
  have hl1 := hb.len1 me hb.meI hb.peme
  have noB : ∀ x, ¬ InB a.iw pfree (pfree - pfree) x := by
    rintro x ⟨k, k0, k1, _⟩; omega
  have h0 : CI n L a me P Src rk (AbsT a me 0) (SeenT a me 0) 0 me 0 (a.len me - 0)
      { p := a.pe me, pj := a.pe me, pme1 := pfree, pfree := pfree, degme := 0, s := s } a := by
    have v1 : vpe me me (a.pe me) (a.pe me) 0 (a.len me - 0) a.pe = a.pe := by
      rw [vpe_self, if_neg (by omega), Function.update_eq_self]
    have v2 : vlen me me 0 (a.len me - 0) a.len = a.len := by
      rw [vlen_self, sub_zero, Function.update_eq_self]
    exact {
      elen := rfl
      degree := rfl
      m0 := by dsimp only; omega
      inj := fun k k' k0 k1 => by dsimp only at k1; omega
      inB := fun x hx => (noB x hx).elim
      nvB := fun x _ hx => (noB x hx).elim
      nvO := fun x _ _ => rfl
      deg := (sumB_empty fun x _ => noB x).symm
      dl := hb.dl.congr (fun x => ⟨fun y => y.1, fun y => ⟨y, noB x⟩⟩) (fun _ _ => rfl)
        (fun _ _ => rfl) (fun _ _ => rfl) fun _ _ => rfl
      gc := Or.inl rfl
      rem := ⟨by omega, le_rfl⟩
      lay := by dsimp only; rw [v1, v2]; exact hb.lay
      totle := by dsimp only; rw [v1, v2]; omega
      cme := fun hx => (hx rfl).elim
      ce := fun _ => ⟨hb.peme, fun k _ _ => by dsimp only; congr 1; ring⟩
      neg := fun _ _ _ => rfl
      abs := fun x hx => by obtain ⟨k, k0, k1, _⟩ := hx; omega
      wO := fun _ _ _ => rfl
      obj := fun x _ _ _ _ hp => ⟨hp, rfl, fun _ _ _ => rfl⟩
      free := ⟨f0, f1, f2⟩
      vals := hb.vals
      cov := fun x hx => by obtain ⟨e, ⟨k, k0, k1, _⟩, _⟩ := hx; omega }
  rw [Ok_bind]
  refine forI_ok (fun knt q' => ∃ b', Rep n L q'.s b' ∧
      (knt ≤ a.elen me + 1 → CI n L a me P Src rk (AbsT a me (knt - 1)) (SeenT a me (knt - 1)) 0 me 0
        (a.len me - (knt - 1)) { q' with pj := q'.p } b') ∧
      (knt = a.elen me + 2 → CI n L a me P Src rk (AbsT a me (a.elen me))
        (fun x => SeenT a me (a.elen me) x ∨
          InB a.iw (a.pe me + a.elen me) (a.len me - a.elen me) x) 0 me 0 0 q' b')) (by omega) ?_ ?_ ?_
  · exact ⟨a, hr, fun _ => h0, fun h => by omega⟩
  · rintro knt q' k0 k1 ⟨b', hr', hA, -⟩
    by_cases hk : knt ≤ a.elen me
    · have := addList_ok (slenme := a.len me - a.elen me) hb (t := knt - 1) (by omega) (by omega) hr'
        (hA (by omega))
      rw [show knt - 1 + 1 = knt by ring] at this
      refine this.mono ?_
      rintro q'' ⟨b'', hr'', h''⟩
      refine ⟨b'', hr'', fun _ => ?_, fun h => by omega⟩
      rw [show knt + 1 - 1 = knt by ring]
      exact h''
    · have hk' : knt = a.elen me + 1 := by omega
      subst hk'
      have h := hA le_rfl
      rw [show a.elen me + 1 - 1 = a.elen me by ring] at h
      unfold addList
      rw [if_pos (by omega)]
      have hmeAbs : ∀ x, AbsT a me (a.elen me) x → Idx n x ∧ x ≠ me ∧ x ≠ me := by
        rintro x ⟨k, k0, k1, rfl⟩
        have := hb.lay.pos me hb.meI hb.peme
        exact ⟨hb.vals _ (by have := hb.peme; omega) (by omega), (hb.elems k k0 k1).1, (hb.elems k k0 k1).1⟩
      have ee : a.pe me + (a.len me - (a.len me - a.elen me)) = a.pe me + a.elen me := by ring
      refine (addVars_ok (q := { q' with pj := q'.p }) hb hr' h hmeAbs ⟨hb.meI, hb.peme⟩
        (knt1 := a.elen me + 1) (fun hx => (hx rfl).elim) ?_).mono ?_
      · intro k k0 k1 hnv
        rw [ee, add_assoc] at hnv ⊢
        exact hb.srcA _ (by omega) (by omega) hnv
      · rintro q'' ⟨b'', hr'', h''⟩
        refine ⟨b'', hr'', fun h => by omega, fun _ => ?_⟩
        rw [ee] at h''
        exact h''
  · rintro q' ⟨b', hr', -, hA⟩
    have h := hA rfl
    rw [Ok_pure]
    refine ⟨rfl, b', hr', ?_⟩
    dsimp only
    rw [show q'.pfree - 1 - q'.pme1 + 1 = q'.pfree - q'.pme1 by ring]
    have hlay := h.lay
    have htot := h.totle
    rw [vpe_self, vlen_self, if_pos rfl] at hlay htot
    have hm0 := h.m0
    obtain ⟨g0, g1, g2⟩ := h.free
    have el : update b'.pe me q'.pme1 = update (update b'.pe me (-1)) me q'.pme1 := by
      rw [Function.update_idem]
    have el' : update b'.len me (q'.pfree - q'.pme1)
        = update (update b'.len me 0) me (q'.pfree - q'.pme1) := by
      rw [Function.update_idem]
    exact { h.toGrow with
      covE := fun e he k k0 k1 hnv => h.cov _ (Or.inl ⟨e, he, k, k0, k1, rfl⟩) hnv
      covA := fun k k0 k1 hnv => h.cov _
        (Or.inr ⟨k - a.elen me, by omega, by omega, by congr 1; ring⟩) hnv
      abs := h.abs
      wO := h.wO
      neg := h.neg
      obj := fun x hx q2 => h.obj x hx q2 q2
      lay := by
        rw [el, el']
        have := hlay.add (x := me) (v := q'.pme1) (l := q'.pfree - q'.pme1) le_rfl hm0
        rwa [show q'.pme1 + (q'.pfree - q'.pme1) = q'.pfree by ring] at this
      room := by
        rw [el, el', tot_update hb.meI, Function.update_self, if_neg (by omega), if_pos g0]
        omega
      free := ⟨g0, by omega, g1, g2⟩
      vals := h.vals }

end Ecos.Amd
