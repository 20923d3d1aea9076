import Verif.Lemmas.Amd9

/-!
# AMD: bringing one variable of the new element up to date
-/
namespace Ecos.Amd

open Function (update)

theorem tot_le {n : Int} {pe len pe' len' : Int → Int}
    (h : ∀ x, Idx n x → (if 0 ≤ pe' x then len' x else 0) ≤ if 0 ≤ pe x then len x else 0) :
    tot n pe' len' ≤ tot n pe len :=
  Finset.sum_le_sum fun x hx => h x (Finset.mem_Ico.1 hx)

theorem sumB_single_le {n : Int} {f : Int → Int} {S : Int → Prop} (h0 : ∀ x, Idx n x → S x → 0 ≤ f x)
    {i : Int} (hi : Idx n i) (hS : S i) : f i ≤ sumB n f S := by
  have h4 : sumB n f (fun y => y = i) = f i := by
    rw [sumB_add (S := fun _ => False) (i := i) hi (fun h => h) (fun y _ => by simp),
      sumB_empty (fun _ _ h => h)]
    ring
  rw [← h4]
  exact sumB_le h0 fun x _ hx => hx ▸ hS

variable {n L : Int} {a b : Ab} {me pfree lemax wflg : Int} {Pr : Int → Prop}

/-- the elements that Scan 2 absorbs when it is at `i` -/
def Ab2 (a : Ab) (wflg i e : Int) : Prop := MemE a i e ∧ a.w e ≠ 0 ∧ a.w e ≤ wflg

theorem Mid.entry (h : Mid n L a me pfree lemax wflg Pr) {i e : Int} (hi : IsV n a i)
    (he : MemE a i e) : Idx n e := by
  obtain ⟨k, k0, k1, rfl⟩ := he
  obtain ⟨v1, v2, v3, v4⟩ := h.var i hi
  have := h.lay.pos i hi.1 v1
  exact h.vals _ (by omega) (by omega)

/-- an absorbed element is in no list that is up to date -/
theorem Mid.ab2 (h : Mid n L a me pfree lemax wflg Pr) {i e : Int} (hi : IsV n a i)
    (hni : a.nv i < 0) (hPi : ¬ Pr i) (hS : Ab2 a wflg i e) :
    e ≠ me ∧ IsU n a e ∧ MemL a e i ∧ (∀ x, IsV n a x → 0 < a.nv x → ¬ MemE a x e) ∧
      ∀ x, IsV n a x → a.nv x < 0 → Pr x → ¬ MemE a x e := by
  obtain ⟨s1, s2, s3⟩ := hS
  obtain ⟨g1, g2⟩ := h.dE i e hi hni hPi s1
  have g3 : IsU n a e ∧ MemL a e i := by
    rcases g2 with g2 | g2
    · exact g2
    · exact (s2 g2.1).elim
  refine ⟨g1, g3.1, g3.2, fun x hx hpx hM => ?_, fun x hx hnx hp hM => ?_⟩
  · rcases h.wt e g3.1 g1 with w | w
    · exact w.2 i hi hni s1
    · have := sumB_single_le (n := n) (f := a.nv)
        (S := fun i => IsV n a i ∧ 0 < a.nv i ∧ MemE a i e) (fun y _ hy => le_of_lt hy.2.1) hx.1
        ⟨hx, hpx, hM⟩
      omega
  · rcases h.pE x e hx hnx hp hM with r | r
    · exact g1 r
    · omega

/-- `i` keeps a list: `me` is its first element -/
theorem Mid.keep (h : Mid n L a me pfree lemax wflg Pr) {i k1 k2 : Int} (hi : IsV n a i)
    (hni : a.nv i < 0) (hPi : ¬ Pr i) (hnv : b.nv = a.nv) (htop : b.top = a.top)
    (helen : b.elen = update a.elen i k1) (hlen : b.len = update a.len i k2)
    (hk : 1 ≤ k1 ∧ k1 ≤ k2 ∧ k2 ≤ a.len i)
    (hpS : ∀ x, Ab2 a wflg i x → b.pe x = FLIP me ∧ b.w x = 0)
    (hpO : ∀ x, ¬ Ab2 a wflg i x → b.pe x = a.pe x ∧ b.w x = a.w x)
    (hiw : ∀ p, p < a.pe i ∨ a.pe i + a.len i ≤ p → b.iw p = a.iw p)
    (hval : ∀ p, a.pe i ≤ p → p < a.pe i + a.len i → Idx n (b.iw p))
    (hE : ∀ e, InB b.iw (a.pe i) k1 e ↔ e = me ∨ (MemE a i e ∧ wflg < a.w e))
    (hA : ∀ j, InB b.iw (a.pe i + k1) (k2 - k1) j ↔ MemA a i j ∧ 0 < a.nv j)
    (hinj : Inj b.iw (a.pe i) k1) (hfst : b.iw (a.pe i) = me)
    (hdeg : ∀ x, x ≠ i → b.degree x = a.degree x) :
    Mid n L b me pfree lemax wflg (fun x => Pr x ∨ x = i) := by
  obtain ⟨hmI, hme, hmp, hmnv, hmw⟩ := h.meI
  obtain ⟨vi1, vi2, vi3, vi4⟩ := h.var i hi
  have hFme : FLIP me < 0 := by rw [FLIP_eq]; omega
  have hw2 := h.wflg2
  have ime : i ≠ me := fun q => by have := hi.2.2; rw [q] at this; omega
  have S1 : ∀ e, Ab2 a wflg i e → _ := fun e he => h.ab2 hi hni hPi he
  have SV : ∀ x, IsV n a x → ¬ Ab2 a wflg i x := fun x hx hs => by
    have := (S1 x hs).2.1.2.1
    have := hx.2.2
    omega
  have Sme : ¬ Ab2 a wflg i me := fun hs => (S1 me hs).1 rfl
  have peV : ∀ x, IsV n a x → b.pe x = a.pe x ∧ b.w x = a.w x := fun x hx => hpO x (SV x hx)
  have eleno : ∀ x, x ≠ i → b.elen x = a.elen x := fun x hx => by
    rw [helen, Function.update_of_ne hx]
  have eleni : b.elen i = k1 := by rw [helen, Function.update_self]
  have leno : ∀ x, x ≠ i → b.len x = a.len x := fun x hx => by rw [hlen, Function.update_of_ne hx]
  have leni : b.len i = k2 := by rw [hlen, Function.update_self]
  have V : ∀ x, IsV n b x ↔ IsV n a x := by
    intro x
    unfold IsV
    rw [hnv]
    by_cases q : x = i
    · subst q
      rw [eleni]
      have := hi.2.2
      constructor
      · rintro ⟨q1, q2, -⟩; exact ⟨q1, q2, this⟩
      · rintro ⟨q1, q2, -⟩; exact ⟨q1, q2, by omega⟩
    · rw [eleno x q]
  have U : ∀ x, IsU n b x ↔ IsU n a x ∧ ¬ Ab2 a wflg i x := by
    intro x
    unfold IsU
    by_cases hs : Ab2 a wflg i x
    · rw [(hpS x hs).1]
      constructor
      · rintro ⟨_, _, q⟩; omega
      · rintro ⟨_, q⟩; exact (q hs).elim
    · rw [(hpO x hs).1]
      by_cases q : x = i
      · subst q
        rw [eleni]
        have := hi.2.2
        constructor
        · rintro ⟨_, q, _⟩; omega
        · rintro ⟨⟨_, q, _⟩, _⟩; omega
      · rw [eleno x q]
        exact ⟨fun q => ⟨q, hs⟩, fun q => q.1⟩
  have reg : ∀ x, Idx n x → x ≠ i → 0 ≤ a.pe x → ∀ p, a.pe x ≤ p → p < a.pe x + a.len x →
      b.iw p = a.iw p := by
    intro x hx hxi hp p p0 p1
    refine hiw p ?_
    have := h.lay.disj x i hx hi.1 hxi hp vi1
    omega
  have EO : ∀ x, IsV n a x → x ≠ i → ∀ e, MemE b x e ↔ MemE a x e := by
    intro x hx hxi e
    obtain ⟨v1, v2, v3, v4⟩ := h.var x hx
    unfold MemE
    rw [(peV x hx).1, eleno x hxi]
    exact InB.congr (fun k k0 k1 => reg x hx.1 hxi v1 _ (by omega) (by omega)) e
  have AO : ∀ x, IsV n a x → x ≠ i → ∀ e, MemA b x e ↔ MemA a x e := by
    intro x hx hxi e
    obtain ⟨v1, v2, v3, v4⟩ := h.var x hx
    have := hx.2.2
    unfold MemA
    rw [(peV x hx).1, eleno x hxi, leno x hxi]
    exact InB.congr (fun k k0 k1 => reg x hx.1 hxi v1 _ (by omega) (by omega)) e
  have EI : ∀ e, MemE b i e ↔ e = me ∨ (MemE a i e ∧ wflg < a.w e) := by
    intro e
    unfold MemE
    rw [(peV i hi).1, eleni]
    exact hE e
  have AI : ∀ e, MemA b i e ↔ MemA a i e ∧ 0 < a.nv e := by
    intro e
    unfold MemA
    rw [(peV i hi).1, eleni, leni]
    exact hA e
  have Ui : ∀ x, IsU n a x → x ≠ i := fun x hx q => by
    have := hi.2.2; have := hx.2.1; rw [q] at this; omega
  have LO : ∀ x, IsU n a x → ¬ Ab2 a wflg i x → ∀ e, MemL b x e ↔ MemL a x e := by
    intro x hx hs e
    unfold MemL
    rw [(hpO x hs).1, leno x (Ui x hx)]
    exact InB.congr (fun k k0 k1 => reg x hx.1 (Ui x hx) hx.2.2 _ (by omega) (by omega)) e
  have Ume : IsU n a me := ⟨hmI, hme, hmp⟩
  -- an element that stays and has weight keeps `i`
  have stay : ∀ e, ¬ Ab2 a wflg i e → e ≠ me → 0 < a.w e → (MemE b i e ↔ MemE a i e) := by
    intro e hs hne hw
    rw [EI]
    constructor
    · rintro (q | q)
      · exact (hne q).elim
      · exact q.1
    · intro q
      refine Or.inr ⟨q, ?_⟩
      by_contra hc
      exact hs ⟨q, by omega, by omega⟩
  have EB : ∀ x e, IsV n a x → ¬ Ab2 a wflg i e → e ≠ me → 0 < a.w e → (MemE b x e ↔ MemE a x e) := by
    intro x e hx hs hne hw
    by_cases q : x = i
    · subst q; exact stay e hs hne hw
    · exact EO x hx q e
  have lay1 : Lay n pfree b.pe b.len := by
    have h1 : Lay n pfree b.pe a.len := h.lay.congr fun x hx h0 => by
      by_cases hs : Ab2 a wflg i x
      · have := (hpS x hs).1; omega
      · exact ⟨(hpO x hs).1.symm, rfl⟩
    have := h1.sub (x := i) (v := b.pe i) (l := k2) hi.1 (fun h0 => ⟨h0, le_rfl, by omega, by omega⟩)
    rw [Function.update_eq_self, ← hlen] at this
    exact this
  exact {
    lay := lay1
    room := le_trans (tot_le fun x hx => by
      by_cases hs : Ab2 a wflg i x
      · rw [(hpS x hs).1, if_neg (by omega)]
        split
        · exact (h.lay.pos x hx (by assumption)).1
        · exact le_rfl
      · rw [(hpO x hs).1]
        by_cases q : x = i
        · subst q
          rw [leni, if_pos vi1, if_pos vi1]
          exact hk.2.2
        · rw [leno x q]) h.room
    free := by rw [htop]; exact h.free
    vals := fun p p0 p1 => by
      by_cases q : p < a.pe i ∨ a.pe i + a.len i ≤ p
      · rw [hiw p q]; exact h.vals p p0 p1
      · exact hval p (by omega) (by omega)
    meI := by
      rw [hnv, eleno me (Ne.symm ime), (hpO me Sme).1, (hpO me Sme).2]
      exact h.meI
    cls := fun x hx => by
      rw [V, hnv]
      by_cases q : x = i
      · subst q; exact Or.inl hi
      · rw [eleno x q]
        rcases h.cls x hx with c | c | c
        · exact Or.inl c
        · exact Or.inr (Or.inl c)
        · refine Or.inr (Or.inr ⟨c.1, c.2.1, ?_⟩)
          have : ¬ Ab2 a wflg i x := fun hs => by have := (S1 x hs).2.1.2.1; omega
          rw [(hpO x this).1]
          exact c.2.2
    var := fun x hx => by
      rw [V] at hx
      rw [(peV x hx).1, (peV x hx).2]
      by_cases q : x = i
      · subst q
        rw [eleni, leni]
        exact ⟨vi1, hk.2.1, by omega, vi4⟩
      · rw [eleno x q, leno x q]; exact h.var x hx
    elt := fun e he hne => by
      rw [U] at he
      obtain ⟨g1, g2, x, g3, g4⟩ := h.elt e he.1 hne
      rw [leno e (Ui e he.1), (hpO e he.2).2]
      exact ⟨g1, g2, x, (V x).2 g3, (EB x e g3 he.2 hne g2).2 g4⟩
    flg := fun x hx hn hxm => by
      rw [hnv] at hn
      exact (LO me Ume Sme x).2 (h.flg x hx hn hxm)
    lme := fun x hx hn => by
      rw [hnv] at hn ⊢
      rw [V]
      exact h.lme x ((LO me Ume Sme x).1 hx) hn
    inj := by
      intro k k' k0 k1 k0' k1' e
      rw [(hpO me Sme).1] at e
      rw [leno me (Ne.symm ime)] at k1 k1'
      rw [reg me hmI (Ne.symm ime) hmp _ (by omega) (by omega),
        reg me hmI (Ne.symm ime) hmp _ (by omega) (by omega)] at e
      exact h.inj k k' k0 k1 k0' k1' e
    cE := fun x e hx hp hM => by
      rw [V] at hx
      rw [hnv] at hp
      have q : x ≠ i := fun q => by rw [q] at hp; omega
      rw [EO x hx q] at hM
      have hs : ¬ Ab2 a wflg i e := fun hs => (S1 e hs).2.2.2.1 x hx hp hM
      obtain ⟨g1, g2, g3⟩ := h.cE x e hx hp hM
      exact ⟨g1, (U e).2 ⟨g2, hs⟩, (LO e g2 hs x).2 g3⟩
    cA := fun x j hx hp hM hj => by
      rw [V] at hx
      rw [hnv] at hp hj
      have q : x ≠ i := fun q => by rw [q] at hp; omega
      rw [AO x hx q] at hM
      obtain ⟨g1, g2⟩ := h.cA x j hx hp hM hj
      refine ⟨(V j).2 g1, ?_⟩
      by_cases r : j = i
      · subst r; exact (AI x).2 ⟨g2, hp⟩
      · exact (AO j g1 r x).2 g2
    dE := fun x e hx hp hPx hM => by
      rw [V] at hx
      rw [hnv] at hp
      have q : x ≠ i := fun q => hPx (Or.inr q)
      rw [EO x hx q] at hM
      obtain ⟨g1, g2⟩ := h.dE x e hx hp (fun r => hPx (Or.inl r)) hM
      refine ⟨g1, ?_⟩
      by_cases hs : Ab2 a wflg i e
      · rw [(hpS e hs).1, (hpS e hs).2]
        exact Or.inr ⟨rfl, hFme⟩
      · rw [(hpO e hs).1, (hpO e hs).2]
        exact g2.imp (fun g => ⟨(U e).2 ⟨g.1, hs⟩, (LO e g.1 hs x).2 g.2⟩) id
    dA := fun x j hx hp hPx hM hj => by
      rw [V] at hx
      rw [hnv] at hp hj
      have q : x ≠ i := fun q => hPx (Or.inr q)
      rw [AO x hx q] at hM
      refine (h.dA x j hx hp (fun r => hPx (Or.inl r)) hM hj).imp id fun g => ⟨(V j).2 g.1, ?_⟩
      rw [hnv]
      by_cases r : j = i
      · subst r; exact Or.inr hni
      · exact g.2.imp (AO j g.1 r x).2 id
    sh := fun x hx hp hPx => by
      rw [V] at hx
      rw [hnv] at hp
      have q : x ≠ i := fun q => hPx (Or.inr q)
      refine (h.sh x hx hp (fun r => hPx (Or.inl r))).imp ?_ (AO x hx q me).2
      rintro ⟨e, g1, g2⟩
      refine ⟨e, (EO x hx q e).2 g1, ?_⟩
      rw [(hpO e fun hs => hs.2.1 g2).2, g2]
    pme := fun x hx hp hPx => by
      rw [V] at hx
      rw [hnv] at hp
      by_cases q : x = i
      · subst q
        rw [eleni, (peV x hx).1]
        exact ⟨hk.1, hfst⟩
      · obtain ⟨g1, g2⟩ := h.pme x hx hp (hPx.resolve_right q)
        obtain ⟨v1, v2, v3, v4⟩ := h.var x hx
        rw [eleno x q, (peV x hx).1, reg x hx.1 q v1 _ le_rfl (by omega)]
        exact ⟨g1, g2⟩
    pA := fun x j hx hp hPx hM => by
      rw [V] at hx
      rw [hnv] at hp ⊢
      have key : 0 < a.nv j ∧ IsV n a j ∧ MemA a j x := by
        by_cases q : x = i
        · subst q
          obtain ⟨g1, g2⟩ := (AI j).1 hM
          rcases h.dA x j hx hp hPi g1 (by omega) with r | r
          · rw [r] at g2; omega
          · refine ⟨g2, r.1, r.2.resolve_right (by omega)⟩
        · exact h.pA x j hx hp (hPx.resolve_right q) ((AO x hx q j).1 hM)
      have q : j ≠ i := fun q => by rw [q] at key; omega
      exact ⟨key.1, (V j).2 key.2.1, (AO j key.2.1 q x).2 key.2.2⟩
    eltL := fun e x he hne hM hx => by
      rw [U] at he
      rw [hnv] at hx
      obtain ⟨g1, g2⟩ := h.eltL e x he.1 hne ((LO e he.1 he.2 x).1 hM) hx
      exact ⟨(V x).2 g1, (EB x e g1 he.2 hne (h.elt e he.1 hne).2.1).2 g2⟩
    nodup := fun x hx => by
      rw [V] at hx
      by_cases q : x = i
      · subst q
        rw [(peV x hx).1, eleni]; exact hinj
      · obtain ⟨v1, v2, v3, v4⟩ := h.var x hx
        intro k k' k0 k1 k0' k1' e
        rw [(peV x hx).1] at e
        rw [eleno x q] at k1 k1'
        rw [reg x hx.1 q v1 _ (by omega) (by omega),
          reg x hx.1 q v1 _ (by omega) (by omega)] at e
        exact h.nodup x hx k k' k0 k1 k0' k1' e
    edeg := fun e he hne => by
      rw [U] at he
      have hw := (h.elt e he.1 hne).2.1
      rw [hdeg e (Ui e he.1)]
      have : sumB n (anv b) (fun i => IsV n b i ∧ MemE b i e)
          = sumB n (anv a) (fun i => IsV n a i ∧ MemE a i e) := by
        refine sumB_congr (fun x hx => ?_) fun x hx hq => by unfold anv; rw [hnv]
        rw [V]
        constructor
        · rintro ⟨q1, q2⟩; exact ⟨q1, (EB x e q1 he.2 hne hw).1 q2⟩
        · rintro ⟨q1, q2⟩; exact ⟨q1, (EB x e q1 he.2 hne hw).2 q2⟩
      rw [this]
      exact h.edeg e he.1 hne
    lemax0 := h.lemax0
    pE := fun x e hx hp hPx hM => by
      rw [V] at hx
      rw [hnv] at hp
      have key : e = me ∨ (IsU n a e ∧ MemL a e x ∧ wflg < a.w e) := by
        by_cases q : x = i
        · subst q
          refine ((EI e).1 hM).imp id ?_
          rintro ⟨g1, g2⟩
          rcases (h.dE x e hx hp hPi g1).2 with r | r
          · exact ⟨r.1, r.2, g2⟩
          · omega
        · exact h.pE x e hx hp (hPx.resolve_right q) ((EO x hx q e).1 hM)
      refine key.imp id ?_
      rintro ⟨g1, g2, g3⟩
      have hs : ¬ Ab2 a wflg i e := fun hs => by have := hs.2.2; omega
      rw [(hpO e hs).2]
      exact ⟨(U e).2 ⟨g1, hs⟩, (LO e g1 hs x).2 g2, g3⟩
    wt := fun e he hne => by
      rw [U] at he
      have hw := (h.elt e he.1 hne).2.1
      rw [(hpO e he.2).2]
      refine (h.wt e he.1 hne).imp ?_ ?_
      · rintro ⟨g1, g2⟩
        refine ⟨g1, fun x hx hp hM => ?_⟩
        rw [V] at hx
        rw [hnv] at hp
        exact g2 x hx hp ((EB x e hx he.2 hne hw).1 hM)
      · rintro ⟨g1, g2⟩
        refine ⟨g1, le_trans (le_of_eq ?_) g2⟩
        refine sumB_congr (fun x hx => ?_) fun x hx hq => by rw [hnv]
        rw [V, hnv]
        constructor
        · rintro ⟨q1, q2, q3⟩; exact ⟨q1, q2, (EB x e q1 he.2 hne hw).1 q3⟩
        · rintro ⟨q1, q2, q3⟩; exact ⟨q1, q2, (EB x e q1 he.2 hne hw).2 q3⟩
    wb := fun x hx => by
      have := h.wb x hx
      by_cases hs : Ab2 a wflg i x
      · rw [(hpS x hs).2]; omega
      · rw [(hpO x hs).2]; exact this
    wflg2 := hw2 }

/-- `i` has no neighbours outside `me`: it is eliminated with it -/
theorem Mid.mass (h : Mid n L a me pfree lemax wflg Pr) {i : Int} (hi : IsV n a i)
    (hni : a.nv i < 0) (hPi : ¬ Pr i) (hnv : b.nv = update a.nv i 0) (htop : b.top = a.top)
    (helen : b.elen = update a.elen i (-1)) (hlen : b.len = a.len)
    (hpi : b.pe i < 0 ∧ b.w i = a.w i)
    (hpS : ∀ x, Ab2 a wflg i x → b.pe x = FLIP me ∧ b.w x = 0)
    (hpO : ∀ x, x ≠ i → ¬ Ab2 a wflg i x → b.pe x = a.pe x ∧ b.w x = a.w x)
    (hiw : ∀ p, p < a.pe i ∨ a.pe i + a.len i ≤ p → b.iw p = a.iw p)
    (hval : ∀ p, a.pe i ≤ p → p < a.pe i + a.len i → Idx n (b.iw p))
    (hE : ∀ e, MemE a i e → ¬ wflg < a.w e) (hdeg : b.degree = a.degree) :
    Mid n L b me pfree lemax wflg (fun x => Pr x ∨ x = i) := by
  obtain ⟨hmI, hme, hmp, hmnv, hmw⟩ := h.meI
  obtain ⟨vi1, vi2, vi3, vi4⟩ := h.var i hi
  have hFme : FLIP me < 0 := by rw [FLIP_eq]; omega
  have hw2 := h.wflg2
  have ime : i ≠ me := fun q => by have := hi.2.2; rw [q] at this; omega
  have S1 : ∀ e, Ab2 a wflg i e → _ := fun e he => h.ab2 hi hni hPi he
  have SV : ∀ x, IsV n a x → ¬ Ab2 a wflg i x := fun x hx hs => by
    have := (S1 x hs).2.1.2.1
    have := hx.2.2
    omega
  have Sme : ¬ Ab2 a wflg i me := fun hs => (S1 me hs).1 rfl
  have peV : ∀ x, IsV n a x → x ≠ i → b.pe x = a.pe x ∧ b.w x = a.w x :=
    fun x hx q => hpO x q (SV x hx)
  have eleno : ∀ x, x ≠ i → b.elen x = a.elen x := fun x hx => by
    rw [helen, Function.update_of_ne hx]
  have eleni : b.elen i = -1 := by rw [helen, Function.update_self]
  have nvo : ∀ x, x ≠ i → b.nv x = a.nv x := fun x hx => by rw [hnv, Function.update_of_ne hx]
  have nvi : b.nv i = 0 := by rw [hnv, Function.update_self]
  have nvne : ∀ x, b.nv x ≠ 0 → x ≠ i := fun x hx q => by rw [q] at hx; exact hx nvi
  have V : ∀ x, IsV n b x ↔ IsV n a x ∧ x ≠ i := by
    intro x
    unfold IsV
    by_cases q : x = i
    · subst q
      rw [nvi]
      simp
    · rw [eleno x q, nvo x q]
      simp [q]
  have Ui : ∀ x, IsU n a x → x ≠ i := fun x hx q => by
    have := hi.2.2; have := hx.2.1; rw [q] at this; omega
  have U : ∀ x, IsU n b x ↔ IsU n a x ∧ ¬ Ab2 a wflg i x := by
    intro x
    by_cases hs : Ab2 a wflg i x
    · unfold IsU
      rw [(hpS x hs).1]
      constructor
      · rintro ⟨_, _, q⟩; omega
      · rintro ⟨_, q⟩; exact (q hs).elim
    · by_cases q : x = i
      · subst q
        constructor
        · rintro ⟨_, q, _⟩; omega
        · rintro ⟨q, _⟩; exact (Ui x q rfl).elim
      · unfold IsU
        rw [(hpO x q hs).1, eleno x q]
        exact ⟨fun q => ⟨q, hs⟩, fun q => q.1⟩
  have reg : ∀ x, Idx n x → x ≠ i → 0 ≤ a.pe x → ∀ p, a.pe x ≤ p → p < a.pe x + a.len x →
      b.iw p = a.iw p := by
    intro x hx hxi hp p p0 p1
    refine hiw p ?_
    have := h.lay.disj x i hx hi.1 hxi hp vi1
    omega
  have EO : ∀ x, IsV n a x → x ≠ i → ∀ e, MemE b x e ↔ MemE a x e := by
    intro x hx hxi e
    obtain ⟨v1, v2, v3, v4⟩ := h.var x hx
    unfold MemE
    rw [(peV x hx hxi).1, eleno x hxi]
    exact InB.congr (fun k k0 k1 => reg x hx.1 hxi v1 _ (by omega) (by omega)) e
  have AO : ∀ x, IsV n a x → x ≠ i → ∀ e, MemA b x e ↔ MemA a x e := by
    intro x hx hxi e
    obtain ⟨v1, v2, v3, v4⟩ := h.var x hx
    have := hx.2.2
    unfold MemA
    rw [(peV x hx hxi).1, eleno x hxi, hlen]
    exact InB.congr (fun k k0 k1 => reg x hx.1 hxi v1 _ (by omega) (by omega)) e
  have LO : ∀ x, IsU n a x → ¬ Ab2 a wflg i x → ∀ e, MemL b x e ↔ MemL a x e := by
    intro x hx hs e
    unfold MemL
    rw [(hpO x (Ui x hx) hs).1, hlen]
    exact InB.congr (fun k k0 k1 => reg x hx.1 (Ui x hx) hx.2.2 _ (by omega) (by omega)) e
  have Ume : IsU n a me := ⟨hmI, hme, hmp⟩
  -- an element that stays and has weight does not have `i`
  have stay : ∀ e, ¬ Ab2 a wflg i e → 0 < a.w e → ¬ MemE a i e := by
    intro e hs hw q
    have := hE e q
    exact hs ⟨q, by omega, by omega⟩
  exact {
    lay := h.lay.congr fun x hx h0 => by
      rw [hlen]
      by_cases hs : Ab2 a wflg i x
      · have := (hpS x hs).1; omega
      · by_cases q : x = i
        · subst q; omega
        · exact ⟨(hpO x q hs).1.symm, rfl⟩
    room := le_trans (tot_le fun x hx => by
      have hz : 0 ≤ if 0 ≤ a.pe x then a.len x else 0 := by
        split
        · exact (h.lay.pos x hx (by assumption)).1
        · exact le_rfl
      by_cases hs : Ab2 a wflg i x
      · rw [(hpS x hs).1, if_neg (by omega)]; exact hz
      · by_cases q : x = i
        · subst q
          rw [if_neg (by omega)]; exact hz
        · rw [(hpO x q hs).1, hlen]) h.room
    free := by rw [htop]; exact h.free
    vals := fun p p0 p1 => by
      by_cases q : p < a.pe i ∨ a.pe i + a.len i ≤ p
      · rw [hiw p q]; exact h.vals p p0 p1
      · exact hval p (by omega) (by omega)
    meI := by
      rw [nvo me (Ne.symm ime), eleno me (Ne.symm ime), (hpO me (Ne.symm ime) Sme).1,
        (hpO me (Ne.symm ime) Sme).2]
      exact h.meI
    cls := fun x hx => by
      by_cases q : x = i
      · subst q; exact Or.inr (Or.inr ⟨nvi, eleni, hpi.1⟩)
      · rw [V, nvo x q, eleno x q]
        rcases h.cls x hx with c | c | c
        · exact Or.inl ⟨c, q⟩
        · exact Or.inr (Or.inl c)
        · refine Or.inr (Or.inr ⟨c.1, c.2.1, ?_⟩)
          have : ¬ Ab2 a wflg i x := fun hs => by have := (S1 x hs).2.1.2.1; omega
          rw [(hpO x q this).1]
          exact c.2.2
    var := fun x hx => by
      rw [V] at hx
      rw [(peV x hx.1 hx.2).1, (peV x hx.1 hx.2).2, eleno x hx.2, hlen]
      exact h.var x hx.1
    elt := fun e he hne => by
      rw [U] at he
      obtain ⟨g1, g2, x, g3, g4⟩ := h.elt e he.1 hne
      rw [hlen, (hpO e (Ui e he.1) he.2).2]
      have q : x ≠ i := fun q => stay e he.2 g2 (q ▸ g4)
      exact ⟨g1, g2, x, (V x).2 ⟨g3, q⟩, (EO x g3 q e).2 g4⟩
    flg := fun x hx hn hxm => by
      have q := nvne x (by omega)
      rw [nvo x q] at hn
      exact (LO me Ume Sme x).2 (h.flg x hx hn hxm)
    lme := fun x hx hn => by
      have q := nvne x hn
      rw [nvo x q] at hn ⊢
      rw [V]
      obtain ⟨g1, g2⟩ := h.lme x ((LO me Ume Sme x).1 hx) hn
      exact ⟨⟨g1, q⟩, g2⟩
    inj := by
      intro k k' k0 k1 k0' k1' e
      rw [(hpO me (Ne.symm ime) Sme).1] at e
      rw [hlen] at k1 k1'
      rw [reg me hmI (Ne.symm ime) hmp _ (by omega) (by omega),
        reg me hmI (Ne.symm ime) hmp _ (by omega) (by omega)] at e
      exact h.inj k k' k0 k1 k0' k1' e
    cE := fun x e hx hp hM => by
      rw [V] at hx
      rw [nvo x hx.2] at hp
      rw [EO x hx.1 hx.2] at hM
      have hs : ¬ Ab2 a wflg i e := fun hs => (S1 e hs).2.2.2.1 x hx.1 hp hM
      obtain ⟨g1, g2, g3⟩ := h.cE x e hx.1 hp hM
      exact ⟨g1, (U e).2 ⟨g2, hs⟩, (LO e g2 hs x).2 g3⟩
    cA := fun x j hx hp hM hj => by
      rw [V] at hx
      have q := nvne j hj
      rw [nvo j q] at hj
      rw [nvo x hx.2] at hp
      rw [AO x hx.1 hx.2] at hM
      obtain ⟨g1, g2⟩ := h.cA x j hx.1 hp hM hj
      exact ⟨(V j).2 ⟨g1, q⟩, (AO j g1 q x).2 g2⟩
    dE := fun x e hx hp hPx hM => by
      rw [V] at hx
      rw [nvo x hx.2] at hp
      rw [EO x hx.1 hx.2] at hM
      obtain ⟨g1, g2⟩ := h.dE x e hx.1 hp (fun r => hPx (Or.inl r)) hM
      refine ⟨g1, ?_⟩
      by_cases hs : Ab2 a wflg i e
      · rw [(hpS e hs).1, (hpS e hs).2]
        exact Or.inr ⟨rfl, hFme⟩
      · by_cases q : e = i
        · subst q
          rw [hpi.2]
          exact g2.imp (fun g => (Ui e g.1 rfl).elim) fun g => ⟨g.1, hpi.1⟩
        · rw [(hpO e q hs).1, (hpO e q hs).2]
          exact g2.imp (fun g => ⟨(U e).2 ⟨g.1, hs⟩, (LO e g.1 hs x).2 g.2⟩) id
    dA := fun x j hx hp hPx hM hj => by
      rw [V] at hx
      have q := nvne j hj
      rw [nvo j q] at hj ⊢
      rw [nvo x hx.2] at hp
      rw [AO x hx.1 hx.2] at hM
      refine (h.dA x j hx.1 hp (fun r => hPx (Or.inl r)) hM hj).imp id fun g => ⟨(V j).2 ⟨g.1, q⟩, ?_⟩
      exact g.2.imp (AO j g.1 q x).2 id
    sh := fun x hx hp hPx => by
      rw [V] at hx
      rw [nvo x hx.2] at hp
      refine (h.sh x hx.1 hp (fun r => hPx (Or.inl r))).imp ?_ (AO x hx.1 hx.2 me).2
      rintro ⟨e, g1, g2⟩
      refine ⟨e, (EO x hx.1 hx.2 e).2 g1, ?_⟩
      by_cases q : e = i
      · subst q; rw [hpi.2]; exact g2
      · rw [(hpO e q fun hs => hs.2.1 g2).2, g2]
    pme := fun x hx hp hPx => by
      rw [V] at hx
      rw [nvo x hx.2] at hp
      obtain ⟨g1, g2⟩ := h.pme x hx.1 hp (hPx.resolve_right hx.2)
      obtain ⟨v1, v2, v3, v4⟩ := h.var x hx.1
      rw [eleno x hx.2, (peV x hx.1 hx.2).1, reg x hx.1.1 hx.2 v1 _ le_rfl (by omega)]
      exact ⟨g1, g2⟩
    pA := fun x j hx hp hPx hM => by
      rw [V] at hx
      rw [nvo x hx.2] at hp
      have key := h.pA x j hx.1 hp (hPx.resolve_right hx.2) ((AO x hx.1 hx.2 j).1 hM)
      have q : j ≠ i := fun q => by rw [q] at key; omega
      rw [nvo j q]
      exact ⟨key.1, (V j).2 ⟨key.2.1, q⟩, (AO j key.2.1 q x).2 key.2.2⟩
    eltL := fun e x he hne hM hx => by
      rw [U] at he
      have q := nvne x hx
      rw [nvo x q] at hx
      obtain ⟨g1, g2⟩ := h.eltL e x he.1 hne ((LO e he.1 he.2 x).1 hM) hx
      exact ⟨(V x).2 ⟨g1, q⟩, (EO x g1 q e).2 g2⟩
    nodup := fun x hx => by
      rw [V] at hx
      obtain ⟨hx, q⟩ := hx
      obtain ⟨v1, v2, v3, v4⟩ := h.var x hx
      intro k k' k0 k1 k0' k1' e
      rw [(peV x hx q).1] at e
      rw [eleno x q] at k1 k1'
      rw [reg x hx.1 q v1 _ (by omega) (by omega),
        reg x hx.1 q v1 _ (by omega) (by omega)] at e
      exact h.nodup x hx k k' k0 k1 k0' k1' e
    edeg := fun e he hne => by
      rw [U] at he
      have hw := (h.elt e he.1 hne).2.1
      rw [hdeg]
      have : sumB n (anv b) (fun i => IsV n b i ∧ MemE b i e)
          = sumB n (anv a) (fun i => IsV n a i ∧ MemE a i e) := by
        refine sumB_congr (fun x hx => ?_) fun x hx hq => ?_
        · rw [V]
          constructor
          · rintro ⟨q1, q2⟩; exact ⟨q1.1, (EO x q1.1 q1.2 e).1 q2⟩
          · rintro ⟨q1, q2⟩
            have q : x ≠ i := fun q => stay e he.2 hw (q ▸ q2)
            exact ⟨⟨q1, q⟩, (EO x q1 q e).2 q2⟩
        · have q : x ≠ i := fun q => stay e he.2 hw (q ▸ hq.2)
          unfold anv; rw [nvo x q]
      rw [this]
      exact h.edeg e he.1 hne
    lemax0 := h.lemax0
    pE := fun x e hx hp hPx hM => by
      rw [V] at hx
      rw [nvo x hx.2] at hp
      have key := h.pE x e hx.1 hp (hPx.resolve_right hx.2) ((EO x hx.1 hx.2 e).1 hM)
      refine key.imp id ?_
      rintro ⟨g1, g2, g3⟩
      have hs : ¬ Ab2 a wflg i e := fun hs => by have := hs.2.2; omega
      rw [(hpO e (Ui e g1) hs).2]
      exact ⟨(U e).2 ⟨g1, hs⟩, (LO e g1 hs x).2 g2, g3⟩
    wt := fun e he hne => by
      rw [U] at he
      have hw := (h.elt e he.1 hne).2.1
      rw [(hpO e (Ui e he.1) he.2).2]
      refine (h.wt e he.1 hne).imp ?_ ?_
      · rintro ⟨g1, g2⟩
        refine ⟨g1, fun x hx hp hM => ?_⟩
        rw [V] at hx
        rw [nvo x hx.2] at hp
        exact g2 x hx.1 hp ((EO x hx.1 hx.2 e).1 hM)
      · rintro ⟨g1, g2⟩
        refine ⟨g1, le_trans (le_of_eq ?_) g2⟩
        refine sumB_congr (fun x hx => ?_) fun x hx hq => ?_
        · rw [V]
          constructor
          · rintro ⟨q1, q2, q3⟩
            rw [nvo x q1.2] at q2
            exact ⟨q1.1, q2, (EO x q1.1 q1.2 e).1 q3⟩
          · rintro ⟨q1, q2, q3⟩
            have q : x ≠ i := fun q => by rw [q] at q2; omega
            rw [nvo x q]
            exact ⟨⟨q1, q⟩, q2, (EO x q1 q e).2 q3⟩
        · have q : x ≠ i := fun q => by rw [q] at hq; omega
          rw [nvo x q]
    wb := fun x hx => by
      have := h.wb x hx
      by_cases hs : Ab2 a wflg i x
      · rw [(hpS x hs).2]; omega
      · by_cases q : x = i
        · subst q; rw [hpi.2]; exact this
        · rw [(hpO x q hs).2]; exact this
    wflg2 := hw2 }

end Ecos.Amd
