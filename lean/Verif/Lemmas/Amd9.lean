import Verif.Lemmas.Amd8

/-!
# AMD: the forest of absorbed nodes
-/
namespace Ecos.Amd

open Function (update)

/-- absorbed nodes point to the node that absorbed them.  `ν x` is the number of nodes that `x`
stands for, `rep` the one that a node is in. -/
structure Tree (n : Int) (pe ν elen : Int → Int) (rk : Int → Nat) (rep : Int → Int) : Prop where
  par : ∀ x, Idx n x → pe x < -1 → Idx n (FLIP (pe x)) ∧
    (ν (FLIP (pe x)) ≠ 0 ∨ pe (FLIP (pe x)) < -1) ∧
    (ν x ≠ 0 → ν (FLIP (pe x)) ≠ 0 ∧ elen (FLIP (pe x)) < -1) ∧
    (pe (FLIP (pe x)) < -1 → rk x < rk (FLIP (pe x)))
  cls : ∀ x, Idx n x → ν x ≠ 0 → rep x = x ∧ (((ix n).filter fun i => rep i = x).card : Int) = ν x
  dead : ∀ x, Idx n x → ν x = 0 → pe x < -1 → rep x = rep (FLIP (pe x))
  root : ∀ x, Idx n x → ν x = 0 → -1 ≤ pe x → rep x = x

variable {n : Int} {pe ν elen pe' ν' elen' : Int → Int} {rk : Int → Nat} {rep : Int → Int}

theorem FLIP_FLIP (x : Int) : FLIP (FLIP x) = x := by rw [FLIP_eq, FLIP_eq]; ring

/-- the elements in `S` are absorbed by the element `me` -/
theorem Tree.absorbs (h : Tree n pe ν elen rk rep) {S : Int → Prop} {me : Int} (hme : Idx n me)
    (hmp : -1 ≤ pe me) (hmν : ν me ≠ 0) (hmS : ¬ S me) (hme' : elen' me < -1)
    (hS : ∀ x, Idx n x → S x → pe' x = FLIP me ∧ ν x ≠ 0 ∧ -1 ≤ pe x)
    (hO : ∀ x, Idx n x → ¬ S x → pe' x = pe x ∨ (-1 ≤ pe x ∧ -1 ≤ pe' x ∧ ν x ≠ 0))
    (hel : ∀ x, Idx n x → elen x < -1 → elen' x < -1)
    (hν : ∀ x, Idx n x → ν' x = ν x) :
    ∃ rk', Tree n pe' ν' elen' rk' rep := by
  classical
  have hlt : ∀ x, Idx n x → pe' x < -1 → (S x ∧ pe' x = FLIP me ∧ ν x ≠ 0) ∨ (¬ S x ∧ pe' x = pe x) := by
    intro x hx hp
    by_cases q : S x
    · exact Or.inl ⟨q, (hS x hx q).1, (hS x hx q).2.1⟩
    · rcases hO x hx q with r | r
      · exact Or.inr ⟨q, r⟩
      · omega
  have hmp' : -1 ≤ pe' me := by
    rcases hO me hme hmS with r | r <;> omega
  have hdown : ∀ x, Idx n x → pe x < -1 → pe' x < -1 := by
    intro x hx hp
    by_cases q : S x
    · have := (hS x hx q).2.2; omega
    · rcases hO x hx q with r | r <;> omega
  refine ⟨fun x => if S x then (ix n).sup rk + 1 else rk x, ?_, ?_, ?_, ?_⟩
  · intro x hx hp
    rcases hlt x hx hp with ⟨g1, g2, g3⟩ | ⟨g1, g2⟩
    · rw [g2, FLIP_FLIP, hν me hme, hν x hx]
      exact ⟨hme, Or.inl hmν, fun _ => ⟨hmν, hme'⟩, fun hq => by omega⟩
    · rw [g2] at hp ⊢
      obtain ⟨p1, p2, p3, p4⟩ := h.par x hx hp
      rw [hν _ p1, hν x hx]
      refine ⟨p1, p2.imp id (hdown _ p1), fun hq => ⟨(p3 hq).1, hel _ p1 (p3 hq).2⟩, fun hq => ?_⟩
      rw [if_neg g1]
      by_cases q : S (FLIP (pe x))
      · rw [if_pos q]
        have : rk x ≤ (ix n).sup rk := Finset.le_sup (f := rk) (Finset.mem_Ico.2 hx)
        omega
      · rw [if_neg q]
        rcases hlt _ p1 hq with r | r
        · exact (q r.1).elim
        · exact p4 (by omega)
  · intro x hx hq
    rw [hν x hx] at hq ⊢
    exact h.cls x hx hq
  · intro x hx hq hp
    rw [hν x hx] at hq
    rcases hlt x hx hp with ⟨g1, g2, g3⟩ | ⟨g1, g2⟩
    · exact (g3 hq).elim
    · rw [g2]; exact h.dead x hx hq (by omega)
  · intro x hx hq hp
    rw [hν x hx] at hq
    refine h.root x hx hq ?_
    by_contra hc
    have := hdown x hx (by omega)
    omega

/-- nothing that matters changes -/
theorem Tree.congr (h : Tree n pe ν elen rk rep)
    (hO : ∀ x, Idx n x → pe' x = pe x ∨ (-1 ≤ pe x ∧ -1 ≤ pe' x ∧ ν x ≠ 0))
    (hel : ∀ x, Idx n x → elen x < -1 → elen' x < -1)
    (hν : ∀ x, Idx n x → ν' x = ν x) : Tree n pe' ν' elen' rk rep := by
  have hlt : ∀ x, Idx n x → pe' x < -1 → pe' x = pe x := by
    intro x hx hp
    rcases hO x hx with r | r
    · exact r
    · omega
  have hdown : ∀ x, Idx n x → pe x < -1 → pe' x < -1 := by
    intro x hx hp
    rcases hO x hx with r | r <;> omega
  refine ⟨fun x hx hp => ?_, fun x hx hq => ?_, fun x hx hq hp => ?_, fun x hx hq hp => ?_⟩
  · have g2 := hlt x hx hp
    rw [g2] at hp ⊢
    obtain ⟨p1, p2, p3, p4⟩ := h.par x hx hp
    rw [hν _ p1, hν x hx]
    refine ⟨p1, p2.imp id (hdown _ p1), fun hq => ⟨(p3 hq).1, hel _ p1 (p3 hq).2⟩, fun hq => ?_⟩
    exact p4 (by have := hlt _ p1 hq; omega)
  · rw [hν x hx] at hq ⊢
    exact h.cls x hx hq
  · rw [hν x hx] at hq
    have g2 := hlt x hx hp
    rw [g2]; exact h.dead x hx hq (by omega)
  · rw [hν x hx] at hq
    refine h.root x hx hq ?_
    by_contra hc
    have := hdown x hx (by omega)
    omega

/-- the variable `j` is absorbed by `i` -/
theorem Tree.merge (h : Tree n pe ν elen rk rep) {i j : Int} (hi : Idx n i) (hj : Idx n j)
    (hij : i ≠ j) (hνi : 0 < ν i) (hνj : 0 < ν j) (hpi : -1 ≤ pe i) (hpj : -1 ≤ pe j)
    (helj : 0 ≤ elen j) (hel : ∀ x, Idx n x → elen x < -1 → elen' x < -1)
    (hν : ∀ x, Idx n x → ν' x = update (update ν i (ν i + ν j)) j 0 x)
    (hpe : ∀ x, Idx n x → pe' x = update pe j (FLIP i) x) :
    ∃ rk' rep', Tree n pe' ν' elen' rk' rep' := by
  classical
  have hF : FLIP i < -1 := by rw [FLIP_eq]; omega
  have νi : ν' i = ν i + ν j := by
    rw [hν i hi, Function.update_of_ne hij, Function.update_self]
  have νj : ν' j = 0 := by rw [hν j hj, Function.update_self]
  have νo : ∀ x, Idx n x → x ≠ i → x ≠ j → ν' x = ν x := fun x hx h1 h2 => by
    rw [hν x hx, Function.update_of_ne h2, Function.update_of_ne h1]
  have ν0 : ∀ x, Idx n x → x ≠ j → (ν' x = 0 ↔ ν x = 0) := by
    intro x hx h1
    by_cases q : x = i
    · subst q; rw [νi]; omega
    · rw [νo x hx q h1]
  have pj : pe' j = FLIP i := by rw [hpe j hj, Function.update_self]
  have po : ∀ x, Idx n x → x ≠ j → pe' x = pe x := fun x hx h1 => by
    rw [hpe x hx, Function.update_of_ne h1]
  have ri := (h.cls i hi (by omega)).1
  have rj := (h.cls j hj (by omega)).1
  refine ⟨fun x => if x = j then (ix n).sup rk + 1 else rk x,
    fun x => if rep x = j then i else rep x, ?_, ?_, ?_, ?_⟩
  · intro x hx hp
    by_cases q : x = j
    · subst q
      rw [pj, FLIP_FLIP, νi, νj]
      refine ⟨hi, Or.inl (by omega), fun hc => (hc rfl).elim, fun hq => ?_⟩
      rw [po i hi hij] at hq
      omega
    · rw [po x hx q] at hp ⊢
      obtain ⟨p1, p2, p3, p4⟩ := h.par x hx hp
      rw [if_neg q]
      by_cases q' : FLIP (pe x) = j
      · rw [q'] at p3 ⊢
        refine ⟨hj, Or.inr (by omega), fun hq => ?_, fun _ => ?_⟩
        · rw [Ne, ν0 x hx q] at hq
          have := (p3 hq).2
          omega
        · rw [if_pos rfl]
          have : rk x ≤ (ix n).sup rk := Finset.le_sup (f := rk) (Finset.mem_Ico.2 hx)
          omega
      · rw [if_neg q', po _ p1 q']
        refine ⟨p1, p2.imp (fun g => ?_) id, fun hq => ?_, p4⟩
        · rw [Ne, ν0 _ p1 q']; exact g
        · rw [Ne, ν0 x hx q] at hq
          rw [Ne, ν0 _ p1 q']
          exact ⟨(p3 hq).1, hel _ p1 (p3 hq).2⟩
  · intro x hx hq
    have q : x ≠ j := fun q => by subst q; exact hq νj
    rw [Ne, ν0 x hx q] at hq
    obtain ⟨c1, c2⟩ := h.cls x hx hq
    rw [c1, if_neg q]
    refine ⟨rfl, ?_⟩
    by_cases q' : x = i
    · subst q'
      rw [νi, ← c2, ← (h.cls j hj (by omega)).2, ← Nat.cast_add, ← Finset.card_union_of_disjoint]
      · congr 2
        ext y
        simp only [Finset.mem_filter, Finset.mem_union]
        by_cases r : rep y = j
        · rw [if_pos r]; simp only [r, and_true]; tauto
        · rw [if_neg r]; simp [r]
      · rw [Finset.disjoint_filter]
        intro y _ h1 h2
        exact q (by rw [← h1, h2])
    · rw [νo x hx q' q, ← c2]
      congr 2
      ext y
      simp only [Finset.mem_filter]
      by_cases r : rep y = j
      · rw [if_pos r, r]
        simp [Ne.symm q, Ne.symm q']
      · rw [if_neg r]
  · intro x hx hq hp
    by_cases q : x = j
    · subst q
      rw [pj, FLIP_FLIP, rj, if_pos rfl, ri, if_neg hij]
    · rw [ν0 x hx q] at hq
      rw [po x hx q] at hp ⊢
      rw [h.dead x hx hq hp]
  · intro x hx hq hp
    have q : x ≠ j := fun q => by subst q; omega
    rw [ν0 x hx q] at hq
    rw [po x hx q] at hp
    rw [h.root x hx hq hp, if_neg q]

end Ecos.Amd
