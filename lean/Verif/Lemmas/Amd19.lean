import Verif.Lemmas.Amd18

/-!
# AMD: the lists of children
-/
namespace Ecos.Amd

open Function (update)

variable {L : Int} {s : St} {a b : Ab} {rk : Int → Nat}

/-- rule for the loop over the children of a node -/
theorem children_ok {σ : Type} {fuel : Nat} {c : Int} {s : σ} {sib : Int → σ → M Int}
    {body : Int → σ → M σ} {Q : σ → Prop} {next : Int → Int} {l : List Int} (hl : Lst next c l)
    (hne : ∀ x ∈ l, x ≠ -1) (hf : l.length < fuel) (I : List Int → σ → Prop) (h0 : I [] s)
    (hstep : ∀ l1 x l2 s, l = l1 ++ x :: l2 → I l1 s →
      Ok (body x s) (fun s' => I (l1 ++ [x]) s' ∧ sib x s' = .ok (next x)))
    (hfin : ∀ s, I l s → Q s) : Ok (children fuel c s sib body) Q := by
  unfold children
  refine iter_ok' (k := l.length) (fun k q => ∃ l1 l2, l = l1 ++ l2 ∧ Lst next q.1 l2 ∧ I l1 q.2 ∧
    k = l2.length) hf ⟨[], l, rfl, hl, h0, rfl⟩ ?_
  rintro k ⟨f, s⟩ ⟨l1, l2, e, hl2, hI, hk⟩
  dsimp only at hl2 hI ⊢
  cases l2 with
  | nil =>
    have : f = -1 := hl2
    rw [if_neg (by simpa [EMPTY_eq] using this), Ok_pure]
    rw [List.append_nil] at e
    exact hfin s (e ▸ hI)
  | cons x l3 =>
    obtain ⟨rfl, hl3⟩ := hl2
    rw [if_pos (by rw [EMPTY_eq]; exact hne f (by rw [e]; simp))]
    refine (hstep l1 f l3 s e hI).bind fun s' hs => ?_
    refine Ok_rd hs.2 ?_
    rw [Ok_pure]
    exact ⟨l3.length, by rw [hk]; simp, l1 ++ [f], l3, by rw [e]; simp, hl3, hs.1, rfl⟩

/-- the tail of a chain is replaced -/
theorem Lst.replace {next next' : Int → Int} {w w' : List Int} : ∀ {u : List Int} {p : Int}
    (hu : u ≠ []), Lst next p (u ++ w) → (∀ z ∈ u, z ≠ u.getLast hu → next' z = next z) →
      Lst next' (next' (u.getLast hu)) w' → u.Nodup → Lst next' p (u ++ w')
  | [x], p, _, h, _, hw, _ => ⟨h.1, hw⟩
  | x :: y :: u, p, hu, h, ho, hw, hn => by
    have hx : x ≠ (x :: y :: u).getLast hu := by
      intro q
      rw [List.getLast_cons (by simp)] at q
      have := List.getLast_mem (l := y :: u) (by simp)
      rw [← q] at this
      exact (List.nodup_cons.1 hn).1 this
    refine ⟨h.1, ?_⟩
    rw [ho x (by simp) hx]
    have e : (x :: y :: u).getLast hu = (y :: u).getLast (by simp) := List.getLast_cons (by simp)
    refine Lst.replace (u := y :: u) (by simp) h.2 (fun z hz hzl => ho z (by simp [hz]) ?_) ?_
      (List.nodup_cons.1 hn).2
    · rw [e]; exact hzl
    · rw [← e]; exact hw

/-- the live nodes are those with positive `nv` -/
def Live (n : Int) (ν : Int → Int) (x : Int) : Prop := Idx n x ∧ 0 < ν x

/-- the lists of children -/
def CL (n : Int) (par ν head next : Int → Int) : Prop :=
  ∀ p, Idx n p → ∃ l, Lst next (head p) l ∧ l.Nodup ∧ ∀ x, x ∈ l ↔ Live n ν x ∧ par x = p

theorem build_ok {n : Nat} (hr : Rep n L s a) (h : Forest n a.pe a.nv rk) :
    Ok (do
      let s ← forI 0 n s fun j s => do
        let s ← s.wHead j EMPTY
        s.wNext j EMPTY
      forI 0 n s fun k s => do
        let j := (n : Int) - 1 - k
        let v ← s.rNv j
        if v > 0 then do
          let parent ← s.rPe j
          if parent ≠ EMPTY then do
            let c ← s.rHead parent
            let s ← s.wNext j c
            s.wHead parent j
          else pure s
        else pure s) (fun s' => ∃ head next, Rep n L s' { a with head := head, next := next } ∧
          CL n a.pe a.nv head next) := by
  have hn : (0 : Int) ≤ n := by omega
  rw [Ok_bind]
  refine forI_ok (fun i s => ∃ head next, Rep n L s { a with head := head, next := next } ∧
    ∀ x, Idx n x → x < i → head x = -1) hn ⟨a.head, a.next, hr, fun x hx q => by omega⟩ ?_ ?_
  · rintro i s i0 i1 ⟨head, next, hr, h1⟩
    have hI : Idx n i := ⟨i0, i1⟩
    refine (hr.wHead _ hI).bind fun s hr => ?_
    refine (hr.wNext _ hI).mono fun s hr => ⟨_, _, hr, fun x hx hlt => ?_⟩
    dsimp only
    by_cases r : x = i
    · rw [r, Function.update_self, EMPTY_eq]
    · rw [Function.update_of_ne r]; exact h1 x hx (by omega)
  rintro s ⟨head, next, hr, h1⟩
  refine forI_ok (fun k s => ∃ head next, Rep n L s { a with head := head, next := next } ∧
    ∀ p, Idx n p → ∃ l, Lst next (head p) l ∧ l.Nodup ∧
      ∀ x, x ∈ l ↔ (n : Int) - k ≤ x ∧ Live n a.nv x ∧ a.pe x = p) hn ⟨head, next, hr, fun p hp => ?_⟩ ?_ ?_
  · refine ⟨[], h1 p hp hp.2, List.nodup_nil, fun x => ?_⟩
    simp only [List.not_mem_nil, false_iff]
    rintro ⟨q1, q2, -⟩
    have := q2.1.2
    omega
  · rintro k s k0 k1 ⟨head, next, hr, hC⟩
    have hj : Idx n ((n : Int) - 1 - k) := by omega
    dsimp only
    generalize hjj : (n : Int) - 1 - k = j at *
    have hskip : ¬ (Live n a.nv j ∧ a.pe j ≠ -1) → ∀ p, Idx n p → ∃ l, Lst next (head p) l ∧ l.Nodup ∧
        ∀ x, x ∈ l ↔ (n : Int) - (k + 1) ≤ x ∧ Live n a.nv x ∧ a.pe x = p := by
      intro hno p hp
      obtain ⟨l, l1, l2, l3⟩ := hC p hp
      refine ⟨l, l1, l2, fun x => ?_⟩
      rw [l3]
      constructor
      · rintro ⟨q1, q2, q3⟩; exact ⟨by omega, q2, q3⟩
      · rintro ⟨q1, q2, q3⟩
        refine ⟨?_, q2, q3⟩
        by_contra hc
        have e : x = j := by omega
        rw [e] at q2 q3
        exact hno ⟨q2, by omega⟩
    refine Ok_rd (hr.rNv hj) ?_
    dsimp only
    split
    · rename_i hν
      refine Ok_rd (hr.rPe hj) ?_
      dsimp only
      split
      · rename_i hp
        rw [EMPTY_eq] at hp
        obtain ⟨hpI, -⟩ := h.up j hj hp
        refine Ok_rd (hr.rHead hpI) ?_
        refine (hr.wNext _ hj).bind fun s hr => ?_
        refine (hr.wHead _ hpI).mono fun s hr => ⟨_, _, hr, fun p hpI' => ?_⟩
        dsimp only
        obtain ⟨l, l1, l2, l3⟩ := hC p hpI'
        have hjl : j ∉ l := fun q => by have := ((l3 j).1 q).1; omega
        have l1' : Lst (update next j (head (a.pe j))) (head p) l := l1.congr fun x hx =>
          Function.update_of_ne (by rintro rfl; exact hjl hx) _ _
        by_cases r : p = a.pe j
        · subst r
          rw [Function.update_self]
          refine ⟨j :: l, ⟨rfl, ?_⟩, List.nodup_cons.2 ⟨hjl, l2⟩, fun x => ?_⟩
          · rw [Function.update_self]; exact l1'
          · rw [List.mem_cons, l3]
            constructor
            · rintro (rfl | ⟨q1, q2, q3⟩)
              · exact ⟨by omega, ⟨hj, hν⟩, rfl⟩
              · exact ⟨by omega, q2, q3⟩
            · rintro ⟨q1, q2, q3⟩
              by_cases t : x = j
              · exact Or.inl t
              · exact Or.inr ⟨by omega, q2, q3⟩
        · rw [Function.update_of_ne r]
          refine ⟨l, l1', l2, fun x => ?_⟩
          rw [l3]
          constructor
          · rintro ⟨q1, q2, q3⟩; exact ⟨by omega, q2, q3⟩
          · rintro ⟨q1, q2, q3⟩
            refine ⟨?_, q2, q3⟩
            by_contra hc
            have e : x = j := by omega
            exact r (by rw [← q3, e])
      · rename_i hp
        rw [EMPTY_eq, not_not] at hp
        rw [Ok_pure]
        exact ⟨head, next, hr, hskip fun q => q.2 hp⟩
    · rename_i hν
      rw [Ok_pure]
      exact ⟨head, next, hr, hskip fun q => hν q.1.2⟩
  · rintro s ⟨head, next, hr, hC⟩
    refine ⟨head, next, hr, fun p hp => ?_⟩
    obtain ⟨l, l1, l2, l3⟩ := hC p hp
    refine ⟨l, l1, l2, fun x => ?_⟩
    rw [l3]
    constructor
    · exact fun q => q.2
    · intro q; exact ⟨by have := q.1.1.1; omega, q⟩

theorem getLastD_ne {u : List Int} (hu : u ≠ []) (d : Int) : u.getLastD d = u.getLast hu := by
  rw [List.getLastD_eq_getLast?, List.getLast?_eq_getLast_of_ne_nil hu]; rfl

theorem bigLast_ok {n : Nat} (hr : Rep n L s a) (h : CL n a.pe a.nv a.head a.next)
    (hel : ∀ x, Idx n x → 0 < a.nv x → -1 ≤ a.elen x) {i : Int} (hi : Idx n i) :
    Ok (bigLast n i s) (fun s' => ∃ head next, Rep n L s' { a with head := head, next := next } ∧
      CL n a.pe a.nv head next) := by
  unfold bigLast
  refine Ok_rd (hr.rNv hi) ?_
  split
  · refine Ok_rd (hr.rHead hi) ?_
    split
    · rename_i hν hc
      rw [EMPTY_eq] at hc
      obtain ⟨l, l1, l2, l3⟩ := h i hi
      have lI : ∀ x ∈ l, Idx n x := fun x hx => ((l3 x).1 hx).1.1
      have hlen := length_le (n := n) l2 lI
      rw [Ok_bind]
      refine children_ok l1 (fun x hx => by have := lI x hx; omega) (by omega)
        (fun t b => (t = [] ∧ b = ⟨-1, -1, -1, -1⟩) ∨ ∃ u v, t = u ++ b.bigf :: v ∧
          b.fprev = t.getLastD (-1) ∧ b.bigfprev = u.getLastD (-1)) (Or.inl ⟨rfl, rfl⟩) ?_ ?_
      · rintro t x t2 b e hb
        have hx : x ∈ l := by rw [e]; simp
        have hxI := lI x hx
        refine Ok_rd (hr.rElen hxI) ?_
        have hge := hel x hxI ((l3 x).1 hx).1.2
        split
        · rename_i hbig
          rw [Ok_pure]
          refine ⟨Or.inr ⟨t, [], rfl, by simp, ?_⟩, hr.rNext hxI⟩
          dsimp only
          rcases hb with ⟨rfl, rfl⟩ | ⟨u, v, e1, e2, e3⟩
          · rfl
          · exact e2
        · rename_i hbig
          rw [Ok_pure]
          refine ⟨?_, hr.rNext hxI⟩
          rcases hb with ⟨rfl, rfl⟩ | ⟨u, v, e1, e2, e3⟩
          · exact (hbig hge).elim
          · refine Or.inr ⟨u, v ++ [x], ?_, by simp, e3⟩
            dsimp only
            rw [e1]; simp
      · rintro b hb
        rcases hb with ⟨rfl, -⟩ | ⟨u, v, e1, e2, e3⟩
        · exact (hc l1).elim
        have hbl : b.bigf ∈ l := by rw [e1]; simp
        have hbI := lI _ hbl
        refine Ok_rd (hr.rNext hbI) ?_
        have hl1 := l1
        rw [e1] at hl1
        -- the chain after the biggest child
        have hsuf : ∀ (u : List Int) (p : Int), Lst a.next p (u ++ b.bigf :: v) →
            Lst a.next (a.next b.bigf) v := by
          intro u
          induction u with
          | nil => intro p h; exact h.2
          | cons x u ih => intro p h; exact ih _ h.2
        have hv := hsuf u _ hl1
        split
        · rename_i hfn
          rw [EMPTY_eq] at hfn
          have vne : v ≠ [] := by rintro rfl; exact hfn hv
          have nd := l2
          rw [e1] at nd
          have ndu := (List.nodup_append.1 nd).1
          have ndv := (List.nodup_cons.1 (List.nodup_append.1 nd).2.1).2
          have bv := (List.nodup_cons.1 (List.nodup_append.1 nd).2.1).1
          have ub := (List.nodup_append.1 nd).2.2
          have efp : b.fprev = v.getLast vne := by
            rw [e2, e1, getLastD_ne (by simp)]
            rw [List.getLast_append_of_ne_nil _ (by simp), List.getLast_cons vne]
          have vlm := List.getLast_mem vne
          have fpl : b.fprev ∈ l := by rw [efp, e1]; simp [vlm]
          have fpI := lI _ fpl
          have fpb : b.fprev ≠ b.bigf := by rw [efp]; rintro q; rw [q] at vlm; exact bv vlm
          -- the new lists
          have key : ∀ head next : Int → Int,
              (∀ p, p ≠ i → head p = a.head p) →
              (∀ x, x ≠ b.bigf → x ≠ b.fprev → (∀ hu : u ≠ [], x ≠ u.getLast hu) → next x = a.next x) →
              next b.bigf = -1 → next b.fprev = b.bigf →
              (u = [] → head i = a.next b.bigf) →
              (∀ hu : u ≠ [], head i = a.head i ∧ next (u.getLast hu) = a.next b.bigf) →
              CL n a.pe a.nv head next := by
            intro head next g1 g2 g3 g4 g5 g6 p hp
            have ulast : ∀ hu : u ≠ [], u.getLast hu ∈ u := fun hu => List.getLast_mem hu
            by_cases r : p = i
            · subst r
              refine ⟨u ++ (v ++ [b.bigf]), ?_, ?_, fun x => ?_⟩
              · have hvb : Lst next (a.next b.bigf) (v ++ [b.bigf]) := by
                  refine Lst.replace vne (w := []) (by rw [List.append_nil]; exact hv) (fun z hz hzl => ?_) ?_ ndv
                  · refine g2 z (fun q => bv (q ▸ hz)) (by rw [efp]; exact hzl) fun hu q => ?_
                    exact ub _ (ulast hu) z (by simp [hz]) q.symm
                  · rw [← efp, g4]; exact ⟨rfl, g3⟩
                by_cases hu : u = []
                · rw [hu, List.nil_append, g5 hu]; exact hvb
                · rw [(g6 hu).1]
                  refine Lst.replace hu hl1 (fun z hz hzl => ?_) ?_ ndu
                  · refine g2 z (fun q => ub z hz _ (by simp) q) (fun q => ?_) fun _ => hzl
                    exact ub z hz _ (by simp [vlm]) (q.trans efp)
                  · rw [(g6 hu).2]; exact hvb
              · have : (u ++ (v ++ [b.bigf])).Perm (u ++ b.bigf :: v) :=
                  List.Perm.append_left u (List.perm_append_comm.trans (by simp))
                exact this.nodup_iff.2 nd
              · rw [← l3, e1]
                simp only [List.mem_append, List.mem_cons, List.not_mem_nil, or_false]
                tauto
            · obtain ⟨t, t1, t2, t3⟩ := h p hp
              rw [g1 p r]
              refine ⟨t, t1.congr fun x hx => ?_, t2, t3⟩
              have hxp := ((t3 x).1 hx).2
              have hne : ∀ y ∈ l, x ≠ y := fun y hy q => by
                rw [q, ((l3 y).1 hy).2] at hxp
                exact r hxp.symm
              exact g2 x (hne _ hbl) (hne _ fpl) fun hu => hne _ (by rw [e1]; simp [ulast hu])
          rw [Ok_bind]
          by_cases hu : u = []
          · have hbf : b.bigfprev = -1 := by rw [e3, hu]; rfl
            rw [EMPTY_eq, if_pos hbf]
            refine (hr.wHead _ hi).mono fun s hr => ?_
            refine (hr.wNext _ hbI).bind fun s hr => ?_
            refine (hr.wNext _ fpI).mono fun s hr => ⟨_, _, hr, key _ _ ?_ ?_ ?_ ?_ ?_ ?_⟩
            · intro p hp; exact Function.update_of_ne hp _ _
            · intro x h1 h2 _
              dsimp only
              rw [Function.update_of_ne h2, Function.update_of_ne h1]
            · dsimp only
              rw [Function.update_of_ne (Ne.symm fpb), Function.update_self]
            · exact Function.update_self _ _ _
            · intro _; exact Function.update_self _ _ _
            · intro q; exact (q hu).elim
          · have hul := List.getLast_mem hu
            have hbf : b.bigfprev = u.getLast hu := by rw [e3, getLastD_ne hu]
            have hbl2 : b.bigfprev ∈ l := by rw [hbf, e1]; simp [hul]
            have hbI2 := lI _ hbl2
            have n1 : b.bigfprev ≠ b.bigf := fun q => ub _ hul _ (by simp) (hbf.symm.trans q)
            have n2 : b.bigfprev ≠ b.fprev := fun q =>
              ub _ hul _ (by simp [vlm]) (hbf.symm.trans (q.trans efp))
            rw [EMPTY_eq, if_neg (by omega)]
            refine (hr.wNext _ hbI2).mono fun s hr => ?_
            refine (hr.wNext _ hbI).bind fun s hr => ?_
            refine (hr.wNext _ fpI).mono fun s hr => ⟨_, _, hr, key _ _ ?_ ?_ ?_ ?_ ?_ ?_⟩
            · intro p hp; rfl
            · intro x h1 h2 h3
              dsimp only
              rw [Function.update_of_ne h2, Function.update_of_ne h1,
                Function.update_of_ne (by rw [hbf]; exact h3 hu)]
            · dsimp only
              rw [Function.update_of_ne (Ne.symm fpb), Function.update_self]
            · exact Function.update_self _ _ _
            · intro q; exact (hu q).elim
            · intro _
              refine ⟨rfl, ?_⟩
              dsimp only
              rw [← hbf, Function.update_of_ne n2, Function.update_of_ne n1, Function.update_self]
        · rw [Ok_pure]
          exact ⟨a.head, a.next, hr, h⟩
    · rw [Ok_pure]
      exact ⟨a.head, a.next, hr, h⟩
  · rw [Ok_pure]
    exact ⟨a.head, a.next, hr, h⟩

end Ecos.Amd
