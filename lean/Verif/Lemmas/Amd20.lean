import Verif.Lemmas.Amd19

/-!
# AMD: the depth first search
-/
namespace Ecos.Amd

open Function (update)

variable {L : Int} {s : St} {a b : Ab} {rk : Int → Nat} {R : Int → Prop}

/-- the cells `last[hd], last[hd-1], …, last[h+1]` contain the elements of the list -/
def Seg (last : Int → Int) : Int → List Int → Int → Prop
  | hd, [], h => hd = h
  | hd, x :: l, h => last hd = x ∧ Seg last (hd - 1) l h

theorem Seg.length {last : Int → Int} {h : Int} : ∀ {l : List Int} {hd : Int}, Seg last hd l h →
    hd = h + l.length
  | [], _, q => by have q : _ = h := q; simp [q]
  | x :: l, hd, q => by
    have := Seg.length q.2
    simp only [List.length_cons, Nat.cast_add, Nat.cast_one]
    omega

theorem Seg.congr {last last' : Int → Int} {h : Int} : ∀ {l : List Int} {hd : Int}, Seg last hd l h →
    (∀ j, h < j → j ≤ hd → last' j = last j) → Seg last' hd l h
  | [], _, q, _ => q
  | x :: l, hd, q, e => by
    have := Seg.length q.2
    exact ⟨by rw [e hd (by omega) (le_refl _)]; exact q.1, q.2.congr fun j h1 h2 => e j h1 (by omega)⟩

theorem Seg.append {last : Int → Int} {h m : Int} {l2 : List Int} : ∀ {l : List Int} {hd : Int},
    Seg last hd l m → Seg last m l2 h → Seg last hd (l ++ l2) h
  | [], _, q, q2 => by have q : _ = m := q; rw [q]; exact q2
  | _ :: _, _, q, q2 => ⟨q.1, q.2.append q2⟩

/-- the state of the search: `st` is the stack, `k` nodes are numbered, the roots in `R` are yet to
be visited -/
structure PI (n : Int) (par ν head0 : Int → Int) (R : Int → Prop) (st : List Int) (k : Int)
    (head w : Int → Int) : Prop where
  k0 : 0 ≤ k
  nd : st.Nodup
  lv : ∀ x ∈ st, Live n ν x ∧ w x = -1
  un : ∀ x, Live n ν x → w x = -1 → x ∉ st → head x = head0 x ∧
    (par x ≠ -1 → w (par x) = -1 ∧ head (par x) = head0 (par x))
  hd : ∀ x ∈ st, head x = -1 ∨ head x = head0 x
  vis : ∀ x, Live n ν x → (x ∈ st ∨ w x ≠ -1) → par x ≠ -1 →
    (par x ∈ st ∨ w (par x) ≠ -1) ∧ (w (par x) = -1 → head (par x) = -1)
  roots : ∀ x, Live n ν x → par x = -1 → (w x = -1 ∧ x ∉ st ↔ R x)
  rng : ∀ x, Idx n x → w x ≠ -1 → 0 < ν x ∧ 0 ≤ w x ∧ w x < k
  inj : ∀ x y, Idx n x → Idx n y → w x ≠ -1 → w x = w y → x = y
  sur : ∀ j, 0 ≤ j → j < k → ∃ x, Idx n x ∧ w x = j

/-- the first child of a node is pushed -/
theorem PI.expand {n : Int} {par ν head0 next head w : Int → Int} {st l : List Int} {k i : Int}
    (h : PI n par ν head0 R (i :: st) k head w) (hl : l.Nodup)
    (hm : ∀ x, x ∈ l ↔ Live n ν x ∧ par x = i) (hc : head i ≠ -1) :
    (l ++ i :: st).Nodup ∧ PI n par ν head0 R (l ++ i :: st) k (update head i (-1)) w := by
  have hiv := h.lv i (by simp)
  have i1 : i ≠ -1 := by have := hiv.1.1; omega
  have hnew : ∀ x ∈ l, x ∉ i :: st ∧ w x = -1 := by
    intro x hx
    obtain ⟨q1, q2⟩ := (hm x).1 hx
    by_contra hc2
    have hv : x ∈ i :: st ∨ w x ≠ -1 := by tauto
    have := (h.vis x q1 hv (by rw [q2]; exact i1)).2
    rw [q2] at this
    exact hc (this hiv.2)
  have nd : (l ++ i :: st).Nodup := List.nodup_append.2 ⟨hl, h.nd, fun x hx y hy q =>
    (hnew x hx).1 (q ▸ hy)⟩
  refine ⟨nd, h.k0, nd, ?_, ?_, ?_, ?_, ?_, h.rng, h.inj, h.sur⟩
  · intro x hx
    rcases List.mem_append.1 hx with hx | hx
    · exact ⟨((hm x).1 hx).1, (hnew x hx).2⟩
    · exact h.lv x hx
  · intro x hx hw hns
    have hns2 : x ∉ i :: st := fun q => hns (List.mem_append_right _ q)
    have hxl : x ∉ l := fun q => hns (List.mem_append_left _ q)
    have hxi : x ≠ i := fun q => hns2 (by simp [q])
    obtain ⟨u1, u2⟩ := h.un x hx hw hns2
    rw [Function.update_of_ne hxi]
    refine ⟨u1, fun hp => ?_⟩
    have hpi : par x ≠ i := fun q => hxl ((hm x).2 ⟨hx, q⟩)
    rw [Function.update_of_ne hpi]
    exact u2 hp
  · intro x hx
    by_cases r : x = i
    · rw [r, Function.update_self]; exact Or.inl rfl
    rw [Function.update_of_ne r]
    rcases List.mem_append.1 hx with hx | hx
    · exact Or.inr (h.un x ((hm x).1 hx).1 (hnew x hx).2 (hnew x hx).1).1
    · exact h.hd x hx
  · intro x hx hv hp
    by_cases hxl : x ∈ l
    · rw [((hm x).1 hxl).2, Function.update_self]
      exact ⟨Or.inl (by simp), fun _ => rfl⟩
    · have hv' : x ∈ i :: st ∨ w x ≠ -1 := by
        rcases hv with q | q
        · rcases List.mem_append.1 q with q | q
          · exact (hxl q).elim
          · exact Or.inl q
        · exact Or.inr q
      obtain ⟨v1, v2⟩ := h.vis x hx hv' hp
      refine ⟨v1.imp_left fun q => List.mem_append_right _ q, fun q => ?_⟩
      by_cases r : par x = i
      · rw [r, Function.update_self]
      · rw [Function.update_of_ne r]; exact v2 q
  · intro x hx hp
    rw [← h.roots x hx hp]
    constructor
    · rintro ⟨q1, q2⟩; exact ⟨q1, fun q => q2 (List.mem_append_right _ q)⟩
    · rintro ⟨q1, q2⟩
      refine ⟨q1, fun q => ?_⟩
      rcases List.mem_append.1 q with q | q
      · have := ((hm x).1 q).2
        omega
      · exact q2 q

/-- a node without children left is numbered -/
theorem PI.pop {n : Int} {par ν head0 head w : Int → Int} {st : List Int} {k i : Int}
    (h : PI n par ν head0 R (i :: st) k head w) (hc : head i = -1)
    (hnc : head0 i = -1 → ∀ x, Live n ν x → par x ≠ i) :
    PI n par ν head0 R st (k + 1) head (update w i k) := by
  have hiv := h.lv i (by simp)
  have hnd := List.nodup_cons.1 h.nd
  have k0 := h.k0
  have hwk : ∀ x, Idx n x → x ≠ i → w x ≠ k := fun x hx hxi q => by
    have := h.rng x hx (by omega)
    omega
  refine ⟨by omega, hnd.2, ?_, ?_, ?_, ?_, ?_, ?_, ?_, ?_⟩
  · intro x hx
    have : x ≠ i := fun q => hnd.1 (q ▸ hx)
    rw [Function.update_of_ne this]
    exact h.lv x (by simp [hx])
  · intro x hx hw hns
    have hxi : x ≠ i := by
      rintro rfl
      rw [Function.update_self] at hw
      omega
    rw [Function.update_of_ne hxi] at hw
    obtain ⟨u1, u2⟩ := h.un x hx hw (by simp [hxi, hns])
    refine ⟨u1, fun hp => ?_⟩
    have hpi : par x ≠ i := by
      intro q
      have := (u2 hp).2
      rw [q, hc] at this
      exact hnc this.symm x hx q
    rw [Function.update_of_ne hpi]
    exact u2 hp
  · intro x hx; exact h.hd x (by simp [hx])
  · intro x hx hv hp
    have hv' : x ∈ i :: st ∨ w x ≠ -1 := by
      by_cases r : x = i
      · exact Or.inl (by simp [r])
      · rw [Function.update_of_ne r] at hv
        exact hv.imp_left fun q => by simp [q]
    obtain ⟨v1, v2⟩ := h.vis x hx hv' hp
    by_cases r : par x = i
    · rw [r, Function.update_self]
      exact ⟨Or.inr (by omega), fun q => by omega⟩
    · rw [Function.update_of_ne r]
      refine ⟨v1.imp_left fun q => ?_, v2⟩
      rcases List.mem_cons.1 q with q | q
      · exact (r q).elim
      · exact q
  · intro x hx hp
    rw [← h.roots x hx hp]
    by_cases r : x = i
    · rw [r, Function.update_self]
      constructor
      · rintro ⟨q, -⟩; omega
      · rintro ⟨-, q⟩; exact (q (by simp)).elim
    · rw [Function.update_of_ne r, List.mem_cons]
      tauto
  · intro x hx hw
    by_cases r : x = i
    · rw [r, Function.update_self]
      exact ⟨hiv.1.2, by omega, by omega⟩
    · rw [Function.update_of_ne r] at hw ⊢
      have := h.rng x hx hw
      exact ⟨this.1, this.2.1, by omega⟩
  · intro x y hx hy hw e
    by_cases r : x = i
    · by_cases r2 : y = i
      · rw [r, r2]
      · rw [r, Function.update_self, Function.update_of_ne r2] at e
        exact (hwk y hy r2 e.symm).elim
    · rw [Function.update_of_ne r] at e hw
      by_cases r2 : y = i
      · rw [r2, Function.update_self] at e
        exact (hwk x hx r e).elim
      · rw [Function.update_of_ne r2] at e
        exact h.inj x y hx hy hw e
  · intro j j0 j1
    by_cases r : j = k
    · exact ⟨i, hiv.1.1, by rw [Function.update_self, r]⟩
    · obtain ⟨x, hx, hw⟩ := h.sur j j0 (by omega)
      refine ⟨x, hx, ?_⟩
      rw [Function.update_of_ne]
      · exact hw
      · rintro rfl
        omega

/-- a search starts -/
theorem PI.enter {n : Int} {par ν head0 head w : Int → Int} {k i : Int}
    (h : PI n par ν head0 R [] k head w) (hi : Live n ν i) (hp : par i = -1) (hR : R i) :
    PI n par ν head0 (fun x => R x ∧ x ≠ i) [i] k head w := by
  have hw := ((h.roots i hi hp).2 hR).1
  refine ⟨h.k0, by simp, ?_, ?_, ?_, ?_, ?_, h.rng, h.inj, h.sur⟩
  · intro x hx
    rw [List.mem_singleton] at hx
    rw [hx]
    exact ⟨hi, hw⟩
  · intro x hx hwx _
    exact h.un x hx hwx (by simp)
  · intro x hx
    rw [List.mem_singleton] at hx
    rw [hx]
    exact Or.inr (h.un i hi hw (by simp)).1
  · intro x hx hv hpx
    rcases hv with q | q
    · rw [List.mem_singleton] at q
      rw [q] at hpx
      exact (hpx hp).elim
    · obtain ⟨v1, v2⟩ := h.vis x hx (Or.inr q) hpx
      refine ⟨Or.inr ?_, v2⟩
      simpa using v1
  · intro x hx hpx
    rw [← h.roots x hx hpx]
    simp

/-- the number of turns still to do -/
noncomputable def turns (n : Int) (head w : Int → Int) : Nat :=
  ∑ x ∈ ix n, if w x = -1 then (if head x = -1 then 1 else 2) else 0

theorem turns_le {n : Nat} (head w : Int → Int) : turns n head w ≤ 2 * n := by
  unfold turns
  refine (Finset.sum_le_card_nsmul _ _ 2 fun x _ => ?_).trans ?_
  · split <;> [split <;> omega; omega]
  · simp [mul_comm]

theorem turns_head {n : Int} {head w : Int → Int} {i : Int} (hi : Idx n i) (hw : w i = -1)
    (hh : head i ≠ -1) : turns n (update head i (-1)) w < turns n head w := by
  unfold turns
  refine Finset.sum_lt_sum (fun x _ => ?_) ⟨i, Finset.mem_Ico.2 hi, ?_⟩
  · by_cases r : x = i
    · rw [r, Function.update_self, if_pos hw, if_pos rfl, if_pos hw, if_neg hh]; omega
    · rw [Function.update_of_ne r]
  · rw [Function.update_self, if_pos hw, if_pos rfl, if_pos hw, if_neg hh]; omega

theorem turns_w {n : Int} {head w : Int → Int} {i k : Int} (hi : Idx n i) (hw : w i = -1)
    (hk : k ≠ -1) : turns n head (update w i k) < turns n head w := by
  unfold turns
  have key : (0 : Nat) < if head i = -1 then 1 else 2 := by split <;> omega
  refine Finset.sum_lt_sum (fun x _ => ?_) ⟨i, Finset.mem_Ico.2 hi, ?_⟩
  · by_cases r : x = i
    · rw [r, Function.update_self, if_neg hk]; exact Nat.zero_le _
    · rw [Function.update_of_ne r]
  · rw [Function.update_self, if_neg hk, if_pos hw]; exact key

theorem postTree_ok {n : Nat} {ν head0 : Int → Int} {k i : Int} (hr : Rep n L s a)
    (hν : a.nv = ν) (hC : CL n a.pe ν head0 a.next) (h : PI n a.pe ν head0 R [] k a.head a.w)
    (hi : Live n ν i) (hp : a.pe i = -1) (hR : R i) :
    Ok (postTree n i k s) (fun r => ∃ head w last,
      Rep n L r.2 { a with head := head, w := w, last := last } ∧
      PI n a.pe ν head0 (fun x => R x ∧ x ≠ i) [] r.1 head w) := by
  subst hν
  have h0 : Idx n 0 := by have := hi.1; omega
  unfold postTree
  refine (hr.wLast _ h0).bind fun s hr => ?_
  refine iter_ok' (fun m q => ∃ head w last st,
      Rep n L q.2.2 { a with head := head, w := w, last := last } ∧ Seg last q.1 st (-1) ∧
      PI n a.pe a.nv head0 (fun x => R x ∧ x ≠ i) st q.2.1 head w ∧ m = turns n head w)
    (by have := turns_le (n := n) a.head a.w; omega)
    ⟨a.head, a.w, _, [i], hr, ⟨Function.update_self _ _ _, by rfl⟩, h.enter hi hp hR, rfl⟩ ?_
  rintro m ⟨hd, k, s⟩ ⟨head, w, last, st, hr, hs, hP, rfl⟩
  dsimp only at hr hs hP ⊢
  have hlen := hs.length
  cases st with
  | nil =>
    simp only [List.length_nil, Nat.cast_zero, add_zero] at hlen
    rw [if_neg (by omega), Ok_pure]
    exact ⟨head, w, last, hr, hP⟩
  | cons x st =>
    have hxv := hP.lv x (by simp)
    have hlt := length_le (n := n) hP.nd fun y hy => (hP.lv y hy).1.1
    rw [List.length_cons] at hlen hlt
    rw [if_pos (by omega)]
    refine Ok_rd (hr.rLast (i := hd) (by omega)) ?_
    dsimp only
    rw [hs.1]
    refine Ok_rd (hr.rHead hxv.1.1) ?_
    dsimp only
    obtain ⟨l, l1, l2, l3⟩ := hC x hxv.1.1
    split
    · rename_i hc
      rw [EMPTY_eq] at hc
      have hc0 : head x = head0 x := (hP.hd x (by simp)).resolve_left hc
      rw [hc0]
      obtain ⟨nd', hP'⟩ := hP.expand (next := a.next) l2 l3 hc
      have lI : ∀ y ∈ l, Idx n y := fun y hy => ((l3 y).1 hy).1.1
      have hlen2 := length_le (n := n) nd' fun y hy => (hP'.lv y hy).1.1
      have hll := length_le (n := n) l2 lI
      rw [List.length_append, List.length_cons] at hlen2
      have lne : ∀ y ∈ l, y ≠ -1 := fun y hy => by have := lI y hy; omega
      rw [Ok_bind]
      refine children_ok l1 lne (by omega) (fun t H => H = hd + t.length) (by simp) ?_ ?_
      · rintro t y t2 H e rfl
        rw [Ok_pure]
        refine ⟨?_, hr.rNext (lI y (by rw [e]; simp))⟩
        simp only [List.length_append, List.length_singleton, Nat.cast_add, Nat.cast_one]
        omega
      rintro H rfl
      rw [Ok_bind]
      refine children_ok l1 lne (by omega) (fun t r => ∃ last,
        Rep n L r.2 { a with head := head, w := w, last := last } ∧
        r.1 = hd + l.length - t.length ∧ Seg last (hd + l.length) t r.1 ∧
        Seg last hd (x :: st) (-1)) ⟨last, hr, by simp, by rfl, hs⟩ ?_ ?_
      · rintro t y t2 ⟨p, s⟩ e ⟨last, hr, hp1, hs1, hs2⟩
        dsimp only at hr hp1 hs1 hs2 ⊢
        have hy : Idx n y := lI y (by rw [e]; simp)
        have el : l.length = t.length + (t2.length + 1) := by rw [e]; simp
        refine (hr.wLast _ (i := p) (by omega)).bind fun s hr => ?_
        rw [Ok_pure]
        refine ⟨⟨_, hr, ?_, ?_, ?_⟩, hr.rNext hy⟩
        · simp only [List.length_append, List.length_singleton, Nat.cast_add, Nat.cast_one]
          omega
        · refine Seg.append (m := p) (hs1.congr fun j j1 _ => Function.update_of_ne (by omega) _ _)
            ⟨Function.update_self _ _ _, by rfl⟩
        · exact hs2.congr fun j _ j2 => Function.update_of_ne (by omega) _ _
      · rintro ⟨p, s⟩ ⟨last, hr, hp1, hs1, hs2⟩
        dsimp only at hr hp1 hs1 hs2 ⊢
        refine (hr.wHead _ hxv.1.1).bind fun s hr => ?_
        rw [Ok_pure]
        refine ⟨_, turns_head hxv.1.1 hxv.2 hc, _, _, _, _, hr, ?_, hP', rfl⟩
        have : p = hd := by omega
        rw [this] at hs1
        exact hs1.append hs2
    · rename_i hc
      rw [EMPTY_eq, not_not] at hc
      refine (hr.wW _ hxv.1.1).bind fun s hr => ?_
      rw [Ok_pure]
      have hk := hP.k0
      refine ⟨_, turns_w hxv.1.1 hxv.2 (k := k) (by omega), _, _, _, _, hr, hs.2, hP.pop hc ?_, rfl⟩
      intro he y hy hpy
      have hm := (l3 y).2 ⟨hy, hpy⟩
      rw [he] at l1
      cases l with
      | nil => simp at hm
      | cons z l =>
        have := ((l3 z).1 (by simp)).1.1
        have := l1.1
        omega

/-- the numbering of the live nodes -/
structure Ord (n : Int) (ν w : Int → Int) (k : Int) : Prop where
  k0 : 0 ≤ k
  kn : k ≤ n
  rng : ∀ x, Live n ν x → 0 ≤ w x ∧ w x < k
  dead : ∀ x, Idx n x → ν x ≤ 0 → w x = -1
  inj : ∀ x y, Live n ν x → Live n ν y → w x = w y → x = y
  sur : ∀ j, 0 ≤ j → j < k → ∃ x, Live n ν x ∧ w x = j

theorem PI.ord {n : Nat} {par ν head0 head w : Int → Int} {k : Int}
    (h : PI n par ν head0 R [] k head w) (hF : Forest n par ν rk)
    (hR : ∀ x, Idx n x → ¬ R x) : Ord n ν w k := by
  have all : ∀ x, Live n ν x → w x ≠ -1 := by
    by_contra hc
    push Not at hc
    obtain ⟨x0, hx0, hw0⟩ := hc
    obtain ⟨x, hx, hmax⟩ := Finset.exists_max_image
      ((ix n).filter fun x => 0 < ν x ∧ w x = -1) rk ⟨x0, by
        rw [Finset.mem_filter]; exact ⟨Finset.mem_Ico.2 hx0.1, hx0.2, hw0⟩⟩
    rw [Finset.mem_filter, Finset.mem_Ico] at hx
    have hxl : Live n ν x := ⟨hx.1, hx.2.1⟩
    have hnr : ∀ y, Live n ν y → w y = -1 → par y ≠ -1 := fun y hy hw hp =>
      hR y hy.1 ((h.roots y hy hp).1 ⟨hw, by simp⟩)
    have hp := hnr x hxl hx.2.2
    obtain ⟨p1, p2⟩ := hF.up x hxl.1 hp
    have hpw := ((h.un x hxl hx.2.2 (by simp)).2 hp).1
    have hlt := hF.asc x hxl.1 hp hxl.2 (hnr _ ⟨p1, p2⟩ hpw)
    have := hmax (par x) (by
      rw [Finset.mem_filter]; exact ⟨Finset.mem_Ico.2 p1, p2, hpw⟩)
    omega
  refine ⟨h.k0, ?_, fun x hx => (h.rng x hx.1 (all x hx)).2, fun x hx hν => ?_,
    fun x y hx hy e => h.inj x y hx.1 hy.1 (all x hx) e, fun j j0 j1 => ?_⟩
  · have := Finset.card_le_card_of_surjOn (s := ix n) (t := ix k) w fun j hj => by
      have hj := Finset.mem_Ico.1 (Finset.mem_coe.1 hj)
      obtain ⟨x, hx, e⟩ := h.sur j hj.1 hj.2
      exact ⟨x, Finset.mem_coe.2 (Finset.mem_Ico.2 hx), e⟩
    rw [Int.card_Ico, Int.card_Ico] at this
    have := h.k0
    omega
  · by_contra hc
    have := (h.rng x hx hc).1
    omega
  · obtain ⟨x, hx, e⟩ := h.sur j j0 j1
    exact ⟨x, ⟨hx, (h.rng x hx (by omega)).1⟩, e⟩

theorem postorder_ok {n : Nat} (hr : Rep n L s a) (h : Forest n a.pe a.nv rk)
    (hel : ∀ x, Idx n x → 0 < a.nv x → -1 ≤ a.elen x) :
    Ok (postorder n s) (fun s' => ∃ head next last w k,
      Rep n L s' { a with head := head, next := next, last := last, w := w } ∧
      Ord n a.nv w k) := by
  have hn : (0 : Int) ≤ n := by omega
  unfold postorder
  have hb := build_ok hr h
  rw [Ok_bind] at hb ⊢
  refine hb.mono fun s hb => ?_
  refine hb.bind ?_
  rintro s ⟨head, next, hr, hC⟩
  rw [Ok_bind]
  refine forI_ok (fun i s => ∃ head next, Rep n L s { a with head := head, next := next } ∧
    CL n a.pe a.nv head next) hn ⟨head, next, hr, hC⟩ ?_ ?_
  · rintro i s i0 i1 ⟨head, next, hr, hC⟩
    exact (bigLast_ok hr hC hel (i := i) ⟨i0, i1⟩).mono fun s q => q
  rintro s ⟨head, next, hr, hC⟩
  rw [Ok_bind]
  refine forI_ok (fun i s => ∃ w, Rep n L s { a with head := head, next := next, w := w } ∧
    ∀ x, Idx n x → x < i → w x = -1) hn ⟨a.w, hr, fun x hx q => by omega⟩ ?_ ?_
  · rintro i s i0 i1 ⟨w, hr, h1⟩
    refine (hr.wW _ (i := i) ⟨i0, i1⟩).mono fun s hr => ⟨_, hr, fun x hx hlt => ?_⟩
    dsimp only
    by_cases r : x = i
    · rw [r, Function.update_self, EMPTY_eq]
    · rw [Function.update_of_ne r]; exact h1 x hx (by omega)
  rintro s ⟨w, hr, hw⟩
  rw [Ok_bind]
  refine forI_ok (fun i q => ∃ hd w last,
    Rep n L q.2 { a with head := hd, next := next, last := last, w := w } ∧
    PI n a.pe a.nv head (fun x => i ≤ x) [] q.1 hd w) hn
    ⟨head, w, a.last, hr, le_refl _, List.nodup_nil, by simp, ?_, by simp, ?_, ?_, ?_, ?_, ?_⟩ ?_ ?_
  · intro x hx _ _
    exact ⟨rfl, fun hp => ⟨hw _ (h.up x hx.1 hp).1 (h.up x hx.1 hp).1.2, rfl⟩⟩
  · intro x hx hv
    rcases hv with q | q
    · simp at q
    · exact (q (hw x hx.1 hx.1.2)).elim
  · intro x hx _
    simp [hw x hx.1 hx.1.2, hx.1.1]
  · intro x hx q
    exact (q (hw x hx hx.2)).elim
  · intro x y hx _ q
    exact (q (hw x hx hx.2)).elim
  · intro j j0 j1; omega
  · rintro i ⟨k, s⟩ i0 i1 ⟨hd, w, last, hr, hP⟩
    dsimp only at hr hP ⊢
    have hI : Idx n i := ⟨i0, i1⟩
    have hskip : ¬ (Live n a.nv i ∧ a.pe i = -1) →
        PI n a.pe a.nv head (fun x => i + 1 ≤ x) [] k hd w := by
      intro hno
      refine ⟨hP.k0, hP.nd, hP.lv, hP.un, hP.hd, hP.vis, fun x hx hp => ?_, hP.rng, hP.inj, hP.sur⟩
      rw [hP.roots x hx hp]
      constructor
      · intro q
        have : x ≠ i := fun r => hno (by rw [← r]; exact ⟨hx, hp⟩)
        omega
      · intro q; omega
    refine Ok_rd (hr.rPe hI) ?_
    dsimp only
    split
    · rename_i hp
      rw [EMPTY_eq] at hp
      refine Ok_rd (hr.rNv hI) ?_
      dsimp only
      split
      · rename_i hν
        refine (postTree_ok hr rfl hC hP ⟨hI, hν⟩ hp (le_refl i)).mono ?_
        rintro r ⟨hd, w, last, hr, hP⟩
        refine ⟨hd, w, last, hr, hP.k0, hP.nd, hP.lv, hP.un, hP.hd, hP.vis, fun x hx hp => ?_,
          hP.rng, hP.inj, hP.sur⟩
        refine (hP.roots x hx hp).trans ?_
        constructor <;> intro q <;> omega
      · rename_i hν
        rw [Ok_pure]
        exact ⟨hd, w, last, hr, hskip fun q => hν q.1.2⟩
    · rename_i hp
      rw [EMPTY_eq] at hp
      rw [Ok_pure]
      exact ⟨hd, w, last, hr, hskip fun q => hp q.2⟩
  · rintro ⟨k, s⟩ ⟨hd, w, last, hr, hP⟩
    rw [Ok_pure]
    exact ⟨hd, next, last, w, k, hr, hP.ord h fun x hx q => by have := hx.2; omega⟩

end Ecos.Amd
