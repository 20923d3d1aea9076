import Verif.Lemmas.Amd20

/-!
# AMD: the numbering of the variables
-/
namespace Ecos.Amd

open Function (update)

variable {L : Int} {s : St} {a b : Ab} {rk : Int → Nat} {n k : Int} {par ν w : Int → Int}

/-- the size of the elements numbered below `j` -/
noncomputable def before (n : Int) (ν w : Int → Int) (j : Int) : Int :=
  ∑ x ∈ (ix n).filter (fun x => 0 < ν x ∧ w x < j), ν x

theorem before_mono {i j : Int} (h : i ≤ j) : before n ν w i ≤ before n ν w j := by
  unfold before
  refine Finset.sum_le_sum_of_subset_of_nonneg (fun x hx => ?_) fun x hx _ => ?_
  · rw [Finset.mem_filter] at hx ⊢
    exact ⟨hx.1, hx.2.1, by omega⟩
  · rw [Finset.mem_filter] at hx
    omega

theorem before_nonneg (j : Int) : 0 ≤ before n ν w j :=
  Finset.sum_nonneg fun x hx => by rw [Finset.mem_filter] at hx; omega

theorem Ord.step (h : Ord n ν w k) {x : Int} (hx : Live n ν x) :
    before n ν w (w x + 1) = before n ν w (w x) + ν x := by
  unfold before
  have : (ix n).filter (fun y => 0 < ν y ∧ w y < w x + 1) =
      insert x ((ix n).filter fun y => 0 < ν y ∧ w y < w x) := by
    ext y
    rw [Finset.mem_insert, Finset.mem_filter, Finset.mem_filter, Finset.mem_Ico]
    constructor
    · rintro ⟨q1, q2, q3⟩
      by_cases r : w y = w x
      · exact Or.inl (h.inj y x ⟨q1, q2⟩ hx r)
      · exact Or.inr ⟨q1, q2, by omega⟩
    · rintro (rfl | ⟨q1, q2, q3⟩)
      · exact ⟨hx.1, hx.2, by omega⟩
      · exact ⟨q1, q2, by omega⟩
  rw [this, Finset.sum_insert (by rw [Finset.mem_filter]; omega), add_comm]

theorem Ord.zero (h : Ord n ν w k) : before n ν w 0 = 0 := by
  unfold before
  refine Finset.sum_eq_zero fun x hx => ?_
  rw [Finset.mem_filter, Finset.mem_Ico] at hx
  have := (h.rng x ⟨hx.1, hx.2.1⟩).1
  omega

theorem Ord.beyond (h : Ord n ν w k) {j : Int} (hj : k ≤ j) : before n ν w j = before n ν w k := by
  unfold before
  refine Finset.sum_congr (Finset.filter_congr fun x hx => ?_) fun _ _ => rfl
  rw [Finset.mem_Ico] at hx
  constructor
  · rintro ⟨q1, _⟩; exact ⟨q1, (h.rng x ⟨hx, q1⟩).2⟩
  · rintro ⟨q1, _⟩; exact ⟨q1, by omega⟩

/-- the number of members of `e` below `i` -/
noncomputable def cnt (n : Int) (par ν : Int → Int) (e i : Int) : Int :=
  (((ix n).filter fun z => z < i ∧ ν z = 0 ∧ par z = e).card : Int)

theorem cnt_zero (e : Int) : cnt n par ν e 0 = 0 := by
  unfold cnt
  rw [Finset.filter_false_of_mem, Finset.card_empty]; · rfl
  intro z hz
  rw [Finset.mem_Ico] at hz
  omega

theorem cnt_hit {e i : Int} (hi : Idx n i) (h : ν i = 0) (hp : par i = e) :
    cnt n par ν e (i + 1) = cnt n par ν e i + 1 := by
  unfold cnt
  have : (ix n).filter (fun z => z < i + 1 ∧ ν z = 0 ∧ par z = e) =
      insert i ((ix n).filter fun z => z < i ∧ ν z = 0 ∧ par z = e) := by
    ext z
    rw [Finset.mem_insert, Finset.mem_filter, Finset.mem_filter, Finset.mem_Ico]
    constructor
    · rintro ⟨q1, q2, q3⟩
      by_cases r : z = i
      · exact Or.inl r
      · exact Or.inr ⟨q1, by omega, q3⟩
    · rintro (rfl | ⟨q1, q2, q3⟩)
      · exact ⟨hi, by omega, h, hp⟩
      · exact ⟨q1, by omega, q3⟩
  rw [this, Finset.card_insert_of_notMem (by rw [Finset.mem_filter]; omega)]
  push_cast; rfl

theorem cnt_miss {e i : Int} (h : ¬ (ν i = 0 ∧ par i = e)) :
    cnt n par ν e (i + 1) = cnt n par ν e i := by
  unfold cnt
  congr 2
  ext z
  rw [Finset.mem_filter, Finset.mem_filter]
  constructor
  · rintro ⟨q1, q2, q3⟩
    refine ⟨q1, ?_, q3⟩
    by_contra hc
    have : z = i := by omega
    exact h (this ▸ q3)
  · rintro ⟨q1, q2, q3⟩; exact ⟨q1, by omega, q3⟩

theorem cnt_mono {e i j : Int} (h : i ≤ j) : cnt n par ν e i ≤ cnt n par ν e j := by
  unfold cnt
  refine Int.ofNat_le.2 (Finset.card_le_card fun z hz => ?_)
  rw [Finset.mem_filter] at hz ⊢
  exact ⟨hz.1, by omega, hz.2.2⟩

theorem cnt_lt {e i j : Int} (hi : Idx n i) (h : ν i = 0) (hp : par i = e) (hij : i < j) :
    cnt n par ν e i < cnt n par ν e j := by
  have h1 := cnt_hit (n := n) hi h hp
  have h2 := cnt_mono (n := n) (par := par) (ν := ν) (e := e) (show i + 1 ≤ j by omega)
  omega

theorem cnt_nonneg (e i : Int) : 0 ≤ cnt n par ν e i := by
  unfold cnt
  exact Int.natCast_nonneg _

theorem cnt_all (e : Int) : cnt n par ν e n = ((ix n).filter fun i => ν i = 0 ∧ par i = e).card := by
  unfold cnt
  congr 2
  ext z
  rw [Finset.mem_filter, Finset.mem_filter, Finset.mem_Ico]
  constructor
  · rintro ⟨q1, q2, q3⟩; exact ⟨q1, q3⟩
  · rintro ⟨q1, q3⟩; exact ⟨q1, q1.2, q3⟩

/-- every variable is counted once -/
theorem Forest.total (hF : Forest n par ν rk) (h : Ord n ν w k) (hn : 0 ≤ n) :
    before n ν w k + cnt n par ν (-1) n = n := by
  have e1 : before n ν w k = ∑ x ∈ (ix n).filter (fun x => 0 < ν x),
      ((((ix n).filter fun i => ν i = 0 ∧ par i = x).card : Int) + 1) := by
    unfold before
    refine Finset.sum_congr (Finset.filter_congr fun x hx => ?_) fun x hx => ?_
    · rw [Finset.mem_Ico] at hx
      exact ⟨fun q => q.1, fun q => ⟨q, (h.rng x ⟨hx, q⟩).2⟩⟩
    · rw [Finset.mem_filter, Finset.mem_Ico] at hx
      exact (hF.cls x hx.1 hx.2).symm
  have e2 : ((ix n).filter fun i => ν i = 0 ∧ par i ≠ -1).card =
      ∑ x ∈ (ix n).filter (fun x => 0 < ν x), ((ix n).filter fun i => ν i = 0 ∧ par i = x).card := by
    rw [Finset.card_eq_sum_card_fiberwise (f := par) (t := (ix n).filter fun x => 0 < ν x)]
    · refine Finset.sum_congr rfl fun x hx => ?_
      rw [Finset.mem_filter, Finset.mem_Ico] at hx
      congr 1
      ext z
      simp only [Finset.mem_filter]
      constructor
      · rintro ⟨⟨q1, q2, _⟩, q4⟩; exact ⟨q1, q2, q4⟩
      · rintro ⟨q1, q2, q4⟩; exact ⟨⟨q1, q2, by omega⟩, q4⟩
    · intro z hz
      rw [Finset.mem_coe, Finset.mem_filter, Finset.mem_Ico] at hz
      obtain ⟨q1, q2⟩ := hF.up z hz.1 hz.2.2
      rw [Finset.mem_coe, Finset.mem_filter, Finset.mem_Ico]
      exact ⟨q1, q2⟩
  have e3 := Finset.card_filter_add_card_filter_not (s := ix n) (fun x => 0 < ν x)
  have e4 := Finset.card_filter_add_card_filter_not (s := (ix n).filter fun x => ¬ 0 < ν x)
    (fun x => par x = -1)
  rw [Finset.filter_filter, Finset.filter_filter] at e4
  have e5 : (ix n).filter (fun x => ¬ 0 < ν x ∧ par x = -1) =
      (ix n).filter fun x => ν x = 0 ∧ par x = -1 :=
    Finset.filter_congr fun x hx => by
      have := hF.nn x (Finset.mem_Ico.1 hx)
      constructor <;> rintro ⟨q1, q2⟩ <;> exact ⟨by omega, q2⟩
  have e6 : (ix n).filter (fun x => ¬ 0 < ν x ∧ ¬ par x = -1) =
      (ix n).filter fun x => ν x = 0 ∧ par x ≠ -1 :=
    Finset.filter_congr fun x hx => by
      have := hF.nn x (Finset.mem_Ico.1 hx)
      constructor <;> rintro ⟨q1, q2⟩ <;> exact ⟨by omega, q2⟩
  rw [e5, e6] at e4
  rw [Int.card_Ico] at e3
  rw [e1, Finset.sum_add_distrib, cnt_all, ← Nat.cast_sum, ← e2]
  simp only [Finset.sum_const, nsmul_eq_mul, mul_one]
  omega

/-- the first position of the class of `e` -/
noncomputable def base (n : Int) (ν w : Int → Int) (k e : Int) : Int :=
  if e = -1 then before n ν w k else before n ν w (w e)

/-- the position of `x` -/
noncomputable def pos (n : Int) (par ν w : Int → Int) (k x : Int) : Int :=
  if 0 < ν x then before n ν w (w x) + (ν x - 1) else base n ν w k (par x) + cnt n par ν (par x) x

theorem Forest.rest (hF : Forest n par ν rk) {x : Int} (hx : Live n ν x) :
    cnt n par ν x n = ν x - 1 := by
  have := hF.cls x hx.1 hx.2
  rw [cnt_all]
  omega

/-- where the class of `x` is, and where `x` is in it -/
theorem pos_class (hF : Forest n par ν rk) (h : Ord n ν w k) (hn : 0 ≤ n) {x : Int} (hx : Idx n x) :
    ∃ e o sz, pos n par ν w k x = base n ν w k e + o ∧ 0 ≤ o ∧ o < sz ∧
      (e = -1 ∧ ν x = 0 ∧ par x = -1 ∧ o = cnt n par ν (-1) x ∧ sz = cnt n par ν (-1) n ∨
       Live n ν e ∧ sz = ν e ∧ (x = e ∧ o = ν e - 1 ∨
        ν x = 0 ∧ par x = e ∧ o = cnt n par ν e x ∧ o < ν e - 1)) := by
  have nn := hF.nn x hx
  unfold pos
  by_cases hl : 0 < ν x
  · rw [if_pos hl]
    refine ⟨x, ν x - 1, ν x, ?_, by omega, by omega, Or.inr ⟨⟨hx, hl⟩, rfl, Or.inl ⟨rfl, rfl⟩⟩⟩
    unfold base
    rw [if_neg (by omega)]
  · rw [if_neg hl]
    have h0 : ν x = 0 := by omega
    have hlt := cnt_lt (n := n) (par := par) hx h0 rfl hx.2
    have hge := cnt_nonneg (n := n) (par := par) (ν := ν) (par x) x
    by_cases hp : par x = -1
    · rw [hp] at hlt hge ⊢
      exact ⟨-1, _, cnt n par ν (-1) n, rfl, hge, hlt, Or.inl ⟨rfl, h0, rfl, rfl, rfl⟩⟩
    · have hu : Live n ν (par x) := hF.up x hx hp
      rw [hF.rest hu] at hlt
      exact ⟨par x, _, ν (par x), rfl, hge, by omega, Or.inr ⟨hu, rfl, Or.inr ⟨h0, rfl, rfl, hlt⟩⟩⟩

theorem base_live {e : Int} (he : Live n ν e) : base n ν w k e = before n ν w (w e) := by
  unfold base
  rw [if_neg (by have := he.1; omega)]

/-- the class of a live node ends before the ones after it -/
theorem Ord.disj (h : Ord n ν w k) {e e' : Int} (he : Live n ν e) (he' : Live n ν e') (hne : e ≠ e') :
    before n ν w (w e) + ν e ≤ before n ν w (w e') ∨ before n ν w (w e') + ν e' ≤ before n ν w (w e) := by
  have h1 := h.step he
  have h2 := h.step he'
  have hw : w e ≠ w e' := fun q => hne (h.inj e e' he he' q)
  rcases Int.lt_or_gt_of_ne hw with q | q
  · have := before_mono (n := n) (ν := ν) (w := w) (show w e + 1 ≤ w e' by omega)
    left; omega
  · have := before_mono (n := n) (ν := ν) (w := w) (show w e' + 1 ≤ w e by omega)
    right; omega

theorem Ord.below (h : Ord n ν w k) {e : Int} (he : Live n ν e) :
    before n ν w (w e) + ν e ≤ before n ν w k := by
  have h1 := h.step he
  have := before_mono (n := n) (ν := ν) (w := w) (show w e + 1 ≤ k by have := h.rng e he; omega)
  omega

theorem pos_lt (hF : Forest n par ν rk) (h : Ord n ν w k) (hn : 0 ≤ n) {x : Int} (hx : Idx n x) :
    Idx n (pos n par ν w k x) := by
  obtain ⟨e, o, sz, e1, o0, o1, hc⟩ := pos_class hF h hn hx
  have ht := hF.total h hn
  have hd := cnt_nonneg (n := n) (par := par) (ν := ν) (-1) n
  have hb := before_nonneg (n := n) (ν := ν) (w := w)
  rw [e1]
  rcases hc with ⟨rfl, -, -, -, rfl⟩ | ⟨he, rfl, -⟩
  · have := hb k
    unfold base
    rw [if_pos rfl]
    exact ⟨by omega, by omega⟩
  · rw [base_live he]
    have := hb (w e)
    have := h.below he
    exact ⟨by omega, by omega⟩

theorem pos_inj (hF : Forest n par ν rk) (h : Ord n ν w k) (hn : 0 ≤ n) {x y : Int} (hx : Idx n x)
    (hy : Idx n y) (e : pos n par ν w k x = pos n par ν w k y) : x = y := by
  obtain ⟨e1, o1, z1, q1, a1, b1, c1⟩ := pos_class hF h hn hx
  obtain ⟨e2, o2, z2, q2, a2, b2, c2⟩ := pos_class hF h hn hy
  rw [q1, q2] at e
  have mem : ∀ p, ν x = 0 → ν y = 0 → par x = p → par y = p → cnt n par ν p x = cnt n par ν p y →
      x = y := by
    intro p x0 y0 px py hq
    rcases lt_trichotomy x y with r | r | r
    · have := cnt_lt (n := n) hx x0 px r; omega
    · exact r
    · have := cnt_lt (n := n) hy y0 py r; omega
  have bd : base n ν w k (-1) = before n ν w k := by unfold base; rw [if_pos rfl]
  rcases c1 with ⟨rfl, x0, px, d1, s1⟩ | ⟨l1, s1, d1⟩ <;>
    rcases c2 with ⟨rfl, y0, py, d2, s2⟩ | ⟨l2, s2, d2⟩
  · exact mem (-1) x0 y0 px py (by omega)
  · rw [bd, base_live l2] at e
    have := h.below l2
    omega
  · rw [bd, base_live l1] at e
    have := h.below l1
    omega
  · rw [base_live l1, base_live l2] at e
    by_cases r : e1 = e2
    · subst r
      rcases d1 with ⟨rfl, d1⟩ | ⟨x0, px, d1, d1'⟩ <;> rcases d2 with ⟨d2, d3⟩ | ⟨y0, py, d2, d2'⟩
      · exact d2.symm
      · omega
      · omega
      · exact mem e1 x0 y0 px py (by omega)
    · rcases h.disj l1 l2 r with q | q <;> omega

theorem numberElems_ok {n : Nat} (hr : Rep n L s a) (h : Ord n a.nv a.w k)
    (hh : ∀ x, Live n a.nv x → a.head (a.w x) = x) (hh2 : ∀ j, Idx n j → k ≤ j → a.head j = -1) :
    Ok (numberElems n s) (fun q => ∃ next, Rep n L q.2 { a with next := next } ∧
      q.1 = before n a.nv a.w k ∧ ∀ x, Live n a.nv x → next x = before n a.nv a.w (a.w x)) := by
  unfold numberElems
  rw [Ok_bind]
  refine loopE_ok (fun j q => ∃ next, Rep n L q.2 { a with next := next } ∧
    q.1 = before n a.nv a.w j ∧ ∀ x, Live n a.nv x → a.w x < j → next x = before n a.nv a.w (a.w x))
    (Nat.zero_le n) ⟨a.next, hr, h.zero.symm, fun x hx q => by
      have := h.rng x hx
      omega⟩ ?_ ?_
  · rintro j ⟨t, s⟩ - jn ⟨next, hr, ht, h1⟩
    dsimp only at hr ht h1 ⊢
    have hj : Idx n (j : Int) := ⟨by omega, by omega⟩
    refine Ok_rd (hr.rHead hj) ?_
    dsimp only
    by_cases hk : k ≤ j
    · rw [if_pos (by rw [EMPTY_eq]; exact hh2 _ hj hk), Ok_pure]
      simp only [Ok_pure]
      refine ⟨next, hr, ?_, fun x hx => h1 x hx ?_⟩
      · rw [ht, h.beyond hk]
      · have := h.rng x hx
        omega
    · obtain ⟨x, hx, hw⟩ := h.sur j (by omega) (by omega)
      have e : a.head j = x := by rw [← hw]; exact hh x hx
      rw [e, EMPTY_eq, if_neg (by have := hx.1; omega)]
      refine (hr.wNext _ hx.1).bind fun s hr => ?_
      refine Ok_rd (hr.rNv hx.1) ?_
      rw [Ok_pure]
      refine ⟨_, hr, ?_, fun y hy hlt => ?_⟩
      · dsimp only
        rw [ht, Nat.cast_add, Nat.cast_one, ← hw, h.step hx]
      · dsimp only
        by_cases r : y = x
        · rw [r, Function.update_self, ht, hw]
        · rw [Function.update_of_ne r]
          refine h1 y hy ?_
          have : a.w y ≠ a.w x := fun q => r (h.inj y x hy hx q)
          push_cast at hlt
          omega
  · rintro ⟨t, s⟩ ⟨next, hr, ht, h1⟩
    simp only [Ok_pure]
    have := h.kn
    dsimp only at ht h1
    refine ⟨next, hr, ?_, fun x hx => h1 x hx ?_⟩
    · rw [ht, h.beyond this]
    · have := h.rng x hx
      omega

theorem numberRest_ok {n : Nat} {t : Int} (hr : Rep n L s a) (hF : Forest n a.pe a.nv rk)
    (h : Ord n a.nv a.w k) (ht : t = before n a.nv a.w k)
    (hx : ∀ x, Live n a.nv x → a.next x = before n a.nv a.w (a.w x)) :
    Ok (numberRest n (t, s)) (fun q => ∃ next, Rep n L q.2 { a with next := next } ∧
      ∀ x, Idx n x → next x = pos n a.pe a.nv a.w k x) := by
  have hn : (0 : Int) ≤ n := by omega
  unfold numberRest
  refine forI_ok (fun i q => ∃ next, Rep n L q.2 { a with next := next } ∧
    q.1 = before n a.nv a.w k + cnt n a.pe a.nv (-1) i ∧
    (∀ x, Live n a.nv x → next x = before n a.nv a.w (a.w x) + cnt n a.pe a.nv x i) ∧
    ∀ x, Idx n x → a.nv x = 0 → x < i →
      next x = base n a.nv a.w k (a.pe x) + cnt n a.pe a.nv (a.pe x) x) hn
    ⟨a.next, hr, by rw [cnt_zero, ht, add_zero], fun x q => by rw [cnt_zero, hx x q, add_zero],
      fun x q _ r => by omega⟩ ?_ ?_
  · rintro i ⟨t, s⟩ i0 i1 ⟨next, hr, ht, h1, h2⟩
    dsimp only at hr ht h1 h2 ⊢
    have hI : Idx n i := ⟨i0, i1⟩
    refine Ok_rd (hr.rNv hI) ?_
    dsimp only
    split
    · rename_i hν
      refine Ok_rd (hr.rPe hI) ?_
      dsimp only
      split
      · rename_i hp
        rw [EMPTY_eq] at hp
        have hu : Live n a.nv (a.pe i) := hF.up i hI hp
        have hne : a.pe i ≠ i := fun q => by have := hu.2; rw [q] at this; omega
        refine Ok_rd (hr.rNext hu.1) ?_
        refine (hr.wNext _ hI).bind fun s hr => ?_
        refine Ok_rd (hr.rNext hu.1) ?_
        refine (hr.wNext _ hu.1).bind fun s hr => ?_
        rw [Ok_pure]
        refine ⟨_, hr, ?_, fun x hx => ?_, fun x hx hx0 hlt => ?_⟩
        · dsimp only
          rw [ht, cnt_miss (by tauto)]
        · dsimp only
          by_cases r : x = a.pe i
          · rw [r, Function.update_self, Function.update_of_ne hne, h1 _ hu, cnt_hit hI hν rfl, add_assoc]
          · have hxi : x ≠ i := fun q => by have := hx.2; rw [q] at this; omega
            rw [Function.update_of_ne r, Function.update_of_ne hxi, h1 x hx,
              cnt_miss fun q => r q.2.symm]
        · dsimp only
          have hxp : x ≠ a.pe i := fun q => by have := hu.2; rw [← q] at this; omega
          rw [Function.update_of_ne hxp]
          by_cases r : x = i
          · rw [r, Function.update_self, h1 _ hu, base_live hu]
          · rw [Function.update_of_ne r]; exact h2 x hx hx0 (by omega)
      · rename_i hp
        rw [EMPTY_eq, not_not] at hp
        refine (hr.wNext _ hI).bind fun s hr => ?_
        rw [Ok_pure]
        refine ⟨_, hr, ?_, fun x hx => ?_, fun x hx hx0 hlt => ?_⟩
        · dsimp only
          rw [ht, cnt_hit hI hν hp, add_assoc]
        · dsimp only
          have hxi : x ≠ i := fun q => by have := hx.2; rw [q] at this; omega
          rw [Function.update_of_ne hxi, h1 x hx, cnt_miss]
          rintro ⟨-, q⟩
          have := hx.1
          omega
        · dsimp only
          by_cases r : x = i
          · rw [r, Function.update_self, ht, hp]
            unfold base
            rw [if_pos rfl]
          · rw [Function.update_of_ne r]; exact h2 x hx hx0 (by omega)
    · rename_i hν
      rw [Ok_pure]
      refine ⟨next, hr, ?_, fun x hx => ?_, fun x hx hx0 hlt => ?_⟩
      · rw [ht, cnt_miss fun q => hν q.1]
      · rw [h1 x hx, cnt_miss fun q => hν q.1]
      · refine h2 x hx hx0 ?_
        have : x ≠ i := fun q => hν (q ▸ hx0)
        omega
  · rintro ⟨t, s⟩ ⟨next, hr, ht, h1, h2⟩
    refine ⟨next, hr, fun x hx => ?_⟩
    have nn := hF.nn x hx
    unfold pos
    by_cases hl : 0 < a.nv x
    · rw [if_pos hl, h1 x ⟨hx, hl⟩, hF.rest ⟨hx, hl⟩]
    · rw [if_neg hl]
      exact h2 x hx (by omega) hx.2

theorem ordering_ok {n : Nat} (hr : Rep n L s a) (h : Fin n a) :
    Ok (ordering n s) (fun s' => ∃ b, Rep n L s' b ∧ PermI n b.last) := by
  have hn : (0 : Int) ≤ n := by omega
  unfold ordering
  have hf := flatten_ok hr h
  rw [Ok_bind] at hf ⊢
  refine hf.mono fun s hf => ?_
  rw [Ok_bind] at hf ⊢
  refine hf.mono fun s hf => ?_
  refine hf.bind ?_
  rintro s ⟨pe, elen, rk, hr, hF, hel⟩
  refine (postorder_ok hr hF hel).bind ?_
  rintro s ⟨head, next, last, w, k, hr, hO⟩
  dsimp only at hr hO
  rw [Ok_bind]
  refine forI_ok (fun i s => ∃ head next,
    Rep n L s { a with pe := pe, elen := elen, head := head, next := next, last := last, w := w } ∧
    ∀ x, Idx n x → x < i → head x = -1) hn ⟨head, next, hr, fun x hx q => by omega⟩ ?_ ?_
  · rintro i s i0 i1 ⟨head, next, hr, h1⟩
    have hI : Idx n i := ⟨i0, i1⟩
    refine (hr.wHead _ hI).bind fun s hr => ?_
    refine (hr.wNext _ hI).mono fun s hr => ⟨_, _, hr, fun x hx hlt => ?_⟩
    dsimp only
    by_cases r : x = i
    · rw [r, Function.update_self, EMPTY_eq]
    · rw [Function.update_of_ne r]; exact h1 x hx (by omega)
  rintro s ⟨head, next, hr, h1⟩
  rw [Ok_bind]
  refine forI_ok (fun i s => ∃ head,
    Rep n L s { a with pe := pe, elen := elen, head := head, next := next, last := last, w := w } ∧
    (∀ x, Live n a.nv x → x < i → head (w x) = x) ∧ ∀ j, Idx n j → k ≤ j → head j = -1) hn
    ⟨head, hr, fun x hx q => by have := hx.1; omega, fun j hj _ => h1 j hj hj.2⟩ ?_ ?_
  · rintro i s i0 i1 ⟨head, hr, h1, h2⟩
    have hI : Idx n i := ⟨i0, i1⟩
    refine Ok_rd (hr.rW hI) ?_
    dsimp only
    by_cases hl : 0 < a.nv i
    · have hrg := hO.rng i ⟨hI, hl⟩
      have hkn := hO.kn
      rw [EMPTY_eq, if_pos (by omega)]
      refine (hr.wHead _ (i := w i) ⟨by omega, by omega⟩).mono fun s hr =>
        ⟨_, hr, fun x hx hlt => ?_, fun j hj hk => ?_⟩
      · dsimp only
        by_cases r : x = i
        · rw [r, Function.update_self]
        · rw [Function.update_of_ne fun q => r (hO.inj x i hx ⟨hI, hl⟩ q)]
          exact h1 x hx (by omega)
      · dsimp only
        rw [Function.update_of_ne (by omega)]
        exact h2 j hj hk
    · rw [EMPTY_eq, if_neg (not_not.2 (hO.dead i hI (by omega))), Ok_pure]
      refine ⟨head, hr, fun x hx hlt => h1 x hx ?_, h2⟩
      have : x ≠ i := fun q => hl (q ▸ hx.2)
      omega
  rintro s ⟨head, hr, h1, h2⟩
  refine (numberElems_ok hr hO (fun x hx => h1 x hx hx.1.2) h2).bind ?_
  rintro ⟨t, s⟩ ⟨next, hr, ht, hx⟩
  dsimp only at hr ht hx
  refine (numberRest_ok hr hF hO ht hx).bind ?_
  rintro ⟨t', s⟩ ⟨next, hr, hp⟩
  dsimp only at hr hp ⊢
  refine forI_ok (fun i s => ∃ last,
    Rep n L s { a with pe := pe, elen := elen, head := head, next := next, last := last, w := w } ∧
    ∀ x, Idx n x → x < i → last (pos n pe a.nv w k x) = x) hn
    ⟨last, hr, fun x hx q => by omega⟩ ?_ ?_
  · rintro i s i0 i1 ⟨last, hr, h1⟩
    have hI : Idx n i := ⟨i0, i1⟩
    refine Ok_rd (hr.rNext hI) ?_
    dsimp only
    rw [hp i hI]
    refine (hr.wLast _ (pos_lt hF hO hn hI)).mono fun s hr => ⟨_, hr, fun x hx hlt => ?_⟩
    dsimp only
    by_cases r : x = i
    · rw [r, Function.update_self]
    · rw [Function.update_of_ne fun q => r (pos_inj hF hO hn hx hI q)]
      exact h1 x hx (by omega)
  · rintro s ⟨last, hr, h1⟩
    refine ⟨_, hr, ?_⟩
    have sur : ∀ j, Idx n j → ∃ x, Idx n x ∧ pos n pe a.nv w k x = j := by
      intro j hj
      have := Finset.surj_on_of_inj_on_of_card_le (s := ix n) (t := ix n)
        (fun x _ => pos n pe a.nv w k x)
        (fun x hx => Finset.mem_Ico.2 (pos_lt hF hO hn (Finset.mem_Ico.1 hx)))
        (fun x y hx hy e => pos_inj hF hO hn (Finset.mem_Ico.1 hx) (Finset.mem_Ico.1 hy) e)
        (le_refl _) j (Finset.mem_Ico.2 hj)
      obtain ⟨x, hx, e⟩ := this
      exact ⟨x, Finset.mem_Ico.1 hx, e.symm⟩
    constructor
    · intro j hj
      obtain ⟨x, hx, rfl⟩ := sur j hj
      dsimp only
      rw [h1 x hx hx.2]; exact hx
    · intro i j hi hj e
      obtain ⟨x, hx, rfl⟩ := sur i hi
      obtain ⟨y, hy, rfl⟩ := sur j hj
      dsimp only at e
      rw [h1 x hx hx.2, h1 y hy hy.2] at e
      rw [e]

/-- `AMD_2` returns a permutation -/
theorem amd2_ok {n : Nat} {pfree dense0 imax : Int} (hg : Graph n L a pfree) (h : Ini n L s a) :
    Ok (amd2 n L pfree dense0 imax s) (fun s' => ∃ b, Rep n L s' b ∧ PermI n b.last) := by
  unfold amd2
  refine (eliminate_ok hg h).bind ?_
  rintro s ⟨b, hr, hF⟩
  exact ordering_ok hr hF

end Ecos.Amd
