import Verif.Lemmas.Amd22

/-!
# AMD: the graph of A + A'
-/
namespace Ecos.Amd

open Function (update)

variable {n : Int} {jc ir d : Int → Int} {Ap Ai : Buf Int} {D D' : Int → Int → Prop}

open Classical in
/-- the number of neighbours of `x` -/
noncomputable def dg (n : Int) (D : Int → Int → Prop) (x : Int) : Int :=
  (((ix n).filter fun y => D x y).card : Int)

theorem dg_nonneg (x : Int) : 0 ≤ dg n D x := Int.natCast_nonneg _

theorem dg_congr {x : Int} (h : ∀ y, D' x y ↔ D x y) : dg n D' x = dg n D x := by
  unfold dg
  congr 2
  ext y
  simp [h]

theorem dg_hit {i j : Int} (hj : Idx n j) (hD : ¬ D i j)
    (h : ∀ x y, D' x y ↔ D x y ∨ x = i ∧ y = j) : dg n D' i = dg n D i + 1 := by
  classical
  unfold dg
  have : (ix n).filter (fun y => D' i y) = insert j ((ix n).filter fun y => D i y) := by
    ext y
    rw [Finset.mem_insert, Finset.mem_filter, Finset.mem_filter, Finset.mem_Ico, h]
    constructor
    · rintro ⟨q1, q2 | ⟨-, q2⟩⟩
      · exact Or.inr ⟨q1, q2⟩
      · exact Or.inl q2
    · rintro (rfl | ⟨q1, q2⟩)
      · exact ⟨hj, Or.inr ⟨rfl, rfl⟩⟩
      · exact ⟨q1, Or.inl q2⟩
  rw [this, Finset.card_insert_of_notMem (by rw [Finset.mem_filter]; tauto)]
  push_cast; rfl

theorem dg_miss {i j x : Int} (hx : x ≠ i) (h : ∀ x y, D' x y ↔ D x y ∨ x = i ∧ y = j) :
    dg n D' x = dg n D x := dg_congr fun y => by rw [h]; tauto

theorem dg_lt {i j : Int} (hj : Idx n j) (hD : ¬ D i j) (h : ∀ y, D i y → D' i y) (h' : D' i j) :
    dg n D i < dg n D' i := by
  classical
  unfold dg
  refine Int.ofNat_lt.2 (Finset.card_lt_card ⟨fun y hy => ?_, fun hs => ?_⟩)
  · rw [Finset.mem_filter] at hy ⊢
    exact ⟨hy.1, h y hy.2⟩
  · have := hs (Finset.mem_filter.2 ⟨Finset.mem_Ico.2 hj, h'⟩)
    rw [Finset.mem_filter] at this
    exact hD this.2

theorem ico_succ {k : Int} (hk : 0 ≤ k) : Finset.Ico 0 (k + 1) = insert k (Finset.Ico 0 k) := by
  ext x
  rw [Finset.mem_insert, Finset.mem_Ico, Finset.mem_Ico]
  omega

/-! ### the counts -/

/-- one half of `countEntry` -/
def countHalf (i : Int) (len : Buf Int) : M (Buf Int) := do
  let a ← rdI len i
  wrI len i (a + 1)

theorem countEntry_eq (i j : Int) (len : Buf Int) :
    countEntry i j len = countHalf i len >>= fun len => countHalf j len := by
  simp only [countEntry, countHalf, bind_assoc]

theorem countHalf_ok {i j : Int} {len : Buf Int} (hi : Idx n i) (hj : Idx n j)
    (h : HZ len n n (dg n D)) (hD : ¬ D i j) (hD' : ∀ x y, D' x y ↔ D x y ∨ x = i ∧ y = j) :
    Ok (countHalf i len) (fun len => HZ len n n (dg n D')) := by
  unfold countHalf
  refine Ok_rd (h.rd hi.1 hi.2 hi.2) ?_
  refine (h.wr' _ hi.1 hi.2 hi.2).mono fun b hb => hb.congr fun x _ _ _ => ?_
  by_cases e : x = i
  · rw [e, Function.update_self, dg_hit hj hD hD']
  · rw [Function.update_of_ne e, dg_miss e hD']

theorem countEntry_emit (hM : Mat n jc ir) :
    Emit n jc ir countEntry (fun D len => HZ len n n (dg n D)) where
  ext D D' s h hI := hI.congr fun x _ _ _ => (dg_congr fun y => h x y).symm
  step D D' i j s hA hD _ hsym hD' hI := by
    obtain ⟨hi, hj⟩ := hA.idx hM
    have hne : i ≠ j := hA.1
    rw [countEntry_eq]
    refine (countHalf_ok (D' := fun x y => D x y ∨ x = i ∧ y = j) hi hj hI hD fun x y => Iff.rfl).bind
      fun s hI => ?_
    refine countHalf_ok hj hi hI ?_ fun x y => ?_
    · rintro (q | ⟨q, -⟩)
      · exact hD (hsym _ _ q)
      · exact hne q.symm
    · rw [hD']; tauto

theorem aat_ok {len tp : Buf Int} (hM : Mat n jc ir) (hn : 0 ≤ n)
    (hAp : ∀ c, 0 ≤ c → c ≤ n → rdI Ap c = .ok (jc c))
    (hAi : ∀ p, 0 ≤ p → p < jc n → rdI Ai p = .ok (ir p)) (hl : len.size = n.toNat)
    (ht : tp.size = n.toNat) :
    Ok (aat n Ap Ai len tp) (fun r => HZ r.1 n n (dg n (Adj n jc ir)) ∧ r.2.1.size = n.toNat ∧
      r.2.2 = ∑ x ∈ ix n, dg n (Adj n jc ir) x) := by
  unfold aat
  rw [Ok_bind]
  have h0 : ∀ x, dg n (fun _ _ => False) x = 0 := fun x => by
    unfold dg; simp
  refine forI_ok (fun i len => HZ len n i (dg n fun _ _ => False)) hn (HZ.of_size hl _)
    (fun i s i0 i1 h => HZ.next h i0 i1 (h0 i)) ?_
  intro len hl
  refine Ok_rd (hAp n hn (le_refl _)) ?_
  refine (walk_ok hM hn hAp hAi (countEntry_emit hM) ht hl).bind ?_
  rintro ⟨tp, len⟩ ⟨h1, h2⟩
  dsimp only at h1 h2 ⊢
  rw [Ok_bind]
  refine forI_ok (fun k t => t = ∑ x ∈ ix k, dg n (Adj n jc ir) x) hn (by simp [ix]) ?_ ?_
  · rintro k t k0 k1 rfl
    refine Ok_rd (h2.rd k0 k1 k1) ?_
    rw [Ok_pure]
    unfold ix
    rw [ico_succ k0, Finset.sum_insert (by simp), add_comm]
  · rintro t rfl
    rw [Ok_pure]
    exact ⟨h2, h1, rfl⟩

/-! ### the lists -/

/-- where the list of `x` begins -/
noncomputable def ps (d : Int → Int) (x : Int) : Int := ∑ y ∈ ix x, d y

theorem ps_succ {x : Int} (hx : 0 ≤ x) : ps d (x + 1) = ps d x + d x := by
  unfold ps ix
  rw [ico_succ hx, Finset.sum_insert (by simp), add_comm]

theorem ps_zero : ps d 0 = 0 := by simp [ps, ix]

theorem ps_mono (hd : ∀ x, 0 ≤ d x) {x y : Int} (h : x ≤ y) : ps d x ≤ ps d y := by
  unfold ps ix
  exact Finset.sum_le_sum_of_subset_of_nonneg (Finset.Ico_subset_Ico_right h) fun z _ _ => hd z

theorem ps_find (hd : ∀ x, 0 ≤ d x) {p : Int} (h0 : 0 ≤ p) : ∀ (m : Nat), p < ps d m →
    ∃ x, Idx m x ∧ ps d x ≤ p ∧ p < ps d x + d x
  | 0, h => by
    rw [Nat.cast_zero, ps_zero] at h; omega
  | m + 1, h => by
    by_cases q : p < ps d m
    · obtain ⟨x, hx, r⟩ := ps_find hd h0 m q
      exact ⟨x, ⟨hx.1, by have := hx.2; push_cast; omega⟩, r⟩
    · refine ⟨m, ⟨by omega, by push_cast; omega⟩, by omega, ?_⟩
      rwa [Nat.cast_add, Nat.cast_one, ps_succ (by omega)] at h

theorem pointers_ok {len pe sp : Buf Int} (hn : 0 ≤ n) (hl : HZ len n n d) (hp : pe.size = n.toNat)
    (hs : sp.size = n.toNat) :
    Ok (pointers n len pe sp) (fun q => HZ q.1 n n (ps d) ∧ HZ q.2.1 n n (ps d) ∧ q.2.2 = ps d n) := by
  unfold pointers
  refine forI_ok (fun j q => HZ q.1 n j (ps d) ∧ HZ q.2.1 n j (ps d) ∧ q.2.2 = ps d j) hn
    ⟨HZ.of_size hp _, HZ.of_size hs _, ps_zero.symm⟩ ?_ fun _ q => q
  rintro j ⟨pe, sp, f⟩ j0 j1 ⟨h1, h2, h3⟩
  dsimp only at h1 h2 h3 ⊢
  refine (HZ.next h1 j0 j1 h3.symm).bind fun pe h1 => ?_
  refine (HZ.next h2 j0 j1 h3.symm).bind fun sp h2 => ?_
  refine Ok_rd (hl.rd j0 j1 j1) ?_
  rw [Ok_pure]
  exact ⟨h1, h2, by rw [ps_succ j0, h3]⟩

/-- the lists that are partly filled with the values `g`: `D` is what is in them -/
def PartG (n L : Int) (d : Int → Int) (D : Int → Int → Prop) (q : Buf Int × Buf Int) (g : Int → Int) :
    Prop :=
  HZ q.1 n n (fun x => ps d x + dg n D x) ∧ q.2.size = L.toNat ∧
    (∀ x, Idx n x → ∀ k, 0 ≤ k → k < dg n D x →
      q.2[(ps d x + k).toNat]? = some (some (g (ps d x + k)))) ∧
    (∀ x, Idx n x → ∀ y, InB g (ps d x) (dg n D x) y ↔ D x y) ∧
    ∀ x, Idx n x → Inj g (ps d x) (dg n D x)

/-- the lists that are partly filled -/
def Part (n L : Int) (d : Int → Int) (D : Int → Int → Prop) (q : Buf Int × Buf Int) : Prop :=
  ∃ g, PartG n L d D q g

theorem Part.congr {L : Int} {q : Buf Int × Buf Int} (h : Part n L d D q) (e : ∀ x y, D' x y ↔ D x y) :
    Part n L d D' q := by
  have : D' = D := by funext x y; exact propext (e x y)
  rw [this]; exact h

/-- one half of `storeEntry` -/
def storeHalf (i j : Int) (q : Buf Int × Buf Int) : M (Buf Int × Buf Int) := do
  let a ← rdI q.1 i
  let iw ← wrI q.2 a j
  let sp ← wrI q.1 i (a + 1)
  pure (sp, iw)

theorem storeEntry_eq (i j : Int) (q : Buf Int × Buf Int) :
    storeEntry i j q = storeHalf i j q >>= fun q => storeHalf j i q := by
  simp only [storeEntry, storeHalf, bind_assoc, pure_bind]

theorem storeHalf_ok {L i j : Int} {q : Buf Int × Buf Int} {g : Int → Int} (h : PartG n L d D q g) (hd : ∀ x, 0 ≤ d x)
    (hL : ps d n ≤ L) (hi : Idx n i) (hj : Idx n j) (hD : ¬ D i j)
    (hD' : ∀ x y, D' x y ↔ D x y ∨ x = i ∧ y = j) (hle : ∀ x, dg n D' x ≤ d x) :
    Ok (storeHalf i j q) (fun q => PartG n L d D' q (update g (ps d i + dg n D i) j)) := by
  obtain ⟨h1, h2, h3, h4, h5⟩ := h
  have hit := dg_hit hj hD hD'
  have miss : ∀ x, x ≠ i → dg n D' x = dg n D x := fun x hx => dg_miss hx hD'
  have nn := dg_nonneg (n := n) (D := D)
  have p0 : ∀ x, Idx n x → 0 ≤ ps d x := fun x hx => by
    have := ps_mono hd hx.1
    rwa [ps_zero] at this
  have hi0 := p0 i hi
  have hii := hle i
  have hin := nn i
  have hi2 := ps_succ (d := d) hi.1
  have hi3 := ps_mono hd (show i + 1 ≤ n by have := hi.2; omega)
  unfold storeHalf
  refine Ok_rd (h1.rd hi.1 hi.2 hi.2) ?_
  have hsz : (ps d i + dg n D i).toNat < q.2.size := by rw [h2]; omega
  have hw : wrI q.2 (ps d i + dg n D i) j =
      .ok (q.2.setIfInBounds (ps d i + dg n D i).toNat (some j)) := by
    simp only [wrI, not_lt.2 (show 0 ≤ ps d i + dg n D i by omega), if_false]
    rw [wr_eq hsz]
  refine Ok_rd hw ?_
  refine (h1.wr' _ hi.1 hi.2 hi.2).bind fun sp h1 => ?_
  rw [Ok_pure]
  -- the cell that is written belongs to no other list
  have away : ∀ x, Idx n x → ∀ k, 0 ≤ k → k < dg n D x → ps d x + k ≠ ps d i + dg n D i := by
    intro x hx k k0 k1 e
    have hlx := hle x
    rcases lt_trichotomy x i with r | r | r
    · have := ps_succ (d := d) hx.1
      have := ps_mono hd (show x + 1 ≤ i by omega)
      rw [miss x (by omega)] at hlx
      omega
    · rw [r] at e k1; omega
    · have := ps_mono hd (show i + 1 ≤ x by omega)
      omega
  refine ⟨h1.congr fun x _ _ _ => ?_, by simp [h2], ?_, ?_, ?_⟩
  · by_cases e : x = i
    · rw [e, Function.update_self, hit, add_assoc]
    · rw [Function.update_of_ne e, miss x e]
  · intro x hx k k0 k1
    dsimp only
    have px := p0 x hx
    by_cases e : x = i ∧ k = dg n D i
    · obtain ⟨rfl, rfl⟩ := e
      rw [Function.update_self]
      simp [hsz]
    · have k1' : k < dg n D x := by
        by_cases r : x = i
        · subst r
          have : k ≠ dg n D x := fun q => e ⟨rfl, q⟩
          omega
        · rwa [miss x r] at k1
      have ha := away x hx k k0 k1'
      rw [Function.update_of_ne ha, Array.getElem?_setIfInBounds_ne (by omega)]
      exact h3 x hx k k0 k1'
  · intro x hx y
    by_cases e : x = i
    · subst e
      rw [hit, InB.push (nn x), h4 x hx, hD']
      simp
    · rw [miss x e, hD', ← h4 x hx]
      have hxi : ¬ (x = i ∧ y = j) := fun q => e q.1
      simp only [hxi, or_false]
      exact InB.congr (fun k k0 k1 => Function.update_of_ne (away x hx k k0 k1) _ _) y
  · intro x hx
    by_cases e : x = i
    · subst e
      rw [hit]
      exact (h5 x hx).push fun q => hD ((h4 x hx j).1 q)
    · rw [miss x e]
      intro k k' k0 k1 k0' k1' e
      rw [Function.update_of_ne (away x hx k k0 k1), Function.update_of_ne (away x hx k' k0' k1')] at e
      exact h5 x hx k k' k0 k1 k0' k1' e

theorem storeEntry_emit {L : Int} (hM : Mat n jc ir) (hL : ps (dg n (Adj n jc ir)) n ≤ L) :
    Emit n jc ir storeEntry (fun D q => Part n L (dg n (Adj n jc ir)) D q) where
  ext D D' s h hI := hI.congr h
  step D D' i j s hA hD hsub hsym hD' hI := by
    obtain ⟨hi, hj⟩ := hA.idx hM
    have hne : i ≠ j := hA.1
    have hd : ∀ x, 0 ≤ dg n (Adj n jc ir) x := fun x => dg_nonneg x
    have hle : ∀ D : Int → Int → Prop, (∀ x y, D x y → Adj n jc ir x y) → ∀ x,
        dg n D x ≤ dg n (Adj n jc ir) x := by
      classical
      intro D hs x
      unfold dg
      refine Int.ofNat_le.2 (Finset.card_le_card fun y hy => ?_)
      rw [Finset.mem_filter] at hy ⊢
      exact ⟨hy.1, hs x y hy.2⟩
    rw [storeEntry_eq]
    obtain ⟨g, hI⟩ := hI
    refine (storeHalf_ok (D' := fun x y => D x y ∨ x = i ∧ y = j) hI hd hL hi hj hD
      (fun x y => Iff.rfl) (hle _ ?_)).bind fun s hI => ?_
    · rintro x y (q | ⟨rfl, rfl⟩)
      · exact hsub x y q
      · exact hA
    refine (storeHalf_ok (D' := D') hI hd hL hj hi ?_ (fun x y => ?_) (hle _ ?_)).mono fun s hI => ⟨_, hI⟩
    · rintro (q | ⟨q, -⟩)
      · exact hD (hsym _ _ q)
      · exact hne q.symm
    · rw [hD']; tauto
    · intro x y q
      rcases (hD' x y).1 q with q | ⟨rfl, rfl⟩ | ⟨rfl, rfl⟩
      · exact hsub x y q
      · exact hA
      · exact hA.symm

/-- `AMD_1` returns a permutation -/
theorem piece_eq {slen off len : Int} (h0 : 0 ≤ off) (h1 : 0 ≤ len) (h2 : off + len ≤ slen) :
    piece slen off len = .ok (malloc len.toNat) := if_pos ⟨h0, h1, h2⟩

theorem amd1_ok {n : Nat} {P Pinv len : Buf Int} {slen dense0 imax : Int} (hM : Mat n jc ir)
    (hAp : ∀ c, 0 ≤ c → c ≤ (n : Int) → rdI Ap c = .ok (jc c))
    (hAi : ∀ p, 0 ≤ p → p < jc n → rdI Ai p = .ok (ir p)) (hP : P.size = n) (hPi : Pinv.size = n)
    (hl : HZ len n n (dg n (Adj n jc ir)))
    (hs : (∑ x ∈ ix n, dg n (Adj n jc ir) x) + 7 * n ≤ slen) :
    Ok (amd1 n Ap Ai P Pinv len slen dense0 imax) (fun P' => ∃ p, HZ P' n n p ∧ PermI n p) := by
  have hn : (0 : Int) ≤ n := by omega
  have hd : ∀ x, 0 ≤ dg n (Adj n jc ir) x := fun x => dg_nonneg x
  have hsz : ∀ m : Nat, (malloc m : Buf Int).size = m := fun m => by simp [malloc]
  have hsum : 0 ≤ ∑ x ∈ ix n, dg n (Adj n jc ir) x := Finset.sum_nonneg fun x _ => hd x
  unfold amd1
  dsimp only
  rw [piece_eq (by omega) (by omega) (by omega), ok_bind_eq, piece_eq (by omega) (by omega) (by omega), ok_bind_eq,
    piece_eq (by omega) (by omega) (by omega), ok_bind_eq, piece_eq (by omega) (by omega) (by omega), ok_bind_eq,
    piece_eq (by omega) (by omega) (by omega), ok_bind_eq, piece_eq (by omega) (by omega) (by omega), ok_bind_eq,
    piece_eq (by omega) (by omega) (by omega), ok_bind_eq, Int.toNat_natCast]
  refine (pointers_ok hn hl (by simp [hsz]) (by simp [hsz])).bind ?_
  rintro ⟨pe, sp, pfree⟩ ⟨h1, h2, h3⟩
  dsimp only at h1 h2 h3 ⊢
  have hps : ps (dg n (Adj n jc ir)) n = ∑ x ∈ ix n, dg n (Adj n jc ir) x := rfl
  have hps0 := ps_mono hd hn
  rw [ps_zero] at hps0
  have hz : ∀ x, dg n (fun _ _ => False) x = 0 := fun x => by unfold dg; simp
  refine (walk_ok hM hn hAp hAi (storeEntry_emit (L := slen - 6 * n) hM (by omega))
    (tp := malloc n) (by simp [hsz]) (s := (sp, malloc (slen - 6 * n).toNat)) ?_).bind ?_
  · refine ⟨fun _ => 0, h2.congr fun x _ _ _ => by rw [hz, add_zero], by simp [hsz], ?_, ?_, ?_⟩
    · intro x hx k k0 k1
      rw [hz] at k1; omega
    · intro x hx y
      rw [hz]
      constructor
      · rintro ⟨k, k0, k1, -⟩; omega
      · exact False.elim
    · intro x hx k k' k0 k1
      rw [hz] at k1; omega
  rintro ⟨tp, sp, iw⟩ ⟨t1, g, t2, t3, t4, t5, t6⟩
  dsimp only at t1 t2 t3 t4 ⊢
  have blk : ∀ p, 0 ≤ p → p < pfree → ∃ x k, Idx n x ∧ 0 ≤ k ∧ k < dg n (Adj n jc ir) x ∧
      p = ps (dg n (Adj n jc ir)) x + k := by
    intro p p0 p1
    rw [h3] at p1
    obtain ⟨x, hx, q1, q2⟩ := ps_find hd p0 n p1
    exact ⟨x, p - ps (dg n (Adj n jc ir)) x, hx, by omega, by omega, by omega⟩
  have p0 : ∀ x, Idx n x → 0 ≤ ps (dg n (Adj n jc ir)) x := fun x hx => by
    have := ps_mono hd hx.1
    rwa [ps_zero] at this
  have hg : Graph n (slen - 6 * n)
      { pe := ps (dg n (Adj n jc ir)), iw := g, len := dg n (Adj n jc ir), nv := g, next := g,
        last := g, head := g, elen := g, degree := g, w := g, top := pfree } pfree := by
    refine ⟨p0, ⟨fun x hx _ => ⟨hd x, ?_⟩, fun x y hx hy hne _ _ => ?_⟩, ?_, ⟨by omega, le_refl _, by omega⟩,
      fun p p0 p1 => ?_, t6, fun x y hx hm => ?_⟩
    · have := ps_mono hd (show x + 1 ≤ (n : Int) by have := hx.2; omega)
      rw [ps_succ hx.1] at this
      dsimp only
      omega
    · dsimp only
      rcases Int.lt_or_gt_of_ne hne with r | r
      · have := ps_mono hd (show x + 1 ≤ y by omega)
        rw [ps_succ hx.1] at this
        left; omega
      · have := ps_mono hd (show y + 1 ≤ x by omega)
        rw [ps_succ hy.1] at this
        right; omega
    · have : tot n (ps (dg n (Adj n jc ir))) (dg n (Adj n jc ir)) =
          ∑ x ∈ ix n, dg n (Adj n jc ir) x := by
        unfold tot
        exact Finset.sum_congr rfl fun x hx => if_pos (p0 x (Finset.mem_Ico.1 hx))
      dsimp only
      omega
    · obtain ⟨x, k, hx, k0, k1, e⟩ := blk p p0 p1
      have := (t5 x hx (g p)).1 ⟨k, k0, k1, by rw [e]⟩
      exact (this.idx hM).2
    · have := (t5 x hx y).1 hm
      have hy := (this.idx hM).2
      exact ⟨this.1.symm, (t5 y hy x).2 this.symm⟩
  have hi : Ini n (slen - 6 * n)
      { pe := pe, iw := iw, len := len, nv := sp, next := Pinv, last := P, head := malloc n,
        elen := malloc n, degree := malloc n, w := tp }
      { pe := ps (dg n (Adj n jc ir)), iw := g, len := dg n (Adj n jc ir), nv := g, next := g,
        last := g, head := g, elen := g, degree := g, w := g, top := pfree } := by
    refine ⟨h1, ⟨t3, fun i i0 i1 _ => ?_⟩, hl, t2.1, by simp [hPi], by simp [hP], by simp [hsz],
      by simp [hsz], by simp [hsz], t1⟩
    obtain ⟨x, k, hx, k0, k1, e⟩ := blk i i0 i1
    dsimp only
    rw [e]
    exact t4 x hx k k0 k1
  refine (amd2_ok hg hi).bind ?_
  rintro s ⟨b, hr, hb⟩
  rw [Ok_pure]
  exact ⟨b.last, hr.last, hb⟩

end Ecos.Amd
