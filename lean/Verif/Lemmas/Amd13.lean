import Verif.Lemmas.Amd12

/-!
# AMD: detection of indistinguishable variables
-/
namespace Ecos.Amd

open Function (update)

/-- the state while indistinguishable variables are merged -/
structure Det (n L : Int) (a : Ab) (me pfree lemax wflg mindeg degme nvpiv nel : Int)
    (rk : Int → Nat) (vh vl bh : Int → Int) : Prop where
  core : Core n L a me pfree lemax wflg
  meI : Idx n me ∧ a.elen me < -1 ∧ 0 ≤ a.pe me ∧ a.nv me < 0
  epos : ∀ x, Idx n x → a.elen x < -1 → x ≠ me → 0 < a.nv x
  flg : ∀ x, Idx n x → a.nv x < 0 → x ≠ me → MemL a me x
  lme : ∀ x, MemL a me x → a.nv x ≠ 0 → IsV n a x ∧ a.nv x < 0
  inj : Inj a.iw (a.pe me) (a.len me)
  fst : ∀ i, IsV n a i → a.nv i < 0 → 1 ≤ a.elen i ∧ a.iw (a.pe i) = me
  hl : HL n (fun x => IsV n a x ∧ 0 < a.nv x) (fun x => IsV n a x ∧ a.nv x < 0) a.head a.next a.last
    a.degree rk vh vl bh
  tree : ∃ rk rep, Tree n a.pe (update (anv a) me nvpiv) a.elen rk rep
  degm : degme = sumB n (anv a) (fun x => IsV n a x ∧ a.nv x < 0)
  cnt : nel + sumB n (anv a) (fun x => IsV n a x) = n
  dge : ∀ i, IsV n a i → 0 < a.nv i → mindeg ≤ a.degree i
  dnn : ∀ i, IsV n a i → 0 ≤ a.degree i
  nvp : 0 < nvpiv

variable {n L : Int} {s : St} {a b : Ab} {me pfree lemax wflg mindeg degme nvpiv nel : Int}
  {rk : Int → Nat} {vh vl bh : Int → Int}

theorem S2.det (h : S2 n L a me pfree lemax wflg mindeg degme nvpiv nel (fun _ => True))
    {w : Int → Int} {wflg' : Int} (hw2 : 2 ≤ wflg')
    (hw : ∀ x, Idx n x → 0 ≤ w x ∧ w x < wflg' ∧ (w x = 0 ↔ a.w x = 0)) :
    ∃ rk vh vl bh, Det n L { a with degree := update a.degree me degme, w := w } me pfree
      (max lemax degme) wflg' mindeg degme nvpiv nel rk vh vl bh := by
  obtain ⟨rk, vh, vl, bh, hh⟩ := h.hl
  have hm := h.mid
  obtain ⟨hmI, hme, hmp, hmnv, hmw⟩ := hm.meI
  have pos : ∀ x, Idx n x → 0 < a.w x → 0 < w x := by
    intro x hx h0
    have := hw x hx
    omega
  have Vme : ∀ x, IsV n a x → x ≠ me := fun x hx q => by have := hx.2.2; rw [q] at this; omega
  have memE : ∀ i, IsV n a i → a.nv i < 0 → MemE a i me := by
    intro i hi hn
    obtain ⟨g1, g2⟩ := hm.pme i hi hn trivial
    exact ⟨0, le_rfl, by omega, by rw [add_zero]; exact g2⟩
  have dg : ∀ x, x ≠ me → update a.degree me degme x = a.degree x := fun x hx =>
    Function.update_of_ne hx _ _
  refine ⟨rk, vh, vl, bh, ?_⟩
  exact {
    core := {
      lay := hm.lay
      room := hm.room
      free := hm.free
      vals := hm.vals
      cls := fun x hx => by
        rcases hm.cls x hx with c | c | c
        · exact Or.inl c
        · refine Or.inr (Or.inl ⟨?_, c.1⟩)
          dsimp only
          by_cases q : x = me
          · rw [q]; omega
          · have := c.2 q; omega
        · exact Or.inr (Or.inr c)
      var := fun i hi => by
        obtain ⟨v1, v2, v3, v4⟩ := hm.var i hi
        exact ⟨v1, v2, v3, pos i hi.1 v4⟩
      elt := fun e he hne => by
        obtain ⟨g1, g2, g3⟩ := hm.elt e he hne
        exact ⟨g1, g3⟩
      eltw := fun e he => by
        refine pos e he.1 ?_
        by_cases q : e = me
        · rw [q]; exact hmw
        · exact (hm.elt e he q).2.1
      varE := fun i e hi hM => by
        rcases lt_or_gt_of_ne hi.2.1 with hn | hp
        · rcases hm.pE i e hi hn trivial hM with q | q
          · subst q
            exact ⟨⟨hmI, hme, hmp⟩, hm.flg i hi.1 hn (Vme i hi)⟩
          · exact ⟨q.1, q.2.1⟩
        · exact (hm.cE i e hi hp hM).2
      varA := fun i j hi hM hj => by
        rcases lt_or_gt_of_ne hi.2.1 with hn | hp
        · exact (hm.pA i j hi hn trivial hM).2
        · exact hm.cA i j hi hp hM hj
      eltL := fun e x he hM hx => by
        by_cases q : e = me
        · subst q
          obtain ⟨g1, g2⟩ := hm.lme x hM hx
          exact ⟨g1, memE x g1 g2⟩
        · exact hm.eltL e x he q hM hx
      nodup := hm.nodup
      edeg := fun e he => by
        dsimp only
        by_cases q : e = me
        · subst q
          rw [Function.update_self]
          refine ⟨?_, le_max_right _ _⟩
          rw [h.degm]
          refine sumB_le (fun _ _ _ => abs_nonneg _) fun x hx hq => ⟨hq.1, ?_⟩
          by_contra hc
          have := hq.1.2.1
          dsimp only at this hc
          exact (hm.cE x e hq.1 (by omega) hq.2).1 rfl
        · rw [dg e q]
          exact ⟨(hm.edeg e he q).1, le_trans (hm.edeg e he q).2 (le_max_left _ _)⟩
      lemax0 := le_trans hm.lemax0 (le_max_left _ _)
      w := fun x hx => ⟨(hw x hx).1, (hw x hx).2.1⟩
      wflg2 := hw2 }
    meI := ⟨hmI, hme, hmp, hmnv⟩
    epos := fun x hx he q => by
      rcases hm.cls x hx with c | c | c
      · have := c.2.2; dsimp only at he; omega
      · exact c.2 q
      · dsimp only at he; omega
    flg := hm.flg
    lme := hm.lme
    inj := hm.inj
    fst := fun i hi hn => hm.pme i hi hn trivial
    hl := hh.congr (fun _ => Iff.rfl) (fun x => ⟨fun q => ⟨q.1, q.2, trivial⟩, fun q => ⟨q.1, q.2.1⟩⟩)
      (fun _ _ => rfl) (fun _ _ => rfl) (fun _ _ => rfl) (fun x hx => dg x (Vme x hx.1))
    tree := h.tree
    degm := h.degm
    cnt := h.cnt
    dge := fun i hi hp => by
      dsimp only
      rw [dg i (Vme i hi)]; exact h.dge i hi hp
    dnn := fun i hi => by
      dsimp only
      rw [dg i (Vme i hi)]; exact h.dnn i hi
    nvp := h.nvp }

/-! ### buckets -/

/-- the chains of a bucket that has been taken out may change -/
theorem HL.change {P M M' : Int → Prop} {head next next' last deg : Int → Int}
    (h : HL n P M head next last deg rk vh vl bh) {d : Int} (hb : bh d = -1)
    (hn : ∀ x, P x ∨ (M x ∧ last x ≠ d) → next' x = next x) (hM : ∀ x, M' x → M x)
    (hM' : ∀ x, M x → last x ≠ d → M' x) :
    HL n P M' head next' last deg rk vh vl bh where
  dl := h.dl.congr (fun _ => Iff.rfl) (fun _ _ => rfl) (fun i hi => hn i (Or.inl hi))
    (fun _ _ => rfl) (fun _ _ => rfl)
  hd0 := h.hd0
  hd1 := h.hd1
  la0 := h.la0
  la1 := h.la1
  bk e he := by
    by_cases q : e = d
    · subst q
      rw [hb]
      exact ⟨[], rfl, List.nodup_nil, fun x hx => by simp at hx⟩
    · obtain ⟨l, l1, l2, l3⟩ := h.bk e he
      have ne : ∀ x ∈ l, last x ≠ d := fun x hx => by rw [(l3 x hx).2]; exact q
      exact ⟨l, l1.congr fun x hx => hn x (Or.inr ⟨(l3 x hx).1, ne x hx⟩), l2,
        fun x hx => ⟨hM' x (l3 x hx).1 (ne x hx), (l3 x hx).2⟩⟩
  mI i hi := h.mI i (hM i hi)
  PM i hi hm := h.PM i hi (hM i hm)

theorem takeBucket_ok {P M : Int → Prop} (hr : Rep n L s a)
    (h : HL n P M a.head a.next a.last a.degree rk vh vl bh) {i : Int} (hi : M i) :
    Ok (takeBucket i s) (fun r => r.1 = bh (a.last i) ∧ ∃ head last,
      Rep n L r.2 { a with head := head, last := last } ∧ (∀ x, M x → last x = a.last x) ∧
      HL n P M head a.next last a.degree rk vh vl (update bh (a.last i) (-1))) := by
  obtain ⟨hI, hH⟩ := h.mI i hi
  have hbh := h.bh_ge hH
  unfold takeBucket
  refine Ok_rd (hr.rLast hI) ?_
  refine Ok_rd (hr.rHead hH) ?_
  generalize a.last i = hash at *
  -- what has to be shown
  have key : ∀ head last : Int → Int,
      (∀ d, Idx n d → d ≠ hash → head d = a.head d) →
      (vh hash = -1 → head hash = -1) → (vh hash ≠ -1 → head hash = a.head hash) →
      (∀ x, (vh hash ≠ -1 → x ≠ vh hash) → last x = a.last x) →
      (vh hash ≠ -1 → last (vh hash) = -1) →
      (∀ x, M x → last x = a.last x) ∧
      HL n P M head a.next last a.degree rk vh vl (update bh hash (-1)) := by
    intro head last g1 g2 g3 g4 g5
    have g4M : ∀ x, M x → last x = a.last x := fun x hx => g4 x fun hv q => by
      have := (h.dl.head1 hash hH hv).1
      exact h.PM _ this (q ▸ hx)
    refine ⟨g4M, ?_⟩
    exact {
      dl := h.dl
      hd0 := fun d hd e => by
        by_cases q : d = hash
        · subst q; rw [Function.update_self, g2 e]; rfl
        · rw [Function.update_of_ne q, g1 d hd q]; exact h.hd0 d hd e
      hd1 := fun d hd e => by
        by_cases q : d = hash
        · subst q; rw [g3 e]; exact h.hd1 d hd e
        · rw [g1 d hd q]; exact h.hd1 d hd e
      la0 := fun x hx e => by
        by_cases q : a.degree x = hash
        · have e2 := h.dl.last0 x hx e
          rw [q] at e2 ⊢
          have hv : vh hash ≠ -1 := by rw [e2]; have := (h.dl.idx x hx).1; omega
          rw [Function.update_self, ← e2]
          exact g5 hv
        · rw [Function.update_of_ne q]
          rw [g4 x fun hv q' => ?_]
          · exact h.la0 x hx e
          · have := (h.dl.head1 hash hH hv).2.1
            rw [← q'] at this
            exact q this
      la1 := fun x hx e => by
        rw [g4 x fun hv q' => ?_]
        · exact h.la1 x hx e
        · have := (h.dl.head1 hash hH hv).2.2
          rw [← q'] at this
          exact e this
      bk := fun d hd => by
        by_cases q : d = hash
        · subst q
          rw [Function.update_self]
          exact ⟨[], rfl, List.nodup_nil, fun x hx => by simp at hx⟩
        · rw [Function.update_of_ne q]
          obtain ⟨l, l1, l2, l3⟩ := h.bk d hd
          refine ⟨l, l1, l2, fun x hx => ?_⟩
          rw [g4M x (l3 x hx).1]
          exact l3 x hx
      mI := fun x hx => by rw [g4M x hx]; exact h.mI x hx
      PM := h.PM }
  by_cases hv : vh hash = -1
  · have e := h.hd0 hash hH hv
    rw [e, FLIP_eq, EMPTY_eq]
    by_cases hb : bh hash = -1
    · rw [if_pos (by omega), Ok_pure]
      refine ⟨hb.symm, a.head, a.last, hr, key a.head a.last (fun _ _ _ => rfl) (fun _ => ?_)
        (fun _ => rfl) (fun _ _ => rfl) fun q => (q hv).elim⟩
      rw [e, FLIP_eq]; omega
    · rw [if_neg (by omega), if_pos (by omega)]
      refine (hr.wHead _ hH).bind fun s hr => ?_
      rw [Ok_pure]
      refine ⟨by dsimp only; rw [FLIP_eq]; ring, _, _, hr, key _ _ (fun d hd q => ?_)
        (fun _ => ?_) (fun q => (q hv).elim) (fun _ _ => rfl) fun q => (q hv).elim⟩
      · rw [Function.update_of_ne q]
      · rw [Function.update_self]
  · have e := h.hd1 hash hH hv
    obtain ⟨p1, p2, p3⟩ := h.dl.head1 hash hH hv
    have hj := (h.dl.idx _ p1).1
    rw [e, EMPTY_eq, if_neg (by omega), if_neg (by omega)]
    refine Ok_rd (hr.rLast hj) ?_
    refine (hr.wLast _ hj).bind fun s hr => ?_
    rw [Ok_pure]
    refine ⟨by dsimp only; rw [h.la0 _ p1 p3, p2], _, _, hr, key _ _ (fun _ _ _ => rfl)
      (fun q => (hv q).elim) (fun _ => rfl) (fun x q => ?_) (fun _ => ?_)⟩
    · rw [Function.update_of_ne (q hv)]
    · rw [Function.update_self]

theorem Lst.splice {next : Int → Int} {j : Int} {l3 : List Int} : ∀ {l1 : List Int} {p : Int}
    (hne : l1 ≠ []), Lst next p (l1 ++ j :: l3) → (l1 ++ j :: l3).Nodup →
      Lst (update next (l1.getLast hne) (next j)) p (l1 ++ l3)
  | [x], p, _, h, hn => by
    simp only [List.getLast_singleton, List.cons_append, List.nil_append] at h hn ⊢
    refine ⟨h.1, ?_⟩
    rw [Function.update_self]
    refine h.2.2.congr fun y hy => Function.update_of_ne ?_ _ _
    rintro rfl
    simp [hy] at hn
  | x :: y :: l, p, _, h, hn => by
    simp only [List.cons_append] at h hn ⊢
    have hx := (List.nodup_cons.1 hn).1
    refine ⟨h.1, ?_⟩
    have hlast : (x :: y :: l).getLast (by simp) = (y :: l).getLast (by simp) := by simp
    rw [hlast]
    rw [Function.update_of_ne]
    · exact Lst.splice (l1 := y :: l) (by simp) h.2 (List.nodup_cons.1 hn).2
    · intro q
      have h1 := List.getLast_mem (l := y :: l) (by simp)
      rw [← q] at h1
      exact hx (by simp at h1 ⊢; tauto)

theorem Lst.tail_of_append {next : Int → Int} : ∀ {l1 : List Int} {l2 : List Int} {p : Int}
    (hne : l1 ≠ []), Lst next p (l1 ++ l2) → Lst next (next (l1.getLast hne)) l2
  | [x], l2, p, _, h => by simpa using h.2
  | x :: y :: l, l2, p, _, h => by
    have := Lst.tail_of_append (l1 := y :: l) (l2 := l2) (by simp) h.2
    simpa using this

/-! ### merging -/

theorem merge_sum {f g : Int → Int} {S : Int → Prop} {i j : Int} (hi : Idx n i) (hj : Idx n j)
    (hij : i ≠ j) (hS : S i ↔ S j) (hg : g i = f i + f j)
    (ho : ∀ x, Idx n x → x ≠ i → x ≠ j → g x = f x) :
    sumB n g (fun x => S x ∧ x ≠ j) = sumB n f S := by
  by_cases h : S i
  · have h' := hS.1 h
    rw [sumB_add (f := f) (S := fun x => S x ∧ x ≠ j) (T := S) hj (fun q => q.2 rfl) fun x _ => by
        constructor
        · intro q
          by_cases r : x = j
          · exact Or.inr r
          · exact Or.inl ⟨q, r⟩
        · rintro (q | rfl)
          · exact q.1
          · exact h']
    rw [sumB_add (f := f) (S := fun x => S x ∧ x ≠ j ∧ x ≠ i) (T := fun x => S x ∧ x ≠ j) hi
        (fun q => q.2.2 rfl) fun x _ => by
        constructor
        · intro q
          by_cases r : x = i
          · exact Or.inr r
          · exact Or.inl ⟨q.1, q.2, r⟩
        · rintro (q | rfl)
          · exact ⟨q.1, q.2.1⟩
          · exact ⟨h, hij⟩]
    rw [sumB_add (f := g) (S := fun x => S x ∧ x ≠ j ∧ x ≠ i) (T := fun x => S x ∧ x ≠ j) hi
        (fun q => q.2.2 rfl) fun x _ => by
        constructor
        · intro q
          by_cases r : x = i
          · exact Or.inr r
          · exact Or.inl ⟨q.1, q.2, r⟩
        · rintro (q | rfl)
          · exact ⟨q.1, q.2.1⟩
          · exact ⟨h, hij⟩]
    rw [hg, sumB_congr (f := g) (g := f) (S := fun x => S x ∧ x ≠ j ∧ x ≠ i) (fun _ _ => Iff.rfl)
      fun x hx q => ho x hx q.2.2 q.2.1]
    ring
  · have h' : ¬ S j := fun q => h (hS.2 q)
    refine sumB_congr (fun x _ => ⟨fun q => q.1, fun q => ⟨q, fun r => h' (r ▸ q)⟩⟩) fun x hx q => ?_
    exact ho x hx (fun r => h (r ▸ q)) (fun r => h' (r ▸ q))

/-- `j` is merged into `i` -/
theorem Det.merge (h : Det n L a me pfree lemax wflg mindeg degme nvpiv nel rk vh vl bh) {i j : Int}
    (hi : IsV n a i) (hj : IsV n a j) (hij : i ≠ j) (hni : a.nv i < 0) (hnj : a.nv j < 0)
    (hE : ∀ e, MemE a i e ↔ MemE a j e) (hb : bh (a.last j) = -1)
    (hpe : b.pe = update a.pe j (FLIP i)) (hnv : b.nv = update (update a.nv i (a.nv i + a.nv j)) j 0)
    (helen : b.elen = update a.elen j (-1)) (hlen : b.len = a.len) (hiw : b.iw = a.iw)
    (hdeg : b.degree = a.degree) (hw : b.w = a.w) (htop : b.top = a.top) (hhead : b.head = a.head)
    (hlast : b.last = a.last)
    (hnext : ∀ x, (IsV n a x ∧ 0 < a.nv x) ∨ ((IsV n a x ∧ a.nv x < 0) ∧ a.last x ≠ a.last j) →
      b.next x = a.next x) :
    Det n L b me pfree lemax wflg mindeg degme nvpiv nel rk vh vl bh ∧
      (∀ x, IsV n b x ↔ IsV n a x ∧ x ≠ j) ∧ ∀ x, IsV n b x → (b.nv x < 0 ↔ a.nv x < 0) := by
  have hc := h.core
  obtain ⟨hmI, hme, hmp, hmnv⟩ := h.meI
  have Vme : ∀ x, IsV n a x → x ≠ me := fun x hx q => by have := hx.2.2; rw [q] at this; omega
  have ime := Vme i hi
  have jme := Vme j hj
  have nvi : b.nv i = a.nv i + a.nv j := by
    rw [hnv, Function.update_of_ne hij, Function.update_self]
  have nvj : b.nv j = 0 := by rw [hnv, Function.update_self]
  have nvo : ∀ x, x ≠ i → x ≠ j → b.nv x = a.nv x := fun x h1 h2 => by
    rw [hnv, Function.update_of_ne h2, Function.update_of_ne h1]
  have nvs : ∀ x, x ≠ j → (b.nv x ≠ 0 ↔ a.nv x ≠ 0) ∧ (b.nv x < 0 ↔ a.nv x < 0) ∧
      (0 < b.nv x ↔ 0 < a.nv x) := by
    intro x q
    by_cases r : x = i
    · rw [r, nvi]; omega
    · rw [nvo x r q]; simp
  have nvne : ∀ x, b.nv x ≠ 0 → x ≠ j := fun x hx q => by rw [q] at hx; exact hx nvj
  have peo : ∀ x, x ≠ j → b.pe x = a.pe x := fun x q => by rw [hpe, Function.update_of_ne q]
  have pej : b.pe j < 0 := by
    rw [hpe, Function.update_self, FLIP_eq]; have := hi.1; omega
  have eleno : ∀ x, x ≠ j → b.elen x = a.elen x := fun x q => by rw [helen, Function.update_of_ne q]
  have elenj : b.elen j = -1 := by rw [helen, Function.update_self]
  have V : ∀ x, IsV n b x ↔ IsV n a x ∧ x ≠ j := by
    intro x
    unfold IsV
    by_cases q : x = j
    · subst q
      rw [nvj]
      simp
    · rw [eleno x q, (nvs x q).1]
      simp [q]
  have U : ∀ x, IsU n b x ↔ IsU n a x := by
    intro x
    unfold IsU
    by_cases q : x = j
    · subst q
      rw [elenj]
      have := hj.2.2
      constructor <;> rintro ⟨_, q, _⟩ <;> omega
    · rw [eleno x q, peo x q]
  have Uj : ∀ x, IsU n a x → x ≠ j := fun x hx q => by
    have := hx.2.1; have := hj.2.2; rw [q] at *; omega
  have EO : ∀ x, x ≠ j → ∀ e, MemE b x e ↔ MemE a x e := by
    intro x q e
    unfold MemE
    rw [peo x q, eleno x q, hiw]
  have AO : ∀ x, x ≠ j → ∀ e, MemA b x e ↔ MemA a x e := by
    intro x q e
    unfold MemA
    rw [peo x q, eleno x q, hiw, hlen]
  have LO : ∀ x, x ≠ j → ∀ e, MemL b x e ↔ MemL a x e := by
    intro x q e
    unfold MemL
    rw [peo x q, hiw, hlen]
  have anvi : anv b i = anv a i + anv a j := by
    unfold anv
    rw [nvi, abs_of_neg hni, abs_of_neg hnj, abs_of_neg (by omega)]; ring
  have anvo : ∀ x, Idx n x → x ≠ i → x ≠ j → anv b x = anv a x := fun x _ h1 h2 => by
    unfold anv; rw [nvo x h1 h2]
  refine ⟨?_, V, fun x hx => (nvs x ((V x).1 hx).2).2.1⟩
  exact {
    core := {
      lay := hc.lay.congr fun x hx h0 => by
        by_cases q : x = j
        · subst q; omega
        · rw [peo x q, hlen]; exact ⟨rfl, rfl⟩
      room := le_trans (tot_le fun x hx => by
        by_cases q : x = j
        · subst q
          rw [if_neg (by omega)]
          split
          · exact (hc.lay.pos x hx (by assumption)).1
          · exact le_rfl
        · rw [peo x q, hlen]) hc.room
      free := by rw [htop]; exact hc.free
      vals := by rw [hiw]; exact hc.vals
      cls := fun x hx => by
        by_cases q : x = j
        · subst q; exact Or.inr (Or.inr ⟨nvj, elenj, pej⟩)
        · rw [V, eleno x q, peo x q, (nvs x q).1]
          rcases hc.cls x hx with c | c | c
          · exact Or.inl ⟨c, q⟩
          · exact Or.inr (Or.inl c)
          · refine Or.inr (Or.inr ⟨?_, c.2⟩)
            by_contra hne
            exact (nvs x q).1.1 hne c.1
      var := fun x hx => by
        obtain ⟨hx, q⟩ := (V x).1 hx
        rw [peo x q, eleno x q, hlen, hw]
        exact hc.var x hx
      elt := fun e he q => by
        rw [U] at he
        obtain ⟨g1, x, g2, g3⟩ := hc.elt e he q
        rw [hlen]
        refine ⟨g1, ?_⟩
        by_cases r : x = j
        · subst r
          exact ⟨i, (V i).2 ⟨hi, hij⟩, (EO i hij e).2 ((hE e).2 g3)⟩
        · exact ⟨x, (V x).2 ⟨g2, r⟩, (EO x r e).2 g3⟩
      eltw := fun e he => by rw [U] at he; rw [hw]; exact hc.eltw e he
      varE := fun x e hx hM => by
        obtain ⟨hx, q⟩ := (V x).1 hx
        rw [EO x q] at hM
        obtain ⟨g1, g2⟩ := hc.varE x e hx hM
        exact ⟨(U e).2 g1, (LO e (Uj e g1) x).2 g2⟩
      varA := fun x y hx hM hy => by
        obtain ⟨hx, q⟩ := (V x).1 hx
        rw [AO x q] at hM
        have r := nvne y hy
        rw [(nvs y r).1] at hy
        obtain ⟨g1, g2⟩ := hc.varA x y hx hM hy
        exact ⟨(V y).2 ⟨g1, r⟩, (AO y r x).2 g2⟩
      eltL := fun e x he hM hx => by
        rw [U] at he
        rw [LO e (Uj e he)] at hM
        have r := nvne x hx
        rw [(nvs x r).1] at hx
        obtain ⟨g1, g2⟩ := hc.eltL e x he hM hx
        exact ⟨(V x).2 ⟨g1, r⟩, (EO x r e).2 g2⟩
      nodup := fun x hx => by
        obtain ⟨hx, q⟩ := (V x).1 hx
        rw [peo x q, eleno x q, hiw]
        exact hc.nodup x hx
      edeg := fun e he => by
        rw [U] at he
        rw [hdeg]
        have : sumB n (anv b) (fun x => IsV n b x ∧ MemE b x e)
            = sumB n (anv a) (fun x => IsV n a x ∧ MemE a x e) := by
          rw [← merge_sum hi.1 hj.1 hij (S := fun x => IsV n a x ∧ MemE a x e)
            ⟨fun q => ⟨hj, (hE e).1 q.2⟩, fun q => ⟨hi, (hE e).2 q.2⟩⟩ anvi anvo]
          refine sumB_congr (fun x _ => ?_) fun _ _ _ => rfl
          rw [V]
          constructor
          · rintro ⟨⟨q1, q2⟩, q3⟩; exact ⟨⟨q1, (EO x q2 e).1 q3⟩, q2⟩
          · rintro ⟨⟨q1, q3⟩, q2⟩; exact ⟨⟨q1, q2⟩, (EO x q2 e).2 q3⟩
        rw [this]
        exact hc.edeg e he
      lemax0 := hc.lemax0
      w := by rw [hw]; exact hc.w
      wflg2 := hc.wflg2 }
    meI := by
      rw [eleno me (Ne.symm jme), peo me (Ne.symm jme), nvo me (Ne.symm ime) (Ne.symm jme)]
      exact h.meI
    epos := fun x hx he q => by
      have r : x ≠ j := fun r => by rw [r, elenj] at he; omega
      rw [eleno x r] at he
      rw [(nvs x r).2.2]
      exact h.epos x hx he q
    flg := fun x hx hn q => by
      have r := nvne x (by omega)
      rw [(nvs x r).2.1] at hn
      exact (LO me (Ne.symm jme) x).2 (h.flg x hx hn q)
    lme := fun x hM hx => by
      have r := nvne x hx
      rw [LO me (Ne.symm jme)] at hM
      rw [(nvs x r).1] at hx
      rw [(nvs x r).2.1]
      obtain ⟨g1, g2⟩ := h.lme x hM hx
      exact ⟨(V x).2 ⟨g1, r⟩, g2⟩
    inj := by
      rw [peo me (Ne.symm jme), hlen, hiw]; exact h.inj
    fst := fun x hx hn => by
      obtain ⟨hx, q⟩ := (V x).1 hx
      rw [(nvs x q).2.1] at hn
      rw [eleno x q, hiw, peo x q]
      exact h.fst x hx hn
    hl := by
      rw [hhead, hlast, hdeg]
      have := h.hl.change (M' := fun x => IsV n b x ∧ b.nv x < 0) hb hnext (fun x hx => ?_) (fun x hx hne => ?_)
      · refine this.congr (fun x => ?_) (fun _ => Iff.rfl) (fun _ _ => rfl) (fun _ _ => rfl)
          (fun _ _ => rfl) (fun _ _ => rfl)
        rw [V]
        constructor
        · rintro ⟨⟨q1, q2⟩, q3⟩
          exact ⟨q1, (nvs x q2).2.2.1 q3⟩
        · rintro ⟨q1, q3⟩
          have q2 : x ≠ j := fun q => by rw [q] at q3; omega
          exact ⟨⟨q1, q2⟩, (nvs x q2).2.2.2 q3⟩
      · obtain ⟨hx1, q⟩ := (V x).1 hx.1
        exact ⟨hx1, (nvs x q).2.1.1 hx.2⟩
      · have q : x ≠ j := fun q => hne (by rw [q])
        exact ⟨(V x).2 ⟨hx.1, q⟩, (nvs x q).2.1.2 hx.2⟩
    tree := by
      obtain ⟨rk0, rep, ht⟩ := h.tree
      have pei := (hc.var i hi).1
      have pej := (hc.var j hj).1
      refine ht.merge hi.1 hj.1 hij ?_ ?_ (by omega) (by omega) hj.2.2 (fun x hx he => ?_)
        (fun x hx => ?_) fun x hx => by rw [hpe]
      · rw [Function.update_of_ne ime]; unfold anv; rw [abs_of_neg hni]; omega
      · rw [Function.update_of_ne jme]; unfold anv; rw [abs_of_neg hnj]; omega
      · rw [eleno x (fun q => by rw [q] at he; have := hj.2.2; omega)]; exact he
      · by_cases q : x = j
        · rw [q, Function.update_self, Function.update_of_ne jme]
          unfold anv; rw [nvj]; rfl
        · rw [Function.update_of_ne q]
          by_cases r : x = i
          · rw [r, Function.update_self, Function.update_of_ne ime, Function.update_of_ne ime,
              Function.update_of_ne jme, anvi]
          · rw [Function.update_of_ne r]
            by_cases t : x = me
            · rw [t, Function.update_self, Function.update_self]
            · rw [Function.update_of_ne t, Function.update_of_ne t, anvo x hx r q]
    degm := by
      rw [h.degm, ← merge_sum hi.1 hj.1 hij (S := fun x => IsV n a x ∧ a.nv x < 0)
        ⟨fun _ => ⟨hj, hnj⟩, fun _ => ⟨hi, hni⟩⟩ anvi anvo]
      refine sumB_congr (fun x _ => ?_) fun _ _ _ => rfl
      rw [V]
      constructor
      · rintro ⟨⟨q1, q3⟩, q2⟩; exact ⟨⟨q1, q2⟩, (nvs x q2).2.1.2 q3⟩
      · rintro ⟨⟨q1, q2⟩, q3⟩; exact ⟨⟨q1, (nvs x q2).2.1.1 q3⟩, q2⟩
    cnt := by
      have := h.cnt
      rw [← merge_sum hi.1 hj.1 hij (S := fun x => IsV n a x) ⟨fun _ => hj, fun _ => hi⟩ anvi anvo]
        at this
      refine Eq.trans ?_ this
      congr 1
      exact sumB_congr (fun x _ => V x) fun _ _ _ => rfl
    dge := fun x hx hp => by
      obtain ⟨hx, q⟩ := (V x).1 hx
      rw [hdeg]
      exact h.dge x hx ((nvs x q).2.2.1 hp)
    dnn := fun x hx => by
      rw [hdeg]; exact h.dnn x ((V x).1 hx).1
    nvp := h.nvp }

end Ecos.Amd
