import Verif.Lemmas.Amd13

/-!
# AMD: running through the hash buckets
-/
namespace Ecos.Amd

open Function (update)

/-- rule for `while` loops with a measure that is not a function of the state -/
theorem iter_ok' {σ ρ : Type} {fuel : Nat} {s : σ} {body : σ → M (ρ ⊕ σ)} {Q : ρ → Prop}
    (I : Nat → σ → Prop) {k : Nat} (hf : k < fuel) (h0 : I k s)
    (hstep : ∀ k s, I k s → Ok (body s) (fun r =>
      match r with
      | .inl r => Q r
      | .inr s' => ∃ k', k' < k ∧ I k' s')) : Ok (iter fuel s body) Q := by
  induction fuel generalizing s k with
  | zero => omega
  | succ m ih =>
    unfold iter
    rw [Ok_bind]
    refine (hstep k s h0).mono fun r hr => ?_
    cases r with
    | inl r => exact hr
    | inr s' =>
      obtain ⟨k', h1, h2⟩ := hr
      exact ih (by omega) h2

variable {n L : Int} {s : St} {a b : Ab} {me pfree lemax wflg mindeg degme nvpiv nel : Int}
  {rk : Int → Nat} {vh vl bh : Int → Int}

theorem Det.setW (h : Det n L a me pfree lemax wflg mindeg degme nvpiv nel rk vh vl bh)
    {w : Int → Int} {wflg' : Int} (hw2 : 2 ≤ wflg')
    (hw : ∀ x, Idx n x → 0 ≤ w x ∧ w x < wflg' ∧ (0 < a.w x → 0 < w x)) :
    Det n L { a with w := w } me pfree lemax wflg' mindeg degme nvpiv nel rk vh vl bh where
  core :=
    { lay := h.core.lay
      room := h.core.room
      free := h.core.free
      vals := h.core.vals
      cls := h.core.cls
      var := fun i hi => by
        obtain ⟨v1, v2, v3, v4⟩ := h.core.var i hi
        exact ⟨v1, v2, v3, (hw i hi.1).2.2 v4⟩
      elt := h.core.elt
      eltw := fun e he => (hw e he.1).2.2 (h.core.eltw e he)
      varE := h.core.varE
      varA := h.core.varA
      eltL := h.core.eltL
      nodup := h.core.nodup
      edeg := h.core.edeg
      lemax0 := h.core.lemax0
      w := fun x hx => ⟨(hw x hx).1, (hw x hx).2.1⟩
      wflg2 := hw2 }
  meI := h.meI
  epos := h.epos
  flg := h.flg
  lme := h.lme
  inj := h.inj
  fst := h.fst
  hl := h.hl
  tree := h.tree
  degm := h.degm
  cnt := h.cnt
  dge := h.dge
  dnn := h.dnn
  nvp := h.nvp

/-- the cells of the list of a variable -/
theorem Core.cell {ex : Int} (h : Core n L a ex pfree lemax wflg) {i k : Int} (hi : IsV n a i)
    (k0 : 0 ≤ k) (k1 : k < a.len i) :
    0 ≤ a.pe i + k ∧ a.pe i + k < a.top ∧ a.pe i + k < L ∧ Idx n (a.iw (a.pe i + k)) := by
  have := (h.var i hi).1
  have := h.lay.pos i hi.1 this
  have := h.free
  exact ⟨by omega, by omega, by omega, h.vals _ (by omega) (by omega)⟩

theorem sameList_ok {ex : Int} (hr : Rep n L s a) (h : Core n L a ex pfree lemax wflg) {j ln eln f : Int}
    (hj : IsV n a j) :
    Ok (sameList j ln eln f s) (fun r => r = true → a.len j = ln ∧ a.elen j = eln ∧
      ∀ k, 1 ≤ k → k < ln → a.w (a.iw (a.pe j + k)) = f) := by
  unfold sameList
  refine Ok_rd (hr.rLen hj.1) ?_
  split
  · rename_i h1
    refine Ok_rd (hr.rElen hj.1) ?_
    split
    · rename_i h2
      refine Ok_rd (hr.rPe hj.1) ?_
      rw [Ok_bind]
      refine loopE_ok (fun k _ => ∀ k' : Int, 1 ≤ k' → k' < 1 + k → a.w (a.iw (a.pe j + k')) = f)
        (Nat.zero_le _) (fun k' h1 h2 => by omega) ?_ ?_
      · intro k _ _ hk hI
        obtain ⟨c1, c2, c3, c4⟩ := h.cell hj (k := 1 + k) (by omega) (by omega)
        rw [← add_assoc] at c1 c2 c3 c4
        refine Ok_rd (hr.rIw c1 c2 c3) ?_
        refine Ok_rd (hr.rW c4) ?_
        split
        · rw [Ok_pure]
          dsimp only
          rw [Ok_pure]
          intro q; cases q
        · rename_i hne
          rw [Ok_pure]
          intro k' h1 h2
          by_cases q : k' = 1 + k
          · rw [q, ← add_assoc]; omega
          · exact hI k' h1 (by push_cast at h2; omega)
      · intro _ hI
        dsimp only
        rw [Ok_pure]
        intro _
        exact ⟨h1, h2, fun k k1 k2 => hI k k1 (by omega)⟩
    · rw [Ok_pure]; intro q; cases q
  · rw [Ok_pure]; intro q; cases q

theorem Inj.eq_of_sub {iw : Int → Int} {p p' m : Int} (h : Inj iw p m) (h' : Inj iw p' m)
    (hs : ∀ x, InB iw p' m x → InB iw p m x) (x : Int) (hx : InB iw p m x) : InB iw p' m x := by
  classical
  have mem : ∀ p x, x ∈ (ix m).image (fun k => iw (p + k)) ↔ InB iw p m x := by
    intro p x
    simp only [Finset.mem_image, Finset.mem_Ico]
    constructor
    · rintro ⟨k, ⟨k0, k1⟩, e⟩; exact ⟨k, k0, k1, e⟩
    · rintro ⟨k, k0, k1, e⟩; exact ⟨k, ⟨k0, k1⟩, e⟩
  have card : ∀ p, Inj iw p m → ((ix m).image (fun k => iw (p + k))).card = (ix m).card := by
    intro p hp
    refine Finset.card_image_of_injOn fun k hk k' hk' e => ?_
    have hk := Finset.mem_Ico.1 (Finset.mem_coe.1 hk)
    have hk' := Finset.mem_Ico.1 (Finset.mem_coe.1 hk')
    exact hp k k' hk.1 hk.2 hk'.1 hk'.2 e
  have : (ix m).image (fun k => iw (p' + k)) = (ix m).image (fun k => iw (p + k)) := by
    refine Finset.eq_of_subset_of_card_le (fun x hx => ?_) ?_
    · exact (mem p x).2 (hs x ((mem p' x).1 hx))
    · rw [card p h, card p' h']
  rw [← mem, this, mem]
  exact hx

/-- what does not change while a bucket is run through -/
structure Fr (n : Int) (a b : Ab) (me : Int) : Prop where
  iw : b.iw = a.iw
  len : b.len = a.len
  peme : b.pe me = a.pe me
  last : b.last = a.last
  alive : ∀ x, IsV n b x ∧ b.nv x < 0 → IsV n a x ∧ a.nv x < 0

theorem Fr.refl (a : Ab) : Fr n a a me := ⟨rfl, rfl, rfl, rfl, fun _ h => h⟩

theorem Fr.trans {c : Ab} (h : Fr n a b me) (h' : Fr n b c me) : Fr n a c me :=
  ⟨h'.iw.trans h.iw, h'.len.trans h.len, h'.peme.trans h.peme, h'.last.trans h.last,
    fun x hx => h.alive x (h'.alive x hx)⟩

theorem absorb_ok {f : Int} (hr : Rep n L s a)
    (h : Det n L a me pfree lemax wflg mindeg degme nvpiv nel rk vh vl bh)
    {i d : Int} {l : List Int} {fuel : Nat} (hf : l.length < fuel) (hl : Lst a.next i (i :: l))
    (hnd : (i :: l).Nodup) (hmem : ∀ x ∈ i :: l, (IsV n a x ∧ a.nv x < 0) ∧ a.last x = d)
    (hd : bh d = -1) (hflag : ∀ x, Idx n x → a.w x = f → InB a.iw (a.pe i + 1) (a.len i - 1) x) :
    Ok (absorb fuel i (a.len i) (a.elen i) f s) (fun s' => ∃ b l', Rep n L s' b ∧
      Det n L b me pfree lemax wflg mindeg degme nvpiv nel rk vh vl bh ∧ Fr n a b me ∧
      b.w = a.w ∧ l'.length ≤ l.length ∧ Lst b.next i (i :: l') ∧ (i :: l').Nodup ∧
      ∀ x ∈ i :: l', (IsV n b x ∧ b.nv x < 0) ∧ b.last x = d) := by
  have hi := (hmem i (by simp)).1
  unfold absorb
  refine Ok_rd (hr.rNext hi.1.1) ?_
  refine iter_ok' (k := l.length) (fun k q => ∃ b t l2, Rep n L q.2.2 b ∧
    Det n L b me pfree lemax wflg mindeg degme nvpiv nel rk vh vl bh ∧ Fr n a b me ∧ b.w = a.w ∧
    b.pe i = a.pe i ∧ b.elen i = a.elen i ∧
    (i :: t).getLast (by simp) = q.1 ∧ Lst b.next i ((i :: t) ++ l2) ∧ ((i :: t) ++ l2).Nodup ∧
    (∀ x ∈ (i :: t) ++ l2, (IsV n b x ∧ b.nv x < 0) ∧ b.last x = d) ∧ Lst b.next q.2.1 l2 ∧
    k = l2.length ∧ t.length + l2.length ≤ l.length) hf ?_ ?_
  · refine ⟨a, [], l, hr, h, Fr.refl a, rfl, rfl, rfl, rfl, hl, hnd, hmem, hl.2, rfl, by simp⟩
  · rintro k ⟨jlast, j, s⟩ ⟨b, t, l2, hr, h, hfr, ew, epe, eel, elast, hl, hnd, hmem, hl2, hk, hlen⟩
    dsimp only at hr elast hl2 ⊢
    cases l2 with
    | nil =>
      have : j = -1 := hl2
      rw [if_neg (by simpa [EMPTY_eq] using this), Ok_pure]
      rw [List.append_nil] at hl hnd hmem
      exact ⟨b, t, hr, h, hfr, ew, by simpa using hlen, hl, hnd, hmem⟩
    | cons y l3 =>
      obtain ⟨e, hl3⟩ := hl2
      subst e
      obtain ⟨⟨hjV, hjn⟩, hjl⟩ := hmem j (by simp)
      obtain ⟨⟨hiV, hin⟩, hil⟩ := hmem i (by simp)
      have hij : i ≠ j := by
        rintro rfl
        simp at hnd
      rw [if_pos (by have := hjV.1; rw [EMPTY_eq]; omega)]
      refine ((sameList_ok hr h.core hjV)).bind fun r hsame => ?_
      split
      · rename_i hr1
        obtain ⟨q1, q2, q3⟩ := hsame hr1
        -- the element lists are the same
        have sub : ∀ e, MemE b j e → MemE b i e := by
          rintro e hM
          obtain ⟨k, k0, k1, ek⟩ := hM
          by_cases q : k = 0
          · subst q
            rw [add_zero, (h.fst j hjV hjn).2] at ek
            exact ⟨0, le_rfl, by have := (h.fst i hiV hin).1; omega,
              by rw [add_zero, (h.fst i hiV hin).2, ek]⟩
          · have hU := (h.core.varE j e hjV ⟨k, k0, k1, ek⟩).1
            have hk := q3 k (by omega) (by have := (h.core.var j hjV).2.1; omega)
            rw [ek, ew] at hk
            obtain ⟨k', k0', k1', e'⟩ := hflag e hU.1 hk
            rw [← hfr.iw, ← epe, add_assoc] at e'
            by_cases q : 1 + k' < b.elen i
            · exact ⟨1 + k', by omega, q, e'⟩
            · have nve : b.nv e ≠ 0 := by
                rcases h.core.cls e hU.1 with c | c | c
                · exact c.2.1
                · exact c.1
                · have := hU.2.1; omega
              have := (h.core.varA i e hiV ⟨1 + k' - b.elen i, by omega,
                by rw [hfr.len]; omega, by rw [← e']; congr 1; omega⟩ nve).1.2.2
              have := hU.2.1
              omega
        have hE : ∀ e, MemE b i e ↔ MemE b j e := by
          intro e
          refine ⟨fun hM => ?_, sub e⟩
          have e1 : b.elen j = b.elen i := by rw [q2, eel]
          have hsub : ∀ x, InB b.iw (b.pe j) (b.elen i) x → InB b.iw (b.pe i) (b.elen i) x := by
            intro x hx; rw [← e1] at hx; exact sub x hx
          have := (h.core.nodup i hiV).eq_of_sub (e1 ▸ h.core.nodup j hjV) hsub e hM
          unfold MemE; rw [e1]; exact this
        have hlm : jlast ∈ i :: t := by rw [← elast]; exact List.getLast_mem _
        obtain ⟨⟨hlV, hln⟩, hll⟩ := hmem jlast (by
          rw [List.mem_append]; exact Or.inl hlm)
        have hlj : jlast ≠ j := by
          rintro rfl
          exact (List.nodup_append.1 hnd).2.2 _ hlm _ (by simp) rfl
        refine (hr.wPe _ hjV.1).bind fun s hr => ?_
        refine Ok_rd (hr.rNv hiV.1) ?_
        refine Ok_rd (hr.rNv hjV.1) ?_
        refine (hr.wNv _ hiV.1).bind fun s hr => ?_
        refine (hr.wNv _ hjV.1).bind fun s hr => ?_
        refine (hr.wElen _ hjV.1).bind fun s hr => ?_
        refine Ok_rd (hr.rNext hjV.1) ?_
        refine (hr.wNext _ hlV.1).bind fun s hr => ?_
        rw [Ok_pure]
        dsimp only at hr ⊢
        obtain ⟨hdet, hV, hN⟩ := h.merge (b := {
            pe := update b.pe j (FLIP i)
            iw := b.iw
            len := b.len
            nv := update (update b.nv i (b.nv i + b.nv j)) j 0
            next := update b.next jlast (b.next j)
            last := b.last
            head := b.head
            elen := update b.elen j EMPTY
            degree := b.degree
            w := b.w
            top := b.top }) hiV hjV hij hin hjn hE (by rw [hjl]; exact hd) rfl rfl rfl rfl rfl rfl rfl rfl
            rfl rfl (fun x hx => by
              refine Function.update_of_ne ?_ _ _
              rintro rfl
              rcases hx with hx | hx
              · have := hx.2; omega
              · exact hx.2 (by rw [hll, hjl]))
        have jme : me ≠ j := fun q => by
          have := h.meI.2.1; have := hjV.2.2; rw [q] at *; omega
        refine ⟨l3.length, by rw [hk]; simp, _, t, l3, hr, hdet, hfr.trans
          ⟨rfl, rfl, Function.update_of_ne jme _ _, rfl, fun x hx => ?_⟩, ew, ?_, ?_, elast, ?_, ?_, ?_,
          ?_, rfl, ?_⟩
        · exact ⟨((hV x).1 hx.1).1, (hN x hx.1).1 hx.2⟩
        · dsimp only; rw [Function.update_of_ne hij]; exact epe
        · dsimp only; rw [Function.update_of_ne hij]; exact eel
        · have := Lst.splice (l1 := i :: t) (by simp) hl hnd
          rw [elast] at this
          exact this
        · exact (List.perm_middle.nodup_iff.1 hnd |> List.nodup_cons.1).2
        · intro x hx
          have hx' : x ∈ i :: t ++ j :: l3 := by
            simp only [List.mem_append, List.mem_cons] at hx ⊢; tauto
          obtain ⟨⟨g1, g2⟩, g3⟩ := hmem x hx'
          have hxj : x ≠ j := by
            rintro rfl
            exact (List.nodup_cons.1 (List.perm_middle.nodup_iff.1 hnd)).1 hx
          have := (hV x).2 ⟨g1, hxj⟩
          exact ⟨⟨this, (hN x this).2 g2⟩, g3⟩
        · refine hl3.congr fun x hx => Function.update_of_ne ?_ _ _
          rintro rfl
          exact (List.nodup_append.1 hnd).2.2 x hlm x (by simp [hx]) rfl
        · simp at hlen; omega
      · refine Ok_rd (hr.rNext hjV.1) ?_
        rw [Ok_pure]
        refine ⟨l3.length, by rw [hk]; simp, b, t ++ [j], l3, hr, h, hfr, ew, epe, eel, by simp, ?_,
          ?_, ?_, hl3, rfl, ?_⟩
        · simpa using hl
        · simpa using hnd
        · intro x hx; exact hmem x (by simpa using hx)
        · simp at hlen ⊢; omega

theorem length_le {l : List Int} (hnd : l.Nodup) (h : ∀ x ∈ l, Idx n x) : l.length ≤ n.toNat := by
  classical
  have : l.toFinset ⊆ ix n := fun x hx => Finset.mem_Ico.2 (h x (by simpa using hx))
  have := Finset.card_le_card this
  rw [List.toFinset_card_of_nodup hnd, Int.card_Ico] at this
  simpa using this

theorem bucket_ok {n : Nat} (hr : Rep n L s a)
    (h : Det n L a me pfree lemax wflg mindeg degme nvpiv nel rk vh vl bh)
    {i d : Int} {l : List Int} (hl : Lst a.next i l)
    (hnd : l.Nodup) (hmem : ∀ x ∈ l, (IsV n a x ∧ a.nv x < 0) ∧ a.last x = d)
    (hd : bh d = -1) :
    Ok (bucket (n + 1) i wflg s) (fun r => ∃ b, Rep n L r.2 b ∧
      Det n L b me pfree lemax r.1 mindeg degme nvpiv nel rk vh vl bh ∧ Fr n a b me) := by
  unfold bucket
  refine iter_ok' (k := l.length) (fun k q => ∃ b l, Rep n L q.2.2 b ∧
    Det n L b me pfree lemax q.2.1 mindeg degme nvpiv nel rk vh vl bh ∧ Fr n a b me ∧
    Lst b.next q.1 l ∧ l.Nodup ∧ (∀ x ∈ l, (IsV n b x ∧ b.nv x < 0) ∧ b.last x = d) ∧ k = l.length)
    ?_ ⟨a, l, hr, h, Fr.refl a, hl, hnd, hmem, rfl⟩ ?_
  · have := length_le (n := n) hnd fun x hx => (hmem x hx).1.1.1
    omega
  · rintro k ⟨i, wf, s⟩ ⟨b, l, hr, h, hfr, hl, hnd, hmem, hk⟩
    dsimp only at hr h hl ⊢
    cases l with
    | nil =>
      have : i = -1 := hl
      rw [if_neg (by simpa [EMPTY_eq] using this), Ok_pure]
      exact ⟨b, hr, h, hfr⟩
    | cons y l =>
      obtain ⟨e, hl2⟩ := hl
      subst e
      obtain ⟨⟨hiV, hin⟩, hil⟩ := hmem i (by simp)
      rw [if_pos (by have := hiV.1; rw [EMPTY_eq]; omega)]
      refine Ok_rd (hr.rNext hiV.1) ?_
      split
      · refine Ok_rd (hr.rLen hiV.1) ?_
        refine Ok_rd (hr.rElen hiV.1) ?_
        refine Ok_rd (hr.rPe hiV.1) ?_
        have hln := (h.core.var i hiV).2.2.1
        rw [Ok_bind]
        have hw0 := h.core.w
        have hw2 := h.core.wflg2
        refine forI_ok (fun p s => ∃ w, Rep n L s { b with w := w } ∧
          (∀ x, Idx n x → w x = b.w x ∨ w x = wf) ∧
          ∀ x, Idx n x → w x = wf → InB b.iw (b.pe i + 1) (b.len i - 1) x) (by omega)
          ⟨b.w, hr, fun x _ => Or.inl rfl, fun x hx e => ?_⟩ ?_ ?_
        · have := hw0 x hx; omega
        · rintro p s p0 p1 ⟨w, hr, h1, h2⟩
          obtain ⟨c1, c2, c3, c4⟩ := h.core.cell hiV (k := p - b.pe i) (by omega) (by omega)
          rw [show b.pe i + (p - b.pe i) = p by ring] at c1 c2 c3 c4
          refine Ok_rd (hr.rIw c1 c2 c3) ?_
          refine (hr.wW wf c4).mono fun s hr => ⟨_, hr, fun x hx => ?_, fun x hx e => ?_⟩
          · by_cases q : x = b.iw p
            · subst q; exact Or.inr (Function.update_self _ _ _)
            · dsimp only; rw [Function.update_of_ne q]; exact h1 x hx
          · by_cases q : x = b.iw p
            · exact ⟨p - b.pe i - 1, by omega, by omega, by rw [q]; congr 1; ring⟩
            · dsimp only at e; rw [Function.update_of_ne q] at e; exact h2 x hx e
        · rintro s ⟨w, hr, h1, h2⟩
          have hdet := h.setW (w := w) (wflg' := wf + 1) (by omega) fun x hx => by
            have := hw0 x hx
            have := h1 x hx
            omega
          refine (absorb_ok (i := i) (l := l) hr hdet ?_ ⟨rfl, hl2⟩ hnd hmem hd h2).bind fun s hs => ?_
          · have := length_le (n := n) hnd fun x hx => (hmem x hx).1.1.1
            simp at this
            omega
          · obtain ⟨c, l', hr, hdet, hfr', ew, hlen, hl', hnd', hmem'⟩ := hs
            refine Ok_rd (hr.rNext (hmem' i (by simp)).1.1.1) ?_
            rw [Ok_pure]
            refine ⟨l'.length, by rw [hk]; simp; omega, c, l', hr, hdet, hfr.trans ?_, hl'.2,
              (List.nodup_cons.1 hnd').2, fun x hx => hmem' x (by simp [hx]), rfl⟩
            exact ⟨hfr'.iw, hfr'.len, hfr'.peme, hfr'.last, hfr'.alive⟩
      · rw [Ok_pure]
        exact ⟨b, hr, h, hfr⟩

theorem detect_ok {n : Nat} (hr : Rep n L s a)
    (h : Det n L a me pfree lemax wflg mindeg degme nvpiv nel rk vh vl bh) (hlen : 0 ≤ a.len me) :
    Ok (detect n (a.pe me) (a.pe me + a.len me - 1) wflg s) (fun r => ∃ b bh', Rep n L r.2 b ∧
      Det n L b me pfree lemax r.1 mindeg degme nvpiv nel rk vh vl bh' ∧
      (∀ d, Idx n d → bh' d = -1) ∧ b.pe me = a.pe me ∧ b.len me = a.len me) := by
  unfold detect
  obtain ⟨hmI, hme, hmp, hmnv⟩ := h.meI
  have hpos := h.core.lay.pos me hmI hmp
  have hfree := h.core.free
  refine forI_ok (fun p q => ∃ b bh', Rep n L q.2 b ∧
    Det n L b me pfree lemax q.1 mindeg degme nvpiv nel rk vh vl bh' ∧ b.iw = a.iw ∧ b.len = a.len ∧
    b.pe me = a.pe me ∧
    ∀ k, a.pe me ≤ k → k < p → IsV n b (a.iw k) → b.nv (a.iw k) < 0 → bh' (b.last (a.iw k)) = -1)
    (by omega) ⟨a, bh, hr, h, rfl, rfl, rfl, fun k h1 h2 => by omega⟩ ?_ ?_
  · rintro p ⟨wf, s⟩ p0 p1 ⟨b, bh', hr, h, e1, e2, e3, hK⟩
    dsimp only at hr h ⊢
    have hfb := h.core.free
    have hx : Idx n (b.iw p) := h.core.vals p (by omega) (by omega)
    refine Ok_rd (hr.rIw (by omega) (by omega) (by omega)) ?_
    refine Ok_rd (hr.rNv hx) ?_
    have hM : MemL b me (b.iw p) := ⟨p - a.pe me, by omega, by rw [e2]; omega, by
      rw [e3]; congr 1; ring⟩
    rw [← e1] at hK
    split
    · rename_i hneg
      obtain ⟨hV, -⟩ := h.lme _ hM (by omega)
      obtain ⟨hI, hLI⟩ := h.hl.mI _ ⟨hV, hneg⟩
      refine ((takeBucket_ok hr h.hl ⟨hV, hneg⟩)).bind fun r hs => ?_
      obtain ⟨er, head, last, hr, hlast, hhl⟩ := hs
      obtain ⟨l, l1, l2, l3⟩ := h.hl.bk _ hLI
      have hdet : Det n L { b with head := head, last := last } me pfree lemax wf mindeg degme nvpiv nel
          rk vh vl (update bh' (b.last (b.iw p)) (-1)) := {
        core := {
          lay := h.core.lay
          room := h.core.room
          free := h.core.free
          vals := h.core.vals
          cls := h.core.cls
          var := h.core.var
          elt := h.core.elt
          eltw := h.core.eltw
          varE := h.core.varE
          varA := h.core.varA
          eltL := h.core.eltL
          nodup := h.core.nodup
          edeg := h.core.edeg
          lemax0 := h.core.lemax0
          w := h.core.w
          wflg2 := h.core.wflg2 }
        meI := h.meI
        epos := h.epos
        flg := h.flg
        lme := h.lme
        inj := h.inj
        fst := h.fst
        hl := hhl
        tree := h.tree
        degm := h.degm
        cnt := h.cnt
        dge := h.dge
        dnn := h.dnn
        nvp := h.nvp }
      rw [er]
      refine (bucket_ok hr hdet (d := b.last (b.iw p)) (l := l) l1 l2 (fun x hx => ?_)
        (Function.update_self _ _ _)).mono fun r hs => ?_
      · obtain ⟨g1, g2⟩ := l3 x hx
        exact ⟨g1, (hlast x g1).trans g2⟩
      · obtain ⟨c, hr, hdet, hfr⟩ := hs
        refine ⟨c, _, hr, hdet, hfr.iw.trans e1, hfr.len.trans e2, hfr.peme.trans e3, ?_⟩
        intro k k0 k1 hV' hn'
        have hal : IsV n b (b.iw k) ∧ b.nv (b.iw k) < 0 := by
          rw [e1]; exact hfr.alive _ ⟨hV', hn'⟩
        have el : c.last (a.iw k) = b.last (b.iw k) := by
          rw [hfr.last, ← e1]; exact hlast _ hal
        rw [el]
        by_cases q : b.last (b.iw k) = b.last (b.iw p)
        · rw [q, Function.update_self]
        · rw [Function.update_of_ne q]
          refine hK k k0 ?_ hal.1 hal.2
          by_contra hc
          have : k = p := by omega
          exact q (by rw [this])
    · rename_i hneg
      rw [Ok_pure]
      refine ⟨b, bh', hr, h, e1, e2, e3, ?_⟩
      rw [← e1]
      intro k k0 k1 hV' hn'
      refine hK k k0 ?_ hV' hn'
      by_contra hc
      have : k = p := by omega
      rw [this] at hn'
      exact hneg hn'
  · rintro ⟨wf, s⟩ ⟨b, bh', hr, h, e1, e2, e3, hK⟩
    dsimp only at hr h ⊢
    refine ⟨b, bh', hr, h, fun d hd => ?_, e3, by rw [e2]⟩
    obtain ⟨l, l1, l2, l3⟩ := h.hl.bk d hd
    cases l with
    | nil => exact l1
    | cons x l =>
      obtain ⟨⟨hV, hn⟩, g2⟩ := l3 x (by simp)
      have xme : x ≠ me := fun q => by
        have := hV.2.2; have := h.meI.2.1; rw [q] at *; omega
      obtain ⟨k, k0, k1, e⟩ := h.flg x hV.1 hn xme
      rw [e2] at k1
      rw [e3, e1] at e
      have := hK (a.pe me + k) (by omega) (by omega) (by rw [e]; exact hV) (by rw [e]; exact hn)
      rw [e, g2] at this
      exact this

end Ecos.Amd
