import Verif.Lemmas.Amd10

/-!
# AMD: Scan 2
-/
namespace Ecos.Amd

open Function (update)

/-- the state in Scan 2 -/
structure S2 (n L : Int) (a : Ab) (me pfree lemax wflg mindeg degme nvpiv nel : Int)
    (Pr : Int → Prop) : Prop where
  mid : Mid n L a me pfree lemax wflg Pr
  hl : ∃ rk vh vl bh, HL n (fun x => IsV n a x ∧ 0 < a.nv x)
    (fun x => IsV n a x ∧ a.nv x < 0 ∧ Pr x) a.head a.next a.last a.degree rk vh vl bh
  tree : ∃ rk rep, Tree n a.pe (update (anv a) me nvpiv) a.elen rk rep
  degm : degme = sumB n (anv a) (fun x => IsV n a x ∧ a.nv x < 0)
  cnt : nel + sumB n (anv a) (fun x => IsV n a x) = n
  dge : ∀ i, IsV n a i → 0 < a.nv i → mindeg ≤ a.degree i
  dnn : ∀ i, IsV n a i → 0 ≤ a.degree i
  nvp : 0 < nvpiv

variable {n L : Int} {a : Ab} {me pfree lemax wflg mindeg : Int} {Pr : Int → Prop}

/-- `i` has been brought up to date: what changes is its list, its degree and the absorbed
elements -/
theorem S2.keep {degme nvpiv nel : Int} (h : S2 n L a me pfree lemax wflg mindeg degme nvpiv nel Pr)
    {b : Ab} {i k1 k2 : Int} (hi : IsV n a i)
    (hni : a.nv i < 0) (hPi : ¬ Pr i) (hnv : b.nv = a.nv) (htop : b.top = a.top)
    (helen : b.elen = update a.elen i k1) (hlen : b.len = update a.len i k2)
    (hk : 1 ≤ k1 ∧ k1 ≤ k2 ∧ k2 ≤ a.len i)
    (hpS : ∀ x, Ab2 a wflg i x → b.pe x = FLIP me ∧ b.w x = 0)
    (hpO : ∀ x, ¬ Ab2 a wflg i x → b.pe x = a.pe x ∧ b.w x = a.w x)
    (hiw : ∀ p, p < a.pe i ∨ a.pe i + a.len i ≤ p → b.iw p = a.iw p)
    (hval : ∀ p, a.pe i ≤ p → p < a.pe i + a.len i → Idx n (b.iw p))
    (hE : ∀ e, InB b.iw (a.pe i) k1 e ↔ e = me ∨ (MemE a i e ∧ wflg < a.w e))
    (hA : ∀ j, InB b.iw (a.pe i + k1) (k2 - k1) j ↔ MemA a i j ∧ 0 < a.nv j)
    (hinj : Inj b.iw (a.pe i) k1) (hfst : b.iw (a.pe i) = me)
    (hdeg : ∀ x, x ≠ i → b.degree x = a.degree x)
    (hdi : 0 ≤ b.degree i)
    (hhl : ∃ rk vh vl bh, HL n (fun x => IsV n a x ∧ 0 < a.nv x)
      (fun x => (IsV n a x ∧ a.nv x < 0 ∧ Pr x) ∨ x = i) b.head b.next b.last b.degree rk vh vl bh) :
    S2 n L b me pfree lemax wflg mindeg degme nvpiv nel (fun x => Pr x ∨ x = i) := by
  have hm := h.mid.keep hi hni hPi hnv htop helen hlen hk hpS hpO hiw hval hE hA hinj hfst hdeg
  have ime : i ≠ me := fun q => by have := hi.2.2; have := h.mid.meI.2.1; rw [q] at *; omega
  have hanv : anv b = anv a := by unfold anv; rw [hnv]
  have V : ∀ x, IsV n b x ↔ IsV n a x := by
    intro x
    unfold IsV
    rw [hnv, helen]
    by_cases q : x = i
    · subst q
      rw [Function.update_self]
      have := hi.2.2
      constructor
      · rintro ⟨q1, q2, -⟩; exact ⟨q1, q2, this⟩
      · rintro ⟨q1, q2, -⟩; exact ⟨q1, q2, by omega⟩
    · rw [Function.update_of_ne q]
  exact {
    mid := hm
    hl := by
      obtain ⟨rk, vh, vl, bh, hh⟩ := hhl
      refine ⟨rk, vh, vl, bh, hh.congr (fun x => by rw [V, hnv]) (fun x => ?_) (fun _ _ => rfl)
        (fun _ _ => rfl) (fun _ _ => rfl) fun _ _ => rfl⟩
      rw [V, hnv]
      constructor
      · rintro ⟨q1, q2, q3 | q3⟩
        · exact Or.inl ⟨q1, q2, q3⟩
        · exact Or.inr q3
      · rintro (⟨q1, q2, q3⟩ | rfl)
        · exact ⟨q1, q2, Or.inl q3⟩
        · exact ⟨hi, hni, Or.inr rfl⟩
    tree := by
      obtain ⟨rk, rep, ht⟩ := h.tree
      obtain ⟨hmI, hme, hmp, hmnv, hmw⟩ := h.mid.meI
      refine Exists.elim (ht.absorbs (S := Ab2 a wflg i) (me := me) (pe' := b.pe) (elen' := b.elen)
        (ν' := update (anv b) me nvpiv) hmI (by omega)
        (by rw [Function.update_self]; have := h.nvp; omega)
        (fun hs => (h.mid.ab2 hi hni hPi hs).1 rfl)
        (by rw [helen, Function.update_of_ne (Ne.symm ime)]; exact hme)
        (fun x hx hs => ?_) (fun x hx hs => Or.inl (hpO x hs).1) (fun x hx he => ?_)
        (fun x hx => by rw [hanv])) fun rk' ht' => ⟨rk', rep, ht'⟩
      · obtain ⟨g1, g2, -⟩ := h.mid.ab2 hi hni hPi hs
        refine ⟨(hpS x hs).1, ?_, by have := g2.2.2; omega⟩
        rw [Function.update_of_ne g1]
        rcases h.mid.cls x hx with c | c | c
        · have := c.2.2; have := g2.2.1; omega
        · have := c.2 g1; unfold anv; rw [abs_of_pos this]; omega
        · have := g2.2.1; omega
      · rw [helen, Function.update_of_ne]
        · exact he
        · rintro rfl
          have := hi.2.2; omega
    degm := by
      rw [h.degm, hanv]
      exact sumB_congr (fun x _ => by rw [V, hnv]) fun _ _ _ => rfl
    cnt := by
      have : sumB n (anv b) (fun x => IsV n b x) = sumB n (anv a) (fun x => IsV n a x) := by
        rw [hanv]
        exact sumB_congr (fun x _ => V x) fun _ _ _ => rfl
      rw [this]; exact h.cnt
    dge := fun x hx hp => by
      rw [V] at hx
      rw [hnv] at hp
      rw [hdeg x (fun q => by rw [q] at hp; omega)]
      exact h.dge x hx hp
    dnn := fun x hx => by
      rw [V] at hx
      by_cases q : x = i
      · rw [q]; exact hdi
      · rw [hdeg x q]; exact h.dnn x hx
    nvp := h.nvp }

/-- `i` is eliminated together with `me` -/
theorem S2.mass {degme nvpiv nel : Int} (h : S2 n L a me pfree lemax wflg mindeg degme nvpiv nel Pr)
    {b : Ab} {i : Int} (hi : IsV n a i)
    (hni : a.nv i < 0) (hPi : ¬ Pr i) (hnv : b.nv = update a.nv i 0) (htop : b.top = a.top)
    (helen : b.elen = update a.elen i (-1)) (hlen : b.len = a.len)
    (hpi : b.pe i = FLIP me ∧ b.w i = a.w i)
    (hpS : ∀ x, Ab2 a wflg i x → b.pe x = FLIP me ∧ b.w x = 0)
    (hpO : ∀ x, x ≠ i → ¬ Ab2 a wflg i x → b.pe x = a.pe x ∧ b.w x = a.w x)
    (hiw : ∀ p, p < a.pe i ∨ a.pe i + a.len i ≤ p → b.iw p = a.iw p)
    (hval : ∀ p, a.pe i ≤ p → p < a.pe i + a.len i → Idx n (b.iw p))
    (hE : ∀ e, MemE a i e → ¬ wflg < a.w e) (hdeg : b.degree = a.degree)
    (hhead : b.head = a.head) (hnext : b.next = a.next) (hlast : b.last = a.last) :
    S2 n L b me pfree lemax wflg mindeg (degme + a.nv i) (nvpiv - a.nv i) (nel - a.nv i)
      (fun x => Pr x ∨ x = i) := by
  obtain ⟨hmI, hme, hmp, hmnv, hmw⟩ := h.mid.meI
  have hFme : FLIP me < 0 := by rw [FLIP_eq]; omega
  have hm := h.mid.mass hi hni hPi hnv htop helen hlen ⟨by omega, hpi.2⟩ hpS hpO hiw hval hE hdeg
  have ime : i ≠ me := fun q => by have := hi.2.2; rw [q] at *; omega
  have nvo : ∀ x, x ≠ i → b.nv x = a.nv x := fun x hx => by rw [hnv, Function.update_of_ne hx]
  have nvi : b.nv i = 0 := by rw [hnv, Function.update_self]
  have V : ∀ x, IsV n b x ↔ IsV n a x ∧ x ≠ i := by
    intro x
    unfold IsV
    by_cases q : x = i
    · subst q
      rw [nvi]
      simp
    · rw [helen, Function.update_of_ne q, nvo x q]
      simp [q]
  have ai : anv a i = - a.nv i := abs_of_neg hni
  exact {
    mid := hm
    hl := by
      obtain ⟨rk, vh, vl, bh, hh⟩ := h.hl
      refine ⟨rk, vh, vl, bh, hh.congr (fun x => ?_) (fun x => ?_) (fun _ _ => by rw [hhead])
        (fun _ _ => by rw [hnext]) (fun _ _ => by rw [hlast]) fun _ _ => by rw [hdeg]⟩
      · rw [V]
        constructor
        · rintro ⟨⟨q1, q2⟩, q3⟩
          rw [nvo x q2] at q3
          exact ⟨q1, q3⟩
        · rintro ⟨q1, q3⟩
          have q2 : x ≠ i := fun q => by rw [q] at q3; omega
          rw [nvo x q2]
          exact ⟨⟨q1, q2⟩, q3⟩
      · rw [V]
        constructor
        · rintro ⟨⟨q1, q2⟩, q3, q4⟩
          rw [nvo x q2] at q3
          exact ⟨q1, q3, q4.resolve_right q2⟩
        · rintro ⟨q1, q3, q4⟩
          have q2 : x ≠ i := fun q => by rw [q] at q4; exact hPi q4
          rw [nvo x q2]
          exact ⟨⟨q1, q2⟩, q3, Or.inl q4⟩
    tree := by
      obtain ⟨rk, rep, ht⟩ := h.tree
      have hSi : ¬ Ab2 a wflg i i := fun hs => by
        have := (h.mid.ab2 hi hni hPi hs).2.1.2.1
        have := hi.2.2
        omega
      have hSm : ¬ Ab2 a wflg i me := fun hs => (h.mid.ab2 hi hni hPi hs).1 rfl
      have peme : b.pe me = a.pe me := (hpO me (Ne.symm ime) hSm).1
      have pei := (h.mid.var i hi).1
      have hnvp := h.nvp
      -- first the elements, then `i`
      refine Exists.elim (ht.absorbs (S := Ab2 a wflg i) (me := me) (pe' := update b.pe i (a.pe i))
        (elen' := a.elen) (ν' := update (anv a) me nvpiv) hmI (by omega)
        (by rw [Function.update_self]; omega) hSm hme
        (fun x hx hs => ?_) (fun x hx hs => Or.inl ?_) (fun x hx he => he) (fun x hx => rfl)) fun rk' ht' => ?_
      · obtain ⟨g1, g2, -⟩ := h.mid.ab2 hi hni hPi hs
        have q : x ≠ i := fun q => hSi (q ▸ hs)
        refine ⟨by rw [Function.update_of_ne q]; exact (hpS x hs).1, ?_, by have := g2.2.2; omega⟩
        rw [Function.update_of_ne g1]
        rcases h.mid.cls x hx with c | c | c
        · have := c.2.2; have := g2.2.1; omega
        · have := c.2 g1; unfold anv; rw [abs_of_pos this]; omega
        · have := g2.2.1; omega
      · by_cases q : x = i
        · subst q; rw [Function.update_self]
        · rw [Function.update_of_ne q]; exact (hpO x q hs).1
      · have := ht'.merge (i := me) (j := i) (pe' := b.pe) (elen' := b.elen)
          (ν' := update (anv b) me (nvpiv - a.nv i)) hmI hi.1
          (Ne.symm ime) (by rw [Function.update_self]; omega)
          (by rw [Function.update_of_ne ime, ai]; omega)
          (by rw [Function.update_of_ne (Ne.symm ime)]; omega)
          (by rw [Function.update_self]; omega) hi.2.2 (fun x hx he => ?_) (fun x hx => ?_)
          (fun x hx => ?_)
        · exact this
        · rw [helen, Function.update_of_ne]
          · exact he
          · rintro rfl
            have := hi.2.2; omega
        · by_cases q : x = i
          · subst q
            rw [Function.update_self, Function.update_of_ne ime]
            unfold anv; rw [nvi]; rfl
          · rw [Function.update_of_ne q]
            by_cases q' : x = me
            · subst q'
              rw [Function.update_self, Function.update_self, Function.update_self,
                Function.update_of_ne ime, ai]
              ring
            · rw [Function.update_of_ne q', Function.update_of_ne q', Function.update_of_ne q']
              unfold anv; rw [nvo x q]
        · by_cases q : x = i
          · subst q; rw [Function.update_self]; exact hpi.1
          · rw [Function.update_of_ne q, Function.update_of_ne q]
    degm := by
      have : sumB n (anv a) (fun x => IsV n a x ∧ a.nv x < 0)
          = sumB n (anv a) (fun x => IsV n b x ∧ b.nv x < 0) + anv a i :=
        sumB_add hi.1 (fun q => ((V i).1 q.1).2 rfl) fun x _ => by
          constructor
          · rintro ⟨q1, q2⟩
            by_cases q : x = i
            · exact Or.inr q
            · exact Or.inl ⟨(V x).2 ⟨q1, q⟩, by rw [nvo x q]; exact q2⟩
          · rintro (⟨q1, q2⟩ | rfl)
            · rw [nvo x ((V x).1 q1).2] at q2
              exact ⟨((V x).1 q1).1, q2⟩
            · exact ⟨hi, hni⟩
      have e2 : sumB n (anv b) (fun x => IsV n b x ∧ b.nv x < 0)
          = sumB n (anv a) (fun x => IsV n b x ∧ b.nv x < 0) :=
        sumB_congr (fun x _ => Iff.rfl) fun x _ hq => by
          unfold anv; rw [nvo x ((V x).1 hq.1).2]
      rw [e2, h.degm, this, ai]; ring
    cnt := by
      have : sumB n (anv a) (fun x => IsV n a x)
          = sumB n (anv a) (fun x => IsV n b x) + anv a i :=
        sumB_add hi.1 (fun q => ((V i).1 q).2 rfl) fun x _ => by
          constructor
          · intro q1
            by_cases q : x = i
            · exact Or.inr q
            · exact Or.inl ((V x).2 ⟨q1, q⟩)
          · rintro (q1 | rfl)
            · exact ((V x).1 q1).1
            · exact hi
      have e2 : sumB n (anv b) (fun x => IsV n b x) = sumB n (anv a) (fun x => IsV n b x) :=
        sumB_congr (fun x _ => Iff.rfl) fun x _ hq => by
          unfold anv; rw [nvo x ((V x).1 hq).2]
      have := h.cnt
      rw [e2]; omega
    dge := fun x hx hp => by
      rw [V] at hx
      rw [nvo x hx.2] at hp
      rw [hdeg]
      exact h.dge x hx.1 hp
    dnn := fun x hx => by
      rw [V] at hx
      rw [hdeg]; exact h.dnn x hx.1
    nvp := by have := h.nvp; omega }

theorem updateVar_ok {c : Cnt} (hn : 0 < n) (hr : Rep n L c.s a)
    (h : S2 n L a me pfree lemax wflg mindeg c.degme c.nvpiv c.nel Pr) {i : Int} (hi : IsV n a i)
    (hni : a.nv i < 0) (hPi : ¬ Pr i) :
    Ok (updateVar n me wflg i c) (fun c' => ∃ b, Rep n L c'.s b ∧
      b.pe me = a.pe me ∧ b.len me = a.len me ∧
      (∀ k, 0 ≤ k → k < a.len me → b.iw (a.pe me + k) = a.iw (a.pe me + k)) ∧
      (∀ x, x ≠ i → b.nv x = a.nv x) ∧ c.nel ≤ c'.nel ∧
      S2 n L b me pfree lemax wflg mindeg c'.degme c'.nvpiv c'.nel (fun x => Pr x ∨ x = i)) := by
  obtain ⟨hmI, hme, hmp, hmnv, hmw⟩ := h.mid.meI
  obtain ⟨v1, v2, v3, v4⟩ := h.mid.var i hi
  obtain ⟨f0, f1, f2⟩ := h.mid.free
  obtain ⟨l0, l1⟩ := h.mid.lay.pos i hi.1 v1
  have he0 := hi.2.2
  have ime : i ≠ me := fun q => by rw [q] at he0; omega
  have hFme : FLIP me < 0 := by rw [FLIP_eq]; omega
  have hSi : ¬ Ab2 a wflg i i := fun hs => by
    have := (h.mid.ab2 hi hni hPi hs).2.1.2.1
    omega
  have hSm : ¬ Ab2 a wflg i me := fun hs => (h.mid.ab2 hi hni hPi hs).1 rfl
  have hdisj := h.mid.lay.disj me i hmI hi.1 (Ne.symm ime) hmp v1
  have hmepos := h.mid.lay.pos me hmI hmp
  unfold updateVar
  refine Ok_rd (hr.rPe hi.1) ?_
  refine Ok_rd (hr.rElen hi.1) ?_
  dsimp only
  refine (scanElems_ok hr (me := me) (wflg := wflg) v1 he0 (by omega) (by omega)
    (fun e he => h.mid.entry hi he) (h.mid.nodup i hi) h.mid.wflg2).bind ?_
  rintro q ⟨pe', w', iw1, hr, hd, hn1, hn2, hB, hI, hO, hS, hU, hA⟩
  refine (hr.wElen _ hi.1).bind fun s hr => ?_
  refine Ok_rd (hr.rLen hi.1) ?_
  dsimp only
  have hA0 : ∀ j, InB iw1 (a.pe i + a.elen i) (a.pe i + a.len i - (a.pe i + a.elen i)) j ↔
      MemA a i j := by
    intro j
    unfold MemA
    rw [show a.pe i + a.len i - (a.pe i + a.elen i) = a.len i - a.elen i by ring]
    exact InB.congr (fun k k0 k1 => hO _ (Or.inr (by omega))) j
  have hAI : ∀ j, MemA a i j → Idx n j := by
    rintro j ⟨k, k0, k1, rfl⟩
    exact h.mid.vals _ (by omega) (by omega)
  refine (scanVars_ok (q := { q with s := s }) hr (lo := a.pe i + a.elen i)
    (hi := a.pe i + a.len i) (by dsimp only; omega) hn2 (by omega) (by dsimp only; omega) (by omega)
    (fun e he => hAI e ((hA0 e).1 he))).bind ?_
  rintro q' ⟨iw2, hr, hd', hn3, hn4, hB2, hO2, hA2⟩
  dsimp only at hr hd' hn3 hn4 hB2 hO2 hA2
  simp only [hA0] at hB2 hA2
  -- the list has become shorter
  have hshort : q'.pn < a.pe i + a.len i := by
    by_contra hc
    have e1 : q.pn = a.pe i + a.elen i := by omega
    have e2 : q'.pn - q.pn = a.pe i + a.len i - (a.pe i + a.elen i) := by omega
    rcases h.mid.sh i hi hni hPi with ⟨e, g1, g2⟩ | g
    · have := hA e1 e g1
      have := h.mid.wflg2
      omega
    · have := hA2 e2 me g
      omega
  have hEI2 : ∀ e, InB iw2 (a.pe i) (q.pn - a.pe i) e ↔ MemE a i e ∧ wflg < a.w e := by
    intro e
    refine Iff.trans ?_ (hB e)
    exact InB.congr (fun k k0 k1 => hO2 _ (Or.inl (by omega))) e
  have hval2 : ∀ p, a.pe i ≤ p → p < a.pe i + a.len i → Idx n (iw2 p) := by
    intro p p0 p1
    by_cases c1 : p < q.pn
    · have : InB iw2 (a.pe i) (q.pn - a.pe i) (iw2 p) :=
        ⟨p - a.pe i, by omega, by omega, by congr 1; ring⟩
      exact h.mid.entry hi ((hEI2 _).1 this).1
    · by_cases c2 : p < q'.pn
      · have : InB iw2 q.pn (q'.pn - q.pn) (iw2 p) :=
          ⟨p - q.pn, by omega, by omega, by congr 1; ring⟩
        exact hAI _ ((hB2 _).1 this).1
      · rw [hO2 p (Or.inr (by omega)), hO p (Or.inr (by omega))]
        exact h.mid.vals p (by omega) (by omega)
  have hout2 : ∀ p, p < a.pe i ∨ a.pe i + a.len i ≤ p → iw2 p = a.iw p := by
    intro p hp
    rw [hO2 p (by omega), hO p (by omega)]
  have hS' : ∀ x, Ab2 a wflg i x → pe' x = FLIP me ∧ w' x = 0 := fun x hs => hS x hs.1 hs.2.1 hs.2.2
  have hU' : ∀ x, ¬ Ab2 a wflg i x → pe' x = a.pe x ∧ w' x = a.w x := fun x hs => hU x hs
  refine Ok_rd (hr.rElen hi.1) ?_
  dsimp only
  rw [Function.update_self]
  by_cases hmass : q.pn - a.pe i + 1 = 1 ∧ q.pn = q'.pn
  · rw [if_pos hmass]
    refine (hr.wPe _ hi.1).bind fun s hr => ?_
    refine Ok_rd (hr.rNv hi.1) ?_
    dsimp only
    refine (hr.wNv _ hi.1).bind fun s hr => ?_
    refine (hr.wElen _ hi.1).bind fun s hr => ?_
    rw [Ok_pure]
    dsimp only at hr ⊢
    rw [Function.update_idem, EMPTY_eq] at hr
    refine ⟨_, hr, ?_, rfl, ?_, ?_, by omega, ?_⟩
    · dsimp only
      rw [Function.update_of_ne (Ne.symm ime)]
      exact (hU' me hSm).1
    · intro k k0 k1
      dsimp only
      exact hout2 _ (by omega)
    · intro x hx
      dsimp only
      rw [Function.update_of_ne hx]
    · have := h.mass hi hni hPi rfl rfl rfl rfl (b := { a with
        pe := update pe' i (FLIP me), iw := iw2, w := w', nv := update a.nv i 0,
        elen := update a.elen i (-1) }) ⟨?_, ?_⟩ ?_ ?_ ?_ ?_ ?_ rfl rfl rfl rfl
      · rw [show c.degme - -a.nv i = c.degme + a.nv i by ring,
          show c.nvpiv + -a.nv i = c.nvpiv - a.nv i by ring,
          show c.nel + -a.nv i = c.nel - a.nv i by ring]
        exact this
      · dsimp only; rw [Function.update_self]
      · exact (hU' i hSi).2
      · intro x hs
        have q : x ≠ i := fun q => hSi (q ▸ hs)
        dsimp only
        rw [Function.update_of_ne q]
        exact hS' x hs
      · intro x q hs
        dsimp only
        rw [Function.update_of_ne q]
        exact hU' x hs
      · exact hout2
      · exact hval2
      · intro e he hw
        obtain ⟨k, k0, k1, _⟩ := (hEI2 e).2 ⟨he, hw⟩
        omega
  · rw [if_neg hmass]
    have hlt : a.pe i < q'.pn := by omega
    refine Ok_rd (hr.rDegree hi.1) ?_
    refine (hr.wDegree _ hi.1).bind fun s hr => ?_
    refine Ok_rd (hr.rIw (by omega) (by dsimp only; omega) (by omega)) ?_
    refine (hr.wIw (i := q'.pn) _ (by omega) (by dsimp only; omega) (by omega)).bind fun s hr => ?_
    refine Ok_rd (hr.rIw (by omega) (by dsimp only; omega) (by omega)) ?_
    refine (hr.wIw (i := q.pn) _ (by omega) (by dsimp only; omega) (by omega)).bind fun s hr => ?_
    refine (hr.wIw (i := a.pe i) _ (by omega) (by dsimp only; omega) (by omega)).bind fun s hr => ?_
    refine (hr.wLen _ hi.1).bind fun s hr => ?_
    dsimp only at hr
    have hpl : update (update (update iw2 q'.pn (iw2 q.pn)) q.pn
        (update iw2 q'.pn (iw2 q.pn) (a.pe i))) (a.pe i) me
        = placed iw2 me (a.pe i) q.pn q'.pn := by
      unfold placed
      rw [Function.update_of_ne (f := iw2) (by omega)]
    rw [hpl] at hr
    obtain ⟨rk, vh, vl, bh, hh⟩ := h.hl
    have hh2 := hh.congr (head' := a.head) (next' := a.next) (last' := a.last)
      (deg' := update a.degree i (min (a.degree i) q'.deg)) (P' := fun x => IsV n a x ∧ 0 < a.nv x)
      (M' := fun x => IsV n a x ∧ a.nv x < 0 ∧ Pr x) (fun _ => Iff.rfl) (fun _ => Iff.rfl)
      (fun _ _ => rfl) (fun _ _ => rfl) (fun _ _ => rfl)
      (fun x hx => Function.update_of_ne (fun q => by rw [q] at hx; omega) _ _)
    refine (pushHash_ok hr hh2 hi.1 (fun hc => by omega) (fun hc => hPi hc.2.2)
      (hashKey_idx hn q'.hash)).bind ?_
    rintro s ⟨head, next, last, bh', hr, hh3⟩
    rw [Ok_pure]
    dsimp only at hr ⊢
    refine ⟨_, hr, (hU' me hSm).1, ?_, ?_, fun _ _ => rfl, le_rfl, ?_⟩
    · dsimp only; rw [Function.update_of_ne (Ne.symm ime)]
    · intro k k0 k1
      dsimp only
      rw [placed_out hn1 (by omega) (by omega)]
      exact hout2 _ (by omega)
    · have hdi := h.dnn i hi
      refine h.keep (k1 := q.pn - a.pe i + 1) (k2 := q'.pn - a.pe i + 1) hi hni hPi rfl rfl rfl rfl
        (by omega) hS' hU' ?_ ?_ ?_ ?_ ?_ placed_fst ?_ ?_ ⟨rk, vh, vl, bh', hh3⟩
      · intro p hp
        dsimp only
        rw [placed_out hn1 (by omega) (by omega)]
        exact hout2 p hp
      · intro p p0 p1
        dsimp only
        by_cases c0 : p = a.pe i
        · rw [c0, placed_fst]; exact hmI
        · by_cases c1 : p = q.pn
          · rw [c1, placed_p3 (by omega)]; exact hval2 _ (by omega) (by omega)
          · by_cases c2 : p = q'.pn
            · rw [c2, placed_pn hlt (by omega)]; exact hval2 _ (by omega) (by omega)
            · rw [placed_mid (by omega) c1 c2]; exact hval2 _ p0 p1
      · intro e
        dsimp only
        rw [placed_E hn1 hn3, hEI2]
      · intro j
        dsimp only
        rw [placed_A hn1 hn3 hlt, hB2]
      · dsimp only
        refine placed_inj hn1 hn3 ?_ fun hc => ?_
        · intro k k' k0 k1 k0' k1' e
          rw [hO2 _ (Or.inl (by omega)), hO2 _ (Or.inl (by omega))] at e
          exact hI k k' k0 k1 k0' k1' e
        · have := ((hEI2 me).1 hc).1
          exact (h.mid.dE i me hi hni hPi this).1 rfl
      · intro x hx
        dsimp only
        rw [Function.update_of_ne hx]
      · dsimp only
        rw [Function.update_self]
        omega

/-- Scan 2 -/
theorem scan2_ok {c : Cnt} (hn : 0 < n) (hr : Rep n L c.s a)
    (h : S2 n L a me pfree lemax wflg mindeg c.degme c.nvpiv c.nel (fun _ => False))
    (hall : ∀ x, MemL a me x → a.nv x ≠ 0) :
    Ok (scan2 n me (a.pe me) (a.pe me + a.len me - 1) wflg c) (fun c' => ∃ b, Rep n L c'.s b ∧
      b.pe me = a.pe me ∧ b.len me = a.len me ∧ c.nel ≤ c'.nel ∧
      S2 n L b me pfree lemax wflg mindeg c'.degme c'.nvpiv c'.nel (fun _ => True)) := by
  obtain ⟨hmI, hme, hmp, hmnv, hmw⟩ := h.mid.meI
  obtain ⟨hl0, hlB⟩ := h.mid.lay.pos me hmI hmp
  obtain ⟨f0, f1, f2⟩ := h.mid.free
  unfold scan2
  rw [show a.pe me + a.len me - 1 + 1 = a.pe me + a.len me by ring]
  refine forI_ok (fun p c' => ∃ b, Rep n L c'.s b ∧ b.pe me = a.pe me ∧ b.len me = a.len me ∧
    (∀ k, 0 ≤ k → k < a.len me → b.iw (a.pe me + k) = a.iw (a.pe me + k)) ∧
    (∀ k, p ≤ a.pe me + k → k < a.len me → b.nv (a.iw (a.pe me + k)) = a.nv (a.iw (a.pe me + k))) ∧
    c.nel ≤ c'.nel ∧
    S2 n L b me pfree lemax wflg mindeg c'.degme c'.nvpiv c'.nel
      (fun x => InB a.iw (a.pe me) (p - a.pe me) x)) (by omega) ?_ ?_ ?_
  · refine ⟨a, hr, rfl, rfl, fun _ _ _ => rfl, fun _ _ _ => rfl, le_rfl, ?_⟩
    have : (fun x => InB a.iw (a.pe me) (a.pe me - a.pe me) x) = fun _ => False := by
      funext x
      refine propext ⟨?_, fun h => h.elim⟩
      rintro ⟨k, k0, k1, _⟩
      omega
    rw [this]; exact h
  · rintro p c p0 p1 ⟨b, hr, b1, b2, b3, b4, b5, hb⟩
    have hp : b.iw p = a.iw p := by
      have := b3 (p - a.pe me) (by omega) (by omega)
      rwa [show a.pe me + (p - a.pe me) = p by ring] at this
    obtain ⟨f0, f1, f2⟩ := hb.mid.free
    refine Ok_rd (hr.rIw (by omega) (by omega) (by omega)) ?_
    rw [hp]
    have hL : MemL a me (a.iw p) := ⟨p - a.pe me, by omega, by omega, by congr 1; ring⟩
    have hLb : MemL b me (a.iw p) := by
      unfold MemL
      rw [b1, b2]
      exact (InB.congr b3 _).2 hL
    have hnv : b.nv (a.iw p) = a.nv (a.iw p) := by
      have := b4 (p - a.pe me) (by omega) (by omega)
      rwa [show a.pe me + (p - a.pe me) = p by ring] at this
    have hne := hall _ hL
    obtain ⟨g1, g2⟩ := hb.mid.lme _ hLb (by omega)
    have hnot : ¬ InB a.iw (a.pe me) (p - a.pe me) (a.iw p) := by
      rintro ⟨k, k0, k1, ek⟩
      have := h.mid.inj k (p - a.pe me) k0 (by omega) (by omega) (by omega)
        (by rw [ek]; congr 1; ring)
      omega
    refine (updateVar_ok hn hr hb g1 g2 hnot).mono ?_
    rintro c' ⟨b', hr', e1, e2, e3, e4, e5, hb'⟩
    refine ⟨b', hr', by rw [e1, b1], by rw [e2, b2], fun k k0 k1 => ?_, fun k k0 k1 => ?_,
      le_trans b5 e5, ?_⟩
    · rw [← b3 k k0 k1, ← b1]
      exact e3 k k0 (by omega)
    · rw [e4, b4 k (by omega) k1]
      intro q
      have := h.mid.inj k (p - a.pe me) (by omega) (by omega) (by omega) (by omega)
        (by rw [q]; congr 1; ring)
      omega
    · have : (fun x => InB a.iw (a.pe me) (p + 1 - a.pe me) x)
          = fun x => InB a.iw (a.pe me) (p - a.pe me) x ∨ x = a.iw p := by
        funext x
        refine propext ?_
        rw [show p + 1 - a.pe me = (p - a.pe me) + 1 by ring, InB.succ (by omega),
          show a.pe me + (p - a.pe me) = p by ring]
      rw [this]; exact hb'
  · rintro c ⟨b, hr, b1, b2, b3, b4, b5, hb⟩
    refine ⟨b, hr, b1, b2, b5, ?_⟩
    rw [show a.pe me + a.len me - a.pe me = a.len me by ring] at hb
    have hPr : ∀ x, IsV n b x → b.nv x < 0 → InB a.iw (a.pe me) (a.len me) x := by
      intro x hx hn
      have := hb.mid.flg x hx.1 hn (fun q => by
        have := hx.2.2; have := hb.mid.meI.2.1; rw [q] at *; omega)
      unfold MemL at this
      rw [b1, b2] at this
      exact (InB.congr b3 _).1 this
    have hm := hb.mid
    exact { hb with
      mid := { hm with
        dE := fun _ _ _ _ h => (h trivial).elim
        dA := fun _ _ _ _ h => (h trivial).elim
        sh := fun _ _ _ h => (h trivial).elim
        pme := fun x hx hn _ => hm.pme x hx hn (hPr x hx hn)
        pA := fun x j hx hn _ => hm.pA x j hx hn (hPr x hx hn)
        pE := fun x j hx hn _ => hm.pE x j hx hn (hPr x hx hn) }
      hl := by
        obtain ⟨rk, vh, vl, bh, hh⟩ := hb.hl
        refine ⟨rk, vh, vl, bh, hh.congr (fun _ => Iff.rfl) (fun x => ?_) (fun _ _ => rfl)
          (fun _ _ => rfl) (fun _ _ => rfl) fun _ _ => rfl⟩
        constructor
        · rintro ⟨q1, q2, _⟩; exact ⟨q1, q2, hPr x q1 q2⟩
        · rintro ⟨q1, q2, _⟩; exact ⟨q1, q2, trivial⟩ }

end Ecos.Amd
