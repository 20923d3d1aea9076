import Verif.Lemmas.Amd14

/-!
# AMD: the end of a pivot step
-/
namespace Ecos.Amd

open Function (update)

variable {n L : Int} {s : St} {a b : Ab} {me pfree lemax wflg mindeg degme nvpiv nel : Int}
  {rk : Int → Nat} {vh vl bh : Int → Int}

/-- the variables of the new element that come before position `p` -/
def Done (n : Int) (a : Ab) (me p x : Int) : Prop :=
  IsV n a x ∧ a.nv x < 0 ∧ ∃ k, a.pe me ≤ k ∧ k < p ∧ a.iw k = x

/-- the state while the degree lists are restored: `m` variables have been kept -/
structure RI (n L : Int) (a : Ab) (me p m md : Int) (b : Ab) : Prop where
  pe : b.pe = a.pe
  len : b.len = a.len
  elen : b.elen = a.elen
  w : b.w = a.w
  top : b.top = a.top
  m0 : 0 ≤ m ∧ a.pe me + m ≤ p
  nvD : ∀ x, Idx n x → Done n a me p x → b.nv x = - a.nv x
  nvO : ∀ x, Idx n x → ¬ Done n a me p x → b.nv x = a.nv x
  inB : ∀ x, InB b.iw (a.pe me) m x ↔ Done n a me p x
  iwO : ∀ k, k < a.pe me ∨ a.pe me + m ≤ k → b.iw k = a.iw k
  deg : ∀ x, ¬ Done n a me p x → b.degree x = a.degree x
  md0 : 0 ≤ md
  mdD : ∀ x, IsV n a x → 0 < b.nv x → md ≤ b.degree x
  dl : ∃ rk, DL n (fun x => IsV n a x ∧ 0 < b.nv x) b.head b.next b.last b.degree rk

theorem restore_ok (hr : Rep n L s a)
    (h : Det n L a me pfree lemax wflg mindeg degme nvpiv nel rk vh vl bh)
    (hbh : ∀ d, Idx n d → bh d = -1) (hlen : 0 ≤ a.len me) (hnel : 0 ≤ nel) (hmd : 0 ≤ mindeg) :
    Ok (restore (a.pe me) (a.pe me + a.len me - 1) (n - nel) degme mindeg s) (fun r =>
      ∃ b, Rep n L r.s b ∧
        RI n L a me (a.pe me + a.len me) (r.p - a.pe me) r.mindeg b) := by
  obtain ⟨hmI, hme, hmp, hmnv⟩ := h.meI
  have hpos := h.core.lay.pos me hmI hmp
  have hfree := h.core.free
  have noD : ∀ x, ¬ Done n a me (a.pe me) x := by
    rintro x ⟨-, -, k, k0, k1, -⟩; omega
  unfold restore
  rw [show a.pe me + a.len me - 1 + 1 = a.pe me + a.len me by ring]
  refine forI_ok (fun p q => ∃ b, Rep n L q.s b ∧ RI n L a me p (q.p - a.pe me) q.mindeg b)
    (by omega) ?_ ?_ fun q hq => hq
  · refine ⟨a, hr, {
      pe := rfl, len := rfl, elen := rfl, w := rfl, top := rfl
      m0 := by dsimp only; omega
      nvD := fun x _ hx => (noD x hx).elim
      nvO := fun _ _ _ => rfl
      inB := fun x => ⟨fun ⟨k, k0, k1, _⟩ => by dsimp only at k1; omega, fun hx => (noD x hx).elim⟩
      iwO := fun _ _ => rfl
      deg := fun _ _ => rfl
      md0 := hmd
      mdD := fun x hx hp => h.dge x hx hp
      dl := ⟨rk, h.hl.toDL hbh⟩ }⟩
  · rintro p q p0 p1 ⟨b, hr, hI⟩
    have hm := hI.m0
    have eiw : b.iw p = a.iw p := hI.iwO p (by omega)
    have hx : Idx n (b.iw p) := by rw [eiw]; exact h.core.vals p (by omega) (by omega)
    have htop := hI.top
    refine Ok_rd (hr.rIw (by omega) (by omega) (by omega)) ?_
    refine Ok_rd (hr.rNv hx) ?_
    have hM : MemL a me (b.iw p) := ⟨p - a.pe me, by omega, by omega, by rw [eiw]; congr 1; ring⟩
    generalize hgi : b.iw p = i at *
    have notD : ¬ Done n a me p i := by
      rintro ⟨-, -, k, k0, k1, e⟩
      have := h.inj (k - a.pe me) (p - a.pe me) (by omega) (by omega) (by omega) (by omega) (by
        rw [show a.pe me + (k - a.pe me) = k by ring, show a.pe me + (p - a.pe me) = p by ring, e, eiw])
      omega
    have nvi := hI.nvO i hx notD
    dsimp only
    split
    · rename_i hneg
      obtain ⟨hV, hn⟩ := h.lme i hM (by omega)
      have D' : ∀ x, Done n a me (p + 1) x ↔ Done n a me p x ∨ x = i := by
        intro x
        constructor
        · rintro ⟨g1, g2, k, k0, k1, e⟩
          by_cases q : k = p
          · right; rw [← e, q, eiw]
          · left; exact ⟨g1, g2, k, k0, by omega, e⟩
        · rintro (⟨g1, g2, k, k0, k1, e⟩ | rfl)
          · exact ⟨g1, g2, k, k0, by omega, e⟩
          · exact ⟨hV, hn, p, p0, by omega, eiw.symm⟩
      refine (hr.wNv _ hx).bind fun s hr => ?_
      refine Ok_rd (hr.rDegree hx) ?_
      dsimp only
      have hdeg := hI.deg i notD
      have hd0 := h.dnn i hV
      have h1 : - b.nv i ≤ degme := by
        rw [h.degm]
        refine le_trans ?_ (sumB_single_le (fun _ _ _ => abs_nonneg _) hx ⟨hV, hn⟩)
        rw [nvi, abs_of_neg hn]
      have h2 : - b.nv i ≤ n - nel := by
        have h3 : anv a i ≤ sumB n (anv a) (fun x => IsV n a x) :=
          sumB_single_le (fun _ _ _ => abs_nonneg _) hx hV
        have h4 : anv a i = - b.nv i := by unfold anv; rw [nvi, abs_of_neg hn]
        have := h.cnt
        omega
      obtain ⟨d, hd⟩ : ∃ d, d = min (b.degree i + degme - -b.nv i) (n - nel - -b.nv i) := ⟨_, rfl⟩
      rw [← hd]
      have hdI : Idx n d := by
        rw [hd]
        constructor
        · exact le_min (by omega) (by omega)
        · exact lt_of_le_of_lt (min_le_right _ _) (by omega)
      obtain ⟨rk1, hdl⟩ := hI.dl
      have hnp : ¬ (IsV n a i ∧ 0 < b.nv i) := fun q => by have := q.2; omega
      obtain ⟨rk2, hdl2⟩ := hdl.push hnp hx hdI
      refine Ok_rd (hr.rHead hdI) ?_
      dsimp only
      rw [Ok_bind]
      have step : Ok (if b.head d ≠ EMPTY then s.wLast (b.head d) i else pure s) (fun s =>
          Rep n L s { b with
            nv := update b.nv i (-b.nv i)
            last := if b.head d = -1 then b.last else update b.last (b.head d) i }) := by
        rw [EMPTY_eq]
        by_cases e : b.head d = -1
        · rw [if_neg (by simpa using e), Ok_pure]; simp only [e, if_true]; exact hr
        · rw [if_pos e]; simp only [e, if_false]
          exact hr.wLast i (hdl.idx _ (hdl.head1 d hdI e).1).1
      refine step.mono fun s hr => ?_
      refine (hr.wNext _ hx).bind fun s hr => ?_
      refine (hr.wLast _ hx).bind fun s hr => ?_
      refine (hr.wHead _ hdI).bind fun s hr => ?_
      refine (hr.wDegree _ hx).bind fun s hr => ?_
      refine (hr.wIw (i := q.p) _ (by omega) (by dsimp only; omega) (by omega)).bind fun s hr => ?_
      rw [Ok_pure]
      dsimp only at hr ⊢
      have hqp : a.pe me + (q.p - a.pe me) = q.p := by ring
      have nvi' : ∀ x, x ≠ i → update b.nv i (- b.nv i) x = b.nv x := fun x hx =>
        Function.update_of_ne hx _ _
      refine ⟨_, hr, {
        pe := hI.pe, len := hI.len, elen := hI.elen, w := hI.w, top := hI.top
        m0 := by omega
        nvD := fun x hxI hxD => by
          dsimp only
          by_cases e : x = i
          · rw [e, Function.update_self, nvi]
          · rw [nvi' x e]
            exact hI.nvD x hxI (((D' x).1 hxD).resolve_right e)
        nvO := fun x hxI hxD => by
          dsimp only
          have e : x ≠ i := fun e => hxD ((D' x).2 (Or.inr e))
          rw [nvi' x e]
          exact hI.nvO x hxI fun hD => hxD ((D' x).2 (Or.inl hD))
        inB := fun x => by
          dsimp only
          have := InB.push (iw := b.iw) (p := a.pe me) (m := q.p - a.pe me) (v := i) (by omega) x
          rw [hqp] at this
          rw [show q.p + 1 - a.pe me = q.p - a.pe me + 1 by ring, this, hI.inB, D']
        iwO := fun k hk => by
          dsimp only
          rw [Function.update_of_ne (by omega)]
          exact hI.iwO k (by omega)
        deg := fun x hxD => by
          dsimp only
          have e : x ≠ i := fun e => hxD ((D' x).2 (Or.inr e))
          rw [Function.update_of_ne e]
          exact hI.deg x fun hD => hxD ((D' x).2 (Or.inl hD))
        md0 := le_min hI.md0 hdI.1
        mdD := fun x hxV hp => by
          dsimp only at hp ⊢
          by_cases e : x = i
          · rw [e, Function.update_self]; exact min_le_right _ _
          · rw [Function.update_of_ne e]
            rw [nvi' x e] at hp
            exact le_trans (min_le_left _ _) (hI.mdD x hxV hp)
        dl := ⟨rk2, ?_⟩ }⟩
      refine hdl2.congr (fun x => ?_) (fun _ _ => rfl) (fun _ _ => rfl) (fun x _ => ?_)
        (fun _ _ => rfl)
      · dsimp only
        by_cases e : x = i
        · rw [e, Function.update_self]
          exact ⟨fun _ => Or.inr rfl, fun _ => ⟨hV, hneg⟩⟩
        · rw [nvi' x e]
          constructor
          · exact Or.inl
          · rintro (q | q)
            · exact q
            · exact (e q).elim
      · rw [EMPTY_eq]
    · rename_i hneg
      rw [Ok_pure]
      have D' : ∀ x, Done n a me (p + 1) x ↔ Done n a me p x := by
        intro x
        constructor
        · rintro ⟨g1, g2, k, k0, k1, e⟩
          by_cases q : k = p
          · rw [q, ← eiw] at e
            rw [← e] at g2
            omega
          · exact ⟨g1, g2, k, k0, by omega, e⟩
        · rintro ⟨g1, g2, k, k0, k1, e⟩
          exact ⟨g1, g2, k, k0, by omega, e⟩
      exact ⟨b, hr, {
        pe := hI.pe, len := hI.len, elen := hI.elen, w := hI.w, top := hI.top
        m0 := by omega
        nvD := fun x hxI hxD => hI.nvD x hxI ((D' x).1 hxD)
        nvO := fun x hxI hxD => hI.nvO x hxI fun hD => hxD ((D' x).2 hD)
        inB := fun x => by rw [hI.inB, D']
        iwO := hI.iwO
        deg := fun x hxD => hI.deg x fun hD => hxD ((D' x).2 hD)
        md0 := hI.md0
        mdD := hI.mdD
        dl := hI.dl }⟩

theorem RI.inv (h : Det n L a me pfree lemax wflg mindeg degme nvpiv nel rk vh vl bh)
    {m md pfree' : Int} (hI : RI n L a me (a.pe me + a.len me) m md b)
    (hp : pfree' = pfree ∨ (a.pe me + a.len me = pfree ∧ pfree' = a.pe me + m)) :
    Inv n L { b with
      nv := update b.nv me nvpiv
      len := update b.len me m
      pe := if m = 0 then update b.pe me (-1) else b.pe
      w := if m = 0 then update b.w me 0 else b.w } md nel lemax wflg pfree' := by
  have hc := h.core
  obtain ⟨hmI, hme, hmp, hmnv⟩ := h.meI
  have hpos := hc.lay.pos me hmI hmp
  have hm := hI.m0
  have Vme : ∀ x, IsV n a x → x ≠ me := fun x hx q => by have := hx.2.2; rw [q] at this; omega
  -- all variables of the element have been seen
  have D : ∀ x, Done n a me (a.pe me + a.len me) x ↔ IsV n a x ∧ a.nv x < 0 := by
    intro x
    refine ⟨fun q => ⟨q.1, q.2.1⟩, fun q => ⟨q.1, q.2, ?_⟩⟩
    obtain ⟨k, k0, k1, e⟩ := h.flg x q.1.1 q.2 (Vme x q.1)
    exact ⟨a.pe me + k, by omega, by omega, e⟩
  have nvV : ∀ x, Idx n x → x ≠ me → b.nv x = anv a x := by
    intro x hx q
    unfold anv
    by_cases r : IsV n a x ∧ a.nv x < 0
    · rw [hI.nvD x hx ((D x).2 r), abs_of_neg r.2]
    · rw [hI.nvO x hx fun t => r ((D x).1 t), abs_of_nonneg]
      by_contra hc'
      exact r (h.lme x (h.flg x hx (by omega) q) (by omega))
  have nvm : update b.nv me nvpiv me = nvpiv := Function.update_self _ _ _
  have nvo : ∀ x, Idx n x → x ≠ me → update b.nv me nvpiv x = anv a x := fun x hx q => by
    rw [Function.update_of_ne q, nvV x hx q]
  have anv0 : ∀ x, anv a x ≠ 0 ↔ a.nv x ≠ 0 := fun x => by unfold anv; simp
  obtain ⟨f, hf⟩ : ∃ f : Ab, f = { b with
      nv := update b.nv me nvpiv
      len := update b.len me m
      pe := if m = 0 then update b.pe me (-1) else b.pe
      w := if m = 0 then update b.w me 0 else b.w } := ⟨_, rfl⟩
  rw [← hf]
  have peo : ∀ x, x ≠ me → f.pe x = a.pe x := by
    intro x q
    rw [hf]; dsimp only
    split
    · rw [Function.update_of_ne q, hI.pe]
    · rw [hI.pe]
  have pem : f.pe me = if m = 0 then -1 else a.pe me := by
    rw [hf]; dsimp only
    split
    · rw [Function.update_self]
    · rw [hI.pe]
  have leno : ∀ x, x ≠ me → f.len x = a.len x := by
    intro x q
    rw [hf]; dsimp only
    rw [Function.update_of_ne q, hI.len]
  have lenm : f.len me = m := by rw [hf]; exact Function.update_self _ _ _
  have wo : ∀ x, x ≠ me → f.w x = a.w x := by
    intro x q
    rw [hf]; dsimp only
    split
    · rw [Function.update_of_ne q, hI.w]
    · rw [hI.w]
  have wm : f.w me = if m = 0 then 0 else a.w me := by
    rw [hf]; dsimp only
    split
    · rw [Function.update_self]
    · rw [hI.w]
  have eel : f.elen = a.elen := by rw [hf]; exact hI.elen
  have etop : f.top = a.top := by rw [hf]; exact hI.top
  have fnvo : ∀ x, Idx n x → x ≠ me → f.nv x = anv a x := by rw [hf]; exact nvo
  have fnvm : f.nv me = nvpiv := by rw [hf]; exact nvm
  have edeg : ∀ x, ¬ (IsV n a x ∧ a.nv x < 0) → f.degree x = a.degree x := by
    intro x hx
    rw [hf]; exact hI.deg x fun q => hx ((D x).1 q)
  have finB : ∀ x, InB f.iw (a.pe me) m x ↔ IsV n a x ∧ a.nv x < 0 := by
    intro x; rw [hf]; dsimp only; rw [hI.inB, D]
  have fiwO : ∀ k, k < a.pe me ∨ a.pe me + m ≤ k → f.iw k = a.iw k := by rw [hf]; exact hI.iwO
  have hnv' := h.nvp
  have V : ∀ x, IsV n f x ↔ IsV n a x := by
    intro x
    unfold IsV
    rw [eel]
    by_cases q : x = me
    · rw [q]
      constructor <;> rintro ⟨_, _, t⟩ <;> omega
    · constructor
      · rintro ⟨t1, t2, t3⟩
        rw [fnvo x t1 q, anv0] at t2
        exact ⟨t1, t2, t3⟩
      · rintro ⟨t1, t2, t3⟩
        rw [← anv0, ← fnvo x t1 q] at t2
        exact ⟨t1, t2, t3⟩
  have U : ∀ x, x ≠ me → (IsU n f x ↔ IsU n a x) := by
    intro x q
    unfold IsU
    rw [eel, peo x q]
  have Um : IsU n f me ↔ m ≠ 0 := by
    unfold IsU
    rw [eel, pem]
    constructor
    · rintro ⟨_, _, t⟩ r
      rw [if_pos r] at t; omega
    · intro r
      rw [if_neg r]
      exact ⟨hmI, hme, hmp⟩
  have iwx : ∀ x, Idx n x → x ≠ me → 0 ≤ a.pe x → ∀ k, 0 ≤ k → k < a.len x →
      f.iw (a.pe x + k) = a.iw (a.pe x + k) := by
    intro x hx q hp k k0 k1
    refine fiwO _ ?_
    rcases hc.lay.disj x me hx hmI q hp hmp with r | r <;> omega
  have MV : ∀ i, IsV n a i → (∀ e, MemE f i e ↔ MemE a i e) ∧ (∀ e, MemA f i e ↔ MemA a i e) := by
    intro i hi
    obtain ⟨v1, v2, v3, v4⟩ := hc.var i hi
    have e0 := hi.2.2
    have q := Vme i hi
    refine ⟨fun e => ?_, fun e => ?_⟩
    · unfold MemE
      rw [eel, peo i q]
      exact InB.congr (fun k k0 k1 => iwx i hi.1 q v1 k k0 (by omega)) e
    · unfold MemA
      rw [eel, peo i q, leno i q]
      refine InB.congr (fun k k0 k1 => ?_) e
      rw [add_assoc]
      exact iwx i hi.1 q v1 _ (by omega) (by omega)
  have ML : ∀ e, IsU n a e → e ≠ me → ∀ x, MemL f e x ↔ MemL a e x := by
    intro e he q x
    unfold MemL
    rw [peo e q, leno e q]
    exact InB.congr (fun k k0 k1 => iwx e he.1 q he.2.2 k k0 k1) x
  have MLm : m ≠ 0 → ∀ x, MemL f me x ↔ IsV n a x ∧ a.nv x < 0 := by
    intro r x
    unfold MemL
    rw [pem, if_neg r, lenm]
    exact finB x
  have mne : ∀ x, IsV n a x → a.nv x < 0 → m ≠ 0 := by
    intro x h1 h2 r
    obtain ⟨k, k0, k1, -⟩ := (finB x).2 ⟨h1, h2⟩
    omega
  have memE : ∀ i, IsV n a i → a.nv i < 0 → MemE a i me := by
    intro i hi hn
    obtain ⟨g1, g2⟩ := h.fst i hi hn
    exact ⟨0, le_rfl, by omega, by rw [add_zero]; exact g2⟩
  have hpf : pfree' ≤ pfree := by omega
  have nvf0 : ∀ x, Idx n x → (f.nv x ≠ 0 ↔ x = me ∨ a.nv x ≠ 0) := by
    intro x hx
    by_cases q : x = me
    · rw [q, fnvm]; simp; omega
    · rw [fnvo x hx q, anv0]; simp [q]
  have layB : ∀ x, Idx n x → x ≠ me → 0 ≤ a.pe x → a.pe x + a.len x ≤ pfree' := by
    intro x hx q hp0
    have g1 := hc.lay.pos x hx hp0
    rcases hp with r | ⟨r1, r2⟩
    · omega
    · have := hc.pe_len hx q hp0
      rcases hc.lay.disj x me hx hmI q hp0 hmp with t | t <;> omega
  have hanv : ∀ x, IsV n a x → anv f x = anv a x := by
    intro x hx
    show |f.nv x| = _
    rw [fnvo x hx.1 (Vme x hx)]
    unfold anv; rw [abs_abs]
  exact {
    core := {
      lay := by
        have hl := hc.lay.sub (x := me) (v := if m = 0 then -1 else a.pe me) (l := m) hmI
          (fun _ => by split <;> omega)
        have e1 : ∀ x, update a.pe me (if m = 0 then -1 else a.pe me) x = f.pe x := by
          intro x
          by_cases q : x = me
          · rw [q, Function.update_self, pem]
          · rw [Function.update_of_ne q, peo x q]
        have e2 : ∀ x, update a.len me m x = f.len x := by
          intro x
          by_cases q : x = me
          · rw [q, Function.update_self, lenm]
          · rw [Function.update_of_ne q, leno x q]
        have hl := hl.congr (pe' := f.pe) (len' := f.len) fun x _ _ => ⟨e1 x, e2 x⟩
        refine ⟨fun x hx h0 => ?_, hl.disj⟩
        refine ⟨(hl.pos x hx h0).1, ?_⟩
        by_cases q : x = me
        · rw [q, pem] at h0 ⊢
          rw [lenm]
          split at h0
          · omega
          · rename_i r; rw [if_neg r]; omega
        · rw [peo x q] at h0 ⊢
          rw [leno x q]
          exact layB x hx q h0
      room := le_trans (tot_le fun x hx => by
        by_cases q : x = me
        · rw [q, pem, lenm]
          by_cases r : m = 0
          · rw [if_pos r, if_neg (by omega), if_pos hmp]; omega
          · rw [if_neg r, if_pos hmp, if_pos hmp]; omega
        · rw [peo x q, leno x q]) hc.room
      free := by
        have := hc.free
        rw [etop]
        omega
      vals := fun p p0 p1 => by
        by_cases q : p < a.pe me ∨ a.pe me + m ≤ p
        · rw [fiwO p q]; exact hc.vals p p0 (by omega)
        · have : InB f.iw (a.pe me) m (f.iw p) :=
            ⟨p - a.pe me, by omega, by omega, by congr 1; ring⟩
          exact ((finB _).1 this).1.1
      cls := fun x hx => by
        rw [V, eel]
        by_cases q : x = me
        · exact Or.inr (Or.inl ⟨(nvf0 x hx).2 (Or.inl q), by rw [q]; exact hme⟩)
        · rw [peo x q]
          rcases hc.cls x hx with c | c | c
          · exact Or.inl c
          · exact Or.inr (Or.inl ⟨(nvf0 x hx).2 (Or.inr c.1), c.2⟩)
          · refine Or.inr (Or.inr ⟨?_, c.2⟩)
            by_contra hne
            rcases (nvf0 x hx).1 hne with r | r
            · exact q r
            · exact r c.1
      var := fun i hi => by
        rw [V] at hi
        have q := Vme i hi
        rw [peo i q, eel, leno i q, wo i q]
        exact hc.var i hi
      elt := fun e he _ => by
        by_cases q : e = me
        · subst q
          have r := Um.1 he
          rw [lenm]
          refine ⟨by omega, ?_⟩
          have := (finB (f.iw (a.pe e))).1 ⟨0, le_rfl, by omega, by rw [add_zero]⟩
          exact ⟨_, (V _).2 this.1, ((MV _ this.1).1 e).2 (memE _ this.1 this.2)⟩
        · rw [U e q] at he
          rw [leno e q]
          obtain ⟨g1, i, g2, g3⟩ := hc.elt e he q
          exact ⟨g1, i, (V i).2 g2, ((MV i g2).1 e).2 g3⟩
      eltw := fun e he => by
        by_cases q : e = me
        · subst q
          rw [wm, if_neg (Um.1 he)]
          exact hc.eltw e ⟨hmI, hme, hmp⟩
        · rw [U e q] at he
          rw [wo e q]
          exact hc.eltw e he
      varE := fun i e hi hM => by
        rw [V] at hi
        rw [(MV i hi).1] at hM
        obtain ⟨g1, g2⟩ := hc.varE i e hi hM
        by_cases q : e = me
        · subst q
          have g3 := h.lme i g2 hi.2.1
          have r := mne i g3.1 g3.2
          exact ⟨Um.2 r, (MLm r i).2 g3⟩
        · exact ⟨(U e q).2 g1, (ML e g1 q i).2 g2⟩
      varA := fun i j hi hM hj => by
        rw [V] at hi
        rw [(MV i hi).2] at hM
        obtain ⟨v1, v2, v3, v4⟩ := hc.var i hi
        have e0 := hi.2.2
        have hjI : Idx n j := by
          obtain ⟨k, k0, k1, e⟩ := hM
          rw [← e, add_assoc]
          exact (hc.cell hi (by omega) (by omega)).2.2.2
        have hj' : a.nv j ≠ 0 := by
          rcases (nvf0 j hjI).1 hj with r | r
          · rw [r]; omega
          · exact r
        obtain ⟨g1, g2⟩ := hc.varA i j hi hM hj'
        exact ⟨(V j).2 g1, ((MV j g1).2 i).2 g2⟩
      eltL := fun e x he hM hx => by
        by_cases q : e = me
        · subst q
          have r := Um.1 he
          have := (MLm r x).1 hM
          exact ⟨(V x).2 this.1, ((MV x this.1).1 e).2 (memE x this.1 this.2)⟩
        · rw [U e q] at he
          rw [ML e he q] at hM
          have hxI : Idx n x := by
            obtain ⟨k, k0, k1, e'⟩ := hM
            have := hc.lay.pos e he.1 he.2.2
            have := he.2.2
            rw [← e']
            exact hc.vals _ (by omega) (by omega)
          have hx' : a.nv x ≠ 0 := by
            rcases (nvf0 x hxI).1 hx with r | r
            · rw [r]; omega
            · exact r
          obtain ⟨g1, g2⟩ := hc.eltL e x he hM hx'
          exact ⟨(V x).2 g1, ((MV x g1).1 e).2 g2⟩
      nodup := fun i hi => by
        rw [V] at hi
        have q := Vme i hi
        obtain ⟨v1, v2, v3, v4⟩ := hc.var i hi
        have := hc.nodup i hi
        rw [peo i q, eel]
        intro k k' k0 k1 k0' k1' e
        rw [iwx i hi.1 q v1 k k0 (by omega), iwx i hi.1 q v1 k' k0' (by omega)] at e
        exact this k k' k0 k1 k0' k1' e
      edeg := fun e he => by
        have hU : IsU n a e := by
          by_cases q : e = me
          · rw [q]; exact ⟨hmI, hme, hmp⟩
          · exact (U e q).1 he
        rw [edeg e fun q => by have := hU.2.1; have := q.1.2.2; omega]
        have : sumB n (anv f) (fun i => IsV n f i ∧ MemE f i e)
            = sumB n (anv a) (fun i => IsV n a i ∧ MemE a i e) := by
          refine sumB_congr (fun x _ => ?_) fun x _ q => hanv x q.1
          rw [V]
          constructor
          · rintro ⟨q1, q2⟩; exact ⟨q1, ((MV x q1).1 e).1 q2⟩
          · rintro ⟨q1, q2⟩; exact ⟨q1, ((MV x q1).1 e).2 q2⟩
        rw [this]
        exact hc.edeg e hU
      lemax0 := hc.lemax0
      w := fun x hx => by
        by_cases q : x = me
        · rw [q, wm]
          have := hc.w me hmI
          have := hc.wflg2
          split <;> omega
        · rw [wo x q]; exact hc.w x hx
      wflg2 := hc.wflg2 }
    nn := fun x hx => by
      by_cases q : x = me
      · rw [q, fnvm]; omega
      · rw [fnvo x hx q]; exact abs_nonneg _
    cnt := by
      refine Eq.trans ?_ h.cnt
      congr 1
      exact sumB_congr (fun x _ => V x) fun x _ q => hanv x q
    md := by
      refine ⟨hI.md0, fun i hi => ?_⟩
      rw [V] at hi
      have : 0 < b.nv i := by
        rw [nvV i hi.1 (Vme i hi)]; exact abs_pos.2 hi.2.1
      rw [hf]
      exact hI.mdD i hi this
    dl := by
      obtain ⟨rk', hdl⟩ := hI.dl
      refine ⟨rk', ?_⟩
      rw [show f.head = b.head by rw [hf], show f.next = b.next by rw [hf],
        show f.last = b.last by rw [hf], show f.degree = b.degree by rw [hf]]
      refine hdl.congr (fun x => ?_) (fun _ _ => rfl) (fun _ _ => rfl) (fun _ _ => rfl)
        fun _ _ => rfl
      rw [V]
      refine ⟨fun q => ⟨q, ?_⟩, fun q => q.1⟩
      rw [nvV x q.1 (Vme x q)]; exact abs_pos.2 q.2.1
    tree := by
      obtain ⟨rk', rep, ht⟩ := h.tree
      refine ⟨rk', rep, ht.congr (fun x hx => ?_) (fun x _ he => by rw [eel]; exact he) fun x hx => ?_⟩
      · by_cases q : x = me
        · right
          rw [q, Function.update_self, pem]
          refine ⟨by omega, ?_, by omega⟩
          split <;> omega
        · left; exact peo x q
      · by_cases q : x = me
        · rw [q, Function.update_self, fnvm]
        · rw [Function.update_of_ne q]; exact fnvo x hx q }

end Ecos.Amd
