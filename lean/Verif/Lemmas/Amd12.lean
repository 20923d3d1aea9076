import Verif.Lemmas.Amd11

/-!
# AMD: from the head of the main loop to Scan 2
-/
namespace Ecos.Amd

open Function (update)

/-- the state at the head of the main loop -/
structure Inv (n L : Int) (a : Ab) (mindeg nel lemax wflg pfree : Int) : Prop where
  core : Core n L a (-1) pfree lemax wflg
  nn : ∀ x, Idx n x → 0 ≤ a.nv x
  cnt : nel + sumB n (anv a) (fun x => IsV n a x) = n
  md : 0 ≤ mindeg ∧ ∀ i, IsV n a i → mindeg ≤ a.degree i
  dl : ∃ rk, DL n (IsV n a) a.head a.next a.last a.degree rk
  tree : ∃ rk rep, Tree n a.pe a.nv a.elen rk rep

/-- what is known of the variables next to the pivot -/
def SrcP (a : Ab) (me x : Int) : Prop := (∃ e, MemE a me e ∧ MemE a x e) ∨ MemA a x me

variable {n L : Int} {a : Ab} {mindeg nel lemax wflg pfree me : Int}

theorem Core.pe_len {ex : Int} (h : Core n L a ex pfree lemax wflg) {x : Int} (hx : Idx n x)
    (hne : x ≠ ex) (hp : 0 ≤ a.pe x) : 1 ≤ a.len x := by
  rcases h.cls x hx with c | c | c
  · exact (h.var x c).2.2.1
  · exact (h.elt x ⟨hx, c.2, hp⟩ hne).1
  · omega

theorem Inv.base (h : Inv n L a mindeg nel lemax wflg pfree) (hme : IsV n a me)
    {head next last : Int → Int} {rk : Int → Nat}
    (hdl : DL n (fun j => IsV n a j ∧ j ≠ me) head next last a.degree rk) :
    Base n L { a with nv := update a.nv me (-a.nv me), head := head, next := next, last := last }
      me pfree (fun j => IsV n a j ∧ j ≠ me) (SrcP a me) rk := by
  have hc := h.core
  obtain ⟨v1, v2, v3, v4⟩ := hc.var me hme
  have nvme : 0 < a.nv me := by have := h.nn me hme.1; have := hme.2.1; omega
  have nvo : ∀ x, x ≠ me → update a.nv me (-a.nv me) x = a.nv x := fun x hx =>
    Function.update_of_ne hx _ _
  have nvm : update a.nv me (-a.nv me) me = - a.nv me := Function.update_self _ _ _
  have pos : ∀ x, 0 < update a.nv me (-a.nv me) x → x ≠ me ∧ a.nv x ≠ 0 := by
    intro x hx
    have q : x ≠ me := fun q => by rw [q, nvm] at hx; omega
    rw [nvo x q] at hx
    exact ⟨q, by omega⟩
  have hpos := hc.lay.pos me hme.1 v1
  exact {
    meI := hme.1
    nvme := by dsimp only; rw [nvm]; omega
    peme := v1
    elenme := ⟨hme.2.2, v2⟩
    nonneg := fun x hx q => by dsimp only; rw [nvo x q]; exact h.nn x hx
    hP := fun x hx => ⟨hx.1.1, by
      dsimp only
      rw [nvo x hx.2]
      have := h.nn x hx.1.1
      have := hx.1.2.1
      omega⟩
    lay := hc.lay
    len1 := fun x hx hp => hc.pe_len hx (by omega) hp
    room := hc.room
    free := hc.free
    vals := hc.vals
    elems := fun k k0 k1 => by
      have := (hc.varE me _ hme ⟨k, k0, k1, rfl⟩).1
      refine ⟨fun q => ?_, this.2.2⟩
      have h1 := this.2.1
      have h2 := hme.2.2
      dsimp only at q
      rw [q] at h1
      omega
    nodup := hc.nodup me hme
    srcE := fun e he k k0 k1 hp => by
      dsimp only at hp ⊢
      obtain ⟨q1, q2⟩ := pos _ hp
      have hU := (hc.varE me e hme he).1
      obtain ⟨g1, g2⟩ := hc.eltL e _ hU ⟨k, k0, k1, rfl⟩ q2
      exact ⟨⟨g1, q1⟩, Or.inl ⟨e, he, g2⟩⟩
    srcA := fun k k0 k1 hp => by
      dsimp only at hp k0 k1 ⊢
      obtain ⟨q1, q2⟩ := pos _ hp
      have := hc.varA me (a.iw (a.pe me + k)) hme
        ⟨k - a.elen me, by omega, by omega, by congr 1; ring⟩ q2
      exact ⟨⟨this.1, q1⟩, Or.inr this.2⟩
    dl := hdl }

/-- the arrays of the new element have been set -/
def withEl (b : Ab) (me degme pme1 m el : Int) (w : Int → Int) : Ab :=
  { b with degree := update b.degree me degme, pe := update b.pe me pme1, len := update b.len me m,
           elen := update b.elen me el, w := w }

theorem Inv.start (h : Inv n L a mindeg nel lemax wflg pfree) (hme : IsV n a me)
    {md : Int} (hmd : 0 ≤ md ∧ ∀ i, IsV n a i → md ≤ a.degree i)
    {head next last : Int → Int} {rk : Int → Nat} {b : Ab} {pme1 m pfree' degme : Int}
    (hb : Built n L { a with nv := update a.nv me (-a.nv me), head := head, next := next, last := last }
      me (fun j => IsV n a j ∧ j ≠ me) (SrcP a me) rk pme1 m pfree' degme b) :
    (∀ w : Int → Int, (∀ x, Idx n x → 0 ≤ w x ∧ (w x = 0 ↔ b.w x = 0)) →
      Mid0 n L (withEl b me degme pme1 m (FLIP (a.nv me + degme)) w) me pfree' lemax (fun _ => False)) ∧
    (∀ x, InB b.iw pme1 m x → b.nv x ≠ 0) ∧
    (∀ (w : Int → Int) (wflg' : Int),
      Mid n L (withEl b me degme pme1 m (FLIP (a.nv me + degme)) w) me pfree' lemax wflg' (fun _ => False) →
      S2 n L (withEl b me degme pme1 m (FLIP (a.nv me + degme)) w) me pfree' lemax wflg' md degme
        (a.nv me) (nel + a.nv me) (fun _ => False)) := by
  have hc := h.core
  obtain ⟨v1, v2, v3, v4⟩ := hc.var me hme
  have hmI := hme.1
  have hme0 := hme.2.2
  have nvme : 0 < a.nv me := by have := h.nn me hme.1; have := hme.2.1; omega
  have hFme : FLIP me < 0 := by rw [FLIP_eq]; omega
  have nvo : ∀ x, x ≠ me → update a.nv me (-a.nv me) x = a.nv x := fun x hx =>
    Function.update_of_ne hx _ _
  have nvm : update a.nv me (-a.nv me) me = - a.nv me := Function.update_self _ _ _
  have hnvB : ∀ x, Idx n x → InB b.iw pme1 m x → b.nv x = - update a.nv me (-a.nv me) x := hb.nvB
  have hnvO : ∀ x, Idx n x → ¬ InB b.iw pme1 m x → b.nv x = update a.nv me (-a.nv me) x := hb.nvO
  have hinB : ∀ x, InB b.iw pme1 m x → (IsV n a x ∧ x ≠ me) ∧ SrcP a me x := hb.inB
  have Bme : ¬ InB b.iw pme1 m me := fun q => (hinB me q).1.2 rfl
  have nvB : ∀ x, InB b.iw pme1 m x → b.nv x = - a.nv x ∧ b.nv x < 0 := by
    intro x hx
    obtain ⟨⟨q1, q2⟩, -⟩ := hinB x hx
    rw [hnvB x q1.1 hx, nvo x q2]
    have := h.nn x q1.1
    have := q1.2.1
    exact ⟨rfl, by omega⟩
  have nvO : ∀ x, Idx n x → x ≠ me → ¬ InB b.iw pme1 m x → b.nv x = a.nv x := fun x hx q hB => by
    rw [hnvO x hx hB, nvo x q]
  have nvM : b.nv me = - a.nv me := by rw [hnvO me hmI Bme, nvm]
  have nvabs : ∀ x, Idx n x → |b.nv x| = a.nv x := by
    intro x hx
    have := h.nn x hx
    by_cases q : x = me
    · rw [q, nvM, abs_neg, abs_of_pos nvme]
    · by_cases hB : InB b.iw pme1 m x
      · rw [(nvB x hB).1, abs_neg, abs_of_nonneg this]
      · rw [nvO x hx q hB, abs_of_nonneg this]
  have nv0 : ∀ x, Idx n x → (b.nv x ≠ 0 ↔ a.nv x ≠ 0) := by
    intro x hx
    rw [← nvabs x hx]; simp
  have nvneg : ∀ x, Idx n x → x ≠ me → b.nv x < 0 → InB b.iw pme1 m x := by
    intro x hx q hn
    by_contra hB
    rw [nvO x hx q hB] at hn
    have := h.nn x hx
    omega
  have hdeg0 : 0 ≤ degme := by
    rw [hb.deg]
    have : sumB n (fun _ => 0) (InB b.iw pme1 m) ≤ sumB n (update a.nv me (-a.nv me)) (InB b.iw pme1 m) := by
      classical
      refine Finset.sum_le_sum fun x hx => ?_
      by_cases q : InB b.iw pme1 m x
      · rw [if_pos q, if_pos q]
        obtain ⟨⟨q1, q2⟩, -⟩ := hinB x q
        rw [nvo x q2]; exact h.nn x q1.1
      · rw [if_neg q, if_neg q]
    refine le_trans (le_of_eq ?_) this
    simp [sumB]
  have hF : FLIP (a.nv me + degme) < -1 := by rw [FLIP_eq]; omega
  have hbel : b.elen = a.elen := hb.elen
  have hbdeg : b.degree = a.degree := hb.degree
  -- the absorbed elements
  have TU : ∀ e, MemE a me e → IsU n a e ∧ MemL a e me := fun e he => hc.varE me e hme he
  have Ume : ∀ e, IsU n a e → e ≠ me := fun e he q => by have := he.2.1; rw [q] at this; omega
  have TV : ∀ x, IsV n a x → ¬ MemE a me x := fun x hx ht => by
    have := (TU x ht).1.2.1; have := hx.2.2; omega
  have habs : ∀ e, MemE a me e → b.pe e = FLIP me ∧ b.w e = 0 := hb.abs
  have hwO : ∀ x, Idx n x → ¬ MemE a me x → b.w x = a.w x := hb.wO
  have hobj : ∀ x, Idx n x → x ≠ me → ¬ MemE a me x → 0 ≤ a.pe x → 0 ≤ b.pe x ∧ b.len x = a.len x ∧
    ∀ k, 0 ≤ k → k < a.len x → b.iw (b.pe x + k) = a.iw (a.pe x + k) := hb.obj
  have hneg : ∀ x, Idx n x → a.pe x < 0 → b.pe x = a.pe x := hb.neg
  have hcovE : ∀ e x, MemE a me e → MemL a e x → x ≠ me → 0 < a.nv x → InB b.iw pme1 m x := by
    rintro e x he ⟨k, k0, k1, rfl⟩ q hp
    exact hb.covE e he k k0 k1 (by dsimp only; rw [nvo _ q]; exact hp)
  have hcovA : ∀ x, MemA a me x → x ≠ me → 0 < a.nv x → InB b.iw pme1 m x := by
    rintro x ⟨k, k0, k1, rfl⟩ q hp
    have := hb.covA (a.elen me + k) (by dsimp only; omega) (by dsimp only; omega)
    dsimp only at this
    rw [show a.pe me + (a.elen me + k) = a.pe me + a.elen me + k by ring, nvo _ q] at this
    exact this hp
  -- the new state
  have V : ∀ w x, IsV n (withEl b me degme pme1 m (FLIP (a.nv me + degme)) w) x ↔ IsV n a x ∧ x ≠ me := by
    intro w x
    unfold IsV withEl
    dsimp only
    by_cases q : x = me
    · subst q
      rw [Function.update_self]
      constructor
      · rintro ⟨_, _, q⟩; omega
      · rintro ⟨_, q⟩; exact (q rfl).elim
    · rw [Function.update_of_ne q, hbel]
      constructor
      · rintro ⟨q1, q2, q3⟩; exact ⟨⟨q1, (nv0 x q1).1 q2, q3⟩, q⟩
      · rintro ⟨⟨q1, q2, q3⟩, _⟩; exact ⟨q1, (nv0 x q1).2 q2, q3⟩
  have pes : ∀ w x, x ≠ me → (withEl b me degme pme1 m (FLIP (a.nv me + degme)) w).pe x = b.pe x :=
    fun w x q => Function.update_of_ne q _ _
  have lens : ∀ w x, x ≠ me → (withEl b me degme pme1 m (FLIP (a.nv me + degme)) w).len x = b.len x :=
    fun w x q => Function.update_of_ne q _ _
  have elens : ∀ w x, x ≠ me → (withEl b me degme pme1 m (FLIP (a.nv me + degme)) w).elen x = a.elen x :=
    fun w x q => by rw [← hbel]; exact Function.update_of_ne q _ _
  have degs : ∀ w x, x ≠ me → (withEl b me degme pme1 m (FLIP (a.nv me + degme)) w).degree x = a.degree x :=
    fun w x q => by rw [← hbdeg]; exact Function.update_of_ne q _ _
  have pem : ∀ w, (withEl b me degme pme1 m (FLIP (a.nv me + degme)) w).pe me = pme1 :=
    fun w => Function.update_self _ _ _
  have lenm : ∀ w, (withEl b me degme pme1 m (FLIP (a.nv me + degme)) w).len me = m :=
    fun w => Function.update_self _ _ _
  have elenm : ∀ w, (withEl b me degme pme1 m (FLIP (a.nv me + degme)) w).elen me = FLIP (a.nv me + degme) :=
    fun w => Function.update_self _ _ _
  have U : ∀ w e, IsU n (withEl b me degme pme1 m (FLIP (a.nv me + degme)) w) e → e ≠ me →
      IsU n a e ∧ ¬ MemE a me e := by
    rintro w e ⟨u1, u2, u3⟩ q
    rw [elens w e q] at u2
    rw [pes w e q] at u3
    have hT : ¬ MemE a me e := fun ht => by have := (habs e ht).1; omega
    refine ⟨⟨u1, u2, ?_⟩, hT⟩
    by_contra hcn
    have := hneg e u1 (by omega)
    omega
  have U' : ∀ w e, IsU n a e → ¬ MemE a me e →
      IsU n (withEl b me degme pme1 m (FLIP (a.nv me + degme)) w) e := by
    intro w e he ht
    have q := Ume e he
    refine ⟨he.1, ?_, ?_⟩
    · rw [elens w e q]; exact he.2.1
    · rw [pes w e q]; exact (hobj e he.1 q ht he.2.2).1
  have ME : ∀ w x e, IsV n a x → x ≠ me →
      (MemE (withEl b me degme pme1 m (FLIP (a.nv me + degme)) w) x e ↔ MemE a x e) := by
    intro w x e hx q
    obtain ⟨w1, w2, w3, w4⟩ := hc.var x hx
    obtain ⟨o1, o2, o3⟩ := hobj x hx.1 q (TV x hx) w1
    unfold MemE
    rw [pes w x q, elens w x q]
    exact InB.congr (fun k k0 k1 => o3 k k0 (by omega)) e
  have MA : ∀ w x e, IsV n a x → x ≠ me →
      (MemA (withEl b me degme pme1 m (FLIP (a.nv me + degme)) w) x e ↔ MemA a x e) := by
    intro w x e hx q
    obtain ⟨w1, w2, w3, w4⟩ := hc.var x hx
    obtain ⟨o1, o2, o3⟩ := hobj x hx.1 q (TV x hx) w1
    have := hx.2.2
    unfold MemA
    rw [pes w x q, elens w x q, lens w x q, o2]
    refine InB.congr (fun k k0 k1 => ?_) e
    rw [add_assoc, add_assoc]
    exact o3 (a.elen x + k) (by omega) (by omega)
  have ML : ∀ w e x, IsU n a e → ¬ MemE a me e →
      (MemL (withEl b me degme pme1 m (FLIP (a.nv me + degme)) w) e x ↔ MemL a e x) := by
    intro w e x he ht
    have q := Ume e he
    obtain ⟨o1, o2, o3⟩ := hobj e he.1 q ht he.2.2
    unfold MemL
    rw [pes w e q, lens w e q, o2]
    exact InB.congr (fun k k0 k1 => o3 k k0 k1) x
  have MLm : ∀ w x, MemL (withEl b me degme pme1 m (FLIP (a.nv me + degme)) w) me x ↔
      InB b.iw pme1 m x := by
    intro w x
    unfold MemL
    rw [pem, lenm]
    exact Iff.rfl
  refine ⟨fun w hw => ?_, fun x hx => ?_, fun w wflg' hm => ?_⟩
  · have wT : ∀ e, MemE a me e → w e = 0 := fun e he =>
      (hw e (TU e he).1.1).2.2 (habs e he).2
    have wP : ∀ x, Idx n x → ¬ MemE a me x → 0 < a.w x → 0 < w x := by
      intro x hx ht h0
      have h1 := hw x hx
      rw [hwO x hx ht] at h1
      omega
    obtain ⟨bf0, bf1, bf2, bf3⟩ := hb.free
    exact {
      lay := hb.lay
      room := le_trans hb.room hc.room
      free := ⟨by have := hb.m0; omega, bf2, bf3⟩
      vals := hb.vals
      meI := by
        rw [elenm, pem]
        refine ⟨hmI, hF, bf0, ?_, wP me hmI (TV me hme) v4⟩
        change b.nv me < 0
        rw [nvM]; omega
      cls := fun x hx => by
        rw [V]
        change _ ∨ (_ ∧ (_ → 0 < b.nv x)) ∨ (b.nv x = 0 ∧ _)
        by_cases q : x = me
        · rw [q, elenm]
          exact Or.inr (Or.inl ⟨hF, fun hc => (hc rfl).elim⟩)
        · rw [elens w x q, pes w x q]
          rcases hc.cls x hx with c | c | c
          · exact Or.inl ⟨c, q⟩
          · refine Or.inr (Or.inl ⟨c.2, fun _ => ?_⟩)
            have hB : ¬ InB b.iw pme1 m x := fun hB => by
              have := (hinB x hB).1.1.2.2; omega
            rw [nvO x hx q hB]
            have := h.nn x hx
            omega
          · refine Or.inr (Or.inr ⟨?_, c.2.1, ?_⟩)
            · by_contra hne
              exact (nv0 x hx).1 hne c.1
            · rw [hneg x hx c.2.2]; exact c.2.2
      var := fun x hx => by
        obtain ⟨hx, q⟩ := (V w x).1 hx
        obtain ⟨w1, w2, w3, w4⟩ := hc.var x hx
        obtain ⟨o1, o2, o3⟩ := hobj x hx.1 q (TV x hx) w1
        rw [pes w x q, elens w x q, lens w x q, o2]
        exact ⟨o1, w2, w3, wP x hx.1 (TV x hx) w4⟩
      elt := fun e he q => by
        obtain ⟨he, ht⟩ := U w e he q
        obtain ⟨o1, o2, o3⟩ := hobj e he.1 q ht he.2.2
        obtain ⟨g1, i, g2, g3⟩ := hc.elt e he (by have := he.1; omega)
        have qi : i ≠ me := fun qi => ht (qi ▸ g3)
        rw [lens w e q, o2]
        exact ⟨g1, wP e he.1 ht (hc.eltw e he), i, (V w i).2 ⟨g2, qi⟩, (ME w i e g2 qi).2 g3⟩
      flg := fun x hx hn q => (MLm w x).2 (nvneg x hx q hn)
      lme := fun x hx hn => by
        rw [MLm] at hx
        exact ⟨(V w x).2 (hinB x hx).1, (nvB x hx).2⟩
      inj := by
        rw [pem, lenm]; exact hb.inj
      cE := fun i e hi hp hM => by
        obtain ⟨hi, q⟩ := (V w i).1 hi
        rw [ME w i e hi q] at hM
        change 0 < b.nv i at hp
        have hB : ¬ InB b.iw pme1 m i := fun hB => by have := (nvB i hB).2; omega
        rw [nvO i hi.1 q hB] at hp
        obtain ⟨g1, g2⟩ := hc.varE i e hi hM
        have ht : ¬ MemE a me e := fun ht => hB (hcovE e i ht g2 q hp)
        exact ⟨Ume e g1, U' w e g1 ht, (ML w e i g1 ht).2 g2⟩
      cA := fun i j hi hp hM hj => by
        obtain ⟨hi, q⟩ := (V w i).1 hi
        rw [MA w i j hi q] at hM
        change 0 < b.nv i at hp
        change b.nv j ≠ 0 at hj
        have hB : ¬ InB b.iw pme1 m i := fun hB => by have := (nvB i hB).2; omega
        rw [nvO i hi.1 q hB] at hp
        have hjI : Idx n j := by
          obtain ⟨k, k0, k1, rfl⟩ := hM
          obtain ⟨w1, w2, w3, w4⟩ := hc.var i hi
          have := hc.lay.pos i hi.1 w1
          have := hi.2.2
          exact hc.vals _ (by omega) (by omega)
        obtain ⟨g1, g2⟩ := hc.varA i j hi hM ((nv0 j hjI).1 hj)
        have qj : j ≠ me := fun qj => hB (hcovA i (qj ▸ g2) q hp)
        exact ⟨(V w j).2 ⟨g1, qj⟩, (MA w j i g1 qj).2 g2⟩
      dE := fun i e hi hn _ hM => by
        obtain ⟨hi, q⟩ := (V w i).1 hi
        rw [ME w i e hi q] at hM
        obtain ⟨g1, g2⟩ := hc.varE i e hi hM
        refine ⟨Ume e g1, ?_⟩
        by_cases ht : MemE a me e
        · refine Or.inr ⟨wT e ht, ?_⟩
          rw [pes w e (Ume e g1), (habs e ht).1]; exact hFme
        · exact Or.inl ⟨U' w e g1 ht, (ML w e i g1 ht).2 g2⟩
      dA := fun i j hi hn _ hM hj => by
        obtain ⟨hi, q⟩ := (V w i).1 hi
        rw [MA w i j hi q] at hM
        change b.nv j ≠ 0 at hj
        have hjI : Idx n j := by
          obtain ⟨k, k0, k1, rfl⟩ := hM
          obtain ⟨w1, w2, w3, w4⟩ := hc.var i hi
          have := hc.lay.pos i hi.1 w1
          have := hi.2.2
          exact hc.vals _ (by omega) (by omega)
        obtain ⟨g1, g2⟩ := hc.varA i j hi hM ((nv0 j hjI).1 hj)
        by_cases qj : j = me
        · exact Or.inl qj
        · exact Or.inr ⟨(V w j).2 ⟨g1, qj⟩, Or.inl ((MA w j i g1 qj).2 g2)⟩
      sh := fun i hi hn _ => by
        obtain ⟨hi, q⟩ := (V w i).1 hi
        have hB := nvneg i hi.1 q hn
        rcases (hinB i hB).2 with ⟨e, g1, g2⟩ | g
        · exact Or.inl ⟨e, (ME w i e hi q).2 g2, wT e g1⟩
        · exact Or.inr ((MA w i me hi q).2 g)
      pme := fun _ _ _ h => h.elim
      pA := fun _ _ _ _ h => h.elim
      eltL := fun e x he q hM hx => by
        obtain ⟨he, ht⟩ := U w e he q
        rw [ML w e x he ht] at hM
        change b.nv x ≠ 0 at hx
        have hxI : Idx n x := by
          obtain ⟨k, k0, k1, rfl⟩ := hM
          have := hc.lay.pos e he.1 he.2.2
          have := he.2.2
          exact hc.vals _ (by omega) (by omega)
        obtain ⟨g1, g2⟩ := hc.eltL e x he hM ((nv0 x hxI).1 hx)
        have qx : x ≠ me := fun qx => ht (qx ▸ g2)
        exact ⟨(V w x).2 ⟨g1, qx⟩, (ME w x e g1 qx).2 g2⟩
      nodup := fun x hx => by
        obtain ⟨hx, q⟩ := (V w x).1 hx
        obtain ⟨w1, w2, w3, w4⟩ := hc.var x hx
        obtain ⟨o1, o2, o3⟩ := hobj x hx.1 q (TV x hx) w1
        intro k k' k0 k1 k0' k1' e
        rw [pes w x q] at e
        rw [elens w x q] at k1 k1'
        change b.iw _ = b.iw _ at e
        rw [o3 k k0 (by omega), o3 k' k0' (by omega)] at e
        exact hc.nodup x hx k k' k0 k1 k0' k1' e
      edeg := fun e he q => by
        obtain ⟨he, ht⟩ := U w e he q
        rw [degs w e q]
        refine ⟨le_trans (le_of_eq ?_) (hc.edeg e he).1, (hc.edeg e he).2⟩
        refine sumB_congr (fun x hx => ?_) fun x hx _ => ?_
        · constructor
          · rintro ⟨q1, q2⟩
            obtain ⟨q1, q3⟩ := (V w x).1 q1
            exact ⟨q1, (ME w x e q1 q3).1 q2⟩
          · rintro ⟨q1, q2⟩
            have q3 : x ≠ me := fun q3 => ht (q3 ▸ q2)
            exact ⟨(V w x).2 ⟨q1, q3⟩, (ME w x e q1 q3).2 q2⟩
        · change |b.nv x| = |a.nv x|
          rw [nvabs x hx, abs_of_nonneg (h.nn x hx)]
      lemax0 := hc.lemax0 }
  · have := (nvB x hx).2
    omega
  · have hanv : ∀ x, Idx n x → anv (withEl b me degme pme1 m (FLIP (a.nv me + degme)) w) x = a.nv x :=
      fun x hx => nvabs x hx
    have hanva : ∀ x, Idx n x → anv a x = a.nv x := fun x hx => abs_of_nonneg (h.nn x hx)
    exact {
      mid := hm
      hl := by
        refine ⟨rk, _, _, _, (HL.init (hb.dl.congr (Q := fun x => IsV n
            (withEl b me degme pme1 m (FLIP (a.nv me + degme)) w) x ∧ 0 < b.nv x)
            (deg' := update b.degree me degme) (fun x => ?_)
            (fun _ _ => rfl) (fun _ _ => rfl) (fun _ _ => rfl) (fun x hx => ?_))).congr
          (fun _ => Iff.rfl) (fun x => ?_) (fun _ _ => rfl) (fun _ _ => rfl) (fun _ _ => rfl)
          (fun _ _ => rfl)⟩
        · rw [V]
          constructor
          · rintro ⟨q1, q2⟩
            exact ⟨q1, fun hB => by have := (nvB x hB).2; omega⟩
          · rintro ⟨q1, q2⟩
            refine ⟨q1, ?_⟩
            rw [nvO x q1.1.1 q1.2 q2]
            have := h.nn x q1.1.1
            have := q1.1.2.1
            omega
        · rw [Function.update_of_ne hx.1.2, hbdeg]
        · constructor
          · rintro ⟨_, _, q⟩; exact q
          · exact fun q => q.elim
      tree := by
        obtain ⟨rk0, rep, ht⟩ := h.tree
        refine Exists.elim (ht.absorbs (S := MemE a me) (me := me)
          (pe' := (withEl b me degme pme1 m (FLIP (a.nv me + degme)) w).pe)
          (elen' := (withEl b me degme pme1 m (FLIP (a.nv me + degme)) w).elen)
          (ν' := update (anv (withEl b me degme pme1 m (FLIP (a.nv me + degme)) w)) me (a.nv me))
          hmI (by omega) (by omega) (TV me hme) (by rw [elenm]; exact hF) (fun x hx hs => ?_)
          (fun x hx hs => ?_) (fun x hx he => ?_) (fun x hx => ?_)) fun rk' ht' => ⟨rk', rep, ht'⟩
        · have hu := (TU x hs).1
          rw [pes w x (Ume x hu)]
          refine ⟨(habs x hs).1, ?_, by have := hu.2.2; omega⟩
          rcases hc.cls x hx with c | c | c
          · exact c.2.1
          · exact c.1
          · have := hu.2.1; omega
        · by_cases q : x = me
          · rw [q, pem]
            exact Or.inr ⟨by omega, by have := hb.free.1; omega, by omega⟩
          · rw [pes w x q]
            by_cases hp : a.pe x < 0
            · exact Or.inl (hneg x hx hp)
            · refine Or.inr ⟨by omega, by have := (hobj x hx q hs (by omega)).1; omega, ?_⟩
              rcases hc.cls x hx with c | c | c
              · exact c.2.1
              · exact c.1
              · omega
        · by_cases q : x = me
          · rw [q, elenm]; exact hF
          · rw [elens w x q]; exact he
        · by_cases q : x = me
          · rw [q, Function.update_self]
          · rw [Function.update_of_ne q]; exact hanv x hx
      degm := by
        refine hb.deg.trans (sumB_congr (fun x hx => ?_) fun x hx hq => ?_)
        · constructor
          · intro hB
            exact ⟨(V w x).2 (hinB x hB).1, (nvB x hB).2⟩
          · rintro ⟨q1, q2⟩
            exact nvneg x hx ((V w x).1 q1).2 q2
        · dsimp only
          rw [hanv x hx, nvo x ((V w x).1 hq.1).2]
      cnt := by
        have e1 : sumB n (anv a) (fun x => IsV n a x) = sumB n (anv a) (fun x => IsV n a x ∧ x ≠ me)
            + anv a me := sumB_add hmI (fun q => q.2 rfl) fun x _ => by
          constructor
          · intro q1
            by_cases q : x = me
            · exact Or.inr q
            · exact Or.inl ⟨q1, q⟩
          · rintro (q1 | rfl)
            · exact q1.1
            · exact hme
        have e2 : sumB n (anv (withEl b me degme pme1 m (FLIP (a.nv me + degme)) w))
            (fun x => IsV n (withEl b me degme pme1 m (FLIP (a.nv me + degme)) w) x)
            = sumB n (anv a) (fun x => IsV n a x ∧ x ≠ me) :=
          sumB_congr (fun x _ => V w x) fun x hx _ => by rw [hanv x hx, hanva x hx]
        have := h.cnt
        have := hanva me hmI
        rw [e2]; omega
      dge := fun i hi _ => by
        obtain ⟨hi, q⟩ := (V w i).1 hi
        rw [degs w i q]
        exact hmd.2 i hi
      dnn := fun i hi => by
        obtain ⟨hi, q⟩ := (V w i).1 hi
        rw [degs w i q]
        have := hmd.2 i hi
        omega
      nvp := nvme }

end Ecos.Amd
