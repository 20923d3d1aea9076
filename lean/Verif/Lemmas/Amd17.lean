import Verif.Lemmas.Amd16

/-!
# AMD: the elimination
-/
namespace Ecos.Amd

open Function (update)

variable {n L : Int} {s : St} {a b : Ab}

/-- what `AMD_2` is given -/
structure Ini (n L : Int) (s : St) (a : Ab) : Prop where
  pe : HZ s.pe n n a.pe
  iw : HZ s.iw L a.top a.iw
  len : HZ s.len n n a.len
  nv : s.nv.size = n.toNat
  next : s.next.size = n.toNat
  last : s.last.size = n.toNat
  head : s.head.size = n.toNat
  elen : s.elen.size = n.toNat
  degree : s.degree.size = n.toNat
  w : s.w.size = n.toNat

/-- the graph that `AMD_2` is given: symmetric, without loops and without duplicates -/
structure Graph (n L : Int) (a : Ab) (pfree : Int) : Prop where
  pe0 : ∀ x, Idx n x → 0 ≤ a.pe x
  lay : Lay n pfree a.pe a.len
  room : tot n a.pe a.len ≤ L - n
  free : 0 ≤ pfree ∧ pfree ≤ a.top ∧ pfree ≤ L
  vals : ∀ p, 0 ≤ p → p < pfree → Idx n (a.iw p)
  inj : ∀ x, Idx n x → Inj a.iw (a.pe x) (a.len x)
  sym : ∀ x y, Idx n x → MemL a x y → y ≠ x ∧ MemL a y x

theorem Graph.card {pfree : Int} (h : Graph n L a pfree) {x : Int} (hx : Idx n x) : a.len x ≤ n - 1 := by
  classical
  have hp := h.pe0 x hx
  have hl := h.lay.pos x hx hp
  have hsub : (ix (a.len x)).image (fun k => a.iw (a.pe x + k)) ⊆ (ix n).erase x := by
    intro y hy
    obtain ⟨k, hk, rfl⟩ := Finset.mem_image.1 hy
    have hk := Finset.mem_Ico.1 hk
    refine Finset.mem_erase.2 ⟨(h.sym x _ hx ⟨k, hk.1, hk.2, rfl⟩).1, Finset.mem_Ico.2 ?_⟩
    exact h.vals _ (by omega) (by omega)
  have hc := Finset.card_le_card hsub
  rw [Finset.card_image_of_injOn, Finset.card_erase_of_mem (Finset.mem_Ico.2 hx)] at hc
  · rw [Int.card_Ico, Int.card_Ico] at hc
    omega
  · intro k hk k' hk' e
    have hk := Finset.mem_Ico.1 (Finset.mem_coe.1 hk)
    have hk' := Finset.mem_Ico.1 (Finset.mem_coe.1 hk')
    exact h.inj x hx k k' hk.1 hk.2 hk'.1 hk'.2 e

/-- the arrays after `initArrays` -/
def start (a : Ab) : Ab :=
  { a with nv := fun _ => 1, next := fun _ => -1, last := fun _ => -1, head := fun _ => -1,
           elen := fun _ => 0, degree := a.len, w := fun _ => 1 }

theorem HZ.next {b : Buf Int} {n i : Int} {f : Int → Int} {v : Int} (h : HZ b n i f) (h0 : 0 ≤ i)
    (h1 : i < n) (hv : f i = v) : Ok (wrI b i v) (fun b' => HZ b' n (i + 1) f) := by
  refine (h.wr v h0 h1 le_rfl).mono fun b' hb => ?_
  rw [max_eq_right (by omega)] at hb
  refine hb.congr fun j _ _ _ => ?_
  by_cases q : j = i
  · rw [q, Function.update_self, hv]
  · rw [Function.update_of_ne q]

theorem initArrays_ok (hn : 0 ≤ n) (h : Ini n L s a) :
    Ok (initArrays n s) (fun s' => Rep n L s' (start a)) := by
  unfold initArrays
  refine forI_ok (fun i s => HZ s.pe n n a.pe ∧ HZ s.iw L a.top a.iw ∧ HZ s.len n n a.len ∧
    HZ s.nv n i (start a).nv ∧ HZ s.next n i (start a).next ∧ HZ s.last n i (start a).last ∧
    HZ s.head n i (start a).head ∧ HZ s.elen n i (start a).elen ∧ HZ s.degree n i (start a).degree ∧
    HZ s.w n i (start a).w) hn ?_ ?_ ?_
  · exact ⟨h.pe, h.iw, h.len, HZ.of_size h.nv _, HZ.of_size h.next _, HZ.of_size h.last _,
      HZ.of_size h.head _, HZ.of_size h.elen _, HZ.of_size h.degree _, HZ.of_size h.w _⟩
  · rintro i s i0 i1 ⟨h1, h2, h3, h4, h5, h6, h7, h8, h9, h10⟩
    unfold St.wLast St.wHead St.wNext St.wNv St.wW St.wElen St.wDegree St.rLen
    simp only [bind_assoc, pure_bind]
    refine (h6.next i0 i1 rfl).bind fun _ h6 => ?_
    refine (h7.next i0 i1 rfl).bind fun _ h7 => ?_
    refine (h5.next i0 i1 rfl).bind fun _ h5 => ?_
    refine (h4.next i0 i1 rfl).bind fun _ h4 => ?_
    refine (h10.next i0 i1 rfl).bind fun _ h10 => ?_
    refine (h8.next i0 i1 rfl).bind fun _ h8 => ?_
    refine Ok_rd (h3.rd i0 i1 i1) ?_
    refine (h9.next i0 i1 rfl).bind fun _ h9 => ?_
    rw [Ok_pure]
    exact ⟨h1, h2, h3, h4, h5, h6, h7, h8, h9, h10⟩
  · rintro s ⟨h1, h2, h3, h4, h5, h6, h7, h8, h9, h10⟩
    exact ⟨h1, h2, h3, h4, h5, h6, h7, h8, h9, h10⟩

theorem pushDeg_ok {P : Int → Prop} {rk : Int → Nat} (hr : Rep n L s a)
    (hd : DL n P a.head a.next a.last a.degree rk) {i d : Int} (hi : ¬ P i) (hI : Idx n i)
    (hdI : Idx n d) (hl : a.last i = -1) (hdeg : a.degree i = d) :
    Ok (pushDeg i d s) (fun s' => ∃ head next last rk',
      Rep n L s' { a with head := head, next := next, last := last } ∧
      DL n (fun j => P j ∨ j = i) head next last a.degree rk' ∧
      ∀ x, ¬ P x → last x = a.last x) := by
  obtain ⟨rk', hd'⟩ := hd.push hi hI hdI
  unfold pushDeg
  refine Ok_rd (hr.rHead hdI) ?_
  rw [Ok_bind]
  have step : Ok (if a.head d ≠ EMPTY then s.wLast (a.head d) i else pure s) (fun s =>
      Rep n L s { a with last := if a.head d = -1 then a.last else update a.last (a.head d) i }) := by
    rw [EMPTY_eq]
    by_cases e : a.head d = -1
    · rw [if_neg (by simpa using e), Ok_pure]; simp only [e, if_true]; exact hr
    · rw [if_pos e]; simp only [e, if_false]
      exact hr.wLast i (hd.idx _ (hd.head1 d hdI e).1).1
  refine step.mono fun s hr => ?_
  refine (hr.wNext _ hI).bind fun s hr => ?_
  refine (hr.wHead _ hdI).mono fun s hr => ?_
  have lx : ∀ x, ¬ P x → (if a.head d = -1 then a.last else update a.last (a.head d) i) x = a.last x := by
    intro x hx
    split
    · rfl
    · rename_i e
      rw [Function.update_of_ne]
      rintro rfl
      exact hx (hd.head1 d hdI e).1
  refine ⟨_, _, _, rk', hr, hd'.congr (fun _ => Iff.rfl) (fun _ _ => rfl) (fun _ _ => rfl)
    (fun x _ => ?_) (fun x _ => ?_), lx⟩
  · dsimp only
    by_cases q : x = i
    · rw [q, Function.update_self, lx i hi, hl]
    · rw [Function.update_of_ne q]
  · by_cases q : x = i
    · rw [q, Function.update_self, hdeg]
    · rw [Function.update_of_ne q]

/-- the rows that become variables -/
def Var (a : Ab) (dense x : Int) : Prop := a.len x ≠ 0 ∧ a.len x ≤ dense

theorem initLists_ok {pfree dense wflg : Int} {w : Int → Int} (hn : 0 ≤ n) (hg : Graph n L a pfree)
    (hr : Rep n L s { start a with w := w }) (hw2 : 2 ≤ wflg)
    (hw : ∀ x, Idx n x → 0 ≤ w x ∧ w x < wflg ∧ w x ≠ 0) :
    Ok (initLists n dense s) (fun r => 0 ≤ r.1 ∧ ∃ b, Rep n L r.2 b ∧ Inv n L b 0 r.1 0 wflg pfree) := by
  unfold initLists
  refine forI_ok (fun i q => 0 ≤ q.1 ∧
    q.1 + sumB n (fun _ => 1) (fun x => x < i ∧ Var a dense x) = i ∧
    ∃ b rk, Rep n L q.2 b ∧ b.iw = a.iw ∧ b.len = a.len ∧ b.top = a.top ∧ b.degree = a.len ∧
      DL n (fun x => Idx n x ∧ x < i ∧ Var a dense x) b.head b.next b.last b.degree rk ∧
      (∀ x, Idx n x → i ≤ x → b.last x = -1) ∧
      (∀ x, Idx n x → (x < i → Var a dense x) →
        b.pe x = a.pe x ∧ b.nv x = 1 ∧ b.elen x = 0 ∧ b.w x = w x) ∧
      (∀ x, Idx n x → x < i → a.len x = 0 →
        b.pe x = -1 ∧ b.nv x = 1 ∧ b.elen x = -3 ∧ b.w x = 0) ∧
      (∀ x, Idx n x → x < i → a.len x ≠ 0 → dense < a.len x →
        b.pe x = -1 ∧ b.nv x = 0 ∧ b.elen x = -1 ∧ b.w x = w x)) hn ?_ ?_ ?_
  · refine ⟨le_rfl, ?_, _, fun _ => 0, hr, rfl, rfl, rfl, rfl, ?_, fun _ _ _ => rfl,
      fun x _ _ => ⟨rfl, rfl, rfl, rfl⟩, fun x hx hlt => by omega, fun x hx hlt => by omega⟩
    · rw [sumB_empty]
      · rfl
      · rintro x hx ⟨hlt, -⟩; omega
    · exact ⟨fun x hx => by omega, fun x hx => by omega, fun x hx => by omega, fun x hx => by omega,
        fun d _ hne => (hne rfl).elim⟩
  · rintro i ⟨nel, s⟩ i0 i1 ⟨hnel, hcnt, b, rk, hr, e1, e2, e3, e4, hdl, hla, hV, hE, hD⟩
    dsimp only at hnel hcnt hr ⊢
    have hI : Idx n i := ⟨i0, i1⟩
    have hlen := (hg.lay.pos i hI (hg.pe0 i hI)).1
    have hcard := hg.card hI
    have same : ¬ Var a dense i → sumB n (fun _ => 1) (fun x => x < i + 1 ∧ Var a dense x)
        = sumB n (fun _ => 1) (fun x => x < i ∧ Var a dense x) := by
      intro hv
      refine sumB_congr (fun x _ => ?_) fun _ _ _ => rfl
      constructor
      · rintro ⟨q1, q2⟩
        refine ⟨?_, q2⟩
        by_contra hc
        exact hv ((show x = i by omega) ▸ q2)
      · rintro ⟨q1, q2⟩; exact ⟨by omega, q2⟩
    have dlsame : ¬ Var a dense i → DL n (fun x => Idx n x ∧ x < i + 1 ∧ Var a dense x) b.head b.next
        b.last b.degree rk := by
      intro hv
      refine hdl.congr (fun x => ?_) (fun _ _ => rfl) (fun _ _ => rfl) (fun _ _ => rfl) fun _ _ => rfl
      constructor
      · rintro ⟨q0, q1, q2⟩
        refine ⟨q0, ?_, q2⟩
        by_contra hc
        exact hv ((show x = i by omega) ▸ q2)
      · rintro ⟨q0, q1, q2⟩; exact ⟨q0, by omega, q2⟩
    refine Ok_rd (hr.rDegree hI) ?_
    rw [e4]
    split
    · rename_i h0
      have hv : ¬ Var a dense i := fun q => q.1 h0
      refine (hr.wElen _ hI).bind fun s hr => ?_
      refine (hr.wPe _ hI).bind fun s hr => ?_
      refine (hr.wW _ hI).bind fun s hr => ?_
      rw [Ok_pure]
      dsimp only at hr ⊢
      rw [EMPTY_eq] at hr
      refine ⟨by omega, by rw [same hv]; omega, _, rk, hr, e1, e2, e3, e4, dlsame hv,
        fun x hx hle => hla x hx (by omega), fun x hx q => ?_, fun x hx hlt hl => ?_,
        fun x hx hlt hl hd => ?_⟩
      · have : x ≠ i := fun r => hv (r ▸ q (by omega))
        dsimp only
        rw [Function.update_of_ne this, Function.update_of_ne this, Function.update_of_ne this]
        exact hV x hx fun t => q (by omega)
      · dsimp only
        by_cases r : x = i
        · rw [r, Function.update_self, Function.update_self, Function.update_self]
          exact ⟨rfl, (hV i hI fun t => by omega).2.1, rfl, rfl⟩
        · rw [Function.update_of_ne r, Function.update_of_ne r, Function.update_of_ne r]
          exact hE x hx (by omega) hl
      · have r : x ≠ i := fun r => hl (r ▸ h0)
        dsimp only
        rw [Function.update_of_ne r, Function.update_of_ne r, Function.update_of_ne r]
        exact hD x hx (by omega) hl hd
    · rename_i h0
      split
      · rename_i h1
        have hv : ¬ Var a dense i := fun q => by have := q.2; omega
        refine (hr.wNv _ hI).bind fun s hr => ?_
        refine (hr.wElen _ hI).bind fun s hr => ?_
        refine (hr.wPe _ hI).bind fun s hr => ?_
        rw [Ok_pure]
        dsimp only at hr ⊢
        rw [EMPTY_eq] at hr
        refine ⟨by omega, by rw [same hv]; omega, _, rk, hr, e1, e2, e3, e4, dlsame hv,
          fun x hx hle => hla x hx (by omega), fun x hx q => ?_, fun x hx hlt hl => ?_,
          fun x hx hlt hl hd => ?_⟩
        · have : x ≠ i := fun r => hv (r ▸ q (by omega))
          dsimp only
          rw [Function.update_of_ne this, Function.update_of_ne this, Function.update_of_ne this]
          exact hV x hx fun t => q (by omega)
        · have r : x ≠ i := fun r => h0 (r ▸ hl)
          dsimp only
          rw [Function.update_of_ne r, Function.update_of_ne r, Function.update_of_ne r]
          exact hE x hx (by omega) hl
        · dsimp only
          by_cases r : x = i
          · rw [r, Function.update_self, Function.update_self, Function.update_self]
            exact ⟨rfl, rfl, rfl, (hV i hI fun t => by omega).2.2.2⟩
          · rw [Function.update_of_ne r, Function.update_of_ne r, Function.update_of_ne r]
            exact hD x hx (by omega) hl hd
      · rename_i h1
        have hv : Var a dense i := ⟨h0, by omega⟩
        refine (pushDeg_ok hr hdl (fun q => by have := q.2.1; omega) hI (d := a.len i) (by omega)
          (hla i hI le_rfl) (by rw [e4])).bind fun s hs => ?_
        obtain ⟨head, next, last, rk', hr, hdl', hlast⟩ := hs
        rw [Ok_pure]
        refine ⟨hnel, ?_, _, rk', hr, e1, e2, e3, e4, ?_, fun x hx hle => ?_, fun x hx q => ?_,
          fun x hx hlt hl => ?_, fun x hx hlt hl hd => ?_⟩
        · dsimp only
          rw [sumB_add (S := fun x => x < i ∧ Var a dense x) hI (fun q => by have := q.1; omega) fun x _ => ?_]
          · omega
          · constructor
            · rintro ⟨q1, q2⟩
              by_cases r : x = i
              · exact Or.inr r
              · exact Or.inl ⟨by omega, q2⟩
            · rintro (⟨q1, q2⟩ | rfl)
              · exact ⟨by omega, q2⟩
              · exact ⟨by omega, hv⟩
        · refine hdl'.congr (fun x => ?_) (fun _ _ => rfl) (fun _ _ => rfl) (fun _ _ => rfl)
            fun _ _ => rfl
          constructor
          · rintro ⟨q0, q1, q2⟩
            by_cases r : x = i
            · exact Or.inr r
            · exact Or.inl ⟨q0, by omega, q2⟩
          · rintro (⟨q0, q1, q2⟩ | rfl)
            · exact ⟨q0, by omega, q2⟩
            · exact ⟨hI, by omega, hv⟩
        · dsimp only
          rw [hlast x fun q => by have := q.2.1; omega]
          exact hla x hx (by omega)
        · exact hV x hx fun t => q (by omega)
        · exact hE x hx (by
            have : x ≠ i := fun r => h0 (r ▸ hl)
            omega) hl
        · exact hD x hx (by
            have : x ≠ i := fun r => h1 (by rw [← r]; exact hd)
            omega) hl hd
  · rintro ⟨nel, s⟩ ⟨hnel, hcnt, b, rk, hr, e1, e2, e3, e4, hdl, hla, hV, hE, hD⟩
    dsimp only at hnel hcnt hr ⊢
    refine ⟨hnel, b, hr, ?_⟩
    have V : ∀ x, Idx n x → Var a dense x →
        b.pe x = a.pe x ∧ b.nv x = 1 ∧ b.elen x = 0 ∧ b.w x = w x := fun x hx hv => hV x hx fun _ => hv
    have E : ∀ x, Idx n x → a.len x = 0 → b.pe x = -1 ∧ b.nv x = 1 ∧ b.elen x = -3 ∧ b.w x = 0 :=
      fun x hx h0 => hE x hx hx.2 h0
    have D : ∀ x, Idx n x → a.len x ≠ 0 → ¬ Var a dense x →
        b.pe x = -1 ∧ b.nv x = 0 ∧ b.elen x = -1 ∧ b.w x = w x := fun x hx h0 hv =>
      hD x hx hx.2 h0 (by by_contra hc; exact hv ⟨h0, by omega⟩)
    have isV : ∀ x, IsV n b x ↔ Idx n x ∧ Var a dense x := by
      intro x
      constructor
      · rintro ⟨q1, q2, q3⟩
        refine ⟨q1, ?_⟩
        by_contra hv
        by_cases h0 : a.len x = 0
        · have := E x q1 h0; omega
        · have := D x q1 h0 hv; omega
      · rintro ⟨q1, q2⟩
        have := V x q1 q2
        exact ⟨q1, by omega, by omega⟩
    have noU : ∀ x, ¬ IsU n b x := by
      rintro x ⟨q1, q2, q3⟩
      by_cases hv : Var a dense x
      · have := V x q1 hv; omega
      · by_cases h0 : a.len x = 0
        · have := E x q1 h0; omega
        · have := D x q1 h0 hv; omega
    have pe0 : ∀ x, Idx n x → 0 ≤ b.pe x → Var a dense x := by
      intro x hx hp
      by_contra hv
      by_cases h0 : a.len x = 0
      · have := E x hx h0; omega
      · have := D x hx h0 hv; omega
    have noE : ∀ x e, IsV n b x → ¬ MemE b x e := by
      rintro x e hx ⟨k, k0, k1, -⟩
      have := V x hx.1 ((isV x).1 hx).2
      omega
    have mA : ∀ x, IsV n b x → ∀ y, MemA b x y ↔ MemL a x y := by
      intro x hx y
      have := V x hx.1 ((isV x).1 hx).2
      unfold MemA MemL
      rw [this.1, this.2.2.1, e1, e2, add_zero, sub_zero]
    have nn : ∀ x, Idx n x → 0 ≤ b.nv x := by
      intro x hx
      by_cases hv : Var a dense x
      · have := V x hx hv; omega
      · by_cases h0 : a.len x = 0
        · have := E x hx h0; omega
        · have := D x hx h0 hv; omega
    exact {
      core := {
        lay := hg.lay.congr fun x hx hp => by
          rw [(V x hx (pe0 x hx hp)).1, e2]; exact ⟨rfl, rfl⟩
        room := le_trans (tot_le fun x hx => by
          rw [if_pos (hg.pe0 x hx), e2]
          split
          · exact le_rfl
          · exact (hg.lay.pos x hx (hg.pe0 x hx)).1) hg.room
        free := by rw [e3]; exact hg.free
        vals := by rw [e1]; exact hg.vals
        cls := fun x hx => by
          by_cases hv : Var a dense x
          · exact Or.inl ((isV x).2 ⟨hx, hv⟩)
          · by_cases h0 : a.len x = 0
            · have := E x hx h0
              exact Or.inr (Or.inl ⟨by omega, by omega⟩)
            · have := D x hx h0 hv
              exact Or.inr (Or.inr ⟨by omega, by omega, by omega⟩)
        var := fun x hx => by
          obtain ⟨h1, hv⟩ := (isV x).1 hx
          have h2 := V x h1 hv
          have h3 := hg.pe0 x h1
          have h4 := (hg.lay.pos x h1 h3).1
          have h5 := hw x h1
          have h6 := hv.1
          rw [e2]
          omega
        elt := fun e he => (noU e he).elim
        eltw := fun e he => (noU e he).elim
        varE := fun x e hx hM => (noE x e hx hM).elim
        varA := fun x y hx hM hy => by
          obtain ⟨h1, hv⟩ := (isV x).1 hx
          rw [mA x hx] at hM
          obtain ⟨h2, h3⟩ := hg.sym x y h1 hM
          have hyI : Idx n y := by
            obtain ⟨k, k0, k1, e⟩ := hM
            have := hg.pe0 x h1
            have := hg.lay.pos x h1 this
            rw [← e]; exact hg.vals _ (by omega) (by omega)
          have hyl : a.len y ≠ 0 := by
            obtain ⟨k, k0, k1, -⟩ := h3
            omega
          have hyv : Var a dense y := by
            by_contra hc
            exact hy (D y hyI hyl hc).2.1
          have hyV := (isV y).2 ⟨hyI, hyv⟩
          exact ⟨hyV, (mA y hyV x).2 h3⟩
        eltL := fun e x he => (noU e he).elim
        nodup := fun x hx => by
          rw [(V x hx.1 ((isV x).1 hx).2).2.2.1]
          intro k k' k0 k1; omega
        edeg := fun e he => (noU e he).elim
        lemax0 := le_rfl
        w := fun x hx => by
          by_cases hv : Var a dense x
          · rw [(V x hx hv).2.2.2]; exact ⟨(hw x hx).1, (hw x hx).2.1⟩
          · by_cases h0 : a.len x = 0
            · rw [(E x hx h0).2.2.2]; omega
            · rw [(D x hx h0 hv).2.2.2]; exact ⟨(hw x hx).1, (hw x hx).2.1⟩
        wflg2 := hw2 }
      nn := nn
      cnt := by
        refine Eq.trans ?_ hcnt
        congr 1
        refine sumB_congr (fun x hx => ?_) fun x hx q => ?_
        · rw [isV]; exact ⟨fun q => ⟨hx.2, q.2⟩, fun q => ⟨hx, q.2⟩⟩
        · unfold anv; rw [(V x hx q.2).2.1]; rfl
      md := ⟨le_rfl, fun x hx => by
        rw [e4]; exact (hg.lay.pos x hx.1 (hg.pe0 x hx.1)).1⟩
      dl := ⟨rk, hdl.congr (fun x => by
        rw [isV]; exact ⟨fun q => ⟨q.1, q.1.2, q.2⟩, fun q => ⟨q.1, q.2.2⟩⟩) (fun _ _ => rfl)
        (fun _ _ => rfl) (fun _ _ => rfl) fun _ _ => rfl⟩
      tree := by
        have hp : ∀ x, Idx n x → -1 ≤ b.pe x := by
          intro x hx
          by_cases hv : Var a dense x
          · have := V x hx hv; have := hg.pe0 x hx; omega
          · by_cases h0 : a.len x = 0
            · have := E x hx h0; omega
            · have := D x hx h0 hv; omega
        refine ⟨fun _ => 0, fun x => x, fun x hx h => ?_, fun x hx h => ⟨rfl, ?_⟩, fun x hx _ h => ?_,
          fun _ _ _ _ => rfl⟩
        · have := hp x hx; omega
        · have : (ix n).filter (fun i => i = x) = {x} := by
            ext y
            simp only [Finset.mem_filter, Finset.mem_Ico, Finset.mem_singleton]
            constructor
            · exact fun q => q.2
            · rintro rfl; exact ⟨hx, rfl⟩
          rw [this, Finset.card_singleton]
          by_cases hv : Var a dense x
          · rw [(V x hx hv).2.1]; rfl
          · by_cases h0 : a.len x = 0
            · rw [(E x hx h0).2.1]; rfl
            · exact (h (D x hx h0 hv).2.1).elim
        · have := hp x hx; omega }

/-- the end of the elimination: every row is an element or has been absorbed -/
structure Fin (n : Int) (a : Ab) : Prop where
  nn : ∀ x, Idx n x → 0 ≤ a.nv x
  pe : ∀ x, Idx n x → a.pe x < 0
  el : ∀ x, Idx n x → 0 < a.nv x → a.elen x < -1
  tree : ∃ rk rep, Tree n a.pe a.nv a.elen rk rep

theorem eliminate_ok {n : Nat} {pfree dense0 imax : Int} (hg : Graph n L a pfree) (h : Ini n L s a) :
    Ok (eliminate n L pfree dense0 imax s) (fun s' => ∃ b, Rep n L s' b ∧ Fin n b) := by
  unfold eliminate
  dsimp only
  refine (initArrays_ok (by omega) h).bind fun s hr => ?_
  refine (clearFlag_ok hr (by omega) (fun q => by omega)).bind fun g hg' => ?_
  obtain ⟨hg2, w, hr, hw⟩ := hg'
  refine (initLists_ok (by omega) hg hr hg2 fun x hx => ?_).bind fun d hd => ?_
  · have := hw x hx
    have e : (start a).w x = 1 := rfl
    omega
  obtain ⟨hd0, b, hr, hI⟩ := hd
  refine iter_ok (fun q => 0 ≤ q.nel ∧ ∃ b, Rep n L q.s b ∧
    Inv n L b q.mindeg q.nel q.lemax q.wflg q.pfree) (fun q => ((n : Int) - q.nel).toNat)
    (by dsimp only; omega) ⟨hd0, b, hr, hI⟩ ?_
  rintro q ⟨hq0, b, hr, hI⟩
  split
  · rename_i hlt
    refine (pivot_ok hr hI hq0 hlt).bind fun q' hq' => ?_
    rw [Ok_pure]
    obtain ⟨h1, h2⟩ := hq'
    exact ⟨⟨by omega, h2⟩, by omega⟩
  · rename_i hge
    rw [Ok_pure]
    dsimp only
    refine ⟨b, hr, ?_⟩
    have noV : ∀ x, ¬ IsV n b x := by
      intro x hx
      have h1 : anv b x ≤ sumB n (anv b) (fun x => IsV n b x) :=
        sumB_single_le (fun _ _ _ => abs_nonneg _) hx.1 hx
      have h2 : 0 < anv b x := abs_pos.2 hx.2.1
      have := hI.cnt
      omega
    refine ⟨hI.nn, fun x hx => ?_, fun x hx hν => ?_, hI.tree⟩
    rotate_left
    · rcases hI.core.cls x hx with c | c | c
      · exact (noV x c).elim
      · exact c.2
      · omega
    rcases hI.core.cls x hx with c | c | c
    · exact (noV x c).elim
    · by_contra hc
      obtain ⟨-, i, hi, -⟩ := hI.core.elt x ⟨hx, c.2, by omega⟩ (by have := hx.1; omega)
      exact noV i hi
    · exact c.2.2

end Ecos.Amd
