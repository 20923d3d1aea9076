import Verif.Lemmas.Amd17

/-!
# AMD: path compression
-/
namespace Ecos.Amd

open Function (update)

variable {L : Int} {s : St} {a b : Ab} {rk : Int → Nat} {rep : Int → Int}

/-- the assembly tree: `par` is the parent or −1 -/
structure PT (n : Int) (par ν : Int → Int) (rk : Int → Nat) (rep : Int → Int) : Prop where
  up : ∀ x, Idx n x → par x ≠ -1 → Idx n (par x) ∧ (ν x ≠ 0 → ν (par x) ≠ 0) ∧
    (ν (par x) = 0 → par (par x) ≠ -1)
  rkD : ∀ x, Idx n x → par x ≠ -1 → ν x = 0 → ν (par x) = 0 → rk x < rk (par x)
  rkL : ∀ x, Idx n x → par x ≠ -1 → ν x ≠ 0 → par (par x) ≠ -1 → rk x < rk (par x)
  cls : ∀ x, Idx n x → ν x ≠ 0 → rep x = x ∧ (((ix n).filter fun i => rep i = x).card : Int) = ν x
  dead : ∀ x, Idx n x → ν x = 0 → par x ≠ -1 → rep x = rep (par x)
  root : ∀ x, Idx n x → ν x = 0 → par x = -1 → rep x = x

theorem Fin.pt {n : Int} (h : Fin n a) : ∃ rk rep, PT n (fun x => FLIP (a.pe x)) a.nv rk rep := by
  obtain ⟨rk, rep, ht⟩ := h.tree
  have e : ∀ x, FLIP (a.pe x) ≠ -1 ↔ a.pe x ≠ -1 := fun x => by rw [FLIP_eq]; omega
  have lt : ∀ x, Idx n x → FLIP (a.pe x) ≠ -1 → a.pe x < -1 := fun x hx hp => by
    have := h.pe x hx; rw [e] at hp; omega
  refine ⟨rk, rep, fun x hx hp => ?_, fun x hx hp h1 h2 => ?_, fun x hx hp h1 h2 => ?_, ht.cls,
    fun x hx h1 h2 => ht.dead x hx h1 (lt x hx h2), fun x hx h1 h2 => ?_⟩
  · obtain ⟨g1, g2, g3, g4⟩ := ht.par x hx (lt x hx hp)
    refine ⟨g1, fun q => (g3 q).1, fun q => ?_⟩
    rw [e]
    rcases g2 with r | r
    · exact (r q).elim
    · omega
  · obtain ⟨g1, g2, g3, g4⟩ := ht.par x hx (lt x hx hp)
    rcases g2 with r | r
    · exact (r h2).elim
    · exact g4 r
  · obtain ⟨g1, g2, g3, g4⟩ := ht.par x hx (lt x hx hp)
    exact g4 (lt _ g1 h2)
  · refine ht.root x hx h1 ?_
    rw [FLIP_eq] at h2
    omega

/-- number of nodes above `x` -/
noncomputable def above (n : Int) (rk : Int → Nat) (x : Int) : Nat :=
  ((ix n).filter fun y => rk x < rk y).card

theorem above_lt {n : Int} (rk : Int → Nat) {x y : Int} (hy : Idx n y) (h : rk x < rk y) :
    above n rk y < above n rk x := by
  refine Finset.card_lt_card ⟨fun z hz => ?_, fun hs => ?_⟩
  · simp only [Finset.mem_filter] at hz ⊢
    exact ⟨hz.1, by omega⟩
  · have := hs (Finset.mem_filter.2 ⟨Finset.mem_Ico.2 hy, h⟩)
    simp at this

theorem above_le {n : Nat} (rk : Int → Nat) {x : Int} (hx : Idx n x) : above n rk x + 1 ≤ n := by
  have h : (ix n).filter (fun y => rk x < rk y) ⊆ (ix n).erase x := by
    intro y hy
    obtain ⟨h1, h2⟩ := Finset.mem_filter.1 hy
    refine Finset.mem_erase.2 ⟨?_, h1⟩
    rintro rfl; omega
  have := Finset.card_le_card h
  rw [Finset.card_erase_of_mem (Finset.mem_Ico.2 hx), Int.card_Ico] at this
  unfold above
  omega

theorem findRoot_ok {n : Nat} (hr : Rep n L s a) (h : PT n a.pe a.nv rk rep) {j : Int} (hj : Idx n j)
    (hj0 : a.nv j = 0 → a.pe j ≠ -1) :
    Ok (findRoot n j s) (fun e => Idx n e ∧ a.nv e ≠ 0 ∧ e = rep j) := by
  unfold findRoot
  refine iter_ok (fun x => Idx n x ∧ (a.nv x = 0 → a.pe x ≠ -1) ∧ rep x = rep j)
    (fun x => if a.nv x = 0 then above n rk x + 1 else 0) ?_ ⟨hj, hj0, rfl⟩ ?_
  · split
    · have := above_le (n := n) rk hj; omega
    · omega
  · rintro x ⟨hx, h0, e⟩
    refine Ok_rd (hr.rNv hx) ?_
    split
    · rename_i hv
      refine Ok_rd (hr.rPe hx) ?_
      rw [Ok_pure]
      obtain ⟨g1, g2, g3⟩ := h.up x hx (h0 hv)
      refine ⟨⟨g1, g3, ?_⟩, ?_⟩
      · rw [← h.dead x hx hv (h0 hv)]; exact e
      · split
        · rename_i hp
          have := above_lt (n := n) rk g1 (h.rkD x hx (h0 hv) hv hp)
          omega
        · omega
    · rename_i hv
      rw [Ok_pure]
      exact ⟨hx, hv, by rw [← e]; exact (h.cls x hx hv).1.symm⟩

theorem PT.set {n : Int} {par ν : Int → Int} (h : PT n par ν rk rep) {q e : Int}
    (h0 : ν q = 0) (hp : par q ≠ -1) (he : Idx n e) (hν : ν e ≠ 0) (hre : rep q = e) :
    PT n (update par q e) ν rk rep := by
  have eq : e ≠ q := fun r => hν (r ▸ h0)
  have ene : e ≠ -1 := by omega
  have o : ∀ x, x ≠ q → update par q e x = par x := fun x hx => Function.update_of_ne hx _ _
  have m : update par q e q = e := Function.update_self _ _ _
  have ne : ∀ x, update par q e x ≠ -1 ↔ par x ≠ -1 := by
    intro x
    by_cases r : x = q
    · rw [r, m]; exact ⟨fun _ => hp, fun _ => ene⟩
    · rw [o x r]
  refine ⟨fun x hx hx1 => ?_, fun x hx hx1 h1 h2 => ?_, fun x hx hx1 h1 h2 => ?_, h.cls,
    fun x hx h1 h2 => ?_, fun x hx h1 h2 => ?_⟩
  · by_cases r : x = q
    · rw [r, m]
      exact ⟨he, fun _ => hν, fun t => (hν t).elim⟩
    · rw [ne] at hx1 ⊢
      rw [o x r]
      exact h.up x hx hx1
  · by_cases r : x = q
    · rw [r, m] at h2
      exact (hν h2).elim
    · rw [ne] at hx1
      rw [o x r] at h2 ⊢
      exact h.rkD x hx hx1 h1 h2
  · by_cases r : x = q
    · exact (h1 (r ▸ h0)).elim
    · rw [ne] at hx1 h2
      rw [o x r] at h2 ⊢
      exact h.rkL x hx hx1 h1 h2
  · by_cases r : x = q
    · rw [r, m, hre]
      exact (h.cls e he hν).1.symm
    · rw [ne] at h2
      rw [o x r]
      exact h.dead x hx h1 h2
  · by_cases r : x = q
    · rw [r, m] at h2; omega
    · rw [o x r] at h2
      exact h.root x hx h1 h2

/-- a node that hangs on an element, or is not in the tree -/
def Flat (par ν : Int → Int) (x : Int) : Prop := ν x = 0 → par x ≠ -1 → ν (par x) ≠ 0

theorem compressPath_ok {n : Nat} (hr : Rep n L s a) (h : PT n a.pe a.nv rk rep) {i : Int} (hi : Idx n i) :
    Ok (compressPath n i s) (fun s' => ∃ pe, Rep n L s' { a with pe := pe } ∧ PT n pe a.nv rk rep ∧
      (∀ x, Flat a.pe a.nv x → Flat pe a.nv x) ∧ Flat pe a.nv i) := by
  unfold compressPath
  refine Ok_rd (hr.rNv hi) ?_
  split
  · rename_i hv
    refine Ok_rd (hr.rPe hi) ?_
    split
    · rename_i hp
      rw [EMPTY_eq] at hp
      rw [Ok_pure]
      exact ⟨a.pe, hr, h, fun _ q => q, fun _ q => (q hp).elim⟩
    · rename_i hp
      rw [EMPTY_eq] at hp
      obtain ⟨g1, g2, g3⟩ := h.up i hi hp
      refine (findRoot_ok hr h g1 g3).bind fun e he => ?_
      obtain ⟨heI, heν, her⟩ := he
      rw [← h.dead i hi hv hp] at her
      refine iter_ok (fun q => ∃ pe, Rep n L q.2 { a with pe := pe } ∧ PT n pe a.nv rk rep ∧
        (∀ x, Flat a.pe a.nv x → Flat pe a.nv x) ∧ (q.1 ≠ i → Flat pe a.nv i) ∧
        Idx n q.1 ∧ rep q.1 = e ∧ (a.nv q.1 = 0 → pe q.1 ≠ -1))
        (fun q => if a.nv q.1 = 0 then above n rk q.1 + 1 else 0) ?_
        ⟨a.pe, hr, h, fun _ q => q, fun q => (q rfl).elim, hi, her.symm, fun _ => hp⟩ ?_
      · dsimp only
        split
        · have := above_le (n := n) rk hi; omega
        · omega
      · rintro ⟨x, s⟩ ⟨pe, hr, h, hF, hFi, hx, hrx, hx0⟩
        dsimp only at hr hFi hx hrx hx0 ⊢
        refine Ok_rd (hr.rNv hx) ?_
        dsimp only
        split
        · rename_i hv'
          refine Ok_rd (hr.rPe hx) ?_
          refine (hr.wPe e hx).bind fun s hr => ?_
          rw [Ok_pure]
          dsimp only at hr ⊢
          obtain ⟨k1, k2, k3⟩ := h.up x hx (hx0 hv')
          have hFx : ∀ y, Flat pe a.nv y → Flat (update pe x e) a.nv y := by
            intro y hy h1 h2
            by_cases r : y = x
            · rw [r, Function.update_self]; exact heν
            · rw [Function.update_of_ne r] at h2 ⊢
              exact hy h1 h2
          have hxx : Flat (update pe x e) a.nv x := by
            intro _ _
            rw [Function.update_self]; exact heν
          refine ⟨⟨_, hr, h.set hv' (hx0 hv') heI heν hrx, fun y hy => hFx y (hF y hy), fun _ => ?_,
            k1, ?_, fun q => ?_⟩, ?_⟩
          · by_cases r : x = i
            · rw [← r]; exact hxx
            · exact hFx i (hFi r)
          · rw [← h.dead x hx hv' (hx0 hv')]; exact hrx
          · by_cases r : pe x = x
            · rw [r, Function.update_self]; omega
            · rw [Function.update_of_ne r]; exact k3 q
          · split
            · rename_i hp'
              have := above_lt (n := n) rk k1 (h.rkD x hx (hx0 hv') hv' hp')
              omega
            · omega
        · rename_i hv'
          rw [Ok_pure]
          refine ⟨pe, hr, h, hF, ?_⟩
          by_cases r : x = i
          · rw [r] at hv'; exact (hv' hv).elim
          · exact hFi r
  · rename_i hv
    rw [Ok_pure]
    exact ⟨a.pe, hr, h, fun _ q => q, fun q => (hv q).elim⟩

/-- the tree after path compression: `L` are the elements -/
structure Forest (n : Int) (par ν : Int → Int) (rk : Int → Nat) : Prop where
  nn : ∀ x, Idx n x → 0 ≤ ν x
  up : ∀ x, Idx n x → par x ≠ -1 → Idx n (par x) ∧ 0 < ν (par x)
  asc : ∀ x, Idx n x → par x ≠ -1 → 0 < ν x → par (par x) ≠ -1 → rk x < rk (par x)
  cls : ∀ x, Idx n x → 0 < ν x →
    (((ix n).filter fun i => ν i = 0 ∧ par i = x).card : Int) + 1 = ν x

/-- flip the arrays and compress the paths (amd_2.c:1633-1761) -/
theorem flatten_ok {n : Nat} (hr : Rep n L s a) (h : Fin n a) :
    Ok (do
      let s ← forI 0 n s fun i s => do
        let v ← s.rPe i
        s.wPe i (FLIP v)
      let s ← forI 0 n s fun i s => do
        let v ← s.rElen i
        s.wElen i (FLIP v)
      forI 0 n s fun i s => compressPath n i s) (fun s' => ∃ pe elen rk,
        Rep n L s' { a with pe := pe, elen := elen } ∧ Forest n pe a.nv rk ∧
        ∀ x, Idx n x → 0 < a.nv x → -1 ≤ elen x) := by
  have hn : (0 : Int) ≤ n := by omega
  rw [Ok_bind]
  refine forI_ok (fun i s => ∃ pe, Rep n L s { a with pe := pe } ∧
    (∀ x, Idx n x → x < i → pe x = FLIP (a.pe x)) ∧ ∀ x, Idx n x → i ≤ x → pe x = a.pe x) hn
    ⟨a.pe, hr, fun x hx q => by omega, fun _ _ _ => rfl⟩ ?_ ?_
  · rintro i s i0 i1 ⟨pe, hr, h1, h2⟩
    have hI : Idx n i := ⟨i0, i1⟩
    refine Ok_rd (hr.rPe hI) ?_
    refine (hr.wPe _ hI).mono fun s hr => ⟨_, hr, fun x hx hlt => ?_, fun x hx hle => ?_⟩
    · dsimp only
      by_cases r : x = i
      · rw [r, Function.update_self, h2 i hI le_rfl]
      · rw [Function.update_of_ne r]; exact h1 x hx (by omega)
    · dsimp only
      rw [Function.update_of_ne (by omega)]; exact h2 x hx (by omega)
  rintro s ⟨pe, hr, hpe, -⟩
  rw [Ok_bind]
  refine forI_ok (fun i s => ∃ elen, Rep n L s { a with pe := pe, elen := elen } ∧
    (∀ x, Idx n x → x < i → 0 < a.nv x → -1 ≤ elen x) ∧ ∀ x, Idx n x → i ≤ x → elen x = a.elen x) hn
    ⟨a.elen, hr, fun x hx q => by omega, fun _ _ _ => rfl⟩ ?_ ?_
  · rintro i s i0 i1 ⟨elen, hr, h1, h2⟩
    have hI : Idx n i := ⟨i0, i1⟩
    refine Ok_rd (hr.rElen hI) ?_
    refine (hr.wElen _ hI).mono fun s hr => ⟨_, hr, fun x hx hlt hν => ?_, fun x hx hle => ?_⟩
    · dsimp only
      by_cases r : x = i
      · rw [r, Function.update_self, h2 i hI le_rfl, FLIP_eq]
        have := h.el i hI (r ▸ hν)
        omega
      · rw [Function.update_of_ne r]; exact h1 x hx (by omega) hν
    · dsimp only
      rw [Function.update_of_ne (by omega)]; exact h2 x hx (by omega)
  rintro s ⟨elen, hr, hel, -⟩
  obtain ⟨rk, rep, hpt⟩ := h.pt
  have hpt : PT n pe a.nv rk rep := by
    have pp : ∀ x, Idx n x → pe x = FLIP (a.pe x) := fun x hx => hpe x hx hx.2
    refine ⟨fun x hx hp => ?_, fun x hx hp h1 h2 => ?_, fun x hx hp h1 h2 => ?_, hpt.cls,
      fun x hx h1 h2 => ?_, fun x hx h1 h2 => ?_⟩
    · rw [pp x hx] at hp ⊢
      obtain ⟨g1, g2, g3⟩ := hpt.up x hx hp
      rw [pp _ g1]
      exact ⟨g1, g2, g3⟩
    · rw [pp x hx] at hp h2 ⊢
      exact hpt.rkD x hx hp h1 h2
    · rw [pp x hx] at hp h2 ⊢
      rw [pp _ (hpt.up x hx hp).1] at h2
      exact hpt.rkL x hx hp h1 h2
    · rw [pp x hx] at h2 ⊢
      exact hpt.dead x hx h1 h2
    · rw [pp x hx] at h2
      exact hpt.root x hx h1 h2
  refine forI_ok (fun i s => ∃ pe, Rep n L s { a with pe := pe, elen := elen } ∧ PT n pe a.nv rk rep ∧
    ∀ x, Idx n x → x < i → Flat pe a.nv x) hn ⟨pe, hr, hpt, fun x hx q => by omega⟩ ?_ ?_
  · rintro i s i0 i1 ⟨pe, hr, hpt, hF⟩
    refine (compressPath_ok hr hpt ⟨i0, i1⟩).mono fun s hs => ?_
    obtain ⟨pe', hr, hpt, hF', hFi⟩ := hs
    refine ⟨pe', hr, hpt, fun x hx hlt => ?_⟩
    by_cases r : x = i
    · rw [r]; exact hFi
    · exact hF' x (hF x hx (by omega))
  · rintro s ⟨pe, hr, hpt, hF⟩
    refine ⟨pe, elen, rk, hr, ⟨h.nn, fun x hx hp => ?_, fun x hx hp h1 h2 =>
      hpt.rkL x hx hp (by omega) h2, fun x hx hν => ?_⟩, fun x hx hν => hel x hx hx.2 hν⟩
    · obtain ⟨g1, g2, g3⟩ := hpt.up x hx hp
      refine ⟨g1, ?_⟩
      have := h.nn _ g1
      by_cases q : a.nv x = 0
      · have := hF x hx hx.2 q hp; omega
      · have := g2 q; omega
    · obtain ⟨g1, g2⟩ := hpt.cls x hx (by omega)
      rw [← g2]
      have hm : x ∈ (ix n).filter fun i => rep i = x :=
        Finset.mem_filter.2 ⟨Finset.mem_Ico.2 hx, g1⟩
      have : (ix n).filter (fun i => a.nv i = 0 ∧ pe i = x) = ((ix n).filter fun i => rep i = x).erase x := by
        ext y
        simp only [Finset.mem_filter, Finset.mem_erase, Finset.mem_Ico]
        constructor
        · rintro ⟨q1, q2, q3⟩
          refine ⟨fun r => ?_, q1, ?_⟩
          · rw [r] at q2; omega
          · rw [hpt.dead y q1 q2 (by rw [q3]; omega), q3]; exact g1
        · rintro ⟨q1, q2, q3⟩
          have q4 : a.nv y = 0 := by
            by_contra q4
            exact q1 ((hpt.cls y q2 q4).1.symm.trans q3)
          refine ⟨q2, q4, ?_⟩
          by_cases q5 : pe y = -1
          · have := hpt.root y q2 q4 q5
            exact (q1 (by rw [← this, q3])).elim
          · have q6 := hpt.dead y q2 q4 q5
            have q7 := hF y q2 q2.2 q4 q5
            rw [(hpt.cls _ (hpt.up y q2 q5).1 q7).1, q3] at q6
            exact q6.symm
      have hcard := Finset.card_erase_of_mem hm
      have hpos := Finset.card_pos.2 ⟨x, hm⟩
      rw [this, hcard]
      omega

end Ecos.Amd
