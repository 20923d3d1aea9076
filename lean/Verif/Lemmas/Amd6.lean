import Verif.Lemmas.Amd5

/-!
# AMD: a new element is built in place
-/
namespace Ecos.Amd

open Function (update)

variable {n L : Int} {a b : Ab} {me pfree : Int} {P Src : Int → Prop} {rk : Int → Nat}

theorem Grow.push {pme1 m degme i : Int} (h : Grow n a P Src rk pme1 m degme b)
    (hI : Idx n i) (hi : P i) (hsrc : Src i) (hnB : ¬ InB b.iw pme1 m i) {hd nx la : Int → Int}
    (hdl : DL n (fun j => (P j ∧ ¬ InB b.iw pme1 m j) ∧ j ≠ i) hd nx la a.degree rk) :
    Grow n a P Src rk pme1 (m + 1) (degme + a.nv i)
      { b with nv := update b.nv i (-(a.nv i)), iw := update b.iw (pme1 + m) i, head := hd,
               next := nx, last := la } := by
  have hB := fun x => InB.push (iw := b.iw) (p := pme1) (m := m) (v := i) h.m0 x
  exact {
    elen := h.elen
    degree := h.degree
    m0 := by have := h.m0; omega
    inj := h.inj.push hnB
    inB := fun x hx => by
      rcases (hB x).1 hx with hx | rfl
      · exact h.inB x hx
      · exact ⟨hi, hsrc⟩
    nvB := fun x hxI hx => by
      dsimp only
      by_cases q1 : x = i
      · subst q1; rw [Function.update_self]
      · rw [Function.update_of_ne q1]
        exact h.nvB x hxI (((hB x).1 hx).resolve_right q1)
    nvO := fun x hxI hx => by
      dsimp only at hx ⊢
      have q1 : x ≠ i := fun q1 => hx ((hB x).2 (Or.inr q1))
      rw [Function.update_of_ne q1]
      exact h.nvO x hxI (fun y => hx ((hB x).2 (Or.inl y)))
    deg := by
      dsimp only
      rw [h.deg]
      exact (sumB_add hI hnB fun x _ => hB x).symm
    dl := by
      refine hdl.congr (fun x => ?_) (fun _ _ => rfl) (fun _ _ => rfl) (fun _ _ => rfl)
        fun _ _ => rfl
      rw [hB x]
      tauto }

theorem inPlace_ok {s : St} (hb : Base n L a me pfree P Src rk) (hr : Rep n L s a)
    (hE : a.elen me = 0) :
    Ok (inPlace me pfree s) (fun r => ∃ b, Rep n L r.s b ∧
      Built n L a me P Src rk r.pme1 (r.pme2 - r.pme1 + 1) r.pfree r.degme b) := by
  unfold inPlace
  refine Ok_rd (hr.rPe hb.meI) ?_
  refine Ok_rd (hr.rLen hb.meI) ?_
  obtain ⟨f0, f1, f2⟩ := hb.free
  have hl1 := hb.len1 me hb.meI hb.peme
  have hp0 := hb.peme
  have hpos := hb.lay.pos me hb.meI hb.peme
  have noB : ∀ x, ¬ InB a.iw (a.pe me) (a.pe me - 1 - a.pe me + 1) x := by
    rintro x ⟨k, k0, k1, _⟩; omega
  refine forI_ok (fun p (q : El) => q.pme1 = a.pe me ∧ q.pfree = pfree ∧ ∃ b, Rep n L q.s b ∧
      Grow n a P Src rk q.pme1 (q.pme2 - q.pme1 + 1) q.degme b ∧ q.pme2 + 1 ≤ p ∧
      b.pe = a.pe ∧ b.len = a.len ∧ b.w = a.w ∧ b.top = a.top ∧
      (∀ x, (x < q.pme1 ∨ q.pme2 + 1 ≤ x) → b.iw x = a.iw x) ∧
      (∀ x, 0 ≤ x → x < pfree → Idx n (b.iw x)) ∧
      (∀ k, 0 ≤ k → a.pe me + k < p → 0 < a.nv (a.iw (a.pe me + k)) →
        InB b.iw q.pme1 (q.pme2 - q.pme1 + 1) (a.iw (a.pe me + k)))) (by omega) ?_ ?_ ?_
  · refine ⟨rfl, rfl, a, hr, ?_, by dsimp only; omega, rfl, rfl, rfl, rfl, fun _ _ => rfl, hb.vals,
      fun k k0 k1 => by omega⟩
    exact {
      elen := rfl
      degree := rfl
      m0 := by dsimp only; omega
      inj := fun k k' k0 k1 => by dsimp only at k1; omega
      inB := fun x hx => (noB x hx).elim
      nvB := fun x _ hx => (noB x hx).elim
      nvO := fun x _ _ => rfl
      deg := (sumB_empty fun x _ => noB x).symm
      dl := hb.dl.congr (fun x => ⟨fun y => y.1, fun y => ⟨y, noB x⟩⟩) (fun _ _ => rfl)
        (fun _ _ => rfl) (fun _ _ => rfl) fun _ _ => rfl }
  · rintro p q p0 p1 ⟨q1, q2, b, hr, hg, hle, e1, e2, e3, e4, hiw, hv, hcov⟩
    have hm0 := hg.m0
    have ei : b.iw p = a.iw p := hiw p (Or.inr (by omega))
    have hI : Idx n (b.iw p) := hv p (by omega) (by omega)
    rw [ei] at hI
    refine Ok_rd (hr.rIw (by omega) (by omega) (by omega)) ?_
    rw [ei]
    refine Ok_rd (hr.rNv hI) ?_
    have hsrc := hb.srcA (p - a.pe me) (by omega) (by omega)
    rw [show a.pe me + (p - a.pe me) = p by ring] at hsrc
    generalize a.iw p = i at *
    by_cases hnv : b.nv i > 0
    · rw [if_pos hnv]
      have hnB : ¬ InB b.iw q.pme1 (q.pme2 - q.pme1 + 1) i := by
        intro hB
        have := hg.nvB i hI hB
        have := (hb.hP i (hg.inB i hB).1).2
        omega
      have hnvi := hg.nvO i hI hnB
      obtain ⟨hP, hS⟩ := hsrc (by omega)
      refine (hr.wNv _ hI).bind fun s hr => ?_
      refine (hr.wIw (i := q.pme2 + 1) i (by omega) (by dsimp only; omega) (by omega)).bind fun s hr => ?_
      refine (removeDeg_ok hr (P := fun x => P x ∧ ¬ InB b.iw q.pme1 (q.pme2 - q.pme1 + 1) x) (rk := rk)
        (by dsimp only; rw [hg.degree]; exact hg.dl) ⟨hP, hnB⟩).bind ?_
      rintro s ⟨hd, nx, la, hr, hdl⟩
      rw [Ok_pure]
      dsimp only at hdl
      rw [hg.degree] at hdl
      have hg' := hg.push hI hP hS hnB hdl
      have ep : q.pme1 + (q.pme2 - q.pme1 + 1) = q.pme2 + 1 := by ring
      have em : q.pme2 - q.pme1 + 1 + 1 = q.pme2 + 1 - q.pme1 + 1 := by ring
      rw [ep, em, ← hnvi] at hg'
      refine ⟨q1, q2, _, hr, hg', by dsimp only; omega, e1, e2, e3, e4, ?_, ?_, ?_⟩
      · intro x hx
        dsimp only at hx ⊢
        rw [Function.update_of_ne (by omega)]
        exact hiw x (by omega)
      · intro x x0 x1
        dsimp only
        by_cases q1 : x = q.pme2 + 1
        · subst q1; rw [Function.update_self]; exact hI
        · rw [Function.update_of_ne q1]; exact hv x x0 x1
      · intro k k0 k1 hnvk
        dsimp only
        have hB := InB.push (iw := b.iw) (p := q.pme1) (m := q.pme2 - q.pme1 + 1) (v := i) hm0
          (a.iw (a.pe me + k))
        rw [ep, em] at hB
        rw [hB]
        by_cases q3 : a.pe me + k = p
        · rw [q3, ← hiw p (Or.inr (by omega))]
          exact Or.inr ei
        · exact Or.inl (hcov k k0 (by omega) hnvk)
    · rw [if_neg hnv, Ok_pure]
      refine ⟨q1, q2, b, hr, hg, by omega, e1, e2, e3, e4, hiw, hv, ?_⟩
      intro k k0 k1 hnvk
      by_cases q3 : a.pe me + k = p
      · rw [q3, ← hiw p (Or.inr (by omega)), ei] at hnvk ⊢
        by_contra hB
        have := hg.nvO i hI hB
        omega
      · exact hcov k k0 (by omega) hnvk
  · rintro q ⟨q1, q2, b, hr, hg, hle, e1, e2, e3, e4, hiw, hv, hcov⟩
    refine ⟨b, hr, ?_⟩
    have noE : ∀ x, ¬ InB a.iw (a.pe me) (a.elen me) x := by
      rintro x ⟨k, k0, k1, _⟩; omega
    have hm0 := hg.m0
    exact { hg with
      covE := fun e he => (noE e he).elim
      covA := fun k k0 k1 hnv => hcov k (by omega) (by omega) hnv
      abs := fun e he => (noE e he).elim
      wO := fun x _ _ => by rw [e3]
      neg := fun x _ _ => by rw [e1]
      obj := fun x hx q3 _ hp => by
        rw [e1, e2]
        refine ⟨hp, rfl, fun k k0 k1 => hiw _ ?_⟩
        have := hb.lay.disj x me hx hb.meI q3 hp hp0
        omega
      lay := by
        rw [e1, e2, q1, q2]
        refine hb.lay.sub hb.meI fun _ => ?_
        omega
      room := by
        rw [e1, e2, q1, tot_update hb.meI, if_pos hp0, if_pos hp0]
        omega
      free := by rw [e4]; omega
      vals := by rw [q2]; exact hv }

end Ecos.Amd
