import Verif.Lemmas.Amd15

/-!
# AMD: one turn of the main loop
-/
namespace Ecos.Amd

open Function (update)

variable {L : Int} {s : St} {a b : Ab} {me pfree lemax wflg mindeg degme nvpiv nel : Int}
  {rk : Int → Nat} {vh vl bh : Int → Int}

theorem finish_ok {n : Int} {q : Rest} {pme1 elenme : Int} (hr : Rep n L q.s b) (hmI : Idx n me) :
    Ok (finish me nvpiv elenme pme1 pfree q) (fun r =>
      r.1 = (if elenme ≠ 0 then q.p else pfree) ∧
      Rep n L r.2 { b with
        nv := update b.nv me nvpiv
        len := update b.len me (q.p - pme1)
        pe := if q.p - pme1 = 0 then update b.pe me (-1) else b.pe
        w := if q.p - pme1 = 0 then update b.w me 0 else b.w }) := by
  unfold finish
  refine (hr.wNv _ hmI).bind fun s hr => ?_
  refine (hr.wLen _ hmI).bind fun s hr => ?_
  refine Ok_rd (hr.rLen hmI) ?_
  dsimp only
  rw [Function.update_self]
  by_cases e : q.p - pme1 = 0
  · simp only [e, if_true]
    rw [Ok_bind]
    refine (hr.wPe _ hmI).bind fun s hr => ?_
    refine (hr.wW _ hmI).mono fun s hr => ?_
    rw [Ok_pure]
    refine ⟨rfl, ?_⟩
    rw [EMPTY_eq] at hr
    rw [e] at hr
    exact hr
  · simp only [e, if_false]
    rw [Ok_bind, Ok_pure, Ok_pure]
    exact ⟨rfl, hr⟩

theorem setElement_ok {n : Int} {c : El} (hr : Rep n L c.s b) (hmI : Idx n me) :
    Ok (setElement me nvpiv c) (fun s => Rep n L s
      (withEl b me c.degme c.pme1 (c.pme2 - c.pme1 + 1) (FLIP (nvpiv + c.degme)) b.w)) := by
  unfold setElement
  refine (hr.wDegree _ hmI).bind fun s hr => ?_
  refine (hr.wPe _ hmI).bind fun s hr => ?_
  refine (hr.wLen _ hmI).bind fun s hr => ?_
  exact hr.wElen _ hmI

theorem exists_var {n : Int} (h : Inv n L a mindeg nel lemax wflg pfree) (hlt : nel < n) : ∃ i, IsV n a i := by
  by_contra hc
  have := h.cnt
  rw [sumB_empty (fun x _ hx => hc ⟨x, hx⟩)] at this
  omega

theorem pivot_ok {n : Nat} {q : Main} {wbig : Int} (hr : Rep n L q.s a)
    (h : Inv n L a q.mindeg q.nel q.lemax q.wflg q.pfree) (hnel : 0 ≤ q.nel) (hlt : q.nel < n) :
    Ok (pivot n L wbig q) (fun q' => q.nel < q'.nel ∧ ∃ b, Rep n L q'.s b ∧
      Inv n L b q'.mindeg q'.nel q'.lemax q'.wflg q'.pfree) := by
  obtain ⟨i, hi⟩ := exists_var h hlt
  obtain ⟨rk, hdl⟩ := h.dl
  have hn0 : (0 : Int) ≤ n := by omega
  unfold pivot
  refine (findPivot_ok hr hdl h.md.1 hi h.md.2).bind fun f hf => ?_
  obtain ⟨hV, hdeg, hlast, hd0, hdmin⟩ := hf
  generalize hme : f.2 = me at *
  have hmI := hV.1
  dsimp only
  rw [← hdeg]
  refine (takePivot_ok hr hdl hV hlast).bind fun s hs => ?_
  obtain ⟨head, next, last, hr, hdl'⟩ := hs
  refine Ok_rd (hr.rElen hmI) ?_
  refine Ok_rd (hr.rNv hmI) ?_
  dsimp only
  refine (hr.wNv _ hmI).bind fun s hr => ?_
  dsimp only at hr
  have hbase := h.base hV hdl'
  have nvme : 0 < a.nv me := by have := h.nn me hmI; have := hV.2.1; omega
  rw [Ok_bind]
  -- the new element
  have hbuild : Ok (if a.elen me = 0 then inPlace me q.pfree s else inFree n L me (a.elen me) q.pfree s)
      (fun c => (a.elen me ≠ 0 → c.pme2 = c.pfree - 1) ∧ ∃ b, Rep n L c.s b ∧
        Built n L { a with nv := update a.nv me (-a.nv me), head := head, next := next, last := last }
          me (fun j => IsV n a j ∧ j ≠ me) (SrcP a me) rk c.pme1 (c.pme2 - c.pme1 + 1) c.pfree c.degme b) := by
    by_cases e : a.elen me = 0
    · rw [if_pos e]
      exact (inPlace_ok hbase hr e).mono fun c hc => ⟨fun q => (q e).elim, hc⟩
    · rw [if_neg e]
      exact (inFree_ok hbase hr).mono fun c hc => ⟨fun _ => hc.1, hc.2⟩
  refine hbuild.mono fun c hc => ?_
  obtain ⟨hpf, b, hr, hB⟩ := hc
  obtain ⟨st1, st2, st3⟩ := h.start hV (md := a.degree me) ⟨by rw [hdeg]; exact hd0, by rw [hdeg]; exact hdmin⟩ hB
  have hm0 := hB.m0
  refine (setElement_ok (nvpiv := a.nv me) hr hmI).bind fun s hr => ?_
  have hbw : ∀ x, Idx n x → 0 ≤ b.w x ∧ b.w x < q.wflg := by
    intro x hx
    by_cases e : InB a.iw (a.pe me) (a.elen me) x
    · rw [(hB.abs x e).2]
      have := h.core.wflg2
      omega
    · rw [hB.wO x hx e]
      exact h.core.w x hx
  refine (clearFlag_ok hr hn0 fun _ => hbw).bind fun g hg => ?_
  obtain ⟨hg2, w, hr, hw⟩ := hg
  have hmid := st1 w fun x hx => ⟨(hw x hx).1, (hw x hx).2.2⟩
  have e1 : c.pme1 = (withEl b me c.degme c.pme1 (c.pme2 - c.pme1 + 1)
      (FLIP (a.nv me + c.degme)) w).pe me := by
    unfold withEl; dsimp only; rw [Function.update_self]
  have e2 : c.pme2 = (withEl b me c.degme c.pme1 (c.pme2 - c.pme1 + 1)
      (FLIP (a.nv me + c.degme)) w).pe me + (withEl b me c.degme c.pme1 (c.pme2 - c.pme1 + 1)
      (FLIP (a.nv me + c.degme)) w).len me - 1 := by
    unfold withEl; dsimp only; rw [Function.update_self, Function.update_self]; ring
  have hr : Rep n L g.2 (withEl b me c.degme c.pme1 (c.pme2 - c.pme1 + 1)
      (FLIP (a.nv me + c.degme)) w) := hr
  have hs1 := scan1_ok hr hmid (fun x hx => ⟨(hw x hx).1, (hw x hx).2.1⟩) hg2
  rw [← e2, ← e1] at hs1
  refine hs1.bind fun s hs => ?_
  obtain ⟨w', hr, hmid⟩ := hs
  have hr : Rep n L s (withEl b me c.degme c.pme1 (c.pme2 - c.pme1 + 1)
      (FLIP (a.nv me + c.degme)) w') := hr
  have hs2 := st3 w' g.1 hmid
  have e1 : c.pme1 = (withEl b me c.degme c.pme1 (c.pme2 - c.pme1 + 1)
      (FLIP (a.nv me + c.degme)) w').pe me := e1
  have e2 : c.pme2 = (withEl b me c.degme c.pme1 (c.pme2 - c.pme1 + 1)
      (FLIP (a.nv me + c.degme)) w').pe me + (withEl b me c.degme c.pme1 (c.pme2 - c.pme1 + 1)
      (FLIP (a.nv me + c.degme)) w').len me - 1 := e2
  have hsc2 := scan2_ok (c := { degme := c.degme, nvpiv := a.nv me, nel := q.nel + a.nv me, s := s })
    (by omega) hr hs2 (fun x hx => st2 x (by
      unfold MemL withEl at hx
      dsimp only at hx
      rw [Function.update_self, Function.update_self] at hx
      exact hx))
  rw [← e2, ← e1] at hsc2
  refine hsc2.bind fun t ht => ?_
  obtain ⟨b2, hr, ep, el, hnel', hS⟩ := ht
  dsimp only at hnel'
  have el : b2.len me = c.pme2 - c.pme1 + 1 := by rw [el]; omega
  refine (hr.wDegree _ hmI).bind fun s hr => ?_
  have hwb := hS.mid.wb
  refine (clearFlag_ok hr hn0 (wflg := g.1 + max q.lemax t.degme) fun _ x hx => ?_).bind fun g' hg' => ?_
  · have := hwb x hx
    have := le_max_left q.lemax t.degme
    dsimp only
    omega
  obtain ⟨hg2', w2, hr, hw2⟩ := hg'
  obtain ⟨rk3, vh, vl, bh, hdet⟩ := hS.det hg2' hw2
  have hdt := detect_ok hr hdet (by dsimp only; omega)
  dsimp only at hdt
  rw [ep, el, show c.pme1 + (c.pme2 - c.pme1 + 1) - 1 = c.pme2 by ring] at hdt
  refine hdt.bind fun g3 hg3 => ?_
  obtain ⟨b3, bh', hr, hdet, hbh, ep3, el3⟩ := hg3
  have hrs := restore_ok hr hdet hbh (by omega) (by omega) (by rw [hdeg]; exact hd0)
  rw [ep3, el3, show c.pme1 + (c.pme2 - c.pme1 + 1) - 1 = c.pme2 by ring] at hrs
  refine hrs.bind fun r hr' => ?_
  obtain ⟨b4, hr, hI⟩ := hr'
  refine (finish_ok (pfree := c.pfree) (nvpiv := t.nvpiv) (pme1 := c.pme1) (elenme := a.elen me) hr hmI).bind
    fun e he => ?_
  obtain ⟨ee, hr⟩ := he
  rw [Ok_pure]
  refine ⟨by dsimp only; omega, _, hr, ?_⟩
  dsimp only
  have hI : RI n L b3 me (b3.pe me + b3.len me) (r.p - c.pme1) r.mindeg b4 := by
    rw [ep3, el3]; exact hI
  refine RI.inv hdet hI ?_
  rw [ee]
  by_cases q0 : a.elen me = 0
  · left; simp [q0]
  · right
    rw [if_pos q0, ep3, el3]
    have := hpf q0
    omega

end Ecos.Amd
