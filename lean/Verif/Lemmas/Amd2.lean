import Mathlib.Algebra.BigOperators.Intervals
import Verif.Lemmas.Amd0

/-!
# AMD: garbage collection

The objects (lists of variables and of elements) are moved to the front of `Iw`, in the order in
which they lie there; their contents do not change.
-/
namespace Ecos.Amd

open Function (update)

theorem FLIP_eq (i : Int) : FLIP i = -i - 2 := rfl
theorem EMPTY_eq : EMPTY = -1 := rfl

/-- the lists `[pe x, pe x + len x)` of the objects lie below `B` and do not overlap -/
structure Lay (n B : Int) (pe len : Int → Int) : Prop where
  pos : ∀ x, Idx n x → 0 ≤ pe x → 0 ≤ len x ∧ pe x + len x ≤ B
  disj : ∀ x y, Idx n x → Idx n y → x ≠ y → 0 ≤ pe x → 0 ≤ pe y →
    pe x + len x ≤ pe y ∨ pe y + len y ≤ pe x

/-- the space taken by the objects -/
noncomputable def tot (n : Int) (pe len : Int → Int) : Int :=
  ∑ x ∈ ix n, if 0 ≤ pe x then len x else 0

/-- the space taken by the objects that start below `b` -/
noncomputable def totBelow (n : Int) (pe len : Int → Int) (b : Int) : Int :=
  ∑ x ∈ ix n, if 0 ≤ pe x ∧ pe x < b then len x else 0

theorem totBelow_step {n : Int} {pe len : Int → Int} {b b' : Int}
    (h : ∀ x, Idx n x → 0 ≤ pe x → (pe x < b' ↔ pe x < b)) :
    totBelow n pe len b' = totBelow n pe len b := by
  refine Finset.sum_congr rfl fun x hx => ?_
  have hx := Finset.mem_Ico.1 hx
  by_cases h0 : 0 ≤ pe x
  · simp only [h0, true_and, h x hx h0]
  · simp [h0]

theorem totBelow_add {n : Int} {pe len : Int → Int} {b b' j : Int} (hj : Idx n j)
    (h0 : 0 ≤ pe j) (hb : ¬ pe j < b) (hb' : pe j < b')
    (h : ∀ x, Idx n x → x ≠ j → 0 ≤ pe x → (pe x < b' ↔ pe x < b)) :
    totBelow n pe len b' = totBelow n pe len b + len j := by
  unfold totBelow
  have hm : j ∈ ix n := Finset.mem_Ico.2 hj
  rw [← Finset.sum_erase_add _ _ hm, ← Finset.sum_erase_add (ix n) _ hm]
  have : (∑ x ∈ (ix n).erase j, if 0 ≤ pe x ∧ pe x < b' then len x else 0)
      = ∑ x ∈ (ix n).erase j, if 0 ≤ pe x ∧ pe x < b then len x else 0 := by
    refine Finset.sum_congr rfl fun x hx => ?_
    obtain ⟨hne, hx⟩ := Finset.mem_erase.1 hx
    have hx := Finset.mem_Ico.1 hx
    by_cases h0 : 0 ≤ pe x
    · simp only [h0, true_and, h x hx hne h0]
    · simp [h0]
  rw [this, if_pos ⟨h0, hb'⟩, if_neg (fun q => hb q.2)]
  ring

variable {n L : Int} {s : St}

/-- the first loop: the first entry of each object goes to `Pe`, and its cell in `Iw` names the
object -/
theorem gcMark_ok {a : Ab} (h : Rep n L s a) {B : Int} (hn : 0 ≤ n)
    (hlay : Lay n B a.pe a.len) (hlen : ∀ x, Idx n x → 0 ≤ a.pe x → 1 ≤ a.len x)
    (hB : B ≤ a.top) (hL : B ≤ L) :
    Ok (forI 0 n s fun j s => do
      let pn ← s.rPe j
      if pn ≥ 0 then do
        let v ← s.rIw pn
        let s ← s.wPe j v
        s.wIw pn (FLIP j)
      else pure s)
    (fun s' => ∃ pe iw, Rep n L s' { a with pe := pe, iw := iw } ∧
      (∀ x, Idx n x → 0 ≤ a.pe x → pe x = a.iw (a.pe x) ∧ iw (a.pe x) = FLIP x) ∧
      (∀ x, Idx n x → a.pe x < 0 → pe x = a.pe x) ∧
      (∀ p, (∀ x, Idx n x → 0 ≤ a.pe x → a.pe x ≠ p) → iw p = a.iw p)) := by
  have hst : ∀ x y, Idx n x → Idx n y → x ≠ y → 0 ≤ a.pe x → 0 ≤ a.pe y → a.pe x ≠ a.pe y := by
    intro x y hx hy hxy h1 h2 e
    have := hlay.disj x y hx hy hxy h1 h2
    have := hlen x hx h1
    have := hlen y hy h2
    omega
  refine forI_ok (fun j s' => ∃ pe iw, Rep n L s' { a with pe := pe, iw := iw } ∧
      (∀ x, Idx n x → x < j → 0 ≤ a.pe x → pe x = a.iw (a.pe x) ∧ iw (a.pe x) = FLIP x) ∧
      (∀ x, Idx n x → (a.pe x < 0 ∨ j ≤ x) → pe x = a.pe x) ∧
      (∀ p, (∀ x, Idx n x → x < j → 0 ≤ a.pe x → a.pe x ≠ p) → iw p = a.iw p)) hn ?_ ?_ ?_
  · exact ⟨a.pe, a.iw, h, fun x hx h1 => by omega, fun _ _ _ => rfl, fun _ _ => rfl⟩
  · rintro j s h0 h1 ⟨pe, iw, h, hA, hB', hC⟩
    have hj : Idx n j := ⟨h0, h1⟩
    refine Ok_rd (h.rPe hj) ?_
    have epe : pe j = a.pe j := hB' j hj (Or.inr le_rfl)
    dsimp only
    simp only [epe]
    split
    · rename_i hp
      have hp := hp.le
      have hb := hlay.pos j hj hp
      have hl := hlen j hj hp
      refine Ok_rd (h.rIw hp (by dsimp only; omega) (by omega)) ?_
      have eiw : iw (a.pe j) = a.iw (a.pe j) :=
        hC _ fun x hx hxj hpx => hst x j hx hj (by omega) hpx hp
      dsimp only
      rw [eiw]
      refine (h.wPe _ hj).bind fun s h => ?_
      refine (h.wIw (i := a.pe j) (FLIP j) hp (by dsimp only; omega) (by omega)).mono fun s h => ?_
      refine ⟨_, _, h, ?_, ?_, ?_⟩
      · intro x hx hxj hpx
        dsimp only
        by_cases q : x = j
        · subst q; rw [Function.update_self, Function.update_self]; exact ⟨rfl, rfl⟩
        · rw [Function.update_of_ne q, Function.update_of_ne (hst x j hx hj q hpx hp)]
          exact hA x hx (by omega) hpx
      · intro x hx hor
        dsimp only
        rw [Function.update_of_ne (by rintro rfl; omega)]
        exact hB' x hx (by omega)
      · intro p hp'
        dsimp only
        rw [Function.update_of_ne (Ne.symm (hp' j hj (by omega) hp))]
        exact hC p fun x hx hxj => hp' x hx (by omega)
    · rename_i hp
      rw [Ok_pure]
      refine ⟨pe, iw, h, ?_, ?_, ?_⟩
      · intro x hx hxj hpx
        refine hA x hx ?_ hpx
        by_contra hc
        obtain rfl : x = j := by omega
        omega
      · intro x hx hor
        exact hB' x hx (by omega)
      · intro p hp'
        exact hC p fun x hx hxj => hp' x hx (by omega)
  · rintro s ⟨pe, iw, h, hA, hB', hC⟩
    exact ⟨pe, iw, h, fun x hx => hA x hx hx.2, fun x hx hp => hB' x hx (Or.inl hp),
      fun p hp => hC p fun x hx _ => hp x hx⟩

/-- what the second loop of the compression knows when it is at `psrc` and writes to `pdst` -/
structure Moved (n : Int) (a0 : Ab) (B : Int) (psrc pdst : Int) (pe iw : Int → Int) : Prop where
  le : 0 ≤ pdst ∧ pdst ≤ psrc ∧ psrc ≤ B
  size : pdst = totBelow n a0.pe a0.len psrc
  ends : ∀ x, Idx n x → 0 ≤ a0.pe x → a0.pe x < psrc → a0.pe x + a0.len x ≤ psrc
  done : ∀ x, Idx n x → 0 ≤ a0.pe x → a0.pe x < psrc → 0 ≤ pe x ∧ pe x + a0.len x ≤ pdst ∧
    ∀ k, 0 ≤ k → k < a0.len x → iw (pe x + k) = a0.iw (a0.pe x + k)
  disj : ∀ x y, Idx n x → Idx n y → x ≠ y → 0 ≤ a0.pe x → a0.pe x < psrc → 0 ≤ a0.pe y →
    a0.pe y < psrc → pe x + a0.len x ≤ pe y ∨ pe y + a0.len y ≤ pe x
  todo : ∀ x, Idx n x → 0 ≤ a0.pe x → psrc ≤ a0.pe x → pe x = a0.iw (a0.pe x) ∧
    iw (a0.pe x) = FLIP x
  rest : ∀ p, psrc ≤ p → (∀ x, Idx n x → 0 ≤ a0.pe x → a0.pe x ≠ p) → iw p = a0.iw p
  none : ∀ x, Idx n x → a0.pe x < 0 → pe x = a0.pe x
  vals : ∀ p, 0 ≤ p → p < pdst → Idx n (iw p)

theorem gcStep_ok {a0 : Ab} {B psrc pdst : Int} {pe iw : Int → Int}
    (h : Rep n L s { a0 with pe := pe, iw := iw }) (hm : Moved n a0 B psrc pdst pe iw)
    (hlay : Lay n B a0.pe a0.len) (hlen : ∀ x, Idx n x → 0 ≤ a0.pe x → 1 ≤ a0.len x)
    (hval : ∀ p, 0 ≤ p → p < B → Idx n (a0.iw p)) (hB : B ≤ a0.top) (hL : B ≤ L)
    (hps : psrc < B) :
    Ok (gcStep (B - 1) (psrc, pdst, s)) (fun r => match r with
      | .inl _ => False
      | .inr q => psrc < q.1 ∧ ∃ pe iw, Rep n L q.2.2 { a0 with pe := pe, iw := iw } ∧
          Moved n a0 B q.1 q.2.1 pe iw) := by
  obtain ⟨l0, l1, l2⟩ := hm.le
  unfold gcStep
  dsimp only
  rw [if_pos (by omega)]
  refine Ok_rd (h.rIw (by omega) (by dsimp only; omega) (by omega)) ?_
  dsimp only
  by_cases hst : ∃ j, Idx n j ∧ 0 ≤ a0.pe j ∧ a0.pe j = psrc
  · obtain ⟨j, hj, hpj, rfl⟩ := hst
    obtain ⟨t1, t2⟩ := hm.todo j hj hpj le_rfl
    have hb := hlay.pos j hj hpj
    have hl := hlen j hj hpj
    rw [t2, FLIP_eq, FLIP_eq, show - (-j - 2) - 2 = j by ring, if_pos hj.1]
    refine Ok_rd (h.rPe hj) ?_
    dsimp only
    rw [t1]
    refine (h.wIw (i := pdst) _ l0 (by dsimp only; omega) (by omega)).bind fun s h => ?_
    refine (h.wPe _ hj).bind fun s h => ?_
    refine Ok_rd (h.rLen hj) ?_
    dsimp only at h ⊢
    have other : ∀ x, Idx n x → x ≠ j → 0 ≤ a0.pe x →
        a0.pe x + a0.len x ≤ a0.pe j ∨ a0.pe j + a0.len j ≤ a0.pe x :=
      fun x hx hxj hpx => hlay.disj x j hx hj hxj hpx hpj
    rw [Ok_bind]
    refine forI_ok (fun k s => ∃ iw', Rep n L s { a0 with pe := update pe j pdst, iw := iw' } ∧
      (∀ p, p < pdst → iw' p = iw p) ∧ iw' pdst = a0.iw (a0.pe j) ∧
      (∀ c, 0 ≤ c → c < k → iw' (pdst + 1 + c) = a0.iw (a0.pe j + 1 + c)) ∧
      (∀ p, a0.pe j + 1 + k ≤ p → iw' p = iw p)) (by omega) ?_ ?_ ?_
    · refine ⟨_, h, fun p hp => ?_, by rw [Function.update_self], fun c h1 h2 => by omega, fun p hp => ?_⟩
      · rw [Function.update_of_ne (by omega)]
      · rw [Function.update_of_ne (by omega)]
    · rintro k s k0 k1 ⟨iw', h, c1, c2, c3, c4⟩
      refine Ok_rd (h.rIw (by omega) (by dsimp only; omega) (by omega)) ?_
      dsimp only
      have e : iw' (a0.pe j + 1 + k) = a0.iw (a0.pe j + 1 + k) := by
        rw [c4 _ (by omega)]
        refine hm.rest _ (by omega) fun x hx hpx q => ?_
        have := hlen x hx hpx
        by_cases hxj : x = j
        · subst hxj; omega
        · have := other x hx hxj hpx
          omega
      rw [e]
      refine (h.wIw _ (by omega) (by dsimp only; omega) (by omega)).mono fun s h => ?_
      refine ⟨_, h, fun p hp => ?_, ?_, fun c d1 d2 => ?_, fun p hp => ?_⟩
      · rw [Function.update_of_ne (by omega)]; exact c1 p hp
      · rw [Function.update_of_ne (by omega)]; exact c2
      · by_cases q : c = k
        · subst q; rw [Function.update_self]
        · rw [Function.update_of_ne (by omega)]; exact c3 c d1 (by omega)
      · rw [Function.update_of_ne (by omega)]; exact c4 p (by omega)
    · rintro s ⟨iw', h, c1, c2, c3, c4⟩
      rw [Ok_pure]
      dsimp only
      rw [max_eq_right (by omega)]
      refine ⟨by omega, _, _, h, ?_⟩
      have e1 : a0.pe j + 1 + (a0.len j - 1) = a0.pe j + a0.len j := by ring
      have e2 : pdst + 1 + (a0.len j - 1) = pdst + a0.len j := by ring
      rw [e1, e2]
      have hnew : ∀ k, 0 ≤ k → k < a0.len j → iw' (pdst + k) = a0.iw (a0.pe j + k) := by
        intro k k0 k1
        by_cases q : k = 0
        · subst q; simpa using c2
        · have := c3 (k - 1) (by omega) (by omega)
          rw [show pdst + 1 + (k - 1) = pdst + k by ring,
            show a0.pe j + 1 + (k - 1) = a0.pe j + k by ring] at this
          exact this
      constructor
      · omega
      · rw [totBelow_add hj hpj (b := a0.pe j) (by omega) (by omega), hm.size]
        intro x hx hxj hpx
        have := other x hx hxj hpx
        have := hlen x hx hpx
        omega
      · intro x hx hpx hlt
        by_cases q : x = j
        · subst q; exact le_rfl
        · have := other x hx q hpx
          have := hlen x hx hpx
          omega
      · intro x hx hpx hlt
        by_cases q : x = j
        · subst q
          rw [Function.update_self]
          exact ⟨l0, le_rfl, hnew⟩
        · rw [Function.update_of_ne q]
          have hlt' : a0.pe x < a0.pe j := by
            have := other x hx q hpx
            have := hlen x hx hpx
            omega
          obtain ⟨d1, d2, d3⟩ := hm.done x hx hpx hlt'
          refine ⟨d1, by omega, fun k k0 k1 => ?_⟩
          rw [c1 _ (by omega)]; exact d3 k k0 k1
      · intro x y hx hy hxy hpx hlx hpy hly
        have key : ∀ x, Idx n x → x ≠ j → 0 ≤ a0.pe x → a0.pe x < a0.pe j + a0.len j →
            a0.pe x < a0.pe j := by
          intro x hx q hpx _
          have := other x hx q hpx
          have := hlen x hx hpx
          omega
        by_cases q : x = j
        · subst q
          rw [Function.update_self, Function.update_of_ne (Ne.symm hxy)]
          have := (hm.done y hy hpy (key y hy (Ne.symm hxy) hpy hly)).2.1
          omega
        · by_cases q' : y = j
          · subst q'
            rw [Function.update_self, Function.update_of_ne hxy]
            have := (hm.done x hx hpx (key x hx hxy hpx hlx)).2.1
            omega
          · rw [Function.update_of_ne q, Function.update_of_ne q']
            exact hm.disj x y hx hy hxy hpx (key x hx q hpx hlx) hpy (key y hy q' hpy hly)
      · intro x hx hpx hge
        have q : x ≠ j := by rintro rfl; omega
        rw [Function.update_of_ne q]
        obtain ⟨u1, u2⟩ := hm.todo x hx hpx (by omega)
        exact ⟨u1, by rw [c4 _ (by omega)]; exact u2⟩
      · intro p hp hne
        rw [c4 _ (by omega)]
        exact hm.rest p (by omega) hne
      · intro x hx hpx
        have q : x ≠ j := by rintro rfl; omega
        rw [Function.update_of_ne q]
        exact hm.none x hx hpx
      · intro p p0 p1
        by_cases q : p < pdst
        · rw [c1 p q]; exact hm.vals p p0 q
        · have := hnew (p - pdst) (by omega) (by omega)
          rw [show pdst + (p - pdst) = p by ring] at this
          rw [this]
          exact hval _ (by omega) (by omega)
  · have hno : ∀ x, Idx n x → 0 ≤ a0.pe x → a0.pe x ≠ psrc :=
      fun x hx hpx q => hst ⟨x, hx, hpx, q⟩
    have e : iw psrc = a0.iw psrc := hm.rest psrc le_rfl hno
    have hv := hval psrc (by omega) hps
    rw [e, FLIP_eq, if_neg (by omega), Ok_pure]
    refine ⟨by dsimp only; omega, pe, iw, h, ?_⟩
    dsimp only
    have key : ∀ x, Idx n x → 0 ≤ a0.pe x → (a0.pe x < psrc + 1 ↔ a0.pe x < psrc) := by
      intro x hx hpx
      have := hno x hx hpx
      omega
    constructor
    · omega
    · rw [totBelow_step key]; exact hm.size
    · intro x hx hpx hlt
      have := hm.ends x hx hpx ((key x hx hpx).1 hlt)
      omega
    · intro x hx hpx hlt
      exact hm.done x hx hpx ((key x hx hpx).1 hlt)
    · intro x y hx hy hxy hpx hlx hpy hly
      exact hm.disj x y hx hy hxy hpx ((key x hx hpx).1 hlx) hpy ((key y hy hpy).1 hly)
    · intro x hx hpx hge
      exact hm.todo x hx hpx (by omega)
    · intro p hp hne
      exact hm.rest p (by omega) hne
    · exact hm.none
    · exact hm.vals

/-- `Pe` at the start of a garbage collection -/
def vpe (me e p pj rm re : Int) (pe : Int → Int) : Int → Int :=
  update (update pe me (if rm = 0 then -1 else p)) e (if re = 0 then -1 else pj)

/-- `Len` at the start of a garbage collection -/
def vlen (me e rm re : Int) (len : Int → Int) : Int → Int :=
  update (update len me rm) e re

/-- what a garbage collection does: contents are kept, the objects are packed -/
structure Packed (n pme1 pfree : Int) (pe len iw pe' iw' : Int → Int) (pme1' : Int) : Prop where
  neg : ∀ x, Idx n x → pe x < 0 → pe' x = pe x
  obj : ∀ x, Idx n x → 0 ≤ pe x → 0 ≤ pe' x ∧
    ∀ k, 0 ≤ k → k < len x → iw' (pe' x + k) = iw (pe x + k)
  lay : Lay n pme1' pe' len
  size : pme1' = tot n pe len
  le : 0 ≤ pme1' ∧ pme1' ≤ pme1
  part : ∀ k, 0 ≤ k → k < pfree - pme1 → iw' (pme1' + k) = iw (pme1 + k)
  vals : ∀ p, 0 ≤ p → p < pme1' + (pfree - pme1) → Idx n (iw' p)

theorem compress_ok {a : Ab} (h : Rep n L s a) {me e p pj knt1 knt2 ln pme1 pfree : Int}
    (hn : 0 ≤ n) (hme : Idx n me) (he : Idx n e)
    (hlay : Lay n pme1 (vpe me e p pj (a.len me - knt1) (ln - knt2) a.pe)
      (vlen me e (a.len me - knt1) (ln - knt2) a.len))
    (hlen : ∀ x, Idx n x → 0 ≤ vpe me e p pj (a.len me - knt1) (ln - knt2) a.pe x →
      1 ≤ vlen me e (a.len me - knt1) (ln - knt2) a.len x)
    (hval : ∀ p, 0 ≤ p → p < pfree → Idx n (a.iw p))
    (hp1 : 0 ≤ pme1) (hp2 : pme1 ≤ pfree) (htop : pfree ≤ a.top) (hL : pfree ≤ L) :
    Ok (compress n me e p pj knt1 knt2 ln pme1 pfree s) (fun r => ∃ pe' iw',
      Rep n L r.2.2 { a with pe := pe', iw := iw', len := vlen me e (a.len me - knt1) (ln - knt2) a.len } ∧
      r.2.1 = r.1 + (pfree - pme1) ∧
      Packed n pme1 pfree (vpe me e p pj (a.len me - knt1) (ln - knt2) a.pe)
        (vlen me e (a.len me - knt1) (ln - knt2) a.len) a.iw pe' iw' r.1) := by
  unfold compress
  refine (h.wPe _ hme).bind fun s h => ?_
  refine Ok_rd (h.rLen hme) ?_
  refine (h.wLen _ hme).bind fun s h => ?_
  refine Ok_rd (h.rLen hme) ?_
  dsimp only at h ⊢
  rw [Function.update_self]
  rw [Ok_bind]
  have step1 : Ok (if a.len me - knt1 = 0 then s.wPe me EMPTY else pure s) (fun s =>
      Rep n L s { a with
        pe := update a.pe me (if a.len me - knt1 = 0 then -1 else p),
        len := update a.len me (a.len me - knt1) }) := by
    split
    · refine (h.wPe _ hme).mono fun s h => ?_
      dsimp only at h
      rwa [Function.update_idem] at h
    · exact h
  refine step1.mono fun s h => ?_
  refine (h.wPe _ he).bind fun s h => ?_
  refine (h.wLen _ he).bind fun s h => ?_
  refine Ok_rd (h.rLen he) ?_
  dsimp only at h ⊢
  rw [Function.update_self]
  rw [Ok_bind]
  have step2 : Ok (if ln - knt2 = 0 then s.wPe e EMPTY else pure s) (fun s =>
      Rep n L s { a with
        pe := vpe me e p pj (a.len me - knt1) (ln - knt2) a.pe,
        len := vlen me e (a.len me - knt1) (ln - knt2) a.len }) := by
    unfold vpe vlen
    split
    · refine (h.wPe _ he).mono fun s h => ?_
      dsimp only at h
      rwa [Function.update_idem] at h
    · exact h
  refine step2.mono fun s h => ?_
  generalize hpe : vpe me e p pj (a.len me - knt1) (ln - knt2) a.pe = pe0 at *
  generalize hle : vlen me e (a.len me - knt1) (ln - knt2) a.len = len0 at *
  refine (gcMark_ok h hn hlay hlen (by dsimp only; omega) (by omega)).bind ?_
  rintro s ⟨pe, iw, h, m1, m2, m3⟩
  dsimp only at h m1 m2 m3
  have h0 : Moved n { a with pe := pe0, len := len0 } pme1 0 0 pe iw := by
    constructor
    · omega
    · unfold totBelow
      symm
      refine Finset.sum_eq_zero fun x hx => ?_
      rw [if_neg (by dsimp only; omega)]
    · intro x hx a b; omega
    · intro x hx a b; omega
    · intro x y hx hy hxy a b; omega
    · intro x hx a b; exact m1 x hx a
    · intro p _ hp; exact m3 p hp
    · exact m2
    · intro p a b; omega
  rw [Ok_bind]
  refine iter_ok (fun q => ∃ pe iw, Rep n L q.2.2 { a with pe := pe, iw := iw, len := len0 } ∧
    Moved n { a with pe := pe0, len := len0 } pme1 q.1 q.2.1 pe iw)
    (fun q => (pme1 - q.1).toNat) ?_ ⟨pe, iw, h, h0⟩ ?_
  · dsimp only; omega
  · rintro ⟨psrc, pdst, s⟩ ⟨pe, iw, h, hm⟩
    dsimp only at h hm
    by_cases hlt : psrc < pme1
    · refine (gcStep_ok (a0 := { a with pe := pe0, len := len0 }) h hm hlay hlen
        (fun p p0 p1 => hval p p0 (by omega)) (by dsimp only; omega) (by omega) hlt).mono ?_
      rintro (r | q) hr
      · exact hr.elim
      · obtain ⟨h1, pe, iw, h, hm⟩ := hr
        refine ⟨⟨pe, iw, h, hm⟩, ?_⟩
        dsimp only
        have := hm.le
        omega
    · unfold gcStep
      dsimp only
      rw [if_neg (by omega), Ok_pure]
      have hle := hm.le
      obtain rfl : psrc = pme1 := by omega
      dsimp only
      rw [Ok_bind]
      refine forI_ok (fun q s => ∃ iw', Rep n L s { a with pe := pe, iw := iw', len := len0 } ∧
        (∀ p, p < pdst → iw' p = iw p) ∧
        (∀ k, 0 ≤ k → k < q - psrc → iw' (pdst + k) = a.iw (psrc + k)) ∧
        (∀ p, q ≤ p → iw' p = iw p)) hp2 ?_ ?_ ?_
      · exact ⟨iw, h, fun _ _ => rfl, fun k k0 k1 => by omega, fun _ _ => rfl⟩
      · rintro q s q0 q1 ⟨iw', h, c1, c2, c3⟩
        refine Ok_rd (h.rIw (by omega) (by dsimp only; omega) (by omega)) ?_
        dsimp only
        have e : iw' q = a.iw q := by
          rw [c3 q le_rfl]
          refine hm.rest q (by omega) fun x hx hpx => ?_
          have := hlay.pos x hx hpx
          have := hlen x hx hpx
          dsimp only; omega
        rw [e]
        refine (h.wIw _ (by omega) (by dsimp only; omega) (by omega)).mono fun s h => ?_
        refine ⟨_, h, fun p hp => ?_, fun k k0 k1 => ?_, fun p hp => ?_⟩
        · rw [Function.update_of_ne (by omega)]; exact c1 p hp
        · by_cases qk : k = q - psrc
          · subst qk
            rw [Function.update_self, show psrc + (q - psrc) = q by ring]
          · rw [Function.update_of_ne (by omega)]; exact c2 k k0 (by omega)
        · rw [Function.update_of_ne (by omega)]; exact c3 p (by omega)
      · rintro s ⟨iw', h, c1, c2, c3⟩
        rw [Ok_pure]
        refine ⟨pe, iw', h, rfl, ?_⟩
        dsimp only
        have below : ∀ x, Idx n x → 0 ≤ pe0 x → pe0 x < psrc := by
          intro x hx hpx
          have := hlay.pos x hx hpx
          have := hlen x hx hpx
          omega
        constructor
        · exact hm.none
        · intro x hx hpx
          obtain ⟨d1, d2, d3⟩ := hm.done x hx hpx (below x hx hpx)
          refine ⟨d1, fun k k0 k1 => ?_⟩
          dsimp only at d2
          rw [c1 _ (by omega)]
          exact d3 k k0 k1
        · have hneg : ∀ x, Idx n x → 0 ≤ pe x → 0 ≤ pe0 x := by
            intro x hx hpx
            by_contra hc
            have := hm.none x hx (by dsimp only; omega)
            dsimp only at this; omega
          constructor
          · intro x hx hpx
            have hp0 := hneg x hx hpx
            have := (hlay.pos x hx hp0).1
            have := (hm.done x hx hp0 (below x hx hp0)).2.1
            exact ⟨by omega, this⟩
          · intro x y hx hy hxy hpx hpy
            have hx0 := hneg x hx hpx
            have hy0 := hneg y hy hpy
            exact hm.disj x y hx hy hxy hx0 (below x hx hx0) hy0 (below y hy hy0)
        · rw [hm.size]
          unfold totBelow tot
          refine Finset.sum_congr rfl fun x hx => ?_
          have hx := Finset.mem_Ico.1 hx
          dsimp only
          by_cases hpx : 0 ≤ pe0 x
          · simp [hpx, below x hx hpx]
          · simp [hpx]
        · omega
        · exact c2
        · intro p p0 p1
          by_cases q : p < pdst
          · rw [c1 p q]; exact hm.vals p p0 q
          · have := c2 (p - pdst) (by omega) (by omega)
            rw [show pdst + (p - pdst) = p by ring] at this
            rw [this]
            exact hval _ (by omega) (by omega)

end Ecos.Amd
