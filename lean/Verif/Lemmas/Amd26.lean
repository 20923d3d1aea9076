import Verif.Lemmas.Amd25
import Verif.Lemmas.Driver1

/-!
# AMD: the whole ordering
-/
namespace Ecos.Amd

variable {n : Int} {jc ir : Int → Int} {Ap Ai : Buf Int}

theorem Cells.hz {b : Buf Int} {f : Int → Int} (h : Cells b n f) : HZ b n n f :=
  ⟨h.1, fun i h0 h1 _ => h.2 i ⟨h0, h1⟩⟩

theorem Mat.patOk {n : Int} {jc ir : Int → Int} (h : Mat n jc ir) : PatOk n jc ir ∧ PatInc n jc ir := by
  refine ⟨⟨h.zero, fun c hc => ⟨h.mono c hc, fun p hp => ?_⟩⟩, fun c hc p h1 h2 => h.sort c hc p (p + 1) h1 h2 (by omega)⟩
  have a1 := jc_mono h.mono (c := 0) c.toNat (le_refl _) (by omega)
  have a2 := jc_mono h.mono (c := c + 1) (n - (c + 1)).toNat (by omega) (by omega)
  rw [show (0 : Int) + (c.toNat : Int) = c by omega, h.zero] at a1
  rw [show c + 1 + ((n - (c + 1)).toNat : Int) = n by omega] at a2
  have := hp.1
  have := hp.2
  exact h.rows p (by omega) (by omega)

theorem HZ.cells {b : Buf Int} {f : Int → Int} (h : HZ b n n f) : Cells b n f :=
  ⟨h.1, fun i hi => h.2 i hi.1 hi.2 hi.2⟩

theorem Cells.rd {b : Buf Int} {f : Int → Int} (h : Cells b n f) {i : Int} (h0 : 0 ≤ i) (h1 : i < n) :
    rdI b i = .ok (f i) := h.hz.rd h0 h1 h1

theorem adj_ent {x y : Int} : Adj n jc ir x y ↔ x ≠ y ∧ (Ent n jc ir y x ∨ Ent n jc ir x y) := by
  constructor
  · rintro ⟨h1, c, p, h2, h3, ⟨rfl, rfl⟩ | ⟨rfl, rfl⟩⟩
    · exact ⟨h1, Or.inl ⟨h2, p, h3, rfl⟩⟩
    · exact ⟨h1, Or.inr ⟨h2, p, h3, rfl⟩⟩
  · rintro ⟨h1, ⟨h2, p, h3, h4⟩ | ⟨h2, p, h3, h4⟩⟩
    · exact ⟨h1, x, p, h2, h3, Or.inl ⟨rfl, h4.symm⟩⟩
    · exact ⟨h1, y, p, h2, h3, Or.inr ⟨rfl, h4.symm⟩⟩

theorem PatOk.ent (h : PatOk n jc ir) {x c : Int} (he : Ent n jc ir x c) : Idx n x ∧ Idx n c := by
  obtain ⟨h1, q, h2, rfl⟩ := he
  exact ⟨(h.2 c h1).2 q h2, h1⟩

/-- the transpose has the same neighbours -/
theorem Trans.adj {rp ri : Int → Int} (h : PatOk n jc ir) (hT : Trans n jc ir rp ri) :
    Adj n rp ri = Adj n jc ir := by
  funext x y
  apply propext
  rw [adj_ent, adj_ent]
  have key : ∀ x y, Ent n rp ri y x ↔ Ent n jc ir x y := by
    intro x y
    constructor
    · intro q; exact (hT.ent x y q.1).1 q
    · intro q; exact (hT.ent x y (h.ent q).1).2 q
  rw [key, key]
  tauto

/-- the size of the workspace -/
noncomputable def need (n : Int) (jc ir : Int → Int) : Int :=
  slenOf n (∑ x ∈ ix n, dg n (Adj n jc ir) x)

/-- what `AMD_order` answers -/
def Answer (n : Int) (jc ir : Int → Int) (imax : Int) (st : Status) (P : Buf Int) : Prop :=
  (0 < n ∧ ¬ PatOk n jc ir ∧ st = .invalid) ∨
  (0 < n ∧ PatOk n jc ir ∧ imax ≤ need n jc ir ∧ st = .outOfMemory) ∨
  ((n = 0 ∨ PatOk n jc ir) ∧ (n = 0 ∧ st = .ok ∨ 0 < n ∧ need n jc ir < imax ∧ Verdict n jc ir st) ∧
    ∃ p, Cells P n p ∧ PermI n p)

theorem order_ok {P : Buf Int} {dense0 imax : Int} (hn : 0 ≤ n)
    (hAp : ∀ c, 0 ≤ c → c ≤ n → rdI Ap c = .ok (jc c)) {N : Int}
    (hAi : ∀ p, 0 ≤ p → p < N → rdI Ai p = .ok (ir p)) (hN : ∀ c, 0 ≤ c → c ≤ n → jc c ≤ N)
    (hP : P.size = n.toNat) :
    Ok (order dense0 imax n Ap Ai P) (fun r => Answer n jc ir imax r.1 r.2) := by
  unfold order
  rw [if_neg (by omega)]
  split
  · rename_i h0
    rw [Ok_pure]
    subst h0
    refine Or.inr (Or.inr ⟨Or.inl rfl, Or.inl ⟨rfl, rfl⟩, fun _ => 0, ⟨hP, fun i hi => by omega⟩, ?_⟩)
    exact ⟨fun i hi => by omega, fun i j hi => by omega⟩
  rename_i h0
  refine Ok_rd (hAp n hn (le_refl _)) ?_
  split
  · rename_i hneg
    rw [Ok_pure]
    refine Or.inl ⟨by omega, fun q => ?_, rfl⟩
    have := q.le (c := 0) (d := n) (le_refl _) (le_refl _) hn
    rw [q.1] at this
    omega
  refine (valid_ok hn hAp hAi hN).bind fun st hst => ?_
  by_cases hinv : st = .invalid
  · rw [if_pos hinv, Ok_pure]
    refine Or.inl ⟨by omega, ?_, rfl⟩
    rcases hst with ⟨-, q⟩ | ⟨-, ⟨q, -⟩ | ⟨q, -⟩⟩
    · exact q
    · rw [hinv] at q; cases q
    · rw [hinv] at q; cases q
  rw [if_neg hinv]
  have hpat : PatOk n jc ir := by
    rcases hst with ⟨q, -⟩ | ⟨q, -⟩
    · exact (hinv q).elim
    · exact q
  have hjN : ∀ p, 0 ≤ p → p < jc n → rdI Ai p = .ok (ir p) := fun p p0 p1 =>
    hAi p p0 (by have := hN n hn (le_refl _); omega)
  have hsz : ∀ m : Nat, (malloc m : Buf Int).size = m := fun m => by simp [malloc]
  dsimp only
  -- the sorted pattern
  have key : Ok (if st = .jumbled then
      preprocess n Ap Ai
        { rp := malloc (n.toNat + 1), ri := malloc (max (jc n) 1).toNat, w := malloc n.toNat,
          flag := malloc n.toNat }
      else pure { rp := Ap, ri := Ai, w := malloc n.toNat, flag := malloc n.toNat }) (fun c =>
        ∃ rp ri, Mat n rp ri ∧ Adj n rp ri = Adj n jc ir ∧
          (∀ k, 0 ≤ k → k ≤ n → rdI c.rp k = .ok (rp k)) ∧
          (∀ p, 0 ≤ p → p < rp n → rdI c.ri p = .ok (ri p)) ∧ c.w.size = n.toNat ∧
          c.flag.size = n.toNat) := by
    split
    · refine (preprocess_ok hn hpat hAp hjN (by simp [hsz]) (by simp [hsz]) (by simp [hsz])
        (by simp [hsz])).mono ?_
      rintro c ⟨rp, ri, hT, h1, h2, h3, h4⟩
      exact ⟨rp, ri, hT.mat, hT.adj hpat, h1, h2, h3, h4⟩
    · rename_i hj
      rw [Ok_pure]
      have hs : PatInc n jc ir := by
        rcases hst with ⟨q, -⟩ | ⟨-, ⟨-, q⟩ | ⟨q, -⟩⟩
        · exact (hinv q).elim
        · exact q
        · exact (hj q).elim
      exact ⟨jc, ir, hpat.mat hn hs, rfl, hAp, hjN, by simp [hsz], by simp [hsz]⟩
  refine key.bind ?_
  rintro c ⟨rp, ri, hM, hadj, h1, h2, h3, h4⟩
  refine (aat_ok hM hn h1 h2 h3 hP).bind ?_
  rintro ⟨len, P', nz⟩ ⟨g1, g2, g3⟩
  dsimp only at g1 g2 g3 ⊢
  have hneed : slenOf n nz = need n jc ir := by unfold need; rw [g3, hadj]
  split
  · rename_i hlt
    have en : (n.toNat : Int) = n := by omega
    have := amd1_ok (n := n.toNat) (P := P') (Pinv := c.flag) (len := len) (slen := slenOf n nz)
      (dense0 := dense0) (imax := imax) (Ap := c.rp) (Ai := c.ri) (jc := rp) (ir := ri)
      (by rw [en]; exact hM) (by rw [en]; exact h1) (by rw [en]; exact h2) g2 h4
      (by rw [en]; exact g1) (by
        rw [en, ← g3]
        have : 0 ≤ nz := by rw [g3]; exact Finset.sum_nonneg fun x _ => dg_nonneg x
        unfold slenOf
        omega)
    refine this.bind ?_
    rintro P2 ⟨p, hp1, hp2⟩
    rw [Ok_pure]
    rw [en] at hp1 hp2
    exact Or.inr (Or.inr ⟨Or.inr hpat, Or.inr ⟨by omega, by rw [← hneed]; exact hlt, hst⟩, p,
      hp1.cells, hp2⟩)
  · rw [Ok_pure]
    exact Or.inr (Or.inl ⟨by omega, hpat, by omega, rfl⟩)

/-- what an array holds -/
def val (b : Buf Int) (i : Int) : Int :=
  match rdI b i with
  | .ok v => v
  | .error _ => 0

theorem rd_val {b : Buf Int} {i : Int} {v : Int} (h : rdI b i = .ok v) : rdI b i = .ok (val b i) := by
  unfold val; rw [h]

/-- what `AMD_valid` accepts it has read -/
theorem valid_reads {st : Status} (hn : 0 ≤ n) (h : valid n n Ap Ai = .ok st) (hst : st ≠ .invalid) :
    (∀ c, 0 ≤ c → c ≤ n → rdI Ap c = .ok (val Ap c)) ∧
    (∀ c, 0 ≤ c → c < n → val Ap c ≤ val Ap (c + 1)) ∧
    (∀ p, 0 ≤ p → p < val Ap n → rdI Ai p = .ok (val Ai p)) := by
  have hR : Ecos.Part (valid n n Ap Ai) (fun st => st ≠ .invalid →
      (∀ c, 0 ≤ c → c ≤ n → rdI Ap c = .ok (val Ap c)) ∧
      (∀ c, 0 ≤ c → c < n → val Ap c ≤ val Ap (c + 1)) ∧
      (∀ p, 0 ≤ p → p < val Ap n → rdI Ai p = .ok (val Ai p))) := by
    have rdR : ∀ (b : Buf Int) (i : Int), Ecos.Part (rdI b i) (fun v => v = val b i ∧ rdI b i = .ok (val b i)) := by
      intro b i
      refine Ecos.Part.of fun v hv => ⟨?_, rd_val hv⟩
      unfold val; rw [hv]
    unfold valid Ecos.Part
    rw [if_neg (by omega), Runs_bind]
    refine (rdR Ap n).mono ?_
    rintro _ ⟨rfl, hnn⟩
    rw [Runs_bind]
    refine (rdR Ap 0).mono ?_
    rintro _ ⟨rfl, h00⟩
    split
    · rw [Runs_pure]
      intro q
      exact (q rfl).elim
    · rename_i h0
      push Not at h0
      rw [Runs_bind]
      refine (loopE_runs (fun j (_ : Status) => (∀ c, 0 ≤ c → c ≤ (j : Int) → rdI Ap c = .ok (val Ap c)) ∧
        (∀ c, 0 ≤ c → c < (j : Int) → val Ap c ≤ val Ap (c + 1)) ∧
        ∀ p, 0 ≤ p → p < val Ap j → rdI Ai p = .ok (val Ai p)) (fun st => st = .invalid) ?_ ?_).mono ?_
      · refine ⟨fun c c0 c1 => ?_, fun c c0 c1 => by omega, fun p p0 p1 => ?_⟩
        · rw [show c = 0 by omega]; exact h00
        · rw [Nat.cast_zero, h0.1] at p1; omega
      · rintro j res - j1 ⟨a1, a2, a3⟩
        rw [Runs_bind]
        refine (rdR Ap j).mono ?_
        rintro _ ⟨rfl, hj⟩
        rw [Runs_bind]
        refine (rdR Ap (j + 1)).mono ?_
        rintro _ ⟨rfl, hj1⟩
        split
        · rw [Runs_pure]
        · rename_i hle
          rw [Runs_bind]
          refine (loopE_runs (fun k (_ : Int × Status) =>
            ∀ p, 0 ≤ p → p < val Ap j + k → rdI Ai p = .ok (val Ai p)) (fun st => st = Status.invalid) ?_ ?_).mono ?_
          · intro p p0 p1
            exact a3 p p0 (by simpa using p1)
          · rintro k ⟨last, st⟩ - k1 b1
            rw [Runs_bind]
            refine (rdR Ai _).mono ?_
            rintro _ ⟨rfl, hi⟩
            split
            · rw [Runs_pure]
            · rw [Runs_pure]
              intro p p0 p1
              by_cases e : p = val Ap j + k
              · rw [e]; exact hi
              · exact b1 p p0 (by push_cast at p1; omega)
          · intro r hr
            cases r with
            | inl st =>
              dsimp only at hr ⊢
              rw [Runs_pure]
              exact hr
            | inr s =>
              dsimp only at hr ⊢
              rw [Runs_pure]
              refine ⟨fun c c0 c1 => ?_, fun c c0 c1 => ?_, fun p p0 p1 => hr p p0 ?_⟩
              · by_cases e : c = j + 1
                · rw [e]; exact hj1
                · exact a1 c c0 (by push_cast at c1; omega)
              · by_cases e : c = j
                · rw [e]; omega
                · exact a2 c c0 (by push_cast at c1; omega)
              · push_cast at p1
                omega
      · intro r hr
        cases r with
        | inl st =>
          dsimp only at hr ⊢
          rw [Runs_pure]
          exact fun q => (q hr).elim
        | inr s =>
          dsimp only at hr ⊢
          rw [Runs_pure]
          intro _
          rw [show ((max 0 n.toNat : Nat) : Int) = n by omega] at hr
          exact hr
  exact hR.out h hst

/-- whatever the arrays are: when the answer is `AMD_OK` or `AMD_OK_BUT_JUMBLED`, `P` is a permutation -/
theorem order_sound {P P' : Buf Int} {st : Status} {dense0 imax : Int} (hn : 0 ≤ n) (hP : P.size = n.toNat)
    (h : order dense0 imax n Ap Ai P = .ok (st, P')) (hst : st = .ok ∨ st = .jumbled) : ∃ p, Cells P' n p ∧ PermI n p := by
  by_cases h0 : n = 0
  · subst h0
    have : P' = P := by
      have h := h
      unfold order at h
      simp only [lt_irrefl, if_false, if_true] at h
      rw [pure_ok] at h
      exact (Prod.mk.inj h).2.symm
    subst this
    exact ⟨fun _ => 0, ⟨hP, fun i hi => by omega⟩, fun i hi => by omega, fun i j hi => by omega⟩
  have ninv : st ≠ .invalid := by rintro rfl; rcases hst with q | q <;> cases q
  have nmem : st ≠ .outOfMemory := by rintro rfl; rcases hst with q | q <;> cases q
  have h' := h
  unfold order at h'
  rw [if_neg (by omega), if_neg h0, bind_ok] at h'
  obtain ⟨nz, -, h'⟩ := h'
  split at h'
  · rw [pure_ok] at h'
    exact (ninv (Prod.mk.inj h').1.symm).elim
  rw [bind_ok] at h'
  obtain ⟨st', hst', h'⟩ := h'
  have hinv : st' ≠ .invalid := by
    rintro rfl
    rw [if_pos rfl, pure_ok] at h'
    exact ninv (Prod.mk.inj h').1.symm
  obtain ⟨r1, r2, r3⟩ := valid_reads hn hst' hinv
  have hm : ∀ c, 0 ≤ c → c ≤ n → val Ap c ≤ val Ap n := fun c c0 c1 => by
    have := jc_mono (jc := val Ap) (fun c hc => r2 c hc.1 hc.2) (c := c) (n - c).toNat c0 (by omega)
    rwa [show c + ((n - c).toNat : Int) = n by omega] at this
  have := (order_ok (dense0 := dense0) (imax := imax) hn r1 r3 hm hP).out h
  rcases this with ⟨-, -, q⟩ | ⟨-, -, -, q⟩ | ⟨-, -, q⟩
  · exact (ninv q).elim
  · exact (nmem q).elim
  · exact q

end Ecos.Amd
