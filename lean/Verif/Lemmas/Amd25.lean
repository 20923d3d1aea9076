import Verif.Lemmas.Amd24

/-!
# AMD: sorting the columns of a jumbled pattern
-/
namespace Ecos.Amd

open Function (update)

variable {n : Int} {jc ir : Int → Int} {Ap Ai : Buf Int}

/-- row `x` of column `c` is among the entries before position `p` -/
def Seen (n : Int) (jc ir : Int → Int) (p x c : Int) : Prop :=
  Idx n c ∧ ∃ q, InC jc c q ∧ q < p ∧ ir q = x

theorem PatOk.le (h : PatOk n jc ir) {c d : Int} (hc : 0 ≤ c) (hd : d ≤ n) (hcd : c ≤ d) : jc c ≤ jc d := by
  have := jc_mono (fun c hc => (h.2 c hc).1) (c := c) (d - c).toNat hc (by omega)
  rwa [show c + ((d - c).toNat : Int) = d by omega] at this

theorem PatOk.uniq (h : PatOk n jc ir) {c d p : Int} (hc : Idx n c) (hd : Idx n d) (h1 : InC jc c p)
    (h2 : InC jc d p) : c = d := by
  have := h1.1
  have := h1.2
  have := h2.1
  have := h2.2
  rcases lt_trichotomy c d with r | r | r
  · have := h.le (c := c + 1) (d := d) (by omega) (by omega) (by omega); omega
  · exact r
  · have := h.le (c := d + 1) (d := c) (by omega) (by omega) (by omega); omega

theorem Seen.step (h : PatOk n jc ir) {j p : Int} (hj : Idx n j) (hp : InC jc j p) (x c : Int) :
    Seen n jc ir (p + 1) x c ↔ Seen n jc ir p x c ∨ x = ir p ∧ c = j := by
  constructor
  · rintro ⟨h1, q, h2, h3, h4⟩
    by_cases e : q = p
    · subst e; exact Or.inr ⟨h4.symm, h.uniq h1 hj h2 hp⟩
    · exact Or.inl ⟨h1, q, h2, by omega, h4⟩
  · rintro (⟨h1, q, h2, h3, h4⟩ | ⟨rfl, rfl⟩)
    · exact ⟨h1, q, h2, by omega, h4⟩
    · exact ⟨hj, p, hp, by omega, rfl⟩

theorem Seen.none (h : PatOk n jc ir) {j : Int} (hj : Idx n j) {p x : Int} (hp : p ≤ jc j) :
    ¬ Seen n jc ir p x j := by
  rintro ⟨-, q, h2, h3, -⟩
  have := h2.1
  omega

theorem Seen.all (h : PatOk n jc ir) (x c : Int) : Seen n jc ir (jc n) x c ↔ Ent n jc ir x c := by
  constructor
  · rintro ⟨h1, q, h2, h3, h4⟩; exact ⟨h1, q, h2, h4⟩
  · rintro ⟨h1, q, h2, h4⟩
    refine ⟨h1, q, h2, ?_, h4⟩
    have := h.le (c := c + 1) (d := n) (by omega) (by omega) (by omega)
    have := h2.2
    omega

theorem Seen.zero (h : PatOk n jc ir) (x c : Int) : ¬ Seen n jc ir 0 x c := by
  rintro ⟨h1, q, h2, h3, -⟩
  have := h.le (c := 0) (d := c) (le_refl _) (by omega) h1.1
  rw [h.1] at this
  have := h2.1
  omega

/-- the marks say which rows of column `j` have been seen -/
def Mk (n : Int) (jc ir : Int → Int) (j p : Int) (f : Int → Int) : Prop :=
  ∀ x, Idx n x → f x ≤ j ∧ (f x = j ↔ Seen n jc ir p x j)

theorem Mk.next (h : PatOk n jc ir) {j p : Int} {f : Int → Int} (hj : Idx n j)
    (hp : InC jc j p) (hm : Mk n jc ir j p f) : Mk n jc ir j (p + 1) (update f (ir p) j) := by
  intro x hx
  rw [Seen.step h hj hp]
  by_cases e : x = ir p
  · rw [e, Function.update_self]; simp
  · rw [Function.update_of_ne e]
    have := hm x hx
    refine ⟨this.1, this.2.trans ⟨Or.inl, fun q => q.resolve_right fun q => e q.1⟩⟩

/-- a row seen before adds nothing -/
theorem Seen.same (h : PatOk n jc ir) {j p : Int} {f : Int → Int} (hj : Idx n j) (hp : InC jc j p)
    (hm : Mk n jc ir j p f) (hf : f (ir p) = j) (x c : Int) :
    Seen n jc ir (p + 1) x c ↔ Seen n jc ir p x c := by
  rw [Seen.step h hj hp]
  refine ⟨?_, Or.inl⟩
  rintro (q | ⟨rfl, rfl⟩)
  · exact q
  · exact (hm _ ((h.2 c hj).2 p hp)).2.1 hf

theorem Mk.same (h : PatOk n jc ir) {j p : Int} {f : Int → Int} (hj : Idx n j)
    (hp : InC jc j p) (hm : Mk n jc ir j p f) (hf : f (ir p) = j) : Mk n jc ir j (p + 1) f := fun x hx => by
  rw [Seen.same h hj hp hm hf]
  exact hm x hx

theorem Mk.start (h : PatOk n jc ir) {j : Int} {f : Int → Int} (hj : Idx n j)
    (hf : ∀ x, Idx n x → f x < j) : Mk n jc ir j (jc j) f := fun x hx => by
  have := hf x hx
  refine ⟨by omega, fun q => by omega, fun q => (Seen.none h hj (le_refl _) q).elim⟩

theorem sum_dg_hit {D D' : Int → Int → Prop} {i j : Int} (hi : Idx n i) (hj : Idx n j) (hD : ¬ D i j)
    (h : ∀ x y, D' x y ↔ D x y ∨ x = i ∧ y = j) :
    ∑ x ∈ ix n, dg n D' x = (∑ x ∈ ix n, dg n D x) + 1 := by
  rw [← Finset.add_sum_erase _ _ (Finset.mem_Ico.2 hi), ← Finset.add_sum_erase (ix n) (dg n D)
    (Finset.mem_Ico.2 hi), dg_hit hj hD h]
  have : ∑ x ∈ (ix n).erase i, dg n D' x = ∑ x ∈ (ix n).erase i, dg n D x :=
    Finset.sum_congr rfl fun x hx => dg_miss (Finset.ne_of_mem_erase hx) h
  rw [this]; ring

/-- what `AMD_preprocess` returns: the transpose, sorted -/
structure Trans (n : Int) (jc ir rp ri : Int → Int) : Prop where
  mat : Mat n rp ri
  ent : ∀ x c, Idx n x → (Ent n rp ri c x ↔ Ent n jc ir x c)

theorem preprocess_ok {s : Pre} (hn : 0 ≤ n) (h : PatOk n jc ir)
    (hAp : ∀ c, 0 ≤ c → c ≤ n → rdI Ap c = .ok (jc c))
    (hAi : ∀ p, 0 ≤ p → p < jc n → rdI Ai p = .ok (ir p)) (h1 : s.rp.size = n.toNat + 1)
    (h2 : s.ri.size = (max (jc n) 1).toNat) (h3 : s.w.size = n.toNat) (h4 : s.flag.size = n.toNat) :
    Ok (preprocess n Ap Ai s) (fun s => ∃ rp ri, Trans n jc ir rp ri ∧
      (∀ c, 0 ≤ c → c ≤ n → rdI s.rp c = .ok (rp c)) ∧
      (∀ p, 0 ≤ p → p < rp n → rdI s.ri p = .ok (ri p)) ∧ s.w.size = n.toNat ∧
      s.flag.size = n.toNat) := by
  have pos : ∀ {c p}, Idx n c → InC jc c p → 0 ≤ p ∧ p < jc n ∧ Idx n (ir p) := fun {c p} hc hp => by
    have q1 := h.le (c := 0) (d := c) (le_refl _) (by omega) hc.1
    have q2 := h.le (c := c + 1) (d := n) (by omega) (by omega) (by omega)
    rw [h.1] at q1
    have := hp.1
    have := hp.2
    exact ⟨by omega, by omega, (h.2 c hc).2 p hp⟩
  have hz : ∀ x, dg n (Seen n jc ir 0) x = 0 := fun x => by
    rw [dg_congr (D := fun _ _ => False) fun y => iff_false_intro (Seen.zero h x y)]
    unfold dg; simp
  unfold preprocess
  rw [Ok_bind]
  -- the counts and the marks are cleared
  refine forI_ok (fun i s' => s'.rp = s.rp ∧ s'.ri = s.ri ∧ HZ s'.w n i (dg n (Seen n jc ir 0)) ∧
    HZ s'.flag n i (fun _ => -1)) hn ⟨rfl, rfl, HZ.of_size h3 _, HZ.of_size h4 _⟩ ?_ ?_
  · rintro i s' i0 i1 ⟨a1, a2, a3, a4⟩
    refine (HZ.next a3 i0 i1 (hz i)).bind fun w a3 => ?_
    refine (HZ.next a4 i0 i1 EMPTY_eq.symm).bind fun f a4 => ?_
    rw [Ok_pure]
    exact ⟨a1, a2, a3, a4⟩
  rintro s' ⟨a1, a2, a3, a4⟩
  rw [Ok_bind]
  -- the rows are counted
  refine forI_ok (fun j s' => s'.rp = s.rp ∧ s'.ri = s.ri ∧ HZ s'.w n n (dg n (Seen n jc ir (jc j))) ∧
    (∃ f, HZ s'.flag n n f ∧ ∀ x, Idx n x → f x < j) ∧
    ∑ x ∈ ix n, dg n (Seen n jc ir (jc j)) x ≤ jc j) hn
    ⟨a1, a2, by rw [h.1]; exact a3, ⟨_, a4, fun _ _ => by omega⟩, by
      rw [h.1]; exact le_of_eq (Finset.sum_eq_zero fun x _ => hz x)⟩ ?_ ?_
  · rintro j s' j0 j1 ⟨a1, a2, a3, ⟨f, a4, a5⟩, a6⟩
    have hj : Idx n j := ⟨j0, j1⟩
    refine Ok_rd (hAp _ (by omega) (by omega)) ?_
    refine Ok_rd (hAp _ j0 (by omega)) ?_
    refine forI_ok (fun p s' => s'.rp = s.rp ∧ s'.ri = s.ri ∧ HZ s'.w n n (dg n (Seen n jc ir p)) ∧
      (∃ f, HZ s'.flag n n f ∧ Mk n jc ir j p f) ∧ ∑ x ∈ ix n, dg n (Seen n jc ir p) x ≤ p)
      (h.2 j hj).1 ⟨a1, a2, a3, ⟨f, a4, Mk.start h hj a5⟩, a6⟩ ?_ ?_
    · rintro p s' p0 p1 ⟨a1, a2, a3, ⟨f, a4, a5⟩, a6⟩
      have hp : InC jc j p := ⟨p0, p1⟩
      obtain ⟨q0, q1, hi⟩ := pos hj hp
      refine Ok_rd (hAi p q0 q1) ?_
      refine Ok_rd (a4.rd hi.1 hi.2 hi.2) ?_
      split
      · rename_i hf
        have hD : ¬ Seen n jc ir p (ir p) j := fun q => hf ((a5 _ hi).2.2 q)
        have hs := Seen.step h hj hp
        refine Ok_rd (a3.rd hi.1 hi.2 hi.2) ?_
        refine (a3.wr' _ hi.1 hi.2 hi.2).bind fun w a3 => ?_
        refine (a4.wr' _ hi.1 hi.2 hi.2).bind fun f a4 => ?_
        rw [Ok_pure]
        refine ⟨a1, a2, a3.congr fun x _ _ _ => ?_, ⟨_, a4, a5.next h hj hp⟩, ?_⟩
        · by_cases e : x = ir p
          · rw [e, Function.update_self, dg_hit hj hD hs]
          · rw [Function.update_of_ne e, dg_miss e hs]
        · rw [sum_dg_hit hi hj hD hs]; omega
      · rename_i hf
        rw [not_not] at hf
        rw [Ok_pure]
        have hs : Seen n jc ir (p + 1) = Seen n jc ir p := by
          funext x c; exact propext (Seen.same h hj hp a5 hf x c)
        refine ⟨a1, a2, by rw [hs]; exact a3, ⟨f, a4, a5.same h hj hp hf⟩, by rw [hs]; omega⟩
    · rintro s' ⟨a1, a2, a3, ⟨f, a4, a5⟩, a6⟩
      exact ⟨a1, a2, a3, ⟨f, a4, fun x hx => by have := (a5 x hx).1; omega⟩, a6⟩
  rintro s' ⟨a1, a2, a3, ⟨f, a4, -⟩, a6⟩
  have hS : Seen n jc ir (jc n) = Ent n jc ir := by
    funext x c; exact propext (Seen.all h x c)
  rw [hS] at a3 a6
  generalize hd : dg n (Ent n jc ir) = d at *
  have d0 : ∀ x, 0 ≤ d x := fun x => by rw [← hd]; exact dg_nonneg x
  have pn : ps d n ≤ jc n := by unfold ps; exact a6
  -- the pointers
  have hrp : HZ s'.rp (n + 1) 0 (ps d) := HZ.of_size (by rw [a1, h1]; omega) _
  refine (HZ.next hrp (le_refl _) (by omega) ps_zero).bind fun rp hrp => ?_
  rw [Ok_bind]
  refine forI_ok (fun i s' => s'.ri = s.ri ∧ HZ s'.w n n d ∧ HZ s'.flag n n f ∧
    HZ s'.rp (n + 1) (i + 1) (ps d)) hn ⟨a2, a3, a4, hrp⟩ ?_ ?_
  · rintro i s' i0 i1 ⟨a2, a3, a4, a5⟩
    refine Ok_rd (a5.rd i0 (by omega) (by omega)) ?_
    refine Ok_rd (a3.rd i0 i1 i1) ?_
    refine (HZ.next a5 (by omega) (by omega) (ps_succ i0)).bind fun rp a5 => ?_
    rw [Ok_pure]
    exact ⟨a2, a3, a4, a5⟩
  rintro s' ⟨a2, a3, a4, a5⟩
  rw [Ok_bind]
  refine forI_ok (fun i s' => s'.ri = s.ri ∧ HZ s'.w n n (fun x => if x < i then ps d x else d x) ∧
    HZ s'.flag n n (fun x => if x < i then -1 else f x) ∧ HZ s'.rp (n + 1) (n + 1) (ps d)) hn
    ⟨a2, a3.congr fun x x0 _ _ => by rw [if_neg (by omega)],
      a4.congr fun x x0 _ _ => by rw [if_neg (by omega)], a5⟩ ?_ ?_
  · rintro i s' i0 i1 ⟨a2, a3, a4, a5⟩
    refine Ok_rd (a5.rd i0 (by omega) (by omega)) ?_
    refine (a3.wr' _ i0 i1 i1).bind fun w a3 => ?_
    refine (a4.wr' _ i0 i1 i1).bind fun fl a4 => ?_
    rw [Ok_pure]
    refine ⟨a2, a3.congr fun x _ _ _ => ?_, a4.congr fun x _ _ _ => ?_, a5⟩
    · by_cases e : x = i
      · rw [e, Function.update_self, if_pos (by omega)]
      · rw [Function.update_of_ne e]
        by_cases r : x < i
        · rw [if_pos r, if_pos (by omega)]
        · rw [if_neg r, if_neg (by omega)]
    · by_cases e : x = i
      · rw [e, Function.update_self, if_pos (by omega), EMPTY_eq]
      · rw [Function.update_of_ne e]
        by_cases r : x < i
        · rw [if_pos r, if_pos (by omega)]
        · rw [if_neg r, if_neg (by omega)]
  rintro s' ⟨a2, a3, a4, a5⟩
  -- the rows are stored
  have hL : ps d n ≤ max (jc n) 1 := le_trans pn (le_max_left _ _)
  have hle : ∀ p x, dg n (Seen n jc ir p) x ≤ d x := by
    classical
    intro p x
    rw [← hd]
    unfold dg
    refine Int.ofNat_le.2 (Finset.card_le_card fun y hy => ?_)
    rw [Finset.mem_filter] at hy ⊢
    obtain ⟨q1, q2, q, q3, -, q4⟩ := hy
    exact ⟨q1, q2, q, q3, q4⟩
  refine forI_ok (fun j s' => HZ s'.rp (n + 1) (n + 1) (ps d) ∧
    (∃ f, HZ s'.flag n n f ∧ ∀ x, Idx n x → f x < j) ∧
    ∃ g, PartG n (max (jc n) 1) d (Seen n jc ir (jc j)) (s'.w, s'.ri) g ∧
      ∀ x, Idx n x → ∀ k k', 0 ≤ k → k < k' → k' < dg n (Seen n jc ir (jc j)) x →
        g (ps d x + k) < g (ps d x + k')) hn
    ⟨a5, ⟨_, a4, fun x hx => by rw [if_pos hx.2]; omega⟩, fun _ => 0, ?_, ?_⟩ ?_ ?_
  · rw [h.1]
    refine ⟨a3.congr fun x _ _ hx => by rw [if_pos hx, hz, add_zero], by rw [a2, h2], ?_, ?_, ?_⟩
    · intro x hx k k0 k1
      rw [hz] at k1; omega
    · intro x hx y
      rw [hz]
      constructor
      · rintro ⟨k, k0, k1, -⟩; omega
      · exact fun q => (Seen.zero h x y q).elim
    · intro x hx k k' k0 k1
      rw [hz] at k1; omega
  · intro x hx k k' k0 k1 k2
    rw [h.1, hz] at k2; omega
  · rintro j s' j0 j1 ⟨b1, ⟨f, b2, b3⟩, g, b4, b5⟩
    have hj : Idx n j := ⟨j0, j1⟩
    refine Ok_rd (hAp _ (by omega) (by omega)) ?_
    refine Ok_rd (hAp _ j0 (by omega)) ?_
    refine forI_ok (fun p s' => HZ s'.rp (n + 1) (n + 1) (ps d) ∧
      (∃ f, HZ s'.flag n n f ∧ Mk n jc ir j p f) ∧
      ∃ g, PartG n (max (jc n) 1) d (Seen n jc ir p) (s'.w, s'.ri) g ∧
        ∀ x, Idx n x → ∀ k k', 0 ≤ k → k < k' → k' < dg n (Seen n jc ir p) x →
          g (ps d x + k) < g (ps d x + k'))
      (h.2 j hj).1 ⟨b1, ⟨f, b2, Mk.start h hj b3⟩, g, b4, b5⟩ ?_ ?_
    · rintro p s' p0 p1 ⟨b1, ⟨f, b2, b3⟩, g, b4, b5⟩
      have hp : InC jc j p := ⟨p0, p1⟩
      obtain ⟨q0, q1, hi⟩ := pos hj hp
      refine Ok_rd (hAi p q0 q1) ?_
      refine Ok_rd (b2.rd hi.1 hi.2 hi.2) ?_
      split
      · rename_i hf
        have hD : ¬ Seen n jc ir p (ir p) j := fun q => hf ((b3 _ hi).2.2 q)
        have hs := Seen.step h hj hp
        have hst := storeHalf_ok b4 d0 hL hi hj hD hs (hle _)
        unfold storeHalf at hst
        have hh := b4.2.2.2.1
        obtain ⟨v, hv⟩ : ∃ v, rdI s'.w (ir p) = .ok v := ⟨_, b4.1.rd hi.1 hi.2 hi.2⟩
        rw [hv]
        dsimp only at hst
        rw [hv] at hst
        refine Ok_rd rfl ?_
        have hst : Ok (do
            let iw ← wrI s'.ri v j
            let sp ← wrI s'.w (ir p) (v + 1)
            pure (sp, iw)) _ := hst
        rw [Ok_bind] at hst ⊢
        refine hst.mono fun ri hst => ?_
        rw [Ok_bind] at hst ⊢
        refine hst.mono fun w hst => ?_
        rw [Ok_pure] at hst
        refine (b2.wr' _ hi.1 hi.2 hi.2).bind fun fl b2 => ?_
        rw [Ok_pure]
        refine ⟨b1, ⟨_, b2, b3.next h hj hp⟩, _, hst, ?_⟩
        intro x hx k k' k0 k1 k2
        -- the lists increase: what is stored is the present column
        have small : ∀ y, Idx n y → ∀ c, Seen n jc ir p y c → c ≤ j := by
          rintro y hy c ⟨c1, q, c2, c3, -⟩
          by_contra hc
          have := h.le (c := j + 1) (d := c) (by omega) (by omega) (by omega)
          have := c2.1
          omega
        have away : ∀ x, Idx n x → ∀ k, 0 ≤ k → k < dg n (Seen n jc ir p) x →
            ps d x + k ≠ ps d (ir p) + dg n (Seen n jc ir p) (ir p) := by
          intro x hx k k0 k1 e
          have e1 := hle (p + 1) (ir p)
          rw [dg_hit hj hD hs] at e1
          have e2 := hle p x
          have e3 := dg_nonneg (n := n) (D := Seen n jc ir p) (ir p)
          rcases lt_trichotomy x (ir p) with r | r | r
          · have := ps_succ (d := d) hx.1
            have := ps_mono d0 (show x + 1 ≤ ir p by omega)
            omega
          · rw [r] at e k1; omega
          · have := ps_succ (d := d) hi.1
            have := ps_mono d0 (show ir p + 1 ≤ x by omega)
            omega
        by_cases e : x = ir p
        · rw [e] at k2 ⊢
          rw [dg_hit hj hD hs] at k2
          rw [Function.update_of_ne (away _ hi k k0 (by omega))]
          by_cases r : k' = dg n (Seen n jc ir p) (ir p)
          · rw [r, Function.update_self]
            have hsn := (b4.2.2.2.1 (ir p) hi _).1 ⟨k, k0, by omega, rfl⟩
            have := small _ hi _ hsn
            have : g (ps d (ir p) + k) ≠ j := fun q => hD (q ▸ hsn)
            omega
          · rw [Function.update_of_ne (away _ hi k' (by omega) (by omega))]
            exact b5 _ hi k k' k0 k1 (by omega)
        · rw [dg_miss e hs] at k2
          rw [Function.update_of_ne (away _ hx k k0 (by omega)),
            Function.update_of_ne (away _ hx k' (by omega) (by omega))]
          exact b5 _ hx k k' k0 k1 k2
      · rename_i hf
        rw [not_not] at hf
        rw [Ok_pure]
        have hs : Seen n jc ir (p + 1) = Seen n jc ir p := by
          funext x c; exact propext (Seen.same h hj hp b3 hf x c)
        refine ⟨b1, ⟨f, b2, b3.same h hj hp hf⟩, g, ?_, ?_⟩
        · rw [hs]; exact b4
        · rw [hs]; exact b5
    · rintro s' ⟨b1, ⟨f, b2, b3⟩, b4⟩
      exact ⟨b1, ⟨f, b2, fun x hx => by have := (b3 x hx).1; omega⟩, b4⟩
  · rintro s' ⟨b1, ⟨f, b2, -⟩, g, ⟨c1, c2, c3, c4, c5⟩, c6⟩
    rw [hS] at c1 c3 c4 c5 c6
    rw [hd] at c1 c3 c4 c5 c6
    dsimp only at c1 c2 c3
    have blk : ∀ p, 0 ≤ p → p < ps d n → ∃ x k, Idx n x ∧ 0 ≤ k ∧ k < d x ∧ p = ps d x + k := by
      intro p p0 p1
      obtain ⟨x, hx, q1, q2⟩ := ps_find d0 p0 n.toNat (by rwa [Int.toNat_of_nonneg hn])
      rw [Int.toNat_of_nonneg hn] at hx
      exact ⟨x, p - ps d x, hx, by omega, by omega, by omega⟩
    refine ⟨ps d, g, ⟨⟨ps_zero, fun c hc => ps_mono d0 (by omega), fun p p0 p1 => ?_,
      fun c hc p q hp hq hlt => ?_⟩, fun x c hx => ?_⟩, fun c hc0 hc => b1.rd hc0 (by omega) (by omega),
      fun p p0 p1 => ?_, c1.1, b2.1⟩
    · obtain ⟨x, k, hx, k0, k1, e⟩ := blk p p0 p1
      exact ((c4 x hx (g p)).1 ⟨k, k0, k1, by rw [e]⟩).1
    · have hq2 := hq.2
      rw [ps_succ hc.1] at hq2
      have hp1 := hp.1
      have := c6 c hc (p - ps d c) (q - ps d c) (by omega) (by omega) (by omega)
      rwa [show ps d c + (p - ps d c) = p by ring, show ps d c + (q - ps d c) = q by ring] at this
    · constructor
      · rintro ⟨-, q, hq, rfl⟩
        have hq2 := hq.2
        rw [ps_succ hx.1] at hq2
        exact (c4 x hx _).1 ⟨q - ps d x, by have := hq.1; omega, by omega, by
          rw [show ps d x + (q - ps d x) = q by ring]⟩
      · intro q
        obtain ⟨k, k0, k1, e⟩ := (c4 x hx c).2 q
        exact ⟨hx, ps d x + k, ⟨by omega, by rw [ps_succ hx.1]; omega⟩, e⟩
    · obtain ⟨x, k, hx, k0, k1, e⟩ := blk p p0 p1
      have := c3 x hx k k0 k1
      rw [e]
      simp only [rdI, not_lt.2 (show 0 ≤ ps d x + k by omega), if_false, Ecos.rd, this]

end Ecos.Amd
