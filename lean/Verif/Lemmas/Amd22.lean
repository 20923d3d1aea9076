import Verif.Lemmas.Amd21

/-!
# AMD: the run through the entries of A + A'
-/
namespace Ecos.Amd

open Function (update)

variable {n : Int} {jc ir t : Int → Int} {Ap Ai : Buf Int} {σ : Type}

/-- a square pattern with sorted columns without duplicates -/
structure Mat (n : Int) (jc ir : Int → Int) : Prop where
  zero : jc 0 = 0
  mono : ∀ c, Idx n c → jc c ≤ jc (c + 1)
  rows : ∀ p, 0 ≤ p → p < jc n → Idx n (ir p)
  sort : ∀ c, Idx n c → ∀ p q, InC jc c p → InC jc c q → p < q → ir p < ir q

theorem jc_mono (h : ∀ c, Idx n c → jc c ≤ jc (c + 1)) {c : Int} (k : Nat) (hc : 0 ≤ c) (hk : c + k ≤ n) :
    jc c ≤ jc (c + k) := by
  induction k with
  | zero => simp
  | succ k ih =>
    push_cast at hk ⊢
    have h1 := ih (by omega)
    have h2 := h (c + k) ⟨by omega, by omega⟩
    rw [← add_assoc]
    omega

theorem Mat.le (h : Mat n jc ir) {c d : Int} (hc : 0 ≤ c) (hd : d ≤ n) (hcd : c ≤ d) : jc c ≤ jc d := by
  have := jc_mono h.mono (c := c) (d - c).toNat hc (by omega)
  rwa [show c + ((d - c).toNat : Int) = d by omega] at this

theorem Mat.pos (h : Mat n jc ir) {c p : Int} (hc : Idx n c) (hp : InC jc c p) : 0 ≤ p ∧ p < jc n := by
  have h1 := h.le (c := 0) (d := c) (by omega) (by omega) hc.1
  have h2 := h.le (c := c + 1) (d := n) (by omega) (by omega) (by omega)
  have := h.zero
  have := hp.1
  have := hp.2
  exact ⟨by omega, by omega⟩

theorem Mat.inj (h : Mat n jc ir) {c p q : Int} (hc : Idx n c) (hp : InC jc c p) (hq : InC jc c q)
    (e : ir p = ir q) : p = q := by
  rcases lt_trichotomy p q with r | r | r
  · have := h.sort c hc p q hp hq r; omega
  · exact r
  · have := h.sort c hc q p hq hp r; omega

/-- the pairs of the entries below the marks `t` -/
def Dn (n : Int) (jc ir t : Int → Int) (x y : Int) : Prop :=
  x ≠ y ∧ ∃ c p, Idx n c ∧ jc c ≤ p ∧ p < t c ∧ (x = c ∧ y = ir p ∨ y = c ∧ x = ir p)

theorem Dn.symm {x y : Int} (h : Dn n jc ir t x y) : Dn n jc ir t y x := by
  obtain ⟨h1, c, p, h2, h3, h4, h5⟩ := h
  exact ⟨h1.symm, c, p, h2, h3, h4, h5.symm⟩

theorem Adj.symm {x y : Int} (h : Adj n jc ir x y) : Adj n jc ir y x := by
  obtain ⟨h1, c, p, h2, h3, h5⟩ := h
  exact ⟨h1.symm, c, p, h2, h3, h5.symm⟩

theorem Adj.idx (hM : Mat n jc ir) {x y : Int} (h : Adj n jc ir x y) : Idx n x ∧ Idx n y := by
  obtain ⟨-, c, p, h2, h3, h5⟩ := h
  have hp := hM.pos h2 h3
  have := hM.rows p hp.1 hp.2
  rcases h5 with ⟨rfl, rfl⟩ | ⟨rfl, rfl⟩
  · exact ⟨h2, this⟩
  · exact ⟨this, h2⟩

theorem Dn.step {c : Int} (hc : Idx n c) (h1 : jc c ≤ t c) (x y : Int) :
    Dn n jc ir (update t c (t c + 1)) x y ↔ Dn n jc ir t x y ∨
      x ≠ y ∧ (x = ir (t c) ∧ y = c ∨ x = c ∧ y = ir (t c)) := by
  constructor
  · rintro ⟨hne, d, p, h2, h3, h4, h5⟩
    by_cases r : d = c
    · subst r
      rw [Function.update_self] at h4
      by_cases q : p = t d
      · subst q
        refine Or.inr ⟨hne, ?_⟩
        tauto
      · exact Or.inl ⟨hne, d, p, h2, h3, by omega, h5⟩
    · rw [Function.update_of_ne r] at h4
      exact Or.inl ⟨hne, d, p, h2, h3, h4, h5⟩
  · rintro (⟨hne, d, p, h2, h3, h4, h5⟩ | ⟨hne, h⟩)
    · refine ⟨hne, d, p, h2, h3, ?_, h5⟩
      by_cases r : d = c
      · subst r; rw [Function.update_self]; omega
      · rw [Function.update_of_ne r]; exact h4
    · exact ⟨hne, c, t c, hc, h1, by rw [Function.update_self]; omega, by tauto⟩

/-- the marks when columns below `k` and the part of column `k` below `t k` are done; the lower parts
of the columns have been followed for the entries of column `k` below `m` -/
structure Wk (n : Int) (jc ir : Int → Int) (k m : Int) (t : Int → Int) : Prop where
  rng : ∀ c, Idx n c → jc c ≤ t c ∧ t c ≤ jc (c + 1)
  new : ∀ c, Idx n c → k < c → t c = jc c
  up : ∀ c, Idx n c → c < k → ∀ p, InC jc c p → ir p ≤ c → p < t c
  low : ∀ c, Idx n c → c < k → ∀ q, InC jc c q → q < t c → ir q < k ∨
    ir q = k ∧ ∃ p, InC jc k p ∧ p < t k ∧ ir p = c
  own : Idx n k → ∀ p, InC jc k p → p < t k → ir p < k
  fol : ∀ c, Idx n c → ∀ p, InC jc c p → p < t c → ir p < c → (c < k ∨ c = k ∧ p < m) →
    ∀ q, InC jc (ir p) q → ir q ≤ c → q < t (ir p)

/-- the next entry of the lower part of column `j` is new -/
theorem Wk.fresh {k m j : Int} (h : Wk n jc ir k m t) (hM : Mat n jc ir) (hj : Idx n j) (hjk : j < k)
    (ht : t j < jc (j + 1)) : j < ir (t j) ∧ (ir (t j) < k → ¬ Dn n jc ir t (ir (t j)) j) := by
  have hin : InC jc j (t j) := ⟨(h.rng j hj).1, ht⟩
  have hlt : j < ir (t j) := by
    by_contra hc
    have := h.up j hj hjk (t j) hin (by omega)
    omega
  refine ⟨hlt, fun hk => ?_⟩
  rintro ⟨hne, c, p, h2, h3, h4, ⟨h5, h6⟩ | ⟨h5, h6⟩⟩
  · have hp : InC jc c p := ⟨h3, by have := (h.rng c h2).2; omega⟩
    have := h.fol c h2 p hp h4 (by omega) (Or.inl (by omega)) (t j) (by rw [← h6]; exact hin) (by omega)
    rw [← h6] at this
    omega
  · rw [← h5] at h3 h4
    have hp : InC jc j p := ⟨h3, by omega⟩
    have := hM.sort j hj p (t j) hp hin h4
    omega

/-- one more entry of the lower part of column `j` is done -/
theorem Wk.bump {k m j : Int} (h : Wk n jc ir k m t) (hM : Mat n jc ir) (hj : Idx n j) (hjk : j < k)
    (ht : t j < jc (j + 1)) (hr : ir (t j) < k ∨ ir (t j) = k ∧ ∃ p, InC jc k p ∧ p < t k ∧ ir p = j) :
    Wk n jc ir k m (update t j (t j + 1)) := by
  have hin : InC jc j (t j) := ⟨(h.rng j hj).1, ht⟩
  have ge : ∀ c, t c ≤ update t j (t j + 1) c := fun c => by
    by_cases r : c = j
    · rw [r, Function.update_self]; omega
    · rw [Function.update_of_ne r]
  have hk : update t j (t j + 1) k = t k := Function.update_of_ne (by omega) _ _
  refine ⟨?_, ?_, ?_, ?_, ?_, ?_⟩
  · intro c hc
    have := h.rng c hc
    by_cases r : c = j
    · rw [r, Function.update_self]; rw [r] at this; omega
    · rw [Function.update_of_ne r]; exact this
  · intro c hc hkc
    rw [Function.update_of_ne (by omega)]
    exact h.new c hc hkc
  · intro c hc hck p hp hle
    have := h.up c hc hck p hp hle
    have := ge c
    omega
  · intro c hc hck q hq hlt
    rw [hk]
    by_cases r : c = j
    · subst r
      rw [Function.update_self] at hlt
      by_cases r2 : q = t c
      · rw [r2]; exact hr
      · exact h.low c hc hck q hq (by omega)
    · rw [Function.update_of_ne r] at hlt
      exact h.low c hc hck q hq hlt
  · intro hkn p hp hlt
    rw [hk] at hlt
    exact h.own hkn p hp hlt
  · intro c hc p hp hlt hpc hcase q hq hqc
    have hlt' : p < t c := by
      by_cases r : c = j
      · subst r
        rw [Function.update_self] at hlt
        by_contra hcon
        have : p = t c := by omega
        rw [this] at hpc
        have := (h.fresh hM hc hjk ht).1
        omega
      · rw [Function.update_of_ne r] at hlt
        exact hlt
    have := h.fol c hc p hp hlt' hpc hcase q hq hqc
    have := ge (ir p)
    omega

/-- the property that is kept by every `emit` -/
structure Emit (n : Int) (jc ir : Int → Int) (emit : Int → Int → σ → M σ)
    (I : (Int → Int → Prop) → σ → Prop) : Prop where
  ext : ∀ D D' s, (∀ x y, D' x y ↔ D x y) → I D s → I D' s
  step : ∀ D D' i j s, Adj n jc ir i j → ¬ D i j → (∀ x y, D x y → Adj n jc ir x y) →
    (∀ x y, D x y → D y x) → (∀ x y, D' x y ↔ D x y ∨ x = i ∧ y = j ∨ x = j ∧ y = i) →
    I D s → Ok (emit i j s) (I D')

variable {emit : Int → Int → σ → M σ} {I : (Int → Int → Prop) → σ → Prop} {s : σ}

theorem Dn.adj {x y : Int} (hr : ∀ c, Idx n c → jc c ≤ t c ∧ t c ≤ jc (c + 1)) (h : Dn n jc ir t x y) :
    Adj n jc ir x y := by
  obtain ⟨h1, c, p, h2, h3, h4, h5⟩ := h
  exact ⟨h1, c, p, h2, ⟨h3, by have := (hr c h2).2; omega⟩, h5⟩

/-- emitting the entry at the mark of column `c` -/
theorem Emit.go (hE : Emit n jc ir emit I) (hr : ∀ c, Idx n c → jc c ≤ t c ∧ t c ≤ jc (c + 1)) {c : Int}
    (hc : Idx n c) (ht : t c < jc (c + 1)) (hne : ir (t c) ≠ c) (hD : ¬ Dn n jc ir t (ir (t c)) c)
    (hI : I (Dn n jc ir t) s) :
    Ok (emit (ir (t c)) c s) (I (Dn n jc ir (update t c (t c + 1)))) := by
  refine hE.step _ _ _ _ _ ⟨hne, c, t c, hc, ⟨(hr c hc).1, ht⟩, Or.inr ⟨rfl, rfl⟩⟩ hD
    (fun x y q => q.adj hr) (fun x y q => q.symm) (fun x y => ?_) hI
  rw [Dn.step hc (hr c hc).1]
  constructor
  · rintro (q | ⟨_, q⟩)
    · exact Or.inl q
    · exact Or.inr q
  · rintro (q | q)
    · exact Or.inl q
    · refine Or.inr ⟨?_, q⟩
      rcases q with ⟨rfl, rfl⟩ | ⟨rfl, rfl⟩
      · exact hne
      · exact hne.symm

/-- the lower part of column `j` up to row `k` -/
theorem lower_ok {k m j : Int} (hM : Mat n jc ir) (hAi : ∀ p, 0 ≤ p → p < jc n → rdI Ai p = .ok (ir p))
    (hE : Emit n jc ir emit I) (h : Wk n jc ir k m t) (hj : Idx n j) (hjk : j < k) (hI : I (Dn n jc ir t) s)
    (hk : ∃ p, InC jc k p ∧ p < t k ∧ ir p = j) (hkn : Idx n k) :
    Ok (lower Ai emit k j (jc (j + 1)) (t j) s) (fun r =>
      Wk n jc ir k m (update t j r.1) ∧ I (Dn n jc ir (update t j r.1)) r.2 ∧
      ∀ q, InC jc j q → ir q ≤ k → q < r.1) := by
  unfold lower
  refine iter_ok' (fun f q => f = (jc (j + 1) - q.1).toNat ∧ Wk n jc ir k m (update t j q.1) ∧
    I (Dn n jc ir (update t j q.1)) q.2) (Nat.lt_succ_self _)
    ⟨rfl, by rw [Function.update_eq_self]; exact h, by rw [Function.update_eq_self]; exact hI⟩ ?_
  rintro f ⟨p, s⟩ ⟨rfl, hW, hI⟩
  dsimp only at hW hI ⊢
  have hrg := hW.rng j hj
  rw [Function.update_self] at hrg
  split
  · rename_i hp
    have hin : InC jc j p := ⟨hrg.1, hp⟩
    have hps := hM.pos hj hin
    refine Ok_rd (hAi p hps.1 hps.2) ?_
    have hup : update (update t j p) j (update t j p j + 1) = update t j (p + 1) := by
      rw [Function.update_self, Function.update_idem]
    have htk : update t j p k = t k := Function.update_of_ne (by omega) _ _
    have hfr := hW.fresh hM hj hjk (by rw [Function.update_self]; exact hp)
    rw [Function.update_self] at hfr
    split
    · rename_i hik
      have hg := hE.go hW.rng hj (by rw [Function.update_self]; exact hp)
        (by rw [Function.update_self]; omega) (by rw [Function.update_self]; exact hfr.2 hik) hI
      rw [hup, Function.update_self] at hg
      refine hg.bind fun s hI => ?_
      rw [Ok_pure]
      refine ⟨_, ?_, rfl, ?_, hI⟩
      · dsimp only; omega
      · have := hW.bump hM hj hjk (by rw [Function.update_self]; exact hp)
          (by rw [Function.update_self]; exact Or.inl hik)
        rw [hup] at this
        exact this
    · rename_i hik
      split
      · rename_i hik2
        rw [Ok_pure]
        dsimp only
        refine ⟨?_, ?_, fun q hq hqk => ?_⟩
        · have := hW.bump hM hj hjk (by rw [Function.update_self]; exact hp)
            (by rw [Function.update_self, htk]; exact Or.inr ⟨hik2, hk⟩)
          rw [hup] at this
          exact this
        · refine hE.ext _ _ _ (fun x y => ?_) hI
          rw [← hup, Dn.step hj (hW.rng j hj).1, Function.update_self, hik2]
          constructor
          · rintro (q | ⟨q1, q2⟩)
            · exact q
            · obtain ⟨p', k1, k2, k3⟩ := hk
              refine ⟨q1, k, p', hkn, k1.1, by rw [htk]; exact k2, ?_⟩
              rw [k3]
              tauto
          · exact Or.inl
        · by_contra hc
          have := hM.sort j hj p q hin hq (by omega)
          omega
      · rw [Ok_pure]
        refine ⟨hW, hI, fun q hq hqk => ?_⟩
        dsimp only
        by_contra hc
        by_cases e : q = p
        · rw [e] at hqk; omega
        · have := hM.sort j hj p q hin hq (by omega)
          omega
  · rename_i hp
    rw [Ok_pure]
    refine ⟨hW, hI, fun q hq hqk => ?_⟩
    have := hq.2
    dsimp only
    omega

/-- column `k` -/
theorem column_ok {k : Int} {tp : Buf Int} (hM : Mat n jc ir)
    (hAp : ∀ c, 0 ≤ c → c ≤ n → rdI Ap c = .ok (jc c))
    (hAi : ∀ p, 0 ≤ p → p < jc n → rdI Ai p = .ok (ir p)) (hE : Emit n jc ir emit I) (hk : Idx n k)
    (htp : HZ tp n k t) (h : Wk n jc ir k (jc k) t) (hk0 : t k = jc k) (hI : I (Dn n jc ir t) s) :
    Ok (column Ap Ai emit k (jc k) (jc (k + 1)) tp s) (fun r => ∃ t', t' k = r.1 ∧ HZ r.2.1 n k t' ∧
      Wk n jc ir (k + 1) (jc (k + 1)) t' ∧ I (Dn n jc ir t') r.2.2 ∧
      ∀ c, Idx n c → k < c → t' c = jc c) := by
  -- leaving the loop
  have fin : ∀ (p p' : Int) (t : Int → Int), t k = p → Wk n jc ir k p t → p ≤ p' → p' ≤ jc (k + 1) →
      (∀ q, InC jc k q → p ≤ q → q < p' → ir q = k) → (∀ q, InC jc k q → p' ≤ q → k < ir q) →
      Wk n jc ir (k + 1) (jc (k + 1)) (update t k p') := by
    intro p p' t hp h h1 h2 hmid hrest
    have ne : ∀ c, c ≠ k → update t k p' c = t c := fun c hc => Function.update_of_ne hc _ _
    refine ⟨fun c hc => ?_, fun c hc q => ?_, ?_, ?_, ?_, ?_⟩
    · have := h.rng c hc
      by_cases e : c = k
      · rw [e, Function.update_self]; rw [e] at this; omega
      · rw [ne c e]; exact this
    · rw [ne c (by omega)]; exact h.new c hc (by omega)
    · intro c hc hck q hq hqc
      by_cases e : c = k
      · subst e
        rw [Function.update_self]
        by_contra hcon
        have := hrest q hq (by omega)
        omega
      · rw [ne c e]; exact h.up c hc (by omega) q hq hqc
    · intro c hc hck q hq hlt
      left
      by_cases e : c = k
      · subst e
        rw [Function.update_self] at hlt
        by_cases e2 : q < p
        · have := h.own hc q hq (by omega)
          omega
        · have := hmid q hq (by omega) hlt
          omega
      · rw [ne c e] at hlt
        rcases h.low c hc (by omega) q hq hlt with r | r <;> omega
    · intro hk1 q hq hlt
      rw [ne _ (by omega), h.new (k + 1) hk1 (by omega)] at hlt
      have := hq.1
      omega
    · intro c hc q hq hlt hqc hcase x hx hxc
      rw [ne _ (by
        rcases hcase with r | ⟨r, r2⟩
        · omega
        · have := hq.1
          rw [r] at this
          omega)]
      have hc' : q < t c ∧ (c < k ∨ c = k ∧ q < p) := by
        rcases hcase with r | ⟨r, r2⟩
        · by_cases e : c = k
          · subst e
            rw [Function.update_self] at hlt
            by_cases e2 : q < p
            · exact ⟨by omega, Or.inr ⟨rfl, e2⟩⟩
            · have := hmid q hq (by omega) hlt
              omega
          · rw [ne c e] at hlt
            exact ⟨hlt, Or.inl (by omega)⟩
        · have := hq.1
          rw [r] at this
          omega
      exact h.fol c hc q hq hc'.1 hqc hc'.2 x hx hxc
  unfold column
  refine iter_ok' (fun f q => f = (jc (k + 1) - q.1).toNat ∧ ∃ t, t k = q.1 ∧ HZ q.2.1 n k t ∧
    Wk n jc ir k q.1 t ∧ I (Dn n jc ir t) q.2.2) (Nat.lt_succ_self _)
    ⟨rfl, t, hk0, htp, h, hI⟩ ?_
  rintro f ⟨p, tp, s⟩ ⟨rfl, t, ht, htp, hW, hI⟩
  dsimp only at ht htp hW hI ⊢
  have hrg := hW.rng k hk
  rw [ht] at hrg
  have hself : update t k p = t := by rw [← ht, Function.update_eq_self]
  split
  · rename_i hp
    have hin : InC jc k p := ⟨hrg.1, hp⟩
    have hps := hM.pos hk hin
    have hj := hM.rows p hps.1 hps.2
    refine Ok_rd (hAi p hps.1 hps.2) ?_
    split
    · rename_i hjk
      -- an entry above the diagonal
      have hfr : ¬ Dn n jc ir t (ir (t k)) k := by
        rintro ⟨hne, c, q, h2, h3, h4, ⟨h5, h6⟩ | ⟨h5, h6⟩⟩
        · rw [ht] at h5
          have hq : InC jc c q := ⟨h3, by have := (hW.rng c h2).2; omega⟩
          rcases hW.low c h2 (by omega) q hq h4 with r | ⟨-, p', r1, r2, r3⟩
          · omega
          · have := hM.inj hk r1 hin (by omega)
            omega
        · rw [← h5] at h3 h4
          have hq : InC jc k q := ⟨h3, by omega⟩
          rw [ht] at h6 h4
          have := hM.inj hk hin hq h6
          omega
      have hg := hE.go hW.rng hk (by rw [ht]; exact hp) (by rw [ht]; omega) hfr hI
      rw [ht] at hg
      refine hg.bind fun s hI => ?_
      refine Ok_rd (hAp _ (by omega) (by omega)) ?_
      refine Ok_rd (htp.rd hj.1 hjk hj.2) ?_
      have hne : ir p ≠ k := by omega
      have hW' : Wk n jc ir k p (update t k (p + 1)) := by
        have ne : ∀ c, c ≠ k → update t k (p + 1) c = t c := fun c hc => Function.update_of_ne hc _ _
        refine ⟨fun c hc => ?_, fun c hc q => ?_, ?_, ?_, ?_, ?_⟩
        · by_cases e : c = k
          · rw [e, Function.update_self]; omega
          · rw [ne c e]; exact hW.rng c hc
        · rw [ne c (by omega)]; exact hW.new c hc q
        · intro c hc hck q hq hqc
          rw [ne c (by omega)]; exact hW.up c hc hck q hq hqc
        · intro c hc hck q hq hlt
          rw [ne c (by omega)] at hlt
          rw [Function.update_self]
          rcases hW.low c hc hck q hq hlt with r | ⟨r, p', r1, r2, r3⟩
          · exact Or.inl r
          · exact Or.inr ⟨r, p', r1, by omega, r3⟩
        · intro hk1 q hq hlt
          rw [Function.update_self] at hlt
          by_cases e : q = p
          · rw [e]; exact hjk
          · exact hW.own hk1 q hq (by omega)
        · intro c hc q hq hlt hqc hcase x hx hxc
          have hlt' : q < t c := by
            rcases hcase with r | ⟨r, r2⟩
            · rwa [ne c (by omega)] at hlt
            · rw [r, ht]; exact r2
          rw [ne _ (by omega)]
          exact hW.fol c hc q hq hlt' hqc hcase x hx hxc
      have htj : update t k (p + 1) (ir p) = t (ir p) := Function.update_of_ne hne _ _
      rw [← htj]
      refine (lower_ok hM hAi hE hW' hj hjk hI
        ⟨p, hin, by rw [Function.update_self]; omega, rfl⟩ hk).bind ?_
      rintro ⟨pj, s⟩ ⟨hW2, hI2, hall⟩
      dsimp only at hW2 hI2 hall ⊢
      refine (htp.wr' pj hj.1 hj.2 hjk).bind fun tp htp => ?_
      rw [Ok_pure]
      have htk : update (update t k (p + 1)) (ir p) pj k = p + 1 := by
        rw [Function.update_of_ne (Ne.symm hne), Function.update_self]
      refine ⟨_, ?_, rfl, _, htk, ?_, ?_, hI2⟩
      · dsimp only; omega
      · refine htp.congr fun i _ hik _ => ?_
        by_cases e : i = ir p
        · rw [e, Function.update_self, Function.update_self]
        · rw [Function.update_of_ne e, Function.update_of_ne e, Function.update_of_ne (by omega)]
      · dsimp only
        refine ⟨hW2.rng, hW2.new, hW2.up, hW2.low, hW2.own, ?_⟩
        intro c hc q hq hlt hqc hcase x hx hxc
        by_cases e : c = k ∧ q = p
        · obtain ⟨rfl, rfl⟩ := e
          rw [Function.update_self]
          exact hall x hx hxc
        · refine hW2.fol c hc q hq hlt hqc ?_ x hx hxc
          rcases hcase with r | ⟨r, r2⟩
          · exact Or.inl r
          · refine Or.inr ⟨r, ?_⟩
            have : q ≠ p := fun q' => e ⟨r, q'⟩
            omega
    · rename_i hjk
      split
      · rename_i hjk2
        rw [Ok_pure]
        dsimp only
        refine ⟨update t k (p + 1), Function.update_self _ _ _, ?_, ?_, ?_, fun c hc q => by
          rw [Function.update_of_ne (by omega)]; exact hW.new c hc q⟩
        · exact htp.congr fun i _ hik _ => (Function.update_of_ne (by omega) _ _).symm
        · refine fin p (p + 1) t ht hW (by omega) (by omega) (fun q hq q1 q2 => ?_) fun q hq q1 => ?_
          · rw [show q = p by omega]; exact hjk2
          · have := hM.sort k hk p q hin hq (by omega)
            omega
        · refine hE.ext _ _ _ (fun x y => ?_) hI
          have := Dn.step (ir := ir) (t := t) hk (hW.rng k hk).1 x y
          rw [ht, hjk2] at this
          rw [this]
          constructor
          · rintro (q | ⟨q1, q2⟩)
            · exact q
            · omega
          · exact Or.inl
      · rw [Ok_pure]
        dsimp only
        refine ⟨t, ht, htp, ?_, hI, hW.new⟩
        have := fin p p t ht hW (le_refl _) hrg.2 (fun q _ q1 q2 => by omega) fun q hq q1 => by
          by_cases e : q = p
          · rw [e]; omega
          · have := hM.sort k hk p q hin hq (by omega)
            omega
        rwa [hself] at this
  · rename_i hp
    rw [Ok_pure]
    dsimp only
    refine ⟨t, ht, htp, ?_, hI, hW.new⟩
    have := fin p p t ht hW (le_refl _) hrg.2 (fun q _ q1 q2 => by omega) fun q hq q1 => by
      have := hq.2
      omega
    rwa [hself] at this

/-- every pair of neighbours is emitted once -/
theorem walk_ok {tp : Buf Int} (hM : Mat n jc ir) (hn : 0 ≤ n)
    (hAp : ∀ c, 0 ≤ c → c ≤ n → rdI Ap c = .ok (jc c))
    (hAi : ∀ p, 0 ≤ p → p < jc n → rdI Ai p = .ok (ir p)) (hE : Emit n jc ir emit I)
    (htp : tp.size = n.toNat) (hI : I (fun _ _ => False) s) :
    Ok (walk n Ap Ai emit tp s) (fun r => r.1.size = n.toNat ∧ I (Adj n jc ir) r.2) := by
  unfold walk
  rw [Ok_bind]
  have D0 : ∀ x y, Dn n jc ir jc x y ↔ False := fun x y =>
    ⟨fun ⟨_, c, p, _, h3, h4, _⟩ => by omega, False.elim⟩
  refine forI_ok (fun k r => ∃ t, HZ r.1 n k t ∧ Wk n jc ir k (jc k) t ∧ (Idx n k → t k = jc k) ∧
    I (Dn n jc ir t) r.2) hn ⟨jc, HZ.of_size htp _, ⟨fun c hc => ⟨le_refl _, hM.mono c hc⟩,
      fun _ _ _ => rfl, fun c hc q => by have := hc.1; omega, fun c hc q => by have := hc.1; omega,
      fun _ p hp q => by have := hp.1; omega, fun c hc p hp q => by have := hp.1; omega⟩,
      fun _ => rfl, hE.ext _ _ _ D0 hI⟩ ?_ ?_
  · rintro k ⟨tp, s⟩ k0 k1 ⟨t, htp, hW, htk, hI⟩
    dsimp only at htp hW htk hI ⊢
    have hk : Idx n k := ⟨k0, k1⟩
    refine Ok_rd (hAp k k0 (by omega)) ?_
    refine Ok_rd (hAp (k + 1) (by omega) (by omega)) ?_
    refine (column_ok hM hAp hAi hE hk htp hW (htk hk) hI).bind ?_
    rintro ⟨p, tp, s⟩ ⟨t', h1, h2, h3, h4, h5⟩
    dsimp only at h1 h2 h3 h4 h5 ⊢
    refine (HZ.next h2 k0 k1 h1).bind fun tp htp => ?_
    rw [Ok_pure]
    exact ⟨t', htp, h3, fun q => h5 _ q (by omega), h4⟩
  rintro ⟨tp, s⟩ ⟨t, htp, hW, -, hI⟩
  dsimp only at htp hW hI ⊢
  rw [Ok_bind]
  refine forI_ok (fun j s => ∃ t', (∀ c, Idx n c → c < j → t' c = jc (c + 1)) ∧
    (∀ c, Idx n c → j ≤ c → t' c = t c) ∧ Wk n jc ir n (jc n) t' ∧ I (Dn n jc ir t') s) hn
    ⟨t, fun c hc q => by have := hc.1; omega, fun _ _ _ => rfl, hW, hI⟩ ?_ ?_
  · rintro j s j0 j1 ⟨t', h1, h2, hW, hI⟩
    have hj : Idx n j := ⟨j0, j1⟩
    refine Ok_rd (htp.rd j0 j1 j1) ?_
    refine Ok_rd (hAp (j + 1) (by omega) (by omega)) ?_
    have hrg := hW.rng j hj
    rw [← h2 j hj (le_refl _)]
    refine forI_ok (fun p s => t' j ≤ p ∧ Wk n jc ir n (jc n) (update t' j p) ∧
      I (Dn n jc ir (update t' j p)) s) hrg.2 ⟨le_refl _, by rw [Function.update_eq_self]; exact hW, by
        rw [Function.update_eq_self]; exact hI⟩ ?_ ?_
    · rintro p s p0 p1 ⟨-, hW, hI⟩
      have hin : InC jc j p := ⟨by omega, p1⟩
      have hps := hM.pos hj hin
      have hri := hM.rows p hps.1 hps.2
      refine Ok_rd (hAi p hps.1 hps.2) ?_
      have hup : update (update t' j p) j (update t' j p j + 1) = update t' j (p + 1) := by
        rw [Function.update_self, Function.update_idem]
      have hfr := hW.fresh hM hj j1 (by rw [Function.update_self]; exact p1)
      have hbp := hW.bump hM hj j1 (by rw [Function.update_self]; exact p1)
        (by rw [Function.update_self]; exact Or.inl hri.2)
      rw [Function.update_self] at hfr
      have hg := hE.go hW.rng hj (by rw [Function.update_self]; exact p1)
        (by rw [Function.update_self]; omega) (by rw [Function.update_self]; exact hfr.2 hri.2) hI
      rw [hup, Function.update_self] at hg
      rw [hup] at hbp
      exact hg.mono fun s hI => ⟨by omega, hbp, hI⟩
    · rintro s ⟨-, hW, hI⟩
      refine ⟨_, fun c hc hlt => ?_, fun c hc hle => ?_, hW, hI⟩
      · by_cases e : c = j
        · rw [e, Function.update_self]
        · rw [Function.update_of_ne e]; exact h1 c hc (by omega)
      · rw [Function.update_of_ne (by omega)]; exact h2 c hc (by omega)
  · rintro s ⟨t', h1, -, hW, hI⟩
    rw [Ok_pure]
    refine ⟨htp.1, hE.ext _ _ _ (fun x y => ?_) hI⟩
    constructor
    · rintro ⟨q1, c, p, q2, q3, q4⟩
      exact ⟨q1, c, p, q2, q3.1, by rw [h1 c q2 q2.2]; exact q3.2, q4⟩
    · exact fun q => q.adj hW.rng

end Ecos.Amd
