import Verif.Lemmas.Amd23

/-!
# AMD: the check of the input
-/
namespace Ecos.Amd

open Function (update)

variable {n : Int} {jc ir : Int → Int} {Ap Ai : Buf Int}

theorem ColInc.lt {c : Int} (h : ColInc jc ir c) {p : Int} : ∀ k : Nat, InC jc c p →
    InC jc c (p + k + 1) → ir p < ir (p + k + 1)
  | 0, h1, h2 => by simpa using h p h1 (by simpa using h2)
  | k + 1, h1, h2 => by
    have hm : InC jc c (p + k + 1) := ⟨by have := h1.1; omega, by have := h2.2; push_cast at this; omega⟩
    have h3 := ColInc.lt h k h1 hm
    have h4 := h _ hm (by simpa [add_assoc] using h2)
    push_cast
    rw [show p + ((k : Int) + 1) + 1 = p + k + 1 + 1 by ring]
    omega

theorem PatOk.mat (hn : 0 ≤ n) (h : PatOk n jc ir) (hs : PatInc n jc ir) : Mat n jc ir := by
  refine ⟨h.1, fun c hc => (h.2 c hc).1, fun p p0 p1 => ?_, fun c hc p q hp hq hlt => ?_⟩
  · -- find the column
    have : ∀ m : Nat, (m : Int) ≤ n → p < jc m → ∃ c, Idx n c ∧ InC jc c p := by
      intro m
      induction m with
      | zero => intro _ q; rw [Nat.cast_zero, h.1] at q; omega
      | succ m ih =>
        intro hm q
        push_cast at hm q
        by_cases r : p < jc m
        · exact ih (by omega) r
        · exact ⟨m, ⟨by omega, by omega⟩, by omega, q⟩
    obtain ⟨c, hc, hp⟩ := this n.toNat (by omega) (by rwa [Int.toNat_of_nonneg hn])
    exact (h.2 c hc).2 p hp
  · have := (hs c hc).lt (p := p) (q - p - 1).toNat hp (by
      rw [show p + ((q - p - 1).toNat : Int) + 1 = q by omega]; exact hq)
    rwa [show p + ((q - p - 1).toNat : Int) + 1 = q by omega] at this

theorem valid_ok (hn : 0 ≤ n) (hAp : ∀ c, 0 ≤ c → c ≤ n → rdI Ap c = .ok (jc c)) {N : Int}
    (hAi : ∀ p, 0 ≤ p → p < N → rdI Ai p = .ok (ir p)) (hN : ∀ c, 0 ≤ c → c ≤ n → jc c ≤ N) :
    Ok (valid n n Ap Ai) (Verdict n jc ir) := by
  unfold valid
  rw [if_neg (by omega)]
  refine Ok_rd (hAp n hn (le_refl _)) ?_
  refine Ok_rd (hAp 0 (le_refl _) hn) ?_
  split
  · rename_i h0
    rw [Ok_pure]
    refine Or.inl ⟨rfl, fun q => ?_⟩
    have := jc_mono (fun c hc => (q.2 c hc).1) (c := 0) n.toNat (le_refl _) (by omega)
    rw [show (0 : Int) + (n.toNat : Int) = n by omega, q.1] at this
    rcases h0 with r | r
    · exact r q.1
    · omega
  · rename_i h0
    push Not at h0
    rw [Ok_bind]
    refine loopE_ok (fun j (res : Status) => (∀ c, 0 ≤ c → c < (j : Int) → ColOk n jc ir c) ∧
      (res = .ok ∧ (∀ c, 0 ≤ c → c < (j : Int) → ColInc jc ir c) ∨
       res = .jumbled ∧ ¬ ∀ c, 0 ≤ c → c < (j : Int) → ColInc jc ir c)) (Nat.zero_le _)
      ⟨fun c q r => by omega, Or.inl ⟨rfl, fun c q r => by omega⟩⟩ ?_ ?_
    · rintro j res - j1 ⟨hc, hres⟩
      have hj : Idx n j := ⟨by omega, by omega⟩
      refine Ok_rd (hAp j hj.1 (by omega)) ?_
      refine Ok_rd (hAp (j + 1) (by omega) (by omega)) ?_
      have j0 : 0 ≤ jc j := by
        have := jc_mono (n := j) (fun c q => (hc c q.1 q.2).1) (c := 0) j (le_refl _) (by omega)
        rw [zero_add, h0.1] at this
        exact this
      split
      · rename_i hgt
        rw [Ok_pure]
        dsimp only
        rw [Ok_pure]
        exact Or.inl ⟨rfl, fun q => by have := (q.2 j hj).1; omega⟩
      · rename_i hle
        have hN' := hN (j + 1) (by omega) (by omega)
        rw [Ok_bind]
        refine loopE_ok (fun k (s : Int × Status) =>
          (∀ p, jc j ≤ p → p < jc j + k → Idx n (ir p)) ∧
          (k = 0 ∧ s.1 = -1 ∨ 0 < k ∧ s.1 = ir (jc j + k - 1)) ∧
          (s.2 = .ok ∧ ((∀ c, 0 ≤ c → c < (j : Int) → ColInc jc ir c) ∧
              ∀ p, jc j ≤ p → p + 1 < jc j + k → ir p < ir (p + 1)) ∨
           s.2 = .jumbled ∧ ¬ ((∀ c, 0 ≤ c → c < (j : Int) → ColInc jc ir c) ∧
              ∀ p, jc j ≤ p → p + 1 < jc j + k → ir p < ir (p + 1)))) (Nat.zero_le _)
          ⟨fun p q r => by omega, Or.inl ⟨rfl, EMPTY_eq⟩, ?_⟩ ?_ ?_
        · rcases hres with ⟨r1, r2⟩ | ⟨r1, r2⟩
          · exact Or.inl ⟨r1, r2, fun p q r => by omega⟩
          · exact Or.inr ⟨r1, fun q => r2 q.1⟩
        · rintro k ⟨last, st⟩ - k1 ⟨g1, g2, g3⟩
          dsimp only at g2 g3 ⊢
          refine Ok_rd (hAi (jc j + k) (by omega) (by omega)) ?_
          split
          · rename_i hbad
            rw [Ok_pure]
            dsimp only
            rw [Ok_pure]
            dsimp only
            rw [Ok_pure]
            refine Or.inl ⟨rfl, fun q => ?_⟩
            have := (q.2 j hj).2 (jc j + k) ⟨by omega, by omega⟩
            omega
          · rename_i hgood
            rw [Ok_pure]
            refine ⟨fun p q r => ?_, Or.inr ⟨by omega, ?_⟩, ?_⟩
            · by_cases e : p = jc j + k
              · rw [e]; exact ⟨by omega, by omega⟩
              · exact g1 p q (by push_cast at r; omega)
            · dsimp only
              congr 1
              push_cast
              omega
            · -- is the new entry greater than the one before it?
              dsimp only
              have step : (∀ p, jc j ≤ p → p + 1 < jc j + ((k + 1 : Nat) : Int) → ir p < ir (p + 1)) ↔
                  (∀ p, jc j ≤ p → p + 1 < jc j + k → ir p < ir (p + 1)) ∧ ¬ ir (jc j + k) ≤ last := by
                push_cast
                rcases g2 with ⟨rfl, e⟩ | ⟨kp, e⟩
                · constructor
                  · intro _
                    exact ⟨fun p q r => by omega, by omega⟩
                  · intro _ p q r
                    push_cast at r
                    omega
                · constructor
                  · intro h
                    refine ⟨fun p q r => h p q (by omega), ?_⟩
                    have := h (jc j + k - 1) (by omega) (by omega)
                    rw [show jc j + (k : Int) - 1 + 1 = jc j + k by ring] at this
                    omega
                  · rintro ⟨h1, h2⟩ p q r
                    by_cases e2 : p + 1 = jc j + k
                    · rw [e2, show p = jc j + k - 1 by omega]
                      omega
                    · exact h1 p q (by omega)
              rw [step]
              by_cases hl : ir (jc j + k) ≤ last
              · rw [if_pos hl]
                exact Or.inr ⟨rfl, fun q => q.2.2 hl⟩
              · rw [if_neg hl]
                rcases g3 with ⟨r1, r2⟩ | ⟨r1, r2⟩
                · exact Or.inl ⟨r1, r2.1, r2.2, hl⟩
                · exact Or.inr ⟨r1, fun q => r2 ⟨q.1, q.2.1⟩⟩
        · rintro ⟨last, st⟩ ⟨g1, g2, g3⟩
          dsimp only at g1 g2 g3 ⊢
          rw [Ok_pure]
          have elen : jc j + ((jc (j + 1) - jc j).toNat : Int) = jc (j + 1) := by omega
          rw [elen] at g1 g3
          have hstep : (∀ c, 0 ≤ c → c < ((j + 1 : Nat) : Int) → ColInc jc ir c) ↔
              (∀ c, 0 ≤ c → c < (j : Int) → ColInc jc ir c) ∧
              ∀ p, jc j ≤ p → p + 1 < jc (j + 1) → ir p < ir (p + 1) := by
            push_cast
            constructor
            · intro h
              exact ⟨fun c q r => h c q (by omega), fun p q r => h j hj.1 (by omega) p
                ⟨q, by omega⟩ ⟨by omega, r⟩⟩
            · rintro ⟨h1, h2⟩ c q r
              by_cases e : c = j
              · subst e
                exact fun p hp hp' => h2 p hp.1 hp'.2
              · exact h1 c q (by omega)
          rw [hstep]
          refine ⟨fun c q r => ?_, g3⟩
          by_cases e : c = j
          · subst e
            exact ⟨by omega, fun p hp => g1 p hp.1 hp.2⟩
          · exact hc c q (by push_cast at r; omega)
    · rintro res ⟨hc, hres⟩
      dsimp only
      rw [Ok_pure]
      have en : (n.toNat : Int) = n := by omega
      rw [en] at hc hres
      refine Or.inr ⟨⟨h0.1, fun c q => hc c q.1 q.2⟩, ?_⟩
      rcases hres with ⟨r1, r2⟩ | ⟨r1, r2⟩
      · exact Or.inl ⟨r1, fun c q => r2 c q.1 q.2⟩
      · exact Or.inr ⟨r1, fun q => r2 fun c q0 q1 => q c ⟨q0, q1⟩⟩

end Ecos.Amd
