import Verif.Lemmas.Amd27

/-!
# AMD (C50 – C53)

`external/amd/src`: the check of the input, its sorting, the graph that is ordered, and the ordering itself. `Ap`, `Ai` are the arrays the
caller passes; `jc`, `ir` are what they hold.
-/
namespace Ecos.Amd

variable {n : Int} {jc ir : Int → Int} {Ap Ai : Buf Int}

/-- the array begins with the values of `f` -/
abbrev Begins (b : Buf Int) (n : Int) (f : Int → Int) : Prop := ∀ i, 0 ≤ i → i < n → rdI b i = .ok (f i)

theorem Begins.le {b : Buf Int} {f : Int → Int} (h : Begins b (n + 1) f) : ∀ c, 0 ≤ c → c ≤ n → rdI b c = .ok (f c) :=
  fun c c0 c1 => h c c0 (by omega)

/-! ### C50: the check -/

/-- **C50** `AMD_valid` recognises the valid patterns, and the sorted ones among them, whatever the arrays hold: the only thing asked of them
is that `Ai` reaches as far as the column pointers say. -/
theorem C50_valid (hn : 0 ≤ n) (hAp : Begins Ap (n + 1) jc) {N : Int} (hAi : Begins Ai N ir) (hN : ∀ c, 0 ≤ c → c ≤ n → jc c ≤ N) :
    Ok (valid n n Ap Ai) (Verdict n jc ir) := valid_ok hn hAp.le hAi hN

/-- **C50, what was accepted has been read** an input that is not rejected consists of readable arrays -/
theorem C50_accepted {st : Status} (hn : 0 ≤ n) (h : valid n n Ap Ai = .ok st) (hst : st ≠ .invalid) :
    ∃ jc ir, Begins Ap (n + 1) jc ∧ Begins Ai (jc n) ir ∧ PatOk n jc ir ∧ (st = .ok ↔ PatInc n jc ir) := by
  obtain ⟨h1, h2, h3⟩ := valid_reads hn h hst
  have h1' : Begins Ap (n + 1) (val Ap) := fun c c0 c1 => h1 c c0 (by omega)
  have hm : ∀ c, 0 ≤ c → c ≤ n → val Ap c ≤ val Ap n := fun c c0 c1 => by
    have := jc_mono (jc := val Ap) (fun c hc => h2 c hc.1 hc.2) (c := c) (n - c).toNat c0 (by omega)
    rwa [show c + ((n - c).toNat : Int) = n by omega] at this
  refine ⟨val Ap, val Ai, h1', h3, ?_⟩
  rcases (C50_valid hn h1' h3 hm).out h with ⟨q, -⟩ | ⟨q, ⟨rfl, q2⟩ | ⟨rfl, q2⟩⟩
  · exact (hst q).elim
  · exact ⟨q, iff_of_true rfl q2⟩
  · exact ⟨q, iff_of_false (by simp) q2⟩

/-- **C50, the condition is needed** the check reads the rows of a column before it has seen the other column pointers: for these arrays, with
the `Ap[n] = 2` row indices that are called for, it reads beyond the end of `Ai` -/
theorem C50_reads_past : valid 2 2 #[some 0, some 5, some 2] #[some 0, some 1] = .error .oob := by
  decide +kernel

-- sorted, not sorted, and invalid in four ways
example : valid 3 3 #[some 0, some 2, some 3, some 5] #[some 0, some 2, some 1, some 0, some 2] = .ok .ok := by decide +kernel
example : valid 3 3 #[some 0, some 2, some 3, some 5] #[some 2, some 0, some 1, some 0, some 2] = .ok .jumbled := by decide +kernel
example : valid 3 3 #[some 0, some 2, some 3, some 5] #[some 0, some 0, some 1, some 0, some 2] = .ok .jumbled := by decide +kernel
example : valid 3 3 #[some 0, some 2, some 3, some 5] #[some 0, some 3, some 1, some 0, some 2] = .ok .invalid := by decide +kernel
example : valid 3 3 #[some 0, some 2, some 1, some 5] #[some 0, some 2, some 1, some 0, some 2] = .ok .invalid := by decide +kernel
example : valid 3 3 #[some 1, some 2, some 3, some 5] #[some 0, some 2, some 1, some 0, some 2] = .ok .invalid := by decide +kernel
example : valid 3 3 #[some 0, some 2, some 3, some (-5)] #[some 0, some 2, some 1, some 0, some 2] = .ok .invalid := by decide +kernel

/-! ### C51: the graph -/

/-- **C51** `AMD_aat` counts, for every node, its neighbours in the graph of `A + A'` (without the diagonal, and every neighbour once), and
returns the number of all of them. -/
theorem C51_aat {len tp : Buf Int} (hn : 0 ≤ n) (hok : PatOk n jc ir) (hinc : PatInc n jc ir) (hAp : Begins Ap (n + 1) jc)
    (hAi : Begins Ai (jc n) ir) (hl : len.size = n.toNat) (ht : tp.size = n.toNat) :
    Ok (aat n Ap Ai len tp) fun r => Cells r.1 n (fun x => (Set.ncard {y | Adj n jc ir x y} : Int)) ∧
      r.2.2 = (Set.ncard {q : Int × Int | Adj n jc ir q.1 q.2} : Int) ∧ r.2.2 ≤ 2 * jc n ∧ jc n - n ≤ r.2.2 := by
  have hM := hok.mat hn hinc
  have hx : ∀ x, dg n (Adj n jc ir) x = (Set.ncard {y | Adj n jc ir x y} : Int) := by
    intro x
    classical
    unfold dg
    rw [← Set.ncard_coe_finset]
    congr 2
    ext y
    simp only [Finset.coe_filter, Finset.mem_Ico, Set.mem_ofPred_eq]
    exact ⟨fun h => h.2, fun h => ⟨(adj_idx hok h).2, h⟩⟩
  refine (aat_ok hM hn hAp.le hAi hl ht).mono ?_
  rintro r ⟨h1, -, h3⟩
  refine ⟨(h1.congr fun x _ _ _ => hx x).cells, ?_, ?_, ?_⟩
  · rw [h3, sum_dg_card]
    classical
    rw [← Set.ncard_coe_finset]
    congr 2
    ext q
    simp only [Finset.coe_filter, Finset.mem_product, Finset.mem_Ico, Set.mem_ofPred_eq]
    exact ⟨fun h => h.2, fun h => ⟨⟨(adj_idx hok h).1, (adj_idx hok h).2⟩, h⟩⟩
  · rw [h3]; exact sum_dg_le hok hn
  · rw [h3]; exact le_sum_dg hok hinc hn

-- a triangle matrix with an entry that is there in both triangles, and a diagonal entry
example : aat 3 #[some 0, some 2, some 3, some 5] #[some 0, some 2, some 1, some 0, some 1] (malloc 3) (malloc 3) =
    .ok (#[some 1, some 1, some 2], #[some 2, some 3, some 5], 4) := by decide +kernel

/-! ### C52: sorting -/

/-- **C52** from every valid input, sorted or not, with or without duplicates, `AMD_preprocess` makes the pattern of the transpose: valid,
sorted, without duplicates, with the same entries -/
theorem C52_preprocess {s : Pre} (hn : 0 ≤ n) (hok : PatOk n jc ir) (hAp : Begins Ap (n + 1) jc) (hAi : Begins Ai (jc n) ir)
    (h1 : s.rp.size = n.toNat + 1) (h2 : s.ri.size = (max (jc n) 1).toNat) (h3 : s.w.size = n.toNat) (h4 : s.flag.size = n.toNat) :
    Ok (preprocess n Ap Ai s) fun s => ∃ rp ri, Begins s.rp (n + 1) rp ∧ Begins s.ri (rp n) ri ∧ PatOk n rp ri ∧ PatInc n rp ri ∧
      ∀ x c, Ent n rp ri c x ↔ Ent n jc ir x c := by
  refine (preprocess_ok hn hok hAp.le hAi h1 h2 h3 h4).mono ?_
  rintro s ⟨rp, ri, hT, h5, h6, -, -⟩
  refine ⟨rp, ri, fun c c0 c1 => h5 c c0 (by omega), h6, hT.mat.patOk.1, hT.mat.patOk.2, fun x c => ?_⟩
  constructor
  · intro q; exact (hT.ent x c q.1).1 q
  · intro q; exact (hT.ent x c (hok.ent q).1).2 q

-- column 0 is unsorted and has a duplicate
example : (preprocess 3 #[some 0, some 3, some 4, some 5] #[some 2, some 0, some 2, some 1, some 0]
      ⟨malloc 4, malloc 5, malloc 3, malloc 3⟩).map (fun s => (s.rp, s.ri)) =
    .ok (#[some 0, some 2, some 3, some 4], #[some 0, some 2, some 1, some 0, none]) := by decide +kernel

/-! ### C53: the ordering -/

/-- **C53** `AMD_order`, for all arrays that reach as far as the column pointers say: no undefined behaviour, no endless loop; an invalid
pattern is rejected; otherwise, unless the workspace would be too large for the integer type, `P` is a permutation, and the status says
whether the input was sorted. -/
theorem C53_order {P : Buf Int} {dense0 imax : Int} (hn : 0 < n) (hAp : Begins Ap (n + 1) jc) {N : Int} (hAi : Begins Ai N ir)
    (hN : ∀ c, 0 ≤ c → c ≤ n → jc c ≤ N) (hP : P.size = n.toNat) :
    Ok (order dense0 imax n Ap Ai P) fun r =>
      (r.1 = .invalid ↔ ¬ PatOk n jc ir) ∧ (r.1 = .outOfMemory ↔ PatOk n jc ir ∧ imax ≤ need n jc ir) ∧
      (r.1 = .ok → PatInc n jc ir) ∧ (r.1 = .jumbled → ¬ PatInc n jc ir) ∧
      (r.1 = .ok ∨ r.1 = .jumbled → ∃ p, Cells r.2 n p ∧ PermI n p) := by
  refine (order_ok hn.le hAp.le hAi hN hP).mono ?_
  rintro ⟨st, P'⟩ h
  dsimp only at h ⊢
  rcases h with ⟨-, h1, rfl⟩ | ⟨-, h1, h2, rfl⟩ | ⟨h1, h2, h3⟩
  · exact ⟨iff_of_true rfl h1, iff_of_false (by simp) fun q => h1 q.1, by simp, by simp, by simp⟩
  · exact ⟨iff_of_false (by simp) fun q => q h1, iff_of_true rfl ⟨h1, h2⟩, by simp, by simp, by simp⟩
  · rcases h2 with ⟨h0, -⟩ | ⟨-, h4, h5⟩
    · omega
    · have hok : PatOk n jc ir := h1.resolve_left (by omega)
      rcases h5 with ⟨-, h6⟩ | ⟨-, ⟨rfl, h6⟩ | ⟨rfl, h6⟩⟩
      · exact (h6 hok).elim
      · exact ⟨iff_of_false (by simp) fun q => q hok, iff_of_false (by simp) fun q => by omega, fun _ => h6, by simp, fun _ => h3⟩
      · exact ⟨iff_of_false (by simp) fun q => q hok, iff_of_false (by simp) fun q => by omega, by simp, fun _ => h6, fun _ => h3⟩

/-- **C53, the workspace** `AMD_order` succeeds on every valid pattern with `12 / 5 * Ap[n] + 7 * n < Int_MAX` -/
theorem C53_workspace (h : PatOk n jc ir) (hn : 0 ≤ n) {imax : Int} (hb : 2 * jc n + 2 * jc n / 5 + 7 * n < imax) :
    need n jc ir < imax := lt_of_le_of_lt (need_le h hn) hb

/-- **C53, whatever it is given** when the answer is `AMD_OK` or `AMD_OK_BUT_JUMBLED`, `P` is a permutation, even if nothing is known about
the arrays -/
theorem C53_sound {P P' : Buf Int} {st : Status} {dense0 imax : Int} (hn : 0 ≤ n) (hP : P.size = n.toNat)
    (h : order dense0 imax n Ap Ai P = .ok (st, P')) (hst : st = .ok ∨ st = .jumbled) : ∃ p, Cells P' n p ∧ PermI n p :=
  order_sound hn hP h hst

-- an arrow matrix with the dense row first: it is ordered last
example : order 20 1000 5 #[some 0, some 5, some 6, some 7, some 8, some 9]
      #[some 0, some 1, some 2, some 3, some 4, some 1, some 2, some 3, some 4] (malloc 5) =
    .ok (.ok, #[some 4, some 3, some 2, some 1, some 0]) := by decide +kernel
-- the same, not sorted
example : order 20 1000 5 #[some 0, some 5, some 6, some 7, some 8, some 9]
      #[some 4, some 1, some 2, some 3, some 0, some 1, some 2, some 3, some 4] (malloc 5) =
    .ok (.jumbled, #[some 4, some 3, some 2, some 1, some 0]) := by decide +kernel
-- and with an integer type that is too small
example : (order 20 40 5 #[some 0, some 5, some 6, some 7, some 8, some 9]
      #[some 0, some 1, some 2, some 3, some 4, some 1, some 2, some 3, some 4] (malloc 5)).map Prod.fst = .ok .outOfMemory := by
  decide +kernel

end Ecos.Amd
