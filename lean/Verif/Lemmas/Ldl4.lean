import Verif.Lemmas.Ldl3

/-!
# The numeric factorisation, for any arithmetic: elimination of a row and the whole routine
-/
namespace Ecos.Fact

open Ecos

set_option linter.unusedSectionVars false

/-! ### Columns of the factor -/

section rows
variable {V : Nat → Nat → Prop}

theorem rows_nodup (k i : Nat) : (rows V k i).Nodup := by
  unfold rows
  exact List.Nodup.filter _ List.nodup_range

theorem rows_prefix {k n : Nat} (h : k ≤ n) (i : Nat) : rows V k i <+: rows V n i := by
  induction h with
  | refl => exact List.prefix_refl _
  | @step m _ ih =>
    by_cases hV : V m i
    · rw [rows_succ_pos hV]
      exact ih.trans (List.prefix_append _ _)
    · rw [rows_succ_neg hV]
      exact ih

theorem rows_get {k n : Nat} (h : k ≤ n) {i t : Nat} (ht : t < (rows V k i).length) :
    (rows V n i)[t]? = (rows V k i)[t]? := by
  obtain ⟨s, hs⟩ := rows_prefix (V := V) h i
  rw [← hs, List.getElem?_append_left ht]

theorem rows_new {k n : Nat} (h : k < n) {i : Nat} (hV : V k i) :
    (rows V k i).length < (rows V n i).length ∧ (rows V n i)[(rows V k i).length]? = some k := by
  have h1 : (rows V (k + 1) i).length = (rows V k i).length + 1 := by rw [rows_succ_pos hV]; simp
  have h2 := (rows_prefix (V := V) (by omega : k + 1 ≤ n) i).length_le
  refine ⟨by omega, ?_⟩
  rw [rows_get (by omega : k + 1 ≤ n) (by omega), rows_succ_pos hV]
  simp

theorem lpOf_mono {n i j : Nat} (h : i ≤ j) : lpOf V n i ≤ lpOf V n j := by
  induction h with
  | refl => exact Nat.le_refl _
  | step _ ih => exact Nat.le_trans ih (Nat.le_add_right _ _)

theorem lpOf_disj {n i j : Nat} (h : i < j) : lpOf V n i + (rows V n i).length ≤ lpOf V n j :=
  lpOf_mono (V := V) (n := n) (i := i + 1) h

end rows

section generic
variable {F : Type} [Zero F] [One F] [Add F] [Sub F] [Mul F] [Div F] [Neg F] [OfScientific F]
  [IntCast F] [PFloat F]

/-- column `i` of the factor has `len i` entries so far: rows in increasing order, with the values
of `lf` -/
def Store (n : Nat) (V : Nat → Nat → Prop) (li : Buf Nat) (lx : Buf F) (len : Nat → Nat)
    (lf : Nat → Nat → F) : Prop :=
  lpOf V n n ≤ li.size ∧ lpOf V n n ≤ lx.size ∧ ∀ i, i < n → len i ≤ (rows V n i).length ∧
    ∀ t, t < len i → li[lpOf V n i + t]? = some ((rows V n i)[t]?) ∧
      lx[lpOf V n i + t]? = some (((rows V n i)[t]?).map fun r => lf r i)

theorem Store.congr {n : Nat} {V : Nat → Nat → Prop} {li : Buf Nat} {lx : Buf F} {len len' : Nat → Nat}
    {lf lf' : Nat → Nat → F} (h : Store n V li lx len lf) (h1 : ∀ i, i < n → len' i = len i)
    (h2 : ∀ i t r, i < n → t < len i → (rows V n i)[t]? = some r → lf r i = lf' r i) :
    Store n V li lx len' lf' := by
  obtain ⟨a, b, c⟩ := h
  refine ⟨a, b, fun i hi => ?_⟩
  obtain ⟨c1, c2⟩ := c i hi
  rw [h1 i hi]
  refine ⟨c1, fun t ht => ⟨(c2 t ht).1, ?_⟩⟩
  rw [(c2 t ht).2]
  cases hr : (rows V n i)[t]? with
  | none => rfl
  | some r => simp [h2 i t r hi ht hr]

/-- a new entry at the end of column `i` -/
theorem Store.push {n : Nat} {V : Nat → Nat → Prop} {li : Buf Nat} {lx : Buf F} {len : Nat → Nat}
    {lf : Nat → Nat → F} (h : Store n V li lx len lf) {i k : Nat} (hi : i < n)
    (hlen : len i < (rows V n i).length) (hk : (rows V n i)[len i]? = some k) :
    Ok (wr li (lpOf V n i + len i) k) fun li' => Ok (wr lx (lpOf V n i + len i) (lf k i)) fun lx' =>
      Store n V li' lx' (upd len i (len i + 1)) lf := by
  obtain ⟨a, b, c⟩ := h
  have hd := lpOf_disj (V := V) (n := n) hi
  have hw1 := wr_eq (b := li) (i := lpOf V n i + len i) (v := k) (by omega)
  have hw2 := wr_eq (b := lx) (i := lpOf V n i + len i) (v := lf k i) (by omega)
  rw [hw1, Ok_ok, hw2, Ok_ok]
  refine ⟨by simpa using a, by simpa using b, fun j hj => ?_⟩
  obtain ⟨c1, c2⟩ := c j hj
  by_cases hji : j = i
  · subst hji
    rw [upd_self]
    refine ⟨by omega, fun t ht => ?_⟩
    by_cases e : t = len j
    · subst e
      rw [wr_self hw1, wr_self hw2, hk]
      exact ⟨rfl, rfl⟩
    · rw [wr_ne hw1 (by omega), wr_ne hw2 (by omega)]
      exact c2 t (by omega)
  · rw [upd_ne _ _ hji]
    refine ⟨c1, fun t ht => ?_⟩
    have hne : lpOf V n j + t ≠ lpOf V n i + len i := by
      rcases Nat.lt_or_gt_of_ne hji with h | h
      · have := lpOf_disj (V := V) (n := n) h
        omega
      · have := lpOf_disj (V := V) (n := n) h
        omega
    rw [wr_ne hw1 hne, wr_ne hw2 hne]
    exact c2 t ht

open Classical in
/-- `a - Σ_j lf i j * u j` over the nodes `j` of the list with an entry in row `i`, in order -/
noncomputable def red (V : Nat → Nat → Prop) (lf : Nat → Nat → F) (u : Nat → F) (a : F) (i : Nat) (d : List Nat) : F :=
  d.foldl (fun acc j => if V i j then acc - lf i j * u j else acc) a

theorem red_snoc_pos {V : Nat → Nat → Prop} {lf : Nat → Nat → F} {u : Nat → F} {a : F} {i j : Nat} {d : List Nat}
    (h : V i j) : red V lf u a i (d ++ [j]) = red V lf u a i d - lf i j * u j := by
  simp [red, h]

theorem red_snoc_neg {V : Nat → Nat → Prop} {lf : Nat → Nat → F} {u : Nat → F} {a : F} {i j : Nat} {d : List Nat}
    (h : ¬ V i j) : red V lf u a i (d ++ [j]) = red V lf u a i d := by
  simp [red, h]

theorem red_congr {V : Nat → Nat → Prop} {lf lf' : Nat → Nat → F} {u u' : Nat → F} {a : F} {i : Nat} {d : List Nat}
    (h : ∀ j ∈ d, u j = u' j) (h' : ∀ j ∈ d, lf i j = lf' i j) : red V lf u a i d = red V lf' u' a i d := by
  induction d using List.reverseRecOn with
  | nil => rfl
  | append_singleton d j ih =>
    have e := ih (fun j hj => h j (List.mem_append_left _ hj)) (fun j hj => h' j (List.mem_append_left _ hj))
    by_cases hV : V i j
    · rw [red_snoc_pos hV, red_snoc_pos hV, e, h j (by simp), h' j (by simp)]
    · rw [red_snoc_neg hV, red_snoc_neg hV, e]

/-- `a - Σ_i lf i * u i` over the list, in order -/
def piv (lf u : Nat → F) (a : F) (d : List Nat) : F := d.foldl (fun acc i => acc - lf i * u i) a

theorem piv_snoc {lf u : Nat → F} {a : F} {i : Nat} {d : List Nat} :
    piv lf u a (d ++ [i]) = piv lf u a d - lf i * u i := by simp [piv]

theorem piv_congr {lf lf' u u' : Nat → F} {a : F} {d : List Nat} (h : ∀ j ∈ d, u j = u' j)
    (h' : ∀ j ∈ d, lf j = lf' j) : piv lf u a d = piv lf' u' a d := by
  induction d using List.reverseRecOn with
  | nil => rfl
  | append_singleton d j ih =>
    rw [piv_snoc, piv_snoc, h j (by simp), h' j (by simp),
      ih (fun j hj => h j (List.mem_append_left _ hj)) (fun j hj => h' j (List.mem_append_left _ hj))]

open Classical in
/-- subtraction of a multiple of column `i` -/
theorem elimCol_ok {n k i : Nat} {V : Nat → Nat → Prop} {li : Buf Nat} {lx y : Buf F} {len : Nat → Nat}
    {lf : Nat → Nat → F} {yf : Nat → F} {yi : F} (hS : Store n V li lx len lf) (hk : k < n) (hi : i < n)
    (hlen : len i = (rows V k i).length) (hy : HoldsOn y n (· ≤ k) yf) :
    Ok (loop (lpOf V n i) (lpOf V n i + len i) y fun p y => do
      let r ← rd li p
      let yv ← rd y r
      let l ← rd lx p
      wr y r (yv - l * yi)) fun y' =>
      HoldsOn y' n (· ≤ k) (fun r => if r < k ∧ V r i then yf r - lf r i * yi else yf r) := by
  obtain ⟨-, -, c⟩ := hS
  obtain ⟨c1, c2⟩ := c i hi
  refine loop_ok (I := fun p y => HoldsOn y n (· ≤ k)
      (fun r => if r ∈ (rows V k i).take (p - lpOf V n i) then yf r - lf r i * yi else yf r)) (by omega) ?_ ?_ ?_
  · simpa using hy
  · intro p y' h1 h2 hy'
    obtain ⟨t, rfl⟩ : ∃ t, p = lpOf V n i + t := ⟨p - lpOf V n i, by omega⟩
    have ht : t < len i := by omega
    have ht' : t < (rows V k i).length := by omega
    obtain ⟨g1, g2⟩ := c2 t ht
    rw [rows_get (by omega : k ≤ n) ht'] at g1 g2
    have hg : (rows V k i)[t]? = some ((rows V k i)[t]'ht') := by simp
    generalize hr : (rows V k i)[t]'ht' = r at hg
    rw [hg] at g1 g2
    have hrk : r < k := by
      have : r ∈ rows V k i := by rw [← hr]; exact List.getElem_mem _
      exact (mem_rows.1 this).1
    have hnot : r ∉ (rows V k i).take t := by
      intro hm
      have h3 : ((rows V k i).take (t + 1)).Nodup := (rows_nodup k i).sublist (List.take_sublist _ _)
      rw [List.take_add_one, hg] at h3
      simp only [Option.toList_some] at h3
      have := List.disjoint_of_nodup_append h3 hm
      simp at this
    have e1 : rd li (lpOf V n i + t) = .ok r := by rw [rd_ok_iff, g1]
    have e2 : rd lx (lpOf V n i + t) = .ok (lf r i) := by rw [rd_ok_iff, g2]; rfl
    rw [e1, ok_bind_eq, hy'.rd (by omega) (by omega), ok_bind_eq, e2, ok_bind_eq]
    rw [Nat.add_sub_cancel_left] at hy' ⊢
    rw [if_neg hnot]
    refine (hy'.wr (by omega : r < n) _).mono fun y2 hy2 => hy2.congr fun v _ hv => ⟨Or.inl hv, ?_⟩
    rw [show lpOf V n i + t + 1 - lpOf V n i = t + 1 by omega, List.take_add_one, hg]
    simp only [Option.toList_some, List.mem_append, List.mem_singleton]
    by_cases hvr : v = r
    · subst hvr; rw [upd_self, if_pos (Or.inr rfl)]
    · rw [upd_ne _ _ hvr]
      simp only [hvr, or_false]
  · intro y' hy'
    rw [Nat.add_sub_cancel_left, hlen, List.take_length] at hy'
    simpa only [mem_rows] using hy'

open Classical in
/-- state while row `k` is eliminated; the nodes `dn` are done -/
structure Elim (n k : Nat) (V : Nat → Nat → Prop) (a : Nat → F) (lf : Nat → Nat → F) (df : Nat → F) (top : Nat)
    (ord dn : List Nat) (u : Nat → F) (S : Num F) : Prop where
  ueq : ∀ d i t, dn = d ++ i :: t → u i = red V lf u (a i) i d
  y : HoldsOn S.y n (· ≤ k) (fun v => if v = k ∨ v ∈ dn then 0 else red V lf u (a v) v dn)
  d : HoldsOn S.d n (· ≤ k) (upd df k (piv (fun i => u i / df i) u (a k) dn))
  st : Store n V S.li S.lx (fun v => (rows V k v).length + if v ∈ dn then 1 else 0)
    (fun r c => if r = k then u c / df c else lf r c)
  lnz : HoldsOn S.lnz n (· ≤ k) (fun v => (rows V k v).length + if v ∈ dn then 1 else 0)
  pat : Stack n S.pattern top ord

theorem numElim_ok {n k top : Nat} {ap ai q : Nat → Nat} {Lp : Buf Nat} (hT : Tree n n ap ai q)
    (hLp : Holds Lp (n + 1) (lpOf (Row ap ai q) n)) (hk : k < n) {ord dn rest : List Nat} {i : Nat}
    (hord : ord = dn ++ i :: rest) (htopo : Topo q k ord) (hmem : ∀ v, v ∈ ord ↔ Row ap ai q k v)
    {a : Nat → F} {lf : Nat → Nat → F} {df u : Nat → F} {S : Num F}
    (hE : Elim n k (Row ap ai q) a lf df top ord dn u S) :
    Ok (numElim Lp k (top + dn.length) S) fun S' => S'.flag = S.flag ∧ ∃ u',
      Elim n k (Row ap ai q) a lf df top ord (dn ++ [i]) u' S' := by
  classical
  obtain ⟨ueq, hy, hd, hst, hlnz, hpat⟩ := hE
  generalize hV : Row ap ai q = V at *
  have hiord : i ∈ ord := by rw [hord]; simp
  have hik : i < k := htopo.lt hiord
  have hVki : V k i := (hmem i).1 hiord
  have hnd := htopo.nodup
  have hidn : i ∉ dn := by
    rw [hord] at hnd
    exact fun h => List.disjoint_of_nodup_append hnd h (by simp)
  unfold numElim
  have hrp : rd S.pattern (top + dn.length) = .ok i := by
    rw [rd_ok_iff, hpat.2.2 dn.length (by rw [hord]; simp), hord]
    simp
  rw [hrp, ok_bind_eq, hy.rd (by omega) (by omega), ok_bind_eq]
  simp only [show ¬ (i = k ∨ i ∈ dn) from fun h => h.elim (by omega) hidn, if_false]
  generalize hyi : red V lf u (a i) i dn = yi
  refine Ok.bind (hy.wr (by omega : i < n) 0) fun y1 hy1 => ?_
  have hy1' := hy1.congr (Q := (· ≤ k)) (g := _) fun v _ hv => ⟨Or.inl hv, rfl⟩
  rw [hLp.rd (by omega), ok_bind_eq, hlnz.rd (by omega) (by omega), ok_bind_eq]
  simp only [hidn, if_false, Nat.add_zero]
  have hlen : (fun v => (rows V k v).length + if v ∈ dn then 1 else 0) i = (rows V k i).length := by simp [hidn]
  have hcol := elimCol_ok (yi := yi) hst hk (by omega : i < n) hlen hy1'
  simp only [hlen] at hcol
  refine Ok.bind hcol fun y2 hy2 => ?_
  rw [hd.rd (by omega) (by omega), ok_bind_eq, upd_ne _ _ (by omega), hd.rd (by omega) (by omega), ok_bind_eq, upd_self]
  refine Ok.bind (hd.wr (by omega : k < n) _) fun d2 hd2 => ?_
  -- the new values
  have hnewst : Store n V S.li S.lx (fun v => (rows V k v).length + if v ∈ dn then 1 else 0)
      (fun r c => if r = k then upd u i yi c / df c else lf r c) := by
    refine hst.congr (fun _ _ => rfl) fun c t r hc ht hr => ?_
    by_cases hci : c = i
    · subst hci
      rw [if_neg hidn, Nat.add_zero] at ht
      rw [rows_get (by omega : k ≤ n) ht] at hr
      have : r ∈ rows V k c := List.mem_of_getElem? hr
      have := (mem_rows.1 this).1
      rw [if_neg (by omega), if_neg (by omega)]
    · rw [upd_ne _ _ hci]
  obtain ⟨hn1, hn2⟩ := rows_new hk hVki
  have hpush := hnewst.push (i := i) (k := k) (by omega) (by simpa [hidn] using hn1) (by simpa [hidn] using hn2)
  simp only [hlen, if_true, upd_self] at hpush
  refine Ok.bind hpush fun li' hli' => ?_
  refine Ok.bind hli' fun lx' hlx' => ?_
  refine Ok.bind (hlnz.wr (by omega : i < n) _) fun lz hlz => ?_
  rw [Ok_pure]
  have hu : ∀ j ∈ dn, u j = upd u i yi j := fun j hj =>
    (upd_ne _ _ (fun e : j = i => hidn (e ▸ hj))).symm
  have hred : ∀ (x : F) (v : Nat), red V lf u x v dn = red V lf (upd u i yi) x v dn := fun x v =>
    red_congr hu fun _ _ => rfl
  refine ⟨rfl, upd u i yi, ?_, ?_, ?_, ?_, ?_, hpat⟩
  · intro d j t hdt
    rcases List.eq_nil_or_concat t with rfl | ⟨t', x, rfl⟩
    · have := List.append_inj' hdt rfl
      obtain ⟨rfl, h2⟩ := this
      simp only [List.cons.injEq, and_true] at h2
      subst h2
      rw [upd_self, ← hred, hyi]
    · rw [List.concat_eq_append, ← List.cons_append, ← List.append_assoc] at hdt
      have := List.append_inj' hdt rfl
      obtain ⟨h1, -⟩ := this
      have hj : j ∈ dn := by rw [h1]; simp
      rw [← hu j hj, ueq d j t' h1]
      exact red_congr (fun j' hj' => hu j' (by rw [h1]; simp [hj'])) fun _ _ => rfl
  · refine hy2.congr fun v _ hv => ⟨hv, ?_⟩
    by_cases hvk : v = k
    · subst hvk
      rw [if_neg (by omega), upd_ne _ _ (by omega), if_pos (Or.inl rfl), if_pos (Or.inl rfl)]
    by_cases hvi : v = i
    · subst hvi
      have : ¬ V v v := by
        intro h
        rw [← hV] at h
        exact absurd h.1 (by omega)
      rw [if_neg (fun h => this h.2), upd_self, if_pos (Or.inr (by simp))]
    rw [upd_ne _ _ hvi]
    by_cases hvd : v ∈ dn
    · have hno : ¬ V v i := by
        intro h
        rw [← hV] at h
        obtain ⟨hlt, p, p1, p2, p3⟩ := h
        obtain ⟨d1, t1, hdt⟩ := List.append_of_mem hvd
        have hreach : Reach q i v := p3.linear hT.inc (hT.col v (by omega) p p1 p2) (by omega)
        have hord' : ord = d1 ++ v :: (t1 ++ i :: rest) := by rw [hord, hdt]; simp
        have := (hord' ▸ htopo).before hT.inc (j := i) (hord' ▸ hiord) hreach (by omega)
        exact hidn (by rw [hdt]; simp [this])
      rw [if_neg (fun h => hno h.2), if_pos (Or.inr hvd), if_pos (Or.inr (by simp [hvd]))]
    · have h1 : ¬ (v = k ∨ v ∈ dn) := by rintro (h | h) <;> contradiction
      have h2 : ¬ (v = k ∨ v ∈ dn ++ [i]) := by
        rintro (h | h)
        · exact hvk h
        · simp [hvd, hvi] at h
      rw [if_neg h1, if_neg h2]
      by_cases hVv : V v i
      · rw [if_pos ⟨by omega, hVv⟩, red_snoc_pos hVv, if_neg (by omega), upd_self, hred]
      · rw [if_neg (fun h => hVv h.2), red_snoc_neg hVv, hred]
  · refine hd2.congr fun v _ hv => ⟨Or.inl hv, ?_⟩
    by_cases hvk : v = k
    · subst hvk
      rw [upd_self, upd_self, piv_snoc, upd_self,
        piv_congr (lf' := fun j => upd u i yi j / df j) (u' := upd u i yi) hu (fun j hj => by rw [hu j hj])]
    · rw [upd_ne _ _ hvk, upd_ne _ _ hvk, upd_ne _ _ hvk]
  · refine hlx'.congr (fun v _ => ?_) fun _ _ _ _ _ _ => rfl
    by_cases hvi : v = i
    · subst hvi; rw [upd_self]; simp
    · rw [upd_ne _ _ hvi]; simp [hvi]
  · refine hlz.congr fun v _ hv => ⟨Or.inl hv, ?_⟩
    by_cases hvi : v = i
    · subst hvi; rw [upd_self]; simp
    · rw [upd_ne _ _ hvi]; simp [hvi]

/-- Row `r` of the factor: the entries `lf r`, the pivot `df r`.  `u` are the intermediate values,
computed in the order `ord`. -/
def RowEq (V : Nat → Nat → Prop) (q : Nat → Nat) (a : Nat → Nat → F) (sg : Nat → Int) (eps delta : F)
    (lf : Nat → Nat → F) (df : Nat → F) (r : Nat) : Prop :=
  ∃ (ord : List Nat) (u : Nat → F), Topo q r ord ∧ (∀ v, v ∈ ord ↔ V r v) ∧
    (∀ d i t, ord = d ++ i :: t → u i = red V lf u (a r i) i d) ∧ (∀ i ∈ ord, lf r i = u i / df i) ∧
    df r = dynReg (sg r) eps delta (piv (lf r) u (a r r) ord)

theorem RowEq.congr {V : Nat → Nat → Prop} {q : Nat → Nat} {a : Nat → Nat → F} {sg : Nat → Int} {eps delta : F}
    {lf lf' : Nat → Nat → F} {df df' : Nat → F} {r : Nat} (h : RowEq V q a sg eps delta lf df r)
    (h1 : ∀ i, i ≤ r → lf i = lf' i) (h2 : ∀ i, i ≤ r → df i = df' i) : RowEq V q a sg eps delta lf' df' r := by
  obtain ⟨ord, u, g1, g2, g3, g4, g5⟩ := h
  refine ⟨ord, u, g1, g2, fun d i t e => ?_, fun i hi => ?_, ?_⟩
  · have hi : i < r := g1.lt (by rw [e]; simp)
    rw [g3 d i t e]
    exact red_congr (fun _ _ => rfl) fun j _ => by rw [h1 i (by omega)]
  · have := g1.lt hi
    rw [← h1 r (Nat.le_refl _), ← h2 i (by omega)]
    exact g4 i hi
  · rw [← h1 r (Nat.le_refl _), ← h2 r (Nat.le_refl _)]
    exact g5

/-- what is known after the rows before `k` -/
structure NumInv (n : Nat) (ap ai q : Nat → Nat) (ax : Nat → F) (sg : Nat → Int) (eps delta : F) (k : Nat)
    (lf : Nat → Nat → F) (df : Nat → F) (S : Num F) : Prop where
  lnz : HoldsOn S.lnz n (· < k) (fun v => (rows (Row ap ai q) k v).length)
  st : Store n (Row ap ai q) S.li S.lx (fun v => (rows (Row ap ai q) k v).length) lf
  d : HoldsOn S.d n (· < k) df
  y : HoldsOn S.y n (· < k) (fun _ => (0 : F))
  pat : S.pattern.size = n
  flag : ∃ f : Nat → Nat, HoldsOn S.flag n (· < k) f ∧ ∀ v, v < k → f v < k
  row : ∀ r, r < k → RowEq (Row ap ai q) q (ent ap ai ax) sg eps delta lf df r

theorem numStep_ok {n k : Nat} {ap ai q : Nat → Nat} {ax : Nat → F} {Ap Ai Lp : Buf Nat} {Ax : Buf F}
    {parent sign : Buf Int} {sg : Nat → Int} {eps delta : F} (hU : UpperPat n ap ai) (hT : Tree n n ap ai q)
    (hAp : Holds Ap (n + 1) ap) (hAi : Has' Ai (ap n) ai) (hAx : Has' Ax (ap n) ax)
    (hLp : Holds Lp (n + 1) (lpOf (Row ap ai q) n)) (hpar : Holds parent n (fun v => enc n (q v)))
    (hsg : Has' sign n sg) (hk : k < n) {lf : Nat → Nat → F} {df : Nat → F} {S : Num F}
    (hS : NumInv n ap ai q ax sg eps delta k lf df S) :
    Ok (numStep n Ap Ai Ax Lp parent sign eps delta k S) fun S' => ∃ lf' df',
      NumInv n ap ai q ax sg eps delta (k + 1) lf' df' S' := by
  classical
  obtain ⟨hlnz, hst, hd, hy, hpat, ⟨f, hf, hfk⟩, hrow⟩ := hS
  unfold numStep
  refine Ok.bind (numScatter_ok hU hT hAp hAi hAx hpar hk hy hlnz hpat hf hfk) ?_
  rintro ⟨top, S1⟩ ⟨ord, f', h1, h2, h3, h4, h5, h6, h7, h8, h9, h10⟩
  simp only at h3 h4 h5 h6 h8 h9 h10
  have hVk : ∀ r, r ≤ k → ¬ Row ap ai q r k := fun r hr h => by
    have := h.1
    omega
  rw [h4.rd (by omega) (Nat.le_refl _), ok_bind_eq]
  refine Ok.bind (P := fun d' => HoldsOn d' n (· ≤ k) (upd df k (ent ap ai ax k k))) ?_ fun d1 hd1 => ?_
  · rw [h10]
    refine (hd.wr hk _).mono fun d' hd' => hd'.congr fun v _ hv => ⟨?_, rfl⟩
    by_cases h : v = k
    · exact Or.inr h
    · exact Or.inl (by omega)
  refine Ok.bind (h4.wr hk 0) fun y1 hy1 => ?_
  have hlen : top + ord.length = n := h3.2.1
  refine Ok.bind (P := fun S' : Num F => S'.flag = S1.flag ∧ ∃ u,
      Elim n k (Row ap ai q) (ent ap ai ax k) lf df top ord ord u S') (loop_ok
    (I := fun t (S' : Num F) => S'.flag = S1.flag ∧ ∃ u dn rest, ord = dn ++ rest ∧ t = top + dn.length ∧
      Elim n k (Row ap ai q) (ent ap ai ax k) lf df top ord dn u S') (by omega) ?_ ?_ ?_) ?_
  · refine ⟨rfl, fun _ => 0, [], ord, rfl, rfl, ?_, ?_, hd1, ?_, ?_, h3⟩
    · intro d i t e
      simp at e
    · refine hy1.congr fun v _ hv => ⟨Or.inl hv, ?_⟩
      by_cases h : v = k
      · subst h; rw [upd_self]; simp
      · rw [upd_ne _ _ h]; simp [h, red]
    · rw [h8, h9]
      refine hst.congr (fun v _ => by simp) fun i t r hi ht hr => ?_
      rw [rows_get (by omega : k ≤ n) ht] at hr
      have := (mem_rows.1 (List.mem_of_getElem? hr)).1
      rw [if_neg (by omega)]
    · refine h5.congr fun v _ hv => ⟨hv, ?_⟩
      by_cases h : v = k
      · subst h
        rw [upd_self, rows_nil fun r hr => hVk r (by omega)]
        simp
      · rw [upd_ne _ _ h]; simp
  · rintro t S' ht1 ht2 ⟨e0, u, dn, rest, e1, e2, e3⟩
    cases rest with
    | nil =>
      rw [List.append_nil] at e1
      rw [e1] at hlen
      omega
    | cons i rest =>
      subst e2
      refine (numElim_ok hT hLp hk e1 h1 h2 e3).mono ?_
      rintro S2 ⟨g0, u', g1⟩
      exact ⟨by rw [g0, e0], u', dn ++ [i], rest, by rw [e1]; simp, by simp; omega, g1⟩
  · rintro S' ⟨e0, u, dn, rest, e1, e2, e3⟩
    have : rest = [] := by
      have h : ord.length = dn.length + rest.length := by rw [e1]; simp
      exact List.eq_nil_of_length_eq_zero (by omega)
    subst this
    rw [List.append_nil] at e1
    subst e1
    exact ⟨e0, u, e3⟩
  · rintro S2 ⟨e0, u, e1, e2, e3, e4, e5, e6⟩
    rw [hsg.rd hk, ok_bind_eq, e3.rd hk (Nat.le_refl _), ok_bind_eq, upd_self]
    refine Ok.bind (e3.wr hk _) fun d2 hd2 => ?_
    rw [Ok_pure]
    have hcnt : ∀ v, (rows (Row ap ai q) k v).length + (if v ∈ ord then 1 else 0) =
        (rows (Row ap ai q) (k + 1) v).length := fun v => by
      by_cases h : v ∈ ord
      · rw [if_pos h, rows_succ_pos ((h2 v).1 h)]; simp
      · rw [if_neg h, rows_succ_neg fun e => h ((h2 v).2 e)]; simp
    refine ⟨fun r c => if r = k then u c / df c else lf r c,
      upd df k (dynReg (sg k) eps delta (piv (fun i => u i / df i) u (ent ap ai ax k k) ord)), ?_, ?_, ?_, ?_, e6.1, ?_, ?_⟩
    · exact e5.congr fun v _ hv => ⟨Nat.lt_succ_iff.1 hv, hcnt v⟩
    · exact e4.congr (fun v _ => (hcnt v).symm) fun _ _ _ _ _ _ => rfl
    · refine hd2.congr fun v _ hv => ⟨Or.inl (Nat.lt_succ_iff.1 hv), ?_⟩
      by_cases h : v = k
      · subst h; rw [upd_self, upd_self]
      · rw [upd_ne _ _ h, upd_ne _ _ h, upd_ne _ _ h]
    · refine e2.congr fun v _ hv => ⟨Nat.lt_succ_iff.1 hv, ?_⟩
      by_cases h : v = k ∨ v ∈ ord
      · rw [if_pos h]
      · rw [if_neg h]
        have hv' : v < k := by
          rcases Nat.lt_or_eq_of_le (Nat.lt_succ_iff.1 hv) with h' | h'
          · exact h'
          · exact absurd (Or.inl h') h
        have hno : ¬ Row ap ai q k v := fun e => h (Or.inr ((h2 v).2 e))
        have hz : ent ap ai ax k v = 0 := by
          refine colVal_zero _ fun p p1 p2 e => hno ⟨hv', p, p1, ?_, by rw [e]; exact .refl _⟩
          have := hU.csc.mono k hk
          omega
        have hnone : ∀ j ∈ ord, ¬ Row ap ai q v j := by
          rintro j hj ⟨r1, p, p1, p2, p3⟩
          have hr : Reach q j v := p3.linear hT.inc (hT.col v (by omega) p p1 p2) (by omega)
          obtain ⟨s1, p', s2, s3, s4⟩ := (h2 j).1 hj
          exact hno ⟨hv', p', s2, s3, s4.trans hr⟩
        rw [hz]
        clear h3 h1 h2 hlen e1 e2 e3 e4 e5 e6 hd2 hcnt h
        induction ord using List.reverseRecOn with
        | nil => rfl
        | append_singleton d j ih =>
          rw [red_snoc_neg (hnone j (by simp))]
          exact ih fun j hj => hnone j (by simp [hj])
    · rw [show (⟨S2.lnz, S2.li, S2.lx, d2, S2.y, S2.pattern, S2.flag⟩ : Num F).flag = S1.flag from e0]
      exact ⟨f', h6.congr fun v _ hv => ⟨Nat.lt_succ_iff.1 hv, rfl⟩,
        fun v hv => Nat.lt_succ_iff.2 (h7 v (Nat.lt_succ_iff.1 hv))⟩
    · intro r hr
      by_cases hrk : r = k
      · subst hrk
        refine ⟨ord, u, h1, h2, fun d i t e => ?_, fun i hi => ?_, ?_⟩
        · have hi : i < r := h1.lt (by rw [e]; simp)
          rw [e1 d i t e]
          exact red_congr (fun _ _ => rfl) fun j _ => by rw [if_neg (by omega)]
        · have := h1.lt hi
          rw [upd_ne _ _ (by omega)]
          exact if_pos rfl
        · rw [upd_self]
          simp
      · refine (hrow r (by omega)).congr (fun i hi => ?_) fun i hi => ?_
        · funext c
          rw [if_neg (by omega)]
        · rw [upd_ne _ _ (by omega)]

/-- what `LDL_numeric2` leaves behind -/
structure Factor (n : Nat) (ap ai q : Nat → Nat) (ax : Nat → F) (sg : Nat → Int) (eps delta : F)
    (lf : Nat → Nat → F) (df : Nat → F) (S : Num F) : Prop where
  lnz : Holds S.lnz n (fun v => (rows (Row ap ai q) n v).length)
  st : Store n (Row ap ai q) S.li S.lx (fun v => (rows (Row ap ai q) n v).length) lf
  d : Holds S.d n df
  row : ∀ r, r < n → RowEq (Row ap ai q) q (ent ap ai ax) sg eps delta lf df r

/-- The numeric phase runs to its end on every matrix with the pattern given to the symbolic phase:
all writes fit into the factor, every column is filled exactly, and row `r` obeys `RowEq`. -/
theorem ldlNumeric_ok {n : Nat} {ap ai q : Nat → Nat} {ax : Nat → F} {Ap Ai Lp : Buf Nat} {Ax : Buf F}
    {parent sign : Buf Int} {sg : Nat → Int} {eps delta : F} (hU : UpperPat n ap ai) (hT : Tree n n ap ai q)
    (hAp : Holds Ap (n + 1) ap) (hAi : Has' Ai (ap n) ai) (hAx : Has' Ax (ap n) ax)
    (hLp : Holds Lp (n + 1) (lpOf (Row ap ai q) n)) (hpar : Holds parent n (fun v => enc n (q v)))
    (hsg : Has' sign n sg) {S : Num F} (h1 : S.lnz.size = n) (h2 : lpOf (Row ap ai q) n n ≤ S.li.size)
    (h3 : lpOf (Row ap ai q) n n ≤ S.lx.size) (h4 : S.d.size = n) (h5 : S.y.size = n) (h6 : S.pattern.size = n)
    (h7 : S.flag.size = n) :
    Ok (ldlNumeric n Ap Ai Ax Lp parent sign eps delta S) fun r => r.2 = n ∧ ∃ lf df,
      Factor n ap ai q ax sg eps delta lf df r.1 := by
  unfold ldlNumeric
  refine Ok.bind (P := fun S => ∃ lf df, NumInv n ap ai q ax sg eps delta n lf df S) (loop_ok
    (I := fun k S => ∃ lf df, NumInv n ap ai q ax sg eps delta k lf df S) (Nat.zero_le _) ?_ ?_ fun S hS => hS) ?_
  · have h0 : ∀ v, rows (Row ap ai q) 0 v = [] := fun v => rows_nil fun r hr => by omega
    refine ⟨fun _ _ => 0, fun _ => 0, ⟨h1, fun v _ hv => absurd hv (Nat.not_lt_zero _)⟩, ⟨h2, h3, fun i hi => ?_⟩,
      ⟨h4, fun v _ hv => absurd hv (Nat.not_lt_zero _)⟩, ⟨h5, fun v _ hv => absurd hv (Nat.not_lt_zero _)⟩, h6,
      ⟨fun _ => 0, ⟨h7, fun v _ hv => absurd hv (Nat.not_lt_zero _)⟩, fun v hv => by omega⟩, fun r hr => by omega⟩
    beta_reduce
    rw [h0]
    exact ⟨Nat.zero_le _, fun t ht => absurd ht (Nat.not_lt_zero _)⟩
  · rintro k S _ hk ⟨lf, df, hS⟩
    exact numStep_ok hU hT hAp hAi hAx hLp hpar hsg hk hS
  · rintro S' ⟨lf, df, g1, g2, g3, -, -, -, g4⟩
    rw [Ok_pure]
    exact ⟨rfl, lf, df, g1.full fun v hv => hv, g2, g3.full fun v hv => hv, g4⟩

end generic

end Ecos.Fact
