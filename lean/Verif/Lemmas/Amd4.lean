import Mathlib.Data.Int.CardIntervalMod
import Verif.Lemmas.Amd3

/-!
# AMD: a new element is built in the free space
-/
namespace Ecos.Amd

open Function (update)

/-! ### layouts -/

theorem Lay.congr {n B : Int} {pe len pe' len' : Int → Int} (h : Lay n B pe len)
    (e : ∀ x, Idx n x → 0 ≤ pe' x → pe x = pe' x ∧ len x = len' x) : Lay n B pe' len' where
  pos x hx h0 := by
    obtain ⟨e1, e2⟩ := e x hx h0
    have := h.pos x hx (by omega)
    omega
  disj x y hx hy hxy h0 h1 := by
    obtain ⟨e1, e2⟩ := e x hx h0
    obtain ⟨e3, e4⟩ := e y hy h1
    have := h.disj x y hx hy hxy (by omega) (by omega)
    omega

theorem Lay.mono {n B B' : Int} {pe len : Int → Int} (h : Lay n B pe len) (hB : B ≤ B') :
    Lay n B' pe len where
  pos x hx h0 := by have := h.pos x hx h0; omega
  disj := h.disj

/-- the list of `x` becomes a part of itself, or vanishes -/
theorem Lay.sub {n B : Int} {pe len : Int → Int} (h : Lay n B pe len) {x v l : Int} (hx : Idx n x)
    (h0 : 0 ≤ v → 0 ≤ pe x ∧ pe x ≤ v ∧ 0 ≤ l ∧ v + l ≤ pe x + len x) :
    Lay n B (update pe x v) (update len x l) where
  pos y hy hp := by
    by_cases q : y = x
    · subst q
      rw [Function.update_self] at hp ⊢
      rw [Function.update_self]
      have := h0 hp
      have := h.pos y hy (by omega)
      omega
    · rw [Function.update_of_ne q] at hp ⊢
      rw [Function.update_of_ne q]
      exact h.pos y hy hp
  disj y z hy hz hyz hp hp' := by
    by_cases q : y = x
    · subst q
      rw [Function.update_self] at hp ⊢
      rw [Function.update_of_ne (Ne.symm hyz)] at hp' ⊢
      rw [Function.update_self, Function.update_of_ne (Ne.symm hyz)]
      have := h0 hp
      have := h.disj y z hy hz hyz (by omega) hp'
      have := h.pos z hz hp'
      omega
    · rw [Function.update_of_ne q] at hp ⊢
      rw [Function.update_of_ne q]
      by_cases q' : z = x
      · subst q'
        rw [Function.update_self] at hp' ⊢
        rw [Function.update_self]
        have := h0 hp'
        have := h.disj y z hy hz hyz hp (by omega)
        have := h.pos y hy hp
        omega
      · rw [Function.update_of_ne q'] at hp' ⊢
        rw [Function.update_of_ne q']
        exact h.disj y z hy hz hyz hp hp'

/-- a new list above all others -/
theorem Lay.add {n B : Int} {pe len : Int → Int} (h : Lay n B pe len) {x v l : Int}
    (h0 : B ≤ v) (hl : 0 ≤ l) :
    Lay n (v + l) (update pe x v) (update len x l) where
  pos y hy hp := by
    by_cases q : y = x
    · subst q
      rw [Function.update_self, Function.update_self]
      omega
    · rw [Function.update_of_ne q] at hp ⊢
      rw [Function.update_of_ne q]
      have := h.pos y hy hp
      omega
  disj y z hy hz hyz hp hp' := by
    by_cases q : y = x
    · subst q
      rw [Function.update_self]
      rw [Function.update_of_ne (Ne.symm hyz)] at hp' ⊢
      rw [Function.update_self, Function.update_of_ne (Ne.symm hyz)]
      have := h.pos z hz hp'
      omega
    · rw [Function.update_of_ne q] at hp ⊢
      rw [Function.update_of_ne q]
      by_cases q' : z = x
      · subst q'
        rw [Function.update_self, Function.update_self]
        have := h.pos y hy hp
        omega
      · rw [Function.update_of_ne q'] at hp' ⊢
        rw [Function.update_of_ne q']
        exact h.disj y z hy hz hyz hp hp'

theorem tot_congr {n : Int} {pe len pe' len' : Int → Int}
    (e : ∀ x, Idx n x → (if 0 ≤ pe x then len x else 0) = if 0 ≤ pe' x then len' x else 0) :
    tot n pe len = tot n pe' len' :=
  Finset.sum_congr rfl fun x hx => e x (Finset.mem_Ico.1 hx)

theorem tot_update {n : Int} {pe len : Int → Int} {x v l : Int} (hx : Idx n x) :
    tot n (update pe x v) (update len x l)
      = tot n pe len - (if 0 ≤ pe x then len x else 0) + (if 0 ≤ v then l else 0) := by
  have hm : x ∈ ix n := Finset.mem_Ico.2 hx
  unfold tot
  rw [← Finset.sum_erase_add _ _ hm, ← Finset.sum_erase_add (ix n) _ hm]
  rw [Function.update_self, Function.update_self]
  have : (∑ y ∈ (ix n).erase x, if 0 ≤ update pe x v y then update len x l y else 0)
      = ∑ y ∈ (ix n).erase x, if 0 ≤ pe y then len y else 0 := by
    refine Finset.sum_congr rfl fun y hy => ?_
    have hne := (Finset.mem_erase.1 hy).1
    rw [Function.update_of_ne hne, Function.update_of_ne hne]
  rw [this]; ring

/-! ### entries of an interval -/

/-- `x` is among the `m` entries from `p` on -/
def InB (iw : Int → Int) (p m x : Int) : Prop := ∃ k, 0 ≤ k ∧ k < m ∧ iw (p + k) = x

theorem InB.congr {iw iw' : Int → Int} {p p' m : Int}
    (h : ∀ k, 0 ≤ k → k < m → iw' (p' + k) = iw (p + k)) (x : Int) :
    InB iw' p' m x ↔ InB iw p m x := by
  constructor <;> rintro ⟨k, k0, k1, e⟩
  · exact ⟨k, k0, k1, by rw [← h k k0 k1]; exact e⟩
  · exact ⟨k, k0, k1, by rw [h k k0 k1]; exact e⟩

theorem InB.push {iw : Int → Int} {p m v : Int} (hm : 0 ≤ m) (x : Int) :
    InB (update iw (p + m) v) p (m + 1) x ↔ InB iw p m x ∨ x = v := by
  constructor
  · rintro ⟨k, k0, k1, e⟩
    by_cases q : k = m
    · subst q; rw [Function.update_self] at e; exact Or.inr e.symm
    · rw [Function.update_of_ne (by omega)] at e
      exact Or.inl ⟨k, k0, by omega, e⟩
  · rintro (⟨k, k0, k1, e⟩ | rfl)
    · exact ⟨k, k0, by omega, by rw [Function.update_of_ne (by omega)]; exact e⟩
    · exact ⟨m, hm, by omega, by rw [Function.update_self]⟩

/-- the entries are distinct -/
def Inj (iw : Int → Int) (p m : Int) : Prop :=
  ∀ k k', 0 ≤ k → k < m → 0 ≤ k' → k' < m → iw (p + k) = iw (p + k') → k = k'

theorem Inj.push {iw : Int → Int} {p m v : Int} (h : Inj iw p m) (hv : ¬ InB iw p m v) :
    Inj (update iw (p + m) v) p (m + 1) := by
  intro k k' k0 k1 k0' k1' e
  by_cases q : k = m
  · by_cases q' : k' = m
    · omega
    · subst q
      rw [Function.update_self, Function.update_of_ne (by omega)] at e
      exact (hv ⟨k', k0', by omega, e.symm⟩).elim
  · by_cases q' : k' = m
    · subst q'
      rw [Function.update_self, Function.update_of_ne (by omega)] at e
      exact (hv ⟨k, k0, by omega, e⟩).elim
    · rw [Function.update_of_ne (by omega), Function.update_of_ne (by omega)] at e
      exact h k k' k0 (by omega) k0' (by omega) e

/-- distinct entries that avoid two indices are at most `n - 2` -/
theorem Inj.card {n p m me i : Int} {iw : Int → Int} (h : Inj iw p m)
    (hv : ∀ k, 0 ≤ k → k < m → Idx n (iw (p + k)) ∧ iw (p + k) ≠ me ∧ iw (p + k) ≠ i)
    (hme : Idx n me) (hi : Idx n i) (hne : i ≠ me) : m ≤ n - 2 := by
  classical
  by_cases hm : m ≤ 0
  · omega
  have := Finset.card_le_card_of_injOn (s := Finset.Ico 0 m) (t := ((ix n).erase me).erase i)
    (fun k => iw (p + k)) (by
      intro k hk
      have hk := Finset.mem_Ico.1 hk
      obtain ⟨a, b, c⟩ := hv k hk.1 hk.2
      exact Finset.mem_coe.2 (Finset.mem_erase.2 ⟨c, Finset.mem_erase.2 ⟨b, Finset.mem_Ico.2 a⟩⟩)) (by
      intro k hk k' hk' e
      have hk := Finset.mem_Ico.1 hk
      have hk' := Finset.mem_Ico.1 hk'
      exact h k k' hk.1 hk.2 hk'.1 hk'.2 e)
  rw [Finset.card_erase_of_mem (Finset.mem_erase.2 ⟨hne, Finset.mem_Ico.2 hi⟩),
    Finset.card_erase_of_mem (Finset.mem_Ico.2 hme), Int.card_Ico, Int.card_Ico] at this
  omega

open Classical in
/-- the sum of `f` over the entries of an interval -/
noncomputable def sumB (n : Int) (f : Int → Int) (S : Int → Prop) : Int :=
  ∑ x ∈ ix n, if S x then f x else 0

theorem sumB_congr {n : Int} {f g : Int → Int} {S T : Int → Prop}
    (h : ∀ x, Idx n x → (S x ↔ T x)) (hf : ∀ x, Idx n x → T x → f x = g x) :
    sumB n f S = sumB n g T := by
  classical
  refine Finset.sum_congr rfl fun x hx => ?_
  have hx := Finset.mem_Ico.1 hx
  by_cases q : T x
  · rw [if_pos q, if_pos ((h x hx).2 q), hf x hx q]
  · rw [if_neg q, if_neg (fun r => q ((h x hx).1 r))]

theorem sumB_add {n : Int} {f : Int → Int} {S T : Int → Prop} {i : Int} (hi : Idx n i)
    (hS : ¬ S i) (h : ∀ x, Idx n x → (T x ↔ S x ∨ x = i)) : sumB n f T = sumB n f S + f i := by
  classical
  have hm : i ∈ ix n := Finset.mem_Ico.2 hi
  unfold sumB
  rw [← Finset.sum_erase_add _ _ hm, ← Finset.sum_erase_add (ix n) _ hm]
  rw [if_pos ((h i hi).2 (Or.inr rfl)), if_neg hS]
  have : (∑ x ∈ (ix n).erase i, if T x then f x else 0) = ∑ x ∈ (ix n).erase i, if S x then f x else 0 := by
    refine Finset.sum_congr rfl fun y hy => ?_
    obtain ⟨hne, hy⟩ := Finset.mem_erase.1 hy
    have := h y (Finset.mem_Ico.1 hy)
    by_cases q : S y
    · rw [if_pos q, if_pos (this.2 (Or.inl q))]
    · rw [if_neg q, if_neg (fun r => (this.1 r).elim q hne)]
  rw [this]; ring

theorem sumB_empty {n : Int} {f : Int → Int} {S : Int → Prop} (h : ∀ x, Idx n x → ¬ S x) :
    sumB n f S = 0 := by
  classical
  refine Finset.sum_eq_zero fun x hx => if_neg (h x (Finset.mem_Ico.1 hx))

/-! ### the state before a new element is built, and after -/

/-- what is known when the variable `me` is about to become an element; `P` are the variables in
the degree lists, `Src` is what is known of the variables next to `me` -/
structure Base (n L : Int) (a : Ab) (me pfree : Int) (P Src : Int → Prop) (rk : Int → Nat) : Prop where
  meI : Idx n me
  nvme : a.nv me < 0
  peme : 0 ≤ a.pe me
  elenme : 0 ≤ a.elen me ∧ a.elen me ≤ a.len me
  nonneg : ∀ x, Idx n x → x ≠ me → 0 ≤ a.nv x
  hP : ∀ x, P x → Idx n x ∧ 0 < a.nv x
  lay : Lay n pfree a.pe a.len
  len1 : ∀ x, Idx n x → 0 ≤ a.pe x → 1 ≤ a.len x
  room : tot n a.pe a.len ≤ L - n
  free : 0 ≤ pfree ∧ pfree ≤ a.top ∧ pfree ≤ L
  vals : ∀ p, 0 ≤ p → p < pfree → Idx n (a.iw p)
  elems : ∀ k, 0 ≤ k → k < a.elen me → a.iw (a.pe me + k) ≠ me ∧ 0 ≤ a.pe (a.iw (a.pe me + k))
  nodup : Inj a.iw (a.pe me) (a.elen me)
  srcE : ∀ e, InB a.iw (a.pe me) (a.elen me) e → ∀ k, 0 ≤ k → k < a.len e →
    0 < a.nv (a.iw (a.pe e + k)) → P (a.iw (a.pe e + k)) ∧ Src (a.iw (a.pe e + k))
  srcA : ∀ k, a.elen me ≤ k → k < a.len me →
    0 < a.nv (a.iw (a.pe me + k)) → P (a.iw (a.pe me + k)) ∧ Src (a.iw (a.pe me + k))
  dl : DL n P a.head a.next a.last a.degree rk

/-- the part of the state that both ways of building an element share: `B` is the new list -/
structure Grow (n : Int) (a : Ab) (P Src : Int → Prop) (rk : Int → Nat) (pme1 m degme : Int)
    (b : Ab) : Prop where
  elen : b.elen = a.elen
  degree : b.degree = a.degree
  m0 : 0 ≤ m
  inj : Inj b.iw pme1 m
  inB : ∀ x, InB b.iw pme1 m x → P x ∧ Src x
  nvB : ∀ x, Idx n x → InB b.iw pme1 m x → b.nv x = - a.nv x
  nvO : ∀ x, Idx n x → ¬ InB b.iw pme1 m x → b.nv x = a.nv x
  deg : degme = sumB n a.nv (InB b.iw pme1 m)
  dl : DL n (fun x => P x ∧ ¬ InB b.iw pme1 m x) b.head b.next b.last a.degree rk

/-- the new element has been built -/
structure Built (n L : Int) (a : Ab) (me : Int) (P Src : Int → Prop) (rk : Int → Nat)
    (pme1 m pfree degme : Int) (b : Ab) : Prop extends Grow n a P Src rk pme1 m degme b where
  covE : ∀ e, InB a.iw (a.pe me) (a.elen me) e → ∀ k, 0 ≤ k → k < a.len e →
    0 < a.nv (a.iw (a.pe e + k)) → InB b.iw pme1 m (a.iw (a.pe e + k))
  covA : ∀ k, a.elen me ≤ k → k < a.len me →
    0 < a.nv (a.iw (a.pe me + k)) → InB b.iw pme1 m (a.iw (a.pe me + k))
  abs : ∀ e, InB a.iw (a.pe me) (a.elen me) e → b.pe e = FLIP me ∧ b.w e = 0
  wO : ∀ x, Idx n x → ¬ InB a.iw (a.pe me) (a.elen me) x → b.w x = a.w x
  neg : ∀ x, Idx n x → a.pe x < 0 → b.pe x = a.pe x
  obj : ∀ x, Idx n x → x ≠ me → ¬ InB a.iw (a.pe me) (a.elen me) x → 0 ≤ a.pe x →
    0 ≤ b.pe x ∧ b.len x = a.len x ∧ ∀ k, 0 ≤ k → k < a.len x → b.iw (b.pe x + k) = a.iw (a.pe x + k)
  lay : Lay n pfree (update b.pe me pme1) (update b.len me m)
  room : tot n (update b.pe me pme1) (update b.len me m) ≤ tot n a.pe a.len
  free : 0 ≤ pme1 ∧ pme1 + m ≤ pfree ∧ pfree ≤ b.top ∧ pfree ≤ L
  vals : ∀ p, 0 ≤ p → p < pfree → Idx n (b.iw p)

/-! ### building in the free space -/

theorem vpe_e (me e p pj rm re : Int) (pe : Int → Int) :
    vpe me e p pj rm re pe e = if re = 0 then -1 else pj := by
  unfold vpe; rw [Function.update_self]
theorem vpe_me {me e : Int} (h : e ≠ me) (p pj rm re : Int) (pe : Int → Int) :
    vpe me e p pj rm re pe me = if rm = 0 then -1 else p := by
  unfold vpe; rw [Function.update_of_ne (Ne.symm h), Function.update_self]
theorem vpe_ne {me e x : Int} (h : x ≠ e) (h' : x ≠ me) (p pj rm re : Int) (pe : Int → Int) :
    vpe me e p pj rm re pe x = pe x := by
  unfold vpe; rw [Function.update_of_ne h, Function.update_of_ne h']
theorem vlen_e (me e rm re : Int) (pe : Int → Int) : vlen me e rm re pe e = re := by
  unfold vlen; rw [Function.update_self]
theorem vlen_me {me e : Int} (h : e ≠ me) (rm re : Int) (pe : Int → Int) :
    vlen me e rm re pe me = rm := by
  unfold vlen; rw [Function.update_of_ne (Ne.symm h), Function.update_self]
theorem vlen_ne {me e x : Int} (h : x ≠ e) (h' : x ≠ me) (rm re : Int) (pe : Int → Int) :
    vlen me e rm re pe x = pe x := by
  unfold vlen; rw [Function.update_of_ne h, Function.update_of_ne h']

/-- invariant while the list of `e` (or of `me` itself) is searched: `rm` entries of `me` and `re`
entries of `e` are left, and there is room for `sl` more; the elements in `Abs` have been absorbed, the entries in `D` seen -/
structure CI (n L : Int) (a : Ab) (me : Int) (P Src : Int → Prop) (rk : Int → Nat)
    (Abs D : Int → Prop) (sl e rm re : Int) (q : Co) (b : Ab) : Prop
    extends Grow n a P Src rk q.pme1 (q.pfree - q.pme1) q.degme b where
  gc : b.len me = a.len me ∨ q.pme1 ≤ L - n
  rem : 0 ≤ re ∧ 0 ≤ rm
  lay : Lay n q.pme1 (vpe me e q.p q.pj rm re b.pe) (vlen me e rm re b.len)
  totle : tot n (vpe me e q.p q.pj rm re b.pe) (vlen me e rm re b.len) + (q.pfree - q.pme1) + sl
    ≤ tot n a.pe a.len
  cme : e ≠ me → rm ≠ 0 → 0 ≤ q.p ∧ ∀ k, 0 ≤ k → k < rm →
    b.iw (q.p + k) = a.iw (a.pe me + (a.len me - rm) + k)
  ce : re ≠ 0 → 0 ≤ q.pj ∧ ∀ k, 0 ≤ k → k < re →
    b.iw (q.pj + k) = a.iw (a.pe e + (a.len e - re) + k)
  neg : ∀ x, Idx n x → a.pe x < 0 → b.pe x = a.pe x
  abs : ∀ x, Abs x → b.pe x = FLIP me ∧ b.w x = 0
  wO : ∀ x, Idx n x → ¬ Abs x → b.w x = a.w x
  obj : ∀ x, Idx n x → x ≠ me → x ≠ e → ¬ Abs x → 0 ≤ a.pe x → 0 ≤ b.pe x ∧ b.len x = a.len x ∧
    ∀ k, 0 ≤ k → k < a.len x → b.iw (b.pe x + k) = a.iw (a.pe x + k)
  free : 0 ≤ q.pme1 ∧ q.pfree ≤ b.top ∧ q.pfree ≤ L
  vals : ∀ p, 0 ≤ p → p < q.pfree → Idx n (b.iw p)
  cov : ∀ x, D x → 0 < a.nv x → InB b.iw q.pme1 (q.pfree - q.pme1) x

variable {n L : Int} {a b : Ab} {me pfree : Int} {P Src Abs D : Int → Prop} {rk : Int → Nat}
  {sl e rm re : Int} {q : Co}

/-- every object of the virtual layout has an entry -/
theorem CI.len1 (hb : Base n L a me pfree P Src rk)
    (h : CI n L a me P Src rk Abs D sl e rm re q b) (hmeAbs : ∀ x, Abs x → Idx n x ∧ x ≠ e ∧ x ≠ me) (x : Int)
    (hx : Idx n x) (h0 : 0 ≤ vpe me e q.p q.pj rm re b.pe x) : 1 ≤ vlen me e rm re b.len x := by
  obtain ⟨r1, r2⟩ := h.rem
  by_cases q1 : x = e
  · subst q1
    rw [vpe_e] at h0
    rw [vlen_e]
    split at h0 <;> omega
  by_cases q2 : x = me
  · subst q2
    rw [vpe_me (Ne.symm q1)] at h0
    rw [vlen_me (Ne.symm q1)]
    split at h0 <;> omega
  rw [vpe_ne q1 q2] at h0
  rw [vlen_ne q1 q2]
  by_cases hA : Abs x
  · rw [(h.abs x hA).1, FLIP_eq] at h0
    have := hb.meI
    omega
  by_cases hp : 0 ≤ a.pe x
  · rw [(h.obj x hx q2 q1 hA hp).2.1]; exact hb.len1 x hx hp
  · rw [h.neg x hx (by omega)] at h0; omega

theorem CI.slack (h : CI n L a me P Src rk Abs D (sl + 1) e rm re q b) :
    CI n L a me P Src rk Abs D sl e rm re q b :=
  { h with totle := by have := h.totle; omega }

/-- one entry of `e` has been read -/
theorem CI.read (hI : Idx n e) (h : CI n L a me P Src rk Abs D sl e rm re q b) (hre : re ≠ 0)
    {D' : Int → Prop} (hD : ∀ x, D' x → D x ∨ (x = a.iw (a.pe e + (a.len e - re)) ∧ ¬ 0 < a.nv x) ∨
      (x = a.iw (a.pe e + (a.len e - re)) ∧ InB b.iw q.pme1 (q.pfree - q.pme1) x)) :
    CI n L a me P Src rk Abs D' (sl + 1) e rm (re - 1) { q with pj := q.pj + 1 } b := by
  obtain ⟨r1, r2⟩ := h.rem
  obtain ⟨c0, c1⟩ := h.ce hre
  have e1 : vpe me e q.p (q.pj + 1) rm (re - 1) b.pe
      = update (vpe me e q.p q.pj rm re b.pe) e (if re - 1 = 0 then -1 else q.pj + 1) := by
    unfold vpe; rw [Function.update_idem]
  have e2 : vlen me e rm (re - 1) b.len = update (vlen me e rm re b.len) e (re - 1) := by
    unfold vlen; rw [Function.update_idem]
  have ve : vpe me e q.p q.pj rm re b.pe e = q.pj := by rw [vpe_e, if_neg hre]
  exact { h with
    rem := ⟨by omega, r2⟩
    lay := by
      dsimp only
      rw [e1, e2]
      refine h.lay.sub hI fun hv => ?_
      rw [ve, vlen_e]
      split at hv
      · omega
      · rename_i hne
        rw [if_neg hne]; omega
    totle := by
      dsimp only
      rw [e1, e2, tot_update hI, ve, vlen_e, if_pos c0]
      have := h.totle
      split <;> omega
    ce := fun hne => by
      refine ⟨by dsimp only; omega, fun k k0 k1 => ?_⟩
      have := c1 (k + 1) (by omega) (by omega)
      rw [show q.pj + (k + 1) = q.pj + 1 + k by ring] at this
      dsimp only
      rw [this]
      congr 1
      ring
    cov := fun x hx hnv => by
      rcases hD x hx with hx | ⟨_, hx⟩ | ⟨_, hx⟩
      · exact h.cov x hx hnv
      · exact (hx hnv).elim
      · exact hx }

theorem vpe_idem {me e rm re : Int} {pe : Int → Int} (h1 : e ≠ me → rm = 0 → pe me = -1)
    (h2 : re = 0 → pe e = -1) : vpe me e (pe me) (pe e) rm re pe = pe := by
  funext x
  by_cases q1 : x = e
  · subst q1
    rw [vpe_e]
    split
    · rename_i h; rw [h2 h]
    · rfl
  by_cases q2 : x = me
  · subst q2
    rw [vpe_me (Ne.symm q1)]
    split
    · rename_i h; rw [h1 (Ne.symm q1) h]
    · rfl
  rw [vpe_ne q1 q2]

theorem vlen_idem (me e rm re : Int) (len : Int → Int) :
    vlen me e rm re (vlen me e rm re len) = vlen me e rm re len := by
  funext x
  by_cases q1 : x = e
  · subst q1; rw [vlen_e, vlen_e]
  by_cases q2 : x = me
  · subst q2; rw [vlen_me (Ne.symm q1), vlen_me (Ne.symm q1)]
  rw [vlen_ne q1 q2]

/-- garbage collection in the middle of building an element -/
theorem CI.gc_ok {s : St} (hsl : 0 ≤ sl) (hb : Base n L a me pfree P Src rk) (hr : Rep n L q.s b)
    (h : CI n L a me P Src rk Abs D sl e rm re q b) (hmeAbs : ∀ x, Abs x → Idx n x ∧ x ≠ e ∧ x ≠ me)
    (heE : Idx n e ∧ 0 ≤ a.pe e)
    {knt1 knt2 ln : Int} (h1 : e ≠ me → rm = a.len me - knt1) (h2 : re = ln - knt2)
    {i : Int} (hi : Idx n i) (hne : i ≠ me) (hnB : ¬ InB b.iw q.pme1 (q.pfree - q.pme1) i)
    (hfull : L ≤ q.pfree) (hs : q.s = s) :
    Ok (do
        let r ← compress n me e q.p q.pj knt1 knt2 ln q.pme1 q.pfree s
        let pj ← r.2.2.rPe e
        let p ← r.2.2.rPe me
        pure { q with p := p, pj := pj, pme1 := r.1, pfree := r.2.1, s := r.2.2 })
      (fun q' => q'.pfree < L ∧ ∃ b', Rep n L q'.s b' ∧ b'.nv = b.nv ∧
        (∀ x, InB b'.iw q'.pme1 (q'.pfree - q'.pme1) x ↔ InB b.iw q.pme1 (q.pfree - q.pme1) x) ∧
        CI n L a me P Src rk Abs D sl e rm re q' b') := by
  subst hs
  obtain ⟨f0, f1, f2⟩ := h.free
  have hm0 := h.m0
  have hcard : q.pfree - q.pme1 ≤ n - 2 := by
    refine h.inj.card (fun k k0 k1 => ?_) hb.meI hi hne
    obtain ⟨hPx, _⟩ := h.inB (b.iw (q.pme1 + k)) ⟨k, k0, k1, rfl⟩
    refine ⟨(hb.hP _ hPx).1, fun q' => ?_, fun q' => hnB ⟨k, k0, k1, q'⟩⟩
    have := (hb.hP _ hPx).2
    rw [q'] at this
    have := hb.nvme
    omega
  have hlenme : b.len me = a.len me := by
    rcases h.gc with g | g
    · exact g
    · omega
  have hrm : e ≠ me → b.len me - knt1 = rm := fun q' => by rw [hlenme, h1 q']
  have vp : vpe me e q.p q.pj (b.len me - knt1) (ln - knt2) b.pe = vpe me e q.p q.pj rm re b.pe := by
    by_cases q' : e = me
    · subst q'; unfold vpe; rw [Function.update_idem, Function.update_idem, h2]
    · rw [hrm q', h2]
  have vl : vlen me e (b.len me - knt1) (ln - knt2) b.len = vlen me e rm re b.len := by
    by_cases q' : e = me
    · subst q'; unfold vlen; rw [Function.update_idem, Function.update_idem, h2]
    · rw [hrm q', h2]
  have hT := h.totle
  have hroom := hb.room
  refine (compress_ok hr (knt1 := knt1) (knt2 := knt2) (ln := ln) (p := q.p) (pj := q.pj)
    (by have := hb.meI; omega) hb.meI heE.1 (by rw [vp, vl]; exact h.lay)
    (by rw [vp, vl]; exact h.len1 hb hmeAbs) h.vals f0 (by omega) f1 f2).bind ?_
  rintro ⟨pme1', pfree', s'⟩ ⟨pe', iw', hr', hpf, hpk⟩
  rw [vp, vl] at hpk
  rw [vl] at hr'
  dsimp only at hr' hpf hpk ⊢
  subst hpf
  refine Ok_rd (hr'.rPe heE.1) ?_
  refine Ok_rd (hr'.rPe hb.meI) ?_
  rw [Ok_pure]
  dsimp only
  have hle := hpk.le
  have hsz := hpk.size
  have e0 : pme1' + (q.pfree - q.pme1) - pme1' = q.pfree - q.pme1 := by ring
  have hB : ∀ x, InB iw' pme1' (q.pfree - q.pme1) x ↔ InB b.iw q.pme1 (q.pfree - q.pme1) x :=
    fun x => InB.congr hpk.part x
  have vpe' : vpe me e (pe' me) (pe' e) rm re pe' = pe' := by
    refine vpe_idem (fun q1 q2 => ?_) (fun q2 => ?_)
    · have : vpe me e q.p q.pj rm re b.pe me = -1 := by rw [vpe_me q1, if_pos q2]
      rw [hpk.neg me hb.meI (by omega), this]
    · have : vpe me e q.p q.pj rm re b.pe e = -1 := by rw [vpe_e, if_pos q2]
      rw [hpk.neg e heE.1 (by omega), this]
  refine ⟨by omega, _, hr', rfl, by dsimp only; rw [e0]; exact hB, ?_⟩
  obtain ⟨r1, r2⟩ := h.rem
  have htot : tot n pe' (vlen me e rm re b.len)
      = tot n (vpe me e q.p q.pj rm re b.pe) (vlen me e rm re b.len) := by
    refine tot_congr fun x hx => ?_
    by_cases q1 : 0 ≤ vpe me e q.p q.pj rm re b.pe x
    · rw [if_pos q1, if_pos (hpk.obj x hx q1).1]
    · rw [if_neg q1, if_neg (by rw [hpk.neg x hx (by omega)]; exact q1)]
  exact {
    elen := h.elen
    degree := h.degree
    m0 := by dsimp only; rw [e0]; exact hm0
    inj := by
      dsimp only; rw [e0]
      intro k k' k0 k1 k0' k1' ek
      rw [hpk.part k k0 k1, hpk.part k' k0' k1'] at ek
      exact h.inj k k' k0 k1 k0' k1' ek
    inB := by dsimp only; rw [e0]; exact fun x hx => h.inB x ((hB x).1 hx)
    nvB := by dsimp only; rw [e0]; exact fun x hI hx => h.nvB x hI ((hB x).1 hx)
    nvO := by dsimp only; rw [e0]; exact fun x hI hx => h.nvO x hI (fun y => hx ((hB x).2 y))
    deg := by
      dsimp only; rw [e0, h.deg]
      exact sumB_congr (fun x _ => (hB x).symm) fun _ _ _ => rfl
    dl := by
      dsimp only; rw [e0]
      exact h.dl.congr (fun x => by rw [hB x]) (fun _ _ => rfl) (fun _ _ => rfl) (fun _ _ => rfl)
        fun _ _ => rfl
    gc := Or.inr (by dsimp only; omega)
    rem := h.rem
    lay := by dsimp only; rw [vpe', vlen_idem]; exact hpk.lay
    totle := by dsimp only; rw [vpe', vlen_idem, htot, e0]; exact hT
    cme := fun q1 q2 => by
      obtain ⟨c0, c1⟩ := h.cme q1 q2
      have : vpe me e q.p q.pj rm re b.pe me = q.p := by rw [vpe_me q1, if_neg q2]
      obtain ⟨o1, o2⟩ := hpk.obj me hb.meI (by omega)
      refine ⟨o1, fun k k0 k1 => ?_⟩
      have := o2 k k0 (by rw [vlen_me q1]; exact k1)
      dsimp only
      rw [this, ‹vpe me e q.p q.pj rm re b.pe me = q.p›]
      exact c1 k k0 k1
    ce := fun q2 => by
      obtain ⟨c0, c1⟩ := h.ce q2
      have hv : vpe me e q.p q.pj rm re b.pe e = q.pj := by rw [vpe_e, if_neg q2]
      obtain ⟨o1, o2⟩ := hpk.obj e heE.1 (by omega)
      refine ⟨o1, fun k k0 k1 => ?_⟩
      have := o2 k k0 (by rw [vlen_e]; exact k1)
      dsimp only
      rw [this, hv]
      exact c1 k k0 k1
    neg := fun x hx hp => by
      have q1 : x ≠ e := by rintro rfl; omega
      have q2 : x ≠ me := by rintro rfl; have := hb.peme; omega
      have := h.neg x hx hp
      dsimp only
      rw [hpk.neg x hx (by rw [vpe_ne q1 q2]; omega), vpe_ne q1 q2]
      exact this
    abs := fun x hx => by
      obtain ⟨hxI, q1, q2⟩ := hmeAbs x hx
      obtain ⟨h3, h4⟩ := h.abs x hx
      refine ⟨?_, h4⟩
      dsimp only
      have := hb.meI
      rw [hpk.neg x hxI (by rw [vpe_ne q1 q2, h3, FLIP_eq]; omega), vpe_ne q1 q2, h3]
    wO := h.wO
    obj := fun x hx q2 q1 hA hp => by
      obtain ⟨o1, o2, o3⟩ := h.obj x hx q2 q1 hA hp
      have hv : vpe me e q.p q.pj rm re b.pe x = b.pe x := vpe_ne q1 q2 ..
      obtain ⟨p1, p2⟩ := hpk.obj x hx (by omega)
      refine ⟨p1, by dsimp only; rw [vlen_ne q1 q2, o2], fun k k0 k1 => ?_⟩
      dsimp only
      rw [p2 k k0 (by rw [vlen_ne q1 q2]; omega), hv]
      exact o3 k k0 k1
    free := ⟨hle.1, by dsimp only; omega, by dsimp only; omega⟩
    vals := hpk.vals
    cov := by dsimp only; rw [e0]; exact fun x hx hnv => (hB x).2 (h.cov x hx hnv) }

end Ecos.Amd
