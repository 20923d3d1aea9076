import Verif.Lemmas.Amd7

/-!
# AMD: hash buckets, and the list of one variable in Scan 2
-/
namespace Ecos.Amd

open Function (update)

/-- the chain from `p` is the list `l` -/
def Lst (next : Int → Int) : Int → List Int → Prop
  | p, [] => p = -1
  | p, x :: l => p = x ∧ Lst next (next x) l

theorem Lst.congr {next next' : Int → Int} : ∀ {l : List Int} {p : Int}, Lst next p l →
    (∀ x ∈ l, next' x = next x) → Lst next' p l
  | [], _, h, _ => h
  | x :: l, p, h, e => by
    refine ⟨h.1, ?_⟩
    rw [e x (by simp)]
    exact Lst.congr h.2 fun y hy => e y (by simp [hy])

/-- degree lists and hash buckets share `Head` and `Last`: `vh` and `vl` are the degree lists, `bh`
the buckets.  `P` are the variables in the degree lists, `M` those in buckets. -/
structure HL (n : Int) (P M : Int → Prop) (head next last deg : Int → Int) (rk : Int → Nat)
    (vh vl bh : Int → Int) : Prop where
  dl : DL n P vh next vl deg rk
  hd0 : ∀ h, Idx n h → vh h = -1 → head h = FLIP (bh h)
  hd1 : ∀ h, Idx n h → vh h ≠ -1 → head h = vh h
  la0 : ∀ x, P x → vl x = -1 → last x = bh (deg x)
  la1 : ∀ x, P x → vl x ≠ -1 → last x = vl x
  bk : ∀ h, Idx n h → ∃ l, Lst next (bh h) l ∧ l.Nodup ∧ ∀ x ∈ l, M x ∧ last x = h
  mI : ∀ i, M i → Idx n i ∧ Idx n (last i)
  PM : ∀ i, P i → ¬ M i

variable {n L : Int} {s : St} {a : Ab} {P M : Int → Prop} {rk : Int → Nat} {vh vl bh : Int → Int}

theorem HL.init {head next last deg : Int → Int} (h : DL n P head next last deg rk) :
    HL n P (fun _ => False) head next last deg rk head last (fun _ => -1) where
  dl := h
  hd0 d _ e := by rw [e]; rfl
  hd1 _ _ _ := rfl
  la0 _ _ e := e
  la1 _ _ _ := rfl
  bk _ _ := ⟨[], rfl, List.nodup_nil, fun x hx => by simp at hx⟩
  mI _ h := h.elim
  PM _ _ h := h

/-- when all buckets are empty -/
theorem HL.toDL {head next last deg : Int → Int} (h : HL n P M head next last deg rk vh vl bh)
    (hb : ∀ d, Idx n d → bh d = -1) : DL n P head next last deg rk := by
  refine h.dl.congr (fun _ => Iff.rfl) (fun d hd => ?_) (fun _ _ => rfl) (fun x hx => ?_)
    fun _ _ => rfl
  · by_cases e : vh d = -1
    · rw [h.hd0 d hd e, hb d hd, e]; rfl
    · exact h.hd1 d hd e
  · by_cases e : vl x = -1
    · rw [h.la0 x hx e, hb _ (h.dl.idx x hx).2, e]
    · exact h.la1 x hx e

theorem HL.bh_ge (h : HL n P M a.head a.next a.last a.degree rk vh vl bh) {d : Int} (hd : Idx n d) :
    -1 ≤ bh d := by
  obtain ⟨l, h1, _, h3⟩ := h.bk d hd
  cases l with
  | nil => have : bh d = -1 := h1; omega
  | cons x l =>
    have := (h.mI x (h3 x (by simp)).1).1
    have := h1.1
    omega

/-- nothing that matters changes -/
theorem HL.congr {head next last deg head' next' last' deg' : Int → Int} {P' M' : Int → Prop}
    (h : HL n P M head next last deg rk vh vl bh) (hP : ∀ i, P' i ↔ P i) (hM : ∀ i, M' i ↔ M i)
    (h1 : ∀ d, Idx n d → head' d = head d) (h2 : ∀ i, P i ∨ M i → next' i = next i)
    (h3 : ∀ i, P i ∨ M i → last' i = last i) (h4 : ∀ i, P i → deg' i = deg i) :
    HL n P' M' head' next' last' deg' rk vh vl bh where
  dl := h.dl.congr hP (fun _ _ => rfl) (fun i hi => h2 i (Or.inl hi)) (fun _ _ => rfl) h4
  hd0 d hd e := by rw [h1 d hd]; exact h.hd0 d hd e
  hd1 d hd e := by rw [h1 d hd]; exact h.hd1 d hd e
  la0 x hx e := by
    rw [hP] at hx
    rw [h3 x (Or.inl hx), h4 x hx]; exact h.la0 x hx e
  la1 x hx e := by
    rw [hP] at hx
    rw [h3 x (Or.inl hx)]; exact h.la1 x hx e
  bk d hd := by
    obtain ⟨l, l1, l2, l3⟩ := h.bk d hd
    refine ⟨l, l1.congr fun x hx => h2 x (Or.inr (l3 x hx).1), l2, fun x hx => ?_⟩
    rw [hM, h3 x (Or.inr (l3 x hx).1)]
    exact l3 x hx
  mI i hi := by
    rw [hM] at hi
    rw [h3 i (Or.inr hi)]; exact h.mI i hi
  PM i hi := by
    rw [hP] at hi
    rw [hM]; exact h.PM i hi

theorem pushHash_ok (hr : Rep n L s a) (h : HL n P M a.head a.next a.last a.degree rk vh vl bh)
    {i hash : Int} (hi : Idx n i) (hP : ¬ P i) (hM : ¬ M i) (hh : Idx n hash) :
    Ok (pushHash i hash s) (fun s' => ∃ head next last bh',
      Rep n L s' { a with head := head, next := next, last := last } ∧
      HL n P (fun j => M j ∨ j = i) head next last a.degree rk vh vl bh') := by
  have hbh := h.bh_ge hh
  obtain ⟨l, l1, l2, l3⟩ := h.bk hash hh
  have hil : i ∉ l := fun hx => hM (l3 i hx).1
  have neP : ∀ x, P x → x ≠ i := fun x hx q => hP (q ▸ hx)
  have neM : ∀ x, M x → x ≠ i := fun x hx q => hM (q ▸ hx)
  -- what has to be shown, for the two ways of storing the head of the bucket
  have key : ∀ head last : Int → Int,
      (∀ d, Idx n d → d ≠ hash → head d = a.head d) →
      (vh hash = -1 → head hash = FLIP i) → (vh hash ≠ -1 → head hash = a.head hash) →
      (∀ x, x ≠ i → (vh hash ≠ -1 → x ≠ vh hash) → last x = a.last x) →
      (vh hash ≠ -1 → last (vh hash) = i) → last i = hash →
      HL n P (fun j => M j ∨ j = i) head (update a.next i (bh hash)) last a.degree rk vh vl
        (update bh hash i) := by
    intro head last g1 g2 g3 g4 g5 g6
    have g4M : ∀ x, M x → last x = a.last x := fun x hx => g4 x (neM x hx) fun hv q => by
      have := (h.dl.head1 hash hh hv).1
      exact h.PM _ this (q ▸ hx)
    exact {
      dl := h.dl.congr (fun _ => Iff.rfl) (fun _ _ => rfl)
        (fun x hx => by rw [Function.update_of_ne (neP x hx)]) (fun _ _ => rfl) fun _ _ => rfl
      hd0 := fun d hd e => by
        by_cases q : d = hash
        · subst q; rw [Function.update_self]; exact g2 e
        · rw [Function.update_of_ne q, g1 d hd q]; exact h.hd0 d hd e
      hd1 := fun d hd e => by
        by_cases q : d = hash
        · subst q; rw [g3 e]; exact h.hd1 d hd e
        · rw [g1 d hd q]; exact h.hd1 d hd e
      la0 := fun x hx e => by
        by_cases q : a.degree x = hash
        · have e2 := h.dl.last0 x hx e
          rw [q] at e2 ⊢
          have hv : vh hash ≠ -1 := by rw [e2]; have := (h.dl.idx x hx).1; omega
          rw [Function.update_self, ← e2]
          exact g5 hv
        · rw [Function.update_of_ne q]
          rw [g4 x (neP x hx) fun hv q' => ?_]
          · exact h.la0 x hx e
          · have := (h.dl.head1 hash hh hv).2.1
            rw [← q'] at this
            exact q this
      la1 := fun x hx e => by
        rw [g4 x (neP x hx) fun hv q' => ?_]
        · exact h.la1 x hx e
        · have := (h.dl.head1 hash hh hv).2.2
          rw [← q'] at this
          exact e this
      bk := fun d hd => by
        by_cases q : d = hash
        · subst q
          rw [Function.update_self]
          refine ⟨i :: l, ⟨rfl, ?_⟩, List.nodup_cons.2 ⟨hil, l2⟩, ?_⟩
          · rw [Function.update_self]
            exact l1.congr fun x hx => by rw [Function.update_of_ne (neM x (l3 x hx).1)]
          · intro x hx
            rcases List.mem_cons.1 hx with rfl | hx
            · exact ⟨Or.inr rfl, g6⟩
            · rw [g4M x (l3 x hx).1]
              exact ⟨Or.inl (l3 x hx).1, (l3 x hx).2⟩
        · rw [Function.update_of_ne q]
          obtain ⟨l, l1, l2, l3⟩ := h.bk d hd
          refine ⟨l, l1.congr fun x hx => by rw [Function.update_of_ne (neM x (l3 x hx).1)], l2,
            fun x hx => ?_⟩
          rw [g4M x (l3 x hx).1]
          exact ⟨Or.inl (l3 x hx).1, (l3 x hx).2⟩
      mI := fun x hx => by
        rcases hx with hx | rfl
        · rw [g4M x hx]; exact h.mI x hx
        · rw [g6]; exact ⟨hi, hh⟩
      PM := fun x hx hm => by
        rcases hm with hm | q
        · exact h.PM x hx hm
        · exact neP x hx q }
  unfold pushHash
  refine Ok_rd (hr.rHead hh) ?_
  rw [Ok_bind]
  by_cases hv : vh hash = -1
  · have e := h.hd0 hash hh hv
    rw [e, FLIP_eq, EMPTY_eq, if_pos (by omega)]
    refine (hr.wNext _ hi).bind fun s hr => ?_
    refine (hr.wHead _ hh).mono fun s hr => ?_
    refine (hr.wLast _ hi).mono fun s hr => ?_
    rw [FLIP_eq, FLIP_eq, show -(-bh hash - 2) - 2 = bh hash by ring] at hr
    refine ⟨_, _, _, _, hr, key _ _ (fun d hd q => ?_) (fun _ => ?_) (fun q => (q hv).elim)
      (fun x q1 q2 => ?_) (fun q => (q hv).elim) ?_⟩
    · dsimp only; rw [Function.update_of_ne q]
    · dsimp only; rw [Function.update_self]; rfl
    · dsimp only; rw [Function.update_of_ne q1]
    · dsimp only; rw [Function.update_self]
  · have e := h.hd1 hash hh hv
    obtain ⟨p1, p2, p3⟩ := h.dl.head1 hash hh hv
    have hj := (h.dl.idx _ p1).1
    rw [e, EMPTY_eq, if_neg (by omega)]
    refine Ok_rd (hr.rLast hj) ?_
    refine (hr.wNext _ hi).bind fun s hr => ?_
    refine (hr.wLast _ hj).mono fun s hr => ?_
    refine (hr.wLast _ hi).mono fun s hr => ?_
    have e2 : a.last (vh hash) = bh hash := by rw [h.la0 _ p1 p3, p2]
    rw [e2] at hr
    have hne : vh hash ≠ i := neP _ p1
    refine ⟨_, _, _, _, hr, key _ _ (fun d hd q => rfl) (fun q => (hv q).elim) (fun q => rfl)
      (fun x q1 q2 => ?_) (fun _ => ?_) ?_⟩
    · dsimp only; rw [Function.update_of_ne q1, Function.update_of_ne (q2 hv)]
    · dsimp only; rw [Function.update_of_ne hne, Function.update_self]
    · dsimp only; rw [Function.update_self]

theorem hashKey_idx {n : Int} (hn : 0 < n) (h : Int) : Idx n (hashKey n h) :=
  ⟨Int.emod_nonneg _ (by omega), Int.emod_lt_of_pos _ hn⟩

/-! ### the list of one variable -/

theorem InB.mono {iw : Int → Int} {p m m' x : Int} (h : InB iw p m x) (hm : m ≤ m') :
    InB iw p m' x := by
  obtain ⟨k, k0, k1, e⟩ := h
  exact ⟨k, k0, by omega, e⟩

theorem scanElems_ok (hr : Rep n L s a) {me wflg p1 el : Int} (hp : 0 ≤ p1) (hel : 0 ≤ el)
    (htop : p1 + el ≤ a.top) (hL : p1 + el ≤ L) (hv : ∀ e, InB a.iw p1 el e → Idx n e)
    (hinj : Inj a.iw p1 el) (hw : 2 ≤ wflg) :
    Ok (scanElems me wflg p1 (p1 + el - 1) s) (fun q => ∃ pe w iw,
      Rep n L q.s { a with pe := pe, w := w, iw := iw } ∧ 0 ≤ q.deg ∧ p1 ≤ q.pn ∧ q.pn ≤ p1 + el ∧
      (∀ e, InB iw p1 (q.pn - p1) e ↔ InB a.iw p1 el e ∧ wflg < a.w e) ∧
      Inj iw p1 (q.pn - p1) ∧
      (∀ p, p < p1 ∨ q.pn ≤ p → iw p = a.iw p) ∧
      (∀ x, InB a.iw p1 el x → a.w x ≠ 0 → a.w x ≤ wflg → pe x = FLIP me ∧ w x = 0) ∧
      (∀ x, ¬ (InB a.iw p1 el x ∧ a.w x ≠ 0 ∧ a.w x ≤ wflg) → pe x = a.pe x ∧ w x = a.w x) ∧
      (q.pn = p1 + el → ∀ e, InB a.iw p1 el e → wflg < a.w e)) := by
  unfold scanElems
  rw [show p1 + el - 1 + 1 = p1 + el by ring]
  refine forI_ok (fun p (q : L2) => ∃ pe w iw,
      Rep n L q.s { a with pe := pe, w := w, iw := iw } ∧ 0 ≤ q.deg ∧ p1 ≤ q.pn ∧ q.pn ≤ p ∧
      (∀ e, InB iw p1 (q.pn - p1) e ↔ InB a.iw p1 (p - p1) e ∧ wflg < a.w e) ∧
      Inj iw p1 (q.pn - p1) ∧
      (∀ p, p < p1 ∨ q.pn ≤ p → iw p = a.iw p) ∧
      (∀ x, InB a.iw p1 (p - p1) x → a.w x ≠ 0 → a.w x ≤ wflg → pe x = FLIP me ∧ w x = 0) ∧
      (∀ x, ¬ (InB a.iw p1 (p - p1) x ∧ a.w x ≠ 0 ∧ a.w x ≤ wflg) → pe x = a.pe x ∧ w x = a.w x) ∧
      (q.pn = p → ∀ e, InB a.iw p1 (p - p1) e → wflg < a.w e)) (by omega) ?_ ?_ ?_
  · refine ⟨a.pe, a.w, a.iw, hr, le_rfl, le_rfl, le_rfl, fun e => ?_, fun k k' k0 k1 => ?_,
      fun _ _ => rfl, fun x hx => ?_, fun _ _ => ⟨rfl, rfl⟩, fun _ e he => ?_⟩
    · constructor
      · rintro ⟨k, k0, k1, _⟩; dsimp only at k1; omega
      · rintro ⟨⟨k, k0, k1, _⟩, _⟩; omega
    · dsimp only at k1; omega
    · obtain ⟨k, k0, k1, _⟩ := hx; omega
    · obtain ⟨k, k0, k1, _⟩ := he; omega
  · rintro p q p0 p1' ⟨pe, w, iw, hr, hd, hn1, hn2, hB, hI, hO, hS, hU, hA⟩
    have hin : InB a.iw p1 el (a.iw p) := ⟨p - p1, by omega, by omega, by congr 1; ring⟩
    have hsucc : ∀ x, InB a.iw p1 (p + 1 - p1) x ↔ InB a.iw p1 (p - p1) x ∨ x = a.iw p := by
      intro x
      rw [show p + 1 - p1 = (p - p1) + 1 by ring, InB.succ (by omega),
        show p1 + (p - p1) = p by ring]
    have hnot : ¬ InB a.iw p1 (p - p1) (a.iw p) := by
      rintro ⟨k, k0, k1, ek⟩
      have := hinj k (p - p1) k0 (by omega) (by omega) (by omega) (by rw [ek]; congr 1; ring)
      omega
    have ei : iw p = a.iw p := hO p (Or.inr (by omega))
    refine Ok_rd (hr.rIw (by omega) (by dsimp only; omega) (by omega)) ?_
    dsimp only
    rw [ei]
    have heI := hv _ hin
    refine Ok_rd (hr.rW heI) ?_
    dsimp only
    have ew : w (a.iw p) = a.w (a.iw p) := (hU _ fun h => hnot h.1).2
    rw [ew]
    generalize a.iw p = e at *
    by_cases hw0 : a.w e ≠ 0
    · rw [if_pos hw0]
      by_cases hgt : a.w e - wflg > 0
      · rw [if_pos hgt]
        refine (hr.wIw (i := q.pn) e (by omega) (by dsimp only; omega) (by omega)).bind fun s hr => ?_
        rw [Ok_pure]
        refine ⟨pe, w, _, hr, by dsimp only; omega, by dsimp only; omega, by dsimp only; omega,
          fun x => ?_, ?_, fun p' hp' => ?_, fun x hx h1 h2 => ?_, fun x hx => ?_, fun hq x hx => ?_⟩
        · dsimp only
          have := InB.push (iw := iw) (p := p1) (m := q.pn - p1) (v := e) (by omega) x
          rw [show p1 + (q.pn - p1) = q.pn by ring] at this
          rw [show q.pn + 1 - p1 = q.pn - p1 + 1 by ring, this, hB, hsucc]
          constructor
          · rintro (⟨h1, h2⟩ | rfl)
            · exact ⟨Or.inl h1, h2⟩
            · exact ⟨Or.inr rfl, by omega⟩
          · rintro ⟨h1 | rfl, h2⟩
            · exact Or.inl ⟨h1, h2⟩
            · exact Or.inr rfl
        · dsimp only
          have := hI.push (v := e) (fun hx => hnot ((hB e).1 hx).1)
          rw [show p1 + (q.pn - p1) = q.pn by ring] at this
          rw [show q.pn + 1 - p1 = q.pn - p1 + 1 by ring]
          exact this
        · dsimp only at hp' ⊢
          rw [Function.update_of_ne (by omega)]
          exact hO p' (by omega)
        · rcases (hsucc x).1 hx with hx | rfl
          · exact hS x hx h1 h2
          · omega
        · refine hU x fun h => hx ⟨(hsucc x).2 (Or.inl h.1), h.2⟩
        · dsimp only at hq
          rcases (hsucc x).1 hx with hx | rfl
          · exact hA (by omega) x hx
          · omega
      · rw [if_neg hgt]
        refine (hr.wPe _ heI).bind fun s hr => ?_
        refine (hr.wW _ heI).bind fun s hr => ?_
        rw [Ok_pure]
        refine ⟨_, _, iw, hr, hd, hn1, by dsimp only; omega,
          fun x => ?_, hI, hO, fun x hx h1 h2 => ?_, fun x hx => ?_, fun hq x hx => ?_⟩
        · dsimp only
          rw [hB, hsucc]
          constructor
          · rintro ⟨h1, h2⟩
            exact ⟨Or.inl h1, h2⟩
          · rintro ⟨h1 | rfl, h2⟩
            · exact ⟨h1, h2⟩
            · omega
        · dsimp only
          by_cases q1 : x = e
          · subst q1; rw [Function.update_self, Function.update_self]; exact ⟨rfl, rfl⟩
          · rw [Function.update_of_ne q1, Function.update_of_ne q1]
            exact hS x (((hsucc x).1 hx).resolve_right q1) h1 h2
        · have q1 : x ≠ e := by
            rintro rfl
            exact hx ⟨(hsucc x).2 (Or.inr rfl), hw0, by omega⟩
          dsimp only
          rw [Function.update_of_ne q1, Function.update_of_ne q1]
          exact hU x fun h => hx ⟨(hsucc x).2 (Or.inl h.1), h.2⟩
        · dsimp only at hq
          omega
    · rw [if_neg hw0, Ok_pure]
      refine ⟨pe, w, iw, hr, hd, hn1, by omega,
          fun x => ?_, hI, hO, fun x hx h1 h2 => ?_, fun x hx => ?_, fun hq x hx => by omega⟩
      · rw [hB, hsucc]
        constructor
        · rintro ⟨h1, h2⟩
          exact ⟨Or.inl h1, h2⟩
        · rintro ⟨h1 | rfl, h2⟩
          · exact ⟨h1, h2⟩
          · omega
      · rcases (hsucc x).1 hx with hx | rfl
        · exact hS x hx h1 h2
        · omega
      · exact hU x fun h => hx ⟨(hsucc x).2 (Or.inl h.1), h.2⟩
  · rintro q ⟨pe, w, iw, hr, hd, hn1, hn2, hB, hI, hO, hS, hU, hA⟩
    rw [show p1 + el - p1 = el by ring] at *
    exact ⟨pe, w, iw, hr, hd, hn1, hn2, hB, hI, hO, hS, hU, hA⟩

theorem scanVars_ok {q : L2} (hr : Rep n L q.s a) {lo hi : Int} (hp : 0 ≤ q.pn) (hpl : q.pn ≤ lo)
    (hle : lo ≤ hi) (htop : hi ≤ a.top) (hL : hi ≤ L) (hv : ∀ e, InB a.iw lo (hi - lo) e → Idx n e) :
    Ok (scanVars (lo - 1) hi q) (fun q' => ∃ iw,
      Rep n L q'.s { a with iw := iw } ∧ q.deg ≤ q'.deg ∧ q.pn ≤ q'.pn ∧ q'.pn - q.pn ≤ hi - lo ∧
      (∀ e, InB iw q.pn (q'.pn - q.pn) e ↔ InB a.iw lo (hi - lo) e ∧ 0 < a.nv e) ∧
      (∀ p, p < q.pn ∨ q'.pn ≤ p → iw p = a.iw p) ∧
      (q'.pn - q.pn = hi - lo → ∀ e, InB a.iw lo (hi - lo) e → 0 < a.nv e)) := by
  unfold scanVars
  rw [show lo - 1 + 1 = lo by ring]
  refine forI_ok (fun p (q' : L2) => ∃ iw,
      Rep n L q'.s { a with iw := iw } ∧ q.deg ≤ q'.deg ∧ q.pn ≤ q'.pn ∧ q'.pn - q.pn ≤ p - lo ∧
      (∀ e, InB iw q.pn (q'.pn - q.pn) e ↔ InB a.iw lo (p - lo) e ∧ 0 < a.nv e) ∧
      (∀ p, p < q.pn ∨ q'.pn ≤ p → iw p = a.iw p) ∧
      (q'.pn - q.pn = p - lo → ∀ e, InB a.iw lo (p - lo) e → 0 < a.nv e)) hle ?_ ?_ ?_
  · refine ⟨a.iw, hr, le_rfl, le_rfl, by omega, fun e => ?_, fun _ _ => rfl, fun _ e he => ?_⟩
    · constructor
      · rintro ⟨k, k0, k1, _⟩; omega
      · rintro ⟨⟨k, k0, k1, _⟩, _⟩; omega
    · obtain ⟨k, k0, k1, _⟩ := he; omega
  · rintro p q' p0 p1' ⟨iw, hr, hd, hn1, hn2, hB, hO, hA⟩
    have hin : InB a.iw lo (hi - lo) (a.iw p) := ⟨p - lo, by omega, by omega, by congr 1; ring⟩
    have hsucc : ∀ x, InB a.iw lo (p + 1 - lo) x ↔ InB a.iw lo (p - lo) x ∨ x = a.iw p := by
      intro x
      rw [show p + 1 - lo = (p - lo) + 1 by ring, InB.succ (by omega),
        show lo + (p - lo) = p by ring]
    have ei : iw p = a.iw p := hO p (Or.inr (by omega))
    refine Ok_rd (hr.rIw (by omega) (by dsimp only; omega) (by omega)) ?_
    dsimp only
    rw [ei]
    have heI := hv _ hin
    refine Ok_rd (hr.rNv heI) ?_
    dsimp only
    generalize a.iw p = e at *
    by_cases hgt : a.nv e > 0
    · rw [if_pos hgt]
      refine (hr.wIw (i := q'.pn) e (by omega) (by dsimp only; omega) (by omega)).bind fun s hr => ?_
      rw [Ok_pure]
      refine ⟨_, hr, by dsimp only; omega, by dsimp only; omega, by dsimp only; omega,
        fun x => ?_, fun p' hp' => ?_, fun hq x hx => ?_⟩
      · dsimp only
        have := InB.push (iw := iw) (p := q.pn) (m := q'.pn - q.pn) (v := e) (by omega) x
        rw [show q.pn + (q'.pn - q.pn) = q'.pn by ring] at this
        rw [show q'.pn + 1 - q.pn = q'.pn - q.pn + 1 by ring, this, hB, hsucc]
        constructor
        · rintro (⟨h1, h2⟩ | rfl)
          · exact ⟨Or.inl h1, h2⟩
          · exact ⟨Or.inr rfl, by omega⟩
        · rintro ⟨h1 | rfl, h2⟩
          · exact Or.inl ⟨h1, h2⟩
          · exact Or.inr rfl
      · dsimp only at hp' ⊢
        rw [Function.update_of_ne (by omega)]
        exact hO p' (by omega)
      · dsimp only at hq
        rcases (hsucc x).1 hx with hx | rfl
        · exact hA (by omega) x hx
        · omega
    · rw [if_neg hgt, Ok_pure]
      refine ⟨iw, hr, hd, hn1, by omega, fun x => ?_, hO, fun hq x hx => by omega⟩
      rw [hB, hsucc]
      constructor
      · rintro ⟨h1, h2⟩
        exact ⟨Or.inl h1, h2⟩
      · rintro ⟨h1 | rfl, h2⟩
        · exact ⟨h1, h2⟩
        · omega
  · rintro q' h
    exact h

/-! ### `me` becomes the first element of the list -/

/-- the list after `me` has been put in front -/
def placed (g : Int → Int) (me p1 p3 pn : Int) : Int → Int :=
  update (update (update g pn (g p3)) p3 (g p1)) p1 me

section placed
variable {g : Int → Int} {me p1 p3 pn : Int}

theorem placed_out (h1 : p1 ≤ p3) (h3 : p3 ≤ pn) {p : Int} (hp : p < p1 ∨ pn < p) :
    placed g me p1 p3 pn p = g p := by
  unfold placed
  rw [Function.update_of_ne (by omega), Function.update_of_ne (by omega),
    Function.update_of_ne (by omega)]

theorem placed_fst : placed g me p1 p3 pn p1 = me := by
  unfold placed; rw [Function.update_self]

theorem placed_p3 (h : p1 < p3) : placed g me p1 p3 pn p3 = g p1 := by
  unfold placed; rw [Function.update_of_ne (by omega), Function.update_self]

theorem placed_mid {p : Int} (h1 : p1 < p) (h3 : p ≠ p3) (hn : p ≠ pn) :
    placed g me p1 p3 pn p = g p := by
  unfold placed
  rw [Function.update_of_ne (by omega), Function.update_of_ne h3, Function.update_of_ne hn]

theorem placed_pn (h1 : p1 < pn) (h3 : p3 < pn) : placed g me p1 p3 pn pn = g p3 := by
  unfold placed
  rw [Function.update_of_ne (by omega), Function.update_of_ne (by omega), Function.update_self]

theorem placed_E (h1 : p1 ≤ p3) (h3 : p3 ≤ pn) (e : Int) :
    InB (placed g me p1 p3 pn) p1 (p3 - p1 + 1) e ↔ e = me ∨ InB g p1 (p3 - p1) e := by
  constructor
  · rintro ⟨k, k0, k1, ek⟩
    by_cases q : k = 0
    · subst q
      rw [add_zero, placed_fst] at ek
      exact Or.inl ek.symm
    · by_cases q' : p1 + k = p3
      · rw [q', placed_p3 (by omega)] at ek
        exact Or.inr ⟨0, le_rfl, by omega, by rw [add_zero]; exact ek⟩
      · rw [placed_mid (by omega) q' (by omega)] at ek
        exact Or.inr ⟨k, k0, by omega, ek⟩
  · rintro (rfl | ⟨k, k0, k1, ek⟩)
    · exact ⟨0, le_rfl, by omega, by rw [add_zero, placed_fst]⟩
    · by_cases q : k = 0
      · subst q
        refine ⟨p3 - p1, by omega, by omega, ?_⟩
        rw [show p1 + (p3 - p1) = p3 by ring, placed_p3 (by omega)]
        rw [add_zero] at ek; exact ek
      · refine ⟨k, k0, by omega, ?_⟩
        rw [placed_mid (by omega) (by omega) (by omega)]; exact ek

theorem placed_A (h1 : p1 ≤ p3) (_h3 : p3 ≤ pn) (hlt : p1 < pn) (j : Int) :
    InB (placed g me p1 p3 pn) (p1 + (p3 - p1 + 1)) (pn - p1 + 1 - (p3 - p1 + 1)) j ↔
      InB g p3 (pn - p3) j := by
  rw [show p1 + (p3 - p1 + 1) = p3 + 1 by ring, show pn - p1 + 1 - (p3 - p1 + 1) = pn - p3 by ring]
  constructor
  · rintro ⟨k, k0, k1, ek⟩
    by_cases q' : p3 + 1 + k = pn
    · rw [q', placed_pn hlt (by omega)] at ek
      exact ⟨0, le_rfl, by omega, by rw [add_zero]; exact ek⟩
    · rw [placed_mid (by omega) (by omega) q'] at ek
      exact ⟨k + 1, by omega, by omega, by rw [← ek]; congr 1; ring⟩
  · rintro ⟨k, k0, k1, ek⟩
    by_cases q : k = 0
    · subst q
      refine ⟨pn - p3 - 1, by omega, by omega, ?_⟩
      rw [show p3 + 1 + (pn - p3 - 1) = pn by ring, placed_pn hlt (by omega)]
      rw [add_zero] at ek; exact ek
    · refine ⟨k - 1, by omega, by omega, ?_⟩
      rw [show p3 + 1 + (k - 1) = p3 + k by ring, placed_mid (by omega) (by omega) (by omega)]
      exact ek

theorem placed_inj (h1 : p1 ≤ p3) (h3 : p3 ≤ pn) (hg : Inj g p1 (p3 - p1))
    (hme : ¬ InB g p1 (p3 - p1) me) : Inj (placed g me p1 p3 pn) p1 (p3 - p1 + 1) := by
  -- position `0` holds `me`, position `p3 - p1` what was at `0`
  have val : ∀ k, 0 < k → k < p3 - p1 + 1 → ∃ k', 0 ≤ k' ∧ k' < p3 - p1 ∧
      placed g me p1 p3 pn (p1 + k) = g (p1 + k') ∧ (k' = 0 ↔ k = p3 - p1) ∧ (k' ≠ 0 → k' = k) := by
    intro k k0 k1
    by_cases q : k = p3 - p1
    · refine ⟨0, le_rfl, by omega, ?_, by omega, by omega⟩
      rw [q, show p1 + (p3 - p1) = p3 by ring, placed_p3 (by omega), add_zero]
    · exact ⟨k, by omega, by omega, placed_mid (by omega) (by omega) (by omega), by omega, fun _ => rfl⟩
  intro k k' k0 k1 k0' k1' e
  by_cases q : k = 0
  · by_cases q' : k' = 0
    · omega
    · obtain ⟨c, c0, c1, c2, _⟩ := val k' (by omega) k1'
      rw [q, add_zero, placed_fst, c2] at e
      exact (hme ⟨c, c0, c1, e.symm⟩).elim
  · obtain ⟨c, c0, c1, c2, c3, c4⟩ := val k (by omega) k1
    by_cases q' : k' = 0
    · rw [q', add_zero, placed_fst, c2] at e
      exact (hme ⟨c, c0, c1, e⟩).elim
    · obtain ⟨d, d0, d1, d2, d3, d4⟩ := val k' (by omega) k1'
      rw [c2, d2] at e
      have := hg c d c0 c1 d0 d1 e
      omega

end placed

end Ecos.Amd
