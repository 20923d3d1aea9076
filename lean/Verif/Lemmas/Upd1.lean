import Verif.Lemmas.Setup1

/-!
# New values for the (3,3) block of the KKT matrix
-/
namespace Ecos.Asm

open Ecos Finset Ecos.Fact

set_option linter.unusedSectionVars false

section generic
variable {F : Type} [Zero F] [One F] [Add F] [Sub F] [Mul F] [Div F] [Neg F] [OfScientific F]
  [IntCast F] [PFloat F] {T : Parts F}

/-- number of entries of `G` in a column of the expanded matrix -/
noncomputable def Parts.gc (T : Parts F) : Nat → Nat :=
  glue T.S.x T.cG (fun k j => if j < T.S.q k then T.cG (T.S.start k + j) else 0) fun l j => T.cG (T.S.fexv + 3 * l + j)

theorem Parts.gc_lp {i : Nat} (h : i < T.S.l) : T.gc i = T.cG i := glue_lp T.S.x _ _ _ h
theorem Parts.gc_soc {k j : Nat} (hk : k < T.S.ns) (hj : j < T.S.q k) : T.gc (T.S.x.start k + j) = T.cG (T.S.start k + j) := by
  have hj' : j < T.S.x.q k := by show j < T.S.q k + 2; omega
  unfold gc
  rw [glue_soc_at (S := T.S.x) hk hj', if_pos hj]
theorem Parts.gc_pad {k j : Nat} (hk : k < T.S.ns) (hj : j < T.S.q k + 2) (h : T.S.q k ≤ j) : T.gc (T.S.x.start k + j) = 0 := by
  have hj' : j < T.S.x.q k := hj
  unfold gc
  rw [glue_soc_at (S := T.S.x) hk hj', if_neg (by omega)]
theorem Parts.gc_exp {l j : Nat} (hj : j < 3) : T.gc (T.S.x.fexv + 3 * l + j) = T.cG (T.S.fexv + 3 * l + j) := glue_exp_at hj

/-- the entries of the (3,3) block replaced by `V`: column, number within the column -/
noncomputable def Parts.withV (T : Parts F) (V : Nat → Nat → F) (f : Nat → F) (x : Nat) : F :=
  if T.n + T.p ≤ colOf T.N T.off x ∧ T.gc (colOf T.N T.off x - (T.n + T.p)) ≤ x - T.off (colOf T.N T.off x) then
    V (colOf T.N T.off x - (T.n + T.p)) (x - T.off (colOf T.N T.off x) - T.gc (colOf T.N T.off x - (T.n + T.p)))
  else f x

variable {V : Nat → Nat → F} {f : Nat → F}

theorem Parts.withV_low {c t : Nat} (hc : c < T.n + T.p) (ht : t < (T.col c).len) : T.withV V f (T.off c + t) = f (T.off c + t) := by
  have hN : T.N = T.n + T.p + T.S.x.m := rfl
  unfold withV
  rw [T.colOf_at (by omega) ht, if_neg (by omega)]

theorem Parts.withV_at {i t : Nat} (hi : i < T.S.x.m) (ht : t < (T.col (T.n + T.p + i)).len) :
    T.withV V f (T.off (T.n + T.p + i) + t) = if T.gc i ≤ t then V i (t - T.gc i) else f (T.off (T.n + T.p + i) + t) := by
  have hN : T.N = T.n + T.p + T.S.x.m := rfl
  unfold withV
  rw [T.colOf_at (by omega) ht, Nat.add_sub_cancel_left, Nat.add_sub_cancel_left]
  by_cases h : T.gc i ≤ t
  · rw [if_pos h, if_pos ⟨by omega, h⟩]
  · rw [if_neg h, if_neg fun h' => h h'.2]

/-- the values in the matrix, by position before the permutation -/
structure KV (b : Buf F) (M : Nat) (pk : Nat → Nat) (f : Nat → F) : Prop where
  size : b.size = M
  at_ : ∀ x, x < M → b[pk x]? = some (some (f x))

theorem KV.congr {b : Buf F} {M : Nat} {pk : Nat → Nat} {f g : Nat → F} (h : KV b M pk f) (e : ∀ x, x < M → f x = g x) : KV b M pk g :=
  ⟨h.size, fun x hx => by rw [← e x hx]; exact h.at_ x hx⟩

variable {P : Buf Nat} {M : Nat} {pk : Nat → Nat} {tgt : Nat → F}

theorem setPK_ok (hP : Holds P M pk) (hπ : IsPerm M pk) {b : Buf F} (h : KV b M pk f) {z : Nat} (hz : z < M) (v : F) :
    Ok (setPK P b z v) fun b' => KV b' M pk fun x => if x = z then v else f x := by
  unfold setPK
  rw [hP.rd hz, ok_bind_eq]
  refine (wr_seg (by rw [h.size]; exact hπ.lt z hz)).mono fun b' hb => ⟨by rw [hb.size, h.size], fun x hx => ?_⟩
  by_cases e : x = z
  · subst e
    rw [if_pos rfl]
    exact hb.inside 0 (by omega)
  · have : pk x ≠ pk z := fun h' => e (hπ.inj x z hx hz h')
    rw [if_neg e, hb.outside _ (by omega)]
    exact h.at_ x hx

/-- everything before position `y` has its new value -/
abbrev Prog (b : Buf F) (M : Nat) (pk : Nat → Nat) (f tgt : Nat → F) (y : Nat) : Prop :=
  KV b M pk fun x => if x < y then tgt x else f x

theorem Prog.skip {b : Buf F} {y z : Nat} (h : Prog b M pk f tgt y) (hyz : y ≤ z) (e : ∀ x, y ≤ x → x < z → f x = tgt x) :
    Prog b M pk f tgt z :=
  h.congr fun x _ => by
    by_cases h1 : x < y
    · rw [if_pos h1, if_pos (by omega)]
    · by_cases h2 : x < z
      · rw [if_neg h1, if_pos h2]; exact e x (by omega) h2
      · rw [if_neg h1, if_neg h2]

theorem setPK_prog (hP : Holds P M pk) (hπ : IsPerm M pk) {b : Buf F} {y z : Nat} {v : F} (h : Prog b M pk f tgt y) (hyz : y ≤ z)
    (hz : z < M) (e : ∀ x, y ≤ x → x < z → f x = tgt x) (hv : v = tgt z) : Ok (setPK P b z v) fun b' => Prog b' M pk f tgt (z + 1) := by
  refine (setPK_ok hP hπ (h.skip hyz e) hz v).mono fun b' hb => hb.congr fun x _ => ?_
  by_cases h1 : x = z
  · subst h1
    rw [if_pos rfl, if_pos (by omega), hv]
  · rw [if_neg h1]
    by_cases h2 : x < z
    · rw [if_pos h2, if_pos (by omega)]
    · rw [if_neg h2, if_neg (by omega)]

/-! ### One column -/

variable (hT : T.Ok) (hP : Holds P (T.off T.N) pk) (hπ : IsPerm (T.off T.N) pk)
include hT hP hπ

/-- the only entry of the block in a column behind entries of `G` -/
theorem diag_prog {b : Buf F} {i c : Nat} {v : F} (hi : i < T.S.x.m) (hc : T.gc i = c) (hlen : (T.col (T.n + T.p + i)).len = c + 1)
    (h : Prog b (T.off T.N) pk f (T.withV V f) (T.off (T.n + T.p + i))) (hv : v = V i 0) :
    Ok (setPK P b (T.off (T.n + T.p + i) + c) v) fun b' => Prog b' (T.off T.N) pk f (T.withV V f) (T.off (T.n + T.p + (i + 1))) := by
  have hN : T.N = T.n + T.p + T.S.x.m := rfl
  refine (setPK_prog hP hπ h (by omega) (T.lt_off (by omega) (by omega)) (fun x h1 h2 => ?_) ?_).mono fun b' hb => ?_
  · obtain ⟨t, rfl⟩ : ∃ t, x = T.off (T.n + T.p + i) + t := ⟨x - T.off (T.n + T.p + i), by omega⟩
    rw [T.withV_at hi (by omega), if_neg (by omega)]
  · rw [T.withV_at hi (by omega), if_pos (by omega), hc, Nat.sub_self]
    exact hv
  · rw [← Nat.add_assoc, T.off_succ, hlen]
    exact hb

theorem V_at {i t : Nat} (hi : i < T.S.x.m) (hc : T.gc i = 0) (ht : t < (T.col (T.n + T.p + i)).len) :
    T.withV V f (T.off (T.n + T.p + i) + t) = V i t := by
  rw [T.withV_at hi ht, if_pos (by omega), hc, Nat.sub_zero]

/-- values of the block in the columns of a second-order cone -/
def socBlock (q : Nat) (D0 Dk : F) (v : Nat → F) (vd u0 : F) (u : Nat → F) (ud : F) (j t : Nat) : F :=
  if j = 0 then D0 else if j < q then Dk
  else if j = q then if t < q - 1 then v t else vd
  else if t = 0 then u0 else if t < q then u (t - 1) else ud

theorem setSoc_ok {c : SoCone F} {b : Buf F} {k : Nat} {D0 Dk vd u0 ud : F} {v u : Nat → Ecos.M F} {vf uf : Nat → F} (hk : k < T.S.ns)
    (hc : SocWF c (T.S.q k) (T.ix.d k)) (hv : ∀ t, t < T.S.q k - 1 → v t = .ok (vf t)) (hu : ∀ t, t < T.S.q k - 1 → u t = .ok (uf t))
    (hV : ∀ j t, j < T.S.q k + 2 → V (T.S.x.start k + j) t = socBlock (T.S.q k) D0 Dk vf vd u0 uf ud j t)
    (h : Prog b (T.off T.N) pk f (T.withV V f) (T.off (T.n + T.p + T.S.x.start k))) :
    Ok (setSoc P c b D0 Dk v vd u0 u ud) fun b' => Prog b' (T.off T.N) pk f (T.withV V f) (T.off (T.n + T.p + T.S.x.start (k + 1))) := by
  have hN : T.N = T.n + T.p + T.S.x.m := rfl
  have hq := hT.pos k hk
  have hxb := T.x_bound hk
  have hxs : T.S.x.start (k + 1) = T.S.x.start k + (T.S.q k + 2) := T.S.x.start_succ k
  have hlen : ∀ j, j < T.S.q k → (T.col (T.n + T.p + (T.S.x.start k + j))).len = T.cG (T.S.start k + j) + 1 := by
    intro j hj
    rw [T.col_soc hk (by omega)]
    unfold Parts.socCol
    simp only
    rw [if_pos hj]
    rfl
  have hlv : (T.col (T.n + T.p + (T.S.x.start k + T.S.q k))).len = T.S.q k := by
    rw [T.col_soc hk (by omega)]
    unfold Parts.socCol
    simp only
    rw [if_neg (by omega), if_pos trivial]
  have hlu : (T.col (T.n + T.p + (T.S.x.start k + (T.S.q k + 1)))).len = T.S.q k + 1 := by
    rw [T.col_soc hk (by omega)]
    unfold Parts.socCol
    simp only
    rw [if_neg (by omega), if_neg (by omega)]
  have hgv : T.gc (T.S.x.start k + T.S.q k) = 0 := T.gc_pad hk (by omega) le_rfl
  have hgu : T.gc (T.S.x.start k + (T.S.q k + 1)) = 0 := T.gc_pad hk (by omega) (by omega)
  have hd : ∀ j, j < T.S.q k → T.ix.d k j = T.off (T.n + T.p + (T.S.x.start k + j)) + T.cG (T.S.start k + j) := fun j _ => rfl
  -- first position of the v column and the u column
  have hov : T.off (T.n + T.p + (T.S.x.start k + T.S.q k)) = T.ix.d k (T.S.q k - 1) + 1 := by
    have := T.off_succ (T.n + T.p + (T.S.x.start k + (T.S.q k - 1)))
    rw [hlen _ (by omega)] at this
    rw [hd _ (by omega), show T.n + T.p + (T.S.x.start k + T.S.q k) = T.n + T.p + (T.S.x.start k + (T.S.q k - 1)) + 1 by omega, this]
    omega
  have hou : T.off (T.n + T.p + (T.S.x.start k + (T.S.q k + 1))) = T.ix.d k (T.S.q k - 1) + 1 + T.S.q k := by
    have := T.off_succ (T.n + T.p + (T.S.x.start k + T.S.q k))
    rw [hlv, hov] at this
    rw [← this]
    rfl
  have hoe : T.off (T.n + T.p + T.S.x.start (k + 1)) = T.ix.d k (T.S.q k - 1) + 1 + T.S.q k + (T.S.q k + 1) := by
    have := T.off_succ (T.n + T.p + (T.S.x.start k + (T.S.q k + 1)))
    rw [hlu, hou] at this
    rw [← this, hxs]
    rfl
  have hM : T.off (T.n + T.p + T.S.x.start (k + 1)) ≤ T.off T.N := T.off_mono (by omega)
  have vv : ∀ t, t < T.S.q k → T.withV V f (T.ix.d k (T.S.q k - 1) + 1 + t) = if t < T.S.q k - 1 then vf t else vd := by
    intro t ht
    rw [← hov, V_at hT hP hπ (by omega) hgv (by omega), hV _ _ (by omega)]
    unfold socBlock
    rw [if_neg (by omega), if_neg (by omega), if_pos rfl]
  have vu : ∀ t, t < T.S.q k + 1 → T.withV V f (T.ix.d k (T.S.q k - 1) + 1 + T.S.q k + t) =
      if t = 0 then u0 else if t < T.S.q k then uf (t - 1) else ud := by
    intro t ht
    rw [← hou, V_at hT hP hπ (by omega) hgu (by omega), hV _ _ (by omega)]
    unfold socBlock
    rw [if_neg (by omega), if_neg (by omega), if_neg (by omega)]
  unfold setSoc
  rw [hc.di.rd hq, ok_bind_eq, hc.sz]
  have h0 : Ok (setPK P b (T.ix.d k 0) D0) fun b' => Prog b' (T.off T.N) pk f (T.withV V f) (T.off (T.n + T.p + (T.S.x.start k + 1))) := by
    refine diag_prog hT hP hπ (i := T.S.x.start k + 0) (by omega) (T.gc_soc hk hq) (hlen 0 hq) h ?_
    rw [hV 0 0 (by omega)]
    unfold socBlock
    rw [if_pos rfl]
  refine Ok.bind h0 fun b1 h1 => ?_
  refine Ok.bind (P := fun b' => Prog b' (T.off T.N) pk f (T.withV V f) (T.ix.d k (T.S.q k - 1) + 1)) ?_ fun b2 h2 => ?_
  · refine loop_ok (fun j b' => Prog b' (T.off T.N) pk f (T.withV V f) (T.off (T.n + T.p + (T.S.x.start k + j)))) (by omega) h1 ?_ ?_
    · intro j b' hj1 hj2 hb
      rw [hc.di.rd (by omega), ok_bind_eq]
      refine diag_prog hT hP hπ (i := T.S.x.start k + j) (by omega) (T.gc_soc hk (by omega)) (hlen j (by omega)) hb ?_
      rw [hV j 0 (by omega)]
      unfold socBlock
      rw [if_neg (by omega), if_pos hj2]
    · intro b' hb
      rw [hov] at hb
      exact hb
  rw [hc.di.rd (by omega), ok_bind_eq]
  refine Ok.bind (P := fun b' => Prog b' (T.off T.N) pk f (T.withV V f) (T.ix.d k (T.S.q k - 1) + T.S.q k)) ?_ fun b3 h3 => ?_
  · refine loop_ok (fun j b' => Prog b' (T.off T.N) pk f (T.withV V f) (T.ix.d k (T.S.q k - 1) + 1 + j)) (by omega) h2 ?_ ?_
    · intro j b' _ hj hb
      rw [hv j hj, ok_bind_eq]
      refine setPK_prog hP hπ hb le_rfl (by omega) (fun x _ _ => by omega) ?_
      rw [vv j (by omega), if_pos hj]
    · intro b' hb
      rw [show T.ix.d k (T.S.q k - 1) + 1 + (T.S.q k - 1) = T.ix.d k (T.S.q k - 1) + T.S.q k by omega] at hb
      exact hb
  refine Ok.bind (setPK_prog hP hπ h3 le_rfl (by omega) (fun x _ _ => by omega) ?_) fun b4 h4 => ?_
  · have := vv (T.S.q k - 1) (by omega)
    rw [if_neg (by omega)] at this
    rw [← this]
    congr 1
    omega
  refine Ok.bind (setPK_prog hP hπ h4 le_rfl (by omega) (fun x _ _ => by omega) ?_) fun b5 h5 => ?_
  · have := vu 0 (by omega)
    rw [if_pos rfl] at this
    rw [← this]
    congr 1
    omega
  refine Ok.bind (P := fun b' => Prog b' (T.off T.N) pk f (T.withV V f) (T.ix.d k (T.S.q k - 1) + 2 * T.S.q k + 1)) ?_ fun b6 h6 => ?_
  · refine loop_ok (fun j b' => Prog b' (T.off T.N) pk f (T.withV V f) (T.ix.d k (T.S.q k - 1) + T.S.q k + 1 + 1 + j)) (by omega) h5 ?_ ?_
    · intro j b' _ hj hb
      rw [hu j hj, ok_bind_eq]
      refine setPK_prog hP hπ hb le_rfl (by omega) (fun x _ _ => by omega) ?_
      have := vu (j + 1) (by omega)
      rw [if_neg (by omega), if_pos (by omega), Nat.add_sub_cancel] at this
      rw [← this]
      congr 1
      omega
    · intro b' hb
      rw [show T.ix.d k (T.S.q k - 1) + T.S.q k + 1 + 1 + (T.S.q k - 1) = T.ix.d k (T.S.q k - 1) + 2 * T.S.q k + 1 by omega] at hb
      exact hb
  refine (setPK_prog hP hπ h6 le_rfl (by omega) (fun x _ _ => by omega) ?_).mono fun b7 h7 => ?_
  · have := vu (T.S.q k) (by omega)
    rw [if_neg (by omega), if_neg (by omega)] at this
    rw [← this]
    congr 1
    omega
  · rw [hoe, show T.ix.d k (T.S.q k - 1) + 1 + T.S.q k + (T.S.q k + 1) = T.ix.d k (T.S.q k - 1) + 2 * T.S.q k + 1 + 1 by omega]
    exact h7

/-! ### `kkt_update` -/

omit hT hP hπ
/-- values of the block in the columns of an exponential cone -/
def expBlock (e : Nat → F) (j t : Nat) : F :=
  if t < j then -e ((if j = 1 then 1 else 3) + t) else (-e (if j = 0 then 0 else if j = 1 then 2 else 5)) - DELTASTAT

/-- values of the block for scalings `W` -/
noncomputable def updV (S : Shape) (W : ConeV F) : Nat → Nat → F :=
  glue S.x (fun i _ => (-W.lv i) - DELTASTAT)
    (fun k j => socBlock (S.q k) ((-(W.V k).etaSq) * (W.V k).d1 - DELTASTAT) ((-(W.V k).etaSq) - DELTASTAT)
      (fun t => (-(W.V k).etaSq) * (W.V k).v1 * (W.V k).q t) (-(W.V k).etaSq) ((-(W.V k).etaSq) * (W.V k).u0)
      (fun t => (-(W.V k).etaSq) * (W.V k).u1 * (W.V k).q t) ((W.V k).etaSq + DELTASTAT) j)
    fun l j => expBlock (W.ev l) j

/-- values of the block at the start -/
noncomputable def initV (S : Shape) : Nat → Nat → F :=
  glue S.x (fun _ _ => -1.0) (fun k j => socBlock (S.q k) (-1.0) (-1.0) (fun _ => 0.0) (-1.0) 0.0 (fun _ => 0.0) 1.0 j)
    fun _ _ _ => 0

include hT hP hπ

theorem exp_len {l j : Nat} (hj : j < 3) : (T.col (T.n + T.p + (T.S.x.fexv + 3 * l + j))).len = T.cG (T.S.fexv + 3 * l + j) + (j + 1) := by
  rw [T.col_exp hj]; rfl

theorem kktUpdateExp_ok {c : ExpCone F} {b : Buf F} {l : Nat} {e : Nat → F} (hl : l < T.S.ne) (hc : ExpWF c (T.ix.e l)) (he : Holds c.v 6 e)
    (hV : ∀ j t, j < 3 → V (T.S.x.fexv + 3 * l + j) t = expBlock e j t)
    (h : Prog b (T.off T.N) pk f (T.withV V f) (T.off (T.n + T.p + (T.S.x.fexv + 3 * l)))) :
    Ok (kktUpdateExp P c b) fun b' => Prog b' (T.off T.N) pk f (T.withV V f) (T.off (T.n + T.p + (T.S.x.fexv + 3 * (l + 1)))) := by
  have hN : T.N = T.n + T.p + T.S.x.m := rfl
  have hxm : T.S.x.m = T.S.x.fexv + 3 * T.S.ne := rfl
  have l0 := exp_len hT hP hπ (l := l) (j := 0) (by omega)
  have l1 := exp_len hT hP hπ (l := l) (j := 1) (by omega)
  have l2 := exp_len hT hP hπ (l := l) (j := 2) (by omega)
  have o0 := T.off_succ (T.n + T.p + (T.S.x.fexv + 3 * l + 0))
  have o1 := T.off_succ (T.n + T.p + (T.S.x.fexv + 3 * l + 1))
  have o2 := T.off_succ (T.n + T.p + (T.S.x.fexv + 3 * l + 2))
  rw [l0, show T.n + T.p + (T.S.x.fexv + 3 * l + 0) + 1 = T.n + T.p + (T.S.x.fexv + 3 * l + 1) by omega] at o0
  rw [l1, show T.n + T.p + (T.S.x.fexv + 3 * l + 1) + 1 = T.n + T.p + (T.S.x.fexv + 3 * l + 2) by omega] at o1
  rw [l2, show T.n + T.p + (T.S.x.fexv + 3 * l + 2) + 1 = T.n + T.p + (T.S.x.fexv + 3 * (l + 1)) by omega] at o2
  have hM : T.off (T.n + T.p + (T.S.x.fexv + 3 * (l + 1))) ≤ T.off T.N := T.off_mono (by omega)
  have key : ∀ j t, j < 3 → t ≤ j → T.withV V f (T.off (T.n + T.p + (T.S.x.fexv + 3 * l + j)) + (T.cG (T.S.fexv + 3 * l + j) + t)) = expBlock e j t := by
    intro j t hj ht
    rw [T.withV_at (by omega) (by rw [exp_len hT hP hπ hj]; omega), T.gc_exp hj, if_pos (by omega), Nat.add_sub_cancel_left, hV j t hj]
  have low : ∀ j x, j < 3 → T.off (T.n + T.p + (T.S.x.fexv + 3 * l + j)) ≤ x →
      x < T.off (T.n + T.p + (T.S.x.fexv + 3 * l + j)) + T.cG (T.S.fexv + 3 * l + j) → f x = T.withV V f x := by
    intro j x hj h1 h2
    obtain ⟨t, rfl⟩ : ∃ t, x = T.off (T.n + T.p + (T.S.x.fexv + 3 * l + j)) + t := ⟨x - T.off (T.n + T.p + (T.S.x.fexv + 3 * l + j)), by omega⟩
    rw [T.withV_at (by omega) (by rw [exp_len hT hP hπ hj]; omega), T.gc_exp hj, if_neg (by omega)]
  have d : ∀ j, T.ix.e l j = T.off (T.n + T.p + (T.S.x.fexv + 3 * l + j)) + T.cG (T.S.fexv + 3 * l + j) := fun _ => rfl
  have d0 := d 0
  have d1 := d 1
  have d2 := d 2
  have hb0 : T.n + T.p + (T.S.x.fexv + 3 * l) = T.n + T.p + (T.S.x.fexv + 3 * l + 0) := rfl
  rw [hb0] at h
  unfold kktUpdateExp
  rw [hc.cs.rd (by omega), ok_bind_eq, hc.cs.rd (by omega), ok_bind_eq, hc.cs.rd (by omega), ok_bind_eq, he.rd (by omega), ok_bind_eq,
    he.rd (by omega), ok_bind_eq, he.rd (by omega), ok_bind_eq, he.rd (by omega), ok_bind_eq, he.rd (by omega), ok_bind_eq,
    he.rd (by omega), ok_bind_eq]
  refine Ok.bind (setPK_prog hP hπ h (by omega) (by omega) (fun x h1 h2 => low 0 x (by omega) h1 (by omega)) ?_) fun b1 g1 => ?_
  · have := key 0 0 (by omega) le_rfl
    rw [d0, ← Nat.add_zero (T.cG _), this]
    rfl
  refine Ok.bind (setPK_prog hP hπ g1 (by omega) (by omega) (fun x h1 h2 => low 1 x (by omega) (by omega) (by omega)) ?_) fun b2 g2 => ?_
  · have := key 1 0 (by omega) (by omega)
    rw [d1, ← Nat.add_zero (T.cG _), this]
    rfl
  refine Ok.bind (setPK_prog hP hπ g2 (by omega) (by omega) (fun x h1 h2 => by omega) ?_) fun b3 g3 => ?_
  · have := key 1 1 (by omega) (by omega)
    rw [d1, Nat.add_assoc, this]
    rfl
  refine Ok.bind (setPK_prog hP hπ g3 (by omega) (by omega) (fun x h1 h2 => low 2 x (by omega) (by omega) (by omega)) ?_) fun b4 g4 => ?_
  · have := key 2 0 (by omega) (by omega)
    rw [d2, ← Nat.add_zero (T.cG _), this]
    rfl
  refine Ok.bind (setPK_prog hP hπ g4 (by omega) (by omega) (fun x h1 h2 => by omega) ?_) fun b5 g5 => ?_
  · have := key 2 1 (by omega) (by omega)
    rw [d2, Nat.add_assoc, this]
    rfl
  refine (setPK_prog hP hπ g5 (by omega) (by omega) (fun x h1 h2 => by omega) ?_).mono fun b6 g6 => ?_
  · have := key 2 2 (by omega) (by omega)
    rw [d2, Nat.add_assoc, this]
    rfl
  · rw [show T.off (T.n + T.p + (T.S.x.fexv + 3 * (l + 1))) = T.ix.e l 2 + 2 + 1 by omega]
    exact g6

/-- the first columns are not touched -/
theorem prog_start {b : Buf F} (h : KV b (T.off T.N) pk f) : Prog b (T.off T.N) pk f (T.withV V f) (T.off (T.n + T.p + 0)) := by
  have h0 : Prog b (T.off T.N) pk f (T.withV V f) 0 := h.congr fun x _ => by rw [if_neg (by omega)]
  refine h0.skip (Nat.zero_le _) fun x _ hx => ?_
  have hN : T.N = T.n + T.p + T.S.x.m := rfl
  have hM : T.off (T.n + T.p + 0) ≤ T.off T.N := T.off_mono (by omega)
  obtain ⟨c, t, hc, ht, rfl⟩ := T.at_ (x := x) (by omega)
  have : c < T.n + T.p := by
    by_contra hcc
    have := T.off_mono (c := T.n + T.p + 0) (d := c) (by omega)
    omega
  rw [T.withV_low this ht]

theorem lp_prog {b : Buf F} {i : Nat} {v : F} (hi : i < T.S.l) (h : Prog b (T.off T.N) pk f (T.withV V f) (T.off (T.n + T.p + i)))
    (hv : v = V i 0) :
    Ok (setPK P b (T.ix.k i) v) fun b' => Prog b' (T.off T.N) pk f (T.withV V f) (T.off (T.n + T.p + (i + 1))) := by
  have hle : T.S.l ≤ T.S.x.fexv := T.S.x.l_le T.S.ns
  have hxm : T.S.x.m = T.S.x.fexv + 3 * T.S.ne := rfl
  refine diag_prog hT hP hπ (by omega) (T.gc_lp hi) ?_ h hv
  rw [T.col_lp hi]
  rfl

/-- `kkt_update` sets the entries of the (3,3) block and nothing else -/
theorem kktUpdate_ok {C : Cone F} (hC : ConeWF C T.S T.ix) {W : ConeV F} (hW : ScalHolds C T.S W) {K : SpMat F} (h : KV K.pr (T.off T.N) pk f) :
    Ok (kktUpdate K P C) fun K' => ∃ b, K' = { K with pr := b } ∧ KV b (T.off T.N) pk (T.withV (updV T.S W) f) := by
  unfold kktUpdate
  rw [hC.is.l, hC.is.nsoc, hC.is.nexc]
  refine Ok.bind (loop_ok (fun i b => Prog b (T.off T.N) pk f (T.withV (updV T.S W) f) (T.off (T.n + T.p + i))) (by omega)
    (prog_start hT hP hπ h) ?_ fun _ h => h) fun b1 h1 => ?_
  · intro i b _ hi hb
    rw [hW.lv.rd hi, ok_bind_eq, hC.lk.rd hi, ok_bind_eq]
    refine lp_prog hT hP hπ hi hb ?_
    unfold updV
    rw [glue_lp T.S.x _ _ _ hi]
  refine Ok.bind (loop_ok (fun k b => Prog b (T.off T.N) pk f (T.withV (updV T.S W) f) (T.off (T.n + T.p + T.S.x.start k))) (by omega)
    (by rw [T.S.x.start_zero]; exact h1) ?_ fun _ h => h) fun b2 h2 => ?_
  · intro k b _ hk hb
    obtain ⟨c, hc, -⟩ := hC.is.soc k hk
    have hs := hW.soc k c hk hc
    have hwf := hC.swf k c hk hc
    rw [getIdx_some hc, ok_bind_eq]
    unfold kktUpdateSoc
    rw [hs.etaSq, hs.d1, hs.u0, hs.u1, hs.v1]
    simp only [get, ok_bind_eq]
    refine setSoc_ok hT hP hπ hk hwf (vf := fun t => (-(W.V k).etaSq) * (W.V k).v1 * (W.V k).q t)
      (uf := fun t => (-(W.V k).etaSq) * (W.V k).u1 * (W.V k).q t) (fun t ht => ?_) (fun t ht => ?_) (fun j t hj => ?_) hb
    · rw [hs.q.rd ht]; rfl
    · rw [hs.q.rd ht]; rfl
    · have hj' : j < T.S.x.q k := hj
      unfold updV
      rw [glue_soc_at (S := T.S.x) hk hj']
  refine Ok.bind (loop_ok (fun l b => Prog b (T.off T.N) pk f (T.withV (updV T.S W) f) (T.off (T.n + T.p + (T.S.x.fexv + 3 * l)))) (by omega)
    h2 ?_ fun _ h => h) fun b3 h3 => ?_
  · intro l b _ hl hb
    have hlt : l < C.expc.size := by rw [hC.is.esize]; exact hl
    have hc := Array.getElem?_eq_getElem hlt
    rw [getIdx_some hc, ok_bind_eq]
    refine kktUpdateExp_ok hT hP hπ hl (hC.ewf l _ hl hc) (hW.ev l _ hl hc) (fun j t hj => ?_) hb
    unfold updV
    rw [glue_exp_at (S := T.S.x) hj]
  · rw [Ok_pure]
    exact ⟨b3, rfl, h3.congr fun x hx => if_pos hx⟩

/-- `kkt_init` sets the entries of the (3,3) block that belong to linear rows and second-order cones, and nothing else -/
theorem kktInit_ok {C : Cone F} (hC : ConeWF C T.S T.ix) {K : SpMat F} (h : KV K.pr (T.off T.N) pk f) :
    Ok (kktInit K P C) fun K' => ∃ b, K' = { K with pr := b } ∧
      KV b (T.off T.N) pk fun x => if x < T.off (T.n + T.p + T.S.x.fexv) then T.withV (initV T.S) f x else f x := by
  unfold kktInit
  rw [hC.is.l, hC.is.nsoc]
  refine Ok.bind (loop_ok (fun i b => Prog b (T.off T.N) pk f (T.withV (initV T.S) f) (T.off (T.n + T.p + i))) (by omega)
    (prog_start hT hP hπ h) ?_ fun _ h => h) fun b1 h1 => ?_
  · intro i b _ hi hb
    rw [hC.lk.rd hi, ok_bind_eq]
    refine lp_prog hT hP hπ hi hb ?_
    unfold initV
    rw [glue_lp T.S.x _ _ _ hi]
  refine Ok.bind (loop_ok (fun k b => Prog b (T.off T.N) pk f (T.withV (initV T.S) f) (T.off (T.n + T.p + T.S.x.start k))) (by omega)
    (by rw [T.S.x.start_zero]; exact h1) ?_ fun _ h => h) fun b2 h2 => ?_
  · intro k b _ hk hb
    obtain ⟨c, hc, -⟩ := hC.is.soc k hk
    rw [getIdx_some hc, ok_bind_eq]
    refine setSoc_ok hT hP hπ hk (hC.swf k c hk hc) (vf := fun _ => 0.0) (uf := fun _ => 0.0) (fun _ _ => rfl) (fun _ _ => rfl) (fun j t hj => ?_) hb
    have hj' : j < T.S.x.q k := hj
    unfold initV
    rw [glue_soc_at (S := T.S.x) hk hj']
  · rw [Ok_pure]
    exact ⟨b2, rfl, h2⟩

end generic
end Ecos.Asm
