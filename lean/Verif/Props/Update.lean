import Verif.Lemmas.Dir6
import Verif.Props.Assemble

/-!
# Data updates against a fresh set-up (C06)
-/
namespace Ecos.Asm

open Ecos Finset Ecos.Fact

set_option linter.unusedSectionVars false

section generic
variable {F : Type} [Zero F] [One F] [Add F] [Sub F] [Mul F] [Div F] [Neg F] [OfScientific F]
  [IntCast F] [PFloat F] [HasInf F] {T : Pat} {S : Shape} {amd : Nat → Buf Nat → Buf Nat → Option (Buf Nat)}

/-- five new arrays, as the caller hands them to `ECOS_updateData` -/
structure NewData (T : Pat) (Gpr Apr vc vh vb : Buf F) (a g c h b : Nat → F) : Prop where
  G : Holds Gpr (T.jcG T.n) g
  A : T.hasA = true → Holds Apr (T.jcA T.n) a
  c : Holds vc T.n c
  h : Holds vh T.m h
  b : Holds vb T.p b

/-- Workspaces a caller can have for a problem with the given pattern and cones: from set-up, after whole or single-entry updates,
after changed settings, after any solve that ran (whatever its code, numbers and interrupts), and after whatever cone data was written to
the (3,3) block of the KKT matrix. -/
inductive Reach (amd : Nat → Buf Nat → Buf Nat → Option (Buf Nat)) (T : Pat) (S : Shape) : Work F → Prop
  | setup {G3 A3 : Mat3 F} {qb : Buf Nat} {cb hb bb : Buf F} {a0 g0 c0 h0 b0 : Nat → F} {w : Work F}
      (hin : Given T S G3 A3 qb cb hb bb a0 g0 c0 h0 b0) (h : ecosSetup amd T.n T.m T.p S.l S.ns qb S.ne G3 A3 cb hb bb = .ok (.ok w)) :
      Reach amd T S w
  | update {w : Work F} {t : Apart} {Gpr Apr vc vh vb : Buf F} {a g c h b : Nat → F} {r} (hw : Reach amd T S w)
      (ht : t.G = true → T.hasA = true) (hd : NewData T Gpr Apr vc vh vb a g c h b) (hr : ecosUpdateData w t Gpr Apr vc vh vb = .ok r) :
      Reach amd T S r.1
  | entryH {w w' : Work F} {i : Nat} {v : F} (hw : Reach amd T S w) (hi : i < T.m) (h : ecosUpdateDataEntryH w i v = .ok w') : Reach amd T S w'
  | entryC {w w' : Work F} {i : Nat} {v : F} (hw : Reach amd T S w) (hi : i < T.n) (h : ecosUpdateDataEntryC w i v = .ok w') : Reach amd T S w'
  | kkt {w : Work F} {C : Cone F} {W : ConeV F} {K : SpMat F} (hw : Reach amd T S w) (hC : ConeWF C S (partsOf (F := F) T S 0 0).ix)
      (hW : ScalHolds C S W) (h : kktUpdate w.KKT.PKPt w.KKT.PK C = .ok K) : Reach amd T S { w with C := C, KKT := { w.KKT with PKPt := K } }
  | kkt0 {w : Work F} {K : SpMat F} (hw : Reach amd T S w) (h : kktInit w.KKT.PKPt w.KKT.PK w.C = .ok K) :
      Reach amd T S { w with KKT := { w.KKT with PKPt := K } }
  | settings {w : Work F} (stgs : Settings F) (hw : Reach amd T S w) : Reach amd T S { w with stgs := stgs }
  | solve {w : Work F} {arrives : Nat → Bool} {sig : Sig} {r} (hw : Reach amd T S w) (h : ecosSolve arrives w sig = .ok r) : Reach amd T S r.1

theorem setup_live (hamd : ∀ N jc ir P, amd N jc ir = some P → ∃ pf, Holds P N pf ∧ IsPerm N pf) (hP : PatGood T S) {G3 A3 : Mat3 F}
    {qb : Buf Nat} {cb hb bb : Buf F} {a0 g0 c0 h0 b0 : Nat → F} (hin : Given T S G3 A3 qb cb hb bb a0 g0 c0 h0 b0) :
    Ok (ecosSetup amd T.n T.m T.p S.l S.ns qb S.ne G3 A3 cb hb bb) fun r => ∀ w, r = .ok w →
      (∃ a g b h x y z π ai q ax sg, Live amd w T S a g c0 b h x y z π ai q ax sg) ∧ EqRun T S a0 g0 b0 h0 (w.eqs, w.b, w.h) := by
  refine (ecosSetup_ok hamd hP hin eqTrue).mono ?_
  rintro r ⟨a, g, x, y, z, -, -, -, -, -, -, hr⟩ w rfl
  obtain ⟨hs, hd, hc, -, hq, π, ai, q, ax, sg, hk, ho, hax⟩ := hr
  exact ⟨⟨a, g, _, _, x, y, z, π, ai, q, ax, sg, hs, hd, hc, hk, ho, fun i hi _ => hax i hi⟩, hq⟩

/-- every reachable workspace is in order -/
theorem Reach.live (hamd : ∀ N jc ir P, amd N jc ir = some P → ∃ pf, Holds P N pf ∧ IsPerm N pf) (hP : PatGood T S) {w : Work F}
    (hw : Reach amd T S w) : LiveW amd T S w := by
  induction hw with
  | setup hin h =>
    obtain ⟨⟨a, g, b, h, x, y, z, π, ai, q, ax, sg, hl⟩, -⟩ := (setup_live hamd hP hin).elim h _ rfl
    exact ⟨a, g, _, b, h, x, y, z, π, ai, q, ax, sg, hl⟩
  | update hw ht hd hr ih =>
    obtain ⟨a, g, c, b, h, x, y, z, π, ai, q, ax, sg, hl⟩ := ih
    obtain ⟨a2, g2, x2, y2, z2, ax2, hl2, -⟩ := (updateData_ok hP hl ht hd.G hd.A hd.c hd.h hd.b eqTrue).elim hr
    exact ⟨_, _, _, _, _, _, _, _, _, _, _, _, _, hl2⟩
  | entryH hw hi h ih =>
    obtain ⟨a, g, c, b, hf, x, y, z, π, ai, q, ax, sg, hl⟩ := ih
    unfold ecosUpdateDataEntryH at h
    rw [hl.data.ze.rd hi, ok_bind_eq] at h
    obtain ⟨b', eb, hb'⟩ := (Ok.def _ _).1 (hl.data.h.wr hi _)
    rw [eb, ok_bind_eq] at h
    cases h
    exact ⟨a, g, c, b, _, x, y, z, π, ai, q, ax, sg, ⟨hl.sz.n, hl.sz.m, hl.sz.p, hl.sz.D, hl.sz.x, hl.sz.y, hl.sz.z, hl.sz.s, hl.sz.bx,
      hl.sz.b_y, hl.sz.bz, hl.sz.bs, hl.sz.rx, hl.sz.ry, hl.sz.rz⟩, ⟨hl.data.A, hl.data.G, hl.data.c, hl.data.b, hb', hl.data.xe, hl.data.ye,
      hl.data.ze, hl.data.ua, hl.data.mA, hl.data.mG⟩, hl.cone, hl.made, hl.ord, hl.val⟩
  | entryC hw hi h ih =>
    obtain ⟨a, g, c, b, hf, x, y, z, π, ai, q, ax, sg, hl⟩ := ih
    unfold ecosUpdateDataEntryC at h
    obtain ⟨b', eb, hb'⟩ := (Ok.def _ _).1 (hl.data.c.wr hi _)
    rw [eb, ok_bind_eq] at h
    cases h
    exact ⟨a, g, _, b, hf, x, y, z, π, ai, q, ax, sg, ⟨hl.sz.n, hl.sz.m, hl.sz.p, hl.sz.D, hl.sz.x, hl.sz.y, hl.sz.z, hl.sz.s, hl.sz.bx,
      hl.sz.b_y, hl.sz.bz, hl.sz.bs, hl.sz.rx, hl.sz.ry, hl.sz.rz⟩, ⟨hl.data.A, hl.data.G, hb', hl.data.b, hl.data.h, hl.data.xe, hl.data.ye,
      hl.data.ze, hl.data.ua, hl.data.mA, hl.data.mG⟩, hl.cone, hl.made, hl.ord, hl.val⟩
  | kkt hw hC hW h ih =>
    obtain ⟨a, g, c, b, hf, x, y, z, π, ai, q, ax, sg, hl⟩ := ih
    rw [← ix_same 0 0 a g] at hC
    have hT := hP.parts (a := a) (g := g)
    obtain ⟨pr, rfl, hkv⟩ := (kktUpdate_ok hT hl.made.pk ((partsOf T S a g).pk_perm π) hC hW (hl.made.kv hT)).elim h
    obtain ⟨ax', hk, hax⟩ := hl.made.put hT hkv
    refine ⟨a, g, c, b, hf, x, y, z, π, ai, q, ax', sg, ⟨hl.sz.n, hl.sz.m, hl.sz.p, hl.sz.D, hl.sz.x, hl.sz.y, hl.sz.z, hl.sz.s, hl.sz.bx,
      hl.sz.b_y, hl.sz.bz, hl.sz.bs, hl.sz.rx, hl.sz.ry, hl.sz.rz⟩, ⟨hl.data.A, hl.data.G, hl.data.c, hl.data.b, hl.data.h, hl.data.xe, hl.data.ye,
      hl.data.ze, hl.data.ua, hl.data.mA, hl.data.mG⟩, hC, hk, hl.ord, fun i hi hv => ?_⟩
    exact (hax i hi).trans ((withV_agree _ _ _ i hi hv).trans (hl.val i hi hv))
  | kkt0 hw h ih =>
    obtain ⟨a, g, c, b, hf, x, y, z, π, ai, q, ax, sg, hl⟩ := ih
    have hT := hP.parts (a := a) (g := g)
    obtain ⟨pr, rfl, hkv⟩ := (kktInit_ok hT hl.made.pk ((partsOf T S a g).pk_perm π) hl.cone (hl.made.kv hT)).elim h
    obtain ⟨ax', hk, hax⟩ := hl.made.put hT hkv
    refine ⟨a, g, c, b, hf, x, y, z, π, ai, q, ax', sg, ⟨hl.sz.n, hl.sz.m, hl.sz.p, hl.sz.D, hl.sz.x, hl.sz.y, hl.sz.z, hl.sz.s, hl.sz.bx,
      hl.sz.b_y, hl.sz.bz, hl.sz.bs, hl.sz.rx, hl.sz.ry, hl.sz.rz⟩, ⟨hl.data.A, hl.data.G, hl.data.c, hl.data.b, hl.data.h, hl.data.xe, hl.data.ye,
      hl.data.ze, hl.data.ua, hl.data.mA, hl.data.mG⟩, hl.cone, hk, hl.ord, fun i hi hv => ?_⟩
    refine (hax i hi).trans (Eq.trans ?_ (hl.val i hi hv))
    beta_reduce
    split
    · exact withV_agree _ _ _ i hi hv
    · rfl
  | settings stgs hw ih =>
    obtain ⟨a, g, c, b, hf, x, y, z, π, ai, q, ax, sg, hl⟩ := ih
    exact ⟨a, g, c, b, hf, x, y, z, π, ai, q, ax, sg, ⟨hl.sz.n, hl.sz.m, hl.sz.p, hl.sz.D, hl.sz.x, hl.sz.y, hl.sz.z, hl.sz.s, hl.sz.bx,
      hl.sz.b_y, hl.sz.bz, hl.sz.bs, hl.sz.rx, hl.sz.ry, hl.sz.rz⟩, ⟨hl.data.A, hl.data.G, hl.data.c, hl.data.b, hl.data.h, hl.data.xe, hl.data.ye,
      hl.data.ze, hl.data.ua, hl.data.mA, hl.data.mG⟩, hl.cone, hl.made, hl.ord, hl.val⟩
  | solve hw h ih => exact ((Ecos.Dir.ecosSolve_runs hP ih _ _).out h).1

/-! ### Comparing two workspaces -/

/-- the caller's new arrays, once they are in the workspace -/
theorem Live.newA {w : Work F} {a g c b h x y z : Nat → F} {π ai q : Nat → Nat} {ax : Nat → F} {sg : Nat → Int}
    (hw : Live amd w T S a g c b h x y z π ai q ax sg) {Gpr Apr vc vh vb : Buf F} {a1 g1 c1 h1 b1 : Nat → F}
    (hd : NewData T Gpr Apr vc vh vb a1 g1 c1 h1 b1) : EqIs (setPointers w Gpr Apr vc vh vb).eqs T a1 g1 := by
  refine ⟨?_, hw.data.G.m_eq, hw.data.G.n_eq, hw.data.G.nnz_eq, hw.data.G.hjc, hw.data.G.hir, hd.G, hw.data.G.ok⟩
  have hA' := hw.data.A
  show RepA (w.A.map fun A => { A with pr := Apr }) T a1
  unfold RepA at hA' ⊢
  split at hA'
  · rename_i hh
    rw [if_pos hh]
    obtain ⟨M, hM, hr⟩ := hA'
    rw [hM]
    exact ⟨_, rfl, hr.m_eq, hr.n_eq, hr.nnz_eq, hr.hjc, hr.hir, hd.A hh, hr.ok⟩
  · rename_i hh
    rw [if_neg hh, hA'.1]
    exact ⟨rfl, hA'.2⟩

/-- the values of the matrix outside the (3,3) block are those of `A` and `G` -/
theorem pr_agree (hP : PatGood T S) {a g a' g' : Nat → F} (ha : ∀ k, k < T.nA → a k = a' k) (hg : ∀ k, k < T.nG → g k = g' k) :
    Agree (partsOf T S a g) (partsOf T S a g).pr (partsOf T S a' g').pr := by
  intro i hi hv
  rcases cover (a := a) (g := g) hP hi with q | ⟨k, hk, rfl⟩ | ⟨k, hk, rfl⟩ | q
  · exact absurd q hv
  · rw [(posA_facts hP hk).2, ha k hk, ← posA_same a g a' g', (posA_facts hP hk).2]
  · rw [(posG_facts hP hk).2, hg k hk, ← posG_same a g a' g', (posG_facts hP hk).2]
  · exact (q a' g').symm

theorem RepA.val {A : Option (SpMat F)} {a a' : Nat → F} (h : RepA A T a) (h' : RepA A T a') : ∀ k, k < T.nA → a k = a' k := by
  intro k hk
  unfold RepA at h h'
  by_cases hh : T.hasA = true
  · rw [if_pos hh] at h h'
    obtain ⟨M, rfl, hr⟩ := h
    obtain ⟨M', e, hr'⟩ := h'
    cases e
    rw [PatGood.nA_of hh] at hk
    exact hr.hpr.unique hr'.hpr hk
  · rw [PatGood.nA_none (by simpa using hh)] at hk
    omega

/-- same data and same ordering: the same matrix once the (3,3) block is written -/
theorem Live.same (hamd : ∀ N jc ir P, amd N jc ir = some P → ∃ pf, Holds P N pf ∧ IsPerm N pf) (hP : PatGood T S) {w w' : Work F}
    {a g c b h x y z : Nat → F} {π ai q : Nat → Nat} {ax : Nat → F} {sg : Nat → Int} {a' g' c' b' h' x' y' z' : Nat → F}
    {π' ai' q' : Nat → Nat} {ax' : Nat → F} {sg' : Nat → Int}
    (hw : Live amd w T S a g c b h x y z π ai q ax sg) (hw' : Live amd w' T S a' g' c' b' h' x' y' z' π' ai' q' ax' sg')
    (eA : w.A = w'.A) (eG : w.G = w'.G) :
    w.KKT.PK = w'.KKT.PK ∧ w.KKT.Pinv = w'.KKT.Pinv ∧ 
    (∀ (C : Cone F) (W : ConeV F), ConeWF C S (partsOf T S a g).ix → ScalHolds C S W →
      Ok (kktUpdate w.KKT.PKPt w.KKT.PK C) fun K => kktUpdate w'.KKT.PKPt w'.KKT.PK C = .ok K) ∧
    ∀ C : Cone F, S.ne = 0 → ConeWF C S (partsOf T S a g).ix →
      Ok (kktInit w.KKT.PKPt w.KKT.PK C) fun K => kktInit w'.KKT.PKPt w'.KKT.PK C = .ok K := by
  have hT := hP.parts (a := a) (g := g)
  have hT' := hP.parts (a := a') (g := g')
  have hm' := hw'.made.re (a' := a) (g' := g)
  have hord := hw.ord.same hamd (jc := (Array.range ((partsOf T S a g).N + 1)).map fun i => some ((partsOf T S a g).off i))
    (ir := (Array.range ((partsOf T S a g).off (partsOf T S a g).N)).map fun i => some ((partsOf T S a g).ir i))
    ⟨by simp, fun i hi => by simp [hi]⟩ ⟨by simp, fun i hi => by simp [hi]⟩ (hw'.ord.re (a' := a) (g' := g))
  obtain ⟨e1, e2, e3⟩ := hw.made.same hT hm' hord
  have hkv := hw.made.kv hT
  have hkv' := hm'.kv hT
  have hag : Agree (partsOf T S a g) (fun k => ax ((partsOf T S a g).pk π k)) fun k => ax' ((partsOf T S a g).pk π' k) := by
    intro i hi hv
    rw [hw.val i hi hv]
    have hv' : ¬ (partsOf T S a' g').isV i := by
      unfold Parts.isV at hv ⊢
      rw [off_same a g]
      exact hv
    have := hw'.val i (by rw [off_same a g]; exact hi) hv'
    rw [pk_same a g] at this
    rw [this]
    refine pr_agree hP (RepA.val (A := w'.A) (by rw [← eA]; exact hw.data.A) hw'.data.A) (fun k hk => ?_) i hi hv
    have h3 := hw.data.G
    rw [eG] at h3
    exact h3.hpr.unique hw'.data.G.hpr hk
  have hpr : ∀ {pr pr' : Buf F} {f f' : Nat → F}, KV pr ((partsOf T S a g).off (partsOf T S a g).N) ((partsOf T S a g).pk π) f →
      KV pr' ((partsOf T S a g).off (partsOf T S a g).N) ((partsOf T S a g).pk π') f' →
      (∀ k, k < (partsOf T S a g).off (partsOf T S a g).N → f k = f' k) → pr = pr' := by
    intro pr pr' f f' h1 h2 hf
    refine Array.ext_getElem? fun i => ?_
    by_cases hi : i < (partsOf T S a g).off (partsOf T S a g).N
    · obtain ⟨k, hk, rfl⟩ := ((partsOf T S a g).pk_perm π).surj hi
      rw [h1.at_ k hk, e3 k hk, h2.at_ k hk, hf k hk]
    · rw [Array.getElem?_eq_none (by rw [h1.size]; omega), Array.getElem?_eq_none (by rw [h2.size]; omega)]
  refine ⟨e1, (hw.made.pinv.congr hord).same hm'.pinv, fun C W hC hW => ?_, fun C h0 hC => ?_⟩
  · refine (kktUpdate_ok hT hw.made.pk ((partsOf T S a g).pk_perm π) hC hW hkv).mono ?_
    rintro K ⟨pr, rfl, h1⟩
    obtain ⟨K', eK, pr', rfl, h2⟩ := (Ok.def _ _).1 (kktUpdate_ok hT hm'.pk ((partsOf T S a g).pk_perm π') hC hW hkv')
    rw [eK, hpr h1 h2 fun k hk => hag.withV _ hk, e2]
  · refine (kktInit_ok hT hw.made.pk ((partsOf T S a g).pk_perm π) hC hkv).mono ?_
    rintro K ⟨pr, rfl, h1⟩
    obtain ⟨K', eK, pr', rfl, h2⟩ := (Ok.def _ _).1 (kktInit_ok hT hm'.pk ((partsOf T S a g).pk_perm π') hC hkv')
    have hN : (partsOf T S a g).n + (partsOf T S a g).p + (partsOf T S a g).S.x.fexv = (partsOf T S a g).N := by
      show _ = T.n + T.p + S.x.m
      have : S.x.m = S.x.fexv + 3 * S.ne := rfl
      rw [this, h0]
      rfl
    rw [eK, hpr h1 h2 fun k hk => ?_, e2]
    rw [hN, if_pos hk, if_pos hk]
    exact hag.withV _ hk

/-- **C06** Take any workspace that came from `ECOS_setup` through any sequence of updates and of KKT matrices. Installing new values
succeeds, and leaves the workspace reachable. A fresh set-up from the new values, with the same ordering routine, also runs, and if it
returns a workspace, the two have the same `A`, `G`, `b`, `h`, `c`, equilibration factors and permutation; and for all cone scalings
the KKT matrices of the two, permuted, are the same, entry for entry and position for position: those of the iterations, and the one for
the starting point (which is used without exponential cones only). -/
theorem C06_update (hamd : ∀ N jc ir P, amd N jc ir = some P → ∃ pf, Holds P N pf ∧ IsPerm N pf) (hP : PatGood T S) {w : Work F}
    (hw : Reach amd T S w) {t : Apart} (ht : t.G = true → T.hasA = true) {Gpr Apr vc vh vb : Buf F} {a1 g1 c1 h1 b1 : Nat → F}
    (hd : NewData T Gpr Apr vc vh vb a1 g1 c1 h1 b1) {G3 A3 : Mat3 F} {qb : Buf Nat} {cb hb bb : Buf F}
    (hin : Given T S G3 A3 qb cb hb bb a1 g1 c1 h1 b1) :
    Ok (ecosUpdateData w t Gpr Apr vc vh vb) fun r => Reach amd T S r.1 ∧
    Ok (ecosSetup amd T.n T.m T.p S.l S.ns qb S.ne G3 A3 cb hb bb) fun r0 => ∀ w0, r0 = .ok w0 →
      r.1.A = w0.A ∧ r.1.G = w0.G ∧ r.1.c = w0.c ∧ r.1.b = w0.b ∧ r.1.h = w0.h ∧
      r.1.xequil = w0.xequil ∧ r.1.Aequil = w0.Aequil ∧ r.1.Gequil = w0.Gequil ∧
      r.1.KKT.PK = w0.KKT.PK ∧ r.1.KKT.Pinv = w0.KKT.Pinv ∧
      (∀ (C : Cone F) (W : ConeV F), ConeWF C S (partsOf (F := F) T S 0 0).ix → ScalHolds C S W →
        Ok (kktUpdate r.1.KKT.PKPt r.1.KKT.PK C) fun K => kktUpdate w0.KKT.PKPt w0.KKT.PK C = .ok K) ∧
      ∀ C : Cone F, S.ne = 0 → ConeWF C S (partsOf (F := F) T S 0 0).ix →
        Ok (kktInit r.1.KKT.PKPt r.1.KKT.PK C) fun K => kktInit w0.KKT.PKPt w0.KKT.PK C = .ok K := by
  obtain ⟨a, g, c, b, h, x, y, z, π, ai, q, ax, sg, hl⟩ := hw.live hamd hP
  refine (updateData_ok hP hl ht hd.G hd.A hd.c hd.h hd.b eqTrue).self.mono ?_
  rintro r ⟨⟨a2, g2, x2, y2, z2, ax2, hl2, hrun, -⟩, er⟩
  refine ⟨.update hw ht hd er, (setup_live hamd hP hin).mono ?_⟩
  rintro r0 hr0 w0 rfl
  obtain ⟨⟨a3, g3, b3, h3, x3, y3, z3, π3, ai3, q3, ax3, sg3, hl3⟩, hrun3⟩ := hr0 w0 rfl
  have he := hl.newA hd
  have k1 := hrun _ _ _ _ hl.cone.is he hl.data.xe.size hl.data.ye.size hl.data.ze.size hd.b hd.h
  have k2 := hrun3 _ _ _ _ hl.cone.is he hl.data.xe.size hl.data.ye.size hl.data.ze.size hd.b hd.h
  rw [k1] at k2
  have e : (r.1.eqs, r.1.b, r.1.h) = (w0.eqs, w0.b, w0.h) := by injection k2
  have eq := congrArg Prod.fst e
  have eA : r.1.A = w0.A := congrArg EqS.A eq
  have eG : r.1.G = w0.G := congrArg EqS.G eq
  obtain ⟨f1, f2, f3, f4⟩ := hl2.same hamd hP hl3 eA eG
  refine ⟨eA, eG, hl2.data.c.same hl3.data.c, congrArg (fun r => r.2.1) e, congrArg (fun r => r.2.2) e, congrArg EqS.xe eq, congrArg EqS.Ae eq,
    congrArg EqS.Ge eq, f1, f2, fun C W hC hW => f3 C W ?_ hW, fun C h0 hC => f4 C h0 ?_⟩
  all_goals
    rw [ix_same 0 0]
    exact hC

/-- **C06 without equations** the test whether the new arrays lie apart from the old ones looks at `w->A`, which is a null pointer
without equations: as soon as the new `G` lies apart, the call is undefined. Hence the hypothesis on `t.G` above. -/
theorem C06_null_violated {w : Work F} (hA : w.A = none) {t : Apart} (ht : t.G = true) (Gpr Apr vc vh vb : Buf F) :
    ecosUpdateData w t Gpr Apr vc vh vb = .error .nullDeref := by
  unfold ecosUpdateData updateUnset allApart andM
  rw [hA, ht]
  rfl

end generic

/-! ### A problem meeting the hypotheses: the one of C05, with another ordering, updated once -/

instance : Inhabited Fx := ⟨0⟩

/-- reverse ordering -/
def exRev (N : Nat) (_ _ : Buf Nat) : Option (Buf Nat) := some ((Array.range N).map fun i => some (N - 1 - i))

theorem exRev_perm : ∀ N jc ir P, exRev N jc ir = some P → ∃ pf, Holds P N pf ∧ IsPerm N pf := by
  intro N _ _ P h
  have h' : (Array.range N).map (fun i => some (N - 1 - i)) = P := by simpa [exRev] using h
  subst h'
  refine ⟨fun i => N - 1 - i, ⟨by simp, fun i hi => by simp [hi]⟩, fun i hi => by omega, fun i j hi hj e => by have e' : N - 1 - i = N - 1 - j := e; omega⟩

def exSetup6 (g a c h b : List Fx) : M (SetupRes Fx) :=
  ecosSetup exRev 2 7 1 1 1 (ofList [3]) 1 ⟨some (ofList g), some (ofList [0, 3, 5]), some (ofList [0, 1, 4, 2, 6])⟩
    ⟨some (ofList a), some (ofList [0, 1, 2]), some (ofList [0, 0])⟩ (ofList c) (ofList h) (ofList b)

theorem exGiven6 (g a c h b : List Fx) (hg : g.length = 5) (ha : a.length = 2) (hc : c.length = 2) (hh : h.length = 7) (hb : b.length = 1) :
    Given exPat5 exShape5 ⟨some (ofList g), some (ofList [0, 3, 5]), some (ofList [0, 1, 4, 2, 6])⟩
    ⟨some (ofList a), some (ofList [0, 1, 2]), some (ofList [0, 0])⟩ (ofList [3]) (ofList c) (ofList h) (ofList b) (fun i => a.getD i 0)
    (fun i => g.getD i 0) (fun i => c.getD i 0) (fun i => h.getD i 0) (fun i => b.getD i 0) where
  q := (ofList_holds [3]).congr fun i hi => by
    have : i = 0 := by simpa using hi
    subst this
    rfl
  A := by
    rw [if_pos (by rfl)]
    refine ⟨_, _, _, rfl, ofList_holds [0, 1, 2], (ofList_holds [0, 0]).congr fun i hi => ?_, ?_⟩
    · have : i < 2 := by simpa using hi
      obtain rfl | rfl : i = 0 ∨ i = 1 := by omega
      all_goals rfl
    · have := ofList_holds a
      rw [ha] at this
      exact this
  G := ⟨_, _, _, rfl, ofList_holds [0, 3, 5], ofList_holds [0, 1, 4, 2, 6], by
    have := ofList_holds g
    rw [hg] at this
    exact this⟩
  c := by
    have := ofList_holds c
    rw [hc] at this
    exact this
  h := by
    have := ofList_holds h
    rw [hh] at this
    exact this
  b := by
    have := ofList_holds b
    rw [hb] at this
    exact this

/-- Set-up succeeds on one set of values; updating to another gives the matrix a fresh set-up of the other gives, which differs from
the first one. -/
example :
    (match exSetup6 [-1.0, 2.0, 1.0, 3.0, -4.0] [1.0, 1.0] [1.0, 1.0] [0.0, 1.0, 0.0, 0.0, 0.0, 1.0, 2.0] [1.0] with
      | .ok (.ok w) =>
        match ecosUpdateData w ⟨true, true, true, true, true⟩ (ofList [5.0, -2.0, 1.0, 7.0, 3.0]) (ofList [2.0, -1.0]) (ofList [1.0, 2.0])
            (ofList [1.0, 1.0, 0.0, 0.0, 1.0, 1.0, 2.0]) (ofList [3.0]), exSetup6 [5.0, -2.0, 1.0, 7.0, 3.0] [2.0, -1.0] [1.0, 2.0] [1.0, 1.0, 0.0, 0.0, 1.0, 1.0, 2.0] [3.0] with
        | .ok r, .ok (.ok w0) => decide (r.1.KKT.PKPt.pr = w0.KKT.PKPt.pr ∧ w.KKT.PKPt.pr ≠ w0.KKT.PKPt.pr)
        | _, _ => false
      | _ => false) = true := by
  decide +kernel

/-- so the theorem applies to it -/
example : ∃ w : Work Fx, Reach exRev exPat5 exShape5 w := by
  have h : (match exSetup6 [-1.0, 2.0, 1.0, 3.0, -4.0] [1.0, 1.0] [1.0, 1.0] [0.0, 1.0, 0.0, 0.0, 0.0, 1.0, 2.0] [1.0] with
      | .ok (.ok _) => true
      | _ => false) = true := by decide +kernel
  split at h
  · rename_i w hw
    exact ⟨w, .setup (exGiven6 _ _ _ _ _ rfl rfl rfl rfl rfl) hw⟩
  · exact absurd h (by decide)

end Ecos.Asm
