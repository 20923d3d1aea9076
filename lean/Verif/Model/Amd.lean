import Verif.Model.Base

/-!
# The ordering: AMD (external/amd/src)

`AMD_order` as `ECOS_setup` calls it: with the default controls, so aggressive absorption is on.
The statistics in `Info` and the debugging code are left out.  The threshold for dense rows,
`(Int) (alpha * sqrt (n))`, is the only number that comes out of floating point; it is the parameter
`dense0`, about which nothing is assumed.  Integers are unbounded; `Int_MAX` is the parameter
`imax`.  The pieces of the workspace `S` are separate arrays here (`piece`), so running from one into the
next is undefined in the model.  `while` loops carry fuel; running out of it is an error.
-/
namespace Ecos.Amd

variable {σ ρ : Type}

/-- `EMPTY` (amd_internal.h:143) -/
def EMPTY : Int := -1
/-- `FLIP` (amd_internal.h:120) -/
def FLIP (i : Int) : Int := -i - 2

/-- `for (p = lo ; p < hi ; p++)` over C integers -/
def forI (lo hi : Int) (s : σ) (body : Int → σ → M σ) : M σ :=
  loop 0 (hi - lo).toNat s fun k s => body (lo + k) s

/-- a `while` loop: `body` answers `inl` to leave it -/
def iter : Nat → σ → (σ → M (ρ ⊕ σ)) → M ρ
  | 0, _, _ => .error .fuel
  | fuel + 1, s, body => do
    let r ← body s
    match r with
    | .inl r => pure r
    | .inr s => iter fuel s body

/-! ### amd_valid.c -/

/-- the answers of `AMD_valid` and `AMD_order` (amd.h:370-374) -/
inductive Status where
  | ok
  | jumbled
  | invalid
  | outOfMemory
  deriving DecidableEq, Repr

/-- `AMD_valid` (amd_valid.c:38-93) -/
def valid (nrow ncol : Int) (Ap Ai : Buf Int) : M Status := do
  if nrow < 0 ∨ ncol < 0 then pure .invalid
  else
    let nz ← rdI Ap ncol
    let a0 ← rdI Ap 0
    if a0 ≠ 0 ∨ nz < 0 then pure .invalid
    else do
      let r ← loopE 0 ncol.toNat Status.ok fun j (res : Status) => do
        let p1 ← rdI Ap j
        let p2 ← rdI Ap (j + 1)
        if p1 > p2 then pure (.inl Status.invalid)
        else do
          let q ← loopE 0 (p2 - p1).toNat (EMPTY, res) fun k (s : Int × Status) => do
            let i ← rdI Ai (p1 + k)
            if i < 0 ∨ i ≥ nrow then pure (.inl Status.invalid)
            else pure (.inr (i, if i ≤ s.1 then Status.jumbled else s.2))
          match q with
          | .inl st => pure (.inl st)
          | .inr s => pure (.inr s.2)
      match r with
      | .inl st => pure st
      | .inr st => pure st

/-! ### amd_preprocess.c -/

/-- arrays of `AMD_preprocess` -/
structure Pre where
  rp : Buf Int
  ri : Buf Int
  w : Buf Int
  flag : Buf Int

/-- `AMD_preprocess` (amd_preprocess.c:31-119): the pattern of the transpose, sorted, without
duplicates -/
def preprocess (n : Int) (Ap Ai : Buf Int) (s : Pre) : M Pre := do
  let s ← forI 0 n s fun i s => do
    let w ← wrI s.w i 0
    let flag ← wrI s.flag i EMPTY
    pure { s with w := w, flag := flag }
  let s ← forI 0 n s fun j s => do
    let p2 ← rdI Ap (j + 1)
    let p1 ← rdI Ap j
    forI p1 p2 s fun p s => do
      let i ← rdI Ai p
      let f ← rdI s.flag i
      if f ≠ j then do
        let v ← rdI s.w i
        let w ← wrI s.w i (v + 1)
        let flag ← wrI s.flag i j
        pure { s with w := w, flag := flag }
      else pure s
  let rp ← wrI s.rp 0 0
  let s ← forI 0 n { s with rp := rp } fun i s => do
    let r ← rdI s.rp i
    let v ← rdI s.w i
    let rp ← wrI s.rp (i + 1) (r + v)
    pure { s with rp := rp }
  let s ← forI 0 n s fun i s => do
    let r ← rdI s.rp i
    let w ← wrI s.w i r
    let flag ← wrI s.flag i EMPTY
    pure { s with w := w, flag := flag }
  forI 0 n s fun j s => do
    let p2 ← rdI Ap (j + 1)
    let p1 ← rdI Ap j
    forI p1 p2 s fun p s => do
      let i ← rdI Ai p
      let f ← rdI s.flag i
      if f ≠ j then do
        let v ← rdI s.w i
        let ri ← wrI s.ri v j
        let w ← wrI s.w i (v + 1)
        let flag ← wrI s.flag i j
        pure { s with ri := ri, w := w, flag := flag }
      else pure s

/-! ### amd_aat.c and amd_1.c

`AMD_aat` and the first half of `AMD_1` run through the entries of `A + A'` in the same way; they
differ in what they do with an entry.  The common part is `walk`; `emit i j` stands for the two
statements at each entry. -/

/-- the loop over the lower part of column `j`, up to row `k` (amd_aat.c:101-127, amd_1.c:119-143);
the first component of the result is the final `pj` -/
def lower (Ai : Buf Int) (emit : Int → Int → σ → M σ) (k j pj2 : Int) (pj : Int) (s : σ) :
    M (Int × σ) :=
  iter ((pj2 - pj).toNat + 1) (pj, s) fun (q : Int × σ) => do
    if q.1 < pj2 then do
      let i ← rdI Ai q.1
      if i < k then do
        let s ← emit i j q.2
        pure (.inr (q.1 + 1, s))
      else if i = k then pure (.inl (q.1 + 1, q.2))
      else pure (.inl q)
    else pure (.inl q)

/-- the loop over column `k` (amd_aat.c:75-129, amd_1.c:88-145) -/
def column (Ap Ai : Buf Int) (emit : Int → Int → σ → M σ) (k p1 p2 : Int) (tp : Buf Int) (s : σ) :
    M (Int × Buf Int × σ) :=
  iter ((p2 - p1).toNat + 1) (p1, tp, s) fun (q : Int × Buf Int × σ) => do
    if q.1 < p2 then do
      let j ← rdI Ai q.1
      if j < k then do
        let s ← emit j k q.2.2
        let pj2 ← rdI Ap (j + 1)
        let pj ← rdI q.2.1 j
        let r ← lower Ai emit k j pj2 pj s
        let tp ← wrI q.2.1 j r.1
        pure (.inr (q.1 + 1, tp, r.2))
      else if j = k then pure (.inl (q.1 + 1, q.2))
      else pure (.inl q)
    else pure (.inl q)

/-- the run through the entries of `A + A'` (amd_aat.c:68-146, amd_1.c:82-160) -/
def walk (n : Int) (Ap Ai : Buf Int) (emit : Int → Int → σ → M σ) (tp : Buf Int) (s : σ) :
    M (Buf Int × σ) := do
  let r ← forI 0 n (tp, s) fun k (r : Buf Int × σ) => do
    let p1 ← rdI Ap k
    let p2 ← rdI Ap (k + 1)
    let q ← column Ap Ai emit k p1 p2 r.1 r.2
    let tp ← wrI q.2.1 k q.1
    pure (tp, q.2.2)
  let s ← forI 0 n r.2 fun j s => do
    let p1 ← rdI r.1 j
    let p2 ← rdI Ap (j + 1)
    forI p1 p2 s fun pj s => do
      let i ← rdI Ai pj
      emit i j s
  pure (r.1, s)

/-- `Len [i]++ ; Len [j]++` (amd_aat.c:85-86, 111-112, 141-142) -/
def countEntry (i j : Int) (len : Buf Int) : M (Buf Int) := do
  let a ← rdI len i
  let len ← wrI len i (a + 1)
  let b ← rdI len j
  wrI len j (b + 1)

/-- `AMD_aat` (amd_aat.c:19-183): the lengths, the workspace and the number of entries of `A + A'` -/
def aat (n : Int) (Ap Ai : Buf Int) (len tp : Buf Int) : M (Buf Int × Buf Int × Int) := do
  let len ← forI 0 n len fun k len => wrI len k 0
  let _ ← rdI Ap n
  let r ← walk n Ap Ai countEntry tp len
  let nz ← forI 0 n (0 : Int) fun k t => do
    let v ← rdI r.2 k
    pure (t + v)
  pure (r.2, r.1, nz)

/-- `Iw [Sp [i]++] = j ; Iw [Sp [j]++] = i` (amd_1.c:97-98, 130-131, 157-158) -/
def storeEntry (i j : Int) (q : Buf Int × Buf Int) : M (Buf Int × Buf Int) := do
  let a ← rdI q.1 i
  let iw ← wrI q.2 a j
  let sp ← wrI q.1 i (a + 1)
  let b ← rdI sp j
  let iw ← wrI iw b i
  let sp ← wrI sp j (b + 1)
  pure (sp, iw)

/-! ### amd_2.c -/

/-- the arrays of `AMD_2` -/
structure St where
  pe : Buf Int
  iw : Buf Int
  len : Buf Int
  nv : Buf Int
  next : Buf Int
  last : Buf Int
  head : Buf Int
  elen : Buf Int
  degree : Buf Int
  w : Buf Int

namespace St
def rPe (s : St) (i : Int) : M Int := rdI s.pe i
def rIw (s : St) (i : Int) : M Int := rdI s.iw i
def rLen (s : St) (i : Int) : M Int := rdI s.len i
def rNv (s : St) (i : Int) : M Int := rdI s.nv i
def rNext (s : St) (i : Int) : M Int := rdI s.next i
def rLast (s : St) (i : Int) : M Int := rdI s.last i
def rHead (s : St) (i : Int) : M Int := rdI s.head i
def rElen (s : St) (i : Int) : M Int := rdI s.elen i
def rDegree (s : St) (i : Int) : M Int := rdI s.degree i
def rW (s : St) (i : Int) : M Int := rdI s.w i
def wPe (s : St) (i v : Int) : M St := do let b ← wrI s.pe i v; pure { s with pe := b }
def wIw (s : St) (i v : Int) : M St := do let b ← wrI s.iw i v; pure { s with iw := b }
def wLen (s : St) (i v : Int) : M St := do let b ← wrI s.len i v; pure { s with len := b }
def wNv (s : St) (i v : Int) : M St := do let b ← wrI s.nv i v; pure { s with nv := b }
def wNext (s : St) (i v : Int) : M St := do let b ← wrI s.next i v; pure { s with next := b }
def wLast (s : St) (i v : Int) : M St := do let b ← wrI s.last i v; pure { s with last := b }
def wHead (s : St) (i v : Int) : M St := do let b ← wrI s.head i v; pure { s with head := b }
def wElen (s : St) (i v : Int) : M St := do let b ← wrI s.elen i v; pure { s with elen := b }
def wDegree (s : St) (i v : Int) : M St := do let b ← wrI s.degree i v; pure { s with degree := b }
def wW (s : St) (i v : Int) : M St := do let b ← wrI s.w i v; pure { s with w := b }
end St

/-- `clear_flag` (amd_2.c:22-35) -/
def clearFlag (n wflg wbig : Int) (s : St) : M (Int × St) :=
  if wflg < 2 ∨ wflg ≥ wbig then do
    let s ← forI 0 n s fun x s => do
      let v ← s.rW x
      if v ≠ 0 then s.wW x 1 else pure s
    pure (2, s)
  else pure (wflg, s)

/-- the arrays before the degree lists are built (amd_2.c:610-623) -/
def initArrays (n : Int) (s : St) : M St :=
  forI 0 n s fun i s => do
    let s ← s.wLast i EMPTY
    let s ← s.wHead i EMPTY
    let s ← s.wNext i EMPTY
    let s ← s.wNv i 1
    let s ← s.wW i 1
    let s ← s.wElen i 0
    let l ← s.rLen i
    s.wDegree i l

/-- put `i` at the head of degree list `deg` (amd_2.c:684-688) -/
def pushDeg (i deg : Int) (s : St) : M St := do
  let inext ← s.rHead deg
  let s ← (if inext ≠ EMPTY then s.wLast inext i else pure s)
  let s ← s.wNext i inext
  s.wHead deg i

/-- degree lists; empty and dense rows (amd_2.c:640-692); the number of variables eliminated -/
def initLists (n dense : Int) (s : St) : M (Int × St) :=
  forI 0 n (0, s) fun i (q : Int × St) => do
    let deg ← q.2.rDegree i
    if deg = 0 then do
      let s ← q.2.wElen i (FLIP 1)
      let s ← s.wPe i EMPTY
      let s ← s.wW i 0
      pure (q.1 + 1, s)
    else if deg > dense then do
      let s ← q.2.wNv i 0
      let s ← s.wElen i EMPTY
      let s ← s.wPe i EMPTY
      pure (q.1 + 1, s)
    else do
      let s ← pushDeg i deg q.2
      pure (q.1, s)

/-- `for (deg = mindeg ; deg < n ; deg++) { me = Head [deg] ; if (me != EMPTY) break ; }`
(amd_2.c:719-723): `deg` and `me`; `me` keeps its value when the loop does not run -/
def findPivot (n mindeg : Int) (s : St) : M (Int × Int) := do
  let r ← loopE 0 (n - mindeg).toNat EMPTY fun k (_ : Int) => do
    let me ← s.rHead (mindeg + k)
    if me ≠ EMPTY then pure (.inl (mindeg + (k : Int), me)) else pure (.inr me)
  match r with
  | .inl q => pure q
  | .inr me => pure (n, me)

/-- remove `i` from its degree list (amd_2.c:796-810, 960-974) -/
def removeDeg (i : Int) (s : St) : M St := do
  let ilast ← s.rLast i
  let inext ← s.rNext i
  let s ← (if inext ≠ EMPTY then s.wLast inext ilast else pure s)
  if ilast ≠ EMPTY then s.wNext ilast inext
  else do
    let d ← s.rDegree i
    s.wHead d inext

/-- a new element: where it is, how far the free space reaches, its degree -/
structure El where
  pme1 : Int
  pme2 : Int
  pfree : Int
  degme : Int
  s : St

/-- the new element built in place (amd_2.c:771-812) -/
def inPlace (me pfree : Int) (s : St) : M El := do
  let pme1 ← s.rPe me
  let ln ← s.rLen me
  forI pme1 (pme1 + ln) { pme1 := pme1, pme2 := pme1 - 1, pfree := pfree, degme := 0, s := s }
    fun p (q : El) => do
      let i ← q.s.rIw p
      let nvi ← q.s.rNv i
      if nvi > 0 then do
        let s ← q.s.wNv i (-nvi)
        let s ← s.wIw (q.pme2 + 1) i
        let s ← removeDeg i s
        pure { q with pme2 := q.pme2 + 1, degme := q.degme + nvi, s := s }
      else pure q

/-- one step of the compression: an object that starts at `psrc` is moved to `pdst`
(amd_2.c:917-933) -/
def gcStep (pend : Int) (q : Int × Int × St) : M (Int × St ⊕ Int × Int × St) := do
  if q.1 ≤ pend then do
    let v ← q.2.2.rIw q.1
    let j := FLIP v
    let psrc := q.1 + 1
    if j ≥ 0 then do
      let v ← q.2.2.rPe j
      let s ← q.2.2.wIw q.2.1 v
      let s ← s.wPe j q.2.1
      let lenj ← s.rLen j
      let s ← forI 0 (lenj - 1) s fun k s => do
        let v ← s.rIw (psrc + k)
        s.wIw (q.2.1 + 1 + k) v
      let c := max 0 (lenj - 1)
      pure (.inr (psrc + c, q.2.1 + 1 + c, s))
    else pure (.inr (psrc, q.2.1, q.2.2))
  else pure (.inl (q.2.1, q.2.2))

/-- garbage collection (amd_2.c:875-948); the new `pme1` and `pfree` -/
def compress (n me e p pj knt1 knt2 ln pme1 pfree : Int) (s : St) : M (Int × Int × St) := do
  let s ← s.wPe me p
  let l ← s.rLen me
  let s ← s.wLen me (l - knt1)
  let l ← s.rLen me
  let s ← (if l = 0 then s.wPe me EMPTY else pure s)
  let s ← s.wPe e pj
  let s ← s.wLen e (ln - knt2)
  let l ← s.rLen e
  let s ← (if l = 0 then s.wPe e EMPTY else pure s)
  let s ← forI 0 n s fun j s => do
    let pn ← s.rPe j
    if pn ≥ 0 then do
      let v ← s.rIw pn
      let s ← s.wPe j v
      s.wIw pn (FLIP j)
    else pure s
  let r ← iter (pme1.toNat + 1) (0, 0, s) (gcStep (pme1 - 1))
  let s ← forI pme1 pfree r.2 fun psrc s => do
    let v ← s.rIw psrc
    s.wIw (r.1 + (psrc - pme1)) v
  pure (r.1, r.1 + (pfree - pme1), s)

/-- state of the loops that build a new element in the free space -/
structure Co where
  p : Int
  pj : Int
  pme1 : Int
  pfree : Int
  degme : Int
  s : St

/-- one entry of the list being searched (amd_2.c:857-976) -/
def addVar (n iwlen me e knt1 ln knt2 : Int) (q : Co) : M Co := do
  let i ← q.s.rIw q.pj
  let q := { q with pj := q.pj + 1 }
  let nvi ← q.s.rNv i
  if nvi > 0 then do
    let q ← (if q.pfree ≥ iwlen then do
        let r ← compress n me e q.p q.pj knt1 knt2 ln q.pme1 q.pfree q.s
        let pj ← r.2.2.rPe e
        let p ← r.2.2.rPe me
        pure { q with p := p, pj := pj, pme1 := r.1, pfree := r.2.1, s := r.2.2 }
      else pure q)
    let s ← q.s.wNv i (-nvi)
    let s ← s.wIw q.pfree i
    let s ← removeDeg i s
    pure { q with pfree := q.pfree + 1, degme := q.degme + nvi, s := s }
  else pure q

/-- search one element of `me`, or at last its variables (amd_2.c:825-986) -/
def addList (n iwlen me elenme slenme knt1 : Int) (q : Co) : M Co := do
  if knt1 > elenme then
    forI 1 (slenme + 1) { q with pj := q.p } fun knt2 q =>
      addVar n iwlen me me knt1 slenme knt2 q
  else do
    let e ← q.s.rIw q.p
    let pj ← q.s.rPe e
    let ln ← q.s.rLen e
    let q ← forI 1 (ln + 1) { q with p := q.p + 1, pj := pj } fun knt2 q =>
      addVar n iwlen me e knt1 ln knt2 q
    if e ≠ me then do
      let s ← q.s.wPe e (FLIP me)
      let s ← s.wW e 0
      pure { q with s := s }
    else pure q

/-- the new element built in the free space (amd_2.c:821-988) -/
def inFree (n iwlen me elenme pfree : Int) (s : St) : M El := do
  let p ← s.rPe me
  let l ← s.rLen me
  let slenme := l - elenme
  let q ← forI 1 (elenme + 2) { p := p, pj := p, pme1 := pfree, pfree := pfree, degme := 0, s := s }
    fun knt1 q => addList n iwlen me elenme slenme knt1 q
  pure { pme1 := q.pme1, pme2 := q.pfree - 1, pfree := q.pfree, degme := q.degme, s := q.s }

/-- Scan 1 (amd_2.c:1034-1069) -/
def scan1 (pme1 pme2 wflg : Int) (s : St) : M St :=
  forI pme1 (pme2 + 1) s fun pme s => do
    let i ← s.rIw pme
    let eln ← s.rElen i
    if eln > 0 then do
      let v ← s.rNv i
      let nvi := -v
      let wnvi := wflg - nvi
      let pi ← s.rPe i
      forI pi (pi + eln) s fun p s => do
        let e ← s.rIw p
        let we ← s.rW e
        let we ← (if we ≥ wflg then pure (we - nvi)
          else if we ≠ 0 then do
            let d ← s.rDegree e
            pure (d + wnvi)
          else pure we)
        s.wW e we
    else pure s

/-- state of the loops over the list of a variable in Scan 2 -/
structure L2 where
  pn : Int
  hash : Int
  deg : Int
  s : St

/-- the elements of `i` (amd_2.c:1104-1133) -/
def scanElems (me wflg p1 p2 : Int) (s : St) : M L2 :=
  forI p1 (p2 + 1) { pn := p1, hash := 0, deg := 0, s := s } fun p q => do
    let e ← q.s.rIw p
    let we ← q.s.rW e
    if we ≠ 0 then do
      let dext := we - wflg
      if dext > 0 then do
        let s ← q.s.wIw q.pn e
        pure { pn := q.pn + 1, hash := q.hash + e, deg := q.deg + dext, s := s }
      else do
        let s ← q.s.wPe e (FLIP me)
        let s ← s.wW e 0
        pure { q with s := s }
    else pure q

/-- the variables of `i` (amd_2.c:1167-1182) -/
def scanVars (p2 p4 : Int) (q : L2) : M L2 :=
  forI (p2 + 1) p4 q fun p q => do
    let j ← q.s.rIw p
    let nvj ← q.s.rNv j
    if nvj > 0 then do
      let s ← q.s.wIw q.pn j
      pure { pn := q.pn + 1, hash := q.hash + j, deg := q.deg + nvj, s := s }
    else pure q

/-- counters that Scan 2 changes -/
structure Cnt where
  degme : Int
  nvpiv : Int
  nel : Int
  s : St

/-- put `i` into hash bucket `hash` (amd_2.c:1262-1284) -/
def pushHash (i hash : Int) (s : St) : M St := do
  let j ← s.rHead hash
  let s ← (if j ≤ EMPTY then do
      let s ← s.wNext i (FLIP j)
      s.wHead hash (FLIP i)
    else do
      let l ← s.rLast j
      let s ← s.wNext i l
      s.wLast j i)
  s.wLast i hash

/-- `unsigned` arithmetic: the hash key of a list (amd_2.c:1258) -/
def hashKey (n hash : Int) : Int := hash % 2 ^ 64 % n

/-- Scan 2 for one variable (amd_2.c:1085-1287) -/
def updateVar (n me wflg : Int) (i : Int) (c : Cnt) : M Cnt := do
  let p1 ← c.s.rPe i
  let el ← c.s.rElen i
  let p2 := p1 + el - 1
  let q ← scanElems me wflg p1 p2 c.s
  let s ← q.s.wElen i (q.pn - p1 + 1)
  let p3 := q.pn
  let l ← s.rLen i
  let p4 := p1 + l
  let q ← scanVars p2 p4 { q with s := s }
  let pn := q.pn
  let el ← q.s.rElen i
  if el = 1 ∧ p3 = pn then do
    let s ← q.s.wPe i (FLIP me)
    let v ← s.rNv i
    let nvi := -v
    let s ← s.wNv i 0
    let s ← s.wElen i EMPTY
    pure { degme := c.degme - nvi, nvpiv := c.nvpiv + nvi, nel := c.nel + nvi, s := s }
  else do
    let d ← q.s.rDegree i
    let s ← q.s.wDegree i (min d q.deg)
    let v ← s.rIw p3
    let s ← s.wIw pn v
    let v ← s.rIw p1
    let s ← s.wIw p3 v
    let s ← s.wIw p1 me
    let s ← s.wLen i (pn - p1 + 1)
    let s ← pushHash i (hashKey n q.hash) s
    pure { c with s := s }

/-- Scan 2 (amd_2.c:1083-1287) -/
def scan2 (n me pme1 pme2 wflg : Int) (c : Cnt) : M Cnt :=
  forI pme1 (pme2 + 1) c fun pme c => do
    let i ← c.s.rIw pme
    updateVar n me wflg i c

/-- take the hash bucket of `i` out (amd_2.c:1322-1344) -/
def takeBucket (i : Int) (s : St) : M (Int × St) := do
  let hash ← s.rLast i
  let j ← s.rHead hash
  if j = EMPTY then pure (EMPTY, s)
  else if j < EMPTY then do
    let s ← s.wHead hash EMPTY
    pure (FLIP j, s)
  else do
    let i ← s.rLast j
    let s ← s.wLast j EMPTY
    pure (i, s)

/-- are the lists of `i` (scattered into `W`) and `j` the same? (amd_2.c:1391-1397) -/
def sameList (j ln eln wflg : Int) (s : St) : M Bool := do
  let lj ← s.rLen j
  if lj = ln then do
    let ej ← s.rElen j
    if ej = eln then do
      let pj ← s.rPe j
      let r ← loopE 0 (ln - 1).toNat () fun k (_ : Unit) => do
        let x ← s.rIw (pj + 1 + k)
        let wx ← s.rW x
        if wx ≠ wflg then pure (.inl ()) else pure (.inr ())
      match r with
      | .inl _ => pure false
      | .inr _ => pure true
    else pure false
  else pure false

/-- compare `i` with the variables after it in its bucket (amd_2.c:1374-1425) -/
def absorb (fuel : Nat) (i ln eln wflg : Int) (s : St) : M St := do
  let j ← s.rNext i
  iter fuel (i, j, s) fun (q : Int × Int × St) => do
    let jlast := q.1
    let j := q.2.1
    let s := q.2.2
    if j ≠ EMPTY then do
      let ok ← sameList j ln eln wflg s
      if ok then do
        let s ← s.wPe j (FLIP i)
        let a ← s.rNv i
        let b ← s.rNv j
        let s ← s.wNv i (a + b)
        let s ← s.wNv j 0
        let s ← s.wElen j EMPTY
        let j ← s.rNext j
        let s ← s.wNext jlast j
        pure (.inr (jlast, j, s))
      else do
        let jn ← s.rNext j
        pure (.inr (j, jn, s))
    else pure (.inl s)

/-- run through one hash bucket (amd_2.c:1354-1436) -/
def bucket (fuel : Nat) (i wflg : Int) (s : St) : M (Int × St) :=
  iter fuel (i, wflg, s) fun (q : Int × Int × St) => do
    let i := q.1
    let wflg := q.2.1
    let s := q.2.2
    if i ≠ EMPTY then do
      let nx ← s.rNext i
      if nx ≠ EMPTY then do
        let ln ← s.rLen i
        let eln ← s.rElen i
        let pi ← s.rPe i
        let s ← forI (pi + 1) (pi + ln) s fun p s => do
          let x ← s.rIw p
          s.wW x wflg
        let s ← absorb fuel i ln eln wflg s
        let nx ← s.rNext i
        pure (.inr (nx, wflg + 1, s))
      else pure (.inl (wflg, s))
    else pure (.inl (wflg, s))

/-- supervariable detection (amd_2.c:1303-1438) -/
def detect (n : Nat) (pme1 pme2 wflg : Int) (s : St) : M (Int × St) :=
  forI pme1 (pme2 + 1) (wflg, s) fun pme (q : Int × St) => do
    let i ← q.2.rIw pme
    let v ← q.2.rNv i
    if v < 0 then do
      let r ← takeBucket i q.2
      bucket (n + 1) r.1 q.1 r.2
    else pure q

/-- state of the loop that restores the degree lists -/
structure Rest where
  p : Int
  mindeg : Int
  s : St

/-- restore the degree lists (amd_2.c:1444-1492) -/
def restore (pme1 pme2 nleft degme mindeg : Int) (s : St) : M Rest :=
  forI pme1 (pme2 + 1) { p := pme1, mindeg := mindeg, s := s } fun pme q => do
    let i ← q.s.rIw pme
    let v ← q.s.rNv i
    let nvi := -v
    if nvi > 0 then do
      let s ← q.s.wNv i nvi
      let d ← s.rDegree i
      let deg := min (d + degme - nvi) (nleft - nvi)
      let inext ← s.rHead deg
      let s ← (if inext ≠ EMPTY then s.wLast inext i else pure s)
      let s ← s.wNext i inext
      let s ← s.wLast i EMPTY
      let s ← s.wHead deg i
      let s ← s.wDegree i deg
      let s ← s.wIw q.p i
      pure { p := q.p + 1, mindeg := min q.mindeg deg, s := s }
    else pure q

/-- scalars of the main loop -/
structure Main where
  mindeg : Int
  nel : Int
  lemax : Int
  wflg : Int
  pfree : Int
  s : St

/-- the chosen variable leaves its degree list (amd_2.c:734-737) -/
def takePivot (deg me : Int) (s : St) : M St := do
  let inext ← s.rNext me
  let s ← (if inext ≠ EMPTY then s.wLast inext EMPTY else pure s)
  s.wHead deg inext

/-- the new element has been built: its arrays (amd_2.c:991-998) -/
def setElement (me nvpiv : Int) (c : El) : M St := do
  let s ← c.s.wDegree me c.degme
  let s ← s.wPe me c.pme1
  let s ← s.wLen me (c.pme2 - c.pme1 + 1)
  s.wElen me (FLIP (nvpiv + c.degme))

/-- the new element is complete (amd_2.c:1499-1515) -/
def finish (me nvpiv elenme pme1 pfree : Int) (q : Rest) : M (Int × St) := do
  let s ← q.s.wNv me nvpiv
  let s ← s.wLen me (q.p - pme1)
  let l ← s.rLen me
  let s ← (if l = 0 then do
      let s ← s.wPe me EMPTY
      s.wW me 0
    else pure s)
  pure (if elenme ≠ 0 then q.p else pfree, s)

/-- one turn of the main loop (amd_2.c:698-1550) -/
def pivot (n : Nat) (iwlen wbig : Int) (a : Main) : M Main := do
  let f ← findPivot n a.mindeg a.s
  let deg := f.1
  let me := f.2
  let s ← takePivot deg me a.s
  let elenme ← s.rElen me
  let nvpiv ← s.rNv me
  let nel := a.nel + nvpiv
  let s ← s.wNv me (-nvpiv)
  let c ← (if elenme = 0 then inPlace me a.pfree s else inFree n iwlen me elenme a.pfree s)
  let s ← setElement me nvpiv c
  let g ← clearFlag n a.wflg wbig s
  let wflg := g.1
  let s ← scan1 c.pme1 c.pme2 wflg g.2
  let t ← scan2 n me c.pme1 c.pme2 wflg { degme := c.degme, nvpiv := nvpiv, nel := nel, s := s }
  let s ← t.s.wDegree me t.degme
  let lemax := max a.lemax t.degme
  let g ← clearFlag n (wflg + lemax) wbig s
  let g ← detect n c.pme1 c.pme2 g.1 g.2
  let r ← restore c.pme1 c.pme2 (n - t.nel) t.degme deg g.2
  let e ← finish me t.nvpiv elenme c.pme1 c.pfree r
  pure { mindeg := r.mindeg, nel := t.nel, lemax := lemax, wflg := g.1, pfree := e.1, s := e.2 }

/-- the elimination (amd_2.c:581-1550) -/
def eliminate (n : Nat) (iwlen pfree dense0 imax : Int) (s : St) : M St := do
  let dense := min (n : Int) (max 16 dense0)
  let s ← initArrays n s
  let wbig := imax - n
  let g ← clearFlag n 0 wbig s
  let d ← initLists n dense g.2
  iter (n + 1) { mindeg := 0, nel := d.1, lemax := 0, wflg := g.1, pfree := pfree, s := d.2 }
    fun (a : Main) => do
      if a.nel < n then do
        let a ← pivot n iwlen wbig a
        pure (.inr a)
      else pure (.inl a.s)

/-! ### amd_post_tree.c and amd_postorder.c

The arrays are those of `AMD_2` (amd_2.c:1766-1768): `Parent` is `Pe`, `Fsize` is `Elen`, `Order` is
`W`, `Child` is `Head`, `Sibling` is `Next`, `Stack` is `Last`. -/

/-- `for (f = Child [i] ; f != EMPTY ; f = Sibling [f]) s = body(f, s)` -/
def children (fuel : Nat) (f : Int) (s : σ) (sib : Int → σ → M Int) (body : Int → σ → M σ) : M σ :=
  iter fuel (f, s) fun (q : Int × σ) => do
    if q.1 ≠ EMPTY then do
      let s ← body q.1 q.2
      let f ← sib q.1 s
      pure (.inr (f, s))
    else pure (.inl q.2)

/-- `AMD_post_tree` (amd_post_tree.c:60-118): the new `k` -/
def postTree (n : Nat) (root k : Int) (s : St) : M (Int × St) := do
  let s ← s.wLast 0 root
  iter (2 * n + 1) (0, k, s) fun (q : Int × Int × St) => do
    let head := q.1
    let k := q.2.1
    let s := q.2.2
    if head ≥ 0 then do
      let i ← s.rLast head
      let c ← s.rHead i
      if c ≠ EMPTY then do
        let head ← children (n + 1) c head (fun f _ => s.rNext f) fun _ h => pure (h + 1)
        let r ← children (n + 1) c (head, s) (fun f r => r.2.rNext f) fun f r => do
          let s ← r.2.wLast r.1 f
          pure (r.1 - 1, s)
        let s ← r.2.wHead i EMPTY
        pure (.inr (head, k, s))
      else do
        let s ← s.wW i k
        pure (.inr (head - 1, k + 1, s))
    else pure (.inl (k, s))

/-- what the search for the biggest child remembers -/
structure Big where
  fprev : Int
  maxfr : Int
  bigfprev : Int
  bigf : Int

/-- put the biggest child last (amd_postorder.c:115-168) -/
def bigLast (n : Nat) (i : Int) (s : St) : M St := do
  let v ← s.rNv i
  if v > 0 then do
    let c ← s.rHead i
    if c ≠ EMPTY then do
      let b ← children (n + 1) c { fprev := EMPTY, maxfr := EMPTY, bigfprev := EMPTY, bigf := EMPTY }
        (fun f (_ : Big) => s.rNext f) fun f b => do
          let frsize ← s.rElen f
          if frsize ≥ b.maxfr then
            pure { fprev := f, maxfr := frsize, bigfprev := b.fprev, bigf := f }
          else pure { b with fprev := f }
      let fnext ← s.rNext b.bigf
      if fnext ≠ EMPTY then do
        let s ← (if b.bigfprev = EMPTY then s.wHead i fnext else s.wNext b.bigfprev fnext)
        let s ← s.wNext b.bigf EMPTY
        s.wNext b.fprev b.bigf
      else pure s
    else pure s
  else pure s

/-- `AMD_postorder` (amd_postorder.c:14-206) -/
def postorder (n : Nat) (s : St) : M St := do
  let s ← forI 0 n s fun j s => do
    let s ← s.wHead j EMPTY
    s.wNext j EMPTY
  let s ← forI 0 n s fun k s => do
    let j := (n : Int) - 1 - k
    let v ← s.rNv j
    if v > 0 then do
      let parent ← s.rPe j
      if parent ≠ EMPTY then do
        let c ← s.rHead parent
        let s ← s.wNext j c
        s.wHead parent j
      else pure s
    else pure s
  let s ← forI 0 n s fun i s => bigLast n i s
  let s ← forI 0 n s fun i s => s.wW i EMPTY
  let r ← forI 0 n ((0 : Int), s) fun i (q : Int × St) => do
    let p ← q.2.rPe i
    if p = EMPTY then do
      let v ← q.2.rNv i
      if v > 0 then postTree n i q.1 q.2 else pure q
    else pure q
  pure r.2

/-! ### the end of amd_2.c -/

/-- follow the parents from `j` to an element (amd_2.c:1736-1742) -/
def findRoot (n : Nat) (j : Int) (s : St) : M Int :=
  iter (n + 1) j fun j => do
    let v ← s.rNv j
    if v = 0 then do
      let j ← s.rPe j
      pure (.inr j)
    else pure (.inl j)

/-- path compression for one variable (amd_2.c:1710-1761) -/
def compressPath (n : Nat) (i : Int) (s : St) : M St := do
  let v ← s.rNv i
  if v = 0 then do
    let j ← s.rPe i
    if j = EMPTY then pure s
    else do
      let e ← findRoot n j s
      iter (n + 1) (i, s) fun (q : Int × St) => do
        let v ← q.2.rNv q.1
        if v = 0 then do
          let jnext ← q.2.rPe q.1
          let s ← q.2.wPe q.1 e
          pure (.inr (jnext, s))
        else pure (.inl q.2)
  else pure s

/-- `Next [e]`, the first position of each element, in the order of `Head` (amd_2.c:1796-1804) -/
def numberElems (n : Nat) (s : St) : M (Int × St) := do
  let r ← loopE 0 n ((0 : Int), s) fun k (q : Int × St) => do
    let e ← q.2.rHead k
    if e = EMPTY then pure (.inl q)
    else do
      let s ← q.2.wNext e q.1
      let v ← s.rNv e
      pure (.inr (q.1 + v, s))
  match r with
  | .inl q => pure q
  | .inr q => pure q

/-- the positions of the other variables (amd_2.c:1808-1832) -/
def numberRest (n : Nat) (q : Int × St) : M (Int × St) :=
  forI 0 n q fun i q => do
    let v ← q.2.rNv i
    if v = 0 then do
      let e ← q.2.rPe i
      if e ≠ EMPTY then do
        let x ← q.2.rNext e
        let s ← q.2.wNext i x
        let x ← s.rNext e
        let s ← s.wNext e (x + 1)
        pure (q.1, s)
      else do
        let s ← q.2.wNext i q.1
        pure (q.1 + 1, s)
    else pure q

/-- from the assembly tree to the permutation (amd_2.c:1633-1841) -/
def ordering (n : Nat) (s : St) : M St := do
  let s ← forI 0 n s fun i s => do
    let v ← s.rPe i
    s.wPe i (FLIP v)
  let s ← forI 0 n s fun i s => do
    let v ← s.rElen i
    s.wElen i (FLIP v)
  let s ← forI 0 n s fun i s => compressPath n i s
  let s ← postorder n s
  let s ← forI 0 n s fun k s => do
    let s ← s.wHead k EMPTY
    s.wNext k EMPTY
  let s ← forI 0 n s fun e s => do
    let k ← s.rW e
    if k ≠ EMPTY then s.wHead k e else pure s
  let q ← numberElems n s
  let q ← numberRest n q
  forI 0 n q.2 fun i s => do
    let k ← s.rNext i
    s.wLast k i

/-- `AMD_2` (amd_2.c:42-1842) -/
def amd2 (n : Nat) (iwlen pfree dense0 imax : Int) (s : St) : M St := do
  let s ← eliminate n iwlen pfree dense0 imax s
  ordering n s

/-! ### amd_1.c and amd_order.c -/

/-- the pointers of `A + A'`: `Pe`, `Sp` and `pfree` (amd_1.c:60-67) -/
def pointers (n : Int) (len pe sp : Buf Int) : M (Buf Int × Buf Int × Int) :=
  forI 0 n (pe, sp, 0) fun j (q : Buf Int × Buf Int × Int) => do
    let pe ← wrI q.1 j q.2.2
    let sp ← wrI q.2.1 j q.2.2
    let l ← rdI len j
    pure (pe, sp, q.2.2 + l)

/-- the piece `S [off .. off+len-1]` of the workspace, which has `slen` entries; pointers beyond its end are undefined -/
def piece (slen off len : Int) : M (Buf Int) :=
  if 0 ≤ off ∧ 0 ≤ len ∧ off + len ≤ slen then pure (malloc len.toNat) else .error .oob

/-- `AMD_1` (amd_1.c:29-180): the final `P`, which is `Last` in `AMD_2` -/
def amd1 (n : Nat) (Ap Ai P Pinv len : Buf Int) (slen dense0 imax : Int) : M (Buf Int) := do
  let iwlen := slen - 6 * n
  let pe ← piece slen 0 n
  let nv ← piece slen n n
  let head ← piece slen (2 * n) n
  let elen ← piece slen (3 * n) n
  let degree ← piece slen (4 * n) n
  let w ← piece slen (5 * n) n
  let iw ← piece slen (6 * n) iwlen
  let q ← pointers n len pe nv
  let r ← walk n Ap Ai storeEntry w (q.2.1, iw)
  let s ← amd2 n iwlen q.2.2 dense0 imax
    { pe := q.1, iw := r.2.2, len := len, nv := r.2.1, next := Pinv, last := P,
      head := head, elen := elen, degree := degree, w := r.1 }
  pure s.last

/-- the length of the workspace (amd_order.c:141-150) -/
def slenOf (n nzaat : Int) : Int := nzaat + nzaat / 5 + 7 * n

/-- `AMD_order` (amd_order.c:20-205), when `malloc` succeeds and the sizes do not exceed `SIZE_T_MAX`;
`P` is the caller's array -/
def order (dense0 imax : Int) (n : Int) (Ap Ai P : Buf Int) : M (Status × Buf Int) := do
  if n < 0 then pure (.invalid, P)
  else if n = 0 then pure (.ok, P)
  else
    let nz ← rdI Ap n
    if nz < 0 then pure (.invalid, P)
    else do
      let status ← valid n n Ap Ai
      if status = .invalid then pure (.invalid, P)
      else do
        let len := malloc n.toNat
        let pin := malloc n.toNat
        let c ← (if status = .jumbled then
            preprocess n Ap Ai
              { rp := malloc (n.toNat + 1), ri := malloc (max nz 1).toNat, w := len, flag := pin }
          else pure { rp := Ap, ri := Ai, w := len, flag := pin })
        let r ← aat n c.rp c.ri c.w P
        let slen := slenOf n r.2.2
        if slen < imax then do
          let P ← amd1 n.toNat c.rp c.ri r.2.1 c.flag r.1 slen dense0 imax
          pure (status, P)
        else pure (.outOfMemory, r.2.1)

end Ecos.Amd
