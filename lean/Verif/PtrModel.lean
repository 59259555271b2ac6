import Verif.Bwt

/-!
# Pointers into the buffer of the hash table

In `Hash.lean` and `Front.lean` a pointer into the buffer is its offset. The buffer is moved by `realloc`
(src/hashtable.cpp:90, src/flbwt.cpp:394), after which a pointer into the old block must not be used any more. This file
repeats the functions that keep pointers with pointers that know their block: `gen` is the number of the `realloc` that
returned the block, and using a pointer into another block than the current one, or comparing or subtracting pointers into
different blocks, is the outcome `stale`.

Functions that form a pointer and use it without a `realloc` in between (`find_name`, the loops of `sort_LMS_strings`
that walk over the records, the bodies of `get_length` ...) are those of the model without blocks.
-/

namespace Flbwt

/-- How a computation can end abnormally: as in the model, or by the use of a pointer into a block that `realloc` has
released. Infrastructure: models no code. -/
inductive PErr where
  | prog (e : Err)
  | stale
  deriving DecidableEq, Repr

/-- Infrastructure: models no code. -/
abbrev PM := Except PErr

/-- a computation without stored pointers. Infrastructure: models no code. -/
def plift {α : Type _} : M α → PM α
  | .ok a => .ok a
  | .error e => .error (.prog e)

section
variable {σ β : Type _}

/-- `for (i = lo; i < lo + cnt; ++i) body`. Infrastructure: models no code. -/
def loopUpP (lo : Nat) : Nat → σ → (Nat → σ → PM σ) → PM σ
  | 0, s, _ => .ok s
  | cnt + 1, s, f => f lo s >>= fun s' => loopUpP (lo + 1) cnt s' f

/-- `for (i = hi - 1; i >= 0; --i) body`. Infrastructure: models no code. -/
def loopDownP : Nat → σ → (Nat → σ → PM σ) → PM σ
  | 0, s, _ => .ok s
  | hi + 1, s, f => f hi s >>= fun s' => loopDownP hi s' f

/-- `while` loop, as `whileM`. Infrastructure: models no code. -/
def whileP : Nat → σ → (σ → PM (σ ⊕ β)) → PM β
  | 0, _, _ => .error (.prog (.ub .diverge))
  | fuel + 1, s, f => f s >>= fun r =>
      match r with
      | .inl s' => whileP fuel s' f
      | .inr b => .ok b

end

/-- A pointer into the buffer of the table: block and offset.
`uint8_t *` into `buf`, src/hashtable.cpp:28-131 and src/flbwt.cpp:381-507. -/
structure BPtr where
  gen : Nat
  off : Nat

/-- The offset, when the pointer is used while `g` is the current block. Every access through such a pointer. -/
def BPtr.use (p : BPtr) (g : Nat) : PM Nat := if p.gen = g then .ok p.off else .error .stale

/-- The table together with the number of the block its member `buf` points to (0: null). include/hashtable.hpp:27-39. -/
structure GTab where
  ht : HashTable
  gen : Nat

/-- `&buf[i]`. src/hashtable.cpp:47, 53, 107, 111. -/
def GTab.ptr (t : GTab) (i : Nat) : BPtr := ⟨t.gen, i⟩

namespace HashTable

/-- How the scan of `insert_string` ends. `r` and `pp` are the variables of the code (unassigned: `none`).
src/hashtable.cpp:42-83. -/
inductive ScanEndP where
  | dup (coll : Nat)
  | free (q : Nat) (r : Option BPtr) (pp : Option Nat) (coll : Nat)

/-- Body of the scanning loop of `insert_string` (src/hashtable.cpp:44-83), state `(q, r, pp, collisions)`. -/
def insertStepP (t : GTab) (T : Mem Nat) (m p : Nat) :
    Nat × Option BPtr × Option Nat × Nat → PM ((Nat × Option BPtr × Option Nat × Nat) ⊕ ScanEndP)
  | (q, r, pp, coll) =>
    if q ≠ 0 then do
      let pp := q
      let r := t.ptr q
      let x ← r.use t.gen
      let l ← plift (getLength t.ht.buf x)
      if l = 0 then .ok (.inr (.free q (some (t.ptr pp)) (some pp) coll))
      else if l = 2 then do
        let x ← r.use t.gen
        let q' ← plift (getPointer t.ht.buf x)
        .ok (.inl (q', some r, some pp, coll + 1))
      else if l ≠ m then do
        let x ← r.use t.gen
        let d ← plift (stringInfoLength t.ht.nameBytes t.ht.buf x l)
        .ok (.inl (addU64 q d, some r, some pp, coll + 1))
      else do
        let x ← r.use t.gen
        let l2 ← plift (getLenlen t.ht.buf x)
        let i ← plift (compareLoop T p t.ht.buf (q + 1 + 1 + l2) m)
        if i = m then .ok (.inr (.dup coll))
        else do
          let x ← r.use t.gen
          let d ← plift (stringInfoLength t.ht.nameBytes t.ht.buf x l)
          .ok (.inl (addU64 q d, some r, some pp, coll + 1))
    else .ok (.inr (.free q r pp coll))

/-- Linking a new block (src/hashtable.cpp:99-108): `r2 = &buf[pp]` is formed after `buf` was assigned. -/
def linkBlockP (t : GTab) (h q : Nat) (pp : Option Nat) (q2 : Nat) : PM GTab :=
  if q = 0 then do
    let head ← plift (t.ht.head.wr h q2)
    .ok { t with ht := { t.ht with head := head } }
  else
    match pp with
    | none => .error (.prog (.ub .nullDeref))
    | some pp => do
      let r2 := t.ptr pp
      let x ← r2.use t.gen
      let buf ← plift (setPointer t.ht.buf x q2)
      .ok { t with ht := { t.ht with buf := buf } }

/-- A new block if needed (src/hashtable.cpp:88-111): `realloc` returns block `gen + 1`; the result is `r`. -/
def makeRoomP (junk : Fresh) (t : GTab) (h q : Nat) (r : Option BPtr) (pp : Option Nat) (space : Nat) : PM (GTab × BPtr) := do
  let rest ← plift (t.ht.rest.rd h)
  let lim ← plift (spaceLimit rest)
  if toI64 space ≥ lim then do
    let buf ← plift (reallocBytes junk t.ht.buf (t.ht.bufsize + t.ht.hbsize + space))
    let rest ← plift (t.ht.rest.wr h (t.ht.hbsize + space))
    let q2 := t.ht.bufsize + 1
    let t' ← linkBlockP ⟨{ t.ht with buf := buf, bufsize := t.ht.bufsize + (t.ht.hbsize + space), rest := rest }, t.gen + 1⟩ h q pp q2
    .ok (t', t'.ptr q2)
  else
    match r with
    | none => .error (.prog (.ub .nullDeref))
    | some r => .ok (t, r)

/-- `insert_string` (src/hashtable.cpp:28-131) -/
def insertStringP (junk : Fresh) (t : GTab) (T : Mem Nat) (m p : Nat) : PM (GTab × Nat) := do
  let h ← plift (hashFunction t.ht.htsize T m p)
  let q ← plift (t.ht.head.rd h)
  let e ← whileP (t.ht.bufsize + 2) (q, none, none, t.ht.collisions) (insertStepP t T m p)
  match e with
  | .dup coll => .ok ({ t with ht := { t.ht with collisions := coll } }, 0)
  | .free q r pp coll => do
    let t := { t with ht := { t.ht with collisions := coll } }
    let lengthBytes ← plift (calculateLenlen m)
    let space := spaceRequired lengthBytes m t.ht.nameBytes
    let x ← makeRoomP junk t h q r pp space
    let r ← x.2.use x.1.gen
    let buf ← plift (writeRecord x.1.ht.nameBytes x.1.ht.buf T m p lengthBytes r)
    let rest ← plift (x.1.ht.rest.rd h)
    let rest' ← plift (x.1.ht.rest.wr h (subU64 rest space))
    .ok ({ x.1 with ht := { x.1.ht with buf := buf, rest := rest' } }, 1)

end HashTable

/-! ## `extract_LMS_strings` -/

/-- the variables of `extract_LMS_strings`, and the block of the table. src/flbwt.cpp:321, 328, 333-335. -/
structure ExStP where
  s : ExSt
  gen : Nat

/-- src/flbwt.cpp:353-362 -/
def exFoundP (junk : Fresh) (T : Mem Nat) (i : Nat) (s : ExStP) : PM ExStP := do
  let c ← plift (T.rd (i + 1))
  let C ← plift (bump s.s.C (c + 1))
  let r ← HashTable.insertStringP junk ⟨s.s.ht, s.gen⟩ T (addU64 (subU64 s.s.q (i + 1)) 1) (i + 1)
  .ok ⟨{ s.s with C := C, ht := r.1.ht, numSubs := s.s.numSubs + 1,
                  numUnique := if r.2 ≠ 0 then s.s.numUnique + 1 else s.s.numUnique, p := i + 1, q := i + 1 }, r.1.gen⟩

/-- src/flbwt.cpp:351-363 -/
def exMaybeP (junk : Fresh) (T : Mem Nat) (i : Nat) (s : ExStP) : PM ExStP :=
  if s.s.prev = TYPE_S then exFoundP junk T i s else .ok s

/-- src/flbwt.cpp:343-373 -/
def exStepP (junk : Fresh) (T : Mem Nat) (i : Nat) (s : ExStP) : PM ExStP := do
  let a ← plift (T.rd i)
  let b ← plift (T.rd (i + 1))
  let M ← plift (bump s.s.M (a + 1))
  if a < b then .ok ⟨{ s.s with M := M, prev := TYPE_S }, s.gen⟩
  else if b < a then do
    let s ← exMaybeP junk T i ⟨{ s.s with M := M }, s.gen⟩
    let NL ← plift (bump s.s.NL (a + 1))
    .ok ⟨{ s.s with NL := NL, prev := TYPE_L }, s.gen⟩
  else if s.s.prev = TYPE_L then do
    let NL ← plift (bump s.s.NL (a + 1))
    .ok ⟨{ s.s with M := M, NL := NL }, s.gen⟩
  else .ok ⟨{ s.s with M := M }, s.gen⟩

/-- The container, the block its table's buffer is in, and the blocks its pointers `min_ptr`, `max_ptr`, `bwp_base`,
`lastptr` point into. include/container.hpp:14-33. -/
structure CtP where
  ct : Container
  gen : Nat
  gMin : Nat
  gMax : Nat
  gBase : Nat
  gLast : Nat

/-- `extract_LMS_strings` (src/flbwt.cpp:318-379); the pointers of the container are not assigned yet (block 0). -/
def extractLMSP (junk : Fresh) (T : Mem Nat) (n : Nat) : PM CtP := do
  let ct := Container.new n
  if n ≤ 2 then .ok ⟨ct, 0, 0, 0, 0, 0⟩
  else do
    let ht ← plift (HashTable.new 67777 n)
    let M ← plift (bump ct.M 0)
    let c ← plift (T.rd (n - 1))
    let M ← plift (bump M (c + 1))
    let NL ← plift (bump ct.NL (c + 1))
    let C ← plift (bump ct.C 0)
    let s ← loopDownP (n - 1) (⟨⟨M, NL, C, ht, 0, 0, TYPE_L, n, n⟩, 0⟩ : ExStP) (exStepP junk T)
    .ok ⟨{ ct with hashtable := some s.s.ht, M := s.s.M, NL := s.s.NL, C := s.s.C, numSubs := s.s.numSubs,
                   numUnique := s.s.numUnique, headEnd := s.s.p }, s.gen, 0, 0, 0, 0⟩

/-! ## `sort_LMS_strings` -/

/-- src/flbwt.cpp:404-418: `r = &buf[p]; q = r; ... s[j++] = q` -/
def collectStepP (t : GTab) : Nat × Mem BPtr × Nat → PM ((Nat × Mem BPtr × Nat) ⊕ (Mem BPtr × Nat))
  | (p, s, j) =>
    if p ≠ 0 then do
      let r := t.ptr p
      let q := r
      let x ← r.use t.gen
      let l ← plift (HashTable.getLength t.ht.buf x)
      if l = 0 then .ok (.inr (s, j))
      else if l = 2 then do
        let x ← r.use t.gen
        let p' ← plift (HashTable.getPointer t.ht.buf x)
        .ok (.inl (p', s, j))
      else do
        let s ← plift (s.wr j q)
        let x ← r.use t.gen
        let d ← plift (HashTable.stringInfoLength t.ht.nameBytes t.ht.buf x l)
        .ok (.inl (addU64 p d, s, j + 1))
    else .ok (.inr (s, j))

/-- src/flbwt.cpp:400-419 -/
def collectP (t : GTab) (s : Mem BPtr) (j : Nat) : PM (Mem BPtr × Nat) :=
  loopUpP 0 t.ht.htsize (s, j) fun i st => do
    let p ← plift (t.ht.head.rd i)
    whileP (t.ht.buf.size + 2) (p, st.1, st.2) (collectStepP t)

/-- `s[1..m]` as a list. The call of `std::sort` in src/flbwt.cpp:381-507. -/
def readRangeP (s : Mem BPtr) (m : Nat) : PM (List BPtr) := (List.range m).mapM fun i => plift (s.rd (i + 1))

/-- storing the sorted pointers back. The call of `std::sort` in src/flbwt.cpp:381-507. -/
def writeRangeP (s : Mem BPtr) (l : List BPtr) : PM (Mem BPtr) :=
  loopUpP 0 l.length s fun i s => plift (s.wr (i + 1) (l.getD i ⟨0, 0⟩))

/-- `std::sort(s + 1, s + 1 + m, LMS_comparison)` (src/flbwt.cpp:455): the comparison dereferences the pointers, so all of
them must point into the current block; the sorted pointers are the same pointers. -/
def sortPtrsP (sorter : Sorter) (t : GTab) (l : List BPtr) : PM (List BPtr) := do
  let offs ← l.mapM fun p => p.use t.gen
  let sorted ← plift (sorter (lmsCompare t.ht.buf) offs)
  .ok (sorted.map t.ptr)

/-- src/flbwt.cpp:458-462 -/
def setNamesLoopP (t : GTab) (s : Mem BPtr) (m : Nat) (buf : Mem Nat) : PM (Mem Nat) :=
  loopUpP 1 m buf fun i buf => do
    let q ← plift (s.rd i)
    let x ← q.use t.gen
    plift (HashTable.setName t.ht.nameBytes buf x i)

/-- The first part of `sort_LMS_strings` (src/flbwt.cpp:383-462): the array `s` is fresh, the buffer moves to a new
block, the records are collected, sorted and named. Simplification: an entry of `s` not written yet is a pointer with an
arbitrary offset `pj i` into the current block; the correctness theorems (C01) hold for every `pj`. -/
def sortNamesP (sorter : Sorter) (pj : Nat → Nat) (junk : Fresh) (ct : Container) (t : GTab) : PM (GTab × Mem BPtr) := do
  let ll ← plift (HashTable.calculateLenlen (ct.headEnd + 1))
  let space := 1 + 1 + ll + (ct.headEnd + 1) + t.ht.nameBytes + (1 + 1 + 1 + 1 + t.ht.nameBytes)
  let buf ← plift (reallocBytes junk t.ht.buf (t.ht.bufsize + space))
  let t : GTab := ⟨{ t.ht with buf := buf, bufsize := t.ht.bufsize + space }, t.gen + 1⟩
  let s : Mem BPtr := ⟨ct.numUnique + 2, fun i => t.ptr (pj i)⟩
  let r ← collectP t s 1
  let m := subU64 r.2 1
  let l ← readRangeP r.1 m
  let l ← sortPtrsP sorter t l
  let s ← writeRangeP r.1 l
  let buf ← setNamesLoopP t s m t.ht.buf
  .ok ({ t with ht := { t.ht with buf := buf } }, s)

/-- `p < q` for pointers: both must point into the same block. `min_ptr`, `max_ptr`, src/flbwt.cpp:381-507. -/
def BPtr.lt (p q : BPtr) : PM Bool := if p.gen = q.gen then .ok (decide (p.off < q.off)) else .error .stale

/-- Minimum and maximum of the pointers (src/flbwt.cpp:488-497) -/
def minMaxP (s : Mem BPtr) (numUnique : Nat) : PM (BPtr × BPtr) := do
  let s0 ← plift (s.rd 0)
  loopUpP 1 (numUnique + 1) (s0, s0) fun i mm => do
    let x ← plift (s.rd i)
    let a ← x.lt mm.1
    let b ← mm.2.lt x
    .ok (if a then x else mm.1, if b then x else mm.2)

/-- The second part of `sort_LMS_strings` (src/flbwt.cpp:464-507); `pos` is the offset of the head record. -/
def sortHeadP (T : Mem Nat) (ct : Container) (pos : Nat) (t : GTab) (s : Mem BPtr) : PM (Mem BPtr × CtP) := do
  let r := t.ptr pos
  let s ← plift (s.wr (ct.numUnique + 1) r)
  let x ← r.use t.gen
  let h ← plift (writeHead t.ht.nameBytes T ct.headEnd ct.numUnique t.ht.buf x)
  let s ← plift (s.wr 0 (t.ptr h.2.2))
  let x ← (t.ptr h.2.2).use t.gen
  let buf ← plift (writeEnd t.ht.nameBytes h.1 x)
  let mm ← minMaxP s ct.numUnique
  let _ ← mm.1.lt mm.2
  let w ← plift (positionOfMsb (subU64 mm.2.off mm.1.off + 2))
  let x ← mm.2.use t.gen
  let l ← plift (HashTable.getLength buf x)
  let fc ← plift (HashTable.getFirstCharacterPointer buf x)
  let _ ← mm.1.lt mm.2
  .ok (s, ⟨{ ct with hashtable := some { t.ht with buf := buf }, minPtr := mm.1.off, maxPtr := mm.2.off, bwpWidth := w,
                     bwpBase := (mm.1.off : Int) - 1, lastptr := h.2.1,
                     saMax := toU64 ((fc : Int) + l - 1 - ((mm.1.off : Int) - 1)) }, t.gen, mm.1.gen, mm.2.gen, mm.1.gen, t.gen⟩)

/-- `sort_LMS_strings` (src/flbwt.cpp:381-507) -/
def sortLMSP (sorter : Sorter) (pj : Nat → Nat) (junk : Fresh) (T : Mem Nat) (c : CtP) : PM (Mem BPtr × CtP) := do
  match c.ct.hashtable with
  | none => .error (.prog (.ub .nullDeref))
  | some ht => do
    let r ← sortNamesP sorter pj junk c.ct ⟨ht, c.gen⟩
    sortHeadP T c.ct ht.bufsize r.1 r.2

/-! ## `bwt_is` -/

section
variable {S : Type} [SaStore S]
open SaStore

/-- `SA[i] = first_char(S[T1[SA[i] - 1]]) + length - 1 - bwp_base` (src/flbwt.cpp:173-180 and the other branches): the
record must be in the current block, and in the same block as `bwp_base` -/
def toPointersP (sj : BitVec 64) (c : CtP) (buf : Mem Nat) (s : Mem BPtr) (T1 : PackedArray) (cnt : Nat) (sa : S) : PM S :=
  loopUpP 0 cnt sa fun i sa =>
    if i < size sa then
      if 1 ≤ get sa i then do
        let v ← plift (T1.getValue sj (get sa i - 1).toNat)
        let p ← plift (s.rd v.toNat)
        let q ← p.use c.gen
        let l ← plift (HashTable.getLength buf q)
        let fc ← plift (HashTable.getFirstCharacterPointer buf q)
        if p.gen = c.gBase then plift (putC sa i ((fc : Int) + l - 1 - c.ct.bwpBase)) else .error .stale
      else .error (.prog (.ub .outOfBounds))
    else .error (.prog (.ub .outOfBounds))

/-- `induce_bwt_XXbit`: all pointers it uses are `bwp_base` plus an offset, compared with `lastptr`
(src/induce32bit.cpp:11-178); both must point into the current block, which does not move any more -/
def induceBwtP (w : World) (c : CtP) (buf : Mem Nat) (sa : S) : PM BwtResult :=
  if c.gBase = c.gen ∧ c.gLast = c.gen then plift (induceBwt w.qj w.bj w.sj (c.ct.n + 2) buf sa c.ct)
  else .error .stale

/-- One branch of `bwt_is` (src/flbwt.cpp:162-309) -/
def branchP (S : Type) [SaStore S] (w : World) (s : Mem BPtr) (T1 : PackedArray) (ht : HashTable) (c : CtP) :
    PM BwtResult := do
  let sa : S := fresh (c.ct.numSubs + 2) w.aj
  let st ← plift (sais w.cj 64 { txt := .packed T1.arr, cs := T1.bits, sj := w.sj } 0 (c.ct.numSubs + 1) (c.ct.numUnique + 2)
    (⟨sa, fresh 0 (fun _ => 0)⟩ : St S))
  let sa ← plift (incEntries (c.ct.numSubs + 1) st.sa)
  let sa ← toPointersP w.sj c ht.buf s T1 (c.ct.numSubs + 1) sa
  induceBwtP w c ht.buf sa

end

/-- wrapping the result of a branch. Infrastructure: models no code. -/
def someP {α : Type _} (x : PM α) : PM (Option α) := x >>= fun r => .ok (some r)

/-- The selection of the integer width (src/flbwt.cpp:138-309) -/
def finishP (w : World) (s : Mem BPtr) (T1 : PackedArray) (c : CtP) : PM (Option BwtResult) :=
  match c.ct.hashtable with
  | none => .error (.prog (.ub .nullDeref))
  | some ht => do
    let bits ← plift (positionOfMsb (if c.ct.saMax < c.ct.numSubs + 2 then c.ct.numSubs + 2 else c.ct.saMax))
    if bits < 32 then someP (branchP S32 w s T1 ht c)
    else if bits < 40 then someP (branchP S40 w s T1 ht c)
    else if bits < 48 then someP (branchP S48 w s T1 ht c)
    else if bits < 56 then someP (branchP S56 w s T1 ht c)
    else if bits < 64 then someP (branchP S64 w s T1 ht c)
    else .ok none

/-- `bwt_is` (src/flbwt.cpp:120-313). `create_shortened_string` uses the table only through `find_name`. -/
def bwtIsP (w : World) (T : Mem Nat) (n : Nat) (freeT : Bool) : PM (Option BwtResult × Option (Mem Nat)) := do
  let c ← extractLMSP w.junk T n
  let r ← sortLMSP w.sorter w.pj w.junk T c
  let T1 ← plift (createShortened w.tj w.sj T n r.2.ct)
  let b ← finishP w r.1 T1 r.2
  .ok (b, release freeT T)

/-- `bwt_string` (src/flbwt.cpp:110-118) -/
def bwtStringP (w : World) (T : Option (Mem Nat)) (n : Nat) (freeT : Bool) : PM (Option BwtResult × Option (Mem Nat)) :=
  match T with
  | none => .error (.prog (.throw .invalidArgument))
  | some T => if n = 0 then .error (.prog (.throw .invalidArgument)) else bwtIsP w T n freeT

end Flbwt
