import Verif.HeapBase
import Verif.Bwt

/-!
# The program with every request and every release of memory

The functions below are those of `Hash.lean`, `Front.lean`, `Queue.lean`, `Sais.lean`, `Induce.lean` and `Bwt.lean` with the
calls of `new`, `malloc`, `realloc`, `delete`, `free` added; parts that neither request nor release memory are those of the
model without heap (`H.lift`). `HeapTop.lean` shows that the results are the same.

Sizes are those of a 64 bit ABI (`sizeof` of the classes). `std::sort` and `std::fill_n` do not allocate.
-/

namespace Flbwt

open SaStore

/-! ## `PackedArray`, `Queue` (src/packed_array.cpp, src/queue.cpp) -/

/-- `sizeof(PackedArray)`. include/packed_array.hpp:17-73. -/
abbrev packedBlk : Blk := ⟨.packed, 32⟩

/-- the words of a packed array: `malloc(arr_length * sizeof(uint64_t))` (src/packed_array.cpp:12-14) -/
abbrev wordsBlk (length bits : Nat) : Blk := ⟨.words, (length * bits / 64 + 1) * 8⟩

/-- `sizeof(qblock)`. include/queue.hpp:10-15. -/
abbrev qblockBlk : Blk := ⟨.qblock, 24⟩

/-- `sizeof(Queue)`. include/queue.hpp:22-73. -/
abbrev queueBlk : Blk := ⟨.queue, 56⟩

/-- `qb = malloc(sizeof(qblock)); qb->b = new PackedArray(QSIZ, w);` and the first use of the words
(src/queue.cpp:39-40, 69-70). The null pointers are dereferenced after the three requests. -/
def newQBlockH (w : Nat) : H Unit := do
  let p ← mallocB qblockBlk
  newB .obj packedBlk
  let a ← mallocB (wordsBlk QSIZ w)
  nonNull p
  nonNull a

/-- `delete qb->b; free(qb);` (src/queue.cpp:26-27, 103-104): the destructor of the packed array frees the words -/
def freeQBlockH (w : Nat) : H Unit := do
  freeB .c (wordsBlk QSIZ w)
  freeB .obj packedBlk
  freeB .c qblockBlk

/-- a request made only if `c`. Infrastructure: models no code. -/
def whenH (c : Prop) [Decidable c] (x : H Unit) : H Unit := if c then x else pure ()

namespace Queue

/-- `enqueue` (src/queue.cpp:33-61) -/
def enqueueH (sj : BitVec 64) (q : Queue) (x : BitVec 64) : H Queue := do
  whenH (q.eOfs = QSIZ - 1) (newQBlockH q.w)
  H.lift (q.enqueue sj x)

/-- `enqueue_l` (src/queue.cpp:63-91) -/
def enqueueLH (sj : BitVec 64) (q : Queue) (x : BitVec 64) : H Queue := do
  whenH (q.sOfs = 0) (newQBlockH q.w)
  H.lift (q.enqueueL sj x)

/-- `dequeue` (src/queue.cpp:93-121) -/
def dequeueH (sj : BitVec 64) (q : Queue) : H (Int × Queue) := do
  let r ← H.lift (q.dequeue sj)
  whenH (q.sOfs + 1 = QSIZ) (freeQBlockH q.w)
  pure r

/-- One iteration of the destructor (src/queue.cpp:22-30) -/
def destroyStepH (q : Queue) : H (Queue ⊕ Queue) :=
  match q.sb with
  | none => pure (.inr q)
  | some a => do
    let blk ← H.lift (q.deref (some a))
    freeQBlockH q.w
    pure (.inl { q with sb := blk.next, heap := heapSet q.heap a none })

/-- Destructor (src/queue.cpp:16-31) -/
def destroyH (fuel : Nat) (q : Queue) : H Queue := whileH fuel q destroyStepH

end Queue

/-! ## `HashTable` and `Container` (src/hashtable.cpp, src/container.cpp) -/

/-- `sizeof(Container)`. include/container.hpp:14-46. -/
abbrev containerBlk : Blk := ⟨.container, 12472⟩

/-- `sizeof(HashTable)`. include/hashtable.hpp:27-39. -/
abbrev tableBlk : Blk := ⟨.table, 64⟩

/-- `rest`, src/hashtable.cpp (constructor). -/
abbrev restBlk (htsize : Nat) : Blk := ⟨.rest, htsize * 8⟩
/-- `head`, src/hashtable.cpp (constructor). -/
abbrev headBlk (htsize : Nat) : Blk := ⟨.head, htsize * 8⟩

/-- `new HashTable(hash_table_size, n)` (src/hashtable.cpp:6-26). If the constructor throws, the memory of the object
itself is released; the array `rest` is not. -/
def newTableH (htsize n : Nat) : H HashTable := do
  newB .obj tableBlk
  onBadAlloc (do newB .arr (restBlk htsize); newB .arr (headBlk htsize)) (freeB .obj tableBlk)
  H.lift (HashTable.new htsize n)

/-- The `realloc` of `insert_string` (src/hashtable.cpp:88-93) -/
def makeRoomH (junk : Fresh) (ht : HashTable) (h q : Nat) (r : Option Nat) (space : Nat) : H (HashTable × Nat) := do
  let rest ← H.lift (ht.rest.rd h)
  let lim ← H.lift (HashTable.spaceLimit rest)
  whenH (toI64 space ≥ lim) (reallocB ht.bufsize (ht.bufsize + ht.hbsize + space))
  H.lift (HashTable.makeRoom junk ht h q r space)

/-- `insert_string` (src/hashtable.cpp:28-131) -/
def insertStringH (junk : Fresh) (ht : HashTable) (T : Mem Nat) (m p : Nat) : H (HashTable × Nat) := do
  let h ← H.lift (HashTable.hashFunction ht.htsize T m p)
  let q ← H.lift (ht.head.rd h)
  let e ← H.lift (whileM (ht.bufsize + 2) (q, none, ht.collisions) (HashTable.insertStep ht.nameBytes ht.buf T m p))
  match e with
  | .dup coll => pure ({ ht with collisions := coll }, 0)
  | .free q r coll => do
    let ht := { ht with collisions := coll }
    let lengthBytes ← H.lift (HashTable.calculateLenlen m)
    let space := HashTable.spaceRequired lengthBytes m ht.nameBytes
    let x ← makeRoomH junk ht h q r space
    let buf ← H.lift (HashTable.writeRecord x.1.nameBytes x.1.buf T m p lengthBytes x.2)
    let rest ← H.lift (x.1.rest.rd h)
    let rest' ← H.lift (x.1.rest.wr h (subU64 rest space))
    pure ({ x.1 with buf := buf, rest := rest' }, 1)

/-- `delete hashtable` (src/hashtable.cpp:344-353) -/
def deleteTableH (ht : HashTable) : H Unit := do
  freeB .arr (restBlk ht.htsize)
  freeB .arr (headBlk ht.htsize)
  whenH (ht.bufsize ≠ 0) (freeB .c ⟨.buf, ht.bufsize⟩)
  freeB .obj tableBlk

/-- `delete container` (src/container.cpp:22-26, src/flbwt.cpp:311); `delete NULL` does nothing -/
def deleteContainerH (ct : Container) : H Unit := do
  match ct.hashtable with
  | none => pure ()
  | some ht => deleteTableH ht
  freeB .obj containerBlk

/-! ## `extract_LMS_strings`, `sort_LMS_strings`, `create_shortened_string` (src/flbwt.cpp:318-564) -/

/-- src/flbwt.cpp:353-362 -/
def exFoundH (junk : Fresh) (T : Mem Nat) (i : Nat) (s : ExSt) : H ExSt := do
  let c ← H.lift (T.rd (i + 1))
  let C ← H.lift (bump s.C (c + 1))
  let r ← insertStringH junk s.ht T (addU64 (subU64 s.q (i + 1)) 1) (i + 1)
  pure { s with C := C, ht := r.1, numSubs := s.numSubs + 1,
                numUnique := if r.2 ≠ 0 then s.numUnique + 1 else s.numUnique, p := i + 1, q := i + 1 }

/-- src/flbwt.cpp:351-363 -/
def exMaybeH (junk : Fresh) (T : Mem Nat) (i : Nat) (s : ExSt) : H ExSt :=
  if s.prev = TYPE_S then exFoundH junk T i s else pure s

/-- src/flbwt.cpp:343-373 -/
def exStepH (junk : Fresh) (T : Mem Nat) (i : Nat) (s : ExSt) : H ExSt := do
  let a ← H.lift (T.rd i)
  let b ← H.lift (T.rd (i + 1))
  let M ← H.lift (bump s.M (a + 1))
  if a < b then pure { s with M := M, prev := TYPE_S }
  else if b < a then do
    let s ← exMaybeH junk T i { s with M := M }
    let NL ← H.lift (bump s.NL (a + 1))
    pure { s with NL := NL, prev := TYPE_L }
  else if s.prev = TYPE_L then do
    let NL ← H.lift (bump s.NL (a + 1))
    pure { s with M := M, NL := NL }
  else pure { s with M := M }

/-- `extract_LMS_strings` after `new Container(n)` (src/flbwt.cpp:324-379) -/
def extractRestH (junk : Fresh) (T : Mem Nat) (n : Nat) : H Container := do
  let ct := Container.new n
  if n ≤ 2 then pure ct
  else do
    let ht ← newTableH 67777 n
    let M ← H.lift (bump ct.M 0)
    let c ← H.lift (T.rd (n - 1))
    let M ← H.lift (bump M (c + 1))
    let NL ← H.lift (bump ct.NL (c + 1))
    let C ← H.lift (bump ct.C 0)
    let s ← loopDownH (n - 1) (⟨M, NL, C, ht, 0, 0, TYPE_L, n, n⟩ : ExSt) (exStepH junk T)
    pure { ct with hashtable := some s.ht, M := s.M, NL := s.NL, C := s.C, numSubs := s.numSubs, numUnique := s.numUnique,
                   headEnd := s.p }

/-- the array `s` of pointers (src/flbwt.cpp:384) -/
abbrev ptrsBlk (numUnique : Nat) : Blk := ⟨.ptrs, (numUnique + 2) * 8⟩

/-- `sort_LMS_strings` (src/flbwt.cpp:381-507): the array of pointers, then the `realloc` for the head and end records;
both pointers are used after that. -/
def sortLMSH (sorter : Sorter) (pj : Nat → Nat) (junk : Fresh) (T : Mem Nat) (ct : Container) : H (Mem Nat × Container) := do
  let p ← mallocB (ptrsBlk ct.numUnique)
  match ct.hashtable with
  | none => H.lift (.error (.ub .nullDeref))
  | some ht => do
    let ll ← H.lift (HashTable.calculateLenlen (ct.headEnd + 1))
    let space := 1 + 1 + ll + (ct.headEnd + 1) + ht.nameBytes + (1 + 1 + 1 + 1 + ht.nameBytes)
    reallocB ht.bufsize (ht.bufsize + space)
    nonNull p
    let r ← H.lift (sortNames sorter pj junk ct ht)
    H.lift (sortHead T ct ht.bufsize r.1 r.2)

/-- `create_shortened_string` (src/flbwt.cpp:509-564): the packed array is allocated, then used -/
def createShortenedH (tj : Nat → BitVec 64) (sj : BitVec 64) (T : Mem Nat) (n : Nat) (ct : Container) : H PackedArray := do
  let bits ← H.lift (positionOfMsb (ct.numUnique + 1))
  newB .obj packedBlk
  mallocB (wordsBlk (ct.numSubs + 2) bits) >>= nonNull
  H.lift (createShortened tj sj T n ct)

/-- `delete T1` (src/packed_array.cpp:88-91) -/
def deletePackedH (p : PackedArray) : H Unit := do
  freeB .c (wordsBlk p.length p.bits)
  freeB .obj packedBlk

/-! ## `sais_XXbit` (src/sais32bit.cpp and the other widths) -/

/-- The arrays an integer array consists of: sizes of the elements in bytes, in the order of their allocation
(src/flbwt.cpp:166, 193-194, 224-225, 255-257, 287). -/
class SaBlocks (S : Type) where
  parts : List Nat

/-- `int32_t`, include/sais32bit.hpp:24. -/
instance : SaBlocks S32 := ⟨[4]⟩
/-- `uint32_t`, `int8_t`, include/sais40bit.hpp:38-39. -/
instance : SaBlocks S40 := ⟨[4, 1]⟩
/-- `uint32_t`, `int16_t`, include/sais48bit.hpp:14. -/
instance : SaBlocks S48 := ⟨[4, 2]⟩
/-- `uint32_t`, `uint16_t`, `int8_t`, include/sais56bit.hpp:41-42. -/
instance : SaBlocks S56 := ⟨[4, 2, 1]⟩
/-- `int64_t`, include/sais64bit.hpp:23. -/
instance : SaBlocks S64 := ⟨[8]⟩

/-- the blocks of an integer array of `len` elements. The element types, include/sais32bit.hpp:24 and the other four headers. -/
def arrBlks (S : Type) [SaBlocks S] (r : Role) (len : Nat) : List Blk := (SaBlocks.parts S).map fun p => ⟨r, len * p⟩

/-- `new[]` of several arrays, one after the other. src/flbwt.cpp:120-313. -/
def newAllH : List Blk → H Unit
  | [] => pure ()
  | b :: l => do newB .arr b; newAllH l

/-- `delete[]` of several arrays. src/induce32bit.cpp:48 and the other four files. -/
def freeAllH : List Blk → H Unit
  | [] => pure ()
  | b :: l => do freeB .arr b; freeAllH l

section
variable {S : Type} [SaStore S] [SaBlocks S]

/-- `new` of the counters (src/sais32bit.cpp:173-181, 325-333) -/
def placeCountersH (n k fs : Nat) (junk : Nat → BitVec 64) (s : St S) : H (Ptr × Ptr × St S) := do
  whenH (fs < k) (newAllH (arrBlks S .counters k))
  pure (placeCounters n k fs junk s)

/-- `if (fs < k) delete[] C;` (src/sais32bit.cpp:208-209, 351-352) -/
def freeCountersH (k fs : Nat) (s : St S) : H (St S) := do
  whenH (FreesCounters k fs) (freeAllH (arrBlks S .counters k))
  pure (freeCounters k fs s)

/-- stage 1 up to naming (src/sais32bit.cpp:172-292) -/
def stage1H (junk : Nat → BitVec 64) (e : Env) (fs n k : Nat) (s : St S) : H (St S × Nat × Nat) := do
  let r ← placeCountersH n k fs junk s
  let s ← H.lift (getCounts e r.1 n k r.2.2)
  let s ← H.lift (getBuckets r.1 r.2.1 k true s)
  let s ← H.lift (clearFrom 0 n s)
  let x ← H.lift (lmsScan e n s () fun i c1 (s, t) => do
    let s ← putEnd r.2.1 c1 i s
    .ok (s, t))
  let s ← H.lift (induceSA e r.1 r.2.1 n k x.1)
  let s ← freeCountersH k fs s
  let y ← H.lift (compact e n s)
  let s ← H.lift (clearFrom y.2 n y.1)
  let z ← H.lift (lmsScan e n s (n : Int) fun i _ (s, j) => do
    let s ← s.st (.sa 0) (y.2 + i / 2 : Nat) (j - i)
    .ok (s, (i : Int)))
  let u ← H.lift (nameSubstrings e n y.2 z.1)
  pure (u.1, y.2, u.2)

/-- stage 3 (src/sais32bit.cpp:324-352) -/
def stage3H (junk : Nat → BitVec 64) (e : Env) (fs n k m : Nat) (s : St S) : H (St S) := do
  let r ← placeCountersH n k fs junk s
  let s ← H.lift (getCounts e r.1 n k r.2.2)
  let s ← H.lift (getBuckets r.1 r.2.1 k true s)
  let s ← H.lift (clearFrom m n s)
  let s ← H.lift (loopDown m s fun i s => do
    let j ← s.ld (.sa 0) i
    let s ← s.st (.sa 0) i 0
    let c ← chr e s j
    putEnd r.2.1 c j s)
  let s ← H.lift (induceSA e r.1 r.2.1 n k s)
  freeCountersH k fs s

/-- `sais_32bit` (src/sais32bit.cpp:155-353) and the other widths -/
def saisH (junk : Nat → Nat → BitVec 64) : Nat → Env → Nat → Nat → Nat → St S → H (St S)
  | 0, _, _, _, _, _ => H.lift (.error (.ub .diverge))
  | fuel + 1, e, fs, n, k, s => do
    let r ← stage1H (junk fuel) e fs n k s
    let s ← if r.2.2 < r.2.1 then do
        let ra := n + fs - r.2.1
        let s ← H.lift (gatherNames n r.2.1 ra r.1)
        let s ← saisH junk fuel { e with txt := .ptr ra, cs := width S } (fs + n - r.2.1 * 2) r.2.1 r.2.2 s
        H.lift (afterRec e n r.2.1 ra s)
      else pure r.1
    stage3H (junk fuel) e fs n k r.2.1 s

end

/-! ## `induce_bwt_XXbit` (src/induce32bit.cpp and the other widths) -/

namespace IndSt

/-- `Q[t][c]->enqueue(x)`. src/induce32bit.cpp:75 and below. -/
def enqH (sj : BitVec 64) (s : IndSt) (t c : Nat) (x : Int) : H IndSt := do
  let q ← H.lift ((s.q t).rd c)
  let q ← q.enqueueH sj (BitVec.ofInt 64 x)
  H.lift (s.setQ t c q)

/-- `Q[t][c]->enqueue_l(x)`. src/induce32bit.cpp:44 and below. -/
def enqLH (sj : BitVec 64) (s : IndSt) (t c : Nat) (x : Int) : H IndSt := do
  let q ← H.lift ((s.q t).rd c)
  let q ← q.enqueueLH sj (BitVec.ofInt 64 x)
  H.lift (s.setQ t c q)

/-- `Q[t][c]->dequeue()`. src/induce32bit.cpp:71 and below. -/
def deqH (sj : BitVec 64) (s : IndSt) (t c : Nat) : H (Int × IndSt) := do
  let q ← H.lift ((s.q t).rd c)
  let r ← q.dequeueH sj
  let s ← H.lift (s.setQ t c r.2)
  pure (r.1, s)

end IndSt

/-- `new Queue(bwp_w)`, `k` times (src/induce32bit.cpp:19-25, 131-132) -/
def newQueuesH (k : Nat) : H Unit := loopUpH 0 k () fun _ _ => newB .obj queueBlk

/-- `delete Q[t][c]` for all `c` (src/induce32bit.cpp:125-129, 166-170). The two rows deleted in one loop of the code are
deleted one after the other here (`delete` does not fail, so the order does not matter). -/
def deleteQueuesH (t : Nat) (s : IndSt) : H IndSt := do
  let _ ← loopUpH 0 258 () fun c _ => do
    let q ← H.lift ((s.q t).rd c)
    let _ ← q.destroyH (q.cnt + 1)
    freeB .obj queueBlk
  pure { s with q := fun t' => if t' = t then ⟨0, (s.q t).data⟩ else s.q t' }

/-- src/induce32bit.cpp:31-45 -/
def seedH {S : Type} [SaStore S] (e : IndEnv) (sa : S) (num : Nat) (s : IndSt) : H IndSt :=
  loopDownH (num + 1) s fun i s =>
    if i < SaStore.size sa then do
      let c ← H.lift (seedChar e i (SaStore.get sa i + e.base))
      s.enqLH e.sj TYPE_LMS c (SaStore.get sa i + e.base - e.base)
    else H.lift (.error (.ub .outOfBounds))

/-- src/induce32bit.cpp:75-76, 106-107 -/
def induceLH (e : IndEnv) (c1 : Nat) (q : Int) (s : IndSt) : H IndSt := do
  let s ← s.enqH e.sj TYPE_L (c1 + 1) (q - 1 - e.base)
  let v ← H.lift (rdPtr e.buf (q - 2))
  H.lift (s.putFront (c1 + 1) v)

/-- src/induce32bit.cpp:70-77 -/
def firstRowH (e : IndEnv) (s : IndSt) : H IndSt := do
  let r ← s.deqH e.sj TYPE_LMS 0
  let c1 ← H.lift (rdPtr e.buf (e.base + r.1 - 1))
  let bwt ← H.lift (r.2.bwt.wr 0 c1)
  let s ← induceLH e c1 (e.base + r.1) { r.2 with bwt := bwt }
  H.lift (s.push 0 c1)

/-- src/induce32bit.cpp:96-118 -/
def visit1H (e : IndEnv) (c t : Nat) (m q : Int) (s : IndSt) : H IndSt :=
  if q = e.lastptr then pure { s with last := some (BitVec.ofInt 64 m).toNat }
  else do
    let c1 ← H.lift (rdPtr e.buf (q - 1))
    if c ≤ c1 + 1 then do
      let s ← induceLH e c1 q s
      H.lift (pushIf t c c1 s)
    else s.enqLH e.sj TYPE_S c (q - e.base)

/-- src/induce32bit.cpp:92-121 -/
def step1H (e : IndEnv) (c t : Nat) : IndSt × Int → H ((IndSt × Int) ⊕ IndSt)
  | (s, m) => do
    let q ← H.lift ((s.q t).rd c)
    if q.isEmpty then pure (.inr s)
    else do
      let r ← s.deqH e.sj t c
      let s ← visit1H e c t m (e.base + r.1) r.2
      pure (.inl (s, m + 1))

/-- src/induce32bit.cpp:87-121 -/
def drain1H (e : IndEnv) (fuel c t : Nat) (s : IndSt) : H IndSt := do
  let m ← H.lift (rowStart e c t s)
  whileH fuel (s, m) (step1H e c t)

/-- src/induce32bit.cpp:83-123 -/
def pass1H (e : IndEnv) (fuel : Nat) (s : IndSt) : H IndSt :=
  loopUpH 1 257 s fun c s => do
    let s ← drain1H e fuel c TYPE_L s
    drain1H e fuel c TYPE_LMS s

/-- src/induce32bit.cpp:145-161 -/
def visit2H (e : IndEnv) (c : Nat) (q : Int) (s : IndSt) : H IndSt := do
  let c1 ← H.lift (rdPtr e.buf (q - 1))
  if c1 + 1 ≤ c then do
    let s ← s.enqH e.sj TYPE_L (c1 + 1) (q - 1 - e.base)
    if q - 1 = e.lastptr then H.lift (s.lastBack (c1 + 1))
    else do
      let c0 ← H.lift (rdPtr e.buf (q - 2))
      if c0 ≤ c1 then H.lift (s.putBack (c1 + 1) c0) else H.lift (s.popBack (c1 + 1))
  else pure s

/-- src/induce32bit.cpp:143-162 -/
def step2H (e : IndEnv) (c t : Nat) (s : IndSt) : H (IndSt ⊕ IndSt) := do
  let q ← H.lift ((s.q t).rd c)
  if q.isEmpty then pure (.inr s)
  else do
    let r ← s.deqH e.sj t c
    let s ← visit2H e c (e.base + r.1) r.2
    pure (.inl s)

/-- src/induce32bit.cpp:139-164 -/
def pass2H (e : IndEnv) (fuel : Nat) (s : IndSt) : H IndSt :=
  loopDownH 258 s fun c s => do
    let s ← whileH fuel s (step2H e c TYPE_L)
    whileH fuel s (step2H e c TYPE_S)

/-- the array `BWT` (src/induce32bit.cpp:51) -/
abbrev bwtBlk (n : Nat) : Blk := ⟨.bwt, n + 1⟩

/-- `sizeof(BWT_result)` (src/induce32bit.cpp:173) -/
abbrev resultBlk : Blk := ⟨.result, 16⟩

/-- `induce_bwt_XXbit` (src/induce32bit.cpp:11-178) -/
def induceBwtH {S : Type} [SaStore S] [SaBlocks S] (qj : Nat → Nat → Nat → Nat → BitVec 64) (bj : Nat → Nat) (sj : BitVec 64)
    (fuel : Nat) (buf : Mem Nat) (sa : S) (ct : Container) : H BwtResult := do
  let e : IndEnv := ⟨buf, ct.bwpBase, ct.lastptr, ct.M, ct.C, sj⟩
  newQueuesH (3 * 258)
  let s : IndSt := ⟨fun t => newQueues ct.bwpWidth (qj t), ct.M2, ct.M3, ct.C2, ⟨ct.n + 1, fun i => bj i % 256⟩, none⟩
  let s ← seedH e sa ct.numSubs s
  freeAllH (arrBlks S .sa (ct.numSubs + 2))
  newB .arr (bwtBlk ct.n)
  let s ← H.lift (bucketStarts e s)
  let s ← H.lift (stackStarts ct.NL s)
  let s ← firstRowH e s
  let s ← pass1H e fuel s
  let s ← deleteQueuesH TYPE_LMS s
  let s ← deleteQueuesH TYPE_L s
  newQueuesH 258
  let s : IndSt := { s with q := fun t => if t = TYPE_L then newQueues ct.bwpWidth (qj 3) else s.q t }
  let s ← H.lift (bucketEnds e s)
  let s ← pass2H e fuel s
  let s ← deleteQueuesH TYPE_L s
  let s ← deleteQueuesH TYPE_S s
  mallocB resultBlk >>= nonNull
  match s.last with
  | some l => pure ⟨s.bwt, l⟩
  | none => H.lift (.error (.ub .uninit))

/-! ## `bwt_is`, `bwt_string` (src/flbwt.cpp:110-313) -/

section
variable {S : Type} [SaStore S] [SaBlocks S]

/-- One branch of `bwt_is` (src/flbwt.cpp:162-309) -/
def branchH (S : Type) [SaStore S] [SaBlocks S] (w : World) (s : Mem Nat) (T1 : PackedArray) (ht : HashTable)
    (ct : Container) : H BwtResult := do
  newAllH (arrBlks S .sa (ct.numSubs + 2))
  let sa : S := fresh (ct.numSubs + 2) w.aj
  let st ← saisH w.cj 64 { txt := .packed T1.arr, cs := T1.bits, sj := w.sj } 0 (ct.numSubs + 1) (ct.numUnique + 2)
    (⟨sa, fresh 0 (fun _ => 0)⟩ : St S)
  let sa ← H.lift (incEntries (ct.numSubs + 1) st.sa)
  let sa ← H.lift (toPointers w.sj ht.buf ct.bwpBase s T1 (ct.numSubs + 1) sa)
  freeB .c (ptrsBlk ct.numUnique)
  deletePackedH T1
  induceBwtH w.qj w.bj w.sj (ct.n + 2) ht.buf sa ct

end

/-- wrapping the result of a branch. Infrastructure: models no code. -/
def someH {α : Type _} (x : H α) : H (Option α) := do
  let r ← x
  pure (some r)

/-- The selection of the integer width (src/flbwt.cpp:138-309) -/
def finishH (w : World) (s : Mem Nat) (T1 : PackedArray) (ct : Container) : H (Option BwtResult) :=
  match ct.hashtable with
  | none => H.lift (.error (.ub .nullDeref))
  | some ht => do
    let bits ← H.lift (positionOfMsb (if ct.saMax < ct.numSubs + 2 then ct.numSubs + 2 else ct.saMax))
    if bits < 32 then someH (branchH S32 w s T1 ht ct)
    else if bits < 40 then someH (branchH S40 w s T1 ht ct)
    else if bits < 48 then someH (branchH S48 w s T1 ht ct)
    else if bits < 56 then someH (branchH S56 w s T1 ht ct)
    else if bits < 64 then someH (branchH S64 w s T1 ht ct)
    else pure none

/-- `if (free_T) free(T)` (src/flbwt.cpp:132-136) -/
def releaseH (freeT : Bool) (T : Mem Nat) : H (Option (Mem Nat)) := do
  whenH (freeT = true) (freeB .c ⟨.text, T.size⟩)
  pure (release freeT T)

/-- `bwt_is` (src/flbwt.cpp:120-313) -/
def bwtIsH (w : World) (T : Mem Nat) (n : Nat) (freeT : Bool) : H (Option BwtResult × Option (Mem Nat)) := do
  newB .obj containerBlk
  let ct ← extractRestH w.junk T n
  let r ← sortLMSH w.sorter w.pj w.junk T ct
  let T1 ← createShortenedH w.tj w.sj T n r.2
  let T' ← releaseH freeT T
  let b ← finishH w r.1 T1 r.2
  deleteContainerH r.2
  pure (b, T')

/-- `bwt_string` (src/flbwt.cpp:110-118) -/
def bwtStringH (w : World) (T : Option (Mem Nat)) (n : Nat) (freeT : Bool) : H (Option BwtResult × Option (Mem Nat)) :=
  match T with
  | none => H.lift (.error (.throw .invalidArgument))
  | some T => if n = 0 then H.lift (.error (.throw .invalidArgument)) else bwtIsH w T n freeT

/-- How `bwt_file` releases the result: `delete[] B->BWT; free(B);` (src/flbwt.cpp:101-107) -/
def releaseResultH (n : Nat) : H Unit := do
  freeB .arr (bwtBlk n)
  freeB .c resultBlk

end Flbwt
