import Verif.ConcBase
import Verif.HeapModel

/-!
# The program of a thread that calls `bwt_string`

The functions of `HeapModel.lean` as thread programs: the same requests and releases. The text is not a parameter: the only
way to it is `readT`, an action other threads can see, so a piece of code that reads the text cannot be written without one.
`ConcErase.lean` shows that a thread alone does what `HeapModel.lean` says.
-/

namespace Flbwt

open SaStore

/-! ## `PackedArray`, `Queue` (src/packed_array.cpp, src/queue.cpp) -/

/-- `qb = malloc(sizeof(qblock)); qb->b = new PackedArray(QSIZ, w);` and the first use of the words
(src/queue.cpp:39-40, 69-70). The null pointers are dereferenced after the three requests. -/
def newQBlockC (w : Nat) : Th Unit := do
  let p ← mallocC qblockBlk
  newC .obj packedBlk
  let a ← mallocC (wordsBlk QSIZ w)
  nonNullC p
  nonNullC a

/-- `delete qb->b; free(qb);` (src/queue.cpp:26-27, 103-104): the destructor of the packed array frees the words -/
def freeQBlockC (w : Nat) : Th Unit := do
  freeC .c (wordsBlk QSIZ w)
  freeC .obj packedBlk
  freeC .c qblockBlk

namespace Queue

/-- `enqueue` (src/queue.cpp:33-61) -/
def enqueueC (sj : BitVec 64) (q : Queue) (x : BitVec 64) : Th Queue := do
  whenC (q.eOfs = QSIZ - 1) (newQBlockC q.w)
  Th.lift (q.enqueue sj x)

/-- `enqueue_l` (src/queue.cpp:63-91) -/
def enqueueLC (sj : BitVec 64) (q : Queue) (x : BitVec 64) : Th Queue := do
  whenC (q.sOfs = 0) (newQBlockC q.w)
  Th.lift (q.enqueueL sj x)

/-- `dequeue` (src/queue.cpp:93-121) -/
def dequeueC (sj : BitVec 64) (q : Queue) : Th (Int × Queue) := do
  let r ← Th.lift (q.dequeue sj)
  whenC (q.sOfs + 1 = QSIZ) (freeQBlockC q.w)
  pure r

/-- One iteration of the destructor (src/queue.cpp:22-30) -/
def destroyStepC (q : Queue) : Th (Queue ⊕ Queue) :=
  match q.sb with
  | none => pure (.inr q)
  | some a => do
    let blk ← Th.lift (q.deref (some a))
    freeQBlockC q.w
    pure (.inl { q with sb := blk.next, heap := heapSet q.heap a none })

/-- Destructor (src/queue.cpp:16-31) -/
def destroyC (fuel : Nat) (q : Queue) : Th Queue := whileC fuel q destroyStepC

end Queue

/-! ## `HashTable` and `Container` (src/hashtable.cpp, src/container.cpp) -/

/-- `new HashTable(hash_table_size, n)` (src/hashtable.cpp:6-26). If the constructor throws, the memory of the object
itself is released; the array `rest` is not. -/
def newTableC (htsize n : Nat) : Th HashTable := do
  newC .obj tableBlk
  onBadAllocC (do newC .arr (restBlk htsize); newC .arr (headBlk htsize)) (freeC .obj tableBlk)
  Th.lift (HashTable.new htsize n)

/-- The `realloc` of `insert_string` (src/hashtable.cpp:88-93) -/
def makeRoomC (junk : Fresh) (ht : HashTable) (h q : Nat) (r : Option Nat) (space : Nat) : Th (HashTable × Nat) := do
  let rest ← Th.lift (ht.rest.rd h)
  let lim ← Th.lift (HashTable.spaceLimit rest)
  whenC (toI64 space ≥ lim) (reallocC ht.bufsize (ht.bufsize + ht.hbsize + space))
  Th.lift (HashTable.makeRoom junk ht h q r space)

/-- `insert_string` (src/hashtable.cpp:28-131) -/
def insertStringC (junk : Fresh) (ht : HashTable) (m p : Nat) : Th (HashTable × Nat) := do
  let h ← readT fun T => HashTable.hashFunction ht.htsize T m p
  let q ← Th.lift (ht.head.rd h)
  let e ← readT fun T => whileM (ht.bufsize + 2) (q, none, ht.collisions) (HashTable.insertStep ht.nameBytes ht.buf T m p)
  match e with
  | .dup coll => pure ({ ht with collisions := coll }, 0)
  | .free q r coll => do
    let ht := { ht with collisions := coll }
    let lengthBytes ← Th.lift (HashTable.calculateLenlen m)
    let space := HashTable.spaceRequired lengthBytes m ht.nameBytes
    let x ← makeRoomC junk ht h q r space
    let buf ← readT fun T => HashTable.writeRecord x.1.nameBytes x.1.buf T m p lengthBytes x.2
    let rest ← Th.lift (x.1.rest.rd h)
    let rest' ← Th.lift (x.1.rest.wr h (subU64 rest space))
    pure ({ x.1 with buf := buf, rest := rest' }, 1)

/-- `delete hashtable` (src/hashtable.cpp:344-353) -/
def deleteTableC (ht : HashTable) : Th Unit := do
  freeC .arr (restBlk ht.htsize)
  freeC .arr (headBlk ht.htsize)
  whenC (ht.bufsize ≠ 0) (freeC .c ⟨.buf, ht.bufsize⟩)
  freeC .obj tableBlk

/-- `delete container` (src/container.cpp:22-26, src/flbwt.cpp:311); `delete NULL` does nothing -/
def deleteContainerC (ct : Container) : Th Unit := do
  match ct.hashtable with
  | none => pure ()
  | some ht => deleteTableC ht
  freeC .obj containerBlk

/-! ## `extract_LMS_strings`, `sort_LMS_strings`, `create_shortened_string` (src/flbwt.cpp:318-564) -/

/-- src/flbwt.cpp:353-362 -/
def exFoundC (junk : Fresh) (i : Nat) (s : ExSt) : Th ExSt := do
  let c ← readT fun T => T.rd (i + 1)
  let C ← Th.lift (bump s.C (c + 1))
  let r ← insertStringC junk s.ht (addU64 (subU64 s.q (i + 1)) 1) (i + 1)
  pure { s with C := C, ht := r.1, numSubs := s.numSubs + 1,
                numUnique := if r.2 ≠ 0 then s.numUnique + 1 else s.numUnique, p := i + 1, q := i + 1 }

/-- src/flbwt.cpp:351-363 -/
def exMaybeC (junk : Fresh) (i : Nat) (s : ExSt) : Th ExSt :=
  if s.prev = TYPE_S then exFoundC junk i s else pure s

/-- src/flbwt.cpp:343-373 -/
def exStepC (junk : Fresh) (i : Nat) (s : ExSt) : Th ExSt := do
  let a ← readT fun T => T.rd i
  let b ← readT fun T => T.rd (i + 1)
  let M ← Th.lift (bump s.M (a + 1))
  if a < b then pure { s with M := M, prev := TYPE_S }
  else if b < a then do
    let s ← exMaybeC junk i { s with M := M }
    let NL ← Th.lift (bump s.NL (a + 1))
    pure { s with NL := NL, prev := TYPE_L }
  else if s.prev = TYPE_L then do
    let NL ← Th.lift (bump s.NL (a + 1))
    pure { s with M := M, NL := NL }
  else pure { s with M := M }

/-- `extract_LMS_strings` after `new Container(n)` (src/flbwt.cpp:324-379) -/
def extractRestC (junk : Fresh) (n : Nat) : Th Container := do
  let ct := Container.new n
  if n ≤ 2 then pure ct
  else do
    let ht ← newTableC 67777 n
    let M ← Th.lift (bump ct.M 0)
    let c ← readT fun T => T.rd (n - 1)
    let M ← Th.lift (bump M (c + 1))
    let NL ← Th.lift (bump ct.NL (c + 1))
    let C ← Th.lift (bump ct.C 0)
    let s ← loopDownC (n - 1) (⟨M, NL, C, ht, 0, 0, TYPE_L, n, n⟩ : ExSt) (exStepC junk)
    pure { ct with hashtable := some s.ht, M := s.M, NL := s.NL, C := s.C, numSubs := s.numSubs, numUnique := s.numUnique,
                   headEnd := s.p }

/-- `sort_LMS_strings` (src/flbwt.cpp:381-507): the array of pointers, then the `realloc` for the head and end records;
both pointers are used after that. -/
def sortLMSC (sorter : Sorter) (pj : Nat → Nat) (junk : Fresh) (ct : Container) : Th (Mem Nat × Container) := do
  let p ← mallocC (ptrsBlk ct.numUnique)
  match ct.hashtable with
  | none => Th.lift (.error (.ub .nullDeref))
  | some ht => do
    let ll ← Th.lift (HashTable.calculateLenlen (ct.headEnd + 1))
    let space := 1 + 1 + ll + (ct.headEnd + 1) + ht.nameBytes + (1 + 1 + 1 + 1 + ht.nameBytes)
    reallocC ht.bufsize (ht.bufsize + space)
    nonNullC p
    let r ← Th.lift (sortNames sorter pj junk ct ht)
    readT fun T => sortHead T ct ht.bufsize r.1 r.2

/-- `create_shortened_string` (src/flbwt.cpp:509-564): the packed array is allocated, then used -/
def createShortenedC (tj : Nat → BitVec 64) (sj : BitVec 64) (n : Nat) (ct : Container) : Th PackedArray := do
  let bits ← Th.lift (positionOfMsb (ct.numUnique + 1))
  newC .obj packedBlk
  mallocC (wordsBlk (ct.numSubs + 2) bits) >>= nonNullC
  readT fun T => createShortened tj sj T n ct

/-- `delete T1` (src/packed_array.cpp:88-91) -/
def deletePackedC (p : PackedArray) : Th Unit := do
  freeC .c (wordsBlk p.length p.bits)
  freeC .obj packedBlk

/-! ## `sais_XXbit` (src/sais32bit.cpp and the other widths) -/

/-- `new[]` of several arrays, one after the other. src/flbwt.cpp:120-313. -/
def newAllC : List Blk → Th Unit
  | [] => pure ()
  | b :: l => do newC .arr b; newAllC l

/-- `delete[]` of several arrays. src/induce32bit.cpp:48 and the other four files. -/
def freeAllC : List Blk → Th Unit
  | [] => pure ()
  | b :: l => do freeC .arr b; freeAllC l

section
variable {S : Type} [SaStore S] [SaBlocks S]

/-- `new` of the counters (src/sais32bit.cpp:173-181, 325-333) -/
def placeCountersC (n k fs : Nat) (junk : Nat → BitVec 64) (s : St S) : Th (Ptr × Ptr × St S) := do
  whenC (fs < k) (newAllC (arrBlks S .counters k))
  pure (placeCounters n k fs junk s)

/-- `if (fs < k) delete[] C;` (src/sais32bit.cpp:208-209, 351-352) -/
def freeCountersC (k fs : Nat) (s : St S) : Th (St S) := do
  whenC (FreesCounters k fs) (freeAllC (arrBlks S .counters k))
  pure (freeCounters k fs s)

/-- stage 1 up to naming (src/sais32bit.cpp:172-292) -/
def stage1C (junk : Nat → BitVec 64) (e : Env) (fs n k : Nat) (s : St S) : Th (St S × Nat × Nat) := do
  let r ← placeCountersC n k fs junk s
  let s ← Th.lift (getCounts e r.1 n k r.2.2)
  let s ← Th.lift (getBuckets r.1 r.2.1 k true s)
  let s ← Th.lift (clearFrom 0 n s)
  let x ← Th.lift (lmsScan e n s () fun i c1 (s, t) => do
    let s ← putEnd r.2.1 c1 i s
    .ok (s, t))
  let s ← Th.lift (induceSA e r.1 r.2.1 n k x.1)
  let s ← freeCountersC k fs s
  let y ← Th.lift (compact e n s)
  let s ← Th.lift (clearFrom y.2 n y.1)
  let z ← Th.lift (lmsScan e n s (n : Int) fun i _ (s, j) => do
    let s ← s.st (.sa 0) (y.2 + i / 2 : Nat) (j - i)
    .ok (s, (i : Int)))
  let u ← Th.lift (nameSubstrings e n y.2 z.1)
  pure (u.1, y.2, u.2)

/-- stage 3 (src/sais32bit.cpp:324-352) -/
def stage3C (junk : Nat → BitVec 64) (e : Env) (fs n k m : Nat) (s : St S) : Th (St S) := do
  let r ← placeCountersC n k fs junk s
  let s ← Th.lift (getCounts e r.1 n k r.2.2)
  let s ← Th.lift (getBuckets r.1 r.2.1 k true s)
  let s ← Th.lift (clearFrom m n s)
  let s ← Th.lift (loopDown m s fun i s => do
    let j ← s.ld (.sa 0) i
    let s ← s.st (.sa 0) i 0
    let c ← chr e s j
    putEnd r.2.1 c j s)
  let s ← Th.lift (induceSA e r.1 r.2.1 n k s)
  freeCountersC k fs s

/-- `sais_32bit` (src/sais32bit.cpp:155-353) and the other widths -/
def saisC (junk : Nat → Nat → BitVec 64) : Nat → Env → Nat → Nat → Nat → St S → Th (St S)
  | 0, _, _, _, _, _ => Th.lift (.error (.ub .diverge))
  | fuel + 1, e, fs, n, k, s => do
    let r ← stage1C (junk fuel) e fs n k s
    let s ← if r.2.2 < r.2.1 then do
        let ra := n + fs - r.2.1
        let s ← Th.lift (gatherNames n r.2.1 ra r.1)
        let s ← saisC junk fuel { e with txt := .ptr ra, cs := width S } (fs + n - r.2.1 * 2) r.2.1 r.2.2 s
        Th.lift (afterRec e n r.2.1 ra s)
      else pure r.1
    stage3C (junk fuel) e fs n k r.2.1 s

end

/-! ## `induce_bwt_XXbit` (src/induce32bit.cpp and the other widths) -/

namespace IndSt

/-- `Q[t][c]->enqueue(x)`. src/induce32bit.cpp:75 and below. -/
def enqC (sj : BitVec 64) (s : IndSt) (t c : Nat) (x : Int) : Th IndSt := do
  let q ← Th.lift ((s.q t).rd c)
  let q ← q.enqueueC sj (BitVec.ofInt 64 x)
  Th.lift (s.setQ t c q)

/-- `Q[t][c]->enqueue_l(x)`. src/induce32bit.cpp:44 and below. -/
def enqLC (sj : BitVec 64) (s : IndSt) (t c : Nat) (x : Int) : Th IndSt := do
  let q ← Th.lift ((s.q t).rd c)
  let q ← q.enqueueLC sj (BitVec.ofInt 64 x)
  Th.lift (s.setQ t c q)

/-- `Q[t][c]->dequeue()`. src/induce32bit.cpp:71 and below. -/
def deqC (sj : BitVec 64) (s : IndSt) (t c : Nat) : Th (Int × IndSt) := do
  let q ← Th.lift ((s.q t).rd c)
  let r ← q.dequeueC sj
  let s ← Th.lift (s.setQ t c r.2)
  pure (r.1, s)

end IndSt

/-- `new Queue(bwp_w)`, `k` times (src/induce32bit.cpp:19-25, 131-132) -/
def newQueuesC (k : Nat) : Th Unit := loopUpC 0 k () fun _ _ => newC .obj queueBlk

/-- `delete Q[t][c]` for all `c` (src/induce32bit.cpp:125-129, 166-170). The two rows deleted in one loop of the code are
deleted one after the other here (`delete` does not fail, so the order does not matter). -/
def deleteQueuesC (t : Nat) (s : IndSt) : Th IndSt := do
  let _ ← loopUpC 0 258 () fun c _ => do
    let q ← Th.lift ((s.q t).rd c)
    let _ ← q.destroyC (q.cnt + 1)
    freeC .obj queueBlk
  pure { s with q := fun t' => if t' = t then ⟨0, (s.q t).data⟩ else s.q t' }

/-- src/induce32bit.cpp:31-45 -/
def seedC {S : Type} [SaStore S] (e : IndEnv) (sa : S) (num : Nat) (s : IndSt) : Th IndSt :=
  loopDownC (num + 1) s fun i s =>
    if i < SaStore.size sa then do
      let c ← Th.lift (seedChar e i (SaStore.get sa i + e.base))
      s.enqLC e.sj TYPE_LMS c (SaStore.get sa i + e.base - e.base)
    else Th.lift (.error (.ub .outOfBounds))

/-- src/induce32bit.cpp:75-76, 106-107 -/
def induceLC (e : IndEnv) (c1 : Nat) (q : Int) (s : IndSt) : Th IndSt := do
  let s ← s.enqC e.sj TYPE_L (c1 + 1) (q - 1 - e.base)
  let v ← Th.lift (rdPtr e.buf (q - 2))
  Th.lift (s.putFront (c1 + 1) v)

/-- src/induce32bit.cpp:70-77 -/
def firstRowC (e : IndEnv) (s : IndSt) : Th IndSt := do
  let r ← s.deqC e.sj TYPE_LMS 0
  let c1 ← Th.lift (rdPtr e.buf (e.base + r.1 - 1))
  let bwt ← Th.lift (r.2.bwt.wr 0 c1)
  let s ← induceLC e c1 (e.base + r.1) { r.2 with bwt := bwt }
  Th.lift (s.push 0 c1)

/-- src/induce32bit.cpp:96-118 -/
def visit1C (e : IndEnv) (c t : Nat) (m q : Int) (s : IndSt) : Th IndSt :=
  if q = e.lastptr then pure { s with last := some (BitVec.ofInt 64 m).toNat }
  else do
    let c1 ← Th.lift (rdPtr e.buf (q - 1))
    if c ≤ c1 + 1 then do
      let s ← induceLC e c1 q s
      Th.lift (pushIf t c c1 s)
    else s.enqLC e.sj TYPE_S c (q - e.base)

/-- src/induce32bit.cpp:92-121 -/
def step1C (e : IndEnv) (c t : Nat) : IndSt × Int → Th ((IndSt × Int) ⊕ IndSt)
  | (s, m) => do
    let q ← Th.lift ((s.q t).rd c)
    if q.isEmpty then pure (.inr s)
    else do
      let r ← s.deqC e.sj t c
      let s ← visit1C e c t m (e.base + r.1) r.2
      pure (.inl (s, m + 1))

/-- src/induce32bit.cpp:87-121 -/
def drain1C (e : IndEnv) (fuel c t : Nat) (s : IndSt) : Th IndSt := do
  let m ← Th.lift (rowStart e c t s)
  whileC fuel (s, m) (step1C e c t)

/-- src/induce32bit.cpp:83-123 -/
def pass1C (e : IndEnv) (fuel : Nat) (s : IndSt) : Th IndSt :=
  loopUpC 1 257 s fun c s => do
    let s ← drain1C e fuel c TYPE_L s
    drain1C e fuel c TYPE_LMS s

/-- src/induce32bit.cpp:145-161 -/
def visit2C (e : IndEnv) (c : Nat) (q : Int) (s : IndSt) : Th IndSt := do
  let c1 ← Th.lift (rdPtr e.buf (q - 1))
  if c1 + 1 ≤ c then do
    let s ← s.enqC e.sj TYPE_L (c1 + 1) (q - 1 - e.base)
    if q - 1 = e.lastptr then Th.lift (s.lastBack (c1 + 1))
    else do
      let c0 ← Th.lift (rdPtr e.buf (q - 2))
      if c0 ≤ c1 then Th.lift (s.putBack (c1 + 1) c0) else Th.lift (s.popBack (c1 + 1))
  else pure s

/-- src/induce32bit.cpp:143-162 -/
def step2C (e : IndEnv) (c t : Nat) (s : IndSt) : Th (IndSt ⊕ IndSt) := do
  let q ← Th.lift ((s.q t).rd c)
  if q.isEmpty then pure (.inr s)
  else do
    let r ← s.deqC e.sj t c
    let s ← visit2C e c (e.base + r.1) r.2
    pure (.inl s)

/-- src/induce32bit.cpp:139-164 -/
def pass2C (e : IndEnv) (fuel : Nat) (s : IndSt) : Th IndSt :=
  loopDownC 258 s fun c s => do
    let s ← whileC fuel s (step2C e c TYPE_L)
    whileC fuel s (step2C e c TYPE_S)

/-- `induce_bwt_XXbit` (src/induce32bit.cpp:11-178) -/
def induceBwtC {S : Type} [SaStore S] [SaBlocks S] (qj : Nat → Nat → Nat → Nat → BitVec 64) (bj : Nat → Nat) (sj : BitVec 64)
    (fuel : Nat) (buf : Mem Nat) (sa : S) (ct : Container) : Th BwtResult := do
  let e : IndEnv := ⟨buf, ct.bwpBase, ct.lastptr, ct.M, ct.C, sj⟩
  newQueuesC (3 * 258)
  let s : IndSt := ⟨fun t => newQueues ct.bwpWidth (qj t), ct.M2, ct.M3, ct.C2, ⟨ct.n + 1, fun i => bj i % 256⟩, none⟩
  let s ← seedC e sa ct.numSubs s
  freeAllC (arrBlks S .sa (ct.numSubs + 2))
  newC .arr (bwtBlk ct.n)
  let s ← Th.lift (bucketStarts e s)
  let s ← Th.lift (stackStarts ct.NL s)
  let s ← firstRowC e s
  let s ← pass1C e fuel s
  let s ← deleteQueuesC TYPE_LMS s
  let s ← deleteQueuesC TYPE_L s
  newQueuesC 258
  let s : IndSt := { s with q := fun t => if t = TYPE_L then newQueues ct.bwpWidth (qj 3) else s.q t }
  let s ← Th.lift (bucketEnds e s)
  let s ← pass2C e fuel s
  let s ← deleteQueuesC TYPE_L s
  let s ← deleteQueuesC TYPE_S s
  mallocC resultBlk >>= nonNullC
  match s.last with
  | some l => pure ⟨s.bwt, l⟩
  | none => Th.lift (.error (.ub .uninit))

/-! ## `bwt_is`, `bwt_string` (src/flbwt.cpp:110-313) -/

section
variable {S : Type} [SaStore S] [SaBlocks S]

/-- One branch of `bwt_is` (src/flbwt.cpp:162-309) -/
def branchC (S : Type) [SaStore S] [SaBlocks S] (w : World) (s : Mem Nat) (T1 : PackedArray) (ht : HashTable)
    (ct : Container) : Th BwtResult := do
  newAllC (arrBlks S .sa (ct.numSubs + 2))
  let sa : S := fresh (ct.numSubs + 2) w.aj
  let st ← saisC w.cj 64 { txt := .packed T1.arr, cs := T1.bits, sj := w.sj } 0 (ct.numSubs + 1) (ct.numUnique + 2)
    (⟨sa, fresh 0 (fun _ => 0)⟩ : St S)
  let sa ← Th.lift (incEntries (ct.numSubs + 1) st.sa)
  let sa ← Th.lift (toPointers w.sj ht.buf ct.bwpBase s T1 (ct.numSubs + 1) sa)
  freeC .c (ptrsBlk ct.numUnique)
  deletePackedC T1
  induceBwtC w.qj w.bj w.sj (ct.n + 2) ht.buf sa ct

end

/-- wrapping the result of a branch. Infrastructure: models no code. -/
def someC {α : Type} (x : Th α) : Th (Option α) := do
  let r ← x
  pure (some r)

/-- The selection of the integer width (src/flbwt.cpp:138-309) -/
def finishC (w : World) (s : Mem Nat) (T1 : PackedArray) (ct : Container) : Th (Option BwtResult) :=
  match ct.hashtable with
  | none => Th.lift (.error (.ub .nullDeref))
  | some ht => do
    let bits ← Th.lift (positionOfMsb (if ct.saMax < ct.numSubs + 2 then ct.numSubs + 2 else ct.saMax))
    if bits < 32 then someC (branchC S32 w s T1 ht ct)
    else if bits < 40 then someC (branchC S40 w s T1 ht ct)
    else if bits < 48 then someC (branchC S48 w s T1 ht ct)
    else if bits < 56 then someC (branchC S56 w s T1 ht ct)
    else if bits < 64 then someC (branchC S64 w s T1 ht ct)
    else pure none

/-- `if (free_T) free(T)` (src/flbwt.cpp:132-136) -/
def releaseC (freeT : Bool) : Th Unit := whenC (freeT = true) freeTextC

/-- `bwt_is` (src/flbwt.cpp:120-313) -/
def bwtIsC (w : World) (n : Nat) (freeT : Bool) : Th (Option BwtResult) := do
  newC .obj containerBlk
  let ct ← extractRestC w.junk n
  let r ← sortLMSC w.sorter w.pj w.junk ct
  let T1 ← createShortenedC w.tj w.sj n r.2
  releaseC freeT
  let b ← finishC w r.1 T1 r.2
  deleteContainerC r.2
  pure b

/-- `bwt_string` (src/flbwt.cpp:110-118); `null`: the pointer `T` is `NULL` -/
def bwtStringC (w : World) (null : Bool) (n : Nat) (freeT : Bool) : Th (Option BwtResult) :=
  if null ∨ n = 0 then Th.lift (.error (.throw .invalidArgument)) else bwtIsC w n freeT

end Flbwt
