import Verif.TimeBase
import Verif.Bwt

/-!
# The counting versions of the functions of the model

Every function below is the function of the same name (without the final `T`) in `Sais.lean`, `Induce.lean`, `Bwt.lean`,
with its loops replaced by counting loops; the comment gives the lines of the loops counted. The theorems `erase_…` say
that nothing else was changed. Operations without loops, and the loops over the at most 8 bytes of a length or name
field, are taken over unchanged with `lift`: they are elementary operations.
-/

namespace Flbwt

open TM

variable {S : Type}

section
variable [SaStore S]
open SaStore

/-- `get_counts`: both loops (src/sais32bit.cpp:43-50) -/
def getCountsT (e : Env) (C : Ptr) (n k : Nat) (s : St S) : TM (St S) := do
  let s ← loopUpT 0 k s fun i s => lift (s.st C i 0)
  loopUpT 0 n s fun i s => lift (do
    let c ← chr e s i
    let v ← s.ld C c
    s.st C c (v + 1))

/-- `get_buckets` (src/sais32bit.cpp:55-75) -/
def getBucketsT (C B : Ptr) (k : Nat) (fin : Bool) (s : St S) : TM (St S) := do
  let r ← loopUpT 0 k ((0 : Nat), s) fun i (sum, s) => lift (do
    let v ← s.ld C i
    let sum := addU64 sum (toU64 v)
    let s ← s.st B i (toI64 (if fin then sum else subU64 sum (toU64 v) : Nat))
    .ok (sum, s))
  pure r.2

/-- `if (C == B) get_counts(…)` (src/sais32bit.cpp:88-91, 122-125) -/
def recountT (e : Env) (C B : Ptr) (n k : Nat) (s : St S) : TM (St S) :=
  if C = B then getCountsT e C n k s else pure s

/-- `induce_SA`: the two scans and the calls (src/sais32bit.cpp:80-153) -/
def induceSAT (e : Env) (C B : Ptr) (n k : Nat) (s : St S) : TM (St S) := do
  let s ← recountT e C B n k s
  let s ← getBucketsT C B k false s
  let x ← lift (do
    let j : Int := loc S ((n : Int) - 1)
    let ch ← chr e s j
    let c1 := loc S ch
    let b ← s.ld B c1
    pushL e ⟨s, c1, b⟩ j)
  let x ← loopUpT 0 n x fun i x => lift (induceBody1 e B i x)
  let s := x.s
  let s ← recountT e C B n k s
  let s ← getBucketsT C B k true s
  let b ← lift (s.ld B 0)
  let x ← loopDownT n ⟨s, 0, b⟩ fun i x => lift (induceBody2 e B i x)
  pure x.s

/-- the backward scans for LMS positions (src/sais32bit.cpp:189-204, 242-259, 306-318) -/
def lmsScanT {τ : Type} (e : Env) (n : Nat) (s : St S) (t : τ) (act : Nat → Int → St S × τ → M (St S × τ)) :
    TM (St S × τ) := do
  let c1 ← lift (chr e s ((n : Int) - 1))
  let r ← loopDownT (n - 1) ((0 : Int), toI64 c1, s, t) fun i (c, c1, s, t) => lift (do
    let c0 ← chr e s i
    let c0 := toI64 c0
    let d ← addI64 c1 c
    if c0 < d then .ok (1, c0, s, t)
    else if c ≠ 0 then do
      let (s, t) ← act (i + 1) c1 (s, t)
      .ok (0, c0, s, t)
    else .ok (c, c0, s, t))
  pure r.2.2

/-- `for (i = lo; i < n; ++i) SA[i] = 0;` (src/sais32bit.cpp:186-187, 238-239, 339-340) -/
def clearFromT (lo n : Nat) (s : St S) : TM (St S) :=
  loopUpT lo (n - lo) s fun i s => lift (s.st (.sa 0) i 0)

/-- the inner loop of the compaction (src/sais32bit.cpp:224-229) -/
def runEndT (e : Env) (n : Nat) (s : St S) (p : Nat) (c0 : Int) : TM (Nat × Int) :=
  whileT (n + 1) (p + 1, c0) fun (j, c1) => lift (
    if j < n then do
      let c1 ← chr e s j
      let c1 := toI64 c1
      if c0 ≠ c1 then .ok (.inr (j, c1)) else .ok (.inl (j + 1, c1))
    else .ok (.inr (j, c1)))

/-- the store at the end of an iteration of the compaction (src/sais32bit.cpp:230-233) -/
def compactStore (n : Nat) (s : St S) (m : Nat) (p c0 : Int) (r : Nat × Int) : M (St S × Nat) :=
  if r.1 < n ∧ c0 < r.2 then do
    let s ← s.st (.sa 0) m p
    .ok (s, m + 1)
  else .ok (s, m)

/-- an iteration of the compaction (src/sais32bit.cpp:214-234) -/
def compactBodyT (e : Env) (n i : Nat) (x : St S × Nat) : TM (St S × Nat) := do
  let p ← lift (x.1.ld (.sa 0) i)
  if 0 < p then do
    let prev ← lift (chr e x.1 (p - 1))
    let c0 ← lift (chr e x.1 p)
    let c0 := toI64 c0
    if loc S prev > c0 then do
      let r ← runEndT e n x.1 p.toNat c0
      lift (compactStore n x.1 x.2 p c0 r)
    else pure (x.1, x.2)
  else pure (x.1, x.2)

/-- compaction: the loop and its inner loop (src/sais32bit.cpp:212-235) -/
def compactT (e : Env) (n : Nat) (s : St S) : TM (St S × Nat) := loopUpT 0 n (s, 0) (compactBodyT e n)

/-- comparison of two substrings (src/sais32bit.cpp:274-281) -/
def sameBlockT (e : Env) (s : St S) (p q : Int) (plen : Nat) : TM Bool :=
  whileT (plen + 1) 0 fun j => lift (
    if j < plen then do
      let pj ← addI64 p j
      let a ← chr e s pj
      let qj ← addI64 q j
      let b ← chr e s qj
      if a ≠ b then .ok (.inr false) else .ok (.inl (j + 1))
    else .ok (.inr true))

/-- src/sais32bit.cpp:270-282 -/
def sameAsT (e : Env) (s : St S) (p q plen qlen : Int) : TM Bool :=
  if plen = qlen then sameBlockT e s p q plen.toNat else pure false

/-- the store at the end of an iteration of naming (src/sais32bit.cpp:283-291) -/
def nameStore (index : Int) (x : St S × Nat × Int × Int) (p plen : Int) (same : Bool) : M (St S × Nat × Int × Int) := do
  let y := if same then x.2 else (x.2.1 + 1, p, plen)
  let s ← x.1.st (.sa 0) index y.1
  .ok (s, y)

/-- an iteration of naming (src/sais32bit.cpp:263-291) -/
def nameBodyT (e : Env) (m i : Nat) (x : St S × Nat × Int × Int) : TM (St S × Nat × Int × Int) := do
  let p ← lift (x.1.ld (.sa 0) i)
  let index ← lift (addI64 m (p / 2))
  let plen ← lift (x.1.ld (.sa 0) index)
  let same ← sameAsT e x.1 p x.2.2.1 plen x.2.2.2
  lift (nameStore index x p plen same)

/-- naming: the loop and the comparisons (src/sais32bit.cpp:262-292) -/
def nameSubstringsT (e : Env) (n m : Nat) (s : St S) : TM (St S × Nat) := do
  let r ← loopUpT 0 m (s, (0 : Nat), (n : Int), (0 : Int)) (nameBodyT e m)
  pure (r.1, r.2.1)

/-- src/sais32bit.cpp:298-302 -/
def gatherNamesT (n m ra : Nat) (s : St S) : TM (St S) := do
  let r ← loopDownT (n - m) (s, (m : Int) - 1) fun i' (s, j) => lift (do
    let i := m + i'
    let v ← s.ld (.sa 0) i
    if nz s.sa i then do
      let s ← s.st (.sa ra) j (v - 1)
      .ok (s, j - 1)
    else .ok (s, j))
  pure r.1

/-- src/sais32bit.cpp:320-321 -/
def mapBackT (m ra : Nat) (s : St S) : TM (St S) :=
  loopUpT 0 m s fun i s => lift (do
    let v ← s.ld (.sa 0) i
    let w ← s.ld (.sa ra) v
    s.st (.sa 0) i w)

/-- stage 1 (src/sais32bit.cpp:172-292) -/
def stage1T (junk : Nat → BitVec 64) (e : Env) (fs n k : Nat) (s : St S) : TM (St S × Nat × Nat) := do
  let (C, B, s) := placeCounters n k fs junk s
  let s ← getCountsT e C n k s
  let s ← getBucketsT C B k true s
  let s ← clearFromT 0 n s
  let r ← lmsScanT e n s () fun i c1 (s, t) => do
    let s ← putEnd B c1 i s
    .ok (s, t)
  let s ← induceSAT e C B n k r.1
  let r ← compactT e n (freeCounters k fs s)
  let s ← clearFromT r.2 n r.1
  let q ← lmsScanT e n s (n : Int) fun i _ (s, j) => do
    let s ← s.st (.sa 0) (r.2 + i / 2 : Nat) (j - i)
    .ok (s, (i : Int))
  let x ← nameSubstringsT e n r.2 q.1
  pure (x.1, r.2, x.2)

/-- stage 3 (src/sais32bit.cpp:324-352) -/
def stage3T (junk : Nat → BitVec 64) (e : Env) (fs n k m : Nat) (s : St S) : TM (St S) := do
  let (C, B, s) := placeCounters n k fs junk s
  let s ← getCountsT e C n k s
  let s ← getBucketsT C B k true s
  let s ← clearFromT m n s
  let s ← loopDownT m s fun i s => lift (do
    let j ← s.ld (.sa 0) i
    let s ← s.st (.sa 0) i 0
    let c ← chr e s j
    putEnd B c j s)
  let s ← induceSAT e C B n k s
  pure (freeCounters k fs s)

/-- src/sais32bit.cpp:306-321 -/
def afterRecT (e : Env) (n m ra : Nat) (s : St S) : TM (St S) := do
  let r ← lmsScanT e n s ((m : Int) - 1) fun i _ (s, j) => do
    let s ← s.st (.sa ra) j i
    .ok (s, j - 1)
  mapBackT m ra r.1

/-- the recursive case (src/sais32bit.cpp:295-322), given the recursive call -/
def recurseT (rec : Env → Nat → Nat → Nat → St S → TM (St S)) (e : Env) (fs n : Nat) (x : St S × Nat × Nat) : TM (St S) :=
  if x.2.2 < x.2.1 then do
    let s ← gatherNamesT n x.2.1 (n + fs - x.2.1) x.1
    let s ← rec { e with txt := .ptr (n + fs - x.2.1), cs := width S } (fs + n - x.2.1 * 2) x.2.1 x.2.2 s
    afterRecT e n x.2.1 (n + fs - x.2.1) s
  else pure x.1

/-- `sais_32bit` (src/sais32bit.cpp:155-353) and its 40, 48, 56 and 64 bit versions -/
def saisT (junk : Nat → Nat → BitVec 64) : Nat → Env → Nat → Nat → Nat → St S → TM (St S)
  | 0, _, _, _, _, _ => lift (.error (.ub .diverge))
  | fuel + 1, e, fs, n, k, s => do
    let x ← stage1T (junk fuel) e fs n k s
    let s ← recurseT (saisT junk fuel) e fs n x
    stage3T (junk fuel) e fs n k x.2.1 s

end

/-! ## Inducing -/

/-- Destructor of a queue (src/queue.cpp:16-31) -/
def Queue.destroyT (fuel : Nat) (q : Queue) : TM Queue :=
  whileT fuel q fun q => lift (
    match q.sb with
    | none => .ok (.inr q)
    | some a => do
      let blk ← q.deref (some a)
      .ok (.inl { q with sb := blk.next, heap := Queue.heapSet q.heap a none }))

/-- src/induce32bit.cpp:125-129,166-170 -/
def deleteQueuesT (t : Nat) (s : IndSt) : TM IndSt := do
  let _ ← loopUpT 0 258 () fun c _ => do
    let q ← lift ((s.q t).rd c)
    let _ ← q.destroyT (q.cnt + 1)
    pure ()
  pure { s with q := fun t' => if t' = t then ⟨0, (s.q t).data⟩ else s.q t' }

/-- src/induce32bit.cpp:31-45 -/
def seedT {S : Type} [SaStore S] (e : IndEnv) (sa : S) (num : Nat) (s : IndSt) : TM IndSt :=
  loopDownT (num + 1) s fun i s => lift (
    if i < SaStore.size sa then do
      let q := SaStore.get sa i + e.base
      let c ← seedChar e i q
      s.enqL e.sj TYPE_LMS c (q - e.base)
    else .error (.ub .outOfBounds))

/-- src/induce32bit.cpp:53-58 -/
def bucketStartsT (e : IndEnv) (s : IndSt) : TM IndSt := do
  let r ← loopUpT 0 258 (s, 0) fun i st => lift (do
    let M2 ← st.1.M2.wr i st.2
    let M3 ← st.1.M3.wr i st.2
    let m ← e.M.rd i
    .ok ({ st.1 with M2 := M2, M3 := M3 }, addU64 st.2 m))
  pure r.1

/-- src/induce32bit.cpp:61-62 -/
def stackStartsT (NL : Mem Nat) (s : IndSt) : TM IndSt :=
  loopUpT 0 258 s fun i s => lift (do
    let m ← s.M2.rd i
    let l ← NL.rd i
    let C2 ← s.C2.wr i (addU64 m l)
    .ok { s with C2 := C2 })

/-- src/induce32bit.cpp:87-121 -/
def drain1T (e : IndEnv) (fuel c t : Nat) (s : IndSt) : TM IndSt := do
  let m ← lift (rowStart e c t s)
  whileT fuel (s, m) fun x => lift (step1 e c t x)

/-- First pass (src/induce32bit.cpp:83-123) -/
def pass1T (e : IndEnv) (fuel : Nat) (s : IndSt) : TM IndSt :=
  loopUpT 1 257 s fun c s => do
    let s ← drain1T e fuel c TYPE_L s
    drain1T e fuel c TYPE_LMS s

/-- src/induce32bit.cpp:134-136 -/
def bucketEndsT (e : IndEnv) (s : IndSt) : TM IndSt := do
  let M2 ← lift (s.M2.wr 0 0)
  loopUpT 1 257 { s with M2 := M2 } fun c s => lift (do
    let a ← s.M2.rd (c - 1)
    let m ← e.M.rd c
    let M2 ← s.M2.wr c (addU64 a m)
    .ok { s with M2 := M2 })

/-- Second pass (src/induce32bit.cpp:139-164) -/
def pass2T (e : IndEnv) (fuel : Nat) (s : IndSt) : TM IndSt :=
  loopDownT 258 s fun c s => do
    let s ← whileT fuel s fun x => lift (step2 e c TYPE_L x)
    whileT fuel s fun x => lift (step2 e c TYPE_S x)

/-- the returned structure (src/induce32bit.cpp:172-177) -/
def resultOf (s : IndSt) : M BwtResult := match s.last with
  | some l => .ok ⟨s.bwt, l⟩
  | none => .error (.ub .uninit)

/-- `induce_bwt_XXbit` (src/induce32bit.cpp:11-178) -/
def induceBwtT {S : Type} [SaStore S] (qj : Nat → Nat → Nat → Nat → BitVec 64) (bj : Nat → Nat) (sj : BitVec 64)
    (fuel : Nat) (buf : Mem Nat) (sa : S) (ct : Container) : TM BwtResult := do
  let e : IndEnv := ⟨buf, ct.bwpBase, ct.lastptr, ct.M, ct.C, sj⟩
  let s : IndSt := ⟨fun t => newQueues ct.bwpWidth (qj t), ct.M2, ct.M3, ct.C2, ⟨ct.n + 1, fun i => bj i % 256⟩, none⟩
  let s ← seedT e sa ct.numSubs s
  let s ← bucketStartsT e s
  let s ← stackStartsT ct.NL s
  let s ← lift (firstRow e s)
  let s ← pass1T e fuel s
  let s ← deleteQueuesT TYPE_LMS s
  let s ← deleteQueuesT TYPE_L s
  let s : IndSt := { s with q := fun t => if t = TYPE_L then newQueues ct.bwpWidth (qj 3) else s.q t }
  let s ← bucketEndsT e s
  let s ← pass2T e fuel s
  let s ← deleteQueuesT TYPE_L s
  let s ← deleteQueuesT TYPE_S s
  lift (resultOf s)

/-! ## The rest of `bwt_is` -/

section
variable [SaStore S]
open SaStore

/-- src/flbwt.cpp:170-171, 198-202, 229-233, 261-265, 291-292 -/
def incEntriesT (cnt : Nat) (sa : S) : TM S :=
  loopUpT 0 cnt sa fun i sa => lift (
    if i < size sa then putC sa i (get sa i + 1) else .error (.ub .outOfBounds))

/-- src/flbwt.cpp:173-180, 204-211, 235-242, 267-274, 294-301 -/
def toPointersT (sj : BitVec 64) (buf : Mem Nat) (base : Int) (s : Mem Nat) (T1 : PackedArray) (cnt : Nat) (sa : S) : TM S :=
  loopUpT 0 cnt sa fun i sa => lift (
    if i < size sa then
      if 1 ≤ get sa i then do
        let v ← T1.getValue sj (get sa i - 1).toNat
        let q ← s.rd v.toNat
        let l ← HashTable.getLength buf q
        let fc ← HashTable.getFirstCharacterPointer buf q
        putC sa i ((fc : Int) + l - 1 - base)
      else .error (.ub .outOfBounds)
    else .error (.ub .outOfBounds))

/-- One branch of `bwt_is` (src/flbwt.cpp:162-188, 189-219, 220-250, 251-282, 283-309) -/
def branchT (S : Type) [SaStore S] (w : World) (s : Mem Nat) (T1 : PackedArray) (ht : HashTable) (ct : Container) :
    TM BwtResult := do
  let sa : S := fresh (ct.numSubs + 2) w.aj
  let st ← saisT w.cj 64 { txt := .packed T1.arr, cs := T1.bits, sj := w.sj } 0 (ct.numSubs + 1) (ct.numUnique + 2)
    (⟨sa, fresh 0 (fun _ => 0)⟩ : St S)
  let sa ← incEntriesT (ct.numSubs + 1) st.sa
  let sa ← toPointersT w.sj ht.buf ct.bwpBase s T1 (ct.numSubs + 1) sa
  induceBwtT w.qj w.bj w.sj (ct.n + 2) ht.buf sa ct

end

end Flbwt
