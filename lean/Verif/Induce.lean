import Verif.Hash
import Verif.Queue
import Verif.Store

/-!
# Model of `include/container.hpp`, `src/container.cpp` and of `src/induce32bit.cpp`, `induce40bit.cpp`,
`induce48bit.cpp`, `induce56bit.cpp`, `induce64bit.cpp`

The five `induce` files are one program over five integer representations (class `SaStore`): they differ only in the
expression that reads the suffix array. Line numbers refer to `src/induce32bit.cpp`.

`uint8_t*` pointers into the hash table buffer are integer offsets from the start of the buffer (`bwp_base` can be -1:
one byte before the buffer).
-/

namespace Flbwt

/-- src/induce32bit.cpp:6 -/
abbrev TYPE_S : Nat := 0
/-- src/induce32bit.cpp:7 -/
abbrev TYPE_L : Nat := 1
/-- src/induce32bit.cpp:8 -/
abbrev TYPE_LMS : Nat := 2

/-- `class Container` (include/container.hpp:14-46) -/
structure Container where
  hashtable : Option HashTable
  M : Mem Nat
  M2 : Mem Nat
  M3 : Mem Nat
  C : Mem Nat
  C2 : Mem Nat
  NL : Mem Nat
  numSubs : Nat
  numUnique : Nat
  n : Nat
  headEnd : Nat
  minPtr : Int
  maxPtr : Int
  bwpBase : Int
  bwpWidth : Nat
  saMax : Nat
  lastptr : Int

/-- `Container::Container` (src/container.cpp:4-20). The fields the constructor leaves uninitialised (`head_string_end`
and the pointers) are 0 in the model; no proof relies on it. -/
def Container.new (n : Nat) : Container :=
  { hashtable := none, M := ⟨258, fun _ => 0⟩, M2 := ⟨258, fun _ => 0⟩, M3 := ⟨258, fun _ => 0⟩
    C := ⟨258, fun _ => 0⟩, C2 := ⟨258, fun _ => 0⟩, NL := ⟨258, fun _ => 0⟩
    numSubs := 0, numUnique := 0, n := n, headEnd := 0, minPtr := 0, maxPtr := 0, bwpBase := 0, bwpWidth := 0
    saMax := 0, lastptr := 0 }

/-- `++x` on `uint64_t`. `++` on `M2`, `C2`, src/induce32bit.cpp:76-77 and below. -/
def incU64 (x : Nat) : Nat := if x = 2 ^ 64 - 1 then 0 else x + 1

/-- `*q` for a pointer into the buffer. `q[0]`, `q[-1]`, `q[-2]`, src/induce32bit.cpp:41, 72, 76 and below. -/
def rdPtr (buf : Mem Nat) (q : Int) : M Nat :=
  if 0 ≤ q then buf.rd q.toNat else .error (.ub .outOfBounds)

/-- What `induce_bwt_XXbit` reads and does not modify: the buffer, `bwp_base`, `lastptr`, `M`, `C`; `sj` is the result
of the undefined shift in `BIT_MASK` (include/packed_array.hpp). -/
structure IndEnv where
  buf : Mem Nat
  base : Int
  lastptr : Int
  M : Mem Nat
  C : Mem Nat
  sj : BitVec 64

/-- Mutable state of `induce_bwt_XXbit`: the queues `Q[t][c]`, the counters `M2`, `M3`, `C2` of the container, the
array `BWT` and the variable `last` (`none` = not yet assigned). src/induce32bit.cpp:13-29, 51, 68-80. -/
structure IndSt where
  q : Nat → Mem Queue
  M2 : Mem Nat
  M3 : Mem Nat
  C2 : Mem Nat
  bwt : Mem Nat
  last : Option Nat

namespace IndSt

/-- `Q[t][c] = x`. src/induce32bit.cpp:17. -/
def setQ (s : IndSt) (t c : Nat) (x : Queue) : M IndSt := do
  let row ← (s.q t).wr c x
  .ok { s with q := fun t' => if t' = t then row else s.q t' }

/-- `Q[t][c]->enqueue(x)`. src/induce32bit.cpp:75 and below. -/
def enq (sj : BitVec 64) (s : IndSt) (t c : Nat) (x : Int) : M IndSt := do
  let q ← (s.q t).rd c
  let q ← q.enqueue sj (BitVec.ofInt 64 x)
  s.setQ t c q

/-- `Q[t][c]->enqueue_l(x)`. src/induce32bit.cpp:44 and below. -/
def enqL (sj : BitVec 64) (s : IndSt) (t c : Nat) (x : Int) : M IndSt := do
  let q ← (s.q t).rd c
  let q ← q.enqueueL sj (BitVec.ofInt 64 x)
  s.setQ t c q

/-- `Q[t][c]->dequeue()`. src/induce32bit.cpp:71 and below. -/
def deq (sj : BitVec 64) (s : IndSt) (t c : Nat) : M (Int × IndSt) := do
  let q ← (s.q t).rd c
  let r ← q.dequeue sj
  let s ← s.setQ t c r.2
  .ok (r.1, s)

/-- `BWT[M2[c]++] = v` (src/induce32bit.cpp:76,107) -/
def putFront (s : IndSt) (c v : Nat) : M IndSt := do
  let d ← s.M2.rd c
  let bwt ← s.bwt.wr d v
  let M2 ← s.M2.wr c (incU64 d)
  .ok { s with M2 := M2, bwt := bwt }

/-- `BWT[C2[c]++] = v` (src/induce32bit.cpp:77,111) -/
def push (s : IndSt) (c v : Nat) : M IndSt := do
  let d ← s.C2.rd c
  let bwt ← s.bwt.wr d v
  let C2 ← s.C2.wr c (incU64 d)
  .ok { s with C2 := C2, bwt := bwt }

/-- `BWT[M2[c]--] = v` (src/induce32bit.cpp:159) -/
def putBack (s : IndSt) (c v : Nat) : M IndSt := do
  let d ← s.M2.rd c
  let bwt ← s.bwt.wr d v
  let M2 ← s.M2.wr c (Queue.decU64 d)
  .ok { s with M2 := M2, bwt := bwt }

/-- `BWT[M2[c]--] = BWT[--C2[c]]` (src/induce32bit.cpp:159); the right operand is evaluated first -/
def popBack (s : IndSt) (c : Nat) : M IndSt := do
  let d ← s.C2.rd c
  let C2 ← s.C2.wr c (Queue.decU64 d)
  let v ← s.bwt.rd (Queue.decU64 d)
  ({ s with C2 := C2 }).putBack c v

/-- `last = M2[c]--` (src/induce32bit.cpp:154) -/
def lastBack (s : IndSt) (c : Nat) : M IndSt := do
  let d ← s.M2.rd c
  let M2 ← s.M2.wr c (Queue.decU64 d)
  .ok { s with M2 := M2, last := some d }

end IndSt

/-- a row `Q[t][0..257]` of new queues (src/induce32bit.cpp:19-25,131-132) -/
def newQueues (w : Nat) (junk : Nat → Nat → Nat → BitVec 64) : Mem Queue := ⟨258, fun c => Queue.new w (junk c)⟩

/-- `delete Q[t][c]` for all `c` (src/induce32bit.cpp:125-129,166-170). The pointers dangle afterwards: in the model
no entry of the row can be accessed any more (using or deleting a deleted queue is a fault). -/
def deleteQueues (t : Nat) (s : IndSt) : M IndSt := do
  let _ ← loopUp 0 258 () fun c _ => do
    let q ← (s.q t).rd c
    let _ ← q.destroy (q.cnt + 1)
    .ok ()
  .ok { s with q := fun t' => if t' = t then ⟨0, (s.q t).data⟩ else s.q t' }

/-- `c` in src/induce32bit.cpp:35-42: -1 for the first entry, else the character at `q`; the result is `c + 1`. -/
def seedChar (e : IndEnv) (i : Nat) (q : Int) : M Nat :=
  if i = 0 then .ok 0 else do
    let c ← rdPtr e.buf q
    .ok (c + 1)

/-- Seeding the S* queues from the suffix array (src/induce32bit.cpp:31-45) -/
def seed {S : Type} [SaStore S] (e : IndEnv) (sa : S) (num : Nat) (s : IndSt) : M IndSt :=
  loopDown (num + 1) s fun i s =>
    if i < SaStore.size sa then do
      let q := SaStore.get sa i + e.base
      let c ← seedChar e i q
      s.enqL e.sj TYPE_LMS c (q - e.base)
    else .error (.ub .outOfBounds)

/-- Bucket positions: `M2`, `M3` (src/induce32bit.cpp:53-58) -/
def bucketStarts (e : IndEnv) (s : IndSt) : M IndSt := do
  let r ← loopUp 0 258 (s, 0) fun i st => do
    let M2 ← st.1.M2.wr i st.2
    let M3 ← st.1.M3.wr i st.2
    let m ← e.M.rd i
    .ok ({ st.1 with M2 := M2, M3 := M3 }, addU64 st.2 m)
  .ok r.1

/-- `C2` (src/induce32bit.cpp:61-62) -/
def stackStarts (NL : Mem Nat) (s : IndSt) : M IndSt :=
  loopUp 0 258 s fun i s => do
    let m ← s.M2.rd i
    let l ← NL.rd i
    let C2 ← s.C2.wr i (addU64 m l)
    .ok { s with C2 := C2 }

/-- `Q[TYPE_L][c1 + 1]->enqueue((q - 1) - bwp_base); BWT[M2[c1 + 1]++] = q[-2]` (src/induce32bit.cpp:75-76,106-107) -/
def induceL (e : IndEnv) (c1 : Nat) (q : Int) (s : IndSt) : M IndSt := do
  let s ← s.enq e.sj TYPE_L (c1 + 1) (q - 1 - e.base)
  let v ← rdPtr e.buf (q - 2)
  s.putFront (c1 + 1) v

/-- The terminator (src/induce32bit.cpp:70-77) -/
def firstRow (e : IndEnv) (s : IndSt) : M IndSt := do
  let r ← s.deq e.sj TYPE_LMS 0
  let q := e.base + r.1
  let c1 ← rdPtr e.buf (q - 1)
  let bwt ← r.2.bwt.wr 0 c1
  let s ← induceL e c1 q { r.2 with bwt := bwt }
  s.push 0 c1

/-- `if (t == TYPE_LMS) BWT[C2[c]++] = c1` (src/induce32bit.cpp:109-112) -/
def pushIf (t c c1 : Nat) (s : IndSt) : M IndSt := if t = TYPE_LMS then s.push c c1 else .ok s

/-- Body of the first pass for one dequeued pointer (src/induce32bit.cpp:96-118) -/
def visit1 (e : IndEnv) (c t : Nat) (m q : Int) (s : IndSt) : M IndSt :=
  if q = e.lastptr then .ok { s with last := some (BitVec.ofInt 64 m).toNat }
  else do
    let c1 ← rdPtr e.buf (q - 1)
    if c ≤ c1 + 1 then do
      let s ← induceL e c1 q s
      pushIf t c c1 s
    else s.enqL e.sj TYPE_S c (q - e.base)

/-- One iteration of the inner loop of the first pass (src/induce32bit.cpp:92-121) -/
def step1 (e : IndEnv) (c t : Nat) : IndSt × Int → M ((IndSt × Int) ⊕ IndSt)
  | (s, m) => do
    let q ← (s.q t).rd c
    if q.isEmpty then .ok (.inr s)
    else do
      let r ← s.deq e.sj t c
      let s ← visit1 e c t m (e.base + r.1) r.2
      .ok (.inl (s, m + 1))

/-- `m` (src/induce32bit.cpp:87-90) -/
def rowStart (e : IndEnv) (c t : Nat) (s : IndSt) : M Int := do
  let m3 ← s.M3.rd c
  if t = TYPE_LMS then do
    let a ← e.M.rd c
    let b ← e.C.rd c
    .ok (toI64 (addU64 m3 (subU64 a b) : Nat))
  else .ok (toI64 m3)

/-- One queue of the first pass (src/induce32bit.cpp:87-121) -/
def drain1 (e : IndEnv) (fuel c t : Nat) (s : IndSt) : M IndSt := do
  let m ← rowStart e c t s
  whileM fuel (s, m) (step1 e c t)

/-- First pass (src/induce32bit.cpp:83-123) -/
def pass1 (e : IndEnv) (fuel : Nat) (s : IndSt) : M IndSt :=
  loopUp 1 257 s fun c s => do
    let s ← drain1 e fuel c TYPE_L s
    drain1 e fuel c TYPE_LMS s

/-- `M2[0] = 0; M2[c] = M2[c-1] + M[c]` (src/induce32bit.cpp:134-136) -/
def bucketEnds (e : IndEnv) (s : IndSt) : M IndSt := do
  let M2 ← s.M2.wr 0 0
  loopUp 1 257 { s with M2 := M2 } fun c s => do
    let a ← s.M2.rd (c - 1)
    let m ← e.M.rd c
    let M2 ← s.M2.wr c (addU64 a m)
    .ok { s with M2 := M2 }

/-- Body of the second pass for one dequeued pointer (src/induce32bit.cpp:145-161) -/
def visit2 (e : IndEnv) (c : Nat) (q : Int) (s : IndSt) : M IndSt := do
  let c1 ← rdPtr e.buf (q - 1)
  if c1 + 1 ≤ c then do
    let s ← s.enq e.sj TYPE_L (c1 + 1) (q - 1 - e.base)
    if q - 1 = e.lastptr then s.lastBack (c1 + 1)
    else do
      let c0 ← rdPtr e.buf (q - 2)
      if c0 ≤ c1 then s.putBack (c1 + 1) c0 else s.popBack (c1 + 1)
  else .ok s

/-- One iteration of the inner loop of the second pass (src/induce32bit.cpp:143-162) -/
def step2 (e : IndEnv) (c t : Nat) (s : IndSt) : M (IndSt ⊕ IndSt) := do
  let q ← (s.q t).rd c
  if q.isEmpty then .ok (.inr s)
  else do
    let r ← s.deq e.sj t c
    let s ← visit2 e c (e.base + r.1) r.2
    .ok (.inl s)

/-- Second pass (src/induce32bit.cpp:139-164) -/
def pass2 (e : IndEnv) (fuel : Nat) (s : IndSt) : M IndSt :=
  loopDown 258 s fun c s => do
    let s ← whileM fuel s (step2 e c TYPE_L)
    whileM fuel s (step2 e c TYPE_S)

/-- `bwt_result` (include/flbwt.hpp): the array and the row of the whole string. -/
structure BwtResult where
  bwt : Mem Nat
  last : Nat

/-- `induce_bwt_XXbit` (src/induce32bit.cpp:11-178). `qj` gives the uninitialised contents of queue blocks, `bj` those
of the array `BWT`. `fuel` bounds the number of iterations of each inner loop. -/
def induceBwt {S : Type} [SaStore S] (qj : Nat → Nat → Nat → Nat → BitVec 64) (bj : Nat → Nat) (sj : BitVec 64)
    (fuel : Nat) (buf : Mem Nat) (sa : S) (ct : Container) : M BwtResult := do
  let e : IndEnv := ⟨buf, ct.bwpBase, ct.lastptr, ct.M, ct.C, sj⟩
  let s : IndSt := ⟨fun t => newQueues ct.bwpWidth (qj t), ct.M2, ct.M3, ct.C2, ⟨ct.n + 1, fun i => bj i % 256⟩, none⟩
  let s ← seed e sa ct.numSubs s
  let s ← bucketStarts e s
  let s ← stackStarts ct.NL s
  let s ← firstRow e s
  let s ← pass1 e fuel s
  let s ← deleteQueues TYPE_LMS s
  let s ← deleteQueues TYPE_L s
  let s : IndSt := { s with q := fun t => if t = TYPE_L then newQueues ct.bwpWidth (qj 3) else s.q t }
  let s ← bucketEnds e s
  let s ← pass2 e fuel s
  let s ← deleteQueues TYPE_L s
  let s ← deleteQueues TYPE_S s
  match s.last with
  | some l => .ok ⟨s.bwt, l⟩
  | none => .error (.ub .uninit)

end Flbwt
