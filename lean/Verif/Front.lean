import Verif.Induce

/-!
# Model of `extract_LMS_strings`, `sort_LMS_strings`, `create_shortened_string` (src/flbwt.cpp:318-564)

The input string `T` is a block of bytes (natural numbers below 256). Not wrapped modulo 2^64 are the counters of the
container (at most one step per iteration of the scan), positions in `T` plus one, and the sizes in `sort_LMS_strings`, whose
terms are sizes of existing objects.
-/

namespace Flbwt

/-- `++a[i]` on an array of `uint64_t`. src/flbwt.cpp:336-339, 344 and below. -/
def bump (a : Mem Nat) (i : Nat) : M (Mem Nat) := do
  let x ← a.rd i
  a.wr i (incU64 x)

/-! ## `extract_LMS_strings` -/

/-- Variables of `extract_LMS_strings`: the histograms and counters of the container, the hash table, `previous_type`,
`p`, `q`. src/flbwt.cpp:321, 328, 333-335. -/
structure ExSt where
  M : Mem Nat
  NL : Mem Nat
  C : Mem Nat
  ht : HashTable
  numSubs : Nat
  numUnique : Nat
  prev : Nat
  p : Nat
  q : Nat

/-- A new S* substring `T[i+1..q]` was found (src/flbwt.cpp:353-362) -/
def exFound (junk : Fresh) (T : Mem Nat) (i : Nat) (s : ExSt) : M ExSt := do
  let c ← T.rd (i + 1)
  let C ← bump s.C (c + 1)
  let r ← HashTable.insertString junk s.ht T (addU64 (subU64 s.q (i + 1)) 1) (i + 1)
  .ok { s with C := C, ht := r.1, numSubs := s.numSubs + 1,
               numUnique := if r.2 ≠ 0 then s.numUnique + 1 else s.numUnique, p := i + 1, q := i + 1 }

/-- `if (previous_type == TYPE_S)` (src/flbwt.cpp:351-363) -/
def exMaybe (junk : Fresh) (T : Mem Nat) (i : Nat) (s : ExSt) : M ExSt :=
  if s.prev = TYPE_S then exFound junk T i s else .ok s

/-- Body of the scan (src/flbwt.cpp:343-373) -/
def exStep (junk : Fresh) (T : Mem Nat) (i : Nat) (s : ExSt) : M ExSt := do
  let a ← T.rd i
  let b ← T.rd (i + 1)
  let M ← bump s.M (a + 1)
  if a < b then .ok { s with M := M, prev := TYPE_S }
  else if b < a then do
    let s ← exMaybe junk T i { s with M := M }
    let NL ← bump s.NL (a + 1)
    .ok { s with NL := NL, prev := TYPE_L }
  else if s.prev = TYPE_L then do
    let NL ← bump s.NL (a + 1)
    .ok { s with M := M, NL := NL }
  else .ok { s with M := M }

/-- `extract_LMS_strings` (src/flbwt.cpp:318-379). The loop counter is `int64_t`: lengths of `2^63` and more (no such
object exists) are not represented. `junk`: what `realloc` leaves in fresh bytes of the hash table buffer. -/
def extractLMS (junk : Fresh) (T : Mem Nat) (n : Nat) : M Container := do
  let ct := Container.new n
  if n ≤ 2 then .ok ct
  else do
    let ht ← HashTable.new 67777 n
    let M ← bump ct.M 0
    let c ← T.rd (n - 1)
    let M ← bump M (c + 1)
    let NL ← bump ct.NL (c + 1)
    let C ← bump ct.C 0
    let s ← loopDown (n - 1) (⟨M, NL, C, ht, 0, 0, TYPE_L, n, n⟩ : ExSt) (exStep junk T)
    .ok { ct with hashtable := some s.ht, M := s.M, NL := s.NL, C := s.C, numSubs := s.numSubs, numUnique := s.numUnique,
                  headEnd := s.p }

/-! ## `sort_LMS_strings` -/

/-- One iteration of the loop of the comparison (src/flbwt.cpp:434-446); the exit value is `(l1, l2, c1, c2)`. -/
def cmpStep (buf : Mem Nat) : (Nat × Nat × Nat × Nat × Nat × Nat) →
    M ((Nat × Nat × Nat × Nat × Nat × Nat) ⊕ (Nat × Nat × Nat × Nat))
  | (p1, p2, l1, l2, c1, c2) =>
    if 0 < l1 ∧ 0 < l2 then do
      let c1 ← buf.rd p1
      let c2 ← buf.rd p2
      if c1 ≠ c2 then .ok (.inr (l1, l2, c1, c2))
      else .ok (.inl (p1 + 1, p2 + 1, l1 - 1, l2 - 1, c1, c2))
    else .ok (.inr (l1, l2, c1, c2))

/-- `LMS_comparison` (src/flbwt.cpp:424-453). `c1`, `c2` are uninitialised before the loop (0 in the model); they are
only used after having been assigned. -/
def lmsCompare (buf : Mem Nat) (r1 r2 : Nat) : M Bool := do
  let l1 ← HashTable.getLength buf r1
  let l2 ← HashTable.getLength buf r2
  let p1 ← HashTable.getFirstCharacterPointer buf r1
  let p2 ← HashTable.getFirstCharacterPointer buf r2
  let r ← whileM (l1 + 1) (p1, p2, l1, l2, 0, 0) (cmpStep buf)
  if r.1 = 0 then .ok false
  else if r.2.1 = 0 then .ok true
  else .ok (decide (r.2.2.1 < r.2.2.2))

/-- Setting the names (src/flbwt.cpp:458-462) -/
def setNamesLoop (nameBytes : Nat) (s : Mem Nat) (m : Nat) (buf : Mem Nat) : M (Mem Nat) :=
  loopUp 1 m buf fun i buf => do
    let q ← s.rd i
    HashTable.setName nameBytes buf q i

/-- The head string record (src/flbwt.cpp:465-476): returns the buffer, `lastptr` and the offset after the record. -/
def writeHead (nameBytes : Nat) (T : Mem Nat) (headEnd numUnique : Nat) (buf : Mem Nat) (r : Nat) : M (Mem Nat × Nat × Nat) := do
  let buf ← HashTable.setLength buf r (headEnd + 1)
  let buf ← HashTable.setName nameBytes buf r (numUnique + 1)
  let ll ← HashTable.getLenlen buf r
  let r := r + (1 + ll)
  let c ← T.rd 0
  let buf ← buf.wr r ((c + 1) % 256)
  let buf ← loopUp 0 (headEnd + 1) buf fun i buf => do
    let c ← T.rd i
    buf.wr (r + 1 + i) c
  .ok (buf, r + 1, r + 1 + (headEnd + 1) + nameBytes)

/-- The record of the last S* substring (src/flbwt.cpp:480-485); the byte of the character itself is not written. -/
def writeEnd (nameBytes : Nat) (buf : Mem Nat) (r : Nat) : M (Mem Nat) := do
  let buf ← HashTable.setLength buf r 1
  let buf ← buf.wr (r + 2) 0
  loopUp 0 nameBytes buf fun i buf => buf.wr (r + 4 + i) 0

/-- Minimum and maximum of the pointers (src/flbwt.cpp:488-497) -/
def minMax (s : Mem Nat) (numUnique : Nat) : M (Nat × Nat) := do
  let s0 ← s.rd 0
  loopUp 1 (numUnique + 1) (s0, s0) fun i mm => do
    let x ← s.rd i
    let mn := if x < mm.1 then x else mm.1
    let mx := if mm.2 < x then x else mm.2
    .ok (mn, mx)

/-- `s[1..m]` as a list, and storing it back: what `std::sort(s + 1, s + 1 + m, ...)` works on.
The call of `std::sort` in src/flbwt.cpp:381-507. -/
def readRange (s : Mem Nat) (m : Nat) : M (List Nat) := (List.range m).mapM fun i => s.rd (i + 1)
/-- The call of `std::sort` in src/flbwt.cpp:381-507. -/
def writeRange (s : Mem Nat) (l : List Nat) : M (Mem Nat) :=
  loopUp 0 l.length s fun i s => s.wr (i + 1) (l.getD i 0)

/-- A sorting procedure that gets the elements and the comparison: the role of `std::sort`.
The call of `std::sort` in src/flbwt.cpp:381-507. -/
abbrev Sorter := (Nat → Nat → M Bool) → List Nat → M (List Nat)

/-- The first part of `sort_LMS_strings` (src/flbwt.cpp:383-462): the buffer is enlarged for the head record and the end
record, the records are collected, sorted and named. `pj` gives the contents of the fresh pointer array `s`, `junk` the
bytes `realloc` adds to the buffer. -/
def sortNames (sorter : Sorter) (pj : Nat → Nat) (junk : Fresh) (ct : Container) (ht : HashTable) : M (HashTable × Mem Nat) := do
  let s : Mem Nat := ⟨ct.numUnique + 2, pj⟩
  let ll ← HashTable.calculateLenlen (ct.headEnd + 1)
  let space := 1 + 1 + ll + (ct.headEnd + 1) + ht.nameBytes + (1 + 1 + 1 + 1 + ht.nameBytes)
  let buf ← reallocBytes junk ht.buf (ht.bufsize + space)
  let ht := { ht with buf := buf, bufsize := ht.bufsize + space }
  let r ← HashTable.collect ht s 1
  let m := subU64 r.2 1
  let l ← readRange r.1 m
  let l ← sorter (lmsCompare ht.buf) l
  let s ← writeRange r.1 l
  let buf ← setNamesLoop ht.nameBytes s m ht.buf
  .ok ({ ht with buf := buf }, s)

/-- The second part of `sort_LMS_strings` (src/flbwt.cpp:464-507): the head record at offset `pos`, the end record, the
smallest and the largest record pointer and the numbers derived from them. -/
def sortHead (T : Mem Nat) (ct : Container) (pos : Nat) (ht : HashTable) (s : Mem Nat) : M (Mem Nat × Container) := do
  let s ← s.wr (ct.numUnique + 1) pos
  let h ← writeHead ht.nameBytes T ct.headEnd ct.numUnique ht.buf pos
  let s ← s.wr 0 h.2.2
  let buf ← writeEnd ht.nameBytes h.1 h.2.2
  let mm ← minMax s ct.numUnique
  let w ← positionOfMsb (subU64 mm.2 mm.1 + 2)
  let l ← HashTable.getLength buf mm.2
  let fc ← HashTable.getFirstCharacterPointer buf mm.2
  .ok (s, { ct with hashtable := some { ht with buf := buf }, minPtr := mm.1, maxPtr := mm.2, bwpWidth := w,
                    bwpBase := (mm.1 : Int) - 1, lastptr := h.2.1,
                    saMax := toU64 ((fc : Int) + l - 1 - ((mm.1 : Int) - 1)) })

/-- `sort_LMS_strings` (src/flbwt.cpp:381-507). `sorter` is the implementation of `std::sort`. -/
def sortLMS (sorter : Sorter) (pj : Nat → Nat) (junk : Fresh) (T : Mem Nat) (ct : Container) : M (Mem Nat × Container) := do
  match ct.hashtable with
  | none => .error (.ub .nullDeref)
  | some ht => do
    let r ← sortNames sorter pj junk ct ht
    sortHead T ct ht.bufsize r.1 r.2

/-! ## `create_shortened_string` -/

/-- Variables of `create_shortened_string`: `T1`, `previous_type`, `q`, `j`. src/flbwt.cpp:518-524. -/
structure ShSt where
  T1 : PackedArray
  prev : Nat
  q : Nat
  j : Nat

/-- `if (previous_type == TYPE_S)` (src/flbwt.cpp:541-552) -/
def shMaybe (sj : BitVec 64) (ht : HashTable) (T : Mem Nat) (i : Nat) (s : ShSt) : M ShSt :=
  if s.prev = TYPE_S then do
    let name ← HashTable.findName ht T (addU64 (subU64 s.q (i + 1)) 1) (i + 1)
    let T1 ← s.T1.setValue sj s.j (BitVec.ofNat 64 name)
    .ok { s with T1 := T1, j := Queue.decU64 s.j, q := i + 1 }
  else .ok s

/-- Body of the scan (src/flbwt.cpp:532-555) -/
def shStep (sj : BitVec 64) (ht : HashTable) (T : Mem Nat) (i : Nat) (s : ShSt) : M ShSt := do
  let a ← T.rd i
  let b ← T.rd (i + 1)
  if a < b then .ok { s with prev := TYPE_S }
  else if b < a then do
    let s ← shMaybe sj ht T i s
    .ok { s with prev := TYPE_L }
  else .ok s

/-- `create_shortened_string` (src/flbwt.cpp:509-564). Only called when the hash table exists, so `n ≥ 3` and the loop
runs from `n - 2` down to 0. `tj`: contents of the fresh packed array. -/
def createShortened (tj : Nat → BitVec 64) (sj : BitVec 64) (T : Mem Nat) (n : Nat) (ct : Container) : M PackedArray := do
  match ct.hashtable with
  | none => .error (.ub .nullDeref)
  | some ht => do
    let total := ct.numSubs + 2
    let bits ← positionOfMsb (ct.numUnique + 1)
    let T1 ← (PackedArray.new total bits tj).setValue sj (total - 1) 0
    let s ← loopDown (n - 1) (⟨T1, TYPE_L, n, total - 1 - 1⟩ : ShSt) (shStep sj ht T)
    s.T1.setValue sj 0 (BitVec.ofNat 64 (ct.numUnique + 1))

end Flbwt
