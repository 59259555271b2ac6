import Verif.Packed

/-!
# Model of `src/hashtable.cpp`, `include/hashtable.hpp`

Bytes are natural numbers below 256. `uint8_t*` pointers into the hash table buffer are offsets from `buf`;
a null `buf` is a block of size 0. `realloc` never returns a block of 2^63 bytes or more (`PTRDIFF_MAX`), and the
result is not checked by the code, so the model gives the fault `nullDeref` there. Sums of `uint64_t` values wrap modulo
2^64 (`addU64`, `subU64`), casts to `int64_t` wrap (`toI64`) and signed overflow is a fault (`addI64`). Not wrapped are:
a sum inside an index (the address of an element); the sizes `space_required`, `bufsize + ...`, `HBSIZE + ...` of
`insert_string`, whose terms are sizes of (parts of) existing objects, hence below 2^63; and the counter `collisions`,
which has no effect on anything.
-/

namespace Flbwt

/-- `x <<= 8` on `uint64_t`. src/hashtable.cpp: `set_length`, `get_pointer`, `calculate_lenlen`, `get_name`. -/
def shl8 (x : Nat) : Nat := x * 256 % 18446744073709551616

/-- `(x & 0xff00000000000000) >> 56`. src/hashtable.cpp: `set_length`, `calculate_lenlen`. -/
def topByte (x : Nat) : Nat := (x &&& 0xff00000000000000) >>> 56

/-- What the allocator does for the buffer of the table: `byte i` is what a fresh byte at offset `i` contains (every
offset is fresh once, because the buffer only grows), `lim` is the largest size that can be had.
`realloc`, src/hashtable.cpp:90 and src/flbwt.cpp:394. -/
structure Fresh where
  byte : Nat → Nat
  lim : Nat

/-- A block of `k` bytes can be had (never `2^63` bytes or more, `PTRDIFF_MAX`). Used in statements only. -/
abbrev Fresh.Room (junk : Fresh) (k : Nat) : Prop := k < 2 ^ 63 ∧ k ≤ junk.lim

/-- Infrastructure: models no code. -/
instance : CoeFun Fresh (fun _ => Nat → Nat) := ⟨Fresh.byte⟩

/-- `realloc(buf, newsize)`: the old contents are kept, new bytes have arbitrary contents. When there is no memory the
result is the null pointer; the code does not check it and uses it for the next access to the buffer
(src/hashtable.cpp:90-113, src/flbwt.cpp:394-406). -/
def reallocBytes (junk : Fresh) (buf : Mem Nat) (newsize : Nat) : M (Mem Nat) :=
  if junk.Room newsize then
    .ok ⟨newsize, fun i => if i < buf.size then buf.data i else junk i % 256⟩
  else .error (.ub .nullDeref)

/-- `class HashTable` (include/hashtable.hpp:29-40); `LENGTH_X_BYTES` and `SENTINEL_CHAR_BYTES` are always 1. -/
structure HashTable where
  htsize : Nat
  hbsize : Nat
  rest : Mem Nat
  head : Mem Nat
  buf : Mem Nat
  bufsize : Nat
  collisions : Nat
  nameBytes : Nat

namespace HashTable

/-- `HashTable::HashTable` (src/hashtable.cpp:6-26) -/
def new (hashTableSize n : Nat) : M HashTable := do
  let maxName := n / 2 + 1
  let bits ← positionOfMsb maxName
  .ok { htsize := hashTableSize, hbsize := 512
        rest := ⟨hashTableSize, fun _ => 0⟩, head := ⟨hashTableSize, fun _ => 0⟩
        buf := ⟨0, fun _ => 0⟩, bufsize := 0, collisions := 0
        nameBytes := if bits % 8 ≠ 0 then bits / 8 + 1 else bits / 8 }

/-- `hash_function` (src/hashtable.cpp:133-147) -/
def hashFunction (htsize : Nat) (T : Mem Nat) (m p : Nat) : M Nat := do
  let x ← loopUp 0 m 0 fun i x => do
    let c ← T.rd (p + i)
    .ok ((x * 101 % 18446744073709551616 + c) % 18446744073709551616)
  if htsize = 0 then .error (.ub .divByZero) else .ok (x % htsize)

/-- `get_length` (src/hashtable.cpp:149-161) -/
def getLength (buf : Mem Nat) (p : Nat) : M Nat := do
  let bytes ← buf.rd p
  if bytes = 0 then .ok 0
  else do
    let length ← buf.rd (p + 1)
    loopUp 1 (bytes - 1) length fun i x => do
      let b ← buf.rd (p + 1 + i)
      .ok (shl8 x ||| b)

/-- First loop of `set_length` (src/hashtable.cpp:171-176); `*r` is the byte at `p`. For a non-zero value at
most 7 iterations are made, for 0 the loop does not end. -/
def setLengthShift (p : Nat) : Mem Nat × Nat → M ((Mem Nat × Nat) ⊕ (Mem Nat × Nat))
  | (buf, len) =>
    if topByte len = 0 then do
      let v ← buf.rd p
      let buf ← buf.wr p ((v + 255) % 256)
      .ok (.inl (buf, shl8 len))
    else .ok (.inr (buf, len))

/-- Second loop of `set_length` (src/hashtable.cpp:178-183) -/
def setLengthWrite : Mem Nat × Nat × Nat → M ((Mem Nat × Nat × Nat) ⊕ Mem Nat)
  | (buf, q, len) =>
    if len ≠ 0 then do
      let buf ← buf.wr q (topByte len)
      .ok (.inl (buf, q + 1, shl8 len))
    else .ok (.inr buf)

/-- `set_length` (src/hashtable.cpp:163-184) -/
def setLength (buf : Mem Nat) (p length : Nat) : M (Mem Nat) := do
  let buf ← buf.wr p 8
  let r ← whileM 10 (buf, length) (setLengthShift p)
  whileM 10 (r.1, p + 1, r.2) setLengthWrite

/-- `string_info_length` (src/hashtable.cpp:186-196) -/
def stringInfoLength (nameBytes : Nat) (buf : Mem Nat) (p length : Nat) : M Nat := do
  let bytes ← buf.rd p
  .ok (addU64 2 (addU64 (addU64 bytes length) nameBytes))

/-- `get_pointer` (src/hashtable.cpp:198-210) -/
def getPointer (buf : Mem Nat) (p : Nat) : M Nat :=
  loopUp 0 8 0 fun i x => do
    let b ← buf.rd (p + 2 + i)
    .ok (shl8 x ||| b)

/-- `set_pointer` (src/hashtable.cpp:212-224): the bytes are written from the last to the first; iteration
number `count` writes at `p + 2 + 7 - count`. -/
def setPointer (buf : Mem Nat) (p pointer : Nat) : M (Mem Nat) := do
  let buf ← buf.wr p 1
  let buf ← buf.wr (p + 1) 2
  let r ← loopUp 0 8 (buf, pointer) fun count st => do
    let buf ← st.1.wr (p + 9 - count) (st.2 % 256)
    .ok (buf, st.2 / 256)
  .ok r.1

/-- `get_lenlen` (src/hashtable.cpp:226-229) -/
def getLenlen (buf : Mem Nat) (p : Nat) : M Nat := buf.rd p

/-- `calculate_lenlen` (src/hashtable.cpp:231-244) -/
def calculateLenlen (m : Nat) : M Nat :=
  whileM 10 (m, 8) fun st =>
    if topByte st.1 = 0 then .ok (.inl (shl8 st.1, st.2 - 1)) else .ok (.inr st.2)

/-- `get_name` (src/hashtable.cpp:246-264) -/
def getName (nameBytes : Nat) (buf : Mem Nat) (p : Nat) : M Nat := do
  let length ← getLength buf p
  let bytes ← buf.rd p
  loopUp 0 nameBytes 0 fun i x => do
    let b ← buf.rd (p + 1 + (bytes + length) + 1 + i)
    .ok (shl8 x ||| b)

/-- `set_name` (src/hashtable.cpp:266-282): the bytes are written from the last to the first. -/
def setName (nameBytes : Nat) (buf : Mem Nat) (p name : Nat) : M (Mem Nat) := do
  let length ← getLength buf p
  let bytes ← buf.rd p
  let r ← loopUp 0 nameBytes (buf, name) fun i st => do
    let buf ← st.1.wr (p + 1 + (bytes + length) + 1 + (nameBytes - 1) - i) (st.2 % 256)
    .ok (buf, st.2 / 256)
  .ok r.1

/-- `get_first_character_pointer` (src/hashtable.cpp:284-290) -/
def getFirstCharacterPointer (buf : Mem Nat) (p : Nat) : M Nat := do
  let bytes ← buf.rd p
  .ok (p + 1 + bytes + 1)

/-- The comparison loop of `insert_string` and `find_name` (src/hashtable.cpp:72-76, 329-333);
result: the value of `i` after the loop. `base` is `q + SENTINEL_CHAR_BYTES + LENGTH_X_BYTES + l2`. -/
def compareLoop (T : Mem Nat) (p : Nat) (buf : Mem Nat) (base m : Nat) : M Nat :=
  whileM (m + 1) 0 fun i =>
    if i < m then do
      let a ← T.rd (p + i)
      let b ← buf.rd (base + i)
      if a ≠ b then .ok (.inr i) else .ok (.inl (i + 1))
    else .ok (.inr i)

/-- How the scan of `insert_string` ends: a duplicate, or a place to write. `r = none`: `r` is still NULL and
`pp` is unassigned; `r = some x`: `r = &buf[x]` and `pp = x`. src/hashtable.cpp:42-83. -/
inductive ScanEnd where
  | dup (coll : Nat)
  | free (q : Nat) (r : Option Nat) (coll : Nat)

/-- Body of the scanning loop of `insert_string` (src/hashtable.cpp:44-83), state `(q, r, collisions)`. -/
def insertStep (nameBytes : Nat) (buf : Mem Nat) (T : Mem Nat) (m p : Nat) :
    Nat × Option Nat × Nat → M ((Nat × Option Nat × Nat) ⊕ ScanEnd)
  | (q, r, coll) =>
    if q ≠ 0 then do
      let l ← getLength buf q
      if l = 0 then .ok (.inr (.free q (some q) coll))
      else if l = 2 then do
        let q' ← getPointer buf q
        .ok (.inl (q', some q, coll + 1))
      else if l ≠ m then do
        let d ← stringInfoLength nameBytes buf q l
        .ok (.inl (addU64 q d, some q, coll + 1))
      else do
        let l2 ← getLenlen buf q
        let i ← compareLoop T p buf (q + 1 + 1 + l2) m
        if i = m then .ok (.inr (.dup coll))
        else do
          let d ← stringInfoLength nameBytes buf q l
          .ok (.inl (addU64 q d, some q, coll + 1))
    else .ok (.inr (.free q r coll))

/-- Writing a record (src/hashtable.cpp:113-126) at offset `r`. -/
def writeRecord (nameBytes : Nat) (buf : Mem Nat) (T : Mem Nat) (m p lengthBytes r : Nat) : M (Mem Nat) := do
  let buf ← setLength buf r m
  let c ← T.rd p
  let buf ← buf.wr (r + (1 + lengthBytes)) ((c + 1) % 256)
  let buf ← loopUp 0 m buf fun i buf => do
    let c ← T.rd (p + i)
    buf.wr (r + (1 + lengthBytes) + 1 + i) c
  loopUp 0 12 buf fun i buf => buf.wr (r + (1 + lengthBytes) + 1 + m + nameBytes + i) 0

/-- Linking a new block (src/hashtable.cpp:99-108): it starts at `q2`. -/
def linkBlock (ht : HashTable) (h q : Nat) (r : Option Nat) (q2 : Nat) : M HashTable :=
  if q = 0 then do
    let head ← ht.head.wr h q2
    .ok { ht with head := head }
  else
    match r with
    | none => .error (.ub .nullDeref)
    | some pp => do
      let buf ← setPointer ht.buf pp q2
      .ok { ht with buf := buf }

/-- `space_required` (src/hashtable.cpp:87): `1 + 1 + length_bytes` is an `int` -/
def spaceRequired (lengthBytes m nameBytes : Nat) : Nat := 1 + 1 + lengthBytes + m + nameBytes

/-- `(int64_t)this->rest[h] - 12` (src/hashtable.cpp:88) -/
def spaceLimit (rest : Nat) : M Int := addI64 (toI64 rest) (-12)

/-- Allocation of a new block if needed (src/hashtable.cpp:88-111); returns the offset to write the record at. -/
def makeRoom (junk : Fresh) (ht : HashTable) (h q : Nat) (r : Option Nat) (space : Nat) :
    M (HashTable × Nat) := do
  let rest ← ht.rest.rd h
  let lim ← spaceLimit rest
  if toI64 space ≥ lim then do
    let buf ← reallocBytes junk ht.buf (ht.bufsize + ht.hbsize + space)
    let rest ← ht.rest.wr h (ht.hbsize + space)
    let q2 := ht.bufsize + 1
    let ht ← linkBlock { ht with buf := buf, bufsize := ht.bufsize + (ht.hbsize + space), rest := rest } h q r q2
    .ok (ht, q2)
  else
    match r with
    | none => .error (.ub .nullDeref)
    | some r => .ok (ht, r)

/-- `insert_string` (src/hashtable.cpp:28-131). `T`, `p`: the string starts at `T[p]`. The scan visits
increasing offsets, so `bufsize + 2` steps are enough for the loop of lines 44-83. -/
def insertString (junk : Fresh) (ht : HashTable) (T : Mem Nat) (m p : Nat) : M (HashTable × Nat) := do
  let h ← hashFunction ht.htsize T m p
  let q ← ht.head.rd h
  let e ← whileM (ht.bufsize + 2) (q, none, ht.collisions) (insertStep ht.nameBytes ht.buf T m p)
  match e with
  | .dup coll => .ok ({ ht with collisions := coll }, 0)
  | .free q r coll => do
    let ht := { ht with collisions := coll }
    let lengthBytes ← calculateLenlen m
    let space := spaceRequired lengthBytes m ht.nameBytes
    let x ← makeRoom junk ht h q r space
    let buf ← writeRecord x.1.nameBytes x.1.buf T m p lengthBytes x.2
    let rest ← x.1.rest.rd h
    let rest' ← x.1.rest.wr h (subU64 rest space)
    .ok ({ x.1 with buf := buf, rest := rest' }, 1)

/-- Body of the loop of `find_name` (src/hashtable.cpp:305-339); `none`: left without finding the string. -/
def findStep (nameBytes : Nat) (buf : Mem Nat) (T : Mem Nat) (m p q : Nat) : M (Nat ⊕ Option Nat) :=
  if q ≠ 0 then do
    let l ← getLength buf q
    if l = 0 then .ok (.inr none)
    else if l = 2 then do
      let q' ← getPointer buf q
      .ok (.inl q')
    else if l ≠ m then do
      let d ← stringInfoLength nameBytes buf q l
      .ok (.inl (addU64 q d))
    else do
      let l2 ← getLenlen buf q
      let i ← compareLoop T p buf (q + 1 + 1 + l2) m
      if i = m then do
        let nm ← getName nameBytes buf q
        .ok (.inr (some nm))
      else do
        let d ← stringInfoLength nameBytes buf q l
        .ok (.inl (addU64 q d))
  else .ok (.inr none)

/-- `find_name` (src/hashtable.cpp:292-342) -/
def findName (ht : HashTable) (T : Mem Nat) (m p : Nat) : M Nat := do
  let h ← hashFunction ht.htsize T m p
  let q ← ht.head.rd h
  let r ← whileM (ht.bufsize + 2) q (findStep ht.nameBytes ht.buf T m p)
  match r with
  | some nm => .ok nm
  | none => .error (.throw .runtimeError)

/-- Body of the inner loop of the walk over the table in `sort_LMS_strings` (src/flbwt.cpp:404-418):
state `(p, s, j)`. -/
def collectStep (nameBytes : Nat) (buf : Mem Nat) :
    Nat × Mem Nat × Nat → M ((Nat × Mem Nat × Nat) ⊕ (Mem Nat × Nat))
  | (p, s, j) =>
    if p ≠ 0 then do
      let l ← getLength buf p
      if l = 0 then .ok (.inr (s, j))
      else if l = 2 then do
        let p' ← getPointer buf p
        .ok (.inl (p', s, j))
      else do
        let s ← s.wr j p
        let d ← stringInfoLength nameBytes buf p l
        .ok (.inl (addU64 p d, s, j + 1))
    else .ok (.inr (s, j))

/-- The walk over the table in `sort_LMS_strings` (src/flbwt.cpp:400-419): the offsets of all records are
stored in `s[j], s[j+1], ...`. -/
def collect (ht : HashTable) (s : Mem Nat) (j : Nat) : M (Mem Nat × Nat) :=
  loopUp 0 ht.htsize (s, j) fun i st => do
    let p ← ht.head.rd i
    whileM (ht.buf.size + 2) (p, st.1, st.2) (collectStep ht.nameBytes ht.buf)

end HashTable
end Flbwt
