import Verif.TimeErase

/-!
# Counting versions of the functions in front of the suffix sorting, and of `bwt_string`

The parameter `ws` is the weight of an iteration of the two loops that search for a string in a chain of the hash table
(src/hashtable.cpp:44-83, 305-339, and the comparison loop inside): with `ws = 1` everything is counted, with `ws = 0`
everything except these searches. Loops over the bytes of one machine word (lengths, pointers, names: at most 10
iterations) count as elementary operations, as do the library calls (`malloc`, `realloc`, `std::sort`).
-/

namespace Flbwt

namespace TM
variable {α β : Type _}

/-- give every counted iteration the weight `c`. Infrastructure: models no code. -/
def scale (c : Nat) (x : TM α) : TM α := match x with
  | .ok r => .ok (r.1, c * r.2)
  | .error e => .error e

/-- `k` iterations of a library loop or of a loop that only clears an array. Infrastructure: models no code. -/
def charge (k : Nat) (x : TM α) : TM α := match x with
  | .ok r => .ok (r.1, r.2 + k)
  | .error e => .error e

@[simp] theorem erase_scale (c : Nat) (x : TM α) : erase (scale c x) = erase x := by cases x <;> rfl
@[simp] theorem erase_charge (c : Nat) (x : TM α) : erase (charge c x) = erase x := by cases x <;> rfl

theorem CostLe.scale {c b : Nat} {x : TM α} (h : CostLe x b) : CostLe (TM.scale c x) (c * b) := by
  intro r hr
  cases x with
  | error e => cases hr
  | ok a => cases hr; exact Nat.mul_le_mul_left _ (h a rfl)

theorem CostLe.charge {c b : Nat} {x : TM α} (h : CostLe x b) : CostLe (TM.charge c x) (b + c) := by
  intro r hr
  cases x with
  | error e => cases hr
  | ok a => cases hr; exact Nat.add_le_add_right (h a rfl) _

/-- A loop makes at most as many iterations as it has fuel. -/
theorem CostLe.whileFuel {σ : Type _} {fuel : Nat} {s : σ} {f : σ → TM (σ ⊕ β)} {b : Nat} (hs : ∀ s, CostLe (f s) b) :
    CostLe (whileT fuel s f) (fuel * (b + 1)) := by
  induction fuel generalizing s with
  | zero => exact CostLe.lift _ _
  | succ c ih =>
    unfold whileT
    refine ((CostLe.bind (b := c * (b + 1)) (hs s) (fun r => ?_)).tick).mono (by ring_nf; omega)
    cases r with
    | inl s' => exact ih
    | inr b => exact CostLe.pure _ _

end TM

open TM

namespace HashTable

/-- `hash_function` (src/hashtable.cpp:133-147) -/
def hashFunctionT (htsize : Nat) (T : Mem Nat) (m p : Nat) : TM Nat := do
  let x ← loopUpT 0 m 0 fun i x => lift (do
    let c ← T.rd (p + i)
    .ok ((x * 101 % 18446744073709551616 + c) % 18446744073709551616))
  lift (if htsize = 0 then .error (.ub .divByZero) else .ok (x % htsize))

/-- src/hashtable.cpp:72-76, 329-333 -/
def compareLoopT (T : Mem Nat) (p : Nat) (buf : Mem Nat) (base m : Nat) : TM Nat :=
  whileT (m + 1) 0 fun i => lift (
    if i < m then do
      let a ← T.rd (p + i)
      let b ← buf.rd (base + i)
      if a ≠ b then .ok (.inr i) else .ok (.inl (i + 1))
    else .ok (.inr i))

/-- src/hashtable.cpp:44-83 -/
def insertStepT (nameBytes : Nat) (buf : Mem Nat) (T : Mem Nat) (m p : Nat) :
    Nat × Option Nat × Nat → TM ((Nat × Option Nat × Nat) ⊕ ScanEnd)
  | (q, r, coll) =>
    if q ≠ 0 then do
      let l ← lift (getLength buf q)
      if l = 0 then pure (.inr (.free q (some q) coll))
      else if l = 2 then do
        let q' ← lift (getPointer buf q)
        pure (.inl (q', some q, coll + 1))
      else if l ≠ m then do
        let d ← lift (stringInfoLength nameBytes buf q l)
        pure (.inl (addU64 q d, some q, coll + 1))
      else do
        let l2 ← lift (getLenlen buf q)
        let i ← compareLoopT T p buf (q + 1 + 1 + l2) m
        if i = m then pure (.inr (.dup coll))
        else do
          let d ← lift (stringInfoLength nameBytes buf q l)
          pure (.inl (addU64 q d, some q, coll + 1))
    else pure (.inr (.free q r coll))

/-- src/hashtable.cpp:113-126 -/
def writeRecordT (nameBytes : Nat) (buf : Mem Nat) (T : Mem Nat) (m p lengthBytes r : Nat) : TM (Mem Nat) := do
  let buf ← lift (setLength buf r m)
  let c ← lift (T.rd p)
  let buf ← lift (buf.wr (r + (1 + lengthBytes)) ((c + 1) % 256))
  let buf ← loopUpT 0 m buf fun i buf => lift (do
    let c ← T.rd (p + i)
    buf.wr (r + (1 + lengthBytes) + 1 + i) c)
  loopUpT 0 12 buf fun i buf => lift (buf.wr (r + (1 + lengthBytes) + 1 + m + nameBytes + i) 0)

/-- The part of `insert_string` after the search (src/hashtable.cpp:78-131) -/
def insertTailT (junk : Fresh) (ht : HashTable) (T : Mem Nat) (m p h : Nat) : ScanEnd → TM (HashTable × Nat)
  | .dup coll => pure ({ ht with collisions := coll }, 0)
  | .free q r coll => do
    let ht := { ht with collisions := coll }
    let lengthBytes ← lift (calculateLenlen m)
    let space := spaceRequired lengthBytes m ht.nameBytes
    let x ← lift (makeRoom junk ht h q r space)
    let buf ← writeRecordT x.1.nameBytes x.1.buf T m p lengthBytes x.2
    let rest ← lift (x.1.rest.rd h)
    let rest' ← lift (x.1.rest.wr h (subU64 rest space))
    pure ({ x.1 with buf := buf, rest := rest' }, 1)

/-- `insert_string` (src/hashtable.cpp:28-131) -/
def insertStringT (ws : Nat) (junk : Fresh) (ht : HashTable) (T : Mem Nat) (m p : Nat) : TM (HashTable × Nat) := do
  let h ← hashFunctionT ht.htsize T m p
  let q ← lift (ht.head.rd h)
  let e ← scale ws (whileT (ht.bufsize + 2) (q, none, ht.collisions) (insertStepT ht.nameBytes ht.buf T m p))
  insertTailT junk ht T m p h e

/-- src/hashtable.cpp:305-339 -/
def findStepT (nameBytes : Nat) (buf : Mem Nat) (T : Mem Nat) (m p q : Nat) : TM (Nat ⊕ Option Nat) :=
  if q ≠ 0 then do
    let l ← lift (getLength buf q)
    if l = 0 then pure (.inr none)
    else if l = 2 then do
      let q' ← lift (getPointer buf q)
      pure (.inl q')
    else if l ≠ m then do
      let d ← lift (stringInfoLength nameBytes buf q l)
      pure (.inl (addU64 q d))
    else do
      let l2 ← lift (getLenlen buf q)
      let i ← compareLoopT T p buf (q + 1 + 1 + l2) m
      if i = m then do
        let nm ← lift (getName nameBytes buf q)
        pure (.inr (some nm))
      else do
        let d ← lift (stringInfoLength nameBytes buf q l)
        pure (.inl (addU64 q d))
  else pure (.inr none)

/-- the result of `find_name` (src/hashtable.cpp:341) -/
def findEnd : Option Nat → M Nat
  | some nm => .ok nm
  | none => .error (.throw .runtimeError)

/-- `find_name` (src/hashtable.cpp:292-342) -/
def findNameT (ws : Nat) (ht : HashTable) (T : Mem Nat) (m p : Nat) : TM Nat := do
  let h ← hashFunctionT ht.htsize T m p
  let q ← lift (ht.head.rd h)
  let r ← scale ws (whileT (ht.bufsize + 2) q (findStepT ht.nameBytes ht.buf T m p))
  lift (findEnd r)

/-- src/flbwt.cpp:400-419 -/
def collectT (ht : HashTable) (s : Mem Nat) (j : Nat) : TM (Mem Nat × Nat) :=
  loopUpT 0 ht.htsize (s, j) fun i st => do
    let p ← lift (ht.head.rd i)
    whileT (ht.buf.size + 2) (p, st.1, st.2) fun x => lift (collectStep ht.nameBytes ht.buf x)

end HashTable

/-! ## `extract_LMS_strings` -/

/-- src/flbwt.cpp:353-362 -/
def exFoundT (ws : Nat) (junk : Fresh) (T : Mem Nat) (i : Nat) (s : ExSt) : TM ExSt := do
  let c ← lift (T.rd (i + 1))
  let C ← lift (bump s.C (c + 1))
  let r ← HashTable.insertStringT ws junk s.ht T (addU64 (subU64 s.q (i + 1)) 1) (i + 1)
  pure { s with C := C, ht := r.1, numSubs := s.numSubs + 1,
                numUnique := if r.2 ≠ 0 then s.numUnique + 1 else s.numUnique, p := i + 1, q := i + 1 }

/-- src/flbwt.cpp:351-363 -/
def exMaybeT (ws : Nat) (junk : Fresh) (T : Mem Nat) (i : Nat) (s : ExSt) : TM ExSt :=
  if s.prev = TYPE_S then exFoundT ws junk T i s else pure s

/-- src/flbwt.cpp:343-373 -/
def exStepT (ws : Nat) (junk : Fresh) (T : Mem Nat) (i : Nat) (s : ExSt) : TM ExSt := do
  let a ← lift (T.rd i)
  let b ← lift (T.rd (i + 1))
  let M ← lift (bump s.M (a + 1))
  if a < b then pure { s with M := M, prev := TYPE_S }
  else if b < a then do
    let s ← exMaybeT ws junk T i { s with M := M }
    let NL ← lift (bump s.NL (a + 1))
    pure { s with NL := NL, prev := TYPE_L }
  else if s.prev = TYPE_L then do
    let NL ← lift (bump s.NL (a + 1))
    pure { s with M := M, NL := NL }
  else pure { s with M := M }

/-- `extract_LMS_strings` (src/flbwt.cpp:318-379). The constructor of the container has a loop of 258 iterations
(src/container.cpp:11-19), the constructor of the table clears two arrays (src/hashtable.cpp:12-13). -/
def extractLMST (ws : Nat) (junk : Fresh) (T : Mem Nat) (n : Nat) : TM Container := do
  let ct ← charge 258 (pure (Container.new n))
  if n ≤ 2 then pure ct
  else do
    let ht ← charge (67777 + 67777) (lift (HashTable.new 67777 n))
    let M ← lift (bump ct.M 0)
    let c ← lift (T.rd (n - 1))
    let M ← lift (bump M (c + 1))
    let NL ← lift (bump ct.NL (c + 1))
    let C ← lift (bump ct.C 0)
    let s ← loopDownT (n - 1) (⟨M, NL, C, ht, 0, 0, TYPE_L, n, n⟩ : ExSt) (exStepT ws junk T)
    pure { ct with hashtable := some s.ht, M := s.M, NL := s.NL, C := s.C, numSubs := s.numSubs, numUnique := s.numUnique,
                   headEnd := s.p }

/-! ## `sort_LMS_strings` -/

/-- src/flbwt.cpp:424-453: the comparison passed to `std::sort` -/
def lmsCompareT (buf : Mem Nat) (r1 r2 : Nat) : TM Bool := do
  let l1 ← lift (HashTable.getLength buf r1)
  let l2 ← lift (HashTable.getLength buf r2)
  let p1 ← lift (HashTable.getFirstCharacterPointer buf r1)
  let p2 ← lift (HashTable.getFirstCharacterPointer buf r2)
  let r ← whileT (l1 + 1) (p1, p2, l1, l2, 0, 0) fun x => lift (cmpStep buf x)
  if r.1 = 0 then pure false
  else if r.2.1 = 0 then pure true
  else pure (decide (r.2.2.1 < r.2.2.2))

/-- src/flbwt.cpp:458-462 -/
def setNamesLoopT (nameBytes : Nat) (s : Mem Nat) (m : Nat) (buf : Mem Nat) : TM (Mem Nat) :=
  loopUpT 1 m buf fun i buf => lift (do
    let q ← s.rd i
    HashTable.setName nameBytes buf q i)

/-- src/flbwt.cpp:465-476 -/
def writeHeadT (nameBytes : Nat) (T : Mem Nat) (headEnd numUnique : Nat) (buf : Mem Nat) (r : Nat) :
    TM (Mem Nat × Nat × Nat) := do
  let buf ← lift (HashTable.setLength buf r (headEnd + 1))
  let buf ← lift (HashTable.setName nameBytes buf r (numUnique + 1))
  let ll ← lift (HashTable.getLenlen buf r)
  let r := r + (1 + ll)
  let c ← lift (T.rd 0)
  let buf ← lift (buf.wr r ((c + 1) % 256))
  let buf ← loopUpT 0 (headEnd + 1) buf fun i buf => lift (do
    let c ← T.rd i
    buf.wr (r + 1 + i) c)
  pure (buf, r + 1, r + 1 + (headEnd + 1) + nameBytes)

/-- src/flbwt.cpp:488-497 -/
def minMaxT (s : Mem Nat) (numUnique : Nat) : TM (Nat × Nat) := do
  let s0 ← lift (s.rd 0)
  loopUpT 1 (numUnique + 1) (s0, s0) fun i mm => lift (do
    let x ← s.rd i
    let mn := if x < mm.1 then x else mm.1
    let mx := if mm.2 < x then x else mm.2
    .ok (mn, mx))

/-- src/flbwt.cpp:383-462; `std::sort` is not counted. -/
def sortNamesT (sorter : Sorter) (pj : Nat → Nat) (junk : Fresh) (ct : Container) (ht : HashTable) :
    TM (HashTable × Mem Nat) := do
  let s : Mem Nat := ⟨ct.numUnique + 2, pj⟩
  let ll ← lift (HashTable.calculateLenlen (ct.headEnd + 1))
  let space := 1 + 1 + ll + (ct.headEnd + 1) + ht.nameBytes + (1 + 1 + 1 + 1 + ht.nameBytes)
  let buf ← lift (reallocBytes junk ht.buf (ht.bufsize + space))
  let ht := { ht with buf := buf, bufsize := ht.bufsize + space }
  let r ← HashTable.collectT ht s 1
  let m := subU64 r.2 1
  let l ← lift (readRange r.1 m)
  let l ← lift (sorter (lmsCompare ht.buf) l)
  let s ← lift (writeRange r.1 l)
  let buf ← setNamesLoopT ht.nameBytes s m ht.buf
  pure ({ ht with buf := buf }, s)

/-- src/flbwt.cpp:464-507 -/
def sortHeadT (T : Mem Nat) (ct : Container) (pos : Nat) (ht : HashTable) (s : Mem Nat) : TM (Mem Nat × Container) := do
  let s ← lift (s.wr (ct.numUnique + 1) pos)
  let h ← writeHeadT ht.nameBytes T ct.headEnd ct.numUnique ht.buf pos
  let s ← lift (s.wr 0 h.2.2)
  let buf ← lift (writeEnd ht.nameBytes h.1 h.2.2)
  let mm ← minMaxT s ct.numUnique
  let w ← lift (positionOfMsb (subU64 mm.2 mm.1 + 2))
  let l ← lift (HashTable.getLength buf mm.2)
  let fc ← lift (HashTable.getFirstCharacterPointer buf mm.2)
  pure (s, { ct with hashtable := some { ht with buf := buf }, minPtr := mm.1, maxPtr := mm.2, bwpWidth := w,
                     bwpBase := (mm.1 : Int) - 1, lastptr := h.2.1,
                     saMax := toU64 ((fc : Int) + l - 1 - ((mm.1 : Int) - 1)) })

/-- the table of the container; the code dereferences the pointer. src/flbwt.cpp:391-397. -/
def tableOf (ct : Container) : M HashTable := match ct.hashtable with
  | none => .error (.ub .nullDeref)
  | some ht => .ok ht

/-- `sort_LMS_strings` (src/flbwt.cpp:381-507) -/
def sortLMST (sorter : Sorter) (pj : Nat → Nat) (junk : Fresh) (T : Mem Nat) (ct : Container) : TM (Mem Nat × Container) := do
  let ht ← lift (tableOf ct)
  let r ← sortNamesT sorter pj junk ct ht
  sortHeadT T ct ht.bufsize r.1 r.2

/-! ## `create_shortened_string` -/

/-- src/flbwt.cpp:541-552 -/
def shMaybeT (ws : Nat) (sj : BitVec 64) (ht : HashTable) (T : Mem Nat) (i : Nat) (s : ShSt) : TM ShSt :=
  if s.prev = TYPE_S then do
    let name ← HashTable.findNameT ws ht T (addU64 (subU64 s.q (i + 1)) 1) (i + 1)
    let T1 ← lift (s.T1.setValue sj s.j (BitVec.ofNat 64 name))
    pure { s with T1 := T1, j := Queue.decU64 s.j, q := i + 1 }
  else pure s

/-- src/flbwt.cpp:532-555 -/
def shStepT (ws : Nat) (sj : BitVec 64) (ht : HashTable) (T : Mem Nat) (i : Nat) (s : ShSt) : TM ShSt := do
  let a ← lift (T.rd i)
  let b ← lift (T.rd (i + 1))
  if a < b then pure { s with prev := TYPE_S }
  else if b < a then do
    let s ← shMaybeT ws sj ht T i s
    pure { s with prev := TYPE_L }
  else pure s

/-- `create_shortened_string` (src/flbwt.cpp:509-564) -/
def createShortenedT (ws : Nat) (tj : Nat → BitVec 64) (sj : BitVec 64) (T : Mem Nat) (n : Nat) (ct : Container) :
    TM PackedArray := do
  let ht ← lift (tableOf ct)
  let total := ct.numSubs + 2
  let bits ← lift (positionOfMsb (ct.numUnique + 1))
  let T1 ← lift ((PackedArray.new total bits tj).setValue sj (total - 1) 0)
  let s ← loopDownT (n - 1) (⟨T1, TYPE_L, n, total - 1 - 1⟩ : ShSt) (shStepT ws sj ht T)
  lift (s.T1.setValue sj 0 (BitVec.ofNat 64 (ct.numUnique + 1)))

/-! ## `bwt_string` -/

/-- the value of the taken branch as the returned pointer. Infrastructure: models no code. -/
def someT (x : TM BwtResult) : TM (Option BwtResult) := x >>= fun r => pure (some r)

/-- src/flbwt.cpp:138-313 -/
def finishT (w : World) (s : Mem Nat) (T1 : PackedArray) (ct : Container) : TM (Option BwtResult) := do
  let ht ← lift (tableOf ct)
  let total := ct.numSubs + 2
  let maxValue := if ct.saMax < total then total else ct.saMax
  let bits ← lift (positionOfMsb maxValue)
  if bits < 32 then someT (branchT S32 w s T1 ht ct)
  else if bits < 40 then someT (branchT S40 w s T1 ht ct)
  else if bits < 48 then someT (branchT S48 w s T1 ht ct)
  else if bits < 56 then someT (branchT S56 w s T1 ht ct)
  else if bits < 64 then someT (branchT S64 w s T1 ht ct)
  else pure none

/-- `bwt_is` (src/flbwt.cpp:120-313) -/
def bwtIsT (w : World) (ws : Nat) (T : Mem Nat) (n : Nat) (freeT : Bool) : TM (Option BwtResult × Option (Mem Nat)) := do
  let ct ← extractLMST ws w.junk T n
  let r ← sortLMST w.sorter w.pj w.junk T ct
  let T1 ← createShortenedT ws w.tj w.sj T n r.2
  let T := release freeT T
  let b ← finishT w r.1 T1 r.2
  pure (b, T)

/-- `bwt_string` (src/flbwt.cpp:110-118) -/
def bwtStringT (w : World) (ws : Nat) (T : Option (Mem Nat)) (n : Nat) (freeT : Bool) :
    TM (Option BwtResult × Option (Mem Nat)) :=
  match T with
  | none => lift (.error (.throw .invalidArgument))
  | some T => if n = 0 then lift (.error (.throw .invalidArgument)) else bwtIsT w ws T n freeT

/-! ## Erasing -/

namespace HashTable

theorem erase_hashFunction (htsize : Nat) (T : Mem Nat) (m p : Nat) :
    erase (hashFunctionT htsize T m p) = hashFunction htsize T m p := by
  simp only [hashFunctionT, hashFunction, erase_bind, erase_loopUpT, erase_lift]

theorem erase_compareLoop (T : Mem Nat) (p : Nat) (buf : Mem Nat) (base m : Nat) :
    erase (compareLoopT T p buf base m) = compareLoop T p buf base m := by
  simp only [compareLoopT, compareLoop, erase_whileT, erase_lift]

theorem erase_insertStep (nameBytes : Nat) (buf : Mem Nat) (T : Mem Nat) (m p : Nat) (x : Nat × Option Nat × Nat) :
    erase (insertStepT nameBytes buf T m p x) = insertStep nameBytes buf T m p x := by
  obtain ⟨q, r, coll⟩ := x
  simp only [insertStepT, insertStep, erase_bind, erase_ite, erase_lift, erase_pure, erase_compareLoop]

theorem erase_writeRecord (nameBytes : Nat) (buf : Mem Nat) (T : Mem Nat) (m p lengthBytes r : Nat) :
    erase (writeRecordT nameBytes buf T m p lengthBytes r) = writeRecord nameBytes buf T m p lengthBytes r := by
  simp only [writeRecordT, writeRecord, erase_bind, erase_loopUpT, erase_lift]

theorem erase_insertString (ws : Nat) (junk : Fresh) (ht : HashTable) (T : Mem Nat) (m p : Nat) :
    erase (insertStringT ws junk ht T m p) = insertString junk ht T m p := by
  simp only [insertStringT, insertString, erase_bind, erase_lift, erase_scale, erase_whileT, erase_insertStep,
    erase_hashFunction]
  congr 1; funext h
  congr 1; funext q
  congr 1; funext e
  cases e with
  | dup c => rfl
  | free q r c => simp only [insertTailT, erase_bind, erase_lift, erase_pure, erase_writeRecord]

theorem erase_findStep (nameBytes : Nat) (buf : Mem Nat) (T : Mem Nat) (m p q : Nat) :
    erase (findStepT nameBytes buf T m p q) = findStep nameBytes buf T m p q := by
  simp only [findStepT, findStep, erase_bind, erase_ite, erase_lift, erase_pure, erase_compareLoop]

theorem erase_findName (ws : Nat) (ht : HashTable) (T : Mem Nat) (m p : Nat) :
    erase (findNameT ws ht T m p) = findName ht T m p := by
  simp only [findNameT, findName, erase_bind, erase_lift, erase_scale, erase_whileT, erase_findStep, erase_hashFunction]
  congr 1

theorem erase_collect (ht : HashTable) (s : Mem Nat) (j : Nat) : erase (collectT ht s j) = collect ht s j := by
  simp only [collectT, collect, erase_bind, erase_loopUpT, erase_whileT, erase_lift]

end HashTable

theorem erase_exMaybe (ws : Nat) (junk : Fresh) (T : Mem Nat) (i : Nat) (s : ExSt) :
    erase (exMaybeT ws junk T i s) = exMaybe junk T i s := by
  simp only [exMaybeT, exMaybe, exFoundT, exFound, erase_bind, erase_ite, erase_lift, erase_pure, HashTable.erase_insertString]

theorem erase_exStep (ws : Nat) (junk : Fresh) (T : Mem Nat) (i : Nat) (s : ExSt) :
    erase (exStepT ws junk T i s) = exStep junk T i s := by
  simp only [exStepT, exStep, erase_bind, erase_ite, erase_lift, erase_pure, erase_exMaybe]

theorem erase_extractLMS (ws : Nat) (junk : Fresh) (T : Mem Nat) (n : Nat) :
    erase (extractLMST ws junk T n) = extractLMS junk T n := by
  simp only [extractLMST, extractLMS, erase_bind, erase_ite, erase_charge, erase_lift, erase_pure, erase_loopDownT,
    erase_exStep]
  rfl

theorem erase_lmsCompare (buf : Mem Nat) (r1 r2 : Nat) : erase (lmsCompareT buf r1 r2) = lmsCompare buf r1 r2 := by
  simp only [lmsCompareT, lmsCompare, erase_bind, erase_ite, erase_lift, erase_pure, erase_whileT]

theorem erase_setNamesLoop (nameBytes : Nat) (s : Mem Nat) (m : Nat) (buf : Mem Nat) :
    erase (setNamesLoopT nameBytes s m buf) = setNamesLoop nameBytes s m buf := by
  simp only [setNamesLoopT, setNamesLoop, erase_loopUpT, erase_lift]

theorem erase_writeHead (nameBytes : Nat) (T : Mem Nat) (headEnd numUnique : Nat) (buf : Mem Nat) (r : Nat) :
    erase (writeHeadT nameBytes T headEnd numUnique buf r) = writeHead nameBytes T headEnd numUnique buf r := by
  simp only [writeHeadT, writeHead, erase_bind, erase_loopUpT, erase_lift, erase_pure]

theorem erase_minMax (s : Mem Nat) (u : Nat) : erase (minMaxT s u) = minMax s u := by
  simp only [minMaxT, minMax, erase_bind, erase_loopUpT, erase_lift]

theorem erase_sortNames (sorter : Sorter) (pj : Nat → Nat) (junk : Fresh) (ct : Container) (ht : HashTable) :
    erase (sortNamesT sorter pj junk ct ht) = sortNames sorter pj junk ct ht := by
  simp only [sortNamesT, sortNames, erase_bind, erase_lift, erase_pure, HashTable.erase_collect, erase_setNamesLoop]

theorem erase_sortHead (T : Mem Nat) (ct : Container) (pos : Nat) (ht : HashTable) (s : Mem Nat) :
    erase (sortHeadT T ct pos ht s) = sortHead T ct pos ht s := by
  simp only [sortHeadT, sortHead, erase_bind, erase_lift, erase_pure, erase_writeHead, erase_minMax]

theorem erase_sortLMS (sorter : Sorter) (pj : Nat → Nat) (junk : Fresh) (T : Mem Nat) (ct : Container) :
    erase (sortLMST sorter pj junk T ct) = sortLMS sorter pj junk T ct := by
  simp only [sortLMST, sortLMS, tableOf, erase_bind, erase_lift, erase_sortNames, erase_sortHead]
  cases ct.hashtable <;> rfl

theorem erase_shStep (ws : Nat) (sj : BitVec 64) (ht : HashTable) (T : Mem Nat) (i : Nat) (s : ShSt) :
    erase (shStepT ws sj ht T i s) = shStep sj ht T i s := by
  simp only [shStepT, shStep, shMaybeT, shMaybe, erase_bind, erase_ite, erase_lift, erase_pure, HashTable.erase_findName]

theorem erase_createShortened (ws : Nat) (tj : Nat → BitVec 64) (sj : BitVec 64) (T : Mem Nat) (n : Nat) (ct : Container) :
    erase (createShortenedT ws tj sj T n ct) = createShortened tj sj T n ct := by
  simp only [createShortenedT, createShortened, tableOf, erase_bind, erase_lift, erase_loopDownT, erase_shStep]
  cases ct.hashtable <;> rfl

theorem erase_someT (x : TM BwtResult) : erase (someT x) = some <$> erase x := by
  cases x <;> rfl

theorem erase_finish (w : World) (s : Mem Nat) (T1 : PackedArray) (ct : Container) :
    erase (finishT w s T1 ct) = finish w s T1 ct := by
  simp only [finishT, finish, tableOf, erase_bind, erase_ite, erase_lift, erase_pure, erase_someT, erase_branch]
  cases ct.hashtable <;> rfl

theorem erase_bwtIs (w : World) (ws : Nat) (T : Mem Nat) (n : Nat) (freeT : Bool) :
    erase (bwtIsT w ws T n freeT) = bwtIs w T n freeT := by
  simp only [bwtIsT, bwtIs, erase_bind, erase_pure, erase_extractLMS, erase_sortLMS, erase_createShortened, erase_finish]

theorem erase_bwtString (w : World) (ws : Nat) (T : Option (Mem Nat)) (n : Nat) (freeT : Bool) :
    erase (bwtStringT w ws T n freeT) = bwtString w T n freeT := by
  cases T with
  | none => rfl
  | some T => simp only [bwtStringT, bwtString, erase_ite, erase_lift, erase_bwtIs]

end Flbwt
