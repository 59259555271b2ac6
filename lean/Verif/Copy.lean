import Verif.TimeFrontModel

/-!
# Counting the bytes that `realloc` copies

The same program as `bwtString` (`Bwt.lean`), with a counter of the bytes copied by the calls of `realloc` of the table buffer:
a `realloc` that cannot extend the block in place copies its old contents. Here every call copies (the worst an allocator
can do). Everything but the calls of `realloc` is free; the monad `TM` of `TimeBase.lean` carries the counter.
-/

namespace Flbwt

open TM

/-- `realloc` that moves the block: the old contents are copied. src/hashtable.cpp:90, src/flbwt.cpp:394. -/
def reallocR (junk : Fresh) (buf : Mem Nat) (newsize : Nat) : TM (Mem Nat) :=
  charge buf.size (lift (reallocBytes junk buf newsize))

/-- `for (i = hi - 1; i >= 0; --i) body`; the iterations are not counted. Infrastructure: models no code. -/
def loopDownR {σ : Type _} : Nat → σ → (Nat → σ → TM σ) → TM σ
  | 0, s, _ => pure s
  | hi + 1, s, f => f hi s >>= fun s' => loopDownR hi s' f

namespace HashTable

/-- Allocation of a new block if needed (src/hashtable.cpp:88-111), as `makeRoom` -/
def makeRoomR (junk : Fresh) (ht : HashTable) (h q : Nat) (r : Option Nat) (space : Nat) :
    TM (HashTable × Nat) := do
  let rest ← lift (ht.rest.rd h)
  let lim ← lift (spaceLimit rest)
  if toI64 space ≥ lim then do
    let buf ← reallocR junk ht.buf (ht.bufsize + ht.hbsize + space)
    let rest ← lift (ht.rest.wr h (ht.hbsize + space))
    let q2 := ht.bufsize + 1
    let ht ← lift (linkBlock { ht with buf := buf, bufsize := ht.bufsize + (ht.hbsize + space), rest := rest } h q r q2)
    pure (ht, q2)
  else
    lift (match r with
    | none => .error (.ub .nullDeref)
    | some r => .ok (ht, r))

/-- The part of `insert_string` after the scan (src/hashtable.cpp:85-131) -/
def insertTailR (junk : Fresh) (ht : HashTable) (T : Mem Nat) (m p h : Nat) (e : ScanEnd) : TM (HashTable × Nat) :=
  match e with
  | .dup coll => pure ({ ht with collisions := coll }, 0)
  | .free q r coll => do
    let ht := { ht with collisions := coll }
    let lengthBytes ← lift (calculateLenlen m)
    let space := spaceRequired lengthBytes m ht.nameBytes
    let x ← makeRoomR junk ht h q r space
    let buf ← lift (writeRecord x.1.nameBytes x.1.buf T m p lengthBytes x.2)
    let rest ← lift (x.1.rest.rd h)
    let rest' ← lift (x.1.rest.wr h (subU64 rest space))
    pure ({ x.1 with buf := buf, rest := rest' }, 1)

/-- `insert_string` (src/hashtable.cpp:28-131), as `insertString` -/
def insertStringR (junk : Fresh) (ht : HashTable) (T : Mem Nat) (m p : Nat) : TM (HashTable × Nat) := do
  let h ← lift (hashFunction ht.htsize T m p)
  let q ← lift (ht.head.rd h)
  let e ← lift (whileM (ht.bufsize + 2) (q, none, ht.collisions) (insertStep ht.nameBytes ht.buf T m p))
  insertTailR junk ht T m p h e

end HashTable

/-- src/flbwt.cpp:353-362, as `exFound` -/
def exFoundR (junk : Fresh) (T : Mem Nat) (i : Nat) (s : ExSt) : TM ExSt := do
  let c ← lift (T.rd (i + 1))
  let C ← lift (bump s.C (c + 1))
  let r ← HashTable.insertStringR junk s.ht T (addU64 (subU64 s.q (i + 1)) 1) (i + 1)
  pure { s with C := C, ht := r.1, numSubs := s.numSubs + 1,
                numUnique := if r.2 ≠ 0 then s.numUnique + 1 else s.numUnique, p := i + 1, q := i + 1 }

/-- src/flbwt.cpp:351-363, as `exMaybe` -/
def exMaybeR (junk : Fresh) (T : Mem Nat) (i : Nat) (s : ExSt) : TM ExSt :=
  if s.prev = TYPE_S then exFoundR junk T i s else pure s

/-- src/flbwt.cpp:343-373, as `exStep` -/
def exStepR (junk : Fresh) (T : Mem Nat) (i : Nat) (s : ExSt) : TM ExSt := do
  let a ← lift (T.rd i)
  let b ← lift (T.rd (i + 1))
  let M ← lift (bump s.M (a + 1))
  if a < b then pure { s with M := M, prev := TYPE_S }
  else if b < a then do
    let s ← exMaybeR junk T i { s with M := M }
    let NL ← lift (bump s.NL (a + 1))
    pure { s with NL := NL, prev := TYPE_L }
  else if s.prev = TYPE_L then do
    let NL ← lift (bump s.NL (a + 1))
    pure { s with M := M, NL := NL }
  else pure { s with M := M }

/-- `extract_LMS_strings` (src/flbwt.cpp:318-379), as `extractLMS` -/
def extractLMSR (junk : Fresh) (T : Mem Nat) (n : Nat) : TM Container := do
  let ct := Container.new n
  if n ≤ 2 then pure ct
  else do
    let ht ← lift (HashTable.new 67777 n)
    let M ← lift (bump ct.M 0)
    let c ← lift (T.rd (n - 1))
    let M ← lift (bump M (c + 1))
    let NL ← lift (bump ct.NL (c + 1))
    let C ← lift (bump ct.C 0)
    let s ← loopDownR (n - 1) (⟨M, NL, C, ht, 0, 0, TYPE_L, n, n⟩ : ExSt) (exStepR junk T)
    pure { ct with hashtable := some s.ht, M := s.M, NL := s.NL, C := s.C, numSubs := s.numSubs, numUnique := s.numUnique,
                   headEnd := s.p }

/-- src/flbwt.cpp:383-462, as `sortNames` -/
def sortNamesR (sorter : Sorter) (pj : Nat → Nat) (junk : Fresh) (ct : Container) (ht : HashTable) :
    TM (HashTable × Mem Nat) := do
  let s : Mem Nat := ⟨ct.numUnique + 2, pj⟩
  let ll ← lift (HashTable.calculateLenlen (ct.headEnd + 1))
  let space := 1 + 1 + ll + (ct.headEnd + 1) + ht.nameBytes + (1 + 1 + 1 + 1 + ht.nameBytes)
  let buf ← reallocR junk ht.buf (ht.bufsize + space)
  let ht := { ht with buf := buf, bufsize := ht.bufsize + space }
  let r ← lift (HashTable.collect ht s 1)
  let m := subU64 r.2 1
  let l ← lift (readRange r.1 m)
  let l ← lift (sorter (lmsCompare ht.buf) l)
  let s ← lift (writeRange r.1 l)
  let buf ← lift (setNamesLoop ht.nameBytes s m ht.buf)
  pure ({ ht with buf := buf }, s)

/-- `sort_LMS_strings` (src/flbwt.cpp:381-507), as `sortLMS` -/
def sortLMSR (sorter : Sorter) (pj : Nat → Nat) (junk : Fresh) (T : Mem Nat) (ct : Container) : TM (Mem Nat × Container) := do
  let ht ← lift (tableOf ct)
  let r ← sortNamesR sorter pj junk ct ht
  lift (sortHead T ct ht.bufsize r.1 r.2)

/-- `bwt_is` (src/flbwt.cpp:120-313), as `bwtIs`: the functions after `sort_LMS_strings` do not call `realloc` -/
def bwtIsR (w : World) (T : Mem Nat) (n : Nat) (freeT : Bool) : TM (Option BwtResult × Option (Mem Nat)) := do
  let ct ← extractLMSR w.junk T n
  let r ← sortLMSR w.sorter w.pj w.junk T ct
  let T1 ← lift (createShortened w.tj w.sj T n r.2)
  let T := release freeT T
  let b ← lift (finish w r.1 T1 r.2)
  pure (b, T)

/-- `bwt_string` (src/flbwt.cpp:110-118), as `bwtString` -/
def bwtStringR (w : World) (T : Option (Mem Nat)) (n : Nat) (freeT : Bool) : TM (Option BwtResult × Option (Mem Nat)) :=
  match T with
  | none => lift (.error (.throw .invalidArgument))
  | some T => if n = 0 then lift (.error (.throw .invalidArgument)) else bwtIsR w T n freeT

/-! ## Forgetting the counter -/

theorem erase_reallocR (junk : Fresh) (buf : Mem Nat) (k : Nat) : erase (reallocR junk buf k) = reallocBytes junk buf k := by
  unfold reallocR; rw [erase_charge, erase_lift]

theorem erase_loopDownR {σ : Type _} (f : Nat → σ → TM σ) (g : Nat → σ → M σ) (h : ∀ i s, erase (f i s) = g i s) :
    ∀ (hi : Nat) (s : σ), erase (loopDownR hi s f) = loopDown hi s g := by
  intro hi
  induction hi with
  | zero => intro s; rfl
  | succ hi ih =>
    intro s
    rw [loopDownR, erase_bind, h, loopDown]
    congr 1
    funext s'
    exact ih s'

namespace HashTable

theorem erase_makeRoomR (junk : Fresh) (ht : HashTable) (h q : Nat) (r : Option Nat) (space : Nat) :
    erase (makeRoomR junk ht h q r space) = makeRoom junk ht h q r space := by
  unfold makeRoomR makeRoom
  simp only [erase_bind, erase_lift, erase_ite, erase_reallocR, erase_pure]
  cases r <;> rfl

theorem erase_insertStringR (junk : Fresh) (ht : HashTable) (T : Mem Nat) (m p : Nat) :
    erase (insertStringR junk ht T m p) = insertString junk ht T m p := by
  unfold insertStringR insertString
  simp only [erase_bind, erase_lift]
  congr 1; funext h; congr 1; funext q; congr 1; funext e
  cases e with
  | dup c => rfl
  | free q r c =>
    simp only [insertTailR, erase_bind, erase_lift, erase_makeRoomR, erase_pure]

end HashTable

theorem erase_exMaybeR (junk : Fresh) (T : Mem Nat) (i : Nat) (s : ExSt) : erase (exMaybeR junk T i s) = exMaybe junk T i s := by
  unfold exMaybeR exMaybe exFoundR exFound
  simp only [erase_ite, erase_bind, erase_lift, HashTable.erase_insertStringR, erase_pure]

theorem erase_exStepR (junk : Fresh) (T : Mem Nat) (i : Nat) (s : ExSt) : erase (exStepR junk T i s) = exStep junk T i s := by
  unfold exStepR exStep
  simp only [erase_ite, erase_bind, erase_lift, erase_exMaybeR, erase_pure]

theorem erase_extractLMSR (junk : Fresh) (T : Mem Nat) (n : Nat) : erase (extractLMSR junk T n) = extractLMS junk T n := by
  unfold extractLMSR extractLMS
  simp only [erase_ite, erase_bind, erase_lift, erase_loopDownR _ _ (erase_exStepR junk T), erase_pure]

theorem erase_sortLMSR (sorter : Sorter) (pj : Nat → Nat) (junk : Fresh) (T : Mem Nat) (ct : Container) :
    erase (sortLMSR sorter pj junk T ct) = sortLMS sorter pj junk T ct := by
  unfold sortLMSR sortLMS sortNamesR sortNames tableOf
  cases ct.hashtable with
  | none => rfl
  | some ht =>
    simp only [erase_bind, erase_lift, erase_reallocR, erase_pure]
    rfl

/-- The counting program is the program: without the counter it is `bwtString`. -/
theorem erase_bwtStringR (w : World) (T : Option (Mem Nat)) (n : Nat) (freeT : Bool) :
    erase (bwtStringR w T n freeT) = bwtString w T n freeT := by
  cases T with
  | none => rfl
  | some T =>
    simp only [bwtStringR, bwtString, bwtIsR, bwtIs, erase_ite, erase_bind, erase_lift, erase_extractLMSR, erase_sortLMSR, erase_pure]

end Flbwt
