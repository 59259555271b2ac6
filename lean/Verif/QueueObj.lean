import Verif.HeapModel

/-!
# `Queue` as an object: statement by statement, with exceptions

`Queue.enqueueH` (`HeapModel.lean`) returns the new queue; it does not say what the object is like when the call ends by an
exception. Here the members of the object change one statement after the other, in the order of src/queue.cpp, and an
exception leaves them as they are at that moment.
-/

namespace Flbwt

/-- A member function of `Queue`: object and heap survive an exception. Infrastructure: models no code. -/
def QM (α : Type) : Type := Queue → Heap → Except HErr α × Queue × Heap

namespace QM

/-- sequencing. Infrastructure: models no code. -/
def bind {α β : Type} (x : QM α) (f : α → QM β) : QM β := fun q h =>
  match x q h with
  | (.ok a, q', h') => f a q' h'
  | (.error e, q', h') => (.error e, q', h')

/-- Infrastructure: models no code. -/
instance : Monad QM where
  pure a := fun q h => (.ok a, q, h)
  bind := bind

/-- the object. Infrastructure: models no code. -/
def self : QM Queue := fun q h => (.ok q, q, h)

/-- assignments to members. Infrastructure: models no code. -/
def set (f : Queue → Queue) : QM Unit := fun q h => (.ok (), f q, h)

/-- requests and releases of memory. Infrastructure: models no code. -/
def mem {α : Type} (x : H α) : QM α := fun q h =>
  match x h with
  | (r, h') => (r, q, h')

/-- a computation that can fault. Infrastructure: models no code. -/
def run {α : Type} (m : M α) : QM α := fun q h =>
  match m with
  | .ok a => (.ok a, q, h)
  | .error e => (.error (.prog e), q, h)

end QM

open QM

namespace Queue

/-- `qb = malloc(sizeof(qblock)); qb->b = new PackedArray(QSIZ, w);` (src/queue.cpp:39-40, 69-70): the constructor of the
packed array does not test the pointer `malloc` returns; the result tells whether the words are there. -/
def requestX (w : Nat) : QM Bool := do
  let p ← mem (mallocB qblockBlk)
  mem (newB .obj packedBlk)
  let a ← mem (mallocB (wordsBlk QSIZ w))
  mem (nonNull p)
  pure a

/-- src/queue.cpp:42-54: the new block becomes the last one. Simplification: the members of the block itself are written
at once. -/
def linkBackX (qb : Nat) (b : PackedArray) : QM Unit := do
  let q ← self
  match q.eb with
  | none => do
    set fun q => { q with sb := some qb, eb := some qb }
    set fun q => { q with sOfs := 0 }
    set fun q => { q with heap := heapSet q.heap qb (some ⟨none, none, b⟩) }
  | some e => do
    let blk ← run (q.deref (some e))
    set fun q => { q with heap := heapSet q.heap e (some { blk with next := some qb }) }
    set fun q => { q with heap := heapSet q.heap qb (some ⟨some e, none, b⟩) }
    set fun q => { q with eb := some qb }

/-- src/queue.cpp:37-57 -/
def roomBackX : QM Bool := do
  let q ← self
  if q.eOfs = QSIZ - 1 then do
    let a ← requestX q.w
    set fun q => { q with cnt := q.cnt + 1 }
    linkBackX q.cnt (PackedArray.new QSIZ q.w (q.junk q.cnt))
    set fun q => { q with eOfs := -1 }
    pure a
  else pure true

/-- src/queue.cpp:59-60 -/
def storeBackX (sj x : BitVec 64) : QM Unit := do
  set fun q => { q with eOfs := q.eOfs + 1 }
  let q ← self
  let blk ← run (q.deref q.eb)
  let i ← run (toIdx q.eOfs)
  let b ← run (blk.b.setValue sj i x)
  set fun q => { q with heap := heapSet q.heap (q.eb.getD 0) (some { blk with b := b }) }
  set fun q => { q with n := (q.n + 1) % 2 ^ 64 }

/-- `enqueue` (src/queue.cpp:33-61) -/
def enqueueX (sj x : BitVec 64) : QM Unit := do
  let a ← roomBackX
  mem (nonNull a)
  storeBackX sj x

/-- src/queue.cpp:72-84: the new block becomes the first one. -/
def linkFrontX (qb : Nat) (b : PackedArray) : QM Unit := do
  let q ← self
  match q.sb with
  | none => do
    set fun q => { q with sb := some qb, eb := some qb }
    set fun q => { q with eOfs := QSIZ - 1 }
    set fun q => { q with heap := heapSet q.heap qb (some ⟨none, none, b⟩) }
  | some s => do
    let blk ← run (q.deref (some s))
    set fun q => { q with heap := heapSet q.heap s (some { blk with prev := some qb }) }
    set fun q => { q with heap := heapSet q.heap qb (some ⟨none, some s, b⟩) }
    set fun q => { q with sb := some qb }

/-- src/queue.cpp:67-87 -/
def roomFrontX : QM Bool := do
  let q ← self
  if q.sOfs = 0 then do
    let a ← requestX q.w
    set fun q => { q with cnt := q.cnt + 1 }
    linkFrontX q.cnt (PackedArray.new QSIZ q.w (q.junk q.cnt))
    set fun q => { q with sOfs := QSIZ }
    pure a
  else pure true

/-- src/queue.cpp:89-90 -/
def storeFrontX (sj x : BitVec 64) : QM Unit := do
  set fun q => { q with sOfs := q.sOfs - 1 }
  let q ← self
  let blk ← run (q.deref q.sb)
  let i ← run (toIdx q.sOfs)
  let b ← run (blk.b.setValue sj i x)
  set fun q => { q with heap := heapSet q.heap (q.sb.getD 0) (some { blk with b := b }) }
  set fun q => { q with n := (q.n + 1) % 2 ^ 64 }

/-- `enqueue_l` (src/queue.cpp:63-91) -/
def enqueueLX (sj x : BitVec 64) : QM Unit := do
  let a ← roomFrontX
  mem (nonNull a)
  storeFrontX sj x

/-- `dequeue` (src/queue.cpp:93-121): requests no memory, so it throws nothing; the members are written at the end. -/
def dequeueX (sj : BitVec 64) : QM Int := fun q h =>
  match q.dequeueH sj h with
  | (.ok (x, q'), h') => (.ok x, q', h')
  | (.error e, h') => (.error e, q, h')

/-! ## The same as `HeapModel.lean` -/

/-- the outcome of a function that returns the new queue, seen as that of a member function: an exception leaves the object
unchanged; after a fault nothing is said about it. Used in proofs only. -/
def Matches (q : Queue) (x : Except HErr Queue × Heap) (y : Except HErr Unit × Queue × Heap) : Prop :=
  match x with
  | (.ok q', h') => y = (.ok (), q', h')
  | (.error .badAlloc, h') => y = (.error .badAlloc, q, h')
  | (.error e, h') => ∃ q', y = (.error e, q', h')

theorem QM.bind_def {α β : Type} (x : QM α) (f : α → QM β) (q : Queue) (h : Heap) : (x >>= f) q h =
    match x q h with
    | (.ok a, q', h') => f a q' h'
    | (.error e, q', h') => (.error e, q', h') := rfl

theorem QM.pure_def {α : Type} (a : α) (q : Queue) (h : Heap) : (pure a : QM α) q h = (.ok a, q, h) := rfl

theorem QM.set_def (f : Queue → Queue) (q : Queue) (h : Heap) : QM.set f q h = (.ok (), f q, h) := rfl

theorem QM.self_def (q : Queue) (h : Heap) : self q h = (.ok q, q, h) := rfl

theorem QM.run_ok {α : Type} (a : α) (q : Queue) (h : Heap) : run (.ok a) q h = (.ok a, q, h) := rfl

theorem QM.run_error {α : Type} (e : Err) (q : Queue) (h : Heap) : (run (.error e) : QM α) q h = (.error (.prog e), q, h) := rfl

/-- the end of `enqueue` in `Queue.lean`. Used in proofs only. -/
def storeBack (sj x : BitVec 64) (q : Queue) : M Queue := do
  let blk ← q.deref q.eb
  let eOfs := q.eOfs + 1
  let i ← toIdx eOfs
  let b ← blk.b.setValue sj i x
  .ok { q with eOfs := eOfs, heap := heapSet q.heap (q.eb.getD 0) (some { blk with b := b }),
               n := (q.n + 1) % 2 ^ 64 }

/-- the end of `enqueue_l` in `Queue.lean`. Used in proofs only. -/
def storeFront (sj x : BitVec 64) (q : Queue) : M Queue := do
  let blk ← q.deref q.sb
  let sOfs := q.sOfs - 1
  let i ← toIdx sOfs
  let b ← blk.b.setValue sj i x
  .ok { q with sOfs := sOfs, heap := heapSet q.heap (q.sb.getD 0) (some { blk with b := b }),
               n := (q.n + 1) % 2 ^ 64 }

theorem deref_eOfs (q : Queue) (v : Int) (p : Option Nat) : ({ q with eOfs := v } : Queue).deref p = q.deref p := rfl
theorem deref_sOfs (q : Queue) (v : Int) (p : Option Nat) : ({ q with sOfs := v } : Queue).deref p = q.deref p := rfl

theorem storeBackX_matches (sj x : BitVec 64) (q0 q : Queue) (h : Heap) :
    Matches q0 (H.lift (storeBack sj x q) h) (storeBackX sj x q h) := by
  unfold storeBackX storeBack
  simp only [QM.bind_def, QM.set_def, QM.self_def, deref_eOfs]
  cases h1 : q.deref q.eb with
  | error e => simp only [QM.run_error]; exact ⟨_, rfl⟩
  | ok blk =>
    simp only [QM.run_ok]
    change Matches q0 (H.lift (toIdx (q.eOfs + 1) >>= _) h) _
    cases h2 : toIdx (q.eOfs + 1) with
    | error e => exact ⟨_, rfl⟩
    | ok i =>
      change Matches q0 (H.lift (blk.b.setValue sj i x >>= _) h) _
      rw [QM.run_ok]
      dsimp only
      cases h3 : blk.b.setValue sj i x with
      | error e => exact ⟨_, rfl⟩
      | ok b => rfl

theorem storeFrontX_matches (sj x : BitVec 64) (q0 q : Queue) (h : Heap) :
    Matches q0 (H.lift (storeFront sj x q) h) (storeFrontX sj x q h) := by
  unfold storeFrontX storeFront
  simp only [QM.bind_def, QM.set_def, QM.self_def, deref_sOfs]
  cases h1 : q.deref q.sb with
  | error e => simp only [QM.run_error]; exact ⟨_, rfl⟩
  | ok blk =>
    simp only [QM.run_ok]
    change Matches q0 (H.lift (toIdx (q.sOfs - 1) >>= _) h) _
    cases h2 : toIdx (q.sOfs - 1) with
    | error e => exact ⟨_, rfl⟩
    | ok i =>
      change Matches q0 (H.lift (blk.b.setValue sj i x >>= _) h) _
      rw [QM.run_ok]
      dsimp only
      cases h3 : blk.b.setValue sj i x with
      | error e => exact ⟨_, rfl⟩
      | ok b => rfl

/-- the heap after a request of a block ended by `std::bad_alloc`. Used in proofs only. -/
def QBad (h h' : Heap) : Prop :=
  h' = (h.got qblockBlk).refused ∧ h.av h.reqs qblockBlk = true ∨ h' = h.refused.refused ∧ h.av h.reqs qblockBlk = false

theorem requestX_run (w : Nat) (q : Queue) (h : Heap) :
    (∃ h', newQBlockH w h = (.ok (), h') ∧ requestX w q h = (.ok true, q, h')) ∨
    (∃ h', newQBlockH w h = (.error .badAlloc, h') ∧ requestX w q h = (.error .badAlloc, q, h') ∧
      QBad h h') ∨
    (∃ h', newQBlockH w h = (.error (.prog (.ub .nullDeref)), h') ∧ requestX w q h = (.error (.prog (.ub .nullDeref)), q, h')) ∨
    (∃ h', newQBlockH w h = (.error (.prog (.ub .nullDeref)), h') ∧ requestX w q h = (.ok false, q, h')) := by
  unfold newQBlockH requestX
  simp only [QM.bind_def, QM.pure_def, H.bind_def, mem, mallocB, newB, nonNull, Role.fam, if_true]
  by_cases c1 : h.av h.reqs qblockBlk = true
  · simp only [c1, if_true]
    by_cases c2 : (h.got qblockBlk).av (h.got qblockBlk).reqs packedBlk = true
    · simp only [c2, if_true]
      by_cases c3 : ((h.got qblockBlk).got packedBlk).av ((h.got qblockBlk).got packedBlk).reqs (wordsBlk QSIZ w) = true
      · simp only [c3, if_true]
        exact Or.inl ⟨_, rfl, rfl⟩
      · simp only [c3, Bool.false_eq_true, if_false, if_true]
        exact Or.inr (Or.inr (Or.inr ⟨_, rfl, rfl⟩))
    · simp only [c2, Bool.false_eq_true, if_false]
      exact Or.inr (Or.inl ⟨_, rfl, rfl, Or.inl ⟨rfl, c1⟩⟩)
  · simp only [c1, Bool.false_eq_true, if_false]
    by_cases c2 : h.refused.av h.refused.reqs packedBlk = true
    · simp only [c2, if_true]
      by_cases c3 : (h.refused.got packedBlk).av (h.refused.got packedBlk).reqs (wordsBlk QSIZ w) = true
      · simp only [c3, if_true, Bool.false_eq_true, if_false]
        exact Or.inr (Or.inr (Or.inl ⟨_, rfl, rfl⟩))
      · simp only [c3, Bool.false_eq_true, if_false]
        exact Or.inr (Or.inr (Or.inl ⟨_, rfl, rfl⟩))
    · simp only [c2, Bool.false_eq_true, if_false]
      exact Or.inr (Or.inl ⟨_, rfl, rfl, Or.inr ⟨rfl, by simpa using c1⟩⟩)

/-- the members after the new block has been linked at the end -/
theorem linkBackX_run {q q1 : Queue} (hc : q.eOfs = QSIZ - 1) (hg : q.growBack = .ok q1) (h : Heap) (a : Bool) : ((do
    set fun q => { q with cnt := q.cnt + 1 }
    linkBackX q.cnt (PackedArray.new QSIZ q.w (q.junk q.cnt))
    set fun q => { q with eOfs := -1 }
    pure a) : QM Bool) q h = (.ok a, q1, h) := by
  unfold growBack at hg
  rw [if_pos hc] at hg
  rw [QM.bind_def, QM.set_def]
  simp only
  rw [QM.bind_def]
  unfold linkBackX
  rw [QM.bind_def, QM.self_def]
  simp only
  cases he : q.eb with
  | none =>
    simp only [he] at hg
    cases hg
    rfl
  | some e =>
    simp only [he] at hg
    cases hd : q.deref (some e) with
    | error y => rw [hd] at hg; cases hg
    | ok blk =>
      rw [hd] at hg
      cases hg
      have e1 : ({ q with eb := some e, cnt := q.cnt + 1 } : Queue).deref (some e) = .ok blk := hd
      have e2 : ({ q with cnt := q.cnt + 1 } : Queue).deref (some e) = .ok blk := hd
      simp only
      rw [QM.bind_def]
      first
      | rw [e2]; rfl
      | rw [e1]; rfl

theorem linkFrontX_run {q q1 : Queue} (hc : q.sOfs = 0) (hg : q.growFront = .ok q1) (h : Heap) (a : Bool) : ((do
    set fun q => { q with cnt := q.cnt + 1 }
    linkFrontX q.cnt (PackedArray.new QSIZ q.w (q.junk q.cnt))
    set fun q => { q with sOfs := QSIZ }
    pure a) : QM Bool) q h = (.ok a, q1, h) := by
  unfold growFront at hg
  rw [if_pos hc] at hg
  rw [QM.bind_def, QM.set_def]
  simp only
  rw [QM.bind_def]
  unfold linkFrontX
  rw [QM.bind_def, QM.self_def]
  simp only
  cases he : q.sb with
  | none =>
    simp only [he] at hg
    cases hg
    rfl
  | some e =>
    simp only [he] at hg
    cases hd : q.deref (some e) with
    | error y => rw [hd] at hg; cases hg
    | ok blk =>
      rw [hd] at hg
      cases hg
      have e1 : ({ q with sb := some e, cnt := q.cnt + 1 } : Queue).deref (some e) = .ok blk := hd
      have e2 : ({ q with cnt := q.cnt + 1 } : Queue).deref (some e) = .ok blk := hd
      simp only
      rw [QM.bind_def]
      first
      | rw [e2]; rfl
      | rw [e1]; rfl

theorem enqueueX_matches (sj x : BitVec 64) (q : Queue) (h : Heap) (ng : ∃ q1, q.growBack = .ok q1) :
    Matches q (q.enqueueH sj x h) (enqueueX sj x q h) := by
  obtain ⟨q1, ng⟩ := ng
  have e0 : q.enqueue sj x = storeBack sj x q1 := by
    unfold enqueue; rw [ng]; rfl
  by_cases hc : q.eOfs = QSIZ - 1
  · have e1 : q.enqueueH sj x = newQBlockH q.w >>= fun _ => H.lift (q.enqueue sj x) := by
      unfold enqueueH whenH; rw [if_pos hc]
    have e2 : roomBackX q h = (requestX q.w >>= fun a => ((do
        set fun q => { q with cnt := q.cnt + 1 }
        linkBackX q.cnt (PackedArray.new QSIZ q.w (q.junk q.cnt))
        set fun q => { q with eOfs := -1 }
        pure a) : QM Bool)) q h := by
      unfold roomBackX
      rw [QM.bind_def]
      simp only [QM.self_def]
      rw [if_pos hc]
    rw [e1, H.bind_def, e0]
    unfold enqueueX
    rw [QM.bind_def, e2, QM.bind_def]
    rcases requestX_run q.w q h with ⟨h', r1, r2⟩ | ⟨h', r1, r2, -⟩ | ⟨h', r1, r2⟩ | ⟨h', r1, r2⟩
    · rw [r1, r2]
      simp only
      rw [linkBackX_run hc ng h' true]
      exact storeBackX_matches sj x q q1 h'
    · rw [r1, r2]; rfl
    · rw [r1, r2]; exact ⟨_, rfl⟩
    · rw [r1, r2]
      simp only
      rw [linkBackX_run hc ng h' false]
      exact ⟨_, rfl⟩
  · have e1 : q.enqueueH sj x h = H.lift (q.enqueue sj x) h := by
      unfold enqueueH whenH; rw [if_neg hc]; rfl
    have e2 : q1 = q := by
      unfold growBack at ng; rw [if_neg hc] at ng; cases ng; rfl
    subst e2
    have e3 : roomBackX q1 h = (.ok true, q1, h) := by
      unfold roomBackX
      rw [QM.bind_def]
      simp only [QM.self_def]
      rw [if_neg hc]
      rfl
    unfold enqueueX
    rw [e1, e0, QM.bind_def, e3]
    exact storeBackX_matches sj x q1 q1 h

theorem enqueueLX_matches (sj x : BitVec 64) (q : Queue) (h : Heap) (ng : ∃ q1, q.growFront = .ok q1) :
    Matches q (q.enqueueLH sj x h) (enqueueLX sj x q h) := by
  obtain ⟨q1, ng⟩ := ng
  have e0 : q.enqueueL sj x = storeFront sj x q1 := by
    unfold enqueueL; rw [ng]; rfl
  by_cases hc : q.sOfs = 0
  · have e1 : q.enqueueLH sj x = newQBlockH q.w >>= fun _ => H.lift (q.enqueueL sj x) := by
      unfold enqueueLH whenH; rw [if_pos hc]
    have e2 : roomFrontX q h = (requestX q.w >>= fun a => ((do
        set fun q => { q with cnt := q.cnt + 1 }
        linkFrontX q.cnt (PackedArray.new QSIZ q.w (q.junk q.cnt))
        set fun q => { q with sOfs := QSIZ }
        pure a) : QM Bool)) q h := by
      unfold roomFrontX
      rw [QM.bind_def]
      simp only [QM.self_def]
      rw [if_pos hc]
    rw [e1, H.bind_def, e0]
    unfold enqueueLX
    rw [QM.bind_def, e2, QM.bind_def]
    rcases requestX_run q.w q h with ⟨h', r1, r2⟩ | ⟨h', r1, r2, -⟩ | ⟨h', r1, r2⟩ | ⟨h', r1, r2⟩
    · rw [r1, r2]
      simp only
      rw [linkFrontX_run hc ng h' true]
      exact storeFrontX_matches sj x q q1 h'
    · rw [r1, r2]; rfl
    · rw [r1, r2]; exact ⟨_, rfl⟩
    · rw [r1, r2]
      simp only
      rw [linkFrontX_run hc ng h' false]
      exact ⟨_, rfl⟩
  · have e1 : q.enqueueLH sj x h = H.lift (q.enqueueL sj x) h := by
      unfold enqueueLH whenH; rw [if_neg hc]; rfl
    have e2 : q1 = q := by
      unfold growFront at ng; rw [if_neg hc] at ng; cases ng; rfl
    subst e2
    have e3 : roomFrontX q1 h = (.ok true, q1, h) := by
      unfold roomFrontX
      rw [QM.bind_def]
      simp only [QM.self_def]
      rw [if_neg hc]
      rfl
    unfold enqueueLX
    rw [e1, e0, QM.bind_def, e3]
    exact storeFrontX_matches sj x q1 q1 h

end Queue
end Flbwt
