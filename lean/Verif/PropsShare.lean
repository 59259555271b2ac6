import Verif.PropsTableHeap
import Verif.PropsData

/-!
# C88: copies of the objects share their memory

include/packed_array.hpp, include/queue.hpp and include/hashtable.hpp declare a destructor but neither a copy constructor nor an
assignment operator: a copy has the same members, hence the same pointers.
-/

namespace Flbwt

open HashTable (TOp TOut)

/-- A copy `c` of a queue, seen after memory was changed through the other object `q`: its own members, the memory of `q`.
The implicit copy constructor of `Queue`, include/queue.hpp:22-72. -/
def Queue.sharing (c q : Queue) : Queue := { c with heap := q.heap, cnt := q.cnt }

theorem Queue.sb_of_cons {q : Queue} {x : Nat} {l : List Nat} (h : q.Rep (x :: l)) : ∃ a, q.sb = some a := by
  obtain ⟨ids, bs, lo, hi, r, _, h0, _, hl⟩ := h
  cases hids : ids with
  | nil =>
    obtain ⟨e1, e2, _⟩ := h0 hids
    subst e1 e2
    cases hl
  | cons a t => exact ⟨a, by rw [r.sb, hids]; rfl⟩

/-- C88, `Queue`: after any history that leaves elements in the queue, the queue is copied and one of the two objects is
destroyed (a copy passed by value to a function, for example). Then the other one is unusable: `is_empty` answers false, `dequeue`
reads released memory, and so does its destructor, which is certain to run. -/
theorem C88_queue_copy (w : Nat) (junk : Nat → Nat → BitVec 64) (sj : BitVec 64) (ops : List QOp)
    (h1 : 1 ≤ w) (h2 : w ≤ 64) (hf : ∀ o ∈ ops, o.fits w) (final outs : List (BitVec 64))
    (hs : QOp.specs ops [] = some (final, outs)) (hne : final ≠ []) :
    ∃ q ret, QOp.execs sj ops (Queue.new w junk) = .ok (q, ret) ∧
      ∃ fuel0, ∀ fuel, fuel0 ≤ fuel → ∃ q', q.destroy fuel = .ok q' ∧
        (q.sharing q').isEmpty = false ∧
        (q.sharing q').dequeue sj = .error (.ub .nullDeref) ∧
        ∀ fuel', 1 ≤ fuel' → (q.sharing q').destroy fuel' = .error (.ub .nullDeref) := by
  obtain ⟨⟨q, ret⟩, e, a, b, c⟩ := Tot_iff.1
    (execs_spec sj ops (Queue.new w junk) [] (Queue.new_rep w junk h1 h2) hf _ hs)
  refine ⟨q, ret, e, ?_⟩
  dsimp only at a
  obtain ⟨f0, h⟩ := Queue.destroy_rep a
  refine ⟨f0, fun f hf => ?_⟩
  obtain ⟨q', e1, e2⟩ := Tot_iff.1 (h f hf)
  cases final with
  | nil => exact absurd rfl hne
  | cons x l =>
    obtain ⟨p, hp⟩ := Queue.sb_of_cons a
    have hd : (q.sharing q').deref (some p) = .error (.ub .nullDeref) := by
      show (match q'.heap p with
        | none => .error (.ub .nullDeref)
        | some b => .ok b : M QBlock) = _
      rw [e2]
    have hsb : (q.sharing q').sb = some p := hp
    refine ⟨q', e1, ?_, ?_, ?_⟩
    · have : ¬ q.isEmpty = true := fun hh => by
        have := (Queue.isEmpty_rep a).1 hh
        cases this
      show q.isEmpty = false
      simpa using this
    · unfold Queue.dequeue
      rw [hsb, hd]
      rfl
    · intro fuel' hf'
      cases fuel' with
      | zero => omega
      | succ k =>
        unfold Queue.destroy
        rw [whileM]
        simp only [hsb]
        rw [hd]
        rfl

/-- `{ PackedArray a(length, bits); PackedArray b = a; }`: the constructor requests the words (src/packed_array.cpp:6-16), both
destructors release them (src/packed_array.cpp:88-91; `free(NULL)` does nothing). -/
def packedCopied (length bits : Nat) : H Unit := do
  let a ← mallocB (wordsBlk length bits)
  whenH (a = true) (freeB .c (wordsBlk length bits))
  whenH (a = true) (freeB .c (wordsBlk length bits))

/-- C88, `PackedArray`: whatever the length and the width, in a program that has no other block like the words of the array: if
they are granted they are released twice. -/
theorem C88_packed_copy (length bits : Nat) (h : Heap) (h0 : h.live (wordsBlk length bits) = 0)
    (hav : h.av h.reqs (wordsBlk length bits) = true) :
    ∃ h', packedCopied length bits h = (.error .badFree, h') := by
  have e1 : freeB .c (wordsBlk length bits) (h.got (wordsBlk length bits)) = (.ok (), (h.got (wordsBlk length bits)).sub (wordsBlk length bits)) := by
    unfold freeB
    rw [if_pos (by rfl), if_pos (by simp [Heap.got, Heap.add])]
  have e2 : freeB .c (wordsBlk length bits) ((h.got (wordsBlk length bits)).sub (wordsBlk length bits)) =
      (.error .badFree, (h.got (wordsBlk length bits)).sub (wordsBlk length bits)) := by
    unfold freeB
    rw [if_pos (by rfl), if_neg]
    simp [Heap.sub, Heap.got, Heap.add, h0]
  refine ⟨(h.got (wordsBlk length bits)).sub (wordsBlk length bits), ?_⟩
  unfold packedCopied
  rw [H.bind_def]
  have e0 : mallocB (wordsBlk length bits) h = (.ok true, h.got (wordsBlk length bits)) := by
    unfold mallocB
    rw [if_pos (by rfl), if_pos hav]
  rw [e0]
  dsimp only
  rw [H.bind_def]
  unfold whenH
  rw [if_pos (by rfl), e1]
  dsimp only
  rw [e2]

/-- a table is created, used, copied; both objects are destroyed (src/hashtable.cpp:344-353). The copy has the same pointers. -/
def tableCopied (size n : Nat) (junk : Fresh) (arr : Mem Nat) (ops : List TOp) : H (List TOut) := do
  let ht ← newTableH size n
  let r ← TOp.execsH junk arr ht ops
  deleteTableH r.1
  deleteTableH r.1
  pure r.2

/-- C88, `HashTable`: for every size and every history of calls, in a program that has no other block like the array `rest`: if
no request is refused the memory of the table is released twice. -/
theorem C88_table_copy (size n : Nat) (hz : 0 < size) (hn : n < 2 ^ 64) (junk : Fresh) (arr : Mem Nat)
    (ops : List TOp) (hok : ∀ op ∈ ops, op.okFor junk n) (hmem : junk.Room (TOp.need ops)) (harr : TOp.inserts ops ≤ arr.size) (h : Heap)
    (hav : ∀ k b, h.av k b = true) (h0 : h.live (restBlk size) = 0) :
    ∃ h', tableCopied size n junk arr ops h = (.error .badFree, h') := by
  have hlife := C87_table_life size n hz hn junk arr ops hok hmem harr h
  have hs : ∀ ht r h1 h2, newTableH size n h = (.ok ht, h1) → TOp.execsH junk arr ht ops h1 = (.ok r, h2) → r.1.htsize = size := by
    intro ht r h1 h2 e1 e2
    have hp := newTableH_post (R := fun _ => True) (k := size) (n := n) (P := h.peak) (fun _ _ => trivial) (Has.nil h) (Nat.le_refl _)
    rw [e1] at hp
    have hp2 := execsH_post (R := fun _ => True) (junk := junk) (arr := arr) (fun _ _ => trivial) ops hp.2.2.2.1
    rw [e2] at hp2
    exact hp2.2.2.2.size
  have bad : ∀ {p : Prop}, (∃ k b, h.av k b = false) → p := fun ⟨k, b, e⟩ => by rw [hav] at e; cases e
  unfold tableLife at hlife
  unfold tableCopied
  rw [H.bind_def] at hlife ⊢
  cases e1 : newTableH size n h with
  | mk z h1 =>
    rw [e1] at hlife
    cases z with
    | error e => cases e <;> exact bad hlife.2.1
    | ok ht =>
      dsimp only at hlife ⊢
      rw [H.bind_def] at hlife ⊢
      cases e2 : TOp.execsH junk arr ht ops h1 with
      | mk z h2 =>
        rw [e2] at hlife
        cases z with
        | error e => cases e <;> exact bad hlife.2.1
        | ok r =>
          dsimp only at hlife ⊢
          rw [H.bind_def] at hlife ⊢
          have hsz := hs ht r h1 h2 e1 e2
          cases e3 : deleteTableH r.1 h2 with
          | mk z h3 =>
            rw [e3] at hlife
            cases z with
            | error e => cases e <;> exact bad hlife.2.1
            | ok u =>
              dsimp only at hlife ⊢
              have hl : h3.live (restBlk size) = 0 := by rw [hlife.2.1, h0]
              refine ⟨h3, ?_⟩
              rw [H.bind_def]
              have e4 : deleteTableH r.1 h3 = (.error .badFree, h3) := by
                unfold deleteTableH
                rw [H.bind_def, hsz]
                unfold freeB
                rw [if_pos (by rfl), if_neg (by omega)]
              rw [e4]

/-- The hypotheses are met. -/
example : ∃ q ret, QOp.execs 5 [.enqueue 3, .enqueueL 4, .dequeue] (Queue.new 9 (fun _ _ => 77)) = .ok (q, ret) ∧
      ∃ fuel0, ∀ fuel, fuel0 ≤ fuel → ∃ q', q.destroy fuel = .ok q' ∧
        (q.sharing q').isEmpty = false ∧
        (q.sharing q').dequeue 5 = .error (.ub .nullDeref) ∧
        ∀ fuel', 1 ≤ fuel' → (q.sharing q').destroy fuel' = .error (.ub .nullDeref) :=
  C88_queue_copy 9 _ 5 [.enqueue 3, .enqueueL 4, .dequeue] (by decide) (by decide)
    (by intro o ho; simp at ho; rcases ho with rfl | rfl | rfl <;> simp [QOp.fits]) [3] [4] (by simp [QOp.specs, QOp.spec]) (by simp)

example : ∃ h', packedCopied 1000 13 ⟨fun _ _ => true, 0, 0, fun _ => 0, 0, 0⟩ = (.error .badFree, h') :=
  C88_packed_copy 1000 13 _ rfl rfl

example : ∃ h', tableCopied 67777 20 ⟨fun _ => 255, 3000⟩ ⟨2, fun _ => 0⟩ [TOp.insert [1, 2, 3], .find [9]]
    ⟨fun _ _ => true, 0, 0, fun _ => 0, 0, 0⟩ = (.error .badFree, h') :=
  C88_table_copy 67777 20 (by decide) (by decide) _ _ _ (by
      intro op hop
      simp only [List.mem_cons, List.not_mem_nil, or_false] at hop
      rcases hop with rfl | rfl <;> simp [HashTable.TOp.okFor]) (by decide) (by decide) _ (fun _ _ => rfl) rfl

end Flbwt
