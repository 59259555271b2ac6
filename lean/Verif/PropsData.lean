import Verif.Queue

/-!
# Properties C10 – C14, C30 (packed array, queue, bit width)
-/

namespace Flbwt

/-! ## C10, C11, C12 -/

/-- A store: (result of a shift by 64 on the machine at that moment, index, value). -/
abbrev Store := BitVec 64 × Nat × BitVec 64

/-- Perform the stores one after the other. -/
def runStores : PackedArray → List Store → M PackedArray
  | pa, [] => .ok pa
  | pa, (sj, i, v) :: ops => pa.setValue sj i v >>= fun pa => runStores pa ops

/-- Specification: the value stored last at index `i`. -/
def lastStored (i : Nat) : List Store → Option (BitVec 64)
  | [] => none
  | (_, j, v) :: ops => (lastStored i ops).or (if j = i then some v else none)

theorem runStores_spec (ops : List Store) : ∀ (pa : PackedArray), pa.WF →
    (∀ o ∈ ops, o.2.1 < pa.length ∧ o.2.2.toNat < 2 ^ pa.bits) →
    Tot (runStores pa ops) (fun pa' => pa'.WF ∧ pa'.length = pa.length ∧ pa'.bits = pa.bits ∧
      ∀ i, pa'.cell i = (lastStored i ops).getD (pa.cell i)) := by
  induction ops with
  | nil => intro pa w _; simp [runStores, lastStored, w]
  | cons o ops ih =>
    obtain ⟨sj, j, v⟩ := o
    intro pa w h
    simp only [runStores, Tot_bind]
    have h1 := h (sj, j, v) (by simp)
    refine (PackedArray.setValue_tot w sj h1.1 v h1.2).mono ?_
    rintro pa1 ⟨w1, w2, w3, w4, w5⟩
    refine (ih pa1 w1 (fun o ho => by rw [w2, w3]; exact h o (by simp [ho]))).mono ?_
    rintro pa2 ⟨x1, x2, x3, x4⟩
    refine ⟨x1, x2.trans w3, x3.trans w2, fun i => ?_⟩
    rw [x4, lastStored]
    cases lastStored i ops with
    | some y => simp
    | none =>
      by_cases hi : j = i
      · subst hi; simp [w4]
      · simp [hi, w5 i (Ne.symm hi)]

/-- C10: after any sequence of in-range stores of fitting values, no fault has happened and every in-range read
returns the value stored last at that index, or what was there before if nothing was stored. Together with
`bits`/`length` unchanged this also says that a store at one index never changes another. -/
theorem C10_packed_array_is_array (length bits : Nat) (junk : Nat → BitVec 64) (ops : List Store)
    (h1 : 1 ≤ bits) (h2 : bits ≤ 64) (h3 : length * bits < 2 ^ 64)
    (hops : ∀ o ∈ ops, o.2.1 < length ∧ o.2.2.toNat < 2 ^ bits) :
    ∃ pa, runStores (PackedArray.new length bits junk) ops = .ok pa ∧
      ∀ i < length, ∀ sj,
        (∀ v, lastStored i ops = some v → pa.getValue sj i = .ok v) ∧
        (lastStored i ops = none → pa.getValue sj i = (PackedArray.new length bits junk).getValue sj i) := by
  have w := PackedArray.new_wf length bits junk h1 h2 h3
  obtain ⟨pa, e, w', hl, hb, hc⟩ := Tot_iff.1 (runStores_spec ops _ w hops)
  refine ⟨pa, e, fun i hi sj => ?_⟩
  rw [PackedArray.getValue_eq w' sj (by rw [hl]; exact hi), PackedArray.getValue_eq w sj hi, hc i]
  constructor
  · intro v hv; rw [hv]; rfl
  · intro hv; rw [hv]; rfl

example : ∃ pa, runStores (PackedArray.new 3 40 (fun _ => 0xAAAA#64)) [(7, 1, 5), (9, 2, 6), (1, 1, 8)] = .ok pa ∧
    ∀ sj, pa.getValue sj 1 = .ok 8 ∧ pa.getValue sj 2 = .ok 6 := by
  obtain ⟨pa, h, h2⟩ := C10_packed_array_is_array 3 40 (fun _ => 0xAAAA#64) [(7, 1, 5), (9, 2, 6), (1, 1, 8)]
    (by decide) (by decide) (by decide) (by decide)
  exact ⟨pa, h, fun sj => ⟨(h2 1 (by decide) sj).1 8 rfl, (h2 2 (by decide) sj).1 6 rfl⟩⟩

/-- C11: at any time after such a history, an access at any in-range index, reading or writing *any* fitting value,
stays inside the allocation (the model faults otherwise). -/
theorem C11_packed_array_in_bounds (length bits : Nat) (junk : Nat → BitVec 64) (ops : List Store)
    (h1 : 1 ≤ bits) (h2 : bits ≤ 64) (h3 : length * bits < 2 ^ 64)
    (hops : ∀ o ∈ ops, o.2.1 < length ∧ o.2.2.toNat < 2 ^ bits) :
    ∃ pa, runStores (PackedArray.new length bits junk) ops = .ok pa ∧
      ∀ i < length, ∀ sj, (∃ x, pa.getValue sj i = .ok x) ∧
        ∀ v : BitVec 64, v.toNat < 2 ^ bits → ∃ pa', pa.setValue sj i v = .ok pa' := by
  have w := PackedArray.new_wf length bits junk h1 h2 h3
  obtain ⟨pa, e, w', hl, hb, hc⟩ := Tot_iff.1 (runStores_spec ops _ w hops)
  have hl' : pa.length = length := hl
  have hb' : pa.bits = bits := hb
  refine ⟨pa, e, fun i hi sj => ⟨⟨_, PackedArray.getValue_eq w' sj (by omega)⟩, fun v hv => ?_⟩⟩
  obtain ⟨p, hp, _⟩ := Tot_iff.1 (PackedArray.setValue_tot w' sj (by omega : i < pa.length) v (by rw [hb']; exact hv))
  exact ⟨p, hp⟩

example : ∃ pa, runStores (PackedArray.new 10 64 (fun _ => 1#64)) [(0, 9, 5)] = .ok pa ∧
      ∀ i < 10, ∀ sj, (∃ x, pa.getValue sj i = .ok x) ∧
        ∀ v : BitVec 64, v.toNat < 2 ^ 64 → ∃ pa', pa.setValue sj i v = .ok pa' :=
  C11_packed_array_in_bounds 10 64 _ [(0, 9, 5)] (by decide) (by decide) (by decide) (by decide)

/-- C12: two histories storing the same values, on arrays with different initial memory contents and with different
results of the undefined shift at every step, agree on every index stored to. -/
theorem C12_packed_array_junk_independent (length bits : Nat) (junk junk' : Nat → BitVec 64)
    (ops ops' : List Store) (h1 : 1 ≤ bits) (h2 : bits ≤ 64) (h3 : length * bits < 2 ^ 64)
    (hsame : ops.map Prod.snd = ops'.map Prod.snd)
    (hops : ∀ o ∈ ops, o.2.1 < length ∧ o.2.2.toNat < 2 ^ bits) :
    ∃ pa pa', runStores (PackedArray.new length bits junk) ops = .ok pa ∧
      runStores (PackedArray.new length bits junk') ops' = .ok pa' ∧
      ∀ o ∈ ops, ∀ sj sj', pa.getValue sj o.2.1 = pa'.getValue sj' o.2.1 := by
  have w := PackedArray.new_wf length bits junk h1 h2 h3
  have w2 := PackedArray.new_wf length bits junk' h1 h2 h3
  have hops' : ∀ o ∈ ops', o.2.1 < length ∧ o.2.2.toNat < 2 ^ bits := by
    intro o ho
    have : o.2 ∈ ops.map Prod.snd := by rw [hsame]; exact List.mem_map_of_mem ho
    obtain ⟨o', ho', he⟩ := List.mem_map.1 this
    rw [← he]; exact hops o' ho'
  have hlast : ∀ (a b : List Store), a.map Prod.snd = b.map Prod.snd → ∀ i, lastStored i a = lastStored i b := by
    intro a
    induction a with
    | nil => intro b hb i; cases b <;> simp_all
    | cons x a ih =>
      intro b hb i
      cases b with
      | nil => simp at hb
      | cons y b =>
        obtain ⟨s1, j1, v1⟩ := x
        obtain ⟨s2, j2, v2⟩ := y
        simp only [List.map_cons, List.cons.injEq, Prod.mk.injEq] at hb
        obtain ⟨⟨rfl, rfl⟩, hb⟩ := hb
        simp only [lastStored, ih b hb i]
  have hsome : ∀ (a : List Store) (o : Store), o ∈ a → ∃ v, lastStored o.2.1 a = some v := by
    intro a
    induction a with
    | nil => intro o ho; simp at ho
    | cons x a ih =>
      intro o ho
      obtain ⟨s1, j1, v1⟩ := x
      simp only [lastStored]
      cases hl : lastStored o.2.1 a with
      | some v => exact ⟨v, by simp⟩
      | none =>
        rcases List.mem_cons.1 ho with rfl | ho
        · exact ⟨v1, by simp⟩
        · obtain ⟨v, hv⟩ := ih o ho
          rw [hl] at hv; simp at hv
  obtain ⟨pa, e, w', hl, hb, hc⟩ := Tot_iff.1 (runStores_spec ops _ w hops)
  obtain ⟨pa2, e2, w2', hl2, hb2, hc2⟩ := Tot_iff.1 (runStores_spec ops' _ w2 hops')
  refine ⟨pa, pa2, e, e2, fun o ho sj sj' => ?_⟩
  have hlt := (hops o ho).1
  rw [PackedArray.getValue_eq w' sj (by rw [hl]; exact hlt), PackedArray.getValue_eq w2' sj' (by rw [hl2]; exact hlt),
    hc, hc2, ← hlast ops ops' hsame]
  obtain ⟨v, hv⟩ := hsome ops o ho
  rw [hv]; rfl

example : ∃ pa pa', runStores (PackedArray.new 70 32 (fun _ => 0)) [(0, 69, 5)] = .ok pa ∧
      runStores (PackedArray.new 70 32 (fun _ => 99)) [(77, 69, 5)] = .ok pa' ∧
      ∀ o ∈ [((0, 69, 5) : Store)], ∀ sj sj', pa.getValue sj o.2.1 = pa'.getValue sj' o.2.1 :=
  C12_packed_array_junk_independent 70 32 _ _ _ _ (by decide) (by decide) (by decide) rfl (by decide)

/-! ## C13, C14 -/

/-- Operations on a queue, as a client calls them. -/
inductive QOp where
  | enqueue (x : BitVec 64) | enqueueL (x : BitVec 64) | dequeue
  deriving Repr

/-- Specification: effect on the abstract sequence, and the value returned. `none` = not allowed (dequeue on an
empty sequence, or more than 2^64-1 elements). -/
def QOp.spec : QOp → List (BitVec 64) → Option (List (BitVec 64) × List (BitVec 64))
  | .enqueue x, l => if l.length + 1 < 2 ^ 64 then some (l ++ [x], []) else none
  | .enqueueL x, l => if l.length + 1 < 2 ^ 64 then some (x :: l, []) else none
  | .dequeue, [] => none
  | .dequeue, x :: l => some (l, [x])

/-- Specification: run a history on the abstract sequence, collecting what the dequeues return. -/
def QOp.specs : List QOp → List (BitVec 64) → Option (List (BitVec 64) × List (BitVec 64))
  | [], l => some (l, [])
  | o :: os, l => do
    let (l, out) ← o.spec l
    let (l, out') ← QOp.specs os l
    some (l, out ++ out')

/-- Values passed fit the width of the queue. -/
def QOp.fits (w : Nat) : QOp → Prop
  | .enqueue x | .enqueueL x => x.toNat < 2 ^ w
  | .dequeue => True

/-- Run one operation of the code model. -/
def QOp.exec (sj : BitVec 64) : QOp → Queue → M (Queue × List Int)
  | .enqueue x, q => do let q ← q.enqueue sj x; .ok (q, [])
  | .enqueueL x, q => do let q ← q.enqueueL sj x; .ok (q, [])
  | .dequeue, q => do let (x, q) ← q.dequeue sj; .ok (q, [x])

/-- Run a history of the code model. -/
def QOp.execs (sj : BitVec 64) : List QOp → Queue → M (Queue × List Int)
  | [], q => .ok (q, [])
  | o :: os, q => do
    let (q, out) ← o.exec sj q
    let (q, out') ← QOp.execs sj os q
    .ok (q, out ++ out')

theorem execs_spec (sj : BitVec 64) (ops : List QOp) : ∀ (q : Queue) (l : List (BitVec 64)),
    q.Rep (l.map BitVec.toNat) → (∀ o ∈ ops, o.fits q.w) →
    ∀ r, QOp.specs ops l = some r →
    Tot (QOp.execs sj ops q) (fun s => s.1.Rep (r.1.map BitVec.toNat) ∧ s.1.w = q.w ∧ s.2 = r.2.map BitVec.toInt) := by
  induction ops with
  | nil =>
    intro q l hq _ r hr
    simp [QOp.specs] at hr
    subst hr
    simp [QOp.execs, hq]
  | cons o os ih =>
    intro q l hq hf r hr
    simp only [QOp.specs, Option.bind_eq_bind, Option.bind_eq_some_iff] at hr
    obtain ⟨⟨l1, out⟩, h1, ⟨l2, out'⟩, h2, h3⟩ := hr
    simp at h3; subst h3
    simp only [QOp.execs, Tot_bind]
    have hstep : Tot (o.exec sj q) (fun s => s.1.Rep (l1.map BitVec.toNat) ∧ s.1.w = q.w ∧
        s.2 = out.map BitVec.toInt) := by
      have hfo := hf o (by simp)
      cases o with
      | enqueue x =>
        simp only [QOp.spec] at h1
        split at h1
        · simp at h1; obtain ⟨rfl, rfl⟩ := h1
          simp only [QOp.exec, Tot_bind, Tot_ok]
          refine (Queue.enqueue_rep hq sj x hfo (by simpa)).mono ?_
          rintro q' ⟨a, b⟩
          exact ⟨by simpa using a, b, rfl⟩
        · simp at h1
      | enqueueL x =>
        simp only [QOp.spec] at h1
        split at h1
        · simp at h1; obtain ⟨rfl, rfl⟩ := h1
          simp only [QOp.exec, Tot_bind, Tot_ok]
          refine (Queue.enqueueL_rep hq sj x hfo (by simpa)).mono ?_
          rintro q' ⟨a, b⟩
          exact ⟨by simpa using a, b, rfl⟩
        · simp at h1
      | dequeue =>
        cases l with
        | nil => simp [QOp.spec] at h1
        | cons x l =>
          simp [QOp.spec] at h1
          obtain ⟨rfl, rfl⟩ := h1
          simp only [QOp.exec, Tot_bind, Tot_ok]
          refine (Queue.dequeue_rep hq sj).mono ?_
          rintro ⟨v, q'⟩ ⟨a, b, c⟩
          refine ⟨b, c, ?_⟩
          simp at a
          simp [a]
    refine hstep.mono ?_
    rintro ⟨q1, o1⟩ ⟨a, b, c⟩
    simp only at a b c
    refine (ih q1 l1 a (fun o ho => by rw [b]; exact hf o (by simp [ho])) _ h2).mono ?_
    rintro ⟨q2, o2⟩ ⟨d, e, f⟩
    simp only at d e f
    refine ⟨d, e.trans b, ?_⟩
    simp [c, f]

/-- C13: on a new queue of width `w`, every history allowed by the specification runs without fault, the dequeues
return exactly what the abstract double-ended sequence returns, and `is_empty` afterwards tells whether the
abstract sequence is empty. (As every prefix of a history is a history, this covers `is_empty` at every moment.) -/
theorem C13_queue_is_deque (w : Nat) (junk : Nat → Nat → BitVec 64) (sj : BitVec 64) (ops : List QOp)
    (h1 : 1 ≤ w) (h2 : w ≤ 64) (hf : ∀ o ∈ ops, o.fits w) (final outs : List (BitVec 64))
    (hs : QOp.specs ops [] = some (final, outs)) :
    ∃ q ret, QOp.execs sj ops (Queue.new w junk) = .ok (q, ret) ∧ ret = outs.map BitVec.toInt ∧
      (q.isEmpty = true ↔ final = []) := by
  obtain ⟨⟨q, ret⟩, e, a, b, c⟩ := Tot_iff.1
    (execs_spec sj ops (Queue.new w junk) [] (Queue.new_rep w junk h1 h2) hf _ hs)
  refine ⟨q, ret, e, c, ?_⟩
  rw [Queue.isEmpty_rep a]; simp

/-- Values below 2^63 come back as the same number. -/
theorem C13_dequeue_value (x : BitVec 64) (h : x.toNat < 2 ^ 63) : x.toInt = x.toNat := by
  rw [BitVec.toInt_eq_toNat_cond, if_pos (by omega)]

example : ∃ q ret, QOp.execs 5 [.enqueue 3, .enqueueL 4, .dequeue, .enqueue 7, .dequeue] (Queue.new 9 (fun _ _ => 77))
    = .ok (q, ret) ∧ ret = [4#64, 3#64].map BitVec.toInt ∧ (q.isEmpty = true ↔ [7#64] = []) :=
  C13_queue_is_deque 9 _ 5 [.enqueue 3, .enqueueL 4, .dequeue, .enqueue 7, .dequeue] (by decide) (by decide)
    (by intro o ho; simp at ho; rcases ho with rfl | rfl | rfl | rfl | rfl <;> simp [QOp.fits])
    [7] [4, 3] (by simp [QOp.specs, QOp.spec])

/-- C14: in every such history no operation faults (null block, freed block, slot outside a block: each is a fault in
the model), and destroying the queue afterwards terminates, does not fault, and releases every block. -/
theorem C14_queue_memory_safe (w : Nat) (junk : Nat → Nat → BitVec 64) (sj : BitVec 64) (ops : List QOp)
    (h1 : 1 ≤ w) (h2 : w ≤ 64) (hf : ∀ o ∈ ops, o.fits w) (hs : QOp.specs ops [] ≠ none) :
    ∃ q ret, QOp.execs sj ops (Queue.new w junk) = .ok (q, ret) ∧
      ∃ fuel0, ∀ fuel, fuel0 ≤ fuel → ∃ q', q.destroy fuel = .ok q' ∧ ∀ a, q'.heap a = none := by
  obtain ⟨⟨final, outs⟩, hs⟩ := Option.ne_none_iff_exists'.1 hs
  obtain ⟨⟨q, ret⟩, e, a, b, c⟩ := Tot_iff.1
    (execs_spec sj ops (Queue.new w junk) [] (Queue.new_rep w junk h1 h2) hf _ hs)
  refine ⟨q, ret, e, ?_⟩
  obtain ⟨f0, h⟩ := Queue.destroy_rep a
  exact ⟨f0, fun f hf => Tot_iff.1 (h f hf)⟩

example : ∃ q ret, QOp.execs 5 [.enqueue 3, .enqueueL 4, .dequeue] (Queue.new 9 (fun _ _ => 77)) = .ok (q, ret) ∧
      ∃ fuel0, ∀ fuel, fuel0 ≤ fuel → ∃ q', q.destroy fuel = .ok q' ∧ ∀ a, q'.heap a = none :=
  C14_queue_memory_safe 9 _ 5 [.enqueue 3, .enqueueL 4, .dequeue] (by decide) (by decide)
    (by intro o ho; simp at ho; rcases ho with rfl | rfl | rfl <;> simp [QOp.fits])
    (by simp [QOp.specs, QOp.spec])

/-! ## C30 -/

/-- C30 -/
theorem C30_position_of_msb (n : Nat) (h0 : n ≠ 0) (h : n < 2 ^ 64) :
    ∃ b, positionOfMsb n = .ok b ∧ 1 ≤ b ∧ b ≤ 64 ∧ 2 ^ (b - 1) ≤ n ∧ n < 2 ^ b :=
  Tot_iff.1 (positionOfMsb_spec n h0 h)

example : ∃ b, positionOfMsb 1000 = .ok b ∧ 1 ≤ b ∧ b ≤ 64 ∧ 2 ^ (b - 1) ≤ 1000 ∧ 1000 < 2 ^ b :=
  C30_position_of_msb 1000 (by decide) (by decide)

end Flbwt
