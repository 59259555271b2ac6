import Verif.Packed

/-!
# Model of `src/queue.cpp`, `include/queue.hpp`
-/

namespace Flbwt

/-- `#define QSIZ 1024` (include/queue.hpp:17) -/
abbrev QSIZ : Nat := 1024

/-- `struct qblock` (include/queue.hpp:10-15); pointers are heap addresses. -/
structure QBlock where
  prev : Option Nat
  next : Option Nat
  b : PackedArray

/-- Infrastructure: models no code. -/
instance : Inhabited PackedArray := ⟨⟨⟨0, fun _ => 0⟩, 0, 0⟩⟩

/-- `class Queue` (include/queue.hpp:22-72). `heap` is the part of the heap holding this queue's blocks
(`none` = not allocated / freed), `cnt` the number of blocks allocated so far (addresses are never reused in the
model), `junk k` the contents `malloc` returned for the words of the `k`-th block. The unused field
`max_value` is omitted. -/
structure Queue where
  n : Nat
  w : Nat
  sb : Option Nat
  eb : Option Nat
  sOfs : Int
  eOfs : Int
  heap : Nat → Option QBlock
  cnt : Nat
  junk : Nat → Nat → BitVec 64

namespace Queue

/-- Constructor (src/queue.cpp:6-14). -/
def new (w : Nat) (junk : Nat → Nat → BitVec 64) : Queue :=
  { n := 0, w := w, sb := none, eb := none, sOfs := 0, eOfs := QSIZ - 1,
    heap := fun _ => none, cnt := 0, junk := junk }

/-- `*p` for a `qblock *`. Every `->` on a block in src/queue.cpp:33-121. -/
def deref (q : Queue) (p : Option Nat) : M QBlock :=
  match p with
  | none => .error (.ub .nullDeref)
  | some a =>
    match q.heap a with
    | none => .error (.ub .nullDeref)
    | some b => .ok b

/-- A store to a field of a block, src/queue.cpp:33-121. -/
def heapSet (h : Nat → Option QBlock) (a : Nat) (b : Option QBlock) : Nat → Option QBlock :=
  fun x => if x = a then b else h x

/-- array index from an `int64_t`. The arguments of `set_value`/`get_value` in src/queue.cpp:59, 89, 97. -/
def toIdx (i : Int) : M Nat := if 0 ≤ i then .ok i.toNat else .error (.ub .outOfBounds)

/-- the allocation branch of `enqueue` (src/queue.cpp:37-57) -/
def growBack (q : Queue) : M Queue :=
  if q.eOfs = QSIZ - 1 then
    let a := q.cnt
    let b := PackedArray.new QSIZ q.w (q.junk q.cnt)
    match q.eb with
    | none =>
      .ok { q with sb := some a, eb := some a, sOfs := 0, eOfs := -1, cnt := q.cnt + 1,
                   heap := heapSet q.heap a (some ⟨none, none, b⟩) }
    | some e => do
      let blk ← q.deref (some e)
      .ok { q with eb := some a, eOfs := -1, cnt := q.cnt + 1,
                   heap := heapSet (heapSet q.heap e (some { blk with next := some a })) a
                     (some ⟨some e, none, b⟩) }
  else .ok q

/-- `enqueue` (src/queue.cpp:33-61) -/
def enqueue (sj : BitVec 64) (q : Queue) (x : BitVec 64) : M Queue := do
  let q ← q.growBack
  let blk ← q.deref q.eb
  let eOfs := q.eOfs + 1
  let i ← toIdx eOfs
  let b ← blk.b.setValue sj i x
  .ok { q with eOfs := eOfs, heap := heapSet q.heap (q.eb.getD 0) (some { blk with b := b }),
               n := (q.n + 1) % 2 ^ 64 }

/-- the allocation branch of `enqueue_l` (src/queue.cpp:67-87) -/
def growFront (q : Queue) : M Queue :=
  if q.sOfs = 0 then
    let a := q.cnt
    let b := PackedArray.new QSIZ q.w (q.junk q.cnt)
    match q.sb with
    | none =>
      .ok { q with sb := some a, eb := some a, sOfs := QSIZ, eOfs := QSIZ - 1, cnt := q.cnt + 1,
                   heap := heapSet q.heap a (some ⟨none, none, b⟩) }
    | some s => do
      let blk ← q.deref (some s)
      .ok { q with sb := some a, sOfs := QSIZ, cnt := q.cnt + 1,
                   heap := heapSet (heapSet q.heap s (some { blk with prev := some a })) a
                     (some ⟨none, some s, b⟩) }
  else .ok q

/-- `enqueue_l` (src/queue.cpp:63-91) -/
def enqueueL (sj : BitVec 64) (q : Queue) (x : BitVec 64) : M Queue := do
  let q ← q.growFront
  let blk ← q.deref q.sb
  let sOfs := q.sOfs - 1
  let i ← toIdx sOfs
  let b ← blk.b.setValue sj i x
  .ok { q with sOfs := sOfs, heap := heapSet q.heap (q.sb.getD 0) (some { blk with b := b }),
               n := (q.n + 1) % 2 ^ 64 }

/-- `--n` on a `uint64_t` (src/queue.cpp:119) -/
def decU64 (n : Nat) : Nat := if n = 0 then 2 ^ 64 - 1 else n - 1

theorem decU64_eq {n : Nat} (h : 1 ≤ n) : decU64 n = n - 1 := by
  unfold decU64
  rw [if_neg (by omega)]

/-- `dequeue` (src/queue.cpp:93-121). `uint64_t n` wraps when decremented below zero. -/
def dequeue (sj : BitVec 64) (q : Queue) : M (Int × Queue) := do
  let blk ← q.deref q.sb
  let i ← toIdx q.sOfs
  let v ← blk.b.getValue sj i
  let x := v.toInt
  let sOfs := q.sOfs + 1
  let q := { q with sOfs := sOfs, n := decU64 q.n }
  if sOfs = QSIZ then
    let heap := heapSet q.heap (q.sb.getD 0) none
    match blk.next with
    | none =>
      .ok (x, { q with sb := none, heap := heap, eb := none, eOfs := QSIZ - 1, sOfs := 0 })
    | some s => do
      let nb ← ({ q with heap := heap }).deref (some s)
      .ok (x, { q with sb := some s, heap := heapSet heap s (some { nb with prev := none }),
                       sOfs := 0 })
  else .ok (x, q)

/-- `is_empty` (src/queue.cpp:123-126) -/
def isEmpty (q : Queue) : Bool := q.n == 0

/-- Destructor (src/queue.cpp:16-31): walk along `next`, freeing every block. -/
def destroy (fuel : Nat) (q : Queue) : M Queue :=
  whileM fuel q fun q =>
    match q.sb with
    | none => .ok (.inr q)
    | some a => do
      let blk ← q.deref (some a)
      .ok (.inl { q with sb := blk.next, heap := heapSet q.heap a none })

/-! ## Representation invariant -/

/-- The blocks in `bs` are linked from the address list `ids`. Used in proofs only. -/
def Chain (heap : Nat → Option QBlock) (ids : List Nat) (bs : List PackedArray) : Prop :=
  ids.length = bs.length ∧
  ∀ (k a : Nat) (b : PackedArray), ids[k]? = some a → bs[k]? = some b → ∃ p, heap a = some ⟨p, ids[k+1]?, b⟩

/-- value of slot `t` of the block sequence. Used in proofs only. -/
def slot (bs : List PackedArray) (t : Nat) : Nat :=
  ((bs.getD (t / 1024) default).cell (t % 1024)).toNat

/-- Raw invariant, also holding in the middle of an operation: `lo`,`hi` = used slots `[lo, hi)`. Used in proofs only. -/
structure Raw (q : Queue) (ids : List Nat) (bs : List PackedArray) (lo hi : Nat) : Prop where
  chain : Chain q.heap ids bs
  nodup : ids.Nodup
  fresh : ∀ a ∈ ids, a < q.cnt
  dead : ∀ a, a ∉ ids → q.heap a = none
  sb : q.sb = ids.head?
  eb : q.eb = ids.getLast?
  wf : ∀ b ∈ bs, b.WF ∧ b.bits = q.w ∧ b.length = 1024
  w1 : 1 ≤ q.w
  w2 : q.w ≤ 64
  cntn : q.n = hi - lo
  ord : lo ≤ hi
  sofs : q.sOfs = lo
  eofs : ids ≠ [] → q.eOfs = (hi : Int) - 1 - (1024 * (ids.length - 1 : Nat) : Nat)
  nov : q.n < 2 ^ 64

/-- `q` represents the sequence `l`. Used in proofs only. -/
def Rep (q : Queue) (l : List Nat) : Prop :=
  ∃ ids bs lo hi, Raw q ids bs lo hi ∧ lo ≤ 1023 ∧
    (ids = [] → lo = 0 ∧ hi = 0 ∧ q.eOfs = 1023) ∧
    (ids ≠ [] → hi ≤ 1024 * ids.length ∧ 1024 * (ids.length - 1) < hi) ∧
    l = (List.range' lo (hi - lo)).map (slot bs)

theorem new_rep (w : Nat) (junk : Nat → Nat → BitVec 64) (h1 : 1 ≤ w) (h2 : w ≤ 64) :
    Rep (new w junk) [] := by
  refine ⟨[], [], 0, 0, ⟨⟨rfl, by simp⟩, by simp, by simp, by simp [new], rfl, rfl, by simp, h1, h2, rfl,
    by simp, rfl, by simp, by simp [new]⟩, by simp, ?_, by simp, rfl⟩
  simp [new]

theorem slot_set (bs : List PackedArray) (k i : Nat) (b b' : PackedArray) (hb : bs[k]? = some b)
    (hi : i < 1024) (v : BitVec 64) (hv : b'.cell i = v)
    (ho : ∀ j, j < 1024 → j ≠ i → b'.cell j = b.cell j) (t : Nat) :
    slot (bs.set k b') t = if t = 1024 * k + i then v.toNat else slot bs t := by
  have hk : k < bs.length := (List.getElem?_eq_some_iff.1 hb).1
  unfold slot
  by_cases h : t / 1024 = k
  · subst h
    have e1 : (bs.set (t / 1024) b').getD (t / 1024) default = b' := by
      simp [List.getD, hk]
    have e2 : bs.getD (t / 1024) default = b := by simp [List.getD, hb]
    rw [e1, e2]
    by_cases h2 : t % 1024 = i
    · rw [if_pos (by omega), h2, hv]
    · rw [if_neg (by omega), ho _ (by omega) h2]
  · rw [if_neg (by omega)]
    rw [List.getD, List.getD, List.getElem?_set_ne (Ne.symm h)]

theorem slot_append (bs : List PackedArray) (b : PackedArray) (t : Nat) (h : t < 1024 * bs.length) :
    slot (bs ++ [b]) t = slot bs t := by
  unfold slot
  rw [List.getD, List.getD, List.getElem?_append_left (by omega)]

theorem slot_cons (bs : List PackedArray) (b : PackedArray) (t : Nat) :
    slot (b :: bs) (t + 1024) = slot bs t := by
  unfold slot
  rw [show (t + 1024) / 1024 = t / 1024 + 1 by omega, show (t + 1024) % 1024 = t % 1024 by omega]
  simp [List.getD]

theorem Chain.set {heap : Nat → Option QBlock} {ids : List Nat} {bs : List PackedArray}
    (h : Chain heap ids bs) (hn : ids.Nodup) {k a : Nat} (ha : ids[k]? = some a) (blk : QBlock)
    (hb : heap a = some blk) (b' : PackedArray) :
    Chain (heapSet heap a (some { blk with b := b' })) ids (bs.set k b') := by
  refine ⟨by simpa using h.1, ?_⟩
  intro j a' b hj hbj
  by_cases hjk : j = k
  · subst hjk
    obtain rfl : a' = a := by rw [ha] at hj; exact (Option.some.inj hj).symm
    have hlt : j < bs.length := by
      rw [← h.1]; exact (List.getElem?_eq_some_iff.1 ha).1
    obtain ⟨b0, hb0⟩ : ∃ b0, bs[j]? = some b0 := ⟨bs[j], by simp [hlt]⟩
    obtain ⟨p, hp⟩ := h.2 j a' b0 ha hb0
    rw [hb] at hp
    have := Option.some.inj hp
    subst this
    refine ⟨p, ?_⟩
    simp [heapSet]
    simp [hlt] at hbj
    exact hbj
  · have hne : a' ≠ a := by
      intro he; subst he
      obtain ⟨h1, h2⟩ := List.getElem?_eq_some_iff.1 hj
      obtain ⟨h3, h4⟩ := List.getElem?_eq_some_iff.1 ha
      exact hjk ((List.getElem_inj hn).1 (h2.trans h4.symm))
    rw [List.getElem?_set_ne (Ne.symm hjk)] at hbj
    obtain ⟨p, hp⟩ := h.2 j a' b hj hbj
    exact ⟨p, by simp [heapSet, hne, hp]⟩

theorem Raw.deref {q : Queue} {ids bs lo hi} (h : Raw q ids bs lo hi) {k a : Nat}
    (ha : ids[k]? = some a) :
    ∃ b p, bs[k]? = some b ∧ q.heap a = some ⟨p, ids[k+1]?, b⟩ ∧ b.WF ∧ b.bits = q.w ∧ b.length = 1024 := by
  have hlt : k < bs.length := by
    rw [← h.chain.1]; exact (List.getElem?_eq_some_iff.1 ha).1
  have hb : bs[k]? = some bs[k] := by simp [hlt]
  obtain ⟨p, hp⟩ := h.chain.2 k a _ ha hb
  exact ⟨bs[k], p, hb, hp, h.wf _ (List.getElem_mem hlt)⟩

/-- After the allocation branch there is a free slot behind the last element. -/
theorem growBack_raw {q : Queue} {l : List Nat} (h : Rep q l) :
    Tot q.growBack (fun q' => q'.w = q.w ∧ ∃ ids bs lo hi, Raw q' ids bs lo hi ∧ ids ≠ [] ∧ lo ≤ 1023 ∧
      hi < 1024 * ids.length ∧ 1024 * (ids.length - 1) ≤ hi ∧ l = (List.range' lo (hi - lo)).map (slot bs)) := by
  obtain ⟨ids, bs, lo, hi, r, hlo, he, hne, hl⟩ := h
  unfold growBack
  split
  · rename_i h1
    cases hid : q.eb with
    | none =>
      have hids : ids = [] := by simpa [r.eb] using hid
      obtain ⟨h2, h3, h4⟩ := he hids
      subst h2 h3 hids
      have hbs : bs = [] := by simpa using r.chain.1.symm
      subst hbs
      simp only [Tot_ok]
      refine ⟨trivial, [q.cnt], [PackedArray.new QSIZ q.w (q.junk q.cnt)], 0, 0, ⟨⟨rfl, ?_⟩, by simp, by simp, ?_,
        rfl, rfl, ?_, r.w1, r.w2, by simp [r.cntn], by simp, rfl, by simp, r.nov⟩, by simp, by simp, by simp,
        by simp, by simpa using hl⟩
      · intro k a b hk hb
        cases k with
        | zero => simp at hk hb; subst hk hb; exact ⟨none, by simp [heapSet]⟩
        | succ k => simp at hk
      · intro a ha
        simp at ha
        simp [heapSet, ha]
        exact r.dead a (by simp)
      · intro b hb
        simp at hb; subst hb
        exact ⟨PackedArray.new_wf _ _ _ r.w1 r.w2 (by have := r.w2; simp only [QSIZ]; omega), rfl, rfl⟩
    | some e =>
      have hids : ids ≠ [] := by rintro rfl; simp [r.eb] at hid
      obtain ⟨h2, h3⟩ := hne hids
      have hlen : 0 < ids.length := List.length_pos_iff.2 hids
      have hk : ids[ids.length - 1]? = some e := by
        rw [← List.getLast?_eq_getElem?, ← r.eb, hid]
      obtain ⟨b, p, hb, hp, _⟩ := r.deref hk
      have hd : q.deref (some e) = .ok ⟨p, ids[ids.length - 1 + 1]?, b⟩ := by simp [Queue.deref, hp]
      simp only [hd, Tot_bind, Tot_ok]
      have hhi : hi = 1024 * ids.length := by
        have := r.eofs hids
        rw [h1] at this
        simp only [QSIZ] at this
        omega
      have hcnt : q.cnt ∉ ids := fun hm => by have := r.fresh _ hm; omega
      have hecnt : e ≠ q.cnt := by
        rintro rfl; exact hcnt (List.mem_of_getElem? hk)
      have hbl := r.chain.1
      refine ⟨trivial, ids ++ [q.cnt], bs ++ [PackedArray.new QSIZ q.w (q.junk q.cnt)], lo, hi, ⟨⟨?_, ?_⟩, ?_, ?_,
        ?_, ?_, ?_, ?_, r.w1, r.w2, r.cntn, r.ord, r.sofs, ?_, r.nov⟩, by simp, hlo, ?_, ?_, ?_⟩
      · simp [r.chain.1]
      · intro k a b' hk' hb'
        by_cases hkl : k < ids.length
        · rw [List.getElem?_append_left hkl] at hk'
          rw [List.getElem?_append_left (by omega)] at hb'
          have hac : a ≠ q.cnt := by rintro rfl; exact hcnt (List.mem_of_getElem? hk')
          by_cases hke : k = ids.length - 1
          · subst hke
            obtain rfl : e = a := by rw [hk] at hk'; exact Option.some.inj hk'
            obtain rfl : b = b' := by rw [hb] at hb'; exact Option.some.inj hb'
            refine ⟨p, ?_⟩
            simp [heapSet, hac]
            rw [show ids.length - 1 + 1 = ids.length by omega]
            simp
          · obtain ⟨p', hp'⟩ := r.chain.2 k a b' hk' hb'
            have hae : a ≠ e := by
              rintro rfl
              obtain ⟨h5, h6⟩ := List.getElem?_eq_some_iff.1 hk
              obtain ⟨h7, h8⟩ := List.getElem?_eq_some_iff.1 hk'
              exact hke ((List.getElem_inj r.nodup).1 (h8.trans h6.symm))
            refine ⟨p', ?_⟩
            simp [heapSet, hac, hae, hp']
            rw [List.getElem?_append_left (by omega)]
        · have : k = ids.length := by
            have := (List.getElem?_eq_some_iff.1 hk').1
            simp at this; omega
          subst this
          simp at hk'
          rw [show ids.length = bs.length from hbl] at hb'
          simp at hb'
          subst hk' hb'
          exact ⟨some e, by simp [heapSet]⟩
      · rw [List.nodup_append]
        refine ⟨r.nodup, by simp, ?_⟩
        intro a ha b' hb' heq
        simp at hb'; subst hb' heq; exact hcnt ha
      · intro a ha
        simp at ha
        rcases ha with ha | ha
        · have := r.fresh a ha; show a < q.cnt + 1; omega
        · show a < q.cnt + 1; omega
      · intro a ha
        simp at ha
        have hae : a ≠ e := by rintro rfl; exact ha.1 (List.mem_of_getElem? hk)
        simp [heapSet, ha.2, hae, r.dead a ha.1]
      · rw [show ({ q with eb := some q.cnt, eOfs := -1, cnt := q.cnt + 1, heap := _ } : Queue).sb = q.sb from rfl, r.sb]
        rw [List.head?_append]
        cases ids <;> simp_all
      · simp
      · intro b' hb'
        simp at hb'
        rcases hb' with hb' | hb'
        · exact r.wf _ hb'
        · subst hb'
          exact ⟨PackedArray.new_wf _ _ _ r.w1 r.w2 (by have := r.w2; simp only [QSIZ]; omega), rfl, rfl⟩
      · intro _
        simp
        rw [hhi]; simp; omega
      · simp; omega
      · simp; omega
      · rw [hl]
        apply List.map_congr_left
        intro t ht
        rw [slot_append]
        have := List.mem_range'_1.1 ht
        have := r.ord
        omega
  · rename_i h1
    rw [Tot_ok]
    have hids : ids ≠ [] := by
      intro h; exact h1 (by simpa [QSIZ] using (he h).2.2)
    obtain ⟨h2, h3⟩ := hne hids
    refine ⟨rfl, ids, bs, lo, hi, r, hids, hlo, ?_, by omega, hl⟩
    have := r.eofs hids
    have : 0 < ids.length := List.length_pos_iff.2 hids
    have h4 : ¬ hi = 1024 * ids.length := by
      intro h5; apply h1; rw [r.eofs hids]; simp only [QSIZ]; omega
    omega

theorem enqueue_rep {q : Queue} {l : List Nat} (h : Rep q l) (sj x : BitVec 64)
    (hx : x.toNat < 2 ^ q.w) (hn : l.length + 1 < 2 ^ 64) :
    Tot (q.enqueue sj x) (fun q' => Rep q' (l ++ [x.toNat]) ∧ q'.w = q.w) := by
  unfold enqueue
  rw [Tot_bind]
  refine (growBack_raw h).mono ?_
  rintro q1 ⟨hw, ids, bs, lo, hi, r, hids, hlo, hhi, hhi2, hl⟩
  have hlen : 0 < ids.length := List.length_pos_iff.2 hids
  have hbl := r.chain.1
  obtain ⟨e, hk⟩ : ∃ e, ids[ids.length - 1]? = some e := ⟨ids[ids.length-1], by simp⟩
  have heb : q1.eb = some e := by rw [r.eb, List.getLast?_eq_getElem?, hk]
  obtain ⟨b, p, hb, hp, bwf, bbits, blen⟩ := r.deref hk
  have hd : q1.deref (some e) = .ok ⟨p, ids[ids.length - 1 + 1]?, b⟩ := by simp [Queue.deref, hp]
  have hof := r.eofs hids
  rw [heb, hd]
  have hidx : toIdx (q1.eOfs + 1) = .ok (hi - 1024 * (ids.length - 1)) := by
    unfold toIdx
    rw [hof, if_pos (by omega)]
    congr 1; omega
  simp only [Tot_bind, Tot_ok, hidx]
  refine (PackedArray.setValue_tot bwf sj (by omega) x (by rw [bbits, hw]; exact hx)).mono ?_
  rintro b' ⟨w1, w2, w3, w4, w5⟩
  refine ⟨⟨ids, bs.set (ids.length - 1) b', lo, hi + 1, ⟨?_, r.nodup, r.fresh, ?_, r.sb, ?_, ?_, r.w1, r.w2, ?_, ?_,
    r.sofs, ?_, ?_⟩, hlo, fun h => absurd h hids, fun _ => ⟨by omega, by omega⟩, ?_⟩, hw⟩
  · exact r.chain.set r.nodup hk _ hp b'
  · intro a ha
    have : a ≠ e := by rintro rfl; exact ha (List.mem_of_getElem? hk)
    simp [heapSet, this, r.dead a ha]
  · simp [heb, ← r.eb]
  · intro b2 hb2
    rcases List.mem_or_eq_of_mem_set hb2 with hb2 | hb2
    · exact r.wf _ hb2
    · subst hb2; exact ⟨w1, w2.trans bbits, w3.trans blen⟩
  · have hlen2 : l.length = hi - lo := by rw [hl]; simp
    have := r.ord
    simp only [r.cntn]
    rw [Nat.mod_eq_of_lt (by omega)]; omega
  · have := r.ord; omega
  · intro _; simp only [hof]; omega
  · exact Nat.mod_lt _ (by decide)
  · have := r.ord
    have hset := slot_set bs (ids.length - 1) (hi - 1024 * (ids.length - 1)) b b' hb (by omega) x w4 (fun j _ hj => w5 j hj)
    rw [show hi + 1 - lo = hi - lo + 1 by omega, List.range'_1_concat, List.map_append, hl]
    congr 1
    · apply List.map_congr_left
      intro t ht
      have := List.mem_range'_1.1 ht
      rw [hset, if_neg (by omega)]
    · simp; rw [hset, if_pos (by omega)]

/-- After the allocation branch there is a free slot before the first element. -/
theorem growFront_raw {q : Queue} {l : List Nat} (h : Rep q l) :
    Tot q.growFront (fun q' => q'.w = q.w ∧ ∃ ids bs lo hi, Raw q' ids bs lo hi ∧ ids ≠ [] ∧ 1 ≤ lo ∧ lo ≤ 1024 ∧
      hi ≤ 1024 * ids.length ∧ 1024 * (ids.length - 1) < hi ∧ l = (List.range' lo (hi - lo)).map (slot bs)) := by
  obtain ⟨ids, bs, lo, hi, r, hlo, he, hne, hl⟩ := h
  unfold growFront
  split
  · rename_i h1
    have hlo0 : lo = 0 := by have := r.sofs; omega
    subst hlo0
    cases hid : q.sb with
    | none =>
      have hids : ids = [] := by simpa [r.sb] using hid
      obtain ⟨-, h3, h4⟩ := he hids
      subst h3 hids
      have hbs : bs = [] := by simpa using r.chain.1.symm
      subst hbs
      simp only [Tot_ok]
      refine ⟨trivial, [q.cnt], [PackedArray.new QSIZ q.w (q.junk q.cnt)], 1024, 1024, ⟨⟨rfl, ?_⟩, by simp, by simp, ?_,
        rfl, rfl, ?_, r.w1, r.w2, by simp [r.cntn], by simp, by simp [QSIZ], by simp [QSIZ], r.nov⟩, by simp, by simp, by simp,
        by simp, by simp, by simpa using hl⟩
      · intro k a b hk hb
        cases k with
        | zero => simp at hk hb; subst hk hb; exact ⟨none, by simp [heapSet]⟩
        | succ k => simp at hk
      · intro a ha
        simp at ha
        simp [heapSet, ha]
        exact r.dead a (by simp)
      · intro b hb
        simp at hb; subst hb
        exact ⟨PackedArray.new_wf _ _ _ r.w1 r.w2 (by have := r.w2; simp only [QSIZ]; omega), rfl, rfl⟩
    | some e =>
      have hids : ids ≠ [] := by rintro rfl; simp [r.sb] at hid
      obtain ⟨h2, h3⟩ := hne hids
      have hlen : 0 < ids.length := List.length_pos_iff.2 hids
      have hk : ids[0]? = some e := by
        rw [← List.head?_eq_getElem?, ← r.sb, hid]
      obtain ⟨b, p, hb, hp, _⟩ := r.deref hk
      have hd : q.deref (some e) = .ok ⟨p, ids[0 + 1]?, b⟩ := by simp [Queue.deref, hp]
      simp only [hd, Tot_bind, Tot_ok]
      have hcnt : q.cnt ∉ ids := fun hm => by have := r.fresh _ hm; omega
      have hbl := r.chain.1
      refine ⟨trivial, q.cnt :: ids, PackedArray.new QSIZ q.w (q.junk q.cnt) :: bs, 1024, hi + 1024, ⟨⟨?_, ?_⟩, ?_, ?_,
        ?_, ?_, ?_, ?_, r.w1, r.w2, ?_, ?_, ?_, ?_, r.nov⟩, by simp, by omega, by omega, ?_, ?_, ?_⟩
      · simp [r.chain.1]
      · intro k a b' hk' hb'
        cases k with
        | zero =>
          simp at hk' hb'
          subst hk' hb'
          refine ⟨none, ?_⟩
          simp [heapSet]
          rw [hk]
        | succ k =>
          simp at hk' hb'
          have hac : a ≠ q.cnt := by rintro rfl; exact hcnt (List.mem_of_getElem? hk')
          by_cases hke : k = 0
          · subst hke
            obtain rfl : e = a := by rw [hk] at hk'; exact Option.some.inj hk'
            obtain rfl : b = b' := by rw [hb] at hb'; exact Option.some.inj hb'
            exact ⟨some q.cnt, by simp [heapSet, hac]⟩
          · obtain ⟨p', hp'⟩ := r.chain.2 k a b' hk' hb'
            have hae : a ≠ e := by
              rintro rfl
              obtain ⟨h5, h6⟩ := List.getElem?_eq_some_iff.1 hk
              obtain ⟨h7, h8⟩ := List.getElem?_eq_some_iff.1 hk'
              exact hke ((List.getElem_inj r.nodup).1 (h8.trans h6.symm))
            exact ⟨p', by simp [heapSet, hac, hae, hp']⟩
      · rw [List.nodup_cons]; exact ⟨hcnt, r.nodup⟩
      · intro a ha
        simp at ha
        rcases ha with ha | ha
        · show a < q.cnt + 1; omega
        · have := r.fresh a ha; show a < q.cnt + 1; omega
      · intro a ha
        simp at ha
        have hae : a ≠ e := by rintro rfl; exact ha.2 (List.mem_of_getElem? hk)
        simp [heapSet, ha.1, hae, r.dead a ha.2]
      · simp
      · simp [r.eb]
        cases ids with
        | nil => simp at hids
        | cons a ids => simp [List.getLast?_cons]
      · intro b' hb'
        simp at hb'
        rcases hb' with hb' | hb'
        · subst hb'
          exact ⟨PackedArray.new_wf _ _ _ r.w1 r.w2 (by have := r.w2; simp only [QSIZ]; omega), rfl, rfl⟩
        · exact r.wf _ hb'
      · simp [r.cntn]
      · omega
      · simp [QSIZ]
      · intro _
        have := r.eofs hids
        simp only [this, List.length_cons]
        omega
      · simp; omega
      · simp; omega
      · rw [hl, show hi + 1024 - 1024 = hi by omega, Nat.sub_zero]
        rw [show List.range' 1024 hi = (List.range' 0 hi).map (1024 + ·) by simp [List.map_add_range']]
        rw [List.map_map]
        apply List.map_congr_left
        intro t ht
        simp only [Function.comp]
        rw [Nat.add_comm, slot_cons]
  · rename_i h1
    rw [Tot_ok]
    have hids : ids ≠ [] := by
      intro h; apply h1; rw [r.sofs, (he h).1]; rfl
    obtain ⟨h2, h3⟩ := hne hids
    have := r.sofs
    exact ⟨rfl, ids, bs, lo, hi, r, hids, by omega, by omega, h2, h3, hl⟩

theorem enqueueL_rep {q : Queue} {l : List Nat} (h : Rep q l) (sj x : BitVec 64)
    (hx : x.toNat < 2 ^ q.w) (hn : l.length + 1 < 2 ^ 64) :
    Tot (q.enqueueL sj x) (fun q' => Rep q' (x.toNat :: l) ∧ q'.w = q.w) := by
  unfold enqueueL
  rw [Tot_bind]
  refine (growFront_raw h).mono ?_
  rintro q1 ⟨hw, ids, bs, lo, hi, r, hids, hlo1, hlo, hhi, hhi2, hl⟩
  have hlen : 0 < ids.length := List.length_pos_iff.2 hids
  have hbl := r.chain.1
  obtain ⟨e, hk⟩ : ∃ e, ids[0]? = some e := ⟨ids[0], by simp [hlen]⟩
  have heb : q1.sb = some e := by rw [r.sb, List.head?_eq_getElem?, hk]
  obtain ⟨b, p, hb, hp, bwf, bbits, blen⟩ := r.deref hk
  have hd : q1.deref (some e) = .ok ⟨p, ids[0 + 1]?, b⟩ := by simp [Queue.deref, hp]
  have hof := r.sofs
  rw [heb, hd]
  have hidx : toIdx (q1.sOfs - 1) = .ok (lo - 1) := by
    unfold toIdx
    rw [hof, if_pos (by omega)]
    congr 1; omega
  simp only [Tot_bind, Tot_ok, hidx]
  refine (PackedArray.setValue_tot bwf sj (by omega) x (by rw [bbits, hw]; exact hx)).mono ?_
  rintro b' ⟨w1, w2, w3, w4, w5⟩
  have hord := r.ord
  refine ⟨⟨ids, bs.set 0 b', lo - 1, hi, ⟨?_, r.nodup, r.fresh, ?_, ?_, r.eb, ?_, r.w1, r.w2, ?_, by omega,
    ?_, r.eofs, ?_⟩, by omega, fun h => absurd h hids, fun _ => ⟨by omega, by omega⟩, ?_⟩, hw⟩
  · exact r.chain.set r.nodup hk _ hp b'
  · intro a ha
    have : a ≠ e := by rintro rfl; exact ha (List.mem_of_getElem? hk)
    simp [heapSet, this, r.dead a ha]
  · simp [heb, ← r.sb]
  · intro b2 hb2
    rcases List.mem_or_eq_of_mem_set hb2 with hb2 | hb2
    · exact r.wf _ hb2
    · subst hb2; exact ⟨w1, w2.trans bbits, w3.trans blen⟩
  · have hlen2 : l.length = hi - lo := by rw [hl]; simp
    simp only [r.cntn]
    rw [Nat.mod_eq_of_lt (by omega)]; omega
  · simp only [hof]; omega
  · exact Nat.mod_lt _ (by decide)
  · have hset := slot_set bs 0 (lo - 1) b b' hb (by omega) x w4 (fun j _ hj => w5 j hj)
    rw [show hi - (lo - 1) = hi - lo + 1 by omega, List.range'_succ, List.map_cons, hl,
      show lo - 1 + 1 = lo by omega]
    congr 1
    · rw [hset, if_pos (by omega)]
    · apply List.map_congr_left
      intro t ht
      have := List.mem_range'_1.1 ht
      rw [hset, if_neg (by omega)]

theorem dequeue_rep {q : Queue} {x : Nat} {l : List Nat} (h : Rep q (x :: l)) (sj : BitVec 64) :
    Tot (q.dequeue sj) (fun r => r.1 = (BitVec.ofNat 64 x).toInt ∧ Rep r.2 l ∧ r.2.w = q.w) := by
  obtain ⟨ids, bs, lo, hi, r, hlo, he, hne, hl⟩ := h
  have hord := r.ord
  have hlt : lo < hi := by
    rcases Nat.lt_or_ge lo hi with h | h
    · exact h
    · rw [show hi - lo = 0 by omega] at hl; simp at hl
  have hids : ids ≠ [] := by
    intro h; have := he h; omega
  obtain ⟨hhi, hhi2⟩ := hne hids
  have hlen : 0 < ids.length := List.length_pos_iff.2 hids
  have hbl := r.chain.1
  obtain ⟨e, hk⟩ : ∃ e, ids[0]? = some e := ⟨ids[0], by simp [hlen]⟩
  have heb : q.sb = some e := by rw [r.sb, List.head?_eq_getElem?, hk]
  obtain ⟨b, p, hb, hp, bwf, bbits, blen⟩ := r.deref hk
  have hd : q.deref (some e) = .ok ⟨p, ids[1]?, b⟩ := by simp [Queue.deref, hp]
  have hidx : toIdx q.sOfs = .ok lo := by
    unfold toIdx
    rw [r.sofs, if_pos (by omega)]
    congr 1
  rw [show hi - lo = hi - (lo + 1) + 1 by omega, List.range'_succ, List.map_cons] at hl
  injection hl with hx hl
  have hxv : x = (b.cell lo).toNat := by
    rw [hx, slot, show lo / 1024 = 0 by omega, show lo % 1024 = lo by omega]
    simp [List.getD, hb]
  have hnq := r.cntn
  have hnq2 := r.nov
  have hn : decU64 q.n = hi - lo - 1 := by
    rw [decU64_eq (by omega)]; omega
  have hnov : decU64 q.n < 2 ^ 64 := by omega
  have hxi : (b.cell lo).toInt = (BitVec.ofNat 64 x).toInt := by rw [hxv]; simp
  generalize (BitVec.ofNat 64 x).toInt = X at hxi ⊢
  unfold dequeue
  rw [heb, hd]
  simp only [Tot_bind, Tot_ok, hidx, PackedArray.getValue_eq bwf sj (show lo < b.length by omega), hxi]
  by_cases hfull : q.sOfs + 1 = (QSIZ : Int)
  · rw [if_pos hfull]
    have hlo2 : lo = 1023 := by have := r.sofs; simp only [QSIZ] at hfull; omega
    subst hlo2
    obtain ⟨ids', rfl⟩ : ∃ ids', ids = e :: ids' := by
      cases ids with
      | nil => simp at hk
      | cons a t => simp at hk; subst hk; exact ⟨t, rfl⟩
    obtain ⟨bs', rfl⟩ : ∃ bs', bs = b :: bs' := by
      cases bs with
      | nil => simp at hb
      | cons a t => simp at hb; subst hb; exact ⟨t, rfl⟩
    have hnd := List.nodup_cons.1 r.nodup
    cases hn1 : (e :: ids')[1]? with
    | none =>
      have : ids' = [] := by cases ids' <;> simp_all
      subst this
      have : bs' = [] := by simpa using hbl.symm
      subst this
      refine (Tot_ok _ _).2 ⟨rfl, ⟨[], [], 0, 0, ⟨⟨rfl, by simp⟩, by simp, by simp, ?_, rfl, rfl, by simp, r.w1, r.w2,
        ?_, by simp, rfl, by simp, hnov⟩, by simp, ?_, by simp, ?_⟩, rfl⟩
      · intro a _
        by_cases h : a = e
        · simp [heapSet, h]
        · simp [heapSet, h]; exact r.dead a (by simp [h])
      · simp only [hn]; simp at hhi; omega
      · simp [QSIZ]
      · simp at hhi
        rw [hl, show hi - (1023 + 1) = 0 by omega]; simp
    | some s =>
      simp at hn1
      obtain ⟨b1, p1, hb1, hp1, _⟩ := r.deref (k := 1) (a := s) (by simpa using hn1)
      have hse : s ≠ e := by rintro rfl; exact hnd.1 (List.mem_of_getElem? hn1)
      have hids' : ids' ≠ [] := by rintro rfl; simp at hn1
      have hlen' : 0 < ids'.length := List.length_pos_iff.2 hids'
      simp only [Queue.deref, heapSet, hse, if_false, hp1, Option.getD_some, Tot_ok, Tot_bind]
      simp only [List.length_cons, Nat.add_sub_cancel] at hhi hhi2
      refine ⟨trivial, ⟨ids', bs', 0, hi - 1024, ⟨⟨by simpa using hbl, ?_⟩, hnd.2, ?_, ?_, ?_, ?_, ?_, r.w1, r.w2,
        ?_, by simp, rfl, ?_, hnov⟩, by simp, fun h => absurd h hids', fun _ => ⟨by omega, by omega⟩, ?_⟩, trivial⟩
      · intro k a b' hk' hb'
        obtain ⟨p', hp'⟩ := r.chain.2 (k+1) a b' (by simpa using hk') (by simpa using hb')
        have hae : a ≠ e := by rintro rfl; exact hnd.1 (List.mem_of_getElem? hk')
        by_cases has : a = s
        · subst has
          rw [hp1] at hp'
          injection hp' with hp'
          injection hp' with h1 h2 h3
          refine ⟨none, ?_⟩
          simp at h2
          simp [heapSet, h2, h3]
        · exact ⟨p', by simp [heapSet, hae, has, hp']⟩
      · intro a ha; exact r.fresh a (by simp [ha])
      · intro a ha
        have has : a ≠ s := by rintro rfl; exact ha (List.mem_of_getElem? hn1)
        by_cases h : a = e
        · subst h; simp [heapSet, has]
        · simp [heapSet, h, has]; exact r.dead a (by simp [h, ha])
      · rw [List.head?_eq_getElem?, hn1]
      · have := r.eb
        simp only [this]
        cases ids' with
        | nil => simp at hids'
        | cons a ids => simp [List.getLast?_cons]
      · intro b' hb'; exact r.wf b' (by simp [hb'])
      · simp only [hn]; omega
      · intro _
        have := r.eofs hids
        simp only [this, List.length_cons, Nat.add_sub_cancel]
        omega
      · rw [hl, show hi - (1023 + 1) = hi - 1024 by omega, Nat.sub_zero,
          show List.range' (1023+1) (hi-1024) = (List.range' 0 (hi-1024)).map (1024 + ·) by simp [List.map_add_range']]
        rw [List.map_map]
        apply List.map_congr_left
        intro t ht
        simp only [Function.comp]
        rw [Nat.add_comm, slot_cons]
  · rw [if_neg hfull]
    have hsof := r.sofs
    have hlo2 : lo + 1 ≤ 1023 := by simp only [QSIZ] at hfull; omega
    refine (Tot_ok _ _).2 ⟨rfl, ⟨ids, bs, lo + 1, hi, ⟨r.chain, r.nodup, r.fresh, r.dead, ?_, r.eb, r.wf, r.w1, r.w2,
      ?_, by omega, ?_, r.eofs, hnov⟩, hlo2, fun h => absurd h hids,
      fun _ => ⟨hhi, hhi2⟩, hl⟩, rfl⟩
    · exact heb.symm.trans r.sb
    · simp only [hn]; omega
    · simp only [hsof]; omega

theorem isEmpty_rep {q : Queue} {l : List Nat} (h : Rep q l) : q.isEmpty = true ↔ l = [] := by
  obtain ⟨ids, bs, lo, hi, r, hlo, he, hne, hl⟩ := h
  have : l.length = q.n := by rw [hl, r.cntn]; simp
  rw [isEmpty, beq_iff_eq, ← this, List.length_eq_zero_iff]

theorem Rep.w_bounds {q : Queue} {l : List Nat} (h : Rep q l) : 1 ≤ q.w ∧ q.w ≤ 64 := by
  obtain ⟨ids, bs, lo, hi, r, _⟩ := h
  exact ⟨r.w1, r.w2⟩

theorem Rep.mem_lt {q : Queue} {l : List Nat} (h : Rep q l) : ∀ x ∈ l, x < 2 ^ q.w := by
  obtain ⟨ids, bs, lo, hi, r, hlo, he, hne, hl⟩ := h
  intro x hx
  rw [hl, List.mem_map] at hx
  obtain ⟨t, ht, rfl⟩ := hx
  rw [List.mem_range'_1] at ht
  have hids : ids ≠ [] := by
    intro h; have := he h; omega
  have := (hne hids).1
  have hb := r.chain.1
  have ht2 : t / 1024 < bs.length := by omega
  unfold slot
  have : bs.getD (t / 1024) default = bs[t / 1024] := by simp [List.getD, ht2]
  rw [this]
  have hw := (r.wf _ (List.getElem_mem ht2)).2.1
  rw [← hw]
  exact cellVal_lt _ _ _

theorem destroy_aux (ids : List Nat) : ∀ (q : Queue) (bs : List PackedArray), Chain q.heap ids bs → ids.Nodup →
    (∀ a, a ∉ ids → q.heap a = none) → q.sb = ids.head? →
    Tot (q.destroy (ids.length + 1)) (fun q' => ∀ a, q'.heap a = none) := by
  induction ids with
  | nil =>
    intro q bs hc hn hd hs
    simp at hs hd
    simp [destroy, whileM, hs]
    exact hd
  | cons e ids ih =>
    intro q bs hc hn hd hs
    obtain ⟨b, bs, rfl⟩ : ∃ b bs', bs = b :: bs' := by
      cases bs with
      | nil => have := hc.1; simp at this
      | cons b bs => exact ⟨b, bs, rfl⟩
    obtain ⟨p, hp⟩ := hc.2 0 e b (by simp) (by simp)
    have hnd := List.nodup_cons.1 hn
    simp at hs
    unfold destroy at *
    rw [List.length_cons, whileM]
    have hdr : q.deref (some e) = .ok ⟨p, (e :: ids)[0 + 1]?, b⟩ := by simp [Queue.deref, hp]
    simp only [hs, hdr, Tot_bind, Tot_ok]
    refine ih _ bs ⟨by have := hc.1; simpa using this, ?_⟩ hnd.2 ?_ ?_
    · intro k a b' hk hb
      obtain ⟨p', hp'⟩ := hc.2 (k + 1) a b' (by simpa using hk) (by simpa using hb)
      have hae : a ≠ e := by rintro rfl; exact hnd.1 (List.mem_of_getElem? hk)
      exact ⟨p', by simp [heapSet, hae, hp']⟩
    · intro a ha
      by_cases h : a = e
      · simp [heapSet, h]
      · simp [heapSet, h]; exact hd a (by simp [h, ha])
    · simp [List.head?_eq_getElem?]

/-- The destructor terminates, frees every block and touches no freed block. -/
theorem destroy_rep {q : Queue} {l : List Nat} (h : Rep q l) :
    ∃ fuel0, ∀ fuel, fuel0 ≤ fuel → Tot (q.destroy fuel) (fun q' => ∀ a, q'.heap a = none) := by
  obtain ⟨ids, bs, lo, hi, r, -⟩ := h
  refine ⟨ids.length + 1, fun fuel hf => ?_⟩
  obtain ⟨q', h1, h2⟩ := Tot_iff.1 (destroy_aux ids q bs r.chain r.nodup r.dead r.sb)
  exact Tot_iff.2 ⟨q', whileM_fuel_mono _ _ _ _ _ h1 hf, h2⟩

end Queue
end Flbwt
