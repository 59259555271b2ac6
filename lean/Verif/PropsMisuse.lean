import Verif.PropsData
import Verif.HashField
import Mathlib.Tactic.Ring

/-!
# C59, C60: what happens when the contracts of `Queue` and `PackedArray` are broken

`Queue::dequeue` (src/queue.cpp:93-121) does not test whether the queue is empty, and `PackedArray::set_value`
(src/packed_array.cpp:28-53) does not test whether the value fits its cell.
-/

namespace Flbwt

/-! ## C59: dequeue on an empty queue -/

theorem enqueue_wraps_new (sj : BitVec 64) (q : Queue) (y : BitVec 64) (heb : q.eb = none) (heo : q.eOfs = 1024 - 1)
    (hn : q.n = 2 ^ 64 - 1) (h1 : 1 ≤ q.w) (h2 : q.w ≤ 64) (hy : y.toNat < 2 ^ q.w) :
    ∃ q'', q.enqueue sj y = .ok q'' ∧ q''.isEmpty = true := by
  have wf := PackedArray.new_wf 1024 q.w (q.junk q.cnt) h1 h2 (by omega)
  obtain ⟨b', eb, -⟩ := Tot_iff.1 (PackedArray.setValue_tot wf sj (i := 0) (by simp [PackedArray.new]) y hy)
  simp only [Queue.enqueue, Queue.growBack, heo, heb, Queue.deref, Queue.toIdx]
  simp [bind, Except.bind, Queue.isEmpty, hn, Queue.heapSet, show QSIZ = 1024 from rfl, eb]

theorem enqueue_wraps_old (sj : BitVec 64) (q : Queue) (y : BitVec 64) {a lo : Nat} {p : Option Nat} {b : PackedArray}
    (heb : q.eb = some a) (hh : q.heap a = some ⟨p, none, b⟩) (heo : q.eOfs = (lo : Int) - 1) (hlo : lo ≤ 1023)
    (wf : b.WF) (hl : lo < b.length) (hn : q.n = 2 ^ 64 - 1) (hy : y.toNat < 2 ^ b.bits) :
    ∃ q'', q.enqueue sj y = .ok q'' ∧ q''.isEmpty = true := by
  obtain ⟨b', eb, -⟩ := Tot_iff.1 (PackedArray.setValue_tot wf sj (i := lo) hl y hy)
  have hg : q.growBack = .ok q := by
    unfold Queue.growBack
    rw [if_neg (by rw [heo]; simp only [QSIZ]; omega)]
  have hidx : Queue.toIdx (q.eOfs + 1) = .ok lo := by
    unfold Queue.toIdx
    rw [heo, if_pos (by omega)]
    congr 1
    omega
  simp only [Queue.enqueue, hg, HashTable.ok_bind, Queue.deref, heb, hh, hidx]
  simp [eb, bind, Except.bind, Queue.isEmpty, hn]

/-- Number of `enqueue` calls in a history. -/
def QOp.backs (ops : List QOp) : Nat := ops.countP fun o => match o with | .enqueue _ => true | _ => false
/-- Number of `enqueue_l` calls in a history. -/
def QOp.fronts (ops : List QOp) : Nat := ops.countP fun o => match o with | .enqueueL _ => true | _ => false
/-- Number of `dequeue` calls in a history. -/
def QOp.outsN (ops : List QOp) : Nat := ops.countP fun o => match o with | .dequeue => true | _ => false

theorem bind_ok_inv {α β : Type _} {m : M α} {f : α → M β} {b : β} (h : (m >>= f) = .ok b) :
    ∃ a, m = .ok a ∧ f a = .ok b := by
  cases m with
  | ok a => exact ⟨a, rfl, h⟩
  | error e => cases h

namespace Queue

theorem growBack_sOfs {q q' : Queue} {l : List Nat} (h : Rep q l) (e : q.growBack = .ok q') : q'.sOfs = q.sOfs := by
  obtain ⟨ids, bs, lo, hi, r, hlo, he, hne, hl⟩ := h
  unfold growBack at e
  split at e
  · split at e
    · rename_i hn
      injection e with e
      subst e
      have : ids = [] := by have := r.eb; rw [hn] at this; simpa using this.symm
      have := he this
      have h2 := r.sofs
      simp only
      omega
    · rename_i e0 he0
      cases hd : q.deref (some e0) with
      | error x => rw [hd] at e; cases e
      | ok b => rw [hd] at e; injection e with e; subst e; rfl
  · injection e with e; subst e; rfl

theorem enqueue_sOfs {q q' : Queue} {l : List Nat} (h : Rep q l) {sj x : BitVec 64} (e : q.enqueue sj x = .ok q') :
    q'.sOfs = q.sOfs := by
  unfold enqueue at e
  obtain ⟨q1, hg, e⟩ := bind_ok_inv e
  have h1 := growBack_sOfs h hg
  obtain ⟨blk, hb, e⟩ := bind_ok_inv e
  obtain ⟨i, hi, e⟩ := bind_ok_inv e
  obtain ⟨b, hb, e⟩ := bind_ok_inv e
  injection e with e; subst e; exact h1

theorem growFront_sOfs {q q' : Queue} (e : q.growFront = .ok q') :
    q'.sOfs = if q.sOfs = 0 then 1024 else q.sOfs := by
  unfold growFront at e
  split at e
  · rename_i h0
    rw [if_pos h0]
    split at e
    · injection e with e; subst e; rfl
    · obtain ⟨b, _, e⟩ := bind_ok_inv e
      injection e with e; subst e; rfl
  · rename_i h0
    rw [if_neg h0]
    injection e with e; subst e; rfl

theorem enqueueL_sOfs {q q' : Queue} {sj x : BitVec 64} (e : q.enqueueL sj x = .ok q') :
    q'.sOfs = (if q.sOfs = 0 then 1024 else q.sOfs) - 1 := by
  unfold enqueueL at e
  obtain ⟨q1, hg, e⟩ := bind_ok_inv e
  obtain ⟨blk, hb, e⟩ := bind_ok_inv e
  obtain ⟨i, hi, e⟩ := bind_ok_inv e
  obtain ⟨b, hb, e⟩ := bind_ok_inv e
  injection e with e; subst e
  simp only [growFront_sOfs hg]

theorem dequeue_sOfs {q : Queue} {sj : BitVec 64} {r : Int × Queue} (e : q.dequeue sj = .ok r) :
    r.2.sOfs = if q.sOfs + 1 = 1024 then 0 else q.sOfs + 1 := by
  unfold dequeue at e
  obtain ⟨blk, hb, e⟩ := bind_ok_inv e
  obtain ⟨i, hi, e⟩ := bind_ok_inv e
  obtain ⟨v, hv, e⟩ := bind_ok_inv e
  dsimp only at e
  split at e
  · rename_i h0
    rw [if_pos (show q.sOfs + 1 = 1024 from h0)]
    split at e
    · injection e with e; subst e; rfl
    · obtain ⟨b, _, e⟩ := bind_ok_inv e
      injection e with e; subst e; rfl
  · rename_i h0
    rw [if_neg (show ¬ q.sOfs + 1 = 1024 from h0)]
    injection e with e; subst e; rfl

/-- An empty queue: no block at all, or exactly one block with the front at its first free slot. -/
theorem Rep.empty_cases {q : Queue} (h : Rep q []) :
    (q.sb = none ∧ q.sOfs = 0) ∨
    ∃ a b p lo, q.sb = some a ∧ q.heap a = some ⟨p, none, b⟩ ∧ b.WF ∧ b.length = 1024 ∧ q.sOfs = (lo : Nat) ∧
      1 ≤ lo ∧ lo ≤ 1023 ∧ b.bits = q.w ∧ q.eb = some a ∧ q.eOfs = (lo : Int) - 1 := by
  obtain ⟨ids, bs, lo, hi, r, hlo, he, hne, hl⟩ := h
  have hord := r.ord
  have hlh : hi = lo := by
    have : hi - lo = 0 := by
      have := congrArg List.length hl
      simpa using this.symm
    omega
  by_cases hids : ids = []
  · left
    obtain ⟨h0, _, _⟩ := he hids
    have := r.sofs
    refine ⟨by rw [r.sb, hids]; rfl, by omega⟩
  · right
    obtain ⟨h1, h2⟩ := hne hids
    have hlen : ids.length = 1 := by
      have : 0 < ids.length := List.length_pos_iff.2 hids
      omega
    obtain ⟨a, rfl⟩ := List.length_eq_one_iff.1 hlen
    obtain ⟨b, p, hb, hp, bwf, bbits, blen⟩ := r.deref (k := 0) (a := a) rfl
    simp only [List.length_singleton] at h1 h2
    exact ⟨a, b, p, lo, by rw [r.sb]; rfl, by simpa using hp, bwf, blen, r.sofs, by omega, by omega, bbits, by rw [r.eb]; rfl, by
      have := r.eofs hids
      simp at this
      omega⟩

end Queue

theorem QOp.execs_sOfs (sj : BitVec 64) (ops : List QOp) : ∀ (q : Queue) (l : List (BitVec 64)),
    q.Rep (l.map BitVec.toNat) → (∀ o ∈ ops, o.fits q.w) → ∀ r, QOp.specs ops l = some r →
    ∀ s, QOp.execs sj ops q = .ok s → (s.1.sOfs + QOp.fronts ops - QOp.outsN ops - q.sOfs) % 1024 = 0 := by
  induction ops with
  | nil =>
    intro q l _ _ r _ s hs
    injection hs with hs; subst hs
    simp [QOp.fronts, QOp.outsN]
  | cons o os ih =>
    intro q l hq hf r hr s hs
    have hr' := hr
    simp only [QOp.specs, Option.bind_eq_bind, Option.bind_eq_some_iff] at hr'
    obtain ⟨⟨l1, out⟩, h1, ⟨l2, out'⟩, h2, h3⟩ := hr'
    have h1' : QOp.specs [o] l = some (l1, out) := by simp [QOp.specs, h1]
    obtain ⟨⟨q1, o1⟩, e1, hq1, hw1, -⟩ := Tot_iff.1 (execs_spec sj [o] q l hq
      (fun o' ho' => hf o' (by simp at ho'; simp [ho'])) _ h1')
    simp only at hq1 hw1
    have e1' : o.exec sj q = .ok (q1, o1) := by
      rw [QOp.execs] at e1
      obtain ⟨⟨qa, oa⟩, ha, e1⟩ := bind_ok_inv e1
      simp only [QOp.execs] at e1
      obtain ⟨⟨qb, ob⟩, hb, e1⟩ := bind_ok_inv e1
      injection hb with hb
      injection hb with hb1 hb2
      injection e1 with e1
      injection e1 with e1 e2
      subst hb1 hb2 e1 e2
      simpa using ha
    rw [QOp.execs, e1', HashTable.ok_bind] at hs
    obtain ⟨⟨q2, o2⟩, e2, hs⟩ := bind_ok_inv hs
    injection hs with hs; subst hs
    have hi := ih q1 l1 hq1 (fun o ho => by rw [hw1]; exact hf o (by simp [ho])) _ h2 _ e2
    cases o with
    | enqueue x =>
      obtain ⟨qa, ha, hb⟩ := bind_ok_inv e1'
      injection hb with hb; injection hb with hb1 hb2; subst hb1
      have := Queue.enqueue_sOfs hq ha
      simp only [QOp.fronts, QOp.outsN, List.countP_cons] at hi ⊢
      simp only [this] at hi
      simpa using hi
    | enqueueL x =>
      obtain ⟨qa, ha, hb⟩ := bind_ok_inv e1'
      injection hb with hb; injection hb with hb1 hb2; subst hb1
      have := Queue.enqueueL_sOfs ha
      simp only [QOp.fronts, QOp.outsN, List.countP_cons] at hi ⊢
      simp at hi ⊢
      split at this <;> omega
    | dequeue =>
      obtain ⟨⟨v, qa⟩, ha, hb⟩ := bind_ok_inv e1'
      injection hb with hb; injection hb with hb1 hb2; subst hb1
      have := Queue.dequeue_sOfs ha
      simp only at this
      simp only [QOp.fronts, QOp.outsN, List.countP_cons] at hi ⊢
      simp at hi ⊢
      split at this <;> omega

theorem QOp.specs_count (ops : List QOp) : ∀ l r, QOp.specs ops l = some r →
    l.length + QOp.backs ops + QOp.fronts ops = r.1.length + QOp.outsN ops := by
  induction ops with
  | nil => intro l r h; simp [QOp.specs] at h; subst h; simp [QOp.backs, QOp.fronts, QOp.outsN]
  | cons o os ih =>
    intro l r hr
    simp only [QOp.specs, Option.bind_eq_bind, Option.bind_eq_some_iff] at hr
    obtain ⟨⟨l1, out⟩, h1, ⟨l2, out'⟩, h2, h3⟩ := hr
    simp at h3; subst h3
    have := ih _ _ h2
    simp only [QOp.backs, QOp.fronts, QOp.outsN, List.countP_cons] at this ⊢
    cases o with
    | enqueue x =>
      simp only [QOp.spec] at h1
      split at h1 <;> simp at h1
      obtain ⟨rfl, rfl⟩ := h1
      simp at this ⊢; omega
    | enqueueL x =>
      simp only [QOp.spec] at h1
      split at h1 <;> simp at h1
      obtain ⟨rfl, rfl⟩ := h1
      simp at this ⊢; omega
    | dequeue =>
      cases l with
      | nil => simp [QOp.spec] at h1
      | cons y l =>
        simp [QOp.spec] at h1
        obtain ⟨rfl, rfl⟩ := h1
        simp at this ⊢; omega

/-- C59: after every allowed history that leaves the queue empty (`is_empty` answers true), one more `dequeue` is
not refused. If the number of `enqueue` calls so far is a multiple of 1024 (for instance on a new queue) it
dereferences a null pointer; in every other case it returns the value of a slot, and from then on `is_empty`
answers false although nothing was added (the `uint64_t` counter has wrapped to `2^64 - 1`); the next `enqueue` of
any value `y` then makes `is_empty` answer true although `y` has just been added. -/
theorem C59_dequeue_on_empty (w : Nat) (junk : Nat → Nat → BitVec 64) (sj : BitVec 64) (ops : List QOp)
    (h1 : 1 ≤ w) (h2 : w ≤ 64) (hf : ∀ o ∈ ops, o.fits w) (outs : List (BitVec 64))
    (hs : QOp.specs ops [] = some ([], outs)) :
    ∃ q ret, QOp.execs sj ops (Queue.new w junk) = .ok (q, ret) ∧ q.isEmpty = true ∧
      (QOp.backs ops % 1024 = 0 → q.dequeue sj = .error (.ub .nullDeref)) ∧
      (QOp.backs ops % 1024 ≠ 0 → ∃ x q', q.dequeue sj = .ok (x, q') ∧ q'.isEmpty = false ∧
        q'.n = 2 ^ 64 - 1 ∧ ∀ y : BitVec 64, y.toNat < 2 ^ w → ∃ q'', q'.enqueue sj y = .ok q'' ∧ q''.isEmpty = true) := by
  have hnew := Queue.new_rep w junk h1 h2
  obtain ⟨⟨q, ret⟩, e, a, b, c⟩ := Tot_iff.1 (execs_spec sj ops (Queue.new w junk) [] hnew hf _ hs)
  have hso := QOp.execs_sOfs sj ops (Queue.new w junk) [] hnew hf _ hs _ e
  have hc := QOp.specs_count ops [] _ hs
  simp only [Queue.new, List.length_nil, List.map_nil] at hso hc a
  refine ⟨q, ret, e, (Queue.isEmpty_rep a).2 rfl, ?_⟩
  have hn0 : q.n = 0 := by
    have := (Queue.isEmpty_rep a).2 rfl
    simpa [Queue.isEmpty] using this
  rcases a.empty_cases with ⟨hsb, h0⟩ | ⟨ad, bl, p, lo, hsb, hheap, bwf, blen, hlo, h1', h2', bb, heb, heo⟩
  · refine ⟨fun _ => ?_, fun hne => ?_⟩
    · unfold Queue.dequeue
      rw [hsb]; rfl
    · omega
  · refine ⟨fun h0 => ?_, fun _ => ?_⟩
    · omega
    · have hidx : Queue.toIdx q.sOfs = .ok lo := by
        unfold Queue.toIdx
        rw [hlo, if_pos (by omega)]
        congr 1
      have hd : q.deref (some ad) = .ok ⟨p, none, bl⟩ := by simp [Queue.deref, hheap]
      unfold Queue.dequeue
      rw [hsb, hd]
      simp only [HashTable.ok_bind, hidx, PackedArray.getValue_eq bwf sj (show lo < bl.length by omega)]
      split
      · refine ⟨_, _, rfl, by simp [Queue.isEmpty, hn0, Queue.decU64], by simp [hn0, Queue.decU64], fun y hy => ?_⟩
        exact enqueue_wraps_new sj _ y rfl rfl (by simp [hn0, Queue.decU64]) 
          (by show 1 ≤ q.w; rw [b]; exact h1) (by show q.w ≤ 64; rw [b]; exact h2) (by show _ < 2 ^ q.w; rw [b]; exact hy)
      · refine ⟨_, _, rfl, by simp [Queue.isEmpty, hn0, Queue.decU64], by simp [hn0, Queue.decU64], fun y hy => ?_⟩
        exact enqueue_wraps_old sj _ y (a := ad) (p := p) (lo := lo) heb hheap heo (by omega) bwf (by omega) (by simp [hn0, Queue.decU64]) (by rw [bb, b]; exact hy)

/-- C59: the value such a `dequeue` returns is whatever the memory held: for every width, every value `x` stored
and every value `v` of that width there is a content of fresh memory for which "enqueue x, dequeue, dequeue"
returns `x` and then `v`. -/
theorem C59_returns_uninitialised (w : Nat) (sj x v : BitVec 64) (h1 : 1 ≤ w) (h2 : w ≤ 64) (hx : x.toNat < 2 ^ w)
    (hv : v.toNat < 2 ^ w) :
    ∃ junk q, QOp.execs sj [.enqueue x, .dequeue, .dequeue] (Queue.new w junk) = .ok (q, [x.toInt, v.toInt]) := by
  have wf0 := PackedArray.new_wf 1024 w (fun _ => 0) h1 h2 (by omega)
  obtain ⟨pa, -, wf1, hb1, hl1, hc1, -⟩ := Tot_iff.1 (PackedArray.setValue_tot wf0 sj (i := 1) (by simp [PackedArray.new]) v
    hv)
  refine ⟨fun _ => pa.arr.data, ?_⟩
  have wf2 := PackedArray.new_wf 1024 w pa.arr.data h1 h2 (by omega)
  have hcell : (PackedArray.new 1024 w pa.arr.data).cell 1 = v := by
    rw [← hc1]
    unfold PackedArray.cell
    have : pa.bits = w := hb1
    rw [this]
    apply BitVec.eq_of_getLsbD_eq
    intro j _
    rw [cellVal_getLsbD _ _ _ _ (by exact h2), cellVal_getLsbD _ _ _ _ h2]
    rfl
  obtain ⟨pb, eb, wf3, hb3, hl3, hc3, hd3⟩ := Tot_iff.1 (PackedArray.setValue_tot wf2 sj (i := 0) (by simp [PackedArray.new])
    x hx)
  have hl3' : pb.length = 1024 := hl3
  have g0 : pb.getValue sj 0 = .ok x := by rw [PackedArray.getValue_eq wf3 sj (by omega), hc3]
  have g1 : pb.getValue sj 1 = .ok v := by rw [PackedArray.getValue_eq wf3 sj (by omega), hd3 1 (by omega), hcell]
  have s1 : ∃ q1, (Queue.new w (fun _ => pa.arr.data)).enqueue sj x = .ok q1 ∧ q1.sb = some 0 ∧
      q1.heap 0 = some ⟨none, none, pb⟩ ∧ q1.sOfs = 0 := by
    simp only [Queue.enqueue, Queue.growBack, Queue.new, if_pos, HashTable.ok_bind, Queue.deref, Queue.heapSet,
      Queue.toIdx]
    simp [eb, HashTable.ok_bind, bind, Except.bind, Queue.heapSet]
  obtain ⟨q1, e1, hsb, hh, hso⟩ := s1
  have s2 : ∃ q2, q1.dequeue sj = .ok (x.toInt, q2) ∧ q2.sb = some 0 ∧
      q2.heap 0 = some ⟨none, none, pb⟩ ∧ q2.sOfs = 1 := by
    simp only [Queue.dequeue, Queue.deref, hsb, hh, hso, HashTable.ok_bind, Queue.toIdx]
    simp [g0, HashTable.ok_bind, bind, Except.bind, hh, hsb]
  obtain ⟨q2, e2, hsb2, hh2, hso2⟩ := s2
  have s3 : ∃ q3, q2.dequeue sj = .ok (v.toInt, q3) := by
    simp only [Queue.dequeue, Queue.deref, hsb2, hh2, hso2, HashTable.ok_bind, Queue.toIdx]
    simp [g1, HashTable.ok_bind, bind, Except.bind, hh2, hsb2]
  obtain ⟨q3, e3⟩ := s3
  exact ⟨q3, by simp [QOp.execs, QOp.exec, e1, e2, e3, bind, Except.bind]⟩

example : ∃ q ret, QOp.execs 5 [.enqueue 3, .enqueueL 4, .dequeue, .dequeue] (Queue.new 9 (fun _ _ => 77)) = .ok (q, ret) ∧
    q.isEmpty = true ∧ (QOp.backs [.enqueue 3, .enqueueL 4, .dequeue, .dequeue] % 1024 = 0 →
      q.dequeue 5 = .error (.ub .nullDeref)) ∧
    (QOp.backs [.enqueue 3, .enqueueL 4, .dequeue, .dequeue] % 1024 ≠ 0 →
      ∃ x q', q.dequeue 5 = .ok (x, q') ∧ q'.isEmpty = false ∧ q'.n = 2 ^ 64 - 1 ∧
        ∀ y : BitVec 64, y.toNat < 2 ^ 9 → ∃ q'', q'.enqueue 5 y = .ok q'' ∧ q''.isEmpty = true) :=
  C59_dequeue_on_empty 9 _ 5 [.enqueue 3, .enqueueL 4, .dequeue, .dequeue] (by decide) (by decide)
    (by intro o ho; simp at ho; rcases ho with rfl | rfl | rfl | rfl <;> simp [QOp.fits])
    [4, 3] (by simp [QOp.specs, QOp.spec])

/-! ## C60: a value too large for its cell -/

/-- `set_value` without the assumption that the value fits: inside the cell the low `bits` bits are stored, bits before
the cell **in the same word** get the excess bits of the value or-ed into them, nothing else changes. -/
theorem setValue_any (sj : BitVec 64) (pa : PackedArray) (index : Nat) (value : BitVec 64)
    (hb1 : 1 ≤ pa.bits) (hb : pa.bits ≤ 64) (hov : pa.bits * index + pa.bits ≤ 2 ^ 64)
    (hsz : (pa.bits * index + pa.bits - 1) / 64 < pa.arr.size) :
    Tot (pa.setValue sj index value) (fun pa' =>
      pa'.bits = pa.bits ∧ pa'.length = pa.length ∧ pa'.arr.size = pa.arr.size ∧
      ∀ k, bitAt pa'.arr k =
        if pa.bits * index ≤ k ∧ k < pa.bits * index + pa.bits
        then value.getLsbD (pa.bits * index + pa.bits - 1 - k)
        else if k < pa.bits * index ∧ k / 64 = pa.bits * index / 64
        then (bitAt pa.arr k || value.getLsbD (pa.bits * index + pa.bits - 1 - k))
        else bitAt pa.arr k) := by
  obtain ⟨arr, len, bits⟩ := pa
  simp only at *
  have hlt : bits * index < 2 ^ 64 := by omega
  unfold PackedArray.setValue
  simp only []
  rw [Nat.mod_eq_of_lt hlt]
  generalize hB : bits * index = B at *
  have hB' : B = 64 * (B / 64) + B % 64 := by omega
  generalize hA : B / 64 = a at *
  generalize hO : B % 64 = o at *
  have ho : o < 64 := by omega
  simp only [Tot_ite, Tot_bind, Mem.Tot_rd, Mem.Tot_wr]
  constructor
  · intro hc
    have ha : a < arr.size := by omega
    have hs : 63 - o + 1 - bits < 64 := by omega
    refine ⟨ha, ?_⟩
    simp only [shl64, hs, if_true, Tot_ok]
    refine ⟨ha, by trivial, by trivial, by trivial, ?_⟩
    intro k
    simp only [bitAt, Mem.upd_data]
    by_cases hk : k / 64 = a
    · have hk64 : 63 - k % 64 < 64 := by omega
      simp only [hk, if_true, BitVec.getLsbD_or, BitVec.getLsbD_and, BitVec.getLsbD_not,
        bitMask_getLsbD _ (63 - o + 1) _ (by omega),
        bitMask_getLsbD _ (63 - o + 1 - bits) _ (by omega), BitVec.getLsbD_shiftLeft, hk64,
        decide_true, Bool.true_and]
      by_cases hin : B ≤ k ∧ k < B + bits
      · have e1 : 63 - k % 64 < 63 - o + 1 := by omega
        have e2 : ¬ (63 - k % 64 < 63 - o + 1 - bits) := by omega
        have e3 : 63 - k % 64 - (63 - o + 1 - bits) = B + bits - 1 - k := by omega
        simp [hin, e1, e2, e3]
      · simp only [hin, if_false]
        by_cases hge : k < B
        · have e1 : ¬ (63 - k % 64 < 63 - o + 1) := by omega
          have e3 : 63 - k % 64 - (63 - o + 1 - bits) = B + bits - 1 - k := by omega
          have e2 : ¬ (63 - k % 64 < 63 - o + 1 - bits) := by omega
          simp [e1, e2, hge, e3]
        · have e2 : (63 - k % 64 < 63 - o + 1 - bits) := by omega
          simp [e2, hge]
    · have : ¬ (B ≤ k ∧ k < B + bits) := by omega
      simp [hk, this]
  · intro hc
    have ha : a + 1 < arr.size := by omega
    have hs : bits - (63 - o + 1) < 64 := by omega
    have hs' : 64 - (bits - (63 - o + 1)) < 64 := by omega
    refine ⟨by omega, ?_⟩
    simp only [shl64, shr64, hs, hs', if_true, Tot_ok, Mem.upd_size]
    refine ⟨by omega, ha, ha, by trivial, by trivial, by trivial, ?_⟩
    intro k
    simp only [bitAt, Mem.upd_data]
    have hk64 : 63 - k % 64 < 64 := by omega
    by_cases hk1 : k / 64 = a + 1
    · have hne : ¬ (a + 1 = a) := by omega
      simp only [hk1, if_true, hne, if_false, BitVec.getLsbD_or, BitVec.getLsbD_and,
        BitVec.getLsbD_not, BitVec.getLsbD_shiftLeft, hk64, decide_true, Bool.true_and,
        BitVec.getLsbD_allOnes]
      by_cases hin : B ≤ k ∧ k < B + bits
      · have e1 : ¬ (63 - k % 64 < 64 - (bits - (63 - o + 1))) := by omega
        have e2 : 63 - k % 64 - (64 - (bits - (63 - o + 1))) < 64 := by omega
        have e3 : 63 - k % 64 - (64 - (bits - (63 - o + 1))) = B + bits - 1 - k := by omega
        simp [hin, e1, e3]
        omega
      · have e1 : (63 - k % 64 < 64 - (bits - (63 - o + 1))) := by omega
        simp [hin, e1]
    · by_cases hk : k / 64 = a
      · have hne : ¬ (a = a + 1) := by omega
        simp only [hk, if_true, hne, if_false, BitVec.getLsbD_or, BitVec.getLsbD_and,
          BitVec.getLsbD_not, bitMask_getLsbD _ (63 - o + 1) _ (by omega), hk64, decide_true,
          Bool.true_and, BitVec.getLsbD_ushiftRight]
        have e3 : bits - (63 - o + 1) + (63 - k % 64) = B + bits - 1 - k := by omega
        by_cases hin : B ≤ k ∧ k < B + bits
        · have e1 : 63 - k % 64 < 63 - o + 1 := by omega
          simp [hin, e1, e3]
        · have e1 : ¬ (63 - k % 64 < 63 - o + 1) := by omega
          have e2 : k < B := by omega
          simp [hin, e1, e2, e3]
      · have : ¬ (B ≤ k ∧ k < B + bits) := by omega
        simp [hk, hk1, this]

theorem setValue_any_cells {pa : PackedArray} (w : pa.WF) (sj : BitVec 64) {i : Nat} (hi : i < pa.length)
    (v : BitVec 64) :
    Tot (pa.setValue sj i v) (fun pa' => pa'.WF ∧ pa'.bits = pa.bits ∧ pa'.length = pa.length ∧
      pa'.arr.size = pa.arr.size ∧ (pa'.cell i).toNat = v.toNat % 2 ^ pa.bits ∧
      (∀ j, i < j → pa'.cell j = pa.cell j) ∧
      (∀ j, j < i → ∀ t < pa.bits, (pa'.cell j).getLsbD t =
        ((pa.cell j).getLsbD t || (decide ((pa.bits * j + pa.bits - 1 - t) / 64 = pa.bits * i / 64) &&
          v.getLsbD (pa.bits * (i - j) + t))))) := by
  refine (setValue_any sj pa i v w.b1 w.b64 (w.bound hi).1 (w.bound hi).2).mono ?_
  rintro pa' ⟨h1, h2, h3, h4⟩
  have b1 := w.b1
  refine ⟨⟨h1 ▸ w.b1, h1 ▸ w.b64, by rw [h1, h2]; exact w.nov, by rw [h1, h2, h3]; exact w.sz⟩,
    h1, h2, h3, ?_, ?_, ?_⟩
  · apply Nat.eq_of_testBit_eq
    intro j
    rw [Nat.testBit_mod_two_pow]
    show (pa'.cell i).getLsbD j = (decide (j < pa.bits) && v.getLsbD j)
    unfold PackedArray.cell
    rw [cellVal_getLsbD _ _ _ _ (h1 ▸ w.b64), h4, h1]
    by_cases hjb : j < pa.bits
    · have : pa.bits * i + pa.bits - 1 - (pa.bits * i + pa.bits - 1 - j) = j := by omega
      have h' : pa.bits * i ≤ pa.bits * i + pa.bits - 1 - j ∧
        pa.bits * i + pa.bits - 1 - j < pa.bits * i + pa.bits := by omega
      simp [hjb, h', this]
    · simp [hjb]
  · intro j hj
    apply BitVec.eq_of_getLsbD_eq
    intro t ht
    unfold PackedArray.cell
    rw [cellVal_getLsbD _ _ _ _ (h1 ▸ w.b64), cellVal_getLsbD _ _ _ _ w.b64, h4, h1]
    by_cases htb : t < pa.bits
    · have : pa.bits * (i + 1) ≤ pa.bits * j := Nat.mul_le_mul_left _ hj
      rw [Nat.mul_add] at this
      rw [if_neg (by omega), if_neg (by omega)]
    · simp [htb]
  · intro j hj t ht
    unfold PackedArray.cell
    rw [cellVal_getLsbD _ _ _ _ (h1 ▸ w.b64), cellVal_getLsbD _ _ _ _ w.b64, h4, h1]
    have h5 : pa.bits * (j + 1) ≤ pa.bits * i := Nat.mul_le_mul_left _ hj
    have h6 : pa.bits * (i - j) = pa.bits * i - pa.bits * j := Nat.mul_sub ..
    rw [Nat.mul_add] at h5
    rw [if_neg (by omega)]
    have h7 : pa.bits * i + pa.bits - 1 - (pa.bits * j + pa.bits - 1 - t) = pa.bits * (i - j) + t := by omega
    have h8 : pa.bits * j + pa.bits - 1 - t < pa.bits * i := by omega
    rw [h7]
    by_cases hw : (pa.bits * j + pa.bits - 1 - t) / 64 = pa.bits * i / 64
    · simp [hw, h8, ht]
    · simp [hw, ht]

/-- C60: storing a value that does not fit its cell is not detected. Whatever the value, the store does not fault; the
cell then reads as the value modulo 2^bits; cells with a higher index keep their value; a cell with a lower index
may only gain bits, and keeps its value if it lies entirely in another 64-bit word. -/
theorem C60_oversized_store (length bits : Nat) (junk : Nat → BitVec 64) (ops : List Store) (sj : BitVec 64)
    (h1 : 1 ≤ bits) (h2 : bits ≤ 64) (h3 : length * bits < 2 ^ 64)
    (hops : ∀ o ∈ ops, o.2.1 < length ∧ o.2.2.toNat < 2 ^ bits) (i : Nat) (hi : i < length) (value : BitVec 64) :
    ∃ pa pa', runStores (PackedArray.new length bits junk) ops = .ok pa ∧ pa.setValue sj i value = .ok pa' ∧
      (∀ sj', ∃ x, pa'.getValue sj' i = .ok x ∧ x.toNat = value.toNat % 2 ^ bits) ∧
      (∀ j sj', i < j → j < length → pa'.getValue sj' j = pa.getValue sj' j) ∧
      (∀ j sj', j < i → ∃ x y, pa.getValue sj' j = .ok x ∧ pa'.getValue sj' j = .ok y ∧ x &&& y = x ∧
        ((bits * j + bits - 1) / 64 < bits * i / 64 → y = x)) := by
  have w := PackedArray.new_wf length bits junk h1 h2 h3
  obtain ⟨pa, e, w', hl, hb, hc⟩ := Tot_iff.1 (runStores_spec ops _ w hops)
  have hl' : pa.length = length := hl
  have hb' : pa.bits = bits := hb
  obtain ⟨pa', e', w2, g1, g2, g3, g4, g5, g6⟩ := Tot_iff.1 (setValue_any_cells w' sj (i := i) (by omega) value)
  refine ⟨pa, pa', e, e', ?_, ?_, ?_⟩
  · intro sj'
    exact ⟨_, PackedArray.getValue_eq w2 sj' (by omega), by rw [g4, hb']⟩
  · intro j sj' hj hjl
    rw [PackedArray.getValue_eq w2 sj' (by omega), PackedArray.getValue_eq w' sj' (by omega), g5 j hj]
  · intro j sj' hj
    refine ⟨_, _, PackedArray.getValue_eq w' sj' (by omega), PackedArray.getValue_eq w2 sj' (by omega), ?_, ?_⟩
    · apply BitVec.eq_of_getLsbD_eq
      intro t ht
      rw [BitVec.getLsbD_and]
      by_cases htb : t < pa.bits
      · rw [g6 j hj t htb]
        cases (pa.cell j).getLsbD t <;> simp
      · have : (pa.cell j).getLsbD t = false := by
          unfold PackedArray.cell
          rw [cellVal_getLsbD _ _ _ _ w'.b64]; simp [htb]
        simp [this]
    · intro hword
      apply BitVec.eq_of_getLsbD_eq
      intro t ht
      by_cases htb : t < pa.bits
      · rw [g6 j hj t htb]
        have h9 : (pa.bits * j + pa.bits - 1 - t) / 64 ≤ (bits * j + bits - 1) / 64 := by
          rw [hb']; exact Nat.div_le_div_right (by omega)
        have h10 : ¬ (pa.bits * j + pa.bits - 1 - t) / 64 = pa.bits * i / 64 := by
          rw [hb'] at h9 ⊢; omega
        simp [h10]
      · unfold PackedArray.cell
        rw [cellVal_getLsbD _ _ _ _ w'.b64, cellVal_getLsbD _ _ _ _ w2.b64, g1]; simp [htb]

/-- C60: the corruption is real for every width below 64: after storing `x` at index `i - 1`, where cell `i` does not
begin at a multiple of 64 bits, storing a value whose bit number `bits` is set at index `i` makes the value at
index `i - 1` odd; for even `x` it is no longer the value stored. -/
theorem C60_left_neighbour_corrupted (length bits : Nat) (junk : Nat → BitVec 64) (sj x value : BitVec 64)
    (h1 : 1 ≤ bits) (h2 : bits < 64) (h3 : length * bits < 2 ^ 64) (i : Nat) (hi : i + 1 < length)
    (hx : x.toNat < 2 ^ bits) (hbit : value.getLsbD bits = true) (hw : bits * (i + 1) % 64 ≠ 0) :
    ∃ pa pa', (PackedArray.new length bits junk).setValue sj i x = .ok pa ∧ pa.getValue sj i = .ok x ∧
      pa.setValue sj (i + 1) value = .ok pa' ∧
      ∃ y, pa'.getValue sj i = .ok y ∧ y.toNat % 2 = 1 ∧ (x.toNat % 2 = 0 → y ≠ x) := by
  have w := PackedArray.new_wf length bits junk h1 (by omega) h3
  obtain ⟨pa, e, w', hb, hl, hc, -⟩ := Tot_iff.1 (PackedArray.setValue_tot w sj (i := i) (show i < length by omega) x hx)
  have hl' : pa.length = length := hl
  have hb' : pa.bits = bits := hb
  obtain ⟨pa', e', w2, g1, g2, g3, g4, g5, g6⟩ := Tot_iff.1 (setValue_any_cells w' sj (i := i + 1) (by omega) value)
  refine ⟨pa, pa', e, by rw [PackedArray.getValue_eq w' sj (by omega), hc], e', _,
    PackedArray.getValue_eq w2 sj (by omega), ?_⟩
  have hodd : (pa'.cell i).toNat % 2 = 1 := by
    have h := g6 i (by omega) 0 (by omega)
    have h8 : (pa.bits * i + pa.bits - 1 - 0) / 64 = pa.bits * (i + 1) / 64 := by
      rw [hb']
      rw [Nat.mul_add] at hw ⊢
      omega
    rw [show i + 1 - i = 1 by omega, hb'] at h
    simp only [Nat.mul_one, Nat.add_zero, hbit] at h
    rw [hb'] at h8
    rw [h8] at h
    simp [BitVec.getLsbD] at h
    exact h
  exact ⟨hodd, fun hx0 hxy => by rw [hxy] at hodd; omega⟩

example : ∃ pa pa', (PackedArray.new 3 40 (fun _ => 0)).setValue 0 0 6 = .ok pa ∧ pa.getValue 0 0 = .ok 6 ∧
      pa.setValue 0 1 (1 <<< 40) = .ok pa' ∧
      ∃ y, pa'.getValue 0 0 = .ok y ∧ y.toNat % 2 = 1 ∧ ((6 : BitVec 64).toNat % 2 = 0 → y ≠ 6) :=
  C60_left_neighbour_corrupted 3 40 _ 0 6 (1 <<< 40) (by decide) (by decide) (by decide) 0 (by decide) (by decide)
    (by decide) (by decide)

example := C60_oversized_store 3 40 (fun _ => 0xAA) [(0, 0, 5), (0, 2, 9)] 0 (by decide) (by decide) (by decide)
  (by decide) 1 (by decide) (BitVec.allOnes 64)

end Flbwt
