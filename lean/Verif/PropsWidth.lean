import Verif.PropsMisuse

/-!
# Property C69: constructor arguments of `PackedArray` and `Queue` that cannot be used

Neither constructor checks its arguments. C10–C14 need a width from 1 to 64 and `length * bits < 2^64`; here is what happens
otherwise.
-/

namespace Flbwt

open HashTable (ok_bind)

/-- the error of a shift by 64 or more -/
abbrev badShift {α : Type} : M α := .error (.ub .badShift)

theorem err_bind {α β : Type} (e : Err) (f : α → M β) : ((.error e : M α) >>= f) = .error e := rfl

theorem setValue_shape {sj : BitVec 64} {pa pa' : PackedArray} {i : Nat} {v : BitVec 64} (h : pa.setValue sj i v = .ok pa') :
    pa'.bits = pa.bits ∧ pa'.length = pa.length ∧ pa'.arr.size = pa.arr.size := by
  unfold PackedArray.setValue at h
  dsimp only at h
  split at h
  · obtain ⟨a, _, h⟩ := bind_ok_inv h
    obtain ⟨b, _, h⟩ := bind_ok_inv h
    obtain ⟨c, hc, h⟩ := bind_ok_inv h
    injection h with h
    subst h
    refine ⟨rfl, rfl, ?_⟩
    unfold Mem.wr at hc
    split at hc
    · injection hc with hc; subst hc; rfl
    · cases hc
  · obtain ⟨a, _, h⟩ := bind_ok_inv h
    obtain ⟨b, _, h⟩ := bind_ok_inv h
    obtain ⟨c, hc, h⟩ := bind_ok_inv h
    obtain ⟨d, _, h⟩ := bind_ok_inv h
    obtain ⟨e, _, h⟩ := bind_ok_inv h
    obtain ⟨f, _, h⟩ := bind_ok_inv h
    obtain ⟨g, hg, h⟩ := bind_ok_inv h
    injection h with h
    subst h
    refine ⟨rfl, rfl, ?_⟩
    unfold Mem.wr at hc hg
    split at hc
    · injection hc with hc
      subst hc
      split at hg
      · injection hg with hg; subst hg; rfl
      · cases hg
    · cases hc

theorem runStores_shape : ∀ (ops : List Store) {pa pa' : PackedArray}, runStores pa ops = .ok pa' →
    pa'.bits = pa.bits ∧ pa'.length = pa.length ∧ pa'.arr.size = pa.arr.size
  | [], pa, pa', h => by
    rw [runStores] at h
    injection h with h
    subst h
    exact ⟨rfl, rfl, rfl⟩
  | (sj, i, v) :: ops, pa, pa', h => by
    rw [runStores] at h
    obtain ⟨p, h1, h2⟩ := bind_ok_inv h
    obtain ⟨a1, a2, a3⟩ := setValue_shape h1
    obtain ⟨b1, b2, b3⟩ := runStores_shape ops h2
    exact ⟨b1.trans a1, b2.trans a2, b3.trans a3⟩

/-- **C69** width 0: every store and every read, at any index, shifts a 64 bit value by 64 (undefined behaviour). -/
theorem C69_width_zero (length : Nat) (junk : Nat → BitVec 64) (sj : BitVec 64) (i : Nat) (v : BitVec 64) :
    (PackedArray.new length 0 junk).setValue sj i v = badShift ∧ (PackedArray.new length 0 junk).getValue sj i = badShift := by
  have e : 0 * i % 2 ^ 64 = 0 := by rw [Nat.zero_mul, Nat.zero_mod]
  constructor
  · unfold PackedArray.setValue PackedArray.new
    simp only [e]
    rw [if_pos (by omega), Mem.rd_ok _ (by simp), ok_bind]
    rfl
  · unfold PackedArray.getValue getBits PackedArray.new
    simp only [e]
    rw [if_pos (by omega), Mem.rd_ok _ (by simp), ok_bind]
    rfl

theorem wide_fault {sj : BitVec 64} {pa : PackedArray} {i : Nat} (hov : pa.bits * i < 2 ^ 64)
    (ho : 128 ≤ pa.bits + pa.bits * i % 64) (hs : pa.bits * i / 64 < pa.arr.size) (v : BitVec 64) :
    pa.setValue sj i v = badShift ∧ pa.getValue sj i = badShift := by
  have hm : pa.bits * i % 2 ^ 64 = pa.bits * i := Nat.mod_eq_of_lt hov
  have hlt : pa.bits * i % 64 < 64 := Nat.mod_lt _ (by decide)
  constructor
  · unfold PackedArray.setValue
    simp only [hm]
    rw [if_neg (by omega), Mem.rd_ok _ hs, ok_bind]
    unfold shr64
    rw [if_neg (by omega)]
    rfl
  · unfold PackedArray.getValue getBits
    simp only [hm]
    rw [if_neg (by omega), Mem.rd_ok _ hs, ok_bind]
    unfold shl64
    rw [if_neg (by omega)]
    rfl

theorem wide_total {sj : BitVec 64} {pa : PackedArray} {i w : Nat} (hi : i < 1000) (h1 : 65 ≤ w) (h2 : w ≤ 255) (hw : pa.bits = w)
    (hs : pa.arr.size = 1024 * w % 2 ^ 64 / 64 + 1) (v : BitVec 64) :
    (∃ pa', pa.setValue sj i v = .ok pa') ∨ pa.setValue sj i v = badShift := by
  have hm : w * i ≤ w * 1000 := Nat.mul_le_mul_left _ (by omega)
  have e : w * i % 2 ^ 64 = w * i := Nat.mod_eq_of_lt (by omega)
  have e2 : 1024 * w % 2 ^ 64 = 1024 * w := Nat.mod_eq_of_lt (by omega)
  rw [e2] at hs
  unfold PackedArray.setValue
  simp only [hw, e]
  have ho : w * i % 64 < 64 := Nat.mod_lt _ (by decide)
  rw [if_neg (by omega), Mem.rd_ok _ (by rw [hs]; omega), ok_bind]
  unfold shr64 shl64
  by_cases hc : w - (63 - w * i % 64 + 1) < 64
  · left
    rw [if_pos hc, ok_bind, Mem.wr_ok _ _ (by rw [hs]; omega), ok_bind, if_pos (by omega), ok_bind,
      Mem.rd_ok _ (by show _ < pa.arr.size; rw [hs]; omega), ok_bind, if_pos (by omega), ok_bind,
      Mem.wr_ok _ _ (by show _ < pa.arr.size; rw [hs]; omega), ok_bind]
    exact ⟨_, rfl⟩
  · right
    rw [if_neg hc]
    rfl

theorem wide_index {bits : Nat} (hb : 65 ≤ bits) : 128 ≤ bits + bits * (63 / (bits - 64)) % 64 := by
  obtain ⟨d, rfl⟩ : ∃ d, bits = d + 65 := ⟨bits - 65, by omega⟩
  have e1 : d + 65 - 64 = d + 1 := by omega
  rw [e1]
  have h1 : (d + 1) * (63 / (d + 1)) ≤ 63 := Nat.mul_div_le _ _
  have h2 : 63 < (d + 1) * (63 / (d + 1)) + (d + 1) := by
    have := Nat.lt_mul_div_succ 63 (show 0 < d + 1 by omega)
    rwa [Nat.mul_add, Nat.mul_one] at this
  generalize hq : 63 / (d + 1) = q at *
  have e2 : (d + 65) * q = 64 * q + (d + 1) * q := by rw [show d + 65 = 64 + (d + 1) by omega, Nat.add_mul]
  rw [e2]
  generalize (d + 1) * q = x at *
  omega

/-- **C69** a width above 64 (the type of the argument allows up to 255): whatever was stored before, the store to and the read
of cell `63 / (bits - 64)`, one of the first 64, shift by 64 or more (undefined behaviour). -/
theorem C69_too_wide (length bits : Nat) (junk : Nat → BitVec 64) (hb : 65 ≤ bits) (hl : 64 ≤ length)
    (hov : length * bits < 2 ^ 64) (ops : List Store) {pa : PackedArray}
    (e : runStores (PackedArray.new length bits junk) ops = .ok pa) (sj v : BitVec 64) :
    pa.setValue sj (63 / (bits - 64)) v = badShift ∧ pa.getValue sj (63 / (bits - 64)) = badShift := by
  obtain ⟨h1, _, h3⟩ := runStores_shape ops e
  have h1' : pa.bits = bits := h1
  have h3' : pa.arr.size = length * bits / 64 + 1 := by
    rw [h3]; simp only [PackedArray.new]; rw [Nat.mod_eq_of_lt hov]
  have hi : 63 / (bits - 64) ≤ 63 := Nat.div_le_self _ _
  have hm : bits * (63 / (bits - 64)) ≤ length * bits := by
    rw [Nat.mul_comm length]; exact Nat.mul_le_mul_left _ (by omega)
  have hd := Nat.div_le_div_right (c := 64) hm
  refine wide_fault (by rw [h1']; omega) (by rw [h1']; exact wide_index hb) ?_ v
  rw [h1', h3']
  omega

/-- **C69** an array of `2^64` bits or more: the number of bits wraps around, the memory requested is too small, and there is an
index below the length at which a store is outside the memory (as long as the wrapped number of bits is not within 128 of
`2^64`). -/
theorem C69_length_wraps (length bits : Nat) (junk : Nat → BitVec 64) (h1 : 1 ≤ bits) (h2 : bits ≤ 64)
    (hov : 2 ^ 64 ≤ length * bits) (hw : length * bits % 2 ^ 64 + 128 ≤ 2 ^ 64) (ops : List Store) {pa : PackedArray}
    (e : runStores (PackedArray.new length bits junk) ops = .ok pa) :
    ∃ i, i < length ∧ ∀ sj v, pa.setValue sj i v = .error (.ub .outOfBounds) ∧ pa.getValue sj i = .error (.ub .outOfBounds) := by
  obtain ⟨g1, _, g3⟩ := runStores_shape ops e
  have g1' : pa.bits = bits := g1
  have g3' : pa.arr.size = length * bits % 2 ^ 64 / 64 + 1 := g3
  generalize hS : length * bits % 2 ^ 64 / 64 + 1 = S at g3'
  have hS2 : 64 * S + 64 ≤ 2 ^ 64 := by omega
  -- the first cell that begins at or after the end of the memory
  have hi1 : 64 * S ≤ bits * ((64 * S + bits - 1) / bits) := by
    have := Nat.lt_mul_div_succ (64 * S + bits - 1) (show 0 < bits by omega)
    rw [Nat.mul_add, Nat.mul_one] at this
    omega
  have hi2 : bits * ((64 * S + bits - 1) / bits) ≤ 64 * S + bits - 1 := Nat.mul_div_le _ _
  generalize hI : (64 * S + bits - 1) / bits = i at hi1 hi2
  have hlt : bits * i < 2 ^ 64 := by omega
  have hm : bits * i % 2 ^ 64 = bits * i := Nat.mod_eq_of_lt hlt
  have hlen : i < length := by
    by_contra hc
    have : length * bits ≤ bits * i := by rw [Nat.mul_comm length]; exact Nat.mul_le_mul_left _ (by omega)
    omega
  have hout : ¬ bits * i / 64 < pa.arr.size := by rw [g3']; omega
  have hrd : pa.arr.rd (bits * i / 64) = .error (.ub .outOfBounds) := by
    unfold Mem.rd; rw [if_neg hout]
  refine ⟨i, hlen, fun sj v => ⟨?_, ?_⟩⟩
  · unfold PackedArray.setValue
    simp only [g1', hm, hrd]
    split <;> rfl
  · unfold PackedArray.getValue getBits
    simp only [g1', hm, hrd]
    split <;> rfl

/-! ## Queues -/

namespace Queue

/-- Enqueue the values one after the other. -/
def enqueueAll (sj : BitVec 64) : Queue → List (BitVec 64) → M Queue
  | q, [] => .ok q
  | q, x :: l => q.enqueue sj x >>= fun q => enqueueAll sj q l

/-- **C69** `Queue(0)`: the first `enqueue` and the first `enqueue_l` shift by 64. -/
theorem C69_queue_width_zero (junk : Nat → Nat → BitVec 64) (sj x : BitVec 64) :
    (Queue.new 0 junk).enqueue sj x = badShift ∧ (Queue.new 0 junk).enqueueL sj x = badShift := by
  have h0 := (C69_width_zero 1024 (junk 0) sj 0 x).1
  have h1 := (C69_width_zero 1024 (junk 0) sj 1023 x).1
  constructor
  · simp only [enqueue, growBack, new, if_true, ok_bind, deref, heapSet, toIdx]
    rw [if_pos (by decide), ok_bind]
    simp only [show ((-1 : Int) + 1).toNat = 0 from rfl]
    rw [show PackedArray.new QSIZ 0 (junk 0) = PackedArray.new 1024 0 (junk 0) from rfl, h0]
    rfl
  · simp only [enqueueL, growFront, new, if_true, ok_bind, deref, heapSet, toIdx]
    rw [if_pos (by decide), ok_bind]
    rw [show ((QSIZ : Int) - 1).toNat = 1023 from rfl]
    rw [show PackedArray.new QSIZ 0 (junk 0) = PackedArray.new 1024 0 (junk 0) from rfl, h1]
    rfl

/-- after `k` values, `1 ≤ k`, in the first block -/
structure First (q : Queue) (w k : Nat) : Prop where
  width : q.w = w
  eb : q.eb = some 0
  eofs : q.eOfs = (k : Int) - 1
  blk : ∃ p n b, q.heap 0 = some ⟨p, n, b⟩ ∧ b.bits = w ∧ b.arr.size = 1024 * w % 2 ^ 64 / 64 + 1

theorem first_step {sj x : BitVec 64} {q : Queue} {w k : Nat} (f : First q w k) (h1 : 65 ≤ w) (h2 : w ≤ 255) (hk : k < 1000) :
    (∃ q', q.enqueue sj x = .ok q' ∧ First q' w (k + 1)) ∨ q.enqueue sj x = badShift := by
  obtain ⟨p, n, b, hb, hw, hs⟩ := f.blk
  unfold enqueue growBack
  rw [if_neg (by rw [f.eofs]; simp only [QSIZ]; omega), ok_bind, f.eb]
  simp only [deref, hb, ok_bind, f.eofs, show ((k : Int) - 1 + 1) = k by omega, toIdx, Int.natCast_nonneg, if_true,
    Int.toNat_natCast]
  rcases wide_total (sj := sj) (pa := b) (i := k) hk h1 h2 hw hs x with ⟨b', e⟩ | e
  · left
    rw [e]
    obtain ⟨g1, _, g3⟩ := setValue_shape e
    exact ⟨_, rfl, f.width, rfl, by simp only; omega, p, n, b', by simp [heapSet], g1.trans hw, g3.trans hs⟩
  · right
    rw [e]
    rfl

theorem first_fault {sj x : BitVec 64} {q : Queue} {w k : Nat} (f : First q w k) (h1 : 65 ≤ w) (h2 : w ≤ 255)
    (hk : k = 63 / (w - 64)) : q.enqueue sj x = badShift := by
  obtain ⟨p, n, b, hb, hw, hs⟩ := f.blk
  have h63 : k ≤ 63 := by rw [hk]; exact Nat.div_le_self _ _
  unfold enqueue growBack
  rw [if_neg (by rw [f.eofs]; simp only [QSIZ]; omega), ok_bind, f.eb]
  simp only [deref, hb, ok_bind, f.eofs, show ((k : Int) - 1 + 1) = k by omega, toIdx, Int.natCast_nonneg, if_true,
    Int.toNat_natCast]
  have hm : w * k ≤ w * 63 := Nat.mul_le_mul_left _ h63
  rw [(wide_fault (sj := sj) (pa := b) (i := k) (by rw [hw]; omega) (by rw [hw, hk]; exact wide_index h1)
    (by rw [hw, hs]; omega) x).1]
  rfl

theorem first_start {sj x : BitVec 64} {junk : Nat → Nat → BitVec 64} {w : Nat} (h1 : 65 ≤ w) (h2 : w ≤ 255) :
    (∃ q', (Queue.new w junk).enqueue sj x = .ok q' ∧ First q' w 1) ∨ (Queue.new w junk).enqueue sj x = badShift := by
  simp only [enqueue, growBack, new, if_true, ok_bind, deref, heapSet, toIdx]
  rw [if_pos (by decide), ok_bind]
  rcases wide_total (sj := sj) (pa := PackedArray.new QSIZ w (junk 0)) (i := ((-1 : Int) + 1).toNat) (w := w) (by decide) h1 h2 rfl
    rfl x with ⟨b', e⟩ | e
  · left
    rw [e]
    obtain ⟨g1, _, g3⟩ := setValue_shape e
    exact ⟨_, rfl, rfl, rfl, rfl, none, none, b', by simp [heapSet], g1, g3⟩
  · right
    rw [e]
    rfl

theorem start_fault {sj x : BitVec 64} {junk : Nat → Nat → BitVec 64} {w : Nat} (h1 : 65 ≤ w)
    (h0 : 63 / (w - 64) = 0) : (Queue.new w junk).enqueue sj x = badShift := by
  have hi := wide_index h1
  rw [h0] at hi
  simp only [enqueue, growBack, new, if_true, ok_bind, deref, heapSet, toIdx]
  rw [if_pos (by decide), ok_bind]
  have := (wide_fault (sj := sj) (pa := PackedArray.new QSIZ w (junk 0)) (i := ((-1 : Int) + 1).toNat)
    (by show w * 0 < _; omega) (by show 128 ≤ w + w * 0 % 64; exact hi) (by show w * 0 / 64 < _ / 64 + 1; omega) x).1
  rw [this]
  rfl

theorem first_run {sj : BitVec 64} {w : Nat} (h1 : 65 ≤ w) (h2 : w ≤ 255) : ∀ (xs : List (BitVec 64)) (q : Queue) (k : Nat),
    First q w k → k ≤ 63 / (w - 64) → 63 / (w - 64) < k + xs.length → enqueueAll sj q xs = badShift
  | [], q, k, f, hk, hl => by simp at hl; omega
  | x :: xs, q, k, f, hk, hl => by
    have h63 : 63 / (w - 64) ≤ 63 := Nat.div_le_self _ _
    rw [enqueueAll]
    by_cases e : k = 63 / (w - 64)
    · rw [first_fault f h1 h2 e]; rfl
    · rcases first_step (sj := sj) (x := x) f h1 h2 (by omega) with ⟨q', e', f'⟩ | e'
      · rw [e', ok_bind]
        exact first_run h1 h2 xs q' (k + 1) f' (by omega) (by simp at hl; omega)
      · rw [e']; rfl

/-- **C69** `Queue(w)` with a width above 64: before 64 values have been enqueued, some `enqueue` shifts by 64 or more. -/
theorem C69_queue_too_wide {w : Nat} (h1 : 65 ≤ w) (h2 : w ≤ 255) (junk : Nat → Nat → BitVec 64) (sj : BitVec 64)
    (xs : List (BitVec 64)) (hl : 64 ≤ xs.length) : enqueueAll sj (Queue.new w junk) xs = badShift := by
  match xs, hl with
  | x :: xs, hl =>
    have h63 : 63 / (w - 64) ≤ 63 := Nat.div_le_self _ _
    rw [enqueueAll]
    by_cases h0 : 63 / (w - 64) = 0
    · rw [start_fault h1 h0]; rfl
    · rcases first_start (sj := sj) (x := x) (junk := junk) h1 h2 with ⟨q', e', f'⟩ | e'
      · rw [e', ok_bind]
        exact first_run h1 h2 xs q' 1 f' (Nat.pos_of_ne_zero h0) (by rw [List.length_cons] at hl; omega)
      · rw [e']; rfl

end Queue

/-! ## The hypotheses are met -/

/-- one cell of width 0 -/
example : (PackedArray.new 1 0 fun _ => 0).setValue 0 0 1 = badShift := (C69_width_zero 1 _ 0 0 1).1

/-- a hundred cells of 80 bits, after three stores: cell 3 -/
example : ∃ pa, runStores (PackedArray.new 100 80 fun _ => 0) [(0, 0, 7), (0, 1, 8), (0, 2, 9)] = .ok pa ∧
    pa.setValue 0 3 1 = badShift := by
  have h : (∃ pa, runStores (PackedArray.new 100 80 fun _ => 0) [(0, 0, 7), (0, 1, 8), (0, 2, 9)] = .ok pa) := ⟨_, rfl⟩
  obtain ⟨pa, e⟩ := h
  exact ⟨pa, e, (C69_too_wide 100 80 _ (by decide) (by decide) (by decide) _ e 0 1).1⟩

/-- `2^61 + 5` cells of 8 bits -/
example : ∃ i, i < 2 ^ 61 + 5 ∧ ∀ sj v, (PackedArray.new (2 ^ 61 + 5) 8 fun _ => 0).setValue sj i v = .error (.ub .outOfBounds) := by
  obtain ⟨i, h, g⟩ := C69_length_wraps (2 ^ 61 + 5) 8 (fun _ => 0) (by decide) (by decide) (by decide) (by decide) [] rfl
  exact ⟨i, h, fun sj v => (g sj v).1⟩

example : Queue.enqueueAll 0 (Queue.new 65 fun _ _ => 0) (List.replicate 64 1) = badShift :=
  Queue.C69_queue_too_wide (by decide) (by decide) _ _ _ (by decide)

end Flbwt
