import Verif.PropsFileHeap
import Verif.PtrModel

/-!
# The checks of the model fire

The memory safety theorems (C06, C27, C29, C47 …) say that no run of the model ends in a fault. They mean something only
if the primitive operations of the model do fault on every access that C++ would not allow. These theorems state that,
primitive by primitive: an access outside the block, a store of a value that does not fit, a release of a block that is
not live or was requested with another operator, a shift by 64 or more, a use of an absent block, of a pointer into a
buffer that has been reallocated. (They are about the model, not about the code, and are listed under no property.)
-/

namespace Flbwt

open SaStore

/-- reads and writes of blocks -/
theorem check_mem {α : Type} (m : Mem α) (i : Nat) (v : α) :
    (m.size ≤ i → m.rd i = .error (.ub .outOfBounds) ∧ m.wr i v = .error (.ub .outOfBounds)) ∧
    (i < m.size → m.rd i = .ok (m.data i) ∧ m.wr i v = .ok ⟨m.size, fun j => if j = i then v else m.data j⟩) := by
  refine ⟨fun h => ?_, fun h => ?_⟩
  · unfold Mem.rd Mem.wr
    rw [if_neg (by omega), if_neg (by omega)]; exact ⟨rfl, rfl⟩
  · unfold Mem.rd Mem.wr
    rw [if_pos h, if_pos h]; exact ⟨rfl, rfl⟩

/-- shifts by 64 or more, and the position of the highest bit of zero -/
theorem check_shift (x : BitVec 64) (s : Nat) (h : 64 ≤ s) :
    shl64 x s = .error (.ub .badShift) ∧ shr64 x s = .error (.ub .badShift) ∧ positionOfMsb 0 = .error (.ub .badShift) := by
  unfold shl64 shr64 positionOfMsb
  rw [if_neg (by omega), if_neg (by omega), if_pos rfl]
  exact ⟨rfl, rfl, rfl⟩

/-- An access of the suffix array code is in bounds: at `off + i` of the caller's array, or at `i` of a counter block. -/
def PtrOk {S : Type} [SaStore S] (s : St S) (p : Ptr) (i : Int) : Prop :=
  match p with
  | .sa off => 0 ≤ (off : Int) + i ∧ (off : Int) + i < size s.sa
  | .hp => 0 ≤ i ∧ i < size s.hp

/-- loads of the suffix array code fault exactly outside the array -/
theorem check_ld {S : Type} [SaStore S] (s : St S) (p : Ptr) (i : Int) :
    s.ld p i = .error (.ub .outOfBounds) ↔ ¬ PtrOk s p i := by
  cases p with
  | sa off =>
    simp only [St.ld, PtrOk]
    split
    · rename_i h; simp only [reduceCtorEq, false_iff, not_not]; omega
    · rename_i h; simp only [true_iff]; omega
  | hp =>
    simp only [St.ld, PtrOk]
    split
    · rename_i h; simp only [reduceCtorEq, false_iff, not_not]; omega
    · rename_i h; simp only [true_iff]; omega

/-- stores of the suffix array code fault exactly outside the array and for values outside the signed range of the width -/
theorem check_st {S : Type} [SaStore S] (s : St S) (p : Ptr) (i v : Int) :
    (∃ s', s.st p i v = .ok s') ↔ PtrOk s p i ∧ -(2 : Int) ^ (width S - 1) ≤ v ∧ v < (2 : Int) ^ (width S - 1) := by
  have hf : (-(2 : Int) ^ (width S - 1) ≤ v ∧ v < (2 : Int) ^ (width S - 1)) ↔ Fit S v := Iff.rfl
  rw [hf]
  by_cases h : Fit S v
  · cases p with
    | sa off =>
      simp only [St.st, PtrOk, h, and_true, if_true]
      refine ⟨fun ⟨s', k⟩ => ?_, fun k => ⟨_, if_pos (by omega)⟩⟩
      split at k
      · omega
      · simp at k
    | hp =>
      simp only [St.st, PtrOk, h, and_true, if_true]
      refine ⟨fun ⟨s', k⟩ => ?_, fun k => ⟨_, if_pos (by omega)⟩⟩
      split at k
      · omega
      · simp at k
  · simp [St.st, h]

/-- The macro `chr` outside the text in the array. -/
theorem check_chr {S : Type} [SaStore S] (base : Nat) (sj : BitVec 64) (s : St S) (i : Int)
    (h : i < 0 ∨ (size s.sa : Int) ≤ base + i) :
    chr { txt := .ptr base, cs := width S, sj := sj } s i = .error (.ub .outOfBounds) := by
  unfold chr
  rw [if_pos (by rfl)]
  simp only
  rw [if_neg (by omega)]

/-- The macro `chr` outside an integer array of the caller; of a packed text it can read entry 0 (`chr(-1)`) but nothing before. -/
theorem check_chr_ints {S : Type} [SaStore S] (a : Mem Nat) (arr : Mem (BitVec 64)) (cs : Nat) (sj : BitVec 64) (s : St S) (i : Int) :
    (i < 0 ∨ (a.size : Int) ≤ i → chr { txt := .ints a, cs := width S, sj := sj } s i = .error (.ub .outOfBounds)) ∧
    (cs ≠ width S → chr { txt := .ints a, cs := cs, sj := sj } s i = .error (.ub .typeConfusion)) ∧
    (cs ≠ width S → i < -1 → chr { txt := .packed arr, cs := cs, sj := sj } s i = .error (.ub .outOfBounds)) := by
  unfold chr
  refine ⟨fun h => ?_, fun h => by rw [if_neg h], fun h hi => ?_⟩
  · rw [if_pos (by rfl)]
    simp only
    split
    · unfold Mem.rd
      rw [if_neg (by omega)]
      rfl
    · rfl
  · rw [if_neg h]
    simp only
    rw [if_neg (by omega)]

/-- Reading the packed text as an integer array or the other way round. -/
theorem check_chr_kind {S : Type} [SaStore S] (base cs : Nat) (arr : Mem (BitVec 64)) (sj : BitVec 64) (s : St S) (i : Int) :
    chr { txt := .packed arr, cs := width S, sj := sj } s i = .error (.ub .typeConfusion) ∧
    (cs ≠ width S → chr { txt := .ptr base, cs := cs, sj := sj } s i = .error (.ub .typeConfusion)) := by
  unfold chr
  refine ⟨by rw [if_pos (by rfl)], fun h => by rw [if_neg h]⟩

/-- the queue: null or released block, negative offset -/
theorem check_queue (q : Queue) (a : Nat) (i : Int) :
    q.deref none = .error (.ub .nullDeref) ∧ (q.heap a = none → q.deref (some a) = .error (.ub .nullDeref)) ∧
    (i < 0 → Queue.toIdx i = .error (.ub .outOfBounds)) := by
  refine ⟨rfl, fun h => by simp [Queue.deref, h], fun h => by unfold Queue.toIdx; rw [if_neg (by omega)]⟩

/-- a null hash buffer, an empty table, a pointer before the buffer -/
theorem check_buffer (junk : Fresh) (buf : Mem Nat) (k : Nat) (q : Int) (T : Mem Nat) (p : Nat) :
    (junk.lim < k ∨ 2 ^ 63 ≤ k → reallocBytes junk buf k = .error (.ub .nullDeref)) ∧
    (q < 0 ∨ (buf.size : Int) ≤ q → rdPtr buf q = .error (.ub .outOfBounds)) ∧
    HashTable.hashFunction 0 T 0 p = .error (.ub .divByZero) := by
  refine ⟨fun h => ?_, fun h => ?_, rfl⟩
  · unfold reallocBytes
    rw [if_neg (by unfold Fresh.Room; omega)]
  · unfold rdPtr
    by_cases h0 : 0 ≤ q
    · rw [if_pos h0]
      exact ((check_mem buf q.toNat 0).1 (by omega)).1
    · rw [if_neg h0]

/-- The suffix array of `bwt_is`: a value that does not fit. -/
theorem check_putC {S : Type} [SaStore S] (sa : S) (i : Nat) (v : Int)
    (h : v < -(2 : Int) ^ (width S - 1) ∨ (2 : Int) ^ (width S - 1) ≤ v) : putC sa i v = .error (.ub .overflow) := by
  unfold putC
  rw [if_neg]
  intro g
  have g1 : -(2 : Int) ^ (width S - 1) ≤ v := g.1
  have g2 : v < (2 : Int) ^ (width S - 1) := g.2
  omega

/-- `fread` into a block that is too small -/
theorem check_fread (h : Host) (size : Nat) (got : List Nat) (hlt : size < got.length) :
    freadBlock h size got = .error (.ub .outOfBounds) := by
  unfold freadBlock
  rw [if_neg (by omega)]

/-- the heap: releasing a block that is not live, or with another operator than it was requested with; using the null
pointer that `malloc` returned -/
theorem check_heap (f : Fam) (b : Blk) (h : Heap) :
    ((b.role.fam ≠ f ∨ h.live b = 0) → freeB f b h = (.error .badFree, h)) ∧
    nonNull false h = (.error (.prog (.ub .nullDeref)), h) := by
  refine ⟨fun g => ?_, rfl⟩
  unfold freeB
  by_cases hf : b.role.fam = f
  · rw [if_pos hf, if_neg (by rcases g with g | g <;> [exact absurd hf g; omega])]
  · rw [if_neg hf]

/-- a pointer into a buffer that has been reallocated since -/
theorem check_stale (p q : BPtr) (g : Nat) :
    (p.gen ≠ g → p.use g = .error .stale) ∧ (p.gen ≠ q.gen → p.lt q = .error .stale) := by
  refine ⟨fun h => by unfold BPtr.use; rw [if_neg h], fun h => by unfold BPtr.lt; rw [if_neg h]⟩

/-- releasing more blocks or streams than there are (model of `bwt_file`) -/
theorem check_file (s : FState) (k : Nat) :
    (s.blocks < k → FileM.dealloc k s = (.error (.ub .badFree), s)) ∧
    (s.streams = 0 → FileM.close s = (.error (.ub .badFree), s)) := by
  refine ⟨fun h => by unfold FileM.dealloc; rw [if_neg (by omega)], fun h => by unfold FileM.close; rw [if_neg (by omega)]⟩

/-- unsigned 64 bit arithmetic wraps around -/
theorem check_wrap (a b : Nat) (ha : a < 2 ^ 64) (hb : b < 2 ^ 64) :
    incU64 a = (a + 1) % 2 ^ 64 ∧ Queue.decU64 a = (a + 2 ^ 64 - 1) % 2 ^ 64 ∧ subU64 a b = (a + 2 ^ 64 - b) % 2 ^ 64 := by
  refine ⟨?_, ?_, ?_⟩
  · unfold incU64; split <;> omega
  · unfold Queue.decU64; split <;> omega
  · unfold subU64; split <;> omega

/-- the widths of the five instances, of their elements and of the local variables -/
theorem check_widths :
    (width S32 = 32 ∧ locBits S32 = 32) ∧ (width S40 = 40 ∧ locBits S40 = 64) ∧ (width S48 = 48 ∧ locBits S48 = 64) ∧
    (width S56 = 56 ∧ locBits S56 = 64) ∧ (width S64 = 64 ∧ locBits S64 = 64) := by
  refine ⟨⟨rfl, rfl⟩, ⟨rfl, rfl⟩, ⟨rfl, rfl⟩, ⟨rfl, rfl⟩, ⟨rfl, rfl⟩⟩

end Flbwt
