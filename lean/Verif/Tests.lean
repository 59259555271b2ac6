import Verif.PropsLast
import Verif.PropsLayout
import Verif.PropsFront

/-!
# The unit tests of the repository, run on the model

These are tests, not proofs of properties: they show that the model behaves like the program on the inputs of
`/repo/test`. The expectations are the literals of the tests. They are evaluated by Lean's kernel.
-/

namespace Flbwt.Tests

def text (s : String) : Mem Nat := ⟨s.length + 1, fun i => (s.toList.map Char.toNat).getD i 0⟩

/-! ## test/utitily_test.cpp -/

example : positionOfMsb 7 = .ok 3 := by rfl
example : positionOfMsb 0xffffffffffffffff = .ok 64 := by rfl

/-! ## test/packed_array_test.cpp -/

example : positionOfMsb 100 = .ok 7 := by rfl
example (j : Nat → BitVec 64) : (PackedArray.new 10 7 j).length = 10 ∧ (PackedArray.new 10 7 j).bits = 7 := ⟨rfl, rfl⟩

/-- result of a computation, with a default -/
def val {α : Type} (d : α) : M α → α
  | .ok a => a
  | .error _ => d

/-- `words k` of the array after the stores -/
def words (len bits : Nat) (ops : List (Nat × Nat)) (k : Nat) : BitVec 64 :=
  match runStores (PackedArray.new len bits (fun _ => 0x5a5a5a5a5a5a5a5a)) (ops.map (fun o => (0x123, o.1, BitVec.ofNat 64 o.2))) with
  | .ok pa => pa.arr.data k
  | .error _ => 0

-- set_value_8bit
example : words 10 8 [(0, 1), (1, 10), (2, 100), (7, 28), (9, 255)] 0 &&& 0xFFFFFF00000000FF = 0x010A64000000001C := by decide +kernel
example : words 10 8 [(0, 1), (1, 10), (2, 100), (7, 28), (9, 255)] 1 &&& 0x00FF000000000000 = 0x00ff000000000000 := by decide +kernel
-- set_value_24bit
example : words 10 24 [(0, 1), (1, 10), (2, 15728638), (3, 28), (9, 16777215)] 0 = 0x00000100000AEFFF := by decide +kernel
example : words 10 24 [(0, 1), (1, 10), (2, 15728638), (3, 28), (9, 16777215)] 1 &&& 0xFFFFFFFF00000000 = 0xFE00001C00000000 := by decide +kernel
example : words 10 24 [(0, 1), (1, 10), (2, 15728638), (3, 28), (9, 16777215)] 3 &&& 0x000000FFFFFF0000 = 0x000000FFFFFF0000 := by decide +kernel
-- set_value_40bit
example : words 10 40 [(0, 1), (1, 10), (2, 15728638), (3, 28), (9, 1099511627775)] 0 = 0x0000000001000000 := by decide +kernel
example : words 10 40 [(0, 1), (1, 10), (2, 15728638), (3, 28), (9, 1099511627775)] 1 = 0x000A0000EFFFFE00 := by decide +kernel
example : words 10 40 [(0, 1), (1, 10), (2, 15728638), (3, 28), (9, 1099511627775)] 2 &&& 0xFFFFFFFF00000000 = 0x0000001C00000000 := by decide +kernel
example : words 10 40 [(0, 1), (1, 10), (2, 15728638), (3, 28), (9, 1099511627775)] 5 &&& 0x0000000000FFFFFF = 0x0000000000FFFFFF := by decide +kernel
example : words 10 40 [(0, 1), (1, 10), (2, 15728638), (3, 28), (9, 1099511627775)] 6 &&& 0xFFFF000000000000 = 0xFFFF000000000000 := by decide +kernel
-- set_value_48bit
example : words 10 48 [(0, 1), (1, 10), (2, 15728638), (3, 28), (9, 281474976710655)] 2 = 0xFFFE00000000001C := by decide +kernel

/-! ## test/hashtable_test.cpp -/

-- construct_hashtable_1
example : (val none (some <$> HashTable.new 100 15)).map (fun h => (h.htsize, h.head.data 0, h.rest.data 99, h.buf.size, h.bufsize)) =
    some (100, 0, 0, 0, 0) := by rfl

-- hash_function_1
example : HashTable.hashFunction 100 (text "mmississiippii$") 4 2 = .ok 40 := by rfl
example : HashTable.hashFunction 100 (text "mmississiippii$") 4 5 = .ok 40 := by rfl
example : HashTable.hashFunction 100 (text "mmississiippii$") 7 8 = .ok 80 := by rfl

-- get_length_1, get_length_2
example : HashTable.getLength ⟨100, fun i => if i = 0 then 3 else 123⟩ 0 = .ok 8092539 := by rfl
example : HashTable.getLength ⟨100, fun i => if i = 0 then 8 else 0xff⟩ 0 = .ok 0xffffffffffffffff := by rfl

/-- the first `k` bytes of the buffer -/
def bytes (k : Nat) : M (Mem Nat) → List Nat
  | .ok b => (List.range k).map b.data
  | .error _ => []

/-- what `malloc` returned -/
def junk (i : Nat) : Nat := (17 * i + 90) % 256

-- set_length_1
example : bytes 4 (HashTable.setLength ⟨100, junk⟩ 0 0xfeffef) = [3, 0xfe, 0xff, 0xef] := by decide +kernel

-- set_length_2 expects 0 in the bytes 2 and 3, but they are whatever `malloc` returned (C18)
example : bytes 4 (HashTable.setLength ⟨100, junk⟩ 0 0xfe0000) = [3, 0xfe, junk 2, junk 3] := by decide +kernel
example : bytes 4 (HashTable.setLength ⟨100, fun _ => 0⟩ 0 0xfe0000) = [3, 0xfe, 0, 0] := by decide +kernel

-- string_info_length_1, string_info_length_2
example : (HashTable.setLength ⟨100, junk⟩ 0 0xff >>= fun b => HashTable.stringInfoLength 2 b 0 0xff) =
    .ok (1 + 1 + 1 + 0xff + 2) := by decide +kernel
example : (HashTable.setLength ⟨0xffff, junk⟩ 0 0xffee >>= fun b => HashTable.stringInfoLength 2 b 0 0xffee) =
    .ok (1 + 1 + 2 + 0xffee + 2) := by decide +kernel

-- get_pointer_1, set_pointer_1
example : HashTable.getPointer ⟨255, fun i => [1, 2, 1, 2, 3, 4, 5, 6, 7, 8].getD i 0⟩ 0 = .ok 72623859790382856 := by rfl
example : bytes 10 (HashTable.setPointer ⟨255, junk⟩ 0 72623859790382856) = [1, 2, 1, 2, 3, 4, 5, 6, 7, 8] := by decide +kernel

/-- the calls of insert_string_1: results and the final `bufsize` -/
def inserts (junk : Fresh) (T : Mem Nat) : List (Nat × Nat) → HashTable → M (List Nat × Nat)
  | [], ht => .ok ([], ht.bufsize)
  | (m, p) :: l, ht => do
    let r ← HashTable.insertString junk ht T m p
    let x ← inserts junk T l r.1
    .ok (r.2 :: x.1, x.2)

-- insert_string_1
example : (HashTable.new 10 76 >>= fun h =>
    inserts ⟨fun i => 3 * i + 1, 100000⟩ (text "mmississiippii$mmississiippii$mmississiippii$mmississiippii$mmississiippii$")
      [(3, 0), (4, 1), (3, 2), (4, 3), (3, 4), (4, 5), (4, 5)] { h with hbsize := 100 }) =
    .ok ([1, 1, 1, 1, 1, 1, 0], 430) := by decide +kernel

-- get_lenlen, calculate_lenlen
example (j : Nat → Nat) : HashTable.getLenlen ⟨255, fun i => if i = 0 then 3 else j i⟩ 0 = .ok 3 := by rfl
example : HashTable.calculateLenlen 0xaabbccddee = .ok 5 := by rfl

-- get_name_1, set_name_1
example : HashTable.getName 2 ⟨255, fun i => [1, 1, 90, 107, 1, 2].getD i 0⟩ 0 = .ok 0x0102 := by decide +kernel
example : (bytes 6 (HashTable.setName 2 ⟨255, fun i => if i < 2 then 1 else junk i⟩ 0 0xdead)).drop 4 = [0xde, 0xad] := by decide +kernel

-- get_first_character_pointer_1
example (j : Nat → Nat) : HashTable.getFirstCharacterPointer ⟨255, fun i => if i = 0 ∨ i = 1 then 1 else j i⟩ 0 = .ok 3 := by rfl

/-! ## test/sais40bit_test.cpp -/

/-- `set_40bit_value(L, U, 0, v); set_40bit_value(L, U, 1, -v)`, then both values -/
def two40 (v : Int) : Int × Int :=
  let s := SaStore.put (SaStore.put (SaStore.fresh 5 (fun i => BitVec.ofNat 64 (junk i)) : S40) 0 v) 1 (-v)
  (SaStore.get s 0, SaStore.get s 1)

example : two40 1 = (1, -1) := by decide +kernel
example : two40 3 = (3, -3) := by decide +kernel
example : two40 7 = (7, -7) := by decide +kernel
example : two40 15 = (15, -15) := by decide +kernel
example : two40 0xffffffff = (0xffffffff, -0xffffffff) := by decide +kernel
example : two40 5047149423 = (5047149423, -5047149423) := by decide +kernel
-- set_40bit_value_7: ~x = -x-1
example : (two40 (-5047149423 - 1)).1 = -5047149423 - 1 ∧ (two40 (-(5047149423 - 1))).2 = 5047149423 - 1 := by decide +kernel

/-! ## test/flbwt_test.cpp -/

-- extract_LMS_strings_1
example : (val none (some <$> extractLMS ⟨fun i => 3 * i + 1, 100000⟩ (text "mmississiippii$") 15)).map
    (fun c => (c.numSubs, c.numUnique, c.headEnd)) = some (3, 2, 2) := by decide +kernel

-- extract_LMS_strings_2
example : (val none (some <$> extractLMS ⟨fun i => 3 * i + 1, 100000⟩
    (text "issasissssssssssssssssssssssssssssssssssssssssssssssssssssssssss$") 65)).map
    (fun c => (c.numSubs, c.numUnique)) = some (2, 2) := by decide +kernel

/-- "mmississiippii$" -/
def mississippi : List Nat := [109, 109, 105, 115, 115, 105, 115, 115, 105, 105, 112, 112, 105, 105, 36]

-- bwt_string_1
example (w : World) (hs : w.sorter = insSort) (hj : w.junk = ⟨fun i => 3 * i + 1, 40000000⟩) :
    ∃ r T', bwtString w (some (cString mississippi)) 15 false = .ok (some r, T') ∧ r.last = 9 ∧
      (List.range 16).map r.bwt.data = "$iipsismmnpissii".toList.map Char.toNat := by
  have hb : IsBWT mississippi (fun i => ("$iipsismmnpissii".toList.map Char.toNat).getD i 0) 9 :=
    ⟨[15, 14, 13, 12, 8, 9, 5, 2, 1, 0, 11, 10, 7, 4, 6, 3], ⟨by decide +kernel, by decide +kernel⟩, by decide +kernel⟩
  obtain ⟨r, o, e, h, u⟩ := C64_row_last w (T := cString mississippi) (s := mississippi)
    (by rw [hs, hj]
        exact ⟨by decide, by decide, by decide, cString_holds _, insSort_ok, lengthsSafe_short _ (by decide), by decide⟩) false
  obtain ⟨h1, h2⟩ := h.unique hb
  refine ⟨r, o, e, h1, ?_⟩
  have h9 : r.bwt.data 9 = 110 := by rw [← h1]; exact u.1 (by decide +kernel)
  have : ∀ i, i < 16 → r.bwt.data i = ("$iipsismmnpissii".toList.map Char.toNat).getD i 0 := by
    intro i hi
    by_cases h9' : i = 9
    · subst h9'; exact h9
    · exact h2 i (by simp [mississippi]; omega) (by rw [h1]; exact h9')
  rw [List.map_congr_left (fun i hi => this i (List.mem_range.1 hi))]
  decide +kernel

end Flbwt.Tests
