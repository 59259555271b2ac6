import Verif.BwtSpec

/-!
# Specification of the file format, and its decoder
-/

namespace Flbwt

/-- A 64 bit number as 8 bytes, the most significant first. -/
def bigEndian8 (v : Nat) : List Nat := (List.range 8).map fun i => v / 256 ^ (7 - i) % 256

/-- The number with the given big endian digits. -/
def fromBigEndian (l : List Nat) : Nat := l.foldl (fun a b => a * 256 + b) 0

/-- `bytes` is the file that represents `s`: the row of the whole string in 8 bytes, then the transform without this row. -/
def FileFormat (s bytes : List Nat) : Prop :=
  ∃ b last, IsBWT s b last ∧ bytes = bigEndian8 last ++ rowsWithout s.length b last

/-- The decoder a user can write: read `last`, put the missing row back, walk. -/
def decodeFile (bytes : List Nat) : List Nat :=
  let last := fromBigEndian (bytes.take 8)
  let rows := bytes.drop 8
  invert rows.length (fun r => if r < last then rows.getD r 0 else rows.getD (r - 1) 0) last

theorem fromBigEndian_bigEndian8 {v : Nat} (h : v < 2 ^ 64) : fromBigEndian (bigEndian8 v) = v := by
  simp only [bigEndian8, fromBigEndian, List.range_succ, List.range_zero, List.nil_append, List.cons_append, List.map_cons,
    List.map_nil, List.foldl_cons, List.foldl_nil]
  omega

theorem bigEndian8_length (v : Nat) : (bigEndian8 v).length = 8 := by simp [bigEndian8]

theorem rowsWithout_split {n last : Nat} (b : Nat → Nat) (h : last ≤ n) :
    rowsWithout n b last = (List.range last).map b ++ (List.range (n - last)).map (fun i => b (last + 1 + i)) := by
  have e : n + 1 = last + (1 + (n - last)) := by omega
  have h1 : (List.range last).filter (fun r => decide (r ≠ last)) = List.range last := by
    rw [List.filter_eq_self]; intro a ha; have := List.mem_range.1 ha; simp; omega
  unfold rowsWithout
  rw [e, List.range_add, List.filter_append, List.map_append, h1]
  congr 1
  rw [List.range_add, List.map_append, List.filter_append, List.map_append]
  have h2 : ((List.range 1).map (fun x => last + x)).filter (fun r => decide (r ≠ last)) = [] := by
    rw [List.filter_eq_nil_iff]; simp
  rw [h2, List.filter_eq_self.2]
  · rw [List.map_map, List.map_map, List.map_nil, List.nil_append]
    apply List.map_congr_left
    intro a _
    simp only [Function.comp_apply]
    congr 1
    omega
  · intro a ha
    simp only [List.map_map, List.mem_map, List.mem_range, Function.comp_apply] at ha
    obtain ⟨x, _, rfl⟩ := ha
    simp

theorem rowsWithout_length {n last : Nat} (b : Nat → Nat) (h : last ≤ n) : (rowsWithout n b last).length = n := by
  rw [rowsWithout_split b h]; simp; omega

theorem rowsWithout_getD {n last r : Nat} (b : Nat → Nat) (h : last ≤ n) (hr : r ≤ n) (hne : r ≠ last) :
    (if r < last then (rowsWithout n b last).getD r 0 else (rowsWithout n b last).getD (r - 1) 0) = b r := by
  have hl := rowsWithout_length b h
  by_cases hlt : r < last
  · rw [if_pos hlt, getD_lt (by omega)]
    simp only [rowsWithout_split b h]
    rw [List.getElem_append_left (by simpa using hlt)]
    simp
  · rw [if_neg hlt, getD_lt (by omega)]
    simp only [rowsWithout_split b h]
    rw [List.getElem_append_right (by simp; omega)]
    simp only [List.length_map, List.length_range, List.getElem_map, List.getElem_range]
    congr 1; omega

/-- The decoder inverts the format. -/
theorem FileFormat.decode {s bytes : List Nat} (h : FileFormat s bytes) (hn : s.length < 2 ^ 64) : decodeFile bytes = s := by
  obtain ⟨b, last, hb, rfl⟩ := h
  have hl := hb.last_lt
  unfold decodeFile
  simp only
  rw [List.take_append_of_le_length (by rw [bigEndian8_length]), List.take_of_length_le (by rw [bigEndian8_length]),
    List.drop_append_of_le_length (by rw [bigEndian8_length]), List.drop_of_length_le (by rw [bigEndian8_length]),
    List.nil_append, fromBigEndian_bigEndian8 (by omega), rowsWithout_length b (by omega)]
  exact (hb.congr (fun r h1 h2 => (rowsWithout_getD b (by omega) h1 h2).symm)).invert

/-- The file is determined by the string. -/
theorem FileFormat.unique {s x y : List Nat} (hx : FileFormat s x) (hy : FileFormat s y) : x = y := by
  obtain ⟨b, l, hb, rfl⟩ := hx
  obtain ⟨b', l', hb', rfl⟩ := hy
  obtain ⟨rfl, h⟩ := hb.unique hb'
  congr 1
  unfold rowsWithout
  apply List.map_congr_left
  intro r hr
  simp only [List.mem_filter, List.mem_range, decide_eq_true_iff] at hr
  exact h r (by omega) hr.2

end Flbwt
