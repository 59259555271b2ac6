import Verif.Base

/-!
# Model of `src/packed_array.cpp`, `include/packed_array.hpp`, `include/utility.hpp`
-/

namespace Flbwt

/-- `position_of_msb` (include/utility.hpp:14-17): `64 - __builtin_clzl(n)`. For `n ≠ 0`, `clzl n` is
`63 - ⌊log₂ n⌋`; `__builtin_clzl(0)` is undefined. -/
def positionOfMsb (n : Nat) : M Nat :=
  if n = 0 then .error (.ub .badShift) else .ok (64 - (63 - Nat.log2 n))

/-- `x >> s` on `uint64_t` where the shift may be out of range: then the result is `junk`
(formally undefined behaviour; every value is considered possible). The shift in `BIT_MASK`, include/packed_array.hpp:8-10. -/
def shrAny (junk x : BitVec 64) (s : Nat) : BitVec 64 := if s < 64 then x >>> s else junk

/-- `x << s`, out-of-range shifts are a fault. Shifts in src/packed_array.cpp:43, 50-51, 76 and src/sais32bit.cpp:30. -/
def shl64 (x : BitVec 64) (s : Nat) : M (BitVec 64) :=
  if s < 64 then .ok (x <<< s) else .error (.ub .badShift)

/-- `x >> s`, out-of-range shifts are a fault. Shifts in src/packed_array.cpp:49, 70, 77 and src/sais32bit.cpp:24, 31. -/
def shr64 (x : BitVec 64) (s : Nat) : M (BitVec 64) :=
  if s < 64 then .ok (x >>> s) else .error (.ub .badShift)

/-- `BIT_MASK(uint64_t, cnt)` (include/packed_array.hpp:8-10):
`((uint64_t)(-(cnt != 0))) & (((uint64_t)-1) >> (64 - cnt))`. For `cnt = 0` the shift is by 64. -/
def bitMask (sj : BitVec 64) (cnt : Nat) : BitVec 64 :=
  (if cnt ≠ 0 then BitVec.allOnes 64 else 0#64) &&& shrAny sj (BitVec.allOnes 64) (64 - cnt)

/-- `class PackedArray` (include/packed_array.hpp:17-75). The field `arr_length` is `arr.size`. -/
structure PackedArray where
  arr : Mem (BitVec 64)
  length : Nat
  bits : Nat

/-- Constructor (src/packed_array.cpp:6-16). `malloc` returns memory with contents `junk`. -/
def PackedArray.new (length bits : Nat) (junk : Nat → BitVec 64) : PackedArray :=
  let bitsRequired := length * bits % 2 ^ 64
  { arr := ⟨bitsRequired / 64 + 1, junk⟩, length := length, bits := bits }

/-- `set_value` (src/packed_array.cpp:28-53). `sj` is the result of the out-of-range shift in
`BIT_MASK(…, 0)`. -/
def PackedArray.setValue (sj : BitVec 64) (pa : PackedArray) (index : Nat) (value : BitVec 64) :
    M PackedArray := do
  let arrIndex := (pa.bits * index % 2 ^ 64) / 64
  let bitIndex := 63 - (pa.bits * index % 2 ^ 64) % 64
  let bitmask1 := bitMask sj (bitIndex + 1)
  if bitIndex + 1 ≥ pa.bits then
    let bitmask2 := bitMask sj (bitIndex + 1 - pa.bits)
    let bitmask1 := bitmask1 &&& ~~~bitmask2
    let shift := bitIndex + 1 - pa.bits
    let old ← pa.arr.rd arrIndex
    let v ← shl64 value shift
    let arr ← pa.arr.wr arrIndex ((old &&& ~~~bitmask1) ||| v)
    .ok { pa with arr := arr }
  else
    let wfp := bitIndex + 1
    let wsp := pa.bits - wfp
    let old ← pa.arr.rd arrIndex
    let v ← shr64 value wsp
    let arr ← pa.arr.wr arrIndex ((old &&& ~~~bitmask1) ||| v)
    let bitmask2 ← shl64 (BitVec.allOnes 64) (64 - wsp)
    let old2 ← arr.rd (arrIndex + 1)
    let v2 ← shl64 value (64 - wsp)
    let arr ← arr.wr (arrIndex + 1) ((old2 &&& ~~~bitmask2) ||| v2)
    .ok { pa with arr := arr }

/-- The body of `PackedArray::get_value` (src/packed_array.cpp:55-81). The `get2` functions of all five
`sais*bit.cpp` (e.g. src/sais32bit.cpp:9-35) are the same code on a raw pointer, so they share this model. -/
def getBits (sj : BitVec 64) (arr : Mem (BitVec 64)) (bits index : Nat) : M (BitVec 64) := do
  let arrIndex := (bits * index % 2 ^ 64) / 64
  let bitIndex := 63 - (bits * index % 2 ^ 64) % 64
  if bitIndex + 1 ≥ bits then
    let bitmask1 := bitMask sj bits
    let shift := bitIndex + 1 - bits
    let w ← arr.rd arrIndex
    let s ← shr64 w shift
    .ok (s &&& bitmask1)
  else
    let bitmask1 := bitMask sj (bitIndex + 1)
    let shift := bits - bitIndex - 1
    let w ← arr.rd arrIndex
    let hi ← shl64 (w &&& bitmask1) shift
    let w2 ← arr.rd (arrIndex + 1)
    let lo ← shr64 w2 (64 - shift)
    .ok (hi ||| lo)

/-- `get_value` (src/packed_array.cpp:55-81). -/
def PackedArray.getValue (sj : BitVec 64) (pa : PackedArray) (index : Nat) : M (BitVec 64) :=
  getBits sj pa.arr pa.bits index

/-! ## Proofs -/

theorem bitMask_getLsbD (sj : BitVec 64) (cnt j : Nat) (h : cnt ≤ 64) :
    (bitMask sj cnt).getLsbD j = decide (j < cnt) := by
  unfold bitMask shrAny
  by_cases h0 : cnt = 0
  · subst h0; simp
  · have : 64 - cnt < 64 := by omega
    simp only [h0, this, ne_eq, not_false_eq_true, if_true, BitVec.allOnes_and,
      BitVec.getLsbD_ushiftRight, BitVec.getLsbD_allOnes, decide_eq_decide]
    omega

/-- The `k`-th bit of the stream of words, most significant bit of word 0 first. Used in proofs only. -/
def bitAt (arr : Mem (BitVec 64)) (k : Nat) : Bool := (arr.data (k / 64)).getLsbD (63 - k % 64)

theorem getBits_spec (sj : BitVec 64) (arr : Mem (BitVec 64)) (bits index : Nat)
    (hb1 : 1 ≤ bits) (hb : bits ≤ 64) (hov : bits * index + bits ≤ 2 ^ 64)
    (hsz : (bits * index + bits - 1) / 64 < arr.size) :
    Tot (getBits sj arr bits index) (fun v =>
      ∀ j, v.getLsbD j = (decide (j < bits) && bitAt arr (bits * index + bits - 1 - j))) := by
  have hlt : bits * index < 2 ^ 64 := by omega
  unfold getBits
  rw [Nat.mod_eq_of_lt hlt]
  generalize hB : bits * index = B at *
  have hB' : B = 64 * (B / 64) + B % 64 := by omega
  generalize hA : B / 64 = a at *
  generalize hO : B % 64 = o at *
  have ho : o < 64 := by omega
  simp only [Tot_ite, Tot_bind, Mem.Tot_rd]
  constructor
  · intro hc
    have ha : a < arr.size := by omega
    have hs : 63 - o + 1 - bits < 64 := by omega
    refine ⟨ha, ?_⟩
    simp only [shr64, hs, if_true, Tot_ok]
    intro j
    simp only [BitVec.getLsbD_and, bitMask_getLsbD _ _ _ hb, BitVec.getLsbD_ushiftRight]
    by_cases hj : j < bits
    · have e1 : (B + bits - 1 - j) / 64 = a := by omega
      have e2 : 63 - (B + bits - 1 - j) % 64 = 63 - o + 1 - bits + j := by omega
      simp only [hj, decide_true, Bool.and_true, Bool.true_and, bitAt, e1, e2]
    · simp [hj]
  · intro hc
    have ha : a + 1 < arr.size := by omega
    have hs : bits - (63 - o) - 1 < 64 := by omega
    have hs' : 64 - (bits - (63 - o) - 1) < 64 := by omega
    refine ⟨by omega, ?_⟩
    simp only [shl64, hs, if_true, Tot_ok, shr64, hs']
    refine ⟨ha, ?_⟩
    intro j
    simp only [BitVec.getLsbD_or, BitVec.getLsbD_and, BitVec.getLsbD_shiftLeft,
      bitMask_getLsbD _ (63 - o + 1) _ (by omega), BitVec.getLsbD_ushiftRight]
    by_cases hj : j < bits
    · by_cases hlow : j < bits - (63 - o) - 1
      · have h1 : (arr.data (a + 1)).getLsbD (64 - (bits - (63 - o) - 1) + j)
            = bitAt arr (B + bits - 1 - j) := by
          have e1 : (B + bits - 1 - j) / 64 = a + 1 := by omega
          have e2 : 63 - (B + bits - 1 - j) % 64 = 64 - (bits - (63 - o) - 1) + j := by omega
          simp only [bitAt, e1, e2]
        simp [hlow, hj, h1]
      · have h1 : (arr.data a).getLsbD (j - (bits - (63 - o) - 1))
            = bitAt arr (B + bits - 1 - j) := by
          have e1 : (B + bits - 1 - j) / 64 = a := by omega
          have e2 : 63 - (B + bits - 1 - j) % 64 = j - (bits - (63 - o) - 1) := by omega
          simp only [bitAt, e1, e2]
        have h2 : (arr.data (a + 1)).getLsbD (64 - (bits - (63 - o) - 1) + j) = false := by
          apply BitVec.getLsbD_of_ge; omega
        have h3 : j < 64 := by omega
        have h4 : j - (bits - (63 - o) - 1) < 63 - o + 1 := by omega
        simp [hlow, hj, h1, h2, h3, h4]
    · have h2 : (arr.data (a + 1)).getLsbD (64 - (bits - (63 - o) - 1) + j) = false := by
        apply BitVec.getLsbD_of_ge; omega
      by_cases h3 : j < 64
      · have h4 : ¬ j - (bits - (63 - o) - 1) < 63 - o + 1 := by omega
        simp [hj, h2, h4]
      · simp [hj, h2, h3]

theorem setValue_spec (sj : BitVec 64) (pa : PackedArray) (index : Nat) (value : BitVec 64)
    (hb1 : 1 ≤ pa.bits) (hb : pa.bits ≤ 64) (hov : pa.bits * index + pa.bits ≤ 2 ^ 64)
    (hsz : (pa.bits * index + pa.bits - 1) / 64 < pa.arr.size)
    (hv : value.toNat < 2 ^ pa.bits) :
    Tot (pa.setValue sj index value) (fun pa' =>
      pa'.bits = pa.bits ∧ pa'.length = pa.length ∧ pa'.arr.size = pa.arr.size ∧
      ∀ k, bitAt pa'.arr k =
        if pa.bits * index ≤ k ∧ k < pa.bits * index + pa.bits
        then value.getLsbD (pa.bits * index + pa.bits - 1 - k) else bitAt pa.arr k) := by
  obtain ⟨arr, len, bits⟩ := pa
  simp only at *
  have hlt : bits * index < 2 ^ 64 := by omega
  have hvj : ∀ j, bits ≤ j → value.getLsbD j = false := by
    intro j hj
    have : value.toNat < 2 ^ j := Nat.lt_of_lt_of_le hv (Nat.pow_le_pow_right (by decide) hj)
    rw [BitVec.getLsbD, Nat.testBit_lt_two_pow this]
  unfold PackedArray.setValue
  simp only []
  rw [Nat.mod_eq_of_lt hlt]
  generalize hB : bits * index = B at *
  have hB' : B = 64 * (B / 64) + B % 64 := by omega
  generalize hA : B / 64 = a at *
  generalize hO : B % 64 = o at *
  have ho : o < 64 := by omega
  simp only [Tot_ite, Tot_bind, Mem.Tot_rd, Mem.Tot_wr]
  constructor
  · intro hc
    have ha : a < arr.size := by omega
    have hs : 63 - o + 1 - bits < 64 := by omega
    refine ⟨ha, ?_⟩
    simp only [shl64, hs, if_true, Tot_ok]
    refine ⟨ha, by trivial, by trivial, by trivial, ?_⟩
    intro k
    simp only [bitAt, Mem.upd_data]
    by_cases hk : k / 64 = a
    · have hk64 : 63 - k % 64 < 64 := by omega
      simp only [hk, if_true, BitVec.getLsbD_or, BitVec.getLsbD_and, BitVec.getLsbD_not,
        bitMask_getLsbD _ (63 - o + 1) _ (by omega),
        bitMask_getLsbD _ (63 - o + 1 - bits) _ (by omega), BitVec.getLsbD_shiftLeft, hk64,
        decide_true, Bool.true_and]
      by_cases hin : B ≤ k ∧ k < B + bits
      · have e1 : 63 - k % 64 < 63 - o + 1 := by omega
        have e2 : ¬ (63 - k % 64 < 63 - o + 1 - bits) := by omega
        have e3 : 63 - k % 64 - (63 - o + 1 - bits) = B + bits - 1 - k := by omega
        simp [hin, e1, e2, e3]
      · simp only [hin, if_false]
        by_cases hge : k < B
        · have e1 : ¬ (63 - k % 64 < 63 - o + 1) := by omega
          have e2 : value.getLsbD (63 - k % 64 - (63 - o + 1 - bits)) = false := by
            apply hvj; omega
          simp [e1, e2]
        · have e2 : (63 - k % 64 < 63 - o + 1 - bits) := by omega
          simp [e2]
    · have : ¬ (B ≤ k ∧ k < B + bits) := by omega
      simp [hk, this]
  · intro hc
    have ha : a + 1 < arr.size := by omega
    have hs : bits - (63 - o + 1) < 64 := by omega
    have hs' : 64 - (bits - (63 - o + 1)) < 64 := by omega
    refine ⟨by omega, ?_⟩
    simp only [shl64, shr64, hs, hs', if_true, Tot_ok, Mem.upd_size]
    refine ⟨by omega, ha, ha, by trivial, by trivial, by trivial, ?_⟩
    intro k
    simp only [bitAt, Mem.upd_data]
    have hk64 : 63 - k % 64 < 64 := by omega
    by_cases hk1 : k / 64 = a + 1
    · have hne : ¬ (a + 1 = a) := by omega
      simp only [hk1, if_true, hne, if_false, BitVec.getLsbD_or, BitVec.getLsbD_and,
        BitVec.getLsbD_not, BitVec.getLsbD_shiftLeft, hk64, decide_true, Bool.true_and,
        BitVec.getLsbD_allOnes]
      by_cases hin : B ≤ k ∧ k < B + bits
      · have e1 : ¬ (63 - k % 64 < 64 - (bits - (63 - o + 1))) := by omega
        have e2 : 63 - k % 64 - (64 - (bits - (63 - o + 1))) < 64 := by omega
        have e3 : 63 - k % 64 - (64 - (bits - (63 - o + 1))) = B + bits - 1 - k := by omega
        simp [hin, e1, e3]
        omega
      · have e1 : (63 - k % 64 < 64 - (bits - (63 - o + 1))) := by omega
        simp [hin, e1]
    · by_cases hk : k / 64 = a
      · have hne : ¬ (a = a + 1) := by omega
        simp only [hk, if_true, hne, if_false, BitVec.getLsbD_or, BitVec.getLsbD_and,
          BitVec.getLsbD_not, bitMask_getLsbD _ (63 - o + 1) _ (by omega), hk64, decide_true,
          Bool.true_and, BitVec.getLsbD_ushiftRight]
        by_cases hin : B ≤ k ∧ k < B + bits
        · have e1 : 63 - k % 64 < 63 - o + 1 := by omega
          have e3 : bits - (63 - o + 1) + (63 - k % 64) = B + bits - 1 - k := by omega
          simp [hin, e1, e3]
        · have e1 : ¬ (63 - k % 64 < 63 - o + 1) := by omega
          have e2 : value.getLsbD (bits - (63 - o + 1) + (63 - k % 64)) = false := by
            apply hvj; omega
          simp [hin, e1, e2]
      · have : ¬ (B ≤ k ∧ k < B + bits) := by omega
        simp [hk, hk1, this]

/-- The number whose binary digits, most significant first, are the `k` bits starting at bit `start`. Used in proofs only. -/
def readBits (arr : Mem (BitVec 64)) (start : Nat) : Nat → Nat
  | 0 => 0
  | k + 1 => 2 * readBits arr start k + (bitAt arr (start + k)).toNat

theorem readBits_testBit (arr : Mem (BitVec 64)) (start k j : Nat) :
    (readBits arr start k).testBit j = (decide (j < k) && bitAt arr (start + k - 1 - j)) := by
  induction k generalizing j with
  | zero => simp [readBits]
  | succ k ih =>
    cases j with
    | zero =>
      have e : start + (k + 1) - 1 - 0 = start + k := by omega
      rw [e]
      simp only [readBits, Nat.testBit_zero]
      cases bitAt arr (start + k) <;> simp
    | succ j =>
      rw [Nat.testBit_succ]
      have : readBits arr start (k + 1) / 2 = readBits arr start k := by
        simp only [readBits]
        cases bitAt arr (start + k) <;> simp <;> omega
      rw [this, ih]
      have e : start + k - 1 - j = start + (k + 1) - 1 - (j + 1) := by omega
      rw [e]
      congr 1
      simp

theorem readBits_lt (arr : Mem (BitVec 64)) (start k : Nat) : readBits arr start k < 2 ^ k := by
  induction k with
  | zero => simp [readBits]
  | succ k ih =>
    simp only [readBits, Nat.pow_succ]
    cases bitAt arr (start + k) <;> simp <;> omega

/-- The abstract contents of a packed array: the unsigned value in cell `i`. Used in proofs only. -/
def cellVal (arr : Mem (BitVec 64)) (bits i : Nat) : BitVec 64 :=
  BitVec.ofNat 64 (readBits arr (bits * i) bits)

theorem cellVal_getLsbD (arr : Mem (BitVec 64)) (bits i j : Nat) (hb : bits ≤ 64) :
    (cellVal arr bits i).getLsbD j = (decide (j < bits) && bitAt arr (bits * i + bits - 1 - j)) := by
  unfold cellVal
  rw [BitVec.getLsbD_ofNat, readBits_testBit]
  by_cases h : j < 64
  · simp [h]
  · have : ¬ j < bits := by omega
    simp [this]

theorem getBits_cellVal (sj : BitVec 64) (arr : Mem (BitVec 64)) (bits index : Nat)
    (hb1 : 1 ≤ bits) (hb : bits ≤ 64) (hov : bits * index + bits ≤ 2 ^ 64)
    (hsz : (bits * index + bits - 1) / 64 < arr.size) :
    getBits sj arr bits index = .ok (cellVal arr bits index) := by
  apply Tot.eq_ok
  refine (getBits_spec sj arr bits index hb1 hb hov hsz).mono ?_
  intro v hv
  apply BitVec.eq_of_getLsbD_eq
  intro j _
  rw [hv, cellVal_getLsbD _ _ _ _ hb]

theorem cellVal_lt (arr : Mem (BitVec 64)) (bits i : Nat) :
    (cellVal arr bits i).toNat < 2 ^ bits := by
  unfold cellVal
  rw [BitVec.toNat_ofNat]
  exact Nat.lt_of_le_of_lt (Nat.mod_le _ _) (readBits_lt _ _ _)

/-- Well-formed packed array: what the constructor establishes when `length * bits` does not overflow.
Used in proofs only (constructor: src/packed_array.cpp:6-16). -/
structure PackedArray.WF (pa : PackedArray) : Prop where
  b1 : 1 ≤ pa.bits
  b64 : pa.bits ≤ 64
  nov : pa.length * pa.bits < 2 ^ 64
  sz : pa.arr.size = pa.length * pa.bits / 64 + 1

theorem PackedArray.WF.bound {pa : PackedArray} (w : pa.WF) {i : Nat} (hi : i < pa.length) :
    pa.bits * i + pa.bits ≤ 2 ^ 64 ∧ (pa.bits * i + pa.bits - 1) / 64 < pa.arr.size := by
  obtain ⟨b1, b64, nov, sz⟩ := w
  have h1 : pa.bits * i + pa.bits ≤ pa.length * pa.bits := by
    have : pa.bits * (i + 1) ≤ pa.bits * pa.length := Nat.mul_le_mul_left _ hi
    rw [Nat.mul_comm pa.length]; rw [Nat.mul_add] at this; omega
  constructor
  · omega
  · rw [sz]
    have := Nat.div_le_div_right (c := 64) (show pa.bits * i + pa.bits - 1 ≤ pa.length * pa.bits by omega)
    omega

/-- abstract contents. Used in proofs only. -/
def PackedArray.cell (pa : PackedArray) (i : Nat) : BitVec 64 := cellVal pa.arr pa.bits i

theorem PackedArray.new_wf (length bits : Nat) (junk : Nat → BitVec 64) (h1 : 1 ≤ bits)
    (h2 : bits ≤ 64) (h3 : length * bits < 2 ^ 64) : (PackedArray.new length bits junk).WF := by
  constructor <;> simp [PackedArray.new, *]
  rw [Nat.mod_eq_of_lt h3]

theorem PackedArray.getValue_eq {pa : PackedArray} (w : pa.WF) (sj : BitVec 64) {i : Nat}
    (hi : i < pa.length) : pa.getValue sj i = .ok (pa.cell i) :=
  getBits_cellVal sj pa.arr pa.bits i w.b1 w.b64 (w.bound hi).1 (w.bound hi).2

theorem PackedArray.setValue_tot {pa : PackedArray} (w : pa.WF) (sj : BitVec 64) {i : Nat}
    (hi : i < pa.length) (v : BitVec 64) (hv : v.toNat < 2 ^ pa.bits) :
    Tot (pa.setValue sj i v) (fun pa' => pa'.WF ∧ pa'.bits = pa.bits ∧ pa'.length = pa.length ∧
      pa'.cell i = v ∧ ∀ j, j ≠ i → pa'.cell j = pa.cell j) := by
  refine (setValue_spec sj pa i v w.b1 w.b64 (w.bound hi).1 (w.bound hi).2 hv).mono ?_
  rintro pa' ⟨h1, h2, h3, h4⟩
  have b1 := w.b1
  refine ⟨⟨h1 ▸ w.b1, h1 ▸ w.b64, by rw [h1, h2]; exact w.nov, by rw [h1, h2, h3]; exact w.sz⟩,
    h1, h2, ?_, ?_⟩
  · apply BitVec.eq_of_getLsbD_eq
    intro j hj
    unfold PackedArray.cell
    rw [cellVal_getLsbD _ _ _ _ (h1 ▸ w.b64), h4, h1]
    by_cases hjb : j < pa.bits
    · have : pa.bits * i + pa.bits - 1 - (pa.bits * i + pa.bits - 1 - j) = j := by omega
      have h' : pa.bits * i ≤ pa.bits * i + pa.bits - 1 - j ∧
        pa.bits * i + pa.bits - 1 - j < pa.bits * i + pa.bits := by omega
      simp [hjb, h', this]
    · have : v.toNat < 2 ^ j := Nat.lt_of_lt_of_le hv (Nat.pow_le_pow_right (by decide) (by omega))
      simp [hjb, BitVec.getLsbD, Nat.testBit_lt_two_pow this]
  · intro j hj
    apply BitVec.eq_of_getLsbD_eq
    intro t ht
    unfold PackedArray.cell
    rw [cellVal_getLsbD _ _ _ _ (h1 ▸ w.b64), cellVal_getLsbD _ _ _ _ w.b64, h4, h1]
    by_cases htb : t < pa.bits
    · have : ¬ (pa.bits * i ≤ pa.bits * j + pa.bits - 1 - t ∧
          pa.bits * j + pa.bits - 1 - t < pa.bits * i + pa.bits) := by
        rcases Nat.lt_or_gt_of_ne hj with hlt | hgt
        · have : pa.bits * (j + 1) ≤ pa.bits * i := Nat.mul_le_mul_left _ hlt
          rw [Nat.mul_add] at this; omega
        · have : pa.bits * (i + 1) ≤ pa.bits * j := Nat.mul_le_mul_left _ hgt
          rw [Nat.mul_add] at this; omega
      simp [this]
    · simp [htb]

theorem positionOfMsb_spec (n : Nat) (h0 : n ≠ 0) (h : n < 2 ^ 64) :
    Tot (positionOfMsb n) (fun b => 1 ≤ b ∧ b ≤ 64 ∧ 2 ^ (b - 1) ≤ n ∧ n < 2 ^ b) := by
  unfold positionOfMsb
  have h1 : Nat.log2 n < 64 := (Nat.log2_lt h0).2 h
  have e : 64 - (63 - Nat.log2 n) = Nat.log2 n + 1 := by omega
  simp only [h0, if_false, Tot_ok, e]
  refine ⟨by omega, by omega, ?_, Nat.lt_log2_self⟩
  simpa using Nat.log2_self_le h0

end Flbwt
