import Verif.Packed

/-!
# Integer arrays of 32, 40, 48, 56 and 64 bits

Models `int32_t *SA`, the pair `uint32_t *SA_L, int8_t *SA_U` (include/sais40bit.hpp:14-23),
`uint32_t *SA_L, int16_t *SA_U` (include/sais48bit.hpp:14-23), the triple
`uint32_t *SA_L, uint16_t *SA_M, int8_t *SA_U` (include/sais56bit.hpp:14-24) and `int64_t *SA`.
-/

namespace Flbwt

/-- Operations on an array of signed integers of a given width. The five `sais*bit.cpp` (and `induce*bit.cpp`) are the
same program up to these operations; the model is written once over this class. -/
class SaStore (S : Type) where
  /-- the selector value compared with `cs` (32, 40, 48, 56, 64) -/
  width : Nat
  /-- width of the local variables `j, c0, c1` of `induce_SA` and `prev` of `sais_*`: 32 for the 32-bit version
  (src/sais32bit.cpp:82-84,219), 64 otherwise -/
  locBits : Nat
  size : S → Nat
  /-- signed read -/
  get : S → Nat → Int
  /-- the read in macro `chr` as an unsigned 64-bit number -/
  getU : S → Nat → Nat
  /-- the test `SA_L[i] != 0 || SA_U[i] != 0` -/
  nz : S → Nat → Bool
  put : S → Nat → Int → S
  /-- `new T[k]`, contents uninitialised -/
  fresh : Nat → (Nat → BitVec 64) → S

/-- What the operations must satisfy (proved for all five widths below). Used in proofs only. -/
class LawfulSaStore (S : Type) extends SaStore S where
  w1 : 1 ≤ width
  w64 : width ≤ 64
  w_loc : width ≤ locBits
  size_put : ∀ (s : S) (i : Nat) (v : Int), size (put s i v) = size s
  get_put : ∀ (s : S) (i j : Nat) (v : Int), -(2 : Int) ^ (width - 1) ≤ v → v < (2 : Int) ^ (width - 1) →
    get (put s i v) j = if j = i then v else get s j
  getU_get : ∀ (s : S) (i : Nat), 0 ≤ get s i → getU s i = (get s i).toNat
  nz_get : ∀ (s : S) (i : Nat), nz s i = true ↔ get s i ≠ 0
  size_fresh : ∀ (k : Nat) (junk : Nat → BitVec 64), size (fresh k junk) = k

/-! ## The five representations -/

/-- `int32_t *`. `SA`, include/sais32bit.hpp:24. -/
structure S32 where
  m : Mem (BitVec 32)

/-- `uint32_t *L, int8_t *U`. `SA_L`, `SA_U`, include/sais40bit.hpp:38-39. -/
structure S40 where
  L : Mem (BitVec 32)
  U : Mem (BitVec 8)

/-- `uint32_t *L, int16_t *U`. `SA_L`, `SA_U`, include/sais48bit.hpp. -/
structure S48 where
  L : Mem (BitVec 32)
  U : Mem (BitVec 16)

/-- `uint32_t *L, uint16_t *M, int8_t *U`. `SA_L`, `SA_M`, `SA_U`, include/sais56bit.hpp:41-42. -/
structure S56 where
  L : Mem (BitVec 32)
  M : Mem (BitVec 16)
  U : Mem (BitVec 8)

/-- `int64_t *`. `SA`, include/sais64bit.hpp:23. -/
structure S64 where
  m : Mem (BitVec 64)

/-- `value` as `int64_t`. The parameter of `set_40bit_value` etc., include/sais40bit.hpp:14. -/
def i64 (v : Int) : BitVec 64 := BitVec.ofInt 64 v

/-- `set_40bit_value` (include/sais40bit.hpp:14-18) -/
def set40 (s : S40) (i : Nat) (v : Int) : S40 :=
  { U := s.U.upd i (((i64 v).sshiftRight 32).truncate 8), L := s.L.upd i (((i64 v) &&& 0xffffffff#64).truncate 32) }
/-- `get_40bit_value` (include/sais40bit.hpp:20-23), also the expression in `chr` (src/sais40bit.cpp:37) -/
def get40 (s : S40) (i : Nat) : BitVec 64 := (((s.U.data i).signExtend 64) <<< 32) ||| (s.L.data i).zeroExtend 64

/-- `set_48bit_value` (include/sais48bit.hpp:14-18) -/
def set48 (s : S48) (i : Nat) (v : Int) : S48 :=
  { U := s.U.upd i (((i64 v).sshiftRight 32).truncate 16), L := s.L.upd i (((i64 v) &&& 0xffffffff#64).truncate 32) }
/-- `get_48bit_value` (include/sais48bit.hpp:20-23), also src/sais48bit.cpp:37 -/
def get48 (s : S48) (i : Nat) : BitVec 64 := (((s.U.data i).signExtend 64) <<< 32) ||| (s.L.data i).zeroExtend 64

/-- `set_56bit_value` (include/sais56bit.hpp:14-19) -/
def set56 (s : S56) (i : Nat) (v : Int) : S56 :=
  { U := s.U.upd i (((i64 v).sshiftRight 48).truncate 8), M := s.M.upd i (((i64 v).sshiftRight 32).truncate 16),
    L := s.L.upd i (((i64 v) &&& 0xffffffff#64).truncate 32) }
/-- `get_56bit_value` (include/sais56bit.hpp:21-24), also src/sais56bit.cpp:37 -/
def get56 (s : S56) (i : Nat) : BitVec 64 :=
  ((((s.U.data i).signExtend 64) <<< 48) ||| (((s.M.data i).zeroExtend 64) <<< 32)) ||| (s.L.data i).zeroExtend 64

/-- `SA[i]` in src/sais32bit.cpp. -/
instance : SaStore S32 where
  width := 32
  locBits := 32
  size s := s.m.size
  get s i := (s.m.data i).toInt
  getU s i := (s.m.data i).toNat
  nz s i := (s.m.data i).toInt != 0
  put s i v := ⟨s.m.upd i (BitVec.ofInt 32 v)⟩
  fresh k junk := ⟨⟨k, fun i => (junk i).truncate 32⟩⟩

/-- include/sais40bit.hpp:14-23. -/
instance : SaStore S40 where
  width := 40
  locBits := 64
  size s := min s.L.size s.U.size
  get s i := (get40 s i).toInt
  getU s i := (get40 s i).toNat
  nz s i := (s.L.data i).toNat != 0 || (s.U.data i).toInt != 0
  put := set40
  fresh k junk := ⟨⟨k, fun i => (junk i).truncate 32⟩, ⟨k, fun i => ((junk i) >>> 32).truncate 8⟩⟩

/-- include/sais48bit.hpp:14-23. -/
instance : SaStore S48 where
  width := 48
  locBits := 64
  size s := min s.L.size s.U.size
  get s i := (get48 s i).toInt
  getU s i := (get48 s i).toNat
  nz s i := (s.L.data i).toNat != 0 || (s.U.data i).toInt != 0
  put := set48
  fresh k junk := ⟨⟨k, fun i => (junk i).truncate 32⟩, ⟨k, fun i => ((junk i) >>> 32).truncate 16⟩⟩

/-- include/sais56bit.hpp:14-24. -/
instance : SaStore S56 where
  width := 56
  locBits := 64
  size s := min (min s.L.size s.M.size) s.U.size
  get s i := (get56 s i).toInt
  getU s i := (get56 s i).toNat
  nz s i := (s.L.data i).toNat != 0 || (s.M.data i).toNat != 0 || (s.U.data i).toInt != 0
  put := set56
  fresh k junk := ⟨⟨k, fun i => (junk i).truncate 32⟩, ⟨k, fun i => ((junk i) >>> 32).truncate 16⟩,
    ⟨k, fun i => ((junk i) >>> 48).truncate 8⟩⟩

/-- `SA[i]` in src/sais64bit.cpp. -/
instance : SaStore S64 where
  width := 64
  locBits := 64
  size s := s.m.size
  get s i := (s.m.data i).toInt
  getU s i := (s.m.data i).toNat
  nz s i := (s.m.data i).toInt != 0
  put s i v := ⟨s.m.upd i (BitVec.ofInt 64 v)⟩
  fresh k junk := ⟨⟨k, junk⟩⟩

/-! ## Laws -/

theorem toInt_ofInt_fits {w : Nat} (hw : 1 ≤ w) (v : Int) (h1 : -(2 : Int) ^ (w - 1) ≤ v)
    (h2 : v < (2 : Int) ^ (w - 1)) : (BitVec.ofInt w v).toInt = v := by
  exact BitVec.toInt_ofInt_eq_self (by omega) h1 h2

theorem toNat_toInt_nonneg {w : Nat} (x : BitVec w) (h : 0 ≤ x.toInt) : x.toNat = x.toInt.toNat := by
  rw [BitVec.toInt_eq_toNat_cond] at h ⊢
  split at h
  · rw [if_pos (by assumption)]; simp
  · have := x.isLt; omega

theorem toInt_eq_zero {w : Nat} (x : BitVec w) : x.toInt = 0 ↔ x = 0#w := by
  constructor
  · intro h; apply BitVec.eq_of_toInt_eq; simpa using h
  · rintro rfl; simp

/-- A number that fits in `w` bits is the sign extension of its low `w` bits: all bits from `w-1` on agree. -/
theorem i64_bit_ge {w : Nat} (hw1 : 1 ≤ w) (hw : w ≤ 64) (v : Int) (h1 : -(2 : Int) ^ (w - 1) ≤ v)
    (h2 : v < (2 : Int) ^ (w - 1)) (i : Nat) (hi : w - 1 ≤ i) (hi2 : i < 64) :
    (i64 v).getLsbD i = (i64 v).getLsbD (w - 1) := by
  have e : i64 v = (BitVec.ofInt w v).signExtend 64 := by
    apply BitVec.eq_of_toInt_eq
    rw [BitVec.toInt_signExtend_of_le hw, toInt_ofInt_fits hw1 v h1 h2]
    have : (2 : Int) ^ (w - 1) ≤ (2 : Int) ^ (64 - 1) := by
      have := Nat.pow_le_pow_right (n := 2) (by decide) (show w - 1 ≤ 64 - 1 by omega)
      exact_mod_cast this
    exact toInt_ofInt_fits (by decide) v (by omega) (by omega)
  rw [e, BitVec.getLsbD_signExtend, BitVec.getLsbD_signExtend]
  rcases Nat.eq_or_lt_of_le hi with rfl | hlt
  · rfl
  · simp only [hi2, decide_true, Bool.true_and, show ¬ i < w by omega, if_false, show w - 1 < w by omega, if_true,
      show w - 1 < 64 by omega]
    rw [BitVec.msb_eq_getLsbD_last]

theorem i64_toInt {w : Nat} (hw : w ≤ 64) (v : Int) (h1 : -(2 : Int) ^ (w - 1) ≤ v)
    (h2 : v < (2 : Int) ^ (w - 1)) : (i64 v).toInt = v := by
  have : (2 : Int) ^ (w - 1) ≤ (2 : Int) ^ (64 - 1) := by
      have := Nat.pow_le_pow_right (n := 2) (by decide) (show w - 1 ≤ 64 - 1 by omega)
      exact_mod_cast this
  exact toInt_ofInt_fits (by decide) v (by omega) (by omega)

theorem lo32 (x : BitVec 64) (i : Nat) :
    (((x &&& 0xffffffff#64).truncate 32).zeroExtend 64).getLsbD i = (decide (i < 32) && x.getLsbD i) := by
  have e : (0xffffffff#64) = (BitVec.allOnes 32).setWidth 64 := by decide
  rw [e]
  simp only [BitVec.truncate, BitVec.zeroExtend, BitVec.getLsbD_setWidth, BitVec.getLsbD_and, BitVec.getLsbD_allOnes]
  by_cases h : i < 32
  · simp [h, show i < 64 by omega]
  · simp [h]

theorem ssr_bit (x : BitVec 64) (s i : Nat) (h : s + i < 64) :
    (x.sshiftRight s).getLsbD i = x.getLsbD (s + i) := by
  rw [BitVec.getLsbD_sshiftRight]
  simp only [h, if_true, show ¬ 64 ≤ i by omega, decide_false, Bool.not_false, Bool.true_and]

theorem split_eq {u : Nat} (hu1 : 1 ≤ u) (hu : u ≤ 32) (v : Int) (h1 : -(2 : Int) ^ (32 + u - 1) ≤ v)
    (h2 : v < (2 : Int) ^ (32 + u - 1)) :
    ((((((i64 v).sshiftRight 32).truncate u).signExtend 64) <<< 32) |||
      (((i64 v) &&& 0xffffffff#64).truncate 32).zeroExtend 64) = i64 v := by
  apply BitVec.eq_of_getLsbD_eq
  intro i hi
  have hge := i64_bit_ge (w := 32 + u) (by omega) (by omega) v h1 h2
  rw [BitVec.getLsbD_or, lo32, BitVec.getLsbD_shiftLeft]
  by_cases h : i < 32
  · simp [h]
  · simp only [hi, h, decide_true, decide_false, Bool.not_false, Bool.true_and, Bool.false_and, Bool.or_false]
    rw [BitVec.getLsbD_signExtend]
    by_cases h' : i - 32 < u
    · simp only [show i - 32 < 64 by omega, decide_true, Bool.true_and, h', if_true, BitVec.truncate,
        BitVec.getLsbD_setWidth]
      rw [ssr_bit _ _ _ (by omega), show 32 + (i - 32) = i by omega]
    · simp only [show i - 32 < 64 by omega, decide_true, Bool.true_and, h', if_false, BitVec.msb_eq_getLsbD_last,
        BitVec.truncate, BitVec.getLsbD_setWidth, show u - 1 < u by omega]
      rw [hge i (by omega) hi, ssr_bit _ _ _ (by omega), show 32 + (u - 1) = 32 + u - 1 by omega]

theorem split56_eq (v : Int) (h1 : -(2 : Int) ^ (56 - 1) ≤ v) (h2 : v < (2 : Int) ^ (56 - 1)) :
    (((((((i64 v).sshiftRight 48).truncate 8).signExtend 64) <<< 48) |||
      (((((i64 v).sshiftRight 32).truncate 16).zeroExtend 64) <<< 32)) |||
      (((i64 v) &&& 0xffffffff#64).truncate 32).zeroExtend 64) = i64 v := by
  apply BitVec.eq_of_getLsbD_eq
  intro i hi
  have hge := i64_bit_ge (w := 56) (by omega) (by omega) v h1 h2
  rw [BitVec.getLsbD_or, BitVec.getLsbD_or, lo32, BitVec.getLsbD_shiftLeft, BitVec.getLsbD_shiftLeft]
  by_cases h : i < 32
  · simp [h, show i < 48 by omega]
  · by_cases h48 : i < 48
    · simp only [h, h48, hi, decide_true, decide_false, Bool.not_false, Bool.not_true, Bool.true_and, Bool.false_and,
        Bool.or_false, Bool.false_or, Bool.and_false, BitVec.truncate, BitVec.getLsbD_setWidth,
        show i - 32 < 16 by omega, show i - 32 < 64 by omega]
      rw [ssr_bit _ _ _ (by omega), show 32 + (i - 32) = i by omega]
    · rw [BitVec.getLsbD_signExtend]
      by_cases h' : i - 48 < 8
      · simp only [h, h48, hi, h', decide_true, decide_false, Bool.not_false, Bool.true_and, Bool.false_and,
          Bool.or_false, Bool.and_false, BitVec.truncate, BitVec.getLsbD_setWidth, if_true,
          show ¬ (i - 32 < 16) by omega, show i - 48 < 64 by omega]
        rw [ssr_bit _ _ _ (by omega), show 48 + (i - 48) = i by omega]
      · rw [hge i (by omega) hi]
        simp only [h, h48, hi, h', decide_true, decide_false, Bool.not_false, Bool.true_and, Bool.false_and,
          Bool.or_false, Bool.and_false, BitVec.truncate, BitVec.getLsbD_setWidth, if_false,
          show ¬ (i - 32 < 16) by omega, show i - 48 < 64 by omega, BitVec.msb_eq_getLsbD_last,
          show 8 - 1 < 8 by omega]
        rw [ssr_bit _ _ _ (by omega)]

theorem toInt_split_zero {u : Nat} (hu : u ≤ 32) (x : BitVec u) (y : BitVec 32) :
    ((x.signExtend 64) <<< 32 ||| y.zeroExtend 64).toInt ≠ 0 ↔ (y.toNat ≠ 0 ∨ x.toInt ≠ 0) := by
  suffices h : ((x.signExtend 64) <<< 32 ||| y.zeroExtend 64).toInt = 0 ↔ (y.toNat = 0 ∧ x.toInt = 0) by
    rw [Ne, h, Classical.not_and_iff_not_or_not]
  rw [toInt_eq_zero, toInt_eq_zero]
  constructor
  · intro h
    have hb : ∀ i, ((x.signExtend 64) <<< 32 ||| y.zeroExtend 64).getLsbD i = false := by
      intro i; rw [h]; simp
    constructor
    · have : y = 0#32 := by
        apply BitVec.eq_of_getLsbD_eq
        intro i hi
        have := hb i
        rw [BitVec.getLsbD_or, BitVec.getLsbD_shiftLeft] at this
        simp [hi] at this
        rw [BitVec.getLsbD_eq_getElem hi, this (by omega)]; simp
      rw [this]; rfl
    · apply BitVec.eq_of_getLsbD_eq
      intro i hi
      have := hb (i + 32)
      rw [BitVec.getLsbD_or, BitVec.getLsbD_shiftLeft, BitVec.getLsbD_signExtend] at this
      simp [hi, show i < 64 by omega, show i + 32 < 64 by omega] at this
      rw [BitVec.getLsbD_eq_getElem hi, this]; simp
  · rintro ⟨h1, rfl⟩
    have : y = 0#32 := BitVec.eq_of_toNat_eq (by simpa using h1)
    subst this
    have : BitVec.signExtend 64 (0#u) = 0#64 := by
      apply BitVec.eq_of_getLsbD_eq
      intro i hi
      rw [BitVec.getLsbD_signExtend]
      split <;> simp
    rw [this]; rfl

theorem toInt_split56_zero (x : BitVec 8) (z : BitVec 16) (y : BitVec 32) :
    (((x.signExtend 64) <<< 48 ||| (z.zeroExtend 64) <<< 32) ||| y.zeroExtend 64).toInt ≠ 0 ↔
      ((y.toNat ≠ 0 ∨ z.toNat ≠ 0) ∨ x.toInt ≠ 0) := by
  suffices h : (((x.signExtend 64) <<< 48 ||| (z.zeroExtend 64) <<< 32) ||| y.zeroExtend 64).toInt = 0 ↔
      ((y.toNat = 0 ∧ z.toNat = 0) ∧ x.toInt = 0) by
    rw [Ne, h, Classical.not_and_iff_not_or_not, Classical.not_and_iff_not_or_not]
  rw [toInt_eq_zero, toInt_eq_zero]
  constructor
  · intro h
    have hb : ∀ i, (((x.signExtend 64) <<< 48 ||| (z.zeroExtend 64) <<< 32) ||| y.zeroExtend 64).getLsbD i = false := by
      intro i; rw [h]; simp
    refine ⟨⟨?_, ?_⟩, ?_⟩
    · have : y = 0#32 := by
        apply BitVec.eq_of_getLsbD_eq
        intro i hi
        have := hb i
        rw [BitVec.getLsbD_or, BitVec.getLsbD_or, BitVec.getLsbD_shiftLeft, BitVec.getLsbD_shiftLeft] at this
        simp [hi, show i < 48 by omega] at this
        rw [BitVec.getLsbD_eq_getElem hi, this (by omega)]; simp
      rw [this]; rfl
    · have : z = 0#16 := by
        apply BitVec.eq_of_getLsbD_eq
        intro i hi
        have := hb (i + 32)
        rw [BitVec.getLsbD_or, BitVec.getLsbD_or, BitVec.getLsbD_shiftLeft, BitVec.getLsbD_shiftLeft] at this
        simp [hi, show i < 64 by omega, show i + 32 < 64 by omega, show i + 32 < 48 by omega] at this
        rw [BitVec.getLsbD_eq_getElem hi, this]; simp
      rw [this]; rfl
    · apply BitVec.eq_of_getLsbD_eq
      intro i hi
      have := hb (i + 48)
      rw [BitVec.getLsbD_or, BitVec.getLsbD_or, BitVec.getLsbD_shiftLeft, BitVec.getLsbD_signExtend] at this
      simp [hi, show i < 64 by omega, show i + 48 < 64 by omega] at this
      rw [BitVec.getLsbD_eq_getElem hi, this]; simp
  · rintro ⟨⟨h1, h2⟩, rfl⟩
    have : y = 0#32 := BitVec.eq_of_toNat_eq (by simpa using h1)
    have : z = 0#16 := BitVec.eq_of_toNat_eq (by simpa using h2)
    subst_vars
    simp

/-- Used in proofs only. -/
instance : LawfulSaStore S32 where
  w1 := by decide
  w64 := by decide
  w_loc := by decide
  size_put s i v := rfl
  get_put s i j v h1 h2 := by
    show ((s.m.upd i (BitVec.ofInt 32 v)).data j).toInt = _
    rw [Mem.upd_data]
    split
    · exact toInt_ofInt_fits (by decide) v h1 h2
    · rfl
  getU_get s i h := toNat_toInt_nonneg _ h
  nz_get s i := by simp [SaStore.nz, SaStore.get]
  size_fresh k junk := rfl

/-- Used in proofs only. -/
instance : LawfulSaStore S64 where
  w1 := by decide
  w64 := by decide
  w_loc := by decide
  size_put s i v := rfl
  get_put s i j v h1 h2 := by
    show ((s.m.upd i (BitVec.ofInt 64 v)).data j).toInt = _
    rw [Mem.upd_data]
    split
    · exact toInt_ofInt_fits (by decide) v h1 h2
    · rfl
  getU_get s i h := toNat_toInt_nonneg _ h
  nz_get s i := by simp [SaStore.nz, SaStore.get]
  size_fresh k junk := rfl

/-- Used in proofs only. -/
instance : LawfulSaStore S40 where
  w1 := by decide
  w64 := by decide
  w_loc := by decide
  size_put s i v := rfl
  get_put s i j v h1 h2 := by
    show (get40 (set40 s i v) j).toInt = if j = i then v else (get40 s j).toInt
    unfold get40 set40
    simp only [Mem.upd_data]
    split
    · rw [split_eq (by decide) (by decide) v h1 h2]
      exact i64_toInt (w := 40) (by decide) v h1 h2
    · rfl
  getU_get s i h := toNat_toInt_nonneg _ h
  nz_get s i := by
    show ((s.L.data i).toNat != 0 || (s.U.data i).toInt != 0) = true ↔ _
    rw [Bool.or_eq_true, bne_iff_ne, bne_iff_ne]
    exact (toInt_split_zero (by decide) _ _).symm
  size_fresh k junk := by simp [SaStore.size, SaStore.fresh]

/-- Used in proofs only. -/
instance : LawfulSaStore S48 where
  w1 := by decide
  w64 := by decide
  w_loc := by decide
  size_put s i v := rfl
  get_put s i j v h1 h2 := by
    show (get48 (set48 s i v) j).toInt = if j = i then v else (get48 s j).toInt
    unfold get48 set48
    simp only [Mem.upd_data]
    split
    · rw [split_eq (by decide) (by decide) v h1 h2]
      exact i64_toInt (w := 48) (by decide) v h1 h2
    · rfl
  getU_get s i h := toNat_toInt_nonneg _ h
  nz_get s i := by
    show ((s.L.data i).toNat != 0 || (s.U.data i).toInt != 0) = true ↔ _
    rw [Bool.or_eq_true, bne_iff_ne, bne_iff_ne]
    exact (toInt_split_zero (by decide) _ _).symm
  size_fresh k junk := by simp [SaStore.size, SaStore.fresh]

/-- Used in proofs only. -/
instance : LawfulSaStore S56 where
  w1 := by decide
  w64 := by decide
  w_loc := by decide
  size_put s i v := rfl
  get_put s i j v h1 h2 := by
    show (get56 (set56 s i v) j).toInt = if j = i then v else (get56 s j).toInt
    unfold get56 set56
    simp only [Mem.upd_data]
    split
    · rw [split56_eq v h1 h2]
      exact i64_toInt (w := 56) (by decide) v h1 h2
    · rfl
  getU_get s i h := toNat_toInt_nonneg _ h
  nz_get s i := by
    show ((s.L.data i).toNat != 0 || (s.M.data i).toNat != 0 || (s.U.data i).toInt != 0) = true ↔ _
    rw [Bool.or_eq_true, Bool.or_eq_true, bne_iff_ne, bne_iff_ne, bne_iff_ne]
    exact (toInt_split56_zero _ _ _).symm
  size_fresh k junk := by simp [SaStore.size, SaStore.fresh]

end Flbwt
