import Verif.PropsData

/-!
# C65: the raw layout of a packed array, and cells never stored to

`get_raw_arr_pointer` hands the words to the suffix sorters, which decode them with their own copy of `get_value`
(C10 and C25 rely on it); the repository's tests compare the raw words.
-/

namespace Flbwt

/-- bit `k` of the array of words, counting from the most significant bit of word 0 -/
def rawBit (words : Nat → BitVec 64) (k : Nat) : Bool := (words (k / 64)).getLsbD (63 - k % 64)

/-- The raw bits after a history of stores. -/
theorem runStores_bits (ops : List Store) : ∀ (pa : PackedArray), pa.WF →
    (∀ o ∈ ops, o.2.1 < pa.length ∧ o.2.2.toNat < 2 ^ pa.bits) →
    Tot (runStores pa ops) (fun pa' => pa'.arr.size = pa.arr.size ∧ ∀ k, rawBit pa'.arr.data k =
      match lastStored (k / pa.bits) ops with
      | some v => v.getLsbD (pa.bits - 1 - k % pa.bits)
      | none => rawBit pa.arr.data k) := by
  induction ops with
  | nil => intro pa _ _; simp [runStores, lastStored]
  | cons o ops ih =>
    obtain ⟨sj, j, v⟩ := o
    intro pa w h
    simp only [runStores, Tot_bind]
    have h1 := h (sj, j, v) (by simp)
    have h1' : j < pa.length ∧ v.toNat < 2 ^ pa.bits := h1
    obtain ⟨pa1, e1, w2, w3, w4, w5⟩ := Tot_iff.1
      (setValue_spec sj pa j v w.b1 w.b64 (w.bound h1'.1).1 (w.bound h1'.1).2 h1'.2)
    rw [e1, Tot_ok]
    have w1 : pa1.WF := ⟨w2 ▸ w.b1, w2 ▸ w.b64, by rw [w2, w3]; exact w.nov, by rw [w2, w3, w4]; exact w.sz⟩
    refine (ih pa1 w1 (fun o ho => by rw [w2, w3]; exact h o (by simp [ho]))).mono ?_
    rintro pa2 ⟨x1, x2⟩
    refine ⟨x1.trans w4, fun k => ?_⟩
    rw [x2, w2, lastStored]
    cases hl : lastStored (k / pa.bits) ops with
    | some y => simp
    | none =>
      have hb := w.b1
      have e := Nat.div_add_mod k pa.bits
      have hm := Nat.mod_lt k hb
      have h5 : rawBit pa1.arr.data k = _ := w5 k
      simp only
      rw [h5]
      by_cases hj : j = k / pa.bits
      · rw [← hj] at e ⊢
        rw [if_pos (by omega)]
        simp only [if_true, Option.none_or]
        congr 1; omega
      · rw [if_neg]
        · simp [hj]; rfl
        · rintro ⟨g1, g2⟩
          apply hj
          refine (Nat.div_eq_of_lt_le ?_ ?_).symm
          · rw [Nat.mul_comm]; exact g1
          · rw [Nat.add_mul, Nat.mul_comm j]; omega

/-- **C65** after any history of in-range stores of fitting values: the raw array has `⌊length·bits/64⌋ + 1` words; cell `i`
occupies the bits `bits·i … bits·i + bits - 1` (most significant bit first); every bit is that of the value stored last in
its cell, and all other bits are those of the fresh memory. -/
theorem C65_raw_layout (length bits : Nat) (junk : Nat → BitVec 64) (ops : List Store)
    (h1 : 1 ≤ bits) (h2 : bits ≤ 64) (h3 : length * bits < 2 ^ 64)
    (hops : ∀ o ∈ ops, o.2.1 < length ∧ o.2.2.toNat < 2 ^ bits) :
    ∃ pa, runStores (PackedArray.new length bits junk) ops = .ok pa ∧ pa.arr.size = length * bits / 64 + 1 ∧
      (∀ i v, lastStored i ops = some v → ∀ t, t < bits → rawBit pa.arr.data (bits * i + t) = v.getLsbD (bits - 1 - t)) ∧
      (∀ i, lastStored i ops = none → ∀ t, t < bits → rawBit pa.arr.data (bits * i + t) = rawBit junk (bits * i + t)) := by
  have w := PackedArray.new_wf length bits junk h1 h2 h3
  obtain ⟨pa, e, hs, hk⟩ := Tot_iff.1 (runStores_bits ops _ w hops)
  have hk' : ∀ i t, t < bits → rawBit pa.arr.data (bits * i + t) =
      match lastStored i ops with
      | some v => v.getLsbD (bits - 1 - t)
      | none => rawBit junk (bits * i + t) := by
    intro i t ht
    have e1 : (bits * i + t) / bits = i := by
      rw [Nat.mul_add_div (by omega), Nat.div_eq_of_lt ht, Nat.add_zero]
    have e2 : (bits * i + t) % bits = t := by rw [Nat.mul_add_mod, Nat.mod_eq_of_lt ht]
    have := hk (bits * i + t)
    simp only [PackedArray.new, e1, e2] at this
    exact this
  refine ⟨pa, e, hs.trans w.sz, fun i v hv t ht => ?_, fun i hv t ht => ?_⟩
  · rw [hk' i t ht, hv]
  · rw [hk' i t ht, hv]

/-- **C65** (violated expectation) a cell never stored to is not 0: for every history that does not touch it and every value
there is a content of the fresh memory with which it reads as this value. -/
theorem C65_cells_uninitialised (length bits : Nat) (ops : List Store) (h1 : 1 ≤ bits) (h2 : bits ≤ 64)
    (h3 : length * bits < 2 ^ 64) (hops : ∀ o ∈ ops, o.2.1 < length ∧ o.2.2.toNat < 2 ^ bits) (i : Nat) (hi : i < length)
    (hno : lastStored i ops = none) (v : BitVec 64) (hv : v.toNat < 2 ^ bits) :
    ∃ junk pa, runStores (PackedArray.new length bits junk) ops = .ok pa ∧ ∀ sj, pa.getValue sj i = .ok v := by
  have w0 := PackedArray.new_wf length bits (fun _ => 0) h1 h2 h3
  obtain ⟨p0, _, q1, q2, q3, q4, _⟩ := Tot_iff.1 (PackedArray.setValue_tot w0 0 (i := i) hi v hv)
  have w := PackedArray.new_wf length bits p0.arr.data h1 h2 h3
  obtain ⟨pa, e, w', hl, hb, hc⟩ := Tot_iff.1 (runStores_spec ops _ w hops)
  refine ⟨p0.arr.data, pa, e, fun sj => ?_⟩
  rw [PackedArray.getValue_eq w' sj (by rw [hl]; exact hi), hc i, hno]
  simp only [Option.getD_none]
  congr 1
  rw [← q4]
  apply BitVec.eq_of_getLsbD_eq
  intro j _
  have qb : p0.bits = bits := q2
  unfold PackedArray.cell
  rw [qb, cellVal_getLsbD _ _ _ _ h2]
  show (cellVal _ bits i).getLsbD j = _
  rw [cellVal_getLsbD _ _ _ _ h2]
  rfl

/-- the repository's test `get_value_8bit` reads cell 8 of 10, to which nothing was stored, and expects 0 -/
example : ∃ junk pa, runStores (PackedArray.new 10 8 junk) [(0, 0, 1), (0, 1, 10), (0, 2, 100), (0, 7, 28), (0, 9, 255)] = .ok pa ∧
    ∀ sj, pa.getValue sj 8 = .ok 77 :=
  C65_cells_uninitialised 10 8 _ (by decide) (by decide) (by decide) (by decide) 8 (by decide) (by decide) 77 (by decide)

/-- 24 bit cells: cell 2 = 0xeffffe lies across the words 0 and 1 -/
example : ∃ pa, runStores (PackedArray.new 10 24 (fun _ => 0x5555#64)) [(1, 2, 0xeffffe)] = .ok pa ∧ pa.arr.size = 4 ∧
    ∀ t, t < 24 → rawBit pa.arr.data (48 + t) = (0xeffffe#64).getLsbD (23 - t) := by
  obtain ⟨pa, e, h, h', _⟩ := C65_raw_layout 10 24 (fun _ => 0x5555#64) [(1, 2, 0xeffffe)] (by decide) (by decide) (by decide) (by decide)
  exact ⟨pa, e, h, fun t ht => h' 2 _ rfl t ht⟩

end Flbwt
