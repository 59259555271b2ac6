import Verif.Hash
import Mathlib.Data.Nat.Log
import Mathlib.Tactic.Ring
import Mathlib.Tactic.Linarith

/-!
# Fields of the hash table records: lengths, pointers, names
-/

namespace Flbwt
namespace HashTable

theorem ok_bind {α β : Type _} (a : α) (f : α → M β) : ((.ok a : M α) >>= f) = f a := rfl

/-- number of bytes needed for `m ≥ 1` -/
def nb (m : Nat) : Nat := Nat.log 256 m + 1

theorem nb_pos (m : Nat) : 1 ≤ nb m := by unfold nb; omega
theorem nb_lt (m : Nat) : m < 256 ^ nb m := Nat.lt_pow_succ_log_self (by norm_num) m
theorem nb_le {m : Nat} (h : 1 ≤ m) : 256 ^ (nb m - 1) ≤ m := by
  unfold nb; simpa using Nat.pow_log_le_self 256 (by omega)
theorem nb_unique {m b : Nat} (hb : 1 ≤ b) (h1 : 256 ^ (b - 1) ≤ m) (h2 : m < 256 ^ b) : nb m = b := by
  unfold nb
  rw [(Nat.log_eq_iff (b := 256) (m := b - 1) (n := m) (by right; exact ⟨by norm_num, by
    have : 1 ≤ 256 ^ (b - 1) := Nat.one_le_pow _ _ (by norm_num)
    omega⟩)).2 ⟨h1, by rwa [show b - 1 + 1 = b by omega]⟩]
  omega
theorem nb_le8 {m : Nat} (h1 : 1 ≤ m) (h : m < 2 ^ 64) : nb m ≤ 8 := by
  by_contra hc
  have h2 := nb_le h1
  have h3 : (256 : Nat) ^ 8 ≤ 256 ^ (nb m - 1) := Nat.pow_le_pow_right (by norm_num) (by omega)
  have : (256 : Nat) ^ 8 = 2 ^ 64 := by norm_num
  omega
theorem nb_small {m : Nat} (h1 : 1 ≤ m) (h : m < 256) : nb m = 1 := nb_unique (by omega) (by simpa using h1) (by simpa using h)

theorem topByte_eq {x : Nat} (h : x < 256 ^ 8) : topByte x = x / 256 ^ 7 := by
  unfold topByte
  rw [Nat.shiftRight_and_distrib, show (0xff00000000000000 : Nat) >>> 56 = 2 ^ 8 - 1 by decide,
    Nat.and_two_pow_sub_one_eq_mod, Nat.shiftRight_eq_div_pow, show (2 : Nat) ^ 56 = 256 ^ 7 by norm_num,
    Nat.mod_eq_of_lt]
  have : (256 : Nat) ^ 8 = 256 ^ 7 * 2 ^ 8 := by norm_num
  exact Nat.div_lt_of_lt_mul (by omega)

theorem shl8_eq {x : Nat} (h : x < 256 ^ 7) : shl8 x = x * 256 := by
  unfold shl8
  rw [Nat.mod_eq_of_lt]
  have : (256 : Nat) ^ 7 * 256 = 18446744073709551616 := by norm_num
  omega

theorem shl8_or {x b : Nat} (h : x < 256 ^ 7) (hb : b < 256) : shl8 x ||| b = x * 256 + b := by
  rw [shl8_eq h, show x * 256 = x <<< 8 by rw [Nat.shiftLeft_eq], ← Nat.shiftLeft_add_eq_or_of_lt (by simpa using hb)]

/-- `BE buf p k x`: the `k` bytes at `p` hold `x` in big-endian order. -/
def BE (buf : Mem Nat) (p k x : Nat) : Prop := ∀ j, j < k → buf.data (p + j) = x / 256 ^ (k - 1 - j) % 256

theorem BE.congr {buf buf' : Mem Nat} {p k x : Nat} (h : BE buf p k x)
    (he : ∀ i, p ≤ i → i < p + k → buf'.data i = buf.data i) : BE buf' p k x := by
  intro j hj
  rw [he _ (by omega) (by omega), h j hj]

theorem readBE (buf : Mem Nat) (p k x base : Nat) (hk : k ≤ 8) (hx : x < 256 ^ k) (hs : p + k ≤ buf.size)
    (h : BE buf p k x) (a : Nat) (ha : a ≤ k) (hb : base = p) :
    loopUp a (k - a) (x / 256 ^ (k - a)) (fun i x => do
      let b ← buf.rd (base + i)
      .ok (shl8 x ||| b)) = .ok x := by
  subst hb
  apply Tot.eq_ok
  have := loopUp_spec (fun i y => y = x / 256 ^ (k - i)) a (k - a) (x / 256 ^ (k - a)) (fun i x => do
      let b ← buf.rd (base + i)
      .ok (shl8 x ||| b)) rfl (by
    intro i y h1 h2 hy
    simp only [Tot_bind, Mem.Tot_rd, Tot_ok]
    refine ⟨by omega, ?_⟩
    rw [h i (by omega), hy]
    have e1 : k - i = (k - 1 - i) + 1 := by omega
    have e2 : k - (i + 1) = k - 1 - i := by omega
    rw [e1, e2, pow_succ, ← Nat.div_div_eq_div_mul, shl8_or _ (Nat.mod_lt _ (by norm_num))]
    · exact Nat.div_add_mod' _ _
    · have h8 : x < 256 ^ 8 := lt_of_lt_of_le hx (Nat.pow_le_pow_right (by norm_num) hk)
      rw [Nat.div_div_eq_div_mul]
      refine lt_of_le_of_lt (Nat.div_le_div_left (c := 256) ?_ (by norm_num)) ?_
      · have : 1 ≤ 256 ^ (k - 1 - i) := Nat.one_le_pow _ _ (by norm_num)
        nlinarith
      · exact Nat.div_lt_of_lt_mul (by rw [show (256 : Nat) * 256 ^ 7 = 256 ^ 8 by norm_num]; exact h8))
  refine this.mono ?_
  intro y hy
  rw [show a + (k - a) = k by omega] at hy
  simpa using hy

/-- Writing `k` bytes from the last to the first. -/
theorem writeBE (buf : Mem Nat) (p k x : Nat) (hs : p + k ≤ buf.size) (pos : Nat → Nat)
    (hpos : ∀ i, i < k → pos i = p + (k - 1 - i)) :
    Tot (loopUp 0 k (buf, x) (fun i st => do
      let buf ← st.1.wr (pos i) (st.2 % 256)
      .ok (buf, st.2 / 256))) (fun st => st.1.size = buf.size ∧ BE st.1 p k x ∧
        ∀ i, (i < p ∨ p + k ≤ i) → st.1.data i = buf.data i) := by
  have := loopUp_spec (fun i (st : Mem Nat × Nat) => st.1.size = buf.size ∧ st.2 = x / 256 ^ i ∧
      (∀ j, j < i → st.1.data (p + (k - 1 - j)) = x / 256 ^ j % 256) ∧
      ∀ i, (i < p ∨ p + k ≤ i) → st.1.data i = buf.data i) 0 k (buf, x) (fun i st => do
      let buf ← st.1.wr (pos i) (st.2 % 256)
      .ok (buf, st.2 / 256)) ⟨rfl, by simp, by intro j hj; omega, fun _ _ => rfl⟩ (by
    rintro i ⟨b, y⟩ h1 h2 ⟨g1, g2, g3, g4⟩
    simp only at g1 g2 g3 g4
    simp only [Tot_bind, Mem.Tot_wr, Tot_ok]
    rw [hpos i (by omega)]
    refine ⟨by omega, by simpa using g1, ?_, ?_, ?_⟩
    · rw [g2, Nat.div_div_eq_div_mul, pow_succ]
    · intro j hj
      by_cases hji : j = i
      · subst hji; simp [g2]
      · rw [Mem.upd_data_ne _ _ (by omega)]; exact g3 j (by omega)
    · intro j hj
      rw [Mem.upd_data_ne _ _ (by omega)]; exact g4 j hj)
  refine this.mono ?_
  rintro ⟨b, y⟩ ⟨g1, g2, g3, g4⟩
  refine ⟨g1, ?_, g4⟩
  intro j hj
  have := g3 (k - 1 - j) (by omega)
  rwa [show k - 1 - (k - 1 - j) = j by omega] at this

/-- length field: number of bytes, then the bytes -/
def LenAt (buf : Mem Nat) (p m : Nat) : Prop := buf.data p = nb m ∧ BE buf (p + 1) (nb m) m

theorem LenAt.congr {buf buf' : Mem Nat} {p m : Nat} (h : LenAt buf p m)
    (he : ∀ i, p ≤ i → i < p + 1 + nb m → buf'.data i = buf.data i) : LenAt buf' p m :=
  ⟨by rw [he p (by omega) (by omega)]; exact h.1, h.2.congr (fun i h1 h2 => he i (by omega) (by omega))⟩

theorem getLength_eq {buf : Mem Nat} {p m : Nat} (h : LenAt buf p m) (h1 : 1 ≤ m) (h2 : m < 2 ^ 64)
    (hs : p + 1 + nb m ≤ buf.size) : getLength buf p = .ok m := by
  have hn := nb_pos m
  unfold getLength
  rw [Mem.rd_ok _ (by omega), h.1, ok_bind, if_neg (by omega), Mem.rd_ok _ (by omega), ok_bind]
  have h0 := h.2 0 (by omega)
  rw [Nat.add_zero] at h0
  have hlt := nb_lt m
  have e : buf.data (p + 1) = m / 256 ^ (nb m - 1) := by
    rw [h0, Nat.sub_zero, Nat.mod_eq_of_lt]
    apply Nat.div_lt_of_lt_mul
    rw [← pow_succ, show nb m - 1 + 1 = nb m by omega]
    exact hlt
  rw [e]
  exact readBE buf (p + 1) (nb m) m (p + 1) (nb_le8 h1 h2) hlt (by omega) h.2 1 hn rfl

/-- The exact effect of `set_length`: trailing zero digits of the length are not written. -/
theorem setLength_raw (buf : Mem Nat) (p m : Nat) (h1 : 1 ≤ m) (h2 : m < 2 ^ 64) (hs : p + 1 + nb m ≤ buf.size) :
    Tot (setLength buf p m) (fun buf' => buf'.size = buf.size ∧ buf'.data p = nb m ∧
      ∃ t, t ≤ nb m ∧ 256 ^ (nb m - t) ∣ m ∧ ¬ 256 ^ (nb m - t + 1) ∣ m ∧
        (∀ j, j < t → buf'.data (p + 1 + j) = m / 256 ^ (nb m - 1 - j) % 256) ∧
        ∀ i, (i < p ∨ p + 1 + t ≤ i) → buf'.data i = buf.data i) := by
  have h64 : (256 : Nat) ^ 8 = 2 ^ 64 := by norm_num
  have hb8 := nb_le8 h1 h2
  have hb1 := nb_pos m
  have hblt := nb_lt m
  have hble := nb_le h1
  unfold setLength
  simp only [Tot_bind, Mem.Tot_wr]
  refine ⟨by omega, ?_⟩
  have L1 := whileM_spec (fun st : Mem Nat × Nat => ∃ k, st.2 = m * 256 ^ k ∧ m * 256 ^ k < 256 ^ 8 ∧ k ≤ 7 ∧
      st.1.data p = 8 - k ∧ st.1.size = buf.size ∧ ∀ i, i ≠ p → st.1.data i = buf.data i)
    (fun st => st.1.data p) (fun st => st.2 = m * 256 ^ (8 - nb m) ∧ st.1.data p = nb m ∧
      st.1.size = buf.size ∧ ∀ i, i ≠ p → st.1.data i = buf.data i) 10 (buf.upd p 8, m) (setLengthShift p)
    ⟨0, by simp, by simpa [h64] using h2, by omega, by simp, by simp, fun i hi => Mem.upd_data_ne _ _ hi⟩
    (by simp) (by
      rintro ⟨b, len⟩ ⟨k, g1, g2, g3, g4, g5, g6⟩
      simp only at g1 g4 g5 g6
      simp only [setLengthShift]
      subst g1
      rw [topByte_eq g2]
      by_cases hz : m * 256 ^ k / 256 ^ 7 = 0
      · rw [if_pos hz]
        have hlt : m * 256 ^ k < 256 ^ 7 := by
          rcases Nat.div_eq_zero_iff.1 hz with h | h
          · norm_num at h
          · exact h
        have hk7 : k < 7 := by
          by_contra hc
          have : (256 : Nat) ^ 7 ≤ 256 ^ k := Nat.pow_le_pow_right (by norm_num) (by omega)
          nlinarith
        simp only [Tot_bind, Mem.Tot_rd, Mem.Tot_wr, Tot_ok]
        refine ⟨by omega, by omega, ⟨k + 1, ?_, ?_, by omega, ?_, by simpa using g5, ?_⟩, ?_⟩
        · rw [shl8_eq hlt, pow_succ, Nat.mul_assoc]
        · rw [pow_succ, show (256 : Nat) ^ 8 = 256 ^ 7 * 256 by norm_num, ← Nat.mul_assoc]
          exact Nat.mul_lt_mul_of_pos_right hlt (by norm_num)
        · simp [g4]; omega
        · intro i hi; rw [Mem.upd_data_ne _ _ hi]; exact g6 i hi
        · simp [g4]; omega
      · rw [if_neg hz]
        simp only [Tot_ok]
        have hge : 256 ^ 7 ≤ m * 256 ^ k := by
          by_contra hc
          exact hz (Nat.div_eq_of_lt (by omega))
        have hk : nb m = 8 - k := by
          apply nb_unique (by omega)
          · rw [show (256 : Nat) ^ 7 = 256 ^ (8 - k - 1) * 256 ^ k by rw [← pow_add]; congr 1; omega] at hge
            exact Nat.le_of_mul_le_mul_right hge (by positivity)
          · rw [show (256 : Nat) ^ 8 = 256 ^ (8 - k) * 256 ^ k by rw [← pow_add]; congr 1; omega] at g2
            exact Nat.lt_of_mul_lt_mul_right g2
        refine ⟨?_, by omega, g5, g6⟩
        rw [hk, show 8 - (8 - k) = k by omega])
  refine L1.mono ?_
  rintro ⟨b1, len⟩ ⟨g1, g2, g3, g4⟩
  simp only at g1 g2 g3 g4
  simp only
  have L2 := whileM_spec (fun st : Mem Nat × Nat × Nat => ∃ t, t ≤ nb m ∧ st.2.1 = p + 1 + t ∧
      st.2.2 = m % 256 ^ (nb m - t) * 256 ^ (8 - (nb m - t)) ∧ ¬ 256 ^ (nb m - t + 1) ∣ m ∧
      (∀ j, j < t → st.1.data (p + 1 + j) = m / 256 ^ (nb m - 1 - j) % 256) ∧ st.1.size = buf.size ∧
      st.1.data p = nb m ∧
      ∀ i, (i < p ∨ p + 1 + t ≤ i) → st.1.data i = buf.data i)
    (fun st => p + 9 - st.2.1) (fun buf' => buf'.size = buf.size ∧ buf'.data p = nb m ∧
      ∃ t, t ≤ nb m ∧ 256 ^ (nb m - t) ∣ m ∧ ¬ 256 ^ (nb m - t + 1) ∣ m ∧
        (∀ j, j < t → buf'.data (p + 1 + j) = m / 256 ^ (nb m - 1 - j) % 256) ∧
        ∀ i, (i < p ∨ p + 1 + t ≤ i) → buf'.data i = buf.data i) 10 (b1, p + 1, len) setLengthWrite
    ⟨0, by omega, rfl, by simp only [Nat.sub_zero]; rw [Nat.mod_eq_of_lt hblt]; exact g1, by
        intro hd
        have := Nat.le_of_dvd (by omega) hd
        rw [pow_succ] at this
        simp only [Nat.sub_zero] at this
        omega, by intro j hj; omega, g3, g2,
        by intro i hi; exact g4 i (by omega)⟩ (by simp) (by
      rintro ⟨b, q, ln⟩ ⟨t, f1, f2, f3, fd, f4, f5, f6, f7⟩
      simp only at f2 f3 f4 f5 f6 f7
      simp only [setLengthWrite]
      subst f2
      by_cases hz : ln ≠ 0
      · rw [if_pos hz]
        have ht : t < nb m := by
          by_contra hc
          have : nb m - t = 0 := by omega
          rw [this] at f3
          simp [Nat.mod_one] at f3
          exact hz f3
        have hnd : ¬ 256 ^ (nb m - t) ∣ m := by
          intro hd
          rw [Nat.mod_eq_zero_of_dvd hd] at f3
          simp at f3
          exact hz f3
        obtain ⟨u, hu⟩ : ∃ u, nb m - t = u + 1 := ⟨nb m - t - 1, by omega⟩
        have hml : m % 256 ^ (u + 1) < 256 ^ (u + 1) := Nat.mod_lt _ (by positivity)
        have hln : ln < 256 ^ 8 := by
          rw [f3, hu, show (256 : Nat) ^ 8 = 256 ^ (u + 1) * 256 ^ (8 - (u + 1)) by
            rw [← pow_add]; congr 1; omega]
          exact Nat.mul_lt_mul_of_pos_right hml (by positivity)
        simp only [Tot_bind, Mem.Tot_wr, Tot_ok]
        refine ⟨by omega, ⟨t + 1, by omega, by omega, ?_, ?_, ?_, by simpa using f5, ?_, ?_⟩, by omega⟩
        · rw [show nb m - (t + 1) = u by omega, f3, hu]
          unfold shl8
          rw [show (18446744073709551616 : Nat) = 256 ^ u * 256 ^ (8 - u) by
            rw [← pow_add, show u + (8 - u) = 8 by omega]; norm_num, Nat.mul_assoc, ← pow_succ,
            show 8 - (u + 1) + 1 = 8 - u by omega, Nat.mul_mod_mul_right,
            Nat.mod_mod_of_dvd _ (pow_dvd_pow 256 (by omega))]
        · rwa [show nb m - (t + 1) + 1 = nb m - t by omega]
        · intro j hj
          by_cases hjt : j = t
          · subst hjt
            rw [Mem.upd_data_self, topByte_eq hln, f3, hu,
              show (256 : Nat) ^ 7 = 256 ^ u * 256 ^ (8 - (u + 1)) by rw [← pow_add]; congr 1; omega,
              Nat.mul_div_mul_right _ _ (by positivity), show nb m - 1 - j = u by omega, pow_succ,
              Nat.mod_mul_right_div_self]
          · rw [Mem.upd_data_ne _ _ (by omega)]; exact f4 j (by omega)
        · rw [Mem.upd_data_ne _ _ (by omega)]; exact f6
        · intro i hi; rw [Mem.upd_data_ne _ _ (by omega)]; exact f7 i (by omega)
      · rw [if_neg hz]
        simp only [Tot_ok]
        refine ⟨f5, f6, t, f1, ?_, fd, f4, f7⟩
        rw [not_not] at hz
        rw [hz] at f3
        have := f3.symm
        rcases Nat.mul_eq_zero.1 this with h | h
        · exact Nat.dvd_of_mod_eq_zero h
        · exact absurd h (by positivity))
  exact L2

theorem setLength_tot (buf : Mem Nat) (p m : Nat) (h1 : 1 ≤ m) (h2 : m < 2 ^ 64) (hs : p + 1 + nb m ≤ buf.size)
    (hz : m % 256 ≠ 0 ∨ ∀ i, p + 1 ≤ i → i < p + 1 + nb m → buf.data i = 0) :
    Tot (setLength buf p m) (fun buf' => buf'.size = buf.size ∧ LenAt buf' p m ∧
      ∀ i, (i < p ∨ p + 1 + nb m ≤ i) → buf'.data i = buf.data i) := by
  refine (setLength_raw buf p m h1 h2 hs).mono ?_
  rintro buf' ⟨e1, e2, t, e3, e4, _, e5, e6⟩
  refine ⟨e1, ⟨e2, ?_⟩, fun i hi => e6 i (by omega)⟩
  intro j hj
  by_cases hjt : j < t
  · exact e5 j hjt
  · rcases hz with hz | hz
    · exfalso
      apply hz
      obtain ⟨u, hu⟩ : ∃ u, nb m - t = u + 1 := ⟨nb m - t - 1, by omega⟩
      rw [hu, pow_succ] at e4
      exact Nat.mod_eq_zero_of_dvd ((Dvd.intro_left _ rfl).trans e4)
    · rw [e6 _ (by omega), hz _ (by omega) (by omega)]
      obtain ⟨c, hc⟩ := e4
      have : m / 256 ^ (nb m - 1 - j) = 256 * (256 ^ (j - t) * c) := by
        apply Nat.div_eq_of_eq_mul_right (by positivity)
        rw [← Nat.mul_assoc, ← Nat.mul_assoc, ← pow_succ, ← pow_add,
          show nb m - 1 - j + 1 + (j - t) = nb m - t by omega]
        exact hc
      rw [this]; simp

theorem calculateLenlen_eq {m : Nat} (h1 : 1 ≤ m) (h2 : m < 2 ^ 64) : calculateLenlen m = .ok (nb m) := by
  have h64 : (256 : Nat) ^ 8 = 2 ^ 64 := by norm_num
  apply Tot.eq_ok
  unfold calculateLenlen
  refine whileM_spec (fun st : Nat × Nat => ∃ k, st.1 = m * 256 ^ k ∧ m * 256 ^ k < 256 ^ 8 ∧ k ≤ 7 ∧
      st.2 = 8 - k) (fun st => st.2) (fun b => b = nb m) 10 (m, 8) _
    ⟨0, by simp, by simpa [h64] using h2, by omega, by simp⟩ (by simp) ?_
  rintro ⟨x, c⟩ ⟨k, g1, g2, g3, g4⟩
  simp only at g1 g4
  subst g1
  simp only
  rw [topByte_eq g2]
  by_cases hz : m * 256 ^ k / 256 ^ 7 = 0
  · rw [if_pos hz]
    have hlt : m * 256 ^ k < 256 ^ 7 := by
      rcases Nat.div_eq_zero_iff.1 hz with h | h
      · norm_num at h
      · exact h
    have hk7 : k < 7 := by
      by_contra hc
      have : (256 : Nat) ^ 7 ≤ 256 ^ k := Nat.pow_le_pow_right (by norm_num) (by omega)
      nlinarith
    simp only [Tot_ok]
    refine ⟨⟨k + 1, ?_, ?_, by omega, by omega⟩, by omega⟩
    · rw [shl8_eq hlt, pow_succ, Nat.mul_assoc]
    · rw [pow_succ, show (256 : Nat) ^ 8 = 256 ^ 7 * 256 by norm_num, ← Nat.mul_assoc]
      exact Nat.mul_lt_mul_of_pos_right hlt (by norm_num)
  · rw [if_neg hz]
    simp only [Tot_ok]
    have hge : 256 ^ 7 ≤ m * 256 ^ k := by
      by_contra hc
      exact hz (Nat.div_eq_of_lt (by omega))
    have hk : nb m = 8 - k := by
      apply nb_unique (by omega)
      · rw [show (256 : Nat) ^ 7 = 256 ^ (8 - k - 1) * 256 ^ k by rw [← pow_add]; congr 1; omega] at hge
        exact Nat.le_of_mul_le_mul_right hge (by positivity)
      · rw [show (256 : Nat) ^ 8 = 256 ^ (8 - k) * 256 ^ k by rw [← pow_add]; congr 1; omega] at g2
        exact Nat.lt_of_mul_lt_mul_right g2
    omega

/-- pointer record -/
def PtrAt (buf : Mem Nat) (p x : Nat) : Prop := buf.data p = 1 ∧ buf.data (p + 1) = 2 ∧ BE buf (p + 2) 8 x

theorem PtrAt.congr {buf buf' : Mem Nat} {p x : Nat} (h : PtrAt buf p x)
    (he : ∀ i, p ≤ i → i < p + 10 → buf'.data i = buf.data i) : PtrAt buf' p x :=
  ⟨by rw [he p (by omega) (by omega)]; exact h.1, by rw [he _ (by omega) (by omega)]; exact h.2.1,
    h.2.2.congr (fun i h1 h2 => he i (by omega) (by omega))⟩

theorem PtrAt.getLength {buf : Mem Nat} {p x : Nat} (h : PtrAt buf p x) (hs : p + 10 ≤ buf.size) :
    getLength buf p = .ok 2 := by
  apply getLength_eq (m := 2) _ (by omega) (by norm_num)
  · rw [nb_small (by omega) (by omega)]; omega
  · unfold LenAt
    rw [nb_small (by omega) (by omega)]
    refine ⟨h.1, ?_⟩
    intro j hj
    have : j = 0 := by omega
    subst this
    simpa using h.2.1

theorem getPointer_eq {buf : Mem Nat} {p x : Nat} (h : PtrAt buf p x) (hx : x < 2 ^ 64) (hs : p + 10 ≤ buf.size) :
    getPointer buf p = .ok x := by
  have hx8 : x < 256 ^ 8 := by rw [show (256 : Nat) ^ 8 = 2 ^ 64 by norm_num]; exact hx
  have := readBE buf (p + 2) 8 x (p + 2) (by omega) hx8 (by omega) h.2.2 0 (by omega) rfl
  rw [Nat.sub_zero, Nat.div_eq_of_lt hx8] at this
  exact this

theorem setPointer_tot (buf : Mem Nat) (p x : Nat) (hs : p + 10 ≤ buf.size) :
    Tot (setPointer buf p x) (fun buf' => buf'.size = buf.size ∧ PtrAt buf' p x ∧
      ∀ i, (i < p ∨ p + 10 ≤ i) → buf'.data i = buf.data i) := by
  unfold setPointer
  simp only [Tot_bind, Mem.Tot_wr]
  refine ⟨by omega, by simpa using by omega, ?_⟩
  refine (writeBE ((buf.upd p 1).upd (p + 1) 2) (p + 2) 8 x (by simpa using by omega) (fun c => p + 9 - c)
    (fun i hi => by omega)).mono ?_
  rintro ⟨b, y⟩ ⟨e1, e2, e3⟩
  simp only [Tot_ok]
  refine ⟨by simpa using e1, ⟨?_, ?_, e2⟩, ?_⟩
  · rw [e3 _ (by omega), Mem.upd_data_ne _ _ (by omega), Mem.upd_data_self]
  · rw [e3 _ (by omega), Mem.upd_data_self]
  · intro i hi
    rw [e3 _ (by omega), Mem.upd_data_ne _ _ (by omega), Mem.upd_data_ne _ _ (by omega)]

theorem getName_eq {buf : Mem Nat} {p m NB x : Nat} (h : LenAt buf p m) (h1 : 1 ≤ m) (h2 : m < 2 ^ 64)
    (hNB : NB ≤ 8) (hx : x < 256 ^ NB) (hs : p + 2 + nb m + m + NB ≤ buf.size)
    (hn : BE buf (p + 2 + nb m + m) NB x) : getName NB buf p = .ok x := by
  unfold getName
  rw [getLength_eq h h1 h2 (by omega)]
  rw [ok_bind, Mem.rd_ok _ (by omega), h.1, ok_bind]
  have := readBE buf (p + 2 + nb m + m) NB x (p + 1 + (nb m + m) + 1) hNB hx hs hn 0 (by omega) (by omega)
  rw [Nat.sub_zero, Nat.div_eq_of_lt hx] at this
  exact this

theorem setName_tot {buf : Mem Nat} {p m : Nat} (NB x : Nat) (h : LenAt buf p m) (h1 : 1 ≤ m) (h2 : m < 2 ^ 64)
    (hs : p + 2 + nb m + m + NB ≤ buf.size) :
    Tot (setName NB buf p x) (fun buf' => buf'.size = buf.size ∧ BE buf' (p + 2 + nb m + m) NB x ∧
      ∀ i, (i < p + 2 + nb m + m ∨ p + 2 + nb m + m + NB ≤ i) → buf'.data i = buf.data i) := by
  unfold setName
  rw [getLength_eq h h1 h2 (by omega)]
  simp only [Tot_bind, Tot_ok, Mem.Tot_rd]
  refine ⟨by omega, ?_⟩
  rw [h.1]
  refine (writeBE buf (p + 2 + nb m + m) NB x hs (fun i => p + 1 + (nb m + m) + 1 + (NB - 1) - i)
    (fun i hi => by omega)).mono ?_
  rintro ⟨b, y⟩ ⟨e1, e2, e3⟩
  exact ⟨e1, e2, e3⟩

end HashTable
end Flbwt
