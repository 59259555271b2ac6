import Verif.PropsDirtyHead
import Verif.ErrIn

/-!
# A table with poisoned buckets (used by C93)

A bucket is poisoned when one of its records has a stored length that is too large, so that a walk over the bucket leaves the
record at a place of the fresh block that was never written. When the fresh bytes are 13 or more, the next step leads out of
the buffer.
-/

namespace Flbwt

/-- The error is an access outside an allocation or through a null pointer. -/
def MemFault (e : Err) : Prop := e = .ub .outOfBounds ∨ e = .ub .nullDeref

namespace HashTable

/-- Every walk that gets to offset `q` leaves the buffer (when the fresh bytes are between `lo` and `hi`). The bytes this depends on satisfy `P`.
Used in proofs only. -/
inductive Doom (NB lo hi : Nat) (buf : Mem Nat) (P : Nat → Prop) : Nat → Prop
  | record (q l : Nat) : q ≠ 0 → 3 ≤ l → q + 2 + nb l + l + NB < 2 ^ 64 → (∀ i, q ≤ i → i < q + 1 + nb l → P i) → LenAt buf q l →
      Doom NB lo hi buf P (q + 2 + nb l + l + NB) → Doom NB lo hi buf P q
  | jump (q y : Nat) : q ≠ 0 → q + 10 ≤ y → y < 2 ^ 64 → (∀ i, q ≤ i → i < q + 10 → P i) → PtrAt buf q y →
      Doom NB lo hi buf P y → Doom NB lo hi buf P q
  | crash (q : Nat) : q ≠ 0 → (∀ i, q ≤ i → i ≤ q + hi → P i ∧ lo ≤ buf.data i ∧ buf.data i ≤ hi) → Doom NB lo hi buf P q

variable {NB lo hi L : Nat} {buf buf' : Mem Nat} {P P' : Nat → Prop} {PN : Nat → Nat → Prop}

theorem Doom.frame {q : Nat} (h : Doom NB lo hi buf P q) (hf : ∀ i, P i → P' i ∧ buf'.data i = buf.data i) : Doom NB lo hi buf' P' q := by
  induction h with
  | record q l h0 h1 h2 h3 h4 _ ih =>
    exact .record q l h0 h1 h2 (fun i i1 i2 => (hf i (h3 i i1 i2)).1) (h4.congr (fun i i1 i2 => (hf i (h3 i i1 i2)).2)) ih
  | jump q y h0 h1 h2 h3 h4 _ ih =>
    exact .jump q y h0 h1 h2 (fun i i1 i2 => (hf i (h3 i i1 i2)).1) (h4.congr (fun i i1 i2 => (hf i (h3 i i1 i2)).2)) ih
  | crash q h0 h1 =>
    exact .crash q h0 (fun i i1 i2 => ⟨(hf i (h1 i i1 i2).1).1, by rw [(hf i (h1 i i1 i2).1).2]; exact (h1 i i1 i2).2⟩)

theorem Chain.doom {q e : Nat} {L : List (Nat × List Nat)} (h : Chain NB buf P PN q L e) (he : e < 2 ^ 64)
    (hf : ∀ i, P i → i < e → P' i ∧ buf'.data i = buf.data i) (hd : Doom NB lo hi buf' P' e) : Doom NB lo hi buf' P' q := by
  induction h with
  | nil => exact hd
  | cons q s L e g0 g1 g2 g3 g4 g5 g6 ih =>
    have hle := g6.le.1
    unfold bodyLen at hle g3
    have := ih he hf hd
    unfold bodyLen at this
    refine .record q s.length g0 g1 (by omega) (fun i i1 i2 => (hf i (g3 i i1 (by omega)) (by omega)).1)
      (g5.1.congr (fun i i1 i2 => (hf i (g3 i i1 (by omega)) (by omega)).2)) ?_
    rw [show q + 2 + nb s.length + s.length + NB = q + (2 + nb s.length + s.length) + NB by omega]
    exact this
  | jump q y L e g0 g1 g2 g3 g4 g5 gh ih =>
    have hle := g5.le.1
    exact .jump q y g0 g1 g2 (fun i i1 i2 => (hf i (g3 i i1 i2) (by omega)).1)
      (g4.congr (fun i i1 i2 => (hf i (g3 i i1 i2) (by omega)).2)) (ih he hf hd)

/-- The fresh bytes are between `lo` and `hi`; `L` bounds the buffer. -/
structure Range (lo hi L : Nat) : Prop where
  lo13 : 13 ≤ lo
  le : lo ≤ hi
  low : L ≤ lo * 2 ^ 56
  high : L + (hi + 2) * 2 ^ 56 ≤ 2 ^ 64

/-- The length read at a place of bytes between `lo` and `hi`: eight of them are its digits. -/
theorem getLength_crash {q : Nat} (R : Range lo hi L) (h : ∀ i, q ≤ i → i ≤ q + hi → i < buf.size ∧ lo ≤ buf.data i ∧ buf.data i ≤ hi) :
    ∃ l, getLength buf q = .ok l ∧ lo * 2 ^ 56 ≤ l ∧ l < (hi + 1) * 2 ^ 56 := by
  have r1 := R.lo13
  have r2 := R.le
  have r3 := R.high
  have hq := h q (by omega) (by omega)
  have hq1 := h (q + 1) (by omega) (by omega)
  obtain ⟨l, hl, h64, hd⟩ : ∃ l, getLength buf q = .ok l ∧ l < 2 ^ 64 ∧ ∀ k, k < 8 → lo ≤ l / 256 ^ k % 256 ∧ l / 256 ^ k % 256 ≤ hi := by
    apply Tot_iff.1
    unfold getLength
    rw [Mem.rd_ok _ hq.1, ok_bind, if_neg (by omega), Mem.rd_ok _ hq1.1, ok_bind]
    refine (loopUp_spec (fun i v => v < 2 ^ 64 ∧ ∀ k, k < min i 8 → lo ≤ v / 256 ^ k % 256 ∧ v / 256 ^ k % 256 ≤ hi) 1 (buf.data q - 1) _ _
      ⟨by omega, ?_⟩ ?_).mono ?_
    · intro k hk
      obtain rfl : k = 0 := by omega
      rw [Nat.pow_zero, Nat.div_one]
      omega
    · rintro i v i1 i2 ⟨hv, hk⟩
      have hb := h (q + 1 + i) (by omega) (by omega)
      rw [Mem.rd_ok _ hb.1, ok_bind, Tot_ok]
      generalize buf.data (q + 1 + i) = y at hb ⊢
      have hor : shl8 v ||| y = v * 256 % 2 ^ 64 + y := by
        unfold shl8
        rw [show v * 256 % 18446744073709551616 = (v % 72057594037927936) <<< 8 by rw [Nat.shiftLeft_eq]; omega,
          ← Nat.shiftLeft_add_eq_or_of_lt (show y < 2 ^ 8 by omega), Nat.shiftLeft_eq]
        omega
      rw [hor]
      refine ⟨by omega, ?_⟩
      intro k hk2
      match k, hk2 with
      | 0, _ => rw [Nat.pow_zero, Nat.div_one]; omega
      | k + 1, hk2 =>
        have := hk k (by omega)
        have hk6 : k = 0 ∨ k = 1 ∨ k = 2 ∨ k = 3 ∨ k = 4 ∨ k = 5 ∨ k = 6 := by omega
        have key : (v * 256 % 2 ^ 64 + y) / 256 ^ (k + 1) % 256 = v / 256 ^ k % 256 := by
          have e : 256 ^ (k + 1) = 256 * 256 ^ k := by rw [Nat.pow_succ, Nat.mul_comm]
          rw [e, ← Nat.div_div_eq_div_mul, show (v * 256 % 2 ^ 64 + y) / 256 = v % 2 ^ 56 by omega]
          rcases hk6 with rfl | rfl | rfl | rfl | rfl | rfl | rfl <;> omega
        rw [key]; exact this
    · rintro v ⟨hv, hk⟩
      exact ⟨hv, fun k hk8 => hk k (by omega)⟩
  have := hd 7 (by omega)
  exact ⟨l, hl, by omega, by omega⟩

/-- Reading outside. -/
theorem getLength_out {q : Nat} (h : buf.size ≤ q) : getLength buf q = .error (.ub .outOfBounds) := by
  unfold getLength Mem.rd
  rw [if_neg (by omega)]
  rfl

theorem stringInfoLength_crash {q y l : Nat} (hNB : NB ≤ 8) (hq : q < buf.size) (hd : buf.data q = y) (hl : y + l + 10 < 2 ^ 64) :
    stringInfoLength NB buf q l = .ok (2 + y + l + NB) := by
  unfold stringInfoLength
  rw [Mem.rd_ok _ hq, ok_bind, hd, addU64_eq (show y + l < 2 ^ 64 by omega),
    addU64_eq (show y + l + NB < 2 ^ 64 by omega), addU64_eq (show 2 + (y + l + NB) < 2 ^ 64 by omega)]
  congr 1; omega

theorem stringInfoLength_len {q l : Nat} (h : LenAt buf q l) (hq : q < buf.size) (hsm : q + 2 + nb l + l + NB < 2 ^ 64) :
    stringInfoLength NB buf q l = .ok (2 + nb l + l + NB) := by
  unfold stringInfoLength
  rw [Mem.rd_ok _ hq, ok_bind, h.1, addU64_eq (show nb l + l < 2 ^ 64 by omega),
    addU64_eq (show nb l + l + NB < 2 ^ 64 by omega), addU64_eq (show 2 + (nb l + l + NB) < 2 ^ 64 by omega)]
  congr 1; omega

theorem compare_err (T : Mem Nat) (p base m : Nat) : ErrIn MemFault (compareLoop T p buf base m) (fun _ => True) := by
  unfold compareLoop
  have key : ∀ (f i : Nat), i ≤ m → m + 1 ≤ f + i → ErrIn MemFault (whileM f i fun i =>
    if i < m then do
      let a ← T.rd (p + i)
      let b ← buf.rd (base + i)
      if a ≠ b then .ok (.inr i) else .ok (.inl (i + 1))
    else .ok (.inr i)) (fun _ => True) := by
    intro f
    induction f with
    | zero => intro i h1 h2; omega
    | succ f ih =>
      intro i h1 h2
      simp only [whileM]
      by_cases h : i < m
      · rw [if_pos h]
        unfold Mem.rd
        by_cases ha : p + i < T.size
        · by_cases hb : base + i < buf.size
          · rw [if_pos ha, if_pos hb, ok_bind, ok_bind]
            split
            · trivial
            · exact ih (i + 1) (by omega) (by omega)
          · rw [if_pos ha, if_neg hb, ok_bind]
            exact Or.inl rfl
        · rw [if_neg ha]
          exact Or.inl rfl
      · rw [if_neg h]
        trivial
  exact key _ _ (by omega) (by omega)

/-- A walk of `insert_string` over a poisoned bucket finds the string or leaves the buffer. -/
theorem scan_doom {T : Mem Nat} {p m q : Nat} (hm : m < 2 ^ 58) (R : Range lo hi L) (hNB : NB ≤ 8)
    (hP : ∀ i, P i → i < buf.size) (hsm : buf.size ≤ L) (h : Doom NB lo hi buf P q) :
    ∀ (fuel : Nat) (r : Option Nat) (coll : Nat), buf.size + 2 ≤ q + fuel → 1 ≤ fuel →
      ErrIn MemFault (whileM fuel (q, r, coll) (insertStep NB buf T m p)) (fun res => ∃ c, res = .dup c) := by
  have hout : ∀ (fuel q : Nat) (r : Option Nat) (coll : Nat), buf.size ≤ q → 1 ≤ q → 1 ≤ fuel →
      ErrIn MemFault (whileM fuel (q, r, coll) (insertStep NB buf T m p)) (fun res => ∃ c, res = .dup c) := by
    intro fuel q r coll hq hq1 hf
    obtain ⟨f, rfl⟩ : ∃ f, fuel = f + 1 := ⟨fuel - 1, by omega⟩
    simp only [whileM, insertStep, if_pos (show q ≠ 0 by omega), getLength_out hq]
    exact Or.inl rfl
  induction h with
  | record q l h0 h1 h2 h3 h4 _ ih =>
    intro fuel r coll hf hf1
    obtain ⟨f, rfl⟩ : ∃ f, fuel = f + 1 := ⟨fuel - 1, by omega⟩
    have hb := hP _ (h3 (q + nb l) (by omega) (by omega))
    have hl := getLength_eq h4 (by omega) (by omega) (by omega)
    have hi := stringInfoLength_len (NB := NB) h4 (by omega) h2
    have hq' : addU64 q (2 + nb l + l + NB) = q + 2 + nb l + l + NB := by rw [addU64_eq (by omega)]; omega
    have next : ∀ (r : Option Nat) (c : Nat), ErrIn MemFault (whileM f (q + 2 + nb l + l + NB, r, c) (insertStep NB buf T m p))
        (fun res => ∃ c, res = .dup c) := by
      intro r c
      have := nb_pos l
      by_cases hc : buf.size ≤ q + 2 + nb l + l + NB
      · exact hout _ _ _ _ hc (by omega) (by omega)
      · exact ih f r c (by omega) (by omega)
    simp only [whileM, insertStep, if_pos h0, hl, ok_bind, if_neg (show ¬ l = 0 by omega), if_neg (show ¬ l = 2 by omega)]
    by_cases hlm : l ≠ m
    · simp only [if_pos hlm, hi, ok_bind, hq']
      exact next _ _
    · have hlm' : l = m := by omega
      have hll : getLenlen buf q = .ok (nb l) := by unfold getLenlen; rw [Mem.rd_ok _ (by omega), h4.1]
      simp only [if_neg hlm, hll, ok_bind, hi, hq']
      have hcmp : ErrIn MemFault (compareLoop T p buf (q + 1 + 1 + nb l) m) (fun _ => True) := by
        exact compare_err _ _ _ _
      cases hcm : compareLoop T p buf (q + 1 + 1 + nb l) m with
      | error e => rw [hcm] at hcmp; exact hcmp
      | ok i =>
        simp only [ok_bind]
        by_cases him : i = m
        · rw [if_pos him]; exact ⟨_, rfl⟩
        · rw [if_neg him]
          exact next _ _
  | jump q y h0 h1 h2 h3 h4 _ ih =>
    intro fuel r coll hf hf1
    obtain ⟨f, rfl⟩ : ∃ f, fuel = f + 1 := ⟨fuel - 1, by omega⟩
    have hb := hP _ (h3 (q + 9) (by omega) (by omega))
    simp only [whileM, insertStep, if_pos h0, h4.getLength (show q + 10 ≤ buf.size by omega), ok_bind, if_neg (show ¬ (2 : Nat) = 0 by omega),
      if_true, getPointer_eq h4 h2 (show q + 10 ≤ buf.size by omega)]
    by_cases hc : buf.size ≤ y
    · exact hout _ _ _ _ hc (by omega) (by omega)
    · exact ih f _ _ (by omega) (by omega)
  | crash q h0 h1 =>
    intro fuel r coll hf hf1
    obtain ⟨f, rfl⟩ : ∃ f, fuel = f + 1 := ⟨fuel - 1, by omega⟩
    have hb := hP _ (h1 (q + hi) (by omega) (by omega)).1
    have r1 := R.lo13
    have r2 := R.le
    have r3 := R.low
    have r4 := R.high
    obtain ⟨l, hl, hcl1, hcl2⟩ := getLength_crash R (q := q) (buf := buf) (fun i i1 i2 => ⟨hP i (h1 i i1 i2).1, (h1 i i1 i2).2⟩)
    have hy := (h1 q (by omega) (by omega)).2
    generalize hyq : buf.data q = y at hy
    have hi := stringInfoLength_crash (NB := NB) (q := q) (l := l) hNB (by omega) hyq (by omega)
    have hq' : addU64 q (2 + y + l + NB) = q + (2 + y + l + NB) := addU64_eq (by omega)
    have hbig : buf.size ≤ q + (2 + y + l + NB) := by omega
    have hn0 : ¬ l = 0 := by omega
    have hnm : l ≠ m := by omega
    have hn2 : ¬ l = 2 := by omega
    clear hcl1 hcl2
    have hstep : insertStep NB buf T m p (q, r, coll) = .ok (.inl (q + (2 + y + l + NB), some q, coll + 1)) := by
      unfold insertStep; dsimp only
      rw [if_pos h0, hl, ok_bind, if_neg hn0, if_neg hn2, if_pos hnm, hi, ok_bind, hq']
    rw [whileM, hstep, ok_bind]
    exact hout _ _ _ _ hbig (by omega) (by omega)

/-- The walk of `sort_LMS_strings` over a poisoned bucket leaves the buffer. -/
theorem collect_doom {q : Nat} (R : Range lo hi L) (hNB : NB ≤ 8)
    (hP : ∀ i, P i → i < buf.size) (hsm : buf.size ≤ L) (h : Doom NB lo hi buf P q) :
    ∀ (fuel : Nat) (s : Mem Nat) (j : Nat), buf.size + 2 ≤ q + fuel → 1 ≤ fuel →
      ErrIn MemFault (whileM fuel (q, s, j) (collectStep NB buf)) (fun _ => False) := by
  have hout : ∀ (fuel q : Nat) (s : Mem Nat) (j : Nat), buf.size ≤ q → 1 ≤ q → 1 ≤ fuel →
      ErrIn MemFault (whileM fuel (q, s, j) (collectStep NB buf)) (fun _ => False) := by
    intro fuel q s j hq hq1 hf
    obtain ⟨f, rfl⟩ : ∃ f, fuel = f + 1 := ⟨fuel - 1, by omega⟩
    simp only [whileM, collectStep, if_pos (show q ≠ 0 by omega), getLength_out hq]
    exact Or.inl rfl
  induction h with
  | record q l h0 h1 h2 h3 h4 _ ih =>
    intro fuel s j hf hf1
    obtain ⟨f, rfl⟩ : ∃ f, fuel = f + 1 := ⟨fuel - 1, by omega⟩
    have hb := hP _ (h3 (q + nb l) (by omega) (by omega))
    have hl := getLength_eq h4 (by omega) (by omega) (by omega)
    have hi := stringInfoLength_len (NB := NB) h4 (by omega) h2
    have hq' : addU64 q (2 + nb l + l + NB) = q + 2 + nb l + l + NB := by rw [addU64_eq (by omega)]; omega
    simp only [whileM, collectStep, if_pos h0, hl, ok_bind, if_neg (show ¬ l = 0 by omega), if_neg (show ¬ l = 2 by omega), hi, hq']
    unfold Mem.wr
    split
    · rw [ok_bind, ok_bind]
      simp only
      have := nb_pos l
      by_cases hc : buf.size ≤ q + 2 + nb l + l + NB
      · exact hout _ _ _ _ hc (by omega) (by omega)
      · exact ih f _ _ (by omega) (by omega)
    · exact Or.inl rfl
  | jump q y h0 h1 h2 h3 h4 _ ih =>
    intro fuel s j hf hf1
    obtain ⟨f, rfl⟩ : ∃ f, fuel = f + 1 := ⟨fuel - 1, by omega⟩
    have hb := hP _ (h3 (q + 9) (by omega) (by omega))
    simp only [whileM, collectStep, if_pos h0, h4.getLength (show q + 10 ≤ buf.size by omega), ok_bind, if_neg (show ¬ (2 : Nat) = 0 by omega),
      if_true, getPointer_eq h4 h2 (show q + 10 ≤ buf.size by omega)]
    by_cases hc : buf.size ≤ y
    · exact hout _ _ _ _ hc (by omega) (by omega)
    · exact ih f _ _ (by omega) (by omega)
  | crash q h0 h1 =>
    intro fuel s j hf hf1
    obtain ⟨f, rfl⟩ : ∃ f, fuel = f + 1 := ⟨fuel - 1, by omega⟩
    have hb := hP _ (h1 (q + hi) (by omega) (by omega)).1
    have r1 := R.lo13
    have r2 := R.le
    have r3 := R.low
    have r4 := R.high
    obtain ⟨l, hl, hcl1, hcl2⟩ := getLength_crash R (q := q) (buf := buf) (fun i i1 i2 => ⟨hP i (h1 i i1 i2).1, (h1 i i1 i2).2⟩)
    have hy := (h1 q (by omega) (by omega)).2
    generalize hyq : buf.data q = y at hy
    have hi := stringInfoLength_crash (NB := NB) (q := q) (l := l) hNB (by omega) hyq (by omega)
    have hq' : addU64 q (2 + y + l + NB) = q + (2 + y + l + NB) := addU64_eq (by omega)
    have hbig : buf.size ≤ q + (2 + y + l + NB) := by omega
    have hn0 : ¬ l = 0 := by omega
    have hn2 : ¬ l = 2 := by omega
    clear hcl1 hcl2
    rw [whileM]
    unfold collectStep
    dsimp only
    rw [if_pos h0, hl, ok_bind, if_neg hn0, if_neg hn2, hi]
    unfold Mem.wr
    split
    · rw [ok_bind, ok_bind, ok_bind, hq']
      exact hout _ _ _ _ hbig (by omega) (by omega)
    · exact Or.inl rfl

/-- The walk over a clean bucket ends, or `s` is too short. -/
theorem collect_clean {q e : Nat} {L : List (Nat × List Nat)} (hP : ∀ i, P i → i < buf.size) (hsm : buf.size < 2 ^ 64)
    (h : Chain NB buf P PN q L e) : ∀ (fuel : Nat) (s : Mem Nat) (j : Nat), buf.size + 1 ≤ q + fuel →
      ErrIn MemFault (whileM fuel (q, s, j) (collectStep NB buf)) (fun _ => True) := by
  induction h with
  | nil q h0 h1 =>
    intro fuel s j hf
    have hq := hP q (h1 q (by omega) (by omega)).1
    obtain ⟨f, rfl⟩ : ∃ f, fuel = f + 1 := ⟨fuel - 1, by omega⟩
    have hl : getLength buf q = .ok 0 := by
      unfold getLength
      rw [Mem.rd_ok _ hq, ok_bind, (h1 q (by omega) (by omega)).2, if_pos rfl]
    simp only [whileM, collectStep, if_pos h0, hl, ok_bind, if_true]
    trivial
  | cons q s L e g0 g1 g2 g3 g4 g5 g6 ih =>
    intro fuel st j hf
    have hsz : q + bodyLen s ≤ buf.size := by
      have := hP _ (g3 (q + bodyLen s - 1) (by unfold bodyLen; omega) (by unfold bodyLen; omega))
      omega
    obtain ⟨f, rfl⟩ : ∃ f, fuel = f + 1 := ⟨fuel - 1, by unfold bodyLen at hsz; omega⟩
    have hl := g5.getLength (by omega) g2 hsz
    have hle := g6.le.1
    have hend := g6.end_lt hP
    have hi := g5.stringInfoLength s.length NB hsz (by unfold bodyLen at hle; omega)
    have hq' : addU64 q (1 + 1 + (nb s.length + s.length + NB)) = q + bodyLen s + NB := by
      unfold bodyLen at hle ⊢
      rw [addU64_eq (by omega)]; omega
    simp only [whileM, collectStep, if_pos g0, hl, ok_bind, if_neg (show ¬ s.length = 0 by omega),
      if_neg (show ¬ s.length = 2 by omega), hi, hq']
    unfold Mem.wr
    split
    · rw [ok_bind, ok_bind]
      exact ih f _ _ (by unfold bodyLen; omega)
    · exact Or.inl rfl
  | jump q y L e g0 g1 g2 g3 g4 g5 gh ih =>
    intro fuel s j hf
    have hsz : q + 10 ≤ buf.size := by
      have := hP _ (g3 (q + 9) (by omega) (by omega))
      omega
    obtain ⟨f, rfl⟩ : ∃ f, fuel = f + 1 := ⟨fuel - 1, by omega⟩
    simp only [whileM, collectStep, if_pos g0, g4.getLength hsz, ok_bind, if_neg (show ¬ (2 : Nat) = 0 by omega),
      if_true, getPointer_eq g4 g2 hsz]
    exact ih f _ _ (by omega)

end HashTable
end Flbwt
