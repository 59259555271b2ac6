import Verif.IndPass2

/-!
# Rows of an arbitrary order of the suffixes (proof helper)

`bwt_string` called on a string that is followed by a byte larger than its bytes (C63, C78) does not sort the suffixes. The
inducing passes still put every position in a row; `r p` is the row of position `p`.
-/

namespace Flbwt.Gen

variable {T : Nat → Nat} {n : Nat} {r : Nat → Nat}

/-- `r` is a numbering of the positions `0..n` that respects the buckets: `n` first, then by first character, in a bucket
the L-type positions before the S-type positions. -/
structure Rows (T : Nat → Nat) (n : Nat) (r : Nat → Nat) : Prop where
  rank : ∀ p, p ≤ n → r p = cnt (n + 1) (fun q => r q < r p)
  inj : ∀ {p q}, p ≤ n → q ≤ n → r p = r q → p = q
  rn : r n = 0
  chr : ∀ {p q}, p < n → q < n → T p < T q → r p < r q
  LS : ∀ {p q}, p < n → q < n → T p = T q → isS T n p = false → isS T n q = true → r p < r q

/-- L-type positions of a bucket are ordered as the positions after them. -/
structure RowsL (T : Nat → Nat) (n : Nat) (r : Nat → Nat) : Prop extends Rows T n r where
  same : ∀ {p q}, p < n → q < n → isS T n p = false → isS T n q = false → T p = T q → (r p < r q ↔ r (p + 1) < r (q + 1))
  succ : ∀ {p}, p < n → isS T n p = false → r (p + 1) < r p

/-- S-type positions of a bucket are ordered as the positions after them. -/
structure RowsS (T : Nat → Nat) (n : Nat) (r : Nat → Nat) : Prop extends Rows T n r where
  same : ∀ {p q}, p < n → q < n → isS T n p = true → isS T n q = true → T p = T q → (r p < r q ↔ r (p + 1) < r (q + 1))
  succ : ∀ {p}, p < n → isS T n p = true → r p < r (p + 1)

theorem Rows.le (R : Rows T n r) {p : Nat} (hp : p ≤ n) : r p ≤ n := by
  have := cnt_lt_of_not (n := n + 1) (P := fun q => r q < r p) (x := p) (by omega) (by simp)
  rw [R.rank p hp]; omega

theorem Rows.pos (R : Rows T n r) {p : Nat} (hp : p < n) : 0 < r p := by
  rcases Nat.eq_zero_or_pos (r p) with h | h
  · have := R.inj (p := p) (q := n) (by omega) (Nat.le_refl _) (by rw [R.rn, h]); omega
  · exact h

theorem Rows.eq (R : Rows T n r) {p : Nat} (hp : p < n) : r p = 1 + cnt n (fun q => r q < r p) := by
  have : r n < r p := by rw [R.rn]; exact R.pos hp
  classical
  have h := R.rank p (by omega)
  rw [cnt_succ, if_pos this] at h; omega

theorem Rows.T_le (R : Rows T n r) {p q : Nat} (hp : p < n) (hq : q < n) (h : r p ≤ r q) : T p ≤ T q := by
  by_contra hc
  have := R.chr hq hp (by omega); omega

theorem Rows.surj (R : Rows T n r) : ∀ k, k ≤ n → ∃ p, p ≤ n ∧ r p = k := by
  intro k hk
  obtain ⟨p, h1, h2⟩ := inj_surj (n := n + 1) r (fun q hq => by have := R.le (show q ≤ n by omega); omega)
    (fun a ha b hb h => R.inj (by omega) (by omega) h) k (by omega)
  exact ⟨p, by omega, h2⟩

theorem Rows.lt_succ (R : Rows T n r) {x y : Nat} (hx : x ≤ n) (hy : y ≤ n) : r y < r x + 1 ↔ r y < r x ∨ y = x := by
  constructor
  · intro h
    rcases Nat.lt_or_ge (r y) (r x) with h1 | h1
    · exact Or.inl h1
    · exact Or.inr (R.inj hy hx (by omega))
  · rintro (h | rfl) <;> omega

theorem Rows.le_succ (R : Rows T n r) {x y : Nat} (hx : x ≤ n) (hy : y ≤ n) : r x ≤ r y ↔ r x + 1 ≤ r y ∨ y = x := by
  constructor
  · intro h
    rcases Nat.lt_or_eq_of_le h with h1 | h1
    · exact Or.inl h1
    · exact Or.inr (R.inj hy hx h1.symm)
  · rintro (h | rfl) <;> omega

/-- row of an L-type position -/
theorem Rows.L_eq (R : Rows T n r) {j : Nat} (hj : j < n) (hL : isS T n j = false) :
    r j = 1 + bst T n (T j) + cnt n (fun i => isS T n i = false ∧ T i = T j ∧ r i < r j) := by
  have e := R.eq hj
  suffices h : cnt n (fun q => r q < r j) = bst T n (T j) + cnt n (fun i => isS T n i = false ∧ T i = T j ∧ r i < r j) by
    omega
  refine cnt_or (fun i hi => ?_) ?_
  · constructor
    · intro h
      rcases Nat.lt_or_ge (T i) (T j) with h1 | h1
      · exact Or.inl h1
      · have h2 := R.T_le hi hj (by omega)
        refine Or.inr ⟨?_, by omega, h⟩
        by_contra hc
        have := R.LS hj hi (by omega) hL (by simpa using hc)
        omega
    · rintro (h | ⟨-, h1, h2⟩)
      · exact R.chr hi hj h
      · exact h2
  · rintro i hi ⟨h1, -, h2, -⟩; omega

/-- row of an S-type position, from the end of the bucket -/
theorem Rows.S_eq (R : Rows T n r) {j : Nat} (hj : j < n) (hS : isS T n j = true) :
    r j + cnt n (fun i => isS T n i = true ∧ T i = T j ∧ r j < r i) = bst T n (T j + 1) := by
  have h1 : r j = cnt n (fun q => r q ≤ r j) := by
    conv_lhs => rw [R.eq hj, Nat.add_comm]
    refine (cnt_insert (P := fun q => r q < r j) hj (fun q hq => ?_) (by simp)).symm
    constructor
    · intro h
      rcases Nat.lt_or_eq_of_le h with h | h
      · exact Or.inl h
      · exact Or.inr (R.inj (by omega) (by omega) h)
    · rintro (h | rfl) <;> omega
  suffices h : bst T n (T j + 1) = cnt n (fun q => r q ≤ r j) + cnt n (fun i => isS T n i = true ∧ T i = T j ∧ r j < r i) by
    omega
  refine cnt_or (fun i hi => ?_) ?_
  · constructor
    · intro h
      rcases Nat.lt_or_ge (r j) (r i) with h2 | h2
      · have h3 := R.T_le hj hi (by omega)
        refine Or.inr ⟨?_, by omega, h2⟩
        by_contra hc
        have := R.LS hi hj (by omega) (by simpa using hc) hS
        omega
      · exact Or.inl h2
    · rintro (h | ⟨-, h, -⟩)
      · have := R.T_le hi hj h; omega
      · omega
  · rintro i hi ⟨h2, -, -, h4⟩; omega

/-- row of an S-type position, from the start of the S-type part of the bucket -/
theorem Rows.S_eq' (R : Rows T n r) {j : Nat} (hj : j < n) (hS : isS T n j = true) :
    r j = sbeg T n (T j) + cnt n (fun i => isS T n i = true ∧ T i = T j ∧ r i < r j) := by
  have h1 := R.S_eq hj hS
  have h2 := cntL_split (T := T) (n := n) (T j)
  have h3 : cnt n (fun q => isS T n q = true ∧ T q = T j) =
      cnt n (fun i => isS T n i = true ∧ T i = T j ∧ r i < r j) + 1 +
      cnt n (fun i => isS T n i = true ∧ T i = T j ∧ r j < r i) := by
    rw [← cnt_insert (n := n) (x := j) (Q := fun i => isS T n i = true ∧ T i = T j ∧ r i ≤ r j) hj ?_ (by simp)]
    · refine cnt_or (fun i hi => ?_) ?_
      · constructor
        · rintro ⟨h, h'⟩
          rcases Nat.lt_or_ge (r j) (r i) with h4 | h4
          · exact Or.inr ⟨h, h', h4⟩
          · exact Or.inl ⟨h, h', h4⟩
        · rintro (h | h) <;> exact ⟨h.1, h.2.1⟩
      · rintro i hi ⟨h4, h5⟩
        have := h4.2.2; have := h5.2.2; omega
    · intro i hi
      constructor
      · rintro ⟨h, h', h''⟩
        rcases Nat.lt_or_ge (r i) (r j) with h4 | h4
        · exact Or.inl ⟨h, h', h4⟩
        · exact Or.inr (R.inj (by omega) (by omega) (by omega))
      · rintro (h | rfl)
        · exact ⟨h.1, h.2.1, by omega⟩
        · exact ⟨hS, rfl, Nat.le_refl _⟩
  unfold sbeg
  omega

theorem Rows.L_zone (R : Rows T n r) {j : Nat} (hj : j < n) (hL : isS T n j = false) :
    bst T n (T j) < r j ∧ r j < sbeg T n (T j) := by
  have h1 := R.L_eq hj hL
  have h2 : cnt n (fun i => isS T n i = false ∧ T i = T j ∧ r i < r j) < cntL T n (T j) :=
    cnt_lt (fun i _ h => ⟨h.1, h.2.1⟩) hj ⟨hL, rfl⟩ (by simp)
  unfold sbeg; omega

theorem Rows.S_zone (R : Rows T n r) {j : Nat} (hj : j < n) (hS : isS T n j = true) :
    sbeg T n (T j) ≤ r j ∧ r j ≤ bst T n (T j + 1) := by
  have h1 := R.S_eq hj hS
  have h2 := R.S_eq' hj hS
  omega

theorem Rows.zone (R : Rows T n r) {y : Nat} (hy : y < n) : bst T n (T y) < r y ∧ r y ≤ bst T n (T y + 1) := by
  cases h : isS T n y
  · have h1 := R.L_zone hy h
    have h2 := sbeg_le (T := T) (n := n) (T y)
    omega
  · have h1 := R.S_zone hy h
    have h2 := sbeg_gt (T := T) (n := n) (T y)
    omega

theorem Rows.zone_T (R : Rows T n r) {a y : Nat} (hy : y < n) (h1 : bst T n a < r y) (h2 : r y ≤ bst T n (a + 1)) : T y = a := by
  have h3 := R.zone hy
  rcases Nat.lt_trichotomy (T y) a with h | h | h
  · have := bst_mono (T := T) (n := n) (show T y + 1 ≤ a by omega); omega
  · exact h
  · have := bst_mono (T := T) (n := n) (show a + 1 ≤ T y by omega); omega

theorem Rows.zoneL (R : Rows T n r) {a y : Nat} (hy : y < n) (h1 : bst T n a < r y) (h2 : r y < sbeg T n a) :
    T y = a ∧ isS T n y = false := by
  have h3 := sbeg_le (T := T) (n := n) a
  have h4 := R.zone_T hy h1 (by omega)
  refine ⟨h4, ?_⟩
  by_contra hc
  have := R.S_zone hy (by simpa using hc)
  rw [h4] at this; omega

theorem Rows.zoneM (R : Rows T n r) {a y : Nat} (hy : y < n) (h1 : sbeg T n a ≤ r y) (h2 : r y ≤ bst T n (a + 1)) :
    T y = a ∧ isS T n y = true := by
  have h3 := sbeg_gt (T := T) (n := n) a
  have h4 := R.zone_T hy (by omega) h2
  refine ⟨h4, ?_⟩
  by_contra hc
  have := R.L_zone hy (by simpa using hc)
  rw [h4] at this; omega

/-- where the character before S* position `j` is kept between the passes -/
noncomputable def stk (T : Nat → Nat) (n : Nat) (r : Nat → Nat) (j : Nat) : Nat :=
  sbeg T n (T j) + cnt n (fun i => isLMS T n i ∧ T i = T j ∧ r i < r j)

theorem Rows.stk_zone (R : Rows T n r) {j : Nat} (hj : isLMS T n j) :
    sbeg T n (T j) ≤ stk T n r j ∧ stk T n r j ≤ r j := by
  have h2 := R.S_eq' hj.2.1 hj.2.2.1
  have h3 : cnt n (fun i => isLMS T n i ∧ T i = T j ∧ r i < r j) ≤
      cnt n (fun i => isS T n i = true ∧ T i = T j ∧ r i < r j) :=
    cnt_mono (fun i _ h => ⟨h.1.2.2.1, h.2⟩)
  unfold stk; omega

theorem Rows.stk_mono (R : Rows T n r) {i j : Nat} (hi : isLMS T n i) (hj : isLMS T n j) (h : r i < r j) :
    stk T n r i < stk T n r j := by
  have h0 := R.T_le hi.2.1 hj.2.1 (by omega)
  rcases Nat.lt_or_ge (T i) (T j) with h1 | h1
  · have h2 := R.stk_zone hi
    have h3 := R.stk_zone hj
    have h4 := R.S_zone hi.2.1 hi.2.2.1
    have h5 := bst_mono (T := T) (n := n) (show T i + 1 ≤ T j by omega)
    have h6 := sbeg_gt (T := T) (n := n) (T j)
    omega
  · have h2 : T i = T j := by omega
    have : cnt n (fun a => isLMS T n a ∧ T a = T i ∧ r a < r i) <
        cnt n (fun a => isLMS T n a ∧ T a = T j ∧ r a < r j) :=
      cnt_lt (fun a _ h => ⟨h.1, by omega, by omega⟩) hi.2.1 ⟨hi, h2, h⟩ (by simp)
    unfold stk
    rw [h2] at this ⊢
    omega

theorem Rows.stk_inj (R : Rows T n r) {i j : Nat} (hi : isLMS T n i) (hj : isLMS T n j) (h : stk T n r i = stk T n r j) : i = j := by
  rcases Nat.lt_trichotomy (r i) (r j) with h1 | h1 | h1
  · have := R.stk_mono hi hj h1; omega
  · exact R.inj (by have := hi.2.1; omega) (by have := hj.2.1; omega) h1
  · have := R.stk_mono hj hi h1; omega

/-- a kept character is never in an L-type row -/
theorem Rows.stk_ne_L (R : Rows T n r) {i j : Nat} (hi : isLMS T n i) (hj : j < n) (hL : isS T n j = false) : stk T n r i ≠ r j := by
  have h1 := R.stk_zone hi
  have h2 := R.L_zone hj hL
  have h3 := R.S_zone hi.2.1 hi.2.2.1
  have h5 := sbeg_gt (T := T) (n := n) (T i)
  have h6 := sbeg_le (T := T) (n := n) (T j)
  rcases Nat.lt_trichotomy (T i) (T j) with h | h | h
  · have := bst_mono (T := T) (n := n) (show T i + 1 ≤ T j by omega); omega
  · rw [h] at h1; omega
  · have := bst_mono (T := T) (n := n) (show T j + 1 ≤ T i by omega); omega

/-- a kept character of a smaller position is never in the row of a larger S-type position -/
theorem Rows.stk_ne_S (R : Rows T n r) {i j : Nat} (hi : isLMS T n i) (hj : j < n) (hS : isS T n j = true)
    (h : T i = T j → r i < r j) : stk T n r i ≠ r j := by
  have h1 := R.stk_zone hi
  have h2 := R.S_zone hj hS
  have h3 := R.S_zone hi.2.1 hi.2.2.1
  have h5 := sbeg_gt (T := T) (n := n) (T i)
  have h6 := sbeg_gt (T := T) (n := n) (T j)
  rcases Nat.lt_trichotomy (T i) (T j) with h' | h' | h'
  · have := bst_mono (T := T) (n := n) (show T i + 1 ≤ T j by omega); omega
  · have := h h'; omega
  · have := bst_mono (T := T) (n := n) (show T j + 1 ≤ T i by omega); omega

/-- row of an L-type position, from the rows of the next positions -/
theorem RowsL.L_eq_succ (R : RowsL T n r) {j : Nat} (hj : j < n) (hL : isS T n j = false) :
    r j = 1 + bst T n (T j) + cnt n (fun i => isS T n i = false ∧ T i = T j ∧ r (i + 1) < r (j + 1)) := by
  rw [R.L_eq hj hL]
  congr 1
  refine cnt_congr (fun i hi => ?_)
  constructor
  · rintro ⟨h1, h2, h3⟩; exact ⟨h1, h2, (R.same hi hj h1 hL h2).1 h3⟩
  · rintro ⟨h1, h2, h3⟩; exact ⟨h1, h2, (R.same hi hj h1 hL h2).2 h3⟩

/-- row of an S-type position, from the rows of the next positions -/
theorem RowsS.S_eq_succ (R : RowsS T n r) {j : Nat} (hj : j < n) (hS : isS T n j = true) :
    r j + cnt n (fun i => isS T n i = true ∧ T i = T j ∧ r (j + 1) < r (i + 1)) = bst T n (T j + 1) := by
  rw [← R.S_eq hj hS]
  congr 1
  refine cnt_congr (fun i hi => ?_)
  constructor
  · rintro ⟨h1, h2, h3⟩; exact ⟨h1, h2, (R.same hj hi hS h1 h2.symm).2 h3⟩
  · rintro ⟨h1, h2, h3⟩; exact ⟨h1, h2, (R.same hj hi hS h1 h2.symm).1 h3⟩

end Flbwt.Gen
