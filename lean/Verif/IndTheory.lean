import Verif.SaisMain

/-!
# Rows of the Burrows-Wheeler matrix (proof helper)

`rho p` is the row of suffix `p` among all `n + 1` suffixes, the empty one included.
-/

namespace Flbwt

variable {T : Nat → Nat} {n : Nat}

/-- row of suffix `p` -/
noncomputable def rho (T : Nat → Nat) (n p : Nat) : Nat := cnt (n + 1) (fun q => sfx T n q < sfx T n p)

theorem rho_lt_iff {p q : Nat} (hp : p ≤ n) : rho T n p < rho T n q ↔ sfx T n p < sfx T n q := by
  constructor
  · intro h
    by_contra hc
    have : rho T n q ≤ rho T n p := cnt_mono (fun x _ hx => lt_of_lt_of_le hx (not_lt.1 hc))
    omega
  · intro h
    exact cnt_lt (fun x _ hx => lt_trans hx h) (by omega) h (lt_irrefl _)

theorem rho_inj {p q : Nat} (hp : p ≤ n) (hq : q ≤ n) (h : rho T n p = rho T n q) : p = q := by
  rcases lt_trichotomy (sfx T n p) (sfx T n q) with h1 | h1 | h1
  · have := (rho_lt_iff hp).2 h1; omega
  · exact sfx_inj hp hq h1
  · have := (rho_lt_iff hq).2 h1; omega

theorem rho_le {p : Nat} (hp : p ≤ n) : rho T n p ≤ n := by
  have := cnt_lt_of_not (n := n + 1) (P := fun q => sfx T n q < sfx T n p) (x := p) (by omega) (lt_irrefl _)
  unfold rho; omega

theorem rho_n : rho T n n = 0 := by
  refine cnt_false (fun q _ h => ?_)
  rw [sfx_nil (Nat.le_refl n)] at h
  exact absurd h (by simp)

theorem rho_pos {p : Nat} (hp : p < n) : 0 < rho T n p := by
  refine cnt_pos (x := n) (by omega) ?_
  rw [sfx_nil (Nat.le_refl n), sfx_cons hp]
  exact List.nil_lt_cons _ _

theorem rho_eq {p : Nat} (hp : p < n) : rho T n p = 1 + cnt n (fun q => sfx T n q < sfx T n p) := by
  have : sfx T n n < sfx T n p := by
    rw [sfx_nil (Nat.le_refl n), sfx_cons hp]; exact List.nil_lt_cons _ _
  classical
  rw [rho, cnt_succ, if_pos this]; omega

theorem sfx_lt_same {p q : Nat} (hp : p < n) (hq : q < n) (h : T p = T q) :
    sfx T n p < sfx T n q ↔ sfx T n (p + 1) < sfx T n (q + 1) := by
  rw [sfx_cons hp, sfx_cons hq, List.cons_lt_cons_iff, h]; simp

theorem sfx_lt_T {p q : Nat} (hp : p < n) (hq : q < n) (h : T p < T q) : sfx T n p < sfx T n q := by
  rw [sfx_cons hp, sfx_cons hq, List.cons_lt_cons_iff]; exact Or.inl h

theorem rho_T {p q : Nat} (hp : p < n) (hq : q < n) (h : T p < T q) : rho T n p < rho T n q :=
  (rho_lt_iff (by omega)).2 (sfx_lt_T hp hq h)

theorem T_le_of_rho {p q : Nat} (hp : p < n) (hq : q < n) (h : rho T n p ≤ rho T n q) : T p ≤ T q := by
  by_contra hc
  have := rho_T (T := T) hq hp (by omega); omega

theorem rho_same {p q : Nat} (hp : p < n) (hq : q < n) (h : T p = T q) :
    rho T n p < rho T n q ↔ rho T n (p + 1) < rho T n (q + 1) := by
  rw [rho_lt_iff (by omega), rho_lt_iff (by omega), sfx_lt_same hp hq h]

theorem sfx_L_succ {p : Nat} (hp : p < n) (h : isS T n p = false) : sfx T n (p + 1) < sfx T n p := by
  obtain ⟨d, hd⟩ : ∃ d, d = n - p := ⟨_, rfl⟩
  induction d generalizing p with
  | zero => omega
  | succ d ih =>
    rcases (L_iff hp).1 h with h1 | ⟨h1, h2 | ⟨h2, h3⟩⟩
    · rw [sfx_cons hp, sfx_nil (by omega)]; exact List.nil_lt_cons _ _
    · exact sfx_lt_T h1 hp h2
    · rw [sfx_lt_same h1 hp h2.symm]; exact ih h1 h3 (by omega)

theorem sfx_S_succ {p : Nat} (hp : p < n) (h : isS T n p = true) : sfx T n p < sfx T n (p + 1) := by
  obtain ⟨d, hd⟩ : ∃ d, d = n - p := ⟨_, rfl⟩
  induction d generalizing p with
  | zero => omega
  | succ d ih =>
    obtain ⟨h1, h2 | ⟨h2, h3⟩⟩ := (S_iff hp).1 h
    · exact sfx_lt_T hp h1 h2
    · rw [sfx_lt_same hp h1 h2]; exact ih h1 h3 (by omega)

theorem rho_L_succ {p : Nat} (hp : p < n) (h : isS T n p = false) : rho T n (p + 1) < rho T n p :=
  (rho_lt_iff (by omega)).2 (sfx_L_succ hp h)

theorem rho_S_succ {p : Nat} (hp : p < n) (h : isS T n p = true) : rho T n p < rho T n (p + 1) :=
  (rho_lt_iff (by omega)).2 (sfx_S_succ hp h)

theorem rho_L_lt_S {p q : Nat} (hp : p < n) (hq : q < n) (hT : T p = T q) (hL : isS T n p = false)
    (hS : isS T n q = true) : rho T n p < rho T n q :=
  (rho_lt_iff (by omega)).2 (L_lt_S hp hq hT hL hS)

/-- number of L-type positions of character `c` -/
noncomputable def cntL (T : Nat → Nat) (n c : Nat) : Nat := cnt n (fun q => isS T n q = false ∧ T q = c)

/-- first S-type row of the bucket of character `c` -/
noncomputable def sbeg (T : Nat → Nat) (n c : Nat) : Nat := 1 + bst T n c + cntL T n c

/-- where the character before S* position `j` is kept between the passes -/
noncomputable def stk (T : Nat → Nat) (n j : Nat) : Nat :=
  sbeg T n (T j) + cnt n (fun i => isLMS T n i ∧ T i = T j ∧ rho T n i < rho T n j)

theorem rho_L_eq {j : Nat} (hj : j < n) (hL : isS T n j = false) :
    rho T n j = 1 + bst T n (T j) +
      cnt n (fun i => isS T n i = false ∧ T i = T j ∧ rho T n (i + 1) < rho T n (j + 1)) := by
  rw [rho_eq hj, bst, Nat.add_assoc]
  congr 1
  refine cnt_or (fun i hi => ?_) ?_
  · constructor
    · intro h
      rcases Nat.lt_or_ge (T i) (T j) with h1 | h1
      · exact Or.inl h1
      · have h2 := T_le_of_sfx_lt hi hj h
        have h3 : T i = T j := by omega
        refine Or.inr ⟨?_, h3, ?_⟩
        · by_contra hc
          have := L_lt_S hj hi h3.symm hL (by simpa using hc)
          exact absurd (lt_trans this h) (lt_irrefl _)
        · rw [rho_lt_iff (by omega), ← sfx_lt_same hi hj h3]; exact h
    · rintro (h | ⟨-, h1, h2⟩)
      · exact sfx_lt_T hi hj h
      · rwa [sfx_lt_same hi hj h1, ← rho_lt_iff (by omega)]
  · rintro i hi ⟨h1, -, h2, -⟩; omega

theorem cntL_split (c : Nat) : bst T n (c + 1) = bst T n c + cntL T n c + cnt n (fun q => isS T n q = true ∧ T q = c) := by
  rw [bst_succ, Nat.add_assoc]
  congr 1
  refine cnt_or (fun q _ => ?_) ?_
  · constructor
    · intro h; cases hs : isS T n q
      · exact Or.inl ⟨rfl, h⟩
      · exact Or.inr ⟨rfl, h⟩
    · rintro (h | h) <;> exact h.2
  · rintro q _ ⟨⟨h1, -⟩, h2, -⟩; rw [h1] at h2; cases h2

theorem rho_S_eq {j : Nat} (hj : j < n) (hS : isS T n j = true) :
    rho T n j + cnt n (fun i => isS T n i = true ∧ T i = T j ∧ rho T n (j + 1) < rho T n (i + 1)) = bst T n (T j + 1) := by
  have h1 : rho T n j = cnt n (fun q => sfx T n q ≤ sfx T n j) := by
    rw [rho_eq hj, Nat.add_comm]
    refine (cnt_insert (P := fun q => sfx T n q < sfx T n j) hj (fun q hq => ?_) (lt_irrefl _)).symm
    constructor
    · intro h
      rcases lt_or_eq_of_le h with h | h
      · exact Or.inl h
      · exact Or.inr (sfx_inj (by omega) (by omega) h)
    · rintro (h | rfl)
      · exact le_of_lt h
      · exact le_refl _
  rw [h1, bst]
  refine (cnt_or (fun i hi => ?_) ?_).symm
  · constructor
    · intro h
      rcases le_or_gt (sfx T n i) (sfx T n j) with h2 | h2
      · exact Or.inl h2
      · have h3 := T_le_of_sfx_lt hj hi h2
        have h4 : T i = T j := by omega
        refine Or.inr ⟨?_, h4, ?_⟩
        · by_contra hc
          have := L_lt_S hi hj h4 (by simpa using hc) hS
          exact absurd (lt_trans this h2) (lt_irrefl _)
        · rw [rho_lt_iff (by omega), ← sfx_lt_same hj hi h4.symm]; exact h2
    · rintro (h | ⟨-, h, -⟩)
      · by_contra hc
        have := sfx_lt_T hj hi (T := T) (by omega)
        exact absurd (lt_of_lt_of_le this h) (lt_irrefl _)
      · omega
  · rintro i hi ⟨h2, -, h3, h4⟩
    rw [rho_lt_iff (by omega), ← sfx_lt_same hj hi h3.symm] at h4
    exact absurd (lt_of_lt_of_le h4 h2) (lt_irrefl _)

theorem rho_S_eq' {j : Nat} (hj : j < n) (hS : isS T n j = true) :
    rho T n j = sbeg T n (T j) + cnt n (fun i => isS T n i = true ∧ T i = T j ∧ rho T n i < rho T n j) := by
  have h1 := rho_S_eq hj hS
  have h2 := cntL_split (T := T) (n := n) (T j)
  have h3 : cnt n (fun q => isS T n q = true ∧ T q = T j) =
      cnt n (fun i => isS T n i = true ∧ T i = T j ∧ rho T n i < rho T n j) + 1 +
      cnt n (fun i => isS T n i = true ∧ T i = T j ∧ rho T n (j + 1) < rho T n (i + 1)) := by
    rw [← cnt_insert (n := n) (x := j) (Q := fun i => isS T n i = true ∧ T i = T j ∧ rho T n i ≤ rho T n j) hj ?_ (by simp)]
    · refine cnt_or (fun i hi => ?_) ?_
      · constructor
        · rintro ⟨h, h'⟩
          rcases Nat.lt_or_ge (rho T n j) (rho T n i) with h4 | h4
          · exact Or.inr ⟨h, h', (rho_same hj hi h'.symm).1 h4⟩
          · exact Or.inl ⟨h, h', h4⟩
        · rintro (h | h) <;> exact ⟨h.1, h.2.1⟩
      · rintro i hi ⟨h4, h5⟩
        have := (rho_same hj hi h5.2.1.symm).2 h5.2.2
        omega
    · intro i hi
      constructor
      · rintro ⟨h, h', h''⟩
        rcases Nat.lt_or_ge (rho T n i) (rho T n j) with h4 | h4
        · exact Or.inl ⟨h, h', h4⟩
        · exact Or.inr (rho_inj (by omega) (by omega) (by omega : rho T n i = rho T n j))
      · rintro (h | rfl)
        · exact ⟨h.1, h.2.1, by omega⟩
        · exact ⟨hS, rfl, Nat.le_refl _⟩
  unfold sbeg
  omega

theorem rho_L_zone {j : Nat} (hj : j < n) (hL : isS T n j = false) :
    bst T n (T j) < rho T n j ∧ rho T n j < sbeg T n (T j) := by
  have h1 := rho_L_eq hj hL
  have h2 : cnt n (fun i => isS T n i = false ∧ T i = T j ∧ rho T n (i + 1) < rho T n (j + 1)) < cntL T n (T j) :=
    cnt_lt (fun i _ h => ⟨h.1, h.2.1⟩) hj ⟨hL, rfl⟩ (by simp)
  unfold sbeg; omega

theorem rho_S_zone {j : Nat} (hj : j < n) (hS : isS T n j = true) :
    sbeg T n (T j) ≤ rho T n j ∧ rho T n j ≤ bst T n (T j + 1) := by
  have h1 := rho_S_eq hj hS
  have h2 := rho_S_eq' hj hS
  omega

theorem sbeg_gt (c : Nat) : bst T n c < sbeg T n c := by unfold sbeg; omega

theorem sbeg_le (c : Nat) : sbeg T n c ≤ bst T n (c + 1) + 1 := by
  have := cntL_split (T := T) (n := n) c; unfold sbeg; omega

theorem stk_zone {j : Nat} (hj : isLMS T n j) :
    sbeg T n (T j) ≤ stk T n j ∧ stk T n j ≤ rho T n j := by
  have h2 := rho_S_eq' hj.2.1 hj.2.2.1
  have h3 : cnt n (fun i => isLMS T n i ∧ T i = T j ∧ rho T n i < rho T n j) ≤
      cnt n (fun i => isS T n i = true ∧ T i = T j ∧ rho T n i < rho T n j) :=
    cnt_mono (fun i _ h => ⟨h.1.2.2.1, h.2⟩)
  unfold stk; omega

theorem stk_mono {i j : Nat} (hi : isLMS T n i) (hj : isLMS T n j) (h : rho T n i < rho T n j) :
    stk T n i < stk T n j := by
  have h0 := T_le_of_rho (T := T) hi.2.1 hj.2.1 (by omega)
  rcases Nat.lt_or_ge (T i) (T j) with h1 | h1
  · have h2 := stk_zone hi
    have h3 := stk_zone hj
    have h4 := rho_S_zone hi.2.1 hi.2.2.1
    have h5 := bst_mono (T := T) (n := n) (show T i + 1 ≤ T j by omega)
    have h6 := sbeg_gt (T := T) (n := n) (T j)
    omega
  · have h2 : T i = T j := by omega
    have : cnt n (fun a => isLMS T n a ∧ T a = T i ∧ rho T n a < rho T n i) <
        cnt n (fun a => isLMS T n a ∧ T a = T j ∧ rho T n a < rho T n j) :=
      cnt_lt (fun a _ h => ⟨h.1, by omega, by omega⟩) hi.2.1 ⟨hi, h2, h⟩ (by simp)
    unfold stk
    rw [h2] at this ⊢
    omega

theorem stk_inj {i j : Nat} (hi : isLMS T n i) (hj : isLMS T n j) (h : stk T n i = stk T n j) : i = j := by
  rcases Nat.lt_trichotomy (rho T n i) (rho T n j) with h1 | h1 | h1
  · have := stk_mono hi hj h1; omega
  · exact rho_inj (by have := hi.2.1; omega) (by have := hj.2.1; omega) h1
  · have := stk_mono hj hi h1; omega

/-- a kept character is never in an L-type row -/
theorem stk_ne_L {i j : Nat} (hi : isLMS T n i) (hj : j < n) (hL : isS T n j = false) : stk T n i ≠ rho T n j := by
  have h1 := stk_zone hi
  have h2 := rho_L_zone hj hL
  have h3 := rho_S_zone hi.2.1 hi.2.2.1
  have h4 := rho_S_zone hi.2.1 hi.2.2.1
  have h5 := sbeg_gt (T := T) (n := n) (T i)
  have h6 := sbeg_le (T := T) (n := n) (T j)
  rcases Nat.lt_trichotomy (T i) (T j) with h | h | h
  · have := bst_mono (T := T) (n := n) (show T i + 1 ≤ T j by omega); omega
  · rw [h] at h1; omega
  · have := bst_mono (T := T) (n := n) (show T j + 1 ≤ T i by omega); omega

/-- a kept character of a smaller suffix is never in the row of a larger S-type suffix -/
theorem stk_ne_S {i j : Nat} (hi : isLMS T n i) (hj : j < n) (hS : isS T n j = true)
    (h : T i = T j → rho T n i < rho T n j) : stk T n i ≠ rho T n j := by
  have h1 := stk_zone hi
  have h2 := rho_S_zone hj hS
  have h3 := rho_S_zone hi.2.1 hi.2.2.1
  have h5 := sbeg_gt (T := T) (n := n) (T i)
  have h6 := sbeg_gt (T := T) (n := n) (T j)
  rcases Nat.lt_trichotomy (T i) (T j) with h' | h' | h'
  · have := bst_mono (T := T) (n := n) (show T i + 1 ≤ T j by omega); omega
  · have := h h'; omega
  · have := bst_mono (T := T) (n := n) (show T j + 1 ≤ T i by omega); omega

theorem isS_succ_same {p : Nat} (hp : p + 1 < n) (h : T p = T (p + 1)) : isS T n p = isS T n (p + 1) := by
  rw [isS_step hp]; simp [h]

end Flbwt
