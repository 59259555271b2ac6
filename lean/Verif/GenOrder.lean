import Verif.GenTheory
import Mathlib.Data.List.Lex

/-!
# The two orders of the positions that inducing produces from an order of the S* positions
-/

namespace Flbwt.Gen

variable {T : Nat → Nat} {n : Nat}

/-- rank of a key among the keys of `0..n` -/
noncomputable def rankOf (n : Nat) (K : Nat → List Nat) (p : Nat) : Nat := cnt (n + 1) (fun q => K q < K p)

theorem rankOf_lt {K : Nat → List Nat} {p q : Nat} (hp : p ≤ n) : rankOf n K p < rankOf n K q ↔ K p < K q := by
  constructor
  · intro h
    by_contra hc
    have : rankOf n K q ≤ rankOf n K p := cnt_mono (fun x _ hx => lt_of_lt_of_le hx (not_lt.1 hc))
    omega
  · intro h
    exact cnt_lt (fun x _ hx => lt_trans hx h) (by omega) h (lt_irrefl _)

/-- A key with the empty list for `n`, a head that starts with the character and then the type. -/
structure Keys (T : Nat → Nat) (n : Nat) (K : Nat → List Nat) : Prop where
  inj : ∀ {p q}, p ≤ n → q ≤ n → K p = K q → p = q
  nil : K n = []
  L : ∀ {p}, p < n → isS T n p = false → ∃ t, K p = 2 * T p :: t
  S : ∀ {p}, p < n → isS T n p = true → ∃ t, K p = (2 * T p + 1) :: t

theorem Keys.head {K : Nat → List Nat} (H : Keys T n K) {p : Nat} (hp : p < n) :
    ∃ b t, b ≤ 1 ∧ K p = (2 * T p + b) :: t := by
  cases h : isS T n p
  · obtain ⟨t, ht⟩ := H.L hp h; exact ⟨0, t, by omega, ht⟩
  · obtain ⟨t, ht⟩ := H.S hp h; exact ⟨1, t, by omega, ht⟩

theorem Keys.rows {K : Nat → List Nat} (H : Keys T n K) : Rows T n (rankOf n K) := by
  constructor
  · intro p hp
    conv_lhs => unfold rankOf
    refine cnt_congr (fun q hq => ?_)
    exact (rankOf_lt (by omega)).symm
  · intro p q hp hq h
    rcases lt_trichotomy (K p) (K q) with h1 | h1 | h1
    · have := (rankOf_lt hp).2 h1; omega
    · exact H.inj hp hq h1
    · have := (rankOf_lt hq).2 h1; omega
  · refine cnt_false (fun q _ h => ?_)
    rw [H.nil] at h
    exact absurd h (by simp)
  · intro p q hp hq h
    rw [rankOf_lt (by omega)]
    obtain ⟨b, t, hb, e⟩ := H.head hp
    obtain ⟨b', t', hb', e'⟩ := H.head hq
    rw [e, e', List.cons_lt_cons_iff]
    exact Or.inl (by omega)
  · intro p q hp hq h hL hS
    rw [rankOf_lt (by omega)]
    obtain ⟨t, e⟩ := H.L hp hL
    obtain ⟨t', e'⟩ := H.S hq hS
    rw [e, e', List.cons_lt_cons_iff]
    exact Or.inl (by omega)

/-! ## The order of the first pass -/

/-- key of the first pass: an L-type position is placed by its character and the place of the next position, an S-type
position by its character and `π` -/
def K1 (T : Nat → Nat) (n : Nat) (π : Nat → Nat) (p : Nat) : List Nat :=
  if p < n then if isS T n p = true then [2 * T p + 1, π p] else 2 * T p :: K1 T n π (p + 1) else []
termination_by n - p

theorem K1_nil {π : Nat → Nat} : K1 T n π n = [] := by rw [K1]; simp

theorem K1_L {π : Nat → Nat} {p : Nat} (hp : p < n) (h : isS T n p = false) : K1 T n π p = 2 * T p :: K1 T n π (p + 1) := by
  rw [K1]; simp [hp, h]

theorem K1_S {π : Nat → Nat} {p : Nat} (hp : p < n) (h : isS T n p = true) : K1 T n π p = [2 * T p + 1, π p] := by
  rw [K1]; simp [hp, h]

theorem K1_keys {π : Nat → Nat} (hπ : ∀ p q, p < n → q < n → isS T n p = true → isS T n q = true → π p = π q → p = q) :
    Keys T n (K1 T n π) := by
  refine ⟨?_, K1_nil, fun hp h => ⟨_, K1_L hp h⟩, fun hp h => ⟨_, K1_S hp h⟩⟩
  have key : ∀ d p q, d = n - p → p ≤ n → q ≤ n → K1 T n π p = K1 T n π q → p = q := by
    intro d
    induction d with
    | zero =>
      intro p q hd hp hq h
      have : p = n := by omega
      subst this
      rw [K1_nil] at h
      by_contra hc
      have hq' : q < p := by omega
      cases hs : isS T p q
      · rw [K1_L hq' hs] at h; cases h
      · rw [K1_S hq' hs] at h; cases h
    | succ d ih =>
      intro p q hd hp hq h
      have hp' : p < n := by omega
      by_cases hq' : q < n
      · cases hs : isS T n p <;> cases hs' : isS T n q
        · rw [K1_L hp' hs, K1_L hq' hs'] at h
          have := ih (p + 1) (q + 1) (by omega) (by omega) (by omega) (List.cons.inj h).2
          omega
        · rw [K1_L hp' hs, K1_S hq' hs'] at h
          have := (List.cons.inj h).1
          omega
        · rw [K1_S hp' hs, K1_L hq' hs'] at h
          have := (List.cons.inj h).1
          omega
        · rw [K1_S hp' hs, K1_S hq' hs'] at h
          exact hπ p q hp' hq' hs hs' (by simpa using (List.cons.inj h).2)
      · have : q = n := by omega
        subst this
        rw [K1_nil] at h
        cases hs : isS T q p
        · rw [K1_L hp' hs] at h; cases h
        · rw [K1_S hp' hs] at h; cases h
  intro p q hp hq h
  exact key _ _ _ rfl hp hq h

theorem K1_succ {π : Nat → Nat} {p : Nat} (hp : p < n) (h : isS T n p = false) : K1 T n π (p + 1) < K1 T n π p := by
  obtain ⟨d, hd⟩ : ∃ d, d = n - p := ⟨_, rfl⟩
  induction d generalizing p with
  | zero => omega
  | succ d ih =>
    rw [K1_L hp h]
    rcases (L_iff hp).1 h with h1 | ⟨h1, h2 | ⟨h2, h3⟩⟩
    · rw [show p + 1 = n by omega, K1_nil]; exact List.nil_lt_cons _ _
    · cases hs : isS T n (p + 1)
      · rw [K1_L h1 hs, List.cons_lt_cons_iff]; exact Or.inl (by omega)
      · rw [K1_S h1 hs, List.cons_lt_cons_iff]; exact Or.inl (by omega)
    · have := ih h1 h3 (by omega)
      rw [K1_L h1 h3, h2] at *
      rw [List.cons_lt_cons_iff]
      exact Or.inr ⟨rfl, this⟩

/-- rows of the first pass -/
noncomputable def row1 (T : Nat → Nat) (n : Nat) (π : Nat → Nat) : Nat → Nat := rankOf n (K1 T n π)

theorem row1_rows {π : Nat → Nat} (hπ : ∀ p q, p < n → q < n → isS T n p = true → isS T n q = true → π p = π q → p = q) :
    RowsL T n (row1 T n π) := by
  refine ⟨(K1_keys hπ).rows, ?_, ?_⟩
  · intro p q hp hq h1 h2 h
    unfold row1
    rw [rankOf_lt (by omega), rankOf_lt (by omega), K1_L hp h1, K1_L hq h2, List.cons_lt_cons_iff, h]
    simp
  · intro p hp h
    exact (rankOf_lt (by omega)).2 (K1_succ hp h)

theorem row1_S {π : Nat → Nat} {p q : Nat} (hp : p < n) (hq : q < n) (h1 : isS T n p = true) (h2 : isS T n q = true)
    (h : T p = T q) : row1 T n π p < row1 T n π q ↔ π p < π q := by
  unfold row1
  rw [rankOf_lt (by omega), K1_S hp h1, K1_S hq h2, List.cons_lt_cons_iff, h]
  simp [List.cons_lt_cons_iff]

/-! ## The order of the second pass -/

/-- key of the second pass: an S-type position is placed by its character and the place of the next position, an L-type
position by its character and the first pass -/
def K2 (T : Nat → Nat) (n : Nat) (r1 : Nat → Nat) (p : Nat) : List Nat :=
  if p < n then if isS T n p = true then (2 * T p + 1) :: K2 T n r1 (p + 1) else [2 * T p, r1 p] else []
termination_by n - p

theorem K2_nil {r1 : Nat → Nat} : K2 T n r1 n = [] := by rw [K2]; simp

theorem K2_L {r1 : Nat → Nat} {p : Nat} (hp : p < n) (h : isS T n p = false) : K2 T n r1 p = [2 * T p, r1 p] := by
  rw [K2]; simp [hp, h]

theorem K2_S {r1 : Nat → Nat} {p : Nat} (hp : p < n) (h : isS T n p = true) :
    K2 T n r1 p = (2 * T p + 1) :: K2 T n r1 (p + 1) := by
  rw [K2]; simp [hp, h]

theorem K2_keys {r1 : Nat → Nat} (R1 : Rows T n r1) : Keys T n (K2 T n r1) := by
  refine ⟨?_, K2_nil, fun hp h => ⟨_, K2_L hp h⟩, fun hp h => ⟨_, K2_S hp h⟩⟩
  have key : ∀ d p q, d = n - p → p ≤ n → q ≤ n → K2 T n r1 p = K2 T n r1 q → p = q := by
    intro d
    induction d with
    | zero =>
      intro p q hd hp hq h
      have : p = n := by omega
      subst this
      rw [K2_nil] at h
      by_contra hc
      have hq' : q < p := by omega
      cases hs : isS T p q
      · rw [K2_L hq' hs] at h; cases h
      · rw [K2_S hq' hs] at h; cases h
    | succ d ih =>
      intro p q hd hp hq h
      have hp' : p < n := by omega
      by_cases hq' : q < n
      · cases hs : isS T n p <;> cases hs' : isS T n q
        · rw [K2_L hp' hs, K2_L hq' hs'] at h
          exact R1.inj hp hq (by simpa using (List.cons.inj h).2)
        · rw [K2_L hp' hs, K2_S hq' hs'] at h
          have := (List.cons.inj h).1
          omega
        · rw [K2_S hp' hs, K2_L hq' hs'] at h
          have := (List.cons.inj h).1
          omega
        · rw [K2_S hp' hs, K2_S hq' hs'] at h
          have := ih (p + 1) (q + 1) (by omega) (by omega) (by omega) (List.cons.inj h).2
          omega
      · have : q = n := by omega
        subst this
        rw [K2_nil] at h
        cases hs : isS T q p
        · rw [K2_L hp' hs] at h; cases h
        · rw [K2_S hp' hs] at h; cases h
  intro p q hp hq h
  exact key _ _ _ rfl hp hq h

theorem K2_succ {r1 : Nat → Nat} {p : Nat} (hp : p < n) (h : isS T n p = true) : K2 T n r1 p < K2 T n r1 (p + 1) := by
  obtain ⟨d, hd⟩ : ∃ d, d = n - p := ⟨_, rfl⟩
  induction d generalizing p with
  | zero => omega
  | succ d ih =>
    rw [K2_S hp h]
    obtain ⟨h1, h2 | ⟨h2, h3⟩⟩ := (S_iff hp).1 h
    · cases hs : isS T n (p + 1)
      · rw [K2_L h1 hs, List.cons_lt_cons_iff]; exact Or.inl (by omega)
      · rw [K2_S h1 hs, List.cons_lt_cons_iff]; exact Or.inl (by omega)
    · have := ih h1 h3 (by omega)
      rw [K2_S h1 h3, h2] at *
      rw [List.cons_lt_cons_iff]
      exact Or.inr ⟨rfl, this⟩

/-- rows of the second pass -/
noncomputable def row2 (T : Nat → Nat) (n : Nat) (r1 : Nat → Nat) : Nat → Nat := rankOf n (K2 T n r1)

theorem row2_rows {r1 : Nat → Nat} (R1 : Rows T n r1) : RowsS T n (row2 T n r1) := by
  refine ⟨(K2_keys R1).rows, ?_, ?_⟩
  · intro p q hp hq h1 h2 h
    unfold row2
    rw [rankOf_lt (by omega), rankOf_lt (by omega), K2_S hp h1, K2_S hq h2, List.cons_lt_cons_iff, h]
    simp
  · intro p hp h
    exact (rankOf_lt (by omega)).2 (K2_succ hp h)

/-- the second pass does not move L-type positions -/
theorem row2_L {r1 : Nat → Nat} (R1 : Rows T n r1) {j : Nat} (hj : j < n) (hL : isS T n j = false) :
    r1 j = row2 T n r1 j := by
  rw [R1.L_eq hj hL, (row2_rows R1).toRows.L_eq hj hL]
  congr 1
  refine cnt_congr (fun i hi => ?_)
  refine and_congr_right (fun h1 => and_congr_right (fun h2 => ?_))
  unfold row2
  rw [rankOf_lt (by omega), K2_L hi h1, K2_L hj hL, List.cons_lt_cons_iff, h2]
  simp [List.cons_lt_cons_iff]

end Flbwt.Gen
