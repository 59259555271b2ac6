import Verif.Cnt

/-!
# Induced sorting: the mathematics (no code is modelled here)

A text is `T : Nat → Nat` with length `n`; position `n` is an imaginary end marker smaller than everything.
-/

namespace Flbwt

/-- suffix starting at `p` -/
def sfx (T : Nat → Nat) (n p : Nat) : List Nat := (List.range' p (n - p)).map T

/-- type of position `n - d` -/
def isSd (T : Nat → Nat) (n : Nat) : Nat → Bool
  | 0 => true
  | d + 1 => if d = 0 then false else
      decide (T (n - (d + 1)) < T (n - (d + 1) + 1)) ||
        (decide (T (n - (d + 1)) = T (n - (d + 1) + 1)) && isSd T n d)

/-- S-type: the suffix at `p` is smaller than the next one (see `isS_iff_sfx`) -/
def isS (T : Nat → Nat) (n p : Nat) : Bool := isSd T n (n - p)

/-- leftmost S-type position (S*) -/
def isLMS (T : Nat → Nat) (n p : Nat) : Prop := 0 < p ∧ p < n ∧ isS T n p = true ∧ isS T n (p - 1) = false

instance (T : Nat → Nat) (n p : Nat) : Decidable (isLMS T n p) := inferInstanceAs (Decidable (_ ∧ _ ∧ _ ∧ _))

variable {T : Nat → Nat} {n : Nat}

theorem sfx_nil {p : Nat} (h : n ≤ p) : sfx T n p = [] := by
  simp [sfx, show n - p = 0 by omega]

theorem sfx_cons {p : Nat} (h : p < n) : sfx T n p = T p :: sfx T n (p + 1) := by
  unfold sfx
  rw [show n - p = n - (p + 1) + 1 by omega, List.range'_succ, List.map_cons]

theorem sfx_length (p : Nat) : (sfx T n p).length = n - p := by simp [sfx]

theorem sfx_inj {p q : Nat} (hp : p ≤ n) (hq : q ≤ n) (h : sfx T n p = sfx T n q) : p = q := by
  have := congrArg List.length h
  rw [sfx_length, sfx_length] at this
  omega

theorem isS_n : isS T n n = true := by simp [isS, isSd]

theorem isS_last (h : 1 ≤ n) : isS T n (n - 1) = false := by
  rw [isS, show n - (n - 1) = 0 + 1 by omega, isSd]; simp

theorem isS_step {p : Nat} (h : p + 1 < n) :
    isS T n p = (decide (T p < T (p + 1)) || (decide (T p = T (p + 1)) && isS T n (p + 1))) := by
  rw [isS, show n - p = (n - (p + 1)) + 1 by omega, isSd, if_neg (by omega),
    show n - (n - (p + 1) + 1) = p by omega, isS]

theorem isS_lt_n {p : Nat} (hp : p < n) (h : isS T n p = true) : p + 1 < n := by
  rcases Nat.lt_or_ge (p + 1) n with h1 | h1
  · exact h1
  · have : p = n - 1 := by omega
    rw [this, isS_last (by omega)] at h
    exact absurd h (by simp)

theorem S_iff {p : Nat} (hp : p < n) :
    isS T n p = true ↔ p + 1 < n ∧ (T p < T (p + 1) ∨ T p = T (p + 1) ∧ isS T n (p + 1) = true) := by
  constructor
  · intro h
    have h1 := isS_lt_n hp h
    rw [isS_step h1] at h
    simpa [h1] using h
  · rintro ⟨h1, h2⟩
    rw [isS_step h1]; simpa using h2

theorem L_iff {p : Nat} (hp : p < n) :
    isS T n p = false ↔ p + 1 = n ∨ p + 1 < n ∧ (T (p + 1) < T p ∨ T p = T (p + 1) ∧ isS T n (p + 1) = false) := by
  rw [← Bool.not_eq_true, S_iff hp]
  by_cases h1 : p + 1 < n
  · simp only [h1, true_and, not_or, not_and, Nat.not_lt, Bool.not_eq_true, show ¬ p + 1 = n by omega, false_or]
    constructor
    · rintro ⟨h2, h3⟩
      rcases Nat.lt_or_eq_of_le h2 with h | h
      · exact Or.inl h
      · exact Or.inr ⟨h.symm, h3 h.symm⟩
    · rintro (h | ⟨h, h'⟩)
      · exact ⟨by omega, by omega⟩
      · exact ⟨by omega, fun _ => h'⟩
  · simp [h1]; omega

/-- With the same first character, an L-type suffix is smaller than an S-type one. -/
theorem L_lt_S {p q : Nat} (hp : p < n) (hq : q < n) (hT : T p = T q) (hL : isS T n p = false)
    (hS : isS T n q = true) : sfx T n p < sfx T n q := by
  obtain ⟨d, hd⟩ : ∃ d, d = n - p := ⟨_, rfl⟩
  induction d generalizing p q with
  | zero => omega
  | succ d ih =>
    rw [sfx_cons hp, sfx_cons hq, List.cons_lt_cons_iff]
    refine Or.inr ⟨hT, ?_⟩
    obtain ⟨hq1, hS⟩ := (S_iff hq).1 hS
    rcases (L_iff hp).1 hL with h | ⟨hp1, h⟩
    · rw [sfx_nil (by omega), sfx_cons hq1]; simp
    · rcases h with h | ⟨h, h'⟩
      · rw [sfx_cons hp1, sfx_cons hq1, List.cons_lt_cons_iff]
        left; omega
      · rcases hS with hS | ⟨hS, hS'⟩
        · rw [sfx_cons hp1, sfx_cons hq1, List.cons_lt_cons_iff]
          left; omega
        · exact ih hp1 hq1 (by omega) h' hS' (by omega)

/-! ## Keys -/

/-- key for the first pass; `r` orders the LMS positions having the same character -/
def k1d (T : Nat → Nat) (n : Nat) (r : Nat → Nat) : Nat → List Nat
  | 0 => []
  | d + 1 => if isS T n (n - (d + 1)) then [2 * T (n - (d + 1)) + 1, r (n - (d + 1))]
      else 2 * T (n - (d + 1)) :: k1d T n r d

def k1 (T : Nat → Nat) (n : Nat) (r : Nat → Nat) (p : Nat) : List Nat := k1d T n r (n - p)

/-- key for the second pass -/
def k2d (T : Nat → Nat) (n : Nat) (r : Nat → Nat) : Nat → List Nat
  | 0 => []
  | d + 1 => if isS T n (n - (d + 1)) then (2 * T (n - (d + 1)) + 1) :: k2d T n r d
      else k1 T n r (n - (d + 1))

def k2 (T : Nat → Nat) (n : Nat) (r : Nat → Nat) (p : Nat) : List Nat := k2d T n r (n - p)

variable {r : Nat → Nat}

theorem k1_n {p : Nat} (h : n ≤ p) : k1 T n r p = [] := by
  simp [k1, show n - p = 0 by omega, k1d]
theorem k1_S {p : Nat} (h : p < n) (hs : isS T n p = true) : k1 T n r p = [2 * T p + 1, r p] := by
  rw [k1, show n - p = n - (p + 1) + 1 by omega, k1d, show n - (n - (p + 1) + 1) = p by omega, if_pos hs]
theorem k1_L {p : Nat} (h : p < n) (hs : isS T n p = false) : k1 T n r p = 2 * T p :: k1 T n r (p + 1) := by
  rw [k1, show n - p = n - (p + 1) + 1 by omega, k1d, show n - (n - (p + 1) + 1) = p by omega,
    if_neg (by simp [hs]), k1]
theorem k2_n {p : Nat} (h : n ≤ p) : k2 T n r p = [] := by
  simp [k2, show n - p = 0 by omega, k2d]
theorem k2_S {p : Nat} (h : p < n) (hs : isS T n p = true) : k2 T n r p = (2 * T p + 1) :: k2 T n r (p + 1) := by
  rw [k2, show n - p = n - (p + 1) + 1 by omega, k2d, show n - (n - (p + 1) + 1) = p by omega, if_pos hs, k2]
theorem k2_L {p : Nat} (h : p < n) (hs : isS T n p = false) : k2 T n r p = k1 T n r p := by
  rw [k2, show n - p = n - (p + 1) + 1 by omega, k2d, show n - (n - (p + 1) + 1) = p by omega,
    if_neg (by simp [hs])]
theorem k2_L' {p : Nat} (h : p < n) (hs : isS T n p = false) : k2 T n r p = 2 * T p :: k1 T n r (p + 1) := by
  rw [k2_L h hs, k1_L h hs]

/-- positions taking part in the first pass -/
def D1 (T : Nat → Nat) (n p : Nat) : Prop := p = n ∨ (p < n ∧ isS T n p = false) ∨ isLMS T n p

theorem D1_succ {p : Nat} (hp : p < n) (hL : isS T n p = false) : D1 T n (p + 1) := by
  by_cases h : p + 1 = n
  · exact Or.inl h
  · by_cases hs : isS T n (p + 1) = true
    · exact Or.inr (Or.inr ⟨by omega, by omega, hs, by simpa using hL⟩)
    · exact Or.inr (Or.inl ⟨by omega, by simpa using hs⟩)

/-- `r` separates LMS positions -/
def RInj (T : Nat → Nat) (n : Nat) (r : Nat → Nat) : Prop :=
  ∀ p q, isLMS T n p → isLMS T n q → r p = r q → p = q

theorem k1_inj (hr : RInj T n r) {p q : Nat} (hp : D1 T n p) (hq : D1 T n q) (h : k1 T n r p = k1 T n r q) :
    p = q := by
  obtain ⟨d, hd⟩ : ∃ d, d = n - p := ⟨_, rfl⟩
  induction d generalizing p q with
  | zero =>
    have hpn : p = n := by
      rcases hp with rfl | h | h
      · rfl
      · omega
      · have := h.2.1; omega
    subst hpn
    rw [k1_n (Nat.le_refl _)] at h
    rcases hq with rfl | hq | hq
    · rfl
    · rw [k1_L hq.1 hq.2] at h; simp at h
    · rw [k1_S hq.2.1 hq.2.2.1] at h; simp at h
  | succ d ih =>
    rcases hp with rfl | hp | hp
    · omega
    · rw [k1_L hp.1 hp.2] at h
      rcases hq with rfl | hq | hq
      · rw [k1_n (Nat.le_refl _)] at h; simp at h
      · rw [k1_L hq.1 hq.2] at h
        injection h with h1 h2
        have := ih (D1_succ hp.1 hp.2) (D1_succ hq.1 hq.2) h2 (by omega)
        omega
      · rw [k1_S hq.2.1 hq.2.2.1] at h
        injection h with h1 h2; omega
    · rw [k1_S hp.2.1 hp.2.2.1] at h
      rcases hq with rfl | hq | hq
      · rw [k1_n (Nat.le_refl _)] at h; simp at h
      · rw [k1_L hq.1 hq.2] at h
        injection h with h1 h2; omega
      · rw [k1_S hq.2.1 hq.2.2.1] at h
        injection h with h1 h2
        injection h2 with h2
        exact hr p q hp hq h2

theorem k2_inj (hr : RInj T n r) {p q : Nat} (hp : p ≤ n) (hq : q ≤ n) (h : k2 T n r p = k2 T n r q) :
    p = q := by
  obtain ⟨d, hd⟩ : ∃ d, d = n - p := ⟨_, rfl⟩
  induction d generalizing p q with
  | zero =>
    have hpn : p = n := by omega
    subst hpn
    rw [k2_n (Nat.le_refl _)] at h
    by_contra hne
    have hq' : q < p := by omega
    cases hs : isS T p q with
    | true => rw [k2_S hq' hs] at h; simp at h
    | false => rw [k2_L' hq' hs] at h; simp at h
  | succ d ih =>
    have hpn : p < n := by omega
    by_cases hqn : q = n
    · subst hqn
      rw [k2_n (Nat.le_refl _)] at h
      cases hs : isS T q p with
      | true => rw [k2_S hpn hs] at h; simp at h
      | false => rw [k2_L' hpn hs] at h; simp at h
    · have hqn : q < n := by omega
      cases hs : isS T n p with
      | true =>
        rw [k2_S hpn hs] at h
        cases hs' : isS T n q with
        | true =>
          rw [k2_S hqn hs'] at h
          injection h with h1 h2
          have := ih (by omega) (by omega) h2 (by omega)
          omega
        | false => rw [k2_L' hqn hs'] at h; injection h with h1 h2; omega
      | false =>
        cases hs' : isS T n q with
        | true => rw [k2_L' hpn hs, k2_S hqn hs'] at h; injection h with h1 h2; omega
        | false =>
          rw [k2_L hpn hs, k2_L hqn hs'] at h
          exact k1_inj hr (Or.inr (Or.inl ⟨hpn, hs⟩)) (Or.inr (Or.inl ⟨hqn, hs'⟩)) h

/-- smaller character, smaller key -/
theorem k2_lt_of_T {p q : Nat} (hp : p < n) (hq : q < n) (h : T p < T q) : k2 T n r p < k2 T n r q := by
  cases hs : isS T n p <;> cases hs' : isS T n q
  · rw [k2_L' hp hs, k2_L' hq hs', List.cons_lt_cons_iff]; left; omega
  · rw [k2_L' hp hs, k2_S hq hs', List.cons_lt_cons_iff]; left; omega
  · rw [k2_S hp hs, k2_L' hq hs', List.cons_lt_cons_iff]; left; omega
  · rw [k2_S hp hs, k2_S hq hs', List.cons_lt_cons_iff]; left; omega

theorem k2_lt_LS {p q : Nat} (hp : p < n) (hq : q < n) (h : T p = T q) (hs : isS T n p = false)
    (hs' : isS T n q = true) : k2 T n r p < k2 T n r q := by
  rw [k2_L' hp hs, k2_S hq hs', List.cons_lt_cons_iff]; left; omega

theorem k2_lt_SS {p q : Nat} (hp : p < n) (hq : q < n) (h : T p = T q) (hs : isS T n p = true)
    (hs' : isS T n q = true) : k2 T n r p < k2 T n r q ↔ k2 T n r (p + 1) < k2 T n r (q + 1) := by
  rw [k2_S hp hs, k2_S hq hs', List.cons_lt_cons_iff, h]; simp

theorem k1_lt_LL {p q : Nat} (hp : p < n) (hq : q < n) (h : T p = T q) (hs : isS T n p = false)
    (hs' : isS T n q = false) : k1 T n r p < k1 T n r q ↔ k1 T n r (p + 1) < k1 T n r (q + 1) := by
  rw [k1_L hp hs, k1_L hq hs', List.cons_lt_cons_iff, h]; simp

theorem T_le_of_k2_lt {p q : Nat} (hp : p < n) (hq : q < n) (h : k2 T n r p < k2 T n r q) : T p ≤ T q := by
  by_contra hc
  exact lt_asymm h (k2_lt_of_T hq hp (by omega))

/-- the key of an S position is smaller than that of its successor -/
theorem k2_S_lt_succ {p : Nat} (hp : p < n) (hs : isS T n p = true) : k2 T n r p < k2 T n r (p + 1) := by
  obtain ⟨d, hd⟩ : ∃ d, d = n - p := ⟨_, rfl⟩
  induction d generalizing p with
  | zero => omega
  | succ d ih =>
    obtain ⟨h1, h2⟩ := (S_iff hp).1 hs
    rcases h2 with h2 | ⟨h2, h3⟩
    · exact k2_lt_of_T hp h1 h2
    · rw [k2_lt_SS hp h1 h2 hs h3]
      exact ih h1 h3 (by omega)

/-- the first-pass key of an L position is larger than that of its successor -/
theorem k1_L_gt_succ {p : Nat} (hp : p < n) (hs : isS T n p = false) : k1 T n r (p + 1) < k1 T n r p := by
  obtain ⟨d, hd⟩ : ∃ d, d = n - p := ⟨_, rfl⟩
  induction d generalizing p with
  | zero => omega
  | succ d ih =>
    rcases (L_iff hp).1 hs with h | ⟨h1, h2⟩
    · rw [k1_n (by omega), k1_L hp hs]; simp
    · rcases h2 with h2 | ⟨h2, h3⟩
      · rw [k1_L hp hs]
        cases hs' : isS T n (p + 1) with
        | true => rw [k1_S h1 hs', List.cons_lt_cons_iff]; left; omega
        | false => rw [k1_L h1 hs', List.cons_lt_cons_iff]; left; omega
      · rw [k1_lt_LL h1 hp h2.symm h3 hs]
        exact ih h1 h3 (by omega)

/-! ## Slots -/

/-- start of the bucket of character `c` -/
noncomputable def bst (T : Nat → Nat) (n c : Nat) : Nat := cnt n (fun q => T q < c)

/-- final slot of position `p` -/
noncomputable def rk (T : Nat → Nat) (n : Nat) (r : Nat → Nat) (p : Nat) : Nat :=
  cnt n (fun q => k2 T n r q < k2 T n r p)

/-- slot where LMS position `p` is put before the first pass -/
noncomputable def slM (T : Nat → Nat) (n : Nat) (r : Nat → Nat) (p : Nat) : Nat :=
  bst T n (T p + 1) - cnt n (fun q => isLMS T n q ∧ T q = T p ∧ r p ≤ r q)

theorem bst_succ (c : Nat) : bst T n (c + 1) = bst T n c + cnt n (fun q => T q = c) :=
  cnt_or (fun q _ => by omega) (fun q _ => by omega)

theorem cnt_LS (c : Nat) : cnt n (fun q => T q = c) =
    cnt n (fun q => isS T n q = false ∧ T q = c) + cnt n (fun q => isS T n q = true ∧ T q = c) :=
  cnt_or (fun q _ => by cases isS T n q <;> simp) (fun q _ => by cases isS T n q <;> simp)

theorem bst_mono {c c' : Nat} (h : c ≤ c') : bst T n c ≤ bst T n c' := cnt_mono (fun q _ h' => by omega)

theorem bst_le (c : Nat) : bst T n c ≤ n := cnt_le _ _

theorem rk_lt_iff {p q : Nat} (hp : p < n) (hq : q < n) :
    rk T n r p < rk T n r q ↔ k2 T n r p < k2 T n r q := by
  constructor
  · intro h
    by_contra hc
    have : rk T n r q ≤ rk T n r p := cnt_mono (fun x _ hx => lt_of_lt_of_le hx (not_lt.1 hc))
    omega
  · intro h
    exact cnt_lt (fun x _ hx => lt_trans hx h) hp h (lt_irrefl _)

theorem rk_inj (hr : RInj T n r) {p q : Nat} (hp : p < n) (hq : q < n) (h : rk T n r p = rk T n r q) : p = q := by
  apply k2_inj hr (Nat.le_of_lt hp) (Nat.le_of_lt hq)
  rcases lt_trichotomy (k2 T n r p) (k2 T n r q) with h1 | h1 | h1
  · have := (rk_lt_iff hp hq).2 h1; omega
  · exact h1
  · have := (rk_lt_iff hq hp).2 h1; omega

theorem rk_lt_n {p : Nat} (hp : p < n) : rk T n r p < n := cnt_lt_of_not hp (lt_irrefl _)

theorem rk_surj (hr : RInj T n r) : ∀ x < n, ∃ p < n, rk T n r p = x :=
  inj_surj _ (fun _ hq => rk_lt_n hq) (fun _ ha _ hb h => rk_inj hr ha hb h)

/-- slot of an L position: bucket start plus the number of smaller L positions in the bucket -/
theorem rk_L {p : Nat} (hp : p < n) (hL : isS T n p = false) :
    rk T n r p = bst T n (T p) + cnt n (fun q => (isS T n q = false ∧ T q = T p) ∧ k1 T n r q < k1 T n r p) := by
  refine cnt_or (fun q hq => ?_) (fun q _ => by omega)
  constructor
  · intro h
    have h1 := T_le_of_k2_lt hq hp h
    rcases Nat.lt_or_eq_of_le h1 with h2 | h2
    · exact Or.inl h2
    · right
      cases hs : isS T n q with
      | true => exact absurd (k2_lt_LS (r := r) hp hq h2.symm hL hs) (lt_asymm h)
      | false =>
        rw [k2_L hq hs, k2_L hp hL] at h
        exact ⟨⟨rfl, h2⟩, h⟩
  · rintro (h | ⟨⟨hs, _⟩, h⟩)
    · exact k2_lt_of_T hq hp h
    · rw [k2_L hq hs, k2_L hp hL]; exact h

/-- slot of an S position, counted from the end of the bucket -/
theorem rk_S (hr : RInj T n r) {p : Nat} (hp : p < n) (hS : isS T n p = true) :
    rk T n r p + 1 + cnt n (fun q => (isS T n q = true ∧ T q = T p) ∧ k2 T n r p < k2 T n r q) = bst T n (T p + 1) := by
  have h1 : bst T n (T p + 1) = cnt n (fun q => k2 T n r q < k2 T n r p ∨ q = p) +
      cnt n (fun q => (isS T n q = true ∧ T q = T p) ∧ k2 T n r p < k2 T n r q) := by
    refine cnt_or (fun q hq => ?_) (fun q hq => ?_)
    · constructor
      · intro h
        rcases lt_trichotomy (k2 T n r q) (k2 T n r p) with h1 | h1 | h1
        · exact Or.inl (Or.inl h1)
        · exact Or.inl (Or.inr (k2_inj hr (by omega) (by omega) h1))
        · right
          have h2 := T_le_of_k2_lt hp hq h1
          have h3 : T q = T p := by omega
          refine ⟨⟨?_, h3⟩, h1⟩
          cases hs : isS T n q with
          | true => rfl
          | false => exact absurd (k2_lt_LS (r := r) hq hp h3 hs hS) (lt_asymm h1)
      · rintro ((h | rfl) | h)
        · have := T_le_of_k2_lt hq hp h; omega
        · omega
        · omega
    · rintro ⟨h | rfl, h2⟩
      · exact lt_asymm h h2.2
      · exact lt_irrefl _ h2.2
  have h2 : cnt n (fun q => k2 T n r q < k2 T n r p ∨ q = p) = rk T n r p + 1 :=
    cnt_insert hp (fun q _ => Iff.rfl) (lt_irrefl _)
  omega

theorem rk_S_lt_succ {p : Nat} (hp : p < n) (hs : isS T n p = true) : rk T n r p < rk T n r (p + 1) :=
  (rk_lt_iff hp (isS_lt_n hp hs)).2 (k2_S_lt_succ hp hs)

theorem rk_L_lt_zone {p : Nat} (hp : p < n) (hL : isS T n p = false) :
    bst T n (T p) ≤ rk T n r p ∧ rk T n r p < bst T n (T p) + cnt n (fun q => isS T n q = false ∧ T q = T p) := by
  rw [rk_L hp hL]
  constructor
  · omega
  · have := cnt_lt (n := n) (P := fun q => (isS T n q = false ∧ T q = T p) ∧ k1 T n r q < k1 T n r p)
      (Q := fun q => isS T n q = false ∧ T q = T p) (fun q _ h => h.1) hp ⟨hL, rfl⟩ (fun h => lt_irrefl _ h.2)
    omega

/-- the LMS slots are at the end of the bucket -/
theorem slM_zone {p : Nat} (hp : isLMS T n p) :
    bst T n (T p) + cnt n (fun q => isS T n q = false ∧ T q = T p) ≤ slM T n r p ∧ slM T n r p < bst T n (T p + 1) ∧
    slM T n r p + cnt n (fun q => isLMS T n q ∧ T q = T p ∧ r p ≤ r q) = bst T n (T p + 1) := by
  have h1 := bst_succ (T := T) (n := n) (T p)
  have h2 := cnt_LS (T := T) (n := n) (T p)
  have h3 : cnt n (fun q => isLMS T n q ∧ T q = T p ∧ r p ≤ r q) ≤ cnt n (fun q => isS T n q = true ∧ T q = T p) :=
    cnt_mono (fun q _ h => ⟨h.1.2.2.1, h.2.1⟩)
  have h4 : 0 < cnt n (fun q => isLMS T n q ∧ T q = T p ∧ r p ≤ r q) := cnt_pos hp.2.1 ⟨hp, rfl, Nat.le_refl _⟩
  unfold slM
  omega

/-- slot during the first pass -/
noncomputable def sl1 (T : Nat → Nat) (n : Nat) (r : Nat → Nat) (p : Nat) : Nat :=
  if isS T n p then slM T n r p else rk T n r p

theorem sl1_L {p : Nat} (h : isS T n p = false) : sl1 T n r p = rk T n r p := by simp [sl1, h]
theorem sl1_M {p : Nat} (h : isLMS T n p) : sl1 T n r p = slM T n r p := by simp [sl1, h.2.2.1]

theorem sl1_zone {p : Nat} (hp : p < n) (h : D1 T n p) :
    bst T n (T p) ≤ sl1 T n r p ∧ sl1 T n r p < bst T n (T p + 1) := by
  rcases h with h | h | h
  · omega
  · rw [sl1_L h.2]
    have := rk_L_lt_zone (r := r) hp h.2
    have h1 := bst_succ (T := T) (n := n) (T p)
    have h2 := cnt_LS (T := T) (n := n) (T p)
    omega
  · rw [sl1_M h]
    have := slM_zone (r := r) h
    omega

theorem sl1_lt_n {p : Nat} (hp : p < n) (h : D1 T n p) : sl1 T n r p < n := by
  have := sl1_zone (r := r) hp h
  have := bst_le (T := T) (n := n) (T p + 1)
  omega

theorem sl1_mono {p q : Nat} (hp : p < n) (hq : q < n) (dp : D1 T n p) (dq : D1 T n q)
    (h : k1 T n r p < k1 T n r q) : sl1 T n r p < sl1 T n r q := by
  have zp := sl1_zone (r := r) hp dp
  have zq := sl1_zone (r := r) hq dq
  have hbk : T p < T q → sl1 T n r p < sl1 T n r q := fun hlt => by
    have := bst_mono (T := T) (n := n) (show T p + 1 ≤ T q by omega)
    omega
  rcases dp with dp | dp | dp
  · omega
  · rcases dq with dq | dq | dq
    · omega
    · rw [sl1_L dp.2, sl1_L dq.2]
      rw [rk_lt_iff hp hq, k2_L hp dp.2, k2_L hq dq.2]
      exact h
    · rw [k1_L dp.1 dp.2, k1_S dq.2.1 dq.2.2.1, List.cons_lt_cons_iff] at h
      by_cases hT : T p = T q
      · rw [sl1_L dp.2, sl1_M dq]
        have h1 := rk_L_lt_zone (r := r) hp dp.2
        have h2 := slM_zone (r := r) dq
        rw [← hT] at h2
        omega
      · exact hbk (by omega)
  · rcases dq with dq | dq | dq
    · omega
    · rw [k1_S dp.2.1 dp.2.2.1, k1_L dq.1 dq.2, List.cons_lt_cons_iff] at h
      exact hbk (by omega)
    · rw [k1_S dp.2.1 dp.2.2.1, k1_S dq.2.1 dq.2.2.1, List.cons_lt_cons_iff, List.cons_lt_cons_iff] at h
      by_cases hT : T p < T q
      · exact hbk hT
      · have hT : T p = T q := by omega
        have hrr : r p < r q := by
          rcases h with h | ⟨_, h | ⟨_, h⟩⟩
          · omega
          · exact h
          · simp at h
        rw [sl1_M dp, sl1_M dq]
        have h1 := slM_zone (r := r) dp
        have h2 := slM_zone (r := r) dq
        have h3 : cnt n (fun x => isLMS T n x ∧ T x = T q ∧ r q ≤ r x) <
            cnt n (fun x => isLMS T n x ∧ T x = T p ∧ r p ≤ r x) :=
          cnt_lt (fun x _ hx => ⟨hx.1, by omega, by omega⟩) hp ⟨dp, rfl, Nat.le_refl _⟩ (fun hx => by omega)
        rw [← hT] at h2
        rw [← hT] at h3
        omega

theorem sl1_inj (hr : RInj T n r) {p q : Nat} (hp : p < n) (hq : q < n) (dp : D1 T n p) (dq : D1 T n q)
    (h : sl1 T n r p = sl1 T n r q) : p = q := by
  apply k1_inj hr dp dq
  rcases lt_trichotomy (k1 T n r p) (k1 T n r q) with h1 | h1 | h1
  · have := sl1_mono hp hq dp dq h1; omega
  · exact h1
  · have := sl1_mono hq hp dq dp h1; omega

theorem sl1_lt_iff (hr : RInj T n r) {p q : Nat} (hp : p < n) (hq : q < n) (dp : D1 T n p) (dq : D1 T n q) :
    sl1 T n r p < sl1 T n r q ↔ k1 T n r p < k1 T n r q := by
  constructor
  · intro h
    rcases lt_trichotomy (k1 T n r p) (k1 T n r q) with h1 | h1 | h1
    · exact h1
    · have := k1_inj hr dp dq h1; subst this; omega
    · have := sl1_mono hq hp dq dp h1; omega
  · exact sl1_mono hp hq dp dq

/-- The successor of an L position is scanned before. -/
theorem sl1_succ_lt {p : Nat} (hp : p + 1 < n) (hL : isS T n p = false) : sl1 T n r (p + 1) < rk T n r p := by
  rw [← sl1_L hL]
  exact sl1_mono hp (by omega) (D1_succ (by omega) hL) (Or.inr (Or.inl ⟨by omega, hL⟩))
    (k1_L_gt_succ (by omega) hL)

/-! ## Keys against suffixes -/

/-- If `r` orders the LMS positions like their suffixes, the final order is the suffix order. -/
theorem k1_sfx (hr : ∀ p q, isLMS T n p → isLMS T n q → T p = T q → r p < r q → sfx T n p < sfx T n q) {p q : Nat}
    (dp : D1 T n p) (dq : D1 T n q) (h : k1 T n r p < k1 T n r q) : sfx T n p < sfx T n q := by
  obtain ⟨d, hd⟩ : ∃ d, d = n - p := ⟨_, rfl⟩
  induction d generalizing p q with
  | zero =>
    have hp : n ≤ p := by omega
    rw [k1_n hp] at h
    rcases dq with rfl | dq | dq
    · rw [k1_n (Nat.le_refl _)] at h; exact absurd h (lt_irrefl _)
    · rw [sfx_nil hp, sfx_cons dq.1]; simp
    · rw [sfx_nil hp, sfx_cons dq.2.1]; simp
  | succ d ih =>
    have hp : p < n := by omega
    rcases dq with rfl | dq | dq
    · rw [k1_n (Nat.le_refl q)] at h; simp at h
    · rw [k1_L dq.1 dq.2] at h
      rcases dp with rfl | dp | dp
      · omega
      · rw [k1_L dp.1 dp.2, List.cons_lt_cons_iff] at h
        rw [sfx_cons dp.1, sfx_cons dq.1, List.cons_lt_cons_iff]
        rcases h with h | ⟨h, h'⟩
        · left; omega
        · exact Or.inr ⟨by omega, ih (D1_succ dp.1 dp.2) (D1_succ dq.1 dq.2) h' (by omega)⟩
      · rw [k1_S dp.2.1 dp.2.2.1, List.cons_lt_cons_iff] at h
        rw [sfx_cons hp, sfx_cons dq.1, List.cons_lt_cons_iff]
        left; omega
    · rw [k1_S dq.2.1 dq.2.2.1] at h
      rcases dp with rfl | dp | dp
      · omega
      · rw [k1_L dp.1 dp.2, List.cons_lt_cons_iff] at h
        by_cases hT : T p = T q
        · exact L_lt_S dp.1 dq.2.1 hT dp.2 dq.2.2.1
        · rw [sfx_cons hp, sfx_cons dq.2.1, List.cons_lt_cons_iff]; left; omega
      · rw [k1_S dp.2.1 dp.2.2.1, List.cons_lt_cons_iff, List.cons_lt_cons_iff] at h
        rcases h with h | ⟨h1, h | ⟨h2, h⟩⟩
        · rw [sfx_cons hp, sfx_cons dq.2.1, List.cons_lt_cons_iff]; left; omega
        · exact hr p q dp dq (by omega) h
        · simp at h

theorem k2_sfx (hr : ∀ p q, isLMS T n p → isLMS T n q → T p = T q → r p < r q → sfx T n p < sfx T n q) {p q : Nat}
    (hp : p ≤ n) (hq : q ≤ n) (h : k2 T n r p < k2 T n r q) : sfx T n p < sfx T n q := by
  obtain ⟨d, hd⟩ : ∃ d, d = n - p := ⟨_, rfl⟩
  induction d generalizing p q with
  | zero =>
    rw [k2_n (by omega)] at h
    have hqn : q < n := by
      by_contra hc
      rw [k2_n (by omega)] at h; exact lt_irrefl _ h
    rw [sfx_nil (by omega), sfx_cons hqn]; simp
  | succ d ih =>
    have hpn : p < n := by omega
    have hqn : q < n := by
      by_contra hc
      rw [k2_n (p := q) (by omega)] at h; simp at h
    have hT := T_le_of_k2_lt hpn hqn h
    by_cases hT : T p < T q
    · rw [sfx_cons hpn, sfx_cons hqn, List.cons_lt_cons_iff]; exact Or.inl hT
    · have hT : T p = T q := by omega
      cases hs : isS T n p <;> cases hs' : isS T n q
      · rw [k2_L hpn hs, k2_L hqn hs'] at h
        exact k1_sfx hr (Or.inr (Or.inl ⟨hpn, hs⟩)) (Or.inr (Or.inl ⟨hqn, hs'⟩)) h
      · exact L_lt_S hpn hqn hT hs hs'
      · exact absurd (k2_lt_LS (r := r) hqn hpn hT.symm hs' hs) (lt_asymm h)
      · rw [k2_lt_SS hpn hqn hT hs hs'] at h
        rw [sfx_cons hpn, sfx_cons hqn, List.cons_lt_cons_iff]
        exact Or.inr ⟨hT, ih (by omega) (by omega) h (by omega)⟩

theorem k2_sfx_iff (hi : RInj T n r)
    (hr : ∀ p q, isLMS T n p → isLMS T n q → T p = T q → r p < r q → sfx T n p < sfx T n q) {p q : Nat}
    (hp : p ≤ n) (hq : q ≤ n) : k2 T n r p < k2 T n r q ↔ sfx T n p < sfx T n q := by
  refine ⟨k2_sfx hr hp hq, fun h => ?_⟩
  rcases lt_trichotomy (k2 T n r p) (k2 T n r q) with h1 | h1 | h1
  · exact h1
  · have := k2_inj hi hp hq h1; subst this; exact absurd h (lt_irrefl _)
  · exact absurd (k2_sfx hr hq hp h1) (lt_asymm h)

/-! ## Blocks between LMS positions (for naming) -/

/-- characters from `p` up to the next LMS position at or after `p` (exclusive) -/
def blk1d (T : Nat → Nat) (n : Nat) : Nat → List Nat
  | 0 => []
  | d + 1 => if isS T n (n - (d + 1)) then [] else T (n - (d + 1)) :: blk1d T n d
def blk1 (T : Nat → Nat) (n p : Nat) : List Nat := blk1d T n (n - p)
/-- same for a position in or before an S run: the run itself is included -/
def blk2d (T : Nat → Nat) (n : Nat) : Nat → List Nat
  | 0 => []
  | d + 1 => if isS T n (n - (d + 1)) then T (n - (d + 1)) :: blk2d T n d else blk1 T n (n - (d + 1))
def blk2 (T : Nat → Nat) (n p : Nat) : List Nat := blk2d T n (n - p)

theorem blk1_n {p : Nat} (h : n ≤ p) : blk1 T n p = [] := by simp [blk1, show n - p = 0 by omega, blk1d]
theorem blk1_S {p : Nat} (h : p < n) (hs : isS T n p = true) : blk1 T n p = [] := by
  rw [blk1, show n - p = n - (p + 1) + 1 by omega, blk1d, show n - (n - (p + 1) + 1) = p by omega, if_pos hs]
theorem blk1_L {p : Nat} (h : p < n) (hs : isS T n p = false) : blk1 T n p = T p :: blk1 T n (p + 1) := by
  rw [blk1, show n - p = n - (p + 1) + 1 by omega, blk1d, show n - (n - (p + 1) + 1) = p by omega,
    if_neg (by simp [hs]), blk1]
theorem blk2_n {p : Nat} (h : n ≤ p) : blk2 T n p = [] := by simp [blk2, show n - p = 0 by omega, blk2d]
theorem blk2_S {p : Nat} (h : p < n) (hs : isS T n p = true) : blk2 T n p = T p :: blk2 T n (p + 1) := by
  rw [blk2, show n - p = n - (p + 1) + 1 by omega, blk2d, show n - (n - (p + 1) + 1) = p by omega, if_pos hs, blk2]
theorem blk2_L {p : Nat} (h : p < n) (hs : isS T n p = false) : blk2 T n p = blk1 T n p := by
  rw [blk2, show n - p = n - (p + 1) + 1 by omega, blk2d, show n - (n - (p + 1) + 1) = p by omega,
    if_neg (by simp [hs])]

theorem k1_blk {p q : Nat} (dp : D1 T n p) (dq : D1 T n q) (h : k1 T n r p < k1 T n r q) :
    sfx T n p < sfx T n q ∨ blk1 T n p = blk1 T n q := by
  obtain ⟨d, hd⟩ : ∃ d, d = n - p := ⟨_, rfl⟩
  induction d generalizing p q with
  | zero =>
    left
    have hp : n ≤ p := by omega
    rw [k1_n hp] at h
    rcases dq with rfl | dq | dq
    · rw [k1_n (Nat.le_refl _)] at h; exact absurd h (lt_irrefl _)
    · rw [sfx_nil hp, sfx_cons dq.1]; simp
    · rw [sfx_nil hp, sfx_cons dq.2.1]; simp
  | succ d ih =>
    have hp : p < n := by omega
    rcases dq with rfl | dq | dq
    · rw [k1_n (Nat.le_refl q)] at h; simp at h
    · rw [k1_L dq.1 dq.2] at h
      rcases dp with rfl | dp | dp
      · omega
      · rw [k1_L dp.1 dp.2, List.cons_lt_cons_iff] at h
        rw [sfx_cons dp.1, sfx_cons dq.1, List.cons_lt_cons_iff]
        rcases h with h | ⟨h, h'⟩
        · left; left; omega
        · have hT : T p = T q := by omega
          rcases ih (D1_succ dp.1 dp.2) (D1_succ dq.1 dq.2) h' (by omega) with h1 | h1
          · exact Or.inl (Or.inr ⟨hT, h1⟩)
          · right; rw [blk1_L dp.1 dp.2, blk1_L dq.1 dq.2, hT, h1]
      · rw [k1_S dp.2.1 dp.2.2.1, List.cons_lt_cons_iff] at h
        rw [sfx_cons hp, sfx_cons dq.1, List.cons_lt_cons_iff]
        left; left; omega
    · rw [k1_S dq.2.1 dq.2.2.1] at h
      rcases dp with rfl | dp | dp
      · omega
      · rw [k1_L dp.1 dp.2, List.cons_lt_cons_iff] at h
        left
        by_cases hT : T p = T q
        · exact L_lt_S dp.1 dq.2.1 hT dp.2 dq.2.2.1
        · rw [sfx_cons hp, sfx_cons dq.2.1, List.cons_lt_cons_iff]; left; omega
      · right
        rw [blk1_S dp.2.1 dp.2.2.1, blk1_S dq.2.1 dq.2.2.1]

/-- Two positions ordered by the key and having different blocks are ordered like their suffixes. -/
theorem k2_blk {p q : Nat} (hp : p ≤ n) (hq : q ≤ n) (h : k2 T n r p < k2 T n r q) :
    sfx T n p < sfx T n q ∨ blk2 T n p = blk2 T n q := by
  obtain ⟨d, hd⟩ : ∃ d, d = n - p := ⟨_, rfl⟩
  induction d generalizing p q with
  | zero =>
    left
    rw [k2_n (by omega)] at h
    have hqn : q < n := by
      by_contra hc
      rw [k2_n (by omega)] at h; exact lt_irrefl _ h
    rw [sfx_nil (by omega), sfx_cons hqn]; simp
  | succ d ih =>
    have hpn : p < n := by omega
    have hqn : q < n := by
      by_contra hc
      rw [k2_n (p := q) (by omega)] at h; simp at h
    have hT := T_le_of_k2_lt hpn hqn h
    by_cases hT : T p < T q
    · left; rw [sfx_cons hpn, sfx_cons hqn, List.cons_lt_cons_iff]; exact Or.inl hT
    · have hT : T p = T q := by omega
      cases hs : isS T n p <;> cases hs' : isS T n q
      · rw [k2_L hpn hs, k2_L hqn hs'] at h
        rw [blk2_L hpn hs, blk2_L hqn hs']
        exact k1_blk (Or.inr (Or.inl ⟨hpn, hs⟩)) (Or.inr (Or.inl ⟨hqn, hs'⟩)) h
      · left; exact L_lt_S hpn hqn hT hs hs'
      · exact absurd (k2_lt_LS (r := r) hqn hpn hT.symm hs' hs) (lt_asymm h)
      · rw [k2_lt_SS hpn hqn hT hs hs'] at h
        rw [sfx_cons hpn, sfx_cons hqn, List.cons_lt_cons_iff]
        rcases ih (by omega) (by omega) h (by omega) with h1 | h1
        · exact Or.inl (Or.inr ⟨hT, h1⟩)
        · right; rw [blk2_S hpn hs, blk2_S hqn hs', hT, h1]

end Flbwt
