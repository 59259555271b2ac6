import Verif.Theory

/-!
# LMS positions, blocks, names: the mathematics (no code is modelled here)
-/

namespace Flbwt

variable {T : Nat → Nat} {n : Nat}

theorem cnt_surj {n m : Nat} {P : Nat → Prop} (f : Nat → Nat) (hf : ∀ q, q < n → P q → f q < m)
    (hinj : ∀ a < n, ∀ b < n, P a → P b → f a = f b → a = b) (hm : cnt n P = m) :
    ∀ x, x < m → ∃ p, p < n ∧ P p ∧ f p = x := by
  intro x hx
  by_contra hc
  have h1 := cnt_inj_le (n := n) (m := m) (P := P) (Q := fun q => q ≠ x) f
    (fun q hq hp => ⟨hf q hq hp, fun heq => hc ⟨q, hq, hp, heq⟩⟩) hinj
  have h2 := cnt_lt_of_not (n := m) (P := fun q => q ≠ x) hx (by simp)
  omega

/-- number of LMS positions -/
noncomputable def lmsN (T : Nat → Nat) (n : Nat) : Nat := cnt n (isLMS T n)

theorem isLMS_bounds {p : Nat} (h : isLMS T n p) : 1 ≤ p ∧ p + 2 ≤ n := by
  have := isS_lt_n h.2.1 h.2.2.1
  exact ⟨h.1, by omega⟩

theorem isLMS_not_succ {p : Nat} (h : isLMS T n p) : ¬ isLMS T n (p + 1) := by
  rintro ⟨_, _, _, h'⟩
  simp [h.2.2.1] at h'

theorem lms_gap {p q : Nat} (hp : isLMS T n p) (hq : isLMS T n q) (h : p < q) : p + 2 ≤ q := by
  by_contra hc
  have : q = p + 1 := by omega
  subst this
  exact isLMS_not_succ hp hq

theorem lms_above {p : Nat} (hp : isLMS T n p) : p + 2 * cnt n (fun q => isLMS T n q ∧ p < q) + 2 ≤ n := by
  have hb := isLMS_bounds hp
  have h1 := cnt_inj_le (n := n) (m := (n - 2 - p) / 2) (P := fun q => isLMS T n q ∧ p < q) (Q := fun _ => True)
    (fun q => (q - p - 2) / 2) (fun q hq hh => by
      have := lms_gap hp hh.1 hh.2
      have := isLMS_bounds hh.1
      exact ⟨by omega, trivial⟩) (fun a ha b hb h1 h2 h => by
      have := lms_gap hp h1.1 h1.2
      have := lms_gap hp h2.1 h2.2
      rcases Nat.lt_trichotomy a b with h3 | h3 | h3
      · have := lms_gap h1.1 h2.1 h3; omega
      · exact h3
      · have := lms_gap h2.1 h1.1 h3; omega)
  rw [cnt_true (fun _ _ => trivial)] at h1
  omega

theorem lmsN_le (hn : 1 ≤ n) : 2 * lmsN T n + 1 ≤ n := by
  have h1 := cnt_inj_le (n := n) (m := (n - 1) / 2) (P := isLMS T n) (Q := fun _ => True)
    (fun q => (q - 1) / 2) (fun q hq hh => by
      have := isLMS_bounds hh
      exact ⟨by omega, trivial⟩) (fun a ha b hb h1 h2 h => by
      have := isLMS_bounds h1
      have := isLMS_bounds h2
      rcases Nat.lt_trichotomy a b with h3 | h3 | h3
      · have := lms_gap h1 h2 h3; omega
      · exact h3
      · have := lms_gap h2 h1 h3; omega)
  rw [cnt_true (fun _ _ => trivial)] at h1
  unfold lmsN
  omega

/-- index of an LMS position in text order -/
noncomputable def tix (T : Nat → Nat) (n p : Nat) : Nat := cnt n (fun q => isLMS T n q ∧ q < p)

theorem tix_mono {p q : Nat} (hp : isLMS T n p) (h : p < q) : tix T n p < tix T n q :=
  cnt_lt (fun x _ h' => ⟨h'.1, by omega⟩) hp.2.1 ⟨hp, h⟩ (by simp)

theorem tix_inj {p q : Nat} (hp : isLMS T n p) (hq : isLMS T n q) (h : tix T n p = tix T n q) : p = q := by
  rcases Nat.lt_trichotomy p q with h1 | h1 | h1
  · have := tix_mono (n := n) hp h1; omega
  · exact h1
  · have := tix_mono (n := n) hq h1; omega

theorem tix_lt {p : Nat} (hp : isLMS T n p) : tix T n p < lmsN T n :=
  cnt_lt (fun x _ h' => h'.1) hp.2.1 hp (by simp)

theorem tix_surj : ∀ a, a < lmsN T n → ∃ p, isLMS T n p ∧ tix T n p = a := by
  intro a ha
  obtain ⟨p, _, h1, h2⟩ := cnt_surj (n := n) (P := isLMS T n) (tix T n) (fun q _ hq => tix_lt hq)
    (fun a _ b _ h1 h2 h => tix_inj h1 h2 h) rfl a ha
  exact ⟨p, h1, h2⟩

theorem tix_add {p : Nat} (hp : isLMS T n p) : tix T n p + 1 + cnt n (fun q => isLMS T n q ∧ p < q) = lmsN T n := by
  have h1 : cnt n (fun q => isLMS T n q ∧ q ≤ p) = tix T n p + 1 :=
    cnt_insert hp.2.1 (fun q _ => by
      constructor
      · rintro ⟨h, h'⟩
        by_cases hh : q = p
        · exact Or.inr hh
        · exact Or.inl ⟨h, by omega⟩
      · rintro (⟨h, h'⟩ | rfl)
        · exact ⟨h, by omega⟩
        · exact ⟨hp, Nat.le_refl _⟩) (by simp)
  have h2 : lmsN T n = cnt n (fun q => isLMS T n q ∧ q ≤ p) + cnt n (fun q => isLMS T n q ∧ p < q) :=
    cnt_or (fun q _ => by
      constructor
      · intro h
        by_cases hh : q ≤ p
        · exact Or.inl ⟨h, hh⟩
        · exact Or.inr ⟨h, by omega⟩
      · rintro (h | h) <;> exact h.1) (by rintro q _ ⟨h1, h2⟩; omega)
  omega

open Classical in
/-- the `a`-th LMS position in text order, `n` when there is none -/
noncomputable def lpos (T : Nat → Nat) (n a : Nat) : Nat :=
  if h : ∃ p, isLMS T n p ∧ tix T n p = a then h.choose else n

theorem lpos_spec {a : Nat} (ha : a < lmsN T n) : isLMS T n (lpos T n a) ∧ tix T n (lpos T n a) = a := by
  unfold lpos
  rw [dif_pos (tix_surj a ha)]
  exact (tix_surj a ha).choose_spec

theorem lpos_tix {p : Nat} (hp : isLMS T n p) : lpos T n (tix T n p) = p :=
  tix_inj (lpos_spec (tix_lt hp)).1 hp (lpos_spec (tix_lt hp)).2

theorem lpos_end {a : Nat} (ha : lmsN T n ≤ a) : lpos T n a = n := by
  unfold lpos
  rw [dif_neg]
  rintro ⟨p, h1, h2⟩
  have := tix_lt h1
  omega

theorem lpos_inj {a b : Nat} (ha : a < lmsN T n) (hb : b < lmsN T n) (h : lpos T n a = lpos T n b) : a = b := by
  rw [← (lpos_spec ha).2, ← (lpos_spec hb).2, h]

/-! ## Blocks -/

theorem blk1_next {p : Nat} (hp : D1 T n p) : p + (blk1 T n p).length ≤ n ∧
    (p + (blk1 T n p).length = n ∨ isLMS T n (p + (blk1 T n p).length)) ∧
    (∀ q, p ≤ q → q < p + (blk1 T n p).length → ¬ isLMS T n q) ∧
    (∀ j, j < (blk1 T n p).length → (blk1 T n p)[j]? = some (T (p + j))) := by
  obtain ⟨d, hd⟩ : ∃ d, d = n - p := ⟨_, rfl⟩
  induction d generalizing p with
  | zero =>
    rcases hp with hp | hp | hp
    · subst hp; simp [blk1_n]; intros; omega
    · omega
    · have := hp.2.1; omega
  | succ d ih =>
    rcases hp with hp | hp | hp
    · omega
    · obtain ⟨h1, h2, h3, h4⟩ := ih (D1_succ hp.1 hp.2) (by omega)
      rw [blk1_L hp.1 hp.2]
      simp only [List.length_cons]
      rw [show p + ((blk1 T n (p + 1)).length + 1) = p + 1 + (blk1 T n (p + 1)).length by omega]
      refine ⟨h1, h2, ?_, ?_⟩
      · intro q hq hq2
        by_cases hqp : q = p
        · subst hqp; rintro ⟨_, _, h, _⟩; rw [hp.2] at h; cases h
        · exact h3 q (by omega) hq2
      · intro j hj
        cases j with
        | zero => simp
        | succ j => simp only [List.getElem?_cons_succ]; rw [h4 j (by omega)]; congr 2; omega
    · rw [blk1_S hp.2.1 hp.2.2.1]
      refine ⟨by have := hp.2.1; simp; omega, Or.inr (by simpa using hp), ?_, ?_⟩
      · intro q h1 h2; simp at h2; omega
      · intro j hj; simp at hj

theorem blk2_next {p : Nat} (hp : p < n) : p + (blk2 T n p).length ≤ n ∧ 1 ≤ (blk2 T n p).length ∧
    (p + (blk2 T n p).length = n ∨ isLMS T n (p + (blk2 T n p).length)) ∧
    (∀ q, p < q → q < p + (blk2 T n p).length → ¬ isLMS T n q) ∧
    (∀ j, j < (blk2 T n p).length → (blk2 T n p)[j]? = some (T (p + j))) := by
  obtain ⟨d, hd⟩ : ∃ d, d = n - p := ⟨_, rfl⟩
  induction d generalizing p with
  | zero => omega
  | succ d ih =>
    by_cases hS : isS T n p = true
    · have hlt := isS_lt_n hp hS
      obtain ⟨h1, h1', h2, h3, h4⟩ := ih hlt (by omega)
      rw [blk2_S hp hS]
      simp only [List.length_cons]
      rw [show p + ((blk2 T n (p + 1)).length + 1) = p + 1 + (blk2 T n (p + 1)).length by omega]
      refine ⟨h1, by omega, h2, ?_, ?_⟩
      · intro q hq hq2
        by_cases hqp : q = p + 1
        · subst hqp; rintro ⟨_, _, _, h⟩; simp [hS] at h
        · exact h3 q (by omega) hq2
      · intro j hj
        cases j with
        | zero => simp
        | succ j => simp only [List.getElem?_cons_succ]; rw [h4 j (by omega)]; congr 2; omega
    · have hL : isS T n p = false := by simpa using hS
      rw [blk2_L hp hL]
      obtain ⟨h1, h2, h3, h4⟩ := blk1_next (T := T) (n := n) (p := p) (Or.inr (Or.inl ⟨hp, hL⟩))
      refine ⟨h1, ?_, h2, fun q h => h3 q (by omega), h4⟩
      rw [blk1_L hp hL]; simp

theorem sfx_split (p l : Nat) (h : p + l ≤ n) : sfx T n p = (List.range' p l).map T ++ sfx T n (p + l) := by
  induction l generalizing p with
  | zero => simp
  | succ l ih =>
    rw [sfx_cons (by omega), ih (p + 1) (by omega), List.range'_succ, show p + (l + 1) = p + 1 + l by omega]
    simp

theorem blk2_eq {p : Nat} (hp : p < n) : blk2 T n p = (List.range' p (blk2 T n p).length).map T := by
  apply List.ext_getElem?
  intro j
  by_cases hj : j < (blk2 T n p).length
  · rw [(blk2_next hp).2.2.2.2 j hj]
    simp [hj]
  · rw [List.getElem?_eq_none (by omega), List.getElem?_eq_none (by simp; omega)]

theorem sfx_blk2 {p : Nat} (hp : p < n) : sfx T n p = blk2 T n p ++ sfx T n (p + (blk2 T n p).length) := by
  conv => lhs; rw [sfx_split p _ (blk2_next hp).1, ← blk2_eq hp]

/-- the next LMS position -/
theorem lpos_next {a : Nat} (ha : a < lmsN T n) :
    lpos T n (a + 1) = lpos T n a + (blk2 T n (lpos T n a)).length := by
  obtain ⟨hp, ht⟩ := lpos_spec ha
  obtain ⟨h1, h1', h2, h3, _⟩ := blk2_next (T := T) hp.2.1
  generalize lpos T n a = p at *
  rcases h2 with h2 | h2
  · rw [h2]
    apply lpos_end
    have := tix_add hp
    rw [cnt_false (P := fun q => isLMS T n q ∧ p < q) (fun q hq hh => h3 q hh.2 (by omega) hh.1)] at this
    omega
  · have : tix T n (p + (blk2 T n p).length) = a + 1 := by
      rw [← ht]
      refine cnt_insert hp.2.1 (fun q hq => ?_) (by simp)
      constructor
      · rintro ⟨g1, g2⟩
        by_cases hqp : q ≤ p
        · rcases Nat.lt_or_eq_of_le hqp with h | h
          · exact Or.inl ⟨g1, h⟩
          · exact Or.inr h
        · exact absurd g1 (h3 q (by omega) g2)
      · rintro (⟨g1, g2⟩ | rfl)
        · exact ⟨g1, by omega⟩
        · exact ⟨hp, by omega⟩
    rw [← this, lpos_tix h2]

/-- the next LMS position found by scanning downwards -/
theorem next_unique {p j : Nat} (hp : isLMS T n p) (hj : p < j) (hjn : j ≤ n) (h1 : j = n ∨ isLMS T n j)
    (h2 : ∀ q, p < q → q < j → ¬ isLMS T n q) : j = p + (blk2 T n p).length := by
  obtain ⟨g1, g1', g2, g3, _⟩ := blk2_next (T := T) hp.2.1
  rcases Nat.lt_trichotomy j (p + (blk2 T n p).length) with h | h | h
  · rcases h1 with h1 | h1
    · omega
    · exact absurd h1 (g3 j hj h)
  · exact h
  · rcases g2 with g2 | g2
    · omega
    · exact absurd g2 (h2 _ (by omega) h)

/-! ## Reduced string -/

/-- `R` names the LMS positions (in text order) consistently with blocks and suffixes. -/
structure Naming (T : Nat → Nat) (n : Nat) (R : Nat → Nat) : Prop where
  eq : ∀ a b, a < lmsN T n → b < lmsN T n → R a = R b → blk2 T n (lpos T n a) = blk2 T n (lpos T n b)
  lt : ∀ a b, a < lmsN T n → b < lmsN T n → R a < R b → sfx T n (lpos T n a) < sfx T n (lpos T n b)

theorem append_lt_append (l : List Nat) {a b : List Nat} (h : a < b) : l ++ a < l ++ b := by
  induction l with
  | nil => simpa using h
  | cons x l ih => rw [List.cons_append, List.cons_append, List.cons_lt_cons_iff]; right; exact ⟨rfl, ih⟩

theorem Naming.sfx_lt {R : Nat → Nat} (h : Naming T n R) {a b : Nat} (ha : a ≤ lmsN T n) (hb : b ≤ lmsN T n)
    (hlt : sfx R (lmsN T n) a < sfx R (lmsN T n) b) : sfx T n (lpos T n a) < sfx T n (lpos T n b) := by
  obtain ⟨d, hd⟩ : ∃ d, d = lmsN T n - a := ⟨_, rfl⟩
  induction d generalizing a b with
  | zero =>
    have hb' : b < lmsN T n := by
      by_contra hc
      rw [sfx_nil (p := b) (by omega)] at hlt
      exact absurd hlt (List.not_lt_nil _)
    rw [lpos_end (by omega), sfx_nil (Nat.le_refl n), sfx_cons (lpos_spec hb').1.2.1]
    exact List.Lex.nil
  | succ d ih =>
    have hb' : b < lmsN T n := by
      by_contra hc
      rw [sfx_nil (p := b) (by omega)] at hlt
      exact absurd hlt (List.not_lt_nil _)
    rw [sfx_cons (p := a) (by omega), sfx_cons hb', List.cons_lt_cons_iff] at hlt
    rcases hlt with h1 | ⟨h1, h2⟩
    · exact h.lt a b (by omega) hb' h1
    · have hblk := h.eq a b (by omega) hb' h1
      rw [sfx_blk2 (lpos_spec (a := a) (by omega)).1.2.1, sfx_blk2 (lpos_spec hb').1.2.1, ← lpos_next (by omega),
        ← lpos_next hb', hblk]
      exact append_lt_append _ (ih (by omega) (by omega) h2 (by omega))

/-! ## Names from a sorted list -/

/-- names given to the sorted list `P` by comparing neighbours, starting from 1 -/
def nmf (T : Nat → Nat) (n : Nat) (P : Nat → Nat) : Nat → Nat
  | 0 => 1
  | i + 1 => nmf T n P i + if blk2 T n (P (i + 1)) = blk2 T n (P i) then 0 else 1

variable {P : Nat → Nat}

theorem nmf_mono {i j : Nat} (h : i ≤ j) : nmf T n P i ≤ nmf T n P j := by
  induction j with
  | zero => have : i = 0 := by omega
            subst this; exact Nat.le_refl _
  | succ j ih =>
    rcases Nat.lt_or_eq_of_le h with h1 | h1
    · have := ih (by omega); rw [nmf]; omega
    · rw [h1]

theorem nmf_pos (i : Nat) : 1 ≤ nmf T n P i := by have := nmf_mono (T := T) (n := n) (P := P) (Nat.zero_le i); simpa [nmf] using this

theorem nmf_le (i : Nat) : nmf T n P i ≤ i + 1 := by
  induction i with
  | zero => simp [nmf]
  | succ i ih => rw [nmf]; split <;> omega

theorem nmf_eq {i j : Nat} (h : i ≤ j) (he : nmf T n P i = nmf T n P j) : blk2 T n (P i) = blk2 T n (P j) := by
  induction j with
  | zero => have : i = 0 := by omega
            subst this; rfl
  | succ j ih =>
    rcases Nat.lt_or_eq_of_le h with h1 | h1
    · have h2 := nmf_mono (T := T) (n := n) (P := P) (show i ≤ j by omega)
      rw [nmf] at he
      split at he
      · next hb => rw [hb]; exact ih (by omega) (by omega)
      · omega
    · rw [h1]

theorem nmf_step {i j : Nat} (h : i ≤ j) (he : nmf T n P i < nmf T n P j) :
    ∃ t, i ≤ t ∧ t ≤ j ∧ blk2 T n (P t) ≠ blk2 T n (P i) := by
  by_contra hc
  have h1 : ∀ t, i ≤ t → t ≤ j → blk2 T n (P t) = blk2 T n (P i) := by
    intro t h1 h2
    by_contra hh
    exact hc ⟨t, h1, h2, hh⟩
  have h2 : ∀ d, i + d ≤ j → nmf T n P (i + d) = nmf T n P i := by
    intro d
    induction d with
    | zero => intro _; rfl
    | succ d ih =>
      intro hd
      rw [show i + (d + 1) = (i + d) + 1 by omega, nmf, if_pos, ih (by omega)]; · rfl
      rw [h1 (i + d + 1) (by omega) (by omega), h1 (i + d) (by omega) (by omega)]
  have := h2 (j - i) (by omega)
  rw [show i + (j - i) = j by omega] at this
  omega

/-- A smaller name means a smaller suffix. -/
theorem nmf_lt {r : Nat → Nat} {m i j : Nat} (hP : ∀ x, x < m → P x < n)
    (hs : ∀ x y, x < y → y < m → k2 T n r (P x) < k2 T n r (P y))
    (hi : i < m) (hj : j < m) (h : nmf T n P i < nmf T n P j) : sfx T n (P i) < sfx T n (P j) := by
  have hij : i < j := by
    by_contra hc
    have := nmf_mono (T := T) (n := n) (P := P) (show j ≤ i by omega)
    omega
  have hb : ∀ x y, x < y → y < m → blk2 T n (P x) ≠ blk2 T n (P y) → sfx T n (P x) < sfx T n (P y) := by
    intro x y hxy hy hne
    rcases k2_blk (Nat.le_of_lt (hP x (by omega))) (Nat.le_of_lt (hP y hy)) (hs x y hxy hy) with h | h
    · exact h
    · exact absurd h hne
  by_cases hbe : blk2 T n (P i) = blk2 T n (P j)
  · obtain ⟨t, h1, h2, h3⟩ := nmf_step (Nat.le_of_lt hij) h
    have ht1 : t ≠ i := fun hh => h3 (by rw [hh])
    have ht2 : t ≠ j := fun hh => h3 (by rw [hh, hbe])
    exact lt_trans (hb i t (by omega) (by omega) (Ne.symm h3)) (hb t j (by omega) hj (by rw [← hbe]; exact h3))
  · exact hb i j hij hj hbe

/-! ## Recognising LMS positions by scanning forward -/

/-- S-type iff the first different character after the run is larger -/
theorem isS_run {p j : Nat} (hj : p < j) (hjn : j ≤ n) (heq : ∀ q, p ≤ q → q < j → T q = T p)
    (hne : j < n → T j ≠ T p) : isS T n p = true ↔ j < n ∧ T p < T j := by
  have hrun : ∀ d, p + d < j → isS T n p = isS T n (p + d) := by
    intro d
    induction d with
    | zero => intro _; rfl
    | succ d ih =>
      intro hd
      rw [ih (by omega), isS_step (p := p + d) (by omega), heq (p + d) (by omega) (by omega),
        heq (p + d + 1) (by omega) (by omega)]
      simp [Nat.add_assoc]
  have hl := hrun (j - 1 - p) (by omega)
  rw [show p + (j - 1 - p) = j - 1 by omega] at hl
  rw [hl]
  by_cases hjn' : j < n
  · have := isS_step (T := T) (n := n) (p := j - 1) (by omega)
    rw [Nat.sub_add_cancel (by omega), heq (j - 1) (by omega) (by omega)] at this
    have hh := hne hjn'
    rw [this]
    simp [hjn']
    omega
  · have : j = n := by omega
    subst this
    rw [isS_last (by omega)]
    simp

theorem isLMS_iff {p : Nat} (hp : p < n) : isLMS T n p ↔ 0 < p ∧ T (p - 1) > T p ∧ isS T n p = true := by
  constructor
  · rintro ⟨h1, h2, h3, h4⟩
    have hst := isS_step (T := T) (n := n) (p := p - 1) (by omega)
    rw [Nat.sub_add_cancel h1, h3, h4] at hst
    simp at hst
    exact ⟨h1, by omega, h3⟩
  · rintro ⟨h1, h2, h3⟩
    refine ⟨h1, hp, h3, ?_⟩
    have hst := isS_step (T := T) (n := n) (p := p - 1) (by omega)
    rw [Nat.sub_add_cancel h1] at hst
    rw [hst]; simp; omega

end Flbwt
