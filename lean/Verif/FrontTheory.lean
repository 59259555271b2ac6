import Verif.TheoryLms
import Verif.IndTheory

/-!
# The order of the stored S* substrings against the order of suffixes
-/

namespace Flbwt

/-- order computed by `LMS_comparison`: the first difference decides; if one string is a prefix of the other, the longer
one is smaller -/
def lmsLt : List Nat → List Nat → Bool
  | [], _ => false
  | _ :: _, [] => true
  | a :: as, b :: bs => if a = b then lmsLt as bs else decide (a < b)

theorem lmsLt_irrefl (a : List Nat) : lmsLt a a = false := by
  induction a with
  | nil => rfl
  | cons x a ih => simp [lmsLt, ih]

theorem lmsLt_trans {a b c : List Nat} (h1 : lmsLt a b = true) (h2 : lmsLt b c = true) : lmsLt a c = true := by
  induction a generalizing b c with
  | nil => simp [lmsLt] at h1
  | cons x a ih =>
    cases b with
    | nil => simp [lmsLt] at h2
    | cons y b =>
      cases c with
      | nil => rfl
      | cons z c =>
        simp only [lmsLt] at h1 h2 ⊢
        by_cases hxy : x = y
        · subst hxy
          rw [if_pos rfl] at h1
          by_cases hxz : x = z
          · subst hxz
            rw [if_pos rfl] at h2 ⊢
            exact ih h1 h2
          · rw [if_neg hxz] at h2 ⊢; exact h2
        · rw [if_neg hxy] at h1
          by_cases hyz : y = z
          · subst hyz
            rw [if_neg hxy]; exact h1
          · rw [if_neg hyz] at h2
            simp only [decide_eq_true_eq] at h1 h2
            rw [if_neg (by omega)]
            simp only [decide_eq_true_eq]; omega

theorem lmsLt_total {a b : List Nat} (h : a ≠ b) : lmsLt a b = true ∨ lmsLt b a = true := by
  induction a generalizing b with
  | nil =>
    cases b with
    | nil => exact absurd rfl h
    | cons y b => right; rfl
  | cons x a ih =>
    cases b with
    | nil => left; rfl
    | cons y b =>
      simp only [lmsLt]
      by_cases hxy : x = y
      · subst hxy
        simp only [if_true]
        exact ih (fun he => h (by rw [he]))
      · rw [if_neg hxy, if_neg (Ne.symm hxy)]
        simp only [decide_eq_true_eq]; omega

theorem lmsLt_asymm {a b : List Nat} (h1 : lmsLt a b = true) : lmsLt b a = false := by
  by_contra hc
  have := lmsLt_trans h1 (by simpa using hc)
  rw [lmsLt_irrefl] at this
  exact absurd this (by simp)

variable {T : Nat → Nat} {n : Nat}

/-- the S* position after `p`, or `n` -/
def nx (T : Nat → Nat) (n p : Nat) : Nat := p + (blk2 T n p).length

/-- the string stored for S* position `p`: `T[p..nx p]`, both ends included -/
def wstr (T : Nat → Nat) (n p : Nat) : List Nat := (List.range' p (nx T n p - p + 1)).map T

theorem lmsLt_range {p q a b : Nat} (h : lmsLt ((List.range' p a).map T) ((List.range' q b).map T) = true) :
    ∃ i, i < a ∧ i ≤ b ∧ (∀ j, j < i → T (p + j) = T (q + j)) ∧ (i = b ∨ (i < b ∧ T (p + i) < T (q + i))) := by
  induction a generalizing p q b with
  | zero => simp [lmsLt] at h
  | succ a ih =>
    cases b with
    | zero => exact ⟨0, by omega, by omega, by intro j hj; omega, Or.inl rfl⟩
    | succ b =>
      rw [List.range'_succ, List.range'_succ, List.map_cons, List.map_cons, lmsLt] at h
      by_cases he : T p = T q
      · rw [if_pos he] at h
        obtain ⟨i, i1, i2, i3, i4⟩ := ih h
        refine ⟨i + 1, by omega, by omega, ?_, ?_⟩
        · intro j hj
          cases j with
          | zero => simpa using he
          | succ j =>
            have := i3 j (by omega)
            rw [show p + 1 + j = p + (j + 1) by omega, show q + 1 + j = q + (j + 1) by omega] at this
            exact this
        · rcases i4 with rfl | ⟨h1, h2⟩
          · exact Or.inl rfl
          · rw [show p + 1 + i = p + (i + 1) by omega, show q + 1 + i = q + (i + 1) by omega] at h2
            exact Or.inr ⟨by omega, h2⟩
      · rw [if_neg he, decide_eq_true_eq] at h
        exact ⟨0, by omega, by omega, by intro j hj; omega, Or.inr ⟨by omega, by simpa using h⟩⟩

theorem nx_spec {p : Nat} (hp : isLMS T n p) : p + 2 ≤ nx T n p ∧ nx T n p ≤ n ∧ (nx T n p = n ∨ isLMS T n (nx T n p)) ∧
    ∀ q, p < q → q < nx T n p → ¬ isLMS T n q := by
  obtain ⟨h1, h2, h3, h4, _⟩ := blk2_next hp.2.1
  have hb := isLMS_bounds hp
  refine ⟨?_, h1, h3, h4⟩
  unfold nx
  rcases h3 with h3 | h3
  · omega
  · have := lms_gap hp h3 (by omega); omega

theorem sfx_common {p q i : Nat} (hp : p + i ≤ n) (hq : q + i ≤ n) (he : ∀ j, j < i → T (p + j) = T (q + j))
    (h : sfx T n (p + i) < sfx T n (q + i)) : sfx T n p < sfx T n q := by
  rw [sfx_split p i hp, sfx_split q i hq]
  have : (List.range' p i).map T = (List.range' q i).map T := by
    apply List.ext_getElem (by simp)
    intro j h1 h2
    simp only [List.length_map, List.length_range'] at h1
    simpa using he j h1
  rw [this]
  exact append_lt_append _ h

/-- positions with the smallest value that are S-type and not S* extend to the left -/
theorem zeros_back {v p m : Nat} (hv : ∀ i, i < n → v ≤ T i) (hm : p + m < n) (h0 : T (p + m) = v) (hS : isS T n (p + m) = true)
    (hn : ∀ q, p < q → q ≤ p + m → ¬ isLMS T n q) : ∀ d, d ≤ m → T (p + m - d) = v ∧ isS T n (p + m - d) = true := by
  intro d
  induction d with
  | zero => intro _; exact ⟨h0, hS⟩
  | succ d ih =>
    intro hd
    obtain ⟨i1, i2⟩ := ih (by omega)
    have hx := hn (p + m - d) (by omega) (by omega)
    have hS' : isS T n (p + m - (d + 1)) = true := by
      by_contra hc
      apply hx
      refine ⟨by omega, by omega, i2, ?_⟩
      rw [show p + m - d - 1 = p + m - (d + 1) by omega]
      simpa using hc
    refine ⟨?_, hS'⟩
    have := (S_iff (by omega)).1 hS'
    rw [show p + m - (d + 1) + 1 = p + m - d by omega, i1] at this
    have := hv (p + m - (d + 1)) (by omega)
    omega

/-- from an L-type position with the smallest value on everything is L-type -/
theorem zeros_fwd {v p : Nat} (hv : ∀ i, i < n → v ≤ T i) (hp : p < n) (h0 : T p = v) (hL : isS T n p = false) :
    ∀ q, p ≤ q → q < n → T q = v ∧ isS T n q = false := by
  intro q hq
  induction q, hq using Nat.le_induction with
  | base => intro _; exact ⟨h0, hL⟩
  | succ q hq ih =>
    intro hqn
    obtain ⟨i1, i2⟩ := ih (by omega)
    have := (L_iff (by omega)).1 i2
    have hv1 := hv (q + 1) (by omega)
    rcases this with h | ⟨_, h | h⟩
    · omega
    · omega
    · exact ⟨by omega, h.2⟩

/-- **Order of the stored strings**: if `LMS_comparison` puts the string of `p` first, then the suffix at `p` is smaller. -/
theorem wstr_lt (hT : ∀ i, i < n → T n ≤ T i) {p q : Nat} (hp : isLMS T n p) (hq : isLMS T n q)
    (h : lmsLt (wstr T n p) (wstr T n q) = true) : sfx T n p < sfx T n q := by
  obtain ⟨p1, p2, p3, p4⟩ := nx_spec hp
  obtain ⟨q1, q2, q3, q4⟩ := nx_spec hq
  obtain ⟨i, i1, i2, i3, i4⟩ := lmsLt_range h
  rcases i4 with rfl | ⟨h1, h2⟩
  · -- the string of `q` is a proper prefix of that of `p`
    obtain ⟨m, hm⟩ : ∃ m, m = nx T n q - q := ⟨_, rfl⟩
    rw [← hm] at i1 i2 i3
    have hpm : p + m < nx T n p := by omega
    have hqm : q + m = nx T n q := by omega
    have hTm := i3 m (by omega)
    rcases q3 with q3 | q3
    · -- `q` is the last S* position
      rw [hqm, q3] at hTm
      exfalso
      cases hS : isS T n (p + m) with
      | false =>
        have hz := zeros_fwd hT (by omega) hTm hS
        have hnp : nx T n p = n := by
          rcases p3 with p3 | p3
          · exact p3
          · have := (hz _ (by omega) p3.2.1).2
            rw [p3.2.2.1] at this; exact absurd this (by simp)
        rcases Nat.lt_trichotomy p q with h1 | h1 | h1
        · exact p4 q h1 (by rw [hnp]; exact hq.2.1) hq
        · subst h1; omega
        · exact q4 p h1 (by rw [q3]; exact hp.2.1) hp
      | true =>
        have hz := zeros_back (p := p) (m := m) hT (by omega) hTm hS (fun x x1 x2 => p4 x x1 (by omega))
        have hzq : ∀ j, j < m → T (q + j) = T n := by
          intro j hj
          rw [← i3 j (by omega)]
          have := (hz (m - j) (by omega)).1
          rwa [show p + m - (m - j) = p + j by omega] at this
        have := (isS_run (T := T) (n := n) (p := q) (j := n) hq.2.1 (Nat.le_refl _) (fun x x1 x2 => by
          have h1 := hzq (x - q) (by omega)
          have h2 := hzq 0 (by omega)
          rw [show q + (x - q) = x by omega] at h1
          rw [h1]; simpa using h2.symm) (by omega)).1 hq.2.2.1
        omega
    · have hdec := (isLMS_iff q3.2.1).1 q3
      have e1 := i3 (m - 1) (by omega)
      rw [show q + (m - 1) = nx T n q - 1 by omega] at e1
      rw [hqm] at hTm
      have hnl : isS T n (p + m) = false := by
        by_contra hc
        apply p4 (p + m) (by omega) hpm
        rw [isLMS_iff (by omega)]
        refine ⟨by omega, ?_, by simpa using hc⟩
        rw [show p + m - 1 = p + (m - 1) by omega, e1, hTm]; exact hdec.2.1
      refine sfx_common (i := m) (by omega) (by omega) (fun j hj => i3 j (by omega)) ?_
      rw [hqm]
      exact L_lt_S (by omega) q3.2.1 hTm hnl q3.2.2.1
  · have hqi : q + i < n := by
      by_contra hc
      have : q + i = n := by omega
      rw [this] at h2
      rcases Nat.lt_or_ge (p + i) n with h3 | h3
      · have := hT _ h3; omega
      · rw [show p + i = n by omega] at h2; omega
    refine sfx_common (i := i) (by omega) (by omega) i3 ?_
    rcases Nat.lt_or_ge (p + i) n with h3 | h3
    · exact sfx_lt_T h3 hqi h2
    · rw [sfx_nil h3, sfx_cons hqi]; exact List.nil_lt_cons _ _

/-- Equal stored strings: equal blocks. -/
theorem wstr_eq {p q : Nat} (hp : isLMS T n p) (hq : isLMS T n q)
    (h : wstr T n p = wstr T n q) : blk2 T n p = blk2 T n q := by
  obtain ⟨p1, p2, p3, p4⟩ := nx_spec hp
  obtain ⟨q1, q2, q3, q4⟩ := nx_spec hq
  have hlen : nx T n p - p = nx T n q - q := by
    have := congrArg List.length h
    simp only [wstr, List.length_map, List.length_range'] at this
    omega
  have hl : (blk2 T n p).length = (blk2 T n q).length := by unfold nx at *; omega
  rw [blk2_eq hp.2.1, blk2_eq hq.2.1, hl]
  unfold wstr at h
  rw [hlen] at h
  apply List.ext_getElem (by simp)
  intro j h1 h2
  simp only [List.length_map, List.length_range'] at h1
  have := congrArg (fun l => l[j]?) h
  simp only [List.getElem?_map, List.getElem?_range' (show j < nx T n q - q + 1 by unfold nx; omega)] at this
  simpa using this

end Flbwt
