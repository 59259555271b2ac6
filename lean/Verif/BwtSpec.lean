import Verif.Spec
import Mathlib.Data.List.Perm.Basic
import Mathlib.Data.List.Sort

/-!
# Facts about the Burrows-Wheeler transform as specified in `Spec.lean`

Nothing here mentions the model: uniqueness, the multiset of the rows, and inversion.
-/

namespace Flbwt

theorem IsFullSuffixArray.length {s sa : List Nat} (h : IsFullSuffixArray s sa) : sa.length = s.length + 1 := by
  rw [h.1.length_eq, List.length_range]

theorem IsFullSuffixArray.nodup {s sa : List Nat} (h : IsFullSuffixArray s sa) : sa.Nodup :=
  h.1.nodup_iff.2 List.nodup_range

/-- There is only one. -/
theorem IsFullSuffixArray.unique {s a b : List Nat} (ha : IsFullSuffixArray s a) (hb : IsFullSuffixArray s b) : a = b := by
  refine List.Perm.eq_of_pairwise (le := fun i j => s.drop i < s.drop j) ?_ ha.2 hb.2 (ha.1.trans hb.1.symm)
  intro i j _ _ h1 h2
  exact absurd (List.lt_trans h1 h2) (List.lt_irrefl _)

theorem pairwise_filter_idx {l : List Nat} {R : Nat → Nat → Prop} [DecidableRel R] (hirr : ∀ a, ¬ R a a)
    (htr : ∀ a b, R a b → ¬ R b a) (h : l.Pairwise R) (k : Nat) (hk : k < l.length) :
    (l.filter (fun x => decide (R x l[k]))).length = k := by
  induction l generalizing k with
  | nil => simp at hk
  | cons a l ih =>
    rw [List.pairwise_cons] at h
    cases k with
    | zero =>
      simp only [List.getElem_cons_zero, List.length_eq_zero_iff, List.filter_eq_nil_iff, List.mem_cons, decide_eq_true_iff]
      rintro x (rfl | hx)
      · exact hirr _
      · exact htr _ _ (h.1 x hx)
    | succ k =>
      have hk' : k < l.length := by simpa using hk
      simp only [List.getElem_cons_succ]
      rw [List.filter_cons_of_pos (by simpa using h.1 _ (List.getElem_mem hk'))]
      simp only [List.length_cons, ih h.2 k hk']

theorem getD_lt {l : List Nat} {i : Nat} (h : i < l.length) : l.getD i 0 = l[i] := by
  rw [List.getD_eq_getElem?_getD, List.getElem?_eq_getElem h, Option.getD_some]

/-- The row of a suffix is the number of smaller suffixes. -/
theorem IsFullSuffixArray.row {s sa : List Nat} (h : IsFullSuffixArray s sa) (k : Nat) (hk : k < sa.length) :
    countBelow (s.length + 1) (fun i => decide (s.drop i < s.drop sa[k])) = k := by
  have := pairwise_filter_idx (R := fun i j => s.drop i < s.drop j) (fun a => List.lt_irrefl _)
    (fun a b h1 h2 => List.lt_irrefl _ (List.lt_trans h1 h2)) h.2 k hk
  unfold countBelow
  refine Eq.trans ?_ this
  exact ((h.1.filter _).length_eq).symm

theorem IsBWT.last_lt {s : List Nat} {b : Nat → Nat} {last : Nat} (h : IsBWT s b last) : last < s.length + 1 := by
  obtain ⟨sa, hsa, hr⟩ := h
  have : 0 ∈ sa := hsa.1.mem_iff.2 (by simp)
  obtain ⟨k, hk, h0⟩ := List.mem_iff_getElem.1 this
  have := (hr k hk).1.1 h0
  rw [← this, ← hsa.length]; exact hk

/-- `last` is the rank of the whole string. -/
theorem IsBWT.last_eq {s : List Nat} {b : Nat → Nat} {last : Nat} (h : IsBWT s b last) :
    last = countBelow (s.length + 1) (fun i => decide (s.drop i < s)) := by
  have hl := h.last_lt
  obtain ⟨sa, hsa, hr⟩ := h
  have hl' : last < sa.length := by rw [hsa.length]; exact hl
  have := hsa.row last hl'
  rw [(hr last hl').1.2 rfl, List.drop_zero] at this
  exact this.symm

theorem IsBWT.last_pos {s : List Nat} {b : Nat → Nat} {last : Nat} (h : IsBWT s b last) (hs : s ≠ []) : 1 ≤ last := by
  rw [h.last_eq]
  unfold countBelow
  refine List.length_pos_of_mem (a := s.length) ?_
  rw [List.mem_filter]
  refine ⟨by simp, ?_⟩
  rw [decide_eq_true_iff, List.drop_length]
  cases s with
  | nil => exact absurd rfl hs
  | cons a s => exact List.nil_lt_cons a s

/-- The transform is unique. -/
theorem IsBWT.unique {s : List Nat} {b b' : Nat → Nat} {last last' : Nat} (h : IsBWT s b last) (h' : IsBWT s b' last') :
    last = last' ∧ ∀ r, r ≤ s.length → r ≠ last → b r = b' r := by
  have hl : last = last' := by rw [h.last_eq, h'.last_eq]
  refine ⟨hl, fun r hr hne => ?_⟩
  obtain ⟨sa, hsa, h1⟩ := h
  obtain ⟨sa', hsa', h2⟩ := h'
  cases hsa.unique hsa'
  have hk : r < sa.length := by rw [hsa.length]; omega
  have hp : 0 < sa[r] := by
    rcases Nat.eq_zero_or_pos sa[r] with h0 | h0
    · exact absurd ((h1 r hk).1.1 h0) hne
    · exact h0
  have e1 := (h1 r hk).2 hp
  have e2 := (h2 r hk).2 hp
  rw [e1] at e2
  exact Option.some.inj e2

theorem map_idx_perm {s sa : List Nat} (h : sa.Perm (List.range (s.length + 1))) :
    ((sa.filter (fun p => decide (p ≠ 0))).map (fun p => s.getD (p - 1) 0)).Perm s := by
  have h1 := (h.filter (fun p => decide (p ≠ 0))).map (fun p => s.getD (p - 1) 0)
  refine h1.trans (List.Perm.of_eq ?_)
  rw [List.range_succ_eq_map, List.filter_cons_of_neg (by simp), List.filter_map, List.map_map]
  have : (List.range s.length).filter ((fun p => decide (p ≠ 0)) ∘ Nat.succ) = List.range s.length := by
    rw [List.filter_eq_self]; intro a _; simp
  rw [this]
  apply List.ext_getElem
  · simp
  · intro i h1 h2
    simp [h2]

/-- The rows without `last`, from top to bottom. -/
def rowsWithout (n : Nat) (b : Nat → Nat) (last : Nat) : List Nat :=
  ((List.range (n + 1)).filter (fun r => decide (r ≠ last))).map b

/-- … are a permutation of the string. -/
theorem IsBWT.perm {s : List Nat} {b : Nat → Nat} {last : Nat} (h : IsBWT s b last) :
    (rowsWithout s.length b last).Perm s := by
  obtain ⟨sa, hsa, hr⟩ := h
  have hlen := hsa.length
  refine List.Perm.trans (List.Perm.of_eq ?_) (map_idx_perm hsa.1)
  have e1 : sa = (List.range (s.length + 1)).map (fun r => sa.getD r 0) := by
    apply List.ext_getElem
    · simp [hlen]
    · intro i h1 h2; simp [h1]
  conv_rhs => rw [e1]
  rw [List.filter_map, List.map_map]
  unfold rowsWithout
  have e2 : (List.range (s.length + 1)).filter ((fun p => decide (p ≠ 0)) ∘ fun r => sa.getD r 0) =
      (List.range (s.length + 1)).filter (fun r => decide (r ≠ last)) := by
    apply List.filter_congr
    intro r hr'
    have hk : r < sa.length := by rw [hlen]; exact List.mem_range.1 hr'
    simp only [Function.comp, getD_lt hk]
    have := (hr r hk).1
    by_cases hc : r = last
    · simp [hc, this.2 hc]; subst hc; exact this.2 rfl
    · have : sa[r] ≠ 0 := fun h0 => hc (this.1 h0)
      simp [hc, this]
  rw [e2]
  apply List.map_congr_left
  intro r hr'
  rw [List.mem_filter] at hr'
  have hk : r < sa.length := by rw [hlen]; exact List.mem_range.1 hr'.1
  have hne : r ≠ last := by simpa using hr'.2
  have hp : 0 < sa[r] := by
    rcases Nat.eq_zero_or_pos sa[r] with h0 | h0
    · exact absurd ((hr r hk).1.1 h0) hne
    · exact h0
  have := (hr r hk).2 hp
  simp only [Function.comp]
  rw [getD_lt hk, List.getD_eq_getElem?_getD, this]
  rfl

/-! ## Inversion -/

/-- counting over the suffix array instead of the positions -/
theorem count_sa {n : Nat} {sa : List Nat} (h : sa.Perm (List.range (n + 1))) (f : Nat → Bool) :
    countBelow (n + 1) f = countBelow (n + 1) (fun r => f (sa.getD r 0)) := by
  have hlen : sa.length = n + 1 := by rw [h.length_eq, List.length_range]
  have e1 : sa = (List.range (n + 1)).map (fun r => sa.getD r 0) := by
    apply List.ext_getElem
    · simp [hlen]
    · intro i h1 h2; simp [h1]
  unfold countBelow
  rw [← (h.filter f).length_eq]
  conv_lhs => rw [e1]
  rw [List.filter_map, List.length_map]
  rfl

theorem countBelow_congr {n : Nat} {f g : Nat → Bool} (h : ∀ i, i < n → f i = g i) : countBelow n f = countBelow n g := by
  unfold countBelow
  rw [List.filter_congr (fun i hi => h i (List.mem_range.1 hi))]

theorem countBelow_succ_first {n : Nat} (f : Nat → Bool) :
    countBelow (n + 1) f = (if f 0 then 1 else 0) + countBelow n (fun i => f (i + 1)) := by
  unfold countBelow
  rw [List.range_succ_eq_map, List.filter_cons, List.filter_map]
  split
  · simp [Function.comp_def]; omega
  · simp [Function.comp_def]

theorem countBelow_succ_last {n : Nat} (f : Nat → Bool) :
    countBelow (n + 1) f = countBelow n f + (if f n then 1 else 0) := by
  unfold countBelow
  rw [List.range_succ, List.filter_append, List.length_append]
  congr 1
  by_cases h : f n <;> simp [h]

/-- Last-to-first mapping. -/
def lf (n : Nat) (b : Nat → Nat) (last r : Nat) : Nat :=
  1 + countBelow (n + 1) (fun r' => decide (r' ≠ last ∧ (b r' < b r ∨ (b r' = b r ∧ r' < r))))

/-- `k` steps backwards from row `r` -/
def walk (n : Nat) (b : Nat → Nat) (last : Nat) : Nat → Nat → List Nat → List Nat
  | 0, _, acc => acc
  | k + 1, r, acc => walk n b last k (lf n b last r) (b r :: acc)

/-- The inverse transform: walk from row 0 (the empty suffix). -/
def invert (n : Nat) (b : Nat → Nat) (last : Nat) : List Nat := walk n b last n 0 []

theorem lf_row {s sa : List Nat} {b : Nat → Nat} {last : Nat} (hsa : IsFullSuffixArray s sa)
    (hr : ∀ (r : Nat) (h : r < sa.length), (sa[r] = 0 ↔ r = last) ∧ (0 < sa[r] → s[sa[r] - 1]? = some (b r)))
    {p r : Nat} (hrl : r < sa.length) (hp : sa[r] = p + 1) :
    ∃ h : lf s.length b last r < sa.length, sa[lf s.length b last r]'h = p := by
  have hlen := hsa.length
  have hmem : sa[r] ∈ sa := List.getElem_mem hrl
  have hpn : p < s.length := by
    have := List.mem_range.1 (hsa.1.mem_iff.1 hmem); omega
  have hpm : p ∈ sa := hsa.1.mem_iff.2 (List.mem_range.2 (by omega))
  obtain ⟨k, hk, hkp⟩ := List.mem_iff_getElem.1 hpm
  have hbr : s[p] = b r := by
    have := (hr r hrl).2 (by omega)
    rw [hp, Nat.add_sub_cancel, List.getElem?_eq_getElem hpn] at this
    exact Option.some.inj this
  have hord : ∀ (x y : Nat) (hx : x < sa.length) (hy : y < sa.length), s.drop sa[x] < s.drop sa[y] ↔ x < y := by
    intro x y hx hy
    have hpw := List.pairwise_iff_getElem.1 hsa.2
    rcases Nat.lt_trichotomy x y with h1 | h1 | h1
    · exact ⟨fun _ => h1, fun _ => hpw x y hx hy h1⟩
    · subst h1; simp [List.lt_irrefl]
    · exact ⟨fun h2 => absurd (List.lt_trans h2 (hpw y x hy hx h1)) (List.lt_irrefl _), fun h2 => by omega⟩
  suffices hs : lf s.length b last r = k by subst hs; exact ⟨hk, hkp⟩
  rw [← hsa.row k hk, hkp, countBelow_succ_last, if_pos, Nat.add_comm]
  · unfold lf
    congr 1
    have e : countBelow s.length (fun i => decide (s.drop i < s.drop p)) =
        countBelow (s.length + 1) (fun i => decide (i ≠ 0 ∧ s.drop (i - 1) < s.drop p)) := by
      rw [countBelow_succ_first]
      simp
    rw [e, count_sa hsa.1 (fun i => decide (i ≠ 0 ∧ s.drop (i - 1) < s.drop p))]
    apply countBelow_congr
    intro x hx
    have hx' : x < sa.length := by omega
    simp only [getD_lt hx']
    rw [decide_eq_decide]
    by_cases hc : sa[x] = 0
    · have := (hr x hx').1.1 hc
      exact ⟨fun h => absurd this h.1, fun h => absurd hc h.1⟩
    · have hxl : x ≠ last := fun h => hc ((hr x hx').1.2 h)
      have hb := (hr x hx').2 (by omega)
      have hm := List.mem_range.1 (hsa.1.mem_iff.1 (List.getElem_mem hx'))
      have hlt : sa[x] - 1 < s.length := by omega
      rw [List.getElem?_eq_getElem hlt] at hb
      have hb' : s[sa[x] - 1] = b x := Option.some.inj hb
      rw [List.drop_eq_getElem_cons hlt, List.drop_eq_getElem_cons hpn, List.cons_lt_cons_iff, hb', hbr,
        show sa[x] - 1 + 1 = sa[x] by omega, ← hp, hord x r hx' hrl]
      simp [hxl, hc]
  · rw [decide_eq_true_iff, List.drop_length, List.drop_eq_getElem_cons hpn]
    exact List.nil_lt_cons _ _

/-- The transform can be inverted. -/
theorem IsBWT.invert {s : List Nat} {b : Nat → Nat} {last : Nat} (h : IsBWT s b last) : invert s.length b last = s := by
  obtain ⟨sa, hsa, hr⟩ := h
  have hlen := hsa.length
  have key : ∀ k, k ≤ s.length → ∀ (r : Nat) (hrl : r < sa.length), sa[r] = k →
      walk s.length b last k r (s.drop k) = s := by
    intro k
    induction k with
    | zero => intro _ r hrl hr0; simp [walk]
    | succ k ih =>
      intro hk r hrl hrk
      obtain ⟨h1, h2⟩ := lf_row hsa hr hrl hrk
      have hb := (hr r hrl).2 (by omega)
      have hkl : k < s.length := by omega
      rw [hrk, Nat.add_sub_cancel, List.getElem?_eq_getElem hkl] at hb
      rw [walk, ← Option.some.inj hb, ← List.drop_eq_getElem_cons hkl]
      exact ih (by omega) _ h1 h2
  have hm : s.length ∈ sa := hsa.1.mem_iff.2 (by simp)
  obtain ⟨k, hk, hkp⟩ := List.mem_iff_getElem.1 hm
  have hk0 : k = 0 := by
    have h0 := hsa.row k hk
    rw [hkp, List.drop_length] at h0
    rw [← h0]
    unfold countBelow
    rw [List.length_eq_zero_iff, List.filter_eq_nil_iff]
    intro a _
    simp
  subst hk0
  have := key s.length (Nat.le_refl _) 0 hk hkp
  rw [List.drop_length] at this
  exact this

/-- The value in row `last` does not matter. -/
theorem IsBWT.congr {s : List Nat} {b b' : Nat → Nat} {last : Nat} (h : IsBWT s b last)
    (hb : ∀ r, r ≤ s.length → r ≠ last → b r = b' r) : IsBWT s b' last := by
  obtain ⟨sa, hsa, hr⟩ := h
  refine ⟨sa, hsa, fun r hrl => ⟨(hr r hrl).1, fun hp => ?_⟩⟩
  rw [(hr r hrl).2 hp, hb r (by have := hsa.length; omega) (fun h => by have := (hr r hrl).1.2 h; omega)]

end Flbwt
