import Verif.FileSpec

/-!
# The textbook definition of the Burrows-Wheeler transform

Write an end marker after the string, sort all rotations, take the last column. Nothing here mentions the model; the functions
can be run. `isBWT_iff_textbook` shows that `IsBWT` (`Spec.lean`, used in the theorems about the code) says the same.
-/

namespace Flbwt

/-- The string with an end marker: character `c` is written `c + 1`, the marker is `0`, smaller than every character. -/
def marked (s : List Nat) : List Nat := s.map (· + 1) ++ [0]

/-- Rotation by `i` places to the left. -/
def rotation (l : List Nat) (i : Nat) : List Nat := l.drop i ++ l.take i

/-- All rotations of `l`, sorted lexicographically. -/
def sortedRotations (l : List Nat) : List (List Nat) :=
  ((List.range l.length).map (rotation l)).insertionSort (fun a b => ¬ b < a)

/-- The last column of the matrix of sorted rotations of the string with its end marker. -/
def textbook (s : List Nat) : List Nat := (sortedRotations (marked s)).map (·.getLastD 0)

/-- The file of the string by the textbook: the row of the end marker in 8 bytes, then the column without the marker. -/
def textbookFile (s : List Nat) : List Nat :=
  bigEndian8 ((textbook s).idxOf 0) ++ ((textbook s).filter (fun c => decide (c ≠ 0))).map (· - 1)

theorem marked_length (s : List Nat) : (marked s).length = s.length + 1 := by simp [marked]

theorem rotation_marked {s : List Nat} {i : Nat} (h : i ≤ s.length) :
    rotation (marked s) i = (s.drop i).map (· + 1) ++ 0 :: (s.take i).map (· + 1) := by
  unfold rotation marked
  rw [List.drop_append_of_le_length (by simpa using h), List.take_append_of_le_length (by simpa using h), List.map_drop, List.map_take,
    List.append_assoc]
  rfl

/-- With the marker in front of what follows, comparing rotations is comparing suffixes. -/
theorem mark_lt : ∀ (a b x y : List Nat), a ≠ b →
    (a.map (· + 1) ++ 0 :: x < b.map (· + 1) ++ 0 :: y ↔ a < b)
  | [], [], _, _, h => absurd rfl h
  | [], b :: bs, x, y, _ => by
    simp only [List.map_nil, List.nil_append, List.map_cons, List.cons_append, List.cons_lt_cons_iff, List.nil_lt_cons, iff_true]
    left; omega
  | a :: as, [], x, y, _ => by
    simp only [List.map_nil, List.nil_append, List.map_cons, List.cons_append, List.cons_lt_cons_iff]
    constructor
    · rintro (h | ⟨h, _⟩) <;> omega
    · intro h; exact absurd h (List.not_lt_nil _)
  | a :: as, b :: bs, x, y, h => by
    simp only [List.map_cons, List.cons_append, List.cons_lt_cons_iff]
    by_cases e : a = b
    · subst e
      have := mark_lt as bs x y (fun h1 => h (by rw [h1]))
      simp only [this]
      simp
    · constructor
      · rintro (h1 | ⟨h1, _⟩)
        · left; omega
        · omega
      · rintro (h1 | ⟨h1, _⟩)
        · left; omega
        · exact absurd h1 e

theorem rotation_lt {s : List Nat} {i j : Nat} (hi : i ≤ s.length) (hj : j ≤ s.length) (h : i ≠ j) :
    rotation (marked s) i < rotation (marked s) j ↔ s.drop i < s.drop j := by
  rw [rotation_marked hi, rotation_marked hj]
  refine mark_lt _ _ _ _ (fun e => h ?_)
  have := congrArg List.length e
  simp only [List.length_drop] at this
  omega

/-- Sorting the rotations is sorting the suffixes. -/
theorem sortedRotations_eq {s sa : List Nat} (h : IsFullSuffixArray s sa) : sortedRotations (marked s) = sa.map (rotation (marked s)) := by
  have tot : Std.Total (fun a b : List Nat => ¬ b < a) := ⟨fun a b => by
    by_cases h1 : b < a
    · right; intro h2; exact List.lt_irrefl _ (List.lt_trans h1 h2)
    · left; exact h1⟩
  have tr : IsTrans (List Nat) (fun a b => ¬ b < a) := ⟨fun a b c h1 h2 => List.le_trans (l₁ := a) (l₂ := b) (l₃ := c) h1 h2⟩
  unfold sortedRotations
  refine List.Perm.eq_of_pairwise (le := fun a b => ¬ b < a) ?_ (List.pairwise_insertionSort _ _) ?_ ?_
  · intro a b _ _ h1 h2
    exact List.le_antisymm h1 h2
  · rw [List.pairwise_map]
    refine (List.Pairwise.and_mem.1 h.2).imp ?_
    rintro i j ⟨h1, h2, h3⟩ h4
    have b1 : i ≤ s.length := by have := List.mem_range.1 (h.1.mem_iff.1 h1); omega
    have b2 : j ≤ s.length := by have := List.mem_range.1 (h.1.mem_iff.1 h2); omega
    have ne : i ≠ j := by rintro rfl; exact List.lt_irrefl _ h3
    exact List.lt_irrefl _ (List.lt_trans h3 ((rotation_lt b2 b1 ne.symm).1 h4))
  · refine (List.perm_insertionSort _ _).trans ?_
    rw [marked_length]
    exact (h.1.map _).symm

theorem rotation_last {s : List Nat} {i : Nat} (h : i ≤ s.length) :
    (rotation (marked s) i).getLastD 0 = if i = 0 then 0 else s.getD (i - 1) 0 + 1 := by
  rw [rotation_marked h]
  cases i with
  | zero => simp
  | succ i =>
    have hi : i < s.length := by omega
    rw [List.take_succ_eq_append_getElem hi, List.map_append, List.map_singleton, ← List.cons_append, ← List.append_assoc,
      List.getLastD_concat, if_neg (by omega), Nat.add_sub_cancel, getD_lt hi]

/-- Every string has a suffix array. -/
theorem exists_suffixArray (s : List Nat) : ∃ sa, IsFullSuffixArray s sa := by
  have tot : Std.Total (fun i j : Nat => ¬ s.drop j < s.drop i) := ⟨fun a b => by
    by_cases h1 : s.drop b < s.drop a
    · right; intro h2; exact List.lt_irrefl _ (List.lt_trans h1 h2)
    · left; exact h1⟩
  have tr : IsTrans Nat (fun i j => ¬ s.drop j < s.drop i) := ⟨fun a b c h1 h2 => List.le_trans (l₁ := s.drop a) (l₂ := s.drop b) (l₃ := s.drop c) h1 h2⟩
  have hp := List.perm_insertionSort (fun i j : Nat => ¬ s.drop j < s.drop i) (List.range (s.length + 1))
  refine ⟨(List.range (s.length + 1)).insertionSort (fun i j => ¬ s.drop j < s.drop i), hp, ?_⟩
  have hn : ((List.range (s.length + 1)).insertionSort (fun i j => ¬ s.drop j < s.drop i)).Pairwise (· ≠ ·) := hp.nodup_iff.2 List.nodup_range
  refine (List.Pairwise.and_mem.1 ((List.pairwise_insertionSort (fun i j : Nat => ¬ s.drop j < s.drop i) _).and hn)).imp ?_
  rintro i j ⟨h1, h2, h3, h4⟩
  have b1 := List.mem_range.1 (hp.mem_iff.1 h1)
  have b2 := List.mem_range.1 (hp.mem_iff.1 h2)
  by_contra h
  have e := List.le_antisymm (as := s.drop i) (bs := s.drop j) h3 h
  have := congrArg List.length e
  simp only [List.length_drop] at this
  omega

/-- The positions of `s` sorted by the suffixes that start there. -/
def sortedSuffixes (s : List Nat) : List Nat := (List.range s.length).insertionSort (fun i j => ¬ s.drop j < s.drop i)

theorem sortedSuffixes_ok (s : List Nat) : IsSuffixArray s (sortedSuffixes s) := by
  have tot : Std.Total (fun i j : Nat => ¬ s.drop j < s.drop i) := ⟨fun a b => by
    by_cases h1 : s.drop b < s.drop a
    · right; intro h2; exact List.lt_irrefl _ (List.lt_trans h1 h2)
    · left; exact h1⟩
  have tr : IsTrans Nat (fun i j => ¬ s.drop j < s.drop i) := ⟨fun a b c h1 h2 => List.le_trans (l₁ := s.drop a) (l₂ := s.drop b) (l₃ := s.drop c) h1 h2⟩
  have hp := List.perm_insertionSort (fun i j : Nat => ¬ s.drop j < s.drop i) (List.range s.length)
  refine ⟨hp, ?_⟩
  have hn : (sortedSuffixes s).Pairwise (· ≠ ·) := hp.nodup_iff.2 List.nodup_range
  refine (List.Pairwise.and_mem.1 ((List.pairwise_insertionSort (fun i j : Nat => ¬ s.drop j < s.drop i) _).and hn)).imp ?_
  rintro i j ⟨h1, h2, h3, h4⟩
  have b1 := List.mem_range.1 (hp.mem_iff.1 h1)
  have b2 := List.mem_range.1 (hp.mem_iff.1 h2)
  by_contra h
  have e := List.le_antisymm (as := s.drop i) (bs := s.drop j) h3 h
  have := congrArg List.length e
  simp only [List.length_drop] at this
  omega

/-- The specification of the suffix sorters is the naive sort of the suffixes. -/
theorem isSuffixArray_iff_sorted (s sa : List Nat) : IsSuffixArray s sa ↔ sa = sortedSuffixes s := by
  constructor
  · intro h
    refine List.Perm.eq_of_pairwise (le := fun i j => s.drop i < s.drop j) ?_ h.2 (sortedSuffixes_ok s).2
      (h.1.trans (sortedSuffixes_ok s).1.symm)
    intro i j _ _ h1 h2
    exact absurd (List.lt_trans h1 h2) (List.lt_irrefl _)
  · rintro rfl
    exact sortedSuffixes_ok s

/-- The last column and the suffix array. -/
theorem textbook_eq {s sa : List Nat} (h : IsFullSuffixArray s sa) :
    textbook s = sa.map (fun i => if i = 0 then 0 else s.getD (i - 1) 0 + 1) := by
  unfold textbook
  rw [sortedRotations_eq h, List.map_map]
  refine List.map_congr_left fun i hi => ?_
  exact rotation_last (by have := List.mem_range.1 (h.1.mem_iff.1 hi); omega)

theorem textbook_length (s : List Nat) : (textbook s).length = s.length + 1 := by
  obtain ⟨sa, h⟩ := exists_suffixArray s
  rw [textbook_eq h, List.length_map, h.length]

/-- The specification used in the theorems about the code is the textbook definition. -/
theorem isBWT_iff_textbook (s : List Nat) (b : Nat → Nat) (last : Nat) :
    IsBWT s b last ↔ last ≤ s.length ∧ textbook s = (List.range (s.length + 1)).map (fun r => if r = last then 0 else b r + 1) := by
  constructor
  · intro h
    have hl := h.last_lt
    obtain ⟨sa, hsa, hr⟩ := h
    refine ⟨by omega, ?_⟩
    rw [textbook_eq hsa]
    apply List.ext_getElem
    · simp [hsa.length]
    · intro r h1 h2
      have hk : r < sa.length := by simpa using h1
      simp only [List.getElem_map, List.getElem_range]
      have := hr r hk
      by_cases hc : r = last
      · rw [if_pos hc, if_pos (this.1.2 hc)]
      · have h0 : sa[r] ≠ 0 := fun e => hc (this.1.1 e)
        rw [if_neg hc, if_neg h0, List.getD_eq_getElem?_getD, this.2 (by omega), Option.getD_some]
  · rintro ⟨hl, e⟩
    obtain ⟨sa, hsa⟩ := exists_suffixArray s
    rw [textbook_eq hsa] at e
    refine ⟨sa, hsa, fun r hk => ?_⟩
    have hn := hsa.length
    have hb : sa[r] < s.length + 1 := List.mem_range.1 (hsa.1.mem_iff.1 (List.getElem_mem hk))
    have := List.getElem_of_eq e (i := r) (by simpa using hk)
    simp only [List.getElem_map, List.getElem_range] at this
    by_cases h0 : sa[r] = 0
    · rw [if_pos h0] at this
      refine ⟨⟨fun _ => ?_, fun _ => h0⟩, fun h => by omega⟩
      by_contra hc
      rw [if_neg hc] at this
      omega
    · rw [if_neg h0] at this
      by_cases hc : r = last
      · rw [if_pos hc] at this; omega
      · rw [if_neg hc] at this
        refine ⟨⟨fun h => absurd h h0, fun h => absurd h hc⟩, fun _ => ?_⟩
        have hi : sa[r] - 1 < s.length := by omega
        rw [getD_lt hi] at this
        rw [List.getElem?_eq_getElem hi]
        congr 1
        omega

/-- Every string has a transform. -/
theorem exists_isBWT (s : List Nat) : ∃ b last, IsBWT s b last := by
  obtain ⟨sa, h⟩ := exists_suffixArray s
  have h0 : 0 ∈ sa := h.1.mem_iff.2 (by simp)
  obtain ⟨k, hk, e0⟩ := List.mem_iff_getElem.1 h0
  refine ⟨fun r => s.getD (sa.getD r 0 - 1) 0, k, sa, h, fun r hr => ⟨⟨fun e => ?_, fun e => ?_⟩, fun hp => ?_⟩⟩
  · exact (List.Nodup.getElem_inj_iff h.nodup).1 (e.trans e0.symm)
  · subst e; exact e0
  · have hb : sa[r] < s.length + 1 := List.mem_range.1 (h.1.mem_iff.1 (List.getElem_mem hr))
    simp only [getD_lt hr]
    rw [getD_lt (by omega), List.getElem?_eq_getElem (by omega)]

/-- The end marker is in row `last` only. -/
theorem IsBWT.idxOf {s : List Nat} {b : Nat → Nat} {last : Nat} (h : IsBWT s b last) : (textbook s).idxOf 0 = last := by
  obtain ⟨hl, e⟩ := (isBWT_iff_textbook s b last).1 h
  have hm : (0 : Nat) ∈ textbook s := by
    rw [e]
    exact List.mem_map.2 ⟨last, List.mem_range.2 (by omega), if_pos rfl⟩
  have hi : (textbook s).idxOf 0 < (textbook s).length := List.idxOf_lt_length_iff.2 hm
  have h1 : (textbook s)[(textbook s).idxOf 0] = 0 := List.getElem_idxOf hi
  have h2 := List.getElem_of_eq e hi
  rw [h1] at h2
  simp only [List.getElem_map, List.getElem_range] at h2
  by_contra hc
  rw [if_neg hc] at h2
  omega

/-- The file format is the textbook's. -/
theorem fileFormat_iff_textbook (s bytes : List Nat) : FileFormat s bytes ↔ bytes = textbookFile s := by
  have key : ∀ (b : Nat → Nat) (last : Nat), IsBWT s b last → bigEndian8 last ++ rowsWithout s.length b last = textbookFile s := by
    intro b last h
    unfold textbookFile
    rw [h.idxOf, ((isBWT_iff_textbook s b last).1 h).2, List.filter_map, List.map_map]
    congr 1
    unfold rowsWithout
    have e2 : (List.range (s.length + 1)).filter ((fun c => decide (c ≠ 0)) ∘ fun r => if r = last then 0 else b r + 1) =
        (List.range (s.length + 1)).filter (fun r => decide (r ≠ last)) := by
      apply List.filter_congr
      intro r _
      simp only [Function.comp]
      by_cases hc : r = last
      · simp [hc]
      · simp [hc]
    rw [e2]
    refine List.map_congr_left fun r hr => ?_
    have : r ≠ last := by simpa using (List.mem_filter.1 hr).2
    simp [this]
  constructor
  · rintro ⟨b, last, h, rfl⟩
    exact key b last h
  · rintro rfl
    obtain ⟨b, last, h⟩ := exists_isBWT s
    exact ⟨b, last, h, (key b last h).symm⟩

end Flbwt
