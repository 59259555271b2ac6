/-!
# Specifications (independent of the model)
-/

namespace Flbwt

/-- `sa` is the suffix array of `s`: it lists the positions `0 … |s|-1`, and the suffixes starting at them are in
strictly increasing lexicographic order. -/
def IsSuffixArray (s : List Nat) (sa : List Nat) : Prop :=
  sa.Perm (List.range s.length) ∧ sa.Pairwise (fun i j => s.drop i < s.drop j)

/-- `sa` lists all `|s|+1` suffixes of `s` (the empty one included) in strictly increasing order. -/
def IsFullSuffixArray (s : List Nat) (sa : List Nat) : Prop :=
  sa.Perm (List.range (s.length + 1)) ∧ sa.Pairwise (fun i j => s.drop i < s.drop j)

/-- Burrows-Wheeler transform: in every row `r` except `last`, `bwt r` is the character before the `r`-th smallest
suffix; `last` is the row of the complete string. -/
def IsBWT (s : List Nat) (bwt : Nat → Nat) (last : Nat) : Prop :=
  ∃ sa, IsFullSuffixArray s sa ∧
    ∀ (r : Nat) (h : r < sa.length), (sa[r] = 0 ↔ r = last) ∧ (0 < sa[r] → s[sa[r] - 1]? = some (bwt r))

/-- Position `i` of `s` is of type S: its suffix is smaller than the next one. -/
def SType (s : List Nat) (i : Nat) : Prop := s.drop i < s.drop (i + 1)

/-- S* position (leftmost position of a run of S type positions). The terminator is not counted. -/
def SStar (s : List Nat) (i : Nat) : Prop := 0 < i ∧ i < s.length ∧ SType s i ∧ ¬ SType s (i - 1)

instance (s : List Nat) (i : Nat) : Decidable (SType s i) := by unfold SType; infer_instance
instance (s : List Nat) (i : Nat) : Decidable (SStar s i) := by unfold SStar; infer_instance

/-- `j` is the first S* position after `i`, or the position of the terminator when there is none. -/
def NextStar (s : List Nat) (i j : Nat) : Prop :=
  i < j ∧ j ≤ s.length ∧ (j = s.length ∨ SStar s j) ∧ ∀ k, i < k → k < j → ¬ SStar s k

/-- The S* substring `x` of `s` that starts at `i` and ends at the next S* position `j` (both ends included; the last
one ends with the terminator `t`). -/
def StarString (s : List Nat) (t i j : Nat) (x : List Nat) : Prop :=
  SStar s i ∧ NextStar s i j ∧ x = ((s ++ [t]).drop i).take (j - i + 1)

/-- number of `i < k` with `p i` -/
def countBelow (k : Nat) (p : Nat → Bool) : Nat := ((List.range k).filter p).length

/-- No stored string (the head string or an S* string) has a length that is a multiple of 256. -/
def NoLength256 (s : List Nat) : Prop :=
  ∀ i j, i = 0 ∨ SStar s i → NextStar s i j → (j - i + 1) % 256 ≠ 0

end Flbwt
