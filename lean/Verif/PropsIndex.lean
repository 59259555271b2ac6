import Verif.PropsFile

/-!
# Properties C79 and C80: what the returned array is good for

* C79: the array (without row `last`) and `last` determine the string.
* C80: the array and `last` are an index of the string: backward search finds the rows of the suffixes that begin with a
  pattern, and with them the number of occurrences of the pattern.
-/

namespace Flbwt

/-! ## Specification -/

/-- number of positions of `s` at which `p` occurs (overlapping occurrences count; the empty string occurs `|s| + 1` times) -/
def occurrences (s p : List Nat) : Nat := countBelow (s.length + 1) (fun i => decide (p <+: s.drop i))

/-- One step of backward search: from a number of rows `k` (the rows above which something is) to the rows of suffixes that
begin with `c`: one row of the empty suffix, the rows of smaller characters, the occurrences of `c` in the first `k` rows. Row
`last` of the array is never looked at. -/
def fmStep (n : Nat) (b : Nat → Nat) (last c k : Nat) : Nat :=
  1 + countBelow (n + 1) (fun r => decide (r ≠ last ∧ b r < c)) + countBelow k (fun r => decide (r ≠ last ∧ b r = c))

/-- Backward search (Ferragina and Manzini): the characters of the pattern from right to left, first and last row + 1. -/
def backwardSearch (n : Nat) (b : Nat → Nat) (last : Nat) : List Nat → Nat × Nat
  | [] => (0, n + 1)
  | c :: p => (fmStep n b last c (backwardSearch n b last p).1, fmStep n b last c (backwardSearch n b last p).2)

/-! ## Facts about the specification -/

theorem down_idx {l : List Nat} {R : Nat → Nat → Prop} {P : Nat → Bool} (hd : ∀ a b, R a b → P b = true → P a = true)
    (h : l.Pairwise R) (k : Nat) (hk : k < l.length) : P l[k] = true ↔ k < (l.filter P).length := by
  induction l generalizing k with
  | nil => simp at hk
  | cons a l ih =>
    rw [List.pairwise_cons] at h
    by_cases ha : P a = true
    · rw [List.filter_cons_of_pos ha]
      cases k with
      | zero => simp [ha]
      | succ k =>
        have := ih h.2 k (by simpa using hk)
        simpa using this
    · have hn : l.filter P = [] := by
        rw [List.filter_eq_nil_iff]
        intro x hx hp
        exact ha (hd a x (h.1 x hx) hp)
      rw [List.filter_cons_of_neg ha, hn]
      cases k with
      | zero => simp [ha]
      | succ k =>
        have hx : l[k]'(by simpa using hk) ∈ l := List.getElem_mem _
        simp only [List.getElem_cons_succ, List.length_nil, Nat.not_lt_zero, iff_false]
        exact fun hp => ha (hd a _ (h.1 _ hx) hp)

theorem countBelow_le (n : Nat) (f : Nat → Bool) : countBelow n f ≤ n := by
  unfold countBelow
  exact Nat.le_trans (List.length_filter_le _ _) (by simp)

theorem countBelow_or {n : Nat} {f g : Nat → Bool} (h : ∀ i, i < n → f i = true → g i = false) :
    countBelow n (fun i => f i || g i) = countBelow n f + countBelow n g := by
  induction n with
  | zero => rfl
  | succ n ih =>
    rw [countBelow_succ_last, countBelow_succ_last, countBelow_succ_last, ih (fun i hi => h i (by omega))]
    have := h n (by omega)
    cases hf : f n <;> cases hg : g n <;> simp_all <;> omega

theorem countBelow_cut {n k : Nat} (hk : k ≤ n) (f : Nat → Bool) :
    countBelow n (fun i => decide (i < k) && f i) = countBelow k f := by
  induction n with
  | zero =>
    have : k = 0 := by omega
    subst this; rfl
  | succ n ih =>
    by_cases hc : k = n + 1
    · subst hc
      apply countBelow_congr
      intro i hi
      simp [hi]
    · rw [countBelow_succ_last, ih (by omega)]
      have : ¬ n < k := by omega
      simp [this]

/-- the set of suffixes one step of backward search leads to -/
def extend (c : Nat) (D : List Nat → Bool) : List Nat → Bool
  | [] => true
  | x :: t => decide (x < c) || (decide (x = c) && D t)

section
variable {s sa : List Nat} {b : Nat → Nat} {last : Nat}

/-- `D` holds for the suffix in row `r` iff `r` is among the first rows -/
theorem row_iff (hsa : IsFullSuffixArray s sa) {D : List Nat → Bool} (hD : ∀ x y, x < y → D y = true → D x = true)
    (r : Nat) (h : r < sa.length) : D (s.drop sa[r]) = true ↔ r < countBelow (s.length + 1) (fun i => D (s.drop i)) := by
  have := down_idx (P := fun i => D (s.drop i)) (fun i j h1 h2 => hD _ _ h1 h2) hsa.2 r h
  rw [show countBelow (s.length + 1) (fun i => D (s.drop i)) = (sa.filter (fun i => D (s.drop i))).length from
    ((hsa.1.filter _).length_eq).symm]
  exact this

theorem fmStep_count (hsa : IsFullSuffixArray s sa)
    (hr : ∀ (r : Nat) (h : r < sa.length), (sa[r] = 0 ↔ r = last) ∧ (0 < sa[r] → s[sa[r] - 1]? = some (b r)))
    {D : List Nat → Bool} (hD : ∀ x y, x < y → D y = true → D x = true) (c : Nat) :
    countBelow (s.length + 1) (fun i => extend c D (s.drop i)) =
      fmStep s.length b last c (countBelow (s.length + 1) (fun i => D (s.drop i))) := by
  have hlen := hsa.length
  have hk : countBelow (s.length + 1) (fun i => D (s.drop i)) ≤ s.length + 1 := countBelow_le _ _
  have e : countBelow s.length (fun i => extend c D (s.drop i)) =
      countBelow (s.length + 1) (fun i => decide (i ≠ 0) && extend c D (s.drop (i - 1))) := by
    rw [countBelow_succ_first]
    simp
  rw [countBelow_succ_last, e, count_sa hsa.1 (fun i => decide (i ≠ 0) && extend c D (s.drop (i - 1))), List.drop_length]
  unfold fmStep
  rw [← countBelow_cut hk, Nat.add_assoc, ← countBelow_or, Nat.add_comm]
  · simp only [extend, if_true]
    congr 1
    apply countBelow_congr
    intro x hx
    have hx' : x < sa.length := by omega
    simp only [getD_lt hx']
    by_cases hc : sa[x] = 0
    · have h0 := (hr x hx').1.1 hc
      rw [hc, show decide ((0 : Nat) ≠ 0) = false from rfl, show decide (x ≠ last ∧ b x < c) = false from
        decide_eq_false (fun h => h.1 h0), show decide (x ≠ last ∧ b x = c) = false from decide_eq_false (fun h => h.1 h0)]
      simp
    · have hxl : x ≠ last := fun h => hc ((hr x hx').1.2 h)
      have hb := (hr x hx').2 (by omega)
      have hm := List.mem_range.1 (hsa.1.mem_iff.1 (List.getElem_mem hx'))
      have hlt : sa[x] - 1 < s.length := by omega
      rw [List.getElem?_eq_getElem hlt] at hb
      have hb' : s[sa[x] - 1] = b x := Option.some.inj hb
      rw [List.drop_eq_getElem_cons hlt, hb', show sa[x] - 1 + 1 = sa[x] by omega]
      have := row_iff hsa hD x hx'
      rw [Bool.eq_iff_iff]
      simp only [hc, hxl, ne_eq, not_false_eq_true, decide_true, Bool.true_and, true_and, Bool.or_eq_true,
        Bool.and_eq_true, decide_eq_true_iff, this]
      tauto
  · intro i _ h1
    simp only [decide_eq_true_iff] at h1
    simp only [Bool.and_eq_false_iff, decide_eq_false_iff_not]
    right
    omega

/-- smaller than the pattern -/
def below (p t : List Nat) : Bool := decide (t < p)
/-- smaller than the pattern or beginning with it -/
def upTo (p t : List Nat) : Bool := decide (t < p ∨ p <+: t)

theorem below_down (p x y : List Nat) (h : x < y) (hy : below p y = true) : below p x = true := by
  simp only [below, decide_eq_true_iff] at *
  exact List.lt_trans h hy

theorem append_not_lt (p t : List Nat) : ¬ (p ++ t < p) := by
  induction p with
  | nil => exact List.not_lt_nil _
  | cons c p ih =>
    rw [List.cons_append, List.cons_lt_cons_iff]
    rintro (h | ⟨_, h⟩)
    · exact Nat.lt_irrefl _ h
    · exact ih h

theorem extend_below (c : Nat) (p : List Nat) (t : List Nat) : extend c (below p) t = below (c :: p) t := by
  cases t with
  | nil => simp [extend, below]
  | cons x t =>
    rw [Bool.eq_iff_iff]
    simp [extend, below, List.cons_lt_cons_iff]

theorem extend_upTo (c : Nat) (p : List Nat) (t : List Nat) : extend c (upTo p) t = upTo (c :: p) t := by
  cases t with
  | nil => simp [extend, upTo]
  | cons x t =>
    rw [Bool.eq_iff_iff]
    simp only [extend, upTo, List.cons_lt_cons_iff, List.cons_prefix_cons, Bool.or_eq_true, Bool.and_eq_true, decide_eq_true_iff]
    constructor
    · rintro (h | ⟨rfl, h | h⟩)
      · exact Or.inl (Or.inl h)
      · exact Or.inl (Or.inr ⟨rfl, h⟩)
      · exact Or.inr ⟨rfl, h⟩
    · rintro ((h | ⟨rfl, h⟩) | ⟨rfl, h⟩)
      · exact Or.inl h
      · exact Or.inr ⟨rfl, Or.inl h⟩
      · exact Or.inr ⟨rfl, Or.inr h⟩

theorem upTo_down (p : List Nat) : ∀ x y, x < y → upTo p y = true → upTo p x = true := by
  induction p with
  | nil => intro x y _ _; simp [upTo]
  | cons c p ih =>
    intro x y h hy
    rw [← extend_upTo] at hy ⊢
    cases x with
    | nil => rfl
    | cons a x =>
      cases y with
      | nil => exact absurd h (List.not_lt_nil _)
      | cons e y =>
        rw [List.cons_lt_cons_iff] at h
        simp only [extend, Bool.or_eq_true, Bool.and_eq_true, decide_eq_true_iff] at hy ⊢
        rcases h with h | ⟨rfl, h⟩
        · left; omega
        · rcases hy with hy | ⟨hy, h2⟩
          · exact Or.inl hy
          · exact Or.inr ⟨hy, ih x y h h2⟩

theorem backwardSearch_count (hsa : IsFullSuffixArray s sa)
    (hr : ∀ (r : Nat) (h : r < sa.length), (sa[r] = 0 ↔ r = last) ∧ (0 < sa[r] → s[sa[r] - 1]? = some (b r))) (p : List Nat) :
    (backwardSearch s.length b last p).1 = countBelow (s.length + 1) (fun i => below p (s.drop i)) ∧
    (backwardSearch s.length b last p).2 = countBelow (s.length + 1) (fun i => upTo p (s.drop i)) := by
  induction p with
  | nil =>
    constructor
    · unfold countBelow
      simp [backwardSearch, below]
    · unfold countBelow
      simp [backwardSearch, upTo]
  | cons c p ih =>
    simp only [backwardSearch, ih.1, ih.2]
    rw [← fmStep_count hsa hr (below_down p), ← fmStep_count hsa hr (upTo_down p)]
    simp only [extend_below, extend_upTo, and_self]

/-- Backward search finds exactly the rows of the suffixes that begin with the pattern. -/
theorem backwardSearch_rows (hsa : IsFullSuffixArray s sa)
    (hr : ∀ (r : Nat) (h : r < sa.length), (sa[r] = 0 ↔ r = last) ∧ (0 < sa[r] → s[sa[r] - 1]? = some (b r))) (p : List Nat)
    (r : Nat) (h : r < sa.length) :
    (backwardSearch s.length b last p).1 ≤ r ∧ r < (backwardSearch s.length b last p).2 ↔ p <+: s.drop sa[r] := by
  obtain ⟨e1, e2⟩ := backwardSearch_count hsa hr p
  have h1 := row_iff hsa (below_down p) r h
  have h2 := row_iff hsa (upTo_down p) r h
  rw [e1, e2, ← h2, ← Nat.not_lt, ← h1]
  simp only [below, upTo, decide_eq_true_iff]
  constructor
  · rintro ⟨h3, h4 | h4⟩
    · exact absurd h4 h3
    · exact h4
  · intro h3
    refine ⟨fun h4 => ?_, Or.inr h3⟩
    obtain ⟨t, ht⟩ := h3
    rw [← ht] at h4
    exact append_not_lt _ _ h4

theorem IsBWT.search {s : List Nat} (h : IsBWT s b last) (p : List Nat) :
    (backwardSearch s.length b last p).1 + occurrences s p = (backwardSearch s.length b last p).2 := by
  obtain ⟨sa, hsa, hr⟩ := h
  obtain ⟨e1, e2⟩ := backwardSearch_count hsa hr p
  rw [e1, e2]
  unfold occurrences
  rw [← countBelow_or]
  · apply countBelow_congr
    intro i _
    rw [Bool.eq_iff_iff]
    simp [below, upTo]
  · intro i _ h1
    simp only [below, decide_eq_true_iff] at h1
    simp only [decide_eq_false_iff_not]
    rintro ⟨t, ht⟩
    rw [← ht] at h1
    exact append_not_lt _ _ h1

end

/-! ## The properties -/

variable {T : Mem Nat} {s : List Nat}

/-- **C79** the string can be rebuilt from the returned array (row `last` is not needed), `last` and the length. -/
theorem C79_lossless (w : World) (g : GoodCall w.junk w.sorter T s) (freeT : Bool) :
    ∃ r T', bwtString w (some T) s.length freeT = .ok (some r, T') ∧
      ∀ b', (∀ i, i ≤ s.length → i ≠ r.last → b' i = r.bwt.data i) → invert s.length b' r.last = s := by
  obtain ⟨r, e, _, h⟩ := bwtString_good w g freeT
  exact ⟨r, _, e, fun b' hb => (h.congr fun i h1 h2 => (hb i h1 h2).symm).invert⟩

/-- **C79** two calls return the same array (up to row `last`) and the same `last` exactly if the strings are the same. -/
theorem C79_injective (w w' : World) {T' : Mem Nat} {s' : List Nat} (g : GoodCall w.junk w.sorter T s)
    (g' : GoodCall w'.junk w'.sorter T' s') (freeT freeT' : Bool) :
    ∃ r r' o o', bwtString w (some T) s.length freeT = .ok (some r, o) ∧
      bwtString w' (some T') s'.length freeT' = .ok (some r', o') ∧
      (s = s' ↔ r.bwt.size = r'.bwt.size ∧ r.last = r'.last ∧ ∀ i, i < r.bwt.size → i ≠ r.last → r.bwt.data i = r'.bwt.data i) := by
  obtain ⟨r, e, hs, h⟩ := bwtString_good w g freeT
  obtain ⟨r', e', hs', h'⟩ := bwtString_good w' g' freeT'
  refine ⟨r, r', _, _, e, e', ?_, ?_⟩
  · rintro rfl
    obtain ⟨h1, h2⟩ := h.unique h'
    exact ⟨hs.trans hs'.symm, h1, fun i hi hne => h2 i (by omega) hne⟩
  · rintro ⟨h1, h2, h3⟩
    have hl : s.length = s'.length := by omega
    have h4 : IsBWT s r'.bwt.data r'.last := h2 ▸ h.congr fun i hi hne => h3 i (by omega) hne
    rw [← h4.invert, ← h'.invert, hl]

/-- **C80** backward search on the returned array counts the occurrences of every pattern. -/
theorem C80_count (w : World) (g : GoodCall w.junk w.sorter T s) (freeT : Bool) :
    ∃ r T', bwtString w (some T) s.length freeT = .ok (some r, T') ∧
      ∀ p, (backwardSearch s.length r.bwt.data r.last p).2 =
        (backwardSearch s.length r.bwt.data r.last p).1 + occurrences s p := by
  obtain ⟨r, e, _, h⟩ := bwtString_good w g freeT
  exact ⟨r, _, e, fun p => (h.search p).symm⟩

/-- **C80** the rows it finds are exactly those of the suffixes that begin with the pattern. -/
theorem C80_rows (w : World) (g : GoodCall w.junk w.sorter T s) (freeT : Bool) :
    ∃ r T' sa, bwtString w (some T) s.length freeT = .ok (some r, T') ∧ IsFullSuffixArray s sa ∧
      ∀ p k (hk : k < sa.length), (backwardSearch s.length r.bwt.data r.last p).1 ≤ k ∧
        k < (backwardSearch s.length r.bwt.data r.last p).2 ↔ p <+: s.drop sa[k] := by
  obtain ⟨r, e, _, sa, hsa, hr⟩ := bwtString_good w g freeT
  exact ⟨r, _, sa, e, hsa, fun p k hk => backwardSearch_rows hsa hr p k hk⟩

/-- **C80** the same with the file `bwt_file` writes: `last` from the first 8 bytes, row `r` is byte `8 + r` before row `last`
and byte `8 + r - 1` after it. -/
theorem C80_file {w : World} {h : Host} {inp out : String} {st : FState} {content : List Nat}
    (g : FileCall w h inp st content) (hw : h.mayWrite out = true) (ha : TakesAll h) :
    ∃ bytes st', bwtFile w h inp out st = (.ok (), st') ∧ st'.files out = some bytes ∧
      ∀ p, (backwardSearch content.length (fun r => if r < fromBigEndian (bytes.take 8) then bytes.getD (8 + r) 0 else
          bytes.getD (8 + r - 1) 0) (fromBigEndian (bytes.take 8)) p).2 =
        (backwardSearch content.length (fun r => if r < fromBigEndian (bytes.take 8) then bytes.getD (8 + r) 0 else
          bytes.getD (8 + r - 1) 0) (fromBigEndian (bytes.take 8)) p).1 + occurrences content p := by
  obtain ⟨bytes, st', e, ⟨b, last, hb, hby⟩, hf, _⟩ := C07_file_format g hw ha
  have hl := hb.last_lt
  have h57 := g.len57
  have e8 : fromBigEndian (bytes.take 8) = last := by
    rw [hby, List.take_append_of_le_length (by rw [bigEndian8_length]), List.take_of_length_le (by rw [bigEndian8_length]),
      fromBigEndian_bigEndian8 (by omega)]
  have eg : ∀ i, bytes.getD (8 + i) 0 = (rowsWithout content.length b last).getD i 0 := by
    intro i
    rw [hby, List.getD_eq_getElem?_getD, List.getD_eq_getElem?_getD, List.getElem?_append_right (by rw [bigEndian8_length]; omega),
      bigEndian8_length, Nat.add_sub_cancel_left]
  refine ⟨bytes, st', e, hf, fun p => ?_⟩
  rw [e8]
  refine (IsBWT.search (hb.congr fun r h1 h2 => ?_) p).symm
  rw [← rowsWithout_getD b (by omega) h1 h2]
  by_cases c : r < last
  · rw [if_pos c, if_pos c, eg]
  · rw [if_neg c, if_neg c, ← eg, show 8 + (r - 1) = 8 + r - 1 by omega]

/-! ## Non-vacuity -/

/-- "ana" occurs twice in "banana", "nan" once, "nab" never -/
example : occurrences banana [97, 110, 97] = 2 ∧ occurrences banana [110, 97, 110] = 1 ∧ occurrences banana [110, 97, 98] = 0 := by
  decide

example : ∃ r T', bwtString (⟨⟨fun i => 2 * i + 1, 40000000⟩, fun i => i, fun i => BitVec.ofNat 64 i, fun _ => 7, fun _ _ => 9,
      fun _ _ _ _ => 3, fun _ => 65, 77, insSort⟩ : World) (some (cString banana)) 6 true = .ok (some r, T') ∧
    (backwardSearch 6 r.bwt.data r.last [97, 110, 97]).2 = (backwardSearch 6 r.bwt.data r.last [97, 110, 97]).1 + 2 := by
  obtain ⟨r, T', e, h⟩ := C80_count ⟨⟨fun i => 2 * i + 1, 40000000⟩, fun i => i, fun i => BitVec.ofNat 64 i, fun _ => 7,
    fun _ _ => 9, fun _ _ _ _ => 3, fun _ => 65, 77, insSort⟩ banana_good true
  refine ⟨r, T', e, ?_⟩
  rw [show (6 : Nat) = banana.length from rfl, h]
  exact congrArg _ (by decide)

end Flbwt
