import Verif.PropsTop

/-!
# C64: what the row `last` holds

The caller is told that row `last` of the array has no meaning. The theorems say what is in it nevertheless, and when it
is the same in every run.
-/

namespace Flbwt

/-! ## Specification -/

/-- number of S type positions with the same byte as position `j` and a smaller suffix -/
def sRank (s : List Nat) (j : Nat) : Nat :=
  countBelow s.length (fun i => decide (SType s i ∧ s[i]? = s[j]? ∧ s.drop i < s.drop j))

/-- number of S* positions with the same byte as position `j` and a smaller suffix -/
def starRank (s : List Nat) (j : Nat) : Nat :=
  countBelow s.length (fun i => decide (SStar s i ∧ s[i]? = s[j]? ∧ s.drop i < s.drop j))

/-- `j` is the S* position whose preceding byte is kept, between the two passes, in the row of the whole string: it has
the same byte as the string, and as many S* positions with this byte come before it as S type positions before the string. -/
def KeptInLast (s : List Nat) (j : Nat) : Prop := SStar s j ∧ s[j]? = s[0]? ∧ starRank s j = sRank s 0

/-- The content `v` of row `last`, if the fresh array held `z` there: the first byte plus one (modulo 256) if the string is
larger than its own tail; else a left-over byte of the string if there is one, else whatever the fresh memory held. -/
def LastByte (s : List Nat) (z v : Nat) : Prop :=
  (¬ SType s 0 → v = (s.getD 0 0 + 1) % 256) ∧
  (SType s 0 → (∀ j, KeptInLast s j → v = s.getD (j - 1) 0) ∧ ((∀ j, ¬ KeptInLast s j) → v = z))

/-- Row `last` is the same in every run. -/
def LastDetermined (s : List Nat) : Prop := ¬ SType s 0 ∨ ∃ j, KeptInLast s j

/-! ## Proofs -/

section
variable {T : Mem Nat} {s : List Nat}

theorem HoldsPrefix.byte_eq (h : HoldsPrefix T s) {i j : Nat} (hi : i < s.length) (hj : j < s.length) :
    s[i]? = s[j]? ↔ T.data i = T.data j := by
  rw [List.getElem?_eq_getElem hi, List.getElem?_eq_getElem hj, h.val i hi, h.val j hj, Option.some_inj]

theorem HoldsPrefix.sRank_eq (h : HoldsPrefix T s) {j : Nat} (hj : j < s.length) :
    cnt s.length (fun i => isS T.data s.length i = true ∧ T.data i = T.data j ∧ rho T.data s.length i < rho T.data s.length j) =
      sRank s j := by
  refine cnt_eq_count _ _ _ (fun i hi => ?_)
  rw [decide_eq_true_iff, h.stype hi, h.byte_eq hi hj, h.drop i, h.drop j, rho_lt_iff (by omega)]

theorem HoldsPrefix.starRank_eq (h : HoldsPrefix T s) {j : Nat} (hj : j < s.length) :
    cnt s.length (fun i => isLMS T.data s.length i ∧ T.data i = T.data j ∧ rho T.data s.length i < rho T.data s.length j) =
      starRank s j := by
  refine cnt_eq_count _ _ _ (fun i hi => ?_)
  rw [decide_eq_true_iff, h.sstar i, h.byte_eq hi hj, h.drop i, h.drop j, rho_lt_iff (by omega)]

theorem HoldsPrefix.kept (h : HoldsPrefix T s) (hn : 0 < s.length) (hS : isS T.data s.length 0 = true) (j : Nat) :
    KeptInLast s j ↔ isLMS T.data s.length j ∧ stk T.data s.length j = rho T.data s.length 0 := by
  unfold KeptInLast
  rw [h.sstar j]
  constructor
  · rintro ⟨h1, h2, h3⟩
    refine ⟨h1, ?_⟩
    have hT := (h.byte_eq h1.2.1 hn).1 h2
    rw [rho_S_eq' hn hS, stk, h.sRank_eq hn, h.starRank_eq h1.2.1, hT, h3]
  · rintro ⟨h1, h2⟩
    have hz := stk_zone h1
    have hz' := rho_S_zone h1.2.1 h1.2.2.1
    have h0 := rho_S_zone hn hS
    have g1 := sbeg_gt (T := T.data) (n := s.length) (T.data j)
    have g2 := sbeg_gt (T := T.data) (n := s.length) (T.data 0)
    have hT : T.data j = T.data 0 := by
      rcases Nat.lt_trichotomy (T.data j) (T.data 0) with h' | h' | h'
      · have := bst_mono (T := T.data) (n := s.length) (show T.data j + 1 ≤ T.data 0 by omega); omega
      · exact h'
      · have := bst_mono (T := T.data) (n := s.length) (show T.data 0 + 1 ≤ T.data j by omega); omega
    refine ⟨h1, (h.byte_eq h1.2.1 hn).2 hT, ?_⟩
    rw [rho_S_eq' hn hS, stk, h.sRank_eq hn, h.starRank_eq h1.2.1, hT] at h2
    omega

theorem lastByte_of_rows (h : HoldsPrefix T s) (hn : 0 < s.length) {b : Nat → Nat} {r : BwtResult}
    (hr : BwtRows T.data s.length b r) : LastByte s (b r.last) (r.bwt.data r.last) := by
  obtain ⟨_, h2, _, h4, h5⟩ := hr
  rw [h2]
  have hv : ∀ i, i < s.length → s.getD i 0 = T.data i := fun i hi => by rw [getD_lt hi, h.val i hi]
  refine ⟨fun hS => ?_, fun hS => ?_⟩
  · rw [hv 0 hn]
    refine h4 ?_
    rw [h.stype hn] at hS
    simpa using hS
  · rw [h.stype hn] at hS
    obtain ⟨g1, g2⟩ := h5 hS
    refine ⟨fun j hj => ?_, fun hno => ?_⟩
    · obtain ⟨k1, k2⟩ := (h.kept hn hS j).1 hj
      rw [hv _ (by have := k1.2.1; omega)]
      exact g1 j k1 k2
    · exact g2 (fun j j1 j2 => hno j ((h.kept hn hS j).2 ⟨j1, j2⟩))

/-- **C64** the byte in row `last`. -/
theorem C64_row_last (w : World) (g : GoodCall w.junk w.sorter T s) (freeT : Bool) :
    ∃ r T', bwtString w (some T) s.length freeT = .ok (some r, T') ∧ IsBWT s r.bwt.data r.last ∧
      LastByte s (w.bj r.last % 256) (r.bwt.data r.last) := by
  obtain ⟨⟨o, T'⟩, e, ⟨r, h1, h2⟩, h3⟩ := Tot_iff.1 (bwtIs_spec w g.inp g.min g.len g.sort freeT)
  simp only at h1 h3
  subst h1; subst h3
  have h3 := g.len3
  refine ⟨r, release freeT T, ?_, isBWT_of_rows g.mem h2, lastByte_of_rows g.mem.toHoldsPrefix (by omega) h2⟩
  simp only [bwtString]
  rw [if_neg (by omega), e]

theorem LastByte.unique {z z' v v' : Nat} (h : LastDetermined s) (a : LastByte s z v) (b : LastByte s z' v') : v = v' := by
  rcases h with h | ⟨j, hj⟩
  · rw [a.1 h, b.1 h]
  · by_cases hS : SType s 0
    · rw [(a.2 hS).1 j hj, (b.2 hS).1 j hj]
    · rw [a.1 hS, b.1 hS]

/-- **C64** the whole array, row `last` included, is the same in every run, whatever the memory holds and whatever
`std::sort` does with equal keys, if the string is larger than its tail or a byte is left over … -/
theorem C64_all_rows_determined (w w' : World) {T' : Mem Nat} (g : GoodCall w.junk w.sorter T s)
    (g' : GoodCall w'.junk w'.sorter T' s) (freeT freeT' : Bool) (hd : LastDetermined s) :
    ∃ r r' o o', bwtString w (some T) s.length freeT = .ok (some r, o) ∧
      bwtString w' (some T') s.length freeT' = .ok (some r', o') ∧ r.last = r'.last ∧
      ∀ i, i ≤ s.length → r.bwt.data i = r'.bwt.data i := by
  obtain ⟨r, o, e, h, v⟩ := C64_row_last w g freeT
  obtain ⟨r', o', e', h', v'⟩ := C64_row_last w' g' freeT'
  obtain ⟨u1, u2⟩ := h.unique h'
  refine ⟨r, r', o, o', e, e', u1, fun i hi => ?_⟩
  by_cases hl : i = r.last
  · subst hl
    rw [v.unique hd v', u1]
  · exact u2 i hi hl

/-- … and else row `last` is the byte that happened to be in the fresh memory: it can be any byte. -/
theorem C64_else_uninitialised (w : World) (g : GoodCall w.junk w.sorter T s) (freeT : Bool) (hd : ¬ LastDetermined s)
    (v : Nat) (hv : v < 256) :
    ∃ r T', bwtString { w with bj := fun _ => v } (some T) s.length freeT = .ok (some r, T') ∧
      IsBWT s r.bwt.data r.last ∧ r.bwt.data r.last = v := by
  obtain ⟨r, o, e, h, u⟩ := C64_row_last { w with bj := fun _ => v } g freeT
  refine ⟨r, o, e, h, ?_⟩
  have hS : SType s 0 := by
    by_contra hc; exact hd (Or.inl hc)
  rw [(u.2 hS).2 (fun j hj => hd (Or.inr ⟨j, hj⟩))]
  exact Nat.mod_eq_of_lt hv

end

/-! ## Cases -/

/-- "banana": the string is larger than its tail; row `last` holds 'c' -/
example (w : World) (hs : w.sorter = insSort) (hj : w.junk = ⟨fun i => 2 * i + 1, 40000000⟩) :
    ∃ r T', bwtString w (some (cString banana)) 6 false = .ok (some r, T') ∧ r.bwt.data r.last = 99 := by
  obtain ⟨r, o, e, _, u⟩ := C64_row_last w (T := cString banana) (by rw [hs, hj]; exact banana_good) false
  exact ⟨r, o, e, u.1 (by decide)⟩

/-- "aabab": the string is smaller than its tail; the byte before the S* position 3, 'b', is left in row `last` -/
theorem aabab_kept : KeptInLast [97, 97, 98, 97, 98] 3 := by unfold KeptInLast; decide

theorem aabab_good : GoodCall ⟨fun i => 2 * i + 1, 40000000⟩ insSort (cString [97, 97, 98, 97, 98]) [97, 97, 98, 97, 98] :=
  ⟨by decide, by decide, by decide, cString_holds _, insSort_ok, lengthsSafe_short _ (by decide), by decide⟩

example (w : World) (hs : w.sorter = insSort) (hj : w.junk = ⟨fun i => 2 * i + 1, 40000000⟩) :
    ∃ r T', bwtString w (some (cString [97, 97, 98, 97, 98])) 5 false = .ok (some r, T') ∧ r.bwt.data r.last = 98 := by
  obtain ⟨r, o, e, _, u⟩ := C64_row_last w (T := cString [97, 97, 98, 97, 98]) (by rw [hs, hj]; exact aabab_good) false
  exact ⟨r, o, e, (u.2 (by decide)).1 3 aabab_kept⟩

example (w w' : World) (hs : w.sorter = insSort) (hj : w.junk = ⟨fun i => 2 * i + 1, 40000000⟩) (hs' : w'.sorter = insSort)
    (hj' : w'.junk = ⟨fun i => 2 * i + 1, 40000000⟩) : ∃ r r' o o',
    bwtString w (some (cString [97, 97, 98, 97, 98])) 5 false = .ok (some r, o) ∧
    bwtString w' (some (cString [97, 97, 98, 97, 98])) 5 true = .ok (some r', o') ∧ r.last = r'.last ∧
    ∀ i, i ≤ 5 → r.bwt.data i = r'.bwt.data i :=
  C64_all_rows_determined w w' (T := cString [97, 97, 98, 97, 98]) (T' := cString [97, 97, 98, 97, 98])
    (by rw [hs, hj]; exact aabab_good) (by rw [hs', hj']; exact aabab_good) false true (Or.inr ⟨3, aabab_kept⟩)

/-- "abc": nothing is left over -/
theorem abc_undetermined : ¬ LastDetermined [97, 98, 99] := by
  rintro (h | ⟨j, h, -⟩)
  · exact h (by decide)
  · have := h.2.1
    have : j = 0 ∨ j = 1 ∨ j = 2 := by simp at this; omega
    rcases this with rfl | rfl | rfl <;> revert h <;> decide

/-- … so two calls on "abc" can return different arrays. -/
example (w : World) (hs : w.sorter = insSort) (hj : w.junk = ⟨fun i => 2 * i + 1, 40000000⟩) : ∃ r T',
    bwtString { w with bj := fun _ => 200 } (some (cString [97, 98, 99])) 3 false = .ok (some r, T') ∧
    IsBWT [97, 98, 99] r.bwt.data r.last ∧ r.bwt.data r.last = 200 :=
  C64_else_uninitialised w (T := cString [97, 98, 99]) (s := [97, 98, 99])
    (by rw [hs, hj]
        exact ⟨by decide, by decide, by decide, cString_holds _, insSort_ok, lengthsSafe_short _ (by decide), by decide⟩)
    false abc_undetermined 200 (by decide)

end Flbwt
