import Verif.PropsTop

/-!
# C63: the byte after the string

`bwt_string` reads `T[n]`, the byte after the string (C36). The theorems below say what that byte may be: any byte that is
not larger than the bytes of the string gives the transform, and which one does not matter; with a larger byte the names of
the S* strings are no longer in the order of the suffixes.
-/

namespace Flbwt

/-- **C63** two calls on the same string with different bytes after it, neither of them larger than a byte of the string,
give the same transform. -/
theorem C63_terminator_does_not_matter {T T' : Mem Nat} {s : List Nat} (w w' : World) (g : GoodCall w.junk w.sorter T s)
    (g' : GoodCall w'.junk w'.sorter T' s) (freeT freeT' : Bool) : ∃ r r' U U',
    bwtString w (some T) s.length freeT = .ok (some r, U) ∧ bwtString w' (some T') s.length freeT' = .ok (some r', U') ∧
    IsBWT s r.bwt.data r.last ∧ r'.last = r.last ∧ ∀ i, i ≤ s.length → i ≠ r.last → r'.bwt.data i = r.bwt.data i := by
  obtain ⟨r, e, _, h⟩ := bwtString_good w g freeT
  obtain ⟨r', e', _, h'⟩ := bwtString_good w' g' freeT'
  obtain ⟨u1, u2⟩ := IsBWT.unique h' h
  exact ⟨r, r', _, _, e, e', h, u1, fun i hi hne => u2 i hi (by rw [u1]; exact hne)⟩

/-- "banana" followed by 0 and "banana" followed by 'A' -/
example (w w' : World) (hs : w.sorter = insSort) (hj : w.junk = ⟨fun i => 2 * i + 1, 40000000⟩) (hs' : w'.sorter = insSort)
    (hj' : w'.junk = ⟨fun i => 2 * i + 1, 40000000⟩) : ∃ r r' U U',
    bwtString w (some (cString banana)) 6 false = .ok (some r, U) ∧
    bwtString w' (some ⟨7, fun i => (banana ++ [65]).getD i 0⟩) 6 true = .ok (some r', U') ∧
    IsBWT banana r.bwt.data r.last ∧ r'.last = r.last ∧ ∀ i, i ≤ 6 → i ≠ r.last → r'.bwt.data i = r.bwt.data i :=
  C63_terminator_does_not_matter w w' (by rw [hs, hj]; exact banana_good) (by rw [hs', hj']; exact bananaA_good) false true

/-! ## Any byte after the string -/

/-- As `GoodCall`, but the byte after the string is arbitrary. -/
structure AnyEnd (junk : Fresh) (sorter : Sorter) (T : Mem Nat) (s : List Nat) : Prop where
  len3 : 3 ≤ s.length
  len57 : s.length < 2 ^ 57
  byte : ∀ c ∈ s, c < 256
  mem : HoldsPrefix T s
  tbyte : T.data s.length < 256
  sort : SortsOK sorter
  safe : LengthsSafe junk s
  room : enoughFor s.length ≤ junk.lim

theorem GoodCall.anyEnd {junk : Fresh} {sorter : Sorter} {T : Mem Nat} {s : List Nat} (g : GoodCall junk sorter T s) :
    AnyEnd junk sorter T s :=
  ⟨g.len3, g.len57, g.byte, g.mem.toHoldsPrefix, g.mem.term_lt g.len3 g.byte, g.sort, g.safe, g.room⟩

theorem lmsLt_iff : ∀ (a b : List Nat), (∀ c ∈ a, c < 256) → (∀ c ∈ b, c < 256) →
    (lmsLt a b = true ↔ a ++ [256] < b ++ [256])
  | [], [], _, _ => by simp [lmsLt]
  | [], y :: b, _, hb => by
    have := hb y List.mem_cons_self
    simp only [lmsLt, List.nil_append, List.cons_append, List.cons_lt_cons_iff]
    constructor
    · intro h; cases h
    · intro h; omega
  | x :: a, [], ha, _ => by
    have := ha x List.mem_cons_self
    simp only [lmsLt, List.nil_append, List.cons_append, List.cons_lt_cons_iff]
    simp; omega
  | x :: a, y :: b, ha, hb => by
    have ih := lmsLt_iff a b (fun c hc => ha c (List.mem_cons_of_mem _ hc)) (fun c hc => hb c (List.mem_cons_of_mem _ hc))
    simp only [lmsLt, List.cons_append, List.cons_lt_cons_iff]
    by_cases h : x = y
    · subst h
      simp [ih]
    · simp [h]

/-- **C63** whatever byte follows the string, the first three stages of `bwt_string` succeed and the names order the S*
strings, the last of which ends with that byte, lexicographically, a string before its proper prefixes. -/
theorem C63_names_with_any_terminator {junk : Fresh} {sorter : Sorter} {T : Mem Nat} {s : List Nat}
    (g : AnyEnd junk sorter T s) (pj : Nat → Nat) (tj : Nat → BitVec 64) (sj : BitVec 64) : ∃ ct0 p ct ht T1 name,
    extractLMS junk T s.length = .ok ct0 ∧ sortLMS sorter pj junk T ct0 = .ok (p, ct) ∧ ct.hashtable = some ht ∧
    createShortened tj sj T s.length ct = .ok T1 ∧ NamedBy ht T s name ∧
    ∀ i j x i' j' x', StarString s (T.data s.length) i j x → StarString s (T.data s.length) i' j' x' →
      (name i < name i' ↔ x ++ [256] < x' ++ [256]) := by
  have I := g.mem.input g.len3 g.len57 g.byte g.tbyte
  have hL := g.mem.lenOK (by have := g.len3; omega) g.room g.safe
  obtain ⟨ct0, ht0, p, ct, ht, str, R, T1, e1, E, e2, e3, H, hu⟩ := stages_spec I hL g.sort pj tj sj
  have h := g.mem
  have hname : ∀ i j x, StarString s (T.data s.length) i j x → isLMS T.data s.length i ∧ str (R i) = x := by
    rintro i j x ⟨hi, hj, rfl⟩
    exact ⟨(h.sstar i).1 hi, by rw [h.wstr hi hj]; exact (H.name i ((h.sstar i).1 hi)).2.2⟩
  refine ⟨ct0, p, ct, ht, T1, R, e1, e2, H.sorted.htab, e3, H.namedBy h, ?_⟩
  intro i j x i' j' x' hx hx'
  obtain ⟨l1, s1⟩ := hname i j x hx
  obtain ⟨l2, s2⟩ := hname i' j' x' hx'
  have n1 := H.name i l1
  have n2 := H.name i' l2
  have hby : ∀ i j x, StarString s (T.data s.length) i j x → ∀ c ∈ x, c < 256 := by
    rintro i j x ⟨_, _, rfl⟩ c hc
    have := List.mem_of_mem_drop (List.mem_of_mem_take hc)
    rcases List.mem_append.1 this with h | h
    · exact g.byte c h
    · rw [List.mem_singleton.1 h]; exact g.tbyte
  rw [← lmsLt_iff x x' (hby _ _ _ hx) (hby _ _ _ hx'), ← s1, ← s2]
  constructor
  · intro hlt
    exact H.sorted.lt _ _ n1.1 hlt n2.2.1
  · intro hlt
    rcases Nat.lt_trichotomy (R i) (R i') with c | c | c
    · exact c
    · rw [c, lmsLt_irrefl] at hlt; cases hlt
    · have := H.sorted.lt _ _ n2.1 c n1.2.1
      rw [lmsLt_asymm this] at hlt; cases hlt

/-- the string "babab" -/
def babab : List Nat := [98, 97, 98, 97, 98]

/-- "babab" followed by 'c' -/
def bababc : Mem Nat := ⟨6, fun i => (babab ++ [99]).getD i 0⟩

theorem bababc_anyEnd : AnyEnd ⟨fun i => 2 * i + 1, 40000000⟩ insSort bababc babab :=
  ⟨by decide, by decide, by decide, ⟨by decide, by decide⟩, by decide, insSort_ok, lengthsSafe_short _ (by decide), by decide⟩

/-- **C63** (violation of what a user may expect) the byte after the string matters if it is larger than bytes of the
string: in "babab" followed by 'c' the name of the S* position 1 is smaller than the name of the S* position 3, although
the suffix "ab" at 3 is smaller than the suffix "abab" at 1. (With a terminator as in C22 this never happens.) -/
theorem C63_larger_terminator_breaks_order {junk : Fresh} {sorter : Sorter} (g : AnyEnd junk sorter bababc babab)
    (pj : Nat → Nat) : ∃ ct0 p ct ht name, extractLMS junk bababc 5 = .ok ct0 ∧
    sortLMS sorter pj junk bababc ct0 = .ok (p, ct) ∧ ct.hashtable = some ht ∧ NamedBy ht bababc babab name ∧
    SStar babab 1 ∧ SStar babab 3 ∧ name 1 < name 3 ∧ babab.drop 3 < babab.drop 1 := by
  obtain ⟨ct0, p, ct, ht, T1, name, e1, e2, e3, _, e4, h⟩ := C63_names_with_any_terminator g pj (fun _ => 0) 0
  have s1 : StarString babab (bababc.data babab.length) 1 3 [97, 98, 97] :=
    ⟨by decide, ⟨by decide, by decide, by decide, fun k h1 h2 => by
      have : k = 2 := by omega
      subst this; decide⟩, by decide⟩
  have s3 : StarString babab (bababc.data babab.length) 3 5 [97, 98, 99] :=
    ⟨by decide, ⟨by decide, by decide, by decide, fun k h1 h2 => by
      have : k = 4 := by omega
      subst this; decide⟩, by decide⟩
  exact ⟨ct0, p, ct, ht, name, e1, e2, e3, e4, s1.1, s3.1, (h _ _ _ _ _ _ s1 s3).2 (by decide), by decide⟩

example (pj : Nat → Nat) : ∃ ct0 p ct ht name, extractLMS ⟨fun i => 2 * i + 1, 40000000⟩ bababc 5 = .ok ct0 ∧
    sortLMS insSort pj ⟨fun i => 2 * i + 1, 40000000⟩ bababc ct0 = .ok (p, ct) ∧ ct.hashtable = some ht ∧
    NamedBy ht bababc babab name ∧ SStar babab 1 ∧ SStar babab 3 ∧ name 1 < name 3 ∧ babab.drop 3 < babab.drop 1 :=
  C63_larger_terminator_breaks_order bababc_anyEnd pj

end Flbwt
