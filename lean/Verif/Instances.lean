import Verif.PropsIndex
import Verif.PropsHeap
import Verif.PropsTotal
import Verif.PropsHash

/-!
# Instances: the theorems about `bwt_string` applied to "banana"

Each theorem whose own file only shows that its hypotheses can be met is applied here to a concrete call, and where the conclusion
determines a value, the value is worked out.
-/

namespace Flbwt

open HashTable (ofList setLength getLength setPointer getPointer setName getName)

/-- The transform of "banana" is "annb?aa": the complete string is in row 4. -/
theorem banana_bwt : IsBWT banana (fun i => [97, 110, 110, 98, 0, 97, 97].getD i 0) 4 :=
  ⟨[6, 5, 3, 1, 0, 4, 2], ⟨by decide +kernel, by decide +kernel⟩, by decide +kernel⟩

/-- C01: the bytes -/
example (sj : BitVec 64) (freeT : Bool) : ∃ r T', bwtString (bananaWorld sj) (some (cString banana)) 6 freeT = .ok (some r, T') ∧
    r.bwt.size = 7 ∧ r.last = 4 ∧ r.bwt.data 0 = 97 ∧ r.bwt.data 1 = 110 ∧ r.bwt.data 2 = 110 ∧ r.bwt.data 3 = 98 ∧
    r.bwt.data 5 = 97 ∧ r.bwt.data 6 = 97 := by
  obtain ⟨r, o, e, hs, h⟩ := C01_bwt_string_correct (bananaWorld sj) (T := cString banana) (s := banana) banana_good freeT
  obtain ⟨h1, h2⟩ := h.unique banana_bwt
  exact ⟨r, o, e, hs, h1, h2 0 (by decide) (by omega), h2 1 (by decide) (by omega), h2 2 (by decide) (by omega),
    h2 3 (by decide) (by omega), h2 5 (by decide) (by omega), h2 6 (by decide) (by omega)⟩

/-- C02: four suffixes are smaller than "banana" -/
example (sj : BitVec 64) : ∃ r T', bwtString (bananaWorld sj) (some (cString banana)) 6 true = .ok (some r, T') ∧ r.last = 4 := by
  obtain ⟨r, o, e, h, _⟩ := C02_last_is_rank (bananaWorld sj) (T := cString banana) (s := banana) banana_good true
  exact ⟨r, o, e, h.trans (by decide +kernel)⟩

/-- C05: two runs in different memory, one with another terminator -/
example (sj sj' : BitVec 64) : ∃ r r' o o', bwtString (bananaWorld sj) (some (cString banana)) 6 true = .ok (some r, o) ∧
    bwtString { bananaWorld sj' with bj := fun i => 200 + i, cj := fun i k => 3 * i + k }
      (some ⟨7, fun i => (banana ++ [65]).getD i 0⟩) 6 false = .ok (some r', o') ∧ r.last = r'.last ∧
    ∀ i, i ≤ 6 → i ≠ r.last → r.bwt.data i = r'.bwt.data i :=
  C05_independent_of_memory (s := banana) (bananaWorld sj) { bananaWorld sj' with bj := fun i => 200 + i, cj := fun i k => 3 * i + k }
    banana_good bananaA_good true false

/-- C06: the text is still there, or gone -/
example (sj : BitVec 64) : ∃ r, bwtString (bananaWorld sj) (some (cString banana)) 6 false = .ok (some r, some (cString banana)) ∧
    bwtString (bananaWorld sj) (some (cString banana)) 6 true = .ok (some r, none) := by
  obtain ⟨r, o, e, _, _⟩ := C01_bwt_string_correct (bananaWorld sj) (T := cString banana) (s := banana) banana_good false
  obtain ⟨h1, h2⟩ := (C06_free_T_irrelevant (bananaWorld sj) (some (cString banana)) 6).1 _ _ e
  subst h1
  exact ⟨r, e, h2⟩

/-- C20: "banana" has two S* positions (1 and 3), with different strings ("ana", "ana" and the terminator); the head ends at 1 -/
example : ∃ ct, extractLMS ⟨fun i => 2 * i + 1, 40000000⟩ (cString banana) 6 = .ok ct ∧ ct.numSubs = 2 ∧ ct.headEnd = 1 := by
  obtain ⟨ct, e, _, h1, _, h2⟩ := C20_extract_counts banana_good
  refine ⟨ct, e, h1.trans (by decide +kernel), ?_⟩
  have hs : SStar banana 1 := by decide +kernel
  have h3 := h2.2.2.2 1 (by omega)
  have h4 := h2.1
  by_contra hne
  exact h3 (by omega) hs

/-- C21: three "a", two "n", one "b"; both S* positions are an "a", and the last "a" is of type L -/
example : ∃ ct, extractLMS ⟨fun i => 2 * i + 1, 40000000⟩ (cString banana) 6 = .ok ct ∧ ct.M.data 98 = 3 ∧ ct.M.data 111 = 2 ∧
    ct.M.data 99 = 1 ∧ ct.NL.data 98 = 1 ∧ ct.C.data 98 = 2 ∧ ct.C.data 111 = 0 := by
  obtain ⟨ct, e, _, _, _, _, _, _, h⟩ := C21_extract_histograms banana_good
  refine ⟨ct, e, (h 97 (by decide)).1.trans (by decide +kernel), (h 110 (by decide)).1.trans (by decide +kernel),
    (h 98 (by decide)).1.trans (by decide +kernel), (h 97 (by decide)).2.1.trans (by decide +kernel),
    (h 97 (by decide)).2.2.trans (by decide +kernel), (h 110 (by decide)).2.2.trans (by decide +kernel)⟩

/-- C22: "anana" is larger than "ana", so position 1 has the larger name of the two -/
example (pj : Nat → Nat) : ∃ ct0 p ct ht name, extractLMS ⟨fun i => 2 * i + 1, 40000000⟩ (cString banana) 6 = .ok ct0 ∧
    sortLMS insSort pj ⟨fun i => 2 * i + 1, 40000000⟩ (cString banana) ct0 = .ok (p, ct) ∧ ct.hashtable = some ht ∧
    NamedBy ht (cString banana) banana name ∧ name 1 = 2 ∧ name 3 = 1 ∧ ct.numUnique = 2 := by
  obtain ⟨ct0, p, ct, ht, name, e1, e2, e3, hn, h1, h2, h3, h4⟩ := C22_names_respect_order banana_good pj
  have s1 : SStar banana 1 := by decide +kernel
  have s3 : SStar banana 3 := by decide +kernel
  have hall : ∀ i, SStar banana i → i = 1 ∨ i = 3 := by
    intro i hi
    have hl : i < 6 := hi.2.1
    match i, hl with
    | 0, _ => exact absurd hi (by decide +kernel)
    | 1, _ => exact Or.inl rfl
    | 2, _ => exact absurd hi (by decide +kernel)
    | 3, _ => exact Or.inr rfl
    | 4, _ => exact absurd hi (by decide +kernel)
    | 5, _ => exact absurd hi (by decide +kernel)
  have n1 : NextStar banana 1 3 := ⟨by decide, by decide, Or.inr s3, fun k k1 k2 => by
    have : k = 2 := by omega
    subst this; decide +kernel⟩
  have n3 : NextStar banana 3 6 := ⟨by decide, by decide, Or.inl rfl, fun k k1 k2 => by
    have : k = 4 ∨ k = 5 := by omega
    rcases this with rfl | rfl <;> decide +kernel⟩
  have hne := h3 1 3 _ 3 6 _ ⟨s1, n1, rfl⟩ ⟨s3, n3, rfl⟩
  have hd : name 1 ≠ name 3 := fun h => absurd (hne.1 h) (by decide +kernel)
  have hlt : ¬ name 1 < name 3 := fun h => absurd (h4 1 3 s1 s3 h) (by decide +kernel)
  have b1 := h1 1 s1
  have b3 := h1 3 s3
  have hU : ct.numUnique ≤ 2 := by
    by_contra hU
    have a : ∀ m, 1 ≤ m → m ≤ ct.numUnique → m = name 1 ∨ m = name 3 := by
      intro m m1 m2
      obtain ⟨i, hi, hm⟩ := h2 m m1 m2
      rcases hall i hi with rfl | rfl
      · exact Or.inl hm.symm
      · exact Or.inr hm.symm
    have := a 1 (by omega) (by omega)
    have := a 2 (by omega) (by omega)
    have := a 3 (by omega) (by omega)
    omega
  exact ⟨ct0, p, ct, ht, name, e1, e2, e3, hn, by omega, by omega, by omega⟩

/-- C23: the shortened text of "banana" has four letters -/
example (pj : Nat → Nat) (tj : Nat → BitVec 64) (sj sj' : BitVec 64) : ∃ ct0 p ct T1,
    extractLMS ⟨fun i => 2 * i + 1, 40000000⟩ (cString banana) 6 = .ok ct0 ∧
    sortLMS insSort pj ⟨fun i => 2 * i + 1, 40000000⟩ (cString banana) ct0 = .ok (p, ct) ∧
    createShortened tj sj (cString banana) 6 ct = .ok T1 ∧ T1.length = 4 ∧ ∃ v, T1.getValue sj' 3 = .ok v ∧ v.toNat = 0 := by
  obtain ⟨ct0, p, ct, ht, name, T1, e1, e2, _, _, e3, h1, h2, _, _, h3⟩ := C23_shortened_string banana_good pj tj sj sj'
  have h2' : ct.numSubs = 2 := h2.trans (by decide +kernel)
  rw [h2'] at h1 h3
  exact ⟨ct0, p, ct, T1, e1, e2, e3, h1, h3⟩

/-- C29 -/
example (sj : BitVec 64) : ∃ ct p T1 ht W, (W = 32 ∨ W = 40 ∨ W = 48 ∨ W = 56 ∨ W = 64) ∧
    finish (bananaWorld sj) p T1 ct = some <$> branchOf W (bananaWorld sj) p T1 ht ct ∧ T1.bits < W := by
  obtain ⟨ct0, p, ct, ht, T1, W, _, _, _, _, h1, h2, h3, _⟩ := C29_width_selection (bananaWorld sj) (T := cString banana) (s := banana) banana_good
  exact ⟨ct, p, T1, ht, W, h1, h2, h3⟩

/-- C32: the letters of "banana" -/
example (sj : BitVec 64) : ∃ r T', bwtString (bananaWorld sj) (some (cString banana)) 6 true = .ok (some r, T') ∧
    (((List.range 7).filter (fun i => decide (i ≠ r.last))).map r.bwt.data).Perm [97, 97, 97, 98, 110, 110] := by
  obtain ⟨r, o, e, h⟩ := C32_bwt_permutation (bananaWorld sj) (T := cString banana) (s := banana) banana_good true
  exact ⟨r, o, e, h.trans (by decide +kernel)⟩

/-- C34: with 32 bit integers -/
example (sj : BitVec 64) : ∃ ct0 p ct ht T1, extractLMS (bananaWorld sj).junk (cString banana) 6 = .ok ct0 ∧
    sortLMS insSort (bananaWorld sj).pj (bananaWorld sj).junk (cString banana) ct0 = .ok (p, ct) ∧ ct.hashtable = some ht ∧
    createShortened (bananaWorld sj).tj sj (cString banana) 6 ct = .ok T1 ∧
    (T1.bits ≠ 32 → ct.numSubs + 2 < 2 ^ 31 → ct.saMax < 2 ^ 31 → ∃ r, branch S32 (bananaWorld sj) p T1 ht ct = .ok r ∧ r.bwt.size = 7) :=
  C34_induce_memory_safe (bananaWorld sj) (T := cString banana) (s := banana) banana_good S32

/-- C35: the call returns; and a call with too short a block -/
example (sj : BitVec 64) : bwtString (bananaWorld sj) (some (cString banana)) 6 true ≠ .error (.ub .diverge) :=
  C35_terminates _ _ _ _ (Or.inr (Or.inr ⟨_, banana, rfl, rfl, banana_good⟩))

example (sj : BitVec 64) : ∃ M r, some (cString banana) = some M ∧ 6 < M.size ∧ 3 ≤ 6 ∧
    bwtString (bananaWorld sj) (some (cString banana)) 6 true = .ok (some r, release true M) := by
  rcases C35_every_call (bananaWorld sj) (some (cString banana)) 6 true (by decide)
    (by rintro M hM; injection hM with hM; subst hM; decide) insSort_ok (show enoughFor 6 ≤ 40000000 by decide)
    (by rintro M hM; injection hM with hM; subst hM; exact lengthsSafe_short _ (by decide)) with h | h | h | h
  · rcases h.1 with h | h
    · cases h
    · omega
  · omega
  · obtain ⟨⟨M, hM, h⟩, _⟩ := h
    injection hM with hM; subst hM
    exact absurd h (by decide)
  · exact h

/-! ## C79, C80 -/

/-- C79: the inverse transform of "annb" and "aa", with any byte in row 4 -/
example (sj : BitVec 64) (x : Nat) : ∃ r T', bwtString (bananaWorld sj) (some (cString banana)) 6 true = .ok (some r, T') ∧
    invert 6 (fun i => if i = r.last then x else r.bwt.data i) r.last = banana := by
  obtain ⟨r, o, e, h⟩ := C79_lossless (bananaWorld sj) (T := cString banana) (s := banana) banana_good true
  exact ⟨r, o, e, h _ (fun i _ hi => if_neg hi)⟩

/-- C79: "banana" and "bananb" -/
example (sj : BitVec 64) : ∃ r r' o o', bwtString (bananaWorld sj) (some (cString banana)) 6 true = .ok (some r, o) ∧
    bwtString (bananaWorld sj) (some (cString [98, 97, 110, 97, 110, 98])) 6 true = .ok (some r', o') ∧
    ¬ (r.bwt.size = r'.bwt.size ∧ r.last = r'.last ∧ ∀ i, i < r.bwt.size → i ≠ r.last → r.bwt.data i = r'.bwt.data i) := by
  obtain ⟨r, r', o, o', e1, e2, h⟩ := C79_injective (bananaWorld sj) (bananaWorld sj) (T := cString banana) (s := banana)
    (s' := [98, 97, 110, 97, 110, 98]) banana_good (T' := cString [98, 97, 110, 97, 110, 98])
    ⟨by decide, by decide, by decide, cString_holds _, insSort_ok, lengthsSafe_short _ (by decide), show enoughFor 6 ≤ 40000000 by decide⟩ true true
  exact ⟨r, r', o, o', e1, e2, fun hh => absurd (h.2 hh) (by decide)⟩

/-- C80: the rows of "ana" -/
example (sj : BitVec 64) : ∃ r T', bwtString (bananaWorld sj) (some (cString banana)) 6 true = .ok (some r, T') ∧
    ∀ k, k < 7 → ((backwardSearch 6 r.bwt.data r.last [97, 110, 97]).1 ≤ k ∧ k < (backwardSearch 6 r.bwt.data r.last [97, 110, 97]).2 ↔
      k = 2 ∨ k = 3) := by
  obtain ⟨r, o, sa, e, hsa, h⟩ := C80_rows (bananaWorld sj) (T := cString banana) (s := banana) banana_good true
  have hu : sa = [6, 5, 3, 1, 0, 4, 2] := hsa.unique ⟨by decide +kernel, by decide +kernel⟩
  subst hu
  refine ⟨r, o, e, fun k hk => (h [97, 110, 97] k hk).trans ?_⟩
  have key : ∀ k : Fin 7, [97, 110, 97] <+: banana.drop ([6, 5, 3, 1, 0, 4, 2][k.1]'k.2) ↔ k.1 = 2 ∨ k.1 = 3 := by decide +kernel
  exact key ⟨k, hk⟩

end Flbwt
