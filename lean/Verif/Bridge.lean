import Verif.FrontMain

/-!
# From the definitions used in the proofs to the specification (`Spec.lean`)
-/

namespace Flbwt

/-- The block holds the string `s` followed by at least one more byte. -/
structure HoldsPrefix (T : Mem Nat) (s : List Nat) : Prop where
  size : s.length + 1 ≤ T.size
  val : ∀ (i : Nat) (h : i < s.length), T.data i = s[i]

/-- The block holds the string `s` followed by a byte that is not larger than any byte of `s` (0 always is). -/
structure HoldsString (T : Mem Nat) (s : List Nat) : Prop extends HoldsPrefix T s where
  term : ∀ c ∈ s, T.data s.length ≤ c

/-- Bytes that `realloc` hands out are 0, or it does not matter (C18). -/
def LengthsSafe (junk : Fresh) (s : List Nat) : Prop := (∀ i, junk i % 256 = 0) ∨ NoLength256 s

section
variable {T : Mem Nat} {s : List Nat}

theorem HoldsPrefix.eq_map (h : HoldsPrefix T s) : s = (List.range s.length).map T.data := by
  apply List.ext_getElem (by simp)
  intro i h1 h2
  simp [h.val i h1]

theorem HoldsPrefix.drop (h : HoldsPrefix T s) (p : Nat) : s.drop p = sfx T.data s.length p := by
  conv_lhs => rw [h.eq_map]
  rw [sfx_eq_drop]

theorem HoldsPrefix.stype (h : HoldsPrefix T s) {i : Nat} (hi : i < s.length) :
    SType s i ↔ isS T.data s.length i = true := by
  unfold SType
  rw [h.drop, h.drop]
  cases hs : isS T.data s.length i with
  | true => simpa using sfx_S_succ hi hs
  | false => simpa using le_of_lt (sfx_L_succ hi hs)

theorem HoldsPrefix.sstar (h : HoldsPrefix T s) (i : Nat) : SStar s i ↔ isLMS T.data s.length i := by
  unfold SStar isLMS
  constructor
  · rintro ⟨h1, h2, h3, h4⟩
    exact ⟨h1, h2, (h.stype h2).1 h3, by
      rw [h.stype (by omega)] at h4; simpa using h4⟩
  · rintro ⟨h1, h2, h3, h4⟩
    exact ⟨h1, h2, (h.stype h2).2 h3, by
      rw [h.stype (by omega)]; simp [h4]⟩

theorem HoldsPrefix.next (h : HoldsPrefix T s) {i j : Nat} (hi : SStar s i) : NextStar s i j ↔ nx T.data s.length i = j := by
  have hl := (h.sstar i).1 hi
  constructor
  · rintro ⟨h1, h2, h3, h4⟩
    exact nx_eq hl h1 h2 (h3.imp id (h.sstar j).1) (fun q q1 q2 hq => h4 q q1 q2 ((h.sstar q).2 hq))
  · rintro rfl
    obtain ⟨h1, h2, h3, h4⟩ := nx_spec hl
    exact ⟨by omega, h2, h3.imp id (h.sstar _).2, fun q q1 q2 hq => h4 q q1 q2 ((h.sstar q).1 hq)⟩

theorem HoldsPrefix.first (h : HoldsPrefix T s) {j : Nat} (hn : 0 < s.length) :
    NextStar s 0 j ↔ lpos T.data s.length 0 = j := by
  constructor
  · rintro ⟨h1, h2, h3, h4⟩
    exact lpos0 h2 (h3.imp id (h.sstar j).1) (fun q q1 q2 hq => h4 q q1 q2 ((h.sstar q).2 hq))
  · rintro rfl
    refine ⟨?_, lpos_le, ?_, ?_⟩
    · by_cases hl : 0 < lmsN T.data s.length
      · exact (lpos_spec hl).1.1
      · rw [lpos_end (by omega)]; exact hn
    · by_cases hl : 0 < lmsN T.data s.length
      · exact Or.inr ((h.sstar _).2 (lpos_spec hl).1)
      · exact Or.inl (lpos_end (by omega))
    · intro k k1 k2 hk
      have hk' := (h.sstar k).1 hk
      have h1 := tix_lt hk'
      have := tix_mono hk' k2
      rw [(lpos_spec (show 0 < lmsN T.data s.length by omega)).2] at this
      omega

theorem HoldsPrefix.wstr (h : HoldsPrefix T s) {i j : Nat} (hi : SStar s i) (hj : NextStar s i j) :
    ((s ++ [T.data s.length]).drop i).take (j - i + 1) = wstr T.data s.length i := by
  have hnx := (h.next hi).1 hj
  obtain ⟨h1, h2, _, _⟩ := hj
  unfold Flbwt.wstr
  rw [hnx]
  apply List.ext_getElem
  · simp; omega
  · intro k k1 k2
    simp only [List.length_map, List.length_range'] at k2
    simp only [List.getElem_take, List.getElem_drop, List.getElem_map, List.getElem_range']
    rw [List.getElem_append]
    split
    · rename_i hk; rw [← h.val _ hk]; congr 1; omega
    · rename_i hk
      have : i + 1 * k = s.length := by omega
      rw [this]; simp

theorem HoldsPrefix.lenOK (h : HoldsPrefix T s) (hn : 0 < s.length) {junk : Fresh} (hr : enoughFor s.length ≤ junk.lim)
    (hj : LengthsSafe junk s) : LenOK junk T.data s.length := by
  refine ⟨hr, ?_⟩
  rcases hj with hj | hj
  · exact Or.inl hj
  · refine Or.inr ⟨NoOpen.of_lengths fun p hp => ?_, ?_⟩
    · have := hj p _ (Or.inr ((h.sstar p).2 hp)) ((h.next ((h.sstar p).2 hp)).2 rfl)
      exact this
    · have := hj 0 _ (Or.inl rfl) ((h.first hn).2 rfl)
      simpa using this

theorem HoldsPrefix.input (h : HoldsPrefix T s) (h3 : 3 ≤ s.length) (h57 : s.length < 2 ^ 57) (hb : ∀ c ∈ s, c < 256)
    (ht : T.data s.length < 256) : Input T s.length := by
  refine ⟨h3, h57, h.size, fun i hi => ?_⟩
  rcases Nat.lt_or_eq_of_le hi with h1 | h1
  · rw [h.val i h1]; exact hb _ (List.getElem_mem h1)
  · rw [h1]; exact ht

theorem HoldsString.term_lt (h : HoldsString T s) (h3 : 3 ≤ s.length) (hb : ∀ c ∈ s, c < 256) : T.data s.length < 256 := by
  have h0 : 0 < s.length := by omega
  have := h.term _ (List.getElem_mem h0)
  have := hb _ (List.getElem_mem h0)
  omega

end

theorem cnt_eq_count (k : Nat) (P : Nat → Prop) (p : Nat → Bool) (h : ∀ i, i < k → (P i ↔ p i = true)) :
    cnt k P = countBelow k p := by
  induction k with
  | zero => simp [cnt, countBelow]
  | succ k ih =>
    classical
    rw [cnt_succ, ih (fun i hi => h i (by omega))]
    unfold countBelow
    rw [List.range_succ, List.filter_append, List.length_append]
    congr 1
    by_cases hk : P k
    · simp [hk, (h k (by omega)).1 hk]
    · have : ¬ p k = true := fun hp => hk ((h k (by omega)).2 hp)
      simp [hk, this]

/-- rows as a transform in the sense of the specification -/
theorem isBWT_of_rows {T : Mem Nat} {s : List Nat} (h : HoldsString T s) {b : Nat → Nat} {r : BwtResult}
    (hr : BwtRows T.data s.length b r) : IsBWT s r.bwt.data r.last := by
  obtain ⟨h1, h2, h3, _⟩ := hr
  have hs : ∀ x, x < s.length + 1 → ∃ p, p < s.length + 1 ∧ rho T.data s.length p = x :=
    inj_surj (rho T.data s.length) (fun q hq => by have := rho_le (T := T.data) (n := s.length) (p := q) (by omega); omega)
      (fun a ha b hb hh => rho_inj (by omega) (by omega) hh)
  classical
  let inv : Nat → Nat := fun x => if hx : x < s.length + 1 then (hs x hx).choose else 0
  have hinv : ∀ x, x < s.length + 1 → inv x ≤ s.length ∧ rho T.data s.length (inv x) = x := by
    intro x hx
    have := (hs x hx).choose_spec
    simp only [inv, dif_pos hx]
    exact ⟨by omega, this.2⟩
  have hpw : ((List.range (s.length + 1)).map inv).Pairwise (fun i j => s.drop i < s.drop j) := by
    rw [List.pairwise_map]
    refine List.Pairwise.imp_of_mem ?_ (List.pairwise_lt_range (n := s.length + 1))
    intro a b ha hb hab
    obtain ⟨a1, a2⟩ := hinv a (List.mem_range.1 ha)
    obtain ⟨b1, b2⟩ := hinv b (List.mem_range.1 hb)
    rw [h.drop, h.drop]
    exact (rho_lt_iff a1).1 (by omega)
  have hnd : ((List.range (s.length + 1)).map inv).Nodup :=
    hpw.imp (fun {a b} hab heq => by subst heq; exact absurd hab (List.lt_irrefl _))
  refine ⟨(List.range (s.length + 1)).map inv, ⟨?_, hpw⟩, ?_⟩
  · rw [List.perm_ext_iff_of_nodup hnd List.nodup_range]
    intro x
    simp only [List.mem_map, List.mem_range]
    constructor
    · rintro ⟨i, hi, rfl⟩
      have := (hinv i hi).1; omega
    · intro hx
      have hle := rho_le (T := T.data) (n := s.length) (p := x) (by omega)
      refine ⟨rho T.data s.length x, by omega, ?_⟩
      have := hinv _ (show rho T.data s.length x < s.length + 1 by omega)
      exact rho_inj this.1 (by omega) this.2
  · intro x hx
    simp only [List.length_map, List.length_range] at hx
    obtain ⟨i1, i2⟩ := hinv x hx
    simp only [List.getElem_map, List.getElem_range]
    refine ⟨?_, ?_⟩
    · rw [h2]
      constructor
      · intro h0; rw [h0] at i2; exact i2.symm
      · intro h0
        exact rho_inj i1 (by omega) (by rw [i2, h0])
    · intro hp
      have := h3 (inv x) (by omega) i1
      rw [i2] at this
      rw [this, List.getElem?_eq_getElem (by omega), h.val _ (by omega)]

end Flbwt
