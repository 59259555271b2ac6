import Verif.GenFront
import Verif.PropsEnd

/-!
# C78: `bwt_string` on a string that is followed by an arbitrary byte

`bwt_string` reads `T[n]` (C36) and does not check it. C63 shows that the transform is right if that byte is not larger
than the bytes of the string, and that the S* strings are named in the wrong order otherwise. The theorems below carry that
through to the end of the call: nothing worse than a wrong order happens.
-/

namespace Flbwt

namespace Gen

/-! ## The result depends on the bytes `T[0..n]` only -/

section
variable {T T' : Nat → Nat} {n : Nat} (h : ∀ i, i ≤ n → T i = T' i)
include h

theorem isS_congr : isS T n = isS T' n := by
  have key : ∀ d, d ≤ n → isSd T n d = isSd T' n d := by
    intro d
    induction d with
    | zero => intro _; rfl
    | succ d ih =>
      intro hd
      rw [isSd, isSd, ih (by omega)]
      by_cases h0 : d = 0
      · rw [if_pos h0, if_pos h0]
      · rw [if_neg h0, if_neg h0, h (n - (d + 1)) (by omega), h (n - (d + 1) + 1) (by omega)]
  funext p
  exact key _ (by omega)

theorem isLMS_congr : isLMS T n = isLMS T' n := by
  funext p
  unfold isLMS
  rw [isS_congr h]

theorem lmsN_congr : lmsN T n = lmsN T' n := by unfold lmsN; rw [isLMS_congr h]
theorem tix_congr : tix T n = tix T' n := by funext p; unfold tix; rw [isLMS_congr h]
theorem lpos_congr : lpos T n = lpos T' n := by funext p; unfold lpos; rw [isLMS_congr h, tix_congr h]
theorem cntL_congr : cntL T n = cntL T' n := by
  funext c
  unfold cntL
  refine cnt_congr (fun q hq => ?_)
  rw [isS_congr h, h q (by omega)]
theorem bst_congr : bst T n = bst T' n := by
  funext c
  unfold bst
  refine cnt_congr (fun q hq => ?_)
  rw [h q (by omega)]
theorem sbeg_congr : sbeg T n = sbeg T' n := by funext c; unfold sbeg; rw [bst_congr h, cntL_congr h]

theorem wstr_congr {p : Nat} (hp : isLMS T n p) : wstr T n p = wstr T' n p := by
  have hp' : isLMS T' n p := by rw [← isLMS_congr h]; exact hp
  have hn : nx T n p = nx T' n p := by
    obtain ⟨h1, h2, h3, h4⟩ := nx_spec hp'
    refine nx_eq hp (by omega) h2 (by rw [isLMS_congr h]; exact h3) (fun q q1 q2 => ?_)
    rw [isLMS_congr h]; exact h4 q q1 q2
  obtain ⟨h1, h2, _⟩ := nx_spec hp
  unfold wstr
  rw [← hn]
  refine List.map_congr_left (fun x hx => ?_)
  rw [List.mem_range'_1] at hx
  exact h x (by omega)

theorem nameOf_congr {p : Nat} (hp : isLMS T n p) : nameOf T n p = nameOf T' n p := by
  unfold nameOf
  congr 1
  refine cnt_congr (fun q hq => ?_)
  rw [isLMS_congr h, wstr_congr h hp]
  refine and_congr_right (fun hq => ?_)
  rw [wstr_congr h (by rw [isLMS_congr h]; exact hq)]

theorem shortText_congr : shortText T n (nameOf T n) = shortText T' n (nameOf T' n) := by
  unfold shortText
  rw [← lmsN_congr h, ← lpos_congr h]
  congr 1
  refine List.map_congr_left (fun x hx => ?_)
  exact nameOf_congr h (lpos_spec (List.mem_range.1 hx)).1

theorem prio_congr : prio T n = prio T' n := by
  funext p
  unfold prio
  rw [shortText_congr h, lmsN_congr h, tix_congr h]
  exact if_congr (by rw [isLMS_congr h]) rfl rfl

theorem K1_congr {π : Nat → Nat} : K1 T n π = K1 T' n π := by
  have key : ∀ d p, d = n - p → K1 T n π p = K1 T' n π p := by
    intro d
    induction d with
    | zero =>
      intro p hd
      conv_lhs => rw [K1]
      conv_rhs => rw [K1]
      have hc : ¬ p < n := by omega
      rw [if_neg hc, if_neg hc]
    | succ d ih =>
      intro p hd
      conv_lhs => rw [K1]
      conv_rhs => rw [K1]
      have hc : p < n := by omega
      rw [if_pos hc, if_pos hc, isS_congr h, h p (by omega), ih (p + 1) (by omega)]
  funext p; exact key _ p rfl

theorem K2_congr {π : Nat → Nat} : K2 T n π = K2 T' n π := by
  have key : ∀ d p, d = n - p → K2 T n π p = K2 T' n π p := by
    intro d
    induction d with
    | zero =>
      intro p hd
      conv_lhs => rw [K2]
      conv_rhs => rw [K2]
      have hc : ¬ p < n := by omega
      rw [if_neg hc, if_neg hc]
    | succ d ih =>
      intro p hd
      conv_lhs => rw [K2]
      conv_rhs => rw [K2]
      have hc : p < n := by omega
      rw [if_pos hc, if_pos hc, isS_congr h, h p (by omega), ih (p + 1) (by omega)]
  funext p; exact key _ p rfl

theorem rowA_congr : rowA T n = rowA T' n := by unfold rowA row1; rw [K1_congr h, prio_congr h]
theorem rowB_congr : rowB T n = rowB T' n := by unfold rowB row2; rw [K2_congr h, rowA_congr h]

theorem stk_congr {r : Nat → Nat} {j : Nat} (hj : j ≤ n) : stk T n r j = stk T' n r j := by
  unfold stk
  rw [sbeg_congr h, isLMS_congr h, h j hj]
  congr 1
  refine cnt_congr (fun i hi => ?_)
  rw [h i (by omega)]

end

theorem tau_le {T : Nat → Nat} {n : Nat} {τ : Nat → Nat} (h1 : ∀ j, ¬ isLMS T n j → τ j = j)
    (h2 : ∀ j, isLMS T n j → isLMS T n (τ j)) {j : Nat} (j1 : 1 ≤ j) (j2 : j ≤ n) : 1 ≤ τ j ∧ τ j ≤ n := by
  by_cases h : isLMS T n j
  · have := h2 j h; exact ⟨this.1, Nat.le_of_lt this.2.1⟩
  · rw [h1 j h]; exact ⟨j1, j2⟩

/-- The result is determined by the bytes of the string and the byte after it. -/
theorem Induced.unique {T T' : Nat → Nat} {n : Nat} (h : ∀ i, i ≤ n → T i = T' i) {b b' : BwtResult}
    (hb : Induced T n (rowA T n) (rowB T n) b) (hb' : Induced T' n (rowA T' n) (rowB T' n) b') :
    b.last = b'.last ∧ ∀ i, i ≤ n → i ≠ b.last → b.bwt.data i = b'.bwt.data i := by
  rw [← rowA_congr h, ← rowB_congr h] at hb'
  obtain ⟨a1, a2, τ, a3, a4, a5⟩ := hb
  obtain ⟨b1, b2, τ', b3, b4, b5⟩ := hb'
  rw [← isLMS_congr h] at b4 b5
  refine ⟨by rw [a2, b2], fun i hi hne => ?_⟩
  obtain ⟨j, j1, rfl⟩ := (rowB_rows (T := T) (n := n)).toRows.surj i hi
  have j0 : 1 ≤ j := by
    by_contra hc
    have : j = 0 := by omega
    subst this; exact hne a2.symm
  have e : τ j = τ' j := by
    by_cases hl : isLMS T n j
    · refine (rowA_rows (T := T) (n := n)).toRows.stk_inj (a5 j hl).1 (b5 j hl).1 ?_
      rw [(a5 j hl).2.2, stk_congr h (Nat.le_of_lt (b5 j hl).1.2.1), (b5 j hl).2.2, stk_congr h j1]
    · rw [a4 j hl, b4 j hl]
  have := tau_le a4 (fun j hj => (a5 j hj).1) j0 j1
  rw [a3 j j0 j1, b3 j j0 j1, ← e, h _ (by omega)]

/-- All rows but that of the whole string hold the characters of the string. -/
theorem Induced.perm {T : Nat → Nat} {n : Nat} {r1 r2 : Nat → Nat} (R2 : Rows T n r2) {b : BwtResult}
    (hb : Induced T n r1 r2 b) :
    (((List.range (n + 1)).filter (fun i => decide (i ≠ b.last))).map b.bwt.data).Perm ((List.range n).map T) := by
  obtain ⟨a1, a2, τ, a3, a4, a5⟩ := hb
  have hinj : ∀ i j, i ≤ n → j ≤ n → τ i = τ j → i = j := by
    intro i j hi hj h
    by_cases h1 : isLMS T n i <;> by_cases h2 : isLMS T n j
    · refine R2.stk_inj h1 h2 ?_
      rw [← (a5 i h1).2.2, ← (a5 j h2).2.2, h]
    · rw [a4 j h2] at h; rw [← h] at h2; exact absurd (a5 i h1).1 h2
    · rw [a4 i h1] at h; rw [h] at h1; exact absurd (a5 j h2).1 h1
    · rwa [a4 i h1, a4 j h2] at h
  have p1 : ((List.range (n + 1)).filter (fun i => decide (i ≠ b.last))).Perm ((List.range' 1 n).map r2) := by
    rw [List.perm_ext_iff_of_nodup (List.nodup_range.filter _) (List.Nodup.map_on (fun i hi j hj h => ?_) List.nodup_range')]
    · intro x
      simp only [List.mem_filter, List.mem_range, decide_eq_true_eq, List.mem_map, List.mem_range'_1]
      constructor
      · rintro ⟨h1, h2⟩
        obtain ⟨j, j1, rfl⟩ := R2.surj x (by omega)
        refine ⟨j, ⟨?_, by omega⟩, rfl⟩
        by_contra hc
        have : j = 0 := by omega
        subst this; exact h2 a2.symm
      · rintro ⟨j, ⟨j1, j2⟩, rfl⟩
        have := R2.le (show j ≤ n by omega)
        refine ⟨by omega, fun h => ?_⟩
        rw [a2] at h
        have := R2.inj (by omega) (by omega) h
        omega
    · rw [List.mem_range'_1] at hi hj
      exact R2.inj (by omega) (by omega) h
  have p2 : ((List.range' 1 n).map τ).Perm (List.range' 1 n) := by
    have hnd : ((List.range' 1 n).map τ).Nodup := List.Nodup.map_on (fun i hi j hj h => by
      rw [List.mem_range'_1] at hi hj
      exact hinj i j (by omega) (by omega) h) List.nodup_range'
    refine (List.Nodup.subperm hnd (fun x hx => ?_)).perm_of_length_le (by simp)
    obtain ⟨j, hj, rfl⟩ := List.mem_map.1 hx
    rw [List.mem_range'_1] at hj ⊢
    have := tau_le a4 (fun j hj => (a5 j hj).1) (j := j) (by omega) (by omega)
    omega
  have e : ((List.range' 1 n).map r2).map b.bwt.data = ((List.range' 1 n).map τ).map (fun j => T (j - 1)) := by
    rw [List.map_map, List.map_map]
    refine List.map_congr_left (fun j hj => ?_)
    rw [List.mem_range'_1] at hj
    exact a3 j (by omega) (by omega)
  have e2 : (List.range' 1 n).map (fun j => T (j - 1)) = (List.range n).map T := by
    rw [List.range'_eq_map_range, List.map_map]
    refine List.map_congr_left (fun j _ => ?_)
    simp only [Function.comp]
    congr 1; omega
  refine (p1.map _).trans ?_
  rw [e, ← e2]
  exact p2.map _

end Gen

section
variable {T : Mem Nat} {s : List Nat}

theorem bwtString_any (w : World) (g : AnyEnd w.junk w.sorter T s) (freeT : Bool) :
    ∃ r, bwtString w (some T) s.length freeT = .ok (some r, release freeT T) ∧
      Gen.Induced T.data s.length (Gen.rowA T.data s.length) (Gen.rowB T.data s.length) r := by
  have I := g.mem.input g.len3 g.len57 g.byte g.tbyte
  have hL := g.mem.lenOK (by have := g.len3; omega) g.room g.safe
  obtain ⟨⟨o, T'⟩, e, ⟨r, h1, h2⟩, h3⟩ := Tot_iff.1 (Gen.bwtIs_spec w I hL g.sort freeT)
  simp only at h1 h3
  subst h1; subst h3
  refine ⟨r, ?_, h2⟩
  have := g.len3
  simp only [bwtString]
  rw [if_neg (by omega), e]

/-- **C78** whatever byte follows the string, `bwt_string` returns normally: an array of `n+1` entries, `last` in `1..n`, and
in the rows other than `last` the bytes of the string in some order (never the byte that follows it). -/
theorem C78_any_terminator_is_safe (w : World) (g : AnyEnd w.junk w.sorter T s) (freeT : Bool) :
    ∃ r, bwtString w (some T) s.length freeT = .ok (some r, release freeT T) ∧ r.bwt.size = s.length + 1 ∧
      1 ≤ r.last ∧ r.last ≤ s.length ∧
      (((List.range (s.length + 1)).filter (fun i => decide (i ≠ r.last))).map r.bwt.data).Perm s := by
  obtain ⟨r, e, h⟩ := bwtString_any w g freeT
  have h3 := g.len3
  have hr := (Gen.rowB_rows (T := T.data) (n := s.length)).toRows
  refine ⟨r, e, h.1, ?_, ?_, ?_⟩
  · rw [h.2.1]; exact hr.pos (by omega)
  · rw [h.2.1]; exact hr.le (by omega)
  · have := h.perm hr
    rwa [← g.mem.eq_map] at this

/-- "babab" followed by 'c' -/
example (w : World) (hs : w.sorter = insSort) (hj : w.junk = ⟨fun i => 2 * i + 1, 40000000⟩) :
    ∃ r, bwtString w (some bababc) 5 true = .ok (some r, release true bababc) ∧ r.bwt.size = 6 ∧ 1 ≤ r.last ∧ r.last ≤ 5 ∧
      (((List.range 6).filter (fun i => decide (i ≠ r.last))).map r.bwt.data).Perm [98, 97, 98, 97, 98] :=
  C78_any_terminator_is_safe w (by rw [hs, hj]; exact bababc_anyEnd) true

/-- **C78** the result depends on the string and the byte that follows it only: not on the state of memory, the
implementation of `std::sort` or the rest of the block. -/
theorem C78_any_terminator_is_deterministic (w w' : World) {T' : Mem Nat} (g : AnyEnd w.junk w.sorter T s)
    (g' : AnyEnd w'.junk w'.sorter T' s) (ht : T.data s.length = T'.data s.length) (freeT freeT' : Bool) : ∃ r r' U U',
    bwtString w (some T) s.length freeT = .ok (some r, U) ∧ bwtString w' (some T') s.length freeT' = .ok (some r', U') ∧
    r.last = r'.last ∧ ∀ i, i ≤ s.length → i ≠ r.last → r.bwt.data i = r'.bwt.data i := by
  obtain ⟨r, e, h⟩ := bwtString_any w g freeT
  obtain ⟨r', e', h'⟩ := bwtString_any w' g' freeT'
  have := Gen.Induced.unique (fun i hi => by
    rcases Nat.lt_or_eq_of_le hi with h1 | h1
    · rw [g.mem.val i h1, g'.mem.val i h1]
    · rw [h1, ht]) h h'
  exact ⟨r, r', _, _, e, e', this.1, this.2⟩

/-- "babab" followed by 'c', in two blocks and two states of memory -/
example (w w' : World) (hs : w.sorter = insSort) (hj : w.junk = ⟨fun i => 2 * i + 1, 40000000⟩) (hs' : w'.sorter = insSort)
    (hj' : w'.junk = ⟨fun i => 2 * i + 1, 40000000⟩) : ∃ r r' U U',
    bwtString w (some bababc) 5 false = .ok (some r, U) ∧ bwtString w' (some bababc) 5 true = .ok (some r', U') ∧
    r.last = r'.last ∧ ∀ i, i ≤ 5 → i ≠ r.last → r.bwt.data i = r'.bwt.data i :=
  C78_any_terminator_is_deterministic w w' (by rw [hs, hj]; exact bababc_anyEnd) (by rw [hs', hj']; exact bababc_anyEnd) rfl
    false true

end

theorem babab_prio : Gen.prio bababc.data 5 1 < Gen.prio bababc.data 5 3 := by
  have l1 : isLMS bababc.data 5 1 := by decide
  have l3 : isLMS bababc.data 5 3 := by decide
  have hall : ∀ q, isLMS bababc.data 5 q → q = 1 ∨ q = 3 := by
    intro q hq
    have : q < 5 := hq.2.1
    have key : ∀ q, q < 5 → isLMS bababc.data 5 q → q = 1 ∨ q = 3 := by decide
    exact key q this hq
  have t1 : tix bababc.data 5 1 = 0 := cnt_false (fun q _ h => by rcases hall q h.1 with g | g <;> omega)
  have t3 : tix bababc.data 5 3 = 1 := by
    have : cnt 5 (fun q => q = 1) = 1 := cnt_single (by omega)
    rw [← this]
    refine cnt_congr (fun q _ => ?_)
    constructor
    · rintro ⟨h1, h2⟩; rcases hall q h1 with g | g <;> omega
    · rintro rfl; exact ⟨l1, by omega⟩
  have hlt := tix_lt l3
  have hne : Gen.nameOf bababc.data 5 1 < Gen.nameOf bababc.data 5 3 := by
    have w1 : wstr bababc.data 5 1 = [97, 98, 97] := by decide
    have w3 : wstr bababc.data 5 3 = [97, 98, 99] := by decide
    unfold Gen.nameOf
    refine Nat.add_lt_add_left (cnt_lt (x := 1) (fun q _ hq => ?_) (by omega) ⟨l1, by rw [w1, w3]; decide⟩ (fun hq => ?_)) _
    · rcases hall q hq.1 with rfl | rfl
      · rw [w1] at hq; exact absurd hq.2 (by decide)
      · rw [w1, w3] at hq; exact absurd hq.2 (by decide)
    · rw [w1] at hq; exact absurd hq.2 (by decide)
  rw [Gen.prio_lms l1, Gen.prio_lms l3, Gen.rankOf_lt (by omega), t1, t3]
  have e : ∀ a, a < lmsN bababc.data 5 → ∃ t, (shortText bababc.data 5 (Gen.nameOf bababc.data 5)).drop a =
      Gen.nameOf bababc.data 5 (lpos bababc.data 5 a) :: t := by
    intro a ha
    unfold shortText
    rw [List.drop_append_of_le_length (by simp; omega), sfx_eq_drop, sfx_cons ha]
    exact ⟨_, rfl⟩
  obtain ⟨u, hu⟩ := e 0 (by omega)
  obtain ⟨v, hv⟩ := e 1 (by omega)
  have p1 : lpos bababc.data 5 0 = 1 := by rw [← t1]; exact lpos_tix l1
  have p3 : lpos bababc.data 5 1 = 3 := by rw [← t3]; exact lpos_tix l3
  rw [hu, hv, List.cons_lt_cons_iff, p1, p3]
  exact Or.inl hne

/-- **C78** (violation of what a user may expect) the call on "babab" followed by 'c' returns normally, but what it returns
is not the transform of "babab": `last` is 4, and the rank of the whole string is 5. -/
theorem C78_larger_terminator_wrong_transform (w : World) (g : AnyEnd w.junk w.sorter bababc babab) (freeT : Bool) :
    ∃ r U, bwtString w (some bababc) 5 freeT = .ok (some r, U) ∧ r.last = 4 ∧ ¬ IsBWT babab r.bwt.data r.last := by
  obtain ⟨r, e, h⟩ := bwtString_any w g freeT
  have h4 : r.last = 4 := by
    have R := Gen.rowA_rows (T := bababc.data) (n := 5)
    have hL : isS bababc.data 5 0 = false := by decide
    have e1 : cnt 5 (fun i => isS bababc.data 5 i = false ∧ bababc.data i = bababc.data 0 ∧
        Gen.rowA bababc.data 5 (i + 1) < Gen.rowA bababc.data 5 (0 + 1)) = 1 := by
      have : cnt 5 (fun q => q = 4) = 1 := cnt_single (by omega)
      refine (cnt_congr (fun q hq => ?_)).trans this
      have hp : Gen.rowA bababc.data 5 1 < Gen.rowA bababc.data 5 3 :=
        (Gen.row1_S (by omega) (by omega) (by decide) (by decide) (by decide)).2 babab_prio
      constructor
      · rintro ⟨h1, h2, h3⟩
        rcases (by omega : q = 0 ∨ q = 1 ∨ q = 2 ∨ q = 3 ∨ q = 4) with rfl | rfl | rfl | rfl | rfl
        · omega
        · exact absurd h1 (by decide)
        · simp only [Nat.reduceAdd] at h3; omega
        · exact absurd h1 (by decide)
        · rfl
      · rintro rfl
        exact ⟨by decide, by decide, by rw [R.rn]; exact R.pos (by omega)⟩
    have e2 : bst bababc.data 5 (bababc.data 0) = 2 := by
      unfold bst
      rw [Flbwt.cnt_eq_count 5 _ (fun q => decide (bababc.data q < bababc.data 0)) (fun i _ => by simp)]
      decide
    have h1 : r.last = Gen.rowB bababc.data 5 0 := h.2.1
    rw [h1, ← Gen.rowA_L (by omega) hL, R.L_eq_succ (by omega) hL, e1, e2]
  refine ⟨r, _, e, h4, fun hb => ?_⟩
  have := hb.last_eq
  rw [h4] at this
  exact absurd this (by decide)

example (w : World) (hs : w.sorter = insSort) (hj : w.junk = ⟨fun i => 2 * i + 1, 40000000⟩) : ∃ r U,
    bwtString w (some bababc) 5 false = .ok (some r, U) ∧ r.last = 4 ∧ ¬ IsBWT babab r.bwt.data r.last :=
  C78_larger_terminator_wrong_transform w (by rw [hs, hj]; exact bababc_anyEnd) false

end Flbwt
