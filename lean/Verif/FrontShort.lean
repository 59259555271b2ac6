import Verif.FrontSort

/-!
# `create_shortened_string`
-/

namespace Flbwt

open HashTable (substr ok_bind)

/-- the number of the string of S* position `p` among the sorted different strings -/
def IsName (T : Nat → Nat) (n u : Nat) (str : Nat → List Nat) (R : Nat → Nat) : Prop :=
  ∀ p, isLMS T n p → 1 ≤ R p ∧ R p ≤ u ∧ str (R p) = wstr T n p

theorem SortedOK.names {T : Mem Nat} {n : Nat} {ct ct' : Container} {ht : HashTable} {s : Mem Nat} {str : Nat → List Nat}
    (H : SortedOK T n ct ct' ht s str) : ∃ R, IsName T.data n ct.numUnique str R := by
  classical
  refine ⟨fun p => if h : isLMS T.data n p then ((H.mem _).1 ⟨p, h, rfl⟩).choose else 0, ?_⟩
  intro p hp
  simp only [dif_pos hp]
  exact ((H.mem _).1 ⟨p, hp, rfl⟩).choose_spec

/-- State of the scan when the positions from `i` on have been visited. -/
structure ShInv (T : Mem Nat) (n u : Nat) (bits : Nat) (R : Nat → Nat) (i : Nat) (s : ShSt) : Prop where
  wf : s.T1.WF
  bits_ : s.T1.bits = bits
  len : s.T1.length = lmsN T.data n + 2
  fin : s.T1.cell (lmsN T.data n + 1) = 0
  val : ∀ p, isLMS T.data n p → i < p → s.T1.cell (tix T.data n p + 1) = BitVec.ofNat 64 (R p)
  prev : s.prev = if isS T.data n i = true then TYPE_S else TYPE_L
  lo : i < s.q
  hi : s.q ≤ n
  fst : s.q = n ∨ isLMS T.data n s.q
  no : ∀ x, i < x → x < s.q → ¬ isLMS T.data n x
  j : s.j = tix T.data n (i + 1)

theorem tix_step_no {T : Nat → Nat} {n i : Nat} (h : ¬ isLMS T n i) : tix T n (i + 1) = tix T n i := by
  refine cnt_congr (fun q hq => ?_)
  constructor
  · rintro ⟨h1, h2⟩
    refine ⟨h1, ?_⟩
    rcases Nat.lt_or_ge q i with h3 | h3
    · exact h3
    · have : q = i := by omega
      subst this; exact absurd h1 h
  · rintro ⟨h1, h2⟩; exact ⟨h1, by omega⟩

theorem tix_step {T : Nat → Nat} {n i : Nat} (h : isLMS T n i) : tix T n (i + 1) = tix T n i + 1 := by
  refine cnt_insert h.2.1 (fun q hq => ?_) (by simp)
  constructor
  · rintro ⟨h1, h2⟩
    rcases Nat.lt_or_ge q i with h3 | h3
    · exact Or.inl ⟨h1, h3⟩
    · exact Or.inr (by omega)
  · rintro (⟨h1, h2⟩ | rfl)
    · exact ⟨h1, by omega⟩
    · exact ⟨h, by omega⟩

section
variable {T : Mem Nat} {n : Nat} (I : Input T n) {ct ct' : Container} {ht : HashTable} {s0 : Mem Nat} {str : Nat → List Nat}
  (H : SortedOK T n ct ct' ht s0 str) {R : Nat → Nat} (hR : IsName T.data n ct.numUnique str R) {bits : Nat}
  (hb : ct.numUnique + 1 < 2 ^ bits) (sj : BitVec 64) (hu : ct.numUnique < 2 ^ 57)
include I H hR hb hu

/-- a descent at `i`: if `i+1` is S*, its name is looked up and stored -/
theorem shMaybe_spec {i : Nat} (hi : i + 1 < n) {s : ShSt} (g : ShInv T n ct.numUnique bits R (i + 1) s)
    (hd : T.data (i + 1) < T.data i) :
    Tot (shMaybe sj ht T i s) (fun s' => ∀ pv, pv = TYPE_L → ShInv T n ct.numUnique bits R i { s' with prev := pv }) := by
  have hn := I.nlt
  have hsz := I.size
  have hSi : isS T.data n i = false := (L_iff (by omega)).2 (Or.inr ⟨hi, Or.inl hd⟩)
  unfold shMaybe
  have hprev := g.prev
  cases hS : isS T.data n (i + 1) with
  | true =>
    rw [hS] at hprev
    simp only [if_true] at hprev
    rw [if_pos hprev]
    have hl : isLMS T.data n (i + 1) := ⟨by omega, hi, hS, by simpa using hSi⟩
    have hnx : nx T.data n (i + 1) = s.q := nx_eq hl g.lo g.hi g.fst g.no
    obtain ⟨nx1, nx2, _, _⟩ := nx_spec hl
    obtain ⟨r1, r2, r3⟩ := hR (i + 1) hl
    have hsl : (str (R (i + 1))).length = s.q - (i + 1) + 1 := by
      rw [r3, wstr_eq_substr, HashTable.substr_length, hnx]
    have hfind := H.find T (i + 1) (R (i + 1)) (by rw [hsl]; omega) r1 r2 (by
      rw [hsl, r3, wstr_eq_substr, hnx])
    rw [hsl] at hfind
    rw [subU64_eq (by omega), addU64_eq (by have := I.nlt; omega), hfind, ok_bind]
    have hj : s.j = tix T.data n (i + 1) + 1 := by rw [g.j, tix_step hl]
    have htl := tix_lt hl
    have hvb : (BitVec.ofNat 64 (R (i + 1))).toNat = R (i + 1) := by
      rw [BitVec.toNat_ofNat, Nat.mod_eq_of_lt]
      have : (2 : Nat) ^ 52 < 2 ^ 64 := by norm_num
      omega
    refine Tot.bind (PackedArray.setValue_tot g.wf sj (i := s.j) (by rw [g.len]; omega) (BitVec.ofNat 64 (R (i + 1)))
      (by rw [hvb, g.bits_]; omega)) ?_
    rintro T1 ⟨a1, a2, a3, a4, a5⟩
    rw [Tot_ok]
    rintro pv rfl
    refine ⟨a1, by rw [a2]; exact g.bits_, by rw [a3]; exact g.len, ?_, ?_, ?_, ?_, by simp only; omega, Or.inr hl, ?_, ?_⟩
    · simp only; rw [a5 _ (by omega)]; exact g.fin
    · intro p hp hip
      by_cases hpi : p = i + 1
      · subst hpi; simp only; rw [← hj]; exact a4
      · have hne : tix T.data n p + 1 ≠ s.j := by
          intro h; exact hpi (tix_inj hp hl (by omega))
        simp only; rw [a5 _ hne]; exact g.val p hp (by omega)
    · simp only [hSi]; rfl
    · simp only; omega
    · intro x x1 x2; simp only at x2; omega
    · simp only; rw [Queue.decU64_eq (by omega), hj]; omega
  | false =>
    rw [hS] at hprev
    simp only [Bool.false_eq_true, if_false] at hprev
    rw [if_neg (by rw [hprev]; decide), Tot_ok]
    rintro pv rfl
    have hnl : ¬ isLMS T.data n (i + 1) := fun hl => by rw [hl.2.2.1] at hS; exact absurd hS (by simp)
    have key : ∀ q, isLMS T.data n q → i < q → i + 1 < q := fun q h1 h2 => by
      rcases Nat.lt_or_ge (i + 1) q with h3 | h3
      · exact h3
      · have : q = i + 1 := by omega
        subst this; exact absurd h1 hnl
    refine ⟨g.wf, g.bits_, g.len, g.fin, fun p hp hip => g.val p hp (key p hp hip), ?_, by have := g.lo; simp only; omega,
      g.hi, g.fst, fun x x1 x2 hl => g.no x (key x hl x1) x2 hl, ?_⟩
    · simp only [hSi]; rfl
    · simp only; rw [g.j, tix_step_no hnl]

theorem shStep_spec {i : Nat} (hi : i + 1 < n) {s : ShSt} (g : ShInv T n ct.numUnique bits R (i + 1) s) :
    Tot (shStep sj ht T i s) (ShInv T n ct.numUnique bits R i) := by
  have hn := I.nlt
  have hsz := I.size
  unfold shStep
  rw [Mem.rd_ok _ (by omega), ok_bind, Mem.rd_ok _ (by omega), ok_bind]
  have same : ¬ isLMS T.data n (i + 1) → ∀ pv, pv = (if isS T.data n i = true then TYPE_S else TYPE_L) →
      ShInv T n ct.numUnique bits R i { s with prev := pv } := by
    intro hnl pv h2
    have key : ∀ q, isLMS T.data n q → i < q → i + 1 < q := fun q h1 h2 => by
      rcases Nat.lt_or_ge (i + 1) q with h3 | h3
      · exact h3
      · have : q = i + 1 := by omega
        subst this; exact absurd h1 hnl
    exact ⟨g.wf, g.bits_, g.len, g.fin, fun p hp hip => g.val p hp (key p hp hip), h2, by have := g.lo; simp only; omega,
      g.hi, g.fst, fun x x1 x2 hl => g.no x (key x hl x1) x2 hl, by simp only; rw [g.j, tix_step_no hnl]⟩
  by_cases h1 : T.data i < T.data (i + 1)
  · rw [if_pos h1, Tot_ok]
    have hS : isS T.data n i = true := (S_iff (by omega)).2 ⟨hi, Or.inl h1⟩
    have hnl : ¬ isLMS T.data n (i + 1) := fun hl => by
      have := hl.2.2.2; rw [show i + 1 - 1 = i by omega, hS] at this; exact absurd this (by simp)
    exact same hnl TYPE_S (by rw [hS]; rfl)
  · rw [if_neg h1]
    by_cases h2 : T.data (i + 1) < T.data i
    · rw [if_pos h2]
      refine Tot.bind (shMaybe_spec I H hR hb sj hu hi g h2) ?_
      intro s' hs'
      rw [Tot_ok]
      exact hs' TYPE_L rfl
    · rw [if_neg h2, Tot_ok]
      have heq : T.data i = T.data (i + 1) := by omega
      have hS := isS_succ_same hi heq
      have hnl : ¬ isLMS T.data n (i + 1) := fun hl => by
        have h3 := hl.2.2.2
        rw [show i + 1 - 1 = i by omega, hS, hl.2.2.1] at h3; exact absurd h3 (by simp)
      exact same hnl s.prev (by rw [hS]; exact g.prev)

end

/-- What `create_shortened_string` leaves: the head string's number, the numbers of the S* strings in text order, 0. -/
structure ShortOK (T : Nat → Nat) (n u : Nat) (R : Nat → Nat) (T1 : PackedArray) : Prop where
  wf : T1.WF
  bits : u + 1 < 2 ^ T1.bits ∧ 2 ^ (T1.bits - 1) ≤ u + 1
  len : T1.length = lmsN T n + 2
  head : T1.cell 0 = BitVec.ofNat 64 (u + 1)
  val : ∀ a, a < lmsN T n → T1.cell (a + 1) = BitVec.ofNat 64 (R (lpos T n a))
  fin : T1.cell (lmsN T n + 1) = 0

/-- The state before the scan. -/
theorem short_start {T : Mem Nat} {n : Nat} (I : Input T n) {ct ct' : Container} {ht : HashTable} {s0 : Mem Nat}
    {str : Nat → List Nat} (H : SortedOK T n ct ct' ht s0 str) (hnum : ct.numSubs = lmsN T.data n) (hul : ct.numUnique ≤ lmsN T.data n)
    (R : Nat → Nat) (tj : Nat → BitVec 64) (sj : BitVec 64) : ∃ bits T1, positionOfMsb (ct'.numUnique + 1) = .ok bits ∧
      (PackedArray.new (ct'.numSubs + 2) bits tj).setValue sj (ct'.numSubs + 2 - 1) 0 = .ok T1 ∧
      ct.numUnique + 1 < 2 ^ bits ∧ 2 ^ (bits - 1) ≤ ct.numUnique + 1 ∧
      ShInv T n ct.numUnique bits R (n - 1) ⟨T1, TYPE_L, n, ct'.numSubs + 2 - 1 - 1⟩ := by
  have hn := I.nlt
  have hn3 := I.n3
  have hln := lmsN_le (T := T.data) (n := n) (by omega)
  have hp52 : (2 : Nat) ^ 52 < 2 ^ 63 := by norm_num
  have hp63 : (2 : Nat) ^ 63 < 2 ^ 64 := by norm_num
  obtain ⟨_, _, _, _, _, _, _, k1, k2, _⟩ := H.same
  rw [k1, k2, hnum]
  obtain ⟨bits, eb, b1, b2, b3, b4⟩ := Tot_iff.1 (positionOfMsb_spec (ct.numUnique + 1) (by omega) (by omega))
  have hwf : (PackedArray.new (lmsN T.data n + 2) bits tj).WF := by
    refine PackedArray.new_wf _ _ _ b1 b2 ?_
    calc (lmsN T.data n + 2) * bits ≤ 2 ^ 57 * 64 := Nat.mul_le_mul (by omega) b2
      _ < 2 ^ 64 := by norm_num
  obtain ⟨T1, e1, a1, a2, a3, a4, a5⟩ := Tot_iff.1 (PackedArray.setValue_tot hwf sj (i := lmsN T.data n + 2 - 1) (by simp only [PackedArray.new]; omega) 0 (by
    simp))
  have hend : tix T.data n n = lmsN T.data n := cnt_congr (fun q hq => ⟨fun h => h.1, fun h => ⟨h, h.2.1⟩⟩)
  refine ⟨bits, T1, eb, e1, b4, b3, ?_⟩
  · refine ⟨a1, a2, a3, ?_, ?_, ?_, by simp only; omega, Nat.le_refl _, Or.inl rfl, ?_, ?_⟩
    · rw [show lmsN T.data n + 1 = lmsN T.data n + 2 - 1 by omega]; exact a4
    · intro p hp hip; have := hp.2.1; omega
    · rw [isS_last (by omega)]; rfl
    · intro x x1 x2; simp only at x2; omega
    · simp only; rw [show n - 1 + 1 = n by omega, hend]; omega

theorem createShortened_spec {T : Mem Nat} {n : Nat} (I : Input T n) {ct ct' : Container} {ht : HashTable} {s0 : Mem Nat}
    {str : Nat → List Nat} (H : SortedOK T n ct ct' ht s0 str) (hnum : ct.numSubs = lmsN T.data n) (hul : ct.numUnique ≤ lmsN T.data n)
    {R : Nat → Nat} (hR : IsName T.data n ct.numUnique str R) (tj : Nat → BitVec 64) (sj : BitVec 64) :
    Tot (createShortened tj sj T n ct') (ShortOK T.data n ct.numUnique R) := by
  have hn := I.nlt
  have hn3 := I.n3
  have hln := lmsN_le (T := T.data) (n := n) (by omega)
  obtain ⟨bits, T1, e1, e2, b4, b3, h0⟩ := short_start I H hnum hul R tj sj
  obtain ⟨_, _, _, _, _, _, _, k1, k2, _⟩ := H.same
  unfold createShortened
  rw [H.htab]
  simp only
  rw [e1, ok_bind, e2, ok_bind, k2]
  refine Tot.bind (loopDown_spec (ShInv T n ct.numUnique bits R) (n - 1) _ _ h0
    (fun i s h1 h2 => shStep_spec I H hR b4 sj (by omega) (by omega) h2)) ?_
  intro s g
  have hvb : (BitVec.ofNat 64 (ct.numUnique + 1)).toNat = ct.numUnique + 1 := by
    rw [BitVec.toNat_ofNat, Nat.mod_eq_of_lt (by omega)]
  refine (PackedArray.setValue_tot g.wf sj (i := 0) (by rw [g.len]; omega) _ (by rw [hvb, g.bits_]; exact b4)).mono ?_
  rintro T2 ⟨c1, c2, c3, c4, c5⟩
  refine ⟨c1, by rw [c2, g.bits_]; exact ⟨b4, b3⟩, by rw [c3]; exact g.len, c4, ?_, by rw [c5 _ (by omega)]; exact g.fin⟩
  intro a ha
  obtain ⟨p1, p2⟩ := lpos_spec ha
  rw [c5 _ (by omega)]
  have := g.val _ p1 p1.1
  rwa [p2] at this

end Flbwt
