import Verif.GenMain
import Verif.GenOrder
import Verif.FrontMain

/-!
# `bwt_is` on a string that is followed by an arbitrary byte (proof)
-/

namespace Flbwt.Gen

open HashTable (substr ok_bind RecAt LenAt bodyLen nb)
open SaStore LawfulSaStore

/-- a map that preserves the order of numbers preserves the order of lists -/
theorem map_lt_map {f g : Nat → Nat} : ∀ (u v : List Nat), (∀ x ∈ u, ∀ y ∈ v, (f x < f y ↔ g x < g y)) →
    (∀ x ∈ u, ∀ y ∈ v, (f x = f y ↔ g x = g y)) → (u.map f < v.map f ↔ u.map g < v.map g)
  | [], [], _, _ => by simp
  | [], _ :: _, _, _ => by simp
  | _ :: _, [], _, _ => by simp
  | x :: u, y :: v, h1, h2 => by
    have ih := map_lt_map u v (fun a ha b hb => h1 a (List.mem_cons_of_mem _ ha) b (List.mem_cons_of_mem _ hb))
      (fun a ha b hb => h2 a (List.mem_cons_of_mem _ ha) b (List.mem_cons_of_mem _ hb))
    rw [List.map_cons, List.map_cons, List.map_cons, List.map_cons, List.cons_lt_cons_iff, List.cons_lt_cons_iff,
      h1 x List.mem_cons_self y List.mem_cons_self, h2 x List.mem_cons_self y List.mem_cons_self, ih]

/-- the number of S* positions with a smaller S* string, plus one -/
noncomputable def nameOf (T : Nat → Nat) (n p : Nat) : Nat :=
  1 + cnt n (fun q => isLMS T n q ∧ lmsLt (wstr T n q) (wstr T n p) = true)

/-- The order in which the suffix array lists the S* positions (then the other positions). -/
noncomputable def prio (T : Nat → Nat) (n p : Nat) : Nat := by
  classical
  exact if isLMS T n p then rankOf (lmsN T n) (fun a => (shortText T n (nameOf T n)).drop a) (tix T n p)
    else lmsN T n + 1 + p

theorem prio_lms {T : Nat → Nat} {n p : Nat} (h : isLMS T n p) :
    prio T n p = rankOf (lmsN T n) (fun a => (shortText T n (nameOf T n)).drop a) (tix T n p) := by
  unfold prio; rw [if_pos h]

theorem shortText_drop_inj {T : Nat → Nat} {n : Nat} {R : Nat → Nat} {a b : Nat} (ha : a ≤ lmsN T n) (hb : b ≤ lmsN T n)
    (h : (shortText T n R).drop a = (shortText T n R).drop b) : a = b := by
  have := congrArg List.length h
  rw [List.length_drop, List.length_drop, shortText_length] at this
  omega

theorem prio_inj {T : Nat → Nat} {n p q : Nat} (h : prio T n p = prio T n q) : p = q := by
  have hle : ∀ p, isLMS T n p → prio T n p ≤ lmsN T n := by
    intro p hp
    rw [prio_lms hp]
    have h1 := tix_lt hp
    have := cnt_lt_of_not (n := lmsN T n + 1)
      (P := fun q => (shortText T n (nameOf T n)).drop q < (shortText T n (nameOf T n)).drop (tix T n p)) (x := tix T n p)
      (by omega) (lt_irrefl _)
    unfold rankOf; simp only; omega
  have hno : ∀ p, ¬ isLMS T n p → prio T n p = lmsN T n + 1 + p := fun p hp => by unfold prio; rw [if_neg hp]
  by_cases h1 : isLMS T n p <;> by_cases h2 : isLMS T n q
  · have e : tix T n p = tix T n q := by
      rw [prio_lms h1, prio_lms h2] at h
      have a1 := tix_lt h1
      have a2 := tix_lt h2
      rcases lt_trichotomy ((shortText T n (nameOf T n)).drop (tix T n p)) ((shortText T n (nameOf T n)).drop (tix T n q)) with g | g | g
      · have := (rankOf_lt (n := lmsN T n) (K := fun a => (shortText T n (nameOf T n)).drop a) (p := tix T n p) (q := tix T n q) (by omega)).2 g
        omega
      · exact shortText_drop_inj (by omega) (by omega) g
      · have := (rankOf_lt (n := lmsN T n) (K := fun a => (shortText T n (nameOf T n)).drop a) (p := tix T n q) (q := tix T n p) (by omega)).2 g
        omega
    rw [← lpos_tix h1, e, lpos_tix h2]
  · have := hle p h1; have := hno q h2; omega
  · have := hle q h2; have := hno p h1; omega
  · have := hno q h2; have := hno p h1; omega

/-- rows of the first and of the second pass on the string `T[0..n)` followed by `T[n]` -/
noncomputable def rowA (T : Nat → Nat) (n : Nat) : Nat → Nat := row1 T n (prio T n)
/-- the rows of the result -/
noncomputable def rowB (T : Nat → Nat) (n : Nat) : Nat → Nat := row2 T n (rowA T n)

theorem rowA_rows {T : Nat → Nat} {n : Nat} : RowsL T n (rowA T n) := row1_rows (fun _ _ _ _ _ _ h => prio_inj h)
theorem rowB_rows {T : Nat → Nat} {n : Nat} : RowsS T n (rowB T n) := row2_rows rowA_rows.toRows
theorem rowA_L {T : Nat → Nat} {n j : Nat} (hj : j < n) (h : isS T n j = false) : rowA T n j = rowB T n j :=
  row2_L rowA_rows.toRows hj h

section
variable {T : Mem Nat} {n : Nat} {ct : Container} {ht : HashTable} {s : Mem Nat} {str : Nat → List Nat} {R : Nat → Nat}
    {T1 : PackedArray}

theorem name_lt (H : Ready T n ct ht s str R T1) {p q : Nat} (hp : isLMS T.data n p) (hq : isLMS T.data n q) :
    R p < R q ↔ lmsLt (wstr T.data n p) (wstr T.data n q) = true := by
  have n1 := H.name p hp
  have n2 := H.name q hq
  rw [← n1.2.2, ← n2.2.2]
  constructor
  · intro hlt
    exact H.sorted.lt _ _ n1.1 hlt n2.2.1
  · intro hlt
    rcases Nat.lt_trichotomy (R p) (R q) with c | c | c
    · exact c
    · rw [c, lmsLt_irrefl] at hlt; cases hlt
    · have := H.sorted.lt _ _ n2.1 c n1.2.1
      rw [lmsLt_asymm this] at hlt; cases hlt

theorem nameOf_lt (H : Ready T n ct ht s str R T1) {p q : Nat} (hp : isLMS T.data n p) (hq : isLMS T.data n q) :
    nameOf T.data n p < nameOf T.data n q ↔ R p < R q := by
  have key : ∀ p q, isLMS T.data n p → isLMS T.data n q → R p ≤ R q → nameOf T.data n p ≤ nameOf T.data n q := by
    intro p q hp hq h
    unfold nameOf
    refine Nat.add_le_add_left (cnt_mono (fun x _ hx => ⟨hx.1, ?_⟩)) _
    rw [← name_lt H hx.1 hq]
    have := (name_lt H hx.1 hp).2 hx.2
    omega
  constructor
  · intro h
    by_contra hc
    have := key q p hq hp (by omega); omega
  · intro h
    unfold nameOf
    refine Nat.add_lt_add_left (cnt_lt (x := p) (fun x _ hx => ⟨hx.1, (name_lt H hx.1 hq).1 ?_⟩) hp.2.1
      ⟨hp, (name_lt H hp hq).1 h⟩ (fun g => by rw [lmsLt_irrefl] at g; exact absurd g.2 (by simp))) _
    have := (name_lt H hx.1 hp).2 hx.2
    omega

theorem drop_lt_iff (H : Ready T n ct ht s str R T1) (a b : Nat) :
    (shortText T.data n R).drop a < (shortText T.data n R).drop b ↔
    (shortText T.data n (nameOf T.data n)).drop a < (shortText T.data n (nameOf T.data n)).drop b := by
  -- a list of numbers of S* strings, `lmsN` standing for the end
  have hmap : ∀ R' : Nat → Nat, shortText T.data n R' = (List.range (lmsN T.data n + 1)).map
      (fun a => if a < lmsN T.data n then R' (lpos T.data n a) else 0) := by
    intro R'
    unfold shortText
    rw [List.range_succ, List.map_append]
    congr 1
    · refine List.map_congr_left (fun x hx => ?_)
      rw [if_pos (List.mem_range.1 hx)]
    · simp
  have hpos : ∀ p, isLMS T.data n p → 1 ≤ R p ∧ 1 ≤ nameOf T.data n p := fun p hp => ⟨(H.name p hp).1, by unfold nameOf; omega⟩
  rw [hmap R, hmap (nameOf T.data n), ← List.map_drop, ← List.map_drop, ← List.map_drop, ← List.map_drop]
  refine map_lt_map _ _ (fun x _ y _ => ?_) (fun x _ y _ => ?_)
  · by_cases hx : x < lmsN T.data n <;> by_cases hy : y < lmsN T.data n <;> simp only [hx, hy, if_true, if_false]
    · exact (nameOf_lt H (lpos_spec hx).1 (lpos_spec hy).1).symm
    · simp
    · have := hpos _ (lpos_spec hy).1
      constructor <;> intro _ <;> omega
  · by_cases hx : x < lmsN T.data n <;> by_cases hy : y < lmsN T.data n <;> simp only [hx, hy, if_true, if_false]
    · have h1 := nameOf_lt H (lpos_spec hx).1 (lpos_spec hy).1
      have h2 := nameOf_lt H (lpos_spec hy).1 (lpos_spec hx).1
      omega
    · have := hpos _ (lpos_spec hx).1
      constructor <;> intro _ <;> omega
    · have := hpos _ (lpos_spec hy).1
      constructor <;> intro _ <;> omega

theorem prep_spec (H : Ready T n ct ht s str R T1) (S : Type) [LawfulSaStore S] (w : World)
    (hcs : T1.bits ≠ width S) (hnum : lmsN T.data n + 2 < 2 ^ (width S - 1)) (hmax : ct.saMax < 2 ^ (width S - 1)) :
    Tot (prep S w s T1 ht ct) (fun sa => ∃ X σ,
      Layout T.data n ⟨ht.buf, ct.bwpBase, ct.lastptr, ct.M, ct.C, w.sj⟩ ct.bwpWidth X ∧
      SaSorted T.data n (rowA T.data n) X sa ct.numSubs σ) := by
  have hlt := H.num_lt
  have hu := H.ule
  unfold prep
  rw [H.num]
  have h64 : (2 : Nat) ^ 52 < 2 ^ 64 - 1 := by norm_num
  have hs := saisCall_tot w.cj w.sj T1 (fresh (lmsN T.data n + 2) w.aj : S) 0 (ct.numUnique + 2) 64 (shortText T.data n R) hcs
    (H.holds w.sj) (by unfold shortText; simp) (by rw [shortText_length]; omega) (by omega) (by
      intro c hc
      unfold shortText at hc
      rcases List.mem_append.1 hc with hc | hc
      · obtain ⟨x, hx, rfl⟩ := List.mem_map.1 hc
        have := (H.name _ (lpos_spec (List.mem_range.1 hx)).1).2.1
        omega
      · simp at hc; omega) (by rw [shortText_length, size_fresh]; omega) (by rw [shortText_length]; omega)
  rw [shortText_length] at hs
  unfold saisCall at hs
  refine Tot.bind hs ?_
  rintro st ⟨a1, a2, a3, a4⟩
  rw [size_fresh] at a1
  -- the entries
  obtain ⟨a, hav⟩ : ∃ a : Nat → Nat, a = fun i => (get st.sa i).toNat := ⟨_, rfl⟩
  have hsal : saList st (lmsN T.data n + 1) = (List.range (lmsN T.data n + 1)).map a := by rw [hav]; rfl
  rw [hsal] at a4
  obtain ⟨hperm, hpw⟩ := a4
  rw [shortText_length] at hperm
  have hget : ∀ i, i < lmsN T.data n + 1 → get st.sa i = (a i : Int) ∧ a i ≤ lmsN T.data n := by
    intro i hi
    have h0 := a3 i hi
    refine ⟨by rw [hav]; simp only; omega, ?_⟩
    have : a i ∈ (List.range (lmsN T.data n + 1)).map a := List.mem_map.2 ⟨i, List.mem_range.2 hi, rfl⟩
    have := hperm.mem_iff.1 this
    rw [List.mem_range] at this
    omega
  have hpn : (((2 ^ (width S - 1) : Nat)) : Int) = (2 : Int) ^ (width S - 1) := by push_cast; rfl
  refine Tot.bind (incEntries_spec (lmsN T.data n + 1) st.sa (by omega) (fun i hi => by rw [(hget i hi).1]; omega)
    (fun i hi => by
      have := hget i hi
      rw [this.1, ← hpn]
      omega)) ?_
  rintro sa2 ⟨b1, b2⟩
  obtain ⟨X, Y, hX, hXm⟩ := H.layout w.sj
  refine (H.toPointers_spec w.sj sa2 a (by omega) (fun i hi => ⟨by rw [b2 i hi, (hget i hi).1], (hget i hi).2⟩) hX
    (fun j hj => by
      have := hXm j hj
      rw [← hpn]; omega)).mono ?_
  rintro sa3 ⟨c1, c2⟩
  -- order
  have hdrop : ∀ i j, i < j → j ≤ lmsN T.data n →
      (shortText T.data n R).drop (a i) < (shortText T.data n R).drop (a j) := by
    intro i j hij hj
    have := List.pairwise_iff_getElem.1 hpw i j (by simp; omega) (by simp; omega) hij
    simpa only [List.getElem_map, List.getElem_range] using this
  have hsurj : ∀ b, b ≤ lmsN T.data n → ∃ i, i ≤ lmsN T.data n ∧ a i = b := by
    intro b hb
    have : b ∈ (List.range (lmsN T.data n + 1)).map a := hperm.mem_iff.2 (List.mem_range.2 (by omega))
    obtain ⟨i, hi, rfl⟩ := List.mem_map.1 this
    rw [List.mem_range] at hi
    exact ⟨i, by omega, rfl⟩
  have hainj : ∀ i j, i < j → j ≤ lmsN T.data n → a i ≠ a j := fun i j hij hj h => by
    have := hdrop i j hij hj
    rw [h] at this; exact absurd this (lt_irrefl _)
  -- the suffix [0] is the smallest
  have hsmall : ∀ b, b < lmsN T.data n → (shortText T.data n R).drop (lmsN T.data n) < (shortText T.data n R).drop b := by
    intro b hb
    unfold shortText
    rw [List.drop_append_of_le_length (by simp), List.drop_append_of_le_length (by simp; omega), sfx_eq_drop, sfx_eq_drop,
      sfx_nil (Nat.le_refl _), sfx_cons hb, List.nil_append, List.cons_append, List.cons_lt_cons_iff]
    have := (H.name _ (lpos_spec hb).1).1
    exact Or.inl (by omega)
  have hzero : a 0 = lmsN T.data n := by
    obtain ⟨i, hi, hai⟩ := hsurj (lmsN T.data n) (Nat.le_refl _)
    by_contra hc
    have h0 : i ≠ 0 := by rintro rfl; exact hc hai
    have h1 := hdrop 0 i (by omega) hi
    rw [hai] at h1
    have h2 := hsmall (a 0) (by have := (hget 0 (by omega)).2; omega)
    exact absurd (lt_trans h1 h2) (lt_irrefl _)
  have hlt' : ∀ i, 1 ≤ i → i ≤ lmsN T.data n → a i < lmsN T.data n := by
    intro i i1 i2
    have h2 := (hget i (by omega)).2
    have := hainj 0 i (by omega) i2
    omega
  have hsort : SaSorted T.data n (rowA T.data n) X sa3 ct.numSubs (fun i => lpos T.data n (a i)) := by
    rw [H.num]
    refine ⟨by omega, fun i hi => c2 i (by omega), ?_, ?_, ?_, ?_⟩
    · rw [hzero, lpos_end (Nat.le_refl _)]
    · intro i i1 i2
      exact (lpos_spec (hlt' i i1 i2)).1
    · intro i j i1 hij hj heq
      have l1 := lpos_spec (hlt' i i1 (by omega))
      have l2 := lpos_spec (hlt' j (by omega) hj)
      unfold rowA
      rw [row1_S l1.1.2.1 l2.1.2.1 l1.1.2.2.1 l2.1.2.2.1 heq, prio_lms l1.1, prio_lms l2.1, l1.2, l2.2,
        rankOf_lt (hget i (by omega)).2, ← drop_lt_iff H]
      exact hdrop i j hij hj
    · intro p hp
      obtain ⟨i, hi, hai⟩ := hsurj (tix T.data n p) (by have := tix_lt hp; omega)
      refine ⟨i, ?_, hi, by rw [hai, lpos_tix hp]⟩
      by_contra hc
      have : i = 0 := by omega
      subst this
      have := tix_lt hp; omega
  exact ⟨X, _, Y, H.num ▸ hsort⟩

theorem branch_spec (H : Ready T n ct ht s str R T1) (S : Type) [LawfulSaStore S] (w : World)
    (hcs : T1.bits ≠ width S) (hnum : lmsN T.data n + 2 < 2 ^ (width S - 1)) (hmax : ct.saMax < 2 ^ (width S - 1)) :
    Tot (branch S w s T1 ht ct) (Induced T.data n (rowA T.data n) (rowB T.data n)) := by
  rw [branch_eq_prep, H.nn]
  refine Tot.bind (prep_spec H S w hcs hnum hmax) ?_
  rintro sa3 ⟨X, σ, Y, hsort⟩
  exact induceBwt_spec rowA_rows rowB_rows (fun j hj h => rowA_L hj h) w.qj w.bj w.sj (n + 2) ht.buf sa3 ct (Nat.le_refl _) H.nn Y H.counts hsort H.sM2 H.sM3 H.sC2

theorem finish_spec (H : Ready T n ct ht s str R T1) (w : World) :
    Tot (finish w s T1 ct) (fun o => ∃ r, o = some r ∧ Induced T.data n (rowA T.data n) (rowB T.data n) r) := by
  obtain ⟨mn, hbase, hmn, _, hmax⟩ := H.sorted.base
  have hsm := H.sorted.small
  have hlt := H.num_lt
  have hu := H.ule
  have hp : (2 : Nat) ^ 52 < 2 ^ 62 := by norm_num
  have hp' : (2 : Nat) ^ 62 + 4 < 2 ^ 63 := by norm_num
  have hp'' : (2 : Nat) ^ 63 < 2 ^ 64 := by norm_num
  unfold finish
  rw [H.sorted.htab]
  simp only
  rw [H.num]
  obtain ⟨mv, hmv⟩ : ∃ x, x = if ct.saMax < lmsN T.data n + 2 then lmsN T.data n + 2 else ct.saMax := ⟨_, rfl⟩
  rw [← hmv]
  have h1 : ct.saMax ≤ mv ∧ lmsN T.data n + 2 ≤ mv ∧ mv < 2 ^ 63 := by
    rw [hmv]; split <;> omega
  obtain ⟨bits, eb, b1, b2, b3, b4⟩ := Tot_iff.1 (positionOfMsb_spec mv (by omega) (by omega))
  rw [eb, ok_bind]
  have hb63 : bits ≤ 63 := by
    by_contra hc
    have : (2 : Nat) ^ 63 ≤ 2 ^ (bits - 1) := Nat.pow_le_pow_right (by norm_num) (by omega)
    omega
  have hT1 : T1.bits ≤ bits := by
    by_contra hc
    have : (2 : Nat) ^ bits ≤ 2 ^ (T1.bits - 1) := Nat.pow_le_pow_right (by norm_num) (by omega)
    have := H.short.bits.2
    omega
  have key : ∀ (S : Type) [LawfulSaStore S], bits < width S →
      Tot (some <$> branch S w s T1 ht ct) (fun o => ∃ r, o = some r ∧ Induced T.data n (rowA T.data n) (rowB T.data n) r) := by
    intro S _ hw
    have : (2 : Nat) ^ bits ≤ 2 ^ (width S - 1) := Nat.pow_le_pow_right (by norm_num) (by omega)
    exact map_some_tot (branch_spec H S w (by omega) (by omega) (by omega))
  split
  · exact key S32 (by assumption)
  · split
    · exact key S40 (by assumption)
    · split
      · exact key S48 (by assumption)
      · split
        · exact key S56 (by assumption)
        · split
          · exact key S64 (by assumption)
          · omega

end

/-- All stages together. -/
theorem bwtIs_spec (w : World) {T : Mem Nat} {n : Nat} (I : Input T n) (hL : LenOK w.junk T.data n) (hS : SortsOK w.sorter)
    (freeT : Bool) : Tot (bwtIs w T n freeT) (fun r => (∃ b, r.1 = some b ∧ Induced T.data n (rowA T.data n) (rowB T.data n) b) ∧ r.2 = release freeT T) := by
  obtain ⟨ct0, ht0, s, ct, ht, str, R, T1, e1, _, e2, e3, rdy, _⟩ := stages_spec I hL hS w.pj w.tj w.sj
  unfold bwtIs
  rw [e1, ok_bind, e2, ok_bind, e3, ok_bind]
  refine Tot.bind (finish_spec rdy w) ?_
  rintro o ⟨r, rfl, hr⟩
  rw [Tot_ok]
  exact ⟨⟨r, rfl, hr⟩, rfl⟩

end Flbwt.Gen
