import Verif.FrontShort
import Verif.Bwt
import Verif.IndMain
import Verif.PropsSais

/-!
# The stages of `bwt_is` fit together
-/

namespace Flbwt

open HashTable (substr ok_bind RecAt LenAt bodyLen nb)
open SaStore LawfulSaStore

/-! ## Blocks: the head string (block 0) and the S* strings -/

/-- first position of block `b` -/
noncomputable def bst0 (T : Nat → Nat) (n b : Nat) : Nat := if b = 0 then 0 else lpos T n (b - 1)
/-- length of the string of block `b`; its last character is that at `lpos b` -/
noncomputable def blen (T : Nat → Nat) (n b : Nat) : Nat := lpos T n b - bst0 T n b + 1

theorem lpos_le {T : Nat → Nat} {n a : Nat} : lpos T n a ≤ n := by
  by_cases h : a < lmsN T n
  · have := (lpos_spec h).1.2.1; omega
  · rw [lpos_end (by omega)]

theorem tix_le_of_le {T : Nat → Nat} {n p q : Nat} (h : p ≤ q) : tix T n p ≤ tix T n q :=
  cnt_mono (fun _ _ h' => ⟨h'.1, by omega⟩)

theorem tix_n {T : Nat → Nat} {n : Nat} : tix T n n = lmsN T n :=
  cnt_congr (fun _ _ => ⟨fun h => h.1, fun h => ⟨h, h.2.1⟩⟩)

theorem tix_lpos {T : Nat → Nat} {n a : Nat} (h : a ≤ lmsN T n) : tix T n (lpos T n a) = a := by
  rcases Nat.lt_or_eq_of_le h with h1 | h1
  · exact (lpos_spec h1).2
  · rw [h1, lpos_end (Nat.le_refl _), tix_n]

/-- position `j` lies in block `tix j` -/
theorem seg {T : Nat → Nat} {n j : Nat} (hj : j ≤ n) : tix T n j ≤ lmsN T n ∧ bst0 T n (tix T n j) ≤ j ∧
    j ≤ lpos T n (tix T n j) ∧ (1 ≤ tix T n j → bst0 T n (tix T n j) < j) := by
  have h1 : tix T n j ≤ lmsN T n := by rw [← tix_n]; exact tix_le_of_le hj
  have h2 : j ≤ lpos T n (tix T n j) := by
    rcases Nat.lt_or_eq_of_le h1 with h3 | h3
    · by_contra hc
      have := tix_mono (lpos_spec h3).1 (show lpos T n (tix T n j) < j by omega)
      rw [(lpos_spec h3).2] at this; omega
    · rw [h3, lpos_end (Nat.le_refl _)]; exact hj
  have h4 : 1 ≤ tix T n j → bst0 T n (tix T n j) < j := by
    intro h
    unfold bst0
    rw [if_neg (by omega)]
    by_contra hc
    have := tix_le_of_le (T := T) (n := n) (show j ≤ lpos T n (tix T n j - 1) by omega)
    rw [(lpos_spec (show tix T n j - 1 < lmsN T n by omega)).2] at this; omega
  refine ⟨h1, ?_, h2, h4⟩
  by_cases h : 1 ≤ tix T n j
  · have := h4 h; omega
  · unfold bst0; rw [if_pos (by omega)]; omega

theorem bst0_le {T : Nat → Nat} {n b : Nat} (h : b ≤ lmsN T n) : bst0 T n b ≤ lpos T n b := by
  have := seg (T := T) (n := n) (j := lpos T n b) lpos_le
  rw [tix_lpos h] at this
  exact this.2.1

theorem blen_nx {T : Nat → Nat} {n b : Nat} (h : b < lmsN T n) :
    nx T n (lpos T n b) = lpos T n (b + 1) := by unfold nx; rw [lpos_next h]

/-! ## Everything known before the suffix array is computed -/

structure Ready (T : Mem Nat) (n : Nat) (ct : Container) (ht : HashTable) (s : Mem Nat) (str : Nat → List Nat) (R : Nat → Nat)
    (T1 : PackedArray) : Prop where
  inp : Input T n
  nn : ct.n = n
  cM : Histo n ct.M T.data (fun _ => True) 1
  cNL : Histo n ct.NL T.data (fun q => isS T.data n q = false) 0
  cC : Histo n ct.C T.data (fun q => isLMS T.data n q) 1
  sM2 : ct.M2.size = 258
  sM3 : ct.M3.size = 258
  sC2 : ct.C2.size = 258
  num : ct.numSubs = lmsN T.data n
  headEnd : ct.headEnd = lpos T.data n 0
  ule : ct.numUnique ≤ lmsN T.data n
  sorted : SortedOK T n ct ct ht s str
  name : IsName T.data n ct.numUnique str R
  short : ShortOK T.data n ct.numUnique R T1

section
variable {T : Mem Nat} {n : Nat} {ct : Container} {ht : HashTable} {s : Mem Nat} {str : Nat → List Nat} {R : Nat → Nat}
    {T1 : PackedArray}

/-- offset of the record of block `b` -/
def recOf (s : Mem Nat) (T1 : PackedArray) (b : Nat) : Nat := s.data (T1.cell b).toNat

theorem Ready.num_lt (H : Ready T n ct ht s str R T1) : lmsN T.data n < 2 ^ 57 := by
  have h1 := H.inp.nlt
  have h2 := H.inp.n3
  have := lmsN_le (T := T.data) (n := n) (by omega)
  omega

theorem Ready.cell0 (H : Ready T n ct ht s str R T1) : (T1.cell 0).toNat = ct.numUnique + 1 := by
  rw [H.short.head, BitVec.toNat_ofNat, Nat.mod_eq_of_lt]
  have := H.num_lt
  have := H.ule
  have : (2 : Nat) ^ 52 < 2 ^ 63 := by norm_num
  omega

theorem Ready.cellS (H : Ready T n ct ht s str R T1) {a : Nat} (ha : a < lmsN T.data n) :
    (T1.cell (a + 1)).toNat = R (lpos T.data n a) ∧ 1 ≤ R (lpos T.data n a) ∧ R (lpos T.data n a) ≤ ct.numUnique ∧
    str (R (lpos T.data n a)) = substr T (bst0 T.data n (a + 1)) (blen T.data n (a + 1)) := by
  obtain ⟨h1, h2, h3⟩ := H.name _ (lpos_spec ha).1
  have := H.num_lt
  have := H.ule
  have : (2 : Nat) ^ 52 < 2 ^ 63 := by norm_num
  refine ⟨?_, h1, h2, ?_⟩
  · rw [H.short.val a ha, BitVec.toNat_ofNat, Nat.mod_eq_of_lt (by omega)]
  · rw [h3, wstr_eq_substr]
    unfold blen bst0
    rw [if_neg (by omega), Nat.add_sub_cancel, ← blen_nx ha]

/-- the record of every block -/
theorem Ready.block (H : Ready T n ct ht s str R T1) {b : Nat} (hb : b ≤ lmsN T.data n) :
    RecAt ht.buf (recOf s T1 b) (substr T (bst0 T.data n b) (blen T.data n b)) ∧
    recOf s T1 b + 2 + nb (blen T.data n b) + blen T.data n b ≤ s.data 0 ∧
    (1 ≤ b → recOf s T1 b + 2 + nb (blen T.data n b) + blen T.data n b ≤ s.data (ct.numUnique + 1)) ∧
    (b = 0 → recOf s T1 b = s.data (ct.numUnique + 1)) ∧ (T1.cell b).toNat ≤ ct.numUnique + 1 := by
  have hend := H.sorted.hend
  unfold HashTable.bodyLen at hend
  rw [HashTable.substr_length] at hend
  cases b with
  | zero =>
    have h1 := H.cell0
    have h2 : substr T (bst0 T.data n 0) (blen T.data n 0) = substr T 0 (ct.headEnd + 1) := by
      unfold blen bst0; simp [H.headEnd]
    have h3 : blen T.data n 0 = ct.headEnd + 1 := by unfold blen bst0; simp [H.headEnd]
    unfold recOf
    rw [h1, h2, h3]
    exact ⟨H.sorted.head, by omega, by omega, fun _ => rfl, Nat.le_refl _⟩
  | succ a =>
    obtain ⟨h1, h2, h3, h4⟩ := H.cellS (a := a) (by omega)
    obtain ⟨g1, g2, _, _⟩ := H.sorted.rec' _ h2 h3
    unfold recOf
    rw [h1, ← h4]
    unfold HashTable.bodyLen at g2
    rw [h4, HashTable.substr_length] at g2
    exact ⟨g1, by omega, by omega, by omega, by omega⟩

theorem rdPtr_ok {buf : Mem Nat} {q : Int} {k : Nat} (hq : q = k) (hk : k < buf.size) : rdPtr buf q = .ok (buf.data k) := by
  subst hq
  unfold rdPtr
  rw [if_pos (by omega), Int.toNat_natCast, Mem.rd_ok _ hk]

/-- pointer (relative to `base = mn - 1`) that stands for text position `j` -/
noncomputable def ptrOf (T : Nat → Nat) (n : Nat) (s : Mem Nat) (T1 : PackedArray) (j : Nat) : Nat :=
  recOf s T1 (tix T n j) + 2 + nb (blen T n (tix T n j)) + (j - bst0 T n (tix T n j))

theorem Ready.layout (H : Ready T n ct ht s str R T1) (sj : BitVec 64) :
    ∃ X : Nat → Nat, Layout T.data n ⟨ht.buf, ct.bwpBase, ct.lastptr, ct.M, ct.C, sj⟩ ct.bwpWidth X ∧
      (∀ j, j ≤ n → ct.bwpBase + X j = ptrOf T.data n s T1 j) ∧ (∀ j, j ≤ n → X j < ct.saMax) := by
  obtain ⟨mn, hbase, hmn, ⟨w1, w2, w3, w4⟩, hmax⟩ := H.sorted.base
  have hn := H.inp.nlt
  have hn3 := H.inp.n3
  have hp52 : (2 : Nat) ^ 52 < 2 ^ 63 - 2 := by norm_num
  have hfsz := H.sorted.fsz
  have hssz := H.sorted.ssz
  -- pointers
  have hptr : ∀ j, j ≤ n → mn ≤ ptrOf T.data n s T1 j ∧ ptrOf T.data n s T1 j < s.data 0 ∧ ptrOf T.data n s T1 j < ht.buf.size ∧
      ht.buf.data (ptrOf T.data n s T1 j) = T.data j := by
    intro j hj
    obtain ⟨g1, g2, g3, g4⟩ := seg (T := T.data) hj
    obtain ⟨r1, r2, r3, r4, r5⟩ := H.block g1
    have hm := hmn _ r5
    have hm' : mn ≤ recOf s T1 (tix T.data n j) := hm
    have hlt : j - bst0 T.data n (tix T.data n j) < blen T.data n (tix T.data n j) := by unfold blen; omega
    unfold ptrOf
    refine ⟨by omega, by omega, by omega, ?_⟩
    have := r1.2.2 (j - bst0 T.data n (tix T.data n j)) (by rw [HashTable.substr_length]; exact hlt)
    rw [HashTable.substr_length, HashTable.substr_getD _ _ _ _ hlt] at this
    rw [this]
    congr 1; omega
  have hX : ∀ j, j ≤ n → ct.bwpBase + ((ptrOf T.data n s T1 j - mn + 1 : Nat) : Int) = ptrOf T.data n s T1 j := by
    intro j hj
    have := hptr j hj
    rw [hbase]; omega
  refine ⟨fun j => ptrOf T.data n s T1 j - mn + 1, ?_, hX, fun j hj => ?_⟩
  swap
  · have := hptr j hj
    simp only; omega
  have hstep : ∀ j, 1 ≤ j → j ≤ n → ¬ isLMS T.data n (j - 1) → ptrOf T.data n s T1 j = ptrOf T.data n s T1 (j - 1) + 1 := by
    intro j j1 j2 hl
    have ht : tix T.data n j = tix T.data n (j - 1) := by
      have := tix_step_no hl
      rwa [show j - 1 + 1 = j by omega] at this
    have := (seg (T := T.data) (n := n) (j := j - 1) (by omega)).2.1
    unfold ptrOf
    rw [ht]; omega
  have hlms : ∀ j, isLMS T.data n j → ∃ r, r + 2 + nb (blen T.data n (tix T.data n j + 1)) + 1 = ptrOf T.data n s T1 (j + 1) ∧
      r + 2 + nb (blen T.data n (tix T.data n j + 1)) + 2 ≤ s.data (ct.numUnique + 1) ∧ mn ≤ r ∧
      ht.buf.data (r + 1 + nb (blen T.data n (tix T.data n j + 1))) = T.data j + 1 ∧
      ht.buf.data (r + 2 + nb (blen T.data n (tix T.data n j + 1))) = T.data j := by
    intro j hj
    have hb := tix_lt hj
    obtain ⟨r1, r2, r3, r4, r5⟩ := H.block (b := tix T.data n j + 1) (by omega)
    have hst : bst0 T.data n (tix T.data n j + 1) = j := by
      unfold bst0
      rw [if_neg (by omega), Nat.add_sub_cancel, lpos_tix hj]
    have hbl : 2 ≤ blen T.data n (tix T.data n j + 1) := by
      unfold blen
      rw [hst, ← blen_nx hb, lpos_tix hj]
      have := (nx_spec hj).1
      omega
    refine ⟨recOf s T1 (tix T.data n j + 1), ?_, ?_, hmn _ r5, ?_, ?_⟩
    · unfold ptrOf; rw [tix_step hj, hst]; omega
    · have := r3 (by omega); omega
    · have := r1.2.1
      rw [HashTable.substr_length, HashTable.substr_getD _ _ _ _ (by omega), hst] at this
      simp only [Nat.add_zero] at this
      rw [this]
      apply Nat.mod_eq_of_lt
      have h1 := ((isLMS_iff hj.2.1).1 hj).2.1
      have h2 := H.inp.byte (j - 1) (by have := hj.2.1; omega)
      omega
    · have := r1.2.2 0 (by rw [HashTable.substr_length]; omega)
      rw [HashTable.substr_length, HashTable.substr_getD _ _ _ _ (by omega), hst] at this
      rw [Nat.add_zero] at this
      rw [this, Nat.add_zero]
  have h0 : ptrOf T.data n s T1 0 = s.data (ct.numUnique + 1) + 2 + nb (ct.headEnd + 1) := by
    have ht : tix T.data n 0 = 0 := cnt_false (fun q _ h => by omega)
    have hb := (H.block (b := 0) (by omega)).2.2.2.1 rfl
    unfold ptrOf
    rw [ht, hb]
    have : blen T.data n 0 = ct.headEnd + 1 := by unfold blen bst0; simp [H.headEnd]
    rw [this]; omega
  have hlast := H.sorted.lastptr
  have hend := H.sorted.hend
  unfold HashTable.bodyLen at hend
  rw [HashTable.substr_length] at hend
  refine ⟨by omega, by omega, fun j hj => H.inp.byte j (by omega), w1, w2, ?_, ?_, ?_, ?_, ?_, ?_, ?_, ?_, ?_, ?_⟩
  · intro j hj
    have := hptr j hj
    omega
  · intro j _ _; omega
  · intro j hj
    have hjn : j ≤ n := by have := hj.2.1; omega
    have := hptr j hjn
    rw [rdPtr_ok (hX j hjn) this.2.2.1, this.2.2.2]
  · intro j j1 j2
    have hx := hX j j2
    simp only
    by_cases hl : isLMS T.data n (j - 1)
    · obtain ⟨r, g1, g2, g3, g4, g5⟩ := hlms _ hl
      rw [show j - 1 + 1 = j by omega] at g1
      rw [rdPtr_ok (k := r + 2 + nb (blen T.data n (tix T.data n (j - 1) + 1))) (by omega) (by omega), g5]
    · have h1 := hstep j j1 j2 hl
      have h2 := hptr (j - 1) (by omega)
      rw [rdPtr_ok (k := ptrOf T.data n s T1 (j - 1)) (by omega) h2.2.2.1, h2.2.2.2]
  · intro j j1 j2 hl
    have h1 := hstep j j1 j2 hl
    have h2 := hptr (j - 1) (by omega)
    omega
  · have := hX 0 (by omega)
    simp only
    rw [this, hlast, h0]
  · intro j j1 j2
    have hx := hX j j2
    simp only
    rw [hx, hlast]
    intro hc
    have hc' : ptrOf T.data n s T1 j = s.data (ct.numUnique + 1) + 2 + nb (ct.headEnd + 1) := by omega
    obtain ⟨g1, g2, g3, g4⟩ := seg (T := T.data) j2
    by_cases hb : 1 ≤ tix T.data n j
    · obtain ⟨r1, r2, r3, r4, r5⟩ := H.block g1
      have := r3 hb
      have hlt : j - bst0 T.data n (tix T.data n j) < blen T.data n (tix T.data n j) := by unfold blen; omega
      unfold ptrOf at hc'
      omega
    · have hb0 : tix T.data n j = 0 := by omega
      have hr := (H.block (b := 0) (by omega)).2.2.2.1 rfl
      have hbl : blen T.data n 0 = ct.headEnd + 1 := by unfold blen bst0; simp [H.headEnd]
      have hbs : bst0 T.data n 0 = 0 := rfl
      unfold ptrOf at hc'
      rw [hb0, hr, hbl, hbs] at hc'
      omega
  · have hb := (H.block (b := 0) (by omega)).2.2.2.1 rfl
    obtain ⟨r1, _⟩ := H.block (b := 0) (by omega)
    have hbl : blen T.data n 0 = ct.headEnd + 1 := by unfold blen bst0; simp [H.headEnd]
    have := r1.2.1
    rw [HashTable.substr_length, HashTable.substr_getD _ _ _ _ (by omega), hbl, hb] at this
    simp only
    rw [hlast, rdPtr_ok (k := s.data (ct.numUnique + 1) + 1 + nb (ct.headEnd + 1)) (by omega) (by omega), this]
    rfl
  · intro j hj
    obtain ⟨r, g1, g2, g3, g4, g5⟩ := hlms _ hj
    have hx := hX (j + 1) (by have := hj.2.1; omega)
    simp only
    rw [rdPtr_ok (k := r + 1 + nb (blen T.data n (tix T.data n j + 1))) (by omega) (by omega), g4]
  · intro j hj
    obtain ⟨r, g1, g2, g3, g4, g5⟩ := hlms _ hj
    have hx := hX (j + 1) (by have := hj.2.1; omega)
    simp only
    rw [hlast]; omega

theorem Ready.counts (H : Ready T n ct ht s str R T1) : Counts T.data n ct.M ct.NL ct.C := by
  refine ⟨by have := H.inp.nlt; omega, H.cM.sz, H.cNL.sz, H.cC.sz, H.cM.zero, H.cNL.zero, fun c hc => ?_, fun c hc => ?_⟩
  · rw [H.cM.val c hc]; exact cnt_congr (fun q _ => by simp)
  · rw [H.cNL.val c hc]; rfl

theorem Ready.naming (H : Ready T n ct ht s str R T1) (hT : ∀ i, i < n → T.data n ≤ T.data i) :
    Naming T.data n (fun a => R (lpos T.data n a)) := by
  constructor
  · intro a b ha hb h
    have h1 := H.name _ (lpos_spec ha).1
    have h2 := H.name _ (lpos_spec hb).1
    exact wstr_eq (lpos_spec ha).1 (lpos_spec hb).1 (by rw [← h1.2.2, ← h2.2.2, h])
  · intro a b ha hb h
    have h1 := H.name _ (lpos_spec ha).1
    have h2 := H.name _ (lpos_spec hb).1
    refine wstr_lt hT (lpos_spec ha).1 (lpos_spec hb).1 ?_
    rw [← h1.2.2, ← h2.2.2]
    exact H.sorted.lt _ _ h1.1 h h2.2.1

end

/-- appending the smallest character to both strings -/
theorem lt_of_append_zero : ∀ (u v : List Nat), (∀ x ∈ u, 1 ≤ x) → (∀ x ∈ v, 1 ≤ x) → u ++ [0] < v ++ [0] → u < v
  | [], [], _, _, h => absurd h (List.lt_irrefl _)
  | [], _ :: _, _, _, _ => List.Lex.nil
  | x :: u, [], hu, _, h => by
    have := hu x List.mem_cons_self
    rw [List.cons_append, List.nil_append, List.cons_lt_cons_iff] at h
    rcases h with h | h <;> omega
  | x :: u, y :: v, hu, hv, h => by
    rw [List.cons_append, List.cons_append, List.cons_lt_cons_iff] at h
    rw [List.cons_lt_cons_iff]
    rcases h with h | ⟨h1, h2⟩
    · exact Or.inl h
    · exact Or.inr ⟨h1, lt_of_append_zero u v (fun x hx => hu x (List.mem_cons_of_mem _ hx))
        (fun x hx => hv x (List.mem_cons_of_mem _ hx)) h2⟩

section
variable {T : Mem Nat} {n : Nat} {ct : Container} {ht : HashTable} {s : Mem Nat} {str : Nat → List Nat} {R : Nat → Nat}
    {T1 : PackedArray}

/-- the string that is suffix sorted -/
noncomputable def shortText (T : Nat → Nat) (n : Nat) (R : Nat → Nat) : List Nat :=
  ((List.range (lmsN T n)).map fun a => R (lpos T n a)) ++ [0]

theorem shortText_length {T : Nat → Nat} {n : Nat} {R : Nat → Nat} : (shortText T n R).length = lmsN T n + 1 := by
  simp [shortText]

theorem Ready.holds (H : Ready T n ct ht s str R T1) (sj : BitVec 64) : HoldsText sj T1 (shortText T.data n R) := by
  intro i hi
  rw [shortText_length] at hi
  refine ⟨T1.cell (i + 1), PackedArray.getValue_eq H.short.wf sj (by rw [H.short.len]; omega), ?_⟩
  by_cases h : i < lmsN T.data n
  · rw [(H.cellS h).1]
    simp [shortText, List.getElem_append, h]
  · have : i = lmsN T.data n := by omega
    subst this
    rw [H.short.fin]
    simp [shortText, List.getElem_append]

theorem Ready.drop_lt (H : Ready T n ct ht s str R T1) (hT : ∀ i, i < n → T.data n ≤ T.data i) {a b : Nat} (ha : a ≤ lmsN T.data n) (hb : b ≤ lmsN T.data n)
    (h : (shortText T.data n R).drop a < (shortText T.data n R).drop b) :
    rho T.data n (lpos T.data n a) < rho T.data n (lpos T.data n b) := by
  unfold shortText at h
  rw [List.drop_append_of_le_length (by simpa using ha), List.drop_append_of_le_length (by simpa using hb), sfx_eq_drop,
    sfx_eq_drop] at h
  have hpos : ∀ p, ∀ x ∈ sfx (fun a => R (lpos T.data n a)) (lmsN T.data n) p, 1 ≤ x := by
    intro p x hx
    unfold sfx at hx
    obtain ⟨q, hq, rfl⟩ := List.mem_map.1 hx
    rw [List.mem_range'_1] at hq
    exact (H.name _ (lpos_spec (by omega)).1).1
  exact (rho_lt_iff lpos_le).2 ((H.naming hT).sfx_lt ha hb (lt_of_append_zero _ _ (hpos a) (hpos b) h))

theorem incEntries_spec {S : Type} [LawfulSaStore S] (cnt : Nat) (sa : S) (hsz : cnt ≤ size sa)
    (h0 : ∀ i, i < cnt → 0 ≤ get sa i) (h1 : ∀ i, i < cnt → get sa i + 1 < (2 : Int) ^ (width S - 1)) :
    Tot (incEntries cnt sa) (fun sa' => size sa' = size sa ∧ ∀ i, i < cnt → get sa' i = get sa i + 1) := by
  unfold incEntries
  have hpw : (0 : Int) < (2 : Int) ^ (width S - 1) := by positivity
  have := loopUp_spec (fun k (sa' : S) => size sa' = size sa ∧ (∀ i, i < k → get sa' i = get sa i + 1) ∧
    ∀ i, k ≤ i → get sa' i = get sa i) 0 cnt sa
    (fun i sa => if i < size sa then putC sa i (get sa i + 1) else .error (.ub .outOfBounds))
    ⟨rfl, by intro i hi; omega, fun _ _ => rfl⟩ (by
      rintro k sa' _ k2 ⟨a1, a2, a3⟩
      have g0 := h0 k (by omega)
      have g1 := h1 k (by omega)
      have hk := a3 k (Nat.le_refl _)
      rw [if_pos (by omega)]
      unfold putC
      rw [if_pos ⟨by omega, by omega⟩, Tot_ok]
      refine ⟨by rw [size_put]; exact a1, ?_, ?_⟩
      · intro i hi
        rw [get_put _ _ _ _ (by omega) (by omega)]
        by_cases h : i = k
        · subst h; rw [if_pos rfl, hk]
        · rw [if_neg h]; exact a2 i (by omega)
      · intro i hi
        rw [get_put _ _ _ _ (by omega) (by omega), if_neg (by omega)]
        exact a3 i (by omega))
  refine this.mono ?_
  rintro sa' ⟨a1, a2, _⟩
  exact ⟨a1, fun i hi => a2 i (by omega)⟩

theorem Ready.toPointers_spec (H : Ready T n ct ht s str R T1) {S : Type} [LawfulSaStore S] (sj : BitVec 64) (sa : S)
    (a : Nat → Nat) (hsz : lmsN T.data n + 1 ≤ size sa)
    (ha : ∀ i, i < lmsN T.data n + 1 → get sa i = (a i : Int) + 1 ∧ a i ≤ lmsN T.data n) {X : Nat → Nat}
    (hX : ∀ j, j ≤ n → ct.bwpBase + X j = ptrOf T.data n s T1 j) (hXm : ∀ j, j ≤ n → (X j : Int) < (2 : Int) ^ (width S - 1)) :
    Tot (toPointers sj ht.buf ct.bwpBase s T1 (lmsN T.data n + 1) sa) (fun sa' => size sa' = size sa ∧
      ∀ i, i < lmsN T.data n + 1 → get sa' i = X (lpos T.data n (a i))) := by
  unfold toPointers
  have hpw : (0 : Int) < (2 : Int) ^ (width S - 1) := by positivity
  have hlt := H.num_lt
  have hfsz := H.sorted.fsz
  have := loopUp_spec (fun k (sa' : S) => size sa' = size sa ∧ (∀ i, i < k → get sa' i = X (lpos T.data n (a i))) ∧
    ∀ i, k ≤ i → get sa' i = get sa i) 0 (lmsN T.data n + 1) sa
    (fun i sa =>
      if i < size sa then
        if 1 ≤ get sa i then do
          let v ← T1.getValue sj (get sa i - 1).toNat
          let q ← s.rd v.toNat
          let l ← HashTable.getLength ht.buf q
          let fc ← HashTable.getFirstCharacterPointer ht.buf q
          putC sa i ((fc : Int) + l - 1 - ct.bwpBase)
        else .error (.ub .outOfBounds)
      else .error (.ub .outOfBounds))
    ⟨rfl, by intro i hi; omega, fun _ _ => rfl⟩ (by
      rintro k sa' _ k2 ⟨a1, a2, a3⟩
      rw [if_pos (by omega)]
      obtain ⟨g1, g2⟩ := ha k (by omega)
      have hk := a3 k (Nat.le_refl _)
      rw [hk, g1, if_pos (by omega), show ((a k : Int) + 1 - 1).toNat = a k by omega,
        PackedArray.getValue_eq H.short.wf sj (by rw [H.short.len]; omega), ok_bind]
      obtain ⟨r1, r2, r3, r4, r5⟩ := H.block g2
      have hln := H.inp.nlt
      have hbl1 : 1 ≤ blen T.data n (a k) := by unfold blen; omega
      have hbl2 : blen T.data n (a k) < 2 ^ 64 := by
        have := lpos_le (T := T.data) (n := n) (a := a k)
        have : (2 : Nat) ^ 52 < 2 ^ 64 - 1 := by norm_num
        unfold blen; omega
      rw [Mem.rd_ok _ (by rw [H.sorted.ssz]; omega), ok_bind]
      have hgl := r1.getLength (by rw [HashTable.substr_length]; exact hbl1) (by rw [HashTable.substr_length]; exact hbl2)
        (by unfold HashTable.bodyLen; rw [HashTable.substr_length]; omega)
      rw [HashTable.substr_length] at hgl
      have hfc : HashTable.getFirstCharacterPointer ht.buf (recOf s T1 (a k)) = .ok (recOf s T1 (a k) + 1 + nb (blen T.data n (a k)) + 1) := by
        unfold HashTable.getFirstCharacterPointer
        rw [Mem.rd_ok _ (by omega), ok_bind, r1.1.1, HashTable.substr_length]
      unfold recOf at hgl hfc
      rw [hgl, ok_bind, hfc, ok_bind]
      have hval : (((s.data (T1.cell (a k)).toNat + 1 + nb (blen T.data n (a k)) + 1 : Nat) : Int) + (blen T.data n (a k) : Nat) - 1 -
          ct.bwpBase) = X (lpos T.data n (a k)) := by
        have := hX (lpos T.data n (a k)) lpos_le
        have hb := bst0_le g2
        unfold ptrOf at this
        rw [tix_lpos g2] at this
        unfold recOf at this
        have hbl : blen T.data n (a k) = lpos T.data n (a k) - bst0 T.data n (a k) + 1 := rfl
        omega
      rw [hval]
      have hm := hXm (lpos T.data n (a k)) lpos_le
      unfold putC
      rw [if_pos ⟨by omega, hm⟩, Tot_ok]
      refine ⟨by rw [size_put]; exact a1, ?_, ?_⟩
      · intro i hi
        rw [get_put _ _ _ _ (by omega) hm]
        by_cases h : i = k
        · subst h; rw [if_pos rfl]
        · rw [if_neg h]; exact a2 i (by omega)
      · intro i hi
        rw [get_put _ _ _ _ (by omega) hm, if_neg (by omega)]
        exact a3 i (by omega))
  refine this.mono ?_
  rintro sa' ⟨a1, a2, _⟩
  exact ⟨a1, fun i hi => a2 i (by omega)⟩

/-- A branch of `bwt_is` up to the inducing step (src/flbwt.cpp:162-181): sorted pointers to the S* positions -/
def prep (S : Type) [SaStore S] (w : World) (s : Mem Nat) (T1 : PackedArray) (ht : HashTable) (ct : Container) : M S := do
  let sa : S := fresh (ct.numSubs + 2) w.aj
  let st ← sais w.cj 64 { txt := .packed T1.arr, cs := T1.bits, sj := w.sj } 0 (ct.numSubs + 1) (ct.numUnique + 2)
    (⟨sa, fresh 0 (fun _ => 0)⟩ : St S)
  let sa ← incEntries (ct.numSubs + 1) st.sa
  toPointers w.sj ht.buf ct.bwpBase s T1 (ct.numSubs + 1) sa

theorem branch_eq_prep (S : Type) [SaStore S] (w : World) (s : Mem Nat) (T1 : PackedArray) (ht : HashTable) (ct : Container) :
    branch S w s T1 ht ct = prep S w s T1 ht ct >>= fun sa => induceBwt w.qj w.bj w.sj (ct.n + 2) ht.buf sa ct := by
  simp only [branch, prep, bind_assoc]

theorem Ready.prep_spec (H : Ready T n ct ht s str R T1) (hT : ∀ i, i < n → T.data n ≤ T.data i) (S : Type) [LawfulSaStore S] (w : World)
    (hcs : T1.bits ≠ width S) (hnum : lmsN T.data n + 2 < 2 ^ (width S - 1)) (hmax : ct.saMax < 2 ^ (width S - 1)) :
    Tot (prep S w s T1 ht ct) (fun sa => ∃ X σ,
      Layout T.data n ⟨ht.buf, ct.bwpBase, ct.lastptr, ct.M, ct.C, w.sj⟩ ct.bwpWidth X ∧
      SaSorted T.data n X sa ct.numSubs σ) := by
  have hlt := H.num_lt
  have hu := H.ule
  unfold prep
  rw [H.num]
  have h64 : (2 : Nat) ^ 52 < 2 ^ 64 - 1 := by norm_num
  have hs := saisCall_tot w.cj w.sj T1 (fresh (lmsN T.data n + 2) w.aj : S) 0 (ct.numUnique + 2) 64 (shortText T.data n R) hcs
    (H.holds w.sj) (by unfold shortText; simp) (by rw [shortText_length]; omega) (by omega) (by
      intro c hc
      unfold shortText at hc
      rcases List.mem_append.1 hc with hc | hc
      · obtain ⟨x, hx, rfl⟩ := List.mem_map.1 hc
        have := (H.name _ (lpos_spec (List.mem_range.1 hx)).1).2.1
        omega
      · simp at hc; omega) (by rw [shortText_length, size_fresh]; omega) (by rw [shortText_length]; omega)
  rw [shortText_length] at hs
  unfold saisCall at hs
  refine Tot.bind hs ?_
  rintro st ⟨a1, a2, a3, a4⟩
  rw [size_fresh] at a1
  -- the entries
  obtain ⟨a, hav⟩ : ∃ a : Nat → Nat, a = fun i => (get st.sa i).toNat := ⟨_, rfl⟩
  have hsal : saList st (lmsN T.data n + 1) = (List.range (lmsN T.data n + 1)).map a := by rw [hav]; rfl
  rw [hsal] at a4
  obtain ⟨hperm, hpw⟩ := a4
  rw [shortText_length] at hperm
  have hget : ∀ i, i < lmsN T.data n + 1 → get st.sa i = (a i : Int) ∧ a i ≤ lmsN T.data n := by
    intro i hi
    have h0 := a3 i hi
    refine ⟨by rw [hav]; simp only; omega, ?_⟩
    have : a i ∈ (List.range (lmsN T.data n + 1)).map a := List.mem_map.2 ⟨i, List.mem_range.2 hi, rfl⟩
    have := hperm.mem_iff.1 this
    rw [List.mem_range] at this
    omega
  have hpn : (((2 ^ (width S - 1) : Nat)) : Int) = (2 : Int) ^ (width S - 1) := by push_cast; rfl
  refine Tot.bind (incEntries_spec (lmsN T.data n + 1) st.sa (by omega) (fun i hi => by rw [(hget i hi).1]; omega)
    (fun i hi => by
      have := hget i hi
      rw [this.1, ← hpn]
      omega)) ?_
  rintro sa2 ⟨b1, b2⟩
  obtain ⟨X, Y, hX, hXm⟩ := H.layout w.sj
  refine (H.toPointers_spec w.sj sa2 a (by omega) (fun i hi => ⟨by rw [b2 i hi, (hget i hi).1], (hget i hi).2⟩) hX
    (fun j hj => by
      have := hXm j hj
      rw [← hpn]; omega)).mono ?_
  rintro sa3 ⟨c1, c2⟩
  -- order
  have hmono : ∀ i j, i < j → j ≤ lmsN T.data n → rho T.data n (lpos T.data n (a i)) < rho T.data n (lpos T.data n (a j)) := by
    intro i j hij hj
    have := List.pairwise_iff_getElem.1 hpw i j (by simp; omega) (by simp; omega) hij
    simp only [List.getElem_map, List.getElem_range] at this
    exact H.drop_lt hT (hget i (by omega)).2 (hget j (by omega)).2 this
  have hsurj : ∀ b, b ≤ lmsN T.data n → ∃ i, i ≤ lmsN T.data n ∧ a i = b := by
    intro b hb
    have : b ∈ (List.range (lmsN T.data n + 1)).map a := hperm.mem_iff.2 (List.mem_range.2 (by omega))
    obtain ⟨i, hi, rfl⟩ := List.mem_map.1 this
    rw [List.mem_range] at hi
    exact ⟨i, by omega, rfl⟩
  have hzero : a 0 = lmsN T.data n := by
    obtain ⟨i, hi, hai⟩ := hsurj (lmsN T.data n) (Nat.le_refl _)
    by_contra hc
    have h0 : i ≠ 0 := by rintro rfl; exact hc hai
    have := hmono 0 i (by omega) hi
    rw [hai, lpos_end (Nat.le_refl _), rho_n] at this
    omega
  have hsort : SaSorted T.data n X sa3 ct.numSubs (fun i => lpos T.data n (a i)) := by
    rw [H.num]
    refine ⟨by omega, fun i hi => c2 i (by omega), ?_, ?_, hmono, ?_⟩
    · rw [hzero, lpos_end (Nat.le_refl _)]
    · intro i i1 i2
      have h1 := hmono 0 i (by omega) i2
      have h2 := (hget i (by omega)).2
      have : a i ≠ lmsN T.data n := by
        intro hc
        rw [hc, hzero] at h1; omega
      exact (lpos_spec (by omega)).1
    · intro p hp
      obtain ⟨i, hi, hai⟩ := hsurj (tix T.data n p) (by have := tix_lt hp; omega)
      refine ⟨i, ?_, hi, by rw [hai, lpos_tix hp]⟩
      by_contra hc
      have : i = 0 := by omega
      subst this
      have := tix_lt hp; omega
  exact ⟨X, _, Y, H.num ▸ hsort⟩

theorem Ready.branch_spec (H : Ready T n ct ht s str R T1) (hT : ∀ i, i < n → T.data n ≤ T.data i) (S : Type) [LawfulSaStore S] (w : World)
    (hcs : T1.bits ≠ width S) (hnum : lmsN T.data n + 2 < 2 ^ (width S - 1)) (hmax : ct.saMax < 2 ^ (width S - 1)) :
    Tot (branch S w s T1 ht ct) (BwtRows T.data n (fun i => w.bj i % 256)) := by
  rw [branch_eq_prep, H.nn]
  refine Tot.bind (H.prep_spec hT S w hcs hnum hmax) ?_
  rintro sa3 ⟨X, σ, Y, hsort⟩
  exact induceBwt_spec w.qj w.bj w.sj (n + 2) ht.buf sa3 ct (Nat.le_refl _) H.nn Y H.counts hsort H.sM2 H.sM3 H.sC2

theorem map_some_tot {α : Type} {x : M α} {P : α → Prop} (h : Tot x P) : Tot (some <$> x) (fun o => ∃ r, o = some r ∧ P r) := by
  obtain ⟨a, e, ha⟩ := Tot_iff.1 h
  rw [e]
  show Tot (Except.ok (some a)) _
  rw [Tot_ok]
  exact ⟨a, rfl, ha⟩

theorem Ready.finish_spec (H : Ready T n ct ht s str R T1) (hT : ∀ i, i < n → T.data n ≤ T.data i) (w : World) :
    Tot (finish w s T1 ct) (fun o => ∃ r, o = some r ∧ BwtRows T.data n (fun i => w.bj i % 256) r) := by
  obtain ⟨mn, hbase, hmn, _, hmax⟩ := H.sorted.base
  have hsm := H.sorted.small
  have hlt := H.num_lt
  have hu := H.ule
  have hp : (2 : Nat) ^ 52 < 2 ^ 62 := by norm_num
  have hp' : (2 : Nat) ^ 62 + 4 < 2 ^ 63 := by norm_num
  have hp'' : (2 : Nat) ^ 63 < 2 ^ 64 := by norm_num
  unfold finish
  rw [H.sorted.htab]
  simp only
  rw [H.num]
  obtain ⟨mv, hmv⟩ : ∃ x, x = if ct.saMax < lmsN T.data n + 2 then lmsN T.data n + 2 else ct.saMax := ⟨_, rfl⟩
  rw [← hmv]
  have h1 : ct.saMax ≤ mv ∧ lmsN T.data n + 2 ≤ mv ∧ mv < 2 ^ 63 := by
    rw [hmv]; split <;> omega
  obtain ⟨bits, eb, b1, b2, b3, b4⟩ := Tot_iff.1 (positionOfMsb_spec mv (by omega) (by omega))
  rw [eb, ok_bind]
  have hb63 : bits ≤ 63 := by
    by_contra hc
    have : (2 : Nat) ^ 63 ≤ 2 ^ (bits - 1) := Nat.pow_le_pow_right (by norm_num) (by omega)
    omega
  have hT1 : T1.bits ≤ bits := by
    by_contra hc
    have : (2 : Nat) ^ bits ≤ 2 ^ (T1.bits - 1) := Nat.pow_le_pow_right (by norm_num) (by omega)
    have := H.short.bits.2
    omega
  have key : ∀ (S : Type) [LawfulSaStore S], bits < width S →
      Tot (some <$> branch S w s T1 ht ct) (fun o => ∃ r, o = some r ∧ BwtRows T.data n (fun i => w.bj i % 256) r) := by
    intro S _ hw
    have : (2 : Nat) ^ bits ≤ 2 ^ (width S - 1) := Nat.pow_le_pow_right (by norm_num) (by omega)
    exact map_some_tot (H.branch_spec hT S w (by omega) (by omega) (by omega))
  split
  · exact key S32 (by assumption)
  · split
    · exact key S40 (by assumption)
    · split
      · exact key S48 (by assumption)
      · split
        · exact key S56 (by assumption)
        · split
          · exact key S64 (by assumption)
          · omega

end

/-- The three stages before the suffix array. -/
theorem stages_spec {junk : Fresh} {sorter : Sorter} {T : Mem Nat} {n : Nat} (I : Input T n) (hL : LenOK junk T.data n)
    (hS : SortsOK sorter) (pj : Nat → Nat) (tj : Nat → BitVec 64) (sj : BitVec 64) : ∃ ct0 ht0 s ct ht str R T1,
      extractLMS junk T n = .ok ct0 ∧ Extracted T.data n ct0 ht0 ∧ sortLMS sorter pj junk T ct0 = .ok (s, ct) ∧
      createShortened tj sj T n ct = .ok T1 ∧ Ready T n ct ht s str R T1 ∧ ct.numUnique = ct0.numUnique := by
  obtain ⟨ct, e1, ht0, E⟩ := Tot_iff.1 (extractLMS_spec I hL.lms)
  obtain ⟨⟨s, ct'⟩, e2, ht, str, H⟩ := Tot_iff.1 (sortLMS_spec I hL hS pj E)
  simp only at H
  obtain ⟨own, ents, E', t, hset, hu, _⟩ := E.hok.tab
  have hul : ct.numUnique ≤ lmsN T.data n := by
    rw [hu]
    exact uniq_le t (fun x => by rw [hset x]; simp)
  obtain ⟨R, hR⟩ := H.names
  obtain ⟨T1, e3, hT1⟩ := Tot_iff.1 (createShortened_spec I H E.num hul hR tj sj)
  obtain ⟨k1, k2, k3, k4, k5, k6, k7, k8, k9, k10⟩ := H.same
  refine ⟨ct, ht0, s, ct', ht, str, R, T1, e1, E, e2, e3, ?_, k9⟩
  have hs : SortedOK T n ct' ct' ht s str := by
    refine ⟨H.htab, ⟨rfl, rfl, rfl, rfl, rfl, rfl, rfl, rfl, rfl, rfl⟩, ?_, H.bsz, H.cap, (fun h0 e => by rw [H.htab] at e; cases e; exact le_of_eq H.cap.2.symm), ?_, ?_, ?_, ?_, ?_, ?_, H.fin, H.fsz, ?_, ?_, H.small, H.tab⟩
    all_goals try rw [k9]
    all_goals try rw [k10]
    · exact H.ssz
    · exact H.rec'
    · exact H.lt
    · exact H.mem
    · exact H.find
    · exact H.head
    · exact H.hend
    · exact H.lastptr
    · exact H.base
  exact ⟨I, by rw [k1]; exact E.nn, by rw [k2]; exact E.M, by rw [k3]; exact E.NL, by rw [k4]; exact E.C, by rw [k5]; exact E.M2,
    by rw [k6]; exact E.M3, by rw [k7]; exact E.C2, by rw [k8]; exact E.num, by rw [k10]; exact E.headEnd, by rw [k9]; exact hul,
    hs, by rw [k9]; exact hR, by rw [k9]; exact hT1⟩

/-- All stages together. -/
theorem bwtIs_spec (w : World) {T : Mem Nat} {n : Nat} (I : Input T n) (hT : ∀ i, i < n → T.data n ≤ T.data i) (hL : LenOK w.junk T.data n) (hS : SortsOK w.sorter)
    (freeT : Bool) : Tot (bwtIs w T n freeT) (fun r => (∃ b, r.1 = some b ∧ BwtRows T.data n (fun i => w.bj i % 256) b) ∧ r.2 = release freeT T) := by
  obtain ⟨ct0, ht0, s, ct, ht, str, R, T1, e1, _, e2, e3, rdy, _⟩ := stages_spec I hL hS w.pj w.tj w.sj
  unfold bwtIs
  rw [e1, ok_bind, e2, ok_bind, e3, ok_bind]
  refine Tot.bind (rdy.finish_spec hT w) ?_
  rintro o ⟨r, rfl, hr⟩
  rw [Tot_ok]
  exact ⟨⟨r, rfl, hr⟩, rfl⟩

end Flbwt
