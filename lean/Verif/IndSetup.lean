import Verif.IndPass1b

/-!
# Set-up of inducing (proof)
-/

namespace Flbwt

variable {T : Nat → Nat} {n z : Nat}

/-- The suffix array handed to `induce_bwt_XXbit`: entry 0 is the pointer of the terminator, entries `1..num` are the
pointers of the S* positions in suffix order. -/
structure SaSorted {S : Type} [SaStore S] (T : Nat → Nat) (n : Nat) (X : Nat → Nat) (sa : S) (num : Nat) (σ : Nat → Nat) :
    Prop where
  size : num + 1 ≤ SaStore.size sa
  get : ∀ i, i ≤ num → SaStore.get sa i = X (σ i)
  zero : σ 0 = n
  lms : ∀ i, 1 ≤ i → i ≤ num → isLMS T n (σ i)
  mono : ∀ i j, i < j → j ≤ num → rho T n (σ i) < rho T n (σ j)
  all : ∀ p, isLMS T n p → ∃ i, 1 ≤ i ∧ i ≤ num ∧ σ i = p

/-- contents of the S* queues during seeding -/
def ASeed (T : Nat → Nat) (σ : Nat → Nat) (num i k j : Nat) : Prop :=
  ∃ i', i ≤ i' ∧ i' ≤ num ∧ σ i' = j ∧ k = if i' = 0 then 0 else T j + 1

section
variable {e : IndEnv} {w : Nat} {X : Nat → Nat} (Y : Layout T n e w X)
include Y

theorem seed_spec {S : Type} [SaStore S] {sa : S} {num : Nat} {σ : Nat → Nat} (hσ : SaSorted T n X sa num σ) {s : IndSt}
    (hq : RowHas w (s.q TYPE_LMS) X (up T n) (fun _ _ => False)) :
    Tot (seed e sa num s) (fun s' => SameBut TYPE_LMS s s' ∧
      RowHas w (s'.q TYPE_LMS) X (up T n) (fun k j => (j = n ∧ k = 0) ∨ (isLMS T n j ∧ T j + 1 = k))) := by
  unfold seed
  have hle : ∀ i, i ≤ num → σ i ≤ n := by
    intro i hi
    by_cases h0 : i = 0
    · subst h0; rw [hσ.zero]
    · have := (hσ.lms i (by omega) hi).2.1; omega
  refine (loopDown_spec (fun i s' => SameBut TYPE_LMS s s' ∧ RowHas w (s'.q TYPE_LMS) X (up T n) (ASeed T σ num i)) _ s _
    ⟨⟨rfl, rfl, rfl, rfl, rfl, fun _ _ => rfl⟩, hq.congr (fun k j => ?_)⟩ ?_).mono ?_
  · constructor
    · exact False.elim
    · rintro ⟨i', h1, h2, -⟩; omega
  · rintro i s1 hi ⟨h1, h2⟩
    rw [if_pos (by have := hσ.size; omega)]
    have hsc : seedChar e i (SaStore.get sa i + e.base) = .ok (if i = 0 then 0 else T (σ i) + 1) := by
      unfold seedChar
      split
      · rfl
      · rename_i h0
        have := Y.cur (σ i) (hσ.lms i (by omega) (by omega))
        rw [hσ.get i (by omega), Int.add_comm, this]; rfl
    simp only [hsc, Tot_bind, Tot_ok]
    have hcb : (if i = 0 then 0 else T (σ i) + 1) < 258 := by
      split
      · omega
      · have := Y.byte (σ i) (hσ.lms i (by omega) (by omega)).2.1; omega
    refine (enqL_row h2 e.sj (n := n) (x := σ i) hcb Y.w63 (by have := Y.nlt; omega) ?_ (Y.lt _ (hle i (by omega))) ?_
      (by rw [hσ.get i (by omega)]; omega)).mono ?_
    · rintro j ⟨i', g1, g2, rfl, -⟩; exact hle i' g2
    · rintro j ⟨i', g1, g2, rfl, -⟩
      have := hσ.mono i i' (by omega) g2
      unfold up; omega
    · rintro s2 ⟨g1, g2⟩
      refine ⟨⟨by rw [g1.M2, h1.M2], by rw [g1.M3, h1.M3], by rw [g1.C2, h1.C2], by rw [g1.bwt, h1.bwt],
        by rw [g1.last, h1.last], fun t ht => by rw [g1.q t ht, h1.q t ht]⟩, g2.congr (fun k j => ?_)⟩
      constructor
      · rintro (⟨i', g3, g4, g5, g6⟩ | ⟨rfl, rfl⟩)
        · exact ⟨i', by omega, g4, g5, g6⟩
        · exact ⟨i, by omega, by omega, rfl, rfl⟩
      · rintro ⟨i', g3, g4, g5, g6⟩
        rcases Nat.lt_or_eq_of_le g3 with g7 | g7
        · exact Or.inl ⟨i', g7, g4, g5, g6⟩
        · subst g7; subst g5; exact Or.inr ⟨g6, rfl⟩
  · rintro s1 ⟨h1, h2⟩
    refine ⟨h1, h2.congr (fun k j => ?_)⟩
    constructor
    · rintro ⟨i', g1, g2, rfl, g4⟩
      by_cases h0 : i' = 0
      · subst h0; exact Or.inl ⟨hσ.zero, by simpa using g4⟩
      · rw [if_neg h0] at g4
        exact Or.inr ⟨hσ.lms i' (by omega) g2, g4.symm⟩
    · rintro (⟨rfl, rfl⟩ | ⟨g1, rfl⟩)
      · exact ⟨0, by omega, by omega, hσ.zero, by simp⟩
      · obtain ⟨i, g2, g3, rfl⟩ := hσ.all j g1
        exact ⟨i, by omega, g3, rfl, by rw [if_neg (by omega)]⟩

end

/-- start of bucket `k` (bucket 0 is the terminator) -/
noncomputable def bkt (T : Nat → Nat) (n : Nat) : Nat → Nat
  | 0 => 0
  | c + 1 => 1 + bst T n c

theorem bkt_le (T : Nat → Nat) (n k : Nat) : bkt T n k ≤ n + 1 := by
  cases k with
  | zero => simp [bkt]
  | succ c => have := bst_le (T := T) (n := n) c; rw [bkt]; omega

theorem bkt_succ {e : IndEnv} {NL : Mem Nat} (K : Counts T n e.M NL e.C) {i : Nat} (hi : i < 257) :
    bkt T n (i + 1) = bkt T n i + e.M.data i := by
  cases i with
  | zero =>
    have : bst T n 0 = 0 := cnt_false (fun q _ h => by omega)
    simp [bkt, this, K.M0]
  | succ c =>
    rw [bkt, bkt, bst_succ, K.M c (by omega)]; omega

theorem bucketStarts_spec {e : IndEnv} {NL : Mem Nat} (K : Counts T n e.M NL e.C) {s : IndSt} (h2 : s.M2.size = 258)
    (h3 : s.M3.size = 258) :
    Tot (bucketStarts e s) (fun s' => s'.q = s.q ∧ s'.C2 = s.C2 ∧ s'.bwt = s.bwt ∧ s'.last = s.last ∧
      s'.M2.size = 258 ∧ s'.M3.size = 258 ∧ ∀ k, k < 258 → s'.M2.data k = bkt T n k ∧ s'.M3.data k = bkt T n k) := by
  unfold bucketStarts
  refine Tot.bind (loopUp_spec (fun i (st : IndSt × Nat) => st.1.q = s.q ∧ st.1.C2 = s.C2 ∧ st.1.bwt = s.bwt ∧
    st.1.last = s.last ∧ st.1.M2.size = 258 ∧ st.1.M3.size = 258 ∧
    (∀ k, k < i → st.1.M2.data k = bkt T n k ∧ st.1.M3.data k = bkt T n k) ∧ (i < 258 → st.2 = bkt T n i)) 0 258 (s, 0) _
    ⟨rfl, rfl, rfl, rfl, h2, h3, by omega, fun _ => rfl⟩ ?_) ?_
  · rintro i ⟨s1, cc⟩ - hi ⟨g1, g2, g3, g4, g5, g6, g7, g8⟩
    simp only at g1 g2 g3 g4 g5 g6 g7 g8 ⊢
    have g8 := g8 (by omega)
    subst g8
    simp only [Tot_bind, Mem.Tot_wr, Mem.Tot_rd, Tot_ok]
    refine ⟨by omega, by omega, by rw [K.Ms]; omega, g1, g2, g3, g4, by simpa using g5, by simpa using g6, ?_, ?_⟩
    · intro k hk
      by_cases hki : k = i
      · subst hki; simp
      · rw [Mem.upd_data_ne _ _ hki, Mem.upd_data_ne _ _ hki]; exact g7 k (by omega)
    · intro hi'
      have := bkt_succ K (i := i) (by omega)
      have := bkt_le T n (i + 1)
      have := K.small
      rw [addU64_eq (by omega)]
      exact (bkt_succ K (by omega)).symm
  · rintro ⟨s1, cc⟩ ⟨g1, g2, g3, g4, g5, g6, g7, -⟩
    rw [Tot_ok]
    exact ⟨g1, g2, g3, g4, g5, g6, fun k hk => g7 k (by omega)⟩

theorem stackStarts_spec {e : IndEnv} {NL : Mem Nat} (K : Counts T n e.M NL e.C) {s : IndSt} (h2 : s.M2.size = 258)
    (h3 : s.C2.size = 258) (hM : ∀ k, k < 258 → s.M2.data k = bkt T n k) :
    Tot (stackStarts NL s) (fun s' => s'.q = s.q ∧ s'.M2 = s.M2 ∧ s'.M3 = s.M3 ∧ s'.bwt = s.bwt ∧ s'.last = s.last ∧
      s'.C2.size = 258 ∧ s'.C2.data 0 = 0 ∧ ∀ c, c < 257 → s'.C2.data (c + 1) = sbeg T n c) := by
  unfold stackStarts
  refine (loopUp_spec (fun i (s' : IndSt) => s'.q = s.q ∧ s'.M2 = s.M2 ∧ s'.M3 = s.M3 ∧ s'.bwt = s.bwt ∧ s'.last = s.last ∧
      s'.C2.size = 258 ∧ ∀ k, k < i → s'.C2.data k = bkt T n k + NL.data k) 0 258 s _
    ⟨rfl, rfl, rfl, rfl, rfl, h3, by omega⟩ ?_).mono ?_
  · rintro i s1 - hi ⟨g1, g2, g3, g4, g5, g6, g7⟩
    simp only [Tot_bind, Mem.Tot_wr, Mem.Tot_rd, Tot_ok]
    refine ⟨by rw [g2]; omega, by rw [K.NLs]; omega, by omega, g1, g2, g3, g4, g5, by simpa using g6, ?_⟩
    intro k hk
    by_cases hki : k = i
    · subst hki
      have h1 := bkt_le T n k
      have h2 : NL.data k ≤ n := by
        cases k with
        | zero => rw [K.NL0]; omega
        | succ c => rw [K.NL c (by omega)]; exact cnt_le _ _
      have h3 := K.small
      rw [Mem.upd_data_self, g2, hM k (by omega), addU64_eq (by omega)]
    · rw [Mem.upd_data_ne _ _ hki]; exact g7 k (by omega)
  · rintro s1 ⟨g1, g2, g3, g4, g5, g6, g7⟩
    refine ⟨g1, g2, g3, g4, g5, g6, ?_, fun c hc => ?_⟩
    · rw [g7 0 (by omega), K.NL0]; rfl
    · rw [g7 (c + 1) (by omega), K.NL c hc]; rfl

section
variable {e : IndEnv} {w : Nat} {X : Nat → Nat} (Y : Layout T n e w X)
include Y

theorem firstRow_spec {s : IndSt}
    (qL : RowHas w (s.q TYPE_L) X (up T n) (fun _ _ => False))
    (qM : RowHas w (s.q TYPE_LMS) X (up T n) (fun k j => (j = n ∧ k = 0) ∨ (isLMS T n j ∧ T j + 1 = k)))
    (qS : RowHas w (s.q TYPE_S) X (dn T n) (fun _ _ => False))
    (M2s : s.M2.size = 258) (M3s : s.M3.size = 258) (C2s : s.C2.size = 258) (bs : s.bwt.size = n + 1)
    (M23 : ∀ k, k < 258 → s.M2.data k = bkt T n k ∧ s.M3.data k = bkt T n k) (C20 : s.C2.data 0 = 0)
    (C2 : ∀ c, c < 257 → s.C2.data (c + 1) = sbeg T n c) (hz : s.bwt.data (rho T n 0) = z) :
    Tot (firstRow e s) (IInv1 T n w X z 1) := by
  have hn2 := Y.n2
  have hL : isS T n (n - 1) = false := isS_last (by omega)
  have hrj := rho_L_succ (show n - 1 < n by omega) hL
  rw [show n - 1 + 1 = n by omega, rho_n] at hrj
  unfold firstRow
  have hQ : ((s.q TYPE_LMS).data 0).isEmpty ≠ true := by
    intro h
    exact (qM.has 0 (by omega)).isEmpty.1 h n (Or.inl ⟨rfl, rfl⟩)
  refine Tot.bind (deq_row qM e.sj (c := 0) (by omega) Y.w63 hQ) ?_
  rintro ⟨v, s1⟩ ⟨x, g1, g2, g3, g4, g5⟩
  simp only at g2 g4 g5 ⊢
  have hx : x = n := by
    rcases g1 with g1 | g1
    · exact g1.1
    · have := g1.2; omega
  subst hx
  subst g2
  rw [Y.prev x (by omega) (Nat.le_refl _)]
  simp only [Tot_bind, Tot_ok, Mem.Tot_wr]
  refine ⟨by rw [g4.bwt]; omega, ?_⟩
  have hr0 : rho T x x = 0 := rho_n
  refine (induceL_spec Y (x := x) (by omega) (Nat.le_refl _) hL ?_ ?_ ?_ ?_).mono ?_
  · simp only
    rw [g4.q _ (by decide)]
    refine qL.congr (fun k j => ?_)
    constructor
    · exact False.elim
    · rintro ⟨-, -, -, h, -⟩; rw [hr0] at h; omega
  · simp only [g4.M2]; exact M2s
  · intro c hc
    simp only [g4.M2]
    rw [(M23 (c + 1) (by omega)).1, bkt, cnt_false (fun i _ h => by rw [hr0] at h; omega)]
    rfl
  · simp only [g4.bwt]; exact bs
  · intro s2 h2
    have hb1 := h2.bwt
    simp only [g4.bwt] at hb1
    have hC : s2.C2 = s.C2 := by rw [h2.C2, g4.C2]
    simp only [IndSt.push, Tot_bind, Mem.Tot_rd, Mem.Tot_wr, Tot_ok, hC, C20]
    have hbs : s2.bwt.size = x + 1 := by rw [hb1]; exact bs
    refine ⟨by omega, by omega, by omega, ?_⟩
    have hM3 : s2.M3 = s.M3 := by rw [h2.M3, g4.M3]
    suffices hh : IInv1 T x w X z (rho T x x + 1) _ by rw [hr0] at hh; exact hh
    refine ⟨h2.qL, ?_, ?_, h2.M2s, h2.M2, by simp only [hM3]; exact M3s, ?_, C2s, ?_, hbs, ?_, ?_, ?_, ?_, ?_⟩
    · rw [h2.qo _ (by decide)]
      refine g5.congr (fun k j => ?_)
      rw [hr0]
      constructor
      · rintro ⟨h | h, h'⟩
        · exact absurd ⟨h.2, h.1⟩ h'
        · exact ⟨h.1, h.2, by have := rho_pos (T := T) h.1.2.1; omega⟩
      · rintro ⟨h, h', -⟩
        exact ⟨Or.inr ⟨h, h'⟩, fun hh => by omega⟩
    · rw [h2.qo _ (by decide)]
      simp only
      rw [g4.q _ (by decide)]
      refine qS.congr (fun k j => ?_)
      constructor
      · exact False.elim
      · rintro ⟨h, -, -, h', -⟩
        rw [hr0] at h'
        have := rho_pos (T := T) h; omega
    · intro c hc
      simp only [hM3]
      exact (M23 (c + 1) (by omega)).2
    · intro c hc
      simp only [Mem.upd_data_ne _ _ (show c + 1 ≠ 0 by omega)]
      rw [C2 c hc, cnt_false (fun i hi h => by
        have := rho_pos (T := T) hi
        rw [hr0] at h; omega)]
      rfl
    · simp
    · intro j j1 j2 j4
      have hp := rho_pos (T := T) j1
      simp only [Mem.upd_data_ne _ _ (show rho T x j ≠ 0 by omega)]
      rcases (rho_lt_succ (Nat.le_refl _) (by omega)).1 j4 with h | h
      · rw [hr0] at h; omega
      · have : j = x - 1 := by omega
        subst this
        rw [hb1, Mem.upd_data_self]
    · intro j j1 j2
      have := rho_pos (T := T) j1.2.1
      rw [hr0] at j2; omega
    · intro j1 j2
      have hp := rho_pos (T := T) (show 0 < x by omega)
      simp only [Mem.upd_data_ne _ _ (show rho T x 0 ≠ 0 by omega)]
      rw [hb1, Mem.upd_data_ne _ _ (fun hh => ?_)]
      · rw [Mem.upd_data_ne _ _ (by omega), hz]
      · have := rho_inj (by omega) (by omega) hh
        rw [← this, j1] at hL; cases hL
    · intro j1 j2
      have := rho_pos (T := T) (show 0 < x by omega)
      rw [hr0] at j2; omega

end

end Flbwt
