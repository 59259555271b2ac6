import Verif.GenPass2
import Verif.IndMain

/-!
# `induce_bwt_XXbit` on an arbitrary order of the S* positions (proof)
-/

namespace Flbwt.Gen

variable {T : Nat → Nat} {n z : Nat} {r v : Nat → Nat}

theorem RowsS.chain2 (R : RowsS T n r) {a b : Nat} (hb : b ≤ 1 + bst T n (a + 1)) : ∀ (d y : Nat), n - r y = d → y < n →
    sbeg T n a ≤ r y → r y < b → ∃ z, A2 T n r b b (a + 1) z ∧ r y ≤ r z := by
  intro d
  induction d using Nat.strongRecOn with
  | ind d ih =>
    intro y hr hy h1 h2
    obtain ⟨h3, h4⟩ := R.zoneM hy h1 (by omega)
    have h5 := R.succ hy h4
    have h6 := R.le (show y + 1 ≤ n by omega)
    rcases Nat.lt_or_ge (r (y + 1)) b with h7 | h7
    · obtain ⟨z, h8, h9⟩ := ih _ (by omega) (y + 1) rfl (isS_lt_n hy h4) (by omega) h7
      exact ⟨z, h8, by omega⟩
    · exact ⟨y, ⟨hy, h4, by omega, h7, h2⟩, Nat.le_refl _⟩

section
variable {e : IndEnv} {w : Nat} {X : Nat → Nat} (R : RowsS T n r) (Y : Layout T n e w X)
  (hv : ∀ j, isS T n j = true → ¬ isLMS T n j → 1 ≤ j → v j = T (j - 1))
include R Y hv

theorem drain2L_tight {s : IndSt} {a fuel : Nat} (ha : a < 257) (hf : 2 + bst T n (a + 1) - sbeg T n a ≤ fuel)
    (h : IInv2 T n r v w X z (1 + bst T n (a + 1)) s) :
    Tot (whileM fuel s (step2 e (a + 1) TYPE_L)) (IInv2 T n r v w X z (sbeg T n a)) := by
  have hz1 := sbeg_gt (T := T) (n := n) a
  have hz2 := sbeg_le (T := T) (n := n) a
  have hz3 := bst_le (T := T) (n := n) (a + 1)
  have hn2 := Y.n2
  refine whileM_ghost (fun k (s : IndSt) => ∃ b, IInv2 T n r v w X z b s ∧ sbeg T n a ≤ b ∧ b ≤ 1 + bst T n (a + 1) ∧
    k = b - sbeg T n a) _ fuel (1 + bst T n (a + 1) - sbeg T n a) _ _ ⟨_, h, by omega, by omega, rfl⟩ (by omega) ?_
  rintro k s1 ⟨b, h1, h2, h3, h5⟩
  unfold step2
  rw [Mem.rd_ok _ (by rw [h1.qL.size]; omega)]
  simp only [Tot_bind, Tot_ok]
  by_cases hQ : ((s1.q TYPE_L).data (a + 1)).isEmpty = true
  · rw [if_pos hQ, Tot_ok]
    refine h1.lower (by omega) (fun y hy => ?_)
    constructor
    · intro g
      by_contra hc
      obtain ⟨z, hz, -⟩ := R.chain2 h3 _ y rfl hy.1 (by omega) g
      exact (h1.qL.has (a + 1) (by omega)).isEmpty.1 hQ z hz
    · intro g; omega
  · rw [if_neg hQ]
    simp only [Tot_bind]
    obtain ⟨x, hx1, hx2⟩ := (h1.qL.has (a + 1) (by omega)).min hQ
    have hxn := hx1.1
    have hxS := hx1.2.1
    have hxT : T x = a := by have := hx1.2.2.1; omega
    have hxb := hx1.2.2.2.2
    have hxz := R.S_zone hxn hxS
    rw [hxT] at hxz
    have hno : ∀ y, y < n → r y < b → r y ≤ r x := by
      intro y hy g
      by_contra hc
      obtain ⟨z, hz, hz'⟩ := R.chain2 h3 _ y rfl hy (by omega) g
      have hzx : z ≠ x := by rintro rfl; omega
      have := hx2 z hz hzx
      unfold dn at this; omega
    have h' : IInv2 T n r v w X z (r x + 1) s1 := h1.lower (by omega) (fun y hy => by
      constructor
      · intro g; have := hno y hy.1 g; omega
      · intro g; omega)
    refine (deq_row h'.qL e.sj (c := a + 1) (by omega) Y.w63 hQ).mono ?_
    rintro ⟨u, s2⟩ ⟨x', g1, g2, g3, g4, g5⟩
    simp only at g2 g4 g5 ⊢
    have hxx : x' = x := by
      by_contra hc
      have hBx : A2 T n r (r x + 1) (r x + 1) (a + 1) x :=
        ⟨hxn, hxS, by omega, by have := R.succ hxn hxS; omega, by omega⟩
      have i1 := g3 x hBx (fun h => hc h.symm)
      have i2 := g1.2.2.2.2
      unfold dn at i1; omega
    subst hxx
    have hqL : RowHas w (s2.q TYPE_L) (fun j => X (j + 1) - 1) (dn r) (A2 T n r (r x' + 1) (r x')) := by
      refine g5.congr (fun k j => ?_)
      constructor
      · rintro ⟨⟨i1, i2, i3, i4, i5⟩, i6⟩
        refine ⟨i1, i2, i3, i4, ?_⟩
        rcases (R.lt_succ (by omega) (by omega)).1 i5 with i7 | i7
        · exact i7
        · subst i7; exact absurd ⟨by omega, rfl⟩ i6
      · rintro ⟨i1, i2, i3, i4, i5⟩
        exact ⟨⟨i1, i2, i3, i4, by omega⟩, by rintro ⟨-, rfl⟩; omega⟩
    have hqS : RowHas w (s2.q TYPE_S) X (dn r) (AS T n r (r x')) := by
      rw [g4.q _ (by decide)]
      refine h'.qS.congr (fun k j => ?_)
      constructor
      · rintro ⟨i1, i2, i3, i4, i5⟩
        refine ⟨i1, i2, i3, ?_, i5⟩
        rcases (R.lt_succ (by omega) (by omega)).1 i4 with i7 | i7
        · exact i7
        · subst i7; rw [hxS] at i2; cases i2
      · rintro ⟨i1, i2, i3, i4, i5⟩; exact ⟨i1, i2, i3, by omega, i5⟩
    have hfin : Tot (visit2 e (a + 1) (e.base + u) s2) (IInv2 T n r v w X z (r x')) := by
      rw [g2, ← hxT]
      by_cases hst : x' = 0 ∨ isLMS T n x'
      · exact visit2_stop R Y hxn hxS hst h' g4 hqL hqS
      · have hx1' : 1 ≤ x' := by
          by_contra hc
          exact hst (Or.inl (by omega))
        have hnl : ¬ isLMS T n x' := fun h => hst (Or.inr h)
        have hpS : isS T n (x' - 1) = true := by
          by_contra hc
          exact hnl ⟨by omega, hxn, hxS, by simpa using hc⟩
        have hX := Y.step (x' + 1) (by omega) (by omega) (by simpa using hnl)
        simp only [Nat.add_sub_cancel] at hX
        rw [show X (x' + 1) - 1 = X x' by omega]
        exact visit2_S R Y hv hx1' hxn hpS h' g4 hqL hqS
    refine hfin.mono (fun s3 i3 => ?_)
    exact ⟨r x' - sbeg T n a, by omega, r x', i3, by omega, by omega, rfl⟩

theorem drain2S_tight {s : IndSt} {a fuel : Nat} (ha : a < 257) (hf : sbeg T n a - bst T n a ≤ fuel) (h : IInv2 T n r v w X z (sbeg T n a) s) :
    Tot (whileM fuel s (step2 e (a + 1) TYPE_S)) (IInv2 T n r v w X z (1 + bst T n a)) := by
  have hz1 := sbeg_gt (T := T) (n := n) a
  have hz2 := sbeg_le (T := T) (n := n) a
  have hz3 := bst_le (T := T) (n := n) (a + 1)
  have hn2 := Y.n2
  refine whileM_ghost (fun k (s : IndSt) => ∃ b, IInv2 T n r v w X z b s ∧ 1 + bst T n a ≤ b ∧ b ≤ sbeg T n a ∧
    k = b - (1 + bst T n a)) _ fuel (sbeg T n a - (1 + bst T n a)) _ _ ⟨_, h, by omega, by omega, rfl⟩ (by omega) ?_
  rintro k s1 ⟨b, h1, h2, h3, h5⟩
  have hin : ∀ y, D2 T n y → bst T n a < r y → r y < b → AS T n r b (a + 1) y := by
    rintro y ⟨hyn, hy⟩ i1 i2
    obtain ⟨i3, i4⟩ := R.zoneL hyn i1 (by omega)
    rcases hy with hy | hy
    · rw [i4] at hy; cases hy
    · exact ⟨hyn, i4, by omega, i2, hy⟩
  unfold step2
  rw [Mem.rd_ok _ (by rw [h1.qS.size]; omega)]
  simp only [Tot_bind, Tot_ok]
  by_cases hQ : ((s1.q TYPE_S).data (a + 1)).isEmpty = true
  · rw [if_pos hQ, Tot_ok]
    refine h1.lower (by omega) (fun y hy => ?_)
    constructor
    · intro g
      by_contra hc
      exact (h1.qS.has (a + 1) (by omega)).isEmpty.1 hQ y (hin y hy (by omega) g)
    · intro g; omega
  · rw [if_neg hQ]
    simp only [Tot_bind]
    obtain ⟨x, hx1, hx2⟩ := (h1.qS.has (a + 1) (by omega)).min hQ
    have hxn := hx1.1
    have hxL := hx1.2.1
    have hxT : T x = a := by have := hx1.2.2.1; omega
    have hxb := hx1.2.2.2.1
    have hx1' := hx1.2.2.2.2.1
    have hpS := hx1.2.2.2.2.2
    have hxz := R.L_zone hxn hxL
    rw [hxT] at hxz
    have h' : IInv2 T n r v w X z (r x + 1) s1 := h1.lower (by omega) (fun y hy => by
      constructor
      · intro g
        by_contra hc
        have hz := hin y hy (by omega) g
        have hyx : y ≠ x := by rintro rfl; omega
        have := hx2 y hz hyx
        unfold dn at this; omega
      · intro g; omega)
    refine (deq_row h'.qS e.sj (c := a + 1) (by omega) Y.w63 hQ).mono ?_
    rintro ⟨u, s2⟩ ⟨x', g1, g2, g3, g4, g5⟩
    simp only at g2 g4 g5 ⊢
    have hxx : x' = x := by
      by_contra hc
      have hBx : AS T n r (r x + 1) (a + 1) x := ⟨hxn, hxL, by omega, by omega, hx1', hpS⟩
      have i1 := g3 x hBx (fun h => hc h.symm)
      have i2 := g1.2.2.2.1
      unfold dn at i1; omega
    subst hxx
    have hqS : RowHas w (s2.q TYPE_S) X (dn r) (AS T n r (r x')) := by
      refine g5.congr (fun k j => ?_)
      constructor
      · rintro ⟨⟨i1, i2, i3, i4, i5⟩, i6⟩
        refine ⟨i1, i2, i3, ?_, i5⟩
        rcases (R.lt_succ (by omega) (by omega)).1 i4 with i7 | i7
        · exact i7
        · subst i7; exact absurd ⟨by omega, rfl⟩ i6
      · rintro ⟨i1, i2, i3, i4, i5⟩
        exact ⟨⟨i1, i2, i3, by omega, i5⟩, by rintro ⟨-, rfl⟩; omega⟩
    have hqL : RowHas w (s2.q TYPE_L) (fun j => X (j + 1) - 1) (dn r) (A2 T n r (r x' + 1) (r x')) := by
      rw [g4.q _ (by decide)]
      refine h'.qL.congr (fun k j => ?_)
      constructor
      · rintro ⟨i1, i2, i3, i4, i5⟩
        refine ⟨i1, i2, i3, i4, ?_⟩
        rcases (R.lt_succ (by omega) (by omega)).1 i5 with i7 | i7
        · exact i7
        · subst i7; rw [hxL] at i2; cases i2
      · rintro ⟨i1, i2, i3, i4, i5⟩; exact ⟨i1, i2, i3, i4, by omega⟩
    have hfin : Tot (visit2 e (a + 1) (e.base + u) s2) (IInv2 T n r v w X z (r x')) := by
      rw [g2, ← hxT]
      exact visit2_S R Y hv hx1' hxn hpS h' g4 hqL hqS
    refine hfin.mono (fun s3 i3 => ?_)
    exact ⟨r x' - (1 + bst T n a), by omega, r x', i3, by omega, by omega, rfl⟩

theorem drain2L_spec {s : IndSt} {a fuel : Nat} (ha : a < 257) (hf : n + 2 ≤ fuel)
    (h : IInv2 T n r v w X z (1 + bst T n (a + 1)) s) :
    Tot (whileM fuel s (step2 e (a + 1) TYPE_L)) (IInv2 T n r v w X z (sbeg T n a)) := by
  have hz3 := bst_le (T := T) (n := n) (a + 1)
  exact drain2L_tight R Y hv ha (by omega) h

theorem drain2S_spec {s : IndSt} {a fuel : Nat} (ha : a < 257) (hf : n + 2 ≤ fuel) (h : IInv2 T n r v w X z (sbeg T n a) s) :
    Tot (whileM fuel s (step2 e (a + 1) TYPE_S)) (IInv2 T n r v w X z (1 + bst T n a)) := by
  have hz2 := sbeg_le (T := T) (n := n) a
  have hz3 := bst_le (T := T) (n := n) (a + 1)
  exact drain2S_tight R Y hv ha (by omega) h

/-- The second pass. -/
theorem pass2_spec {s : IndSt} {fuel : Nat} (hf : n + 2 ≤ fuel) (h : IInv2 T n r v w X z (n + 1) s) :
    Tot (pass2 e fuel s) (IInv2 T n r v w X z 0) := by
  unfold pass2
  have hn2 := Y.n2
  have h257 : bst T n 257 = n := cnt_true (fun q hq => by have := Y.byte q hq; omega)
  refine loopDown_spec (fun i s => IInv2 T n r v w X z (bkt T n i) s) 258 s _ ?_ ?_
  · show IInv2 T n r v w X z (1 + bst T n 257) s
    rw [h257, Nat.add_comm]; exact h
  · intro i s1 hi h1
    cases i with
    | zero =>
      have h2 : IInv2 T n r v w X z 0 s1 := h1.lower (by omega) (fun y hy => by
        have hb : bst T n 0 = 0 := cnt_false (fun q _ h => by omega)
        have := R.pos hy.1
        simp only [bkt, hb]; omega)
      rw [whileM_exit Y (by omega) h2.qL.size ((h2.qL.has 0 (by omega)).isEmpty.2 (fun j hj => by
        have := hj.2.2.1; omega))]
      simp only [Tot_bind, Tot_ok]
      rw [whileM_exit Y (by omega) h2.qS.size ((h2.qS.has 0 (by omega)).isEmpty.2 (fun j hj => by
        have := hj.2.2.1; omega)), Tot_ok]
      exact h2
    | succ a =>
      refine Tot.bind (drain2L_spec R Y hv (by omega) hf h1) (fun s2 h2 => ?_)
      exact drain2S_spec R Y hv (by omega) hf h2

end


/-- every rank below the size of a set is the rank of an element -/
theorem exists_rank {P : Nat → Prop} {r : Nat → Nat} (hinj : ∀ i j, i < n → j < n → P i → P j → r i = r j → i = j) {k : Nat} :
    ∀ t, k < cnt n (fun i => P i ∧ r i < t) → ∃ j, j < n ∧ P j ∧ cnt n (fun i => P i ∧ r i < r j) = k := by
  intro t
  induction t with
  | zero =>
    intro h
    rw [cnt_false (fun i _ h => by omega)] at h; omega
  | succ t ih =>
    intro h
    by_cases hj : ∃ j, j < n ∧ P j ∧ r j = t
    · obtain ⟨j, h1, h2, h3⟩ := hj
      have e : cnt n (fun i => P i ∧ r i < t + 1) = cnt n (fun i => P i ∧ r i < r j) + 1 := by
        refine cnt_insert h1 (fun i hi => ?_) (by simp)
        constructor
        · rintro ⟨g1, g2⟩
          rcases Nat.lt_or_ge (r i) (r j) with g3 | g3
          · exact Or.inl ⟨g1, g3⟩
          · exact Or.inr (hinj i j hi h1 g1 h2 (by omega))
        · rintro (⟨g1, g2⟩ | rfl)
          · exact ⟨g1, by omega⟩
          · exact ⟨h2, by omega⟩
      by_cases hk : cnt n (fun i => P i ∧ r i < r j) = k
      · exact ⟨j, h1, h2, hk⟩
      · rw [h3] at e hk
        exact ih (by omega)
    · refine ih ?_
      rwa [cnt_congr (Q := fun i => P i ∧ r i < t) (fun i hi => ?_)] at h
      constructor
      · rintro ⟨g1, g2⟩
        have : r i ≠ t := fun g => hj ⟨i, hi, g1, g⟩
        exact ⟨g1, by omega⟩
      · rintro ⟨g1, g2⟩; exact ⟨g1, by omega⟩

/-- The cell that keeps a character for one order keeps a character for the other order. -/
theorem exists_stk {r1 r2 : Nat → Nat} (R1 : Rows T n r1) {j : Nat} (hj : isLMS T n j) :
    ∃ j', isLMS T n j' ∧ T j' = T j ∧ stk T n r1 j' = stk T n r2 j := by
  have hlt : cnt n (fun i => isLMS T n i ∧ T i = T j ∧ r2 i < r2 j) <
      cnt n (fun i => (isLMS T n i ∧ T i = T j) ∧ r1 i < n + 1) :=
    cnt_lt (fun i hi h => ⟨⟨h.1, h.2.1⟩, by have := R1.le (show i ≤ n by omega); omega⟩) hj.2.1
      ⟨⟨hj, rfl⟩, by have := R1.le (show j ≤ n from Nat.le_of_lt hj.2.1); omega⟩ (by simp)
  obtain ⟨j', h1, h2, h3⟩ := exists_rank (fun a b ha hb _ _ h => R1.inj (by omega) (by omega) h) _ hlt
  refine ⟨j', h2.1, h2.2, ?_⟩
  unfold stk
  rw [h2.2, ← h3]
  congr 1
  exact cnt_congr (fun i _ => ⟨fun h => ⟨⟨h.1, h.2.1⟩, h.2.2⟩, fun h => ⟨h.1.1, h.1.2, h.2⟩⟩)

/-- the state before the second pass -/
theorem pass2_start {r1 r2 : Nat → Nat} (R1 : RowsL T n r1) (R2 : Rows T n r2)
    (hL : ∀ j, j < n → isS T n j = false → r1 j = r2 j) {v : Nat → Nat}
    (hv : ∀ j, isLMS T n j → ∃ j', isLMS T n j' ∧ stk T n r1 j' = stk T n r2 j ∧ v j = T (j' - 1))
    {w : Nat} {X : Nat → Nat} {s5 s5' s5'' s6 : IndSt} {row : Mem Queue} (hn2 : 2 ≤ n) (d5 : IInv1 T n r1 w X z (n + 1) s5)
    (f5 : SameBut TYPE_LMS s5 s5') (f5' : SameBut TYPE_L s5' s5'')
    (hnew : RowHas w row (fun j => X (j + 1) - 1) (dn r2) (fun _ _ => False))
    (e1 : s6.q = fun t => if t = TYPE_L then row else s5''.q t) (e3 : s6.C2 = s5.C2)
    (e4 : s6.bwt = s5.bwt) (e5 : s6.last = s5.last) (e6 : s6.M2.size = 258)
    (e7 : ∀ c, c < 257 → s6.M2.data (c + 1) = bst T n (c + 1)) : IInv2 T n r2 v w X (s5.bwt.data (r2 0)) (n + 1) s6 := by
  have hle1 : ∀ j, j ≤ n → r1 j < n + 1 := fun j hj => by have := R1.le hj; omega
  have hle : ∀ j, j ≤ n → r2 j < n + 1 := fun j hj => by have := R2.le hj; omega
  have hA : ∀ k j, AS T n r1 (n + 1) k j ↔ AS T n r2 (n + 1) k j := by
    intro k j
    constructor
    · rintro ⟨h1, h2, h3, _, h5⟩; exact ⟨h1, h2, h3, hle j (by omega), h5⟩
    · rintro ⟨h1, h2, h3, _, h5⟩; exact ⟨h1, h2, h3, hle1 j (by omega), h5⟩
  refine ⟨?_, ?_, e6, ?_, by rw [e3]; exact d5.C2s, ?_, by rw [e4]; exact d5.bs, by rw [e4]; exact d5.b0, ?_, ?_, ?_, by rw [e4], ?_⟩
  · rw [e1]
    simp only [if_true]
    exact hnew.congr (fun k j => ⟨False.elim, fun h => by have := hle (j + 1) h.1; have := h.2.2.2.1; omega⟩)
  · rw [e1]
    simp only [show ¬ (TYPE_S = TYPE_L) by decide, if_false]
    rw [f5'.q _ (by decide), f5.q _ (by decide)]
    refine RowHas.congr ⟨d5.qS.size, fun c hc => (d5.qS.has c hc).map (fun _ _ => rfl) ?_⟩ hA
    rintro i j ⟨h1, h2, -⟩ ⟨h3, h4, -⟩ h5
    unfold dn at h5 ⊢
    rwa [← hL i h1 h2, ← hL j h3 h4]
  · intro c hc
    rw [e7 c hc, cnt_false (fun i hi h => by have := hle (i + 1) (by omega); omega)]; rfl
  · intro c hc
    rw [e3, d5.C2 c hc]
    congr 1
    refine cnt_congr (fun i hi => ?_)
    have := hle (i + 1) (by omega)
    have := hle1 i (by omega)
    constructor
    · rintro ⟨i1, i2, -⟩; exact ⟨i1, i2, by omega⟩
    · rintro ⟨i1, i2, -⟩; exact ⟨i1, i2, by omega⟩
  · intro j j1 j2 j3
    rw [e4, ← hL j j1 j2, d5.bL j j1 j2 (hle1 _ (by omega)), prevByte, if_neg (by omega)]
  · intro j j1 j2 j3 j4
    have := hle (j + 1) (by omega); omega
  · intro j j1 j2
    obtain ⟨j', g1, g2, g3⟩ := hv j j1
    rw [e4, ← g2, g3]
    exact d5.bM j' g1 (hle1 _ (by have := g1.2.1; omega))
  · rintro (j1 | j1)
    · rw [e5, ← hL 0 (by omega) j1]; exact d5.last j1 (hle1 0 (by omega))
    · have := hle 1 (by omega); omega

/-- What inducing leaves: every position `j ≥ 1` has its row `r2 j`; that row holds the character before a position
`τ j`, which is `j` unless `j` is an S* position, and otherwise the S* position whose kept character is popped for `j`. -/
def Induced (T : Nat → Nat) (n : Nat) (r1 r2 : Nat → Nat) (b : BwtResult) : Prop :=
  b.bwt.size = n + 1 ∧ b.last = r2 0 ∧ ∃ τ : Nat → Nat, (∀ j, 1 ≤ j → j ≤ n → b.bwt.data (r2 j) = T (τ j - 1)) ∧
    (∀ j, ¬ isLMS T n j → τ j = j) ∧ (∀ j, isLMS T n j → isLMS T n (τ j) ∧ T (τ j) = T j ∧ stk T n r1 (τ j) = stk T n r2 j)

/-- `induce_bwt_XXbit` on an arbitrary order. -/
theorem induceBwt_spec {r1 r2 : Nat → Nat} (R1 : RowsL T n r1) (R2 : RowsS T n r2)
    (hL : ∀ j, j < n → isS T n j = false → r1 j = r2 j) {S : Type} [SaStore S] (qj : Nat → Nat → Nat → Nat → BitVec 64)
    (bj : Nat → Nat) (sj : BitVec 64)
    (fuel : Nat) (buf : Mem Nat) (sa : S) (ct : Container) {X σ : Nat → Nat} (hf : n + 2 ≤ fuel) (hn : ct.n = n)
    (Y : Layout T n ⟨buf, ct.bwpBase, ct.lastptr, ct.M, ct.C, sj⟩ ct.bwpWidth X)
    (K : Counts T n ct.M ct.NL ct.C) (hσ : SaSorted T n r1 X sa ct.numSubs σ)
    (h2 : ct.M2.size = 258) (h3 : ct.M3.size = 258) (h4 : ct.C2.size = 258) :
    Tot (induceBwt qj bj sj fuel buf sa ct) (Induced T n r1 r2) := by
  have hw64 : ct.bwpWidth ≤ 64 := by have := Y.w63; omega
  have hn2 := Y.n2
  have hnew : ∀ (t : Nat) (f : Nat → Nat) (g : Nat → Int),
      RowHas ct.bwpWidth (newQueues ct.bwpWidth (qj t)) f g (fun _ _ => False) :=
    fun t f g => RowHas.new (qj t) Y.w1 hw64 f g _ (fun _ _ h => h)
  -- the characters kept between the passes
  classical
  have hτ : ∃ τ : Nat → Nat, (∀ j, ¬ isLMS T n j → τ j = j) ∧
      ∀ j, isLMS T n j → isLMS T n (τ j) ∧ T (τ j) = T j ∧ stk T n r1 (τ j) = stk T n r2 j := by
    refine ⟨fun j => if h : isLMS T n j then (exists_stk (r2 := r2) R1.toRows h).choose else j, fun j hj => dif_neg hj, fun j hj => ?_⟩
    simp only [dif_pos hj]
    exact (exists_stk (r2 := r2) R1.toRows hj).choose_spec
  obtain ⟨τ, hτ1, hτ2⟩ := hτ
  have hv : ∀ j, isS T n j = true → ¬ isLMS T n j → 1 ≤ j → T (τ j - 1) = T (j - 1) := fun j _ h _ => by rw [hτ1 j h]
  unfold induceBwt
  simp only
  refine Tot.bind (seed_spec R1 Y hσ (hnew TYPE_LMS _ _)) ?_
  rintro s1 ⟨a1, a2⟩
  refine Tot.bind (bucketStarts_spec (e := ⟨buf, ct.bwpBase, ct.lastptr, ct.M, ct.C, sj⟩) K (by rw [a1.M2]; exact h2)
    (by rw [a1.M3]; exact h3)) ?_
  rintro s2 ⟨b1, b2, b3, b4, b5, b6, b7⟩
  refine Tot.bind (stackStarts_spec (e := ⟨buf, ct.bwpBase, ct.lastptr, ct.M, ct.C, sj⟩) K b5
    (by rw [b2, a1.C2]; exact h4) (fun k hk => (b7 k hk).1)) ?_
  rintro s3 ⟨c1, c2, c3, c4, c5, c6, c7, c8⟩
  have hq3 : s3.q = s1.q := by rw [c1, b1]
  have hbwt3 : s3.bwt = ⟨ct.n + 1, fun i => bj i % 256⟩ := by rw [c4, b3, a1.bwt]
  refine Tot.bind (firstRow_spec R1 Y ?_ (by rw [hq3]; exact a2) ?_ (by rw [c2]; exact b5) (by rw [c3]; exact b6) c6
    (by rw [hbwt3, hn]) (by rw [c2, c3]; exact b7) c7 c8 (z := bj (r1 0) % 256) (by rw [hbwt3])) ?_
  · rw [hq3, a1.q _ (by decide)]; exact hnew TYPE_L _ _
  · rw [hq3, a1.q _ (by decide)]; exact hnew TYPE_S _ _
  intro s4 d4
  refine Tot.bind (pass1_spec R1 Y K hf d4) ?_
  intro s5 d5
  refine Tot.bind d5.qM.delete (fun s5' f5 => ?_)
  refine Tot.bind (RowHas.delete (t := TYPE_L) (s := s5') (by rw [f5.q _ (by decide)]; exact d5.qL)) (fun s5'' f5' => ?_)
  refine Tot.bind (bucketEnds_spec (T := T) (n := n) (e := ⟨buf, ct.bwpBase, ct.lastptr, ct.M, ct.C, sj⟩) K
    (by simp only; rw [f5'.M2, f5.M2]; exact d5.M2s)) ?_
  rintro s6 ⟨e1, e2, e3, e4, e5, e6, e7⟩
  simp only at e1 e2 e3 e4 e5 e6 e7
  rw [f5'.C2, f5.C2] at e3
  rw [f5'.bwt, f5.bwt] at e4
  rw [f5'.last, f5.last] at e5
  have hI : IInv2 T n r2 (fun j => T (τ j - 1)) ct.bwpWidth X (s5.bwt.data (r2 0)) (n + 1) s6 :=
    pass2_start R1 R2.toRows hL (fun j hj => ⟨τ j, (hτ2 j hj).1, (hτ2 j hj).2.2, rfl⟩) hn2 d5 f5 f5' (hnew 3 _ _) e1 e3 e4 e5 e6 e7
  refine Tot.bind (pass2_spec R2 Y hv hf hI) ?_
  intro s7 d7
  refine Tot.bind d7.qL.delete (fun s8 f8 => ?_)
  refine Tot.bind (RowHas.delete (t := TYPE_S) (s := s8) (by rw [f8.q _ (by decide)]; exact d7.qS)) (fun s9 f9 => ?_)
  rw [f9.last, f8.last, d7.last (Or.inr (by omega))]
  simp only [Tot_ok]
  rw [f9.bwt, f8.bwt]
  refine ⟨d7.bs, rfl, τ, fun j j1 j2 => ?_, hτ1, hτ2⟩
  · simp only
    by_cases hjn : j = n
    · subst hjn
      rw [R2.rn, hτ1 j (fun h => by have := h.2.1; omega)]; exact d7.b0
    · cases hs : isS T n j
      · rw [hτ1 j (fun h => by rw [h.2.2.1] at hs; cases hs)]
        exact d7.bL j (by omega) hs j1
      · exact d7.bS j (by omega) hs j1 (by omega)
end Flbwt.Gen
