import Verif.IndPass2

/-!
# `induce_bwt_XXbit` computes the Burrows-Wheeler transform (proof)
-/

namespace Flbwt

variable {T : Nat → Nat} {n z : Nat}

theorem chain2 {a b : Nat} (hb : b ≤ 1 + bst T n (a + 1)) : ∀ (r y : Nat), n - rho T n y = r → y < n →
    sbeg T n a ≤ rho T n y → rho T n y < b → ∃ z, A2 T n b b (a + 1) z ∧ rho T n y ≤ rho T n z := by
  intro r
  induction r using Nat.strongRecOn with
  | ind r ih =>
    intro y hr hy h1 h2
    obtain ⟨h3, h4⟩ := zoneM (T := T) hy h1 (by omega)
    have h5 := rho_S_succ hy h4
    have h6 := rho_le (T := T) (show y + 1 ≤ n by omega)
    rcases Nat.lt_or_ge (rho T n (y + 1)) b with h7 | h7
    · obtain ⟨z, h8, h9⟩ := ih _ (by omega) (y + 1) rfl (isS_lt_n hy h4) (by omega) h7
      exact ⟨z, h8, by omega⟩
    · exact ⟨y, ⟨hy, h4, by omega, h7, h2⟩, Nat.le_refl _⟩

section
variable {e : IndEnv} {w : Nat} {X : Nat → Nat} (Y : Layout T n e w X)
include Y

theorem drain2L_tight {s : IndSt} {a fuel : Nat} (ha : a < 257) (hf : 2 + bst T n (a + 1) - sbeg T n a ≤ fuel)
    (h : IInv2 T n w X z (1 + bst T n (a + 1)) s) :
    Tot (whileM fuel s (step2 e (a + 1) TYPE_L)) (IInv2 T n w X z (sbeg T n a)) := by
  have hz1 := sbeg_gt (T := T) (n := n) a
  have hz2 := sbeg_le (T := T) (n := n) a
  have hz3 := bst_le (T := T) (n := n) (a + 1)
  have hn2 := Y.n2
  refine whileM_ghost (fun k (s : IndSt) => ∃ b, IInv2 T n w X z b s ∧ sbeg T n a ≤ b ∧ b ≤ 1 + bst T n (a + 1) ∧
    k = b - sbeg T n a) _ fuel (1 + bst T n (a + 1) - sbeg T n a) _ _ ⟨_, h, by omega, by omega, rfl⟩ (by omega) ?_
  rintro k s1 ⟨b, h1, h2, h3, h5⟩
  unfold step2
  rw [Mem.rd_ok _ (by rw [h1.qL.size]; omega)]
  simp only [Tot_bind, Tot_ok]
  by_cases hQ : ((s1.q TYPE_L).data (a + 1)).isEmpty = true
  · rw [if_pos hQ, Tot_ok]
    refine h1.lower (by omega) (fun y hy => ?_)
    constructor
    · intro g
      by_contra hc
      obtain ⟨z, hz, -⟩ := chain2 h3 _ y rfl hy.1 (by omega) g
      exact (h1.qL.has (a + 1) (by omega)).isEmpty.1 hQ z hz
    · intro g; omega
  · rw [if_neg hQ]
    simp only [Tot_bind]
    obtain ⟨x, hx1, hx2⟩ := (h1.qL.has (a + 1) (by omega)).min hQ
    have hxn := hx1.1
    have hxS := hx1.2.1
    have hxT : T x = a := by have := hx1.2.2.1; omega
    have hxb := hx1.2.2.2.2
    have hxz := rho_S_zone hxn hxS
    rw [hxT] at hxz
    have hno : ∀ y, y < n → rho T n y < b → rho T n y ≤ rho T n x := by
      intro y hy g
      by_contra hc
      obtain ⟨z, hz, hz'⟩ := chain2 h3 _ y rfl hy (by omega) g
      have hzx : z ≠ x := by rintro rfl; omega
      have := hx2 z hz hzx
      unfold dn at this; omega
    have h' : IInv2 T n w X z (rho T n x + 1) s1 := h1.lower (by omega) (fun y hy => by
      constructor
      · intro g; have := hno y hy.1 g; omega
      · intro g; omega)
    refine (deq_row h'.qL e.sj (c := a + 1) (by omega) Y.w63 hQ).mono ?_
    rintro ⟨v, s2⟩ ⟨x', g1, g2, g3, g4, g5⟩
    simp only at g2 g4 g5 ⊢
    have hxx : x' = x := by
      by_contra hc
      have hBx : A2 T n (rho T n x + 1) (rho T n x + 1) (a + 1) x :=
        ⟨hxn, hxS, by omega, by have := rho_S_succ hxn hxS; omega, by omega⟩
      have i1 := g3 x hBx (fun h => hc h.symm)
      have i2 := g1.2.2.2.2
      unfold dn at i1; omega
    subst hxx
    have hqL : RowHas w (s2.q TYPE_L) (fun j => X (j + 1) - 1) (dn T n) (A2 T n (rho T n x' + 1) (rho T n x')) := by
      refine g5.congr (fun k j => ?_)
      constructor
      · rintro ⟨⟨i1, i2, i3, i4, i5⟩, i6⟩
        refine ⟨i1, i2, i3, i4, ?_⟩
        rcases (rho_lt_succ (by omega) (by omega)).1 i5 with i7 | i7
        · exact i7
        · subst i7; exact absurd ⟨by omega, rfl⟩ i6
      · rintro ⟨i1, i2, i3, i4, i5⟩
        exact ⟨⟨i1, i2, i3, i4, by omega⟩, by rintro ⟨-, rfl⟩; omega⟩
    have hqS : RowHas w (s2.q TYPE_S) X (dn T n) (AS T n (rho T n x')) := by
      rw [g4.q _ (by decide)]
      refine h'.qS.congr (fun k j => ?_)
      constructor
      · rintro ⟨i1, i2, i3, i4, i5⟩
        refine ⟨i1, i2, i3, ?_, i5⟩
        rcases (rho_lt_succ (by omega) (by omega)).1 i4 with i7 | i7
        · exact i7
        · subst i7; rw [hxS] at i2; cases i2
      · rintro ⟨i1, i2, i3, i4, i5⟩; exact ⟨i1, i2, i3, by omega, i5⟩
    have hfin : Tot (visit2 e (a + 1) (e.base + v) s2) (IInv2 T n w X z (rho T n x')) := by
      rw [g2, ← hxT]
      by_cases hst : x' = 0 ∨ isLMS T n x'
      · exact visit2_stop Y hxn hxS hst h' g4 hqL hqS
      · have hx1' : 1 ≤ x' := by
          by_contra hc
          exact hst (Or.inl (by omega))
        have hnl : ¬ isLMS T n x' := fun h => hst (Or.inr h)
        have hpS : isS T n (x' - 1) = true := by
          by_contra hc
          exact hnl ⟨by omega, hxn, hxS, by simpa using hc⟩
        have hX := Y.step (x' + 1) (by omega) (by omega) (by simpa using hnl)
        simp only [Nat.add_sub_cancel] at hX
        rw [show X (x' + 1) - 1 = X x' by omega]
        exact visit2_S Y hx1' hxn hpS h' g4 hqL hqS
    refine hfin.mono (fun s3 i3 => ?_)
    exact ⟨rho T n x' - sbeg T n a, by omega, rho T n x', i3, by omega, by omega, rfl⟩

theorem drain2S_tight {s : IndSt} {a fuel : Nat} (ha : a < 257) (hf : sbeg T n a - bst T n a ≤ fuel) (h : IInv2 T n w X z (sbeg T n a) s) :
    Tot (whileM fuel s (step2 e (a + 1) TYPE_S)) (IInv2 T n w X z (1 + bst T n a)) := by
  have hz1 := sbeg_gt (T := T) (n := n) a
  have hz2 := sbeg_le (T := T) (n := n) a
  have hz3 := bst_le (T := T) (n := n) (a + 1)
  have hn2 := Y.n2
  refine whileM_ghost (fun k (s : IndSt) => ∃ b, IInv2 T n w X z b s ∧ 1 + bst T n a ≤ b ∧ b ≤ sbeg T n a ∧
    k = b - (1 + bst T n a)) _ fuel (sbeg T n a - (1 + bst T n a)) _ _ ⟨_, h, by omega, by omega, rfl⟩ (by omega) ?_
  rintro k s1 ⟨b, h1, h2, h3, h5⟩
  have hin : ∀ y, D2 T n y → bst T n a < rho T n y → rho T n y < b → AS T n b (a + 1) y := by
    rintro y ⟨hyn, hy⟩ i1 i2
    obtain ⟨i3, i4⟩ := zoneL (T := T) hyn i1 (by omega)
    rcases hy with hy | hy
    · rw [i4] at hy; cases hy
    · exact ⟨hyn, i4, by omega, i2, hy⟩
  unfold step2
  rw [Mem.rd_ok _ (by rw [h1.qS.size]; omega)]
  simp only [Tot_bind, Tot_ok]
  by_cases hQ : ((s1.q TYPE_S).data (a + 1)).isEmpty = true
  · rw [if_pos hQ, Tot_ok]
    refine h1.lower (by omega) (fun y hy => ?_)
    constructor
    · intro g
      by_contra hc
      exact (h1.qS.has (a + 1) (by omega)).isEmpty.1 hQ y (hin y hy (by omega) g)
    · intro g; omega
  · rw [if_neg hQ]
    simp only [Tot_bind]
    obtain ⟨x, hx1, hx2⟩ := (h1.qS.has (a + 1) (by omega)).min hQ
    have hxn := hx1.1
    have hxL := hx1.2.1
    have hxT : T x = a := by have := hx1.2.2.1; omega
    have hxb := hx1.2.2.2.1
    have hx1' := hx1.2.2.2.2.1
    have hpS := hx1.2.2.2.2.2
    have hxz := rho_L_zone hxn hxL
    rw [hxT] at hxz
    have h' : IInv2 T n w X z (rho T n x + 1) s1 := h1.lower (by omega) (fun y hy => by
      constructor
      · intro g
        by_contra hc
        have hz := hin y hy (by omega) g
        have hyx : y ≠ x := by rintro rfl; omega
        have := hx2 y hz hyx
        unfold dn at this; omega
      · intro g; omega)
    refine (deq_row h'.qS e.sj (c := a + 1) (by omega) Y.w63 hQ).mono ?_
    rintro ⟨v, s2⟩ ⟨x', g1, g2, g3, g4, g5⟩
    simp only at g2 g4 g5 ⊢
    have hxx : x' = x := by
      by_contra hc
      have hBx : AS T n (rho T n x + 1) (a + 1) x := ⟨hxn, hxL, by omega, by omega, hx1', hpS⟩
      have i1 := g3 x hBx (fun h => hc h.symm)
      have i2 := g1.2.2.2.1
      unfold dn at i1; omega
    subst hxx
    have hqS : RowHas w (s2.q TYPE_S) X (dn T n) (AS T n (rho T n x')) := by
      refine g5.congr (fun k j => ?_)
      constructor
      · rintro ⟨⟨i1, i2, i3, i4, i5⟩, i6⟩
        refine ⟨i1, i2, i3, ?_, i5⟩
        rcases (rho_lt_succ (by omega) (by omega)).1 i4 with i7 | i7
        · exact i7
        · subst i7; exact absurd ⟨by omega, rfl⟩ i6
      · rintro ⟨i1, i2, i3, i4, i5⟩
        exact ⟨⟨i1, i2, i3, by omega, i5⟩, by rintro ⟨-, rfl⟩; omega⟩
    have hqL : RowHas w (s2.q TYPE_L) (fun j => X (j + 1) - 1) (dn T n) (A2 T n (rho T n x' + 1) (rho T n x')) := by
      rw [g4.q _ (by decide)]
      refine h'.qL.congr (fun k j => ?_)
      constructor
      · rintro ⟨i1, i2, i3, i4, i5⟩
        refine ⟨i1, i2, i3, i4, ?_⟩
        rcases (rho_lt_succ (by omega) (by omega)).1 i5 with i7 | i7
        · exact i7
        · subst i7; rw [hxL] at i2; cases i2
      · rintro ⟨i1, i2, i3, i4, i5⟩; exact ⟨i1, i2, i3, i4, by omega⟩
    have hfin : Tot (visit2 e (a + 1) (e.base + v) s2) (IInv2 T n w X z (rho T n x')) := by
      rw [g2, ← hxT]
      exact visit2_S Y hx1' hxn hpS h' g4 hqL hqS
    refine hfin.mono (fun s3 i3 => ?_)
    exact ⟨rho T n x' - (1 + bst T n a), by omega, rho T n x', i3, by omega, by omega, rfl⟩

theorem drain2L_spec {s : IndSt} {a fuel : Nat} (ha : a < 257) (hf : n + 2 ≤ fuel)
    (h : IInv2 T n w X z (1 + bst T n (a + 1)) s) :
    Tot (whileM fuel s (step2 e (a + 1) TYPE_L)) (IInv2 T n w X z (sbeg T n a)) := by
  have hz3 := bst_le (T := T) (n := n) (a + 1)
  exact drain2L_tight Y ha (by omega) h

theorem drain2S_spec {s : IndSt} {a fuel : Nat} (ha : a < 257) (hf : n + 2 ≤ fuel) (h : IInv2 T n w X z (sbeg T n a) s) :
    Tot (whileM fuel s (step2 e (a + 1) TYPE_S)) (IInv2 T n w X z (1 + bst T n a)) := by
  have hz2 := sbeg_le (T := T) (n := n) a
  have hz3 := bst_le (T := T) (n := n) (a + 1)
  exact drain2S_tight Y ha (by omega) h

theorem whileM_exit {fuel t : Nat} {s : IndSt} (hf : 1 ≤ fuel) (hsz : (s.q t).size = 258)
    (hQ : ((s.q t).data 0).isEmpty = true) : whileM fuel s (step2 e 0 t) = .ok s := by
  obtain ⟨f, rfl⟩ : ∃ f, fuel = f + 1 := ⟨fuel - 1, by omega⟩
  rw [whileM]
  unfold step2
  have : (s.q t).rd 0 = .ok ((s.q t).data 0) := Mem.rd_ok _ (by omega)
  simp only [this, bind, Except.bind, hQ, if_true]

/-- The second pass. -/
theorem pass2_spec {s : IndSt} {fuel : Nat} (hf : n + 2 ≤ fuel) (h : IInv2 T n w X z (n + 1) s) :
    Tot (pass2 e fuel s) (IInv2 T n w X z 0) := by
  unfold pass2
  have hn2 := Y.n2
  have h257 : bst T n 257 = n := cnt_true (fun q hq => by have := Y.byte q hq; omega)
  refine loopDown_spec (fun i s => IInv2 T n w X z (bkt T n i) s) 258 s _ ?_ ?_
  · show IInv2 T n w X z (1 + bst T n 257) s
    rw [h257, Nat.add_comm]; exact h
  · intro i s1 hi h1
    cases i with
    | zero =>
      have h2 : IInv2 T n w X z 0 s1 := h1.lower (by omega) (fun y hy => by
        have hb : bst T n 0 = 0 := cnt_false (fun q _ h => by omega)
        have := rho_pos (T := T) hy.1
        simp only [bkt, hb]; omega)
      rw [whileM_exit Y (by omega) h2.qL.size ((h2.qL.has 0 (by omega)).isEmpty.2 (fun j hj => by
        have := hj.2.2.1; omega))]
      simp only [Tot_bind, Tot_ok]
      rw [whileM_exit Y (by omega) h2.qS.size ((h2.qS.has 0 (by omega)).isEmpty.2 (fun j hj => by
        have := hj.2.2.1; omega)), Tot_ok]
      exact h2
    | succ a =>
      refine Tot.bind (drain2L_spec Y (by omega) hf h1) (fun s2 h2 => ?_)
      exact drain2S_spec Y (by omega) hf h2

end

theorem bucketEnds_spec {e : IndEnv} {NL : Mem Nat} (K : Counts T n e.M NL e.C) {s : IndSt} (h2 : s.M2.size = 258) :
    Tot (bucketEnds e s) (fun s' => s'.q = s.q ∧ s'.M3 = s.M3 ∧ s'.C2 = s.C2 ∧ s'.bwt = s.bwt ∧ s'.last = s.last ∧
      s'.M2.size = 258 ∧ ∀ c, c < 257 → s'.M2.data (c + 1) = bst T n (c + 1)) := by
  unfold bucketEnds
  have hb : bst T n 0 = 0 := cnt_false (fun q _ h => by omega)
  rw [Mem.wr_ok _ _ (by omega)]
  simp only [Tot_bind, Tot_ok]
  refine (loopUp_spec (fun i (s' : IndSt) => s'.q = s.q ∧ s'.M3 = s.M3 ∧ s'.C2 = s.C2 ∧ s'.bwt = s.bwt ∧ s'.last = s.last ∧
      s'.M2.size = 258 ∧ ∀ c, c < i → s'.M2.data c = bst T n c) 1 257 { s with M2 := s.M2.upd 0 0 } _
    ⟨rfl, rfl, rfl, rfl, rfl, by simpa using h2, ?_⟩ ?_).mono ?_
  · intro c hc
    have : c = 0 := by omega
    subst this; simp [hb]
  · rintro i s1 hi1 hi2 ⟨g1, g2, g3, g4, g5, g6, g7⟩
    obtain ⟨c, rfl⟩ : ∃ c, i = c + 1 := ⟨i - 1, by omega⟩
    simp only [Nat.add_sub_cancel, Tot_bind, Mem.Tot_wr, Mem.Tot_rd, Tot_ok]
    refine ⟨by omega, by rw [K.Ms]; omega, by omega, g1, g2, g3, g4, g5, by simpa using g6, ?_⟩
    intro k hk
    by_cases hki : k = c + 1
    · subst hki
      have h1 := bst_le (T := T) (n := n) (c + 1)
      have h3 := K.small
      rw [bst_succ] at h1
      rw [Mem.upd_data_self, g7 c (by omega), K.M c (by omega), bst_succ, addU64_eq (by omega)]
    · rw [Mem.upd_data_ne _ _ hki]; exact g7 k (by omega)
  · rintro s1 ⟨g1, g2, g3, g4, g5, g6, g7⟩
    exact ⟨g1, g2, g3, g4, g5, g6, fun c hc => g7 (c + 1) (by omega)⟩

/-- What inducing leaves in the row of the whole string, if it held `z` at the start: the byte in front of the head
string, a leftover of the stack of S* characters, or `z`. -/
def LastRow (T : Nat → Nat) (n z v : Nat) : Prop :=
  (isS T n 0 = false → v = (T 0 + 1) % 256) ∧
  (isS T n 0 = true → (∀ j, isLMS T n j → stk T n j = rho T n 0 → v = T (j - 1)) ∧
    ((∀ j, isLMS T n j → stk T n j ≠ rho T n 0) → v = z))

/-- What inducing leaves: the row of every suffix holds the character before it. `b` is the initial content of the
array. -/
def BwtRows (T : Nat → Nat) (n : Nat) (b : Nat → Nat) (r : BwtResult) : Prop :=
  r.bwt.size = n + 1 ∧ r.last = rho T n 0 ∧ (∀ j, 1 ≤ j → j ≤ n → r.bwt.data (rho T n j) = T (j - 1)) ∧
    LastRow T n (b (rho T n 0)) (r.bwt.data (rho T n 0))

/-- The state before the second pass. -/
theorem pass2_start {w : Nat} {X : Nat → Nat} {s5 s5' s5'' s6 : IndSt} {row : Mem Queue} (hn2 : 2 ≤ n) (d5 : IInv1 T n w X z (n + 1) s5)
    (f5 : SameBut TYPE_LMS s5 s5') (f5' : SameBut TYPE_L s5' s5'')
    (hnew : RowHas w row (fun j => X (j + 1) - 1) (dn T n) (fun _ _ => False))
    (e1 : s6.q = fun t => if t = TYPE_L then row else s5''.q t) (e3 : s6.C2 = s5.C2)
    (e4 : s6.bwt = s5.bwt) (e5 : s6.last = s5.last) (e6 : s6.M2.size = 258)
    (e7 : ∀ c, c < 257 → s6.M2.data (c + 1) = bst T n (c + 1)) : IInv2 T n w X (s5.bwt.data (rho T n 0)) (n + 1) s6 := by
  have hle : ∀ j, j ≤ n → rho T n j < n + 1 := fun j hj => by have := rho_le (T := T) hj; omega
  refine ⟨?_, ?_, e6, ?_, by rw [e3]; exact d5.C2s, ?_, by rw [e4]; exact d5.bs, by rw [e4]; exact d5.b0, ?_, ?_, ?_, by rw [e4], ?_⟩
  · rw [e1]
    simp only [if_true]
    exact hnew.congr (fun k j => ⟨False.elim, fun h => by have := hle (j + 1) h.1; have := h.2.2.2.1; omega⟩)
  · rw [e1]
    simp only [show ¬ (TYPE_S = TYPE_L) by decide, if_false]
    rw [f5'.q _ (by decide), f5.q _ (by decide)]
    exact d5.qS
  · intro c hc
    rw [e7 c hc, cnt_false (fun i hi h => by have := hle (i + 1) (by omega); omega)]; rfl
  · intro c hc
    rw [e3, d5.C2 c hc]
    congr 1
    refine cnt_congr (fun i hi => ?_)
    have := hle (i + 1) (by omega)
    have := hle i (by omega)
    constructor
    · rintro ⟨i1, i2, -⟩; exact ⟨i1, i2, by omega⟩
    · rintro ⟨i1, i2, -⟩; exact ⟨i1, i2, by omega⟩
  · intro j j1 j2 j3
    rw [e4, d5.bL j j1 j2 (hle _ (by omega)), prevByte, if_neg (by omega)]
  · intro j j1 j2 j3 j4
    have := hle (j + 1) (by omega); omega
  · intro j j1 j2
    rw [e4]; exact d5.bM j j1 (hle _ (by have := j1.2.1; omega))
  · rintro (j1 | j1)
    · rw [e5]; exact d5.last j1 (hle 0 (by omega))
    · have := hle 1 (by omega); omega

/-- `induce_bwt_XXbit` is correct. -/
theorem induceBwt_spec {S : Type} [SaStore S] (qj : Nat → Nat → Nat → Nat → BitVec 64) (bj : Nat → Nat) (sj : BitVec 64)
    (fuel : Nat) (buf : Mem Nat) (sa : S) (ct : Container) {X σ : Nat → Nat} (hf : n + 2 ≤ fuel) (hn : ct.n = n)
    (Y : Layout T n ⟨buf, ct.bwpBase, ct.lastptr, ct.M, ct.C, sj⟩ ct.bwpWidth X)
    (K : Counts T n ct.M ct.NL ct.C) (hσ : SaSorted T n X sa ct.numSubs σ)
    (h2 : ct.M2.size = 258) (h3 : ct.M3.size = 258) (h4 : ct.C2.size = 258) :
    Tot (induceBwt qj bj sj fuel buf sa ct) (BwtRows T n (fun i => bj i % 256)) := by
  have hw64 : ct.bwpWidth ≤ 64 := by have := Y.w63; omega
  have hn2 := Y.n2
  have hnew : ∀ (t : Nat) (f : Nat → Nat) (g : Nat → Int),
      RowHas ct.bwpWidth (newQueues ct.bwpWidth (qj t)) f g (fun _ _ => False) :=
    fun t f g => RowHas.new (qj t) Y.w1 hw64 f g _ (fun _ _ h => h)
  unfold induceBwt
  simp only
  refine Tot.bind (seed_spec Y hσ (hnew TYPE_LMS _ _)) ?_
  rintro s1 ⟨a1, a2⟩
  refine Tot.bind (bucketStarts_spec (e := ⟨buf, ct.bwpBase, ct.lastptr, ct.M, ct.C, sj⟩) K (by rw [a1.M2]; exact h2)
    (by rw [a1.M3]; exact h3)) ?_
  rintro s2 ⟨b1, b2, b3, b4, b5, b6, b7⟩
  refine Tot.bind (stackStarts_spec (e := ⟨buf, ct.bwpBase, ct.lastptr, ct.M, ct.C, sj⟩) K b5
    (by rw [b2, a1.C2]; exact h4) (fun k hk => (b7 k hk).1)) ?_
  rintro s3 ⟨c1, c2, c3, c4, c5, c6, c7, c8⟩
  have hq3 : s3.q = s1.q := by rw [c1, b1]
  have hbwt3 : s3.bwt = ⟨ct.n + 1, fun i => bj i % 256⟩ := by rw [c4, b3, a1.bwt]
  refine Tot.bind (firstRow_spec Y ?_ (by rw [hq3]; exact a2) ?_ (by rw [c2]; exact b5) (by rw [c3]; exact b6) c6
    (by rw [hbwt3, hn]) (by rw [c2, c3]; exact b7) c7 c8 (z := bj (rho T n 0) % 256) (by rw [hbwt3])) ?_
  · rw [hq3, a1.q _ (by decide)]; exact hnew TYPE_L _ _
  · rw [hq3, a1.q _ (by decide)]; exact hnew TYPE_S _ _
  intro s4 d4
  refine Tot.bind (pass1_spec Y K hf d4) ?_
  intro s5 d5
  refine Tot.bind d5.qM.delete (fun s5' f5 => ?_)
  refine Tot.bind (RowHas.delete (t := TYPE_L) (s := s5') (by rw [f5.q _ (by decide)]; exact d5.qL)) (fun s5'' f5' => ?_)
  refine Tot.bind (bucketEnds_spec (T := T) (n := n) (e := ⟨buf, ct.bwpBase, ct.lastptr, ct.M, ct.C, sj⟩) K
    (by simp only; rw [f5'.M2, f5.M2]; exact d5.M2s)) ?_
  rintro s6 ⟨e1, e2, e3, e4, e5, e6, e7⟩
  simp only at e1 e2 e3 e4 e5 e6 e7
  rw [f5'.C2, f5.C2] at e3
  rw [f5'.bwt, f5.bwt] at e4
  rw [f5'.last, f5.last] at e5
  have hI : IInv2 T n ct.bwpWidth X (s5.bwt.data (rho T n 0)) (n + 1) s6 := pass2_start hn2 d5 f5 f5' (hnew 3 _ _) e1 e3 e4 e5 e6 e7
  refine Tot.bind (pass2_spec Y hf hI) ?_
  intro s7 d7
  refine Tot.bind d7.qL.delete (fun s8 f8 => ?_)
  refine Tot.bind (RowHas.delete (t := TYPE_S) (s := s8) (by rw [f8.q _ (by decide)]; exact d7.qS)) (fun s9 f9 => ?_)
  rw [f9.last, f8.last, d7.last (Or.inr (by omega))]
  simp only [Tot_ok]
  rw [f9.bwt, f8.bwt]
  have hle : ∀ j, j ≤ n → rho T n j < n + 1 := fun j hj => by have := rho_le (T := T) hj; omega
  refine ⟨d7.bs, rfl, fun j j1 j2 => ?_, fun hL => ?_, fun hS => ⟨fun j j1 j2 => ?_, fun hno => ?_⟩⟩
  · simp only
    by_cases hjn : j = n
    · subst hjn; rw [rho_n]; exact d7.b0
    · cases hs : isS T n j
      · exact d7.bL j (by omega) hs j1
      · exact d7.bS j (by omega) hs j1 (by omega)
  · rw [d7.bZ, d5.bL 0 (by omega) hL (hle _ (by omega)), prevByte, if_pos (by rfl)]
  · rw [d7.bZ, ← j2]; exact d5.bM j j1 (hle _ (by have := j1.2.1; omega))
  · rw [d7.bZ]; exact d5.bZ hS hno

end Flbwt
