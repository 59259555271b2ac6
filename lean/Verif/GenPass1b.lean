import Verif.GenPass1

/-!
# First pass of inducing and its set-up, for an arbitrary order (proof)
-/

namespace Flbwt.Gen

variable {T : Nat → Nat} {n z : Nat} {r : Nat → Nat}

theorem RowsL.chainL (R : RowsL T n r) {a b : Nat} (hb : bst T n a < b) : ∀ (d y : Nat), r y = d → y < n → b ≤ r y →
    r y < sbeg T n a → ∃ z, AL T n r b b (a + 1) z ∧ r z ≤ r y := by
  intro d
  induction d using Nat.strongRecOn with
  | ind d ih =>
    intro y hr hy h1 h2
    obtain ⟨h3, h4⟩ := R.zoneL hy (by omega) h2
    have h5 := R.succ hy h4
    rcases Nat.lt_or_ge (r (y + 1)) b with h6 | h6
    · exact ⟨y, ⟨hy, h4, by omega, h6, h1⟩, Nat.le_refl _⟩
    · have h7 : y + 1 < n := by
        by_contra hc
        have : y + 1 = n := by omega
        rw [this, R.rn] at h6; omega
      obtain ⟨z, h8, h9⟩ := ih _ (by omega) (y + 1) rfl h7 h6 (by omega)
      exact ⟨z, h8, by omega⟩

section
variable {e : IndEnv} {w : Nat} {X : Nat → Nat} (R : RowsL T n r) (Y : Layout T n e w X)
include R Y

/-- One iteration: the queue has a minimum `x`, and nothing relevant is between the threshold and `x`. -/
theorem step1_spec {s : IndSt} {a b t : Nat} {m : Int} (ha : a < 257) (h : IInv1 T n r w X z b s)
    (ht : t = TYPE_L ∨ t = TYPE_LMS)
    (hQ : ((s.q t).data (a + 1)).isEmpty ≠ true)
    (hmin : ∀ x, (t = TYPE_L → AL T n r b b (a + 1) x) → (t = TYPE_LMS → AM T n r b (a + 1) x) →
      (∀ z, (t = TYPE_L → AL T n r b b (a + 1) z) → (t = TYPE_LMS → AM T n r b (a + 1) z) → r x ≤ r z) →
      (∀ y, D1 T n y → b ≤ r y → r x ≤ r y) ∧ (t = TYPE_L → m = r x)) :
    Tot (step1 e (a + 1) t (s, m)) (fun r' => match r' with
      | .inl s' => ∃ x, x < n ∧ b ≤ r x ∧ (t = TYPE_L → AL T n r b b (a + 1) x) ∧ (t = TYPE_LMS → AM T n r b (a + 1) x) ∧
          IInv1 T n r w X z (r x + 1) s'.1 ∧ s'.2 = m + 1 ∧ (t = TYPE_L → m = r x)
      | .inr _ => False) := by
  have key : ∀ x, (t = TYPE_L → AL T n r b b (a + 1) x) → (t = TYPE_LMS → AM T n r b (a + 1) x) → x < n ∧ b ≤ r x ∧ T x = a := by
    intro x h1 h2
    rcases ht with h3 | h3
    · have := h1 h3; exact ⟨this.1, this.2.2.2.2, by have := this.2.2.1; omega⟩
    · have := h2 h3; exact ⟨this.1.2.1, this.2.2, by have := this.2.1; omega⟩
  unfold step1
  simp only
  have hrow : ∃ A, RowHas w (s.q t) X (up r) A ∧
      ∀ j, A (a + 1) j ↔ (t = TYPE_L → AL T n r b b (a + 1) j) ∧ (t = TYPE_LMS → AM T n r b (a + 1) j) := by
    rcases ht with h3 | h3
    · subst h3
      exact ⟨_, h.qL, fun j => by simp [TYPE_L, TYPE_LMS]⟩
    · subst h3
      exact ⟨_, h.qM, fun j => by simp [TYPE_L, TYPE_LMS]⟩
  obtain ⟨A, hA, hA'⟩ := hrow
  rw [Mem.rd_ok _ (by rw [hA.size]; omega)]
  simp only [Tot_bind, Tot_ok]
  rw [if_neg hQ]
  simp only [Tot_bind]
  -- the minimum
  obtain ⟨x, hx1, hx2⟩ := (hA.has (a + 1) (by omega)).min hQ
  obtain ⟨hxa, hxb⟩ := (hA' x).1 hx1
  obtain ⟨hxn, hxr, hxT⟩ := key x hxa hxb
  have hx3 : ∀ z, (t = TYPE_L → AL T n r b b (a + 1) z) → (t = TYPE_LMS → AM T n r b (a + 1) z) → r x ≤ r z := by
    intro z h1 h2
    by_cases hzx : z = x
    · subst hzx; exact Nat.le_refl _
    · have := hx2 z ((hA' z).2 ⟨h1, h2⟩) hzx
      unfold up at this; omega
  obtain ⟨hx4, hx5⟩ := hmin x hxa hxb hx3
  have h' : IInv1 T n r w X z (r x) s := h.raise (fun y hy => by
    constructor
    · intro g; omega
    · intro g; by_contra hc; have := hx4 y hy (by omega); omega)
  -- rows at the new threshold
  have hrow : ∃ A, RowHas w (s.q t) X (up r) A ∧
      (∀ k j, A k j ↔ (t = TYPE_L → AL T n r (r x) (r x) k j) ∧ (t = TYPE_LMS → AM T n r (r x) k j)) := by
    rcases ht with h3 | h3
    · subst h3
      exact ⟨_, h'.qL, fun k j => by simp [TYPE_L, TYPE_LMS]⟩
    · subst h3
      exact ⟨_, h'.qM, fun k j => by simp [TYPE_L, TYPE_LMS]⟩
  obtain ⟨B, hB, hB'⟩ := hrow
  refine (deq_row hB e.sj (c := a + 1) (by omega) Y.w63 hQ).mono ?_
  rintro ⟨v, s1⟩ ⟨x', g1, g2, g3, g4, g5⟩
  simp only at g2 g4 g5 ⊢
  have hxx : x' = x := by
    by_contra hc
    have hBx : B (a + 1) x := by
      rw [hB']
      refine ⟨fun ht' => ?_, fun ht' => ?_⟩
      · have := hxa ht'
        refine ⟨this.1, this.2.1, this.2.2.1, ?_, Nat.le_refl _⟩
        exact R.succ this.1 this.2.1
      · exact ⟨(hxb ht').1, (hxb ht').2.1, Nat.le_refl _⟩
    have h1 := g3 x hBx (fun h => hc h.symm)
    have h2 : r x ≤ r x' := by
      have := (hB' (a + 1) x').1 g1
      rcases ht with h3 | h3
      · exact (this.1 h3).2.2.2.2
      · exact (this.2 h3).2.2
    unfold up at h1; omega
  subst hxx
  have hd : t = TYPE_L ∧ isS T n x' = false ∨ t = TYPE_LMS ∧ isLMS T n x' := by
    rcases ht with h3 | h3
    · exact Or.inl ⟨h3, (hxa h3).2.1⟩
    · exact Or.inr ⟨h3, (hxb h3).1⟩
  have hqL : RowHas w (s1.q TYPE_L) X (up r) (AL T n r (r x') (r x' + 1)) := by
    rcases hd with ⟨h3, h4⟩ | ⟨h3, h4⟩
    · subst h3
      refine g5.congr (fun k j => ?_)
      rw [hB']
      constructor
      · rintro ⟨h1, h2⟩
        have h1 := h1.1 rfl
        refine ⟨h1.1, h1.2.1, h1.2.2.1, h1.2.2.2.1, ?_⟩
        have h5 := h1.2.2.2.2
        rcases Nat.lt_or_eq_of_le h5 with h6 | h6
        · exact h6
        · have := R.inj (by omega) (by have := h1.1; omega) h6
          subst this
          exact absurd ⟨by have := h1.2.2.1; omega, rfl⟩ h2
      · rintro ⟨h1, h2, h5, h6, h7⟩
        exact ⟨⟨fun _ => ⟨h1, h2, h5, h6, by omega⟩, fun h => by cases h⟩, by rintro ⟨-, rfl⟩; omega⟩
    · subst h3
      rw [g4.q _ (by decide)]
      refine h'.qL.congr (fun k j => ?_)
      constructor
      · rintro ⟨h1, h2, h5, h6, h7⟩
        refine ⟨h1, h2, h5, h6, ?_⟩
        rcases Nat.lt_or_eq_of_le h7 with h8 | h8
        · exact h8
        · have := R.inj (by omega) (by omega) h8
          subst this
          rw [h4.2.2.1] at h2; cases h2
      · rintro ⟨h1, h2, h5, h6, h7⟩; exact ⟨h1, h2, h5, h6, by omega⟩
  have hqM : RowHas w (s1.q TYPE_LMS) X (up r) (AM T n r (r x' + 1)) := by
    rcases hd with ⟨h3, h4⟩ | ⟨h3, h4⟩
    · subst h3
      rw [g4.q _ (by decide)]
      refine h'.qM.congr (fun k j => ?_)
      constructor
      · rintro ⟨h1, h2, h5⟩
        refine ⟨h1, h2, ?_⟩
        rcases Nat.lt_or_eq_of_le h5 with h8 | h8
        · exact h8
        · have := R.inj (by omega) (by have := h1.2.1; omega) h8
          subst this
          rw [h1.2.2.1] at h4; cases h4
      · rintro ⟨h1, h2, h5⟩; exact ⟨h1, h2, by omega⟩
    · subst h3
      refine g5.congr (fun k j => ?_)
      rw [hB']
      constructor
      · rintro ⟨h1, h2⟩
        have h1 := h1.2 rfl
        refine ⟨h1.1, h1.2.1, ?_⟩
        have h5 := h1.2.2
        rcases Nat.lt_or_eq_of_le h5 with h6 | h6
        · exact h6
        · have := R.inj (by omega) (by have := h1.1.2.1; omega) h6
          subst this
          exact absurd ⟨by have := h1.2.1; omega, rfl⟩ h2
      · rintro ⟨h1, h2, h5⟩
        exact ⟨⟨(fun h => by cases h), fun _ => ⟨h1, h2, by omega⟩⟩, by rintro ⟨-, rfl⟩; omega⟩
  have hqS : RowHas w (s1.q TYPE_S) X (dn r) (AS T n r (r x')) := by
    have : TYPE_S ≠ t := by rcases ht with h3 | h3 <;> subst h3 <;> decide
    rw [g4.q _ this]; exact h'.qS
  have hfin := visit1_spec R Y (m := m) hxn h' g4 hd (fun hL => by
    rcases hd with h3 | h3
    · exact hx5 h3.1
    · rw [h3.2.2.2.1] at hL; cases hL) hqL hqM hqS
  rw [hxT] at hfin
  rw [g2]
  refine hfin.mono (fun s2 h2 => ?_)
  exact ⟨x', hxn, hxr, hxa, hxb, h2, rfl, hx5⟩

theorem drainL_tight {s : IndSt} {a fuel : Nat} (K : Counts T n e.M NL e.C) (ha : a < 257) (hf : sbeg T n a - bst T n a ≤ fuel) (h : IInv1 T n r w X z (1 + bst T n a) s) :
    Tot (drain1 e fuel (a + 1) TYPE_L s) (IInv1 T n r w X z (sbeg T n a)) := by
  have hz1 := sbeg_gt (T := T) (n := n) a
  have hz2 := sbeg_le (T := T) (n := n) a
  have hz3 := bst_le (T := T) (n := n) (a + 1)
  unfold drain1 rowStart
  rw [Mem.rd_ok _ (by rw [h.M3s]; omega)]
  simp only [Tot_bind, Tot_ok, show ¬ (TYPE_L = TYPE_LMS) by decide, if_false, h.M3 a ha,
    toI64_eq (show ((1 + bst T n a : Nat) : Int) < 2 ^ 63 by have := K.small; have := bst_le (T := T) (n := n) a; omega)]
  refine whileM_ghost (fun k (st : IndSt × Int) => ∃ b, IInv1 T n r w X z b st.1 ∧ bst T n a < b ∧ b ≤ sbeg T n a ∧ st.2 = b ∧
    k = sbeg T n a - b) _ fuel (sbeg T n a - (1 + bst T n a)) _ _ ⟨_, h, by omega, by omega, rfl, rfl⟩ (by omega) ?_
  rintro k ⟨s1, m⟩ ⟨b, h1, h2, h3, h4, h5⟩
  simp only at h1 h4
  by_cases hQ : ((s1.q TYPE_L).data (a + 1)).isEmpty = true
  · unfold step1
    simp only
    rw [Mem.rd_ok _ (by rw [h1.qL.size]; omega)]
    simp only [Tot_bind, Tot_ok]
    rw [if_pos hQ, Tot_ok]
    refine h1.raise (fun y hy => ?_)
    constructor
    · intro g; omega
    · intro g
      by_contra hc
      have hyn : y < n := by
        rcases hy with hy | hy | hy
        · subst hy; rw [R.rn] at hc; omega
        · exact hy.1
        · exact hy.2.1
      obtain ⟨z, hz, -⟩ := R.chainL h2 _ y rfl hyn (by omega) g
      exact (h1.qL.has (a + 1) (by omega)).isEmpty.1 hQ z hz
  · refine (step1_spec R Y ha h1 (Or.inl rfl) hQ ?_).mono ?_
    · intro x hx _ hmin
      have hx := hx rfl
      have hxs : r x < sbeg T n a := by
        have := R.L_zone hx.1 hx.2.1
        have hT : T x = a := by have := hx.2.2.1; omega
        rw [hT] at this; exact this.2
      have hno : ∀ y, y < n → b ≤ r y → r x ≤ r y := by
        intro y hyn hy
        by_contra hc
        obtain ⟨z, hz, hz'⟩ := R.chainL h2 _ y rfl hyn hy (by omega)
        have := hmin z (fun _ => hz) (fun h => by cases h)
        omega
      refine ⟨fun y hy hyb => hno y ?_ hyb, fun _ => ?_⟩
      · rcases hy with hy | hy | hy
        · subst hy; rw [R.rn] at hyb; omega
        · exact hy.1
        · exact hy.2.1
      · obtain ⟨y, hy1, hy2⟩ := R.surj b (by have := hx.2.2.2.2; omega)
        have hyn : y < n := by
          rcases Nat.lt_or_eq_of_le hy1 with h | h
          · exact h
          · subst h; rw [R.rn] at hy2; omega
        have := hno y hyn (by omega)
        have := hx.2.2.2.2
        omega
    · intro r' hr
      cases r' with
      | inr _ => exact hr.elim
      | inl s' =>
        obtain ⟨x, hxn, hxb, hx, -, hi, hm, hmx⟩ := hr
        have hx := hx rfl
        have hmx := hmx rfl
        have hxs : r x < sbeg T n a := by
          have := R.L_zone hx.1 hx.2.1
          have hT : T x = a := by have := hx.2.2.1; omega
          rw [hT] at this; exact this.2
        refine ⟨sbeg T n a - (r x + 1), by omega, r x + 1, hi, by omega, by omega, by rw [hm]; omega, rfl⟩

theorem drainM_tight {s : IndSt} {a fuel : Nat} (K : Counts T n e.M NL e.C) (ha : a < 257)
    (hf : 2 + bst T n (a + 1) - sbeg T n a ≤ fuel)
    (h : IInv1 T n r w X z (sbeg T n a) s) :
    Tot (drain1 e fuel (a + 1) TYPE_LMS s) (IInv1 T n r w X z (1 + bst T n (a + 1))) := by
  have hz1 := sbeg_gt (T := T) (n := n) a
  have hz2 := sbeg_le (T := T) (n := n) a
  have hz3 := bst_le (T := T) (n := n) (a + 1)
  unfold drain1 rowStart
  rw [Mem.rd_ok _ (by rw [h.M3s]; omega)]
  simp only [Tot_bind, Tot_ok, if_true, Mem.Tot_rd]
  refine ⟨by rw [K.Ms]; omega, by rw [K.Cs]; omega, ?_⟩
  refine whileM_ghost (fun k (st : IndSt × Int) => ∃ b, IInv1 T n r w X z b st.1 ∧ sbeg T n a ≤ b ∧ b ≤ 1 + bst T n (a + 1) ∧
    k = 1 + bst T n (a + 1) - b) _ fuel (1 + bst T n (a + 1) - sbeg T n a) _ _ ⟨_, h, by omega, by omega, rfl⟩ (by omega) ?_
  rintro k ⟨s1, m⟩ ⟨b, h1, h2, h3, h5⟩
  simp only at h1
  have hin : ∀ y, D1 T n y → b ≤ r y → r y ≤ bst T n (a + 1) → AM T n r b (a + 1) y := by
    intro y hy g1 g2
    have hyn : y < n := by
      rcases hy with hy | hy | hy
      · subst hy; rw [R.rn] at g1; omega
      · exact hy.1
      · exact hy.2.1
    obtain ⟨g3, g4⟩ := R.zoneM hyn (a := a) (by omega) g2
    rcases hy with hy | hy | hy
    · omega
    · rw [hy.2] at g4; cases g4
    · exact ⟨hy, by omega, g1⟩
  by_cases hQ : ((s1.q TYPE_LMS).data (a + 1)).isEmpty = true
  · unfold step1
    simp only
    rw [Mem.rd_ok _ (by rw [h1.qM.size]; omega)]
    simp only [Tot_bind, Tot_ok]
    rw [if_pos hQ, Tot_ok]
    refine h1.raise (fun y hy => ?_)
    constructor
    · intro g; omega
    · intro g
      by_contra hc
      exact (h1.qM.has (a + 1) (by omega)).isEmpty.1 hQ y (hin y hy (by omega) (by omega))
  · refine (step1_spec R Y ha h1 (Or.inr rfl) hQ ?_).mono ?_
    · intro x _ hx hmin
      have hx := hx rfl
      have hxs : r x ≤ bst T n (a + 1) := by
        have := R.S_zone hx.1.2.1 hx.1.2.2.1
        have hT : T x = a := by have := hx.2.1; omega
        rw [hT] at this; exact this.2
      refine ⟨fun y hy hyb => ?_, fun h => by cases h⟩
      by_contra hc
      have := hmin y (fun h => by cases h) (fun _ => hin y hy hyb (by omega))
      omega
    · intro r' hr
      cases r' with
      | inr _ => exact hr.elim
      | inl s' =>
        obtain ⟨x, hxn, hxb, -, hx, hi, -, -⟩ := hr
        have hx := hx rfl
        have hxs : r x ≤ bst T n (a + 1) := by
          have := R.S_zone hx.1.2.1 hx.1.2.2.1
          have hT : T x = a := by have := hx.2.1; omega
          rw [hT] at this; exact this.2
        exact ⟨1 + bst T n (a + 1) - (r x + 1), by omega, r x + 1, hi, by omega, by omega, rfl⟩

theorem drainL_spec {s : IndSt} {a fuel : Nat} (K : Counts T n e.M NL e.C) (ha : a < 257) (hf : n + 2 ≤ fuel) (h : IInv1 T n r w X z (1 + bst T n a) s) :
    Tot (drain1 e fuel (a + 1) TYPE_L s) (IInv1 T n r w X z (sbeg T n a)) := by
  have hz2 := sbeg_le (T := T) (n := n) a
  have hz3 := bst_le (T := T) (n := n) (a + 1)
  exact drainL_tight R Y K ha (by omega) h

theorem drainM_spec {s : IndSt} {a fuel : Nat} (K : Counts T n e.M NL e.C) (ha : a < 257) (hf : n + 2 ≤ fuel)
    (h : IInv1 T n r w X z (sbeg T n a) s) :
    Tot (drain1 e fuel (a + 1) TYPE_LMS s) (IInv1 T n r w X z (1 + bst T n (a + 1))) := by
  have hz3 := bst_le (T := T) (n := n) (a + 1)
  exact drainM_tight R Y K ha (by omega) h

/-- The first pass. -/
theorem pass1_spec {s : IndSt} {fuel : Nat} (K : Counts T n e.M NL e.C) (hf : n + 2 ≤ fuel) (h : IInv1 T n r w X z 1 s) :
    Tot (pass1 e fuel s) (IInv1 T n r w X z (n + 1)) := by
  unfold pass1
  have hb0 : bst T n 0 = 0 := cnt_false (fun q _ h => by omega)
  refine (loopUp_spec (fun c s => IInv1 T n r w X z (1 + bst T n (c - 1)) s) 1 257 s _ (by simpa [hb0] using h) ?_).mono ?_
  · intro c s1 hc1 hc2 h1
    obtain ⟨a, rfl⟩ : ∃ a, c = a + 1 := ⟨c - 1, by omega⟩
    simp only [Nat.add_sub_cancel] at h1 ⊢
    refine Tot.bind (drainL_spec R Y K (by omega) hf h1) (fun s2 h2 => ?_)
    exact drainM_spec R Y K (by omega) hf h2
  · intro s1 h1
    have : bst T n 257 = n := cnt_true (fun q hq => by have := Y.byte q hq; omega)
    simp only [show 1 + 257 - 1 = 257 by omega, this] at h1
    rwa [Nat.add_comm] at h1

end
/-- The suffix array handed to `induce_bwt_XXbit`, as `Flbwt.SaSorted`; the entries of a bucket are in the order `r`. -/
structure SaSorted {S : Type} [SaStore S] (T : Nat → Nat) (n : Nat) (r X : Nat → Nat) (sa : S) (num : Nat) (σ : Nat → Nat) :
    Prop where
  size : num + 1 ≤ SaStore.size sa
  get : ∀ i, i ≤ num → SaStore.get sa i = X (σ i)
  zero : σ 0 = n
  lms : ∀ i, 1 ≤ i → i ≤ num → isLMS T n (σ i)
  mono : ∀ i j, 1 ≤ i → i < j → j ≤ num → T (σ i) = T (σ j) → r (σ i) < r (σ j)
  all : ∀ p, isLMS T n p → ∃ i, 1 ≤ i ∧ i ≤ num ∧ σ i = p

section
variable {e : IndEnv} {w : Nat} {X : Nat → Nat} (R : RowsL T n r) (Y : Layout T n e w X)
include R Y

theorem seed_spec {S : Type} [SaStore S] {sa : S} {num : Nat} {σ : Nat → Nat} (hσ : SaSorted T n r X sa num σ) {s : IndSt}
    (hq : RowHas w (s.q TYPE_LMS) X (up r) (fun _ _ => False)) :
    Tot (seed e sa num s) (fun s' => SameBut TYPE_LMS s s' ∧
      RowHas w (s'.q TYPE_LMS) X (up r) (fun k j => (j = n ∧ k = 0) ∨ (isLMS T n j ∧ T j + 1 = k))) := by
  unfold seed
  have hle : ∀ i, i ≤ num → σ i ≤ n := by
    intro i hi
    by_cases h0 : i = 0
    · subst h0; rw [hσ.zero]
    · have := (hσ.lms i (by omega) hi).2.1; omega
  refine (loopDown_spec (fun i s' => SameBut TYPE_LMS s s' ∧ RowHas w (s'.q TYPE_LMS) X (up r) (ASeed T σ num i)) _ s _
    ⟨⟨rfl, rfl, rfl, rfl, rfl, fun _ _ => rfl⟩, hq.congr (fun k j => ?_)⟩ ?_).mono ?_
  · constructor
    · exact False.elim
    · rintro ⟨i', h1, h2, -⟩; omega
  · rintro i s1 hi ⟨h1, h2⟩
    rw [if_pos (by have := hσ.size; omega)]
    have hsc : seedChar e i (SaStore.get sa i + e.base) = .ok (if i = 0 then 0 else T (σ i) + 1) := by
      unfold seedChar
      split
      · rfl
      · rename_i h0
        have := Y.cur (σ i) (hσ.lms i (by omega) (by omega))
        rw [hσ.get i (by omega), Int.add_comm, this]; rfl
    simp only [hsc, Tot_bind, Tot_ok]
    have hcb : (if i = 0 then 0 else T (σ i) + 1) < 258 := by
      split
      · omega
      · have := Y.byte (σ i) (hσ.lms i (by omega) (by omega)).2.1; omega
    refine (enqL_row h2 e.sj (n := n) (x := σ i) hcb Y.w63 (by have := Y.nlt; omega) ?_ (Y.lt _ (hle i (by omega))) ?_
      (by rw [hσ.get i (by omega)]; omega)).mono ?_
    · rintro j ⟨i', g1, g2, rfl, -⟩; exact hle i' g2
    · rintro j ⟨i', g1, g2, rfl, g4⟩
      rw [if_neg (show ¬ i' = 0 by omega)] at g4
      have hi0 : i ≠ 0 := by
        intro h0
        rw [if_pos h0] at g4; omega
      rw [if_neg hi0] at g4
      have := hσ.mono i i' (by omega) (by omega) g2 (by omega)
      unfold up; omega
    · rintro s2 ⟨g1, g2⟩
      refine ⟨⟨by rw [g1.M2, h1.M2], by rw [g1.M3, h1.M3], by rw [g1.C2, h1.C2], by rw [g1.bwt, h1.bwt],
        by rw [g1.last, h1.last], fun t ht => by rw [g1.q t ht, h1.q t ht]⟩, g2.congr (fun k j => ?_)⟩
      constructor
      · rintro (⟨i', g3, g4, g5, g6⟩ | ⟨rfl, rfl⟩)
        · exact ⟨i', by omega, g4, g5, g6⟩
        · exact ⟨i, by omega, by omega, rfl, rfl⟩
      · rintro ⟨i', g3, g4, g5, g6⟩
        rcases Nat.lt_or_eq_of_le g3 with g7 | g7
        · exact Or.inl ⟨i', g7, g4, g5, g6⟩
        · subst g7; subst g5; exact Or.inr ⟨g6, rfl⟩
  · rintro s1 ⟨h1, h2⟩
    refine ⟨h1, h2.congr (fun k j => ?_)⟩
    constructor
    · rintro ⟨i', g1, g2, rfl, g4⟩
      by_cases h0 : i' = 0
      · subst h0; exact Or.inl ⟨hσ.zero, by simpa using g4⟩
      · rw [if_neg h0] at g4
        exact Or.inr ⟨hσ.lms i' (by omega) g2, g4.symm⟩
    · rintro (⟨rfl, rfl⟩ | ⟨g1, rfl⟩)
      · exact ⟨0, by omega, by omega, hσ.zero, by simp⟩
      · obtain ⟨i, g2, g3, rfl⟩ := hσ.all j g1
        exact ⟨i, by omega, g3, rfl, by rw [if_neg (by omega)]⟩

end

section
variable {e : IndEnv} {w : Nat} {X : Nat → Nat} (R : RowsL T n r) (Y : Layout T n e w X)
include R Y

theorem firstRow_spec {s : IndSt}
    (qL : RowHas w (s.q TYPE_L) X (up r) (fun _ _ => False))
    (qM : RowHas w (s.q TYPE_LMS) X (up r) (fun k j => (j = n ∧ k = 0) ∨ (isLMS T n j ∧ T j + 1 = k)))
    (qS : RowHas w (s.q TYPE_S) X (dn r) (fun _ _ => False))
    (M2s : s.M2.size = 258) (M3s : s.M3.size = 258) (C2s : s.C2.size = 258) (bs : s.bwt.size = n + 1)
    (M23 : ∀ k, k < 258 → s.M2.data k = bkt T n k ∧ s.M3.data k = bkt T n k) (C20 : s.C2.data 0 = 0)
    (C2 : ∀ c, c < 257 → s.C2.data (c + 1) = sbeg T n c) (hz : s.bwt.data (r 0) = z) :
    Tot (firstRow e s) (IInv1 T n r w X z 1) := by
  have hn2 := Y.n2
  have hL : isS T n (n - 1) = false := isS_last (by omega)
  have hrj := R.succ (show n - 1 < n by omega) hL
  rw [show n - 1 + 1 = n by omega, R.rn] at hrj
  unfold firstRow
  have hQ : ((s.q TYPE_LMS).data 0).isEmpty ≠ true := by
    intro h
    exact (qM.has 0 (by omega)).isEmpty.1 h n (Or.inl ⟨rfl, rfl⟩)
  refine Tot.bind (deq_row qM e.sj (c := 0) (by omega) Y.w63 hQ) ?_
  rintro ⟨v, s1⟩ ⟨x, g1, g2, g3, g4, g5⟩
  simp only at g2 g4 g5 ⊢
  have hx : x = n := by
    rcases g1 with g1 | g1
    · exact g1.1
    · have := g1.2; omega
  subst hx
  subst g2
  rw [Y.prev x (by omega) (Nat.le_refl _)]
  simp only [Tot_bind, Tot_ok, Mem.Tot_wr]
  refine ⟨by rw [g4.bwt]; omega, ?_⟩
  have hr0 : r x = 0 := R.rn
  refine (induceL_spec R Y (x := x) (by omega) (Nat.le_refl _) hL ?_ ?_ ?_ ?_).mono ?_
  · simp only
    rw [g4.q _ (by decide)]
    refine qL.congr (fun k j => ?_)
    constructor
    · exact False.elim
    · rintro ⟨-, -, -, h, -⟩; rw [hr0] at h; omega
  · simp only [g4.M2]; exact M2s
  · intro c hc
    simp only [g4.M2]
    rw [(M23 (c + 1) (by omega)).1, bkt, cnt_false (fun i _ h => by rw [hr0] at h; omega)]
    rfl
  · simp only [g4.bwt]; exact bs
  · intro s2 h2
    have hb1 := h2.bwt
    simp only [g4.bwt] at hb1
    have hC : s2.C2 = s.C2 := by rw [h2.C2, g4.C2]
    simp only [IndSt.push, Tot_bind, Mem.Tot_rd, Mem.Tot_wr, Tot_ok, hC, C20]
    have hbs : s2.bwt.size = x + 1 := by rw [hb1]; exact bs
    refine ⟨by omega, by omega, by omega, ?_⟩
    have hM3 : s2.M3 = s.M3 := by rw [h2.M3, g4.M3]
    suffices hh : IInv1 T x r w X z (r x + 1) _ by rw [hr0] at hh; exact hh
    refine ⟨h2.qL, ?_, ?_, h2.M2s, h2.M2, by simp only [hM3]; exact M3s, ?_, C2s, ?_, hbs, ?_, ?_, ?_, ?_, ?_⟩
    · rw [h2.qo _ (by decide)]
      refine g5.congr (fun k j => ?_)
      rw [hr0]
      constructor
      · rintro ⟨h | h, h'⟩
        · exact absurd ⟨h.2, h.1⟩ h'
        · exact ⟨h.1, h.2, by have := R.pos h.1.2.1; omega⟩
      · rintro ⟨h, h', -⟩
        exact ⟨Or.inr ⟨h, h'⟩, fun hh => by omega⟩
    · rw [h2.qo _ (by decide)]
      simp only
      rw [g4.q _ (by decide)]
      refine qS.congr (fun k j => ?_)
      constructor
      · exact False.elim
      · rintro ⟨h, -, -, h', -⟩
        rw [hr0] at h'
        have := R.pos h; omega
    · intro c hc
      simp only [hM3]
      exact (M23 (c + 1) (by omega)).2
    · intro c hc
      simp only [Mem.upd_data_ne _ _ (show c + 1 ≠ 0 by omega)]
      rw [C2 c hc, cnt_false (fun i hi h => by
        have := R.pos hi
        rw [hr0] at h; omega)]
      rfl
    · simp
    · intro j j1 j2 j4
      have hp := R.pos j1
      simp only [Mem.upd_data_ne _ _ (show r j ≠ 0 by omega)]
      rcases (R.lt_succ (Nat.le_refl _) (by omega)).1 j4 with h | h
      · rw [hr0] at h; omega
      · have : j = x - 1 := by omega
        subst this
        rw [hb1, Mem.upd_data_self]
    · intro j j1 j2
      have := R.pos j1.2.1
      rw [hr0] at j2; omega
    · intro j1 j2
      have hp := R.pos (show 0 < x by omega)
      simp only [Mem.upd_data_ne _ _ (show r 0 ≠ 0 by omega)]
      rw [hb1, Mem.upd_data_ne _ _ (fun hh => ?_)]
      · rw [Mem.upd_data_ne _ _ (by omega), hz]
      · have := R.inj (by omega) (by omega) hh
        rw [← this, j1] at hL; cases hL
    · intro j1 j2
      have := R.pos (show 0 < x by omega)
      rw [hr0] at j2; omega

end

end Flbwt.Gen
