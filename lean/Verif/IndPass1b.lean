import Verif.IndPass1

/-!
# First pass of inducing, continued: draining the queues, set-up
-/

namespace Flbwt

variable {T : Nat → Nat} {n z : Nat}

/-- `whileM_spec` with the measure as a ghost argument of the invariant -/
theorem whileM_ghost {σ β : Type _} (Inv : Nat → σ → Prop) (Q : β → Prop) (fuel : Nat) (k : Nat) (s : σ)
    (f : σ → M (σ ⊕ β)) (h0 : Inv k s) (hf : k < fuel)
    (hs : ∀ k s, Inv k s → Tot (f s) (fun r => match r with
      | .inl s' => ∃ k', k' < k ∧ Inv k' s'
      | .inr b => Q b)) :
    Tot (whileM fuel s f) Q := by
  induction fuel generalizing s k with
  | zero => omega
  | succ c ih =>
    simp only [whileM, Tot_bind]
    refine (hs k s h0).mono ?_
    intro r hr
    cases r with
    | inl s' =>
      obtain ⟨k', h1, h2⟩ := hr
      exact ih k' s' h2 (by omega)
    | inr b => exact hr

theorem rho_surj : ∀ r, r ≤ n → ∃ p, p ≤ n ∧ rho T n p = r := by
  intro r hr
  obtain ⟨p, h1, h2⟩ := inj_surj (n := n + 1) (rho T n) (fun q hq => by have := rho_le (T := T) (show q ≤ n by omega); omega)
    (fun a ha b hb h => rho_inj (by omega) (by omega) h) r (by omega)
  exact ⟨p, by omega, h2⟩

theorem rho_zone {y : Nat} (hy : y < n) : bst T n (T y) < rho T n y ∧ rho T n y ≤ bst T n (T y + 1) := by
  cases h : isS T n y
  · have h1 := rho_L_zone hy h
    have h2 := sbeg_le (T := T) (n := n) (T y)
    omega
  · have h1 := rho_S_zone hy h
    have h2 := sbeg_gt (T := T) (n := n) (T y)
    omega

theorem zone_T {a y : Nat} (hy : y < n) (h1 : bst T n a < rho T n y) (h2 : rho T n y ≤ bst T n (a + 1)) : T y = a := by
  have h3 := rho_zone (T := T) hy
  rcases Nat.lt_trichotomy (T y) a with h | h | h
  · have := bst_mono (T := T) (n := n) (show T y + 1 ≤ a by omega); omega
  · exact h
  · have := bst_mono (T := T) (n := n) (show a + 1 ≤ T y by omega); omega

theorem zoneL {a y : Nat} (hy : y < n) (h1 : bst T n a < rho T n y) (h2 : rho T n y < sbeg T n a) :
    T y = a ∧ isS T n y = false := by
  have h3 := sbeg_le (T := T) (n := n) a
  have h4 := zone_T hy h1 (by omega)
  refine ⟨h4, ?_⟩
  by_contra hc
  have := rho_S_zone hy (by simpa using hc)
  rw [h4] at this; omega

theorem zoneM {a y : Nat} (hy : y < n) (h1 : sbeg T n a ≤ rho T n y) (h2 : rho T n y ≤ bst T n (a + 1)) :
    T y = a ∧ isS T n y = true := by
  have h3 := sbeg_gt (T := T) (n := n) a
  have h4 := zone_T hy (by omega) h2
  refine ⟨h4, ?_⟩
  by_contra hc
  have := rho_L_zone hy (by simpa using hc)
  rw [h4] at this; omega

theorem chainL {a b : Nat} (hb : bst T n a < b) : ∀ (r y : Nat), rho T n y = r → y < n → b ≤ rho T n y →
    rho T n y < sbeg T n a → ∃ z, AL T n b b (a + 1) z ∧ rho T n z ≤ rho T n y := by
  intro r
  induction r using Nat.strongRecOn with
  | ind r ih =>
    intro y hr hy h1 h2
    obtain ⟨h3, h4⟩ := zoneL hy (by omega) h2
    have h5 := rho_L_succ hy h4
    rcases Nat.lt_or_ge (rho T n (y + 1)) b with h6 | h6
    · exact ⟨y, ⟨hy, h4, by omega, h6, h1⟩, Nat.le_refl _⟩
    · have h7 : y + 1 < n := by
        by_contra hc
        have : y + 1 = n := by omega
        rw [this, rho_n] at h6; omega
      obtain ⟨z, h8, h9⟩ := ih _ (by omega) (y + 1) rfl h7 h6 (by omega)
      exact ⟨z, h8, by omega⟩

section
variable {e : IndEnv} {w : Nat} {X : Nat → Nat} (Y : Layout T n e w X)
include Y

/-- One iteration: the queue has a minimum `x`, and nothing relevant is between the threshold and `x`. -/
theorem step1_spec {s : IndSt} {a b t : Nat} {m : Int} (ha : a < 257) (h : IInv1 T n w X z b s)
    (ht : t = TYPE_L ∨ t = TYPE_LMS)
    (hQ : ((s.q t).data (a + 1)).isEmpty ≠ true)
    (hmin : ∀ x, (t = TYPE_L → AL T n b b (a + 1) x) → (t = TYPE_LMS → AM T n b (a + 1) x) →
      (∀ z, (t = TYPE_L → AL T n b b (a + 1) z) → (t = TYPE_LMS → AM T n b (a + 1) z) → rho T n x ≤ rho T n z) →
      (∀ y, D1 T n y → b ≤ rho T n y → rho T n x ≤ rho T n y) ∧ (t = TYPE_L → m = rho T n x)) :
    Tot (step1 e (a + 1) t (s, m)) (fun r => match r with
      | .inl s' => ∃ x, x < n ∧ b ≤ rho T n x ∧ (t = TYPE_L → AL T n b b (a + 1) x) ∧ (t = TYPE_LMS → AM T n b (a + 1) x) ∧
          IInv1 T n w X z (rho T n x + 1) s'.1 ∧ s'.2 = m + 1 ∧ (t = TYPE_L → m = rho T n x)
      | .inr _ => False) := by
  have key : ∀ x, (t = TYPE_L → AL T n b b (a + 1) x) → (t = TYPE_LMS → AM T n b (a + 1) x) → x < n ∧ b ≤ rho T n x ∧ T x = a := by
    intro x h1 h2
    rcases ht with h3 | h3
    · have := h1 h3; exact ⟨this.1, this.2.2.2.2, by have := this.2.2.1; omega⟩
    · have := h2 h3; exact ⟨this.1.2.1, this.2.2, by have := this.2.1; omega⟩
  unfold step1
  simp only
  have hrow : ∃ A, RowHas w (s.q t) X (up T n) A ∧
      ∀ j, A (a + 1) j ↔ (t = TYPE_L → AL T n b b (a + 1) j) ∧ (t = TYPE_LMS → AM T n b (a + 1) j) := by
    rcases ht with h3 | h3
    · subst h3
      exact ⟨_, h.qL, fun j => by simp [TYPE_L, TYPE_LMS]⟩
    · subst h3
      exact ⟨_, h.qM, fun j => by simp [TYPE_L, TYPE_LMS]⟩
  obtain ⟨A, hA, hA'⟩ := hrow
  rw [Mem.rd_ok _ (by rw [hA.size]; omega)]
  simp only [Tot_bind, Tot_ok]
  rw [if_neg hQ]
  simp only [Tot_bind]
  -- the minimum
  obtain ⟨x, hx1, hx2⟩ := (hA.has (a + 1) (by omega)).min hQ
  obtain ⟨hxa, hxb⟩ := (hA' x).1 hx1
  obtain ⟨hxn, hxr, hxT⟩ := key x hxa hxb
  have hx3 : ∀ z, (t = TYPE_L → AL T n b b (a + 1) z) → (t = TYPE_LMS → AM T n b (a + 1) z) → rho T n x ≤ rho T n z := by
    intro z h1 h2
    by_cases hzx : z = x
    · subst hzx; exact Nat.le_refl _
    · have := hx2 z ((hA' z).2 ⟨h1, h2⟩) hzx
      unfold up at this; omega
  obtain ⟨hx4, hx5⟩ := hmin x hxa hxb hx3
  have h' : IInv1 T n w X z (rho T n x) s := h.raise (fun y hy => by
    constructor
    · intro g; omega
    · intro g; by_contra hc; have := hx4 y hy (by omega); omega)
  -- rows at the new threshold
  have hrow : ∃ A, RowHas w (s.q t) X (up T n) A ∧
      (∀ k j, A k j ↔ (t = TYPE_L → AL T n (rho T n x) (rho T n x) k j) ∧ (t = TYPE_LMS → AM T n (rho T n x) k j)) := by
    rcases ht with h3 | h3
    · subst h3
      exact ⟨_, h'.qL, fun k j => by simp [TYPE_L, TYPE_LMS]⟩
    · subst h3
      exact ⟨_, h'.qM, fun k j => by simp [TYPE_L, TYPE_LMS]⟩
  obtain ⟨B, hB, hB'⟩ := hrow
  refine (deq_row hB e.sj (c := a + 1) (by omega) Y.w63 hQ).mono ?_
  rintro ⟨v, s1⟩ ⟨x', g1, g2, g3, g4, g5⟩
  simp only at g2 g4 g5 ⊢
  have hxx : x' = x := by
    by_contra hc
    have hBx : B (a + 1) x := by
      rw [hB']
      refine ⟨fun ht' => ?_, fun ht' => ?_⟩
      · have := hxa ht'
        refine ⟨this.1, this.2.1, this.2.2.1, ?_, Nat.le_refl _⟩
        exact rho_L_succ this.1 this.2.1
      · exact ⟨(hxb ht').1, (hxb ht').2.1, Nat.le_refl _⟩
    have h1 := g3 x hBx (fun h => hc h.symm)
    have h2 : rho T n x ≤ rho T n x' := by
      have := (hB' (a + 1) x').1 g1
      rcases ht with h3 | h3
      · exact (this.1 h3).2.2.2.2
      · exact (this.2 h3).2.2
    unfold up at h1; omega
  subst hxx
  have hd : t = TYPE_L ∧ isS T n x' = false ∨ t = TYPE_LMS ∧ isLMS T n x' := by
    rcases ht with h3 | h3
    · exact Or.inl ⟨h3, (hxa h3).2.1⟩
    · exact Or.inr ⟨h3, (hxb h3).1⟩
  have hqL : RowHas w (s1.q TYPE_L) X (up T n) (AL T n (rho T n x') (rho T n x' + 1)) := by
    rcases hd with ⟨h3, h4⟩ | ⟨h3, h4⟩
    · subst h3
      refine g5.congr (fun k j => ?_)
      rw [hB']
      constructor
      · rintro ⟨h1, h2⟩
        have h1 := h1.1 rfl
        refine ⟨h1.1, h1.2.1, h1.2.2.1, h1.2.2.2.1, ?_⟩
        have h5 := h1.2.2.2.2
        rcases Nat.lt_or_eq_of_le h5 with h6 | h6
        · exact h6
        · have := rho_inj (by omega) (by have := h1.1; omega) h6
          subst this
          exact absurd ⟨by have := h1.2.2.1; omega, rfl⟩ h2
      · rintro ⟨h1, h2, h5, h6, h7⟩
        exact ⟨⟨fun _ => ⟨h1, h2, h5, h6, by omega⟩, fun h => by cases h⟩, by rintro ⟨-, rfl⟩; omega⟩
    · subst h3
      rw [g4.q _ (by decide)]
      refine h'.qL.congr (fun k j => ?_)
      constructor
      · rintro ⟨h1, h2, h5, h6, h7⟩
        refine ⟨h1, h2, h5, h6, ?_⟩
        rcases Nat.lt_or_eq_of_le h7 with h8 | h8
        · exact h8
        · have := rho_inj (by omega) (by omega) h8
          subst this
          rw [h4.2.2.1] at h2; cases h2
      · rintro ⟨h1, h2, h5, h6, h7⟩; exact ⟨h1, h2, h5, h6, by omega⟩
  have hqM : RowHas w (s1.q TYPE_LMS) X (up T n) (AM T n (rho T n x' + 1)) := by
    rcases hd with ⟨h3, h4⟩ | ⟨h3, h4⟩
    · subst h3
      rw [g4.q _ (by decide)]
      refine h'.qM.congr (fun k j => ?_)
      constructor
      · rintro ⟨h1, h2, h5⟩
        refine ⟨h1, h2, ?_⟩
        rcases Nat.lt_or_eq_of_le h5 with h8 | h8
        · exact h8
        · have := rho_inj (by omega) (by have := h1.2.1; omega) h8
          subst this
          rw [h1.2.2.1] at h4; cases h4
      · rintro ⟨h1, h2, h5⟩; exact ⟨h1, h2, by omega⟩
    · subst h3
      refine g5.congr (fun k j => ?_)
      rw [hB']
      constructor
      · rintro ⟨h1, h2⟩
        have h1 := h1.2 rfl
        refine ⟨h1.1, h1.2.1, ?_⟩
        have h5 := h1.2.2
        rcases Nat.lt_or_eq_of_le h5 with h6 | h6
        · exact h6
        · have := rho_inj (by omega) (by have := h1.1.2.1; omega) h6
          subst this
          exact absurd ⟨by have := h1.2.1; omega, rfl⟩ h2
      · rintro ⟨h1, h2, h5⟩
        exact ⟨⟨(fun h => by cases h), fun _ => ⟨h1, h2, by omega⟩⟩, by rintro ⟨-, rfl⟩; omega⟩
  have hqS : RowHas w (s1.q TYPE_S) X (dn T n) (AS T n (rho T n x')) := by
    have : TYPE_S ≠ t := by rcases ht with h3 | h3 <;> subst h3 <;> decide
    rw [g4.q _ this]; exact h'.qS
  have hfin := visit1_spec Y (m := m) hxn h' g4 hd (fun hL => by
    rcases hd with h3 | h3
    · exact hx5 h3.1
    · rw [h3.2.2.2.1] at hL; cases hL) hqL hqM hqS
  rw [hxT] at hfin
  rw [g2]
  refine hfin.mono (fun s2 h2 => ?_)
  exact ⟨x', hxn, hxr, hxa, hxb, h2, rfl, hx5⟩

theorem drainL_tight {s : IndSt} {a fuel : Nat} (K : Counts T n e.M NL e.C) (ha : a < 257) (hf : sbeg T n a - bst T n a ≤ fuel) (h : IInv1 T n w X z (1 + bst T n a) s) :
    Tot (drain1 e fuel (a + 1) TYPE_L s) (IInv1 T n w X z (sbeg T n a)) := by
  have hz1 := sbeg_gt (T := T) (n := n) a
  have hz2 := sbeg_le (T := T) (n := n) a
  have hz3 := bst_le (T := T) (n := n) (a + 1)
  unfold drain1 rowStart
  rw [Mem.rd_ok _ (by rw [h.M3s]; omega)]
  simp only [Tot_bind, Tot_ok, show ¬ (TYPE_L = TYPE_LMS) by decide, if_false, h.M3 a ha,
    toI64_eq (show ((1 + bst T n a : Nat) : Int) < 2 ^ 63 by have := K.small; have := bst_le (T := T) (n := n) a; omega)]
  refine whileM_ghost (fun k (st : IndSt × Int) => ∃ b, IInv1 T n w X z b st.1 ∧ bst T n a < b ∧ b ≤ sbeg T n a ∧ st.2 = b ∧
    k = sbeg T n a - b) _ fuel (sbeg T n a - (1 + bst T n a)) _ _ ⟨_, h, by omega, by omega, rfl, rfl⟩ (by omega) ?_
  rintro k ⟨s1, m⟩ ⟨b, h1, h2, h3, h4, h5⟩
  simp only at h1 h4
  by_cases hQ : ((s1.q TYPE_L).data (a + 1)).isEmpty = true
  · unfold step1
    simp only
    rw [Mem.rd_ok _ (by rw [h1.qL.size]; omega)]
    simp only [Tot_bind, Tot_ok]
    rw [if_pos hQ, Tot_ok]
    refine h1.raise (fun y hy => ?_)
    constructor
    · intro g; omega
    · intro g
      by_contra hc
      have hyn : y < n := by
        rcases hy with hy | hy | hy
        · subst hy; rw [rho_n] at hc; omega
        · exact hy.1
        · exact hy.2.1
      obtain ⟨z, hz, -⟩ := chainL h2 _ y rfl hyn (by omega) g
      exact (h1.qL.has (a + 1) (by omega)).isEmpty.1 hQ z hz
  · refine (step1_spec Y ha h1 (Or.inl rfl) hQ ?_).mono ?_
    · intro x hx _ hmin
      have hx := hx rfl
      have hxs : rho T n x < sbeg T n a := by
        have := rho_L_zone hx.1 hx.2.1
        have hT : T x = a := by have := hx.2.2.1; omega
        rw [hT] at this; exact this.2
      have hno : ∀ y, y < n → b ≤ rho T n y → rho T n x ≤ rho T n y := by
        intro y hyn hy
        by_contra hc
        obtain ⟨z, hz, hz'⟩ := chainL h2 _ y rfl hyn hy (by omega)
        have := hmin z (fun _ => hz) (fun h => by cases h)
        omega
      refine ⟨fun y hy hyb => hno y ?_ hyb, fun _ => ?_⟩
      · rcases hy with hy | hy | hy
        · subst hy; rw [rho_n] at hyb; omega
        · exact hy.1
        · exact hy.2.1
      · obtain ⟨y, hy1, hy2⟩ := rho_surj (T := T) (n := n) b (by have := hx.2.2.2.2; omega)
        have hyn : y < n := by
          rcases Nat.lt_or_eq_of_le hy1 with h | h
          · exact h
          · subst h; rw [rho_n] at hy2; omega
        have := hno y hyn (by omega)
        have := hx.2.2.2.2
        omega
    · intro r hr
      cases r with
      | inr _ => exact hr.elim
      | inl s' =>
        obtain ⟨x, hxn, hxb, hx, -, hi, hm, hmx⟩ := hr
        have hx := hx rfl
        have hmx := hmx rfl
        have hxs : rho T n x < sbeg T n a := by
          have := rho_L_zone hx.1 hx.2.1
          have hT : T x = a := by have := hx.2.2.1; omega
          rw [hT] at this; exact this.2
        refine ⟨sbeg T n a - (rho T n x + 1), by omega, rho T n x + 1, hi, by omega, by omega, by rw [hm]; omega, rfl⟩

theorem drainM_tight {s : IndSt} {a fuel : Nat} (K : Counts T n e.M NL e.C) (ha : a < 257)
    (hf : 2 + bst T n (a + 1) - sbeg T n a ≤ fuel)
    (h : IInv1 T n w X z (sbeg T n a) s) :
    Tot (drain1 e fuel (a + 1) TYPE_LMS s) (IInv1 T n w X z (1 + bst T n (a + 1))) := by
  have hz1 := sbeg_gt (T := T) (n := n) a
  have hz2 := sbeg_le (T := T) (n := n) a
  have hz3 := bst_le (T := T) (n := n) (a + 1)
  unfold drain1 rowStart
  rw [Mem.rd_ok _ (by rw [h.M3s]; omega)]
  simp only [Tot_bind, Tot_ok, if_true, Mem.Tot_rd]
  refine ⟨by rw [K.Ms]; omega, by rw [K.Cs]; omega, ?_⟩
  refine whileM_ghost (fun k (st : IndSt × Int) => ∃ b, IInv1 T n w X z b st.1 ∧ sbeg T n a ≤ b ∧ b ≤ 1 + bst T n (a + 1) ∧
    k = 1 + bst T n (a + 1) - b) _ fuel (1 + bst T n (a + 1) - sbeg T n a) _ _ ⟨_, h, by omega, by omega, rfl⟩ (by omega) ?_
  rintro k ⟨s1, m⟩ ⟨b, h1, h2, h3, h5⟩
  simp only at h1
  have hin : ∀ y, D1 T n y → b ≤ rho T n y → rho T n y ≤ bst T n (a + 1) → AM T n b (a + 1) y := by
    intro y hy g1 g2
    have hyn : y < n := by
      rcases hy with hy | hy | hy
      · subst hy; rw [rho_n] at g1; omega
      · exact hy.1
      · exact hy.2.1
    obtain ⟨g3, g4⟩ := zoneM (T := T) hyn (a := a) (by omega) g2
    rcases hy with hy | hy | hy
    · omega
    · rw [hy.2] at g4; cases g4
    · exact ⟨hy, by omega, g1⟩
  by_cases hQ : ((s1.q TYPE_LMS).data (a + 1)).isEmpty = true
  · unfold step1
    simp only
    rw [Mem.rd_ok _ (by rw [h1.qM.size]; omega)]
    simp only [Tot_bind, Tot_ok]
    rw [if_pos hQ, Tot_ok]
    refine h1.raise (fun y hy => ?_)
    constructor
    · intro g; omega
    · intro g
      by_contra hc
      exact (h1.qM.has (a + 1) (by omega)).isEmpty.1 hQ y (hin y hy (by omega) (by omega))
  · refine (step1_spec Y ha h1 (Or.inr rfl) hQ ?_).mono ?_
    · intro x _ hx hmin
      have hx := hx rfl
      have hxs : rho T n x ≤ bst T n (a + 1) := by
        have := rho_S_zone hx.1.2.1 hx.1.2.2.1
        have hT : T x = a := by have := hx.2.1; omega
        rw [hT] at this; exact this.2
      refine ⟨fun y hy hyb => ?_, fun h => by cases h⟩
      by_contra hc
      have := hmin y (fun h => by cases h) (fun _ => hin y hy hyb (by omega))
      omega
    · intro r hr
      cases r with
      | inr _ => exact hr.elim
      | inl s' =>
        obtain ⟨x, hxn, hxb, -, hx, hi, -, -⟩ := hr
        have hx := hx rfl
        have hxs : rho T n x ≤ bst T n (a + 1) := by
          have := rho_S_zone hx.1.2.1 hx.1.2.2.1
          have hT : T x = a := by have := hx.2.1; omega
          rw [hT] at this; exact this.2
        exact ⟨1 + bst T n (a + 1) - (rho T n x + 1), by omega, rho T n x + 1, hi, by omega, by omega, rfl⟩

theorem drainL_spec {s : IndSt} {a fuel : Nat} (K : Counts T n e.M NL e.C) (ha : a < 257) (hf : n + 2 ≤ fuel) (h : IInv1 T n w X z (1 + bst T n a) s) :
    Tot (drain1 e fuel (a + 1) TYPE_L s) (IInv1 T n w X z (sbeg T n a)) := by
  have hz2 := sbeg_le (T := T) (n := n) a
  have hz3 := bst_le (T := T) (n := n) (a + 1)
  exact drainL_tight Y K ha (by omega) h

theorem drainM_spec {s : IndSt} {a fuel : Nat} (K : Counts T n e.M NL e.C) (ha : a < 257) (hf : n + 2 ≤ fuel)
    (h : IInv1 T n w X z (sbeg T n a) s) :
    Tot (drain1 e fuel (a + 1) TYPE_LMS s) (IInv1 T n w X z (1 + bst T n (a + 1))) := by
  have hz3 := bst_le (T := T) (n := n) (a + 1)
  exact drainM_tight Y K ha (by omega) h

/-- The first pass. -/
theorem pass1_spec {s : IndSt} {fuel : Nat} (K : Counts T n e.M NL e.C) (hf : n + 2 ≤ fuel) (h : IInv1 T n w X z 1 s) :
    Tot (pass1 e fuel s) (IInv1 T n w X z (n + 1)) := by
  unfold pass1
  have hb0 : bst T n 0 = 0 := cnt_false (fun q _ h => by omega)
  refine (loopUp_spec (fun c s => IInv1 T n w X z (1 + bst T n (c - 1)) s) 1 257 s _ (by simpa [hb0] using h) ?_).mono ?_
  · intro c s1 hc1 hc2 h1
    obtain ⟨a, rfl⟩ : ∃ a, c = a + 1 := ⟨c - 1, by omega⟩
    simp only [Nat.add_sub_cancel] at h1 ⊢
    refine Tot.bind (drainL_spec Y K (by omega) hf h1) (fun s2 h2 => ?_)
    exact drainM_spec Y K (by omega) hf h2
  · intro s1 h1
    have : bst T n 257 = n := cnt_true (fun q hq => by have := Y.byte q hq; omega)
    simp only [show 1 + 257 - 1 = 257 by omega, this] at h1
    rwa [Nat.add_comm] at h1

end
end Flbwt
