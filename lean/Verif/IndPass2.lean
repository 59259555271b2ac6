import Verif.IndSetup

/-!
# Second pass of inducing (proof)
-/

namespace Flbwt

variable {T : Nat → Nat} {n z : Nat}

/-- S-type positions induced (the next suffix is in a row from `a` on) and not yet processed (below `b`) -/
def A2 (T : Nat → Nat) (n a b k j : Nat) : Prop :=
  j < n ∧ isS T n j = true ∧ T j + 1 = k ∧ a ≤ rho T n (j + 1) ∧ rho T n j < b

/-- State of the second pass when exactly the rows from `a` on have been processed. `z` is what the row of the
whole string holds. -/
structure IInv2 (T : Nat → Nat) (n w : Nat) (X : Nat → Nat) (z a : Nat) (s : IndSt) : Prop where
  qL : RowHas w (s.q TYPE_L) (fun j => X (j + 1) - 1) (dn T n) (A2 T n a a)
  qS : RowHas w (s.q TYPE_S) X (dn T n) (AS T n a)
  M2s : s.M2.size = 258
  M2 : ∀ c, c < 257 → s.M2.data (c + 1) + cnt n (fun i => isS T n i = true ∧ T i = c ∧ a ≤ rho T n (i + 1)) = bst T n (c + 1)
  C2s : s.C2.size = 258
  C2 : ∀ c, c < 257 → s.C2.data (c + 1) = sbeg T n c + cnt n (fun i => isLMS T n i ∧ T i = c ∧ rho T n (i + 1) < a)
  bs : s.bwt.size = n + 1
  b0 : s.bwt.data 0 = T (n - 1)
  bL : ∀ j, j < n → isS T n j = false → 1 ≤ j → s.bwt.data (rho T n j) = T (j - 1)
  bS : ∀ j, j < n → isS T n j = true → 1 ≤ j → a ≤ rho T n (j + 1) → s.bwt.data (rho T n j) = T (j - 1)
  bM : ∀ j, isLMS T n j → rho T n (j + 1) < a → s.bwt.data (stk T n j) = T (j - 1)
  bZ : s.bwt.data (rho T n 0) = z
  last : isS T n 0 = false ∨ a ≤ rho T n 1 → s.last = some (rho T n 0)

/-- the positions that matter in the second pass -/
def D2 (T : Nat → Nat) (n x : Nat) : Prop := x < n ∧ (isS T n x = true ∨ 1 ≤ x ∧ isS T n (x - 1) = true)

theorem D2_succ {j : Nat} (hj : j < n) (hS : isS T n j = true) : D2 T n (j + 1) :=
  ⟨isS_lt_n hj hS, Or.inr ⟨by omega, by simpa using hS⟩⟩

theorem IInv2.lower {w : Nat} {X : Nat → Nat} {a b : Nat} {s : IndSt} (hn : 0 < n) (h : IInv2 T n w X z a s)
    (hab : ∀ x, D2 T n x → (rho T n x < a ↔ rho T n x < b)) : IInv2 T n w X z b s := by
  have hS : ∀ j, j < n → isS T n j = true → (rho T n j < a ↔ rho T n j < b) := fun j h1 h2 => hab j ⟨h1, Or.inl h2⟩
  have hS1 : ∀ j, j < n → isS T n j = true → (rho T n (j + 1) < a ↔ rho T n (j + 1) < b) :=
    fun j h1 h2 => hab _ (D2_succ h1 h2)
  refine ⟨h.qL.congr ?_, h.qS.congr ?_, h.M2s, ?_, h.C2s, ?_, h.bs, h.b0, h.bL, ?_, ?_, h.bZ, ?_⟩
  · intro c j
    unfold A2
    constructor
    · rintro ⟨h1, h2, h3, h4, h5⟩
      have := hS j h1 h2; have := hS1 j h1 h2; exact ⟨h1, h2, h3, by omega, by omega⟩
    · rintro ⟨h1, h2, h3, h4, h5⟩
      have := hS j h1 h2; have := hS1 j h1 h2; exact ⟨h1, h2, h3, by omega, by omega⟩
  · intro c j
    unfold AS
    constructor
    · rintro ⟨h1, h2, h3, h4, h5⟩; have := hab j ⟨h1, Or.inr h5⟩; exact ⟨h1, h2, h3, by omega, h5⟩
    · rintro ⟨h1, h2, h3, h4, h5⟩; have := hab j ⟨h1, Or.inr h5⟩; exact ⟨h1, h2, h3, by omega, h5⟩
  · intro c hc
    rw [← h.M2 c hc]
    congr 1
    refine cnt_congr (fun i hi => ?_)
    constructor
    · rintro ⟨h1, h2, h3⟩; have := hS1 i hi h1; exact ⟨h1, h2, by omega⟩
    · rintro ⟨h1, h2, h3⟩; have := hS1 i hi h1; exact ⟨h1, h2, by omega⟩
  · intro c hc
    rw [h.C2 c hc]
    congr 1
    refine cnt_congr (fun i hi => ?_)
    constructor
    · rintro ⟨h1, h2, h3⟩; exact ⟨h1, h2, (hS1 i hi h1.2.2.1).1 h3⟩
    · rintro ⟨h1, h2, h3⟩; exact ⟨h1, h2, (hS1 i hi h1.2.2.1).2 h3⟩
  · intro j h1 h2 h3 h4; have := hS1 j h1 h2; exact h.bS j h1 h2 h3 (by omega)
  · intro j h1 h2; exact h.bM j h1 ((hS1 j h1.2.1 h1.2.2.1).2 h2)
  · intro h1
    refine h.last ?_
    rcases h1 with h1 | h1
    · exact Or.inl h1
    · cases hs : isS T n 0
      · exact Or.inl rfl
      · have := hS1 0 hn hs
        simp only [Nat.zero_add] at this
        exact Or.inr (by omega)

/-- an S-type character is not the largest byte -/
theorem S_lt_255 {j : Nat} (hb : ∀ j, j < n → T j < 256) (hj : j < n) (hS : isS T n j = true) : T j < 255 := by
  obtain ⟨d, hd⟩ : ∃ d, d = n - j := ⟨_, rfl⟩
  induction d generalizing j with
  | zero => omega
  | succ d ih =>
    obtain ⟨h1, h2 | ⟨h2, h3⟩⟩ := (S_iff hj).1 hS
    · have := hb (j + 1) h1; omega
    · have := ih h1 h3 (by omega); omega

theorem S_pred_le {x : Nat} (hx1 : 1 ≤ x) (hxn : x < n) (hS : isS T n (x - 1) = true) : T (x - 1) ≤ T x := by
  obtain ⟨j, rfl⟩ : ∃ j, x = j + 1 := ⟨x - 1, by omega⟩
  simp only [Nat.add_sub_cancel] at hS ⊢
  obtain ⟨-, h | h⟩ := (S_iff (show j < n by omega)).1 hS <;> omega

theorem rho_le_succ {x y : Nat} (hx : x ≤ n) (hy : y ≤ n) :
    rho T n x ≤ rho T n y ↔ rho T n x + 1 ≤ rho T n y ∨ y = x := by
  constructor
  · intro h
    rcases Nat.lt_or_eq_of_le h with h1 | h1
    · exact Or.inl h1
    · exact Or.inr (rho_inj hy hx h1.symm)
  · rintro (h | rfl) <;> omega

section
variable {e : IndEnv} {w : Nat} {X : Nat → Nat} (Y : Layout T n e w X)
include Y

/-- Processing a position whose predecessor is S-type. -/
theorem visit2_S {s0 s : IndSt} {x t : Nat} (hx1 : 1 ≤ x) (hxn : x < n) (hS : isS T n (x - 1) = true)
    (h : IInv2 T n w X z (rho T n x + 1) s0) (hs : SameBut t s0 s)
    (qL : RowHas w (s.q TYPE_L) (fun j => X (j + 1) - 1) (dn T n) (A2 T n (rho T n x + 1) (rho T n x)))
    (qS : RowHas w (s.q TYPE_S) X (dn T n) (AS T n (rho T n x))) :
    Tot (visit2 e (T x + 1) (e.base + X x) s) (IInv2 T n w X z (rho T n x)) := by
  have hx' : x ≤ n := by omega
  have hn64 := Y.nlt
  have hle := S_pred_le hx1 hxn hS
  have hTb := Y.byte x hxn
  obtain ⟨j, rfl⟩ : ∃ j, x = j + 1 := ⟨x - 1, by omega⟩
  simp only [Nat.add_sub_cancel] at hS hle
  have hj : j < n := by omega
  have hrj := rho_S_succ hj hS
  have hrp := rho_pos (T := T) hj
  have hrn := rho_le (T := T) hx'
  have hXp := Y.pos (j + 1) (by omega) hx'
  unfold visit2
  rw [Y.prev (j + 1) hx1 hx']
  simp only [Nat.add_sub_cancel, Tot_bind, Tot_ok]
  rw [if_pos (by omega)]
  refine Tot.bind (enq_row qL e.sj (n := n) (x := j) (by omega) Y.w63 (by omega) (fun i hi => Nat.le_of_lt hi.1)
    (by have := Y.lt (j + 1) hx'; omega) ?_ (by omega)) ?_
  · rintro i ⟨h1, h2, h3, h4, h5⟩
    unfold dn
    have := (rho_same (T := T) hj h1 (by omega)).2 (by omega)
    omega
  rintro s1 ⟨hs1, hr1⟩
  -- the pieces of the new state that do not depend on the case
  have hqL : RowHas w (s1.q TYPE_L) (fun j => X (j + 1) - 1) (dn T n) (A2 T n (rho T n (j + 1)) (rho T n (j + 1))) := by
    refine hr1.congr (fun k i => ?_)
    constructor
    · rintro (⟨h1, h2, h3, h4, h5⟩ | ⟨rfl, rfl⟩)
      · exact ⟨h1, h2, h3, by omega, h5⟩
      · exact ⟨hj, hS, rfl, Nat.le_refl _, hrj⟩
    · rintro ⟨h1, h2, h3, h4, h5⟩
      rcases (rho_le_succ hx' (by omega)).1 h4 with h6 | h6
      · exact Or.inl ⟨h1, h2, h3, h6, h5⟩
      · have : i = j := by omega
        subst this; exact Or.inr ⟨h3.symm, rfl⟩
  have hqS : RowHas w (s1.q TYPE_S) X (dn T n) (AS T n (rho T n (j + 1))) := by
    rw [hs1.q _ (by decide)]; exact qS
  have hM2s : s1.M2.size = 258 := by rw [hs1.M2, hs.M2]; exact h.M2s
  have hC2s : s1.C2.size = 258 := by rw [hs1.C2, hs.C2]; exact h.C2s
  have hbs : s1.bwt.size = n + 1 := by rw [hs1.bwt, hs.bwt]; exact h.bs
  have hrow : s1.M2.data (T j + 1) = rho T n j := by
    have h1 := h.M2 (T j) (by omega)
    have h2 := rho_S_eq hj hS
    rw [hs1.M2, hs.M2]
    have h3 : cnt n (fun i => isS T n i = true ∧ T i = T j ∧ rho T n (j + 1) + 1 ≤ rho T n (i + 1)) =
      cnt n (fun i => isS T n i = true ∧ T i = T j ∧ rho T n (j + 1) < rho T n (i + 1)) :=
        cnt_congr (fun i _ => Iff.rfl)
    omega
  have hM2 : ∀ c, c < 257 → (s1.M2.upd (T j + 1) (rho T n j - 1)).data (c + 1) +
      cnt n (fun i => isS T n i = true ∧ T i = c ∧ rho T n (j + 1) ≤ rho T n (i + 1)) = bst T n (c + 1) := by
    intro c hc
    by_cases hcj : c = T j
    · subst hcj
      have h2 := rho_S_eq hj hS
      have h3 : cnt n (fun i => isS T n i = true ∧ T i = T j ∧ rho T n (j + 1) ≤ rho T n (i + 1)) =
        cnt n (fun i => isS T n i = true ∧ T i = T j ∧ rho T n (j + 1) < rho T n (i + 1)) + 1 := by
          refine cnt_insert hj (fun i hi => ?_) (by simp)
          rw [rho_le_succ hx' (by omega)]
          constructor
          · rintro ⟨h1, h2, h3 | h3⟩
            · exact Or.inl ⟨h1, h2, h3⟩
            · exact Or.inr (by omega)
          · rintro (⟨h1, h2, h3⟩ | rfl)
            · exact ⟨h1, h2, Or.inl h3⟩
            · exact ⟨hS, rfl, Or.inr rfl⟩
      rw [Mem.upd_data_self]
      omega
    · rw [Mem.upd_data_ne _ _ (show c + 1 ≠ T j + 1 by omega), hs1.M2, hs.M2, ← h.M2 c hc]
      congr 1
      refine cnt_congr (fun i hi => ?_)
      rw [rho_le_succ hx' (by omega)]
      constructor
      · rintro ⟨h1, h2, h3 | h3⟩
        · exact ⟨h1, h2, h3⟩
        · have : i = j := by omega
          subst this; omega
      · rintro ⟨h1, h2, h3⟩; exact ⟨h1, h2, Or.inl h3⟩
  have hdec : Queue.decU64 (rho T n j) = rho T n j - 1 := Queue.decU64_eq (by omega)
  -- the array after a write of `T (j - 1)` in row `rho j`
  have hb0 : ∀ v, (s1.bwt.upd (rho T n j) v).data 0 = T (n - 1) := by
    intro v; rw [Mem.upd_data_ne _ _ (by omega), hs1.bwt, hs.bwt]; exact h.b0
  have hbL : ∀ v i, i < n → isS T n i = false → 1 ≤ i → (s1.bwt.upd (rho T n j) v).data (rho T n i) = T (i - 1) := by
    intro v i h1 h2 h3
    rw [Mem.upd_data_ne _ _ (fun hh => ?_), hs1.bwt, hs.bwt]
    · exact h.bL i h1 h2 h3
    · have := rho_inj (by omega) (by omega) hh
      subst this; rw [hS] at h2; cases h2
  have hbS : ∀ i, i < n → isS T n i = true → 1 ≤ i → rho T n (j + 1) ≤ rho T n (i + 1) →
      (s1.bwt.upd (rho T n j) (T (j - 1))).data (rho T n i) = T (i - 1) := by
    intro i h1 h2 h3 h4
    rcases (rho_le_succ hx' (by omega)).1 h4 with h5 | h5
    · rw [Mem.upd_data_ne _ _ (fun hh => ?_), hs1.bwt, hs.bwt]
      · exact h.bS i h1 h2 h3 h5
      · have := rho_inj (by omega) (by omega) hh
        subst this; omega
    · have : i = j := by omega
      subst this; simp
  have hbM : ∀ v i, isLMS T n i → rho T n (i + 1) < rho T n (j + 1) →
      (s1.bwt.upd (rho T n j) v).data (stk T n i) = T (i - 1) := by
    intro v i h1 h2
    rw [Mem.upd_data_ne _ _ (stk_ne_S h1 hj hS (fun hT => (rho_same h1.2.1 hj hT).2 h2)), hs1.bwt, hs.bwt]
    exact h.bM i h1 (by omega)
  have hlast : 1 ≤ j → isS T n 0 = false ∨ rho T n (j + 1) ≤ rho T n 1 → s1.last = some (rho T n 0) := by
    intro hj1 h1
    rw [hs1.last, hs.last]
    refine h.last ?_
    rcases h1 with h1 | h1
    · exact Or.inl h1
    · rcases (rho_le_succ hx' (by omega)).1 h1 with h5 | h5
      · exact Or.inr h5
      · omega
  have hC2n : ¬ isLMS T n j → ∀ c, c < 257 → s1.C2.data (c + 1) =
      sbeg T n c + cnt n (fun i => isLMS T n i ∧ T i = c ∧ rho T n (i + 1) < rho T n (j + 1)) := by
    intro hnl c hc
    rw [hs1.C2, hs.C2, h.C2 c hc]
    congr 1
    refine cnt_congr (fun i hi => ?_)
    rw [rho_lt_succ hx' (by omega)]
    constructor
    · rintro ⟨h1, h2, h3 | h3⟩
      · exact ⟨h1, h2, h3⟩
      · have : i = j := by omega
        subst this; exact absurd h1 hnl
    · rintro ⟨h1, h2, h3⟩; exact ⟨h1, h2, Or.inl h3⟩
  by_cases hj0 : j = 0
  · subst hj0
    have hnl : ¬ isLMS T n 0 := fun h => absurd h.1 (by omega)
    have hX := Y.step 1 (by omega) (by omega) (by simpa using hnl)
    simp only [Nat.sub_self] at hX
    rw [if_pos (by rw [← Y.last0]; simp only [Nat.zero_add]; omega)]
    simp only [IndSt.lastBack, Tot_bind, Mem.Tot_rd, Mem.Tot_wr, Tot_ok, hrow, hdec]
    refine ⟨by omega, by omega, hqL, hqS, hM2s, hM2, hC2s, hC2n hnl, hbs, ?_, ?_, ?_, ?_, ?_, fun _ => rfl⟩
    · simp only; rw [hs1.bwt, hs.bwt]; exact h.b0
    · simp only; rw [hs1.bwt, hs.bwt]; exact h.bL
    · intro i h1 h2 h3 h4
      simp only; rw [hs1.bwt, hs.bwt]
      rcases (rho_le_succ hx' (by omega)).1 h4 with h5 | h5
      · exact h.bS i h1 h2 h3 h5
      · omega
    · intro i h1 h2
      simp only; rw [hs1.bwt, hs.bwt]
      exact h.bM i h1 (by omega)
    · simp only; rw [hs1.bwt, hs.bwt]; exact h.bZ
  · have hj1 : 1 ≤ j := by omega
    have hbZ : ∀ v, (s1.bwt.upd (rho T n j) v).data (rho T n 0) = z := by
      intro v
      rw [Mem.upd_data_ne _ _ (fun hh => hj0 (rho_inj (by omega) (by omega) hh).symm), hs1.bwt, hs.bwt]
      exact h.bZ
    by_cases hlms : isLMS T n j
    · rw [if_neg (Y.sentNe j hlms), Y.sentL j hlms]
      simp only [Tot_bind, Tot_ok]
      rw [if_neg (by omega)]
      have hadd : cnt n (fun i => isLMS T n i ∧ T i = T j ∧ rho T n (i + 1) < rho T n (j + 1) + 1) =
          cnt n (fun i => isLMS T n i ∧ T i = T j ∧ rho T n (i + 1) < rho T n (j + 1)) + 1 := by
        refine cnt_insert hj (fun i hi => ?_) (by simp)
        rw [rho_lt_succ hx' (by omega)]
        constructor
        · rintro ⟨h1, h2, h3 | h3⟩
          · exact Or.inl ⟨h1, h2, h3⟩
          · exact Or.inr (by omega)
        · rintro (⟨h1, h2, h3⟩ | rfl)
          · exact ⟨h1, h2, Or.inl h3⟩
          · exact ⟨hlms, rfl, Or.inr rfl⟩
      have hsame : cnt n (fun i => isLMS T n i ∧ T i = T j ∧ rho T n (i + 1) < rho T n (j + 1)) =
          cnt n (fun i => isLMS T n i ∧ T i = T j ∧ rho T n i < rho T n j) := by
        refine cnt_congr (fun i hi => ?_)
        constructor
        · rintro ⟨h1, h2, h3⟩; exact ⟨h1, h2, (rho_same hi hj h2).2 h3⟩
        · rintro ⟨h1, h2, h3⟩; exact ⟨h1, h2, (rho_same hi hj h2).1 h3⟩
      have hC : s1.C2.data (T j + 1) = stk T n j + 1 := by
        rw [hs1.C2, hs.C2, h.C2 (T j) (by omega), hadd, hsame]; unfold stk; omega
      have hz := stk_zone hlms
      have hdec2 : Queue.decU64 (stk T n j + 1) = stk T n j := Queue.decU64_eq (by omega)
      have hval : s1.bwt.data (stk T n j) = T (j - 1) := by
        rw [hs1.bwt, hs.bwt]; exact h.bM j hlms (by omega)
      have hrn' := rho_le (T := T) (show j ≤ n by omega)
      simp only [IndSt.popBack, IndSt.putBack, Tot_bind, Mem.Tot_rd, Mem.Tot_wr, Tot_ok, hC, hdec2, hval, hrow, hdec]
      refine ⟨by omega, by omega, by omega, by omega, by omega, by omega,
        hqL, hqS, hM2s, hM2, hC2s, ?_, hbs, hb0 _, hbL _, hbS, hbM _, hbZ _, hlast hj1⟩
      intro c hc
      by_cases hcj : c = T j
      · subst hcj
        simp only [Mem.upd_data_self]
        rw [hsame]; rfl
      · simp only [Mem.upd_data_ne _ _ (show c + 1 ≠ T j + 1 by omega)]
        rw [hs1.C2, hs.C2, h.C2 c hc]
        congr 1
        refine cnt_congr (fun i hi => ?_)
        rw [rho_lt_succ hx' (by omega)]
        constructor
        · rintro ⟨h1, h2, h3 | h3⟩
          · exact ⟨h1, h2, h3⟩
          · have : i = j := by omega
            subst this; omega
        · rintro ⟨h1, h2, h3⟩; exact ⟨h1, h2, Or.inl h3⟩
    · have hX := Y.step (j + 1) (by omega) hx' (by simpa using hlms)
      simp only [Nat.add_sub_cancel] at hX
      have hpS : isS T n (j - 1) = true := by
        by_contra hc
        exact hlms ⟨by omega, hj, hS, by simpa using hc⟩
      have hle2 := S_pred_le hj1 hj hpS
      have hlp := Y.last1 j hj1 (by omega)
      have hpv := Y.prev j hj1 (by omega)
      rw [if_neg (by intro hh; apply hlp; rw [← hh]; omega),
        show e.base + (X (j + 1) : Int) - 2 = e.base + (X j : Int) - 1 by omega, hpv]
      simp only [Tot_bind, Tot_ok]
      rw [if_pos hle2]
      have hrn' := rho_le (T := T) (show j ≤ n by omega)
      simp only [IndSt.putBack, Tot_bind, Mem.Tot_rd, Mem.Tot_wr, Tot_ok, hrow, hdec]
      exact ⟨by omega, by omega, by omega, hqL, hqS, hM2s, hM2, hC2s, hC2n hlms, hbs, hb0 _, hbL _, hbS, hbM _,
        hbZ _, hlast hj1⟩

/-- Processing an S-type position that has no S-type predecessor: the sentinel stops. -/
theorem visit2_stop {s0 s : IndSt} {x t : Nat} (hxn : x < n) (hxS : isS T n x = true) (hx : x = 0 ∨ isLMS T n x)
    (h : IInv2 T n w X z (rho T n x + 1) s0) (hs : SameBut t s0 s)
    (qL : RowHas w (s.q TYPE_L) (fun j => X (j + 1) - 1) (dn T n) (A2 T n (rho T n x + 1) (rho T n x)))
    (qS : RowHas w (s.q TYPE_S) X (dn T n) (AS T n (rho T n x))) :
    Tot (visit2 e (T x + 1) (e.base + (X (x + 1) - 1 : Nat)) s) (IInv2 T n w X z (rho T n x)) := by
  have hx' : x ≤ n := by omega
  have h255 := S_lt_255 Y.byte hxn hxS
  have hXp := Y.pos (x + 1) (by omega) (by omega)
  have hrd : rdPtr e.buf (e.base + (X (x + 1) - 1 : Nat) - 1) = .ok (T x + 1) := by
    rw [show e.base + ((X (x + 1) - 1 : Nat) : Int) - 1 = e.base + (X (x + 1) : Int) - 2 by omega]
    rcases hx with hx | hx
    · subst hx
      have hX := Y.step 1 (by omega) (by omega) (fun h => absurd h.1 (by omega))
      simp only [Nat.sub_self, Nat.zero_add] at hX ⊢
      rw [show e.base + (X 1 : Int) - 2 = e.lastptr - 1 by rw [← Y.last0]; omega, Y.sent0, Nat.mod_eq_of_lt (by omega)]
    · exact Y.sentL x hx
  unfold visit2
  rw [hrd]
  simp only [Tot_bind, Tot_ok]
  rw [if_neg (by omega), Tot_ok]
  have hno : ∀ j, j < n → isS T n j = true → (rho T n x + 1 ≤ rho T n (j + 1) ↔ rho T n x ≤ rho T n (j + 1)) := by
    intro j h1 h2
    rw [rho_le_succ (x := x) hx' (by omega)]
    constructor
    · exact Or.inl
    · rintro (h3 | h3)
      · exact h3
      · rcases hx with hx | hx
        · omega
        · have := hx.2.2.2
          rw [← h3, Nat.add_sub_cancel, h2] at this; cases this
  refine ⟨qL.congr (fun k j => ?_), qS, by rw [hs.M2]; exact h.M2s, ?_, by rw [hs.C2]; exact h.C2s, ?_,
    by rw [hs.bwt]; exact h.bs, by rw [hs.bwt]; exact h.b0, by rw [hs.bwt]; exact h.bL, ?_, ?_, by rw [hs.bwt]; exact h.bZ, ?_⟩
  · constructor
    · rintro ⟨h1, h2, h3, h4, h5⟩; exact ⟨h1, h2, h3, by omega, h5⟩
    · rintro ⟨h1, h2, h3, h4, h5⟩; exact ⟨h1, h2, h3, (hno j h1 h2).2 h4, h5⟩
  · intro c hc
    rw [hs.M2, ← h.M2 c hc]
    congr 1
    refine cnt_congr (fun i hi => ?_)
    constructor
    · rintro ⟨h1, h2, h3⟩; exact ⟨h1, h2, (hno i hi h1).2 h3⟩
    · rintro ⟨h1, h2, h3⟩; exact ⟨h1, h2, by omega⟩
  · intro c hc
    rw [hs.C2, h.C2 c hc]
    congr 1
    refine cnt_congr (fun i hi => ?_)
    constructor
    · rintro ⟨h1, h2, h3⟩; have := hno i hi h1.2.2.1; exact ⟨h1, h2, by omega⟩
    · rintro ⟨h1, h2, h3⟩; exact ⟨h1, h2, by omega⟩
  · intro j h1 h2 h3 h4
    rw [hs.bwt]; exact h.bS j h1 h2 h3 ((hno j h1 h2).2 h4)
  · intro j h1 h2
    rw [hs.bwt]; exact h.bM j h1 (by omega)
  · intro h1
    rw [hs.last]
    refine h.last ?_
    cases hS0 : isS T n 0
    · exact Or.inl rfl
    · rcases h1 with h1 | h1
      · rw [hS0] at h1; cases h1
      · exact Or.inr ((hno 0 (by omega) hS0).2 h1)

end

end Flbwt
