import Verif.GenTheory

/-!
# First pass of inducing, for an arbitrary order (proof)
-/

namespace Flbwt.Gen

variable {T : Nat → Nat} {n z : Nat} {r : Nat → Nat}

/-- L-type positions induced (the next suffix is below `a`) and not yet processed (from `b` on) -/
def AL (T : Nat → Nat) (n : Nat) (r : Nat → Nat) (a b k j : Nat) : Prop :=
  j < n ∧ isS T n j = false ∧ T j + 1 = k ∧ r (j + 1) < a ∧ b ≤ r j

/-- S* positions not yet processed -/
def AM (T : Nat → Nat) (n : Nat) (r : Nat → Nat) (a k j : Nat) : Prop := isLMS T n j ∧ T j + 1 = k ∧ a ≤ r j

/-- processed L-type positions after an S-type position -/
def AS (T : Nat → Nat) (n : Nat) (r : Nat → Nat) (a k j : Nat) : Prop :=
  j < n ∧ isS T n j = false ∧ T j + 1 = k ∧ r j < a ∧ 1 ≤ j ∧ isS T n (j - 1) = true

/-- ascending key -/
def up (r : Nat → Nat) (j : Nat) : Int := r j
/-- descending key -/
def dn (r : Nat → Nat) (j : Nat) : Int := -(r j : Int)

/-- State of the first pass when exactly the L-type and S* positions in rows below `a` have been processed. `z` is what the row of the
whole string held before. -/
structure IInv1 (T : Nat → Nat) (n : Nat) (r : Nat → Nat) (w : Nat) (X : Nat → Nat) (z a : Nat) (s : IndSt) : Prop where
  qL : RowHas w (s.q TYPE_L) X (up r) (AL T n r a a)
  qM : RowHas w (s.q TYPE_LMS) X (up r) (AM T n r a)
  qS : RowHas w (s.q TYPE_S) X (dn r) (AS T n r a)
  M2s : s.M2.size = 258
  M2 : ∀ c, c < 257 → s.M2.data (c + 1) =
    1 + bst T n c + cnt n (fun i => isS T n i = false ∧ T i = c ∧ r (i + 1) < a)
  M3s : s.M3.size = 258
  M3 : ∀ c, c < 257 → s.M3.data (c + 1) = 1 + bst T n c
  C2s : s.C2.size = 258
  C2 : ∀ c, c < 257 → s.C2.data (c + 1) = sbeg T n c + cnt n (fun i => isLMS T n i ∧ T i = c ∧ r i < a)
  bs : s.bwt.size = n + 1
  b0 : s.bwt.data 0 = T (n - 1)
  bL : ∀ j, j < n → isS T n j = false → r (j + 1) < a → s.bwt.data (r j) = prevByte T j
  bM : ∀ j, isLMS T n j → r j < a → s.bwt.data (stk T n r j) = T (j - 1)
  bZ : isS T n 0 = true → (∀ j, isLMS T n j → stk T n r j ≠ r 0) → s.bwt.data (r 0) = z
  last : isS T n 0 = false → r 0 < a → s.last = some (r 0)

/-- Moving the threshold over rows that matter for nothing. -/
theorem IInv1.raise {w : Nat} {X : Nat → Nat} {a b : Nat} {s : IndSt} (h : IInv1 T n r w X z a s)
    (hab : ∀ x, D1 T n x → (r x < a ↔ r x < b)) : IInv1 T n r w X z b s := by
  have hL : ∀ j, j < n → isS T n j = false → (r j < a ↔ r j < b) :=
    fun j h1 h2 => hab j (Or.inr (Or.inl ⟨h1, h2⟩))
  have hL1 : ∀ j, j < n → isS T n j = false → (r (j + 1) < a ↔ r (j + 1) < b) :=
    fun j h1 h2 => hab _ (D1_succ h1 h2)
  have hM : ∀ j, isLMS T n j → (r j < a ↔ r j < b) := fun j h1 => hab j (D1_lt_LMS h1)
  refine ⟨h.qL.congr ?_, h.qM.congr ?_, h.qS.congr ?_, h.M2s, ?_, h.M3s, h.M3, h.C2s, ?_, h.bs, h.b0, ?_, ?_, h.bZ, ?_⟩
  · intro c j
    unfold AL
    constructor
    · rintro ⟨h1, h2, h3, h4, h5⟩
      have := hL j h1 h2; have := hL1 j h1 h2; exact ⟨h1, h2, h3, by omega, by omega⟩
    · rintro ⟨h1, h2, h3, h4, h5⟩
      have := hL j h1 h2; have := hL1 j h1 h2; exact ⟨h1, h2, h3, by omega, by omega⟩
  · intro c j
    unfold AM
    constructor
    · rintro ⟨h1, h2, h3⟩; have := hM j h1; exact ⟨h1, h2, by omega⟩
    · rintro ⟨h1, h2, h3⟩; have := hM j h1; exact ⟨h1, h2, by omega⟩
  · intro c j
    unfold AS
    constructor
    · rintro ⟨h1, h2, h3, h4, h5⟩; have := hL j h1 h2; exact ⟨h1, h2, h3, by omega, h5⟩
    · rintro ⟨h1, h2, h3, h4, h5⟩; have := hL j h1 h2; exact ⟨h1, h2, h3, by omega, h5⟩
  · intro c hc
    rw [h.M2 c hc]
    congr 1
    refine cnt_congr (fun i hi => ?_)
    constructor
    · rintro ⟨h1, h2, h3⟩; exact ⟨h1, h2, (hL1 i hi h1).1 h3⟩
    · rintro ⟨h1, h2, h3⟩; exact ⟨h1, h2, (hL1 i hi h1).2 h3⟩
  · intro c hc
    rw [h.C2 c hc]
    congr 1
    refine cnt_congr (fun i hi => ?_)
    constructor
    · rintro ⟨h1, h2, h3⟩; exact ⟨h1, h2, (hM i h1).1 h3⟩
    · rintro ⟨h1, h2, h3⟩; exact ⟨h1, h2, (hM i h1).2 h3⟩
  · intro j h1 h2 h4; exact h.bL j h1 h2 ((hL1 j h1 h2).2 h4)
  · intro j h1 h2; exact h.bM j h1 ((hM j h1).2 h2)
  · intro h1 h2
    by_cases hn : 0 < n
    · exact h.last h1 ((hL 0 hn h1).2 h2)
    · have : n = 0 := by omega
      subst this
      rw [isS_n] at h1; cases h1

section
variable {e : IndEnv} {w : Nat} {X : Nat → Nat} (R : RowsL T n r) (Y : Layout T n e w X)
include R Y

/-- effect of `induceL` -/
structure AfterL (T : Nat → Nat) (n : Nat) (r : Nat → Nat) (w : Nat) (X : Nat → Nat) (x : Nat) (s s' : IndSt) : Prop where
  qL : RowHas w (s'.q TYPE_L) X (up r) (AL T n r (r x + 1) (r x + 1))
  qo : ∀ t, t ≠ TYPE_L → s'.q t = s.q t
  M2s : s'.M2.size = 258
  M2 : ∀ c, c < 257 → s'.M2.data (c + 1) =
    1 + bst T n c + cnt n (fun i => isS T n i = false ∧ T i = c ∧ r (i + 1) < r x + 1)
  M3 : s'.M3 = s.M3
  C2 : s'.C2 = s.C2
  last : s'.last = s.last
  bwt : s'.bwt = s.bwt.upd (r (x - 1)) (prevByte T (x - 1))

theorem induceL_spec {s : IndSt} {x : Nat} (hx1 : 1 ≤ x) (hxn : x ≤ n) (hL : isS T n (x - 1) = false)
    (hq : RowHas w (s.q TYPE_L) X (up r) (AL T n r (r x) (r x + 1)))
    (hM2s : s.M2.size = 258)
    (hM2 : ∀ c, c < 257 → s.M2.data (c + 1) =
      1 + bst T n c + cnt n (fun i => isS T n i = false ∧ T i = c ∧ r (i + 1) < r x))
    (hbs : s.bwt.size = n + 1) :
    Tot (induceL e (T (x - 1)) (e.base + X x) s) (AfterL T n r w X x s) := by
  obtain ⟨j, rfl⟩ : ∃ j, x = j + 1 := ⟨x - 1, by omega⟩
  simp only [Nat.add_sub_cancel] at hL ⊢
  have hjn : j < n := by omega
  have hnl : ¬ isLMS T n j := fun h => by rw [h.2.2.1] at hL; cases hL
  have hX := Y.step (j + 1) (by omega) hxn (by simpa using hnl)
  simp only [Nat.add_sub_cancel] at hX
  have hTb := Y.byte j hjn
  have hrj := R.succ hjn hL
  have hrn := R.le (show j ≤ n by omega)
  have hn64 := Y.nlt
  unfold induceL
  rw [Tot_bind]
  refine (enq_row hq e.sj (n := n) (x := j) (by omega) Y.w63 (by omega) (fun i hi => Nat.le_of_lt hi.1)
    (Y.lt j (by omega)) ?_ (by omega)).mono ?_
  · rintro i ⟨h1, h2, h3, h4, h5⟩
    unfold up
    have := (R.same h1 hjn h2 hL (by omega)).2 h4
    omega
  rintro s1 ⟨hs1, hr1⟩
  have hv : rdPtr e.buf (e.base + X (j + 1) - 2) = .ok (prevByte T j) := by
    unfold prevByte
    by_cases hj0 : j = 0
    · subst hj0
      rw [if_pos (by rfl), ← Y.sent0, ← Y.last0]; congr 1; omega
    · rw [if_neg hj0, ← Y.prev j (by omega) (by omega)]; congr 1; omega
  rw [hv]
  have hrow : s.M2.data (T j + 1) = r j := by rw [hM2 (T j) (by omega), R.L_eq_succ hjn hL]
  simp only [Tot_bind, Tot_ok, IndSt.putFront, Mem.Tot_rd, Mem.Tot_wr, hs1.M2, hs1.bwt, hrow]
  refine ⟨by omega, by omega, by omega, ?_⟩
  refine ⟨hr1.congr ?_, fun t ht => hs1.q t ht, ?_, ?_, hs1.M3, hs1.C2, hs1.last, rfl⟩
  · intro k i
    constructor
    · rintro (⟨h1, h2, h3, h4, h5⟩ | ⟨rfl, rfl⟩)
      · exact ⟨h1, h2, h3, by omega, h5⟩
      · exact ⟨hjn, hL, rfl, by omega, by omega⟩
    · rintro ⟨h1, h2, h3, h4, h5⟩
      rcases (R.lt_succ (x := j + 1) hxn (by omega)).1 h4 with h6 | h6
      · exact Or.inl ⟨h1, h2, h3, h6, h5⟩
      · have : i = j := by omega
        subst this; exact Or.inr ⟨h3.symm, rfl⟩
  · simpa using hM2s
  · intro c hc
    by_cases hcj : c = T j
    · subst hcj
      have : incU64 (r j) = r j + 1 := by
        unfold incU64; rw [if_neg (by omega)]
      simp only [Mem.upd_data_self, this]
      rw [← hrow, hM2 (T j) hc]
      rw [Nat.add_assoc (1 + bst T n (T j))]
      congr 1
      refine (cnt_insert hjn (fun i hi => ?_) (by simp)).symm
      rw [R.lt_succ hxn (by omega)]
      constructor
      · rintro ⟨h1, h2, h3 | h3⟩
        · exact Or.inl ⟨h1, h2, h3⟩
        · exact Or.inr (by omega)
      · rintro (⟨h1, h2, h3⟩ | rfl)
        · exact ⟨h1, h2, Or.inl h3⟩
        · exact ⟨hL, rfl, Or.inr rfl⟩
    · simp only [Mem.upd_data_ne _ _ (show c + 1 ≠ T j + 1 by omega), hM2 c hc]
      congr 1
      refine cnt_congr (fun i hi => ?_)
      rw [R.lt_succ hxn (by omega)]
      constructor
      · rintro ⟨h1, h2, h3⟩; exact ⟨h1, h2, Or.inl h3⟩
      · rintro ⟨h1, h2, h3 | h3⟩
        · exact ⟨h1, h2, h3⟩
        · have : i = j := by omega
          subst this; omega

end

theorem Rows.cntM_same (R : Rows T n r) {x c : Nat} (hx : x ≤ n) (h : ¬ isLMS T n x) :
    cnt n (fun i => isLMS T n i ∧ T i = c ∧ r i < r x + 1) =
      cnt n (fun i => isLMS T n i ∧ T i = c ∧ r i < r x) := by
  refine cnt_congr (fun i hi => ?_)
  rw [R.lt_succ hx (by omega)]
  constructor
  · rintro ⟨h1, h2, h3 | h3⟩
    · exact ⟨h1, h2, h3⟩
    · subst h3; exact absurd h1 h
  · rintro ⟨h1, h2, h3⟩; exact ⟨h1, h2, Or.inl h3⟩

theorem Rows.cntM_other (R : Rows T n r) {x c : Nat} (hx : x ≤ n) (h : c ≠ T x) :
    cnt n (fun i => isLMS T n i ∧ T i = c ∧ r i < r x + 1) =
      cnt n (fun i => isLMS T n i ∧ T i = c ∧ r i < r x) := by
  refine cnt_congr (fun i hi => ?_)
  rw [R.lt_succ hx (by omega)]
  constructor
  · rintro ⟨h1, h2, h3 | h3⟩
    · exact ⟨h1, h2, h3⟩
    · subst h3; exact absurd h2.symm h
  · rintro ⟨h1, h2, h3⟩; exact ⟨h1, h2, Or.inl h3⟩

theorem Rows.cntM_add (R : Rows T n r) {x : Nat} (hx : isLMS T n x) :
    cnt n (fun i => isLMS T n i ∧ T i = T x ∧ r i < r x + 1) =
      cnt n (fun i => isLMS T n i ∧ T i = T x ∧ r i < r x) + 1 := by
  have hx' := hx.2.1
  refine cnt_insert hx' (fun i hi => ?_) (by simp)
  rw [R.lt_succ (by omega) (by omega)]
  constructor
  · rintro ⟨h1, h2, h3 | h3⟩
    · exact Or.inl ⟨h1, h2, h3⟩
    · exact Or.inr h3
  · rintro (⟨h1, h2, h3⟩ | rfl)
    · exact ⟨h1, h2, Or.inl h3⟩
    · exact ⟨hx, rfl, Or.inr rfl⟩

theorem Rows.AS_same (R : Rows T n r) {x k j : Nat} (hx : x ≤ n) (h : isS T n x = false → 1 ≤ x → isS T n (x - 1) = true → False) :
    AS T n r (r x) k j ↔ AS T n r (r x + 1) k j := by
  unfold AS
  constructor
  · rintro ⟨h1, h2, h3, h4, h5⟩; exact ⟨h1, h2, h3, by omega, h5⟩
  · rintro ⟨h1, h2, h3, h4, h5⟩
    rcases (R.lt_succ hx (by omega)).1 h4 with h6 | h6
    · exact ⟨h1, h2, h3, h6, h5⟩
    · subst h6; exact absurd (h h2 h5.1 h5.2) (by simp)

theorem Rows.AL_same (R : Rows T n r) {x k j b : Nat} (hx : x ≤ n) (h : 1 ≤ x → isS T n (x - 1) = true) :
    AL T n r (r x) b k j ↔ AL T n r (r x + 1) b k j := by
  unfold AL
  constructor
  · rintro ⟨h1, h2, h3, h4, h5⟩; exact ⟨h1, h2, h3, by omega, h5⟩
  · rintro ⟨h1, h2, h3, h4, h5⟩
    rcases (R.lt_succ hx (by omega)).1 h4 with h6 | h6
    · exact ⟨h1, h2, h3, h6, h5⟩
    · have := h (by omega)
      rw [← h6, Nat.add_sub_cancel, h2] at this; cases this

/-- no L-type position is induced by a position whose predecessor is S-type (or missing) -/
theorem Rows.L_succ_same (R : Rows T n r) {x i : Nat} (hx : x ≤ n) (h : 1 ≤ x → isS T n (x - 1) = true) (hi : i < n) (hL : isS T n i = false) :
    r (i + 1) < r x + 1 ↔ r (i + 1) < r x := by
  rw [R.lt_succ hx (by omega)]
  constructor
  · rintro (h1 | h1)
    · exact h1
    · have := h (by omega)
      rw [← h1, Nat.add_sub_cancel, hL] at this; cases this
  · exact Or.inl

section
variable {e : IndEnv} {w : Nat} {X : Nat → Nat} (R : RowsL T n r) (Y : Layout T n e w X)
include R Y

theorem visit1_spec {s0 s : IndSt} {x t : Nat} {m : Int} (hxn : x < n) (h : IInv1 T n r w X z (r x) s0)
    (hs : SameBut t s0 s) (ht : t = TYPE_L ∧ isS T n x = false ∨ t = TYPE_LMS ∧ isLMS T n x)
    (hm : isS T n x = false → m = r x)
    (qL : RowHas w (s.q TYPE_L) X (up r) (AL T n r (r x) (r x + 1)))
    (qM : RowHas w (s.q TYPE_LMS) X (up r) (AM T n r (r x + 1)))
    (qS : RowHas w (s.q TYPE_S) X (dn r) (AS T n r (r x))) :
    Tot (visit1 e (T x + 1) t m (e.base + X x) s) (IInv1 T n r w X z (r x + 1)) := by
  have hx' : x ≤ n := by omega
  have hd : isS T n x = false ∨ isLMS T n x := by rcases ht with h | h; exacts [Or.inl h.2, Or.inr h.2]
  have hrn := R.le hx'
  have hTb := Y.byte x hxn
  have hn64 := Y.nlt
  unfold visit1
  by_cases hx0 : x = 0
  · subst hx0
    have hL : isS T n 0 = false := by
      rcases hd with h | h
      · exact h
      · exact absurd h.1 (by omega)
    have hnl : ¬ isLMS T n 0 := fun h => absurd h.1 (by omega)
    rw [if_pos Y.last0, Tot_ok]
    refine ⟨qL.congr (fun k j => R.AL_same hx' (by omega)), qM, qS.congr (fun k j => R.AS_same hx' (by omega)),
      by simpa [hs.M2] using h.M2s, ?_, by simpa [hs.M3] using h.M3s, by simpa [hs.M3] using h.M3,
      by simpa [hs.C2] using h.C2s, ?_, by simpa [hs.bwt] using h.bs, by simpa [hs.bwt] using h.b0, ?_, ?_,
      (fun g => by rw [hL] at g; cases g), ?_⟩
    · intro c hc
      simp only [hs.M2, h.M2 c hc]
      congr 1
      refine cnt_congr (fun i hi => ?_)
      constructor
      · rintro ⟨h1, h2, h3⟩; exact ⟨h1, h2, by omega⟩
      · rintro ⟨h1, h2, h3⟩; exact ⟨h1, h2, (R.L_succ_same hx' (by omega) hi h1).1 h3⟩
    · intro c hc
      simp only [hs.C2, h.C2 c hc, R.cntM_same hx' hnl]
    · intro j h1 h2 h4
      simp only [hs.bwt]
      exact h.bL j h1 h2 ((R.L_succ_same hx' (by omega) h1 h2).1 h4)
    · intro j h1 h2
      simp only [hs.bwt]
      refine h.bM j h1 ?_
      rcases (R.lt_succ hx' (by have := h1.2.1; omega)).1 h2 with h3 | h3
      · exact h3
      · subst h3; exact absurd h1 hnl
    · intro _ _
      simp only [hm hL]
      rw [ofInt_natCast_toNat (by omega)]
  · have hx1 : 1 ≤ x := by omega
    rw [if_neg (Y.last1 x hx1 hx'), Y.prev x hx1 hx']
    simp only [Tot_bind, Tot_ok]
    rw [Tot_ite]
    have hpl := pred_L hx1 hxn hd
    constructor
    · intro hc
      have hL := hpl.1 (by omega)
      have hj : x - 1 < n := by omega
      have hrj : r x < r (x - 1) := by
        have := R.succ hj hL
        rwa [show x - 1 + 1 = x by omega] at this
      refine Tot.bind (induceL_spec R Y hx1 hx' hL qL (by rw [hs.M2]; exact h.M2s) (by rw [hs.M2]; exact h.M2)
        (by rw [hs.bwt]; exact h.bs)) ?_
      intro s1 h1
      have hb1 := h1.bwt
      rw [hs.bwt] at hb1
      -- what remains to be shown about the array, with or without push
      have hbs : s1.bwt.size = n + 1 := by rw [hb1]; exact h.bs
      have hb0 : s1.bwt.data 0 = T (n - 1) := by
        rw [hb1, Mem.upd_data_ne _ _ (by omega)]; exact h.b0
      have hbL : ∀ j, j < n → isS T n j = false → r (j + 1) < r x + 1 →
          s1.bwt.data (r j) = prevByte T j := by
        intro j g1 g2 g4
        by_cases hjx : j = x - 1
        · subst hjx
          rw [hb1, Mem.upd_data_self]
        · rw [hb1, Mem.upd_data_ne _ _ (fun hh => hjx (R.inj (by omega) (by omega) hh))]
          rcases (R.lt_succ hx' (by omega)).1 g4 with g5 | g5
          · exact h.bL j g1 g2 g5
          · omega
      have hbM : ∀ j, isLMS T n j → r j < r x → s1.bwt.data (stk T n r j) = T (j - 1) := by
        intro j g1 g2
        rw [hb1, Mem.upd_data_ne _ _ (R.stk_ne_L g1 hj hL)]
        exact h.bM j g1 g2
      have hbZ : isS T n 0 = true → (∀ j, isLMS T n j → stk T n r j ≠ r 0) → s1.bwt.data (r 0) = z := by
        intro g1 g2
        rw [hb1, Mem.upd_data_ne _ _ (fun hh => ?_)]
        · exact h.bZ g1 g2
        · have := R.inj (by omega) (by omega) hh
          rw [← this, g1] at hL; cases hL
      have hqM : RowHas w (s1.q TYPE_LMS) X (up r) (AM T n r (r x + 1)) := by
        rw [h1.qo _ (by decide)]; exact qM
      have hqS : RowHas w (s1.q TYPE_S) X (dn r) (AS T n r (r x + 1)) := by
        rw [h1.qo _ (by decide)]
        exact qS.congr (fun k j => R.AS_same hx' (fun _ _ g => by rw [hL] at g; cases g))
      have hlast : isS T n 0 = false → r 0 < r x + 1 → s1.last = some (r 0) := by
        intro g1 g2
        rw [h1.last, hs.last]
        refine h.last g1 ?_
        rcases (R.lt_succ hx' (by omega)).1 g2 with g3 | g3
        · exact g3
        · omega
      unfold pushIf
      rw [Tot_ite]
      constructor
      · intro htM
        have hM : isLMS T n x := by
          rcases ht with g | g
          · rw [g.1] at htM; cases htM
          · exact g.2
        have hz := R.stk_zone hM
        have hC2 : s1.C2.data (T x + 1) = stk T n r x := by
          rw [h1.C2, hs.C2, h.C2 (T x) (by omega)]; rfl
        have hC2s : s1.C2.size = 258 := by rw [h1.C2, hs.C2]; exact h.C2s
        have hpos := sbeg_gt (T := T) (n := n) (T x)
        have hinc : incU64 (stk T n r x) = stk T n r x + 1 := by unfold incU64; rw [if_neg (by omega)]
        simp only [IndSt.push, Tot_bind, Mem.Tot_rd, Mem.Tot_wr, Tot_ok, hC2, hinc]
        refine ⟨by omega, by omega, by omega, ?_⟩
        refine ⟨h1.qL, hqM, hqS, h1.M2s, h1.M2, by rw [h1.M3, hs.M3]; exact h.M3s, by rw [h1.M3, hs.M3]; exact h.M3,
          hC2s, ?_, hbs, ?_, ?_, ?_, ?_, hlast⟩
        · intro c hc'
          by_cases hcx : c = T x
          · subst hcx
            simp only [Mem.upd_data_self]
            rw [R.cntM_add hM]; unfold stk; omega
          · simp only [Mem.upd_data_ne _ _ (show c + 1 ≠ T x + 1 by omega)]
            rw [h1.C2, hs.C2, h.C2 c hc', R.cntM_other hx' hcx]
        · simp only
          rw [Mem.upd_data_ne _ _ (by omega)]; exact hb0
        · intro j g1 g2 g4
          simp only
          rw [Mem.upd_data_ne _ _ (fun hh => R.stk_ne_L hM g1 g2 hh.symm)]
          exact hbL j g1 g2 g4
        · intro j g1 g2
          simp only
          rcases (R.lt_succ hx' (by have := g1.2.1; omega)).1 g2 with g3 | g3
          · have := R.stk_mono g1 hM g3
            rw [Mem.upd_data_ne _ _ (by omega)]
            exact hbM j g1 g3
          · subst g3; simp
        · intro g1 g2
          simp only
          rw [Mem.upd_data_ne _ _ (fun hh => g2 x hM hh.symm)]
          exact hbZ g1 g2
      · intro htM
        have hxL : isS T n x = false := by
          rcases ht with g | g
          · exact g.2
          · exact absurd g.1 htM
        have hnl : ¬ isLMS T n x := fun g => by rw [g.2.2.1] at hxL; cases hxL
        rw [Tot_ok]
        refine ⟨h1.qL, hqM, hqS, h1.M2s, h1.M2, by rw [h1.M3, hs.M3]; exact h.M3s, by rw [h1.M3, hs.M3]; exact h.M3,
          by rw [h1.C2, hs.C2]; exact h.C2s, ?_, hbs, hb0, hbL, ?_, hbZ, hlast⟩
        · intro c hc'
          rw [h1.C2, hs.C2, h.C2 c hc', R.cntM_same hx' hnl]
        · intro j g1 g2
          rcases (R.lt_succ hx' (by have := g1.2.1; omega)).1 g2 with g3 | g3
          · exact hbM j g1 g3
          · subst g3; exact absurd g1 hnl
    · intro hc
      have hS : isS T n (x - 1) = true := by
        cases g : isS T n (x - 1)
        · exact absurd (hpl.2 g) (by omega)
        · rfl
      have hnl : ¬ isLMS T n x := fun g => by rw [g.2.2.2] at hS; cases hS
      have hxL : isS T n x = false := hd.resolve_right hnl
      refine (enqL_row qS e.sj (n := n) (x := x) (by omega) Y.w63 (by omega) (fun i hi => Nat.le_of_lt hi.1)
        (Y.lt x hx') ?_ (by omega)).mono ?_
      · rintro i ⟨-, -, -, g, -⟩
        unfold dn; omega
      rintro s1 ⟨hs1, hr1⟩
      refine ⟨?_, ?_, hr1.congr ?_, by rw [hs1.M2, hs.M2]; exact h.M2s, ?_, by rw [hs1.M3, hs.M3]; exact h.M3s,
        by rw [hs1.M3, hs.M3]; exact h.M3, by rw [hs1.C2, hs.C2]; exact h.C2s, ?_, by rw [hs1.bwt, hs.bwt]; exact h.bs,
        by rw [hs1.bwt, hs.bwt]; exact h.b0, ?_, ?_, by rw [hs1.bwt, hs.bwt]; exact h.bZ, ?_⟩
      · rw [hs1.q _ (by decide)]; exact qL.congr (fun k j => R.AL_same hx' (fun _ => hS))
      · rw [hs1.q _ (by decide)]; exact qM
      · intro k j
        constructor
        · rintro (⟨g1, g2, g3, g4, g5⟩ | ⟨rfl, rfl⟩)
          · exact ⟨g1, g2, g3, by omega, g5⟩
          · exact ⟨hxn, hxL, rfl, by omega, hx1, hS⟩
        · rintro ⟨g1, g2, g3, g4, g5⟩
          rcases (R.lt_succ hx' (by omega)).1 g4 with g6 | g6
          · exact Or.inl ⟨g1, g2, g3, g6, g5⟩
          · subst g6; exact Or.inr ⟨g3.symm, rfl⟩
      · intro c hc'
        rw [hs1.M2, hs.M2, h.M2 c hc']
        congr 1
        refine cnt_congr (fun i hi => ?_)
        constructor
        · rintro ⟨h1, h2, h3⟩; exact ⟨h1, h2, by omega⟩
        · rintro ⟨h1, h2, h3⟩; exact ⟨h1, h2, (R.L_succ_same hx' (fun _ => hS) hi h1).1 h3⟩
      · intro c hc'
        rw [hs1.C2, hs.C2, h.C2 c hc', R.cntM_same hx' hnl]
      · intro j h1 h2 h4
        rw [hs1.bwt, hs.bwt]
        exact h.bL j h1 h2 ((R.L_succ_same hx' (fun _ => hS) h1 h2).1 h4)
      · intro j h1 h2
        rw [hs1.bwt, hs.bwt]
        refine h.bM j h1 ?_
        rcases (R.lt_succ hx' (by have := h1.2.1; omega)).1 h2 with h3 | h3
        · exact h3
        · subst h3; exact absurd h1 hnl
      · intro g1 g2
        rw [hs1.last, hs.last]
        refine h.last g1 ?_
        rcases (R.lt_succ hx' (by omega)).1 g2 with g3 | g3
        · exact g3
        · omega

end

end Flbwt.Gen
