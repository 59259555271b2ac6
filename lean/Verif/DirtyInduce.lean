import Verif.IndMain
import Verif.HashField

/-!
# Inducing when the pointer of the terminator is one too large (used by C92)

What `induce_bwt_XXbit` does on a non-increasing text when the only entry of the suffix array points one past the byte that
ends the text: it treats that byte as a character of the text.
-/

namespace Flbwt

open HashTable (ok_bind)

/-- A text of `n` bytes that never increases, followed by a smaller byte `T n`, stored at `lastptr`. -/
structure Chain (T : Nat → Nat) (n : Nat) (e : IndEnv) (w f0 : Nat) : Prop where
  n2 : 2 ≤ n
  nlt : n + 4 < 2 ^ 63
  byte : ∀ j, j ≤ n → T j < 256
  dec : ∀ j, j < n → T (j + 1) ≤ T j
  endlt : T n < T (n - 1)
  w1 : 1 ≤ w
  w63 : w ≤ 63
  lt : f0 + (n + 1) < 2 ^ w
  base : e.base + f0 = e.lastptr
  cur : ∀ j, j ≤ n → rdPtr e.buf (e.lastptr + j) = .ok (T j)
  sent : ∃ v, rdPtr e.buf (e.lastptr - 1) = .ok v

/-- number of positions from `j` on (the terminator included) that hold `c` -/
noncomputable def numFrom (T : Nat → Nat) (n j c : Nat) : Nat := cnt (n + 1) (fun i => j ≤ i ∧ T i = c)

theorem numFrom_step {T : Nat → Nat} {n j c : Nat} (hj : j ≤ n) :
    numFrom T n j c = numFrom T n (j + 1) c + if T j = c then 1 else 0 := by
  unfold numFrom
  by_cases h : T j = c
  · rw [if_pos h]
    refine cnt_insert (x := j) (by omega) (fun q hq => ?_) (by omega)
    constructor
    · rintro ⟨h1, h2⟩
      by_cases hqj : q = j
      · exact Or.inr hqj
      · exact Or.inl ⟨by omega, h2⟩
    · rintro (⟨h1, h2⟩ | rfl)
      · exact ⟨by omega, h2⟩
      · exact ⟨Nat.le_refl _, h⟩
  · rw [if_neg h, Nat.add_zero]
    refine cnt_congr (fun q hq => ?_)
    constructor
    · rintro ⟨h1, h2⟩
      have : q ≠ j := by rintro rfl; exact h h2
      exact ⟨by omega, h2⟩
    · rintro ⟨h1, h2⟩; exact ⟨by omega, h2⟩

theorem numFrom_none {T : Nat → Nat} {n j c : Nat} (h : ∀ i, j ≤ i → i ≤ n → T i ≠ c) : numFrom T n j c = 0 :=
  cnt_false (fun q hq hp => h q hp.1 (by omega) hp.2)

theorem Chain.mono {T : Nat → Nat} {n : Nat} {e : IndEnv} {w f0 : Nat} (K : Chain T n e w f0) :
    ∀ {i j : Nat}, i ≤ j → j ≤ n → T j ≤ T i := by
  intro i j hij
  induction j with
  | zero => intro _; have : i = 0 := by omega
            subst this; exact Nat.le_refl _
  | succ j ih =>
    intro hj
    by_cases h : i = j + 1
    · subst h; exact Nat.le_refl _
    · exact Nat.le_trans (K.dec j (by omega)) (ih (by omega) (by omega))

theorem Chain.lt_last {T : Nat → Nat} {n : Nat} {e : IndEnv} {w f0 : Nat} (K : Chain T n e w f0) {i : Nat} (hi : i < n) :
    T n < T i := by
  have := K.mono (i := i) (j := n - 1) (by omega) (by omega)
  have := K.endlt
  omega

/-- number of positions in `a .. b-1` -/
theorem cnt_from (n a : Nat) (ha : a ≤ n) : cnt n (fun q => a ≤ q) = n - a := by
  have h1 := cnt_or (n := n) (P := fun q => q < a) (Q := fun q => a ≤ q) (R := fun _ => True)
    (fun q _ => ⟨fun _ => by omega, fun _ => trivial⟩) (fun q _ h => by omega)
  rw [cnt_true (P := fun _ => True) (fun _ _ => trivial)] at h1
  have h2 : cnt n (fun q => q < a) = a := by
    rw [cnt_bound ha (fun q h1 h2 => by omega)]
    exact cnt_true (fun q hq => hq)
  omega

/-- The row of position `i`. -/
theorem Chain.row {T : Nat → Nat} {n : Nat} {e : IndEnv} {w f0 : Nat} (K : Chain T n e w f0) {i : Nat} (hi : i < n) :
    bst T n (T i) + numFrom T n (i + 1) (T i) = n - 1 - i := by
  have h1 : numFrom T n (i + 1) (T i) = cnt n (fun q => i + 1 ≤ q ∧ T q = T i) := by
    unfold numFrom
    refine cnt_bound (by omega) (fun q h1 h2 h3 => ?_)
    have : q = n := by omega
    subst this
    have := K.lt_last hi
    omega
  have h2 := cnt_or (n := n) (P := fun q => T q < T i) (Q := fun q => i + 1 ≤ q ∧ T q = T i) (R := fun q => i + 1 ≤ q) (fun q hq => by
      constructor
      · intro h
        have := K.mono (i := i) (j := q) (by omega) (by omega)
        omega
      · rintro (h | h)
        · by_contra hc
          have := K.mono (i := q) (j := i) (by omega) (by omega)
          omega
        · exact h.1) (fun q _ h => by omega)
  rw [h1]
  unfold bst
  rw [← h2, cnt_from n (i + 1) (by omega)]
  omega

theorem Chain.bst_end {T : Nat → Nat} {n : Nat} {e : IndEnv} {w f0 : Nat} (K : Chain T n e w f0) : bst T n (T n) = 0 :=
  cnt_false (fun q hq h => by have := K.lt_last hq; omega)

/-- Positions `j .. n` have been induced; position `j` is waiting in its queue (if `p`), all other queues are empty. -/
structure Pend (T : Nat → Nat) (n w f0 j : Nat) (p : Prop) (s : IndSt) : Prop where
  qL : RowHas w (s.q TYPE_L) (fun i => f0 + i) (fun _ => 0) (fun c i => p ∧ i = j ∧ c = T j + 1)
  qM : RowHas w (s.q TYPE_LMS) (fun i => f0 + i) (fun _ => 0) (fun _ _ => False)
  qS : RowHas w (s.q TYPE_S) (fun i => f0 + i) (fun _ => 0) (fun _ _ => False)
  M2s : s.M2.size = 258
  M3s : s.M3.size = 258
  M2 : ∀ c, c < 257 → s.M2.data (c + 1) = 1 + bst T n c + numFrom T n j c
  M3 : ∀ c, c < 258 → s.M3.data c = bkt T n c
  bs : s.bwt.size = n + 1
  b0 : s.bwt.data 0 = T n
  rows : ∀ i, j ≤ i → 1 ≤ i → i < n → s.bwt.data (n - i) = T (i - 1)

/-- A queue that is empty. -/
theorem drain1_empty {e : IndEnv} {fuel c t : Nat} {s : IndSt} (hf : 0 < fuel) (hM3 : c < s.M3.size) (hM : c < e.M.size)
    (hC : c < e.C.size) (hq : c < (s.q t).size) (he : ((s.q t).data c).isEmpty = true) : drain1 e fuel c t s = .ok s := by
  have hrs : ∃ m, rowStart e c t s = .ok m := by
    unfold rowStart
    rw [Mem.rd_ok _ hM3, ok_bind]
    split
    · rw [Mem.rd_ok _ hM, ok_bind, Mem.rd_ok _ hC, ok_bind]; exact ⟨_, rfl⟩
    · exact ⟨_, rfl⟩
  obtain ⟨m, hm⟩ := hrs
  unfold drain1
  rw [hm, ok_bind]
  obtain ⟨k, rfl⟩ : ∃ k, fuel = k + 1 := ⟨fuel - 1, by omega⟩
  rw [whileM]
  unfold step1
  simp only
  rw [Mem.rd_ok _ hq, ok_bind, if_pos he]
  rfl

theorem pass2_empty {fuel : Nat} (hf : 0 < fuel) {s : IndSt} {e : IndEnv} {w : Nat} {f : Nat → Nat} {g : Nat → Int} 
    (hL : RowHas w (s.q TYPE_L) f g (fun _ _ => False)) (hS : RowHas w (s.q TYPE_S) f g (fun _ _ => False)) :
    pass2 e fuel s = .ok s := by
  obtain ⟨k, rfl⟩ : ∃ k, fuel = k + 1 := ⟨fuel - 1, by omega⟩
  have h1 : ∀ c, c < 258 → ∀ t, (t = TYPE_L ∨ t = TYPE_S) → whileM (k + 1) s (step2 e c t) = .ok s := by
    intro c hc t ht
    have h2 : RowHas w (s.q t) f g (fun _ _ => False) := by rcases ht with rfl | rfl <;> assumption
    rw [whileM]
    unfold step2
    rw [Mem.rd_ok _ (by rw [h2.size]; exact hc), ok_bind, if_pos ((h2.has c hc).isEmpty.2 (fun _ h => h))]
    rfl
  unfold pass2
  have : Tot (loopDown 258 s fun c s => do
      let s ← whileM (k + 1) s (step2 e c TYPE_L)
      whileM (k + 1) s (step2 e c TYPE_S)) (fun s' => s' = s) := by
    refine loopDown_spec (fun _ s' => s' = s) 258 s _ rfl ?_
    rintro c s' hc rfl
    rw [h1 c hc _ (Or.inl rfl), ok_bind, h1 c hc _ (Or.inr rfl), Tot_ok]
  obtain ⟨s', e', rfl⟩ := Tot_iff.1 this
  exact e'

section
variable {T : Nat → Nat} {n w f0 : Nat} {e : IndEnv} (K : Chain T n e w f0)
include K

/-- `induceL` on position `x`: position `x - 1` is enqueued. -/
theorem Chain.induceL_tot {s : IndSt} {x : Nat} (h1 : 1 ≤ x) (h2 : x ≤ n + 1)
    (qL : RowHas w (s.q TYPE_L) (fun i => f0 + i) (fun _ => 0) (fun _ _ => False)) (M2s : s.M2.size = 258)
    (bs : s.bwt.size = n + 1) (hd : s.M2.data (T (x - 1) + 1) ≤ n) :
    Tot (induceL e (T (x - 1)) (e.lastptr + x) s) (fun s' =>
      RowHas w (s'.q TYPE_L) (fun i => f0 + i) (fun _ => 0) (fun c i => True ∧ i = x - 1 ∧ c = T (x - 1) + 1) ∧
      (∀ t, t ≠ TYPE_L → s'.q t = s.q t) ∧ s'.M3 = s.M3 ∧ s'.C2 = s.C2 ∧ s'.last = s.last ∧
      s'.M2 = s.M2.upd (T (x - 1) + 1) (s.M2.data (T (x - 1) + 1) + 1) ∧
      ∃ v, s'.bwt = s.bwt.upd (s.M2.data (T (x - 1) + 1)) v ∧ (2 ≤ x → v = T (x - 2))) := by
  have hb := K.byte (x - 1) (by omega)
  have hn := K.nlt
  have hw := K.lt
  have hbase := K.base
  unfold induceL
  refine Tot.bind (enq_row (n := n + 1) (x := x - 1) qL e.sj (c := T (x - 1) + 1) (by omega) K.w63 (by omega)
    (fun j h => h.elim) (by omega) (fun j h => h.elim) (by omega)) ?_
  rintro s1 ⟨g1, g2⟩
  obtain ⟨v, hv, hv2⟩ : ∃ v, rdPtr e.buf (e.lastptr + x - 2) = .ok v ∧ (2 ≤ x → v = T (x - 2)) := by
    by_cases hx : 2 ≤ x
    · refine ⟨T (x - 2), ?_, fun _ => rfl⟩
      have := K.cur (x - 2) (by omega)
      rwa [show e.lastptr + (x : Int) - 2 = e.lastptr + ((x - 2 : Nat) : Int) by omega]
    · obtain ⟨v, hv⟩ := K.sent
      exact ⟨v, by rwa [show e.lastptr + (x : Int) - 2 = e.lastptr - 1 by omega], fun h => absurd h hx⟩
  rw [hv, ok_bind]
  unfold IndSt.putFront
  rw [Mem.rd_ok _ (by rw [g1.M2]; omega), ok_bind, g1.M2, Mem.wr_ok _ _ (by rw [g1.bwt]; omega), ok_bind,
    Mem.wr_ok _ _ (by omega), ok_bind, Tot_ok]
  refine ⟨g2.congr (fun c i => ?_), fun t ht => g1.q t ht, g1.M3, g1.C2, g1.last, ?_, v, by rw [g1.bwt], hv2⟩
  · constructor
    · rintro (h | ⟨h, h'⟩)
      · exact h.elim
      · exact ⟨trivial, h', h⟩
    · rintro ⟨_, h, h'⟩; exact Or.inr ⟨h', h⟩
  · unfold incU64
    simp only
    rw [if_neg (by omega)]

/-- Visiting a position other than the first. -/
theorem Chain.visit_tot {s : IndSt} {j : Nat} (hj1 : 1 ≤ j) (hj : j ≤ n) (P : Pend T n w f0 j False s) (m : Int) :
    Tot (visit1 e (T j + 1) TYPE_L m (e.lastptr + j) s) (fun s' => Pend T n w f0 (j - 1) True s' ∧ s'.last = s.last) := by
  have hr := K.row (i := j - 1) (by omega)
  rw [show j - 1 + 1 = j by omega] at hr
  have hM := P.M2 (T (j - 1)) (by have := K.byte (j - 1) (by omega); omega)
  have hdc := K.dec (j - 1) (by omega)
  rw [show j - 1 + 1 = j by omega] at hdc
  unfold visit1
  rw [if_neg (by omega), show e.lastptr + (j : Int) - 1 = e.lastptr + ((j - 1 : Nat) : Int) by omega, K.cur (j - 1) (by omega), ok_bind,
    if_pos (by omega)]
  refine Tot.bind (K.induceL_tot (x := j) hj1 (by omega) (P.qL.congr (fun c i => by simp)) P.M2s P.bs (by omega)) ?_
  rintro s1 ⟨a1, a2, a3, a4, a5, a6, v, a7, a8⟩
  unfold pushIf
  rw [if_neg (by decide), Tot_ok]
  refine ⟨⟨a1, ?_, ?_, by rw [a6]; exact P.M2s, by rw [a3]; exact P.M3s, ?_, by rw [a3]; exact P.M3, by rw [a7]; exact P.bs, ?_, ?_⟩, a5⟩
  · rw [a2 _ (by decide)]; exact P.qM
  · rw [a2 _ (by decide)]; exact P.qS
  · intro c hc
    rw [numFrom_step (by omega), show j - 1 + 1 = j by omega, a6]
    by_cases h : T (j - 1) = c
    · subst h
      rw [Mem.upd_data_self, if_pos rfl, hM]; omega
    · rw [Mem.upd_data_ne _ _ (by omega), if_neg h, P.M2 c hc]; omega
  · rw [a7, Mem.upd_data_ne _ _ (by omega)]; exact P.b0
  · intro i h1 h2 h3
    rw [a7]
    by_cases h : i = j - 1
    · subst h
      rw [show n - (j - 1) = s.M2.data (T (j - 1) + 1) by omega, Mem.upd_data_self, a8 (by omega)]
      congr 1
    · rw [Mem.upd_data_ne _ _ (by omega)]; exact P.rows i (by omega) h2 h3

/-- What the first pass has computed. -/
structure ChainDone (T : Nat → Nat) (n w f0 : Nat) (s : IndSt) : Prop extends Pend T n w f0 0 False s where
  last : s.last = some n

/-- Invariant of the loop that empties queue `c`. -/
def DrainInv (T : Nat → Nat) (n w f0 c k : Nat) (x : IndSt × Int) : Prop :=
  (∃ j, j ≤ n ∧ Pend T n w f0 j True x.1 ∧ c ≤ T j + 1 ∧ (∀ i, j < i → i ≤ n → T i + 1 ≤ c) ∧
    (c = T j + 1 → x.2 = ((1 + bst T n (T j) + numFrom T n (j + 1) (T j) : Nat) : Int)) ∧ k = j + 1) ∨
  (ChainDone T n w f0 x.1 ∧ k = 0)

/-- Between the queues. -/
def PassInv (T : Nat → Nat) (n w f0 c : Nat) (s : IndSt) : Prop :=
  (∃ j, j ≤ n ∧ Pend T n w f0 j True s ∧ c ≤ T j + 1 ∧ ∀ i, j < i → i ≤ n → T i + 1 < c) ∨ ChainDone T n w f0 s

theorem Chain.step_tot {c k : Nat} (hc : c < 258) {x : IndSt × Int} (h : DrainInv T n w f0 c k x) :
    Tot (step1 e c TYPE_L x) (fun r => match r with
      | .inl x' => ∃ k', k' < k ∧ DrainInv T n w f0 c k' x'
      | .inr s => PassInv T n w f0 (c + 1) s) := by
  obtain ⟨s, m⟩ := x
  unfold step1
  simp only
  rcases h with ⟨j, hj, P, h1, h2, h3, h4⟩ | ⟨D, h4⟩
  · simp only at P h3
    rw [Mem.rd_ok _ (by rw [P.qL.size]; exact hc), ok_bind]
    by_cases hcj : c = T j + 1
    · have hne : ((s.q TYPE_L).data c).isEmpty ≠ true := by
        intro he
        exact (P.qL.has c hc).isEmpty.1 he j ⟨trivial, rfl, hcj⟩
      rw [if_neg hne]
      refine Tot.bind (deq_row P.qL e.sj hc K.w63 hne) ?_
      rintro ⟨v, s1⟩ ⟨x, g1, g2, _, g4, g5⟩
      simp only at g2 g4 g5 ⊢
      obtain ⟨_, rfl, _⟩ := g1
      have hq : e.base + v = e.lastptr + (x : Int) := by rw [g2]; have := K.base; push_cast; omega
      rw [hq]
      have P1 : Pend T n w f0 x False s1 := by
        refine ⟨g5.congr (fun c' i => ?_), by rw [g4.q _ (by decide)]; exact P.qM, by rw [g4.q _ (by decide)]; exact P.qS,
          by rw [g4.M2]; exact P.M2s, by rw [g4.M3]; exact P.M3s, by rw [g4.M2]; exact P.M2, by rw [g4.M3]; exact P.M3,
          by rw [g4.bwt]; exact P.bs, by rw [g4.bwt]; exact P.b0, by rw [g4.bwt]; exact P.rows⟩
        constructor
        · rintro ⟨⟨_, a, b⟩, d⟩; exact absurd ⟨b.trans hcj.symm, a⟩ d
        · rintro ⟨a, _⟩; exact a.elim
      have hm := h3 hcj
      by_cases hx : 1 ≤ x
      · rw [hcj]
        refine Tot.bind (K.visit_tot hx hj P1 m) ?_
        rintro s2 ⟨P2, _⟩
        rw [Tot_ok]
        have hdc := K.dec (x - 1) (by omega)
        rw [show x - 1 + 1 = x by omega] at hdc
        refine ⟨x - 1 + 1, by omega, Or.inl ⟨x - 1, by omega, P2, by omega, ?_, ?_, rfl⟩⟩
        · intro i i1 i2
          have := K.mono (i := x) (j := i) (by omega) i2
          omega
        · intro h
          have ht : T (x - 1) = T x := by omega
          simp only
          rw [hm, show x - 1 + 1 = x by omega, numFrom_step hj, ht, if_pos rfl]
          push_cast; omega
      · have hx0 : x = 0 := by omega
        subst hx0
        have hr := K.row (i := 0) (by have := K.n2; omega)
        unfold visit1
        have h0 : e.lastptr + ((0 : Nat) : Int) = e.lastptr := by omega
        rw [h0, if_pos (by rfl), ok_bind, Tot_ok]
        have hn := K.nlt
        have hn2 := K.n2
        have hmn : m = ((n : Nat) : Int) := by rw [hm]; omega
        refine ⟨0, by omega, Or.inr ⟨⟨⟨P1.qL, P1.qM, P1.qS, P1.M2s, P1.M3s, P1.M2, P1.M3, P1.bs, P1.b0, P1.rows⟩, ?_⟩, rfl⟩⟩
        simp only
        rw [hmn, ofInt_natCast_toNat (by omega)]
    · have he : ((s.q TYPE_L).data c).isEmpty = true := (P.qL.has c hc).isEmpty.2 (fun i hi => hcj hi.2.2)
      rw [if_pos he, Tot_ok]
      exact Or.inl ⟨j, hj, P, by omega, fun i i1 i2 => by have := h2 i i1 i2; omega⟩
  · simp only at D
    rw [Mem.rd_ok _ (by rw [D.qL.size]; exact hc), ok_bind]
    have he : ((s.q TYPE_L).data c).isEmpty = true := (D.qL.has c hc).isEmpty.2 (fun i hi => hi.1)
    rw [if_pos he, Tot_ok]
    exact Or.inr D

theorem Chain.drain_tot {fuel c : Nat} (hc1 : 1 ≤ c) (hc : c < 258) (hf : n + 2 ≤ fuel) {s : IndSt} (h : PassInv T n w f0 c s) :
    Tot (drain1 e fuel c TYPE_L s) (PassInv T n w f0 (c + 1)) := by
  unfold drain1
  have hn := K.nlt
  have hM3s : s.M3.size = 258 := by
    rcases h with ⟨_, _, P, _⟩ | D
    · exact P.M3s
    · exact D.M3s
  have hM3 : s.M3.data c = bkt T n c := by
    rcases h with ⟨_, _, P, _⟩ | D
    · exact P.M3 c hc
    · exact D.M3 c hc
  have hbk := bkt_le T n c
  have hrs : rowStart e c TYPE_L s = .ok ((bkt T n c : Nat) : Int) := by
    unfold rowStart
    rw [Mem.rd_ok _ (by omega), ok_bind, if_neg (by decide), hM3, toI64_eq (by omega)]
  rw [hrs, ok_bind]
  obtain ⟨k, hk, hI⟩ : ∃ k, k < fuel ∧ DrainInv T n w f0 c k (s, ((bkt T n c : Nat) : Int)) := by
    rcases h with ⟨j, hj, P, h1, h2⟩ | D
    · refine ⟨j + 1, by omega, Or.inl ⟨j, hj, P, h1, fun i i1 i2 => by have := h2 i i1 i2; omega, ?_, rfl⟩⟩
      intro h
      rw [numFrom_none (fun i i1 i2 hc' => by have := h2 i (by omega) i2; omega), h]
      rfl
    · exact ⟨0, by omega, Or.inr ⟨D, rfl⟩⟩
  exact whileM_ghost (DrainInv T n w f0 c) _ fuel k _ _ hI hk (fun k x hx => (K.step_tot hc hx).mono (fun r hr => by cases r <;> exact hr))

theorem Chain.pass1_tot {fuel : Nat} (hf : n + 2 ≤ fuel) {s : IndSt} (hM : e.M.size = 258) (hC : e.C.size = 258)
    (h : Pend T n w f0 n True s) : Tot (pass1 e fuel s) (ChainDone T n w f0) := by
  unfold pass1
  refine (loopUp_spec (PassInv T n w f0) 1 257 s _ (Or.inl ⟨n, Nat.le_refl _, h, by omega, fun i i1 i2 => by omega⟩) ?_).mono ?_
  · intro c s hc1 hc h
    refine Tot.bind (K.drain_tot hc1 (by omega) hf h) ?_
    intro s1 h1
    have h1' : s1.M3.size = 258 ∧ RowHas w (s1.q TYPE_LMS) (fun i => f0 + i) (fun _ => 0) (fun _ _ => False) := by
      rcases h1 with ⟨_, _, P, _⟩ | D
      · exact ⟨P.M3s, P.qM⟩
      · exact ⟨D.M3s, D.qM⟩
    rw [drain1_empty (by omega) (by omega) (by omega) (by omega) (by rw [h1'.2.size]; omega)
      ((h1'.2.has c (by omega)).isEmpty.2 (fun _ h => h)), Tot_ok]
    exact h1
  · rintro s (⟨j, hj, _, h1, _⟩ | D)
    · have := K.byte j hj; omega
    · exact D

end

/-- The whole of `induce_bwt_XXbit`: row 0 holds the byte after the text, the other rows are those of the transform. -/
theorem induceBwt_chain {S : Type} [SaStore S] (qj : Nat → Nat → Nat → Nat → BitVec 64) (bj : Nat → Nat) (sj : BitVec 64)
    (buf : Mem Nat) (sa : S) (ct : Container) {T : Nat → Nat} {n f0 : Nat} (hn : ct.n = n) (hnum : ct.numSubs = 0)
    (K : Chain T n ⟨buf, ct.bwpBase, ct.lastptr, ct.M, ct.C, sj⟩ ct.bwpWidth f0) (hc : Counts T n ct.M ct.NL ct.C)
    (hM2 : ct.M2.size = 258) (hM3 : ct.M3.size = 258) (hC2 : ct.C2.size = 258) (hsa : 1 ≤ SaStore.size sa)
    (hget : SaStore.get sa 0 = ((f0 + (n + 1) : Nat) : Int)) :
    Tot (induceBwt qj bj sj (n + 2) buf sa ct) (fun r => r.bwt.size = n + 1 ∧ r.last = n ∧ r.bwt.data 0 = T n ∧
      ∀ i, 1 ≤ i → i < n → r.bwt.data (n - i) = T (i - 1)) := by
  have hn2 := K.n2
  have hnl := K.nlt
  have hbase := K.base
  simp only at hbase
  have hnew : ∀ (t : Nat) (A : Nat → Nat → Prop), (∀ c j, ¬ A c j) → RowHas ct.bwpWidth (newQueues ct.bwpWidth (qj t)) (fun i => f0 + i) (fun _ => 0) A :=
    fun t A hA => RowHas.new _ K.w1 (by have := K.w63; omega) _ _ _ hA
  unfold induceBwt
  simp only
  rw [hn, hnum]
  -- seed
  unfold seed
  simp only [loopDown]
  rw [if_pos (by omega), show seedChar (⟨buf, ct.bwpBase, ct.lastptr, ct.M, ct.C, sj⟩ : IndEnv) 0 (SaStore.get sa 0 + ct.bwpBase) = .ok 0 from rfl,
    ok_bind]
  refine Tot.bind (Tot.bind (enqL_row (w := ct.bwpWidth) (f := fun i => f0 + i) (g := fun _ => 0) (A := fun _ _ => False) (n := n + 1) (x := n + 1)
    (t := TYPE_LMS) (c := 0) (hnew 2 _ (fun _ _ h => h)) sj (by omega) K.w63 (by omega) (fun _ h => h.elim) K.lt (fun _ h => h.elim)
    (by rw [hget]; omega)) (fun s1 h1 => by rw [Tot_ok]; exact h1)) ?_
  rintro s1 ⟨g1, g2⟩
  refine Tot.bind (bucketStarts_spec (T := T) (n := n) (e := ⟨buf, ct.bwpBase, ct.lastptr, ct.M, ct.C, sj⟩) hc
    (by rw [g1.M2]; exact hM2) (by rw [g1.M3]; exact hM3)) ?_
  rintro s2 ⟨a1, a2, a3, a4, a5, a6, a7⟩
  refine Tot.bind (stackStarts_spec (T := T) (n := n) (e := ⟨buf, ct.bwpBase, ct.lastptr, ct.M, ct.C, sj⟩) hc a5
    (by rw [a2, g1.C2]; exact hC2) (fun k hk => (a7 k hk).1)) ?_
  rintro s3 ⟨b1, b2, b3, b4, b5, b6, b7, _⟩
  have q3 : ∀ t, s3.q t = s1.q t := fun t => by rw [b1, a1]
  have bw3 : s3.bwt.size = n + 1 := by rw [b4, a3, g1.bwt]
  -- the first row
  have hfr : Tot (firstRow ⟨buf, ct.bwpBase, ct.lastptr, ct.M, ct.C, sj⟩ s3) (Pend T n ct.bwpWidth f0 n True) := by
    unfold firstRow
    have qM3 : RowHas ct.bwpWidth (s3.q TYPE_LMS) (fun i => f0 + i) (fun _ => 0) (fun c' j => False ∨ (c' = 0 ∧ j = n + 1)) := by
      rw [q3]; exact g2
    have hne : ((s3.q TYPE_LMS).data 0).isEmpty ≠ true := fun he =>
      (qM3.has 0 (by omega)).isEmpty.1 he (n + 1) (Or.inr ⟨rfl, rfl⟩)
    refine Tot.bind (deq_row qM3 sj (c := 0) (by omega) K.w63 hne) ?_
    rintro ⟨v, s4⟩ ⟨x, c1, c2, _, c4, c5⟩
    simp only at c2 c4 c5 ⊢
    have hx : x = n + 1 := by
      rcases c1 with h | h
      · exact h.elim
      · exact h.2
    subst hx
    have hq : ct.bwpBase + v = ct.lastptr + ((n + 1 : Nat) : Int) := by rw [c2]; push_cast at *; omega
    have hcur := K.cur n (Nat.le_refl _)
    simp only at hcur
    rw [hq, show ct.lastptr + ((n + 1 : Nat) : Int) - 1 = ct.lastptr + (n : Int) by omega, hcur, ok_bind,
      Mem.wr_ok _ _ (by rw [c4.bwt]; omega), ok_bind]
    have hM2e : s4.M2.data (T n + 1) = 1 := by
      have := K.byte n (Nat.le_refl _)
      rw [c4.M2, b2, (a7 _ (by omega)).1]
      show 1 + bst T n (T n) = 1
      rw [K.bst_end]
    refine Tot.bind (K.induceL_tot (x := n + 1) (s := { s4 with bwt := s4.bwt.upd 0 (T n) }) (by omega) (by omega) ?_ ?_ ?_ ?_) ?_
    · simp only
      rw [c4.q _ (by decide), q3, g1.q _ (by decide)]
      exact hnew _ _ (fun _ _ h => h)
    · simp only; rw [c4.M2, b2]; exact a5
    · simp only [Mem.upd_size]; rw [c4.bwt]; exact bw3
    · simp only [Nat.add_sub_cancel]; omega
    · rintro s5 ⟨d1, d2, d3, d4, d5, d6, u, d7, _⟩
      simp only [Nat.add_sub_cancel] at d1 d2 d3 d4 d5 d6 d7
      unfold IndSt.push
      rw [d4, c4.C2, Mem.rd_ok _ (by omega), ok_bind, b7, d7, Mem.wr_ok _ _ (by simp only [Mem.upd_size]; rw [c4.bwt]; omega), ok_bind,
        Mem.wr_ok _ _ (by omega), ok_bind, Tot_ok]
      refine ⟨d1, ?_, ?_, ?_, ?_, ?_, ?_, ?_, ?_, ?_⟩
      · simp only
        rw [d2 _ (by decide)]
        refine c5.congr (fun c i => ?_)
        constructor
        · rintro ⟨h | h, h'⟩
          · exact h
          · exact h' h
        · exact False.elim
      · simp only
        rw [d2 _ (by decide), c4.q _ (by decide), q3, g1.q _ (by decide)]
        exact hnew _ _ (fun _ _ h => h)
      · simp only
        rw [d6, Mem.upd_size, c4.M2, b2]; exact a5
      · simp only
        rw [d3, c4.M3, b3]; exact a6
      · intro c hc'
        simp only
        rw [d6, numFrom_step (Nat.le_refl _), numFrom_none (fun i i1 i2 => by omega)]
        by_cases h : T n = c
        · subst h
          rw [Mem.upd_data_self, if_pos rfl, hM2e, K.bst_end]
        · rw [Mem.upd_data_ne _ _ (by omega), if_neg h, c4.M2, b2, (a7 _ (by omega)).1]
          rfl
      · intro c hc'
        simp only
        rw [d3, c4.M3, b3]; exact (a7 c hc').2
      · simp only [Mem.upd_size]
        rw [c4.bwt]; exact bw3
      · simp only
        rw [Mem.upd_data_self]
      · intro i i1 i2 i3; omega
  refine Tot.bind hfr ?_
  intro s4 P4
  refine Tot.bind (K.pass1_tot (Nat.le_refl _) hc.Ms hc.Cs P4) ?_
  intro s5 D
  refine Tot.bind D.qM.delete (fun s6 f6 => ?_)
  refine Tot.bind (RowHas.delete (t := TYPE_L) (s := s6) (by rw [f6.q _ (by decide)]; exact D.qL)) (fun s7 f7 => ?_)
  refine Tot.bind (bucketEnds_spec (T := T) (n := n) (e := ⟨buf, ct.bwpBase, ct.lastptr, ct.M, ct.C, sj⟩) hc
    (by simp only; rw [f7.M2, f6.M2]; exact D.M2s)) ?_
  rintro s8 ⟨e1, _, _, e4, e5, _, _⟩
  simp only at e1 e4 e5
  have hL8 : RowHas ct.bwpWidth (s8.q TYPE_L) (fun i => f0 + i) (fun _ => 0) (fun _ _ => False) := by
    rw [e1]
    simp only [if_true]
    exact hnew _ _ (fun _ _ h => h)
  have hS8 : RowHas ct.bwpWidth (s8.q TYPE_S) (fun i => f0 + i) (fun _ => 0) (fun _ _ => False) := by
    rw [e1]
    simp only
    rw [if_neg (by decide), f7.q _ (by decide), f6.q _ (by decide)]
    exact D.qS
  rw [pass2_empty (by omega) hL8 hS8, ok_bind]
  refine Tot.bind hL8.delete (fun s9 f9 => ?_)
  refine Tot.bind (RowHas.delete (t := TYPE_S) (s := s9) (by rw [f9.q _ (by decide)]; exact hS8)) (fun s10 f10 => ?_)
  rw [f10.last, f9.last, e5, f7.last, f6.last, D.last]
  simp only
  rw [Tot_ok]
  simp only
  rw [f10.bwt, f9.bwt, e4, f7.bwt, f6.bwt]
  exact ⟨D.bs, trivial, D.b0, fun i i1 i2 => D.rows i (by omega) i1 i2⟩

end Flbwt
