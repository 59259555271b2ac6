import Verif.DirtyIns

/-!
# The scan and the walk over a table with poisoned buckets (used by C93)
-/

namespace Flbwt

open HashTable (ok_bind nb hashL substr PTab Tab)

/-- A S* substring of a length that is a multiple of 256 that is certainly stored at the beginning of a block: it is the last
one, or it is longer than what is left of any block. -/
def Poison (T : Nat → Nat) (n a : Nat) : Prop :=
  isLMS T n a ∧ (nx T n a - a + 1) % 256 = 0 ∧ (512 ≤ nx T n a - a + 1 ∨ nx T n a = n)

/-- Invariant of the scan before position `i - 1` is looked at; `W i` says what is known of the table. Used in proofs only. -/
structure PoisonInv (W : Nat → HashTable → Prop) (T : Nat → Nat) (n i : Nat) (s : ExSt) : Prop where
  M : s.M.size = 258
  NL : s.NL.size = 258
  C : s.C.size = 258
  prev : s.prev = (if isS T n i = true then TYPE_S else TYPE_L)
  q1 : i < s.q ∧ s.q ≤ n
  q2 : s.q = n ∨ isLMS T n s.q
  q3 : ∀ k, i < k → k < s.q → ¬ isLMS T n k
  tab : W i s.ht
  p : s.p ≤ n

/-- What is known of the table is kept by the insertions. Used in proofs only. -/
structure KeptTab (W : Nat → HashTable → Prop) (junk : Fresh) (T : Mem Nat) (n : Nat) : Prop where
  same : ∀ i ht, ¬ isLMS T.data n (i + 1) → W (i + 1) ht → W i ht
  insert : ∀ i ht, isLMS T.data n (i + 1) → W (i + 1) ht →
    ErrIn MemFault (HashTable.insertString junk ht T (nx T.data n (i + 1) - (i + 1) + 1) (i + 1)) (fun r => W i r.1)

theorem exStep_poison {W : Nat → HashTable → Prop} {T : Mem Nat} {n : Nat} (I : Input T n) {junk : Fresh} (K : KeptTab W junk T n) {i : Nat}
    (hi : i + 1 < n) {s : ExSt} (g : PoisonInv W T.data n (i + 1) s) : ErrIn MemFault (exStep junk T i s) (PoisonInv W T.data n i) := by
  have hn := I.nlt
  have hsz := I.size
  have hbi := I.byte i (by omega)
  have hbi1 := I.byte (i + 1) (by omega)
  have gM := g.M
  have gNL := g.NL
  have gC := g.C
  have gq := g.q1
  unfold exStep
  rw [Mem.rd_ok _ (by omega), ok_bind, Mem.rd_ok _ (by omega), ok_bind]
  refine (Tot.errIn (bump_size_ok (by omega))).bind ?_
  intro M' hM'
  have same : ¬ isLMS T.data n (i + 1) → ∀ (NL' : Mem Nat) (pv : Nat), NL'.size = 258 →
      pv = (if isS T.data n i = true then TYPE_S else TYPE_L) →
      PoisonInv W T.data n i { s with M := M', NL := NL', prev := pv } := by
    intro hnl NL' pv h1 h2
    refine ⟨by simp only; omega, h1, gC, h2, by simp only; omega, g.q2, ?_, K.same i s.ht hnl g.tab, g.p⟩
    intro k k1 k2
    by_cases hk : k = i + 1
    · rw [hk]; exact hnl
    · exact g.q3 k (by omega) k2
  by_cases h1 : T.data i < T.data (i + 1)
  · rw [if_pos h1]
    have hS : isS T.data n i = true := (S_iff (by omega)).2 ⟨hi, Or.inl h1⟩
    have hnl : ¬ isLMS T.data n (i + 1) := fun hl => by
      have := hl.2.2.2; rw [show i + 1 - 1 = i by omega, hS] at this; exact absurd this (by simp)
    exact same hnl s.NL TYPE_S gNL (by rw [hS]; rfl)
  · rw [if_neg h1]
    by_cases h2 : T.data (i + 1) < T.data i
    · rw [if_pos h2]
      have hSi : isS T.data n i = false := (L_iff (by omega)).2 (Or.inr ⟨hi, Or.inl h2⟩)
      have hprev := g.prev
      unfold exMaybe
      simp only
      cases hS : isS T.data n (i + 1) with
      | true =>
        rw [hS] at hprev
        simp only [if_true] at hprev
        rw [if_pos hprev]
        have hl : isLMS T.data n (i + 1) := ⟨by omega, hi, hS, by simpa using hSi⟩
        have hnx : nx T.data n (i + 1) = s.q := nx_eq hl gq.1 gq.2 g.q2 g.q3
        have hsp := nx_spec hl
        rw [hnx] at hsp
        unfold exFound
        simp only
        rw [Mem.rd_ok _ (by omega), ok_bind]
        have hins := K.insert i s.ht hl g.tab
        rw [hnx] at hins
        obtain ⟨C', hC1, hC'⟩ := Tot_iff.1 (bump_size_ok (show T.data (i + 1) + 1 < s.C.size by omega))
        rw [hC1, ok_bind, subU64_eq (by omega), addU64_eq (by omega)]
        cases hr : HashTable.insertString junk s.ht T (s.q - (i + 1) + 1) (i + 1) with
        | error e => rw [hr] at hins; exact hins
        | ok r =>
          rw [hr] at hins
          rw [ok_bind, ok_bind]
          dsimp only
          obtain ⟨NL', hN1, hN⟩ := Tot_iff.1 (bump_size_ok (show T.data i + 1 < s.NL.size by omega))
          rw [hN1, ok_bind]
          refine ⟨by simp only; omega, by simp only; omega, by simp only; omega, by simp only [hSi]; rfl, by simp only; omega, Or.inr hl, ?_,
            hins, by simp only; omega⟩
          intro k k1 k2; simp only at k2; omega
      | false =>
        rw [hS] at hprev
        simp only [Bool.false_eq_true, if_false] at hprev
        rw [if_neg (by rw [hprev]; decide), ok_bind]
        simp only
        refine (Tot.errIn (bump_size_ok (by omega))).bind ?_
        intro NL' hNL'
        have hnl : ¬ isLMS T.data n (i + 1) := fun hl => by rw [hl.2.2.1] at hS; exact absurd hS (by simp)
        exact same hnl NL' TYPE_L (by omega) (by rw [hSi]; rfl)
    · rw [if_neg h2]
      have heq : T.data i = T.data (i + 1) := by omega
      have hS := isS_succ_same hi heq
      have hnl : ¬ isLMS T.data n (i + 1) := fun hl => by
        have h3 := hl.2.2.2
        rw [show i + 1 - 1 = i by omega, hS, hl.2.2.1] at h3; exact absurd h3 (by simp)
      split
      · refine (Tot.errIn (bump_size_ok (by omega))).bind ?_
        intro NL' hNL'
        exact same hnl NL' s.prev (by omega) (by rw [hS]; exact g.prev)
      · exact same hnl s.NL s.prev gNL (by rw [hS]; exact g.prev)

/-- `extract_LMS_strings` leaves a table of which `W 0` is known, or faults. -/
theorem extract_kept {W : Nat → HashTable → Prop} {T : Mem Nat} {n : Nat} (I : Input T n) {junk : Fresh} (K : KeptTab W junk T n)
    (h0 : ∀ ht u, HtOK T.data n ht (fun q => n - 1 < q) u → ht.bufsize = 0 → (∀ k, ht.head.data k = 0) → W (n - 1) ht) :
    ErrIn MemFault (extractLMS junk T n) (fun ct => ct.headEnd ≤ n ∧ ∃ ht, ct.hashtable = some ht ∧ W 0 ht) := by
  have hn := I.nlt
  have hn3 := I.n3
  have hsz := I.size
  obtain ⟨H0, M1, M2, NL1, C1, e0, e1, e2, e3, e4, e5, X⟩ := extract_start I
  obtain ⟨H0', e0', _, hh1, hh2, hh3, hh4, _⟩ := Tot_iff.1 (HashTable.new_tab 67777 n (by omega) (by omega))
  have : H0' = H0 := by rw [e0] at e0'; injection e0' with h; exact h.symm
  subst this
  unfold extractLMS
  rw [if_neg (by omega), e0, ok_bind, e1, ok_bind, e2, ok_bind, e3, ok_bind, e4, ok_bind, e5, ok_bind]
  refine (ErrIn.loopDown (PoisonInv W T.data n) (n - 1) _ _ ⟨X.M.sz, X.NL.sz, X.C.sz, X.prev, by simp only; omega, Or.inl rfl,
    fun k k1 k2 => by simp only at k2; omega, h0 _ _ X.ht hh2 hh4, Nat.le_refl n⟩
    (fun i s h1 h2 => exStep_poison I K (by omega) h2)).bind ?_
  intro s g
  exact ⟨g.p, s.ht, rfl, g.tab⟩

/-- A table with a poisoned bucket. Used in proofs only. -/
def Poisoned (lo up L : Nat) (ht : HashTable) : Prop :=
  ht.htsize = 67777 ∧ ∃ K bad own ents E, PTab lo up L K ht bad own ents E ∧ ∃ k, k < 67777 ∧ bad k = true

/-- `extract_LMS_strings` leaves a poisoned bucket or faults. -/
theorem extract_poison {T : Mem Nat} {n lo up L : Nat} (I : Input T n) {junk : Fresh} (R : HashTable.Range lo up L)
    (hlim : junk.lim ≤ L) (hjunk : ∀ i, lo ≤ junk i % 256 ∧ junk i % 256 ≤ up)
    (h64 : ∀ a, isLMS T.data n a → (nx T.data n a - a + 1) % 65536 ≠ 0) (hp : ∃ a, Poison T.data n a) :
    ErrIn MemFault (extractLMS junk T n) (fun ct => ct.headEnd ≤ n ∧ ∃ ht, ct.hashtable = some ht ∧ Poisoned lo up L ht) := by
  have hn := I.nlt
  have hsz := I.size
  refine (extract_kept (W := fun i ht => ht.htsize = 67777 ∧ ((∀ k, i < k → ¬ isLMS T.data n k) → ∀ k, ht.head.data k = 0) ∧
    ∃ bad own ents E, PTab lo up L True ht bad own ents E ∧ ((∃ a, i < a ∧ Poison T.data n a) → ∃ k, k < 67777 ∧ bad k = true)) I ⟨?_, ?_⟩ ?_).mono ?_
  · rintro i ht hnl ⟨g1, g2, bad, own, ents, E, t, hbad⟩
    refine ⟨g1, fun h => g2 (fun k hk => h k (by omega)), bad, own, ents, E, t, ?_⟩
    rintro ⟨a, a1, a2⟩
    have : a ≠ i + 1 := fun h => hnl (h ▸ a2.1)
    exact hbad ⟨a, by omega, a2⟩
  · rintro i ht hl ⟨g1, g2, bad, own, ents, E, t, hbad⟩
    have hsp := nx_spec hl
    have h6 := h64 _ hl
    have hno : nx T.data n (i + 1) = n → ∀ k, i + 1 < k → ¬ isLMS T.data n k := by
      intro he k k1 hk
      exact hsp.2.2.2 k (by omega) (by rw [he]; exact hk.2.1) hk
    refine (HashTable.insert_any (junk := junk) (T := T) (m := nx T.data n (i + 1) - (i + 1) + 1) (p := i + 1) t (by omega) (by omega) (by omega)
      R hlim hjunk (by omega)).mono ?_
    rintro r ⟨bad', own', ents', E', t', f1, f2, f3, f4, f5⟩
    have hlt := HashTable.hashL_lt t.tab.hts (substr T (i + 1) (nx T.data n (i + 1) - (i + 1) + 1))
    have hhts : (ht.clean bad).htsize = 67777 := g1
    refine ⟨by rw [f1]; exact g1, fun h => absurd hl (h _ (by omega)), bad', own', ents', E', t', ?_⟩
    rintro ⟨a, a1, a2⟩
    by_cases ha : a = i + 1
    · subst ha
      obtain ⟨_, b2, b3⟩ := a2
      refine ⟨_, by rw [← hhts]; exact hlt, (f5 ⟨b2, b3.imp id ?_⟩).1⟩
      intro b3
      exact g2 (hno b3) _
    · obtain ⟨k, k1, k2⟩ := hbad ⟨a, by omega, a2⟩
      exact ⟨k, k1, f3 k k2⟩
  · intro ht u hok hz hh
    obtain ⟨⟨own, ents, E, t, hset, _⟩, _, hN8, _, hcap, _⟩ := hok
    have hcl : ht.clean (fun _ => false) = ht := rfl
    refine ⟨hcap.1, fun _ => hh, fun _ => false, own, ents, E, ⟨t, hN8, fun _ _ h => by simp at h, fun k hk => by rw [hcl]; exact hcap.2 k hk, ?_, by omega⟩, ?_⟩
    · intro _ k hk y hy
      rw [(t.empty k hk (hh k)).1] at hy
      cases hy
    · rintro ⟨a, a1, a2⟩
      have := a2.1.2.1
      omega
  · rintro ct ⟨h1, ht, h2, g1, _, bad, own, ents, E, t, hbad⟩
    refine ⟨h1, ht, h2, g1, True, bad, own, ents, E, t, hbad ?_⟩
    obtain ⟨a, ha⟩ := hp
    exact ⟨a, ha.1.1, ha⟩

/-- The walk of `sort_LMS_strings` faults. -/
theorem sort_poison {T : Mem Nat} {n lo up L : Nat} (hn57 : n < 2 ^ 57) {junk : Fresh} (R : HashTable.Range lo up L)
    (hlim : junk.lim ≤ L) {sorter : Sorter} (pj : Nat → Nat) {ct : Container} (hh : ct.headEnd ≤ n) {ht : HashTable}
    (c1 : ct.hashtable = some ht) (hts : ht.htsize = 67777) {bad : Nat → Bool} {own : Nat → HashTable.Tag}
    {ents : Nat → List (Nat × List Nat)} {E : Nat → Nat} {K : Prop} (t : PTab lo up L K ht bad own ents E) (hk : ∃ k, k < 67777 ∧ bad k = true) :
    ErrIn MemFault (sortLMS sorter pj junk T ct) (fun _ => False) := by
  have hbs : ht.buf.size = ht.bufsize := t.tab.bufsz
  have hhs : ht.head.size = ht.htsize := t.tab.headsz
  have hsm : ht.bufsize < 2 ^ 63 := t.tab.small
  unfold sortLMS
  rw [c1]
  dsimp only
  refine ErrIn.bind (Q := fun _ => False) ?_ (fun _ h => h.elim)
  unfold sortNames
  rw [HashTable.calculateLenlen_eq (by omega) (by omega), ok_bind]
  dsimp only
  generalize 1 + 1 + nb (ct.headEnd + 1) + (ct.headEnd + 1) + ht.nameBytes + (1 + 1 + 1 + 1 + ht.nameBytes) = space
  unfold reallocBytes
  by_cases hroom : junk.Room (ht.bufsize + space)
  swap
  · rw [if_neg hroom]; exact Or.inr rfl
  rw [if_pos hroom, ok_bind]
  have hr1 := hroom.1
  have hr2 := hroom.2
  refine ErrIn.bind (Q := fun _ => False) ?_ (fun _ h => h.elim)
  obtain ⟨buf1, hbuf1⟩ : ∃ b : Mem Nat, b = ⟨ht.bufsize + space, fun i => if i < ht.buf.size then ht.buf.data i else junk i % 256⟩ := ⟨_, rfl⟩
  rw [← hbuf1]
  have hb1s : buf1.size = ht.bufsize + space := by rw [hbuf1]
  have hb1d : ∀ i, i < ht.bufsize → buf1.data i = ht.buf.data i := by
    intro i hi; rw [hbuf1]; simp only; rw [if_pos (by omega)]
  have hown : ∀ i, own i ≠ .none → i < ht.bufsize := t.tab.ownlt
  unfold HashTable.collect
  dsimp only
  rw [hts]
  refine (ErrIn.loopUp (fun i _ => ∀ h, h < i → bad h = false) 0 67777 _ _ (fun h hh => by omega) ?_).mono ?_
  · intro i st _ hi hinv
    rw [Mem.rd_ok _ (by omega), ok_bind]
    cases hbi : bad i with
    | true =>
      have hd := (t.doom i (by omega) hbi).frame (buf' := buf1) (P' := fun j => own j = .name 0)
        (fun j hj => ⟨hj, hb1d j (hown j (by rw [hj]; simp))⟩)
      exact (HashTable.collect_doom R t.nb8 (fun j hj => by have := hown j (by rw [hj]; simp); omega) (by omega) hd
        (buf1.size + 2) st.1 st.2 (by omega) (by omega)).mono (fun _ h => h.elim)
    | false =>
      have hgood : ∀ h, h < i + 1 → bad h = false := by
        intro h hh
        by_cases he : h = i
        · rw [he]; exact hbi
        · exact hinv h (by omega)
      have e1 : (ht.clean bad).head.data i = ht.head.data i := by unfold HashTable.clean; simp [hbi]
      by_cases h0 : ht.head.data i = 0
      · rw [h0]
        simp only [whileM, HashTable.collectStep, if_neg (show ¬ (0 : Nat) ≠ 0 by omega), ok_bind]
        exact hgood
      · have ch := t.tab.chain i (by show i < ht.htsize; omega) (by rw [e1]; exact h0)
        rw [e1] at ch
        have ch' := ch.frame (buf' := buf1) (P' := fun j => own j = .str i) (PN' := fun q j => own j = .name q)
          (fun j hj => ⟨hj, hb1d j (hown j (by rw [hj]; simp))⟩) (fun _ _ h => h)
        exact (HashTable.collect_clean (fun j hj => by have := hown j (by rw [hj]; simp); omega) (by omega) ch'
          (buf1.size + 2) st.1 st.2 (by omega)).mono (fun _ _ => hgood)
  · intro _ h
    obtain ⟨k, k1, k2⟩ := hk
    have := h k (by omega)
    rw [k2] at this
    cases this

/-- `bwt_string` faults when a string poisons the table. -/
theorem bwt_poison (w : World) {T : Mem Nat} {n lo up L : Nat} (I : Input T n) (R : HashTable.Range lo up L)
    (hlim : w.junk.lim ≤ L) (hjunk : ∀ i, lo ≤ w.junk i % 256 ∧ w.junk i % 256 ≤ up)
    (h64 : ∀ a, isLMS T.data n a → (nx T.data n a - a + 1) % 65536 ≠ 0) (hp : ∃ a, Poison T.data n a) (freeT : Bool) :
    ∃ e, bwtString w (some T) n freeT = .error e ∧ MemFault e := by
  have hn3 := I.n3
  have key : ErrIn MemFault (bwtString w (some T) n freeT) (fun _ => False) := by
    simp only [bwtString]
    rw [if_neg (by omega)]
    unfold bwtIs
    refine (extract_poison I R hlim hjunk h64 hp).bind ?_
    rintro ct ⟨h1, ht, h2, h3, K, bad, own, ents, E, t, hk⟩
    exact (sort_poison I.nlt R hlim w.pj h1 h2 h3 t hk).bind (fun _ h => h.elim)
  cases hr : bwtString w (some T) n freeT with
  | ok r => rw [hr] at key; exact key.elim
  | error e => rw [hr] at key; exact ⟨e, rfl, key⟩

end Flbwt
