import Verif.DirtyScan

/-!
# The first string that opens a block in dirty memory (used by C93)
-/

namespace Flbwt

open HashTable (ok_bind nb nb_le8 hashL substr PTab Tab Has bodyLen)

/-- Two decreasing lists with the same members are equal. -/
theorem decreasing_ext : ∀ {as bs : List Nat}, as.Pairwise (· > ·) → bs.Pairwise (· > ·) → (∀ x, x ∈ as ↔ x ∈ bs) → as = bs := by
  intro as
  induction as with
  | nil =>
    intro bs _ _ h
    cases bs with
    | nil => rfl
    | cons b bs => exact absurd ((h b).2 (by simp)) (by simp)
  | cons a as ih =>
    intro bs ha hb h
    cases bs with
    | nil => exact absurd ((h a).1 (by simp)) (by simp)
    | cons b bs =>
      rw [List.pairwise_cons] at ha hb
      have hab : a = b := by
        rcases List.mem_cons.1 ((h a).1 (by simp)) with h1 | h1
        · exact h1
        · rcases List.mem_cons.1 ((h b).2 (by simp)) with h2 | h2
          · exact h2.symm
          · have := ha.1 b h2
            have := hb.1 a h1
            omega
      subst hab
      congr 1
      refine ih ha.2 hb.2 (fun x => ?_)
      constructor
      · intro hx
        rcases List.mem_cons.1 ((h x).1 (List.mem_cons_of_mem _ hx)) with h1 | h1
        · have := ha.1 x hx; omega
        · exact h1
      · intro hx
        rcases List.mem_cons.1 ((h x).2 (List.mem_cons_of_mem _ hx)) with h1 | h1
        · have := hb.1 x hx; omega
        · exact h1

/-- The first string (from the right) that opens a block. -/
theorem first_open {T : Nat → Nat} {n : Nat} (h : ¬ NoOpen T n) : ∃ a, ¬ NoOpenAt T n a ∧ ∀ q, a < q → NoOpenAt T n q := by
  have key : ∀ d a, n ≤ a + d → ¬ NoOpenAt T n a → ∃ a, ¬ NoOpenAt T n a ∧ ∀ q, a < q → NoOpenAt T n q := by
    intro d
    induction d with
    | zero =>
      intro a h1 h2
      exfalso
      apply h2
      intro ps _ hp
      have := hp.2.1
      omega
    | succ d ih =>
      intro a h1 h2
      by_cases hc : ∀ q, a < q → NoOpenAt T n q
      · exact ⟨a, h2, hc⟩
      · have : ∃ q, a < q ∧ ¬ NoOpenAt T n q := by
          by_contra hd
          exact hc (fun q hq => by
            by_contra he
            exact hd ⟨q, hq, he⟩)
        obtain ⟨q, q1, q2⟩ := this
        exact ih q (by omega) q2
  have : ∃ q, ¬ NoOpenAt T n q := by
    by_contra hd
    exact h (fun q => by
      by_contra he
      exact hd ⟨q, he⟩)
  obtain ⟨q, hq⟩ := this
  exact key n q (by omega) hq

/-- Fresh memory that is zero but for one block of the table, that of a string of `m` bytes at offset `b`: there it is 127 but for
the bytes of the length field other than the last one. Used in proofs only. -/
def oneBlock (b NB m lim : Nat) : Fresh :=
  ⟨fun i => if b + 1 + nb m ≤ i ∧ i < b + 512 + (2 + nb m + m + NB) then 127 else 0, lim⟩

/-- `extract_LMS_strings` leaves a poisoned bucket or faults. -/
theorem extract_open {T : Mem Nat} {n : Nat} (I : Input T n) (ho : ¬ NoOpen T.data n) : ∃ J : Fresh, J.lim = enoughFor n ∧
    ErrIn MemFault (extractLMS J T n) (fun ct => ct.headEnd ≤ n ∧ ∃ ht, ct.hashtable = some ht ∧ Poisoned 127 127 (enoughFor n) ht) := by
  have hn := I.nlt
  have hn3 := I.n3
  have hsz := I.size
  obtain ⟨a, ha, hq⟩ := first_open ho
  have : ∃ ps : List Nat, ps.Pairwise (· > ·) ∧ isLMS T.data n a ∧ (∀ x, x ∈ ps ↔ a < x ∧ isLMS T.data n x) ∧
      (nx T.data n a - a + 1) % 256 = 0 ∧ wstr T.data n a ∉ ps.map (wstr T.data n) ∧
      (plan (nb (n / 2 + 1)) (ps.map (wstr T.data n))).Opens (nb (n / 2 + 1)) (wstr T.data n a) := by
    by_contra hc
    apply ha
    intro ps p1 p2 p3 p4 p5 p6
    exact hc ⟨ps, p1, p2, p3, p4, p5, p6⟩
  obtain ⟨ps, p1, p2, p3, p4, p5, p6⟩ := this
  obtain ⟨b, hb⟩ : ∃ b, b = (plan (nb (n / 2 + 1)) (ps.map (wstr T.data n))).size := ⟨_, rfl⟩
  obtain ⟨NB, hNB⟩ : ∃ NB, NB = nb (n / 2 + 1) := ⟨_, rfl⟩
  obtain ⟨m, hm⟩ : ∃ m, m = nx T.data n a - a + 1 := ⟨_, rfl⟩
  obtain ⟨J, hJ⟩ : ∃ J : Fresh, J = oneBlock b NB m (enoughFor n) := ⟨_, rfl⟩
  have R : HashTable.Range 127 127 (enoughFor n) := ⟨by omega, by omega, by unfold enoughFor; omega, by unfold enoughFor; omega⟩
  have hJl : J.lim = enoughFor n := by rw [hJ]; rfl
  have hJ0 : ∀ i, b + 512 + (2 + nb m + m + NB) ≤ i → J i % 256 = 0 := by
    intro i hi
    rw [hJ]
    show (if _ then _ else _) % 256 = 0
    rw [if_neg (by omega)]
  have hJ1 : ∀ i, i < b + 1 + nb m → J i % 256 = 0 := by
    intro i hi
    rw [hJ]
    show (if _ then _ else _) % 256 = 0
    rw [if_neg (by omega)]
  have hJ2 : ∀ i, b + 1 + nb m ≤ i → i < b + 512 + (2 + nb m + m + NB) → 127 ≤ J i % 256 ∧ J i % 256 ≤ 127 := by
    intro i h1 h2
    rw [hJ]
    show 127 ≤ (if _ then _ else _) % 256 ∧ (if _ then _ else _) % 256 ≤ 127
    rw [if_pos (by omega)]
    omega
  refine ⟨J, hJl, ?_⟩
  refine (extract_kept (W := fun i ht =>
    (a ≤ i ∧ (∃ u, HtOK T.data n ht (fun q => i < q) u) ∧
      ∀ q, q ≤ n → (∀ k, i < k → k < q → ¬ isLMS T.data n k) → ht.bufsize ≤ HashTable.restSum ht + 27 * (n - q)) ∨
    (i < a ∧ ht.htsize = 67777 ∧ b + 512 + (2 + nb m + m + NB) ≤ ht.bufsize ∧ ∃ bad own ents E,
      PTab 127 127 (enoughFor n) False ht bad own ents E ∧ ∃ k, k < 67777 ∧ bad k = true)) I ⟨?_, ?_⟩ ?_).mono ?_
  · rintro i ht hnl (⟨g1, ⟨u, g2⟩, g3⟩ | ⟨g1, g2⟩)
    · left
      have hia : a ≠ i + 1 := fun h => hnl (h ▸ p2)
      have key : ∀ q, (i < q ∧ isLMS T.data n q) ↔ (i + 1 < q ∧ isLMS T.data n q) := fun q => by
        constructor
        · rintro ⟨h1, h2⟩
          refine ⟨?_, h2⟩
          rcases Nat.lt_or_ge (i + 1) q with h3 | h3
          · exact h3
          · have : q = i + 1 := by omega
            subst this; exact absurd h2 hnl
        · rintro ⟨h1, h2⟩; exact ⟨by omega, h2⟩
      refine ⟨by omega, ⟨u, ?_⟩, ?_⟩
      · obtain ⟨⟨own, ents, E, t, hset, hu, hcl⟩, hr1, hr2, hr3, hr4, hr5, hr6, ps, ps1, ps2, ps3⟩ := g2
        refine ⟨⟨own, ents, E, t, fun s' => ?_, hu, hcl⟩, hr1, hr2, hr3, hr4, hr5, hr6, ps, ps1,
          fun x => by rw [ps2]; exact (key x).symm, ps3⟩
        rw [hset s']
        constructor
        · rintro ⟨x, x1, x2, x3⟩; exact ⟨x, by omega, x2, x3⟩
        · rintro ⟨x, x1, x2, x3⟩; exact ⟨x, ((key x).1 ⟨x1, x2⟩).1, x2, x3⟩
      · intro q q1 q2
        exact g3 q q1 (fun k k1 k2 => q2 k (by omega) k2)
    · exact Or.inr ⟨by omega, g2⟩
  · rintro i ht hl (⟨g1, ⟨u, g2⟩, g3⟩ | ⟨g1, g2, g3, bad, own, ents, E, t, k, k1, k2⟩)
    · obtain ⟨s1, s2, _, s4⟩ := nx_spec hl
      have hsmall := g3 (nx T.data n (i + 1)) s2 (fun k k1 k2 => s4 k (by omega) k2)
      have hrs := HashTable.restSum_le g2.cap.2
      rw [g2.cap.1] at hrs
      by_cases hia : a = i + 1
      · -- the string that opens a block
        subst hia
        rw [← hm]
        obtain ⟨⟨own, ents, E, t, hset, hu, hcl⟩, hr1, hr2, hr3, hr4, hr5, hr6, ps', ps1, ps2, ps3⟩ := g2
        obtain rfl : ps' = ps := decreasing_ext ps1 p1 (fun x => by rw [ps2, p3])
        have hclean : ht.clean (fun _ => false) = ht := rfl
        have hbz : ht.bufsize = b := by rw [ps3.size, hb, hr6]
        have hw : wstr T.data n (i + 1) = substr T (i + 1) m := by rw [wstr_eq_substr, hm]
        have hlt := HashTable.hashL_lt t.hts (substr T (i + 1) m)
        have t' : PTab 127 127 (enoughFor n) False ht (fun _ => false) own ents E :=
          ⟨t, hr2, fun _ _ h => by simp at h, fun k hk => by rw [hclean]; exact hr4.2 k hk, fun h => h.elim, by unfold enoughFor; omega⟩
        refine (HashTable.insert_full (N := True) t' (by omega) (by omega) (by omega) R (by omega) rfl ?_ ?_ ?_).mono ?_
        · unfold Plan.Opens recordBytes at p6
          rw [← hr6, ← ps3.left _ (HashTable.hashL_lt (by omega) _), hw, HashTable.substr_length] at p6
          rw [hr4.1]
          exact p6
        · intro _
          rw [hbz, hr6, ← hNB]
          exact ⟨by omega, Or.inr (fun j j1 j2 => hJ1 j (by omega)), hJ2⟩
        · intro _ hin
          rw [← hw] at hin
          obtain ⟨x, x1, x2, x3⟩ := (hset _).1 hin
          exact p5 (List.mem_map.2 ⟨x, (ps2 x).2 ⟨x1, x2⟩, x3⟩)
        · rintro r ⟨bad', own', ents', E', t2, f1, f2, f3, f4, f5⟩
          have f5 := f5 trivial
          refine Or.inr ⟨by omega, by rw [f1]; exact hr4.1, ?_, bad', own', ents', E', t2, _, ?_, f5.1⟩
          · have := f5.2 rfl
            rw [hbz, hr6, ← hNB] at this
            exact this
          · rw [hr4.1] at hlt ⊢; exact hlt
      · -- a string before it
        refine (Tot.errIn (HtOK.insert I (Or.inr (hq (i + 1) (by omega))) g2 hl (by omega) (by unfold enoughFor at hJl; omega) (fun _ _ => Iff.rfl) (P' := fun q => i < q) (by
          intro q hq
          constructor
          · intro h1; omega
          · rintro (h1 | h1) <;> omega))).mono ?_
        rintro r ⟨h1, h2⟩
        refine Or.inl ⟨by omega, ⟨_, h1⟩, ?_⟩
        intro q q1 q2
        have : q ≤ i + 1 := by
          by_contra hc
          exact q2 (i + 1) (by omega) (by omega) hl
        omega
    · obtain ⟨s1, s2, _, s4⟩ := nx_spec hl
      refine (HashTable.insert_zero t (by omega) (by omega) (by omega) R (by omega) (fun j hj => hJ0 j (by omega))).mono ?_
      rintro r ⟨bad', own', ents', E', t2, f1, f2, f3, f4, f5⟩
      exact Or.inr ⟨by omega, by omega, by omega, bad', own', ents', E', t2, k, k1, f3 k k2⟩
  · intro ht u hok hz hh
    have := p2.2.1
    exact Or.inl ⟨by omega, ⟨u, hok⟩, fun _ _ _ => by omega⟩
  · rintro ct ⟨h1, ht, h2, ⟨g1, _⟩ | ⟨g1, g2, g3, bad, own, ents, E, t, hk⟩⟩
    · have := p2.1
      omega
    · exact ⟨h1, ht, h2, g2, False, bad, own, ents, E, t, hk⟩

/-- `bwt_string` faults in some memory when a new string of a length that is a multiple of 256 opens a block of the table. -/
theorem bwt_open {T : Mem Nat} {n : Nat} (I : Input T n) (ho : ¬ NoOpen T.data n) : ∃ J : Fresh, J.lim = enoughFor n ∧
    ∀ w : World, w.junk = J → ∀ freeT, ∃ e, bwtString w (some T) n freeT = .error e ∧ MemFault e := by
  have hn3 := I.n3
  have hn := I.nlt
  obtain ⟨J, hJ, hx⟩ := extract_open I ho
  have R : HashTable.Range 127 127 (enoughFor n) := ⟨by omega, by omega, by unfold enoughFor; omega, by unfold enoughFor; omega⟩
  refine ⟨J, hJ, ?_⟩
  rintro w rfl freeT
  have key : ErrIn MemFault (bwtString w (some T) n freeT) (fun _ => False) := by
    simp only [bwtString]
    rw [if_neg (by omega)]
    unfold bwtIs
    refine hx.bind ?_
    rintro ct ⟨h1, ht, h2, h3, K, bad, own, ents, E, t, hk⟩
    exact (sort_poison I.nlt R (by omega) w.pj h1 h2 h3 t hk).bind (fun _ h => h.elim)
  cases hr : bwtString w (some T) n freeT with
  | ok r => rw [hr] at key; exact key.elim
  | error e => rw [hr] at key; exact ⟨e, rfl, key⟩

end Flbwt
