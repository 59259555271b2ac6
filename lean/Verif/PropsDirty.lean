import Verif.PropsTop
import Mathlib.Tactic.Ring
import Mathlib.Tactic.Positivity

/-!
# Property C45: head strings whose length is a multiple of 256

The consequence of the defect described in C18 for `bwt_string` itself.
-/

namespace Flbwt

open HashTable (ok_bind nb nb_le8 nb_pos nb_lt nb_le nb_unique setLength_raw getLength getLength_eq LenAt)

/-- `k` bytes are the digits of a number. -/
theorem digits_exist (k : Nat) (f : Nat → Nat) (hf : ∀ j, f j < 256) :
    ∃ Y, Y < 256 ^ k ∧ (∀ j, j < k → f j = Y / 256 ^ (k - 1 - j) % 256) ∧ (0 < k → Y % 256 = f (k - 1)) := by
  induction k with
  | zero => exact ⟨0, by simp, by intro j hj; omega, by intro h; omega⟩
  | succ k ih =>
    obtain ⟨Y, h1, h2, _⟩ := ih
    have hk := hf k
    refine ⟨Y * 256 + f k, by rw [pow_succ]; omega, ?_, ?_⟩
    · intro j hj
      by_cases hjk : j = k
      · subst hjk
        rw [show j + 1 - 1 - j = 0 by omega, pow_zero, Nat.div_one]; omega
      · rw [h2 j (by omega), show k + 1 - 1 - j = (k - 1 - j) + 1 by omega, pow_succ, Nat.mul_comm (256 ^ (k - 1 - j)),
          ← Nat.div_div_eq_div_mul]
        congr 2; omega
    · intro _; simp only [Nat.add_sub_cancel]; omega

/-- When the length is a multiple of 256 and the bytes of the field were at least 13, `get_length` reads a value that is too
large by at least 13. -/
theorem setLength_dirty (buf : Mem Nat) (p l : Nat) (h1 : 1 ≤ l) (h2 : l < 2 ^ 64) (hs : p + 1 + nb l ≤ buf.size)
    (hm : l % 256 = 0) (hb : ∀ i, p ≤ i → buf.data i < 256) (hd : ∀ j, j < nb l → 13 ≤ buf.data (p + 1 + j)) :
    Tot (HashTable.setLength buf p l) (fun buf' => buf'.size = buf.size ∧ buf'.data p = nb l ∧
      ∃ l', getLength buf' p = .ok l' ∧ l + 13 ≤ l') := by
  have h8 := nb_le8 h1 h2
  have hb1 := nb_pos l
  refine (setLength_raw buf p l h1 h2 hs).mono ?_
  rintro buf' ⟨e1, e2, t, e3, e4, e5, e6, e7⟩
  refine ⟨e1, e2, ?_⟩
  have hu : nb l - t ≠ 0 := by
    intro hc
    rw [hc] at e5
    exact e5 (by simpa using Nat.dvd_of_mod_eq_zero hm)
  obtain ⟨u, hu⟩ : ∃ u, nb l - t = u + 1 := ⟨nb l - t - 1, by omega⟩
  rw [hu] at e4
  obtain ⟨c, hc⟩ := e4
  obtain ⟨Y, y1, y2, y3⟩ := digits_exist (u + 1) (fun j => buf.data (p + 1 + t + j)) (fun j => hb _ (by omega))
  have y3 := y3 (by omega)
  simp only [Nat.add_sub_cancel] at y3
  have hY13 : 13 ≤ Y := by
    have := hd (t + u) (by omega)
    rw [show p + 1 + (t + u) = p + 1 + t + u by omega, ← y3] at this
    exact le_trans this (Nat.mod_le _ _)
  have hlt : l + Y < 256 ^ nb l := by
    have h3 := nb_lt l
    have hn : (256 : Nat) ^ nb l = 256 ^ (u + 1) * 256 ^ t := by rw [← pow_add]; congr 1; omega
    rw [hn] at h3 ⊢
    rw [hc] at h3 ⊢
    have h5 : c < 256 ^ t := Nat.lt_of_mul_lt_mul_left h3
    have h4 : 256 ^ (u + 1) * (c + 1) ≤ 256 ^ (u + 1) * 256 ^ t := Nat.mul_le_mul_left _ h5
    rw [Nat.mul_add, Nat.mul_one] at h4
    exact lt_of_lt_of_le (Nat.add_lt_add_left y1 _) h4
  have hnb : nb (l + Y) = nb l := nb_unique hb1 (by have := nb_le h1; omega) hlt
  have hX64 : l + Y < 2 ^ 64 := by
    have : (256 : Nat) ^ nb l ≤ 256 ^ 8 := Nat.pow_le_pow_right (by norm_num) h8
    have h64 : (256 : Nat) ^ 8 = 2 ^ 64 := by norm_num
    omega
  refine ⟨l + Y, getLength_eq ⟨by rw [hnb]; exact e2, ?_⟩ (by omega) hX64 (by rw [e1, hnb]; omega), by omega⟩
  rw [hnb]
  intro j hj
  by_cases hjt : j < t
  · rw [e6 j hjt, show nb l - 1 - j = (u + 1) + (t - 1 - j) by omega, pow_add, ← Nat.div_div_eq_div_mul,
      ← Nat.div_div_eq_div_mul, hc]
    rw [Nat.mul_div_cancel_left _ (by positivity), Nat.add_comm (256 ^ (u + 1) * c), Nat.add_mul_div_left _ _ (by positivity),
      Nat.div_eq_of_lt y1, Nat.zero_add]
  · rw [e7 _ (by omega)]
    have hy := y2 (j - t) (by omega)
    rw [show p + 1 + t + (j - t) = p + 1 + j by omega] at hy
    rw [hy, show u + 1 - 1 - (j - t) = nb l - 1 - j by omega]
    obtain ⟨w, hw⟩ : ∃ w, u + 1 = (nb l - 1 - j) + (w + 1) := ⟨u - (nb l - 1 - j), by omega⟩
    generalize nb l - 1 - j = v at *
    have : 256 ^ (u + 1) * c = 256 ^ v * (256 * (256 ^ w * c)) := by rw [hw, pow_add, pow_succ]; ring
    rw [hc, this, Nat.add_comm, Nat.add_mul_div_left _ _ (by positivity), Nat.add_mul_mod_self_left]

/-- Writing the head record faults. -/
theorem writeHead_dirty {NB : Nat} {T : Mem Nat} {h u : Nat} {buf : Mem Nat} {r : Nat} (hN1 : 1 ≤ NB) (hN8 : NB ≤ 8)
    (hh : h + 1 < 2 ^ 64) (hs : buf.size = r + 2 + nb (h + 1) + (h + 1) + NB + 4 + NB) (hm : (h + 1) % 256 = 0)
    (hb : ∀ i, r ≤ i → buf.data i < 256) (hd : ∀ i, r ≤ i → 13 ≤ buf.data i) :
    writeHead NB T h u buf r = .error (.ub .outOfBounds) := by
  obtain ⟨b, e, e1, e2, l', e3, e4⟩ := Tot_iff.1 (setLength_dirty buf r (h + 1) (by omega) hh (by omega) hm hb
    (fun j _ => hd _ (by omega)))
  unfold writeHead
  rw [e, ok_bind]
  have : HashTable.setName NB b r (u + 1) = .error (.ub .outOfBounds) := by
    unfold HashTable.setName
    rw [e3, ok_bind, Mem.rd_ok _ (by omega), ok_bind, e2]
    obtain ⟨k, rfl⟩ : ∃ k, NB = k + 1 := ⟨NB - 1, by omega⟩
    rw [loopUp]
    unfold Mem.wr
    rw [if_neg (by simp only; omega)]
    rfl
  rw [this]
  rfl

/-- The head record is written outside the buffer, whenever the table of LMS-strings is intact. -/
theorem head_dirty (w : World) {T : Mem Nat} {n j : Nat} (I : Input T n) (hL : LmsLenOK w.junk T.data n) (hS : SortsOK w.sorter)
    (hj : lpos T.data n 0 = j) (hm : (j + 1) % 256 = 0) (hjunk : ∀ i, 13 ≤ w.junk i % 256) (freeT : Bool) :
    bwtString w (some T) n freeT = .error (.ub .outOfBounds) := by
  have hroom := hL.room
  have h3 := I.n3
  have h57 := I.nlt
  obtain ⟨ct, e1, ht, X⟩ := Tot_iff.1 (extractLMS_spec I hL)
  have hhe := headEnd_le X
  have hj' : ct.headEnd = j := by rw [X.headEnd]; exact hj
  obtain ⟨⟨ht2, s2⟩, e2, own, ents, E, strAt, N⟩ := Tot_iff.1 (sortNames_spec I w.junk hroom hS w.pj X)
  simp only [bwtString]
  rw [if_neg (by omega)]
  unfold bwtIs
  rw [e1, ok_bind]
  have : sortLMS w.sorter w.pj w.junk T ct = .error (.ub .outOfBounds) := by
    unfold sortLMS
    rw [X.htab]
    simp only
    rw [e2, ok_bind]
    unfold sortHead
    have hss := N.ssz
    have hbz := N.bsz
    have hnb := N.nbs
    have hbs := N.t2.bufsz
    simp only at hss hbz hnb hbs
    rw [Mem.wr_ok _ _ (by simp only; omega), ok_bind]
    have hh1 := X.hok.nm1
    have hh8 := X.hok.nm8
    simp only
    rw [writeHead_dirty (by omega) (by omega) (by omega) (by omega) (by rw [hj']; exact hm)
      (fun i hi => by have := N.junkd i hi; simp only at this; omega)
      (fun i hi => by have := N.junkd i hi; have := hjunk i; simp only at *; omega)]
    rfl
  rw [this]
  rfl

/-- **C45** (violation of what a user expects) If the head string (the bytes up to and including the first S* position, or
the terminator) has a length that is a multiple of 256 and the bytes `realloc` hands out are 13 or more, `bwt_string` writes
outside the hash table buffer. -/
theorem C45_head_length_256 (w : World) (T : Mem Nat) (s : List Nat) (h3 : 3 ≤ s.length) (h57 : s.length < 2 ^ 57)
    (hb : ∀ c ∈ s, c < 256) (hT : HoldsString T s) (hS : SortsOK w.sorter)
    (hstar : ∀ i j, SStar s i → NextStar s i j → (j - i + 1) % 256 ≠ 0)
    (j : Nat) (hj : NextStar s 0 j) (hm : (j + 1) % 256 = 0)
    (hjunk : ∀ i, 13 ≤ w.junk i % 256) (hroom : enoughFor s.length ≤ w.junk.lim) (freeT : Bool) :
    bwtString w (some T) s.length freeT = .error (.ub .outOfBounds) := by
  have I := hT.input h3 h57 hb (hT.term_lt h3 hb)
  have hL : LmsLenOK w.junk T.data s.length := ⟨hroom, Or.inr (NoOpen.of_lengths fun p hp =>
    hstar p _ ((hT.sstar p).2 hp) ((hT.next ((hT.sstar p).2 hp)).2 rfl))⟩
  exact head_dirty w I hL hS ((hT.first (by omega)).1 hj) hm hjunk freeT

/-! ### Consequences -/

theorem replicate_not_SType (m c i : Nat) : ¬ SType (List.replicate m c) i := by
  unfold SType
  simp only [List.drop_replicate]
  have key : ∀ a : Nat, ¬ List.replicate (a + 1) c < List.replicate a c := by
    intro a
    induction a with
    | zero => simp
    | succ a ih =>
      rw [List.replicate_succ (n := a + 1), List.replicate_succ (n := a), List.cons_lt_cons_iff]
      rintro (h | ⟨_, h⟩)
      · omega
      · exact ih h
  by_cases h : i < m
  · rw [show m - i = (m - (i + 1)) + 1 by omega]; exact key _
  · rw [show m - i = 0 by omega, show m - (i + 1) = 0 by omega]; exact List.lt_irrefl _

/-- **C45** a run of `256 k - 1` equal bytes, for every byte and every `k`: with fresh bytes of 13 or more the call writes
outside the buffer. -/
theorem C45_equal_bytes (w : World) (k c : Nat) (hk : 1 ≤ k) (hc : c < 256) (hn : 256 * k - 1 < 2 ^ 57) (hS : SortsOK w.sorter)
    (hjunk : ∀ i, 13 ≤ w.junk i % 256) (hroom : enoughFor (256 * k - 1) ≤ w.junk.lim) (freeT : Bool) :
    bwtString w (some (cString (List.replicate (256 * k - 1) c))) (256 * k - 1) freeT = .error (.ub .outOfBounds) := by
  have hl : (List.replicate (256 * k - 1) c).length = 256 * k - 1 := List.length_replicate
  have := C45_head_length_256 w (cString (List.replicate (256 * k - 1) c)) (List.replicate (256 * k - 1) c) (by omega) (by omega)
    (fun x hx => by rw [List.eq_of_mem_replicate hx]; exact hc) (cString_holds _) hS
    (fun i j hi _ => absurd hi.2.2.1 (replicate_not_SType _ _ _)) (256 * k - 1)
    ⟨by omega, by omega, Or.inl hl.symm, fun q _ _ hq => absurd hq.2.2.1 (replicate_not_SType _ _ _)⟩ (by omega) hjunk (by rw [hl]; exact hroom) freeT
  rwa [hl] at this

/-- **C45** `bwt_string` depends on uninitialised memory: on `256 k - 1` equal bytes, two environments that differ only in
the bytes `realloc` hands out give the transform in one case and an out-of-bounds write in the other. -/
theorem C45_depends_on_memory (w : World) (k c : Nat) (hk : 1 ≤ k) (hc : c < 256) (hn : 256 * k - 1 < 2 ^ 57)
    (hS : SortsOK w.sorter) (lim : Nat) (hroom : enoughFor (256 * k - 1) ≤ lim) (freeT : Bool) :
    (∃ r T', bwtString { w with junk := ⟨fun _ => 0, lim⟩ } (some (cString (List.replicate (256 * k - 1) c))) (256 * k - 1) freeT =
        .ok (some r, T') ∧ IsBWT (List.replicate (256 * k - 1) c) r.bwt.data r.last) ∧
    bwtString { w with junk := ⟨fun _ => 255, lim⟩ } (some (cString (List.replicate (256 * k - 1) c))) (256 * k - 1) freeT =
      .error (.ub .outOfBounds) := by
  refine ⟨?_, C45_equal_bytes { w with junk := ⟨fun _ => 255, lim⟩ } k c hk hc hn hS (fun _ => by simp) hroom freeT⟩
  have hl : (List.replicate (256 * k - 1) c).length = 256 * k - 1 := List.length_replicate
  obtain ⟨r, T', e, _, h⟩ := C01_bwt_string_correct (T := cString (List.replicate (256 * k - 1) c)) (s := List.replicate (256 * k - 1) c)
    { w with junk := ⟨fun _ => 0, lim⟩ }
    ⟨by omega, by omega, fun x hx => by rw [List.eq_of_mem_replicate hx]; exact hc, cString_holds _, hS, Or.inl (fun _ => rfl),
      by rw [hl]; exact hroom⟩ freeT
  rw [hl] at e
  exact ⟨r, T', e, h⟩

/-- 255 letters "a" with fresh bytes 0xff -/
example : bwtString ⟨⟨fun _ => 255, 40000000⟩, fun _ => 9, fun _ => 5, fun _ => 7, fun _ _ => 1, fun _ _ _ _ => 2, fun _ => 3, 4, insSort⟩
    (some (cString (List.replicate 255 97))) 255 true = .error (.ub .outOfBounds) :=
  C45_equal_bytes _ 1 97 (by decide) (by decide) (by decide) insSort_ok (fun _ => by simp) (by decide) true

end Flbwt
