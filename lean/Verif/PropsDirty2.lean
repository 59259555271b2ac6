import Verif.Dirty

/-!
# Property C91: a valid string that `bwt_string` rejects

The consequence of the defect described in C18 for the strings in the table (C45: for the head record).
-/

namespace Flbwt

open HashTable (ok_bind nb)

/-- **C91** (violation of what a user expects) If the text has exactly one S* position `p`, and the length of its S* substring
(the bytes from `p` to the terminator, both included) is a multiple of 256 but not of 65536, and the bytes `realloc` hands out
are between 1 and 11, `bwt_string` throws `runtime_error`: it does not find the string it has stored itself. -/
theorem C91_valid_string_rejected (w : World) (T : Mem Nat) (s : List Nat) (h3 : 3 ≤ s.length) (h57 : s.length < 2 ^ 57)
    (hb : ∀ c ∈ s, c < 256) (hT : HoldsString T s) (hS : SortsOK w.sorter) (p : Nat) (hp : ∀ q, SStar s q ↔ q = p)
    (hm : (s.length - p + 1) % 256 = 0) (hm2 : (s.length - p + 1) % 65536 ≠ 0) (hhead : (p + 1) % 256 ≠ 0)
    (hjunk : ∀ i, 1 ≤ w.junk i % 256 ∧ w.junk i % 256 ≤ 11) (hroom : enoughFor s.length ≤ w.junk.lim) (freeT : Bool) :
    bwtString w (some T) s.length freeT = .error (.throw .runtimeError) := by
  have I := hT.input h3 h57 hb (hT.term_lt h3 hb)
  have hpl := (hT.sstar p).1 ((hp p).2 rfl)
  have huniq : ∀ q, isLMS T.data s.length q → q = p := fun q hq => (hp q).1 ((hT.sstar q).2 hq)
  have hpn := hpl.2.1
  have hsz := I.size
  obtain ⟨x, hx⟩ : ∃ x, w.junk (1 + nb (s.length - p + 1)) % 256 = x := ⟨_, rfl⟩
  have hx1 := hjunk (1 + nb (s.length - p + 1))
  rw [hx] at hx1
  have hm2' : (s.length - p + 1) / 256 % 256 ≠ 0 := by omega
  have h256 : 256 ≤ s.length - p + 1 := by omega
  have hnb := (setLength_last ⟨1 + nb (s.length - p + 1), fun _ => x⟩ 0 (s.length - p + 1) x (by omega) (by omega) (by simp only; omega)
    hm hm2' (by omega) rfl).1
  obtain ⟨ct, e1, ht, a1, a2, a3, a4, a5, B, a6⟩ := Tot_iff.1 (extract_last (x := x) I hpl huniq hroom hm hm2' (by omega) hx)
  obtain ⟨⟨s2, ct2⟩, e2, ht2, d1, B2, d2, d3⟩ := Tot_iff.1 (sort_last (T := T) (n := s.length) (p := p) I.size hpn h57 hroom hS w.pj a1 a3 a4 a5
    B a6 (by omega) hhead h256 (by omega) hnb)
  simp only at d1 d2 d3
  have e3 := short_last (ct := ct2) I hpl huniq w.tj w.sj d1 (by omega) d3 rfl B2 h256 (by omega) (by omega) hnb a5
  simp only [bwtString]
  rw [if_neg (by omega)]
  unfold bwtIs
  rw [e1, ok_bind, e2, ok_bind]
  simp only
  rw [e3]
  rfl

/-! ### Consequences -/

/-- In `b a c c ... c` with `a < b` and `a < c` the only S* position is that of `a`. -/
theorem sstar_bac {a b c k : Nat} (hab : a < b) (hac : a < c) (hk : 1 ≤ k) (q : Nat) :
    SStar (b :: a :: List.replicate k c) q ↔ q = 1 := by
  have h0 : ¬ SType (b :: a :: List.replicate k c) 0 := by
    unfold SType
    rw [List.drop_zero, List.drop_succ_cons, List.drop_zero, List.cons_lt_cons_iff]
    omega
  have h1 : SType (b :: a :: List.replicate k c) 1 := by
    obtain ⟨j, rfl⟩ : ∃ j, k = j + 1 := ⟨k - 1, by omega⟩
    unfold SType
    rw [List.drop_succ_cons, List.drop_zero, List.drop_succ_cons, List.drop_succ_cons, List.drop_zero, List.replicate_succ,
      List.cons_lt_cons_iff]
    exact Or.inl hac
  have h2 : ∀ i, ¬ SType (b :: a :: List.replicate k c) (i + 2) := by
    intro i h
    exact replicate_not_SType k c i (by unfold SType at h ⊢; simpa only [List.drop_succ_cons] using h)
  constructor
  · rintro ⟨g1, g2, g3, g4⟩
    match q, g1, g3 with
    | 1, _, _ => rfl
    | q + 2, _, g3 => exact absurd g3 (h2 q)
  · rintro rfl
    exact ⟨by omega, by simp, h1, h0⟩

theorem bac_bytes {a b c k : Nat} (hb : b < 256) (hc : c < 256) (hab : a < b) : ∀ x ∈ b :: a :: List.replicate k c, x < 256 := by
  intro x hx
  rcases List.mem_cons.1 hx with rfl | hx
  · exact hb
  · rcases List.mem_cons.1 hx with rfl | hx
    · omega
    · rw [List.eq_of_mem_replicate hx]; exact hc

/-- **C91** the strings `b a c c ... c` (`a < b`, `a < c`) whose length is a multiple of 256 but not of 65536: with fresh
bytes between 1 and 11 every call is rejected. -/
theorem C91_bac (w : World) (a b c n : Nat) (hab : a < b) (hac : a < c) (hb : b < 256) (hc : c < 256) (hn : n < 2 ^ 57)
    (h0 : 0 < n) (hm : n % 256 = 0) (hm2 : n % 65536 ≠ 0) (hS : SortsOK w.sorter)
    (hjunk : ∀ i, 1 ≤ w.junk i % 256 ∧ w.junk i % 256 ≤ 11) (hroom : enoughFor n ≤ w.junk.lim) (freeT : Bool) :
    bwtString w (some (cString (b :: a :: List.replicate (n - 2) c))) n freeT = .error (.throw .runtimeError) := by
  have hl : (b :: a :: List.replicate (n - 2) c).length = n := by
    simp only [List.length_cons, List.length_replicate]; omega
  have := C91_valid_string_rejected w (cString (b :: a :: List.replicate (n - 2) c)) (b :: a :: List.replicate (n - 2) c) (by omega)
    (by omega) (bac_bytes hb hc hab) (cString_holds _) hS 1 (fun q => sstar_bac hab hac (by omega) q)
    (by rw [hl]; omega) (by rw [hl]; omega) (by omega) hjunk (by rw [hl]; exact hroom) freeT
  rwa [hl] at this

/-- **C91** on these strings the outcome depends on uninitialised memory: the transform when the fresh bytes are 0, the
exception when they are `v`, for every `v` from 1 to 11. -/
theorem C91_depends_on_memory (w : World) (a b c n v : Nat) (hab : a < b) (hac : a < c) (hb : b < 256) (hc : c < 256)
    (hn : n < 2 ^ 57) (h0 : 0 < n) (hm : n % 256 = 0) (hm2 : n % 65536 ≠ 0) (hv1 : 1 ≤ v) (hv : v ≤ 11) (hS : SortsOK w.sorter) (lim : Nat)
    (hroom : enoughFor n ≤ lim) (freeT : Bool) :
    (∃ r T', bwtString { w with junk := ⟨fun _ => 0, lim⟩ } (some (cString (b :: a :: List.replicate (n - 2) c))) n freeT =
        .ok (some r, T') ∧ IsBWT (b :: a :: List.replicate (n - 2) c) r.bwt.data r.last) ∧
    bwtString { w with junk := ⟨fun _ => v, lim⟩ } (some (cString (b :: a :: List.replicate (n - 2) c))) n freeT =
      .error (.throw .runtimeError) := by
  refine ⟨?_, C91_bac { w with junk := ⟨fun _ => v, lim⟩ } a b c n hab hac hb hc hn h0 hm hm2 hS (fun _ => by simp only; omega) hroom freeT⟩
  have hl : (b :: a :: List.replicate (n - 2) c).length = n := by
    simp only [List.length_cons, List.length_replicate]; omega
  obtain ⟨r, T', e, _, h⟩ := C01_bwt_string_correct (T := cString (b :: a :: List.replicate (n - 2) c))
    (s := b :: a :: List.replicate (n - 2) c) { w with junk := ⟨fun _ => 0, lim⟩ }
    ⟨by omega, by omega, bac_bytes hb hc hab, cString_holds _, hS, Or.inl (fun _ => rfl), by rw [hl]; exact hroom⟩ freeT
  rw [hl] at e
  exact ⟨r, T', e, h⟩

/-- "ba" and 254 times "c" (256 bytes), fresh bytes 1 -/
example : bwtString ⟨⟨fun _ => 1, 40000000⟩, fun _ => 9, fun _ => 5, fun _ => 7, fun _ _ => 1, fun _ _ _ _ => 2, fun _ => 3, 4, insSort⟩
    (some (cString (98 :: 97 :: List.replicate (256 - 2) 99))) 256 true = .error (.throw .runtimeError) :=
  C91_bac _ 97 98 99 256 (by omega) (by omega) (by omega) (by omega) (by omega) (by omega) (by omega) (by omega) insSort_ok
    (fun _ => by simp) (by decide) true

end Flbwt
